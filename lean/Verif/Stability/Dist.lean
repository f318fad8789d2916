import Verif.Constraint.Truncate
import Mathlib.Data.Multiset.AddSub
import Mathlib.Algebra.Order.Chebyshev
import Mathlib.Algebra.BigOperators.Fin
import Mathlib.Tactic.Linarith

/-!
# Distances between tables

Core's metrics on tables (assumed, from their documentation): `SymmetricDifference` is the number of rows to add and
remove; the grouped metrics sum it, or its square, over the groups.
-/

namespace Verif.Stability

section
variable {α β : Type} [DecidableEq α] [DecidableEq β]

/-- `SymmetricDifference`: the number of rows to add and remove. -/
def rowDist (s t : List α) : ℕ := ((s : Multiset α) - t).card + ((t : Multiset α) - s).card

/-- The rows of a group. -/
def group {K : Type} [DecidableEq K] (key : α → K) (k : K) (t : List α) : List α := t.filter (fun r => decide (key r = k))

/-- The groups of either table. -/
def groupKeys {K : Type} [DecidableEq K] (key : α → K) (s t : List α) : Finset K := (s.map key ++ t.map key).toFinset

/-- `SumOf(SymmetricDifference())` over the groups. -/
def sumDist {K : Type} [DecidableEq K] (key : α → K) (s t : List α) : ℕ :=
  ∑ k ∈ groupKeys key s t, rowDist (group key k s) (group key k t)

/-- The square of `RootSumOfSquared(SymmetricDifference())` over the groups. -/
def sqDist {K : Type} [DecidableEq K] (key : α → K) (s t : List α) : ℕ :=
  ∑ k ∈ groupKeys key s t, rowDist (group key k s) (group key k t) ^ 2

/-! ## Laws -/

theorem rowDist_congr {s s' t t' : List α} (hs : s.Perm s') (ht : t.Perm t') : rowDist s t = rowDist s' t' := by
  unfold rowDist
  rw [Multiset.coe_eq_coe.2 hs, Multiset.coe_eq_coe.2 ht]

theorem rowDist_self (s : List α) : rowDist s s = 0 := by simp [rowDist]

theorem rowDist_comm (s t : List α) : rowDist s t = rowDist t s := Nat.add_comm _ _

theorem rowDist_eq_zero {s t : List α} : rowDist s t = 0 ↔ s.Perm t := by
  constructor
  · intro h
    unfold rowDist at h
    obtain ⟨h1, h2⟩ := Nat.add_eq_zero_iff.1 h
    rw [Multiset.card_eq_zero, tsub_eq_zero_iff_le] at h1 h2
    exact Multiset.coe_eq_coe.1 (le_antisymm h1 h2)
  · intro h
    rw [rowDist_congr h (.refl t), rowDist_self]

/-- Any way of writing two tables with a common part bounds their distance. -/
theorem rowDist_le_of_perm {s t c r a : List α} (hs : s.Perm (c ++ r)) (ht : t.Perm (c ++ a)) :
    rowDist s t ≤ r.length + a.length := by
  rw [rowDist_congr hs ht]
  unfold rowDist
  rw [← Multiset.coe_add, ← Multiset.coe_add, add_tsub_add_eq_tsub_left, add_tsub_add_eq_tsub_left]
  have h1 := Multiset.card_le_card (Multiset.sub_le_self (r : Multiset α) a)
  have h2 := Multiset.card_le_card (Multiset.sub_le_self (a : Multiset α) r)
  simp only [Multiset.coe_card] at h1 h2
  exact Nat.add_le_add h1 h2

/-- Two tables are a common part, with some rows added to each. -/
theorem rowDist_split (s t : List α) : ∃ c r a : List α, s.Perm (c ++ r) ∧ t.Perm (c ++ a) ∧
    rowDist s t = r.length + a.length := by
  have e : ∀ m n : Multiset α, (m ∩ n) + (m - n) = m := fun m n => by
    ext x
    simp only [Multiset.count_add, Multiset.count_inter, Multiset.count_sub]
    omega
  refine ⟨((s : Multiset α) ∩ t).toList, ((s : Multiset α) - t).toList, ((t : Multiset α) - s).toList, ?_, ?_, ?_⟩
  · apply Multiset.coe_eq_coe.1
    rw [← Multiset.coe_add, Multiset.coe_toList, Multiset.coe_toList, e]
  · apply Multiset.coe_eq_coe.1
    rw [← Multiset.coe_add, Multiset.coe_toList, Multiset.coe_toList, Multiset.inter_comm, e]
  · simp [rowDist]

theorem rowDist_append_left (c s t : List α) : rowDist (c ++ s) (c ++ t) = rowDist s t := by
  unfold rowDist
  rw [← Multiset.coe_add, ← Multiset.coe_add, add_tsub_add_eq_tsub_left, add_tsub_add_eq_tsub_left]

theorem rowDist_triangle (s t u : List α) : rowDist s u ≤ rowDist s t + rowDist t u := by
  unfold rowDist
  have h1 := Multiset.card_le_card (tsub_le_tsub_add_tsub (a := (s : Multiset α)) (b := t) (c := u))
  have h2 := Multiset.card_le_card (tsub_le_tsub_add_tsub (a := (u : Multiset α)) (b := t) (c := s))
  rw [Multiset.card_add] at h1 h2
  omega

theorem rowDist_append (s s' t t' : List α) : rowDist (s ++ s') (t ++ t') ≤ rowDist s t + rowDist s' t' := by
  refine (rowDist_triangle _ (s ++ t') _).trans ?_
  rw [rowDist_append_left, rowDist_congr (List.perm_append_comm (l₁ := s)) (List.perm_append_comm (l₁ := t)),
    rowDist_append_left]
  omega

/-- Rows with and without a property are apart separately. -/
theorem rowDist_filter (p : α → Bool) (s t : List α) :
    rowDist s t = rowDist (s.filter p) (t.filter p) + rowDist (s.filter (fun r => !p r)) (t.filter (fun r => !p r)) := by
  have h : ∀ s t : List α, ((s : Multiset α) - t).card = (((s.filter p : List α) : Multiset α) - (t.filter p : List α)).card +
      (((s.filter (fun r => !p r) : List α) : Multiset α) - (t.filter (fun r => !p r) : List α)).card := by
    intro s t
    rw [← Multiset.card_add]
    congr 1
    ext x
    simp only [Multiset.count_add, Multiset.count_sub, Multiset.coe_count]
    cases hp : p x with
    | true =>
      rw [List.count_filter (by simpa using hp), List.count_filter (by simpa using hp),
        List.count_eq_zero_of_not_mem (l := s.filter (fun r => !p r)) (by simp [hp])]
      omega
    | false =>
      rw [List.count_filter (p := fun r => !p r) (by simp [hp]), List.count_filter (p := fun r => !p r) (by simp [hp]),
        List.count_eq_zero_of_not_mem (l := s.filter p) (by simp [hp])]
      omega
  unfold rowDist
  rw [h s t, h t s]
  omega

theorem rowDist_nil (s : List α) : rowDist s [] = s.length := by simp [rowDist]

theorem rowDist_cons (x : α) (s : List α) : rowDist (x :: s) s = 1 := by
  have := rowDist_append_left s [x] []
  rw [List.append_nil, rowDist_nil] at this
  show rowDist ([x] ++ s) s = 1
  rw [rowDist_congr (s' := s ++ [x]) (List.perm_append_comm (l₁ := [x])) (.refl s)]
  exact this

/-- Each row is replaced by at most `k` rows. -/
theorem rowDist_flatMap {F : α → List β} {k : ℕ} {s t : List α} (hs : ∀ r ∈ s, (F r).length ≤ k)
    (ht : ∀ r ∈ t, (F r).length ≤ k) : rowDist (s.flatMap F) (t.flatMap F) ≤ k * rowDist s t := by
  obtain ⟨c, r, a, h1, h2, h3⟩ := rowDist_split s t
  have len : ∀ l : List α, (∀ r ∈ l, (F r).length ≤ k) → (l.flatMap F).length ≤ k * l.length := by
    intro l hl
    induction l with
    | nil => simp
    | cons x l ih =>
      rw [List.flatMap_cons, List.length_append, List.length_cons, Nat.mul_add, Nat.mul_one, Nat.add_comm]
      exact Nat.add_le_add (ih fun r hr => hl r (List.mem_cons_of_mem _ hr)) (hl x List.mem_cons_self)
  refine (rowDist_le_of_perm (c := c.flatMap F) (r := r.flatMap F) (a := a.flatMap F) ?_ ?_).trans ?_
  · exact (h1.flatMap_right F).trans (by rw [List.flatMap_append])
  · exact (h2.flatMap_right F).trans (by rw [List.flatMap_append])
  · rw [h3, Nat.mul_add]
    exact Nat.add_le_add (len r fun x hx => hs x (h1.mem_iff.2 (List.mem_append_right _ hx)))
      (len a fun x hx => ht x (h2.mem_iff.2 (List.mem_append_right _ hx)))

/-- A function of tables that changes by at most `k` rows when a row is added. -/
theorem rowDist_of_single {f : List α → List β} {k : ℕ} (hp : ∀ s t, s.Perm t → (f s).Perm (f t))
    (hf : ∀ x s, rowDist (f (x :: s)) (f s) ≤ k) (s t : List α) : rowDist (f s) (f t) ≤ k * rowDist s t := by
  have path : ∀ (l c : List α), rowDist (f (l ++ c)) (f c) ≤ k * l.length := by
    intro l c
    induction l with
    | nil => simp [rowDist_self]
    | cons x l ih =>
      refine (rowDist_triangle _ (f (l ++ c)) _).trans ?_
      have := hf x (l ++ c)
      rw [List.length_cons, Nat.mul_add, Nat.mul_one]
      exact (Nat.add_le_add this ih).trans (by omega)
  obtain ⟨c, r, a, h1, h2, h3⟩ := rowDist_split s t
  rw [rowDist_congr (hp _ _ (h1.trans List.perm_append_comm)) (hp _ _ (h2.trans List.perm_append_comm)), h3, Nat.mul_add]
  refine (rowDist_triangle _ (f c) _).trans (Nat.add_le_add (path r c) ?_)
  rw [rowDist_comm]
  exact path a c

/-! ## Groups -/

variable {K : Type} [DecidableEq K]

theorem group_nil_of {key : α → K} {k : K} {s : List α} (h : k ∉ s.map key) : group key k s = [] := by
  unfold group
  rw [List.filter_eq_nil_iff]
  intro r hr
  simp only [decide_eq_true_eq]
  intro e
  exact h (e ▸ List.mem_map_of_mem hr)

/-- Sums over the groups may be taken over more groups. -/
theorem sum_groups_eq {key : α → K} {s t : List α} {F : Finset K} (hF : groupKeys key s t ⊆ F) (f : ℕ → ℕ) (h0 : f 0 = 0) :
    ∑ k ∈ groupKeys key s t, f (rowDist (group key k s) (group key k t)) =
      ∑ k ∈ F, f (rowDist (group key k s) (group key k t)) := by
  apply Finset.sum_subset hF
  intro k _ hk
  simp only [groupKeys, List.mem_toFinset, List.mem_append, not_or] at hk
  rw [group_nil_of hk.1, group_nil_of hk.2, rowDist_self, h0]

theorem sum_groups_all (key : α → K) (s t : List α) (F : Finset K) (hF : groupKeys key s t ⊆ F) :
    ∑ k ∈ F, rowDist (group key k s) (group key k t) = rowDist s t := by
  induction F using Finset.induction_on generalizing s t with
  | empty =>
    have : s.map key ++ t.map key = [] := by
      have := Finset.subset_empty.1 hF
      rwa [groupKeys, List.toFinset_eq_empty_iff] at this
    simp only [List.append_eq_nil_iff, List.map_eq_nil_iff] at this
    rw [this.1, this.2]
    simp [rowDist_self]
  | insert k F hk ih =>
    rw [Finset.sum_insert hk, rowDist_filter (fun r => decide (key r = k)) s t]
    congr 1
    rw [← ih (s.filter (fun r => !decide (key r = k))) (t.filter (fun r => !decide (key r = k)))]
    · apply Finset.sum_congr rfl
      intro k' hk'
      have hne : k' ≠ k := fun e => hk (e ▸ hk')
      have : ∀ s : List α, group key k' (s.filter (fun r => !decide (key r = k))) = group key k' s := by
        intro s
        unfold group
        rw [List.filter_filter]
        apply List.filter_congr
        intro r _
        by_cases h : key r = k'
        · simp [h, hne]
        · simp [h]
      rw [this, this]
    · intro x hx
      simp only [groupKeys, List.mem_toFinset, List.mem_append, List.mem_map, List.mem_filter] at hx
      have hx' : x ∈ insert k F ∧ x ≠ k := by
        rcases hx with ⟨r, ⟨hr, hn⟩, rfl⟩ | ⟨r, ⟨hr, hn⟩, rfl⟩
        · exact ⟨hF (by simp only [groupKeys, List.mem_toFinset, List.mem_append]; exact .inl (List.mem_map_of_mem hr)),
            by simpa using hn⟩
        · exact ⟨hF (by simp only [groupKeys, List.mem_toFinset, List.mem_append]; exact .inr (List.mem_map_of_mem hr)),
            by simpa using hn⟩
      exact (Finset.mem_insert.1 hx'.1).resolve_left hx'.2

/-- The sum over the groups is the distance of the tables. -/
theorem sumDist_eq (key : α → K) (s t : List α) : sumDist key s t = rowDist s t :=
  sum_groups_all key s t _ (Finset.Subset.refl _)

/-- Each row is replaced by at most `k` rows of the same group. -/
theorem sqDist_flatMap {key : α → K} {key' : β → K} {F : α → List β} {k : ℕ} {s t : List α}
    (hs : ∀ r ∈ s, (F r).length ≤ k ∧ ∀ x ∈ F r, key' x = key r)
    (ht : ∀ r ∈ t, (F r).length ≤ k ∧ ∀ x ∈ F r, key' x = key r) :
    sqDist key' (s.flatMap F) (t.flatMap F) ≤ k ^ 2 * sqDist key s t := by
  have sub : groupKeys key' (s.flatMap F) (t.flatMap F) ⊆ groupKeys key s t := by
    intro v hv
    simp only [groupKeys, List.mem_toFinset, List.mem_append, List.mem_map, List.mem_flatMap] at hv ⊢
    rcases hv with ⟨x, ⟨r, hr, hx⟩, rfl⟩ | ⟨x, ⟨r, hr, hx⟩, rfl⟩
    · exact .inl ⟨r, hr, ((hs r hr).2 x hx).symm⟩
    · exact .inr ⟨r, hr, ((ht r hr).2 x hx).symm⟩
  have grp : ∀ (l : List α) (v : K), (∀ r ∈ l, ∀ x ∈ F r, key' x = key r) →
      group key' v (l.flatMap F) = (group key v l).flatMap F := by
    intro l v hl
    induction l with
    | nil => rfl
    | cons r l ih =>
      have ih := ih fun r hr => hl r (List.mem_cons_of_mem _ hr)
      have h0 := hl r List.mem_cons_self
      unfold group at ih ⊢
      rw [List.flatMap_cons, List.filter_append, ih]
      by_cases hv : key r = v
      · rw [List.filter_cons_of_pos (by simpa using hv), List.flatMap_cons, List.filter_eq_self.2]
        intro x hx
        simp [h0 x hx, hv]
      · rw [List.filter_cons_of_neg (by simpa using hv), List.filter_eq_nil_iff.2, List.nil_append]
        intro x hx
        simp [h0 x hx, hv]
  unfold sqDist
  rw [sum_groups_eq sub (· ^ 2) rfl, Finset.mul_sum]
  apply Finset.sum_le_sum
  intro v _
  rw [grp s v fun r hr => (hs r hr).2, grp t v fun r hr => (ht r hr).2, ← Nat.mul_pow]
  apply Nat.pow_le_pow_left
  apply rowDist_flatMap
  · exact fun r hr => (hs r (List.mem_of_mem_filter hr)).1
  · exact fun r hr => (ht r (List.mem_of_mem_filter hr)).1

/-- Each row is replaced by at most `k` rows, all in different groups. -/
theorem sqDist_grouping {key : β → K} {F : α → List β} {k : ℕ} {s t : List α}
    (hs : ∀ r ∈ s, (F r).length ≤ k ∧ ((F r).map key).Nodup)
    (ht : ∀ r ∈ t, (F r).length ≤ k ∧ ((F r).map key).Nodup) :
    sqDist key (s.flatMap F) (t.flatMap F) ≤ k * rowDist s t ^ 2 := by
  obtain ⟨c, r, a, h1, h2, h3⟩ := rowDist_split s t
  have hd : ∀ x ∈ r ++ a, (F x).length ≤ k ∧ ((F x).map key).Nodup := by
    intro x hx
    rcases List.mem_append.1 hx with hx | hx
    · exact hs x (h1.mem_iff.2 (List.mem_append_right _ hx))
    · exact ht x (h2.mem_iff.2 (List.mem_append_right _ hx))
  -- the number of changed rows whose replacements meet a group
  have bound : ∀ v, rowDist (group key v (s.flatMap F)) (group key v (t.flatMap F)) ≤
      ((r ++ a).map (fun x => if v ∈ (F x).map key then 1 else 0)).sum := by
    intro v
    have one : ∀ x ∈ r ++ a, (group key v (F x)).length ≤ if v ∈ (F x).map key then 1 else 0 := by
      intro x hx
      split
      · have := List.nodup_iff_count_le_one.1 (hd x hx).2 v
        unfold group
        rw [← List.countP_eq_length_filter]
        rw [List.count_eq_countP, List.countP_map] at this
        refine le_trans (le_of_eq ?_) this
        apply List.countP_congr
        intro y _
        simp
      · next hv => rw [group_nil_of hv]; rfl
    have len : ∀ l : List α, (∀ x ∈ l, x ∈ r ++ a) →
        (group key v (l.flatMap F)).length ≤ (l.map (fun x => if v ∈ (F x).map key then 1 else 0)).sum := by
      intro l hl
      induction l with
      | nil => simp [group]
      | cons x l ih =>
        have e : group key v ((x :: l).flatMap F) = group key v (F x) ++ group key v (l.flatMap F) := by
          simp [group, List.filter_append]
        rw [e, List.length_append, List.map_cons, List.sum_cons]
        exact Nat.add_le_add (one x (hl x List.mem_cons_self)) (ih fun y hy => hl y (List.mem_cons_of_mem _ hy))
    refine (rowDist_le_of_perm (c := group key v (c.flatMap F)) (r := group key v (r.flatMap F))
      (a := group key v (a.flatMap F)) ?_ ?_).trans ?_
    · refine ((h1.flatMap_right F).filter _).trans ?_
      rw [List.flatMap_append, List.filter_append]
      rfl
    · refine ((h2.flatMap_right F).filter _).trans ?_
      rw [List.flatMap_append, List.filter_append]
      rfl
    · rw [List.map_append, List.sum_append]
      exact Nat.add_le_add (len r fun x hx => List.mem_append_left _ hx) (len a fun x hx => List.mem_append_right _ hx)
  -- Cauchy-Schwarz over the changed rows
  have cs : ∀ (l : List α) (f : α → ℕ), (l.map f).sum ^ 2 ≤ l.length * (l.map (fun x => f x ^ 2)).sum := by
    intro l f
    have h := sq_sum_le_card_mul_sum_sq (s := (Finset.univ : Finset (Fin l.length))) (f := fun i => f l[i])
    rw [Finset.card_univ, Fintype.card_fin] at h
    have e : ∀ g : α → ℕ, ∑ i : Fin l.length, g l[i] = (l.map g).sum := by
      intro g
      exact Fin.sum_univ_fun_getElem l g
    rwa [e f, e (fun x => f x ^ 2)] at h
  have swap : ∀ (G : Finset K) (l : List α) (f : K → α → ℕ),
      ∑ v ∈ G, (l.map (f v)).sum = (l.map (fun x => ∑ v ∈ G, f v x)).sum := by
    intro G l f
    induction l with
    | nil => simp
    | cons x l ih => simp only [List.map_cons, List.sum_cons, Finset.sum_add_distrib, ih]
  calc sqDist key (s.flatMap F) (t.flatMap F)
      ≤ ∑ v ∈ groupKeys key (s.flatMap F) (t.flatMap F),
          ((r ++ a).map (fun x => if v ∈ (F x).map key then 1 else 0)).sum ^ 2 :=
        Finset.sum_le_sum fun v _ => Nat.pow_le_pow_left (bound v) 2
    _ ≤ ∑ v ∈ groupKeys key (s.flatMap F) (t.flatMap F),
          (r ++ a).length * ((r ++ a).map (fun x => (if v ∈ (F x).map key then 1 else 0) ^ 2)).sum :=
        Finset.sum_le_sum fun v _ => cs _ _
    _ = (r ++ a).length * ((r ++ a).map (fun x => ∑ v ∈ groupKeys key (s.flatMap F) (t.flatMap F),
          (if v ∈ (F x).map key then 1 else 0) ^ 2)).sum := by
        rw [← Finset.mul_sum, swap]
    _ ≤ (r ++ a).length * ((r ++ a).map (fun _ => k)).sum := by
        apply Nat.mul_le_mul_left
        apply List.sum_le_sum
        intro x hx
        have : ∀ v, (if v ∈ (F x).map key then 1 else 0) ^ 2 = if v ∈ (F x).map key then 1 else 0 := by
          intro v
          split <;> rfl
        simp only [this]
        rw [← Finset.sum_filter, Finset.sum_const, smul_eq_mul, Nat.mul_one]
        calc _ ≤ ((F x).map key).toFinset.card := by
              apply Finset.card_le_card
              intro v hv
              exact List.mem_toFinset.2 (Finset.mem_filter.1 hv).2
          _ ≤ ((F x).map key).length := List.toFinset_card_le _
          _ = (F x).length := List.length_map _
          _ ≤ k := (hd x hx).1
    _ = k * rowDist s t ^ 2 := by
        rw [List.map_const', List.sum_replicate, smul_eq_mul, h3, ← List.length_append]
        ring

end

end Verif.Stability
