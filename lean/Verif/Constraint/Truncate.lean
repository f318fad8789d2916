import Verif.Constraint.Props
import Mathlib.Algebra.BigOperators.Group.Finset.Basic
import Mathlib.Algebra.Order.BigOperators.Group.Finset
import Mathlib.Tactic.Ring

/-!
# Truncation of ID tables: C17, C18, C49, and order independence for C15
-/

namespace Verif.Constraint

open Constraint

variable {K : Type} [DecidableEq K]

/-! ## Enforcement acts on IDs separately -/

theorem dedup_filter {α : Type} [DecidableEq α] (q : α → Bool) (l : List α) :
    l.dedup.filter q = (l.filter q).dedup := by
  induction l with
  | nil => rfl
  | cons a l ih =>
    by_cases ha : a ∈ l
    · rw [List.dedup_cons_of_mem ha, ih]
      by_cases hq : q a
      · rw [List.filter_cons_of_pos hq, List.dedup_cons_of_mem (List.mem_filter.mpr ⟨ha, hq⟩)]
      · rw [List.filter_cons_of_neg hq]
    · rw [List.dedup_cons_of_notMem ha]
      by_cases hq : q a
      · rw [List.filter_cons_of_pos hq, List.filter_cons_of_pos hq, ih,
          List.dedup_cons_of_notMem (fun h => ha (List.mem_of_mem_filter h))]
      · rw [List.filter_cons_of_neg hq, List.filter_cons_of_neg hq, ih]

theorem filter_flatMap_of {α β : Type} (q' : α → Bool) (q : β → Bool) (F : α → List β)
    (hF : ∀ a, ∀ b ∈ F a, q b = q' a) (ks : List α) :
    (ks.flatMap F).filter q = (ks.filter q').flatMap F := by
  induction ks with
  | nil => rfl
  | cons k ks ih =>
    rw [List.flatMap_cons, List.filter_append, ih]
    by_cases hk : q' k
    · rw [List.filter_cons_of_pos hk, List.flatMap_cons, List.filter_eq_self.mpr]
      intro b hb
      rw [hF k b hb, hk]
    · rw [List.filter_cons_of_neg hk, List.filter_eq_nil_iff.mpr, List.nil_append]
      intro b hb
      rw [hF k b hb]
      exact hk

theorem perGroup_filter_id (key : Row → K) (f : Table → Table) (hf : ∀ s, (f s).Subperm s)
    (q : Row → Bool) (q' : K → Bool) (hq : ∀ r, q r = q' (key r)) (t : Table) :
    (perGroup key f t).filter q = perGroup key f (t.filter q) := by
  unfold perGroup
  rw [filter_flatMap_of q' q]
  · have e : (t.filter q).map key = (t.map key).filter q' := by
      rw [List.filter_map]
      congr 1
      apply List.filter_congr
      intro r _
      exact hq r
    rw [e, ← dedup_filter]
    apply List.flatMap_congr
    intro k hk
    have hk' : q' k = true := List.of_mem_filter hk
    rw [List.filter_filter]
    congr 1
    apply List.filter_congr
    intro r _
    by_cases h : key r = k
    · simp [h, hq r, hk']
    · simp [h]
  · intro k r hr
    have hr' := (hf _).subset hr
    have : key r = k := by simpa using List.of_mem_filter hr'
    rw [hq r, this]

/-- Enforcing commutes with selecting a set of IDs. -/
theorem enforce_filter (h : Hash) (id : String) (c : Constraint) (q : Option Value → Bool) (t : Table) :
    (enforce h id c t).filter (fun r => q (Row.get r id)) =
      enforce h id c (t.filter (fun r => q (Row.get r id))) := by
  cases c with
  | maxRowsPerID n => exact perGroup_filter_id _ _ (takeRows_subperm h n) _ q (fun _ => rfl) t
  | maxGroupsPerID c n => exact perGroup_filter_id _ _ (takeKeys_subperm h c n) _ q (fun _ => rfl) t
  | maxRowsPerGroupPerID c n =>
    exact perGroup_filter_id (fun r => (Row.get r id, Row.get r c)) _ (takeRows_subperm h n) _
      (fun p : Option Value × Option Value => q p.1) (fun _ => rfl) t

theorem applyTruncation_filter (h : Hash) (id : String) (tr : Truncation) (q : Option Value → Bool)
    (t : Table) :
    (applyTruncation h id tr t).filter (fun r => q (Row.get r id)) =
      applyTruncation h id tr (t.filter (fun r => q (Row.get r id))) := by
  cases tr with
  | rows n => exact enforce_filter h id (maxRowsPerID n) q t
  | groups col g r =>
    simp only [applyTruncation]
    rw [enforce_filter, enforce_filter]

theorem applyTruncation_subperm (h : Hash) (id : String) (tr : Truncation) (t : Table) :
    (applyTruncation h id tr t).Subperm t := by
  cases tr with
  | rows n => exact enforce_subperm h id (maxRowsPerID n) t
  | groups col g r =>
    exact (enforce_subperm h id (maxRowsPerGroupPerID col r) _).trans
      (enforce_subperm h id (maxGroupsPerID col g) t)

/-! ## Order independence (C15) -/

/-- The hash orders are linear orders (ties are broken by the values themselves). -/
structure Hash.Lawful (h : Hash) : Prop where
  row_total : ∀ a b, h.row a b = true ∨ h.row b a = true
  row_trans : ∀ a b c, h.row a b = true → h.row b c = true → h.row a c = true
  row_antisymm : ∀ a b, h.row a b = true → h.row b a = true → a = b
  key_total : ∀ a b, h.key a b = true ∨ h.key b a = true
  key_trans : ∀ a b c, h.key a b = true → h.key b c = true → h.key a c = true
  key_antisymm : ∀ a b, h.key a b = true → h.key b a = true → a = b

theorem sort_congr {α : Type} (le : α → α → Bool) (ht : ∀ a b, le a b = true ∨ le b a = true)
    (htr : ∀ a b c, le a b = true → le b c = true → le a c = true)
    (ha : ∀ a b, le a b = true → le b a = true → a = b) {s t : List α} (h : s.Perm t) :
    s.insertionSort (fun a b => le a b = true) = t.insertionSort (fun a b => le a b = true) := by
  haveI : Std.Total (fun a b => le a b = true) := ⟨ht⟩
  haveI : IsTrans α (fun a b => le a b = true) := ⟨htr⟩
  exact List.Perm.eq_of_pairwise (fun a b _ _ => ha a b) (List.pairwise_insertionSort _ s)
    (List.pairwise_insertionSort _ t)
    (((List.perm_insertionSort _ s).trans h).trans (List.perm_insertionSort _ t).symm)

theorem perGroup_congr (key : Row → K) {f : Table → Table} (hf : ∀ s, (f s).Subperm s)
    (hc : ∀ s t : Table, s.Perm t → (f s).Perm (f t)) {s t : Table} (h : s.Perm t) :
    (perGroup key f s).Perm (perGroup key f t) := by
  rw [List.perm_iff_count]
  intro a
  rw [count_perGroup key hf, count_perGroup key hf]
  exact (hc _ _ (h.filter _)).count_eq a

/-- **C15** (order). What is kept does not depend on the order of the rows. -/
theorem C15_order_independent (h : Hash) (hl : h.Lawful) (id : String) (c : Constraint) {s t : Table}
    (hp : s.Perm t) : (enforce h id c s).Perm (enforce h id c t) := by
  have hrows : ∀ n, ∀ s t : Table, s.Perm t → (takeRows h n s).Perm (takeRows h n t) := by
    intro n s t hst
    unfold takeRows
    rw [sort_congr h.row hl.row_total hl.row_trans hl.row_antisymm hst]
  cases c with
  | maxRowsPerID n => exact perGroup_congr _ (takeRows_subperm h n) (hrows n) hp
  | maxGroupsPerID c n =>
    refine perGroup_congr _ (takeKeys_subperm h c n) ?_ hp
    intro s t hst
    unfold takeKeys
    simp only
    have hd : (s.map (fun r => Row.get r c)).dedup.Perm (t.map (fun r => Row.get r c)).dedup :=
      (hst.map _).dedup
    rw [sort_congr h.key hl.key_total hl.key_trans hl.key_antisymm hd]
    exact hst.filter _
  | maxRowsPerGroupPerID c n => exact perGroup_congr _ (takeRows_subperm h n) (hrows n) hp

theorem applyTruncation_congr (h : Hash) (hl : h.Lawful) (id : String) (tr : Truncation) {s t : Table}
    (hp : s.Perm t) : (applyTruncation h id tr s).Perm (applyTruncation h id tr t) := by
  cases tr with
  | rows n => exact C15_order_independent h hl id (maxRowsPerID n) hp
  | groups col g r =>
    exact C15_order_independent h hl id (maxRowsPerGroupPerID col r)
      (C15_order_independent h hl id (maxGroupsPerID col g) hp)

/-! ## C17 -/

/-- How much adding or removing the rows `D` moves a grouped table, squared: for zCDP, the root of the sum
over the groups of the squared number of changed rows; otherwise the number of changed rows. -/
def changeSq (m : Measure) (grouping : List String) (D : Table) : Nat :=
  let key : Row → List (Option Value) := fun r => grouping.map (fun c => Row.get r c)
  match m with
  | .zCDP => ∑ k ∈ (D.map key).toFinset, (D.filter (fun r => decide (key r = k))).length ^ 2
  | _ => D.length ^ 2

theorem count_map_key (D : Table) (key : Row → K) (k : K) :
    (D.map key).count k = (D.filter (fun r => decide (key r = k))).length := by
  rw [← List.countP_eq_length_filter, List.count, List.countP_map]
  congr 1

theorem sum_count_sq (D : Table) (key : Row → K) :
    ∑ k ∈ (D.map key).toFinset, (D.filter (fun r => decide (key r = k))).length ^ 2 =
      (D.map (fun x => (D.filter (fun r => decide (key r = key x))).length)).sum := by
  have := Finset.sum_list_map_count (D.map key)
    (fun k => (D.filter (fun r => decide (key r = k))).length)
  rw [List.map_map] at this
  change _ = (D.map ((fun k => (D.filter (fun r => decide (key r = k))).length) ∘ key)).sum
  rw [this]
  apply Finset.sum_congr rfl
  intro k _
  rw [count_map_key, Nat.nsmul_eq_mul, pow_two]

theorem sum_groups (D : Table) (key : Row → K) :
    ∑ k ∈ (D.map key).toFinset, (D.filter (fun r => decide (key r = k))).length = D.length := by
  have := List.sum_toFinset_count_eq_length (D.map key)
  rw [List.length_map] at this
  rw [← this]
  apply Finset.sum_congr rfl
  intro k _
  rw [count_map_key]

theorem length_le_groups {D : Table} {col : String} {g r : Nat}
    (hg : (D.map (fun x => Row.get x col)).dedup.length ≤ g)
    (hr : ∀ w, (D.whereEq col w).length ≤ r) : D.length ≤ g * r := by
  have h2 : (D.map (fun x => Row.get x col)).toFinset.card ≤ g := by
    rw [List.card_toFinset]; exact hg
  rw [← sum_groups D (fun x => Row.get x col)]
  refine le_trans (Finset.sum_le_card_nsmul _ _ r ?_) ?_
  · intro w _
    exact hr w
  · rw [Nat.nsmul_eq_mul]
    exact Nat.mul_le_mul_right r h2

/-- The bounds of a truncation on the rows of one ID. -/
theorem changeSq_le (m : Measure) (grouping : List String) (tr : Truncation) (D : Table)
    (h : match tr with
      | .rows n => D.length ≤ n
      | .groups col g r => (D.map (fun x => Row.get x col)).dedup.length ≤ g ∧
          ∀ w, (D.whereEq col w).length ≤ r) :
    changeSq m grouping D ≤ stabilitySq m grouping tr := by
  have len : changeSq m grouping D ≤ D.length ^ 2 := by
    unfold changeSq
    cases m with
    | zCDP =>
      simp only
      rw [sum_count_sq]
      refine le_trans (List.sum_le_card_nsmul _ D.length ?_) ?_
      · intro x hx
        rw [List.mem_map] at hx
        obtain ⟨k, _, rfl⟩ := hx
        exact List.length_filter_le _ _
      · simp [pow_two]
    | pureDP => exact le_refl _
    | approxDP => exact le_refl _
  cases tr with
  | rows n =>
    simp only at h
    exact le_trans len (Nat.pow_le_pow_left h 2)
  | groups col g r =>
    simp only at h
    obtain ⟨hg, hr⟩ := h
    have hlen := length_le_groups hg hr
    unfold stabilitySq
    simp only
    split
    · exact le_trans len (Nat.pow_le_pow_left hlen 2)
    · rename_i hcond
      push Not at hcond
      obtain ⟨hm1, hm2, hcol⟩ := hcond
      cases m with
      | pureDP => exact absurd rfl hm1
      | approxDP => exact absurd rfl hm2
      | zCDP =>
        unfold changeSq
        simp only
        rw [sum_count_sq]
        refine le_trans (List.sum_le_card_nsmul _ r ?_) ?_
        · intro x hx
          rw [List.mem_map] at hx
          obtain ⟨row, _, rfl⟩ := hx
          refine le_trans (List.Sublist.length_le (List.monotone_filter_right D ?_))
            (hr (Row.get row col))
          intro x hx
          simp only [decide_eq_true_eq] at hx ⊢
          exact List.map_inj_left.mp hx col hcol
        · simp only [List.length_map, Nat.nsmul_eq_mul]
          calc D.length * r ≤ g * r * r := Nat.mul_le_mul_right r hlen
            _ = g * r ^ 2 := by ring

theorem applyTruncation_bounds (h : Hash) (id : String) (tr : Truncation) (t : Table) (v : Option Value) :
    match tr with
      | .rows n => ((applyTruncation h id tr t).whereEq id v).length ≤ n
      | .groups col g r =>
          (((applyTruncation h id tr t).whereEq id v).map (fun x => Row.get x col)).dedup.length ≤ g ∧
          ∀ w, (((applyTruncation h id tr t).whereEq id v).whereEq col w).length ≤ r := by
  cases tr with
  | rows n => exact (C15_enforce h id (maxRowsPerID n) t).1 v
  | groups col g r =>
    have h1 := (C15_enforce h id (maxGroupsPerID col g) t).1
    have h2 := (C15_enforce h id (maxRowsPerGroupPerID col r) (enforce h id (maxGroupsPerID col g) t))
    exact ⟨h2.2.2.1 _ h1 v, h2.1 v⟩

/-- **C17.** Removing all rows of one ID (any number of them) changes the truncated table only by rows of
that ID, and moves the grouped table by no more than the bound of the chosen truncation, which is what the
noise is scaled to. Conversely the table after removal is truncated in the same way. -/
theorem C17_one_id (h : Hash) (order : List String → List String) (m : Measure) (id : String)
    (cs : List Constraint) (grouping : List String) (t : Table) (v : Option Value) (T : Table)
    (hT : truncateTable h order m id cs grouping t = some T) :
    ∃ T' D tr, chooseTruncation m grouping (truncatable order cs) = some tr ∧
      truncateTable h order m id cs grouping (t.filter (fun r => decide (Row.get r id ≠ v))) = some T' ∧
      T.Perm (T' ++ D) ∧ (∀ r ∈ D, Row.get r id = v) ∧
      changeSq m grouping D ≤ stabilitySq m grouping tr := by
  unfold truncateTable at hT ⊢
  cases hc : chooseTruncation m grouping (truncatable order cs) with
  | none => simp [hc] at hT
  | some tr =>
    simp only [hc, Option.map_some, Option.some.injEq] at hT
    subst hT
    refine ⟨_, (applyTruncation h id tr t).whereEq id v, tr, rfl, rfl, ?_, ?_, ?_⟩
    · simp only
      rw [← applyTruncation_filter h id tr (fun x => decide (x ≠ v)) t]
      refine (List.Perm.trans ?_ List.perm_append_comm)
      have := List.filter_append_perm (fun r : Row => decide (Row.get r id = v)) (applyTruncation h id tr t)
      refine this.symm.trans ?_
      unfold Table.whereEq
      apply List.Perm.of_eq
      congr 2
      funext r
      simp
    · intro r hr
      simpa [Table.whereEq] using List.of_mem_filter hr
    · exact changeSq_le m grouping tr _ (applyTruncation_bounds h id tr t v)

/-- **C17** (any neighbour). Two tables that agree up to order outside the rows of `v`: after truncation they
agree up to order outside the rows of `v` too, and each has boundedly many rows of `v`. -/
theorem C17_neighbours (h : Hash) (hl : h.Lawful) (m : Measure) (id : String) (grouping : List String)
    (tr : Truncation) (s t : Table) (v : Option Value)
    (hst : (s.filter (fun r => decide (Row.get r id ≠ v))).Perm
      (t.filter (fun r => decide (Row.get r id ≠ v)))) :
    ∃ C D E, (applyTruncation h id tr s).Perm (C ++ D) ∧ (applyTruncation h id tr t).Perm (C ++ E) ∧
      changeSq m grouping D ≤ stabilitySq m grouping tr ∧
      changeSq m grouping E ≤ stabilitySq m grouping tr ∧
      ∀ r ∈ D ++ E, Row.get r id = v := by
  have split : ∀ u : Table, (applyTruncation h id tr u).Perm
      ((applyTruncation h id tr u).filter (fun r => decide (Row.get r id ≠ v)) ++
        (applyTruncation h id tr u).whereEq id v) := by
    intro u
    refine (List.Perm.trans ?_ List.perm_append_comm)
    refine (List.filter_append_perm (fun r : Row => decide (Row.get r id = v)) _).symm.trans ?_
    unfold Table.whereEq
    apply List.Perm.of_eq
    congr 2
    funext r
    simp
  refine ⟨_, _, _, split s, ((split t).trans (List.Perm.append_right _ ?_)),
    changeSq_le m grouping tr _ (applyTruncation_bounds h id tr s v),
    changeSq_le m grouping tr _ (applyTruncation_bounds h id tr t v), ?_⟩
  · rw [applyTruncation_filter h id tr (fun x => decide (x ≠ v)) t,
      applyTruncation_filter h id tr (fun x => decide (x ≠ v)) s]
    exact applyTruncation_congr h hl id tr hst.symm
  · intro r hr
    rw [List.mem_append] at hr
    rcases hr with hr | hr <;> simpa [Table.whereEq] using List.of_mem_filter hr

/-! ## C18 -/

/-- A truncation is available if its constraints are declared. -/
def Available (cs : List Constraint) : Truncation → Prop
  | .rows n => maxRowsPerID n ∈ cs
  | .groups col g r => maxGroupsPerID col g ∈ cs ∧ maxRowsPerGroupPerID col r ∈ cs

theorem firstRows_mem {cs : List Constraint} {n : Nat} (h : firstRows cs = some n) :
    maxRowsPerID n ∈ cs := by
  induction cs with
  | nil => simp [firstRows] at h
  | cons c cs ih =>
    cases c with
    | maxRowsPerID k => simp only [firstRows, Option.some.injEq] at h; simp [h]
    | maxGroupsPerID k m => simp only [firstRows] at h; simp [ih h]
    | maxRowsPerGroupPerID k m => simp only [firstRows] at h; simp [ih h]

theorem firstRows_isSome {cs : List Constraint} {n : Nat} (h : maxRowsPerID n ∈ cs) :
    ∃ k, firstRows cs = some k := by
  induction cs with
  | nil => simp at h
  | cons c cs ih =>
    rw [List.mem_cons] at h
    cases c with
    | maxRowsPerID k => exact ⟨k, rfl⟩
    | maxGroupsPerID k m => exact ih (by simpa using h)
    | maxRowsPerGroupPerID k m => exact ih (by simpa using h)

theorem lastGroups_aux (col : String) (cs : List Constraint) (acc : Option Nat) :
    (∀ g, cs.foldl (fun acc c => match c with
      | maxGroupsPerID k n => if k = col then some n else acc
      | _ => acc) acc = some g → acc = some g ∨ maxGroupsPerID col g ∈ cs) ∧
    ((acc.isSome ∨ ∃ g, maxGroupsPerID col g ∈ cs) → (cs.foldl (fun acc c => match c with
      | maxGroupsPerID k n => if k = col then some n else acc
      | _ => acc) acc).isSome) := by
  induction cs generalizing acc with
  | nil => simp
  | cons c cs ih =>
    simp only [List.foldl_cons, List.mem_cons]
    cases c with
    | maxRowsPerID k => simpa using ih acc
    | maxRowsPerGroupPerID k m => simpa using ih acc
    | maxGroupsPerID k m =>
      simp only [maxGroupsPerID.injEq]
      by_cases hk : k = col
      · subst hk
        simp only [if_true]
        obtain ⟨h1, h2⟩ := ih (some m)
        refine ⟨?_, fun _ => h2 (Or.inl rfl)⟩
        intro g hg
        rcases h1 g hg with h | h
        · right; left; simpa using h.symm
        · right; right; exact h
      · simp only [hk, if_false]
        have hk' : ¬ col = k := fun h => hk h.symm
        simpa [hk'] using ih acc

theorem lastRpg_aux (col : String) (cs : List Constraint) (acc : Option Nat) :
    (∀ g, cs.foldl (fun acc c => match c with
      | maxRowsPerGroupPerID k n => if k = col then some n else acc
      | _ => acc) acc = some g → acc = some g ∨ maxRowsPerGroupPerID col g ∈ cs) ∧
    ((acc.isSome ∨ ∃ g, maxRowsPerGroupPerID col g ∈ cs) → (cs.foldl (fun acc c => match c with
      | maxRowsPerGroupPerID k n => if k = col then some n else acc
      | _ => acc) acc).isSome) := by
  induction cs generalizing acc with
  | nil => simp
  | cons c cs ih =>
    simp only [List.foldl_cons, List.mem_cons]
    cases c with
    | maxRowsPerID k => simpa using ih acc
    | maxGroupsPerID k m => simpa using ih acc
    | maxRowsPerGroupPerID k m =>
      simp only [maxRowsPerGroupPerID.injEq]
      by_cases hk : k = col
      · subst hk
        simp only [if_true]
        obtain ⟨h1, h2⟩ := ih (some m)
        refine ⟨?_, fun _ => h2 (Or.inl rfl)⟩
        intro g hg
        rcases h1 g hg with h | h
        · right; left; simpa using h.symm
        · right; right; exact h
      · simp only [hk, if_false]
        have hk' : ¬ col = k := fun h => hk h.symm
        simpa [hk'] using ih acc

theorem unique_of_kind {cs : List Constraint} (hn : (cs.map kind).Nodup) {a b : Constraint}
    (ha : a ∈ cs) (hb : b ∈ cs) (hk : kind a = kind b) : a = b :=
  List.inj_on_of_nodup_map hn ha hb hk

theorem mem_truncatable {order : List String → List String} (ho : ∀ l, (order l).Perm l)
    {cs : List Constraint} (hn : (cs.map kind).Nodup) (tr : Truncation) :
    tr ∈ truncatable order cs ↔ Available cs tr := by
  unfold truncatable
  rw [List.mem_append, List.mem_filterMap]
  cases tr with
  | rows n =>
    simp only [Available]
    constructor
    · rintro (⟨col, _, h⟩ | h)
      · split at h <;> simp at h
      · cases hf : firstRows cs with
        | none => simp [hf] at h
        | some k =>
          simp only [hf, List.mem_singleton, Truncation.rows.injEq] at h
          subst h
          exact firstRows_mem hf
    · intro h
      right
      obtain ⟨k, hk⟩ := firstRows_isSome h
      have := unique_of_kind hn h (firstRows_mem hk) rfl
      simp only [maxRowsPerID.injEq] at this
      subst this
      simp [hk]
  | groups col g r =>
    simp only [Available]
    constructor
    · rintro (⟨col', _, h⟩ | h)
      · cases hg : lastGroups col' cs with
        | none => simp [hg] at h
        | some g' =>
          cases hr : lastRowsPerGroup col' cs with
          | none => simp [hg, hr] at h
          | some r' =>
            simp only [hg, hr, Option.some.injEq, Truncation.groups.injEq] at h
            obtain ⟨rfl, rfl, rfl⟩ := h
            have h1 := (lastGroups_aux col' cs none).1 g' hg
            have h2 := (lastRpg_aux col' cs none).1 r' hr
            simp only [reduceCtorEq, false_or] at h1 h2
            exact ⟨h1, h2⟩
      · cases hf : firstRows cs <;> simp [hf] at h
    · rintro ⟨h1, h2⟩
      left
      refine ⟨col, ?_, ?_⟩
      · rw [(ho _).mem_iff, List.mem_dedup, groupCols, List.mem_filterMap]
        exact ⟨_, h1, rfl⟩
      · have s1 := (lastGroups_aux col cs none).2 (Or.inr ⟨g, h1⟩)
        have s2 := (lastRpg_aux col cs none).2 (Or.inr ⟨r, h2⟩)
        change (lastGroups col cs).isSome at s1
        change (lastRowsPerGroup col cs).isSome at s2
        rw [Option.isSome_iff_exists] at s1 s2
        obtain ⟨g', hg⟩ := s1
        obtain ⟨r', hr⟩ := s2
        have m1 := (lastGroups_aux col cs none).1 g' hg
        have m2 := (lastRpg_aux col cs none).1 r' hr
        simp only [reduceCtorEq, false_or] at m1 m2
        have e1 := unique_of_kind hn h1 m1 rfl
        have e2 := unique_of_kind hn h2 m2 rfl
        simp only [maxGroupsPerID.injEq, true_and] at e1
        simp only [maxRowsPerGroupPerID.injEq, true_and] at e2
        subst e1 e2
        simp [hg, hr]

theorem choose_spec (m : Measure) (grouping : List String) (xs : List Truncation) (x : Truncation) :
    let b := xs.foldl (fun best y =>
      if stabilitySq m grouping y < stabilitySq m grouping best then y else best) x
    (b = x ∨ b ∈ xs) ∧ stabilitySq m grouping b ≤ stabilitySq m grouping x ∧
      ∀ y ∈ xs, stabilitySq m grouping b ≤ stabilitySq m grouping y := by
  induction xs generalizing x with
  | nil => simp
  | cons y ys ih =>
    simp only [List.foldl_cons, List.mem_cons, forall_eq_or_imp]
    split
    · rename_i hlt
      obtain ⟨h1, h2, h3⟩ := ih y
      refine ⟨?_, by omega, h2, h3⟩
      rcases h1 with h | h
      · right; left; exact h
      · right; right; exact h
    · rename_i hlt
      obtain ⟨h1, h2, h3⟩ := ih x
      refine ⟨?_, h2, by omega, h3⟩
      rcases h1 with h | h
      · left; exact h
      · right; right; exact h

/-- **C18.** Whatever constraints were declared (before simplification, in any order, and however Python
iterates its sets): if some combination bounds the contribution of an ID, the truncation used is one of the
tightest simplified combinations and has the least cost of all; otherwise there is no answer. -/
theorem C18_cheapest (order : List String → List String) (ho : ∀ l, (order l).Perm l) (m : Measure)
    (grouping : List String) (cs : List Constraint) :
    (∀ tr, chooseTruncation m grouping (truncatable order (simplify cs)) = some tr →
      Available (simplify cs) tr ∧
      ∀ tr', Available (simplify cs) tr' → stabilitySq m grouping tr ≤ stabilitySq m grouping tr') ∧
    (chooseTruncation m grouping (truncatable order (simplify cs)) = none ↔
      ∀ tr, ¬ Available (simplify cs) tr) := by
  have hn := (C14_simplify cs).2.1
  have hm := mem_truncatable ho hn
  cases hl : truncatable order (simplify cs) with
  | nil =>
    rw [hl] at hm
    simp only [chooseTruncation, reduceCtorEq, false_implies, implies_true, true_and, true_iff]
    intro tr h
    simpa using (hm tr).mpr h
  | cons x xs =>
    rw [hl] at hm
    obtain ⟨h1, h2, h3⟩ := choose_spec m grouping xs x
    constructor
    · intro tr htr
      simp only [chooseTruncation, Option.some.injEq] at htr
      subst htr
      refine ⟨(hm _).mp ?_, ?_⟩
      · rw [List.mem_cons]; exact h1
      · intro tr' ht'
        have := (hm tr').mpr ht'
        rw [List.mem_cons] at this
        rcases this with rfl | h
        · exact h2
        · exact h3 _ h
    · simp only [chooseTruncation, reduceCtorEq, false_iff, not_forall, not_not]
      exact ⟨x, (hm x).mp (by simp)⟩

theorem insertMin_has (d : List (String × Nat)) (c : String) (m : Nat) (k : String) :
    (∃ n, (k, n) ∈ insertMin d c m) ↔ k = c ∨ ∃ n, (k, n) ∈ d := by
  have key : ∀ l : List (String × Nat), (∃ n, (k, n) ∈ l) ↔ k ∈ l.map Prod.fst := by
    intro l
    rw [List.mem_map]
    constructor
    · rintro ⟨n, h⟩; exact ⟨_, h, rfl⟩
    · rintro ⟨⟨k', n⟩, h, rfl⟩; exact ⟨n, h⟩
  rw [key, key, insertMin_keys]
  split
  · rename_i h
    constructor
    · exact Or.inr
    · rintro (rfl | h')
      · exact h
      · exact h'
  · rw [List.mem_append, List.mem_singleton, or_comm]

/-- The kinds of constraints survive simplification. -/
theorem simplify_kinds (cs : List Constraint) (k : Nat × String) :
    k ∈ (simplify cs).map kind ↔ k ∈ cs.map kind := by
  have aux : ∀ (cs : List Constraint) (b : Buckets), k ∈ ((cs.foldl collect b).toList).map kind ↔
      k ∈ cs.map kind ∨ k ∈ b.toList.map kind := by
    have one : ∀ (b : Buckets), k ∈ b.toList.map kind ↔
        (k = (0, "") ∧ b.rows ≠ []) ∨ (k.1 = 1 ∧ ∃ n, (k.2, n) ∈ b.groups) ∨
        (k.1 = 2 ∧ ∃ n, (k.2, n) ∈ b.rowsPerGroup) := by
      intro b
      unfold Buckets.toList
      rw [List.map_append, List.map_append, List.mem_append, List.mem_append, or_assoc]
      apply or_congr
      · cases hb : b.rows with
        | nil => simp [minList]
        | cons x xs => simp [minList, kind]
      · apply or_congr
        · simp only [List.map_map, List.mem_map, Function.comp_apply, kind]
          constructor
          · rintro ⟨⟨c, n⟩, h, rfl⟩; exact ⟨rfl, n, h⟩
          · rintro ⟨h1, n, h⟩; exact ⟨_, h, by rw [← h1]⟩
        · simp only [List.map_map, List.mem_map, Function.comp_apply, kind]
          constructor
          · rintro ⟨⟨c, n⟩, h, rfl⟩; exact ⟨rfl, n, h⟩
          · rintro ⟨h1, n, h⟩; exact ⟨_, h, by rw [← h1]⟩
    intro cs
    induction cs with
    | nil => intro b; simp
    | cons c cs ih =>
      intro b
      rw [List.foldl_cons, ih, List.map_cons, List.mem_cons, one, one]
      obtain ⟨k1, k2⟩ := k
      cases c with
      | maxRowsPerID m =>
        have : b.rows ++ [m] ≠ [] := by simp
        simp only [collect, kind, ne_eq, this, not_false_eq_true, and_true]
        tauto
      | maxGroupsPerID c m =>
        simp only [collect, kind, insertMin_has, Prod.mk.injEq]
        tauto
      | maxRowsPerGroupPerID c m =>
        simp only [collect, kind, insertMin_has, Prod.mk.injEq]
        tauto
  rw [simplify_eq, aux]
  simp [Buckets.toList, minList]

/-- **C18** (when an answer exists). An ID table can be truncated iff a row bound per ID was declared, or for
some column both a bound on the groups per ID and a bound on the rows per group. -/
theorem C18_answerable (h : Hash) (order : List String → List String) (ho : ∀ l, (order l).Perm l)
    (m : Measure) (id : String) (grouping : List String) (cs : List Constraint) (t : Table) :
    (truncateTable h order m id (simplify cs) grouping t).isSome ↔
      (∃ n, maxRowsPerID n ∈ cs) ∨
      ∃ col, (∃ g, maxGroupsPerID col g ∈ cs) ∧ (∃ r, maxRowsPerGroupPerID col r ∈ cs) := by
  have k0 : ∀ l : List Constraint, (0, "") ∈ l.map kind ↔ ∃ n, maxRowsPerID n ∈ l := by
    intro l
    rw [List.mem_map]
    constructor
    · rintro ⟨c, hc, hk⟩
      cases c with
      | maxRowsPerID n => exact ⟨n, hc⟩
      | maxGroupsPerID _ _ => simp [kind] at hk
      | maxRowsPerGroupPerID _ _ => simp [kind] at hk
    · rintro ⟨n, h⟩; exact ⟨_, h, rfl⟩
  have k1 : ∀ (l : List Constraint) col, (1, col) ∈ l.map kind ↔ ∃ n, maxGroupsPerID col n ∈ l := by
    intro l col
    rw [List.mem_map]
    constructor
    · rintro ⟨c, hc, hk⟩
      cases c with
      | maxRowsPerID n => simp [kind] at hk
      | maxGroupsPerID _ _ => simp only [kind, Prod.mk.injEq, true_and] at hk; exact ⟨_, hk ▸ hc⟩
      | maxRowsPerGroupPerID _ _ => simp [kind] at hk
    · rintro ⟨n, h⟩; exact ⟨_, h, rfl⟩
  have k2 : ∀ (l : List Constraint) col, (2, col) ∈ l.map kind ↔
      ∃ n, maxRowsPerGroupPerID col n ∈ l := by
    intro l col
    rw [List.mem_map]
    constructor
    · rintro ⟨c, hc, hk⟩
      cases c with
      | maxRowsPerID n => simp [kind] at hk
      | maxGroupsPerID _ _ => simp [kind] at hk
      | maxRowsPerGroupPerID _ _ =>
        simp only [kind, Prod.mk.injEq, true_and] at hk; exact ⟨_, hk ▸ hc⟩
    · rintro ⟨n, h⟩; exact ⟨_, h, rfl⟩
  have main := (C18_cheapest order ho m grouping cs).2
  have : (truncateTable h order m id (simplify cs) grouping t).isSome ↔
      ∃ tr, Available (simplify cs) tr := by
    unfold truncateTable
    rw [Option.isSome_map, ← not_iff_not, not_exists, ← main]
    simp
  rw [this, ← k0, ← simplify_kinds cs, k0]
  constructor
  · rintro ⟨tr, htr⟩
    cases tr with
    | rows n => exact Or.inl ⟨n, htr⟩
    | groups col g r =>
      right
      refine ⟨col, ?_, ?_⟩
      · rw [← k1, ← simplify_kinds, k1]; exact ⟨g, htr.1⟩
      · rw [← k2, ← simplify_kinds, k2]; exact ⟨r, htr.2⟩
  · rintro (⟨n, h⟩ | ⟨col, h1, h2⟩)
    · exact ⟨.rows n, h⟩
    · rw [← k1, ← simplify_kinds, k1] at h1
      rw [← k2, ← simplify_kinds, k2] at h2
      obtain ⟨g, hg⟩ := h1
      obtain ⟨r, hr⟩ := h2
      exact ⟨.groups col g r, hg, hr⟩

/-! ## C49 -/

theorem length_eq_dedup_of_sat_one {id : String} {s : Table}
    (h : ∀ v, (s.whereEq id v).length ≤ 1) :
    s.length = (s.map (fun r => Row.get r id)).dedup.length := by
  have : (s.map (fun r => Row.get r id)).Nodup := by
    rw [List.nodup_iff_count_le_one]
    intro v
    have := count_map_key s (fun r => Row.get r id) v
    exact le_trans (le_of_eq (by convert this; rfl)) (h v)
  rw [this.dedup, List.length_map]

theorem whereEq_comm (t : Table) (a b : String) (v w : Option Value) :
    (t.whereEq a v).whereEq b w = (t.whereEq b w).whereEq a v := by
  unfold Table.whereEq
  rw [List.filter_filter, List.filter_filter]
  apply List.filter_congr
  intro r _
  rw [Bool.and_comm]

/-- Enforcing a positive row bound keeps every ID (of every group). -/
theorem enforce_keeps_ids (h : Hash) (id : String) (t : Table) (n : Nat) (v : Option Value) :
    v ∈ (enforce h id (maxRowsPerID (n + 1)) t).map (fun r => Row.get r id) ↔
      v ∈ t.map (fun r => Row.get r id) := by
  have hp := perGroup_filter (fun r => Row.get r id) (takeRows_subperm h (n + 1)) t v
  constructor
  · intro hv
    rw [List.mem_map] at hv ⊢
    obtain ⟨r, hr, rfl⟩ := hv
    exact ⟨r, (enforce_subperm h id _ t).subset hr, rfl⟩
  · intro hv
    rw [List.mem_map] at hv
    obtain ⟨r, hr, rfl⟩ := hv
    have hpos : 0 < (t.filter (fun x => decide (Row.get x id = Row.get r id))).length :=
      List.length_pos_of_mem (List.mem_filter.mpr ⟨hr, by simp⟩)
    have hl := hp.length_eq
    rw [takeRows, List.length_take, List.length_insertionSort] at hl
    have : 0 < ((perGroup (fun r => Row.get r id) (takeRows h (n + 1)) t).filter
        (fun x => decide (Row.get x id = Row.get r id))).length := by omega
    obtain ⟨x, hx⟩ := List.exists_mem_of_length_pos this
    rw [List.mem_filter] at hx
    rw [List.mem_map]
    exact ⟨x, hx.1, by simpa using hx.2⟩

theorem enforce_rpg_keeps_ids (h : Hash) (id col : String) (t : Table) (n : Nat) (v w : Option Value) :
    v ∈ ((enforce h id (maxRowsPerGroupPerID col (n + 1)) t).whereEq col w).map
        (fun r => Row.get r id) ↔
      v ∈ (t.whereEq col w).map (fun r => Row.get r id) := by
  have hp := perGroup_filter (fun r => (Row.get r id, Row.get r col)) (takeRows_subperm h (n + 1)) t
    (v, w)
  constructor
  · intro hv
    rw [List.mem_map] at hv ⊢
    obtain ⟨r, hr, rfl⟩ := hv
    exact ⟨r, (whereEq_subperm (enforce_subperm h id _ t) col w).subset hr, rfl⟩
  · intro hv
    rw [List.mem_map] at hv
    obtain ⟨r, hr, rfl⟩ := hv
    unfold Table.whereEq at hr
    rw [List.mem_filter] at hr
    have hw : Row.get r col = w := by simpa using hr.2
    have hpos : 0 < (t.filter
        (fun x => decide ((Row.get x id, Row.get x col) = (Row.get r id, w)))).length :=
      List.length_pos_of_mem (List.mem_filter.mpr ⟨hr.1, by simp [hw]⟩)
    have hl := hp.length_eq
    rw [takeRows, List.length_take, List.length_insertionSort] at hl
    have : 0 < ((perGroup (fun r => (Row.get r id, Row.get r col)) (takeRows h (n + 1)) t).filter
        (fun x => decide ((Row.get x id, Row.get x col) = (Row.get r id, w)))).length := by omega
    obtain ⟨x, hx⟩ := List.exists_mem_of_length_pos this
    rw [List.mem_filter] at hx
    have hx2 : Row.get x id = Row.get r id ∧ Row.get x col = w := by simpa using hx.2
    rw [List.mem_map]
    refine ⟨x, ?_, hx2.1⟩
    unfold Table.whereEq
    exact List.mem_filter.mpr ⟨hx.1, by simpa using hx2.2⟩

/-- **C49.** When `count_distinct` of the ID column is answered by a plain count after enforcing a
constraint, the count is the number of distinct IDs: for the ungrouped query the number in the original
table, and for a grouped one the number in each group. Whatever truncation is applied after that, the plain
count is still the number of distinct IDs in each group of the truncated table. -/
theorem C49_shortcut (h : Hash) (id : String) (toCount groupby : List String) (cs : List Constraint)
    (c : Constraint) (hc : countDistinctShortcut id toCount groupby cs = some c) (t : Table) :
    (∀ x ∈ toCount, x = id) ∧
    (groupby = [] ∧
      (enforce h id c t).length = (t.map (fun r => Row.get r id)).dedup.length ∧
      (∀ tr, (applyTruncation h id tr (enforce h id c t)).length =
        ((applyTruncation h id tr (enforce h id c t)).map (fun r => Row.get r id)).dedup.length) ∨
     ∃ g, groupby = [g] ∧
      (∀ w, ((enforce h id c t).whereEq g w).length =
        ((t.whereEq g w).map (fun r => Row.get r id)).dedup.length) ∧
      (∀ tr w, ((applyTruncation h id tr (enforce h id c t)).whereEq g w).length =
        (((applyTruncation h id tr (enforce h id c t)).whereEq g w).map
          (fun r => Row.get r id)).dedup.length)) := by
  unfold countDistinctShortcut at hc
  split at hc
  · simp at hc
  · rename_i hid
    push Not at hid
    refine ⟨hid.2, ?_⟩
    split at hc
    · left
      simp only [Option.some.injEq] at hc
      subst hc
      have hs := (C15_enforce h id (maxRowsPerID 1) t).1
      refine ⟨rfl, ?_, ?_⟩
      · rw [length_eq_dedup_of_sat_one hs]
        apply List.Perm.length_eq
        rw [List.perm_ext_iff_of_nodup (List.nodup_dedup _) (List.nodup_dedup _)]
        intro v
        rw [List.mem_dedup, List.mem_dedup]
        exact enforce_keeps_ids h id t 0 v
      · intro tr
        exact length_eq_dedup_of_sat_one (Sat.of_subperm (c := maxRowsPerID 1)
          (applyTruncation_subperm h id tr _) hs)
    · rename_i g
      right
      split at hc
      · simp only [Option.some.injEq] at hc
        subst hc
        have hs := (C15_enforce h id (maxRowsPerGroupPerID g 1) t).1
        refine ⟨g, rfl, ?_, ?_⟩
        · intro w
          rw [length_eq_dedup_of_sat_one (id := id) (fun v => by
            rw [whereEq_comm]; exact hs v w)]
          apply List.Perm.length_eq
          rw [List.perm_ext_iff_of_nodup (List.nodup_dedup _) (List.nodup_dedup _)]
          intro v
          rw [List.mem_dedup, List.mem_dedup]
          exact enforce_rpg_keeps_ids h id g t 0 v w
        · intro tr w
          have hs' := Sat.of_subperm (applyTruncation_subperm h id tr _) hs
          exact length_eq_dedup_of_sat_one (fun v => by
            rw [whereEq_comm]; exact hs' v w)
      · simp at hc
    · simp at hc

end Verif.Constraint
