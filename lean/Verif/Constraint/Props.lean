import Verif.Constraint.Model
import Mathlib.Data.List.Perm.Subperm
import Mathlib.Data.List.Count
import Mathlib.Tactic.Linarith
import Mathlib.Algebra.BigOperators.Group.List.Basic
import Mathlib.Algebra.Order.BigOperators.Group.List

/-!
# Constraints: C14, C15, C17, C18, C49
-/

namespace Verif.Constraint

open Constraint

/-! ## Specification: what a constraint says about a table -/

/-- The table satisfies the constraint; `id` is the ID column. -/
def Sat (id : String) : Constraint → Table → Prop
  | maxRowsPerID n, t => ∀ v, (t.whereEq id v).length ≤ n
  | maxGroupsPerID c n, t => ∀ v, ((t.whereEq id v).map (fun r => Row.get r c)).dedup.length ≤ n
  | maxRowsPerGroupPerID c n, t => ∀ v w, ((t.whereEq id v).whereEq c w).length ≤ n

/-! ## C14 -/

theorem Sat.mono_rows {id : String} {t : Table} {m n : Nat} (h : m ≤ n) :
    Sat id (maxRowsPerID m) t → Sat id (maxRowsPerID n) t := fun hs v => le_trans (hs v) h

theorem Sat.mono_groups {id c : String} {t : Table} {m n : Nat} (h : m ≤ n) :
    Sat id (maxGroupsPerID c m) t → Sat id (maxGroupsPerID c n) t := fun hs v => le_trans (hs v) h

theorem Sat.mono_rpg {id c : String} {t : Table} {m n : Nat} (h : m ≤ n) :
    Sat id (maxRowsPerGroupPerID c m) t → Sat id (maxRowsPerGroupPerID c n) t :=
  fun hs v w => le_trans (hs v w) h

theorem forall_insertMin {Q : String × Nat → Prop} (hQ : ∀ c m n, m ≤ n → Q (c, m) → Q (c, n))
    (d : List (String × Nat)) (c : String) (m : Nat) :
    (∀ p ∈ insertMin d c m, Q p) ↔ (∀ p ∈ d, Q p) ∧ Q (c, m) := by
  induction d with
  | nil => simp [insertMin]
  | cons p rest ih =>
    obtain ⟨k, v⟩ := p
    unfold insertMin
    split
    · rename_i hk
      subst hk
      simp only [List.forall_mem_cons]
      split
      · rename_i hv
        constructor
        · rintro ⟨h1, h2⟩
          exact ⟨⟨hQ _ _ _ (le_of_lt hv) h1, h2⟩, h1⟩
        · rintro ⟨⟨_, h2⟩, h1⟩
          exact ⟨h1, h2⟩
      · rename_i hv
        constructor
        · rintro ⟨h1, h2⟩
          exact ⟨⟨h1, h2⟩, hQ _ _ _ (not_lt.mp hv) h1⟩
        · rintro ⟨⟨h1, h2⟩, _⟩
          exact ⟨h1, h2⟩
    · simp only [List.forall_mem_cons, ih]
      tauto

theorem foldl_min_le (xs : List Nat) (x : Nat) : xs.foldl min x ≤ x ∧ ∀ y ∈ xs, xs.foldl min x ≤ y := by
  induction xs generalizing x with
  | nil => simp
  | cons z zs ih =>
    simp only [List.foldl_cons, List.mem_cons, forall_eq_or_imp]
    obtain ⟨h1, h2⟩ := ih (min x z)
    exact ⟨le_trans h1 (min_le_left _ _), le_trans h1 (min_le_right _ _), h2⟩

theorem foldl_min_mem (xs : List Nat) (x : Nat) : xs.foldl min x = x ∨ xs.foldl min x ∈ xs := by
  induction xs generalizing x with
  | nil => simp
  | cons z zs ih =>
    simp only [List.foldl_cons, List.mem_cons]
    rcases ih (min x z) with h | h
    · rcases min_choice x z with h' | h'
      · left; rw [h, h']
      · right; left; rw [h, h']
    · exact Or.inr (Or.inr h)

theorem minList_iff {Q : Nat → Prop} (hQ : ∀ m n, m ≤ n → Q m → Q n) (l : List Nat) :
    (∀ m, minList l = some m → Q m) ↔ ∀ m ∈ l, Q m := by
  cases l with
  | nil => simp [minList]
  | cons x xs =>
    simp only [minList, Option.some.injEq, forall_eq']
    obtain ⟨h1, h2⟩ := foldl_min_le xs x
    constructor
    · intro h m hm
      rw [List.mem_cons] at hm
      rcases hm with rfl | hm
      · exact hQ _ _ h1 h
      · exact hQ _ _ (h2 m hm) h
    · intro h
      rcases foldl_min_mem xs x with he | he
      · rw [he]; exact h x (by simp)
      · exact h _ (by simp [he])

/-- All constraints described by the buckets hold. -/
def Buckets.Holds (id : String) (t : Table) (b : Buckets) : Prop :=
  (∀ m ∈ b.rows, Sat id (maxRowsPerID m) t) ∧
  (∀ p ∈ b.groups, Sat id (maxGroupsPerID p.1 p.2) t) ∧
  (∀ p ∈ b.rowsPerGroup, Sat id (maxRowsPerGroupPerID p.1 p.2) t)

theorem collect_holds (id : String) (t : Table) (b : Buckets) (c : Constraint) :
    (collect b c).Holds id t ↔ b.Holds id t ∧ Sat id c t := by
  cases c with
  | maxRowsPerID m =>
    simp only [collect, Buckets.Holds, List.mem_append, List.mem_singleton]
    constructor
    · rintro ⟨h1, h2, h3⟩
      exact ⟨⟨fun m hm => h1 m (Or.inl hm), h2, h3⟩, h1 _ (Or.inr rfl)⟩
    · rintro ⟨⟨h1, h2, h3⟩, h4⟩
      refine ⟨?_, h2, h3⟩
      rintro m' (h | rfl)
      · exact h1 _ h
      · exact h4
  | maxGroupsPerID k m =>
    simp only [collect, Buckets.Holds]
    rw [forall_insertMin (Q := fun p => Sat id (maxGroupsPerID p.1 p.2) t)
      (fun c m n h => Sat.mono_groups h)]
    tauto
  | maxRowsPerGroupPerID k m =>
    simp only [collect, Buckets.Holds]
    rw [forall_insertMin (Q := fun p => Sat id (maxRowsPerGroupPerID p.1 p.2) t)
      (fun c m n h => Sat.mono_rpg h)]
    tauto

theorem foldl_collect_holds (id : String) (t : Table) (cs : List Constraint) (b : Buckets) :
    (cs.foldl collect b).Holds id t ↔ b.Holds id t ∧ ∀ c ∈ cs, Sat id c t := by
  induction cs generalizing b with
  | nil => simp
  | cons c cs ih =>
    simp only [List.foldl_cons, ih, collect_holds, List.forall_mem_cons]
    tauto

/-- The constraint without its bound. -/
def kind : Constraint → Nat × String
  | maxRowsPerID _ => (0, "")
  | maxGroupsPerID c _ => (1, c)
  | maxRowsPerGroupPerID c _ => (2, c)

theorem insertMin_keys (d : List (String × Nat)) (c : String) (m : Nat) :
    (insertMin d c m).map Prod.fst = if c ∈ d.map Prod.fst then d.map Prod.fst
      else d.map Prod.fst ++ [c] := by
  induction d with
  | nil => simp [insertMin]
  | cons p rest ih =>
    obtain ⟨k, v⟩ := p
    unfold insertMin
    split
    · rename_i hk
      subst hk
      simp
    · rename_i hk
      simp only [List.map_cons, ih, List.mem_cons]
      have hk' : ¬ c = k := fun h => hk h.symm
      simp only [hk', false_or]
      split <;> simp

theorem insertMin_nodup {d : List (String × Nat)} (h : (d.map Prod.fst).Nodup) (c : String) (m : Nat) :
    ((insertMin d c m).map Prod.fst).Nodup := by
  rw [insertMin_keys]
  split
  · exact h
  · rename_i hc
    rw [List.nodup_append]
    refine ⟨h, by simp, ?_⟩
    intro a ha b hb
    simp only [List.mem_singleton] at hb
    rintro rfl
    exact hc (hb ▸ ha)

/-- Keys of the two dicts are distinct. -/
def Buckets.Ok (b : Buckets) : Prop :=
  (b.groups.map Prod.fst).Nodup ∧ (b.rowsPerGroup.map Prod.fst).Nodup

theorem foldl_collect_ok (cs : List Constraint) (b : Buckets) (h : b.Ok) : (cs.foldl collect b).Ok := by
  induction cs generalizing b with
  | nil => exact h
  | cons c cs ih =>
    simp only [List.foldl_cons]
    apply ih
    cases c with
    | maxRowsPerID m => exact h
    | maxGroupsPerID k m => exact ⟨insertMin_nodup h.1 k m, h.2⟩
    | maxRowsPerGroupPerID k m => exact ⟨h.1, insertMin_nodup h.2 k m⟩

/-- The list made from buckets. -/
def Buckets.toList (b : Buckets) : List Constraint :=
  (match minList b.rows with
    | some m => [maxRowsPerID m]
    | none => []) ++
  b.groups.map (fun p => maxGroupsPerID p.1 p.2) ++
  b.rowsPerGroup.map (fun p => maxRowsPerGroupPerID p.1 p.2)

theorem simplify_eq (cs : List Constraint) : simplify cs = (cs.foldl collect ⟨[], [], []⟩).toList := rfl

theorem toList_holds (id : String) (t : Table) (b : Buckets) :
    (∀ c ∈ b.toList, Sat id c t) ↔ b.Holds id t := by
  have key := minList_iff (Q := fun m => Sat id (maxRowsPerID m) t) (fun m n h => Sat.mono_rows h) b.rows
  unfold Buckets.toList Buckets.Holds
  rw [← key]
  cases hm : minList b.rows with
  | none => simp only [List.nil_append, List.forall_mem_append, List.forall_mem_map]; simp
  | some m =>
    simp only [List.forall_mem_append, List.forall_mem_map, List.forall_mem_singleton]
    simp [and_assoc]

/-- **C14.** Simplifying constraints does not change which tables satisfy them, leaves at most one
constraint of each kind per column, and is idempotent. -/
theorem C14_simplify (cs : List Constraint) :
    (∀ id t, (∀ c ∈ simplify cs, Sat id c t) ↔ ∀ c ∈ cs, Sat id c t) ∧
    ((simplify cs).map kind).Nodup ∧
    simplify (simplify cs) = simplify cs := by
  refine ⟨?_, ?_, ?_⟩
  · intro id t
    rw [simplify_eq, toList_holds, foldl_collect_holds]
    simp [Buckets.Holds]
  · rw [simplify_eq]
    obtain ⟨h1, h2⟩ := foldl_collect_ok cs ⟨[], [], []⟩ ⟨by simp, by simp⟩
    generalize cs.foldl collect ⟨[], [], []⟩ = b at h1 h2
    unfold Buckets.toList
    have e1 : (b.groups.map (fun p => maxGroupsPerID p.1 p.2)).map kind =
        (b.groups.map Prod.fst).map (fun c => (1, c)) := by
      simp [List.map_map, Function.comp_def, kind]
    have e2 : (b.rowsPerGroup.map (fun p => maxRowsPerGroupPerID p.1 p.2)).map kind =
        (b.rowsPerGroup.map Prod.fst).map (fun c => (2, c)) := by
      simp [List.map_map, Function.comp_def, kind]
    rw [List.map_append, List.map_append, e1, e2, List.nodup_append, List.nodup_append]
    refine ⟨⟨?_, ?_, ?_⟩, ?_, ?_⟩
    · cases minList b.rows <;> simp
    · exact h1.map (fun a b h => (Prod.mk.inj h).2)
    · intro a ha b' hb'
      rw [List.mem_map] at hb'
      obtain ⟨x, _, rfl⟩ := hb'
      cases hm : minList b.rows with
      | none => simp [hm] at ha
      | some m =>
        simp only [hm, List.map_cons, List.map_nil, List.mem_singleton] at ha
        subst ha
        simp [kind]
    · exact h2.map (fun a b h => (Prod.mk.inj h).2)
    · intro a ha b' hb'
      rw [List.mem_map] at hb'
      obtain ⟨x, _, rfl⟩ := hb'
      rw [List.mem_append] at ha
      rcases ha with ha | ha
      · cases hm : minList b.rows with
        | none => simp [hm] at ha
        | some m =>
          simp only [hm, List.map_cons, List.map_nil, List.mem_singleton] at ha
          subst ha
          simp [kind]
      · rw [List.mem_map] at ha
        obtain ⟨y, _, rfl⟩ := ha
        simp
  · rw [simplify_eq cs]
    obtain ⟨h1, h2⟩ := foldl_collect_ok cs ⟨[], [], []⟩ ⟨by simp, by simp⟩
    generalize cs.foldl collect ⟨[], [], []⟩ = b at h1 h2
    -- collecting the output gives the buckets back, with the rows reduced to their minimum
    have insNew : ∀ (d : List (String × Nat)) (c : String) (m : Nat), c ∉ d.map Prod.fst →
        insertMin d c m = d ++ [(c, m)] := by
      intro d c m
      induction d with
      | nil => intro _; rfl
      | cons p rest ih =>
        intro h
        simp only [List.map_cons, List.mem_cons, not_or] at h
        unfold insertMin
        rw [if_neg (fun h' => h.1 h'.symm), ih h.2]
        rfl
    have foldG : ∀ (l : List (String × Nat)) (b0 : Buckets),
        (b0.groups.map Prod.fst ++ l.map Prod.fst).Nodup →
        (l.map (fun p => maxGroupsPerID p.1 p.2)).foldl collect b0 =
          { b0 with groups := b0.groups ++ l } := by
      intro l
      induction l with
      | nil => intro b0 _; simp
      | cons p l ih =>
        intro b0 hn
        simp only [List.map_cons, List.foldl_cons, collect]
        have hp : p.1 ∉ b0.groups.map Prod.fst := by
          rw [List.nodup_append] at hn
          intro hmem
          exact hn.2.2 _ hmem _ (by simp) rfl
        rw [insNew _ _ _ hp, ih]
        · simp
        · simpa [List.append_assoc] using hn
    have foldR : ∀ (l : List (String × Nat)) (b0 : Buckets),
        (b0.rowsPerGroup.map Prod.fst ++ l.map Prod.fst).Nodup →
        (l.map (fun p => maxRowsPerGroupPerID p.1 p.2)).foldl collect b0 =
          { b0 with rowsPerGroup := b0.rowsPerGroup ++ l } := by
      intro l
      induction l with
      | nil => intro b0 _; simp
      | cons p l ih =>
        intro b0 hn
        simp only [List.map_cons, List.foldl_cons, collect]
        have hp : p.1 ∉ b0.rowsPerGroup.map Prod.fst := by
          rw [List.nodup_append] at hn
          intro hmem
          exact hn.2.2 _ hmem _ (by simp) rfl
        rw [insNew _ _ _ hp, ih]
        · simp
        · simpa [List.append_assoc] using hn
    rw [simplify_eq]
    conv_lhs => rw [show b.toList = (match minList b.rows with
      | some m => [maxRowsPerID m]
      | none => []) ++ b.groups.map (fun p => maxGroupsPerID p.1 p.2) ++
        b.rowsPerGroup.map (fun p => maxRowsPerGroupPerID p.1 p.2) from rfl]
    rw [List.foldl_append, List.foldl_append, foldG _ _ (by
      cases minList b.rows <;> simpa [collect] using h1), foldR _ _ (by
      cases minList b.rows <;> simpa [collect] using h2)]
    have one : ∀ m, minList [m] = some m := fun m => rfl
    have zero : minList [] = none := rfl
    cases hm : minList b.rows <;> simp [collect, one, zero, Buckets.toList, hm]

/-! ## C15 -/

theorem filter_subperm_of {p : Row → Bool} (t : Table) : (t.filter p).Subperm t :=
  List.filter_sublist.subperm

theorem takeRows_subperm (h : Hash) (n : Nat) (t : Table) : (takeRows h n t).Subperm t :=
  (List.take_sublist n _).subperm.trans (List.perm_insertionSort _ t).subperm

theorem takeKeys_subperm (h : Hash) (c : String) (n : Nat) (t : Table) :
    (takeKeys h c n t).Subperm t := filter_subperm_of t

variable {K : Type} [DecidableEq K]

theorem count_filter_key (key : Row → K) (k : K) (a : Row) (t : Table) :
    (t.filter (fun r => decide (key r = k))).count a = if key a = k then t.count a else 0 := by
  split
  · rename_i h
    exact List.count_filter (by simpa using h)
  · rename_i h
    rw [List.count_eq_zero]
    simp [h]

/-- What a window function keeps of a row is decided in that row's group. -/
theorem count_perGroup (key : Row → K) {f : Table → Table} (hf : ∀ s, (f s).Subperm s) (t : Table)
    (a : Row) :
    (perGroup key f t).count a = (f (t.filter (fun r => decide (key r = key a)))).count a := by
  unfold perGroup
  rw [List.count_flatMap]
  have zero : ∀ k, k ≠ key a → (f (t.filter (fun r => decide (key r = k)))).count a = 0 := by
    intro k hk
    have := (hf (t.filter (fun r => decide (key r = k)))).count_le a
    rw [count_filter_key, if_neg (fun h => hk h.symm)] at this
    omega
  have main : ∀ ks : List K, ks.Nodup →
      (ks.map (List.count a ∘ fun k => f (t.filter (fun r => decide (key r = k))))).sum =
        if key a ∈ ks then (f (t.filter (fun r => decide (key r = key a)))).count a else 0 := by
    intro ks hks
    induction ks with
    | nil => simp
    | cons k ks ih =>
      rw [List.nodup_cons] at hks
      simp only [List.map_cons, List.sum_cons, ih hks.2, Function.comp_apply, List.mem_cons]
      by_cases h : key a = k
      · subst h
        simp [hks.1]
      · rw [zero k (fun h' => h h'.symm)]
        simp [h]
  rw [main _ (List.nodup_dedup _)]
  split
  · rfl
  · rename_i h
    have hempty : t.filter (fun r => decide (key r = key a)) = [] := by
      rw [List.filter_eq_nil_iff]
      intro r hr
      simp only [decide_eq_true_eq]
      intro hk
      apply h
      rw [List.mem_dedup, List.mem_map]
      exact ⟨r, hr, hk⟩
    have := (hf []).count_le a
    rw [hempty]
    symm
    simpa using this

theorem perGroup_subperm (key : Row → K) {f : Table → Table} (hf : ∀ s, (f s).Subperm s) (t : Table) :
    (perGroup key f t).Subperm t := by
  rw [List.subperm_ext_iff]
  intro a _
  rw [count_perGroup key hf]
  refine le_trans ((hf _).count_le a) ?_
  rw [count_filter_key, if_pos rfl]

/-- A window function acts on each group separately. -/
theorem perGroup_filter (key : Row → K) {f : Table → Table} (hf : ∀ s, (f s).Subperm s) (t : Table)
    (k : K) :
    ((perGroup key f t).filter (fun r => decide (key r = k))).Perm
      (f (t.filter (fun r => decide (key r = k)))) := by
  rw [List.perm_iff_count]
  intro a
  rw [count_filter_key]
  split
  · rename_i h
    subst h
    exact count_perGroup key hf t a
  · rename_i h
    have := (hf (t.filter (fun r => decide (key r = k)))).count_le a
    rw [count_filter_key, if_neg h] at this
    omega

theorem enforce_subperm (h : Hash) (id : String) (c : Constraint) (t : Table) :
    (enforce h id c t).Subperm t := by
  cases c with
  | maxRowsPerID n => exact perGroup_subperm _ (takeRows_subperm h n) t
  | maxGroupsPerID c n => exact perGroup_subperm _ (takeKeys_subperm h c n) t
  | maxRowsPerGroupPerID c n => exact perGroup_subperm _ (takeRows_subperm h n) t

theorem whereEq_whereEq (t : Table) (id c : String) (v w : Option Value) :
    (t.whereEq id v).whereEq c w =
      t.filter (fun r => decide ((Row.get r id, Row.get r c) = (v, w))) := by
  unfold Table.whereEq
  rw [List.filter_filter]
  congr 1
  funext r
  by_cases h1 : Row.get r id = v <;> by_cases h2 : Row.get r c = w <;> simp [h1, h2]

theorem whereEq_subperm {s t : Table} (h : s.Subperm t) (c : String) (v : Option Value) :
    (s.whereEq c v).Subperm (t.whereEq c v) := h.filter _

theorem dedup_length_mono {α : Type} [DecidableEq α] {s t : List α} (h : ∀ x ∈ s, x ∈ t) :
    s.dedup.length ≤ t.dedup.length :=
  ((List.nodup_dedup s).subperm (fun x hx => by
    rw [List.mem_dedup] at hx ⊢; exact h x hx)).length_le

/-- Constraints survive dropping rows. -/
theorem Sat.of_subperm {id : String} {c : Constraint} {s t : Table} (h : s.Subperm t)
    (ht : Sat id c t) : Sat id c s := by
  cases c with
  | maxRowsPerID n => exact fun v => le_trans (whereEq_subperm h id v).length_le (ht v)
  | maxGroupsPerID c n =>
    intro v
    refine le_trans (dedup_length_mono ?_) (ht v)
    intro x hx
    rw [List.mem_map] at hx ⊢
    obtain ⟨r, hr, rfl⟩ := hx
    exact ⟨r, (whereEq_subperm h id v).subset hr, rfl⟩
  | maxRowsPerGroupPerID c n =>
    exact fun v w => le_trans (whereEq_subperm (whereEq_subperm h id v) c w).length_le (ht v w)

theorem takeKeys_groups (h : Hash) (c : String) (n : Nat) (t : Table) :
    ((takeKeys h c n t).map (fun r => Row.get r c)).dedup.length ≤ n := by
  unfold takeKeys
  simp only
  set keep := ((t.map (fun r => Row.get r c)).dedup.insertionSort
    (fun a b => h.key a b = true)).take n with hkeep
  have hlen : keep.length ≤ n := by rw [hkeep, List.length_take]; omega
  refine le_trans (List.Nodup.subperm (List.nodup_dedup _) ?_).length_le hlen
  intro x hx
  rw [List.mem_dedup, List.mem_map] at hx
  obtain ⟨r, hr, rfl⟩ := hx
  have := List.of_mem_filter hr
  simpa using this

theorem takeRows_length (h : Hash) (n : Nat) (t : Table) : (takeRows h n t).length ≤ n := by
  unfold takeRows; rw [List.length_take]; omega

theorem takeRows_of_le (h : Hash) (n : Nat) (t : Table) (hl : t.length ≤ n) : (takeRows h n t).Perm t := by
  unfold takeRows
  rw [List.take_of_length_le (by rw [List.length_insertionSort]; exact hl)]
  exact List.perm_insertionSort _ t

theorem takeKeys_of_le (h : Hash) (c : String) (n : Nat) (t : Table)
    (hl : (t.map (fun r => Row.get r c)).dedup.length ≤ n) : takeKeys h c n t = t := by
  unfold takeKeys
  simp only
  rw [List.take_of_length_le (by rw [List.length_insertionSort]; exact hl), List.filter_eq_self]
  intro r hr
  simp only [List.mem_insertionSort, List.mem_dedup, List.mem_map, decide_eq_true_eq]
  exact ⟨r, hr, rfl⟩

theorem perGroup_noop (key : Row → K) {f : Table → Table} (hf : ∀ s, (f s).Subperm s) (t : Table)
    (h : ∀ k, (f (t.filter (fun r => decide (key r = k)))).Perm
      (t.filter (fun r => decide (key r = k)))) : (perGroup key f t).Perm t := by
  rw [List.perm_iff_count]
  intro a
  rw [count_perGroup key hf, (h (key a)).count_eq, count_filter_key, if_pos rfl]

/-- **C15.** Enforcing a constraint yields a sub-table that satisfies it; every constraint that held still
holds; if the constraint held already, nothing changes; and what is kept for one ID is what is kept when
only the rows of that ID are there. -/
theorem C15_enforce (h : Hash) (id : String) (c : Constraint) (t : Table) :
    Sat id c (enforce h id c t) ∧
    (enforce h id c t).Subperm t ∧
    (∀ c', Sat id c' t → Sat id c' (enforce h id c t)) ∧
    (Sat id c t → (enforce h id c t).Perm t) ∧
    (∀ v, ((enforce h id c t).whereEq id v).Perm (enforce h id c (t.whereEq id v))) := by
  refine ⟨?_, enforce_subperm h id c t, fun c' => Sat.of_subperm (enforce_subperm h id c t), ?_, ?_⟩
  · cases c with
    | maxRowsPerID n =>
      intro v
      exact (perGroup_filter (fun r => Row.get r id) (takeRows_subperm h n) t v).length_eq ▸
        takeRows_length h n _
    | maxGroupsPerID c n =>
      intro v
      have hp := perGroup_filter (fun r => Row.get r id) (takeKeys_subperm h c n) t v
      have := takeKeys_groups h c n (t.filter (fun r => decide (Row.get r id = v)))
      exact le_trans (dedup_length_mono (fun x hx => (hp.map _).subset hx)) this
    | maxRowsPerGroupPerID c n =>
      intro v w
      rw [whereEq_whereEq]
      exact (perGroup_filter (fun r => (Row.get r id, Row.get r c)) (takeRows_subperm h n) t
        (v, w)).length_eq ▸ takeRows_length h n _
  · intro hs
    cases c with
    | maxRowsPerID n =>
      exact perGroup_noop _ (takeRows_subperm h n) t (fun k => takeRows_of_le h n _ (hs k))
    | maxGroupsPerID c n =>
      exact perGroup_noop _ (takeKeys_subperm h c n) t
        (fun k => (takeKeys_of_le h c n _ (hs k)) ▸ List.Perm.refl _)
    | maxRowsPerGroupPerID c n =>
      refine perGroup_noop _ (takeRows_subperm h n) t (fun k => takeRows_of_le h n _ ?_)
      obtain ⟨v, w⟩ := k
      have := hs v w
      rwa [whereEq_whereEq] at this
  · intro v
    have gen : ∀ {K : Type} [DecidableEq K] (key : Row → K) (f : Table → Table)
        (_ : ∀ s, (f s).Subperm s) (_ : ∀ r s : Row, key r = key s → Row.get r id = Row.get s id),
        ((perGroup key f t).whereEq id v).Perm (perGroup key f (t.whereEq id v)) := by
      intro K _ key f hf hk
      rw [List.perm_iff_count]
      intro a
      unfold Table.whereEq
      rw [count_filter_key, count_perGroup key hf, count_perGroup key hf]
      by_cases ha : Row.get a id = v
      · rw [if_pos ha, List.filter_filter]
        congr 2
        apply List.filter_congr
        intro r _
        by_cases hr : key r = key a
        · have := hk r a hr
          simp [hr, this, ha]
        · simp [hr]
      · rw [if_neg ha]
        symm
        have := (hf ((t.filter (fun r => decide (Row.get r id = v))).filter
          (fun r => decide (key r = key a)))).count_le a
        rw [count_filter_key, if_pos rfl, count_filter_key, if_neg ha] at this
        omega
    cases c with
    | maxRowsPerID n => exact gen _ _ (takeRows_subperm h n) (fun _ _ hh => hh)
    | maxGroupsPerID c n => exact gen _ _ (takeKeys_subperm h c n) (fun _ _ hh => hh)
    | maxRowsPerGroupPerID c n =>
      exact gen _ _ (takeRows_subperm h n) (fun _ _ hh => (Prod.mk.inj hh).1)

end Verif.Constraint
