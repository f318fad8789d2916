import Verif.Stability.Dist
import Verif.Expr.PropsConstraint

/-!
# How far truncations and joins spread a change
-/

namespace Verif.Stability

open Verif Verif.Schema Verif.Constraint Verif.Expr

/-! ## Truncation -/

theorem take_orderedInsert (le : Row → Row → Prop) [DecidableRel le] (x : Row) (l : List Row) (n : ℕ) :
    rowDist ((l.orderedInsert le x).take n) (l.take n) ≤ 2 := by
  induction l generalizing n with
  | nil =>
    cases n with
    | zero => simp [rowDist_self]
    | succ n => simp [rowDist_nil]
  | cons y l ih =>
    cases n with
    | zero => simp [rowDist_self]
    | succ n =>
      rw [List.orderedInsert]
      split
      · rw [List.take_succ_cons]
        have h1 : (y :: l).take (n + 1) = (y :: l).take n ++ ((y :: l)[n]?).toList := List.take_add_one
        rw [h1]
        refine (rowDist_le_of_perm (c := (y :: l).take n) (r := [x]) (a := ((y :: l)[n]?).toList)
          (List.perm_append_comm (l₁ := [x])) (.refl _)).trans ?_
        cases (y :: l)[n]? <;> simp
      · rw [List.take_succ_cons, List.take_succ_cons]
        exact (rowDist_append_left [y] _ _).trans_le (ih n)

theorem takeRows_single (h : Hash) (n : ℕ) (x : Row) (s : Table) : rowDist (takeRows h n (x :: s)) (takeRows h n s) ≤ 2 :=
  take_orderedInsert _ x _ n

theorem dropNonUnique_single (x : Row) (s : Table) :
    rowDist (if (x :: s).length ≤ 1 then x :: s else []) (if s.length ≤ 1 then s else []) ≤ 1 := by
  match s with
  | [] => simp [rowDist_nil]
  | [y] =>
    rw [rowDist_comm]
    simp [rowDist_nil]
  | y :: z :: s => simp [rowDist_self]

variable {K : Type} [DecidableEq K]

theorem perGroup_const (key : Row → K) {f : Table → Table} (hf : ∀ s, (f s).Subperm s) (k : K) (t : Table)
    (ht : ∀ r ∈ t, key r = k) : (perGroup key f t).Perm (f t) := by
  have h1 := perGroup_filter key hf t k
  have h2 : t.filter (fun r => decide (key r = k)) = t := List.filter_eq_self.2 (by simpa using ht)
  rw [h2] at h1
  rwa [List.filter_eq_self.2] at h1
  intro r hr
  simpa using ht r ((perGroup_subperm key hf t).subset hr)

theorem perGroup_single (key : Row → K) {f : Table → Table} (hf : ∀ s, (f s).Subperm s) {k : ℕ}
    (h1 : ∀ x s, rowDist (f (x :: s)) (f s) ≤ k) (x : Row) (s : Table) :
    rowDist (perGroup key f (x :: s)) (perGroup key f s) ≤ k := by
  rw [rowDist_filter (fun r => decide (key r = key x)),
    perGroup_filter_id key f hf _ (fun v => decide (v = key x)) (fun _ => rfl),
    perGroup_filter_id key f hf _ (fun v => decide (v = key x)) (fun _ => rfl),
    perGroup_filter_id key f hf _ (fun v => !decide (v = key x)) (fun _ => rfl),
    perGroup_filter_id key f hf _ (fun v => !decide (v = key x)) (fun _ => rfl)]
  rw [List.filter_cons_of_pos (by simp), List.filter_cons_of_neg (p := fun r => !decide (key r = key x)) (by simp),
    rowDist_self, Nat.add_zero]
  rw [rowDist_congr (perGroup_const key hf (key x) _ ?_) (perGroup_const key hf (key x) _ ?_)]
  · exact h1 x _
  · intro r hr
    rcases List.mem_cons.1 hr with rfl | hr
    · rfl
    · simpa using (List.mem_filter.1 hr).2
  · intro r hr
    simpa using (List.mem_filter.1 hr).2

/-- The largest number of rows of a join key that a truncation keeps (`T` in `truncation_strategy.py` l. 22-33). -/
def threshold : Trunc → ℕ
  | .dropExcess n => n
  | .dropNonUnique => 1

/-- The stability of a truncation (`S` in `truncation_strategy.py` l. 22-33). -/
def truncStability : Trunc → ℕ
  | .dropExcess _ => 2
  | .dropNonUnique => 1

theorem dropNonUnique_subperm (s : Table) : (if s.length ≤ 1 then s else []).Subperm s := by
  split
  · exact List.Subperm.refl _
  · exact List.nil_subperm

theorem truncateBy_congr {h : Hash} (hl : h.Lawful) (jc : List String) (t : Trunc) {a b : Table} (hp : a.Perm b) :
    (truncateBy h jc t a).Perm (truncateBy h jc t b) := by
  cases t with
  | dropExcess n =>
    refine perGroup_congr _ (takeRows_subperm h n) ?_ hp
    intro s t hst
    unfold takeRows
    rw [sort_congr h.row hl.row_total hl.row_trans hl.row_antisymm hst]
  | dropNonUnique =>
    refine perGroup_congr _ dropNonUnique_subperm ?_ hp
    intro s t hst
    rw [hst.length_eq]
    split
    · exact hst
    · exact .refl _

/-- Truncation spreads a change by its stability. -/
theorem truncateBy_stable {h : Hash} (hl : h.Lawful) (jc : List String) (t : Trunc) (a b : Table) :
    rowDist (truncateBy h jc t a) (truncateBy h jc t b) ≤ truncStability t * rowDist a b := by
  refine rowDist_of_single (fun _ _ => truncateBy_congr hl jc t) ?_ a b
  intro x s
  cases t with
  | dropExcess n => exact perGroup_single _ (takeRows_subperm h n) (takeRows_single h n) x s
  | dropNonUnique => exact perGroup_single _ dropNonUnique_subperm dropNonUnique_single x s

theorem matches_eq (jc : List String) (l r : Row) :
    matches_ jc l r = decide (jc.map (cell r) = jc.map (cell l)) := by
  rw [Bool.eq_iff_iff, matches_iff, decide_eq_true_eq, List.map_inj_left]
  exact forall₂_congr fun c _ => eq_comm

/-- A truncated table has at most the threshold's number of rows for each join key. -/
theorem truncateBy_threshold (h : Hash) (jc : List String) (t : Trunc) (a : Table) (v : List Value) :
    ((truncateBy h jc t a).filter (fun r => decide (jc.map (cell r) = v))).length ≤ threshold t := by
  cases t with
  | dropExcess n =>
    refine (perGroup_filter (fun r => jc.map (cell r)) (takeRows_subperm h n) a v).length_eq.trans_le ?_
    exact takeRows_length h n _
  | dropNonUnique =>
    refine (perGroup_filter (fun r => jc.map (cell r)) dropNonUnique_subperm a v).length_eq.trans_le ?_
    simp only [threshold]
    split
    · assumption
    · simp

/-! ## Joins -/

theorem innerJoin_left (lk rk jc : List String) {lt lt' rt : Table} {k : ℕ}
    (hk : ∀ l, (rt.filter (matches_ jc l)).length ≤ k) :
    rowDist (innerJoin lk rk jc lt rt) (innerJoin lk rk jc lt' rt) ≤ k * rowDist lt lt' := by
  apply rowDist_flatMap <;>
  · intro r _
    rw [List.length_map]
    exact hk r

theorem innerJoin_right (lk rk jc : List String) {lt rt rt' : Table} {k : ℕ}
    (hk : ∀ r, (lt.filter (fun l => matches_ jc l r)).length ≤ k) :
    rowDist (innerJoin lk rk jc lt rt) (innerJoin lk rk jc lt rt') ≤ k * rowDist rt rt' := by
  rw [rowDist_congr (innerJoin_perm lk rk jc lt rt) (innerJoin_perm lk rk jc lt rt')]
  apply rowDist_flatMap <;>
  · intro r _
    rw [List.length_map]
    exact hk r

/-- A join of truncated tables. -/
theorem truncatedJoin_stable {h : Hash} (hl : h.Lawful) (lk rk jc : List String) (a b : Trunc) (lt lt' rt rt' : Table) :
    rowDist (innerJoin lk rk jc (truncateBy h jc a lt) (truncateBy h jc b rt))
        (innerJoin lk rk jc (truncateBy h jc a lt') (truncateBy h jc b rt')) ≤
      threshold b * truncStability a * rowDist lt lt' + threshold a * truncStability b * rowDist rt rt' := by
  refine (rowDist_triangle _ (innerJoin lk rk jc (truncateBy h jc a lt') (truncateBy h jc b rt)) _).trans ?_
  apply Nat.add_le_add
  · refine (innerJoin_left lk rk jc (k := threshold b) ?_).trans ?_
    · intro l
      have : matches_ jc l = fun r => decide (jc.map (cell r) = jc.map (cell l)) := funext fun r => matches_eq jc l r
      rw [this]
      exact truncateBy_threshold h jc b rt _
    · rw [Nat.mul_assoc]
      exact Nat.mul_le_mul_left _ (truncateBy_stable hl jc a lt lt')
  · refine (innerJoin_right lk rk jc (k := threshold a) ?_).trans ?_
    · intro r
      have : (fun l => matches_ jc l r) = fun l => decide (jc.map (cell l) = jc.map (cell r)) := funext fun l => by
        rw [matches_eq]
        exact decide_eq_decide.2 eq_comm
      rw [this]
      exact truncateBy_threshold h jc a lt' _
    · rw [Nat.mul_assoc]
      exact Nat.mul_le_mul_left _ (truncateBy_stable hl jc b rt rt')

/-- The rows of a public join that come from one private row. -/
def publicRows (how : How) (lk rk jc : List String) (pt : Table) (l : Row) : Table :=
  match how with
  | .inner => (pt.filter (matches_ jc l)).map (joinRow lk rk jc l)
  | .left => if pt.filter (matches_ jc l) = [] then [joinRow lk rk jc l []]
    else (pt.filter (matches_ jc l)).map (joinRow lk rk jc l)

/-- Core's stability of a public join (assumed): the largest number of public rows with the same join key; in a left join
rows without a match are kept. -/
def joinStability (how : How) (jc : List String) (pt : Table) : ℕ :=
  match how with
  | .inner => maxMultiplicity jc pt
  | .left => max 1 (maxMultiplicity jc pt)

theorem publicRows_length (how : How) (lk rk jc : List String) (pt : Table) (l : Row) :
    (publicRows how lk rk jc pt l).length ≤ joinStability how jc pt := by
  have := matches_le_multiplicity jc l pt
  cases how with
  | inner => simpa [publicRows, joinStability] using this
  | left =>
    simp only [publicRows, joinStability]
    split
    · simp
    · rw [List.length_map]
      exact this.trans (le_max_right _ _)

end Verif.Stability
