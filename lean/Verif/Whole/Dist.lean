import Verif.Stability.Props
import Mathlib.Analysis.SpecialFunctions.Pow.NNReal
import Mathlib.Analysis.MeanInequalities

/-!
# C56: distances as real numbers
-/

namespace Verif.Whole

open Verif Verif.Stability
open scoped NNReal

variable {α β : Type} [DecidableEq α] [DecidableEq β] {K L : Type} [DecidableEq K] [DecidableEq L]

/-- `RootSumOfSquared(SymmetricDifference())` over the groups. -/
noncomputable def rootDist (key : α → K) (s t : List α) : ℝ≥0 := NNReal.sqrt (sqDist key s t)

theorem rootDist_le {key : α → K} {s t : List α} {x : ℝ≥0} : rootDist key s t ≤ x ↔ (sqDist key s t : ℝ≥0) ≤ x ^ 2 :=
  NNReal.sqrt_le_iff_le_sq

theorem sqDist_on {key : α → K} {s t : List α} {F : Finset K} (hF : groupKeys key s t ⊆ F) :
    sqDist key s t = ∑ k ∈ F, rowDist (group key k s) (group key k t) ^ 2 :=
  sum_groups_eq hF (fun n => n ^ 2) rfl

theorem sqDist_congr {key : α → K} {s s' t t' : List α} (hs : s.Perm s') (ht : t.Perm t') :
    sqDist key s t = sqDist key s' t' := by
  have hk : groupKeys key s t = groupKeys key s' t' := by
    ext k
    simp only [groupKeys, List.mem_toFinset, List.mem_append, (hs.map key).mem_iff, (ht.map key).mem_iff]
  unfold sqDist
  rw [hk]
  exact Finset.sum_congr rfl fun k _ => congrArg (· ^ 2) (rowDist_congr (hs.filter _) (ht.filter _))

theorem sqDist_comm (key : α → K) (s t : List α) : sqDist key s t = sqDist key t s := by
  have hk : groupKeys key s t = groupKeys key t s := by
    ext k
    simp only [groupKeys, List.mem_toFinset, List.mem_append, or_comm]
  unfold sqDist
  rw [hk]
  exact Finset.sum_congr rfl fun k _ => by rw [rowDist_comm]

theorem sqDist_self (key : α → K) (s : List α) : sqDist key s s = 0 := by
  unfold sqDist
  exact Finset.sum_eq_zero fun k _ => by rw [rowDist_self]; rfl

/-- Groups together are no closer than rows. -/
theorem sqDist_le_rowDist (key : α → K) (s t : List α) : sqDist key s t ≤ rowDist s t ^ 2 := by
  rw [← sumDist_eq key s t]
  exact Finset.sum_sq_le_sq_sum_of_nonneg fun _ _ => Nat.zero_le _

theorem rootDist_le_rowDist (key : α → K) (s t : List α) : rootDist key s t ≤ rowDist s t := by
  rw [rootDist_le]
  exact_mod_cast sqDist_le_rowDist key s t

theorem rootDist_triangle (key : α → K) (s t u : List α) : rootDist key s u ≤ rootDist key s t + rootDist key t u := by
  classical
  set F := groupKeys key s t ∪ groupKeys key t u ∪ groupKeys key s u with hF
  have e1 : sqDist key s t = _ := sqDist_on (F := F) (fun x hx => by simp [hF, hx])
  have e2 : sqDist key t u = _ := sqDist_on (F := F) (fun x hx => by simp [hF, hx])
  have e3 : sqDist key s u = _ := sqDist_on (F := F) (fun x hx => by simp [hF, hx])
  rw [rootDist_le, ← NNReal.coe_le_coe]
  unfold rootDist
  rw [e1, e2, e3]
  push_cast
  set a : K → ℝ := fun k => (rowDist (group key k s) (group key k t) : ℝ)
  set b : K → ℝ := fun k => (rowDist (group key k t) (group key k u) : ℝ)
  set c : K → ℝ := fun k => (rowDist (group key k s) (group key k u) : ℝ)
  change ∑ k ∈ F, c k ^ 2 ≤ (√(∑ k ∈ F, a k ^ 2) + √(∑ k ∈ F, b k ^ 2)) ^ 2
  have ha : 0 ≤ ∑ k ∈ F, a k ^ 2 := Finset.sum_nonneg fun _ _ => sq_nonneg _
  have hb : 0 ≤ ∑ k ∈ F, b k ^ 2 := Finset.sum_nonneg fun _ _ => sq_nonneg _
  have cs := Real.sum_mul_le_sqrt_mul_sqrt F a b
  have tri : ∑ k ∈ F, c k ^ 2 ≤ ∑ k ∈ F, (a k + b k) ^ 2 := by
    refine Finset.sum_le_sum fun k _ => ?_
    have h0 : (0 : ℝ) ≤ c k := Nat.cast_nonneg _
    have h1 : c k ≤ a k + b k := by
      have := rowDist_triangle (group key k s) (group key k t) (group key k u)
      simp only [a, b, c]
      exact_mod_cast this
    exact pow_le_pow_left₀ h0 h1 2
  refine tri.trans ?_
  have e : ∑ k ∈ F, (a k + b k) ^ 2 = ∑ k ∈ F, a k ^ 2 + 2 * ∑ k ∈ F, a k * b k + ∑ k ∈ F, b k ^ 2 := by
    rw [Finset.mul_sum, ← Finset.sum_add_distrib, ← Finset.sum_add_distrib]
    exact Finset.sum_congr rfl fun k _ => by ring
  rw [e, add_sq, Real.sq_sqrt ha, Real.sq_sqrt hb]
  linarith

/-- Finer groups are closer. -/
theorem sqDist_finer {key : α → K} {fine : α → L} (φ : L → K) {s t : List α} (hs : ∀ r ∈ s, key r = φ (fine r))
    (ht : ∀ r ∈ t, key r = φ (fine r)) : sqDist fine s t ≤ sqDist key s t := by
  classical
  have hmap : ∀ k ∈ groupKeys fine s t, φ k ∈ groupKeys key s t := by
    intro k hk
    simp only [groupKeys, List.mem_toFinset, List.mem_append, List.mem_map] at hk ⊢
    rcases hk with ⟨r, hr, rfl⟩ | ⟨r, hr, rfl⟩
    · exact .inl ⟨r, hr, hs r hr⟩
    · exact .inr ⟨r, hr, ht r hr⟩
  unfold sqDist
  rw [← Finset.sum_fiberwise_of_maps_to hmap]
  refine Finset.sum_le_sum fun k _ => ?_
  refine (Finset.sum_sq_le_sq_sum_of_nonneg fun _ _ => Nat.zero_le _).trans (Nat.pow_le_pow_left ?_ 2)
  have sub : ∀ u : List α, (∀ r ∈ u, key r = φ (fine r)) → ∀ l, φ l = k →
      group fine l u = group fine l (group key k u) := by
    intro u hu l hl
    unfold group
    rw [List.filter_filter]
    refine List.filter_congr fun r hr => ?_
    by_cases h : fine r = l
    · have : key r = k := by rw [hu r hr, h, hl]
      simp [h, this]
    · simp [h]
  calc ∑ l ∈ groupKeys fine s t with φ l = k, rowDist (group fine l s) (group fine l t)
      = ∑ l ∈ groupKeys fine s t with φ l = k,
          rowDist (group fine l (group key k s)) (group fine l (group key k t)) := by
        refine Finset.sum_congr rfl fun l hl => ?_
        rw [sub s hs l (Finset.mem_filter.1 hl).2, sub t ht l (Finset.mem_filter.1 hl).2]
    _ ≤ ∑ l ∈ groupKeys fine s t, rowDist (group fine l (group key k s)) (group fine l (group key k t)) :=
        Finset.sum_le_sum_of_subset (Finset.filter_subset _ _)
    _ = rowDist (group key k s) (group key k t) := by
        apply sum_groups_all
        intro l hl
        simp only [groupKeys, List.mem_toFinset, List.mem_append, List.mem_map, group] at hl ⊢
        rcases hl with ⟨r, hr, rfl⟩ | ⟨r, hr, rfl⟩
        · exact .inl ⟨r, (List.mem_filter.1 hr).1, rfl⟩
        · exact .inr ⟨r, (List.mem_filter.1 hr).1, rfl⟩

/-- Rows added to a table. -/
theorem sqDist_append (key : α → K) (c x : List α) :
    sqDist key (c ++ x) c = ∑ k ∈ (x.map key).toFinset, (x.filter (fun r => decide (key r = k))).length ^ 2 := by
  have hg : ∀ k, rowDist (group key k (c ++ x)) (group key k c) = (x.filter (fun r => decide (key r = k))).length := by
    intro k
    have : group key k c = group key k c ++ [] := (List.append_nil _).symm
    rw [this]
    unfold group
    rw [List.filter_append, rowDist_append_left, rowDist_nil]
  unfold sqDist
  have hsub : (x.map key).toFinset ⊆ groupKeys key (c ++ x) c := by
    intro k hk
    rw [List.mem_toFinset] at hk
    simp only [groupKeys, List.mem_toFinset, List.map_append, List.mem_append]
    exact .inl (.inr hk)
  symm
  refine (Finset.sum_congr rfl fun k _ => by rw [hg k]).trans (Finset.sum_subset hsub fun k _ hk => ?_)
  rw [hg k]
  rw [List.mem_toFinset, List.mem_map] at hk
  have : x.filter (fun r => decide (key r = k)) = [] := by
    rw [List.filter_eq_nil_iff]
    intro r hr
    simp only [decide_eq_true_eq]
    exact fun h => hk ⟨r, hr, h⟩
  rw [this]
  rfl

theorem rowDist_append_self (c x : List α) : rowDist (c ++ x) c = x.length := by
  have := rowDist_append_left c x []
  rwa [List.append_nil, rowDist_nil] at this

end Verif.Whole
