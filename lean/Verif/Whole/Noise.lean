import Verif.Whole.Measure
import Mathlib.Analysis.SpecialFunctions.Sigmoid
import Mathlib.Analysis.Convex.Deriv
import Mathlib.Analysis.SpecialFunctions.Log.Deriv
import Mathlib.Analysis.Calculus.Deriv.Pow

/-!
# C55, C56: noise that meets the contract of core's measurements

One bit, "true" the more likely the more rows there are. For each of the three privacy notions this meets `Core.Private`
with answers that do depend on the data; the contract can be met.
-/

namespace Verif.Whole

open Verif Verif.Schema Verif.Constraint Verif.Expr Verif.Query Verif.Stability
open Verif.Budget (XNum PB Rounding)
open Verif.Composition (Within num PureClose ApproxClose ZCDPClose)
open scoped NNReal ENNReal

/-- True with probability `1 / (1 + exp (-t))`. -/
noncomputable def coin (t : ℝ) : PMF Bool :=
  PMF.ofFintype (fun a => ENNReal.ofReal (Real.sigmoid (if a then t else -t))) (by
    rw [Fintype.sum_bool, if_pos rfl, if_neg (by decide), ← ENNReal.ofReal_add (Real.sigmoid_nonneg _) (Real.sigmoid_nonneg _),
      Real.sigmoid_neg]
    simp)

theorem coin_apply (t : ℝ) (a : Bool) : coin t a = ENNReal.ofReal (Real.sigmoid (if a then t else -t)) := rfl

theorem sigmoid_ratio (t u : ℝ) : Real.sigmoid t ≤ Real.exp |t - u| * Real.sigmoid u := by
  rw [Real.sigmoid_def, Real.sigmoid_def]
  have h1 : Real.exp (-u) ≤ Real.exp |t - u| * Real.exp (-t) := by
    rw [← Real.exp_add]
    refine Real.exp_le_exp.2 ?_
    have := le_abs_self (t - u)
    linarith
  have h2 : (1 : ℝ) ≤ Real.exp |t - u| := Real.one_le_exp (abs_nonneg _)
  have p1 : 0 < 1 + Real.exp (-t) := by positivity
  have p2 : 0 < 1 + Real.exp (-u) := by positivity
  rw [← div_eq_mul_inv, inv_eq_one_div, div_le_div_iff₀ p1 p2]
  nlinarith

theorem coin_pure {t u e : ℝ} (h : |t - u| ≤ e) : PureClose e (coin t) (coin u) := by
  intro a
  rw [coin_apply, coin_apply, ← ENNReal.ofReal_mul (Real.exp_pos _).le]
  refine ENNReal.ofReal_le_ofReal ((sigmoid_ratio _ (if a then u else -u)).trans ?_)
  refine mul_le_mul_of_nonneg_right (Real.exp_le_exp.2 ?_) (Real.sigmoid_nonneg _)
  cases a
  · have : |-t - -u| = |t - u| := by rw [neg_sub_neg, abs_sub_comm]
    exact this.trans_le h
  · simpa using h

/-- `log (1 + exp x)` -/
noncomputable def soft (x : ℝ) : ℝ := Real.log (1 + Real.exp x)

theorem exp_soft (x : ℝ) : Real.exp (soft x) = 1 + Real.exp x := Real.exp_log (by positivity)

theorem sigmoid_soft (x : ℝ) : Real.sigmoid x = Real.exp (x - soft x) := by
  rw [Real.exp_sub, exp_soft, Real.sigmoid_def, Real.exp_neg]
  have := Real.exp_pos x
  field_simp
  ring

theorem sigmoid_neg_soft (x : ℝ) : Real.sigmoid (-x) = Real.exp (- soft x) := by
  rw [Real.exp_neg, exp_soft, Real.sigmoid_def, neg_neg]

theorem hasDerivAt_soft (x : ℝ) : HasDerivAt soft (Real.sigmoid x) x := by
  have h : HasDerivAt (fun x => 1 + Real.exp x) (Real.exp x) x := (Real.hasDerivAt_exp x).const_add 1
  have h' := h.log (by positivity)
  have e : Real.exp x / (1 + Real.exp x) = Real.sigmoid x := by
    rw [sigmoid_soft, Real.exp_sub, exp_soft]
  rw [e] at h'
  exact h'

theorem soft_convex : ConvexOn ℝ Set.univ (fun x : ℝ => x ^ 2 / 2 - soft x) := by
  have hd : ∀ x : ℝ, HasDerivAt (fun x : ℝ => x ^ 2 / 2 - soft x) (x - Real.sigmoid x) x := by
    intro x
    have h1 : HasDerivAt (fun x : ℝ => x ^ 2 / 2) x x := by
      have := (hasDerivAt_pow 2 x).div_const 2
      simpa using this
    exact h1.sub (hasDerivAt_soft x)
  have hde : deriv (fun x : ℝ => x ^ 2 / 2 - soft x) = fun x => x - Real.sigmoid x := funext fun x => (hd x).deriv
  refine MonotoneOn.convexOn_of_deriv convex_univ (fun x _ => (hd x).continuousAt.continuousWithinAt)
    (fun x _ => (hd x).differentiableAt.differentiableWithinAt) ?_
  rw [hde, interior_univ, monotoneOn_univ]
  have hd2 : ∀ x : ℝ, HasDerivAt (fun x : ℝ => x - Real.sigmoid x) (1 - Real.sigmoid x * (1 - Real.sigmoid x)) x :=
    fun x => (hasDerivAt_id x).sub (Real.hasDerivAt_sigmoid x)
  refine monotone_of_deriv_nonneg (fun x => (hd2 x).differentiableAt) fun x => ?_
  rw [(hd2 x).deriv]
  have h1 := Real.sigmoid_nonneg x
  have h2 := Real.sigmoid_le_one x
  nlinarith

theorem soft_bound {α : ℝ} (hα : 1 < α) (t u : ℝ) :
    soft (α * t + (1 - α) * u) - α * soft t - (1 - α) * soft u ≤ (α - 1) * α * ((t - u) ^ 2 / 2) := by
  have hα0 : 0 < α := by linarith
  obtain ⟨_, hconv⟩ := soft_convex
  have h := @hconv (α * t + (1 - α) * u) (Set.mem_univ _) u (Set.mem_univ _) (1 / α) (1 - 1 / α)
    (by positivity) (by rw [sub_nonneg, div_le_one hα0]; exact hα.le) (by ring)
  have e : (1 / α) • (α * t + (1 - α) * u) + (1 - 1 / α) • u = t := by
    simp only [smul_eq_mul]
    field_simp
    ring
  rw [e] at h
  simp only [smul_eq_mul] at h
  have h' := mul_le_mul_of_nonneg_left h hα0.le
  have e2 : α * (1 / α * ((α * t + (1 - α) * u) ^ 2 / 2 - soft (α * t + (1 - α) * u)) + (1 - 1 / α) * (u ^ 2 / 2 - soft u)) =
      ((α * t + (1 - α) * u) ^ 2 / 2 - soft (α * t + (1 - α) * u)) + (α - 1) * (u ^ 2 / 2 - soft u) := by
    field_simp
  rw [e2] at h'
  nlinarith

theorem coin_zcdp {t u ρ : ℝ} (h : (t - u) ^ 2 / 2 ≤ ρ) : ZCDPClose ρ (coin t) (coin u) := by
  intro α hα
  have term : ∀ a : Bool, coin t a ^ α * coin u a ^ (1 - α) = ENNReal.ofReal
      (Real.sigmoid (if a then t else -t) ^ α * Real.sigmoid (if a then u else -u) ^ (1 - α)) := by
    intro a
    rw [coin_apply, coin_apply, ENNReal.ofReal_rpow_of_pos (Real.sigmoid_pos _), ENNReal.ofReal_rpow_of_pos (Real.sigmoid_pos _),
      ← ENNReal.ofReal_mul (Real.rpow_nonneg (Real.sigmoid_nonneg _) _)]
  rw [tsum_fintype, Fintype.sum_bool, term, term, ← ENNReal.ofReal_add
    (mul_nonneg (Real.rpow_nonneg (Real.sigmoid_nonneg _) _) (Real.rpow_nonneg (Real.sigmoid_nonneg _) _))
    (mul_nonneg (Real.rpow_nonneg (Real.sigmoid_nonneg _) _) (Real.rpow_nonneg (Real.sigmoid_nonneg _) _))]
  refine ENNReal.ofReal_le_ofReal ?_
  simp only [if_true, Bool.false_eq_true, if_false]
  rw [sigmoid_soft, sigmoid_soft, sigmoid_neg_soft, sigmoid_neg_soft, ← Real.exp_mul, ← Real.exp_mul, ← Real.exp_mul,
    ← Real.exp_mul, ← Real.exp_add, ← Real.exp_add]
  have e : Real.exp ((t - soft t) * α + (u - soft u) * (1 - α)) + Real.exp (-soft t * α + -soft u * (1 - α)) =
      Real.exp (soft (α * t + (1 - α) * u) - α * soft t - (1 - α) * soft u) := by
    have e1 : soft (α * t + (1 - α) * u) - α * soft t - (1 - α) * soft u =
        soft (α * t + (1 - α) * u) + (-soft t * α + -soft u * (1 - α)) := by ring
    have e2 : (t - soft t) * α + (u - soft u) * (1 - α) =
        (α * t + (1 - α) * u) + (-soft t * α + -soft u * (1 - α)) := by ring
    rw [e1, e2, Real.exp_add, Real.exp_add (soft _), exp_soft]
    ring
  rw [e]
  refine Real.exp_le_exp.2 ((soft_bound hα t u).trans ?_)
  exact mul_le_mul_of_nonneg_left h (mul_nonneg (by linarith) (by linarith))

theorem approx_of_pure {A : Type} {e d : ℝ} {P Q : PMF A} (h : PureClose e P Q) : ApproxClose e d P Q := by
  intro S
  refine le_trans ?_ le_self_add
  rw [PMF.toOuterMeasure_apply, PMF.toOuterMeasure_apply, ← ENNReal.tsum_mul_left]
  refine ENNReal.tsum_le_tsum fun a => ?_
  by_cases ha : a ∈ S
  · simpa [ha] using h a
  · simp [ha]

/-- How fast the probability changes with the distance. -/
noncomputable def slope : PB → ℝ
  | .pure ε => num ε
  | .approx ε _ => num ε
  | .zcdp ρ => Real.sqrt (2 * num ρ)

/-- How much data there is, in terms of the distance for which the budget is promised. -/
noncomputable def score (c : Call) (X : Table) : ℝ := (callDist c X [] : ℝ) / (c.delta : ℝ)

/-- The answer is a table with one row or none. -/
noncomputable def coinCore : Core where
  noise := fun c X => (coin (slope c.total * score c X)).bind (fun a => PMF.pure (if a then [[]] else []))

theorem score_diff {c : Call} {X Y : Table} {σ : ℝ≥0} (h : callDist c X Y ≤ σ * c.delta) : |score c X - score c Y| ≤ σ := by
  unfold score
  rw [← sub_div, abs_div, abs_of_nonneg (NNReal.coe_nonneg c.delta)]
  have h1 := callDist_triangle c X Y []
  have h2 := callDist_triangle c Y X []
  rw [callDist_comm c Y X] at h2
  have h1' : (callDist c X [] : ℝ) ≤ callDist c X Y + callDist c Y [] := by exact_mod_cast h1
  have h2' : (callDist c Y [] : ℝ) ≤ callDist c X Y + callDist c X [] := by exact_mod_cast h2
  have h' : (callDist c X Y : ℝ) ≤ σ * c.delta := by exact_mod_cast h
  refine div_le_of_le_mul₀ (NNReal.coe_nonneg c.delta) (NNReal.coe_nonneg σ) ?_
  rw [abs_le]
  exact ⟨by linarith, by linarith⟩

/-- The contract of core's measurements can be met, for all three privacy notions. -/
theorem coin_private (m : Measure) : coinCore.Private m := by
  intro c s X Y hs hc hd
  refine within_post ?_ _
  intro hfin
  have hk := hc.kind
  have hv := hc.valid
  have hsd := score_diff hd
  have hdiff : slope c.total * score c X - slope c.total * score c Y = slope c.total * (score c X - score c Y) := by ring
  cases ht : c.total with
  | pure ε =>
    rw [ht] at hk hv hdiff
    have hm : m ≠ .zCDP := by rw [← hk]; nofun
    simp only [scale, if_neg hm] at hsd
    have hε : 0 ≤ num ε := Composition.num_nonneg hv
    refine coin_pure ?_
    rw [hdiff, abs_mul, slope, abs_of_nonneg hε, mul_comm]
    exact mul_le_mul_of_nonneg_right hsd hε
  | approx ε δ =>
    rw [ht] at hk hv hdiff
    have hm : m ≠ .zCDP := by rw [← hk]; nofun
    simp only [scale, if_neg hm] at hsd
    have hε : 0 ≤ num ε := Composition.num_nonneg hv.1
    refine approx_of_pure (coin_pure ?_)
    rw [hdiff, abs_mul, slope, abs_of_nonneg hε, mul_comm]
    exact mul_le_mul_of_nonneg_right hsd hε
  | zcdp ρ =>
    rw [ht] at hk hv hdiff
    have hm : m = .zCDP := hk.symm
    simp only [scale, if_pos hm] at hsd
    have hρ : 0 ≤ num ρ := Composition.num_nonneg hv
    refine coin_zcdp ?_
    rw [hdiff, slope, mul_pow, Real.sq_sqrt (by linarith)]
    have h2 : (score c X - score c Y) ^ 2 ≤ s := by
      rw [← sq_abs]
      calc |score c X - score c Y| ^ 2 ≤ ((NNReal.sqrt s : ℝ≥0) : ℝ) ^ 2 := pow_le_pow_left₀ (abs_nonneg _) hsd 2
        _ = s := by exact_mod_cast congrArg NNReal.toReal (NNReal.sq_sqrt s)
    nlinarith

end Verif.Whole
