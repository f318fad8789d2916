import Mathlib.Probability.ProbabilityMassFunction.Monad
import Mathlib.Analysis.MeanInequalities
import Mathlib.Topology.Algebra.InfiniteSum.ENNReal

/-!
# C50: closeness of distributions and sequential composition

The three privacy definitions for a pair of distributions, as in the literature, and how they behave when the second
distribution is chosen depending on the outcome of the first.
-/

namespace Verif.Composition

open scoped ENNReal NNReal

variable {A B : Type}

/-- Pure differential privacy: no outcome is more likely by a factor above `exp ε`. -/
def PureClose (ε : ℝ) (P Q : PMF A) : Prop := ∀ a, P a ≤ ENNReal.ofReal (Real.exp ε) * Q a

/-- Approximate differential privacy: the same for events, up to `δ`. -/
def ApproxClose (ε δ : ℝ) (P Q : PMF A) : Prop :=
  ∀ S : Set A, P.toOuterMeasure S ≤ ENNReal.ofReal (Real.exp ε) * Q.toOuterMeasure S + ENNReal.ofReal δ

/-- Zero-concentrated differential privacy: the Rényi divergence of every order `α` is at most `α ρ`. -/
def ZCDPClose (ρ : ℝ) (P Q : PMF A) : Prop :=
  ∀ α : ℝ, 1 < α → ∑' a, P a ^ α * Q a ^ (1 - α) ≤ ENNReal.ofReal (Real.exp ((α - 1) * α * ρ))

/-! ## Pure -/

theorem PureClose.refl (P : PMF A) : PureClose 0 P P := by
  intro a; simp

theorem PureClose.mono {ε ε' : ℝ} {P Q : PMF A} (h : PureClose ε P Q) (hε : ε ≤ ε') : PureClose ε' P Q := by
  intro a
  refine (h a).trans (mul_le_mul' ?_ le_rfl)
  exact ENNReal.ofReal_le_ofReal (Real.exp_le_exp.2 hε)

theorem exp_add_ofReal (x y : ℝ) : ENNReal.ofReal (Real.exp (x + y)) =
    ENNReal.ofReal (Real.exp x) * ENNReal.ofReal (Real.exp y) := by
  rw [Real.exp_add, ENNReal.ofReal_mul (Real.exp_pos x).le]

theorem PureClose.bind {ε ε' : ℝ} {P Q : PMF A} {f g : A → PMF B} (h : PureClose ε P Q)
    (hf : ∀ a, PureClose ε' (f a) (g a)) : PureClose (ε + ε') (P.bind f) (Q.bind g) := by
  intro b
  rw [PMF.bind_apply, PMF.bind_apply, ← ENNReal.tsum_mul_left]
  refine ENNReal.tsum_le_tsum fun a => ?_
  refine (mul_le_mul' (h a) (hf a b)).trans (le_of_eq ?_)
  rw [exp_add_ofReal]
  ring

/-! ## Approximate -/

/-- The same definition with `[0, 1]`-valued tests in place of events. -/
theorem approxClose_iff {ε δ : ℝ} {P Q : PMF A} : ApproxClose ε δ P Q ↔ ∀ φ : A → ℝ≥0∞, (∀ a, φ a ≤ 1) →
    ∑' a, P a * φ a ≤ ENNReal.ofReal (Real.exp ε) * ∑' a, Q a * φ a + ENNReal.ofReal δ := by
  classical
  unfold ApproxClose
  generalize ENNReal.ofReal δ = d
  set c := ENNReal.ofReal (Real.exp ε) with hc
  have hct : c ≠ ⊤ := ENNReal.ofReal_ne_top
  have ind : ∀ (P : PMF A) (S : Set A), ∑' a, P a * S.indicator 1 a = P.toOuterMeasure S := by
    intro P S
    rw [PMF.toOuterMeasure_apply]
    refine tsum_congr fun a => ?_
    by_cases ha : a ∈ S <;> simp [ha]
  constructor
  · intro h φ hφ
    set S : Set A := {a | c * Q a ≤ P a} with hS
    have hd : ∑' a, (P a - c * Q a) ≤ d := by
      have e1 : ∑' a, (P a - c * Q a) = ∑' a, (S.indicator P a - S.indicator (fun a => c * Q a) a) := by
        refine tsum_congr fun a => ?_
        by_cases ha : a ∈ S
        · simp [ha]
        · simp only [ha, not_false_eq_true, Set.indicator_of_notMem, tsub_zero]
          exact tsub_eq_zero_of_le (le_of_lt (not_le.1 ha))
      have hfin : ∑' a, S.indicator (fun a => c * Q a) a ≠ ⊤ := by
        refine ne_top_of_le_ne_top (b := c * ∑' a, Q a) ?_ ?_
        · rw [Q.tsum_coe]; simpa using hct
        · rw [← ENNReal.tsum_mul_left]
          exact ENNReal.tsum_le_tsum fun a => Set.indicator_le_self S (fun a => c * Q a) a
      have e2 : ∑' a, S.indicator (fun a => c * Q a) a +
          ∑' a, (S.indicator P a - S.indicator (fun a => c * Q a) a) = ∑' a, S.indicator P a := by
        rw [← ENNReal.tsum_add]
        refine tsum_congr fun a => add_tsub_cancel_of_le ?_
        by_cases ha : a ∈ S
        · simp only [ha, Set.indicator_of_mem]
          exact ha
        · simp [ha]
      have e3 : c * ∑' a, S.indicator Q a = ∑' a, S.indicator (fun a => c * Q a) a := by
        rw [← ENNReal.tsum_mul_left]
        refine tsum_congr fun a => ?_
        by_cases ha : a ∈ S <;> simp [ha]
      have := h S
      rw [PMF.toOuterMeasure_apply, PMF.toOuterMeasure_apply, e3, ← e2] at this
      rw [e1]
      exact (ENNReal.add_le_add_iff_left hfin).1 this
    calc ∑' a, P a * φ a ≤ ∑' a, (c * (Q a * φ a) + (P a - c * Q a)) := by
          refine ENNReal.tsum_le_tsum fun a => ?_
          have h1 : P a ≤ c * Q a + (P a - c * Q a) := le_add_tsub
          calc P a * φ a ≤ (c * Q a + (P a - c * Q a)) * φ a := mul_le_mul' h1 le_rfl
            _ = c * (Q a * φ a) + (P a - c * Q a) * φ a := by ring
            _ ≤ c * (Q a * φ a) + (P a - c * Q a) * 1 := by gcongr; exact hφ a
            _ = _ := by rw [mul_one]
      _ = c * ∑' a, Q a * φ a + ∑' a, (P a - c * Q a) := by rw [ENNReal.tsum_add, ENNReal.tsum_mul_left]
      _ ≤ _ := by gcongr
  · intro h S
    rw [← ind P S, ← ind Q S]
    refine h _ fun a => ?_
    by_cases ha : a ∈ S <;> simp [ha]

theorem ApproxClose.refl (P : PMF A) : ApproxClose 0 0 P P := by
  intro S; simp

theorem ApproxClose.mono {ε ε' δ δ' : ℝ} {P Q : PMF A} (h : ApproxClose ε δ P Q) (hε : ε ≤ ε') (hδ : δ ≤ δ') :
    ApproxClose ε' δ' P Q := by
  intro S
  refine (h S).trans (add_le_add (mul_le_mul' ?_ le_rfl) (ENNReal.ofReal_le_ofReal hδ))
  exact ENNReal.ofReal_le_ofReal (Real.exp_le_exp.2 hε)

theorem ApproxClose.bind {ε ε' δ δ' : ℝ} (hδ : 0 ≤ δ) (hδ' : 0 ≤ δ') {P Q : PMF A} {f g : A → PMF B}
    (h : ApproxClose ε δ P Q) (hf : ∀ a, ApproxClose ε' δ' (f a) (g a)) :
    ApproxClose (ε + ε') (δ + δ') (P.bind f) (Q.bind g) := by
  rw [approxClose_iff] at h ⊢
  simp only [approxClose_iff] at hf
  intro φ hφ
  have swap : ∀ (P : PMF A) (f : A → PMF B), ∑' b, P.bind f b * φ b = ∑' a, P a * ∑' b, f a b * φ b := by
    intro P f
    simp only [PMF.bind_apply, ← ENNReal.tsum_mul_right, ← ENNReal.tsum_mul_left]
    rw [ENNReal.tsum_comm]
    simp only [mul_assoc]
  rw [swap, swap, exp_add_ofReal, ENNReal.ofReal_add hδ hδ']
  set c := ENNReal.ofReal (Real.exp ε)
  set c' := ENNReal.ofReal (Real.exp ε')
  have one : ∀ (f : PMF B), ∑' b, f b * φ b ≤ 1 := by
    intro f
    calc ∑' b, f b * φ b ≤ ∑' b, f b * 1 := ENNReal.tsum_le_tsum fun b => by gcongr; exact hφ b
      _ = 1 := by simp [f.tsum_coe]
  have step : ∀ a, ∑' b, f a b * φ b ≤ min 1 (c' * ∑' b, g a b * φ b) + ENNReal.ofReal δ' := by
    intro a
    rcases le_total 1 (c' * ∑' b, g a b * φ b) with hle | hle
    · rw [min_eq_left hle]
      exact (one (f a)).trans le_self_add
    · rw [min_eq_right hle]
      exact hf a φ hφ
  calc ∑' a, P a * ∑' b, f a b * φ b
      ≤ ∑' a, (P a * min 1 (c' * ∑' b, g a b * φ b) + P a * ENNReal.ofReal δ') := by
        refine ENNReal.tsum_le_tsum fun a => ?_
        rw [← mul_add]
        gcongr
        exact step a
    _ = ∑' a, P a * min 1 (c' * ∑' b, g a b * φ b) + ENNReal.ofReal δ' := by
        rw [ENNReal.tsum_add, ENNReal.tsum_mul_right, P.tsum_coe, one_mul]
    _ ≤ (c * ∑' a, Q a * min 1 (c' * ∑' b, g a b * φ b) + ENNReal.ofReal δ) + ENNReal.ofReal δ' := by
        gcongr
        exact h _ fun a => min_le_left _ _
    _ ≤ (c * ∑' a, Q a * (c' * ∑' b, g a b * φ b) + ENNReal.ofReal δ) + ENNReal.ofReal δ' := by
        gcongr
        exact min_le_right _ _
    _ = c * c' * ∑' a, Q a * ∑' b, g a b * φ b + (ENNReal.ofReal δ + ENNReal.ofReal δ') := by
        have e : ∑' a, Q a * (c' * ∑' b, g a b * φ b) = c' * ∑' a, Q a * ∑' b, g a b * φ b := by
          rw [← ENNReal.tsum_mul_left]
          exact tsum_congr fun a => by ring
        rw [e, add_assoc, mul_assoc]

/-! ## Zero-concentrated -/

/-- Adding up makes the Rényi moment smaller. -/
theorem moment_sum_le {α : ℝ} (hα : 1 < α) (u v : A → ℝ≥0∞) (hv : ∑' a, v a ≠ ⊤) :
    (∑' a, u a) ^ α * (∑' a, v a) ^ (1 - α) ≤ ∑' a, u a ^ α * v a ^ (1 - α) := by
  have h0 : 0 < α := by linarith
  by_cases hR : ∑' a, u a ^ α * v a ^ (1 - α) = ⊤
  · rw [hR]; exact le_top
  have hzero : ∀ a, v a = 0 → u a = 0 := by
    intro a ha
    by_contra hu
    apply hR
    refine ENNReal.tsum_eq_top_of_eq_top ⟨a, ?_⟩
    rw [ha, ENNReal.zero_rpow_of_neg (by linarith), ENNReal.mul_top]
    simp [ENNReal.rpow_eq_zero_iff, hu, h0.not_gt]
  by_cases hV : ∑' a, v a = 0
  · have hu : ∀ a, u a = 0 := fun a => hzero a (ENNReal.tsum_eq_zero.1 hV a)
    simp [hu, h0]
  have hvt : ∀ a, v a ≠ ⊤ := ENNReal.ne_top_of_tsum_ne_top hv
  set R := ∑' a, u a ^ α * v a ^ (1 - α)
  set V := ∑' a, v a
  have key : ∑' a, u a ≤ R ^ (1 / α) * V ^ ((α - 1) / α) := by
    rw [ENNReal.tsum_eq_iSup_sum]
    refine iSup_le fun s => ?_
    have hpq : α.HolderConjugate (α / (α - 1)) := Real.HolderConjugate.conjExponent hα
    have e : ∀ a, u a = (u a * v a ^ ((1 - α) / α)) * v a ^ ((α - 1) / α) := by
      intro a
      by_cases ha : v a = 0
      · rw [hzero a ha]; simp
      · rw [mul_assoc, ← ENNReal.rpow_add _ _ ha (hvt a), ← add_div]
        simp
    calc ∑ a ∈ s, u a = ∑ a ∈ s, (u a * v a ^ ((1 - α) / α)) * v a ^ ((α - 1) / α) :=
          Finset.sum_congr rfl fun a _ => e a
      _ ≤ (∑ a ∈ s, (u a * v a ^ ((1 - α) / α)) ^ α) ^ (1 / α) *
          (∑ a ∈ s, (v a ^ ((α - 1) / α)) ^ (α / (α - 1))) ^ (1 / (α / (α - 1))) :=
          ENNReal.inner_le_Lp_mul_Lq s _ _ hpq
      _ = (∑ a ∈ s, u a ^ α * v a ^ (1 - α)) ^ (1 / α) * (∑ a ∈ s, v a) ^ ((α - 1) / α) := by
          have h1 : (α - 1) / α * (α / (α - 1)) = 1 := by
            have : α - 1 ≠ 0 := by linarith
            field_simp
          congr 2
          · refine Finset.sum_congr rfl fun a _ => ?_
            rw [ENNReal.mul_rpow_of_nonneg _ _ h0.le, ← ENNReal.rpow_mul, div_mul_cancel₀ _ h0.ne']
          · refine Finset.sum_congr rfl fun a _ => ?_
            rw [← ENNReal.rpow_mul, h1, ENNReal.rpow_one]
          · rw [one_div_div]
      _ ≤ R ^ (1 / α) * V ^ ((α - 1) / α) := by
          gcongr
          · exact ENNReal.sum_le_tsum s
          · exact ENNReal.sum_le_tsum s
  calc (∑' a, u a) ^ α * V ^ (1 - α) ≤ (R ^ (1 / α) * V ^ ((α - 1) / α)) ^ α * V ^ (1 - α) := by
        gcongr
    _ = R := by
        rw [ENNReal.mul_rpow_of_nonneg _ _ h0.le, ← ENNReal.rpow_mul, ← ENNReal.rpow_mul, one_div_mul_cancel h0.ne',
          div_mul_cancel₀ _ h0.ne', ENNReal.rpow_one, mul_assoc, ← ENNReal.rpow_add _ _ hV hv]
        simp
    _ ≤ _ := le_rfl

theorem ZCDPClose.refl (P : PMF A) : ZCDPClose 0 P P := by
  intro α hα
  simp only [mul_zero, Real.exp_zero, ENNReal.ofReal_one]
  rw [← P.tsum_coe]
  refine ENNReal.tsum_le_tsum fun a => ?_
  by_cases h : P a = 0
  · rw [h, ENNReal.zero_rpow_of_pos (by linarith), zero_mul]
  · rw [← ENNReal.rpow_add _ _ h (P.apply_ne_top a)]
    simp

theorem ZCDPClose.mono {ρ ρ' : ℝ} {P Q : PMF A} (h : ZCDPClose ρ P Q) (hρ : ρ ≤ ρ') : ZCDPClose ρ' P Q := by
  intro α hα
  refine (h α hα).trans (ENNReal.ofReal_le_ofReal (Real.exp_le_exp.2 ?_))
  have : 0 ≤ (α - 1) * α := by nlinarith
  exact mul_le_mul_of_nonneg_left hρ this

theorem ZCDPClose.bind {ρ ρ' : ℝ} {P Q : PMF A} {f g : A → PMF B} (h : ZCDPClose ρ P Q)
    (hf : ∀ a, ZCDPClose ρ' (f a) (g a)) : ZCDPClose (ρ + ρ') (P.bind f) (Q.bind g) := by
  intro α hα
  calc ∑' b, P.bind f b ^ α * Q.bind g b ^ (1 - α)
      ≤ ∑' b, ∑' a, (P a * f a b) ^ α * (Q a * g a b) ^ (1 - α) := by
        refine ENNReal.tsum_le_tsum fun b => ?_
        rw [PMF.bind_apply, PMF.bind_apply]
        refine moment_sum_le hα _ _ ?_
        rw [← PMF.bind_apply]
        exact PMF.apply_ne_top _ _
    _ = ∑' a, P a ^ α * Q a ^ (1 - α) * ∑' b, f a b ^ α * g a b ^ (1 - α) := by
        rw [ENNReal.tsum_comm]
        refine tsum_congr fun a => ?_
        rw [← ENNReal.tsum_mul_left]
        refine tsum_congr fun b => ?_
        rw [ENNReal.mul_rpow_of_ne_top (P.apply_ne_top a) ((f a).apply_ne_top b),
          ENNReal.mul_rpow_of_ne_top (Q.apply_ne_top a) ((g a).apply_ne_top b)]
        ring
    _ ≤ ∑' a, P a ^ α * Q a ^ (1 - α) * ENNReal.ofReal (Real.exp ((α - 1) * α * ρ')) := by
        refine ENNReal.tsum_le_tsum fun a => ?_
        gcongr
        exact hf a α hα
    _ ≤ ENNReal.ofReal (Real.exp ((α - 1) * α * ρ)) * ENNReal.ofReal (Real.exp ((α - 1) * α * ρ')) := by
        rw [ENNReal.tsum_mul_right]
        gcongr
        exact h α hα
    _ = _ := by rw [mul_add, exp_add_ofReal]

end Verif.Composition
