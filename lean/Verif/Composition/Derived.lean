import Verif.Composition.Props
import Mathlib.Analysis.SpecialFunctions.Pow.Continuity
import Mathlib.Topology.Order.OrderClosed

/-!
# C78, C79: what follows from closeness of distributions

Whatever is computed from an outcome, with or without further randomness, is as private as the outcome. Closeness of
neighbours gives closeness of what is several steps apart.
-/

namespace Verif.Composition

open scoped ENNReal NNReal
open Verif.Budget

variable {A B : Type}

/-! ## Functions of outcomes -/

/-- Post-processing. -/
theorem within_bind {b : PB} {s : ℝ≥0} {P Q : PMF A} (h : Within b s P Q) (g : A → PMF B) (hb : b.Valid) :
    Within b s (P.bind g) (Q.bind g) := by
  intro hf
  have h := h hf
  cases b with
  | pure ε =>
    have := PureClose.bind h (fun a => PureClose.refl (g a))
    rwa [add_zero] at this
  | approx ε δ =>
    have hδ : 0 ≤ (s : ℝ) * num δ := by
      have := num_nonneg hb.2.1
      positivity
    have := ApproxClose.bind hδ le_rfl h (fun a => ApproxClose.refl (g a))
    rwa [add_zero, add_zero] at this
  | zcdp ρ =>
    have := ZCDPClose.bind h (fun a => ZCDPClose.refl (g a))
    rwa [add_zero] at this

/-! ## Several steps -/

theorem PureClose.trans {ε ε' : ℝ} {P R Q : PMF A} (h : PureClose ε P R) (h' : PureClose ε' R Q) :
    PureClose (ε + ε') P Q := by
  intro a
  rw [exp_add_ofReal, mul_assoc]
  exact (h a).trans (mul_le_mul' le_rfl (h' a))

theorem ApproxClose.trans {ε ε' δ δ' : ℝ} (hδ : 0 ≤ δ) (hδ' : 0 ≤ δ') {P R Q : PMF A} (h : ApproxClose ε δ P R)
    (h' : ApproxClose ε' δ' R Q) : ApproxClose (ε + ε') (δ + Real.exp ε * δ') P Q := by
  intro S
  refine (h S).trans ?_
  rw [exp_add_ofReal, ENNReal.ofReal_add hδ (by positivity), ENNReal.ofReal_mul (Real.exp_pos ε).le]
  calc _ ≤ ENNReal.ofReal (Real.exp ε) * (ENNReal.ofReal (Real.exp ε') * Q.toOuterMeasure S + ENNReal.ofReal δ') +
        ENNReal.ofReal δ := by gcongr; exact h' S
    _ = _ := by ring

theorem exp_rpow (x y : ℝ) : ENNReal.ofReal (Real.exp x) ^ y = ENNReal.ofReal (Real.exp (x * y)) := by
  rw [ENNReal.ofReal_rpow_of_pos (Real.exp_pos x), Real.exp_mul]

/-- Hölder's inequality for the moments of three distributions. -/
theorem moment_trans {α k : ℝ} (hα : 1 < α) (hk : 1 < k) (P R Q : PMF A)
    (h1 : ∑' a, P a ^ ((k * α - 1) / (k - 1)) * R a ^ (1 - (k * α - 1) / (k - 1)) ≠ ⊤)
    (h2 : ∑' a, R a ^ (k * α) * Q a ^ (1 - k * α) ≠ ⊤) :
    ∑' a, P a ^ α * Q a ^ (1 - α) ≤
      (∑' a, P a ^ ((k * α - 1) / (k - 1)) * R a ^ (1 - (k * α - 1) / (k - 1))) ^ (α * (k - 1) / (k * α - 1)) *
      (∑' a, R a ^ (k * α) * Q a ^ (1 - k * α)) ^ ((α - 1) / (k * α - 1)) := by
  have hkα : 1 < k * α := by nlinarith
  have d0 : k * α - 1 ≠ 0 := by linarith
  have d1 : k - 1 ≠ 0 := by linarith
  have d2 : α ≠ 0 := by linarith
  have d3 : α - 1 ≠ 0 := by linarith
  set β := (k * α - 1) / (k - 1) with hβ
  have hβ1 : 1 < β := by
    rw [hβ, lt_div_iff₀ (by linarith)]
    nlinarith
  set p := β / α with hp
  set q := (k * α - 1) / (α - 1) with hq
  have ep : 1 / p = α * (k - 1) / (k * α - 1) := by
    rw [hp, hβ]; field_simp
  have eq' : 1 / q = (α - 1) / (k * α - 1) := by
    rw [hq]; field_simp
  have p0 : 0 < p := by rw [hp]; positivity
  have q0 : 0 < q := by rw [hq]; exact div_pos (by linarith) (by linarith)
  have hpq : p.HolderConjugate q := by
    rw [Real.holderConjugate_iff]
    refine ⟨?_, ?_⟩
    · rw [hp, hβ, lt_div_iff₀ (by linarith), lt_div_iff₀ (by linarith)]
      nlinarith
    · rw [← one_div, ← one_div, ep, eq', ← add_div, div_eq_one_iff_eq d0]
      ring
  have zero1 : ∀ a, R a = 0 → P a = 0 := by
    intro a ha
    by_contra hu
    apply h1
    refine ENNReal.tsum_eq_top_of_eq_top ⟨a, ?_⟩
    rw [ha, ENNReal.zero_rpow_of_neg (by linarith), ENNReal.mul_top]
    simp [ENNReal.rpow_eq_zero_iff, hu, (show ¬ β < 0 by linarith)]
  have zero2 : ∀ a, Q a = 0 → R a = 0 := by
    intro a ha
    by_contra hu
    apply h2
    refine ENNReal.tsum_eq_top_of_eq_top ⟨a, ?_⟩
    rw [ha, ENNReal.zero_rpow_of_neg (by linarith), ENNReal.mul_top]
    simp [ENNReal.rpow_eq_zero_iff, hu, (show ¬ k * α < 0 by linarith)]
  have term : ∀ a, P a ^ α * Q a ^ (1 - α) =
      (P a ^ β * R a ^ (1 - β)) ^ (1 / p) * (R a ^ (k * α) * Q a ^ (1 - k * α)) ^ (1 / q) := by
    intro a
    by_cases hR : R a = 0
    · rw [zero1 a hR, ENNReal.zero_rpow_of_pos (by linarith), ENNReal.zero_rpow_of_pos (by linarith), zero_mul, zero_mul,
        ENNReal.zero_rpow_of_pos (by positivity), zero_mul]
    · have hQ : Q a ≠ 0 := fun h => hR (zero2 a h)
      have tP := P.apply_ne_top a
      have tR := R.apply_ne_top a
      have tQ := Q.apply_ne_top a
      rw [ENNReal.mul_rpow_of_nonneg _ _ (by positivity : 0 ≤ 1 / p), ENNReal.mul_rpow_of_nonneg _ _ (by positivity : 0 ≤ 1 / q),
        ← ENNReal.rpow_mul, ← ENNReal.rpow_mul, ← ENNReal.rpow_mul, ← ENNReal.rpow_mul]
      have e1 : β * (1 / p) = α := by rw [hp]; field_simp
      have e2 : (1 - β) * (1 / p) + k * α * (1 / q) = 0 := by
        rw [ep, eq', hβ]; field_simp; ring
      have e3 : (1 - k * α) * (1 / q) = 1 - α := by rw [eq']; field_simp; ring
      rw [e1, e3]
      calc P a ^ α * Q a ^ (1 - α) = P a ^ α * R a ^ ((1 - β) * (1 / p) + k * α * (1 / q)) * Q a ^ (1 - α) := by
            rw [e2, ENNReal.rpow_zero, mul_one]
        _ = _ := by rw [ENNReal.rpow_add _ _ hR tR]; ring
  rw [← ep, ← eq', ENNReal.tsum_eq_iSup_sum]
  refine iSup_le fun s => ?_
  have inv : ∀ (x : ℝ≥0∞) (r : ℝ), 0 < r → (x ^ (1 / r)) ^ r = x := by
    intro x r hr
    rw [← ENNReal.rpow_mul, one_div_mul_cancel hr.ne', ENNReal.rpow_one]
  calc ∑ a ∈ s, P a ^ α * Q a ^ (1 - α)
      = ∑ a ∈ s, (P a ^ β * R a ^ (1 - β)) ^ (1 / p) * (R a ^ (k * α) * Q a ^ (1 - k * α)) ^ (1 / q) :=
        Finset.sum_congr rfl fun a _ => term a
    _ ≤ (∑ a ∈ s, ((P a ^ β * R a ^ (1 - β)) ^ (1 / p)) ^ p) ^ (1 / p) *
        (∑ a ∈ s, ((R a ^ (k * α) * Q a ^ (1 - k * α)) ^ (1 / q)) ^ q) ^ (1 / q) := ENNReal.inner_le_Lp_mul_Lq s _ _ hpq
    _ = (∑ a ∈ s, P a ^ β * R a ^ (1 - β)) ^ (1 / p) * (∑ a ∈ s, R a ^ (k * α) * Q a ^ (1 - k * α)) ^ (1 / q) := by
        simp only [inv _ p p0, inv _ q q0]
    _ ≤ _ := by
        gcongr
        · exact ENNReal.sum_le_tsum s
        · exact ENNReal.sum_le_tsum s

theorem ZCDPClose.trans_pos {a b : ℝ} (ha : 0 < a) (hb : 0 < b) {P R Q : PMF A} (h : ZCDPClose (a ^ 2) P R)
    (h' : ZCDPClose (b ^ 2) R Q) : ZCDPClose ((a + b) ^ 2) P Q := by
  intro α hα
  set k := (a + b) / b with hk
  have k1 : k - 1 = a / b := by rw [hk]; field_simp; ring
  have hk1 : 1 < k := by
    have : 0 < k - 1 := by rw [k1]; positivity
    linarith
  have hkα : 1 < k * α := by nlinarith
  have hβ : 1 < (k * α - 1) / (k - 1) := by
    rw [lt_div_iff₀ (by linarith)]
    nlinarith
  have m1 := h _ hβ
  have m2 := h' _ hkα
  refine (moment_trans hα hk1 P R Q (ne_top_of_le_ne_top ENNReal.ofReal_ne_top m1)
    (ne_top_of_le_ne_top ENNReal.ofReal_ne_top m2)).trans ?_
  have e1 : 0 ≤ α * (k - 1) / (k * α - 1) := by
    have : 0 < k - 1 := by linarith
    have : 0 < k * α - 1 := by linarith
    positivity
  have e2 : 0 ≤ (α - 1) / (k * α - 1) := div_nonneg (by linarith) (by linarith)
  refine (mul_le_mul' (ENNReal.rpow_le_rpow m1 e1) (ENNReal.rpow_le_rpow m2 e2)).trans (le_of_eq ?_)
  rw [exp_rpow, exp_rpow, ← exp_add_ofReal]
  congr 2
  have d0 : k * α - 1 ≠ 0 := by linarith
  have d1 : k - 1 ≠ 0 := by linarith
  have : ((k * α - 1) / (k - 1) - 1) * ((k * α - 1) / (k - 1)) * a ^ 2 * (α * (k - 1) / (k * α - 1)) +
      (k * α - 1) * (k * α) * b ^ 2 * ((α - 1) / (k * α - 1)) = (α - 1) * α * (k * (a ^ 2 / (k - 1) + b ^ 2)) := by
    field_simp
    ring
  rw [this, k1, hk]
  have : b ≠ 0 := hb.ne'
  have : a ≠ 0 := ha.ne'
  field_simp

theorem ZCDPClose.trans {a b : ℝ} (ha : 0 ≤ a) (hb : 0 ≤ b) {P R Q : PMF A} (h : ZCDPClose (a ^ 2) P R)
    (h' : ZCDPClose (b ^ 2) R Q) : ZCDPClose ((a + b) ^ 2) P Q := by
  intro α hα
  have key : ∀ η : ℝ, 0 < η → ∑' x, P x ^ α * Q x ^ (1 - α) ≤
      ENNReal.ofReal (Real.exp ((α - 1) * α * ((a + η) + (b + η)) ^ 2)) := by
    intro η hη
    exact ZCDPClose.trans_pos (by linarith) (by linarith) (h.mono (by nlinarith)) (h'.mono (by nlinarith)) α hα
  have cont : Continuous (fun η : ℝ => ENNReal.ofReal (Real.exp ((α - 1) * α * ((a + η) + (b + η)) ^ 2))) := by
    refine ENNReal.continuous_ofReal.comp (Real.continuous_exp.comp ?_)
    fun_prop
  have lim := (cont.tendsto 0).mono_left (nhdsWithin_le_nhds (s := Set.Ioi 0))
  have := ge_of_tendsto lim (Filter.eventually_of_mem self_mem_nhdsWithin fun η hη => key η hη)
  simpa using this

/-! ## Chains -/

/-- What `k` steps of neighbours promise. -/
def Promise (b : PB) (k : ℕ) (P Q : PMF A) : Prop :=
  b.isInfinite = false →
    match b with
    | .pure ε => PureClose (k * num ε) P Q
    | .approx ε δ => ApproxClose (k * num ε) ((∑ i ∈ Finset.range k, Real.exp (i * num ε)) * num δ) P Q
    | .zcdp ρ => ZCDPClose (k ^ 2 * num ρ) P Q

theorem Promise.zero (b : PB) (P : PMF A) : Promise b 0 P P := by
  intro _
  cases b with
  | pure ε => simpa using PureClose.refl P
  | approx ε δ => simpa using ApproxClose.refl P
  | zcdp ρ => simpa using ZCDPClose.refl P

theorem Promise.succ {b : PB} (hb : b.Valid) {k : ℕ} {P R Q : PMF A} (h : Promise b k P R) (h' : Within b 1 R Q) :
    Promise b (k + 1) P Q := by
  intro hf
  have h := h hf
  have h' := h' hf
  cases b with
  | pure ε =>
    have := PureClose.trans h h'
    refine this.mono (le_of_eq ?_)
    push_cast
    ring
  | approx ε δ =>
    have d0 : 0 ≤ num δ := num_nonneg hb.2.1
    have := ApproxClose.trans (mul_nonneg (Finset.sum_nonneg fun _ _ => (Real.exp_pos _).le) d0) (by simpa using d0) h h'
    refine this.mono (le_of_eq ?_) (le_of_eq ?_)
    · push_cast
      ring
    · rw [Finset.sum_range_succ]
      simp only [NNReal.coe_one, one_mul]
      ring
  | zcdp ρ =>
    have r0 : 0 ≤ num ρ := num_nonneg hb
    have e1 : (k : ℝ) ^ 2 * num ρ = (k * Real.sqrt (num ρ)) ^ 2 := by rw [mul_pow, Real.sq_sqrt r0]
    have e2 : ((1 : ℝ≥0) : ℝ) * num ρ = (Real.sqrt (num ρ)) ^ 2 := by rw [Real.sq_sqrt r0]; simp
    have h : ZCDPClose ((k : ℝ) ^ 2 * num ρ) P R := h
    have h' : ZCDPClose (((1 : ℝ≥0) : ℝ) * num ρ) R Q := h'
    rw [e1] at h
    rw [e2] at h'
    have := ZCDPClose.trans (by positivity) (Real.sqrt_nonneg _) h h'
    refine this.mono (le_of_eq ?_)
    rw [show (k : ℝ) * Real.sqrt (num ρ) + Real.sqrt (num ρ) = (k + 1) * Real.sqrt (num ρ) by ring, mul_pow, Real.sq_sqrt r0]
    push_cast
    ring

end Verif.Composition
