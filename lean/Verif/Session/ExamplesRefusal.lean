import Verif.Session.Refusal
import Verif.Session.Examples
import Mathlib.Data.Rat.Floor

/-!
# Concrete cases for `Verif.Session.Refusal`
-/

namespace Verif.Session.Demo

open Verif.Budget Verif.Session

/-- Exact arithmetic, and rounding to thousandths. -/
def floats : Floats := ⟨id, id, fun x => (⌊x * 1000 + 1 / 2⌋ : ℚ) / 1000⟩

/-- `floats` satisfies the assumed laws. -/
theorem floats_lawful : floats.Lawful where
  up_mono _ _ h := h
  up_ge a := le_refl a
  rnd_near a := by simp [floats]; positivity
  round3_near a ha := by
    change |(⌊a * 1000 + 1 / 2⌋ : ℚ) / 1000 - a| ≤ _
    have h1 := Int.floor_le (a * 1000 + 1 / 2)
    have h2 := Int.lt_floor_add_one (a * 1000 + 1 / 2)
    have h3 : 0 ≤ a / 10 ^ 12 := by positivity
    rw [abs_le]
    constructor <;> linarith

/-- A session with ε = 1, δ = 1/1000. -/
def wa : W := init (.approx ((1 : ℚ) : XNum) ((1 / 1000 : ℚ) : XNum)) [("t", 7)]

/-- A session with ε = 1. -/
def wp : W := init (.pure ((1 : ℚ) : XNum)) [("t", 7)]

/-- Asking for ε = 3/2, δ = 1/1000: the message names ε only, with the difference 0.5. -/
theorem C83_example :
    (evaluate env wa 0 1 (.approx ((3 / 2 : ℚ) : XNum) ((1 / 1000 : ℚ) : XNum))).1 = .error .insufficientBudget ∧
    (refusalText floats env.rounding (.approx ((1 : ℚ) : XNum) ((1 / 1000 : ℚ) : XNum))
      (.approx ((3 / 2 : ℚ) : XNum) ((1 / 1000 : ℚ) : XNum))).map (·.difference) =
        some [(.epsilon, .fixed, ((1 / 2 : ℚ) : XNum))] ∧
    (∀ c x, PB.amount (.approx ((1 : ℚ) : XNum) ((1 / 1000 : ℚ) : XNum)) c = some x → 0 ≤ x ∧ Near floats env.rounding x) := by
  refine ⟨by decide +kernel, by decide +kernel, ?_⟩
  intro c x hx
  have near : ∀ a : ℚ, 0 ≤ a → 0 ≤ (a : XNum) ∧ Near floats env.rounding (a : XNum) := by
    intro a ha
    refine ⟨WithTop.coe_le_coe.mpr ha, ?_⟩
    intro a' h
    have := WithTop.coe_injective h
    subst this
    have : 0 ≤ a / 10 ^ 12 := by positivity
    refine ⟨?_, ?_⟩
    · change a ≤ _; linarith
    · change _ ≤ a; linarith
  cases c with
  | epsilon => cases hx; exact near 1 (by norm_num)
  | delta => cases hx; exact near (1 / 1000) (by norm_num)
  | rho => cases hx

/-- **C83, where the code and the claim part ways (1).** In a session with an `ApproxDPBudget`, `evaluate` with a
`PureDPBudget` that exceeds what remains raises `AnalyticsInternalError`; the same request as an `ApproxDPBudget` raises the
documented `RuntimeError`. -/
theorem C83_mixed_fails :
    (evaluate env wa 0 1 (.pure ((2 : ℚ) : XNum))).1 = .error .insufficientInternal ∧
    (evaluate env wa 0 1 (.approx ((2 : ℚ) : XNum) ((0 : ℚ) : XNum))).1 = .error .insufficientBudget := by
  decide +kernel

/-- **C83, where the code and the claim part ways (2).** Differences are rounded to thousandths before they are printed in
scientific notation: a request for ε = 1.0001 where ε = 1 remains is refused with "Difference: ε=0.000e+00". -/
theorem C83_zero_difference :
    (evaluate env wp 0 1 (.pure ((10001 / 10000 : ℚ) : XNum))).1 = .error .insufficientBudget ∧
    (refusalText floats env.rounding (.pure ((1 : ℚ) : XNum)) (.pure ((10001 / 10000 : ℚ) : XNum))).map (·.difference) =
      some [(.epsilon, .scientific, ((0 : ℚ) : XNum))] := by
  decide +kernel

end Verif.Session.Demo
