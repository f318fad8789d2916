import Verif.Whole.OtherBudget
import Verif.Whole.ExamplesTotal

/-!
# Examples for C87
-/

namespace Verif.Whole.Example

open Verif Verif.Schema Verif.Constraint Verif.Expr Verif.Query Verif.Stability
open Verif.Budget (XNum PB Rounding)

/-- **C87**: since the people of a new session are counted for all of `PureDPBudget(2)`, they are for `PureDPBudget(1 / 2)`. -/
theorem C87_example : ∃ out m amt, Relation.initCore (fun _ v => v) .pureDP Relation.demoA = .ok out ∧
    (Session.step (env (ctx .pureDP)) (Session.init (.pure (2 : ℚ)) (startTables out))
      (.evaluate 0 (.query (.agg peopleCount) peopleCount_ok) (.pure (1 / 2 : ℚ)))).1 = .ok (.answer m amt) := by
  obtain ⟨out, m, amt, ho, h⟩ := C62_example
  have hz : ∀ q : ℚ, q ≠ 0 → ((q : XNum) = 0 ↔ False) := fun q hq =>
    ⟨fun e => hq (WithTop.coe_injective e), False.elim⟩
  have hc : Session.Comparable (.pure (2 : ℚ)) (.pure ((1 / 2 : ℚ) : XNum)) :=
    ⟨(hz 2 (by norm_num)).trans (hz (1 / 2) (by norm_num)).symm, rfl⟩
  have hle : Budget.PB.Le (.pure ((1 / 2 : ℚ) : XNum)) (.pure (2 : ℚ)) := WithTop.coe_le_coe.2 (by norm_num)
  have hp : (0 : XNum) ≤ ((1 / 2 : ℚ) : XNum) := WithTop.coe_nonneg.2 (by norm_num)
  obtain ⟨m', amt', h', -⟩ := C87_less (ctx := ctx .pureDP) noNoise (Relation.C34_example (fun _ v => v) .pureDP).1
    (frames_ok (by simp [Long]) (by simp [Long]) (by simp [Long])) ho (lawful .pureDP) (b₀ := .pure (2 : ℚ)) q2_nonneg []
    (by simp) _ rfl 0 _ _ _ hc hle q2_nonneg hp m amt h
  exact ⟨out, m', amt', ho, h'⟩

/-- The number of rows by city, with automatic keys. -/
def cityAuto : Query := .agg ⟨.source "cities", .cols ["city"], .count .default, "n", none⟩

theorem cityAuto_ok : Admissible (child cityAuto) := ⟨trivial, trivial, trivial, trivial, trivial⟩

/-- **C87**: that both budgets have a delta or none has is needed: cities can be counted with automatic keys with
`ApproxDPBudget(2, 1 / 100)`, not with `ApproxDPBudget(2, 0)`; nor is it enough that both are finite. -/
theorem C87_delta_matters :
    outcome .approxDP (.approx (2 : ℚ) (1 / 100 : ℚ)) cityAuto cityAuto_ok = some none ∧
      outcome .approxDP (.approx (2 : ℚ) (0 : ℚ)) cityAuto cityAuto_ok = some (some .valueError) ∧
      outcome .approxDP (.approx (0 : ℚ) (1 / 100 : ℚ)) cityAuto cityAuto_ok = some (some .valueError) ∧
      outcome .approxDP (.approx (1 / 2 : ℚ) (1 / 2 : ℚ)) cityAuto cityAuto_ok = some none :=
  ⟨by decide +kernel, by decide +kernel, by decide +kernel, by decide +kernel⟩

end Verif.Whole.Example
