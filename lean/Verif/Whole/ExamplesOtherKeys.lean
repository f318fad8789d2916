import Verif.Whole.OtherKeys
import Verif.Whole.ExamplesTotal

/-!
# Example for C85
-/

namespace Verif.Whole.Example

open Verif Verif.Schema Verif.Constraint Verif.Expr Verif.Query Verif.Stability
open Verif.Budget (XNum PB Rounding)

/-- The number of rows by city in a new session with `PureDPBudget(2)`, for some cities: how many keys the measurement has, its
mechanism, what is charged and what remains. -/
noncomputable def countsFor (rows : List Row) : Option (Option Nat × Option CoreMech × PB × List PB) :=
  match Relation.initCore (fun _ v => v) (coreMeasure .pureDP) Relation.demoA with
  | .error _ => none
  | .ok out =>
    let w := Session.init (.pure (2 : ℚ)) (startTables out)
    let r := Session.evaluate (env (ctx .pureDP)) w 0 (Request.withRows rows (.query cityLaplace cityLaplace_ok)) (.pure (1 : ℚ))
    match r.1 with
    | .ok (.answer p amt) => some ((match p.call.keys with | .set k => some k.rows.length | .cols _ => none), p.call.mech, amt,
        r.2.nodes.map (fun n => n.remaining))
    | _ => none

/-- **C85**: for one city and for three it costs the same, with the same mechanism. -/
theorem C85_keys_example :
    countsFor [[("city", .int 1)]] = some (some 1, some .geometric, .pure (1 : ℚ), [.pure (1 : ℚ)]) ∧
      countsFor [[("city", .int 1)], [("city", .int 2)], [("city", .int 3)]] =
        some (some 3, some .geometric, .pure (1 : ℚ), [.pure (1 : ℚ)]) := by
  constructor <;> decide +kernel

/-- The noise of the same query in a new session with a budget `b`, and what `evaluate` does after it. -/
noncomputable def askedFirst (b : PB) : Option (Option CoreMech × Except Session.Err PB × Except Session.Err (List PB)) :=
  match Relation.initCore (fun _ v => v) (coreMeasure .pureDP) Relation.demoA with
  | .error _ => none
  | .ok out =>
    let w := Session.init b (startTables out)
    let e := Session.evaluate (env (ctx .pureDP)) w 0 (.query cityLaplace cityLaplace_ok) (.pure (1 : ℚ))
    let s := Session.spendOnly (env (ctx .pureDP)) w 0 (.query cityLaplace cityLaplace_ok) (.pure (1 : ℚ))
    match Session.noiseInfo (env (ctx .pureDP)) (fun m => m.call.mech) w 0 (.query cityLaplace cityLaplace_ok) (.pure (1 : ℚ)) with
    | .error _ => none
    | .ok x => some (x, (match e.1 with | .ok (.answer _ amt) => .ok amt | .ok _ => .error .internal | .error e => .error e),
        s.1.map (fun _ => s.2.nodes.map (fun n => n.remaining)))

/-- **C85**: noise is told whether the budget suffices or not; spending without executing does what `evaluate` does. -/
theorem C85_noise_example :
    askedFirst (.pure (2 : ℚ)) = some (some .geometric, .ok (.pure (1 : ℚ)), .ok [.pure (1 : ℚ)]) ∧
      askedFirst (.pure (1 / 2 : ℚ)) = some (some .geometric, .error .insufficientBudget, .error .insufficientBudget) := by
  constructor <;> decide +kernel

end Verif.Whole.Example
