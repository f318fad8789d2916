import Verif.Whole.AnyOrder
import Verif.Whole.ExamplesTraceless

/-!
# Examples for C94
-/

namespace Verif.Whole.Example

open Verif Verif.Schema Verif.Constraint Verif.Expr Verif.Query Verif.Stability
open Verif.Budget (XNum PB Rounding)

/-- People and cities are counted for 3/2 and 1/2. -/
def twoAsks : List Ask :=
  [⟨.agg peopleCount, peopleCount_ok, .pure (3 / 2 : ℚ)⟩, ⟨cityLaplace, cityLaplace_ok, .pure (1 / 2 : ℚ)⟩]

/-- **C94**: in a session with `PureDPBudget(2)` each of the queries is answered as if it were the first one. -/
theorem C94_example (out : Relation.Output) :
    let w : Session.World Meas Tab PubFrame := Session.init (.pure (2 : ℚ)) (startTables out)
    outcomes (ctx .pureDP) w (asks 0 twoAsks) =
      twoAsks.map (fun a => (Session.step (env (ctx .pureDP)) w (.evaluate 0 (.query a.q a.hq) a.b)).1) := by
  intro w
  refine C94_each_first (ctx .pureDP) ⟨fun _ _ h => h, rfl, rfl, fun _ => le_rfl, fun _ h => h, fun _ _ h => h⟩ w 0 _ rfl 2 0 (.pure 2) twoAsks [(3 / 2, 0), (1 / 2, 0)] ?_ ?_ ?_
  · refine .cons ⟨.pure (3 / 2), rfl, ⟨?_, ?_⟩, rfl, rfl⟩ (.cons ⟨.pure (1 / 2), rfl, ⟨?_, ?_⟩, rfl, rfl⟩ .nil) <;> norm_num
  · norm_num
  · norm_num

/-- What calls in a new session cost, if they are answered. -/
noncomputable def costs (l : List Ask) : Option (List (Option PB)) :=
  match Relation.initCore (fun _ v => v) (coreMeasure .pureDP) Relation.demoA with
  | .error _ => none
  | .ok out => some ((outcomes (ctx .pureDP) (Session.init (.pure (2 : ℚ)) (startTables out)) (asks 0 l)).map
      (fun r => match r with | .ok (.answer _ b) => some b | _ => none))

/-- The queries are answered, in both orders. -/
theorem C94_example_answered : costs twoAsks = some [some (.pure (3 / 2 : ℚ)), some (.pure (1 / 2 : ℚ))] ∧
    costs twoAsks.reverse = some [some (.pure (1 / 2 : ℚ)), some (.pure (3 / 2 : ℚ))] := by
  decide +kernel

/-- That the budgets do not exceed what is left is needed: which query is refused depends on the order, and so does, within the
tolerance, which one is answered for less. -/
theorem C94_exceeded :
    costs [⟨.agg peopleCount, peopleCount_ok, .pure (3 / 2 : ℚ)⟩, ⟨cityLaplace, cityLaplace_ok, .pure (1 : ℚ)⟩] =
      some [some (.pure (3 / 2 : ℚ)), none] ∧
    costs [⟨cityLaplace, cityLaplace_ok, .pure (1 : ℚ)⟩, ⟨.agg peopleCount, peopleCount_ok, .pure (3 / 2 : ℚ)⟩] =
      some [some (.pure (1 : ℚ)), none] ∧
    costs [⟨.agg peopleCount, peopleCount_ok, .pure (1 : ℚ)⟩, ⟨cityLaplace, cityLaplace_ok, .pure (1 + 1 / 10 ^ 10 : ℚ)⟩] =
      some [some (.pure (1 : ℚ)), some (.pure (1 : ℚ))] ∧
    costs [⟨cityLaplace, cityLaplace_ok, .pure (1 + 1 / 10 ^ 10 : ℚ)⟩, ⟨.agg peopleCount, peopleCount_ok, .pure (1 : ℚ)⟩] =
      some [some (.pure (1 + 1 / 10 ^ 10 : ℚ)), some (.pure (1 - 1 / 10 ^ 10 : ℚ))] := by
  decide +kernel

/-- **C94**: with an infinite budget this needs no condition. -/
theorem C94_infinite_example (out : Relation.Output) (l : List Ask) :
    let w : Session.World Meas Tab PubFrame := Session.init (.pure ⊤) (startTables out)
    outcomes (ctx .pureDP) w (asks 0 l) =
      l.map (fun a => (Session.step (env (ctx .pureDP)) w (.evaluate 0 (.query a.q a.hq) a.b)).1) := by
  intro w
  exact C94_infinite (ctx .pureDP) w 0 _ rfl rfl l

end Verif.Whole.Example
