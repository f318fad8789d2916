import Verif.Whole.Others
import Verif.Whole.ExamplesTraceless

/-!
# Examples for C93
-/

namespace Verif.Whole.Example

open Verif Verif.Schema Verif.Constraint Verif.Expr Verif.Query Verif.Stability
open Verif.Budget (XNum PB Rounding)

/-- The cities are divided into sessions 1 and 2. -/
noncomputable def divided : Session.Op Request PubFrame Value :=
  .partition 0 "cities" (.pure (1 : ℚ)) "city" [("a", .int 0), ("b", .int 1)]

/-- The number of rows of a part. -/
def rowsOfPart (part : String) : Query := .agg ⟨.source part, .set ⟨[], [[]]⟩, .count .default, "n", none⟩

theorem rowsOfPart_ok (part : String) : Admissible (child (rowsOfPart part)) := ⟨trivial, trivial, trivial, trivial, trivial⟩

/-- Rows are counted in session 1 until the budget is used up. -/
noncomputable def inFirst : List (Session.Op Request PubFrame Value) :=
  [.evaluate 1 (.query (rowsOfPart "a") (rowsOfPart_ok "a")) (.pure (1 : ℚ)),
    .evaluate 1 (.query (rowsOfPart "a") (rowsOfPart_ok "a")) (.pure (1 : ℚ)),
    .createView 1 (.table (.source "a") (rowsOfPart_ok "a")) "v", .deleteView 1 "a"]

/-- The state of session 2 after the partition and further calls. -/
noncomputable def secondAfter (calls : List (Session.Op Request PubFrame Value)) : Option (Option Session.AState) :=
  match Relation.initCore (fun _ v => v) (coreMeasure .pureDP) Relation.demoA with
  | .error _ => none
  | .ok out => some (Session.stateOf (Session.run (env (ctx .pureDP))
      (Session.step (env (ctx .pureDP)) (Session.init (.pure (2 : ℚ)) (startTables out)) divided).2 calls) 2)

theorem secondAfter_eq : secondAfter [] = some (some .waitSibling) ∧ secondAfter inFirst = some (some .waitSibling) := by
  decide +kernel

/-- **C93**: the theorem applies to session 2 and all that was done in session 1, for all queries. -/
theorem C93_example (out : Relation.Output) (ho : Relation.initCore (fun _ v => v) .pureDP Relation.demoA = .ok out) (q : Query)
    (hq : Admissible (child q)) (b : PB) :
    let w := (Session.step (env (ctx .pureDP)) (Session.init (.pure (2 : ℚ)) (startTables out)) divided).2
    (Session.step (env (ctx .pureDP)) (Session.run (env (ctx .pureDP)) w inFirst) (.evaluate 2 (.query q hq) b)).1 =
      (Session.step (env (ctx .pureDP)) w (.evaluate 2 (.query q hq) b)).1 := by
  intro w
  obtain ⟨h1, h2⟩ := secondAfter_eq
  have ho' : Relation.initCore (fun _ v => v) (coreMeasure .pureDP) Relation.demoA = .ok out := ho
  unfold secondAfter at h1 h2
  rw [ho'] at h1 h2
  have h1 : Session.stateOf w 2 = some .waitSibling := Option.some.inj h1
  have h2 : Session.stateOf (Session.run (env (ctx .pureDP)) w inFirst) 2 = some .waitSibling := Option.some.inj h2
  obtain ⟨n, hn, _⟩ := Option.map_eq_some_iff.1 h1
  refine (C93_others (ctx := ctx .pureDP) noNoise (Relation.C34_example (fun _ v => v) .pureDP).1
    (frames_ok (by simp [Long]) (by simp [Long]) (by simp [Long])) ho (.pure (2 : ℚ)) [divided] w rfl 2 n hn inFirst ?_
    (by rw [h2]; decide) q hq ?_ b).1
  · intro op hop
    simp only [inFirst, List.mem_cons, List.not_mem_nil, or_false] at hop
    rcases hop with rfl | rfl | rfl | rfl <;> decide
  · intro op hop name hname
    simp only [inFirst, List.mem_cons, List.not_mem_nil, or_false] at hop
    rcases hop with rfl | rfl | rfl | rfl <;> cases hname

/-- Rows are counted in session 1, which has no budget for a second time, and then in session 2, which stops session 1. -/
theorem C93_example_answered :
    successes ([divided] ++ inFirst ++ [.evaluate 2 (.query (rowsOfPart "b") (rowsOfPart_ok "b")) (.pure (1 : ℚ)),
      .createView 1 (.table (.source "v") (rowsOfPart_ok "v")) "u"]) =
      some [true, true, false, true, true, true, false] := by
  decide +kernel

end Verif.Whole.Example
