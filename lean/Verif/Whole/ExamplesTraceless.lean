import Verif.Whole.Traceless
import Verif.Whole.ExamplesCommute

/-!
# Examples for C91
-/

namespace Verif.Whole.Example

open Verif Verif.Schema Verif.Constraint Verif.Expr Verif.Query Verif.Stability
open Verif.Budget (XNum PB Rounding)

/-- People are counted, `rest` is deleted, another view is made, and people are counted again; `v` is not mentioned. -/
noncomputable def otherCalls : List (Session.Op Request PubFrame Value) :=
  [.evaluate 0 (.query (.agg peopleCount) peopleCount_ok) (.pure (1 : ℚ)), .deleteView 0 "rest",
    .createView 0 (.table peopleCount.child peopleCount_ok) "u",
    .evaluate 0 (.query (.agg peopleCount) peopleCount_ok) (.pure (1 : ℚ))]

theorem otherCalls_unrelated : ∀ op ∈ otherCalls, Unrelated 0 "v" op := by
  intro op hop
  simp only [otherCalls, List.mem_cons, List.not_mem_nil, or_false] at hop
  rcases hop with rfl | rfl | rfl | rfl
  · exact .inl ⟨_, _, _, rfl, by decide, by decide⟩
  · exact .inr ⟨"rest", rfl, by decide, by decide⟩
  · exact .inr ⟨"u", rfl, by decide, by decide⟩
  · exact .inl ⟨_, _, _, rfl, by decide, by decide⟩

/-- **C91**: the theorems apply to a view that is created, and to these calls. -/
theorem C91_example : ∃ out, Relation.initCore (fun _ v => v) .pureDP Relation.demoA = .ok out ∧
    let w := Session.init (.pure (2 : ℚ)) (startTables out)
    let w₁ := (Session.step (env (ctx .pureDP)) w (.createView 0 (.table peopleCount.child peopleCount_ok) "v")).2
    outcomes (ctx .pureDP) w₁ otherCalls = outcomes (ctx .pureDP) w otherCalls ∧
    Answers (ctx .pureDP) (Session.run (env (ctx .pureDP)) w otherCalls)
      (Session.step (env (ctx .pureDP)) (Session.run (env (ctx .pureDP)) w₁ otherCalls) (.deleteView 0 "v")).2 0 := by
  obtain ⟨out, ho, hv⟩ := C62_view_example
  refine ⟨out, ho, ?_, ?_⟩
  · exact C91_unused (ctx := ctx .pureDP) noNoise (Relation.C34_example (fun _ v => v) .pureDP).1
      (frames_ok (by simp [Long]) (by simp [Long]) (by simp [Long])) ho [] _ rfl 0 _ rfl "v" _ rfl _ otherCalls_unrelated
  · exact (C91_deleted (ctx := ctx .pureDP) noNoise (Relation.C34_example (fun _ v => v) .pureDP).1
      (frames_ok (by simp [Long]) (by simp [Long]) (by simp [Long])) ho [] _ rfl 0 "v" _ _ hv _ otherCalls_unrelated).2

/-- Which of the calls in a new session succeed. -/
noncomputable def successes (calls : List (Session.Op Request PubFrame Value)) : Option (List Bool) :=
  match Relation.initCore (fun _ v => v) (coreMeasure .pureDP) Relation.demoA with
  | .error _ => none
  | .ok out => some ((outcomes (ctx .pureDP) (Session.init (.pure (2 : ℚ)) (startTables out)) calls).map
      (fun r => match r with | .ok _ => true | .error _ => false))

/-- All of the calls succeed, and no budget is left for another query. -/
theorem C91_example_answered :
    successes (otherCalls ++ [.evaluate 0 (.query (.agg peopleCount) peopleCount_ok) (.pure (1 : ℚ))]) =
      some [true, true, true, true, false] := by
  decide +kernel

/-- Calls that mention the view are affected by it. -/
theorem C91_used : rowsAfter [] = some (some .valueError) ∧
    rowsAfter [.createView 0 (.table peopleCount.child peopleCount_ok) "v"] = some none ∧
    rowsAfter [.createView 0 (.table peopleCount.child peopleCount_ok) "v", .deleteView 0 "v"] = some (some .valueError) := by
  decide +kernel

end Verif.Whole.Example
