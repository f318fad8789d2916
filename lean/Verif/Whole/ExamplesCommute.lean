import Verif.Whole.Commute
import Verif.Whole.ExamplesNamed

/-!
# Examples for C90
-/

namespace Verif.Whole.Example

open Verif Verif.Schema Verif.Constraint Verif.Expr Verif.Query Verif.Stability
open Verif.Budget (XNum PB Rounding)

/-- Two views and a deletion, of which none uses another. -/
noncomputable def threeCalls : List (Session.Op Request PubFrame Value) :=
  [.createView 0 (.table peopleCount.child peopleCount_ok) "v", .deleteView 0 "rest",
    .createView 0 (.table peopleCount.child peopleCount_ok) "u"]

theorem threeCalls_independent : threeCalls.Pairwise (Independent 0) := by
  refine .cons ?_ (.cons ?_ (.cons (fun _ h => nomatch h) .nil))
  · intro c hc
    rcases List.mem_pair.1 hc with rfl | rfl
    · exact ⟨"v", "rest", rfl, rfl, by decide, by decide, by decide⟩
    · exact ⟨"v", "u", rfl, rfl, by decide, by decide, by decide⟩
  · intro c hc
    obtain rfl := List.mem_singleton.1 hc
    exact ⟨"rest", "u", rfl, rfl, by decide, by decide, by decide⟩

/-- **C90**: these calls may be made in any order. -/
theorem C90_example (out : Relation.Output) (ho : Relation.initCore (fun _ v => v) .pureDP Relation.demoA = .ok out)
    (calls : List (Session.Op Request PubFrame Value)) (hp : threeCalls.Perm calls) :
    Answers (ctx .pureDP)
      (Session.run (env (ctx .pureDP)) (Session.init (.pure (2 : ℚ)) (startTables out)) threeCalls)
      (Session.run (env (ctx .pureDP)) (Session.init (.pure (2 : ℚ)) (startTables out)) calls) 0 := by
  refine C90_any_order (ctx := ctx .pureDP) noNoise (Relation.C34_example (fun _ v => v) .pureDP).1
    (frames_ok (by simp [Long]) (by simp [Long]) (by simp [Long])) ho [] _ rfl 0 _ rfl threeCalls calls hp ?_
    threeCalls_independent
  intro op hop
  simp only [threeCalls, List.mem_cons, List.not_mem_nil, or_false] at hop
  rcases hop with rfl | rfl | rfl
  · exact ⟨"v", rfl⟩
  · exact ⟨"rest", rfl⟩
  · exact ⟨"u", rfl⟩

/-- What counting the rows of `v` gives in a new session after some calls. -/
noncomputable def rowsAfter (calls : List (Session.Op Request PubFrame Value)) : Option (Option Session.Err) :=
  match Relation.initCore (fun _ v => v) (coreMeasure .pureDP) Relation.demoA with
  | .error _ => none
  | .ok out =>
    let w := Session.run (env (ctx .pureDP)) (Session.init (.pure (2 : ℚ)) (startTables out)) calls
    some (match (Session.step (env (ctx .pureDP)) w (.evaluate 0 (.query rowsOfV rowsOfV_ok) (.pure (2 : ℚ)))).1 with
      | .ok _ => none
      | .error e => some e)

/-- The rows of the view are counted in any order of these calls. -/
theorem C90_example_answered : rowsAfter threeCalls = some none ∧ rowsAfter threeCalls.reverse = some none := by
  decide +kernel

/-- The order does matter when the table of the view is deleted: made before, the view stays; after, it is not created. -/
theorem C90_dependent :
    rowsAfter [.createView 0 (.table peopleCount.child peopleCount_ok) "v", .deleteView 0 "people"] = some none ∧
    rowsAfter [.deleteView 0 "people", .createView 0 (.table peopleCount.child peopleCount_ok) "v"] =
      some (some .valueError) := by
  decide +kernel

end Verif.Whole.Example
