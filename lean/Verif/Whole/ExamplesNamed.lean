import Verif.Whole.Named
import Verif.Whole.ExamplesInline

/-!
# Examples for C89
-/

namespace Verif.Whole.Example

open Verif Verif.Schema Verif.Constraint Verif.Expr Verif.Query Verif.Stability
open Verif.Budget (XNum PB Rounding)

/-- **C89**: people are still counted after table `rest` was deleted, and after a view was created. -/
theorem C89_example : ∃ out m amt, Relation.initCore (fun _ v => v) .pureDP Relation.demoA = .ok out ∧
    ∀ op ∈ ([.deleteView 0 "rest", .createView 0 (.table peopleCount.child peopleCount_ok) "v"] :
        List (Session.Op Request PubFrame Value)),
      (Session.step (env (ctx .pureDP)) (Session.step (env (ctx .pureDP)) (Session.init (.pure (2 : ℚ)) (startTables out)) op).2
        (.evaluate 0 (.query (.agg peopleCount) peopleCount_ok) (.pure (2 : ℚ)))).1 = .ok (.answer m amt) := by
  obtain ⟨out, m, amt, ho, hm⟩ := C62_example
  refine ⟨out, m, amt, ho, fun op hop => ?_⟩
  rw [← hm]
  obtain ⟨name, hname, hne⟩ : ∃ name, nameIn op = some (0, name) ∧ name ≠ "people" := by
    rcases List.mem_pair.1 hop with rfl | rfl
    · exact ⟨"rest", rfl, by decide⟩
    · exact ⟨"v", rfl, by decide⟩
  exact (C89_unnamed (ctx := ctx .pureDP) noNoise (Relation.C34_example (fun _ v => v) .pureDP).1
    (frames_ok (by simp [Long]) (by simp [Long]) (by simp [Long])) ho (.pure (2 : ℚ)) [] _ _ rfl op 0 name hname rfl
    (.agg peopleCount) peopleCount_ok (fun hs => hne (List.mem_singleton.1 hs)) (fun hs => nomatch hs) (.pure (2 : ℚ))).1

/-- What counting people gives in a new session after table `name` was deleted. -/
noncomputable def countAfter (name : String) : Option (Option Session.Err) :=
  match Relation.initCore (fun _ v => v) (coreMeasure .pureDP) Relation.demoA with
  | .error _ => none
  | .ok out =>
    let w := Session.step (env (ctx .pureDP)) (Session.init (.pure (2 : ℚ)) (startTables out)) (.deleteView 0 name)
    some (match (Session.step (env (ctx .pureDP)) w.2
        (.evaluate 0 (.query (.agg peopleCount) peopleCount_ok) (.pure (2 : ℚ)))).1 with
      | .ok _ => none
      | .error e => some e)

/-- The tables that the query names do matter. -/
theorem C89_named_matters : countAfter "rest" = some none ∧ countAfter "people" = some (some .valueError) := by
  decide +kernel

end Verif.Whole.Example
