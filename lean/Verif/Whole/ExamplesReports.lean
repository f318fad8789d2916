import Verif.Whole.Reports
import Verif.Whole.ExamplesAnswers

/-!
# C60: a concrete case

A session with the tables of `Relation.demoA`: a view with at most one row for each ID, split by ID, and a view in one of
the parts.
-/

namespace Verif.Whole.Example

open Verif Verif.Schema Verif.Constraint Verif.Expr Verif.Query Verif.Stability
open Verif.Budget (XNum PB Rounding)
open scoped NNReal

noncomputable def noNoise : Core := ⟨fun _ t => PMF.pure t⟩

def renamedView : Expr := .rename (.source "b") [("id", "who")]

theorem renamedView_ok : Admissible renamedView := 
  ⟨by simp [renamedView, Expr.WF, Dict.WF], trivial, by simp [renamedView, Expr.RenamesDistinct], trivial, trivial⟩

def viewCalls : List (Session.Op Request PubFrame Value) :=
  [.createView 0 (.table oneRow oneRow_ok) "v",
   .partition 0 "v" (.pure (1 : ℚ)) "id" [("a", .int 1), ("b", .int 2)],
   .createView 2 (.table renamedView renamedView_ok) "w"]

/-- The columns (with the name of the table) and the rows of all private tables of the sessions of the partition, after the calls. -/
noncomputable def tablesLater : Option (List (List (List (List (String × Value))))) :=
  match Relation.initCore (fun _ v => v) .pureDP Relation.demoA with
  | .error _ => none
  | .ok out =>
    let w := Session.run (env (ctx .pureDP)) (Session.init (.pure (2 : ℚ)) (startTables out)) viewCalls
    let data := dataAfter (ctx .pureDP) noNoise (Session.init (.pure (2 : ℚ)) (startTables out))
      (fun _ => (startRoot out, startData out)) viewCalls
    some (((List.range w.nodes.length).drop 1).map (fun i => (Composition.tablesOf w i).map (fun p =>
      (match getSchema (Composition.tablesOf w i) [] p.1 with
        | .ok d => (Dict.keys d).map (fun c => (c, .str p.1))
        | .error _ => []) :: p.2.run (data i).2)))

theorem tables_later : tablesLater = some [[[[("id", .str "a")], [("id", .int 1)]]],
    [[[("who", .str "w")], [("who", .int 2)]], [[("id", .str "b")], [("id", .int 2)]]]] := by
  decide +kernel

/-- **C60**: the theorems apply to these calls; there are three sessions after them. -/
theorem C60_example : ∃ out, Relation.initCore (fun _ v => v) .pureDP Relation.demoA = .ok out ∧
    Relation.Stored (fun _ v => v) Relation.demoA ∧ FramesOK Relation.demoA ∧
    ViewsSafe (ctx .pureDP) (Session.init (.pure (2 : ℚ)) (startTables out)) viewCalls ∧
    (Session.run (env (ctx .pureDP)) (Session.init (.pure (2 : ℚ)) (startTables out)) viewCalls).nodes.length = 3 := by
  have hs := tables_later
  unfold tablesLater at hs
  split at hs
  · cases hs
  next out ho =>
  refine ⟨out, ho, (Relation.C34_example (fun _ v => v) .pureDP).1, frames_ok (by simp [Long]) (by simp [Long]) (by simp [Long]),
    ⟨?_, ?_, ?_, trivial⟩, ?_⟩
  · intro i e ok name n cat he _ _
    cases he
    trivial
  · intro i e ok name n cat he
    cases he
  · intro i e ok name n cat he _ _
    cases he
    trivial
  · have := congrArg (fun x => x.map List.length) hs
    simp only [Option.map_some, List.length_map, List.length_drop, List.length_range, List.length_cons, List.length_nil, Option.some.injEq] at this
    omega

end Verif.Whole.Example
