import Verif.Nested.History
import Verif.Whole.ExamplesReports

/-!
# C65: a concrete case

A session with the tables of `Relation.demoA`: a persisted view of a table with IDs, a table is deleted, the view is split
by ID, and a view is made in one of the parts.
-/

namespace Verif.Nested.Example

open Verif Verif.Schema Verif.Constraint Verif.Expr Verif.Query Verif.Whole.Example
open Verif.Relation (Ident Ref)
open Verif.Whole (Request PubFrame startTables FramesOK)
open Verif.Budget (PB)

/-- A core that neither makes empty dictionaries nor joins tables with themselves. -/
def core : Core := ⟨fun used => used.sum + 1, false, false⟩

theorem core_lawful : core.Lawful := by
  intro used h
  have : used.sum + 1 ≤ used.sum := List.le_sum_of_mem h
  omega

def calls : List (Session.Op Request PubFrame Value × Bool) :=
  [(.createView 0 (.table oneRow oneRow_ok) "v", true),
   (.deleteView 0 "rest", false),
   (.partition 0 "v" (.pure (1 : ℚ)) "id" [("a", .int 1), ("b", .int 2)], false),
   (.createView 2 (.table renamedView renamedView_ok) "w", false)]

/-- Where the named tables of each session are after the calls. -/
noncomputable def places : Option (List (Option (List Ref))) :=
  match Relation.initCore (fun _ v => v) .pureDP Relation.demoA with
  | .error _ => none
  | .ok out =>
    let stores := storesRun (ctx .pureDP) core (Session.init (.pure (2 : ℚ)) (startTables out)) (fun _ => startStore out) calls
    some ((List.range 3).map (fun i =>
      match Relation.findNamedTables (stores i).state.tree with
      | some (.ok rs) => some rs
      | _ => none))

theorem places_eq : places = some
    [some [[.collection "persons", .named "v"], [.collection "persons", .named "people"], [.named "cities"]],
     some [[.named "a"]], some [[.named "w"], [.named "b"]]] := by
  decide +kernel

/-- Whether there is a table to delete, and another one, after the first call. -/
noncomputable def deletable : Option (Bool × Bool) :=
  match Relation.initCore (fun _ v => v) .pureDP Relation.demoA with
  | .error _ => none
  | .ok out =>
    match (Session.run (Whole.env (ctx .pureDP)) (Session.init (.pure (2 : ℚ)) (startTables out)) [(calls[0]).1]).nodes[0]? with
    | none => none
    | some n =>
      match Dict.get n.tables "rest", Dict.get n.tables "cities" with
      | some t, some u => some (t.space.isNone, u.space.isNone)
      | _, _ => none

theorem deletable_eq : deletable = some (true, true) := by decide +kernel

/-- **C65**: the theorem applies to these calls. -/
theorem C65_example : core.Lawful ∧ Relation.Stored (fun _ v => v) Relation.demoA ∧ FramesOK Relation.demoA ∧
    ∃ out, Relation.initCore (fun _ v => v) .pureDP Relation.demoA = .ok out ∧
      ∀ pre op rest, calls.map Prod.fst = pre ++ op :: rest →
        Fine core (Session.run (Whole.env (ctx .pureDP)) (Session.init (.pure (2 : ℚ)) (startTables out)) pre) op := by
  refine ⟨core_lawful, (Relation.C34_example (fun _ v => v) .pureDP).1,
    frames_ok (by simp [Long]) (by simp [Long]) (by simp [Long]), ?_⟩
  have hd := deletable_eq
  unfold deletable at hd
  split at hd
  · cases hd
  next out ho =>
  refine ⟨out, ho, ?_⟩
  intro pre op rest h
  rcases pre with _ | ⟨a, _ | ⟨b, _ | ⟨c, _ | ⟨d, pre⟩⟩⟩⟩
  · cases h
    exact .inr trivial
  · cases h
    refine .inr fun n hn t ht => ?_
    have hn' : (Session.run (Whole.env (ctx .pureDP)) (Session.init (.pure (2 : ℚ)) (startTables out)) [(calls[0]).1]).nodes[0]?
        = some n := hn
    rw [hn'] at hd
    dsimp only at hd
    rw [ht] at hd
    split at hd
    · next t' u h1 h2 =>
      cases h1
      refine ⟨"cities", u, h2, by decide, .inr ?_⟩
      simp only [Option.some.injEq, Prod.mk.injEq] at hd
      simpa using hd.1
    · cases hd
  · cases h
    trivial
  · cases h
    exact .inr trivial
  · simp [calls] at h

end Verif.Nested.Example
