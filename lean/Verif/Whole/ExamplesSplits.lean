import Verif.Whole.Splits
import Verif.Whole.ExamplesTotal

/-!
# C63: concrete cases
-/

namespace Verif.Whole.Example

open Verif Verif.Schema Verif.Constraint Verif.Expr Verif.Query Verif.Stability
open Verif.Budget (XNum PB Rounding)

/-- What a new session says about a table. -/
noncomputable def startSays (id : String) : Option (List (String × Desc) × Option String × Option String × List Constraint) :=
  match Relation.initCore (fun _ v => v) .pureDP Relation.demoA with
  | .error _ => none
  | .ok out =>
    match getSchema (startTables out) [] id, getGroupingColumn (startTables out) [] id, getIdColumn (startTables out) [] id,
      getConstraints (startTables out) [] id with
    | .ok ds, .ok g, .ok i, .ok cs => some (ds, g, i, cs)
    | _, _, _, _ => none

theorem says_cities : startSays "cities" = some ([("city", long), ("x", long)], some "city", none, []) := by decide +kernel
theorem says_people : startSays "people" = some ([("id", long)], none, some "id", []) := by decide +kernel

theorem says_out {id : String} {ds : List (String × Desc)} {g i : Option String} {cs : List Constraint} {out : Relation.Output}
    (ho : Relation.initCore (fun _ v => v) .pureDP Relation.demoA = .ok out) (h : startSays id = some (ds, g, i, cs)) :
    getSchema (startTables out) [] id = .ok ds ∧ getGroupingColumn (startTables out) [] id = .ok g ∧
      getIdColumn (startTables out) [] id = .ok i ∧ getConstraints (startTables out) [] id = .ok cs := by
  unfold startSays at h
  rw [ho] at h
  dsimp only at h
  split at h
  next h1 h2 h3 h4 =>
    cases h
    exact ⟨h1, h2, h3, h4⟩
  · cases h

theorem names_out {out : Relation.Output} (ho : Relation.initCore (fun _ v => v) .pureDP Relation.demoA = .ok out) :
    Session.names (startTables out) = ["people", "rest", "cities"] := by
  have hn := start_names_eq
  unfold startNames at hn
  rw [ho] at hn
  exact Option.some.inj hn

/-- **C63**: splitting the cities of a new session by city works; splitting them by another column, or splitting the people
without a bound on their rows, is refused. -/
theorem C63_example : ∃ out, Relation.initCore (fun _ v => v) .pureDP Relation.demoA = .ok out ∧
    (∃ l, (Session.step (env (ctx .pureDP)) (Session.init (.pure (2 : ℚ)) (startTables out))
      (.partition 0 "cities" (.pure (2 : ℚ)) "city" [("a", .int 0), ("b", .int 1)])).1 = .ok (.sessions l) ∧
      l.map Prod.fst = ["a", "b"]) ∧
    (¬ ∃ l, (Session.step (env (ctx .pureDP)) (Session.init (.pure (2 : ℚ)) (startTables out))
      (.partition 0 "cities" (.pure (2 : ℚ)) "x" [("a", .int 0), ("b", .int 1)])).1 = .ok (.sessions l)) ∧
    (¬ ∃ l, (Session.step (env (ctx .pureDP)) (Session.init (.pure (2 : ℚ)) (startTables out))
      (.partition 0 "people" (.pure (2 : ℚ)) "id" [("a", .int 0), ("b", .int 1)])).1 = .ok (.sessions l)) := by
  obtain ⟨out, ho, _⟩ := start_out start_cat
  have ho : Relation.initCore (fun _ v => v) .pureDP Relation.demoA = .ok out := ho
  have key := C63_partition (ctx := ctx .pureDP) noNoise (Relation.C34_example (fun _ v => v) .pureDP).1
    (frames_ok (by simp [Long]) (by simp [Long]) (by simp [Long])) ho (lawful .pureDP) (b₀ := .pure (2 : ℚ)) q2_nonneg []
    (by simp) _ rfl 0 _ rfl nofun
  obtain ⟨c1, c2, c3, _⟩ := says_out ho says_cities
  obtain ⟨p1, p2, p3, p4⟩ := says_out ho says_people
  refine ⟨out, ho, ?_, ?_, ?_⟩
  · obtain ⟨l, l1, l2, _⟩ := (key "cities" (.pure (2 : ℚ)) "city" [("a", .int 0), ("b", .int 1)] _ rfl).2 (le_refl _)
      (fun _ _ => rfl) ⟨⟨by rw [show Session.names _ = _ from names_out ho]; decide, _, long, c1, rfl, by simp [Matches, long]⟩,
        by decide, ⟨_, c2, .inr rfl⟩, .inl c3⟩
    exact ⟨l, l1, l2⟩
  · intro hl
    obtain ⟨_, hs⟩ := (key "cities" (.pure (2 : ℚ)) "x" [("a", .int 0), ("b", .int 1)] _ rfl).1 hl
    obtain ⟨g, g1, g2⟩ := hs.grouping
    have := c2.symm.trans g1
    cases this
    simp at g2
  · intro hl
    obtain ⟨_, hs⟩ := (key "people" (.pure (2 : ℚ)) "id" [("a", .int 0), ("b", .int 1)] _ rfl).1 hl
    rcases hs.bound with e | ⟨cs, e, k, e'⟩
    · cases p3.symm.trans e
    · cases p4.symm.trans e
      simp at e'

end Verif.Whole.Example
