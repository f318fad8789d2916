import Verif.Whole.Renamed
import Verif.Whole.ExamplesTraceless

/-!
# Examples for C92
-/

namespace Verif.Whole.Example

open Verif Verif.Schema Verif.Constraint Verif.Expr Verif.Query Verif.Stability
open Verif.Budget (XNum PB Rounding)

/-- The number of people, by their new name. -/
def folkCount : Query := .agg ⟨.enforce (.source "folk") (.maxRowsPerID 2), .set ⟨[], [[]]⟩, .count .default, "n", none⟩

theorem folkCount_ok : Admissible (child folkCount) := ⟨trivial, trivial, trivial, trivial, trivial⟩

theorem people_ok : Admissible (.source "people") := ⟨trivial, trivial, trivial, trivial, trivial⟩

/-- With the old name in place of the new one this is the number of people. -/
example : Query.inline "folk" (.source "people") folkCount = .agg peopleCount := rfl

/-- Folk are counted three times. -/
def threeAsks : List Ask := List.replicate 3 ⟨folkCount, folkCount_ok, .pure (1 : ℚ)⟩

/-- **C92**: the people are renamed, and the queries have the outcomes as before. -/
theorem C92_example : ∃ out, Relation.initCore (fun _ v => v) .pureDP Relation.demoA = .ok out ∧
    let w := Session.init (.pure (2 : ℚ)) (startTables out)
    outcomes (ctx .pureDP) (Session.step (env (ctx .pureDP)) (Session.step (env (ctx .pureDP)) w
        (.createView 0 (.table (.source "people") people_ok) "folk")).2 (.deleteView 0 "people")).2 (asks 0 threeAsks) =
      outcomes (ctx .pureDP) w
        (List.replicate 3 (.evaluate 0 (.query (.agg peopleCount) peopleCount_ok) (.pure (1 : ℚ)))) := by
  obtain ⟨out, ho, hcat⟩ := start_out start_cat
  refine ⟨out, ho, ?_⟩
  have hok : (Session.step (env (ctx .pureDP)) (Session.init (.pure (2 : ℚ)) (startTables out))
      (.createView 0 (.table (.source "people") people_ok) "folk")).1 = .ok .none := by
    obtain ⟨cat, hc, hall⟩ := C62_view_partial (ctx := ctx .pureDP) noNoise
      (Relation.C34_example (fun _ v => v) .pureDP).1 (frames_ok (by simp [Long]) (by simp [Long]) (by simp [Long])) ho
      (.pure (2 : ℚ)) [] _ rfl 0 _ rfl nofun
    have he : cat = ⟨demoCat, []⟩ := by
      have h2 : catalog (startTables out) [] = .ok cat := hc
      rw [hcat] at h2
      exact (Except.ok.inj h2).symm
    subst he
    refine (hall (.source "people") people_ok "folk" _ rfl ?_ nofun rfl trivial).1
    have hn := start_names_eq
    have ho' : Relation.initCore (fun _ v => v) .pureDP Relation.demoA = .ok out := ho
    unfold startNames at hn
    rw [ho'] at hn
    have hn : Session.names (startTables out) = ["people", "rest", "cities"] := Option.some.inj hn
    show "folk" ∉ Session.names (startTables out)
    rw [hn]
    decide
  refine C92_renamed (ctx := ctx .pureDP) noNoise (Relation.C34_example (fun _ v => v) .pureDP).1
    (frames_ok (by simp [Long]) (by simp [Long]) (by simp [Long])) ho [] _ rfl 0 "people" "folk" people_ok hok threeAsks ?_ ?_
  · intro a ha
    obtain rfl := List.eq_of_mem_replicate ha
    trivial
  · intro a ha
    obtain rfl := List.eq_of_mem_replicate ha
    exact ⟨by decide, by decide⟩

/-- The view is made and the table deleted; two queries are answered, then no budget is left. -/
theorem C92_example_answered :
    successes ([.createView 0 (.table (.source "people") people_ok) "folk", .deleteView 0 "people"] ++ asks 0 threeAsks) =
      some [true, true, true, true, false] := by
  decide +kernel

/-- **C90**: a view can be made before or after people are counted twice. -/
theorem C90_queries_example (out : Relation.Output) (ho : Relation.initCore (fun _ v => v) .pureDP Relation.demoA = .ok out) :
    let w := Session.init (.pure (2 : ℚ)) (startTables out)
    let two := asks 0 (List.replicate 2 ⟨.agg peopleCount, peopleCount_ok, .pure (1 : ℚ)⟩)
    let make : Session.Op Request PubFrame Value := .createView 0 (.table (.source "people") people_ok) "folk"
    (Session.step (env (ctx .pureDP)) (Session.run (env (ctx .pureDP)) w two) make).1 = (Session.step (env (ctx .pureDP)) w make).1 ∧
      outcomes (ctx .pureDP) (Session.step (env (ctx .pureDP)) w make).2 two = outcomes (ctx .pureDP) w two := by
  intro w two make
  have h := C90_queries (ctx := ctx .pureDP) noNoise (Relation.C34_example (fun _ v => v) .pureDP).1
    (frames_ok (by simp [Long]) (by simp [Long]) (by simp [Long])) ho (b₀ := .pure (2 : ℚ)) [] w rfl 0 _ rfl "folk" make rfl
    (List.replicate 2 ⟨.agg peopleCount, peopleCount_ok, .pure (1 : ℚ)⟩) (by
      intro a ha
      obtain rfl := List.eq_of_mem_replicate ha
      exact ⟨by decide, by decide⟩)
  exact ⟨h.1, h.2.1⟩

end Verif.Whole.Example
