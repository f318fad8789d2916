import Verif.Whole.Answers
import Verif.Whole.Examples

/-!
# C58: a concrete case

The tables of `Relation.demoA`. A view of `people` with at most one row for each ID, split by ID; a count of the view.
-/

namespace Verif.Whole.Example

open Verif Verif.Schema Verif.Constraint Verif.Expr Verif.Query Verif.Stability
open Verif.Budget (XNum PB Rounding)
open Verif.Meaning (Means NoLeftIDs Faithful)
open scoped NNReal

def oneRow : Expr := .enforce (.source "people") (.maxRowsPerID 1)

theorem oneRow_ok : Admissible oneRow := ⟨trivial, trivial, trivial, trivial, trivial⟩

def viewCount : Query := .agg ⟨.source "v", .set ⟨[], [[]]⟩, .count .default, "n", none⟩

theorem viewCount_ok : Admissible (child viewCount) := ⟨trivial, trivial, trivial, trivial, trivial⟩

/-- The tables of the session after `create_view`. -/
noncomputable def withView (out : Relation.Output) (v : Tab) : List (String × Tab) := ("v", v) :: startTables out

/-- The rows of the view, of its two parts, and those that are counted. -/
noncomputable def seen : Option (List (List (List (String × Value)))) :=
  match Relation.initCore (fun _ v => v) .pureDP Relation.demoA with
  | .error _ => none
  | .ok out =>
    match transform (ctx .pureDP) (startTables out) [] (.table oneRow oneRow_ok) with
    | .error _ => none
    | .ok v =>
      match partTab (ctx .pureDP) (withView out v) [] "v" "id" [.int 1, .int 2],
        compileM (ctx .pureDP) (withView out v) [] (.query viewCount viewCount_ok) (.pure (2 : ℚ)) with
      | .ok t, .ok m =>
        let part := fun k => t.run (partData (ctx .pureDP) (withView out v) (startRoot out, startData out) "v" "id"
          [.int 1, .int 2] k).2
        some [v.run (startData out), part 0, part 1, m.run (startData out)]
      | _, _ => none

theorem seen_rows : seen = some [[[("id", .int 1)], [("id", .int 2)]], [[("id", .int 1)]], [[("id", .int 2)]],
    [[("id", .int 1)], [("id", .int 2)]]] := by
  decide +kernel

/-- **C58**: the theorems apply to a session built from these tables, its view, the parts of the view and a count of it. -/
theorem C58_example : ∃ out v t m cat, Relation.initCore (fun _ v => v) .pureDP Relation.demoA = .ok out ∧
    transform (ctx .pureDP) (startTables out) [] (.table oneRow oneRow_ok) = .ok v ∧
    partTab (ctx .pureDP) (withView out v) [] "v" "id" [.int 1, .int 2] = .ok t ∧
    compileM (ctx .pureDP) (withView out v) [] (.query viewCount viewCount_ok) (.pure (2 : ℚ)) = .ok m ∧
    catalog (startTables out) [] = .ok cat ∧
    (∀ p ∈ withView out v, TabOK .pureDP p.2 (startRoot out)) ∧ Conf (startRoot out) (startData out) ∧
    (∀ p ∈ withView out v, Known p.2 (startData out)) ∧
    Means cat (resolve (startTables out) (startData out)) oneRow (v.run (startData out)) := by
  have hs := seen_rows
  unfold seen at hs
  split at hs
  · cases hs
  next out ho =>
  split at hs
  · cases hs
  next v hv =>
  split at hs
  swap
  · cases hs
  next t m ht hm =>
  have hA := (Relation.C34_example (fun _ v => v) .pureDP).1
  have hf : FramesOK Relation.demoA := frames_ok (by simp [Long]) (by simp [Long]) (by simp [Long])
  have tok := start_tabOK (m := .pureDP) hA hf ho
  have hD : Conf (startRoot out) (startData out) := start_conf (m := .pureDP) hA hf ho
  have start := (C58_start (m := .pureDP) hA ho).1
  obtain ⟨cat, hc, h1, h2⟩ := C58_view_partial hv tok hD
  have hk : ∀ p ∈ startTables out, Known p.2 (startData out) := by
    intro p hp i _ c hc
    obtain ⟨_, _, _, _, h5, h6⟩ := start_mem (m := .pureDP) hA ho hp
    rw [h5.tab] at h6
    rw [← Option.some.inj h6] at hc
    cases hc
  refine ⟨out, v, t, m, cat, ho, hv, ht, hm, hc, ?_, hD, ?_, h1.2 trivial⟩
  · intro p hp
    rcases List.mem_cons.1 hp with rfl | hp
    · exact C55_view hv tok
    · exact tok p hp
  · intro p hp
    rcases List.mem_cons.1 hp with rfl | hp
    · exact h2 hk trivial
    · exact hk p hp

end Verif.Whole.Example
