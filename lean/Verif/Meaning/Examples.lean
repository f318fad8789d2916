import Verif.Meaning.Props
import Verif.Expr.ExamplesIds

/-!
# C57: examples, and the left joins that lose rows
-/

namespace Verif.Meaning

open Verif Verif.Schema Verif.Constraint Verif.Expr Verif.Expr.Example

namespace Example

/-- The query of `ExamplesSchema` (replace nulls, rename, flat map, public join, drop infinities, enforce) meets the
hypotheses of C57. -/
theorem C57_example : ∃ s o, build Expr.Example.h cat e = .ok (s, o) ∧ Means cat Expr.Example.D e (o.run Expr.Example.D) ∧
    o.run Expr.Example.D ≠ [] := by
  obtain ⟨o, hb, _, _, _, hrun⟩ := observe_ok observed
  refine ⟨_, o, hb, C57_transformations_partial cat_ok data_ok e e_ok.1 e_ok.2.1 e_ok.2.2 ?_ hb, ?_⟩
  · exact ⟨trivial, nofun⟩
  · rw [hrun]
    decide

/-- A left join with a public table on a table without IDs: the row without partner gets a null. -/
def leftPlain : Expr := .joinPublic (.source "u") (.name "p") none .left

theorem leftPlain_observed : (observe cat leftPlain Expr.Example.D).map Obs.rows =
    some [[("A", .int 1), ("B", .int 2), ("C", .null)]] := by decide +kernel

example : ∃ s o, build Expr.Example.h cat leftPlain = .ok (s, o) ∧
    Means cat Expr.Example.D leftPlain (o.run Expr.Example.D) ∧
    o.run Expr.Example.D = [[("A", .int 1), ("B", .int 2), ("C", .null)]] := by
  have hx := leftPlain_observed
  rw [Option.map_eq_some_iff] at hx
  obtain ⟨x, hx, hrows⟩ := hx
  obtain ⟨o, hb, _, _, _, hrun⟩ := observe_ok hx
  refine ⟨_, o, hb, ?_, by rw [hrun, hrows]⟩
  refine C57_transformations_partial cat_ok data_ok leftPlain ⟨trivial, trivial⟩ ⟨trivial, trivial⟩ trivial
    ⟨trivial, fun _ s hs => ?_⟩ hb
  have : schemaOf cat (.source "u") = .ok plain := rfl
  rw [this] at hs
  cases hs
  rfl

end Example

/-- A public table with a nullable column. -/
def pubNullable : Schema := sch [("g", str false), ("z", str true)] none none none

/-- A left join with a public table on a table with IDs. -/
def leftIDs : Expr := .joinPublic (.source "l") (.df pubNullable [[("g", .str "b"), ("z", .str "x")]]) none .left

theorem leftIDs_observed : (observe cat2 leftIDs D2).map Obs.rows = some [] := by decide +kernel

/-- C57 fails for left joins of public tables with tables with IDs: a query that asks for a left join is accepted and
answered from an inner join (as `C57_computed_partial` says), so rows without partner are lost
(`_base_transformation_visitor.py` l. 974-986 does not pass `how`). -/
theorem C57_left_fails : ∃ (cat : Cat) (D : Data) (h : Hash) (e : Expr) (s : Schema) (o : Out), cat.OK ∧ cat.DataOK D ∧
    e.WF ∧ e.FnsOK ∧ e.RenamesDistinct ∧ build h cat e = .ok (s, o) ∧ ¬ Means cat D e (o.run D) ∧
    MeansBy true cat D e (o.run D) := by
  have hx := leftIDs_observed
  rw [Option.map_eq_some_iff] at hx
  obtain ⟨x, hx, hrows⟩ := hx
  obtain ⟨o, hb, _, _, _, hrun⟩ := observe_ok hx
  have wf : leftIDs.WF := ⟨trivial, schemaWF_of (by decide), rfl, rfl⟩
  have fns : leftIDs.FnsOK := ⟨trivial, conforms_of (by decide +kernel)⟩
  refine ⟨cat2, D2, Expr.Example.h, leftIDs, _, o, cat2_ok, data2_ok, wf, fns, trivial, hb, ?_,
    C57_computed_partial cat2_ok data2_ok leftIDs wf fns trivial hb⟩
  rw [hrun, hrows]
  rintro ⟨t, s, ps, pt, ht, hs, ⟨rfl, rfl⟩, hj⟩
  have ht : t = [[("g", .str "a"), ("id", .str "ann")]] := List.perm_singleton.1 ht
  subst ht
  have : schemaOf cat2 (.source "l") = .ok left := rfl
  rw [this] at hs
  cases hs
  obtain ⟨us, hus, hp⟩ := hj
  cases hus with
  | cons h1 h2 =>
    cases h2
    rw [if_pos (by decide +kernel)] at h1
    obtain ⟨x, rfl, _⟩ := h1
    simpa using hp.length_eq

end Verif.Meaning
