import Verif.Stability.Props
import Verif.Constraint.Hash
import Verif.Expr.ExamplesSchema

/-!
# C48: how far one row spreads
-/

namespace Verif.Stability

open Verif Verif.Schema Verif.Constraint Verif.Expr

section
variable {h : Hash} {cat : Cat} {D D' : Data}

/-- The metric of a table without IDs. -/
theorem noIds {e : Expr} {s : Schema} {o : Out} (hb : build h cat e = .ok (s, o)) (hi : s.idColumn = none) :
    ∀ i, o.metric ≠ .ids i := by
  obtain ⟨_, _, _, _, hm⟩ := build_ok hb
  intro i h1
  rw [hm, metricOf_ids, hi] at h1
  cases h1

/-- **C48**, whole queries. When each private table without IDs changes by up to `d` rows, the output of the
transformations changes by no more rows than the stability core computes for them. -/
theorem C48_rows (hl : h.Lawful) {e : Expr} {s : Schema} {o : Out} (hb : build h cat e = .ok (s, o))
    (hi : s.idColumn = none) {d : String → ℕ} (hd : ∀ id ∈ e.sources, rowDist (D id) (D' id) ≤ d id) :
    rowDist (o.run D) (o.run D') ≤ stability h cat d e := by
  obtain ⟨_, ho, _⟩ := build_ok hb
  exact rows_stable hl e hd ho (noIds hb hi)

/-- **C48**, flat maps. However many rows the function returns, one row more or less before a flat map with `max_rows`
`m` is up to `m` rows more or less after it. -/
theorem C48_flat_map {e : Expr} {f : Row → List Row} {new : Schema} {augment : Bool} {m : Option ℕ} {s : Schema} {o : Out}
    (hb : build h cat (.flatMap e f new augment m) = .ok (s, o)) (hi : s.idColumn = none) :
    ∃ k o', m = some k ∧ compile h cat e = .ok o' ∧ rowDist (o.run D) (o.run D') ≤ k * rowDist (o'.run D) (o'.run D') := by
  obtain ⟨_, ho, _⟩ := build_ok hb
  obtain ⟨o', ho', ho⟩ := bind_ok ho
  have hm := noIds hb hi
  obtain ⟨g, _, _, _, _, hrun, hmm⟩ := visitFlatMap_ok ho
  rcases hmm with ⟨⟨i, hi⟩, h1, _⟩ | ⟨hni, ⟨k, rfl, hg⟩, _⟩
  · exact absurd (h1.trans hi) (hm i)
  · refine ⟨k, o', rfl, ho', ?_⟩
    rw [hrun, hrun]
    apply rowDist_flatMap <;>
    · intro r _
      rw [List.length_map, hg]
      simp only
      split <;> exact List.length_take_le _ _

/-- **C48**, private joins. -/
theorem C48_join (hl : h.Lawful) {l r : Expr} {tl tr : Option Trunc} {cols : Option (List String)} {s : Schema} {o : Out}
    (hb : build h cat (.joinPrivate l r tl tr cols) = .ok (s, o)) (hi : s.idColumn = none) :
    ∃ a b ol or, tl = some a ∧ tr = some b ∧ compile h cat l = .ok ol ∧ compile h cat r = .ok or ∧
      rowDist (o.run D) (o.run D') ≤ threshold b * truncStability a * rowDist (ol.run D) (ol.run D') +
        threshold a * truncStability b * rowDist (or.run D) (or.run D') := by
  obtain ⟨_, ho, _⟩ := build_ok hb
  obtain ⟨ol, hol, ho⟩ := bind_ok ho
  obtain ⟨or, hor, ho⟩ := bind_ok ho
  have hm := noIds hb hi
  obtain ⟨_, _, _, _, h1, h2, hcase⟩ := visitJoinPrivate_ok ho
  rcases hcase with ⟨i, hi, _⟩ | ⟨a, b, rfl, rfl, hsym, hrun⟩
  · exact absurd (h1.trans hi) (hm i)
  · refine ⟨a, b, ol, or, rfl, rfl, hol, hor, ?_⟩
    rw [hrun, hrun]
    exact truncatedJoin_stable hl _ _ _ a b _ _ _ _

/-- **C48**, grouped tables. The sum over the groups is the number of rows. -/
theorem C48_groups_sum (hl : h.Lawful) {e : Expr} {s : Schema} {o : Out} (hb : build h cat e = .ok (s, o))
    (hi : s.idColumn = none) {d : String → ℕ} (hd : ∀ id ∈ e.sources, rowDist (D id) (D' id) ≤ d id) (g : String) :
    sumDist (fun r => cell r g) (o.run D) (o.run D') ≤ stability h cat d e := by
  rw [sumDist_eq]
  exact C48_rows hl hb hi hd

/-- **C48**, grouped tables, root of the sum of squares: a flat map to `m` groups costs only the root of `m`.

Partial: renames that give two columns the same new name are excluded (`C19_fails`), and so are floating point grouping
columns, which `replace_infinity()` overwrites (`C21_fails`). -/
theorem C48_groups_root_partial (hl : h.Lawful) (hc : cat.OK) (hD : cat.DataOK D) (hD' : cat.DataOK D') {e : Expr} (he : e.WF)
    (hf : e.FnsOK) (hr : e.RenamesDistinct) {s : Schema} {o : Out} (hb : build h cat e = .ok (s, o)) {g : String}
    (hg : s.grouping = some g) (hty : ∀ x, (g, x) ∈ s.columnDescs.elements → x.ty ≠ .DECIMAL) {d d2 : String → ℕ}
    (hd : ∀ id ∈ e.sources, rowDist (D id) (D' id) ≤ d id)
    (hd2 : ∀ id ∈ e.sources, ∀ s cs c, Dict.get cat.priv id = some (s, cs) → s.grouping = some c →
      sqDist (fun r => cell r c) (D id) (D' id) ≤ d2 id) :
    sqDist (fun r => cell r g) (o.run D) (o.run D') ≤ stabilitySq h cat d d2 e := by
  obtain ⟨hs, ho, _, _, hm⟩ := build_ok hb
  have a := agree hc e he hs ho
  refine groups_stable hl hc hD hD' e he hf hr hs ho (g := g) ?_ ?_ hd hd2
  · rcases ‹s.grouping = none ∨ s.idColumn = none› with h0 | h0
    · rw [hg] at h0
      cases h0
    · rw [hm]
      simp [metricOf, h0, hg]
  · rw [types hc e he hs ho, get_stys a.wfs, Schema.descs_eq a.wfs]
    intro hx
    obtain ⟨x, hx, ht⟩ := Option.map_eq_some_iff.1 hx
    exact hty x (Dict.mem_of_get hx) ht

end

namespace Example

open Verif.Expr.Example (sch)

def keyed : Schema := sch [("K", ⟨.INTEGER, false, false, false⟩), ("V", ⟨.INTEGER, false, false, false⟩)] none none none
def keyed' : Schema := sch [("K", ⟨.INTEGER, false, false, false⟩), ("W", ⟨.INTEGER, false, false, false⟩)] none none none

def cat : Cat := { priv := [("l", (keyed, [])), ("r", (keyed', []))], pub := [] }

def rowL (k v : ℤ) : Row := [("K", .int k), ("V", .int v)]
def rowR (k v : ℤ) : Row := [("K", .int k), ("W", .int v)]

/-- Two keys with three rows each, and one row to join to each of them. -/
def D : Data := fun n =>
  if n = "l" then [rowL 1 0, rowL 1 1, rowL 1 2, rowL 2 0, rowL 2 1, rowL 2 2]
  else if n = "r" then [rowR 1 5, rowR 2 5]
  else []

/-- The same with two rows more, which come first in the order of truncation. -/
def D' : Data := fun n =>
  if n = "l" then D "l"
  else if n = "r" then [rowR 1 4, rowR 1 5, rowR 2 4, rowR 2 5]
  else []

def join : Expr := .joinPrivate (.source "l") (.source "r") (some (.dropExcess 3)) (some (.dropExcess 1)) none

/-- What a query says and does. -/
def results (e : Expr) : Option (Option String × Table × Table) :=
  match build codeHash cat e with
  | .ok (s, o) => some (s.idColumn, o.run D, o.run D')
  | _ => none

/-- The six rows of the join are replaced by six others. -/
theorem join_results : (results join).map (fun x => (x.1, rowDist x.2.1 x.2.2)) = some (none, 12) := by
  decide +kernel

theorem results_ok {e : Expr} {x : Option String × ℕ}
    (h : (results e).map (fun x => (x.1, rowDist x.2.1 x.2.2)) = some x) :
    ∃ s o, build codeHash cat e = .ok (s, o) ∧ s.idColumn = x.1 ∧ rowDist (o.run D) (o.run D') = x.2 := by
  unfold results at h
  split at h
  · next s o hb =>
    cases h
    exact ⟨s, o, hb, rfl, rfl⟩
  · cases h

def changed : String → ℕ := fun n => if n = "l" then 1 else 2

theorem dist_le : ∀ id ∈ join.sources, rowDist (D id) (D' id) ≤ changed id := by decide +kernel

/-- `C48_rows` applies, with a bound of 14 rows. -/
example : ∃ s o, build codeHash cat join = .ok (s, o) ∧ s.idColumn = none ∧
    rowDist (o.run D) (o.run D') ≤ 14 := by
  obtain ⟨s, o, hb, hi, _⟩ := results_ok join_results
  exact ⟨s, o, hb, hi, C48_rows codeHash_lawful hb hi dist_le⟩

/-- A flat map to at most two rows, a filter, and a join. -/
def mixed : Expr :=
  .joinPrivate (.filter (.source "l") (fun _ => true) (fun r => decide (cell r "V" = .int 1)))
    (.flatMap (.source "r") (fun r => [[("X", cell r "W")], [("X", .null)], [("X", .int 3)]])
      (sch [("X", ⟨.INTEGER, false, false, false⟩)] none none none) true (some 2))
    (some .dropNonUnique) (some (.dropExcess 4)) none

theorem mixed_results : (results mixed).map (fun x => (x.1, rowDist x.2.1 x.2.2)) = some (none, 4) := by
  decide +kernel

/-- `C48_rows` again, now with `DropNonUnique` and a flat map. -/
example : ∃ s o, build codeHash cat mixed = .ok (s, o) ∧ rowDist (o.run D) (o.run D') = 4 ∧
    rowDist (o.run D) (o.run D') ≤ 12 := by
  obtain ⟨s, o, hb, hi, hd⟩ := results_ok mixed_results
  exact ⟨s, o, hb, hd, C48_rows codeHash_lawful hb hi (d := changed) dist_le⟩

/-- One row for each of two groups. -/
def grouping : Expr :=
  .filter (.flatMap (.source "r") (fun _ => [[("G", .str "a")], [("G", .null)], [("G", .str "a")], [("G", .str "b")]])
    (sch [("G", ⟨.VARCHAR, false, false, false⟩)] (some "G") none none) true (some 2))
    (fun _ => true) (fun r => decide (cell r "W" ≠ .int 7))

theorem grouping_results : (match build codeHash cat grouping with
    | .ok (s, o) => some (s, sqDist (fun r => cell r "G") (o.run D) (o.run D'))
    | _ => none) = some (sch [("K", ⟨.INTEGER, false, false, false⟩), ("W", ⟨.INTEGER, false, false, false⟩),
      ("G", ⟨.VARCHAR, true, false, false⟩)] (some "G") none none, 8) := by
  decide +kernel

theorem cat_ok : cat.OK := by
  constructor
  · intro id s cs h
    have := Dict.mem_of_get h
    simp only [cat, List.mem_cons, Prod.mk.injEq, List.not_mem_nil, or_false] at this
    rcases this with ⟨_, rfl, _⟩ | ⟨_, rfl, _⟩ <;> exact ⟨Verif.Expr.Example.schemaWF_of (by decide), by decide, by decide⟩
  · intro id s t h
    cases Dict.mem_of_get h

theorem data_ok : cat.DataOK D ∧ cat.DataOK D' := by
  refine ⟨⟨?_, ?_⟩, ⟨?_, ?_⟩⟩
  · intro id s cs h
    have := Dict.mem_of_get h
    simp only [cat, List.mem_cons, Prod.mk.injEq, List.not_mem_nil, or_false] at this
    rcases this with ⟨rfl, rfl, _⟩ | ⟨rfl, rfl, _⟩ <;> exact Verif.Expr.Example.conforms_of (by decide +kernel)
  · intro id s t h
    cases Dict.mem_of_get h
  · intro id s cs h
    have := Dict.mem_of_get h
    simp only [cat, List.mem_cons, Prod.mk.injEq, List.not_mem_nil, or_false] at this
    rcases this with ⟨rfl, rfl, _⟩ | ⟨rfl, rfl, _⟩ <;> exact Verif.Expr.Example.conforms_of (by decide +kernel)
  · intro id s t h
    cases Dict.mem_of_get h

theorem grouping_ok : grouping.WF ∧ grouping.FnsOK ∧ grouping.RenamesDistinct := by
  refine ⟨⟨trivial, Verif.Expr.Example.schemaWF_of (by decide)⟩, ⟨trivial, ?_⟩, trivial⟩
  intro r x hx
  simp only [List.mem_cons, List.not_mem_nil, or_false] at hx
  rcases hx with rfl | rfl | rfl | rfl <;> exact Verif.Expr.Example.rowFits_of (by decide +kernel)

/-- `C48_groups_root_partial`: two rows changed in each of two groups, and the bound of two times two squared is met. -/
example : ∃ s o, build codeHash cat grouping = .ok (s, o) ∧ sqDist (fun r => cell r "G") (o.run D) (o.run D') = 8 ∧
    sqDist (fun r => cell r "G") (o.run D) (o.run D') ≤ 8 := by
  have h := grouping_results
  split at h
  · next s o hb =>
    obtain ⟨rfl, h8⟩ := Prod.mk.inj (Option.some.inj h)
    refine ⟨_, o, hb, h8, C48_groups_root_partial codeHash_lawful cat_ok data_ok.1 data_ok.2 grouping_ok.1 grouping_ok.2.1
      grouping_ok.2.2 hb rfl ?_ (d := changed) (d2 := fun _ => 0) (by decide +kernel) ?_⟩
    · intro x hx
      simp only [sch, List.mem_cons, Prod.mk.injEq, List.not_mem_nil, or_false, String.reduceEq, false_and, false_or,
        true_and] at hx
      subst hx
      decide
    · intro id _ s cs c hg hc
      have := Dict.mem_of_get hg
      simp only [cat, List.mem_cons, Prod.mk.injEq, List.not_mem_nil, or_false] at this
      rcases this with ⟨_, rfl, _⟩ | ⟨_, rfl, _⟩ <;> cases hc
  · cases h

end Example

/-- The sensitivity of a join that `truncation_strategy.py` l. 17-32 gives, for `AddMaxRows` with `ml` and `mr` rows. -/
def documented (a b : Trunc) (ml mr : ℕ) : ℕ := threshold a * truncStability b * ml + threshold b * truncStability a * mr

/-- The documented formula is not a bound: it has the thresholds the wrong way round. -/
theorem C48_documented_formula_fails : ∃ h : Hash, h.Lawful ∧ ∃ cat D D' l r a b s o ml mr,
    build h cat (.joinPrivate (.source l) (.source r) (some a) (some b) none) = .ok (s, o) ∧ s.idColumn = none ∧
    rowDist (D l) (D' l) ≤ ml ∧ rowDist (D r) (D' r) ≤ mr ∧ documented a b ml mr < rowDist (o.run D) (o.run D') := by
  obtain ⟨s, o, hb, hi, hd⟩ := Example.results_ok Example.join_results
  refine ⟨codeHash, codeHash_lawful, Example.cat, Example.D, Example.D', "l", "r", .dropExcess 3, .dropExcess 1, s, o, 1, 2,
    hb, hi, Example.dist_le "l" (by decide), Example.dist_le "r" (by decide), ?_⟩
  rw [hd]
  decide

end Verif.Stability
