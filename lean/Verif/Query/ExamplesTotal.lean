import Verif.Query.Total
import Verif.Query.Examples

/-!
# C62: a concrete case, and queries that type-check but are refused
-/

namespace Verif.Query

open Verif Verif.Schema Verif.Expr Verif.Constraint Verif.Budget

namespace Total

open Verif.Expr.Example (sch str schemaWF_of)

def int : Desc := ⟨.INTEGER, false, false, false⟩
def float : Desc := ⟨.DECIMAL, false, true, true⟩

/-- A table with IDs, a table without, and a public table. -/
def people : Schema := sch [("id", str false), ("g", int), ("x", float)] none (some "id") (some "s")
def visits : Schema := sch [("j", int), ("a", int), ("a_left", int)] none none none
def codes : Schema := sch [("g", int), ("n", str false)] none none none
def wide : Schema := sch [("j", int), ("a", int), ("a_left", int)] none none none

def cat : Cat :=
  { priv := [("people", (people, [])), ("visits", (visits, []))]
    pub := [("codes", (codes, [])), ("wide", (wide, []))] }

theorem cat_ok : cat.OK := by
  constructor
  · intro id s cs h
    have := Dict.mem_of_get h
    simp only [cat, List.mem_cons, Prod.mk.injEq, List.not_mem_nil, or_false] at this
    rcases this with ⟨_, rfl, _⟩ | ⟨_, rfl, _⟩ <;> exact ⟨schemaWF_of (by decide), by decide, by decide⟩
  · intro id s t h
    have := Dict.mem_of_get h
    simp only [cat, List.mem_cons, Prod.mk.injEq, List.not_mem_nil, or_false] at this
    rcases this with ⟨_, rfl, _⟩ | ⟨_, rfl, _⟩ <;> exact ⟨schemaWF_of (by decide), by decide, by decide⟩

theorem cat_plain : cat.Plain := by
  intro id s cs h _
  have := Dict.mem_of_get h
  simp only [cat, List.mem_cons, Prod.mk.injEq, List.not_mem_nil, or_false] at this
  rcases this with ⟨_, _, rfl⟩ | ⟨_, _, rfl⟩ <;> rfl

def env : Env := ⟨Expr.Example.h, id, .approxDP, cat⟩
def budget : PB := .approx 1 (1/10 : ℚ)

/-- The sum of a float column with NaNs and infinities, clamped to [0, 5], by automatic keys. -/
def sum (e : Expr) : Agg := ⟨e, .cols ["g"], .bounded .sum "x" (.dec (.fin 0)) (.dec (.fin 5)) .default, "s", none⟩

/-- Bound the people by groups. -/
def byGroup (c : String) (e : Expr) : Expr := .enforce (.enforce e (.maxGroupsPerID c 2)) (.maxRowsPerGroupPerID c 3)

/-- C62: the hypotheses hold of a sum over a table with IDs with automatic keys. -/
example : ∃ s out, schemaOf env.cat (byGroup "g" (.source "people")) = .ok s ∧
    (sum (byGroup "g" (.source "people"))).schema env.cat = .ok out ∧ s.idColumn = some "id" ∧
    Ready env.cat (byGroup "g" (.source "people")) ∧
    (∀ o, compile env.h env.cat (byGroup "g" (.source "people")) = .ok o →
      Answerable env budget (sum (byGroup "g" (.source "people"))) s o.cons) := by
  refine ⟨people, _, rfl, rfl, rfl, trivial, ?_⟩
  intro o ho
  cases ho
  constructor
  · intro h; cases h
  · intro ks _
    exact ⟨1, (1/10 : ℚ), rfl, Or.inr (by decide +kernel)⟩
  · intro x hx
    cases hx
    decide
  · intro i _
    exact Or.inl (Or.inr ⟨"g", 2, 3, by decide, by decide, by decide⟩)
  · intro i tc m _ h; cases h
  · intro tc m h; cases h

/-! ## Refused -/

def errOf {α : Type} : Except PyErr α → Option PyErr
  | .ok _ => none
  | .error e => some e

/-- The expression of a query. -/
def exprOf : Query → Expr
  | .agg a => a.child
  | .groups e _ => e
  | .suppress a _ _ => a.child

/-- The query type-checks, and is refused with an error. -/
def Refused (b : PB) (q : Query) (e : PyErr) : Prop :=
  env.cat.OK ∧ env.cat.Plain ∧ (exprOf q).WF ∧ (∃ s, q.schema env.cat = .ok s) ∧ compileQuery env b q = .error e

theorem refused {b : PB} {q : Query} {e : PyErr} (hw : (exprOf q).WF) (h1 : errOf (q.schema env.cat) = none)
    (h2 : errOf (compileQuery env b q) = some e) : Refused b q e := by
  refine ⟨cat_ok, cat_plain, hw, ?_, ?_⟩
  · cases h : q.schema env.cat with
    | ok s => exact ⟨s, rfl⟩
    | error e => rw [h] at h1; cases h1
  · cases h : compileQuery env b q with
    | ok p => rw [h] at h2; cases h2
    | error e => rw [h] at h2; cases h2; rfl

def rowsOf (e : Expr) (ks : Keys) : Query := .agg ⟨e, ks, .count .default, "n", none⟩
def distinct (e : Expr) (cs : List String) (ks : Keys) : Query := .agg ⟨e, ks, .countDistinct cs .default, "n", none⟩
def noKeys : Keys := .set ⟨[], [[]]⟩
def boundedPeople : Expr := .enforce (.source "people") (.maxRowsPerID 2)

/-- Counting distinct values of given columns with automatic keys. -/
theorem C62_distinct_auto_fails : Refused budget (distinct (.source "visits") ["a"] (.cols ["j"])) .attribute :=
  refused trivial (by decide +kernel) (by decide +kernel)

/-- Counting distinct values of a column, with people bounded by another column. -/
theorem C62_distinct_groups_fails : Refused budget (distinct (byGroup "g" (.source "people")) ["x"] noKeys) .value :=
  refused trivial (by decide +kernel) (by decide +kernel)

/-- The groups of a table with IDs, the ID column among them. -/
theorem C62_groups_id_fails : Refused budget (.groups boundedPeople ["id", "g"]) .runtime :=
  refused trivial (by decide +kernel) (by decide +kernel)

/-- The sum of the column people are bounded by: replacing its infinities loses the bound. -/
theorem C62_measure_bound_fails :
    Refused budget (.agg { sum (byGroup "x" (.source "people")) with keys := noKeys }) .runtime :=
  refused trivial (by decide +kernel) (by decide +kernel)

/-- ... which is in place for a count of the same table. -/
example : errOf (compileQuery env budget (rowsOf (byGroup "x" (.source "people")) noKeys)) = none := by decide +kernel

/-- A left join of a table with IDs with a public table. -/
theorem C62_left_join_fails :
    Refused budget (rowsOf (.joinPublic boundedPeople (.name "codes") none .left) noKeys) .internal :=
  refused ⟨trivial, trivial⟩ (by decide +kernel) (by decide +kernel)

def groupCol (c : String) (d : Desc) : Schema := sch [(c, d)] (some c) none none

/-- A flat map that makes the groups, without augmenting. -/
theorem C62_grouping_map_fails :
    Refused budget (rowsOf (.flatMap (.source "visits") (fun _ => []) (groupCol "k" int) false (some 1))
      (.cols ["k"])) .internal :=
  refused ⟨trivial, schemaWF_of (by decide)⟩ (by decide +kernel) (by decide +kernel)

/-- Dropping all infinities of a table grouped by a float column. -/
theorem C62_drop_infinity_fails :
    Refused budget (rowsOf (.dropInf (.flatMap (.source "visits") (fun _ => []) (groupCol "k" float) true (some 1)) [])
      (.cols ["k"])) .internal :=
  refused ⟨trivial, schemaWF_of (by decide)⟩ (by decide +kernel) (by decide +kernel)

def grouped : Expr := .flatMap (.source "visits") (fun _ => []) (groupCol "k" int) true (some 1)

theorem grouped_wf : grouped.WF := ⟨trivial, schemaWF_of (by decide)⟩

/-- A private join of a grouped table. -/
theorem C62_join_grouped_fails :
    Refused budget (rowsOf (.joinPrivate grouped (.source "visits") (some (.dropExcess 1)) (some (.dropExcess 1)) none)
      (.cols ["k"])) .value :=
  refused ⟨grouped_wf, trivial⟩ (by decide +kernel) (by decide +kernel)

/-- A public join that splits the grouping column `a_left` in two, and makes a new column of that name. -/
theorem C62_join_name_fails :
    Refused budget (rowsOf (.joinPublic (.rename (.select grouped ["j", "a", "k"]) [("k", "a_left")]) (.name "wide")
      (some ["j"]) .inner) (.cols ["a_left"])) .value :=
  refused ⟨⟨grouped_wf, by simp [Dict.WF]⟩, trivial⟩ (by decide +kernel) (by decide +kernel)

end Total

end Verif.Query
