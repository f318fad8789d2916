import Verif.Whole.ColumnsChain

/-!
# C76: which calls fit the tables (specification)

The arguments of the methods are checked twice: when a method is called, whatever the tables are (C72, `Chain.Valid`), and
when a query is evaluated, against the columns of the tables. This file says what the second check asks for, in terms of the
columns (`Chain.columns`), the ID column (`Chain.id`), the grouping column and the ID space of the tables.
-/

namespace Verif.Whole

open Verif Verif.Schema Verif.Constraint Verif.Expr Verif.Query Verif.Stability
open Verif.Meaning

/-- The grouping column of the table. A grouping flat map that does not keep the other columns leaves none, see
`C62_grouping_map_fails`. -/
def Chain.group (cat : Cat) : Chain → Option String
  | .start id => (Dict.get cat.priv id).bind (fun p => p.1.grouping)
  | .rename c m => (c.group cat).map (newName m)
  | .filter c _ _ => c.group cat
  | .select c _ => c.group cat
  | .map c _ _ _ => c.group cat
  | .flatMap c _ types augment grouping _ => if grouping then (if augment then types.head?.map Prod.fst else none) else c.group cat
  | .flatMapByID c _ _ => c.group cat
  | .binColumn c _ _ _ => c.group cat
  | .joinPublic c _ _ _ => c.group cat
  | .joinPrivate c r _ _ _ => (c.group cat).or (r.group cat)
  | .joinTable c table _ _ _ => (c.group cat).or ((Dict.get cat.priv table).bind (fun p => p.1.grouping))
  | .replaceNull c _ => c.group cat
  | .replaceInf c _ => c.group cat
  | .dropNull c _ => c.group cat
  | .dropInf c _ => c.group cat
  | .enforce c _ => c.group cat

/-- The ID space of the table. -/
def Chain.space (cat : Cat) : Chain → Option String
  | .start id => (Dict.get cat.priv id).bind (fun p => p.1.idSpace)
  | .rename c _ => c.space cat
  | .filter c _ _ => c.space cat
  | .select c _ => c.space cat
  | .map c _ _ _ => c.space cat
  | .flatMap c _ _ _ _ _ => c.space cat
  | .flatMapByID c _ _ => c.space cat
  | .binColumn c _ _ _ => c.space cat
  | .joinPublic c _ _ _ => c.space cat
  | .joinPrivate c _ _ _ _ => c.space cat
  | .joinTable c _ _ _ _ => c.space cat
  | .replaceNull c _ => c.space cat
  | .replaceInf c _ => c.space cat
  | .dropNull c _ => c.space cat
  | .dropInf c _ => c.space cat
  | .enforce c _ => c.space cat

/-- A private table, and no public one. -/
def IsPrivate (cat : Cat) (id : String) : Prop := (∃ p, Dict.get cat.priv id = some p) ∧ ∀ p, Dict.get cat.pub id ≠ some p

/-- New columns: next to the old ones they have other names; without the old ones no ID or grouping column is lost. -/
def NewOK (l : List (String × ColumnType)) (id group : Option String) (new : List String) (augment : Bool) : Prop :=
  if augment then ∀ n ∈ new, n ∉ names l else id = none ∧ group = none

/-- Two tables can be joined: there is a join column, join columns are in both tables, with the same type, no two columns of
the result have the same name, the tables do not have different grouping columns, and the ID and the grouping column are
still in the result. -/
def Joinable (l r : List (String × ColumnType)) (id gl gr : Option String) (given : ColsArg) : Prop :=
  onCols (givenCols given) (names l) (names r) ≠ [] ∧
  (∀ n ∈ onCols (givenCols given) (names l) (names r), ∃ t, (n, t) ∈ l ∧ (n, t) ∈ r) ∧
  (names (joinedColumns l r given)).Nodup ∧
  (∀ a b, gl = some a → gr = some b → a = b) ∧
  ∀ n, id = some n ∨ gl = some n ∨ gr = some n → n ∈ names (joinedColumns l r given)

/-- A value that may replace others in a column of a type: one of the type, or an integer for floats. -/
def Suits : ColumnType → Value → Prop
  | .INTEGER, v => ∃ x, v = .int x
  | .DECIMAL, v => (∃ x, v = .dec x) ∨ ∃ x, v = .int x
  | .VARCHAR, v => ∃ x, v = .str x
  | .DATE, v => ∃ x, v = .date x
  | .TIMESTAMP, v => ∃ x, v = .ts x

/-- What the tables have to be for every call to be possible. -/
def Chain.Fits (cat : Cat) : Chain → Prop
  | .start id => IsPrivate cat id
  | .rename c m => c.Fits cat ∧
      ∀ p ∈ m, p.1 ∈ names (c.columns cat) ∧ (p.2 ∈ names (c.columns cat) → p.2 = p.1)
  | .filter c valid _ => c.Fits cat ∧ ∃ s : Schema, s.columnDescs.elements.map (fun p => (p.1, p.2.ty)) = c.columns cat ∧ valid s = true
  | .select c columns => c.Fits cat ∧ ∀ cs, columns.Lists cs →
      (∀ n ∈ cs, n ∈ names (c.columns cat)) ∧ ∀ n, c.id cat = some n ∨ c.group cat = some n → n ∈ cs
  | .map c _ types augment => c.Fits cat ∧ NewOK (c.columns cat) (c.id cat) (c.group cat) (Dict.keys types) augment
  | .flatMap c _ types augment grouping _ => c.Fits cat ∧
      NewOK (c.columns cat) (c.id cat) (c.group cat) (Dict.keys types) augment ∧
      (grouping = true → c.id cat = none ∧ c.group cat = none)
  | .flatMapByID c _ types => c.Fits cat ∧ ∃ i, c.id cat = some i ∧ i ∉ Dict.keys types
  | .binColumn c column _ name => c.Fits cat ∧ name.getD (column ++ "_binned") ∉ names (c.columns cat)
  | .joinPublic c pub columns _ => c.Fits cat ∧ (∀ n, pub = .table n → ∃ p, Dict.get cat.pub n = some p) ∧
      Joinable (c.columns cat) (pub.columns cat) (c.id cat) (c.group cat) none columns
  | .joinPrivate c r _ _ columns => c.Fits cat ∧ r.Fits cat ∧ c.id cat = r.id cat ∧ c.space cat = r.space cat ∧
      Joinable (c.columns cat) (r.columns cat) (c.id cat) (c.group cat) (r.group cat) columns
  | .joinTable c table _ _ columns => c.Fits cat ∧ IsPrivate cat table ∧
      c.id cat = (Chain.start table).id cat ∧ c.space cat = (Chain.start table).space cat ∧
      Joinable (c.columns cat) (tableColumns cat table) (c.id cat) (c.group cat) ((Chain.start table).group cat) columns
  | .replaceNull c w => c.Fits cat ∧ ∀ m, w = some m → ∀ p ∈ m,
      c.id cat ≠ some p.1 ∧ c.group cat ≠ some p.1 ∧ ∃ t, (p.1, t) ∈ c.columns cat ∧ Suits t p.2
  | .replaceInf c w => c.Fits cat ∧ ∀ m, w = some m → ∀ p ∈ m,
      c.id cat ≠ some p.1 ∧ c.group cat ≠ some p.1 ∧ (p.1, .DECIMAL) ∈ c.columns cat
  | .dropNull c columns => c.Fits cat ∧ ∀ cs, columns.Lists cs → ∀ n ∈ cs,
      c.id cat ≠ some n ∧ c.group cat ≠ some n ∧ n ∈ names (c.columns cat)
  | .dropInf c columns => c.Fits cat ∧ ∀ cs, columns.Lists cs → ∀ n ∈ cs,
      c.id cat ≠ some n ∧ c.group cat ≠ some n ∧ (n, .DECIMAL) ∈ c.columns cat
  | .enforce c k => c.Fits cat ∧ ∃ i, c.id cat = some i ∧ ∀ g,
      (∃ n, k = .maxGroupsPerID g n ∨ k = .maxRowsPerGroupPerID g n) → g ∈ names (c.columns cat) ∧ g ≠ i

/-- Whether an SQL condition can be used depends on the names and the types of the columns only (assumed of Spark). -/
def Chain.ByTypes : Chain → Prop
  | .start _ => True
  | .rename c _ => c.ByTypes
  | .filter c valid _ => c.ByTypes ∧ ∀ s s' : Schema,
      s.columnDescs.elements.map (fun p => (p.1, p.2.ty)) = s'.columnDescs.elements.map (fun p => (p.1, p.2.ty)) → valid s = valid s'
  | .select c _ => c.ByTypes
  | .map c _ _ _ => c.ByTypes
  | .flatMap c _ _ _ _ _ => c.ByTypes
  | .flatMapByID c _ _ => c.ByTypes
  | .binColumn c _ _ _ => c.ByTypes
  | .joinPublic c _ _ _ => c.ByTypes
  | .joinPrivate c r _ _ _ => c.ByTypes ∧ r.ByTypes
  | .joinTable c _ _ _ _ => c.ByTypes
  | .replaceNull c _ => c.ByTypes
  | .replaceInf c _ => c.ByTypes
  | .dropNull c _ => c.ByTypes
  | .dropInf c _ => c.ByTypes
  | .enforce c _ => c.ByTypes

end Verif.Whole
