import Verif.Schema.Model
import Verif.Constraint.Model

/-!
# Model of query expressions that transform tables

Sources: `/repo/src/tmlt/analytics/_query_expr.py` (validation and schema inference),
`/repo/src/tmlt/analytics/_query_expr_compiler/_base_transformation_visitor.py` (compilation to core
transformations) and `_constraint_propagation.py`.

The transformations themselves belong to `tmlt.core`; each is modelled by the function it computes on rows and
by the domain and metric it declares, as documented there. What is taken on trust is listed in DESIGN.md.

Simplified: checks made when an expression is constructed (`__post_init__`) are made here when its schema is
computed, which is later in the code but in the same order; values carry their type, so `isinstance` checks
are on values; Python's `bool`-is-an-`int` and `datetime`-is-a-`date` are ignored; the SQL text of a filter is
a pair of its validity for a schema and its meaning on rows; temporary table names are dropped; where the code
tests a column name for truth (`if input_schema.grouping_column:`) the name is taken not to be the empty
string; the replacement values of `ReplaceInfinity` are converted to floats when compiled rather than when
constructed. Core is not available here, so its refusals (marked "assumed") are not checked against its source.
-/

namespace Verif.Expr

open Verif Verif.Schema Verif.Constraint

/-- `TruncationStrategy` (`truncation_strategy.py`). -/
inductive Trunc where
  | dropExcess (n : Nat)
  | dropNonUnique
  deriving DecidableEq, Repr

/-- `how` of a public join (`_query_expr.py` l. 944-945). -/
inductive How where
  | inner
  | left
  deriving DecidableEq, Repr

/-- The public table of a public join: a name or a data frame (schema and rows). -/
inductive PubRef where
  | name (s : String)
  | df (s : Schema) (rows : Table)

/-- Query expressions that produce tables (`_query_expr.py` l. 207-1490). -/
inductive Expr where
  | source (id : String)
  | rename (e : Expr) (mapper : Dict String String)
  | filter (e : Expr) (valid : Schema → Bool) (cond : Row → Bool)
  | select (e : Expr) (cols : List String)
  | map (e : Expr) (f : Row → Row) (new : Schema) (augment : Bool)
  | flatMap (e : Expr) (f : Row → List Row) (new : Schema) (augment : Bool) (maxRows : Option Nat)
  | flatMapByID (e : Expr) (f : List Row → List Row) (new : Schema)
  | joinPrivate (l r : Expr) (tl tr : Option Trunc) (cols : Option (List String))
  | joinPublic (e : Expr) (pub : PubRef) (cols : Option (List String)) (how : How)
  | replaceNull (e : Expr) (w : Dict String Value)
  | replaceInf (e : Expr) (w : Dict String (Value × Value))
  | dropNull (e : Expr) (cols : List String)
  | dropInf (e : Expr) (cols : List String)
  | enforce (e : Expr) (c : Constraint)

/-- What compilation needs to know about the session (`Catalog`): private tables with their schema and
constraints, public tables with their schema and rows. -/
structure Cat where
  priv : Dict String (Schema × List Constraint)
  pub : Dict String (Schema × Table)

/-! ## Joins: what core computes -/

/-- The columns of both tables, in the order of the left one. -/
def common (lk rk : List String) : List String := lk.filter (fun c => decide (c ∈ rk))

/-- The join columns: those given or all common ones (`_query_expr.py` l. 823-826, and `or` for `None`). -/
def joinCols (lk rk : List String) : Option (List String) → List String
  | some cs => if cs = [] then common lk rk else cs
  | none => common lk rk

/-- Columns of both tables that are not joined on; they get suffixes. -/
def overlap (lk rk jc : List String) : List String :=
  (common lk rk).filter (fun c => decide (c ∉ jc))

/-- The columns of a join, in order (`_query_expr.py` l. 912-918). -/
def joinKeys (lk rk jc : List String) : List String :=
  jc ++ lk.filter (fun c => decide (c ∉ rk)) ++ rk.filter (fun c => decide (c ∉ lk)) ++
    (overlap lk rk jc).flatMap (fun c => [c ++ "_left", c ++ "_right"])

/-- The value of a column; every row has every column of its table. -/
def cell (r : Row) (c : String) : Value := (Row.get r c).getD .null

/-- A row of a join. -/
def joinRow (lk rk jc : List String) (l r : Row) : Row :=
  jc.map (fun c => (c, cell l c)) ++ (lk.filter (fun c => decide (c ∉ rk))).map (fun c => (c, cell l c)) ++
    (rk.filter (fun c => decide (c ∉ lk))).map (fun c => (c, cell r c)) ++
    (overlap lk rk jc).flatMap (fun c => [(c ++ "_left", cell l c), (c ++ "_right", cell r c)])

/-- Two rows match on the join columns; nulls are equal to each other (`join_on_nulls=True`). -/
def matches_ (jc : List String) (l r : Row) : Bool := jc.all (fun c => decide (cell l c = cell r c))

/-- Inner join. -/
def innerJoin (lk rk jc : List String) (lt rt : Table) : Table :=
  lt.flatMap (fun l => (rt.filter (matches_ jc l)).map (joinRow lk rk jc l))

/-- Left join: unmatched rows get nulls on the right. -/
def leftJoin (lk rk jc : List String) (lt rt : Table) : Table :=
  lt.flatMap (fun l =>
    if rt.filter (matches_ jc l) = [] then [joinRow lk rk jc l []]
    else (rt.filter (matches_ jc l)).map (joinRow lk rk jc l))

/-- The descriptor of a joined column of an inner join: what both sides allow. `none` if the types differ. -/
def meet : SparkDesc → SparkDesc → Option SparkDesc
  | .integer a, .integer b => some (.integer (a && b))
  | .float n i a, .float m j b => some (.float (n && m) (i && j) (a && b))
  | .string a, .string b => some (.string (a && b))
  | .date a, .date b => some (.date (a && b))
  | .timestamp a, .timestamp b => some (.timestamp (a && b))
  | _, _ => none

def setNull (b : Bool) : SparkDesc → SparkDesc
  | .integer _ => .integer b
  | .float n i _ => .float n i b
  | .string _ => .string b
  | .date _ => .date b
  | .timestamp _ => .timestamp b

/-- Descriptor of a join column. -/
def joinColDesc (how : How) (ld rd : Dict String SparkDesc) (c : String) : Option SparkDesc :=
  match Dict.get ld c, Dict.get rd c with
  | some a, some b =>
    match how with
    | .inner => meet a b
    | .left => (meet a b).map (fun _ => a)
  | _, _ => none

/-- Descriptor of a column that comes from the right table. -/
def rightDesc (how : How) (d : SparkDesc) : SparkDesc :=
  match how with
  | .inner => d
  | .left => setNull true d

/-- Descriptors of all join columns. -/
def joinColDescs (how : How) (ld rd : Dict String SparkDesc) : List String → Option (Dict String SparkDesc)
  | [] => some []
  | c :: cs =>
    match joinColDesc how ld rd c, joinColDescs how ld rd cs with
    | some d, some ds => some ((c, d) :: ds)
    | _, _ => none

/-- The entries of a domain for a list of its columns. -/
def pick (d : Dict String SparkDesc) (cs : List String) : Dict String SparkDesc :=
  cs.filterMap (fun c => (Dict.get d c).map (fun x => (c, x)))

/-- Descriptors of the suffixed columns. -/
def overlapDescs (how : How) (ld rd : Dict String SparkDesc) (cs : List String) : Dict String SparkDesc :=
  cs.flatMap (fun c =>
    match Dict.get ld c, Dict.get rd c with
    | some a, some b => [(c ++ "_left", a), (c ++ "_right", rightDesc how b)]
    | _, _ => [])

/-- Core's `domain_after_join(..., nulls_are_equal=True)`. Colliding output names and join columns that are
missing or have different types are errors. -/
def domainAfterJoin (how : How) (ld rd : Dict String SparkDesc) (jc : List String) :
    Except PyErr (Dict String SparkDesc) :=
  if (joinKeys (Dict.keys ld) (Dict.keys rd) jc).Nodup then
    match joinColDescs how ld rd jc with
    | some js =>
      .ok (js ++ pick ld ((Dict.keys ld).filter (fun c => decide (c ∉ Dict.keys rd))) ++
        (pick rd ((Dict.keys rd).filter (fun c => decide (c ∉ Dict.keys ld)))).map
          (fun p => (p.1, rightDesc how p.2)) ++
        overlapDescs how ld rd (overlap (Dict.keys ld) (Dict.keys rd) jc))
    | none => .error .value
  else .error .value

/-! ## Schema inference (`_query_expr.py`) -/

/-- `Schema(column_descs, ...)` from descriptors. -/
def mk (cols : Dict String Desc) (g i sp : Option String) : Except PyErr Schema :=
  Schema.init (cols.map (fun p => (p.1, ColSpec.desc p.2))) g i sp

def Schema.keys (s : Schema) : List String := Dict.keys s.descs

/-- `PrivateSource.schema` (l. 225-238). -/
def schSource (cat : Cat) (id : String) : Except PyErr Schema :=
  if id ∈ Dict.keys cat.pub then .error .value
  else
    match Dict.get cat.priv id with
    | some (s, _) => .ok s
    | none => .error .value

/-- `column_mapper.get(c, c)`. -/
def renamed (m : Dict String String) (c : String) : String := (Dict.get m c).getD c

/-- `Rename.schema` (l. 335-381). -/
def schRename (m : Dict String String) (s : Schema) : Except PyErr Schema :=
  if m.any (fun p => decide (p.2 = "")) then .error .value
  else if (Dict.keys m).any (fun c => decide (c ∉ Schema.keys s)) then .error .value
  else if m.any (fun p => decide (p.2 ∈ Schema.keys s) && decide (p.2 ≠ p.1)) then .error .value
  else mk (Dict.ofPairs (s.descs.map (fun p => (renamed m p.1, p.2))))
    (s.grouping.map (renamed m)) (s.idColumn.map (renamed m)) s.idSpace

/-- `Filter.schema` (l. 404-419). -/
def schFilter (valid : Schema → Bool) (s : Schema) : Except PyErr Schema :=
  if valid s then .ok s else .error .value

/-- `Select.schema` (l. 433-468). -/
def schSelect (cols : List String) (s : Schema) : Except PyErr Schema :=
  if ¬ cols.Nodup then .error .value
  else if s.grouping.any (fun g => decide (g ∉ cols)) then .error .value
  else if s.idColumn.any (fun g => decide (g ∉ cols)) then .error .value
  else if cols.any (fun c => decide (c ∉ Schema.keys s)) then .error .value
  else mk (cols.filterMap (fun c => (Dict.get s.descs c).map (fun d => (c, d)))) s.grouping s.idColumn s.idSpace

/-- New columns may always contain nulls (l. 527-529, 651-653, 736-737). -/
def nullable (new : Schema) : Dict String Desc := new.descs.map (fun p => (p.1, { p.2 with allowNull := true }))

/-- `Map.schema` (l. 490-539). -/
def schMap (new : Schema) (augment : Bool) (s : Schema) : Except PyErr Schema :=
  if new.grouping.isSome then .error .value
  else if augment then
    if (Schema.keys new).any (fun c => decide (c ∈ Schema.keys s)) then .error .value
    else mk (Dict.union s.descs (nullable new)) s.grouping s.idColumn s.idSpace
  else if s.grouping.isSome then .error .value
  else if s.idColumn.isSome then .error .value
  else mk (nullable new) none none none

/-- `FlatMap.schema` (l. 584-663). Negative `max_rows` is excluded by the type. -/
def schFlatMap (new : Schema) (augment : Bool) (s : Schema) : Except PyErr Schema :=
  if new.grouping.isSome ∧ (Schema.keys new).length ≠ 1 then .error .value
  else if new.grouping.isSome ∧ s.grouping.isSome then .error .value
  else if new.grouping.isSome ∧ s.idColumn.isSome then .error .value
  else if augment then
    if (Schema.keys new).any (fun c => decide (c ∈ Schema.keys s)) then .error .value
    else mk (Dict.union s.descs (nullable new)) (if new.grouping.isSome then new.grouping else s.grouping)
      s.idColumn s.idSpace
  else if s.grouping.isSome then .error .value
  else if s.idColumn.isSome then .error .value
  else mk (nullable new) none none none

/-- `FlatMapByID.schema` (l. 699-742). -/
def schFlatMapByID (new : Schema) (s : Schema) : Except PyErr Schema :=
  if new.grouping.isSome ∨ new.idColumn.isSome then .error .internal
  else
    match s.idColumn with
    | none => .error .value
    | some i =>
      if s.grouping.isSome then .error .internal
      else if i ∈ Schema.keys new then .error .value
      else
        match Dict.get s.descs i with
        | none => .error .key
        | some d => mk (Dict.union [(i, d)] (nullable new)) none (some i) s.idSpace

/-- `_validate_join` (l. 760-798), after the construction checks (l. 883-887, 953-957). -/
def validateJoin (cols : Option (List String)) (l r : Schema) : Except PyErr Unit :=
  if cols = some [] then .error .value
  else if ¬ (cols.getD []).Nodup then .error .value
  else if l.grouping.isSome ∧ r.grouping.isSome ∧ l.grouping ≠ r.grouping then .error .value
  else if cols = none ∧ common (Schema.keys l) (Schema.keys r) = [] then .error .value
  else if (joinCols (Schema.keys l) (Schema.keys r) cols).any
      (fun c => decide (c ∉ common (Schema.keys l) (Schema.keys r))) then .error .value
  else if (joinCols (Schema.keys l) (Schema.keys r) cols).any (fun c =>
      decide ((Dict.get l.descs c).map Desc.ty ≠ (Dict.get r.descs c).map Desc.ty)) then .error .value
  else .ok ()

/-- `_schema_for_join` (l. 801-845). -/
def schemaForJoin (how : How) (cols : Option (List String)) (l r : Schema) : Except PyErr Schema :=
  match domainAfterJoin how (analyticsToSparkColumns l) (analyticsToSparkColumns r)
      (joinCols (Schema.keys l) (Schema.keys r) cols) with
  | .error e => .error e
  | .ok d =>
    mk (sparkDomainToAnalytics d) (if l.grouping.isSome then l.grouping else r.grouping) l.idColumn l.idSpace

/-- `JoinPrivate.schema` (l. 889-929). -/
def schJoinPrivate (cols : Option (List String)) (l r : Schema) : Except PyErr Schema :=
  if l.idColumn ≠ r.idColumn then .error .value
  else if l.idSpace ≠ r.idSpace then .error .value
  else
    match validateJoin cols l r with
    | .error e => .error e
    | .ok () => schemaForJoin .inner cols l r

/-- The schema and rows of the public table (l. 981-991). Data frames given directly have been coerced. The
visitor recomputes the schema from the data frame (visitor l. 941); the catalog's is taken to be that one. -/
def resolvePub (cat : Cat) : PubRef → Except PyErr (Schema × Table)
  | .name n =>
    match Dict.get cat.pub n with
    | some p => .ok p
    | none => .error .value
  | .df s t => .ok (s, t)

/-- `JoinPublic.schema` (l. 970-999). -/
def schJoinPublic (cat : Cat) (pub : PubRef) (cols : Option (List String)) (how : How) (s : Schema) :
    Except PyErr Schema :=
  match resolvePub cat pub with
  | .error e => .error e
  | .ok (r, _) =>
    match validateJoin cols s r with
    | .error e => .error e
    | .ok () => schemaForJoin how cols s r

/-- `_valid_replacement_value` (l. 1074-1078). -/
def validReplacement : Value → Bool
  | .null => false
  | .dec (.fin _) => true
  | .dec _ => false
  | _ => true

/-- A value of the Python type of a column, or an `int` for a float column (l. 1140-1142). -/
def typeOK : ColumnType → Value → Bool
  | .INTEGER, .int _ => true
  | .DECIMAL, .dec _ => true
  | .DECIMAL, .int _ => true
  | .VARCHAR, .str _ => true
  | .DATE, .date _ => true
  | .TIMESTAMP, .ts _ => true
  | _, _ => false

/-- Not the grouping or the ID column. -/
def free (s : Schema) (c : String) : Bool := decide (s.grouping ≠ some c) && decide (s.idColumn ≠ some c)

/-- `ReplaceNullAndNan.schema` (l. 1100-1175). -/
def schReplaceNull (w : Dict String Value) (s : Schema) : Except PyErr Schema :=
  if w.any (fun p => !validReplacement p.2) then .error .value
  else if s.grouping.any (fun g => decide (g ∈ Dict.keys w)) then .error .value
  else if s.idColumn.any (fun g => decide (g ∈ Dict.keys w)) then .error .value
  else if w.any (fun p => match Dict.get s.descs p.1 with
      | none => true
      | some d => !typeOK d.ty p.2) then .error .value
  else
    let cols := if w = [] then
        (s.descs.filter (fun p => (p.2.allowNull || p.2.allowNan) && free s p.1)).map Prod.fst
      else Dict.keys w
    mk (s.descs.map (fun p =>
      (p.1, { p.2 with
        allowNull := p.2.allowNull && decide (p.1 ∉ cols)
        allowNan := p.2.allowNan && decide (p.1 ∉ cols) })))
      s.grouping s.idColumn s.idSpace

/-- `ReplaceInfinity.schema` (l. 1196-1282). Replacement values are floats. -/
def schReplaceInf (w : Dict String (Value × Value)) (s : Schema) : Except PyErr Schema :=
  if w.any (fun p => !(typeOK .DECIMAL p.2.1 && validReplacement p.2.1 && typeOK .DECIMAL p.2.2
      && validReplacement p.2.2)) then .error .value
  else if s.grouping.any (fun g => decide (g ∈ Dict.keys w)) then .error .value
  else if s.idColumn.any (fun g => decide (g ∈ Dict.keys w)) then .error .value
  else if w.any (fun p => match Dict.get s.descs p.1 with
      | none => true
      | some d => decide (d.ty ≠ .DECIMAL)) then .error .value
  else
    let cols := if w = [] then
        (s.descs.filter (fun p => decide (p.2.ty = .DECIMAL) && p.2.allowInf && free s p.1)).map Prod.fst
      else Dict.keys w
    mk (s.descs.map (fun p => (p.1, { p.2 with allowInf := p.2.allowInf && decide (p.1 ∉ cols) })))
      s.grouping s.idColumn s.idSpace

/-- `DropNullAndNan.schema` (l. 1311-1366). -/
def schDropNull (cols : List String) (s : Schema) : Except PyErr Schema :=
  if s.grouping.any (fun g => decide (g ∈ cols)) then .error .value
  else if s.idColumn.any (fun g => decide (g ∈ cols)) then .error .value
  else if cols.any (fun c => decide (c ∉ Schema.keys s)) then .error .value
  else
    let cs := if cols = [] then
        (s.descs.filter (fun p => (p.2.allowNull || p.2.allowNan) && free s p.1)).map Prod.fst
      else cols
    mk (s.descs.map (fun p =>
      (p.1, { p.2 with
        allowNull := p.2.allowNull && decide (p.1 ∉ cs)
        allowNan := p.2.allowNan && decide (p.1 ∉ cs) })))
      s.grouping s.idColumn s.idSpace

/-- `DropInfinity.schema` (l. 1388-1447). -/
def schDropInf (cols : List String) (s : Schema) : Except PyErr Schema :=
  if s.grouping.any (fun g => decide (g ∈ cols)) then .error .value
  else if s.idColumn.any (fun g => decide (g ∈ cols)) then .error .value
  else if cols.any (fun c => match Dict.get s.descs c with
      | none => true
      | some d => decide (d.ty ≠ .DECIMAL)) then .error .value
  else
    let cs := if cols = [] then
        (s.descs.filter (fun p => decide (p.2.ty = .DECIMAL) && p.2.allowInf && free s p.1)).map Prod.fst
      else cols
    mk (s.descs.map (fun p => (p.1, { p.2 with allowInf := p.2.allowInf && decide (p.1 ∉ cs) })))
      s.grouping s.idColumn s.idSpace

/-- The grouping column of a constraint. -/
def consCol : Constraint → Option String
  | .maxRowsPerID _ => none
  | .maxGroupsPerID c _ => some c
  | .maxRowsPerGroupPerID c _ => some c

/-- `EnforceConstraint.schema` (l. 1461-1486). -/
def schEnforce (c : Constraint) (s : Schema) : Except PyErr Schema :=
  match s.idColumn with
  | none => .error .value
  | some i =>
    if (consCol c).any (fun g => decide (g ∉ Schema.keys s)) then .error .value
    else if consCol c = some i then .error .value
    else .ok s

/-- `QueryExpr.schema(catalog)`. -/
def schemaOf (cat : Cat) : Expr → Except PyErr Schema
  | .source id => schSource cat id
  | .rename e m => (schemaOf cat e).bind (schRename m)
  | .filter e valid _ => (schemaOf cat e).bind (schFilter valid)
  | .select e cols => (schemaOf cat e).bind (schSelect cols)
  | .map e _ new augment => (schemaOf cat e).bind (schMap new augment)
  | .flatMap e _ new augment _ => (schemaOf cat e).bind (schFlatMap new augment)
  | .flatMapByID e _ new => (schemaOf cat e).bind (schFlatMapByID new)
  | .joinPrivate l r _ _ cols => (schemaOf cat l).bind (fun s => (schemaOf cat r).bind (schJoinPrivate cols s))
  | .joinPublic e pub cols how => (schemaOf cat e).bind (schJoinPublic cat pub cols how)
  | .replaceNull e w => (schemaOf cat e).bind (schReplaceNull w)
  | .replaceInf e w => (schemaOf cat e).bind (schReplaceInf w)
  | .dropNull e cols => (schemaOf cat e).bind (schDropNull cols)
  | .dropInf e cols => (schemaOf cat e).bind (schDropInf cols)
  | .enforce e c => (schemaOf cat e).bind (schEnforce c)

/-! ## Constraint propagation (`_constraint_propagation.py`) -/

/-- `propagate_replace` (l. 41-55); `cols` are the columns of `replace_with`. -/
def propagateReplace (cols : List String) (cs : List Constraint) : List Constraint :=
  cs.filter (fun c => match c with
    | .maxRowsPerGroupPerID g _ => decide (g ∉ cols)
    | _ => true)

/-- `propagate_rename` (l. 58-74). -/
def propagateRename (m : Dict String String) (cs : List Constraint) : List Constraint :=
  cs.map (fun c => match c with
    | .maxRowsPerID n => .maxRowsPerID n
    | .maxGroupsPerID g n => .maxGroupsPerID (renamed m g) n
    | .maxRowsPerGroupPerID g n => .maxRowsPerGroupPerID (renamed m g) n)

/-- `propagate_select` (l. 77-83). -/
def propagateSelect (cols : List String) (cs : List Constraint) : List Constraint :=
  cs.filter (fun c => match consCol c with
    | some g => decide (g ∈ cols)
    | none => true)

/-- `propagate_flat_map` (l. 97-109), the constraints kept. -/
def propagateFlatMap (cs : List Constraint) : List Constraint :=
  cs.filter (fun c => match c with
    | .maxGroupsPerID _ _ => true
    | _ => false)

/-- `col_name` (l. 127-128). -/
def suffixed (ov : List String) (suffix : String) (c : String) : String := if c ∈ ov then c ++ suffix else c

/-- `_propagate_join_by_stability` (l. 112-144). A stability of `None` or `0` is falsy. -/
def propagateJoin (stab : Option Nat) (ov : List String) (suffix : String) : Constraint → Option Constraint
  | .maxRowsPerID n =>
    match stab with
    | some (k + 1) => some (.maxRowsPerID (n * (k + 1)))
    | _ => none
  | .maxGroupsPerID g n => some (.maxGroupsPerID (suffixed ov suffix g) n)
  | .maxRowsPerGroupPerID g n =>
    match stab with
    | some (k + 1) => some (.maxRowsPerGroupPerID (suffixed ov suffix g) (n * (k + 1)))
    | _ => none

/-- `max_join_stability` (l. 155-172). -/
def maxJoinStability (jc : List String) (cs : List Constraint) : Option Nat :=
  minList ((firstRows cs).toList ++ cs.filterMap (fun c => match c with
    | .maxGroupsPerID g n => if g ∈ jc then some n else none
    | _ => none))

/-- `propagate_join_private` (l. 147-189). -/
def propagateJoinPrivate (jc ov : List String) (ls rs : List Constraint) : List Constraint :=
  ls.filterMap (propagateJoin (maxJoinStability jc rs) ov "_left") ++
    rs.filterMap (propagateJoin (maxJoinStability jc ls) ov "_right")

/-- The largest number of rows of a table with the same values in the given columns (l. 199-210). -/
def maxMultiplicity (jc : List String) (t : Table) : Nat :=
  (t.map (fun r => (t.filter (matches_ jc r)).length)).foldl max 0

/-- `propagate_join_public` (l. 192-217). -/
def propagateJoinPublic (jc ov : List String) (pub : Table) (cs : List Constraint) : List Constraint :=
  cs.filterMap (propagateJoin (some (maxMultiplicity jc pub)) ov "_left")

/-! ## Compilation (`_base_transformation_visitor.py`) -/

/-- Metrics of tables: plain tables, tables with a grouping column, tables with an ID column. -/
inductive Metric where
  | symDiff
  | grouped (c : String)
  | ids (c : String)
  deriving DecidableEq, Repr

/-- The data of a session: the rows of each private table. -/
abbrev Data := String → Table

/-- What a visit returns: a transformation (its output domain, output metric and function), the place of the
table (`space`: inside the `AddRemoveKeys` of an ID space, or directly in the session), and constraints. -/
structure Out where
  dom : Dict String SparkDesc
  metric : Metric
  space : Option String
  cons : List Constraint
  run : Data → Table

/-- The metric of a private table. -/
def metricOf (s : Schema) : Metric :=
  match s.idColumn, s.grouping with
  | some i, _ => .ids i
  | none, some g => .grouped g
  | none, none => .symDiff

/-- `visit_private_source` (l. 325-348). -/
def visitSource (cat : Cat) (id : String) : Except PyErr Out :=
  match Dict.get cat.priv id with
  | none => .error .value
  | some (s, cs) => .ok ⟨analyticsToSparkColumns s, metricOf s, s.idSpace, cs, fun D => D id⟩

def Metric.rename (m : Dict String String) : Metric → Metric
  | .symDiff => .symDiff
  | .grouped c => .grouped (renamed m c)
  | .ids c => .ids (renamed m c)

/-- `visit_rename` (l. 350-400) checks that the columns exist; that a new name is not taken is checked by
core's `Rename` (assumed), after `Rename._validate` has already checked it. -/
def visitRename (m : Dict String String) (o : Out) : Except PyErr Out :=
  if (Dict.keys m).any (fun c => decide (c ∉ Dict.keys o.dom)) then .error .value
  else if m.any (fun p => decide (p.2 ∈ Dict.keys o.dom) && decide (p.2 ≠ p.1)) then .error .value
  else .ok
    { dom := Dict.ofPairs (o.dom.map (fun p => (renamed m p.1, p.2)))
      metric := o.metric.rename m
      space := o.space
      cons := simplify (propagateRename m o.cons)
      run := fun D => (o.run D).map (fun r => r.map (fun p => (renamed m p.1, p.2))) }

/-- `visit_filter` (l. 402-445). -/
def visitFilter (cond : Row → Bool) (o : Out) : Except PyErr Out :=
  .ok { o with cons := simplify o.cons, run := fun D => (o.run D).filter cond }

/-- The column a metric groups by. -/
def Metric.col : Metric → Option String
  | .symDiff => none
  | .grouped c => some c
  | .ids c => some c

/-- `visit_select` (l. 447-498); core refuses to drop the column the metric groups by. -/
def visitSelect (cols : List String) (o : Out) : Except PyErr Out :=
  if cols.any (fun c => decide (c ∉ Dict.keys o.dom)) then .error .value
  else if o.metric.col.any (fun c => decide (c ∉ cols)) then .error .value
  else .ok
    { o with
      dom := pick o.dom cols
      cons := simplify (propagateSelect cols o.cons)
      run := fun D => (o.run D).map (fun r => cols.map (fun c => (c, cell r c))) }

/-- The descriptors of new columns (l. 510-519, 626-635, 739-748). -/
def newDescs (new : Schema) : Dict String SparkDesc :=
  (analyticsToSparkColumns new).map (fun p => (p.1, setNull true p.2))

/-- `visit_map` (l. 500-581). That a non-augmenting map needs a table without grouping column is checked by
the visitor for tables with IDs (l. 558-562) and by core otherwise (assumed). -/
def visitMap (f : Row → Row) (new : Schema) (augment : Bool) (o : Out) : Except PyErr Out :=
  if augment = false ∧ o.metric ≠ .symDiff then .error .value
  else if augment = false ∧ o.cons ≠ [] then .error .internal
  else .ok
    { o with
      dom := if augment then Dict.union o.dom (newDescs new) else newDescs new
      cons := simplify o.cons
      run := fun D => (o.run D).map (fun r => if augment then r ++ f r else f r) }

/-- `visit_flat_map` (l. 611-724). On tables with IDs `max_rows` is ignored. That a
grouping flat map starts from a plain table and that a non-augmenting one does too is checked by core
(assumed); `FlatMap._validate` has already checked it. Core's `GroupingFlatMap` drops the values of the new column that
a row already has (assumed; its stability depends on it). -/
def visitFlatMap (f : Row → List Row) (new : Schema) (augment : Bool) (maxRows : Option Nat) (o : Out) :
    Except PyErr Out :=
  let dom := if augment then Dict.union o.dom (newDescs new) else newDescs new
  let out := fun (r : Row) (rs : List Row) => rs.map (fun x => if augment then r ++ x else x)
  if augment = false ∧ o.cons ≠ [] then .error .internal
  else
    match o.metric with
    | .ids _ =>
      if augment = false then .error .value
      else if new.grouping.isSome then .error .value
      else .ok
        { o with
          dom := dom
          cons := simplify (propagateFlatMap o.cons)
          run := fun D => (o.run D).flatMap (fun r => out r (f r)) }
    | m =>
      match maxRows with
      | none => .error .value
      | some n =>
        if augment = false ∧ m ≠ .symDiff then .error .value
        else
          match new.grouping with
          | some g =>
            if m ≠ .symDiff then .error .value
            else .ok
              { o with
                dom := dom
                metric := .grouped g
                cons := simplify (propagateFlatMap o.cons)
                run := fun D => (o.run D).flatMap (fun r => out r ((f r).dedup.take n)) }
          | none => .ok
            { o with
              dom := dom
              cons := simplify (propagateFlatMap o.cons)
              run := fun D => (o.run D).flatMap (fun r => out r ((f r).take n)) }

/-- `visit_flat_map_by_id` (l. 726-776). -/
def visitFlatMapByID (f : List Row → List Row) (new : Schema) (o : Out) : Except PyErr Out :=
  match o.metric with
  | .ids i =>
    match Dict.get o.dom i with
    | none => .error .value
    | some d =>
      if i ∈ Dict.keys (newDescs new) then .error .value
      else .ok
        { o with
          dom := Dict.union [(i, d)] (newDescs new)
          cons := []
          run := fun D => ((o.run D).map (fun r => cell r i)).dedup.flatMap (fun v =>
            (f ((o.run D).filter (fun r => decide (cell r i = v)))).map (fun x => (i, v) :: x)) }
  | _ => .error .value

/-- `get_truncation_params` (l. 832-843) and core's truncation: `TRUNCATE` keeps the first rows of each group
in hash order, `DROP` drops groups that are too large. -/
def truncateBy (h : Hash) (jc : List String) : Trunc → Table → Table
  | .dropExcess n => perGroup (fun r => jc.map (cell r)) (takeRows h n)
  | .dropNonUnique => perGroup (fun r => jc.map (cell r)) (fun g => if g.length ≤ 1 then g else [])

/-- `visit_join_private` (l. 803-922). Core joins tables with IDs on the ID column and the join columns, which
must contain it; tables without IDs must not have a grouping column. -/
def visitJoinPrivate (h : Hash) (tl tr : Option Trunc) (cols : Option (List String)) (l r : Out) :
    Except PyErr Out :=
  if l.space ≠ r.space then .error .value
  else
    let lk := Dict.keys l.dom
    let rk := Dict.keys r.dom
    let jc := joinCols lk rk cols
    match domainAfterJoin .inner l.dom r.dom jc with
    | .error e => .error e
    | .ok dom =>
      let cons := simplify (propagateJoinPrivate jc (overlap lk rk jc) l.cons r.cons)
      match l.metric, r.metric with
      | .ids i, .ids j =>
        if i ≠ j then .error .value
        else if i ∉ jc then .error .value
        else .ok ⟨dom, .ids i, l.space, cons, fun D => innerJoin lk rk jc (l.run D) (r.run D)⟩
      | .symDiff, .symDiff =>
        match tl, tr with
        | some a, some b =>
          .ok ⟨dom, .symDiff, l.space, cons, fun D =>
            innerJoin lk rk jc (truncateBy h jc a (l.run D)) (truncateBy h jc b (r.run D))⟩
        | _, _ => .error .value
      | _, _ => .error .value

/-- `visit_join_public` (l. 924-1010). On tables with IDs `how` is not passed on, so the join is an inner one
(l. 974-986). Core refuses a join in which the column the metric groups by would get a suffix (assumed; nothing in
Analytics checks it). -/
def visitJoinPublic (cat : Cat) (pub : PubRef) (cols : Option (List String)) (how : How) (o : Out) :
    Except PyErr Out :=
  match resolvePub cat pub with
  | .error e => .error e
  | .ok (ps, pt) =>
    let pd := analyticsToSparkColumns ps
    let lk := Dict.keys o.dom
    let rk := Dict.keys pd
    let jc := joinCols lk rk cols
    let how' := match o.metric with
      | .ids _ => How.inner
      | _ => how
    match domainAfterJoin how' o.dom pd jc with
    | .error e => .error e
    | .ok dom =>
      if o.metric.col.any (fun c => decide (c ∈ overlap lk rk jc)) then .error .value
      else .ok
        { o with
          dom := dom
          cons := simplify (propagateJoinPublic jc (overlap lk rk jc) pt o.cons)
          run := fun D =>
            match how' with
            | .inner => innerJoin lk rk jc (o.run D) pt
            | .left => leftJoin lk rk jc (o.run D) pt }

/-- `AnalyticsDefault` (`_query_expr.py` l. 1053-1070). -/
def default : SparkDesc → Value
  | .integer _ => .int 0
  | .float _ _ _ => .dec (.fin 0)
  | .string _ => .str ""
  | .date _ => .date 0
  | .timestamp _ => .ts 0

def allowsNan : SparkDesc → Bool
  | .float n _ _ => n
  | _ => false

def allowsInf : SparkDesc → Bool
  | .float _ i _ => i
  | _ => false

def isFloat : SparkDesc → Bool
  | .float _ _ _ => true
  | _ => false

def setNan (b : Bool) : SparkDesc → SparkDesc
  | .float _ i n => .float b i n
  | d => d

def setInf (b : Bool) : SparkDesc → SparkDesc
  | .float a _ n => .float a b n
  | d => d

/-- `float(v)` for the replacement values of float columns (l. 1054-1057; `_query_expr.py` l. 1217-1223). -/
def toFloat : Value → Value
  | .int z => .dec (.fin z)
  | v => v

/-- `_get_replace_with` (l. 1013-1059). -/
def replaceWith (w : Dict String Value) (dom : Dict String SparkDesc) (grp : Option String) :
    Except PyErr (Dict String Value) :=
  if w = [] then
    .ok ((dom.filter (fun p => decide (grp ≠ some p.1) && (p.2.allowNull || allowsNan p.2))).map
      (fun p => (p.1, default p.2)))
  else if w.any (fun p => decide (p.1 ∉ Dict.keys dom)) then .error .value
  else .ok (w.map (fun p => (p.1, if (Dict.get dom p.1).any isFloat then toFloat p.2 else p.2)))

/-- Replace, in the columns of `m`, the values for which `p` holds. -/
def replaceRow (p : Value → Bool) (m : Dict String Value) (r : Row) : Row :=
  r.map (fun q => if p q.2 then (q.1, (Dict.get m q.1).getD q.2) else q)

def isNull (v : Value) : Bool := decide (v = .null)
def isNan (v : Value) : Bool := decide (v = .dec .nan)
def isPinf (v : Value) : Bool := decide (v = .dec .pinf)
def isNinf (v : Value) : Bool := decide (v = .dec .ninf)

/-- Change the descriptors of some columns. -/
def update (f : SparkDesc → SparkDesc) (cols : List String) (dom : Dict String SparkDesc) :
    Dict String SparkDesc := dom.map (fun p => (p.1, if p.1 ∈ cols then f p.2 else p.2))

/-- The replacement values for the columns whose descriptor satisfies `p` (l. 1103-1116). -/
def restrict {V : Type} (p : SparkDesc → Bool) (dom : Dict String SparkDesc) (rw : Dict String V) :
    Dict String V := rw.filter (fun q => (Dict.get dom q.1).any p)

/-- `visit_replace_null_and_nan` (l. 1061-1233). -/
def visitReplaceNull (w : Dict String Value) (o : Out) : Except PyErr Out :=
  if o.metric.col.any (fun c => decide (c ∈ Dict.keys w)) then .error .value
  else
    match replaceWith w o.dom o.metric.col with
    | .error e => .error e
    | .ok rw =>
      .ok
        { o with
          dom := update (setNan false) (Dict.keys (restrict allowsNan o.dom rw))
            (update (setNull false) (Dict.keys (restrict SparkDesc.allowNull o.dom rw)) o.dom)
          cons := simplify (propagateReplace (Dict.keys w) o.cons)
          run := fun D => (o.run D).map (fun r =>
            replaceRow isNan (restrict allowsNan o.dom rw)
              (replaceRow isNull (restrict SparkDesc.allowNull o.dom rw) r)) }

/-- The replacement values for infinities (l. 1246-1252): by default, for all float columns. -/
def infReplaceWith (w : Dict String (Value × Value)) (dom : Dict String SparkDesc) :
    Dict String (Value × Value) :=
  if w = [] then
    (dom.filter (fun p => isFloat p.2)).map (fun p => (p.1, (Value.dec (.fin 0), Value.dec (.fin 0))))
  else w.map (fun p => (p.1, (toFloat p.2.1, toFloat p.2.2)))

/-- Replace infinities: the first value stands for -∞, the second for ∞. -/
def replaceInfRow (rw : Dict String (Value × Value)) (r : Row) : Row :=
  replaceRow isPinf (rw.map (fun p => (p.1, p.2.2))) (replaceRow isNinf (rw.map (fun p => (p.1, p.2.1))) r)

/-- `visit_replace_infinity` (l. 1235-1297); core needs float columns. -/
def visitReplaceInf (w : Dict String (Value × Value)) (o : Out) : Except PyErr Out :=
  if (infReplaceWith w o.dom).any (fun p => !((Dict.get o.dom p.1).any isFloat)) then .error .value
  else .ok
    { o with
      dom := update (setInf false) (Dict.keys (infReplaceWith w o.dom)) o.dom
      cons := simplify (propagateReplace (Dict.keys w) o.cons)
      run := fun D => (o.run D).map (replaceInfRow (infReplaceWith w o.dom)) }

/-- Keep the rows in which no column of `cols` satisfies `p`. -/
def dropRows (p : Value → Bool) (cols : List String) (t : Table) : Table :=
  t.filter (fun r => cols.all (fun c => !p (cell r c)))

/-- The columns in which infinities are looked for (l. 1310-1316). -/
def dropInfCols (cols : List String) (dom : Dict String SparkDesc) : List String :=
  if cols = [] then (dom.filter (fun p => isFloat p.2 && allowsInf p.2)).map Prod.fst else cols

/-- `visit_drop_infinity` (l. 1299-1366). -/
def visitDropInf (cols : List String) (o : Out) : Except PyErr Out :=
  if cols.any (fun c => decide (c ∉ Dict.keys o.dom)) then .error .key
  else if cols.any (fun c => !((Dict.get o.dom c).any isFloat)) then .error .value
  else .ok
    { o with
      dom := update (setInf false) (dropInfCols cols o.dom) o.dom
      cons := simplify o.cons
      run := fun D => dropRows (fun v => isPinf v || isNinf v) (dropInfCols cols o.dom) (o.run D) }

/-- The columns in which nulls and NaNs are looked for (l. 1394-1400). -/
def dropNullCols (cols : List String) (dom : Dict String SparkDesc) (grp : Option String) : List String :=
  if cols = [] then
    (dom.filter (fun p => (p.2.allowNull || allowsNan p.2) && decide (grp ≠ some p.1))).map Prod.fst
  else cols

/-- The columns of `cs` whose descriptor satisfies `p` (l. 1402-1404). -/
def having (p : SparkDesc → Bool) (dom : Dict String SparkDesc) (cs : List String) : List String :=
  cs.filter (fun c => (Dict.get dom c).any p)

/-- `visit_drop_null_and_nan` (l. 1368-1517). -/
def visitDropNull (cols : List String) (o : Out) : Except PyErr Out :=
  if o.metric.col.any (fun c => decide (c ∈ cols)) then .error .value
  else if cols.any (fun c => decide (c ∉ Dict.keys o.dom)) then .error .key
  else
    let cs := dropNullCols cols o.dom o.metric.col
    .ok
      { o with
        dom := update (setNan false) (having allowsNan o.dom cs)
          (update (setNull false) (having SparkDesc.allowNull o.dom cs) o.dom)
        cons := simplify o.cons
        run := fun D => dropRows isNan (having allowsNan o.dom cs)
          (dropRows isNull (having SparkDesc.allowNull o.dom cs) (o.run D)) }

/-- `visit_enforce_constraint` (l. 1520-1536); core needs the grouping column to exist and to differ from the
ID column. -/
def visitEnforce (h : Hash) (c : Constraint) (o : Out) : Except PyErr Out :=
  match o.metric with
  | .ids i =>
    if (consCol c).any (fun g => decide (g ∉ Dict.keys o.dom) || decide (g = i)) then .error .value
    else .ok { o with cons := simplify (o.cons ++ [c]), run := fun D => Constraint.enforce h i c (o.run D) }
  | _ => .error .value

/-- `query.accept(visitor)`. -/
def compile (h : Hash) (cat : Cat) : Expr → Except PyErr Out
  | .source id => visitSource cat id
  | .rename e m => (compile h cat e).bind (visitRename m)
  | .filter e _ cond => (compile h cat e).bind (visitFilter cond)
  | .select e cols => (compile h cat e).bind (visitSelect cols)
  | .map e f new augment => (compile h cat e).bind (visitMap f new augment)
  | .flatMap e f new augment n => (compile h cat e).bind (visitFlatMap f new augment n)
  | .flatMapByID e f new => (compile h cat e).bind (visitFlatMapByID f new)
  | .joinPrivate l r tl tr cols =>
    (compile h cat l).bind (fun o => (compile h cat r).bind (visitJoinPrivate h tl tr cols o))
  | .joinPublic e pub cols how => (compile h cat e).bind (visitJoinPublic cat pub cols how)
  | .replaceNull e w => (compile h cat e).bind (visitReplaceNull w)
  | .replaceInf e w => (compile h cat e).bind (visitReplaceInf w)
  | .dropNull e cols => (compile h cat e).bind (visitDropNull cols)
  | .dropInf e cols => (compile h cat e).bind (visitDropInf cols)
  | .enforce e c => (compile h cat e).bind (visitEnforce h c)

/-- `validate_transformation` (l. 194-242): the compiled domain and metric are those the schema calls for. -/
def validate (s : Schema) (o : Out) : Except PyErr Unit :=
  if s.grouping.isSome ∧ s.idColumn.isSome then .error .internal
  else if Dict.pyEq o.dom (analyticsToSparkColumns s) = false then .error .internal
  else if o.metric ≠ metricOf s then .error .internal
  else .ok ()

/-- `QueryExprCompiler.build_transformation` (`_compiler.py` l. 180-226): the reported schema and the compiled
transformation. -/
def build (h : Hash) (cat : Cat) (e : Expr) : Except PyErr (Schema × Out) :=
  match schemaOf cat e with
  | .error x => .error x
  | .ok s =>
    match compile h cat e with
    | .error x => .error x
    | .ok o =>
      match validate s o with
      | .error x => .error x
      | .ok () => .ok (s, o)

end Verif.Expr
