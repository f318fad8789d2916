import Verif.Whole.Histogram
import Verif.Whole.Methods
import Verif.Whole.Reports

/-!
# C72: chains of transformation methods (model and specification)

The methods of `QueryBuilder` that transform tables (`query_builder.py` l. 283-1719), from the arguments a user gives. A
program that calls them one after another on builders it uses once is a `Chain`; that a builder can be used again is C45.

Simplified: arguments have the types that are documented, except where a wrong type has a case here. The SQL text of a filter
is a pair of its validity for a schema and its meaning on rows, as in `Expr`. `TruncationStrategy` and `Constraint` objects
have been constructed. The schema of a data frame is computed when it is coerced, which is earlier than in the code but
cannot fail then.
-/

namespace Verif.Whole

open Verif Verif.Schema Verif.Constraint Verif.Expr Verif.Query Verif.Stability
open Verif.Meaning
open Verif.Binning (Spec)

/-! ## Model -/

/-- A `BinningSpec` and its `column_descriptor`. -/
structure Bins where
  {α : Type}
  {N : Type}
  [order : LinearOrder α]
  [dec : DecidableEq N]
  binner : Binner α N
  spec : Spec α N
  desc : Desc

/-- The argument `public_table`. -/
inductive PubArg where
  | table (name : String)
  | frame (f : PubFrame)

/-- Calls of methods of `QueryBuilder`, the last one outermost. -/
inductive Chain : Type 1 where
  | start (id : String)
  | rename (c : Chain) (mapper : Dict String String)
  | filter (c : Chain) (valid : Schema → Bool) (cond : Row → Bool)
  | select (c : Chain) (columns : ColsArg)
  | map (c : Chain) (f : Row → Row) (types : Dict String ColSpec) (augment : Bool)
  | flatMap (c : Chain) (f : Row → List Row) (types : Dict String ColSpec) (augment grouping : Bool) (maxRows : Option ℤ)
  | flatMapByID (c : Chain) (f : List Row → List Row) (types : Dict String ColSpec)
  | binColumn (c : Chain) (column : String) (bins : Bins) (name : Option String)
  | joinPublic (c : Chain) (pub : PubArg) (columns : ColsArg) (how : String)
  | joinPrivate (c right : Chain) (tl tr : Option Trunc) (columns : ColsArg)
  | joinTable (c : Chain) (table : String) (tl tr : Option Trunc) (columns : ColsArg)
  | replaceNull (c : Chain) (w : Option (Dict String Value))
  | replaceInf (c : Chain) (w : Option (Dict String (Value × Value)))
  | dropNull (c : Chain) (columns : ColsArg)
  | dropInf (c : Chain) (columns : ColsArg)
  | enforce (c : Chain) (k : Constraint)

/-- `QueryBuilder(source_id)` (l. 283-290) and `PrivateSource.__post_init__` (`_query_expr.py` l. 214-223). -/
def newBuilder (ctx : Ctx) (id : String) : Except PyErr Expr :=
  if ctx.isIdent id then .ok (.source id) else .error .value

/-- `tuple(join_columns) if join_columns is not None else None` (l. 454, 588). The tuple of a string has its characters. -/
def joinTuple : ColsArg → Option (List String)
  | .missing => none
  | .one s => some (s.toList.map String.singleton)
  | .list cs => some cs

/-- The check of the join columns (`_query_expr.py` l. 883-887, 953-957). -/
def checkJoin (cols : Option (List String)) : Except PyErr Unit :=
  match cols with
  | none => .ok ()
  | some cs => if cs.length = 0 then .error .value else if cs.Nodup then .ok () else .error .value

/-- `None` is `[]` and a string is a list of one (e.g. l. 852-855). -/
def columnList : ColsArg → List String
  | .missing => []
  | .one c => [c]
  | .list cs => cs

/-- `Schema(dict(new_column_types), ...)` with the defaults of the three maps (e.g. l. 1225-1231). -/
def newSchema (types : Dict String ColSpec) (g : Option String) : Except PyErr Schema :=
  Schema.init types g none none true true true

/-- `map` (l. 1222-1234). `Map.__post_init__` refuses grouping columns, of which there is none. -/
def callMap (e : Expr) (f : Row → Row) (types : Dict String ColSpec) (augment : Bool) : Except PyErr Expr :=
  match newSchema types none with
  | .error x => .error x
  | .ok new => .ok (.map e f new augment)

/-- `flat_map` (l. 1354-1380) and `FlatMap.__post_init__` (`_query_expr.py` l. 584-604). -/
def callFlatMap (e : Expr) (f : Row → List Row) (types : Dict String ColSpec) (augment grouping : Bool)
    (maxRows : Option ℤ) : Except PyErr Expr :=
  if grouping && decide (types.length ≠ 1) then .error .value
  else
    match newSchema types (if grouping then (Dict.keys types).head? else none) with
    | .error x => .error x
    | .ok new =>
      match maxRows with
      | none => .ok (.flatMap e f new augment none)
      | some z => if z < 0 then .error .value else .ok (.flatMap e f new augment (some z.toNat))

/-- `flat_map_by_id` (l. 1489-1499). -/
def callFlatMapByID (e : Expr) (f : List Row → List Row) (types : Dict String ColSpec) : Except PyErr Expr :=
  match newSchema types none with
  | .error x => .error x
  | .ok new => .ok (.flatMapByID e f new)

/-- The function that `bin_column` maps (l. 1583). -/
def Bins.fn (b : Bins) (column name : String) : Row → Row :=
  let _ := b.order
  fun r => [(name, b.binner.cell (b.spec.call (b.binner.read (Expr.cell r column))))]

/-- `bin_column` (l. 1581-1588). -/
def callBin (e : Expr) (column : String) (b : Bins) (name : Option String) : Except PyErr Expr :=
  let name := match name with
    | none => column ++ "_binned"
    | some n => n
  callMap e (b.fn column name) [(name, .desc b.desc)] true

/-- The public table of a join (`_query_expr.py` l. 958-963, 987-991). -/
def pubRef (ctx : Ctx) : PubArg → Except PyErr PubRef
  | .table n => .ok (.name n)
  | .frame f =>
    match coerceFrame ctx.cast ctx.castOK f with
    | .error x => .error x
    | .ok f' =>
      match sparkSchemaToAnalytics f'.frame.fields with
      | .error x => .error x
      | .ok ds =>
        match Expr.mk ds none none none with
        | .error x => .error x
        | .ok s => .ok (.df s (Frame.named f'.frame))

/-- `how` (`_query_expr.py` l. 964-967). -/
def howOf (how : String) : Except PyErr How :=
  if how = "inner" then .ok .inner else if how = "left" then .ok .left else .error .value

/-- `join_public` (l. 451-457) and `JoinPublic.__post_init__`. -/
def callJoinPublic (ctx : Ctx) (e : Expr) (pub : PubArg) (cols : ColsArg) (how : String) : Except PyErr Expr :=
  match checkJoin (joinTuple cols) with
  | .error x => .error x
  | .ok () =>
    match pubRef ctx pub with
    | .error x => .error x
    | .ok p =>
      match howOf how with
      | .error x => .error x
      | .ok how => .ok (.joinPublic e p (joinTuple cols) how)

/-- `join_private` (l. 580-590) with a builder. -/
def callJoinPrivate (e r : Expr) (tl tr : Option Trunc) (cols : ColsArg) : Except PyErr Expr :=
  match checkJoin (joinTuple cols) with
  | .error x => .error x
  | .ok () => .ok (.joinPrivate e r tl tr (joinTuple cols))

/-- `replace_null_and_nan` (l. 666-676) and `ReplaceNullAndNan.__post_init__` (`_query_expr.py` l. 1100-1109). -/
def callReplaceNull (e : Expr) (w : Option (Dict String Value)) : Except PyErr Expr :=
  let w := w.getD []
  if w.any (fun p => !validReplacement p.2) then .error .value else .ok (.replaceNull e w)

/-- A `float`, an `int` or `None`. -/
def floatOrNone (v : Value) : Bool := typeOK .DECIMAL v || decide (v = .null)

/-- `replace_infinity` (l. 742-749) and `ReplaceInfinity.__post_init__` (`_query_expr.py` l. 1196-1223). -/
def callReplaceInf (e : Expr) (w : Option (Dict String (Value × Value))) : Except PyErr Expr :=
  let w := w.getD []
  if w.any (fun p => !(floatOrNone p.2.1 && floatOrNone p.2.2)) then .error .type
  else if w.any (fun p => !(validReplacement p.2.1 && validReplacement p.2.2)) then .error .value
  else .ok (.replaceInf e w)

/-- The expression of the builder after some calls. -/
def Chain.build (ctx : Ctx) : Chain → Except PyErr Expr
  | .start id => newBuilder ctx id
  -- l. 1005-1009; `Rename.__post_init__`, `_query_expr.py` l. 335-345
  | .rename c m => (c.build ctx).bind (fun e => if m.any (fun p => decide (p.2 = "")) then .error .value else .ok (.rename e m))
  -- l. 1073-1074
  | .filter c valid cond => (c.build ctx).bind (fun e => .ok (.filter e valid cond))
  -- l. 1127-1133; `Select.__post_init__`, l. 433-438; `tuple(None)` is a `TypeError`
  | .select c columns => (c.build ctx).bind (fun e =>
      if columns = .missing then .error .type
      else if (columnList columns).Nodup then .ok (.select e (columnList columns)) else .error .value)
  | .map c f types augment => (c.build ctx).bind (fun e => callMap e f types augment)
  | .flatMap c f types augment grouping n => (c.build ctx).bind (fun e => callFlatMap e f types augment grouping n)
  | .flatMapByID c f types => (c.build ctx).bind (fun e => callFlatMapByID e f types)
  | .binColumn c column bins name => (c.build ctx).bind (fun e => callBin e column bins name)
  | .joinPublic c pub columns how => (c.build ctx).bind (fun e => callJoinPublic ctx e pub columns how)
  | .joinPrivate c r tl tr columns => (c.build ctx).bind (fun e => (r.build ctx).bind (fun e' =>
      callJoinPrivate e e' tl tr columns))
  | .joinTable c table tl tr columns => (c.build ctx).bind (fun e => (newBuilder ctx table).bind (fun e' =>
      callJoinPrivate e e' tl tr columns))
  | .replaceNull c w => (c.build ctx).bind (fun e => callReplaceNull e w)
  | .replaceInf c w => (c.build ctx).bind (fun e => callReplaceInf e w)
  -- l. 852-859
  | .dropNull c columns => (c.build ctx).bind (fun e => .ok (.dropNull e (columnList columns)))
  -- l. 947-952
  | .dropInf c columns => (c.build ctx).bind (fun e => .ok (.dropInf e (columnList columns)))
  -- l. 1718-1719
  | .enforce c k => (c.build ctx).bind (fun e => .ok (.enforce e k))

/-! ## Specification: which arguments are accepted -/

/-- How a column of a type may be described. -/
def OfType (x : ColSpec) (t : ColumnType) : Prop :=
  match x with
  | .name s => Written t s
  | .ty t' => t' = t
  | .desc d => d.ty = t

/-- New columns have names and types. -/
def TypesOK (types : Dict String ColSpec) : Prop := ∀ p ∈ types, p.1 ≠ "" ∧ ∃ t, OfType p.2 t

/-- The columns listed by an argument. A string is one column. -/
def ColsArg.Lists (a : ColsArg) (cs : List String) : Prop :=
  match a with
  | .missing => cs = []
  | .one c => cs = [c]
  | .list l => cs = l

/-- The columns listed by `join_columns`, which is a sequence; a string is a sequence of strings of length one. -/
def ColsArg.Sequence (a : ColsArg) (cs : List String) : Prop :=
  match a with
  | .missing => False
  | .one s => s.toList = cs.flatMap String.toList ∧ ∀ c ∈ cs, c.length = 1
  | .list l => cs = l

def ColsArg.JoinOK (a : ColsArg) : Prop := ∀ cs, a.Sequence cs → cs ≠ [] ∧ cs.Nodup

/-- A value that is not null, NaN or infinite. -/
def Ordinary (v : Value) : Prop := v ≠ .null ∧ v ≠ .dec .nan ∧ v ≠ .dec .pinf ∧ v ≠ .dec .ninf

/-- What the arguments of every call have to be, whatever the tables are. -/
def Chain.Valid (ctx : Ctx) : Chain → Prop
  | .start id => ctx.isIdent id = true
  | .rename c m => c.Valid ctx ∧ ∀ p ∈ m, p.2 ≠ ""
  | .filter c _ _ => c.Valid ctx
  | .select c columns => c.Valid ctx ∧ columns ≠ .missing ∧ ∀ cs, columns.Lists cs → cs.Nodup
  | .map c _ types _ => c.Valid ctx ∧ TypesOK types
  | .flatMap c _ types _ grouping n => c.Valid ctx ∧ TypesOK types ∧ (grouping = true → ∃ p, types = [p]) ∧ ∀ z, n = some z → 0 ≤ z
  | .flatMapByID c _ types => c.Valid ctx ∧ TypesOK types
  | .binColumn c _ _ name => c.Valid ctx ∧ name ≠ some ""
  | .joinPublic c pub columns how => c.Valid ctx ∧ columns.JoinOK ∧ (how = "inner" ∨ how = "left") ∧
      ∀ f, pub = .frame f → ∀ x ∈ f.frame.fields, x.name ≠ "" ∧ x.ty ∈ supported
  | .joinPrivate c r _ _ columns => c.Valid ctx ∧ r.Valid ctx ∧ columns.JoinOK
  | .joinTable c table _ _ columns => c.Valid ctx ∧ ctx.isIdent table = true ∧ columns.JoinOK
  | .replaceNull c w => c.Valid ctx ∧ ∀ m, w = some m → ∀ p ∈ m, Ordinary p.2
  | .replaceInf c w => c.Valid ctx ∧ ∀ m, w = some m → ∀ p ∈ m, (number p.2.1).isSome ∧ (number p.2.2).isSome
  | .dropNull c _ => c.Valid ctx
  | .dropInf c _ => c.Valid ctx
  | .enforce c _ => c.Valid ctx

/-! ## Specification: the columns of the table -/

/-- The columns of a name. -/
def named (l : List (String × ColumnType)) (n : String) : List (String × ColumnType) := l.filter (fun p => decide (p.1 = n))

/-- The names of columns. -/
def names (l : List (String × ColumnType)) : List String := l.map Prod.fst

/-- The type a column is described to have. -/
def specType : ColSpec → ColumnType
  | .name s => if s = "INTEGER" then .INTEGER else if s = "DECIMAL" then .DECIMAL else if s = "VARCHAR" then .VARCHAR
    else if s = "DATE" then .DATE else .TIMESTAMP
  | .ty t => t
  | .desc d => d.ty

def specTypes (types : Dict String ColSpec) : List (String × ColumnType) := types.map (fun p => (p.1, specType p.2))

/-- The type a column of a data frame gets. -/
def frameType : SparkType → ColumnType
  | .integer => .INTEGER
  | .long => .INTEGER
  | .float => .DECIMAL
  | .double => .DECIMAL
  | .date => .DATE
  | .timestamp => .TIMESTAMP
  | _ => .VARCHAR

/-- The given join columns. -/
def givenCols : ColsArg → Option (List String)
  | .missing => none
  | .one s => some (s.toList.map (fun x => String.ofList [x]))
  | .list cs => some cs

/-- The columns of a join: one copy of the join columns, then the columns of one table, then those of both, with suffixes. -/
def joinedColumns (l r : List (String × ColumnType)) (given : ColsArg) : List (String × ColumnType) :=
  let on := onCols (givenCols given) (names l) (names r)
  on.flatMap (named l) ++ l.filter (fun p => decide (p.1 ∉ names r)) ++ r.filter (fun p => decide (p.1 ∉ names l)) ++
    (l.filter (fun p => decide (p.1 ∈ names r ∧ p.1 ∉ on))).flatMap (fun p =>
      (p.1 ++ "_left", p.2) :: (named r p.1).map (fun q => (q.1 ++ "_right", q.2)))

/-- The columns of a private table. -/
def tableColumns (cat : Cat) (id : String) : List (String × ColumnType) :=
  match Dict.get cat.priv id with
  | some (s, _) => s.columnDescs.elements.map (fun p => (p.1, p.2.ty))
  | none => []

/-- The columns of a public table. -/
def PubArg.columns (cat : Cat) : PubArg → List (String × ColumnType)
  | .table n =>
    match Dict.get cat.pub n with
    | some (s, _) => s.columnDescs.elements.map (fun p => (p.1, p.2.ty))
    | none => []
  | .frame f => f.frame.fields.map (fun x => (x.name, frameType x.ty))

/-- The new name of a column. -/
def newName (m : Dict String String) (c : String) : String :=
  match m.find? (fun p => decide (p.1 = c)) with
  | some p => p.2
  | none => c

/-- The ID column of the table. -/
def Chain.id (cat : Cat) : Chain → Option String
  | .start id => (Dict.get cat.priv id).bind (fun p => p.1.idColumn)
  | .rename c m => (c.id cat).map (newName m)
  | .filter c _ _ => c.id cat
  | .select c _ => c.id cat
  | .map c _ _ _ => c.id cat
  | .flatMap c _ _ _ _ _ => c.id cat
  | .flatMapByID c _ _ => c.id cat
  | .binColumn c _ _ _ => c.id cat
  | .joinPublic c _ _ _ => c.id cat
  | .joinPrivate c _ _ _ _ => c.id cat
  | .joinTable c _ _ _ _ => c.id cat
  | .replaceNull c _ => c.id cat
  | .replaceInf c _ => c.id cat
  | .dropNull c _ => c.id cat
  | .dropInf c _ => c.id cat
  | .enforce c _ => c.id cat

/-- The column made by a grouping flat map. -/
def Chain.tag (cat : Cat) : Chain → Option String
  | .start id => (Dict.get cat.priv id).bind (fun p => p.1.grouping)
  | .rename c m => (c.tag cat).map (newName m)
  | .filter c _ _ => c.tag cat
  | .select c _ => c.tag cat
  | .map c _ _ _ => c.tag cat
  | .flatMap c _ types _ grouping _ => if grouping then types.head?.map Prod.fst else c.tag cat
  | .flatMapByID c _ _ => c.tag cat
  | .binColumn c _ _ _ => c.tag cat
  | .joinPublic c _ _ _ => c.tag cat
  | .joinPrivate c r _ _ _ => (c.tag cat).or (r.tag cat)
  | .joinTable c table _ _ _ => (c.tag cat).or ((Dict.get cat.priv table).bind (fun p => p.1.grouping))
  | .replaceNull c _ => c.tag cat
  | .replaceInf c _ => c.tag cat
  | .dropNull c _ => c.tag cat
  | .dropInf c _ => c.tag cat
  | .enforce c _ => c.tag cat

/-- The columns of the table. -/
def Chain.columns (cat : Cat) : Chain → List (String × ColumnType)
  | .start id => tableColumns cat id
  | .rename c m => (c.columns cat).map (fun p => (newName m p.1, p.2))
  | .filter c _ _ => c.columns cat
  | .select c (.one n) => named (c.columns cat) n
  | .select c (.list cs) => cs.flatMap (named (c.columns cat))
  | .select _ .missing => []
  | .map c _ types augment => (if augment then c.columns cat else []) ++ specTypes types
  | .flatMap c _ types augment _ _ => (if augment then c.columns cat else []) ++ specTypes types
  | .flatMapByID c _ types => (c.columns cat).filter (fun p => decide (c.id cat = some p.1)) ++ specTypes types
  | .binColumn c column bins name => c.columns cat ++ [(name.getD (column ++ "_binned"), bins.desc.ty)]
  | .joinPublic c pub columns _ => joinedColumns (c.columns cat) (pub.columns cat) columns
  | .joinPrivate c r _ _ columns => joinedColumns (c.columns cat) (r.columns cat) columns
  | .joinTable c table _ _ columns => joinedColumns (c.columns cat) (tableColumns cat table) columns
  | .replaceNull c _ => c.columns cat
  | .replaceInf c _ => c.columns cat
  | .dropNull c _ => c.columns cat
  | .dropInf c _ => c.columns cat
  | .enforce c _ => c.columns cat

/-! ## Specification: the rows of the table -/

/-- The rows a flat map keeps of those its function returns for a row. On tables with IDs all of them, otherwise the first
`max_rows`. The values of the column of a grouping flat map have to be distinct. -/
def KeptRows (id : Option String) (grouping : Bool) (maxRows : Option ℤ) (xs ys : Table) : Prop :=
  match id, maxRows with
  | some _, _ => ys = xs
  | none, none => False
  | none, some n => (ys.length : ℤ) ≤ n ∧ ys.Subperm xs ∧ ((grouping = true → xs.Nodup) → ys = xs.take n.toNat)

/-- The rows of a public table. -/
def PubArg.rows (cat : Cat) : PubArg → Table → Prop
  | .table n, t => ∃ s, Dict.get cat.pub n = some (s, t)
  | .frame f, t => t = Frame.named f.frame

/-- A private join: of the tables themselves if they have IDs, otherwise of what the truncation strategies leave. -/
def PrivateJoin (id : Option String) (l r : List (String × ColumnType)) (given : ColsArg) (tl tr : Option Trunc)
    (lt rt t' : Table) : Prop :=
  let on := onCols (givenCols given) (names l) (names r)
  match id with
  | some _ => InnerJoined (names l) (names r) on lt rt t'
  | none => ∃ a b lt' rt', tl = some a ∧ tr = some b ∧ Truncated on a lt lt' ∧ Truncated on b rt rt' ∧
      InnerJoined (names l) (names r) on lt' rt' t'

instance (v : Value) : Decidable (Missing v) := inferInstanceAs (Decidable (v = .null ∨ v = .dec .nan))

/-- `replace_null_and_nan`: if nothing is given, the default of its type replaces each null and NaN of a column, except for
ID and grouping columns. Otherwise the given values do. -/
def NullsReplaced (cols : List (String × ColumnType)) (id tag : Option String) (w : Option (Dict String Value)) (c : String)
    (v v' : Value) : Prop :=
  ∀ t, (c, t) ∈ cols →
    if w = none ∨ w = some [] then
      v' = if Missing v ∧ id ≠ some c ∧ tag ≠ some c then defaultFor t else v
    else ∀ m, w = some m →
      (∀ x, (c, x) ∈ m → v' = if Missing v then asType t x else v) ∧ ((∀ x, (c, x) ∉ m) → v' = v)

/-- `replace_infinity`: 0 if nothing is given, otherwise the first value for -∞ and the second for ∞. -/
def InfsReplaced (w : Option (Dict String (Value × Value))) (c : String) (v v' : Value) : Prop :=
  if w = none ∨ w = some [] then v' = if v = .dec .ninf ∨ v = .dec .pinf then .dec (.fin 0) else v
  else ∀ m, w = some m →
    (∀ x, (c, x) ∈ m → v' = if v = .dec .ninf then asType .DECIMAL x.1 else if v = .dec .pinf then asType .DECIMAL x.2 else v) ∧
    ((∀ x, (c, x) ∉ m) → v' = v)

/-- A row with a new column that holds the name of the bin of another column, or null. -/
def BinAdded (b : Bins) (column name : String) (r r' : Row) : Prop :=
  let _ := b.order
  (∀ c, c ≠ name → Row.get r' c = Row.get r c) ∧
    ∃ u, Row.get r' name = some u ∧ ∀ v, Row.get r column = some v →
      (∃ a, u = b.binner.write a ∧ Binned b.binner b.spec v a) ∨ (u = .null ∧ ∀ a, ¬ Binned b.binner b.spec v a)

/-- `c.DocumentedBy drops cat D t`: table `t` is one that the documentation of the methods allows, on the data `D`; with
`drops`, rows of a table with IDs that match no row of the public table are left out of left joins too (`C57_left_fails`). -/
def Chain.DocumentedBy (drops : Bool) (cat : Cat) (D : Data) : Chain → Table → Prop
  | .start id, t' => t'.Perm (D id)
  | .rename c m, t' => ∃ t, c.DocumentedBy drops cat D t ∧ Each (Renamed m) t t'
  | .filter c _ cond, t' => ∃ t, c.DocumentedBy drops cat D t ∧ t'.Perm (t.filter cond)
  | .select c columns, t' => ∃ t cs, c.DocumentedBy drops cat D t ∧ columns.Lists cs ∧ Each (Selected cs) t t'
  | .map c f _ augment, t' => ∃ t, c.DocumentedBy drops cat D t ∧ Each (fun r r' => Made augment r (f r) r') t t'
  | .flatMap c f _ augment grouping n, t' => ∃ t, c.DocumentedBy drops cat D t ∧
      Expands (fun r us => ∃ ys, KeptRows (c.id cat) grouping n (f r) ys ∧ List.Forall₂ (Made augment r) ys us) t t'
  | .flatMapByID c f _, t' => ∃ t i, c.DocumentedBy drops cat D t ∧ c.id cat = some i ∧ ByID i f t t'
  | .binColumn c column bins name, t' => ∃ t, c.DocumentedBy drops cat D t ∧
      Each (BinAdded bins column (name.getD (column ++ "_binned"))) t t'
  | .joinPublic c pub columns how, t' => ∃ t p, c.DocumentedBy drops cat D t ∧ pub.rows cat p ∧
      let l := names (c.columns cat)
      let r := names (pub.columns cat)
      let on := onCols (givenCols columns) l r
      (how = "inner" ∧ InnerJoined l r on t p t') ∨ (how = "left" ∧
        if drops && (c.id cat).isSome then InnerJoined l r on t p t' else LeftJoined l r on t p t')
  | .joinPrivate c r tl tr columns, t' => ∃ lt rt, c.DocumentedBy drops cat D lt ∧ r.DocumentedBy drops cat D rt ∧
      PrivateJoin (c.id cat) (c.columns cat) (r.columns cat) columns tl tr lt rt t'
  | .joinTable c table tl tr columns, t' => ∃ lt rt, c.DocumentedBy drops cat D lt ∧ rt.Perm (D table) ∧
      PrivateJoin (c.id cat) (c.columns cat) (tableColumns cat table) columns tl tr lt rt t'
  | .replaceNull c w, t' => ∃ t, c.DocumentedBy drops cat D t ∧
      Each (Replaced (NullsReplaced (c.columns cat) (c.id cat) (c.tag cat) w)) t t'
  | .replaceInf c w, t' => ∃ t, c.DocumentedBy drops cat D t ∧ Each (Replaced (InfsReplaced w)) t t'
  | .dropNull c columns, t' => ∃ t cs keep, c.DocumentedBy drops cat D t ∧ columns.Lists cs ∧ t'.Perm (t.filter keep) ∧
      ∀ r ∈ t, keep r = true ↔ ∀ n v, Row.get r n = some v →
        (if cs = [] then c.id cat ≠ some n ∧ c.tag cat ≠ some n else n ∈ cs) → ¬ Missing v
  | .dropInf c columns, t' => ∃ t cs keep, c.DocumentedBy drops cat D t ∧ columns.Lists cs ∧ t'.Perm (t.filter keep) ∧
      ∀ r ∈ t, keep r = true ↔ ∀ n v, Row.get r n = some v → (cs = [] ∨ n ∈ cs) → v ≠ .dec .ninf ∧ v ≠ .dec .pinf
  | .enforce c k, t' => ∃ t i, c.DocumentedBy drops cat D t ∧ c.id cat = some i ∧ Enforced i k t t'

/-- `c.Documented cat D t`: table `t` is one that the documentation of the methods allows, on the data `D`. -/
abbrev Chain.Documented (cat : Cat) (D : Data) (c : Chain) (t : Table) : Prop := c.DocumentedBy false cat D t

/-! ## Specification: what a user has to keep -/

/-- A value that a column described by `x` may have: nulls always; NaN and infinities in a column of floats unless a
descriptor excludes them. -/
def May (x : ColSpec) (v : Value) : Prop :=
  match x with
  | .desc d => DescOK { d with allowNull := true } v
  | x => DescOK ⟨specType x, true, true, true⟩ v

/-- A row with the promised columns. -/
def Promised (types : Dict String ColSpec) (r : Row) : Prop :=
  r.cols.Nodup ∧ (∀ c, c ∈ r.cols ↔ c ∈ Dict.keys types) ∧ ∀ c v x, (c, v) ∈ r → (c, x) ∈ types → May x v

/-- Arguments are Python objects, functions return what their types promise and (for `flat_map_by_id`) do not look at the
order of rows, binning specifications are as constructed, no `rename` gives two columns one name, no grouping flat map makes
a column of floats. -/
def Chain.Kept : Chain → Prop
  | .start _ => True
  | .rename c m => c.Kept ∧ Dict.WF m ∧ (m.map Prod.snd).Nodup
  | .filter c _ _ => c.Kept
  | .select c _ => c.Kept
  | .map c f types _ => c.Kept ∧ Dict.WF types ∧ ∀ r, Promised types (f r)
  | .flatMap c f types _ grouping _ => c.Kept ∧ Dict.WF types ∧ (∀ r, ∀ x ∈ f r, Promised types x) ∧
      (grouping = true → ∀ p ∈ types, specType p.2 ≠ .DECIMAL)
  | .flatMapByID c f types => c.Kept ∧ Dict.WF types ∧ (∀ t, ∀ x ∈ f t, Promised types x) ∧
      ∀ s t, List.Perm s t → (f s).Perm (f t)
  | .binColumn c _ bins _ => c.Kept ∧ (let _ := bins.order; Binning.Valid bins.spec) ∧
      ∀ a, a ∈ bins.spec.names ∨ bins.spec.nanBin = some a → DescOK { bins.desc with allowNull := true } (bins.binner.write a)
  | .joinPublic c _ _ _ => c.Kept
  | .joinPrivate c r _ _ _ => c.Kept ∧ r.Kept
  | .joinTable c _ _ _ _ => c.Kept
  | .replaceNull c w => c.Kept ∧ ∀ m, w = some m → Dict.WF m
  | .replaceInf c w => c.Kept ∧ ∀ m, w = some m → Dict.WF m
  | .dropNull c _ => c.Kept
  | .dropInf c _ => c.Kept
  | .enforce c _ => c.Kept

/-- No left join of a public table with a table with IDs. -/
def Chain.NoLeft (cat : Cat) : Chain → Prop
  | .start _ => True
  | .rename c _ => c.NoLeft cat
  | .filter c _ _ => c.NoLeft cat
  | .select c _ => c.NoLeft cat
  | .map c _ _ _ => c.NoLeft cat
  | .flatMap c _ _ _ _ _ => c.NoLeft cat
  | .flatMapByID c _ _ => c.NoLeft cat
  | .binColumn c _ _ _ => c.NoLeft cat
  | .joinPublic c _ _ how => c.NoLeft cat ∧ (how = "left" → c.id cat = none)
  | .joinPrivate c r _ _ _ => c.NoLeft cat ∧ r.NoLeft cat
  | .joinTable c _ _ _ _ => c.NoLeft cat
  | .replaceNull c _ => c.NoLeft cat
  | .replaceInf c _ => c.NoLeft cat
  | .dropNull c _ => c.NoLeft cat
  | .dropInf c _ => c.NoLeft cat
  | .enforce c _ => c.NoLeft cat

/-- Table `t` is as documented, but for left joins of public tables with tables with IDs, which are inner joins. -/
def Chain.Faithful (cat : Cat) (D : Data) (c : Chain) (t : Table) : Prop :=
  c.DocumentedBy true cat D t ∧ (c.NoLeft cat → c.Documented cat D t)

end Verif.Whole
