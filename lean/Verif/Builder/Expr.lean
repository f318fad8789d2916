import Verif.Query.Model

/-!
# Query expressions as Python objects, and when they compare equal

Sources: `/repo/src/tmlt/analytics/_query_expr.py` (the dataclasses and their `__eq__`) and
`/repo/src/tmlt/analytics/query_builder.py` l. 92-149 (`Query.__eq__`, `__hash__`, `_is_equivalent`).

`Verif.Expr.Expr` has the meaning of an expression: functions from rows to rows, conditions on rows. Equality looks at
the objects: whether two functions are the same object or have the same bytecode, the text of a condition, the data
that a data frame shows through pandas. So expressions are modelled once more, with objects, and `denote` gives the
expression that they mean.

Simplified: a comparison that raises is one that does not answer `True`; `core_mechanism` is `None` in every expression
made by a builder and is left out; a `KeySet` is what it shows (`Verif.Query.KeySetV`), and comparison of KeySets is a
parameter, whose contract is what `Verif.KeySet.PropsEq` proves (C25).
-/

namespace Verif.Builder

open Verif Verif.Schema Verif.Expr Verif.Constraint Verif.Query

/-- A Python function: the identity of the object, its bytecode (`__code__.co_code`), and what it computes. Constants,
global names and closed-over variables are not part of the bytecode. -/
structure PyFn (α β : Type) where
  obj : Nat
  code : Nat
  run : α → β

/-- The public table of a join: a name, or a data frame object. -/
inductive PubArg where
  | name (s : String)
  | df (obj : Nat) (s : Schema) (rows : Table)

/-- The operations with one child (`_query_expr.py` l. 323-758, 936-1490) and their attributes other than the child.
`F` says how an attribute that the caller gives as a list or dictionary is held. -/
inductive OpF (F : Type → Type) where
  | rename (mapper : F (Dict String String))
  | filter (text : String)
  | select (cols : F (List String))
  | map (f : PyFn Row Row) (new : Schema) (augment : Bool)
  | flatMap (f : PyFn Row (List Row)) (new : Schema) (augment : Bool) (maxRows : Option Nat)
  | flatMapByID (f : PyFn (List Row) (List Row)) (new : Schema)
  | joinPublic (pub : PubArg) (cols : Option (F (List String))) (how : How)
  | replaceNull (w : F (Dict String Value))
  | replaceInf (w : F (Dict String (Value × Value)))
  | dropNull (cols : F (List String))
  | dropInf (cols : F (List String))
  | enforce (c : Constraint)

/-- An attribute that is its own value: a tuple, or a `FrozenDict`. -/
abbrev Own (α : Type) : Type := α

abbrev Op := OpF Own

/-- A query expression that produces a table. -/
inductive PExpr where
  | source (id : String)
  | op (o : Op) (child : PExpr)
  | join (l r : PExpr) (tl tr : Option Trunc) (cols : Option (List String))

/-- What Spark makes of the text of a condition. -/
abbrev Sql := String → (Schema → Bool) × (Row → Bool)

def PubArg.denote : PubArg → PubRef
  | .name s => .name s
  | .df _ s rows => .df s rows

/-- The meaning of an operation. -/
def Op.denote (sql : Sql) (o : Op) (e : Expr) : Expr :=
  match o with
  | .rename m => .rename e m
  | .filter t => .filter e (sql t).1 (sql t).2
  | .select cs => .select e cs
  | .map f new a => .map e f.run new a
  | .flatMap f new a n => .flatMap e f.run new a n
  | .flatMapByID f new => .flatMapByID e f.run new
  | .joinPublic p cs how => .joinPublic e p.denote cs how
  | .replaceNull w => .replaceNull e w
  | .replaceInf w => .replaceInf e w
  | .dropNull cs => .dropNull e cs
  | .dropInf cs => .dropInf e cs
  | .enforce c => .enforce e c

/-- The meaning of an expression. -/
def PExpr.denote (sql : Sql) : PExpr → Expr
  | .source id => .source id
  | .op o e => Op.denote sql o (e.denote sql)
  | .join l r tl tr cs => .joinPrivate (l.denote sql) (r.denote sql) tl tr cs

/-- A group-by aggregation. -/
structure PAgg where
  child : PExpr
  keys : Keys
  kind : Kind
  out : String

/-- The expression in a `Query`. -/
inductive PQuery where
  | agg (a : PAgg)
  | groups (child : PExpr) (cols : List String)
  | suppress (a : PAgg) (column : String) (threshold : ℚ)

def PAgg.denote (sql : Sql) (a : PAgg) : Agg := ⟨a.child.denote sql, a.keys, a.kind, a.out, none⟩

def PQuery.denote (sql : Sql) : PQuery → Query.Query
  | .agg a => .agg (a.denote sql)
  | .groups e cs => .groups (e.denote sql) cs
  | .suppress a c t => .suppress (a.denote sql) c t

/-! ## Python's `==` -/

/-- `==` of two values: numbers are compared as numbers. (`nan == nan` is `False`, but a tuple that holds the same
NaN object is equal to itself; here NaN is equal to NaN.) -/
def valEq : Value → Value → Bool
  | .int a, .dec (.fin b) => decide ((a : ℚ) = b)
  | .dec (.fin a), .int b => decide (a = (b : ℚ))
  | a, b => decide (a = b)

/-- `==` of two lists of pairs of a column and something else, like `FrozenDict.elements` (`_schema.py` l. 109-113). -/
def pairsEq {V : Type} (eq : V → V → Bool) : List (String × V) → List (String × V) → Bool
  | [], [] => true
  | (a, x) :: r, (b, y) :: s => decide (a = b) && eq x y && pairsEq eq r s
  | _, _ => false

def valPairEq (a b : Value × Value) : Bool := valEq a.1 b.1 && valEq a.2 b.2

/-- `self.f != other.f and self.f.__code__.co_code != other.f.__code__.co_code` is false (l. 553, 677, 752). -/
def fnEq {α β : Type} (f g : PyFn α β) : Bool := decide (f.obj = g.obj) || decide (f.code = g.code)

/-- A cell after `toPandas()`: in a numeric column a null becomes NaN, in any column a null counts as equal to NaN
(pandas, assumed). -/
def pdCell : Value → Option Value
  | .null => none
  | .dec .nan => none
  | .int z => some (.dec (.fin z))
  | v => some v

/-- The pandas type of a column: integers with nulls become floats (pandas, assumed). -/
inductive PdType where
  | int
  | float
  | object
  | datetime
  deriving DecidableEq

def pdType (rows : Table) (c : String) : ColumnType → PdType
  | .INTEGER => if rows.any (fun r => decide (cell r c = .null)) then .float else .int
  | .DECIMAL => .float
  | .VARCHAR => .object
  | .DATE => .object
  | .TIMESTAMP => .datetime

/-- The rows as pandas has them. -/
def pdRows (cols : List String) (rows : Table) : List (List (Option Value)) :=
  rows.map (fun r => cols.map (fun c => pdCell (cell r c)))

/-- Comparison of two data frames in `JoinPublic.__eq__` (l. 1020-1046): the same column names; then, unless one of
them is empty, the same columns in the same order with the same pandas types, and the same rows in any order. -/
def dfEq (s : Schema) (rows : Table) (s' : Schema) (rows' : Table) : Bool :=
  decide ((Schema.keys s).Perm (Schema.keys s')) &&
    (rows.isEmpty || rows'.isEmpty ||
      (decide (Schema.keys s = Schema.keys s') &&
        s.descs.all (fun p => decide (some (pdType rows p.1 p.2.ty) =
          (Dict.get s'.descs p.1).map (fun d => pdType rows' p.1 d.ty))) &&
        decide ((pdRows (Schema.keys s) rows).Perm (pdRows (Schema.keys s) rows'))))

/-- l. 1017-1046. -/
def pubEq : PubArg → PubArg → Bool
  | .name a, .name b => decide (a = b)
  | .df _ s r, .df _ s' r' => dfEq s r s' r'
  | _, _ => false

/-- `==` of two nodes, without their children: the class and the attributes (dataclasses compare all fields; `Map`
l. 545-559, `FlatMap` l. 669-684, `FlatMapByID` l. 744-757 and `JoinPublic` l. 1005-1051 have their own). -/
def opEq : Op → Op → Bool
  | .rename m, .rename m' => pairsEq (fun a b => decide (a = b)) m m'
  | .filter t, .filter t' => decide (t = t')
  | .select cs, .select cs' => decide (cs = cs')
  | .map f s a, .map f' s' a' => fnEq f f' && s.pyEq s' && decide (a = a')
  | .flatMap f s a n, .flatMap f' s' a' n' => fnEq f f' && decide (n = n') && s.pyEq s' && decide (a = a')
  | .flatMapByID f s, .flatMapByID f' s' => fnEq f f' && s.pyEq s'
  | .joinPublic p cs h, .joinPublic p' cs' h' => pubEq p p' && decide (cs = cs') && decide (h = h')
  | .replaceNull w, .replaceNull w' => pairsEq valEq w w'
  | .replaceInf w, .replaceInf w' => pairsEq valPairEq w w'
  | .dropNull cs, .dropNull cs' => decide (cs = cs')
  | .dropInf cs, .dropInf cs' => decide (cs = cs')
  | .enforce c, .enforce c' => decide (c = c')
  | _, _ => false

/-- `==` of two expressions. -/
def exprEq : PExpr → PExpr → Bool
  | .source a, .source b => decide (a = b)
  | .op o e, .op o' e' => opEq o o' && exprEq e e'
  | .join l r tl tr cs, .join l' r' tl' tr' cs' =>
    exprEq l l' && exprEq r r' && decide (tl = tl') && decide (tr = tr') && decide (cs = cs')
  | _, _ => false

/-- How KeySets are compared: `==`, and `is_equivalent` (true only if it answers `True`). -/
structure KeyCmp where
  eq : KeySetV → KeySetV → Bool
  equiv : KeySetV → KeySetV → Bool

/-- `==` of `groupby_keys`. -/
def keysEq (cmp : KeySetV → KeySetV → Bool) : Keys → Keys → Bool
  | .set k, .set k' => cmp k k'
  | .cols cs, .cols cs' => decide (cs = cs')
  | _, _ => false

/-- `==` of two aggregations without child, keys and output column. The four bounded aggregations have the same
attributes, but the members of their mechanism enumerations (l. 87-172) are not equal to each other. -/
def kindEq : Kind → Kind → Bool
  | .count m, .count m' => decide (m = m')
  | .countDistinct cs m, .countDistinct cs' m' => decide (cs = cs') && decide (m = m')
  | .quantile c q l h, .quantile c' q' l' h' => decide (c = c') && decide (q = q') && valEq l l' && valEq h h'
  | .bounded s c l h m, .bounded s' c' l' h' m' =>
    decide (c = c') && valEq l l' && valEq h h' && decide ((s, m) = (s', m'))
  | .bounds c a b, .bounds c' a' b' => decide (c = c') && decide (a = a') && decide (b = b')
  | _, _ => false

def aggEq (k : KeyCmp) (a b : PAgg) : Bool :=
  exprEq a.child b.child && keysEq k.eq a.keys b.keys && kindEq a.kind b.kind && decide (a.out = b.out)

/-- `Query.__eq__` (`query_builder.py` l. 129-134). -/
def queryEq (k : KeyCmp) : PQuery → PQuery → Bool
  | .agg a, .agg b => aggEq k a b
  | .groups e cs, .groups e' cs' => exprEq e e' && decide (cs = cs')
  | .suppress a c t, .suppress b c' t' => aggEq k a b && decide (c = c') && decide (t = t')
  | _, _ => false

/-! ## `_is_equivalent` -/

/-- Functions and data frames compare as objects (`!=`). -/
def pubIs : PubArg → PubArg → Bool
  | .name a, .name b => decide (a = b)
  | .df o _ _, .df o' _ _ => decide (o = o')
  | _, _ => false

/-- The attributes of two nodes other than their children, compared by name (`query_builder.py` l. 94-110). The classes
of the nodes are not compared, so two nodes of different classes pass if their attributes are called the same. -/
def attrsEq : Op → Op → Bool
  | .rename m, .rename m' => pairsEq (fun a b => decide (a = b)) m m'
  | .filter t, .filter t' => decide (t = t')
  | .select cs, .select cs' => decide (cs = cs')
  | .select cs, .dropNull cs' => decide (cs = cs')
  | .select cs, .dropInf cs' => decide (cs = cs')
  | .dropNull cs, .select cs' => decide (cs = cs')
  | .dropNull cs, .dropNull cs' => decide (cs = cs')
  | .dropNull cs, .dropInf cs' => decide (cs = cs')
  | .dropInf cs, .select cs' => decide (cs = cs')
  | .dropInf cs, .dropNull cs' => decide (cs = cs')
  | .dropInf cs, .dropInf cs' => decide (cs = cs')
  | .map f s a, .map f' s' a' => decide (f.obj = f'.obj) && s.pyEq s' && decide (a = a')
  | .flatMap f s a n, .flatMap f' s' a' n' =>
    decide (f.obj = f'.obj) && s.pyEq s' && decide (a = a') && decide (n = n')
  | .flatMapByID f s, .flatMapByID f' s' => decide (f.obj = f'.obj) && s.pyEq s'
  | .joinPublic p cs h, .joinPublic p' cs' h' => pubIs p p' && decide (cs = cs') && decide (h = h')
  | .replaceNull w, .replaceNull w' => pairsEq valEq w w'
  | .replaceNull w, .replaceInf w' => w.isEmpty && w'.isEmpty
  | .replaceInf w, .replaceNull w' => w.isEmpty && w'.isEmpty
  | .replaceInf w, .replaceInf w' => pairsEq valPairEq w w'
  | .enforce c, .enforce c' => decide (c = c')
  | _, _ => false

/-- `_query_expr_recursive_equivalence` (l. 92-110) on expressions that produce tables. An attribute that is an
expression is compared recursively, and again with `!=` (the `elif` belongs to the second `if`). -/
def recEquiv : PExpr → PExpr → Bool
  | .source a, .source b => decide (a = b)
  | .op o e, .op o' e' => (recEquiv e e' && exprEq e e') && attrsEq o o'
  | .join l r tl tr cs, .join l' r' tl' tr' cs' =>
    (recEquiv l l' && exprEq l l') && (recEquiv r r' && exprEq r r') && decide (tl = tl') && decide (tr = tr') &&
      decide (cs = cs')
  | _, _ => false

/-- The same on aggregations; no two classes of aggregations have attributes of the same names, except for the bounded
ones (see `kindEq`). -/
def aggEquiv (k : KeyCmp) (a b : PAgg) : Bool :=
  (recEquiv a.child b.child && exprEq a.child b.child) && keysEq k.equiv a.keys b.keys && kindEq a.kind b.kind &&
    decide (a.out = b.out)

/-- `Query._is_equivalent` (l. 136-149). -/
def isEquiv (k : KeyCmp) : PQuery → PQuery → Bool
  | .agg a, .agg b => aggEquiv k a b
  | .groups e cs, .groups e' cs' => (recEquiv e e' && exprEq e e') && decide (cs = cs')
  | .suppress a c t, .suppress b c' t' => (aggEquiv k a b && aggEq k a b) && decide (c = c') && decide (t = t')
  | _, _ => false

/-! ## Hashes -/

/-- What the hash of an object is computed from. Two objects whose digests are the same have the same hash. -/
inductive Digest where
  | text (s : String)
  | num (q : ℚ)
  | val (v : Value)
  | ident (n : Nat)
  | cols (l : List (String × Desc))
  | con (c : Constraint)
  | trunc (t : Option Trunc)
  | keys (k : List (String × Desc))
  | tag (n : Nat)
  | node (name : String) (l : List Digest)

/-- Equal numbers have equal hashes. -/
def valDigest : Value → Digest
  | .int z => .num z
  | .dec (.fin q) => .num q
  | v => .val v

def colsDigest (cs : List String) : Digest := .node "tuple" (cs.map .text)

def optColsDigest : Option (List String) → Digest
  | none => .node "None" []
  | some cs => colsDigest cs

/-- `Schema.__hash__`: the hash of the `FrozenDict` of columns. -/
def schemaDigest (s : Schema) : Digest := .cols s.columnDescs.elements

def howDigest : How → Digest
  | .inner => .text "inner"
  | .left => .text "left"

/-- The generated `__hash__` of frozen dataclasses hashes the tuple of all fields, also for the classes that define
`__eq__` (Python's `dataclasses`; no class here defines `__hash__`). Functions and data frames hash by identity. -/
def opDigest (child : Digest) : Op → Digest
  | .rename m => .node "child,column_mapper" (child :: m.map (fun p => .node "pair" [.text p.1, .text p.2]))
  | .filter t => .node "child,condition" [child, .text t]
  | .select cs => .node "child,columns" [child, colsDigest cs]
  | .map f s a => .node "child,f,schema,augment" [child, .ident f.obj, schemaDigest s, .tag a.toNat]
  | .flatMap f s a n => .node "child,f,schema,augment,max_rows"
      [child, .ident f.obj, schemaDigest s, .tag a.toNat, .node "max_rows" (n.toList.map .tag)]
  | .flatMapByID f s => .node "child,f,schema" [child, .ident f.obj, schemaDigest s]
  | .joinPublic p cs h => .node "child,public_table,join_columns,how"
      [child, match p with | .name s => .text s | .df o _ _ => .ident o, optColsDigest cs, howDigest h]
  | .replaceNull w => .node "child,replace_with" (child :: w.map (fun p => .node "pair" [.text p.1, valDigest p.2]))
  | .replaceInf w => .node "child,replace_with"
      (child :: w.map (fun p => .node "pair" [.text p.1, valDigest p.2.1, valDigest p.2.2]))
  | .dropNull cs => .node "child,columns" [child, colsDigest cs]
  | .dropInf cs => .node "child,columns" [child, colsDigest cs]
  | .enforce c => .node "child,constraint" [child, .con c]

def exprDigest : PExpr → Digest
  | .source id => .node "source_id" [.text id]
  | .op o e => opDigest (exprDigest e) o
  | .join l r tl tr cs => .node "left,right,strategies,join_columns"
      [exprDigest l, exprDigest r, .trunc tl, .trunc tr, optColsDigest cs]

/-- `KeySet.__hash__` hashes the schema (`keyset/_keyset.py` l. 572-574). -/
def keysDigest : Keys → Digest
  | .set k => .keys k.schema
  | .cols cs => colsDigest cs

def mechDigest : Mech → Digest
  | .default => .tag 0
  | .laplace => .tag 1
  | .gaussian => .tag 2

def statDigest : Stat → Digest
  | .sum => .tag 0
  | .average => .tag 1
  | .variance => .tag 2
  | .stdev => .tag 3

def kindDigest : Kind → List Digest
  | .count m => [mechDigest m]
  | .countDistinct cs m => [colsDigest cs, mechDigest m]
  | .quantile c q l h => [.text c, .num q, valDigest l, valDigest h]
  | .bounded s c l h m => [.text c, valDigest l, valDigest h, statDigest s, mechDigest m]
  | .bounds c a b => [.text c, .text a, .text b]

def aggDigest (a : PAgg) : Digest :=
  .node "aggregation" ([exprDigest a.child, keysDigest a.keys, .text a.out] ++ kindDigest a.kind)

/-- `Query.__hash__` (`query_builder.py` l. 125-127). -/
def queryDigest : PQuery → Digest
  | .agg a => aggDigest a
  | .groups e cs => .node "child,columns" [exprDigest e, colsDigest cs]
  | .suppress a c t => .node "child,column,threshold" [aggDigest a, .text c, .num t]

end Verif.Builder
