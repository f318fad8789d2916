import Verif.Builder.Expr

/-!
# Query builders as mutable objects

Source: `/repo/src/tmlt/analytics/query_builder.py` l. 229-3804.

A program holds `QueryBuilder`s, `GroupedQueryBuilder`s, `Query`s, and lists and dictionaries that it passes as
arguments. The objects live in a heap. A builder refers to an expression object, which refers to its children; the
methods of a builder make a new expression object that refers to the present one, and then store it in the builder they
are called on. An attribute made from a list or dictionary is either a copy (`tuple(…)`, `FrozenDict.from_dict(…)`) or
the caller's object, which the caller may change later.

Simplified: whether a call raises is left open, by an oracle (`raises`): in the code a constructor checks its arguments
(`__post_init__`) before anything is stored. Default names of columns are filled in by the caller of the model. `min`,
`max`, `median` are `quantile` (l. 3144-3291), and the aggregations of `QueryBuilder` itself (l. 2006-2796) are those of
`groupby(KeySet.from_dict({}))`. Functions, KeySets, data frames, constraints and truncation strategies are values: the
latter two are frozen dataclasses, KeySets and Spark data frames have no mutating methods, and a `BinningSpec` is frozen
and holds tuples.
-/

namespace Verif.Builder

open Verif Verif.Schema Verif.Expr Verif.Constraint Verif.Query

/-- Addresses are numbers. -/
scoped notation "Addr" => Nat

/-- A list or dictionary of the caller. -/
inductive Obj where
  | names (l : List String)
  | mapper (d : Dict String String)
  | values (d : Dict String Value)
  | pairs (d : Dict String (Value × Value))
  | types (d : Dict String ColSpec)

/-- How an attribute is held: as an immutable copy, or as a reference to an object of the caller. -/
inductive Held (α : Type) where
  | copied (a : α)
  | shared (i : Addr)

/-- The contents of an object, as attributes of some type. -/
class OfObj (α : Type) where
  get : Obj → Option α

instance : OfObj (List String) := ⟨fun | .names l => some l | _ => none⟩
instance : OfObj (Dict String String) := ⟨fun | .mapper d => some d | _ => none⟩
instance : OfObj (Dict String Value) := ⟨fun | .values d => some d | _ => none⟩
instance : OfObj (Dict String (Value × Value)) := ⟨fun | .pairs d => some d | _ => none⟩
instance : OfObj (Dict String ColSpec) := ⟨fun | .types d => some d | _ => none⟩

/-- An expression object that produces a table. -/
inductive Node where
  | source (id : String)
  | op (o : OpF Held) (child : Addr)
  | join (l r : Addr) (tl tr : Option Trunc) (cols : Option (Held (List String)))

inductive HeldKeys where
  | set (k : KeySetV)
  | cols (cs : Held (List String))

inductive HeldKind where
  | plain (k : Kind)
  | distinct (cols : Held (List String)) (mech : Mech)

/-- An aggregation object. -/
structure ANode where
  child : Addr
  keys : HeldKeys
  kind : HeldKind
  out : String

/-- The expression object of a `Query`. -/
inductive QNode where
  | agg (a : ANode)
  | groups (child : Addr) (cols : Held (List String))
  | suppress (a : ANode) (column : String) (threshold : ℚ)

/-- A `QueryBuilder` (l. 283-290): `_query_expr`, and `_source_id`. -/
structure BObj where
  source : String
  expr : Addr

/-- A `GroupedQueryBuilder` (l. 2801-2816). -/
structure GObj where
  expr : Addr
  keys : HeldKeys

/-- All objects; an address is a position. -/
structure Heap where
  nodes : List Node := []
  builders : List BObj := []
  grouped : List GObj := []
  queries : List QNode := []
  objs : List Obj := []

/-! ## What objects mean -/

def Held.read {α : Type} [OfObj α] (h : Heap) : Held α → Option α
  | .copied a => some a
  | .shared i => h.objs[i]?.bind OfObj.get

def readOpt {α : Type} [OfObj α] (h : Heap) : Option (Held α) → Option (Option α)
  | none => some none
  | some x => (x.read h).map some

/-- The operation, with its attributes read. -/
def readOp (h : Heap) : OpF Held → Option Op
  | .rename m => (m.read h).map .rename
  | .filter t => some (.filter t)
  | .select cs => (cs.read h).map .select
  | .map f s a => some (.map f s a)
  | .flatMap f s a n => some (.flatMap f s a n)
  | .flatMapByID f s => some (.flatMapByID f s)
  | .joinPublic p cs w => (readOpt h cs).map (fun cs => .joinPublic p cs w)
  | .replaceNull w => (w.read h).map .replaceNull
  | .replaceInf w => (w.read h).map .replaceInf
  | .dropNull cs => (cs.read h).map .dropNull
  | .dropInf cs => (cs.read h).map .dropInf
  | .enforce c => some (.enforce c)

/-- The expression at an address, unfolded at most `n` levels. -/
def unfold_ (h : Heap) : Nat → Addr → Option PExpr
  | 0, _ => none
  | n + 1, a =>
    match h.nodes[a]? with
    | none => none
    | some (.source id) => some (.source id)
    | some (.op o c) =>
      match readOp h o, unfold_ h n c with
      | some o, some e => some (.op o e)
      | _, _ => none
    | some (.join l r tl tr cs) =>
      match unfold_ h n l, unfold_ h n r, readOpt h cs with
      | some l, some r, some cs => some (.join l r tl tr cs)
      | _, _, _ => none

/-- The expression at an address. -/
def Heap.expr (h : Heap) (a : Addr) : Option PExpr := unfold_ h h.nodes.length a

def readKeys (h : Heap) : HeldKeys → Option Keys
  | .set k => some (.set k)
  | .cols cs => (cs.read h).map .cols

def readKind (h : Heap) : HeldKind → Option Kind
  | .plain k => some k
  | .distinct cs m => (cs.read h).map (fun cs => .countDistinct cs m)

def Heap.agg (h : Heap) (a : ANode) : Option PAgg :=
  match h.expr a.child, readKeys h a.keys, readKind h a.kind with
  | some e, some ks, some k => some ⟨e, ks, k, a.out⟩
  | _, _, _ => none

/-- What a `Query` object means at present. -/
def Heap.query (h : Heap) (q : Addr) : Option PQuery :=
  match h.queries[q]? with
  | none => none
  | some (.agg a) => (h.agg a).map .agg
  | some (.groups c cs) =>
    match h.expr c, cs.read h with
    | some e, some cs => some (.groups e cs)
    | _, _ => none
  | some (.suppress a c t) => (h.agg a).map (fun a => .suppress a c t)

/-- What a `QueryBuilder` means at present. -/
def Heap.builder (h : Heap) (b : Addr) : Option PExpr := h.builders[b]?.bind (fun o => h.expr o.expr)

/-- What a `GroupedQueryBuilder` means at present. -/
def Heap.groupedBuilder (h : Heap) (g : Addr) : Option (PExpr × Keys) :=
  match h.grouped[g]? with
  | none => none
  | some o =>
    match h.expr o.expr, readKeys h o.keys with
    | some e, some k => some (e, k)
    | _, _ => none

/-! ## Calls -/

/-- Arguments of transformations: lists and dictionaries are given by reference. `none` is Python's `None`. -/
inductive Arg where
  | rename (m : Addr)
  | filter (text : String)
  | select (cols : Addr)
  | map (f : PyFn Row Row) (types : Addr) (augment : Bool)
  | flatMap (f : PyFn Row (List Row)) (types : Addr) (augment grouping : Bool) (maxRows : Option Nat)
  | flatMapByID (f : PyFn (List Row) (List Row)) (types : Addr)
  | joinPublic (pub : PubArg) (cols : Option Addr) (how : How)
  | replaceNull (w : Option Addr)
  | replaceInf (w : Option Addr)
  | dropNull (cols : Option Addr)
  | dropInf (cols : Option Addr)
  | enforce (c : Constraint)
  /-- `f` is the function that bins a row, `desc` the column descriptor of the specification -/
  | binColumn (f : PyFn Row Row) (name : String) (desc : Desc)

/-- The right operand of a private join: the name of a table, or a builder. -/
inductive Operand where
  | table (id : String)
  | builder (b : Addr)

/-- What `groupby` is given: a KeySet, a column, or a list. -/
inductive By where
  | set (k : KeySetV)
  | col (c : String)
  | list (l : Addr)

inductive AggArg where
  | plain (k : Kind)
  | distinct (cols : Option Addr) (mech : Mech)

/-- What a program does: calls of builder methods, and changes of its own lists and dictionaries. -/
inductive Call where
  | new (id : String)
  | clone (b : Addr)
  | transform (b : Addr) (arg : Arg)
  | joinPrivate (b : Addr) (right : Operand) (tl tr : Option Trunc) (cols : Option Addr)
  | groupby (b : Addr) (by_ : By)
  | aggregate (g : Addr) (a : AggArg) (out : String)
  | getGroups (b : Addr) (cols : Option Addr)
  | histogram (b : Addr) (f : PyFn Row Row) (name : String) (desc : Desc) (keys : KeySetV)
  | suppress (q : Addr) (threshold : ℚ)
  | allocate (o : Obj)
  | assign (i : Addr) (o : Obj)

/-- What a call returns. -/
inductive Res where
  | raised
  | nothing
  | builder (b : Addr)
  | grouped (g : Addr)
  | query (q : Addr)
  deriving DecidableEq

/-- `tuple(xs)` and `FrozenDict.from_dict(d)` (`_schema.py` l. 86-91): a copy of the present contents. -/
def copyOf {α : Type} [OfObj α] (h : Heap) (i : Addr) : Option (Held α) := (h.objs[i]?.bind OfObj.get).map .copied

/-- `tuple(xs) if xs is not None else None`. -/
def copyOpt {α : Type} [OfObj α] (h : Heap) : Option Addr → Option (Option (Held α))
  | none => some none
  | some i => (copyOf h i).map some

/-- `if xs is None: xs = []` and then a copy. -/
def copyOrEmpty {α : Type} [OfObj (List α)] (h : Heap) : Option Addr → Option (Held (List α))
  | none => some (.copied [])
  | some i => copyOf h i

/-- `Schema(dict(new_column_types), grouping_column=…, default_allow_…=True)` (l. 1230-1236, 1367-1373, 1481-1486). -/
def newSchema (h : Heap) (i : Addr) (grouping : Option String) : Option Schema :=
  match (h.objs[i]?.bind OfObj.get : Option (Dict String ColSpec)) with
  | none => none
  | some d =>
    match Schema.init d grouping none none true true true with
    | .error _ => none
    | .ok s => some s

/-- The new node of a transformation: `join_public` (l. 454-459), `replace_null_and_nan` (l. 673-682),
`replace_infinity` (l. 751-757), `drop_null_and_nan` (l. 858-864), `drop_infinity` (l. 950-954), `rename`
(l. 1010-1013), `filter` (l. 1082), `select` (l. 1132-1137), `map` (l. 1227-1238), `flat_map` (l. 1353-1376),
`flat_map_by_id` (l. 1478-1487), `bin_column` (l. 1581-1588), `enforce` (l. 1723). `none`: it raises. -/
def makeOp (h : Heap) : Arg → Option (OpF Held)
  | .rename m => (copyOf h m).map .rename
  | .filter t => some (.filter t)
  | .select cs => (copyOf h cs).map .select
  | .map f ts a => (newSchema h ts none).map (fun s => .map f s a)
  | .flatMap f ts a g n =>
    if g then
      match (h.objs[ts]?.bind OfObj.get : Option (Dict String ColSpec)) with
      | some [(c, _)] => (newSchema h ts (some c)).map (fun s => .flatMap f s a n)
      | _ => none
    else (newSchema h ts none).map (fun s => .flatMap f s a n)
  | .flatMapByID f ts => (newSchema h ts none).map (fun s => .flatMapByID f s)
  | .joinPublic p cs w => (copyOpt h cs).map (fun cs => .joinPublic p cs w)
  | .replaceNull w => (copyOrEmpty (α := String × Value) h w).map .replaceNull
  | .replaceInf w => (copyOrEmpty (α := String × (Value × Value)) h w).map .replaceInf
  | .dropNull cs => (copyOrEmpty (α := String) h cs).map .dropNull
  | .dropInf cs => (copyOrEmpty (α := String) h cs).map .dropInf
  | .enforce c => some (.enforce c)
  | .binColumn f name desc =>
    match Schema.init [(name, .desc desc)] none none none true true true with
    | .error _ => none
    | .ok s => some (.map f s true)

/-- Make an expression object. -/
def Heap.addNode (h : Heap) (n : Node) : Heap := { h with nodes := h.nodes ++ [n] }

/-- `self._query_expr = …`. -/
def Heap.setExpr (h : Heap) (b : Addr) (o : BObj) (a : Addr) : Heap :=
  { h with builders := h.builders.set b { o with expr := a } }

/-- `self._query_expr = Node(child=self._query_expr, …); return self`. -/
def transform (h : Heap) (b : Addr) (arg : Arg) : Heap × Res :=
  match h.builders[b]?, makeOp h arg with
  | some o, some op => ((h.addNode (.op op o.expr)).setExpr b o h.nodes.length, .builder b)
  | _, _ => (h, .raised)

/-- `groupby` (l. 1989-2004). -/
def groupby (h : Heap) (b : Addr) (by_ : By) : Heap × Res :=
  let keys : Option HeldKeys := match by_ with
    | .set k => some (.set k)
    | .col c => some (.cols (.copied [c]))
    | .list l => (copyOf h l).map .cols
  match h.builders[b]?, keys with
  | some o, some k => ({ h with grouped := h.grouped ++ [⟨o.expr, k⟩] }, .grouped h.grouped.length)
  | _, _ => (h, .raised)

/-- The aggregations of `GroupedQueryBuilder` (l. 2818-3804). -/
def aggregate (h : Heap) (g : Addr) (a : AggArg) (out : String) : Heap × Res :=
  let kind : Option HeldKind := match a with
    | .plain k => some (.plain k)
    | .distinct cs m => (copyOrEmpty (α := String) h cs).map (fun cs => .distinct cs m)
  match h.grouped[g]?, kind with
  | some o, some k => ({ h with queries := h.queries ++ [.agg ⟨o.expr, o.keys, k, out⟩] }, .query h.queries.length)
  | _, _ => (h, .raised)

/-- One call. `raises`: whether a check refuses the call. -/
def call (raises : Heap → Call → Bool) (h : Heap) (c : Call) : Heap × Res :=
  if raises h c then (h, .raised)
  else
    match c with
    | .new id =>
      ({ h.addNode (.source id) with builders := h.builders ++ [⟨id, h.nodes.length⟩] }, .builder h.builders.length)
    | .clone b =>
      match h.builders[b]? with
      | none => (h, .raised)
      | some o => ({ h with builders := h.builders ++ [o] }, .builder h.builders.length)
    | .transform b arg => transform h b arg
    | .joinPrivate b right tl tr cols =>
      match right with
      | .table id =>
        match h.builders[b]?, copyOpt h cols with
        | some o, some cs =>
          (((h.addNode (.source id)).addNode (.join o.expr h.nodes.length tl tr cs)).setExpr b o (h.nodes.length + 1),
            .builder b)
        | _, _ => (h, .raised)
      | .builder b' =>
        match h.builders[b]?, h.builders[b']?, copyOpt h cols with
        | some o, some o', some cs =>
          ((h.addNode (.join o.expr o'.expr tl tr cs)).setExpr b o h.nodes.length, .builder b)
        | _, _, _ => (h, .raised)
    | .groupby b by_ => groupby h b by_
    | .aggregate g a out => aggregate h g a out
    | .getGroups b cols =>
      match h.builders[b]?, copyOrEmpty (α := String) h cols with
      | some o, some cs => ({ h with queries := h.queries ++ [.groups o.expr cs] }, .query h.queries.length)
      | _, _ => (h, .raised)
    | .histogram b f name desc keys =>
      match transform h b (.binColumn f name desc) with
      | (_, .raised) => (h, .raised)
      | (h1, _) =>
        match groupby h1 b (.set keys) with
        | (h2, .grouped g) => aggregate h2 g (.plain (.count .default)) "count"
        | (h2, _) => (h2, .raised)
    | .suppress q t =>
      match h.queries[q]? with
      | some (.agg a) =>
        match a.kind with
        | .plain (.count _) => ({ h with queries := h.queries ++ [.suppress a a.out t] }, .query h.queries.length)
        | _ => (h, .raised)
      | _ => (h, .raised)
    | .allocate o => ({ h with objs := h.objs ++ [o] }, .nothing)
    | .assign i o => ({ h with objs := h.objs.set i o }, .nothing)

/-- A sequence of calls. -/
def run (raises : Heap → Call → Bool) (h : Heap) (cs : List Call) : Heap :=
  cs.foldl (fun h c => (call raises h c).1) h

end Verif.Builder
