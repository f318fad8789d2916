import Verif.Relation.Builder
import Verif.Whole.Model

/-!
# C65: the private tables of a session as core keeps them

Sources: `/repo/src/tmlt/analytics/_transformation_utils.py`, `_table_reference.py`, the visitor methods of
`_query_expr_compiler/_base_transformation_visitor.py`, and `create_view`, `delete_view`, `partition_and_create` of
`session.py`.

`Verif.Whole` keeps the private tables of a session in a list. In the code they are at the leaves of nested dictionaries:
tables without IDs at the top, tables with IDs in one dictionary per ID space. Every step of a query adds its result to the
dictionary its input is in, under a `TemporaryTable`; a view is such a result, copied under its name.

Simplified: domain, metric and value of a transformation's output are one tree (core keeps them in step); a transformation
is given by its output as a function of the data the session was built from. What a step does to the rows and columns of
a table is taken from `Verif.Expr`.
-/

namespace Verif.Nested

open Verif Verif.Schema Verif.Constraint Verif.Expr Verif.Query
open Verif.Relation (Ident Dom Ref RErr lookupDomain findReference findNamedTables)
open Verif.Whole (Tab PubFrame)

/-- A table: its domain, its metric, and its rows as a function of the data the session was built from. -/
structure Leaf where
  dom : Dict String SparkDesc
  metric : Expr.Metric
  run : Data → Table

abbrev Tree := Dom Leaf
abbrev Entries := List (Ident × Tree)

/-- The output of a transformation: dictionaries with tables at the leaves, and which of the dictionaries have an
`AddRemoveKeys` metric. All others have a `DictMetric`. -/
structure State where
  tree : Tree
  arks : List Ref

/-- What the repository does not say about Python and core. `fresh used` is the number (`id(self)`) of a new
`TemporaryTable` when those numbered `used` are alive (`_table_identifier.py` l. 45-47). -/
structure Core where
  fresh : List Nat → Nat
  /-- `Subset` accepts no keys at all -/
  emptySubset : Bool
  /-- a table can be joined with itself -/
  selfJoin : Bool

/-- Live objects have different `id`s. -/
def Core.Lawful (core : Core) : Prop := ∀ used, core.fresh used ∉ used

def pyErr : RErr → PyErr
  | .value => .value
  | .key => .key
  | .index => .internal
  | .type => .type

/-- The number of a temporary table. -/
def tempOf : Ident → List Nat
  | .temporary n => [n]
  | _ => []

/-! The numbers of the temporary tables of a domain. -/
mutual
def temps {L : Type} : Dom L → List Nat
  | .table _ => []
  | .dict kvs => tempss kvs
def tempss {L : Type} : List (Ident × Dom L) → List Nat
  | [] => []
  | (k, d) :: rest => tempOf k ++ temps d ++ tempss rest
end

/-- `lookup_domain` where a table is expected (l. 266-275). -/
def leafAt (s : State) (ref : Ref) : Except PyErr Leaf :=
  match lookupDomain s.tree ref with
  | .error e => .error (pyErr e)
  | .ok (.dict _) => .error .internal
  | .ok (.table l) => .ok l

/-! ## `_transformation_utils.py` -/

/-- Core's `create_transform_value` along a path (assumed): the entry at the path is replaced. -/
def setAt {L : Type} : Ref → Dom L → Dom L → Dom L
  | [], new, _ => new
  | _ :: _, _, .table l => .table l
  | k :: p, new, .dict kvs => .dict (kvs.map (fun q => if q.1 = k then (q.1, setAt p new q.2) else q))

/-- What a generator makes of a dictionary, given the identifier of the new table; `α` is what else is known then. -/
abbrev Gen (α : Type) := Entries → Ident → Except PyErr (Entries × α)

/-- `generator_dict` (l. 39-41): by the metric of the dictionary. -/
structure Gens (α : Type) where
  dict : Option (Gen α)
  ark : Option (Gen α)

/-- The loop over the ancestors (l. 75-94): all of them are dictionaries with a `DictMetric`. -/
def ancestorsOK (s : State) (parent : Ref) : Bool :=
  (List.range parent.length).all (fun i =>
    match lookupDomain s.tree (parent.take i) with
    | .ok (.dict _) => decide (parent.take i ∉ s.arks)
    | _ => false)

/-- `generate_nested_transformation` (l. 36-95). -/
def nested {α : Type} (s : State) (parent : Ref) (g : Gens α) (target : Ident) : Except PyErr (State × Ref × α) :=
  match lookupDomain s.tree parent with
  | .error e => .error (pyErr e)
  | .ok (.table _) => .error .value
  | .ok (.dict kvs) =>
    match (if parent ∈ s.arks then g.ark else g.dict) with
    | none => .error .value
    | some gen =>
      match gen kvs target with
      | .error e => .error e
      | .ok (kvs', x) =>
        if ancestorsOK s parent then .ok (⟨setAt parent (.dict kvs') s.tree, s.arks⟩, parent ++ [target], x)
        else .error .value

/-- Core's `create_copy_and_transform_value` and its `…Value` transformations (assumed): the result is a further entry;
the key must be new. -/
def addEntry (kvs : Entries) (k : Ident) (l : Leaf) : Except PyErr Entries :=
  if k ∈ Dict.keys kvs then .error .value else .ok (kvs ++ [(k, .table l)])

/-- A copy of a table, under a new key (`rename_table` l. 109-136, `persist_table` l. 200-232, `unpersist_table`
l. 253-285: `Identity`, `Persist` and `Unpersist` return the table they get). -/
def copyGen (key : Ident) : Gen Unit := fun kvs target =>
  match Dict.get kvs key with
  | some (.table l) => (addEntry kvs target l).map (fun kvs' => (kvs', ()))
  | some (.dict _) => .error .internal
  | none => .error .key

/-- The copy is made in the dictionary the table is in. -/
def copyTable (s : State) (ref : Ref) (target : Ident) : Except PyErr (State × Ref) :=
  match ref.getLast? with
  | none => .error .internal
  | some key => (nested s ref.dropLast ⟨some (copyGen key), some (copyGen key)⟩ target).map (fun x => (x.1, x.2.1))

/-- A new `TemporaryTable` (l. 62). -/
def newTemp (core : Core) (s : State) : Ident := .temporary (core.fresh (temps s.tree))

/-- `rename_table` (l. 98-148). -/
def renameTable (s : State) (ref : Ref) (new : Ident) : Except PyErr (State × Ref) := copyTable s ref new

/-- `persist_table` (l. 193-242). -/
def persistTable (core : Core) (s : State) (ref : Ref) : Except PyErr (State × Ref) := copyTable s ref (newTemp core s)

/-- `unpersist_table` (l. 245-294). -/
def unpersistTable (core : Core) (s : State) (ref : Ref) : Except PyErr State :=
  (copyTable s ref (newTemp core s)).map Prod.fst

def isTemp : Ident → Bool
  | .temporary _ => true
  | _ => false

/-- Core's `Subset`: the other entries are dropped. -/
def subset (core : Core) (kvs : Entries) (keep : Ident → Bool) : Except PyErr Entries :=
  if (kvs.filter (fun p => keep p.1)).isEmpty && !core.emptySubset then .error .value
  else .ok (kvs.filter (fun p => keep p.1))

/-- `delete_table` (l. 151-190): the table and all temporary tables beside it. -/
def deleteTable (core : Core) (s : State) (ref : Ref) : Except PyErr State :=
  match ref.getLast? with
  | none => .error .internal
  | some key =>
    let gen : Gen Unit := fun kvs _ =>
      (subset core kvs (fun k => !isTemp k && decide (k ≠ key))).map (fun kvs' => (kvs', ()))
    (nested s ref.dropLast ⟨some gen, some gen⟩ key).map Prod.fst

/-! ## Queries (`_base_transformation_visitor.py`) -/

/-- The ID space of a dictionary (`get_id_space`, `session.py` l. 883-892). -/
def spaceOf (parent : Ref) : Option String :=
  match parent.getLast? with
  | some (.collection n) => some n
  | _ => none

/-- A table with what else a visit returns. -/
def Leaf.out (l : Leaf) (sp : Option String) (cons : List Constraint) : Out := ⟨l.dom, l.metric, sp, cons, l.run⟩

def leafOf (o : Out) : Leaf := ⟨o.dom, o.metric, o.run⟩

/-- What a visitor method does with a table in a dictionary of either kind; in an `AddRemoveKeys` dictionary there may be a
table in between. -/
structure Step where
  dict : Option (Out → Except PyErr Out)
  ark : Option (Out → Except PyErr Out)
  mid : Out → Option Leaf

/-- The same for both kinds of dictionaries. -/
def Step.both (f : Out → Except PyErr Out) : Step := ⟨some f, some f, fun _ => none⟩

/-- Nulls are replaced before NaNs (l. 1161-1193). -/
def midReplace (w : Dict String Value) (o : Out) : Option Leaf :=
  match replaceWith w o.dom o.metric.col with
  | .error _ => none
  | .ok rw =>
    if restrict SparkDesc.allowNull o.dom rw = [] ∨ restrict allowsNan o.dom rw = [] then none
    else some ⟨update (setNull false) (Dict.keys (restrict SparkDesc.allowNull o.dom rw)) o.dom, o.metric,
      fun D => (o.run D).map (replaceRow isNull (restrict SparkDesc.allowNull o.dom rw))⟩

/-- Rows with nulls are dropped before those with NaNs (l. 1453-1485). -/
def midDrop (cols : List String) (o : Out) : Option Leaf :=
  let cs := dropNullCols cols o.dom o.metric.col
  if having SparkDesc.allowNull o.dom cs = [] ∨ having allowsNan o.dom cs = [] then none
  else some ⟨update (setNull false) (having SparkDesc.allowNull o.dom cs) o.dom, o.metric,
    fun D => dropRows isNull (having SparkDesc.allowNull o.dom cs) (o.run D)⟩

/-- The generator of a visitor method. -/
def stepGen (core : Core) (used : List Nat) (key : Ident) (sp : Option String) (cons : List Constraint)
    (f : Out → Except PyErr Out) (mid : Out → Option Leaf) : Gen (List Constraint) := fun kvs target =>
  match Dict.get kvs key with
  | none => .error .key
  | some (.dict _) => .error .internal
  | some (.table l) =>
    match f (l.out sp cons) with
    | .error e => .error e
    | .ok o =>
      match mid (l.out sp cons) with
      | none => (addEntry kvs target (leafOf o)).map (fun kvs' => (kvs', o.cons))
      | some x =>
        match addEntry kvs (.temporary (core.fresh used)) x with
        | .error e => .error e
        | .ok kvs1 => (addEntry kvs1 target (leafOf o)).map (fun kvs' => (kvs', o.cons))

/-- What a visit returns. -/
abbrev Visited := State × Ref × List Constraint

/-- A visitor method (for example `visit_rename`, l. 350-400): the child must be a table (`_visit_child`, l. 264-283); the
result is added to the dictionary the child is in. -/
def apply (core : Core) (st : Step) : Visited → Except PyErr Visited
  | (s, ref, cons) =>
    match leafAt s ref, ref.getLast? with
    | .error e, _ => .error e
    | .ok _, none => .error .internal
    | .ok _, some key =>
      let n := core.fresh (temps s.tree)
      let gen := fun f mid => stepGen core (n :: temps s.tree) key (spaceOf ref.dropLast) cons f mid
      nested s ref.dropLast ⟨st.dict.map (fun f => gen f (fun _ => none)), st.ark.map (fun f => gen f st.mid)⟩
        (.temporary n)

/-- The generators of `visit_join_private` (l. 846-902). -/
def joinGen (core : Core) (h : Hash) (tl tr : Option Trunc) (cols : Option (List String)) (lk rk : Ident)
    (sp : Option String) (lc rc : List Constraint) : Gen (List Constraint) := fun kvs target =>
  match Dict.get kvs lk, Dict.get kvs rk with
  | some (.table l), some (.table r) =>
    if lk = rk ∧ core.selfJoin = false then .error .value
    else
      match visitJoinPrivate h tl tr cols (l.out sp lc) (r.out sp rc) with
      | .error e => .error e
      | .ok o => (addEntry kvs target (leafOf o)).map (fun kvs' => (kvs', o.cons))
  | _, _ => .error .internal

/-- `visit_join_private` (l. 803-922) once both sides have been visited. -/
def applyJoin (core : Core) (h : Hash) (tl tr : Option Trunc) (cols : Option (List String)) (lref : Ref)
    (lc : List Constraint) : Visited → Except PyErr Visited
  | (s, rref, rc) =>
    if lref.dropLast ≠ rref.dropLast then .error .value
    else
      match leafAt s lref, leafAt s rref, lref.getLast?, rref.getLast? with
      | .ok _, .ok _, some lk, some rk =>
        let gen := joinGen core h tl tr cols lk rk (spaceOf rref.dropLast) lc rc
        nested s rref.dropLast ⟨some gen, some gen⟩ (newTemp core s)
      | _, _, _, _ => .error .internal

/-- `query.accept(visitor)`; the right side of a join is visited after the transformation of the left side (l. 805-811). -/
def visit (core : Core) (h : Hash) (cat : Cat) : Expr → State → Except PyErr Visited
  | .source id, s =>
    match findReference id s.tree with
    | none => .error .value
    | some ref =>
      match Dict.get cat.priv id with
      | none => .error .internal
      | some (_, cs) => .ok (s, ref, cs)
  | .rename e m, s => (visit core h cat e s).bind (apply core (.both (visitRename m)))
  | .filter e _ cond, s => (visit core h cat e s).bind (apply core (.both (visitFilter cond)))
  | .select e cols, s => (visit core h cat e s).bind (apply core (.both (visitSelect cols)))
  | .map e f new augment, s => (visit core h cat e s).bind (apply core (.both (visitMap f new augment)))
  | .flatMap e f new augment n, s => (visit core h cat e s).bind (apply core (.both (visitFlatMap f new augment n)))
  | .flatMapByID e f new, s =>
    (visit core h cat e s).bind (apply core ⟨none, some (visitFlatMapByID f new), fun _ => none⟩)
  | .joinPrivate l r tl tr cols, s =>
    (visit core h cat l s).bind (fun x =>
      (visit core h cat r x.1).bind (applyJoin core h tl tr cols x.2.1 x.2.2))
  | .joinPublic e pub cols how, s => (visit core h cat e s).bind (apply core (.both (visitJoinPublic cat pub cols how)))
  | .replaceNull e w, s =>
    (visit core h cat e s).bind (apply core ⟨some (visitReplaceNull w), some (visitReplaceNull w), midReplace w⟩)
  | .replaceInf e w, s => (visit core h cat e s).bind (apply core (.both (visitReplaceInf w)))
  | .dropNull e cols, s =>
    (visit core h cat e s).bind (apply core ⟨some (visitDropNull cols), some (visitDropNull cols), midDrop cols⟩)
  | .dropInf e cols, s => (visit core h cat e s).bind (apply core (.both (visitDropInf cols)))
  | .enforce e c, s => (visit core h cat e s).bind (apply core ⟨none, some (visitEnforce h c), fun _ => none⟩)

/-- `QueryExprCompiler.build_transformation` (`_compiler.py` l. 180-226). -/
def buildT (core : Core) (h : Hash) (cat : Cat) (e : Expr) (s : State) : Except PyErr Visited :=
  match schemaOf cat e with
  | .error x => .error x
  | .ok sch =>
    match visit core h cat e s with
    | .error x => .error x
    | .ok (s', ref, cons) =>
      match leafAt s' ref with
      | .error x => .error x
      | .ok l =>
        match validate sch (l.out (spaceOf ref.dropLast) cons) with
        | .error x => .error x
        | .ok () => .ok (s', ref, cons)

/-! ## Sessions (`session.py`) -/

/-- The private tables of a session: `_accountant`'s input, and `_table_constraints` (l. 328-332). -/
structure Store where
  state : State
  cons : Dict Ident (List Constraint)

/-- `private_sources` (l. 476-484). -/
def sources (s : State) : Except PyErr (List String) :=
  match findNamedTables s.tree with
  | some (.ok rs) => .ok (Relation.namesOf rs)
  | some (.error e) => .error (pyErr e)
  | none => .error .internal

/-- What `_catalog` asks about a table (l. 898-906): `get_schema` (l. 785-788), `get_grouping_column` (l. 819-839),
`get_id_column` (l. 844-864), `get_id_space` (l. 870-892) and `_table_constraints`. The distance is not asked for. -/
noncomputable def tabOf (st : Store) (name : String) : Except PyErr Tab :=
  match findReference name st.state.tree with
  | none => .error .key
  | some ref =>
    match leafAt st.state ref, Dict.get st.cons (.named name) with
    | .ok l, some cs => .ok ⟨l.dom, l.metric, spaceOf ref.dropLast, cs, 0, l.run⟩
    | .error e, _ => .error e
    | _, none => .error .key

noncomputable def tabsOf (st : Store) : List String → Except PyErr (List (String × Tab))
  | [] => .ok []
  | n :: ns =>
    match tabOf st n, tabsOf st ns with
    | .ok t, .ok ts => .ok ((n, t) :: ts)
    | .error e, _ => .error e
    | _, .error e => .error e

/-- `_catalog` (l. 894-914). -/
noncomputable def catalogOf (st : Store) (pub : List (String × PubFrame)) : Except PyErr Cat :=
  match sources st.state with
  | .error e => .error e
  | .ok names =>
    match tabsOf st names with
    | .error e => .error e
    | .ok ts => Whole.catalog ts pub

/-- `create_view` (l. 1221-1246), after the checks of the name and the accountant. -/
noncomputable def createView (core : Core) (h : Hash) (pub : List (String × PubFrame)) (name : String) (cache : Bool)
    (e : Expr) (st : Store) : Except PyErr Store :=
  match sources st.state with
  | .error x => .error x
  | .ok names =>
    if name ∈ names ∨ name ∈ Dict.keys pub then .error .value
    else
      match catalogOf st pub with
      | .error x => .error x
      | .ok cat =>
        match buildT core h cat e st.state with
        | .error x => .error x
        | .ok (s1, ref1, cons) =>
          match (if cache then persistTable core s1 ref1 else .ok (s1, ref1)) with
          | .error x => .error x
          | .ok (s2, ref2) =>
            match renameTable s2 ref2 (.named name) with
            | .error x => .error x
            | .ok (s3, _) => .ok ⟨s3, Dict.set st.cons (.named name) cons⟩

/-- `delete_view` (l. 1256-1282), after the check of the accountant. -/
def deleteView (core : Core) (name : String) (st : Store) : Except PyErr Store :=
  match findReference name st.state.tree with
  | none => .error .key
  | some ref =>
    match leafAt st.state ref with
    | .error e => .error e
    | .ok _ =>
      match unpersistTable core st.state ref with
      | .error e => .error e
      | .ok s1 =>
        match deleteTable core s1 ref with
        | .error e => .error e
        | .ok s2 => .ok ⟨s2, st.cons.filter (fun p => decide (p.1 ≠ .named name))⟩

/-- The dictionaries of a new session made by `partition_and_create` (l. 1618-1652): in the ID space if the table is in
one and the part still has IDs. -/
def partState (sp : Option String) (split : String) (l : Leaf) : State :=
  match sp, l.metric with
  | some n, .ids _ => ⟨.dict [(.collection n, .dict [(.named split, .table l)])], [[.collection n]]⟩
  | some n, .grouped _ => ⟨.dict [(.collection n, .dict [(.named split, .table l)])], [[.collection n]]⟩
  | _, _ => ⟨.dict [(.named split, .table l)], []⟩

end Verif.Nested
