import Verif.Whole.Dist
import Verif.Whole.Typed
import Verif.Expr.PropsFrame
import Verif.Composition.Model
import Verif.Query.PropsBudget
import Verif.Query.PropsNoise
import Verif.Query.PropsGrouping

/-!
# C55, C56: a session with its tables, queries, views and partitions

`Verif.Session` leaves compilation, views and partitions open; `Verif.Expr`, `Verif.Query` and `Verif.Stability` model
them, for a fixed catalog. Here they are put together: the catalog is made from the tables of a session, an accepted query
becomes a measurement, a view a further table, a partition the tables of new sessions.

The distances are those of core's metrics: `SymmetricDifference` counts rows, `IfGroupedBy(g, SumOf(...))` does so too,
`IfGroupedBy(g, RootSumOfSquared(...))` is the root of the sum of the squared numbers of rows in each group, and
`AddRemoveKeys` counts IDs.

Simplified: the private tables of a session are a function of the data it was built from; exceptions that `Session.Err`
does not tell apart become `internal`.
-/

namespace Verif.Whole

open Verif Verif.Schema Verif.Constraint Verif.Expr Verif.Query Verif.Stability
open Verif.Budget (XNum PB Rounding)
open scoped NNReal

/-! ## Distances -/

/-- The metric of a table: `RootSumOfSquared` is used for groups in zCDP sessions (`_neighboring_relation_visitor.py`
l. 121-127; for views, `_compiler.py` l. 82-86 and `inner_metric`, `_base_transformation_visitor.py` l. 243-255). -/
noncomputable def tdist (m : Measure) (k : Metric) (s t : Table) : ℝ≥0 :=
  match k with
  | .grouped g => if m = .zCDP then rootDist (fun r => cell r g) s t else (rowDist s t : ℝ≥0)
  | _ => (rowDist s t : ℝ≥0)

/-- Core's stability functions (assumed, see `Stability.stability`), for distances that are real numbers: `d id` is how
far table `id` may move, `l2` whether the noise mechanism for which the expression is compiled is Gaussian
(`inner_metric`, `_base_transformation_visitor.py` l. 243-255). -/
noncomputable def distOf (l2 : Bool) (h : Hash) (cat : Cat) (d : String → ℝ≥0) : Expr → ℝ≥0
  | .source id => d id
  | .rename e _ => distOf l2 h cat d e
  | .filter e _ _ => distOf l2 h cat d e
  | .select e _ => distOf l2 h cat d e
  | .map e _ _ _ => distOf l2 h cat d e
  | .flatMap e _ new _ n =>
    if new.grouping.isSome ∧ l2 = true then NNReal.sqrt (n.getD 0) * distOf l2 h cat d e
    else (n.getD 0 : ℝ≥0) * distOf l2 h cat d e
  | .flatMapByID e _ _ => distOf l2 h cat d e
  | .joinPrivate l r tl tr _ =>
    match tl, tr with
    | some a, some b =>
      (threshold b * truncStability a : ℕ) * distOf l2 h cat d l + (threshold a * truncStability b : ℕ) * distOf l2 h cat d r
    | _, _ => 0
  | .joinPublic e pub cols how => (publicStability h cat e pub cols how : ℝ≥0) * distOf l2 h cat d e
  | .replaceNull e _ => distOf l2 h cat d e
  | .replaceInf e _ => distOf l2 h cat d e
  | .dropNull e _ => distOf l2 h cat d e
  | .dropInf e _ => distOf l2 h cat d e
  | .enforce e _ => distOf l2 h cat d e

/-- Whether the groups of the result were made by a flat map of the expression itself. -/
def ownGroups : Expr → Bool
  | .source _ => false
  | .rename e _ => ownGroups e
  | .filter e _ _ => ownGroups e
  | .select e _ => ownGroups e
  | .map e _ _ _ => ownGroups e
  | .flatMap e _ new _ _ => new.grouping.isSome || ownGroups e
  | .flatMapByID e _ _ => ownGroups e
  | .joinPrivate _ _ _ _ _ => false
  | .joinPublic e _ _ _ => ownGroups e
  | .replaceNull e _ => ownGroups e
  | .replaceInf e _ => ownGroups e
  | .dropNull e _ => ownGroups e
  | .dropInf e _ => ownGroups e
  | .enforce e _ => ownGroups e

/-- The privacy notion after which the metric of a compiled expression is made: flat maps that group go by the noise
mechanism (l. 243-255), tables of the session by the privacy notion of the session. -/
def innerOf (m : Measure) (l2 : Bool) (e : Expr) : Measure :=
  if ownGroups e then (if l2 then .zCDP else .pureDP) else m

/-! ## Tables and the catalog -/

/-- A private table of a session: its domain and metric, ID space, constraints (`_table_constraints`), how far it may move
(`d_in` of the accountant at this table; for a table with IDs, how many IDs), and its rows as a function of the data the
session was built from. -/
structure Tab where
  dom : Dict String SparkDesc
  metric : Metric
  space : Option String
  cons : List Constraint
  dist : ℝ≥0
  run : Data → Table

/-- `get_grouping_column` (`session.py` l. 812-839). -/
def groupOf : Metric → Option String
  | .grouped g => some g
  | _ => none

/-- `get_id_column` (l. 841-864). -/
def idOf : Metric → Option String
  | .ids i => some i
  | _ => none

/-- The schema the catalog gets for a private table (l. 899-906; `Catalog.add_private_table`, `_catalog.py` l. 86-97). -/
def Tab.schema (t : Tab) : Except PyErr Schema :=
  Expr.mk (sparkDomainToAnalytics t.dom) (groupOf t.metric) (idOf t.metric) t.space

/-- A Spark data frame with distinct column names; Spark keeps values in the types of their columns. -/
structure PubFrame where
  frame : Frame
  names : (frame.fields.map Field.name).Nodup
  typed : ∀ r ∈ frame.rows, List.Forall₂ (fun f v => Holds f v) frame.fields r

theorem coerce_names {cast : SparkType → Value → Value} {df df' : Frame} (h : coerce cast df = .ok df') :
    df'.fields.map Field.name = df.fields.map Field.name := by
  obtain ⟨h1, _⟩ := C39_coerce h
  generalize df.fields = a, df'.fields = b at h1
  induction h1 with
  | nil => rfl
  | cons hp _ ih => rw [List.map_cons, List.map_cons, hp.1, ih]

theorem coerce_typed {cast : SparkType → Value → Value} (hc : CastOK cast) {df df' : Frame} (h : coerce cast df = .ok df')
    (ht : ∀ r ∈ df.rows, List.Forall₂ (fun f v => Holds f v) df.fields r) :
    ∀ r ∈ df'.rows, List.Forall₂ (fun f v => Holds f v) df'.fields r := by
  obtain ⟨h1, h2, _⟩ := C39_coerce h
  obtain ⟨h3, h4⟩ := h2 hc (fun r hr => (ht r hr).imp fun _ _ hv => hv.1)
  intro r hr
  have h4 := h4 r hr
  have ht := ht r (h3 ▸ hr)
  generalize df.fields = a, df'.fields = b at h1 h4 ht
  clear hr
  induction h1 generalizing r with
  | nil => cases ht; exact .nil
  | cons hp _ ih =>
    cases ht with
    | cons hv hr =>
      cases h4 with
      | cons h4 h4' => exact .cons ⟨h4, fun hn => hp.2.1.trans (hv.2 hn)⟩ (ih _ h4' hr)

/-- The private tables of `_catalog` (l. 897-907). -/
def privCat : List (String × Tab) → Except PyErr (Dict String (Schema × List Constraint))
  | [] => .ok []
  | (n, t) :: rest =>
    match t.schema, privCat rest with
    | .ok s, .ok d => if n ∈ Dict.keys d then .error .value else .ok ((n, (s, t.cons)) :: d)
    | .error e, _ => .error e
    | _, .error e => .error e

/-- The public tables of `_catalog` (l. 908-913). -/
def pubCat : List (String × PubFrame) → Except PyErr (Dict String (Schema × Table))
  | [] => .ok []
  | (n, f) :: rest =>
    match sparkSchemaToAnalytics f.frame.fields, pubCat rest with
    | .ok ds, .ok d =>
      match Expr.mk ds none none none with
      | .ok s => if n ∈ Dict.keys d then .error .value else .ok ((n, (s, Frame.named f.frame)) :: d)
      | .error e => .error e
    | .error e, _ => .error e
    | _, .error e => .error e

/-- `_catalog` (l. 894-914). -/
def catalog (tables : List (String × Tab)) (pub : List (String × PubFrame)) : Except PyErr Cat :=
  match privCat tables, pubCat pub with
  | .ok a, .ok b => .ok ⟨a, b⟩
  | .error e, _ => .error e
  | _, .error e => .error e

/-- The rows of the private tables of a session. -/
def resolve (tables : List (String × Tab)) (D : Data) : Data := fun n =>
  match Dict.get tables n with
  | some t => t.run D
  | none => []

/-- How far a private table may move. -/
noncomputable def distAt (tables : List (String × Tab)) (n : String) : ℝ≥0 :=
  match Dict.get tables n with
  | some t => t.dist
  | none => 0

/-- `coerce_spark_schema_or_fail` (l. 967) on such frames. -/
def coerceFrame (cast : SparkType → Value → Value) (hc : CastOK cast) (f : PubFrame) : Except PyErr PubFrame :=
  match h : coerce cast f.frame with
  | .error e => .error e
  | .ok df => .ok ⟨df, coerce_names h ▸ f.names, coerce_typed hc h f.typed⟩

/-! ## Requests -/

/-- The expressions the model covers: built by the constructors, with functions that return rows of the promised columns
and, for `flat_map_by_id`, do not depend on the order of the rows; no rename gives two columns one name, no flat map
groups by a floating point column. -/
structure Admissible (e : Expr) : Prop where
  wf : e.WF
  fns : e.FnsOK
  renames : e.RenamesDistinct
  orderFree : OrderFree e
  groups : GroupsNotFloat e

/-- What is given to `evaluate` or `create_view`. -/
inductive Request where
  | query (q : Query) (ok : Admissible (child q))
  | table (e : Expr) (ok : Admissible e)

/-- What is fixed for a session and its descendants. -/
structure Ctx where
  h : Hash
  lawful : h.Lawful
  order : List String → List String
  m : Measure
  cast : SparkType → Value → Value
  castOK : CastOK cast
  isIdent : String → Bool
  rounding : Rounding

def toErr : PyErr → Session.Err
  | .value => .valueError
  | .key => .keyError
  | .type => .typeError
  | _ => .internal

/-- The privacy notion of a budget (`_validate_budget_type_matches_session`, l. 1705-1727). -/
def measureOf : PB → Measure
  | .pure _ => .pureDP
  | .approx _ _ => .approxDP
  | .zcdp _ => .zCDP

/-- How far a compiled expression may move: IDs stay IDs, all tables of an ID space move by the same number of them. -/
noncomputable def outDist (l2 : Bool) (h : Hash) (cat : Cat) (tables : List (String × Tab)) (o : Out) (e : Expr) : ℝ≥0 :=
  match o.metric with
  | .ids _ => distAt tables (e.sources.headD "")
  | _ => distOf l2 h cat (distAt tables) e

/-- `create_view` (l. 1227-1246): the view as a further private table. The mechanism is Gaussian exactly in zCDP sessions
(`_compiler.py` l. 82-86, 212-217). -/
noncomputable def transform (ctx : Ctx) (tables : List (String × Tab)) (pub : List (String × PubFrame)) :
    Request → Except Session.Err Tab
  | .query _ _ => .error .typeError
  | .table e _ =>
    match catalog tables pub with
    | .error x => .error (toErr x)
    | .ok cat =>
      match build ctx.h cat e with
      | .error x => .error (toErr x)
      | .ok (_, o) => .ok ⟨o.dom, o.metric, o.space, o.cons, outDist (decide (ctx.m = .zCDP)) ctx.h cat tables o e,
          fun D => o.run (resolve tables D)⟩

/-! ## Measurements -/

/-- What core's constructors are given. -/
structure Call where
  total : PB
  keyBudget : PB
  aggBudget : PB
  mech : Option CoreMech
  useL2 : Bool
  keys : Keys
  task : Task
  /-- `mid_stability`: how far the table may move for which the budget is promised -/
  delta : ℝ≥0

/-- A compiled measurement: what core is asked for, the table it is asked of, and what is done with its answer. -/
structure Meas where
  call : Call
  run : Data → Table
  post : Table → Table

/-- The distance for which core's aggregations promise privacy: `GroupBy` with `use_l2` combines the groups by the L2
norm, otherwise rows are counted. -/
noncomputable def callDist (c : Call) (s t : Table) : ℝ≥0 :=
  if c.useL2 then rootDist (fun r => c.keys.columns.map (fun x => Row.get r x)) s t else (rowDist s t : ℝ≥0)

/-- Whether the mechanism with which the child is compiled is Gaussian (`_visit_child_transformation`,
`_base_measurement_visitor.py` l. 890, 977, 1096, 1191, 1286, 1381, 1476): the one that also decides about `use_l2`, but
geometric for `get_bounds` (l. 1564) and `get_groups` (`_measurement_visitor.py` l. 93). -/
def visitL2 (p : Plan) : Bool :=
  match p.task with
  | .bounds _ _ _ => false
  | _ => p.useL2

/-- The distance after truncation (`_truncate_table`, `_base_measurement_visitor.py` l. 534-589). -/
noncomputable def planDelta (m : Measure) (h : Hash) (cat : Cat) (tables : List (String × Tab)) (grouping : List String)
    (o : Out) (p : Plan) : ℝ≥0 :=
  match p.trunc with
  | some tr => outDist (visitL2 p) h cat tables o p.child * NNReal.sqrt (Constraint.stabilitySq m grouping tr)
  | none => outDist (visitL2 p) h cat tables o p.child

/-- Whether the metric of the truncated table is a `RootSumOfSquared` over groups (l. 569-575). -/
def rootMetric (m : Measure) (grouping : List String) (o : Out) (p : Plan) : Bool :=
  match p.trunc with
  | some (.groups c _ _) => decide (m = .zCDP) && decide (c ∈ grouping)
  | some (.rows _) => false
  | none => (groupOf o.metric).isSome && decide (innerOf m (visitL2 p) p.child = .zCDP)

/-- Whether the groups are forgotten before core's measurement is built: `UnwrapIfGroupedBy` (l. 1574-1579;
`_measurement_visitor.py` l. 104-109). -/
def unwraps : Task → Bool
  | .bounds _ _ _ => true
  | .groups => true
  | _ => false

/-- `mid_stability`. Assumed of core: `UnwrapIfGroupedBy` squares the distance of a `RootSumOfSquared` metric ("squares the
sensitivity in zCDP", l. 1574) and keeps that of a `SumOf` metric. -/
noncomputable def callDelta (m : Measure) (h : Hash) (cat : Cat) (tables : List (String × Tab)) (grouping : List String)
    (o : Out) (p : Plan) : ℝ≥0 :=
  if unwraps p.task && rootMetric m grouping o p then planDelta m h cat tables grouping o p ^ 2
  else planDelta m h cat tables grouping o p

/-- `QueryExprCompiler.__call__` for a session (`session.py` l. 991-998). Assumed of core: `GroupBy` does not accept a
`RootSumOfSquared` metric without `use_l2`. -/
noncomputable def compileM (ctx : Ctx) (tables : List (String × Tab)) (pub : List (String × PubFrame)) (r : Request)
    (b : PB) : Except Session.Err Meas :=
  match r with
  | .table _ _ => .error .typeError
  | .query q _ =>
    if measureOf b ≠ ctx.m then .error .internal
    else
      match catalog tables pub with
      | .error x => .error (toErr x)
      | .ok cat =>
        match compileQuery ⟨ctx.h, ctx.order, ctx.m, cat⟩ b q with
        | .error x => .error (toErr x)
        | .ok p =>
          match compile ctx.h cat p.child with
          | .error x => .error (toErr x)
          | .ok o =>
            if rootMetric ctx.m (groupCols q) o p && !unwraps p.task && !p.useL2 then .error .valueError
            else .ok ⟨⟨p.total, p.keyBudget, p.aggBudget, p.mech, p.useL2, p.keys, p.task,
                callDelta ctx.m ctx.h cat tables (groupCols q) o p⟩, fun D => p.prep (resolve tables D), p.post⟩

/-- `measurement.privacy_relation(d_in, budget)` (l. 1124): the measurement was built for its own budget. -/
def covered (m : Meas) (b : PB) : Bool :=
  match m.call.total, b with
  | .pure x, .pure y => decide (x ≤ y)
  | .approx x d, .approx y e => decide (x ≤ y) && decide (d ≤ e)
  | .zcdp x, .zcdp y => decide (x ≤ y)
  | _, _ => false

/-! ## Partitions -/

/-- How a table is prepared for a partition by `col` (l. 1381-1422): a table with IDs needs a bound on the groups or the
rows of each ID. -/
inductive Cut where
  | rows
  | groupsOfID (i : String) (g : Nat)
  | rowsOfID (i : String) (r : Nat)

/-- The first `MaxGroupsPerID` on the column (l. 1393-1401). -/
def groupsOn (col : String) : List Constraint → Option Nat
  | [] => none
  | .maxGroupsPerID c g :: cs => if c = col then some g else groupsOn col cs
  | _ :: cs => groupsOn col cs

def cutOf (t : Tab) (col : String) : Except Session.Err Cut :=
  match t.metric with
  | .ids i =>
    match groupsOn col t.cons with
    | some g => .ok (.groupsOfID i g)
    | none =>
      match firstRows t.cons with
      | some r => .ok (.rowsOfID i r)
      | none => .error .valueError
  | _ => .ok .rows

/-- The rows that are partitioned: the constraint is enforced (`_create_partition_constraint`, l. 1284-1313). -/
def cutRows (h : Hash) (col : String) : Cut → Table → Table
  | .rows, s => s
  | .groupsOfID i g, s => enforce h i (.maxGroupsPerID col g) s
  | .rowsOfID i r, s => enforce h i (.maxRowsPerID r) s

/-- `attr_type.valid_py_value(split_val)` (l. 1447) for the values that `@typechecked` lets through: strings and
integers. -/
def splitOK : SparkDesc → Value → Bool
  | .integer _, .int _ => true
  | .string _, .str _ => true
  | _, _ => false

/-- The metric of a part, by the output metric of `PartitionByKeys` and l. 1620-1650: a table with a bound on the groups
of each ID stays a table with IDs, all others become tables without. -/
def partMetric : Cut → Metric
  | .groupsOfID i _ => .ids i
  | _ => .symDiff

/-- The ID space of a part. -/
def partSpace (sp : Option String) : Cut → Option String
  | .groupsOfID _ _ => sp
  | _ => none

/-- How far a part may move, if the whole moves by `d`. In a zCDP session `PartitionByKeys` uses `RootSumOfSquared`
(l. 1456). -/
noncomputable def partDist (m : Measure) (d : ℝ≥0) : Cut → ℝ≥0
  | .rows => d
  | .groupsOfID _ g => if m = .zCDP then NNReal.sqrt g * d else (g : ℝ≥0) * d
  | .rowsOfID _ r => (r : ℝ≥0) * d

/-- `partition_and_create` (l. 1315-1463, 1618-1653): what the new sessions know about their table. Assumed of core:
`PartitionByKeys` refuses repeated values, and grouped tables unless they are partitioned by their grouping column. -/
noncomputable def partTab (ctx : Ctx) (tables : List (String × Tab)) (pub : List (String × PubFrame)) (src col : String)
    (vals : List Value) : Except Session.Err Tab :=
  match Dict.get tables src with
  | none => if src ∈ Dict.keys pub then .error .valueError else .error .keyError
  | some t =>
    match cutOf t col with
    | .error e => .error e
    | .ok cut =>
      match Dict.get t.dom col with
      | none => .error .keyError
      | some d =>
        if vals.any (fun v => !splitOK d v) then .error .typeError
        else if ¬ vals.Nodup then .error .valueError
        else if (groupOf t.metric).any (fun g => decide (g ≠ col)) then .error .valueError
        else .ok ⟨t.dom, partMetric cut, partSpace t.space cut, [],
          partDist ctx.m t.dist cut, fun D => D src⟩

/-! ## Data -/

/-- What is known about the private tables a session was built from: their schemas, how far each table without IDs may
move, and how many IDs of each ID space. -/
structure Root where
  priv : Dict String Schema
  dist : String → ℝ≥0
  idDist : Option String → ℝ≥0

/-- The private tables of the `k`-th session of a partition (`self._accountant.split`, l. 1595). -/
noncomputable def partData (ctx : Ctx) (tables : List (String × Tab)) (x : Root × Data) (src col : String)
    (vals : List Value) (k : Nat) : Root × Data :=
  match partTab ctx tables [] src col vals, Dict.get tables src with
  | .ok p, some t =>
    match cutOf t col, p.schema with
    | .ok cut, .ok s =>
      (⟨[(src, s)], fun _ => p.dist, fun _ => p.dist⟩,
       fun n => if n = src then
          (cutRows ctx.h col cut (t.run x.2)).filter (fun r => decide (some (cell r col) = vals[k]?)) else [])
    | _, _ => x
  | _, _ => x

/-- The whole library, as far as sessions need it. -/
noncomputable def env (ctx : Ctx) : Session.Env Request Meas Tab PubFrame Value where
  isIdent := ctx.isIdent
  rounding := ctx.rounding
  compile := compileM ctx
  privRel := covered
  transform := transform ctx
  partition := partTab ctx
  coerce := fun f => match coerceFrame ctx.cast ctx.castOK f with
    | .ok f' => .ok f'
    | .error e => .error (toErr e)

/-- Core's measurements: the distribution of the answer. -/
structure Core where
  noise : Call → Table → PMF Table

noncomputable def sem (ctx : Ctx) (core : Core) : Composition.Sem Meas Tab Value (Root × Data) Table where
  mech := fun m x => (core.noise m.call (m.run x.2)).bind (fun a => PMF.pure (m.post a))
  part := partData ctx

/-! ## Specification -/

/-- Schemas as sessions have them: made by the constructor, not with both a grouping and an ID column, neither of them
with floating point numbers. -/
structure SchemaOK (s : Schema) : Prop where
  wf : s.WF
  noSpace : s.idColumn = none → s.idSpace = none
  noBoth : s.idColumn.isSome → s.grouping = none
  idTy : ∀ i, s.idColumn = some i → ∀ d, (i, d) ∈ s.columnDescs.elements → d.ty ≠ .DECIMAL
  groupTy : ∀ g, s.grouping = some g → ∀ d, (g, d) ∈ s.columnDescs.elements → d.ty ≠ .DECIMAL

/-- The data is as the schemas say. -/
def Conf (R : Root) (D : Data) : Prop := ∀ n s, Dict.get R.priv n = some s → Conforms s (D n)

/-- The part of a distance that is a share `s` of a budget: for zCDP, budgets grow with the square of distances. -/
noncomputable def scale (m : Measure) (s : ℝ≥0) : ℝ≥0 := if m = .zCDP then NNReal.sqrt s else s

/-- No table without IDs moves by more than the share `σ` of its distance. -/
def RowsClose (m : Measure) (R : Root) (σ : ℝ≥0) (D D' : Data) : Prop :=
  ∀ n s, Dict.get R.priv n = some s → s.idColumn = none → tdist m (metricOf s) (D n) (D' n) ≤ σ * R.dist n

/-- In the tables of ID space `sp`, the rows of the IDs in `q` are the same. -/
def SameRows (R : Root) (sp : Option String) (q : Option Value → Bool) (D D' : Data) : Prop :=
  ∀ n s i, Dict.get R.priv n = some s → s.idColumn = some i → s.idSpace = sp →
    ((D n).filter (fun r => q (Row.get r i))).Perm ((D' n).filter (fun r => q (Row.get r i)))

/-- The rows of one ID are added to or removed from the tables of an ID space. -/
def OneID (R : Root) (sp : Option String) (D D' : Data) : Prop :=
  ∃ v, SameRows R sp (fun x => decide (x ≠ v)) D D' ∧
    (SameRows R sp (fun x => decide (x = v)) D (fun _ => []) ∨ SameRows R sp (fun x => decide (x = v)) D' (fun _ => []))

/-- `k` IDs are added or removed, one after the other. -/
inductive IDs (R : Root) (sp : Option String) : ℕ → Data → Data → Prop
  | same {D D' : Data} : SameRows R sp (fun _ => true) D D' → IDs R sp 0 D D'
  | step {k : ℕ} {D E D' : Data} : OneID R sp D E → Conf R E → IDs R sp k E D' → IDs R sp (k + 1) D D'

/-- The data of a session differs by the share `s` of what its budget protects. -/
structure Near (m : Measure) (s : ℝ≥0) (x x' : Root × Data) : Prop where
  root : x'.1 = x.1
  good : ∀ n sch, Dict.get x.1.priv n = some sch → SchemaOK sch
  conf : Conf x.1 x.2
  conf' : Conf x.1 x'.2
  rows : RowsClose m x.1 (scale m s) x.2 x'.2
  ids : ∀ sp, ∃ k : ℕ, (k : ℝ≥0) ≤ scale m s * x.1.idDist sp ∧ IDs x.1 sp k x.2 x'.2

/-- What a session knows about a private table is right. -/
structure TabOK (m : Measure) (t : Tab) (R : Root) : Prop where
  schema : ∃ s, t.schema = .ok s ∧ SchemaOK s
  wf : Dict.WF t.dom
  conf : ∀ D, Conf R D → ∀ r ∈ t.run D, RowOK t.dom r
  rows : (∀ i, t.metric ≠ .ids i) → ∀ σ D D', Conf R D → Conf R D' → RowsClose m R σ D D' →
    tdist m t.metric (t.run D) (t.run D') ≤ σ * t.dist
  dist : ∀ i, t.metric = .ids i → t.dist = R.idDist t.space
  ids : ∀ i, t.metric = .ids i → ∀ q D D', Conf R D → Conf R D' → SameRows R t.space q D D' →
    ((t.run D).filter (fun r => q (Row.get r i))).Perm ((t.run D').filter (fun r => q (Row.get r i)))
  empty : t.run (fun _ => []) = []

/-- The calls of core's constructors that the library makes with finite budgets: the L2 norm only for zCDP and exactly for
Gaussian noise, keys are only selected for approximate differential privacy, the budgets for the keys and for the
aggregation add up to no more than the total. -/
structure CallOK (m : Measure) (c : Call) : Prop where
  kind : measureOf c.total = m
  valid : c.total.Valid
  l2 : c.useL2 = true → m = .zCDP
  gauss : ∀ k, c.mech = some k → (c.useL2 = true ↔ k.Gaussian)
  auto : c.keys.isAuto = true → m = .approxDP
  parts : first c.keyBudget + first c.aggBudget ≤ first c.total ∧ second c.keyBudget + second c.aggBudget ≤ second c.total

/-- The contract of core's measurements (assumed): for tables that differ by a share of the distance they were built for,
the answers are as close as that share of the budget promises. -/
def Core.Private (core : Core) (m : Measure) : Prop :=
  ∀ (c : Call) (s : ℝ≥0) (X Y : Table), s ≤ 1 → CallOK m c → callDist c X Y ≤ scale m s * c.delta →
    Composition.Within c.total s (core.noise c X) (core.noise c Y)

end Verif.Whole
