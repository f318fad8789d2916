import Verif.Expr.Model
import Verif.Budget.Model

/-!
# Model of aggregations: schemas, rewriting and compilation

Sources: `/repo/src/tmlt/analytics/_query_expr.py` (aggregations), `_query_expr_compiler/_rewrite_rules.py`,
`_compiler.py`, `_base_measurement_visitor.py` and `_measurement_visitor.py`.

The measurements themselves (noise addition, partition selection, the composition of the two) are part of
`tmlt.core`. A compiled query is modelled by a `Plan`: the table that reaches the aggregation, the keys, and the
budgets and mechanism with which core's constructors are called. By contract a measurement built with a given
`d_out` has exactly that privacy function, so the checks of `_validate_measurement` (l. 670-694) and
`_compiler.py` l. 157-177 always pass and are left out. Stabilities are treated in `Verif.Stability`.
-/

namespace Verif.Query

open Verif Verif.Schema Verif.Expr Verif.Constraint Verif.Budget

/-! ## Query expressions -/

/-- A KeySet, as far as aggregations look at it: `schema()` and `dataframe()`. -/
structure KeySetV where
  schema : Dict String Desc
  rows : List Row
  deriving DecidableEq

/-- `groupby_keys`: a KeySet, or columns from which keys are selected automatically. -/
inductive Keys where
  | set (k : KeySetV)
  | cols (cs : List String)
  deriving DecidableEq

/-- The members of `CountMechanism`, `CountDistinctMechanism`, `SumMechanism`, `AverageMechanism`,
`VarianceMechanism` and `StdevMechanism` (l. 51-172). -/
inductive Mech where
  | default
  | laplace
  | gaussian
  deriving DecidableEq, Repr

/-- core's `NoiseMechanism`. -/
inductive CoreMech where
  | laplace
  | geometric
  | gaussian
  | discreteGaussian
  deriving DecidableEq, Repr

inductive Stat where
  | sum
  | average
  | variance
  | stdev
  deriving DecidableEq, Repr

/-- What is computed for each group. -/
inductive Kind where
  /-- `GroupByCount` (l. 1651-1685) -/
  | count (mech : Mech)
  /-- `GroupByCountDistinct` (l. 1688-1727) -/
  | countDistinct (toCount : List String) (mech : Mech)
  /-- `GroupByQuantile` (l. 1730-1792) -/
  | quantile (measure : String) (q : ℚ) (low high : Value)
  /-- `GroupByBoundedSum`, `…Average`, `…Variance`, `…Stdev` (l. 1795-2037) -/
  | bounded (stat : Stat) (measure : String) (low high : Value) (mech : Mech)
  /-- `GetBounds` (l. 289-320) -/
  | bounds (measure : String) (lowerCol upperCol : String)
  deriving DecidableEq

/-- A group-by aggregation. `out` is the output column (unused by `GetBounds`). -/
structure Agg where
  child : Expr
  keys : Keys
  kind : Kind
  out : String
  core : Option CoreMech

/-- A query that can be evaluated. -/
inductive Query where
  | agg (a : Agg)
  /-- `GetGroups` (l. 245-286) -/
  | groups (child : Expr) (cols : List String)
  /-- `SuppressAggregates` (l. 2040-2073) -/
  | suppress (a : Agg) (column : String) (threshold : ℚ)

def Kind.measure : Kind → Option String
  | .count _ => none
  | .countDistinct _ _ => none
  | .quantile c _ _ _ => some c
  | .bounded _ c _ _ _ => some c
  | .bounds c _ _ => some c

/-- `getattr(expr, "mechanism", None)`. -/
def Kind.mech : Kind → Option Mech
  | .count m => some m
  | .countDistinct _ m => some m
  | .bounded _ _ _ _ m => some m
  | _ => none

def Keys.columns : Keys → List String
  | .set k => Dict.keys k.schema
  | .cols cs => cs

def Keys.isAuto : Keys → Bool
  | .set _ => false
  | .cols _ => true

/-- The comparison `low >= high` of two Python numbers. -/
def numGe : Value → Value → Bool
  | .int a, .int b => decide (a ≥ b)
  | .int a, .dec (.fin b) => decide ((a : ℚ) ≥ b)
  | .dec (.fin a), .int b => decide (a ≥ (b : ℚ))
  | .dec (.fin a), .dec (.fin b) => decide (a ≥ b)
  | .dec .pinf, .dec .nan => false
  | .dec .pinf, _ => true
  | .dec .ninf, .dec .ninf => true
  | .dec (.fin _), .dec .ninf => true
  | .int _, .dec .ninf => true
  | _, _ => false

/-- The checks of the constructors (l. 1757-1782, 1822-1843, 1883-1904, 1944-1965, 2005-2027). -/
def Kind.constructible : Kind → Except PyErr Unit
  | .quantile _ q low high =>
    if ¬ (0 ≤ q ∧ q ≤ 1) then .error .value else if numGe low high then .error .value else .ok ()
  | .bounded _ _ low high _ => if numGe low high then .error .value else .ok ()
  | _ => .ok ()

/-! ## Validation and schemas -/

/-- The loop over the columns of a KeySet in `_validate_groupby` (l. 1512-1527). -/
def checkKeySet (s : Schema) : Dict String Desc → Except PyErr Unit
  | [] => .ok ()
  | (c, d) :: rest =>
    match Dict.get s.descs c with
    | none => .error .key
    | some d' => if d.ty ≠ d'.ty then .error .value else checkKeySet s rest

def checkKeys (s : Schema) : Keys → Except PyErr Unit
  | .set k => checkKeySet s k.schema
  | .cols cs => if cs.any (fun c => decide (c ∉ Schema.keys s)) then .error .value else .ok ()

/-- The checks on the measure column (l. 1551-1586). -/
def checkMeasure (s : Schema) (c : String) : Except PyErr Unit :=
  match Dict.get s.descs c with
  | none => .error .value
  | some d =>
    if d.ty ≠ .INTEGER ∧ d.ty ≠ .DECIMAL then .error .value
    else if s.idColumn = some c then .error .value
    else .ok ()

/-- `_validate_groupby` (l. 1493-1586). -/
def validateGroupby (keys : Keys) (measure : Option String) (s : Schema) : Except PyErr Unit :=
  match checkKeys s keys with
  | .error e => .error e
  | .ok () =>
    if s.grouping.any (fun g => decide (g ∉ keys.columns)) then .error .value
    else
      match measure with
      | none => .ok ()
      | some c => if c ∈ keys.columns then .error .value else checkMeasure s c

/-- `_schema_for_groupby` (l. 1589-1648). -/
def schemaForGroupby (a : Agg) (s : Schema) : Except PyErr Schema :=
  let measureTy := a.kind.measure.bind (fun c => (Dict.get s.descs c).map Desc.ty)
  let ty : ColumnType := match a.kind with
    | .count _ => .INTEGER
    | .countDistinct _ _ => .INTEGER
    | .bounds _ _ _ => measureTy.getD .DECIMAL
    | .bounded .sum _ _ _ _ => measureTy.getD .DECIMAL
    | _ => .DECIMAL
  let out : Dict String Desc := match a.kind with
    | .bounds _ l u => Dict.ofPairs [(l, ⟨ty, false, false, false⟩), (u, ⟨ty, false, false, false⟩)]
    | _ => [(a.out, ⟨ty, false, false, false⟩)]
  mk (Dict.union (Dict.ofPairs (a.keys.columns.filterMap (fun c => (Dict.get s.descs c).map (fun d => (c, d))))) out)
    none none none

/-- `schema` of the aggregations. -/
def Agg.schema (cat : Cat) (a : Agg) : Except PyErr Schema :=
  match schemaOf cat a.child with
  | .error e => .error e
  | .ok s =>
    match validateGroupby a.keys a.kind.measure s with
    | .error e => .error e
    | .ok () => schemaForGroupby a s

/-- `GetGroups.schema` (l. 255-282). -/
def groupsSchema (cat : Cat) (e : Expr) (cols : List String) : Except PyErr Schema :=
  match schemaOf cat e with
  | .error x => .error x
  | .ok s =>
    if cols.any (fun c => decide (c ∉ Schema.keys s)) then .error .value
    else if cols ≠ [] then
      mk (Dict.ofPairs (cols.filterMap (fun c => (Dict.get s.descs c).map (fun d => (c, d))))) none none none
    else mk (s.descs.filter (fun p => decide (s.idColumn ≠ some p.1))) none none none

def Query.schema (cat : Cat) : Query → Except PyErr Schema
  | .agg a => a.schema cat
  | .groups e cols => groupsSchema cat e cols
  | .suppress a _ _ => a.schema cat

/-! ## Rewriting (`_rewrite_rules.py`) -/

/-- `handle_special_values` (l. 213-255) at an aggregation. -/
def specialValues (cat : Cat) (a : Agg) : Except PyErr Agg :=
  match a.kind.measure with
  | none => .ok a
  | some c =>
    match schemaOf cat a.child with
    | .error e => .error e
    | .ok s =>
      match Dict.get s.descs c with
      | none => .error .key
      | some d =>
        let child1 := if d.allowNull || (decide (d.ty = .DECIMAL) && d.allowNan) then a.child.dropNull [c] else a.child
        if decide (d.ty = .DECIMAL) && d.allowInf then
          match a.kind with
          | .bounded _ _ low high _ =>
            if typeOK .DECIMAL low && validReplacement low && typeOK .DECIMAL high && validReplacement high then
              .ok { a with child := child1.replaceInf [(c, (low, high))] }
            else .error .value
          | .quantile _ _ low high =>
            if typeOK .DECIMAL low && validReplacement low && typeOK .DECIMAL high && validReplacement high then
              .ok { a with child := child1.replaceInf [(c, (low, high))] }
            else .error .value
          | _ => .ok { a with child := child1.dropInf [c] }
        else .ok { a with child := child1 }

/-- `select_noise_for_count` (l. 94-121). -/
def noiseForCount (m : Measure) : Mech → Except PyErr CoreMech
  | .default => .ok (if m = .pureDP ∨ m = .approxDP then .geometric else .discreteGaussian)
  | .laplace => .ok .geometric
  | .gaussian => if m ≠ .zCDP then .error .value else .ok .discreteGaussian

/-- `select_noise_for_non_count` (l. 123-181). -/
def noiseForOther (m : Measure) (ty : ColumnType) (mech : Mech) : Except PyErr CoreMech :=
  let first : Except PyErr CoreMech := match mech with
    | .default => .ok (if m = .pureDP ∨ m = .approxDP then .laplace else .gaussian)
    | .laplace => .ok .laplace
    | .gaussian => if m ≠ .zCDP then .error .value else .ok .gaussian
  match first with
  | .error e => .error e
  | .ok c =>
    if ty = .INTEGER then .ok (if c = .laplace then .geometric else .discreteGaussian) else .ok c

/-- `select_noise` (l. 183-197) at an aggregation. -/
def selectNoise (m : Measure) (cat : Cat) (a : Agg) : Except PyErr Agg :=
  match a.kind with
  | .count mech =>
    match noiseForCount m mech with
    | .error e => .error e
    | .ok c => .ok { a with core := some c }
  | .countDistinct _ mech =>
    match noiseForCount m mech with
    | .error e => .error e
    | .ok c => .ok { a with core := some c }
  | .bounded _ col _ _ mech =>
    match schemaOf cat a.child with
    | .error e => .error e
    | .ok s =>
      match Dict.get s.descs col with
      | none => .error .key
      | some d =>
        match noiseForOther m d.ty mech with
        | .error e => .error e
        | .ok c => .ok { a with core := some c }
  | _ => .ok a

/-- `rewrite` (l. 260-268). `depth_first` (l. 58-88) applies the rules to every node; both rules leave every node
that is not an aggregation unchanged, and aggregations only occur at the top or below a `SuppressAggregates`. -/
def rewriteAgg (m : Measure) (cat : Cat) (a : Agg) : Except PyErr Agg :=
  (specialValues cat a).bind (selectNoise m cat)

def rewrite (m : Measure) (cat : Cat) : Query → Except PyErr Query
  | .agg a => (rewriteAgg m cat a).map .agg
  | .groups e cols => .ok (.groups e cols)
  | .suppress a col t => (rewriteAgg m cat a).map (fun a' => .suppress a' col t)

/-! ## Compilation -/

/-- `_validate_approxDP_and_adjust_budget` (l. 591-668): the adjusted budget. -/
def adjustForQuery (keys : Keys) (mech : Option Mech) (b : PB) : Except PyErr PB :=
  match b with
  | .approx ε δ =>
    if mech = some .gaussian then .error .notImplemented
    else if keys.isAuto ∧ b.isInfinite = false then
      if ε ≤ 0 then .error .value
      else if δ ≤ 0 then .error .value
      else .ok b
    else .ok (.approx ε 0)
  | _ => .ok b

/-- `_get_zero_budget` (l. 390-398). -/
def zeroBudget : PB → PB
  | .pure _ => .pure 0
  | .approx _ _ => .approx 0 0
  | .zcdp _ => .zcdp 0

/-- `_split_auto_partition_budget` (l. 343-364). -/
def splitBudget (b : PB) : Except PyErr (PB × PB) :=
  match b with
  | .approx ε δ =>
    if b.isInfinite then .ok (.approx ⊤ 1, .approx ⊤ 0)
    else .ok (.approx (ε.map (· * (1 / 2))) δ, .approx (ε.map (· * (1 / 2))) 0)
  | _ => .error .value

/-- The budgets for the keys and for the aggregation (e.g. l. 878-887). -/
def keyAndQueryBudget (keys : Keys) (b adjusted : PB) : Except PyErr (PB × PB) :=
  match keys with
  | .set _ => .ok (zeroBudget b, adjusted)
  | .cols _ => splitBudget adjusted

/-- What core is asked to compute for each group: `bounded` and `quantile` with clamping bounds. -/
inductive Task where
  | count (out : String)
  /-- `none`: all columns count -/
  | countDistinct (out : String)
  | quantile (measure : String) (q : ℚ) (low high : Value) (out : String)
  | bounded (stat : Stat) (measure : String) (low high : Value) (out : String)
  | bounds (measure : String) (lowerCol upperCol : String)
  | groups
  deriving DecidableEq

/-- A compiled query. -/
structure Plan where
  /-- the budget of the composition of key selection and aggregation; the measurement's privacy function -/
  total : PB
  /-- for key selection -/
  keyBudget : PB
  /-- for the aggregation -/
  aggBudget : PB
  /-- noise mechanism passed to core, if the aggregation takes one -/
  mech : Option CoreMech
  /-- whether groups are combined by the L2 norm (`_build_groupby`, l. 400-419) -/
  useL2 : Bool
  keys : Keys
  task : Task
  /-- the table that reaches key selection and aggregation -/
  prep : Data → Table
  /-- post-processing of the answer -/
  post : Table → Table
  /-- the transformation whose stability core computes (`mid_stability`, e.g. l. 900) ... -/
  child : Expr
  /-- ... and how its result is truncated -/
  trunc : Option Truncation

/-- The column the metric groups by after truncation: enforcing with `update_metric` removes the ID column
(`constraints/_truncation.py`). -/
def Truncation.col : Truncation → Option String
  | .rows _ => none
  | .groups c _ _ => some c

/-- `_truncate_table` (l. 534-589): the column the metric groups by afterwards, the chosen constraints, and the rows. -/
def truncateOut (h : Hash) (order : List String → List String) (m : Measure) (o : Out) (grouping : List String) :
    Except PyErr (Option String × Option Truncation × (Data → Table)) :=
  match o.metric with
  | .ids i =>
    match chooseTruncation m grouping (truncatable order o.cons) with
    | none => .error .runtime
    | some tr => .ok (Truncation.col tr, some tr, fun D => applyTruncation h i tr (o.run D))
  | _ => .ok (o.metric.col, none, o.run)

/-- `_visit_child_transformation` (`_measurement_visitor.py` l. 41-56): the child, validated against its schema. -/
def visitChild (h : Hash) (cat : Cat) (e : Expr) : Except PyErr Out :=
  match compile h cat e with
  | .error x => .error x
  | .ok o =>
    match schemaOf cat e with
    | .error x => .error x
    | .ok s =>
      match validate s o with
      | .error x => .error x
      | .ok () => .ok o

/-- `QueryExprCompiler.__init__` (`_compiler.py` l. 75-87). -/
def defaultMech : Measure → CoreMech
  | .zCDP => .discreteGaussian
  | _ => .laplace

/-- `_build_groupby` (l. 409-413). -/
def usesL2 (c : CoreMech) : Bool := decide (c = .gaussian ∨ c = .discreteGaussian)

/-- The fixed surroundings of a compilation: core's hash, the order in which Python iterates over a set of column
names, the privacy notion, the catalog. -/
structure Env where
  h : Hash
  order : List String → List String
  m : Measure
  cat : Cat

/-- The part the visits have in common: adjust the budget, look at the schema, split the budget. -/
def start (env : Env) (b : PB) (a : Agg) : Except PyErr (PB × PB × PB) :=
  match adjustForQuery a.keys a.kind.mech b with
  | .error e => .error e
  | .ok adj =>
    match a.schema env.cat with
    | .error e => .error e
    | .ok _ =>
      match keyAndQueryBudget a.keys b adj with
      | .error e => .error e
      | .ok (kb, qb) => .ok (adj, kb, qb)

/-- `visit_groupby_count` (l. 871-929). -/
def visitCount (env : Env) (b : PB) (a : Agg) : Except PyErr Plan :=
  match start env b a with
  | .error e => .error e
  | .ok (adj, kb, qb) =>
    match a.core with
    | none => .error .internal
    | some c =>
      match visitChild env.h env.cat a.child with
      | .error e => .error e
      | .ok o =>
        match truncateOut env.h env.order env.m o a.keys.columns with
        | .error e => .error e
        | .ok (_, tr, prep) => .ok ⟨adj, kb, qb, some c, usesL2 c, a.keys, .count a.out, prep, id, a.child, tr⟩

/-- `visit_groupby_count_distinct` (l. 953-1044). With automatic keys and explicit columns to count, `groupby_keys`
is a tuple, which has no `schema` (l. 1002). Python's order of the set of selected columns is not determined
(l. 1006); the table's order is taken. That the column the metric groups by must be kept is assumed of core. -/
def visitCountDistinct (env : Env) (b : PB) (a : Agg) (toCount : List String) (mech : Mech) : Except PyErr Plan :=
  match start env b a with
  | .error e => .error e
  | .ok (adj, kb, qb) =>
    match a.core with
    | none => .error .internal
    | some c =>
      match visitChild env.h env.cat a.child with
      | .error e => .error e
      | .ok o =>
        match schemaOf env.cat a.child with
        | .error e => .error e
        | .ok s =>
          let shortcut := s.idColumn.bind (fun i =>
            countDistinctShortcut i (if toCount = [] then Schema.keys s else toCount) a.keys.columns o.cons)
          match shortcut with
          | some k => visitCount env b { a with child := a.child.enforce k, kind := .count mech }
          | none =>
            match truncateOut env.h env.order env.m o a.keys.columns with
            | .error e => .error e
            | .ok (col, tr, prep) =>
              if toCount = [] then
                .ok ⟨adj, kb, qb, some c, usesL2 c, a.keys, .countDistinct a.out, prep, id, a.child, tr⟩
              else
                match a.keys with
                | .cols _ => .error .attribute
                | .set k =>
                  let cols := (Dict.keys o.dom).filter (fun x => decide (x ∈ toCount ++ Dict.keys k.schema))
                  if (toCount ++ Dict.keys k.schema).any (fun x => decide (x ∉ Dict.keys o.dom)) then .error .value
                  else if col.any (fun x => decide (x ∉ cols)) then .error .value
                  else .ok ⟨adj, kb, qb, some c, usesL2 c, a.keys, .countDistinct a.out,
                    fun D => (prep D).map (fun r => cols.map (fun x => (x, cell r x))), id, a.child, tr⟩

/-- `visit_groupby_quantile` (l. 1074-1138), the four bounded aggregations (l. 1168-1233, 1263-1328, 1358-1423,
1453-1518), `visit_get_bounds` (l. 1546-1638). The bounds are passed on as they are: `_get_query_bounds` (l. 138-153) only changes their
representation. -/
def visitOther (env : Env) (b : PB) (a : Agg) (mech : Except PyErr (Option CoreMech)) (l2 : CoreMech → Bool)
    (task : Task) : Except PyErr Plan :=
  match start env b a with
  | .error e => .error e
  | .ok (adj, kb, qb) =>
    match mech with
    | .error e => .error e
    | .ok c =>
      match visitChild env.h env.cat a.child with
      | .error e => .error e
      | .ok o =>
        match truncateOut env.h env.order env.m o a.keys.columns with
        | .error e => .error e
        | .ok (_, tr, prep) =>
          .ok ⟨adj, kb, qb, c, l2 (c.getD (defaultMech env.m)), a.keys, task, prep, id, a.child, tr⟩

/-- `_get_core_mechanism` (l. 120-135). -/
def coreOf (a : Agg) : Except PyErr (Option CoreMech) :=
  match a.core with
  | none => .error .internal
  | some c => .ok (some c)

def visitAgg (env : Env) (b : PB) (a : Agg) : Except PyErr Plan :=
  match a.kind with
  | .count _ => visitCount env b a
  | .countDistinct toCount mech => visitCountDistinct env b a toCount mech
  | .quantile c q low high => visitOther env b a (.ok none) usesL2 (.quantile c q low high a.out)
  | .bounded st c low high _ => visitOther env b a (coreOf a) usesL2 (.bounded st c low high a.out)
  | .bounds c l u => visitOther env b a (.ok none) usesL2 (.bounds c l u)

/-- `visit_get_groups` (`_measurement_visitor.py` l. 67-155). -/
def visitGroups (env : Env) (b : PB) (e : Expr) (cols : List String) : Except PyErr Plan :=
  match b with
  | .approx ε δ =>
    match schemaOf env.cat e with
    | .error x => .error x
    | .ok s =>
      let columns := if cols ≠ [] then cols else (Schema.keys s).filter (fun c => decide (s.idColumn ≠ some c))
      if s.idColumn.any (fun i => decide (columns = []) || decide (i ∈ columns)) then .error .runtime
      else
        match visitChild env.h env.cat e with
        | .error x => .error x
        | .ok o =>
          match truncateOut env.h env.order env.m o [] with
          | .error x => .error x
          | .ok (_, tr, prep) =>
            if columns.any (fun x => decide (x ∉ Dict.keys o.dom)) then .error .value
            else .ok ⟨.approx ε δ, .approx ε δ, .approx 0 0, none, false, .cols columns, .groups,
              fun D => (prep D).map (fun r => columns.map (fun x => (x, cell r x))), id, e, tr⟩
  | _ => .error .value

/-- `df[column] >= t` in Spark, where NaN is larger than any number and a comparison with null is not true. -/
def atLeast (t : ℚ) : Option Value → Bool
  | some (.int z) => decide (t ≤ (z : ℚ))
  | some (.dec (.fin q)) => decide (t ≤ q)
  | some (.dec .pinf) => true
  | some (.dec .nan) => true
  | _ => false

/-- The rows whose value in a column is at least `t` (`suppression_function`, l. 1653-1655). -/
def suppressRows (col : String) (t : ℚ) (rows : Table) : Table := rows.filter (fun r => atLeast t (Row.get r col))

/-- `query.accept(visitor)`; `visit_suppress_aggregates` (l. 1640-1657). -/
def visit (env : Env) (b : PB) : Query → Except PyErr Plan
  | .agg a => visitAgg env b a
  | .groups e cols => visitGroups env b e cols
  | .suppress a col t =>
    match a.kind with
    | .count _ =>
      match visitCount env b a with
      | .error e => .error e
      | .ok p => .ok { p with post := fun rows => suppressRows col t (p.post rows) }
    | _ => .error .type

/-- `QueryExprCompiler.__call__` (`_compiler.py` l. 115-178). -/
def compileQuery (env : Env) (b : PB) (q : Query) : Except PyErr Plan :=
  match q.schema env.cat with
  | .error e => .error e
  | .ok _ =>
    match rewrite env.m env.cat q with
    | .error e => .error e
    | .ok q' => visit env b q'

/-! ## Answers

Core's group-by aggregations, by contract: Spark aggregates the groups present in the data; the result is joined to
the group keys, and keys without data get the value of the empty group. The value of a group is given by `core`
(noise is left out; for counts see `exactCount` in `PropsAnswer`). -/

/-- The key of a row. -/
def keyOf (cols : List String) (r : Row) : List Value := cols.map (cell r)

/-- `df.groupBy(cols).agg(…)`. -/
def aggregated (cols : List String) (f : Table → Row) (t : Table) : List (List Value × Row) :=
  (t.map (keyOf cols)).dedup.map (fun k => (k, f (t.filter (fun r => decide (keyOf cols r = k)))))

/-- The left join of the keys with the aggregated groups. Without group-by columns there is one group. -/
def groupedAnswer (cols : List String) (keys : List Row) (f : Table → Row) (t : Table) : Table :=
  if cols = [] then [f t]
  else keys.map (fun k => k ++ ((List.lookup (keyOf cols k) (aggregated cols f t)).getD (f [])))

/-- The answer for given key rows. -/
def Plan.answer (p : Plan) (core : Task → Table → Row) (keys : List Row) (D : Data) : Table :=
  p.post (groupedAnswer p.keys.columns keys (core p.task) (p.prep D))

/-- The key rows a plan may use (`_build_get_keyset_measurement`, l. 757-847): those of the KeySet, or the result of
partition selection, which by contract returns some of the keys that occur in the data. -/
def Plan.KeysFor (p : Plan) (D : Data) (keys : List Row) : Prop :=
  match p.keys with
  | .set k => keys = k.rows
  | .cols cs => keys.Nodup ∧ ∀ k ∈ keys, ∃ r ∈ p.prep D, k = cs.map (fun c => (c, cell r c))

/-- Whether the measurement that selects keys can be built (l. 772-788, 814-836); it is built when the query is run.
The comparisons of the code are on floats. -/
def Plan.keysOK (p : Plan) : Bool :=
  match p.keys, p.keyBudget with
  | .cols _, .approx ε δ => decide (0 < ε) && decide (0 < δ)
  | .cols _, _ => false
  | .set _, .pure ε => decide (ε = 0)
  | .set _, .approx ε δ => decide (ε = 0) && decide (δ = 0)
  | .set _, .zcdp ρ => decide (ρ = 0)

end Verif.Query
