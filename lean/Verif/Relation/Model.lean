import Verif.Relation.Ref
import Verif.Schema.Model
import Verif.Budget.Model

/-!
# Protected changes, neighboring relations, and the construction of a session

Sources, all in `/repo/src/tmlt/analytics`: `protected_change.py`, `_neighboring_relation.py`,
`_neighboring_relation_visitor.py`, `_base_builder.py`, `session.py` l. 113-143, 251-295, 403-474.

Core's domains, metrics and distances are data. Core's constructors are assumed to accept what they are given here.
-/

namespace Verif.Relation

open Verif
open Verif.Schema (SparkType Field Frame SparkDesc PyErr)

/-! ## Protected changes -/

/-- `ProtectedChange` (`protected_change.py`). `AddOneRow()` is `maxRows 1` (l. 42-53); `other` is any further
subclass. -/
inductive Change where
  | maxRows (n : ℤ)
  | maxRowsInMaxGroups (col : String) (groups rows : ℤ)
  | rowsWithID (col space : String)
  | other
  deriving DecidableEq, Repr

/-- The checks in `__post_init__` (l. 35-39, 94-102, 125-132). -/
def Change.valid : Change → Bool
  | .maxRows n => decide (1 ≤ n)
  | .maxRowsInMaxGroups _ g r => decide (1 ≤ g) && decide (1 ≤ r)
  | .rowsWithID c s => decide (s ≠ "") && decide (c ≠ "")
  | .other => true

/-! ## Relations -/

/-- `NeighboringRelation` (`_neighboring_relation.py`). -/
inductive Relation where
  | rows (table : String) (n : ℤ)
  | groups (table col : String) (maxGroups perGroup : ℤ)
  | keys (space : String) (tables : Dict String String) (maxKeys : ℤ)
  | conj (children : List Relation)

/-- `AddRemoveKeys.__post_init__` (l. 216-226). -/
def mkKeys (space : String) (tables : Dict String String) (maxKeys : ℤ) : Except RErr Relation :=
  if space = "" then .error .value
  else if tables = [] then .error .value
  else if maxKeys < 1 then .error .value
  else .ok (.keys space tables maxKeys)

/-! `Conjunction._flatten` (l. 373-381). -/
mutual
def Relation.flatten : Relation → List Relation
  | .conj cs => flattens cs
  | .rows t n => [.rows t n]
  | .groups t c g r => [.groups t c g r]
  | .keys s m k => [.keys s m k]
def flattens : List Relation → List Relation
  | [] => []
  | r :: rs => r.flatten ++ flattens rs
end

/-- `Conjunction(children)` (l. 311-325). -/
def mkConj (children : List Relation) : Relation := .conj (flattens children)

abbrev Tables := Dict String Frame

/-- `[LongType(), StringType(), DateType()]` (l. 174, 253). -/
def allowedTypes : List SparkType := [.long, .string, .date]

def liftErr {α : Type} : Except PyErr α → Except RErr α
  | .ok a => .ok a
  | .error _ => .error .value

/-- `df.columns`. -/
def columns (df : Frame) : List String := df.fields.map Field.name

section
variable (cast : SparkType → Value → Value)

/-- The inner loop of `AddRemoveKeys._validate` (l. 266-291), with the value of `key_type`. -/
def keyFields (col : String) : List Field → Option SparkType → Except RErr (Option SparkType)
  | [], kt => .ok kt
  | f :: fs, kt =>
    if f.name ≠ col then keyFields col fs kt
    else if f.ty ∉ allowedTypes then .error .value
    else
      match kt with
      | none => keyFields col fs (some f.ty)
      | some t => if f.ty = t then keyFields col fs kt else .error .value

/-- The outer loop (l. 255-291). -/
def keyTables (m : Dict String String) : Tables → Option SparkType → Except RErr (Option SparkType)
  | [], kt => .ok kt
  | (name, df) :: rest, kt =>
    match Dict.get m name with
    | none => keyTables m rest kt
    | some col =>
      if col ∉ columns df then .error .value
      else
        match liftErr (Schema.coerce cast df) with
        | .error e => .error e
        | .ok df' =>
          match keyFields col df'.fields kt with
          | .error e => .error e
          | .ok kt' => keyTables m rest kt'

/-- `_validate`: l. 83-99 for rows (the data frame is looked up before the membership test, so that a missing table is
a `KeyError`), l. 153-188 for groups, l. 236-293 for keys. A conjunction returns nothing (l. 364-371), which its caller
cannot use. -/
def validateAny : Relation → Tables → Except RErr (List String)
  | .rows t _, dfs =>
    match Dict.get dfs t with
    | none => .error .key
    | some df =>
      match liftErr (Schema.coerce cast df) with
      | .error e => .error e
      | .ok _ => .ok [t]
  | .groups t col _ _, dfs =>
    match Dict.get dfs t with
    | none => .error .key
    | some df =>
      if col ∉ columns df then .error .value
      else
        match liftErr (Schema.coerce cast df) with
        | .error e => .error e
        | .ok df' =>
          if df'.fields.any (fun f => decide (f.name = col) && decide (f.ty ∉ allowedTypes)) then .error .value
          else .ok [t]
  | .keys _ m _, dfs =>
    if (Dict.keys m).any (fun t => decide (t ∉ Dict.keys dfs)) then .error .value
    else
      match keyTables cast m dfs none with
      | .error e => .error e
      | .ok _ => .ok (Dict.keys m)
  | .conj _, _ => .error .type

/-- The loop of `Conjunction.validate_input` (l. 334-346). -/
def validateChildren (dfs : Tables) : List Relation → List String → Except RErr (List String)
  | [], covered => .ok covered
  | c :: cs, covered =>
    match validateAny cast c dfs with
    | .error e => .error e
    | .ok names =>
      if covered.any (fun t => decide (t ∈ names)) then .error .value
      else validateChildren dfs cs (covered ++ names)

/-- `validate_input`: l. 69-81, 134-151, 228-234, 327-358. -/
def validateInput : Relation → Tables → Except RErr Unit
  | .rows t n, dfs =>
    if dfs.length > 1 then .error .value else (validateAny cast (.rows t n) dfs).map (fun _ => ())
  | .groups t c g r, dfs =>
    if dfs.length > 1 then .error .value else (validateAny cast (.groups t c g r) dfs).map (fun _ => ())
  | .keys s m k, dfs => (validateAny cast (.keys s m k) dfs).map (fun _ => ())
  | .conj cs, dfs =>
    match validateChildren cast dfs cs [] with
    | .error e => .error e
    | .ok covered =>
      if (Dict.keys dfs).any (fun t => decide (t ∉ covered)) || covered.any (fun t => decide (t ∉ Dict.keys dfs))
      then .error .value
      else .ok ()

end

/-! ## From protected changes to a relation -/

abbrev Sources := Dict String (Frame × Change)

/-- The loop of `_generate_neighboring_relation` (`session.py` l. 119-140): the relations so far and
`protected_ids_dict`. -/
def genLoop : Sources → List Relation → Dict String (Dict String String) →
    Except RErr (List Relation × Dict String (Dict String String))
  | [], rels, ids => .ok (rels, ids)
  | (name, _, .maxRows n) :: rest, rels, ids => genLoop rest (rels ++ [.rows name n]) ids
  | (name, _, .maxRowsInMaxGroups c g r) :: rest, rels, ids => genLoop rest (rels ++ [.groups name c g r]) ids
  | (name, _, .rowsWithID c s) :: rest, rels, ids =>
    genLoop rest rels (Dict.set ids s (Dict.set ((Dict.get ids s).getD []) name c))
  | (_, _, .other) :: _, _, _ => .error .value

/-- l. 141-142; the default of `max_keys` is 1. -/
def genKeys : Dict String (Dict String String) → Except RErr (List Relation)
  | [] => .ok []
  | (s, m) :: rest =>
    match mkKeys s m 1 with
    | .error e => .error e
    | .ok r => (genKeys rest).map (fun rs => r :: rs)

/-- `_generate_neighboring_relation` (`session.py` l. 113-143). -/
def generateRelation (sources : Sources) : Except RErr Relation :=
  match genLoop sources [] [] with
  | .error e => .error e
  | .ok (rels, ids) =>
    match genKeys ids with
    | .error e => .error e
    | .ok ks => .ok (mkConj (rels ++ ks))

/-! ## From a relation to core's domain, metric, distance and data -/

/-- The part of a measure that matters. -/
inductive Measure where
  | pureDP
  | approxDP
  | zCDP
  deriving DecidableEq, Repr

/-- Metrics: `SymmetricDifference`, `IfGroupedBy` with `SumOf`, `RootSumOfSquared` or nothing around
`SymmetricDifference`, `AddRemoveKeys`, `DictMetric`. -/
inductive Metric where
  | symDiff
  | groupedSum (col : String)
  | groupedRoot (col : String)
  | groupedSym (col : String)
  | addRemoveKeys (m : Dict Ident String)
  | dict (kvs : List (Ident × Metric))

/-- Distances: a number, `r * sqrt(g)`, or one for each entry. -/
inductive Dist where
  | num (n : ℤ)
  | timesRoot (r g : ℤ)
  | dict (kvs : List (Ident × Dist))

abbrev TableSchema := Dict String SparkDesc

/-- `NeighboringRelationCoreVisitor.Output` (`_neighboring_relation_visitor.py` l. 93-99). -/
structure Output where
  domain : Dom TableSchema
  metric : Metric
  distance : Dist
  data : Dom Frame

/-- Core's descriptor for a Spark column (assumed): nulls as declared, NaN and infinity allowed in floats. -/
def fieldSpark (f : Field) : Option SparkDesc :=
  match f.ty with
  | .integer => some (.integer f.nullable)
  | .long => some (.integer f.nullable)
  | .float => some (.float true true f.nullable)
  | .double => some (.float true true f.nullable)
  | .string => some (.string f.nullable)
  | .date => some (.date f.nullable)
  | .timestamp => some (.timestamp f.nullable)
  | .other _ => none

def fieldsSpark : List Field → Option (List (String × SparkDesc))
  | [] => some []
  | f :: fs =>
    match fieldSpark f, fieldsSpark fs with
    | some d, some ds => some ((f.name, d) :: ds)
    | _, _ => none

/-- Core's `SparkDataFrameDomain.from_spark_schema` (assumed). -/
def fromSparkSchema (df : Frame) : Except RErr TableSchema :=
  match fieldsSpark df.fields with
  | none => .error .value
  | some ds => .ok (Dict.ofPairs ds)

/-- `descriptor.allow_null`. -/
def allowNull : SparkDesc → Bool
  | .integer n => n
  | .float _ _ n => n
  | .string n => n
  | .date n => n
  | .timestamp n => n

/-- `dataclasses.replace(descriptor, allow_null=True)`. -/
def setNull : SparkDesc → SparkDesc
  | .integer _ => .integer true
  | .float a b _ => .float a b true
  | .string _ => .string true
  | .date _ => .date true
  | .timestamp _ => .timestamp true

/-- `any(domain_dict[table_id].schema[key_column].allow_null …)` (l. 45-48). -/
def anyNullable (doms : Dict Ident TableSchema) : Dict Ident String → Except RErr Bool
  | [] => .ok false
  | (t, c) :: rest =>
    match (Dict.get doms t).bind (fun s => Dict.get s c) with
    | none => .error .key
    | some d => if allowNull d then .ok true else anyNullable doms rest

/-- The loop in l. 50-55. -/
def widenAll : Dict Ident String → Dict Ident TableSchema → Except RErr (Dict Ident TableSchema)
  | [], doms => .ok doms
  | (t, c) :: rest, doms =>
    match Dict.get doms t with
    | none => .error .key
    | some s =>
      match Dict.get s c with
      | none => .error .key
      | some d => widenAll rest (Dict.set doms t (Dict.set s c (setNull d)))

/-- `_ensure_valid_schema_ark` (l. 36-57). -/
def ensureValid (m : Dict Ident String) (doms : Dict Ident TableSchema) : Except RErr (Dict Ident TableSchema) :=
  match anyNullable doms m with
  | .error e => .error e
  | .ok false => .ok doms
  | .ok true => widenAll m doms

/-- `_RelationIDVisitor` (l. 60-87). -/
def relationId : Relation → Except RErr Ident
  | .rows t _ => .ok (.named t)
  | .groups t _ _ _ => .ok (.named t)
  | .keys s _ _ => .ok (.collection s)
  | .conj _ => .error .type

/-- The loop of `visit_add_remove_keys` (l. 148-153). -/
def keysLoop (dfs : Tables) : Dict String String → Dict Ident TableSchema → Dict Ident String → Dict Ident Frame →
    Except RErr (Dict Ident TableSchema × Dict Ident String × Dict Ident Frame)
  | [], doms, ms, ds => .ok (doms, ms, ds)
  | (t, c) :: rest, doms, ms, ds =>
    match Dict.get dfs t with
    | none => .error .key
    | some df =>
      match fromSparkSchema df with
      | .error e => .error e
      | .ok s =>
        keysLoop dfs rest (Dict.set doms (.named t) s) (Dict.set ms (.named t) c) (Dict.set ds (.named t) df)

def tableDom {L : Type} (d : Dict Ident L) : Dom L := .dict (d.map (fun p => (p.1, .table p.2)))

/-- `visit_add_remove_rows`, `visit_add_remove_rows_across_groups`, `visit_add_remove_keys` (l. 110-157). -/
def visitOne (dfs : Tables) (meas : Measure) : Relation → Except RErr Output
  | .rows t n =>
    match Dict.get dfs t with
    | none => .error .key
    | some df => (fromSparkSchema df).map (fun s => ⟨.table s, .symDiff, .num n, .table df⟩)
  | .groups t c g r =>
    match Dict.get dfs t with
    | none => .error .key
    | some df =>
      (fromSparkSchema df).map (fun s =>
        match meas with
        | .zCDP => ⟨.table s, .groupedRoot c, .timesRoot r g, .table df⟩
        | _ => ⟨.table s, .groupedSum c, .num (r * g), .table df⟩)
  | .keys _ m k =>
    match keysLoop dfs m [] [] [] with
    | .error e => .error e
    | .ok (doms, ms, ds) =>
      (ensureValid ms doms).map (fun doms' => ⟨tableDom doms', .addRemoveKeys ms, .num k, tableDom ds⟩)
  | .conj _ => .error .type

/-- The dictionaries of `visit_conjunction` (l. 161-164). -/
structure Parts where
  domain : Dict Ident (Dom TableSchema)
  metric : Dict Ident Metric
  distance : Dict Ident Dist
  data : Dict Ident (Dom Frame)

/-- The loop of `visit_conjunction` (l. 166-173). -/
def visitChildren (dfs : Tables) (meas : Measure) : List Relation → Parts → Except RErr Parts
  | [], p => .ok p
  | c :: cs, p =>
    match relationId c with
    | .error e => .error e
    | .ok i =>
      match visitOne dfs meas c with
      | .error e => .error e
      | .ok o =>
        visitChildren dfs meas cs
          ⟨Dict.set p.domain i o.domain, Dict.set p.metric i o.metric, Dict.set p.distance i o.distance,
            Dict.set p.data i o.data⟩

/-- `visit_conjunction` (l. 159-177), for the children of a flattened conjunction. -/
def visitConj (dfs : Tables) (meas : Measure) (children : List Relation) : Except RErr Output :=
  (visitChildren dfs meas children ⟨[], [], [], []⟩).map (fun p =>
    ⟨.dict p.domain, .dict p.metric, .dict p.distance, .dict p.data⟩)

/-- `lookup_metric` (`_table_reference.py` l. 68-82). -/
def lookupMetric : Metric → Ref → Except RErr Metric
  | m, [] => .ok m
  | .dict kvs, k :: p =>
    match Dict.get kvs k with
    | none => .error .key
    | some m => lookupMetric m p
  | .addRemoveKeys m, k :: p =>
    match Dict.get m k with
    | none => .error .key
    | some c => lookupMetric (.groupedSym c) p
  | _, _ :: _ => .error .value

/-- `_create_accountant_from_neighboring_relation` (`session.py` l. 403-453), without the accountant. -/
def createCore (cast : SparkType → Value → Value) (meas : Measure) (dfs : Tables) (rel : Relation) :
    Except RErr Output :=
  match validateInput cast rel dfs with
  | .error e => .error e
  | .ok () => visitConj dfs meas (flattens [rel])

end Verif.Relation
