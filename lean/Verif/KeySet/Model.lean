import Verif.Schema.Model
import Mathlib.Data.List.Sort
import Mathlib.Data.List.Lex

/-!
# Model of KeySets: operation trees, their validation and their rewriting

Sources: `/repo/src/tmlt/analytics/keyset/_ops/*.py` and `/repo/src/tmlt/analytics/keyset/_keyset.py`.

Simplified:
* `isinstance` checks on arguments are types here; messages of exceptions are dropped.
* A Python `set`/`frozenset` of column names is a list read up to membership; a `frozenset` of tuples is a
  list without repetitions.
* `hash` of an operation tree is a parameter `hsh`: Python's string hashes change from run to run, so nothing
  may depend on it. It may fail, as hashing a `Filter` on a Spark `Column` does.
* A filter condition is an SQL string or a `Column` object, the latter identified by a number. What Spark does
  with a condition is a parameter (`Env.ev` in `Verif.KeySet.Spec`).
* Spark resolves column names regardless of case by default; here names are compared as Python compares them.
-/

namespace Verif.KeySet

open Verif Verif.Schema

/-- Exception classes. -/
inductive KErr where
  | value
  | key
  | type
  | internal
  | index
  | attribute
  deriving DecidableEq, Repr

/-- A filter condition (`_ops/_filter.py` l. 23). -/
inductive Cond where
  | sql (s : String)
  | col (id : Nat)
  deriving DecidableEq

/-- The subclasses of `KeySetOp`: `Detect` (`_detect.py` l. 21-24), `FromTuples` (`_from_tuples.py` l. 24-28),
`FromSparkDataFrame` (`_from_dataframe.py` l. 19-22), `CrossJoin` and `InMemoryCrossJoin` (`_cross_join.py`
l. 25-32, 148-156; `mem` tells which), `Join` (`_join.py` l. 19-27), `Project` (`_project.py` l. 20-24), `Filter`
(`_filter.py` l. 19-23), `Subtract` (`_subtract.py` l. 19-27) and `Union` (`_union.py` l. 18-28). -/
inductive Op where
  | detect (cols : List String)
  | tuples (ts : List (List Value)) (descs : List (String × Desc))
  | frame (df : Frame)
  | cross (mem : Bool) (fs : List Op)
  | join (l r : Op)
  | project (c : Op) (cols : List String)
  | filter (c : Op) (cond : Cond)
  | subtract (l r : Op)
  | union (l r : Op)

/-- Equality of sets of column names. -/
def setEq (a b : List String) : Bool := a.all (fun c => decide (c ∈ b)) && b.all (fun c => decide (c ∈ a))

/-- Intersection of sets of column names. -/
def inter (a b : List String) : List String := a.filter (fun c => decide (c ∈ b))

mutual
/-- `columns()` of each operation: `_detect.py` l. 34-36, `_from_tuples.py` l. 40-42, `_from_dataframe.py` l. 30-32,
`_cross_join.py` l. 53-55, `_join.py` l. 52-54, `_project.py` l. 57-59, `_filter.py` l. 36-38, `_subtract.py`
l. 43-45, `_union.py` l. 59-61. -/
def Op.columns : Op → List String
  | .detect cs => cs
  | .tuples _ ds => ds.map Prod.fst
  | .frame df => df.fields.map Field.name
  | .cross _ fs => columnsL fs
  | .join l r => l.columns ++ r.columns.filter (fun c => decide (c ∉ l.columns))
  | .project _ cs => cs
  | .filter c _ => c.columns
  | .subtract l _ => l.columns
  | .union l _ => l.columns
/-- The columns of all factors of a cross-join. -/
def columnsL : List Op → List String
  | [] => []
  | f :: fs => f.columns ++ columnsL fs
end

mutual
/-- `is_plan()`: `_detect.py` l. 64-66, `_from_tuples.py` l. 72-74, `_from_dataframe.py` l. 50-52, `_cross_join.py`
l. 106-108, `_join.py` l. 93-95, `_project.py` l. 78-80, `_filter.py` l. 59-61, `_subtract.py` l. 72-74, `_union.py`
l. 94-96. -/
def Op.isPlan : Op → Bool
  | .detect _ => true
  | .tuples _ _ => false
  | .frame _ => false
  | .cross _ fs => isPlanL fs
  | .join l r => l.isPlan || r.isPlan
  | .project c _ => c.isPlan
  | .filter c _ => c.isPlan
  | .subtract l _ => l.isPlan
  | .union l r => l.isPlan || r.isPlan
/-- Is some factor a plan? -/
def isPlanL : List Op → Bool
  | [] => false
  | f :: fs => f.isPlan || isPlanL fs
end

/-- `schema[c] = ...` in `Join.schema` (`_join.py` l. 64-72). -/
def joinDesc (a : Dict String Desc) (p : String × Desc) : Desc :=
  match Dict.get a p.1 with
  | some d =>
    { ty := d.ty, allowNull := d.allowNull && p.2.allowNull, allowNan := d.allowNan && p.2.allowNan
      allowInf := d.allowInf && p.2.allowInf }
  | none => p.2

/-- One entry of `Union.schema` (`_union.py` l. 67-75). -/
def unionDesc (b : Dict String Desc) (p : String × Desc) : Desc :=
  match Dict.get b p.1 with
  | some d =>
    { ty := p.2.ty, allowNull := p.2.allowNull || d.allowNull, allowNan := p.2.allowNan || d.allowNan
      allowInf := p.2.allowInf || d.allowInf }
  | none => p.2

mutual
/-- `schema()`: `_detect.py` l. 38-44, `_from_tuples.py` l. 44-46, `_from_dataframe.py` l. 34-36, `_cross_join.py`
l. 57-59 (left to right in the code; grouped to the right here, which is the same for dictionaries),
`_join.py` l. 56-74, `_project.py` l. 61-64, `_filter.py` l. 40-42, `_subtract.py` l. 47-49, `_union.py`
l. 63-75. -/
def Op.schema : Op → Except KErr (Dict String Desc)
  | .detect _ => .error .internal
  | .tuples _ ds => .ok ds
  | .frame df =>
    match sparkSchemaToAnalytics df.fields with
    | .ok d => .ok d
    | .error _ => .error .key
  | .cross _ fs => schemaL fs
  | .join l r =>
    match l.schema, r.schema with
    | .ok a, .ok b => .ok (Dict.union a (b.map (fun p => (p.1, joinDesc a p))))
    | .error e, _ => .error e
    | _, .error e => .error e
  | .project c cs =>
    match c.schema with
    | .ok a => .ok (cs.filterMap (fun x => (Dict.get a x).map (fun d => (x, d))))
    | .error e => .error e
  | .filter c _ => c.schema
  | .subtract l _ => l.schema
  | .union l r =>
    match l.schema, r.schema with
    | .ok a, .ok b => .ok (a.map (fun p => (p.1, unionDesc b p)))
    | .error e, _ => .error e
    | _, .error e => .error e
/-- The merged schemas of the factors of a cross-join. -/
def schemaL : List Op → Except KErr (Dict String Desc)
  | [] => .ok []
  | f :: fs =>
    match f.schema, schemaL fs with
    | .ok a, .ok b => .ok (Dict.union a b)
    | .error e, _ => .error e
    | _, .error e => .error e
end

/-- `KEYSET_COLUMN_TYPES` (`_utils.py` l. 10). -/
def keysetTypes : List ColumnType := [.INTEGER, .DATE, .VARCHAR]

/-- `validate_schema` (`_utils.py` l. 25-34), with `validate_column_names` (l. 14-22). -/
def validSchema (d : Dict String Desc) : Bool :=
  d.all (fun p => decide (p.1 ≠ "")) && d.all (fun p => decide (p.2.ty ∈ keysetTypes))

/-- Do all the given columns have the same type in both schemas? -/
def sameTypes (a b : Dict String Desc) (cols : List String) : Bool :=
  cols.all (fun c => decide ((Dict.get a c).map Desc.ty = (Dict.get b c).map Desc.ty))

/-- Is an operation allowed as a factor of an `InMemoryCrossJoin` (`_cross_join.py` l. 162-171)? -/
def memFactor : Op → Bool
  | .tuples _ ds => !ds.isEmpty
  | .cross true fs => !(columnsL fs).isEmpty
  | _ => false

/-- `__post_init__` of each operation, for its own node: `_detect.py` l. 26-32, `_from_tuples.py` l. 30-38,
`_from_dataframe.py` l. 24-28, `_cross_join.py` l. 34-51 and 158-171, `_join.py` l. 29-46, `_project.py` l. 26-55,
`_filter.py` l. 25-34, `_subtract.py` l. 29-41, `_union.py` l. 30-57. -/
def check : Op → Except KErr Unit
  | .detect cs => if cs.isEmpty then .error .value else if "" ∈ cs then .error .value else .ok ()
  | .tuples ts ds =>
    if !validSchema ds then .error .value
    else if ds.isEmpty && !ts.isEmpty then .error .value
    else .ok ()
  | .frame df =>
    match sparkSchemaToAnalytics df.fields with
    | .error _ => .error .key
    | .ok d =>
      if !validSchema d then .error .value
      else if df.fields.isEmpty && !df.rows.isEmpty then .error .value
      else .ok ()
  | .cross mem fs =>
    if fs.isEmpty then .error .internal
    else if ¬ (columnsL fs).Nodup then .error .value
    else if mem && !fs.all memFactor then .error .internal
    else .ok ()
  | .join l r =>
    if (inter l.columns r.columns).isEmpty then .error .value
    else if l.isPlan || r.isPlan then .ok ()
    else
      match l.schema, r.schema with
      | .ok a, .ok b => if sameTypes a b (inter l.columns r.columns) then .ok () else .error .value
      | .error e, _ => .error e
      | _, .error e => .error e
  | .project c cs =>
    if "" ∈ cs then .error .value
    else if cs.isEmpty then .error .value
    else if cs.all (fun x => decide (x ∈ c.columns)) then .ok ()
    else .error .value
  | .filter _ cond => if cond = .sql "" then .error .value else .ok ()
  | .subtract l r =>
    if r.isPlan then .error .value
    else if r.columns.all (fun x => decide (x ∈ l.columns)) then .ok ()
    else .error .value
  | .union l r =>
    if !setEq l.columns r.columns then .error .value
    else if l.isPlan || r.isPlan then .ok ()
    else
      match l.schema, r.schema with
      | .ok a, .ok b => if sameTypes a b l.columns then .ok () else .error .value
      | .error e, _ => .error e
      | _, .error e => .error e

/-- Creating an operation: the dataclass constructor runs `__post_init__`. -/
def build (op : Op) : Except KErr Op :=
  match check op with
  | .ok _ => .ok op
  | .error e => .error e

/-- Create several operations one after the other. -/
def buildAll : List Op → Except KErr (List Op)
  | [] => .ok []
  | o :: os => do
    let o' ← build o
    let os' ← buildAll os
    pure (o' :: os')

/-! ## Traversals (`_rules.py`) -/

mutual
/-- `depth_first` (l. 36-68). -/
def dfs (f : Op → Except KErr Op) : Op → Except KErr Op
  | .detect cs => f (.detect cs)
  | .tuples ts ds => f (.tuples ts ds)
  | .frame df => f (.frame df)
  | .cross m fs => do
    let gs ← dfsL f fs
    let o ← build (.cross m gs)
    f o
  | .join l r => do
    let l' ← dfs f l
    let r' ← dfs f r
    let o ← build (.join l' r')
    f o
  | .project c cs => do
    let c' ← dfs f c
    let o ← build (.project c' cs)
    f o
  | .filter c k => do
    let c' ← dfs f c
    let o ← build (.filter c' k)
    f o
  | .subtract l r => do
    let l' ← dfs f l
    let r' ← dfs f r
    let o ← build (.subtract l' r')
    f o
  | .union l r => do
    let l' ← dfs f l
    let r' ← dfs f r
    let o ← build (.union l' r')
    f o
/-- `tuple(wrapped(f) for f in op.factors)` (l. 44). -/
def dfsL (f : Op → Except KErr Op) : List Op → Except KErr (List Op)
  | [] => .ok []
  | o :: os => do
    let o' ← dfs f o
    let os' ← dfsL f os
    pure (o' :: os')
end

/-- The factors kept by `project_across_crossjoin` (l. 129-133), before they are created. -/
def included (fs : List Op) (cols : List String) : List Op :=
  fs.filterMap (fun f =>
    if (inter f.columns cols).isEmpty then none else some (.project f (inter f.columns cols)))

mutual
/-- `project_across_crossjoin` (l. 113-137) under `breadth_first` (l. 71-110): where the rule changes nothing, the
traversal rebuilds the node from its rewritten children (l. 91-104). -/
def pac : Op → Except KErr Op
  | .detect cs => .ok (.detect cs)
  | .tuples ts ds => .ok (.tuples ts ds)
  | .frame df => .ok (.frame df)
  | .cross m fs => do
    let gs ← pacL fs
    build (.cross m gs)
  | .join l r => do
    let l' ← pac l
    let r' ← pac r
    build (.join l' r')
  | .project c cs => pacP c cs
  | .filter c k => do
    let c' ← pac c
    build (.filter c' k)
  | .subtract l r => do
    let l' ← pac l
    let r' ← pac r
    build (.subtract l' r')
  | .union l r => do
    let l' ← pac l
    let r' ← pac r
    build (.union l' r')
/-- The traversal applied to a list of factors (l. 94). -/
def pacL : List Op → Except KErr (List Op)
  | [] => .ok []
  | o :: os => do
    let o' ← pac o
    let os' ← pacL os
    pure (o' :: os')
/-- The traversal applied to `Project(child, cols)`. Over a cross-join the rule fires, the result differs from
what was there (l. 88), and the traversal starts again on it (l. 89): on the only factor left, or on a cross-join
of projections, whose factors it then visits. -/
def pacP : Op → List String → Except KErr Op
  | .cross _ fs, cs => do
    let inc ← buildAll (included fs cs)
    if inc.length = 1 then do
      let rs ← pacPL fs cs
      match rs with
      | [r] => pure r
      | _ => .error .internal
    else do
      let _ ← build (.cross false inc)
      let rs ← pacPL fs cs
      build (.cross false rs)
  | .detect ds, cs => build (.project (.detect ds) cs)
  | .tuples ts ds, cs => build (.project (.tuples ts ds) cs)
  | .frame df, cs => build (.project (.frame df) cs)
  | .join l r, cs => do
    let l' ← pac l
    let r' ← pac r
    let c' ← build (.join l' r')
    build (.project c' cs)
  | .project c ds, cs => do
    let c' ← pacP c ds
    build (.project c' cs)
  | .filter c k, cs => do
    let c' ← pac c
    let d' ← build (.filter c' k)
    build (.project d' cs)
  | .subtract l r, cs => do
    let l' ← pac l
    let r' ← pac r
    let c' ← build (.subtract l' r')
    build (.project c' cs)
  | .union l r, cs => do
    let l' ← pac l
    let r' ← pac r
    let c' ← build (.union l' r')
    build (.project c' cs)
/-- The traversal applied to the projections of the kept factors. -/
def pacPL : List Op → List String → Except KErr (List Op)
  | [], _ => .ok []
  | f :: fs, cs =>
    if (inter f.columns cs).isEmpty then pacPL fs cs
    else do
      let r ← pacP f (inter f.columns cs)
      let rs ← pacPL fs cs
      pure (r :: rs)
end

/-! ## Rules (`_rules.py`) -/

/-- `collapse_nested_projections` (l. 140-150). -/
def collapse : Op → Except KErr Op
  | .project (.project c _) cs => build (.project c cs)
  | op => .ok op

/-- `remove_noop_projections` (l. 153-163). -/
def removeNoop : Op → Except KErr Op
  | .project c cs => if setEq cs c.columns then .ok c else .ok (.project c cs)
  | op => .ok op

/-- The factors of a cross-join, or the operation itself (l. 174-181, 256-259). -/
def factorsOf : Op → List Op
  | .cross _ fs => fs
  | op => [op]

/-- `CrossJoin(tuple(fs)) if len(fs) > 1 else fs[0]` (l. 200-209, 233-235). -/
def crossOrFirst : List Op → Except KErr Op
  | [] => .error .index
  | [f] => .ok f
  | fs => build (.cross false fs)

/-- Does a factor have one of the columns? -/
def touches (cols : List String) (f : Op) : Bool := !(inter f.columns cols).isEmpty

/-- `extract_crossjoin_from_join` (l. 166-210). -/
def extractJoin : Op → Except KErr Op
  | .join l r => do
    let jc := inter l.columns r.columns
    let lf := (factorsOf l).filter (touches jc)
    let rf := (factorsOf r).filter (touches jc)
    let ex := (factorsOf l).filter (fun f => !touches jc f) ++ (factorsOf r).filter (fun f => !touches jc f)
    if ex.isEmpty then .ok (.join l r)
    else do
      let l' ← crossOrFirst lf
      let r' ← crossOrFirst rf
      let j ← build (.join l' r')
      build (.cross false (ex ++ [j]))
  | op => .ok op

/-- `extract_crossjoin_from_subtract` (l. 213-236). -/
def extractSub : Op → Except KErr Op
  | .subtract (.cross m fs) r => do
    let lf := fs.filter (touches r.columns)
    let ex := fs.filter (fun f => !touches r.columns f)
    if ex.isEmpty then .ok (.subtract (.cross m fs) r)
    else do
      let l' ← crossOrFirst lf
      let s ← build (.subtract l' r)
      build (.cross false (ex ++ [s]))
  | op => .ok op

/-- `compose(extract_crossjoin_from_join, extract_crossjoin_from_subtract)` (l. 27-33, 475-478). -/
def extract (op : Op) : Except KErr Op := do
  let o ← extractJoin op
  extractSub o

/-- Does an operation have columns? -/
def hasCols (f : Op) : Bool := !f.columns.isEmpty

/-- `merge_cross_joins` (l. 239-269). -/
def mergeCross : Op → Except KErr Op
  | .cross _ fs =>
    match (fs.flatMap factorsOf).filter hasCols with
    | [] =>
      match fs.flatMap factorsOf with
      | [] => .error .index
      | f :: _ => .ok f
    | [f] => .ok f
    | gs => build (.cross false gs)
  | op => .ok op

/-- `tuple(sorted(f.columns()))`. -/
def sortedCols (f : Op) : List String := f.columns.insertionSort (fun a b => decide (a ≤ b))

/-- `order_cross_joins` (l. 272-278). -/
def orderCross : Op → Except KErr Op
  | .cross m fs => build (.cross m (fs.insertionSort (fun a b => decide (sortedCols a ≤ sortedCols b))))
  | op => .ok op

mutual
/-- `size(fast=True)`, with `none` for `None`: `_from_tuples.py` l. 85-89, `_from_dataframe.py` l. 63-69,
`_cross_join.py` l. 119-124, and `None` for all others. `Detect` raises (`_detect.py` l. 77-83), but the method is
only called on operations that are not plans. -/
def Op.sizeFast : Op → Option Nat
  | .tuples ts ds => if ds.isEmpty then some 1 else some ts.length
  | .frame df => if df.fields.isEmpty then some 1 else none
  | .cross _ fs => sizeFastL fs
  | _ => none
/-- The product of the sizes of the factors. -/
def sizeFastL : List Op → Option Nat
  | [] => some 1
  | f :: fs =>
    match f.sizeFast, sizeFastL fs with
    | some a, some b => some (a * b)
    | _, _ => none
end

/-- `_IN_MEMORY_CROSS_JOIN_THRESHOLD` (l. 23). -/
def threshold : Nat := 2 ^ 20

/-- Is a factor small enough to be cross-joined in memory (l. 302-307)? -/
def isSmall : Op → Bool
  | .tuples ts ds =>
    match (Op.tuples ts ds).sizeFast with
    | some n => decide (n < threshold / 2)
    | none => false
  | _ => false

/-- The inner loop (l. 331-337): take factors from the front while the product stays below the threshold. -/
def grab (size : Nat) : List (Nat × Op) → List Op × List (Nat × Op)
  | [] => ([], [])
  | p :: ps =>
    if p.1 * size < threshold then
      let q := grab (size * p.1) ps
      (p.2 :: q.1, q.2)
    else ([], p :: ps)

/-- The outer loop (l. 328-342), collecting the groups; each round takes at least one factor off the queue, so as
many rounds as there are factors are enough. -/
def groups : Nat → List (Nat × Op) → List (List Op)
  | 0, _ => []
  | n + 1, q =>
    match q.getLast? with
    | none => []
    | some last =>
      let g := grab last.1 q.dropLast
      (last.2 :: g.1) :: groups n g.2

/-- One group becomes a factor (l. 339-342). -/
def groupFactor : List Op → Except KErr Op
  | [f] => .ok f
  | fs => build (.cross true fs)

/-- All groups become factors. -/
def groupFactors : List (List Op) → Except KErr (List Op)
  | [] => .ok []
  | g :: gs => do
    let f ← groupFactor g
    let fs ← groupFactors gs
    pure (f :: fs)

/-- `apply_cross_joins_in_memory` (l. 281-346). -/
def inMemory : Op → Except KErr Op
  | .cross false fs =>
    if isPlanL fs then .ok (.cross false fs)
    else
      let large := fs.filter (fun f => !isSmall f)
      let small := fs.filter isSmall
      if small.length < 2 then .ok (.cross false fs)
      else do
        let q := (small.map (fun f => (f.sizeFast.getD 0, f))).insertionSort (fun a b => decide (a.1 ≤ b.1))
        let gs ← groupFactors (groups q.length q)
        match large ++ gs with
        | [f] => pure f
        | hs => build (.cross false hs)
  | op => .ok op

/-- A child of a join that is a leaf (l. 385-388). -/
def joinLeaf : Op → List Op
  | .join _ _ => []
  | op => [op]

/-- The leaves of nested joins, in the order in which the loop of `normalize_joins` (l. 380-388) finds them: the
children of a join that are not joins, then those below its right child, then those below its left child. -/
def joinLeaves : Op → List Op
  | .join l r => joinLeaf l ++ joinLeaf r ++ joinLeaves r ++ joinLeaves l
  | _ => []

/-- A child of a union that is a leaf (l. 432-435). -/
def unionLeaf : Op → List Op
  | .union _ _ => []
  | op => [op]

/-- The leaves of nested unions, likewise (l. 427-435). -/
def unionLeaves : Op → List Op
  | .union l r => unionLeaf l ++ unionLeaf r ++ unionLeaves r ++ unionLeaves l
  | _ => []

/-- Attach hashes; the first operation without a hash stops the sort with a `TypeError`. -/
def withHash (hsh : Op → Except KErr ℤ) : List Op → Except KErr (List (ℤ × Op))
  | [] => .ok []
  | o :: os => do
    let h ← hsh o
    let rest ← withHash hsh os
    pure ((h, o) :: rest)

/-- Comparison of the sort keys `(tuple(sorted(v.columns())), hash(v))` (l. 396, 461). -/
def keyLE (a b : ℤ × Op) : Bool :=
  decide (sortedCols a.2 < sortedCols b.2) || (decide (sortedCols a.2 = sortedCols b.2) && decide (a.1 ≤ b.1))

/-- `reduce(lambda r, l: Join(l, r), leaves)` (l. 397), after the first element. -/
def foldJoin : Op → List Op → Except KErr Op
  | acc, [] => .ok acc
  | acc, o :: os => do
    let a ← build (.join o acc)
    foldJoin a os

/-- `reduce(lambda r, l: Union(l, r), leaves)` (l. 438), after the first element. -/
def foldUnion : Op → List Op → Except KErr Op
  | acc, [] => .ok acc
  | acc, o :: os => do
    let a ← build (.union o acc)
    foldUnion a os

/-- `reduce(Subtract, subtracted_values, current.left)` (l. 463). -/
def foldSub : Op → List Op → Except KErr Op
  | acc, [] => .ok acc
  | acc, o :: os => do
    let a ← build (.subtract acc o)
    foldSub a os

/-- `normalize_joins` (l. 349-397). -/
def normJoins (hsh : Op → Except KErr ℤ) : Op → Except KErr Op
  | .join l r => do
    let hs ← withHash hsh (joinLeaves (.join l r))
    match (hs.insertionSort (fun a b => keyLE b a)).map Prod.snd with
    | [] => .error .type
    | o :: os => foldJoin o os
  | op => .ok op

/-- `normalize_unions` (l. 400-438). -/
def normUnions (hsh : Op → Except KErr ℤ) : Op → Except KErr Op
  | .union l r => do
    let hs ← withHash hsh (unionLeaves (.union l r))
    match (hs.insertionSort (fun a b => decide (a.1 ≤ b.1))).map Prod.snd with
    | [] => .error .type
    | o :: os => foldUnion o os
  | op => .ok op

/-- The innermost left operand of nested subtractions (l. 454-458). -/
def subBase : Op → Op
  | .subtract l _ => subBase l
  | op => op

/-- What is subtracted, outermost first (l. 455-458). -/
def subValues : Op → List Op
  | .subtract l r => r :: subValues l
  | _ => []

/-- `normalize_subtracts` (l. 441-463). -/
def normSubs (hsh : Op → Except KErr ℤ) : Op → Except KErr Op
  | .subtract l r => do
    let hs ← withHash hsh (subValues (.subtract l r))
    foldSub (subBase l) ((hs.insertionSort (fun a b => keyLE a b)).map Prod.snd)
  | op => .ok op

/-- `rewrite` (l. 500-504) with `_REWRITE_RULES` (l. 466-490). -/
def rewrite (hsh : Op → Except KErr ℤ) (op : Op) : Except KErr Op := do
  let o1 ← pac op
  let o2 ← dfs collapse o1
  let o3 ← dfs removeNoop o2
  let o4 ← dfs mergeCross o3
  let o5 ← dfs extract o4
  let o6 ← dfs mergeCross o5
  let o7 ← dfs orderCross o6
  let o8 ← dfs inMemory o7
  let o9 ← dfs (normJoins hsh) o8
  let o10 ← dfs (normSubs hsh) o9
  dfs (normUnions hsh) o10

end Verif.KeySet
