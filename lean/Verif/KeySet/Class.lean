import Verif.KeySet.Spec

/-!
# Model of KeySets: data frames, sizes, and the classes `KeySet` and `KeySetPlan`

Sources: `/repo/src/tmlt/analytics/keyset/_ops/*.py` and `/repo/src/tmlt/analytics/keyset/_keyset.py`.

Spark is modelled by what its documentation says of the methods used, on lists of rows without an order that means
anything; `tmlt.core.utils.join.join` likewise (both assumed). Partitioning (`repartition`, `coalesce`, `numSlices`)
and caching (`_keyset.py` l. 491-504) do not change rows and are left out.
-/

namespace Verif.KeySet

open Verif Verif.Schema

/-! ## Data frames -/

/-- A data frame with rows given positionally. -/
structure DF where
  cols : List String
  rows : List (List Value)
  deriving DecidableEq

/-- The value of a row in a column. -/
def cell (cols : List String) (r : List Value) : Assign := fun c => ((cols.zip r).lookup c).getD .null

/-- `DataFrame.crossJoin` (Spark). -/
def crossDF (a b : DF) : DF :=
  ⟨a.cols ++ b.cols, a.rows.flatMap (fun x => b.rows.map (fun y => x ++ y))⟩

/-- `DataFrame.select(*cols)` (Spark). -/
def selectDF (cs : List String) (d : DF) : DF := ⟨cs, d.rows.map (fun r => cs.map (cell d.cols r))⟩

/-- `join(a, b, on=on, nulls_are_equal=True)` of `tmlt.core` (assumed): the pairs of rows equal in the columns `on`,
which occur once in the result. Which order the columns come in does not matter here. -/
def joinDF (on : List String) (a b : DF) : DF :=
  let rest := b.cols.filter (fun c => decide (c ∉ on))
  ⟨a.cols ++ rest,
    a.rows.flatMap (fun x =>
      (b.rows.filter (fun y => on.all (fun c => decide (cell a.cols x c = cell b.cols y c)))).map
        (fun y => x ++ rest.map (cell b.cols y)))⟩

/-- `join(a, b, on=on, how="left_anti", nulls_are_equal=True)` of `tmlt.core` (assumed); joining on no column at all is
refused. -/
def antiDF (on : List String) (a b : DF) : Except KErr DF :=
  if on.isEmpty then .error .value
  else .ok ⟨a.cols, a.rows.filter (fun x =>
    !b.rows.any (fun y => on.all (fun c => decide (cell a.cols x c = cell b.cols y c))))⟩

/-- `a.unionByName(b).distinct()` (Spark). -/
def unionDF (a b : DF) : DF := ⟨a.cols, (a.rows ++ (selectDF a.cols b).rows).dedup⟩

/-- `reduce(cross_join, dfs)` (`_cross_join.py` l. 100). -/
def crossAll : DF → List DF → DF
  | d, [] => d
  | d, e :: es => crossAll (crossDF d e) es

mutual
/-- `dataframe()`: `_detect.py` l. 46-54, `_from_tuples.py` l. 48-66, `_from_dataframe.py` l. 38-44 (the coercion
widens integers, which does not change values), `_cross_join.py` l. 61-100 and 173-203, `_join.py` l. 76-87,
`_project.py` l. 66-72, `_filter.py` l. 44-50, `_subtract.py` l. 51-63, `_union.py` l. 77-85. An
`InMemoryCrossJoin` reads `column_descriptors` off its factors, which only `FromTuples` has. -/
def Op.dataframe (E : Env) : Op → Except KErr DF
  | .detect _ => .error .internal
  | .tuples ts ds => .ok ⟨ds.map Prod.fst, ts⟩
  | .frame df => .ok ⟨df.fields.map Field.name, df.rows.dedup⟩
  | .cross m fs =>
    if m && !fs.all isTuples then .error .attribute
    else do
      let ds ← dataframeL E fs
      match ds with
      | d :: es => pure (crossAll d es)
      | [] => firstDF E fs
  | .join l r => do
    let a ← l.dataframe E
    let b ← r.dataframe E
    pure (joinDF (inter l.columns r.columns) a b)
  | .project c cs => do
    let a ← c.dataframe E
    let s := selectDF cs a
    pure ⟨s.cols, s.rows.dedup⟩
  | .filter c k => do
    let a ← c.dataframe E
    pure ⟨a.cols, a.rows.filter (fun r => E.ev k (restrict a.cols (cell a.cols r)))⟩
  | .subtract l r => do
    let a ← l.dataframe E
    let b ← r.dataframe E
    antiDF r.columns a b
  | .union l r => do
    let a ← l.dataframe E
    let b ← r.dataframe E
    pure (unionDF a b)
/-- The data frames of the factors that have columns (`_cross_join.py` l. 96). -/
def dataframeL (E : Env) : List Op → Except KErr (List DF)
  | [] => .ok []
  | f :: fs =>
    if f.columns.isEmpty then dataframeL E fs
    else do
      let d ← f.dataframe E
      let ds ← dataframeL E fs
      pure (d :: ds)
/-- `self.factors[0].dataframe()` (`_cross_join.py` l. 98). -/
def firstDF (E : Env) : List Op → Except KErr DF
  | [] => .error .index
  | f :: _ => f.dataframe E
end

/-- `dataframe().count()`. -/
def Op.count (E : Env) (op : Op) : Except KErr Nat := do
  let d ← op.dataframe E
  pure d.rows.length

mutual
/-- `size(fast=False)`: `_from_tuples.py` l. 85-89, `_from_dataframe.py` l. 63-69, `_cross_join.py` l. 119-124,
`_detect.py` l. 77-83, and the count of the data frame for all others. -/
def Op.size (E : Env) : Op → Except KErr Nat
  | .detect _ => .error .internal
  | .tuples ts ds => if ds.isEmpty then .ok 1 else .ok ts.length
  | .frame df => if df.fields.isEmpty then .ok 1 else (Op.frame df).count E
  | .cross _ fs => sizeL E fs
  | .join l r => (Op.join l r).count E
  | .project c cs => (Op.project c cs).count E
  | .filter c k => (Op.filter c k).count E
  | .subtract l r => (Op.subtract l r).count E
  | .union l r => (Op.union l r).count E
/-- The product of the sizes. -/
def sizeL (E : Env) : List Op → Except KErr Nat
  | [] => .ok 1
  | f :: fs => do
    let a ← f.size E
    let b ← sizeL E fs
    pure (a * b)
end

/-! ## Equality of operation trees -/

/-- `==` on conditions. Comparing a Spark `Column` with anything gives a `Column`, whose truth value raises
`ValueError`; the comparison of tuples that a dataclass makes skips identical objects. -/
def condEq : Cond → Cond → Except KErr Bool
  | .sql s, .sql t => .ok (decide (s = t))
  | .col i, .col j => if i = j then .ok true else .error .value
  | .sql _, .col _ => .error .value
  | .col _, .sql _ => .error .value

/-- Equality of `frozenset`s of tuples. -/
def tuplesEq (a b : List (List Value)) : Bool :=
  a.all (fun t => decide (t ∈ b)) && b.all (fun t => decide (t ∈ a))

mutual
/-- `==` on operation trees: the `__eq__` the dataclasses generate, field by field from the first to the first
difference, and `FromSparkDataFrame.__eq__` (`_from_dataframe.py` l. 71-76); `same` is Spark's `sameSemantics`. -/
def opEq (same : Frame → Frame → Bool) : Op → Op → Except KErr Bool
  | .detect a, .detect b => .ok (setEq a b)
  | .tuples ts ds, .tuples ts' ds' => .ok (tuplesEq ts ts' && decide (ds = ds'))
  | .frame a, .frame b => .ok (decide (a.fields = b.fields) && same a b)
  | .cross m fs, .cross m' gs => if m = m' then opEqL same fs gs else .ok false
  | .join l r, .join l' r' => do
    let e ← opEq same l l'
    if e then opEq same r r' else pure false
  | .project c cs, .project c' cs' => do
    let e ← opEq same c c'
    if e then pure (setEq cs cs') else pure false
  | .filter c k, .filter c' k' => do
    let e ← opEq same c c'
    if e then condEq k k' else pure false
  | .subtract l r, .subtract l' r' => do
    let e ← opEq same l l'
    if e then opEq same r r' else pure false
  | .union l r, .union l' r' => do
    let e ← opEq same l l'
    if e then opEq same r r' else pure false
  | _, _ => .ok false
/-- `==` on tuples of factors. -/
def opEqL (same : Frame → Frame → Bool) : List Op → List Op → Except KErr Bool
  | [], [] => .ok true
  | f :: fs, g :: gs => do
    let e ← opEq same f g
    if e then opEqL same fs gs else pure false
  | _, _ => .ok false
end

/-! ## Decomposition -/

/-- The loop of `Subtract.decompose` (`_subtract.py` l. 114-121): the new factors and whether the subtraction was
merged into one of them. -/
def absorb (r : Op) : List Op → Except KErr (List Op × Bool)
  | [] => .ok ([], false)
  | f :: fs =>
    if r.columns.all (fun c => decide (c ∈ f.columns)) then do
      let s ← build (.subtract f r)
      let q ← absorb r fs
      pure (s :: q.1, true)
    else do
      let q ← absorb r fs
      pure (f :: q.1, q.2)

mutual
/-- `decompose`: `_base.py` l. 71-79, `_detect.py` l. 89-97, `_cross_join.py` l. 132-144, `_join.py` l. 121-134,
`_subtract.py` l. 103-125, `_union.py` l. 123-131. -/
def Op.decompose (split : List String) : Op → Except KErr (List Op × List Op)
  | .detect _ => .error .internal
  | .cross _ fs => decomposeL split fs
  | .join l r =>
    if (inter l.columns r.columns).all (fun c => decide (c ∈ split)) then do
      let a ← l.decompose split
      let b ← r.decompose split
      pure (a.1 ++ b.1, a.2 ++ b.2)
    else pure ([.join l r], [])
  | .subtract l r => do
    let a ← l.decompose split
    let q ← absorb r a.1
    if q.2 then pure (q.1, a.2) else pure (q.1, a.2 ++ [r])
  | op => .ok ([op], [])
/-- The loop over the factors of a cross-join (`_cross_join.py` l. 139-144). -/
def decomposeL (split : List String) : List Op → Except KErr (List Op × List Op)
  | [] => .ok ([], [])
  | f :: fs => do
    let a ← f.decompose split
    let b ← decomposeL split fs
    pure (a.1 ++ b.1, a.2 ++ b.2)
end

/-! ## `KeySet` (`_keyset.py`) -/

/-- A `KeySet` or `KeySetPlan` object: its rewritten tree and its columns in order. -/
structure KS where
  op : Op
  cols : List String

/-- `KeySet.__init__` (l. 45-74). -/
def KS.init (hsh : Op → Except KErr ℤ) (op : Op) (cols : List String) : Except KErr KS :=
  if op.isPlan then .error .internal
  else if ¬ cols.Nodup then .error .internal
  else if !setEq op.columns cols then .error .internal
  else do
    let o ← rewrite hsh op
    pure ⟨o, cols⟩

/-- `KeySet.from_dataframe` (l. 76-90). -/
def KS.fromDataframe (hsh : Op → Except KErr ℤ) (df : Frame) : Except KErr KS := do
  let o ← build (.frame df)
  KS.init hsh o (df.fields.map Field.name)

/-- `type(v)`, with `none` for `NoneType`. -/
def vtype : Value → Option ColumnType
  | .null => none
  | .int _ => some .INTEGER
  | .dec _ => some .DECIMAL
  | .str _ => some .VARCHAR
  | .date _ => some .DATE
  | .ts _ => some .TIMESTAMP

/-- `column_types[col]` (l. 128-131). -/
def typesAt (ts : List (List Value)) (cols : List String) (c : String) : List (Option ColumnType) :=
  ts.flatMap (fun t => ((cols.zip t).filter (fun p => decide (p.1 = c))).map (fun p => vtype p.2))

/-- The descriptor of one column (l. 134-155). -/
def inferDesc (tys : List (Option ColumnType)) : Except KErr Desc :=
  if tys.isEmpty then .error .value
  else
    match (tys.filterMap id).dedup with
    | [] => .error .value
    | [t] => .ok ⟨t, decide (none ∈ tys), false, false⟩
    | _ => .error .value

/-- The descriptors of all columns (l. 133-155). -/
def inferAll (ts : List (List Value)) (cols : List String) : List String → Except KErr (Dict String Desc)
  | [] => .ok []
  | c :: cs => do
    let d ← inferDesc (typesAt ts cols c)
    let ds ← inferAll ts cols cs
    pure ((c, d) :: ds)

/-- `KeySet.from_tuples` (l. 92-159). Python compares values of different types when it removes repeated tuples
(`1 == 1.0 == True`); here values of different types differ. -/
def KS.fromTuples (hsh : Op → Except KErr ℤ) (tuples : List (List Value)) (cols : List String) : Except KErr KS := do
  let ts := tuples.dedup
  if ts.all (fun t => decide (t.length = cols.length)) then do
    let ds ← inferAll ts cols cols.eraseDups
    let o ← build (.tuples ts ds)
    KS.init hsh o cols
  else .error .value

/-- `KeySet.__mul__` (l. 212-244). -/
def KS.mul (hsh : Op → Except KErr ℤ) (a b : KS) : Except KErr KS := do
  let o ← build (.cross false [a.op, b.op])
  KS.init hsh o (a.cols ++ b.cols)

/-- `reduce(lambda l, r: l * r, domain_keysets)` (l. 193-197). -/
def fromDictGo (hsh : Op → Except KErr ℤ) : KS → List (String × List Value) → Except KErr KS
  | acc, [] => .ok acc
  | acc, d :: ds => do
    let k ← KS.fromTuples hsh (d.2.map (fun v => [v])) [d.1]
    let a ← KS.mul hsh acc k
    fromDictGo hsh a ds

/-- `KeySet.from_dict` (l. 161-197). -/
def KS.fromDict (hsh : Op → Except KErr ℤ) : List (String × List Value) → Except KErr KS
  | [] => KS.fromTuples hsh [] []
  | d :: ds => do
    let k ← KS.fromTuples hsh (d.2.map (fun v => [v])) [d.1]
    fromDictGo hsh k ds

/-- `KeySet.__sub__` (l. 246-263). -/
def KS.sub (hsh : Op → Except KErr ℤ) (a b : KS) : Except KErr KS := do
  let o ← build (.subtract a.op b.op)
  KS.init hsh o a.cols

/-- `KeySet.__getitem__` (l. 265-313). -/
def KS.getitem (hsh : Op → Except KErr ℤ) (a : KS) (cs : List String) : Except KErr KS :=
  if ¬ cs.Nodup then .error .value
  else do
    let o ← build (.project a.op cs)
    KS.init hsh o cs

/-- `list(dict.fromkeys(a + b))` (l. 347), for lists without repetitions. -/
def mergeCols (a b : List String) : List String := a ++ b.filter (fun c => decide (c ∉ a))

/-- `KeySet.join` (l. 321-353). -/
def KS.join (hsh : Op → Except KErr ℤ) (a b : KS) : Except KErr KS := do
  let o ← build (.join a.op b.op)
  KS.init hsh o (mergeCols a.cols b.cols)

/-- `KeySet.filter` (l. 355-397). -/
def KS.filter (hsh : Op → Except KErr ℤ) (a : KS) (k : Cond) : Except KErr KS := do
  let o ← build (.filter a.op k)
  KS.init hsh o a.cols

/-- `KeySet.union` (l. 405-438). -/
def KS.union (hsh : Op → Except KErr ℤ) (a b : KS) : Except KErr KS := do
  let o ← build (.union a.op b.op)
  KS.init hsh o a.cols

/-- `KeySet.schema` (l. 444-459). -/
def KS.schema (a : KS) : Except KErr (Dict String Desc) := do
  let s ← a.op.schema
  pure (a.cols.filterMap (fun c => (Dict.get s c).map (fun d => (c, d))))

/-- `KeySet.dataframe` (l. 461-479). -/
def KS.dataframe (E : Env) (a : KS) : Except KErr DF := do
  let d ← a.op.dataframe E
  if setEq d.cols a.cols then pure (selectDF a.cols d) else .error .internal

/-- `KeySet.size` (l. 481-489). -/
def KS.size (E : Env) (a : KS) : Except KErr Nat := a.op.size E

/-- `{c: d.column_type for c, d in schema.items()}` (l. 528-530). -/
def typesOf (s : Dict String Desc) : Dict String ColumnType := s.map (fun p => (p.1, p.2.ty))

/-- `KeySet.is_equivalent` (l. 506-533), between KeySets. -/
def KS.isEquivalent (same : Frame → Frame → Bool) (a b : KS) : Except KErr (Option Bool) := do
  let e ← opEq same a.op b.op
  if e then pure (some true)
  else do
    let s ← a.schema
    let t ← b.schema
    if Dict.pyEq (typesOf s) (typesOf t) then pure none else pure (some false)

/-- `a.exceptAll(b)` (Spark): the rows of `a`, each as often as it occurs more often than in `b`. -/
def exceptAll (a b : List (List Value)) : List (List Value) := a.diff b

/-- `KeySet.__eq__` (l. 535-570), between KeySets. -/
def KS.eq (E : Env) (same : Frame → Frame → Bool) (a b : KS) : Except KErr Bool := do
  let e ← a.isEquivalent same b
  match e with
  | some v => pure v
  | none => do
    let x ← a.dataframe E
    let y ← b.dataframe E
    let rx := (selectDF a.cols x).rows
    let ry := (selectDF a.cols y).rows
    if (exceptAll rx ry).length ≠ 0 then pure false
    else if (exceptAll ry rx).length ≠ 0 then pure false
    else pure true

/-- `KeySet.__hash__` (l. 572-574), for a hash function on the elements of a `FrozenDict`. -/
def KS.hash {β : Type} (H : List (String × Desc) → β) (a : KS) : Except KErr β := do
  let s ← a.schema
  pure (FrozenDict.pyHash H (FrozenDict.fromDict s))

/-- `as_keyset` (l. 615-616). -/
def asKeyset (hsh : Op → Except KErr ℤ) (cols : List String) (op : Op) : Except KErr KS :=
  KS.init hsh op (cols.filter (fun c => decide (c ∈ op.columns)))

/-- `as_keyset` on a list. -/
def asKeysets (hsh : Op → Except KErr ℤ) (cols : List String) : List Op → Except KErr (List KS)
  | [] => .ok []
  | o :: os => do
    let k ← asKeyset hsh cols o
    let ks ← asKeysets hsh cols os
    pure (k :: ks)

/-- `KeySet._decompose` (l. 576-619). -/
def KS.decompose (hsh : Op → Except KErr ℤ) (a : KS) (split : List String) : Except KErr (List KS × List KS) := do
  let q ← a.op.decompose split
  let fs ← asKeysets hsh a.cols q.1
  let svs ← asKeysets hsh a.cols q.2
  pure (fs, svs)

/-! ## `KeySetPlan` (`_keyset.py`) -/

/-- `KeySetPlan.__init__` (l. 634-657). -/
def KS.initPlan (hsh : Op → Except KErr ℤ) (op : Op) (cols : List String) : Except KErr KS :=
  if !op.isPlan then .error .internal
  else if !setEq op.columns cols then .error .internal
  else do
    let o ← rewrite hsh op
    if o.isPlan then pure ⟨o, cols⟩ else .error .internal

/-- `KeySet._detect` (l. 201-204). -/
def KS.detect (hsh : Op → Except KErr ℤ) (cols : List String) : Except KErr KS := do
  let o ← build (.detect cols.dedup)
  KS.initPlan hsh o cols

/-- The result of subscripting a plan. -/
inductive PlanOrKS where
  | plan (k : KS)
  | keyset (k : KS)

/-- `KeySetPlan.__getitem__` (l. 701-735). -/
def KS.planGetitem (hsh : Op → Except KErr ℤ) (a : KS) (cs : List String) : Except KErr PlanOrKS :=
  if ¬ cs.Nodup then .error .value
  else do
    let o ← build (.project a.op cs)
    let o' ← rewrite hsh o
    if o'.isPlan then do
      let k ← KS.initPlan hsh o' cs
      pure (.plan k)
    else do
      let k ← KS.init hsh o' cs
      pure (.keyset k)

/-- `KeySetPlan.__mul__` (l. 663-681), and `KeySet.__mul__` with a plan (l. 240-244). -/
def KS.planMul (hsh : Op → Except KErr ℤ) (a b : KS) : Except KErr KS := do
  let o ← build (.cross false [a.op, b.op])
  KS.initPlan hsh o (a.cols ++ b.cols)

/-- `KeySetPlan.__sub__` (l. 683-699). -/
def KS.planSub (hsh : Op → Except KErr ℤ) (a b : KS) : Except KErr KS := do
  let o ← build (.subtract a.op b.op)
  KS.initPlan hsh o a.cols

/-- `KeySetPlan.join` (l. 737-759), and `KeySet.join` with a plan (l. 349-353). -/
def KS.planJoin (hsh : Op → Except KErr ℤ) (a b : KS) : Except KErr KS := do
  let o ← build (.join a.op b.op)
  KS.initPlan hsh o (mergeCols a.cols b.cols)

/-- `KeySetPlan.filter` (l. 761-782). -/
def KS.planFilter (hsh : Op → Except KErr ℤ) (a : KS) (k : Cond) : Except KErr KS := do
  let o ← build (.filter a.op k)
  KS.initPlan hsh o a.cols

/-- `KeySetPlan.union` (l. 784-807), and `KeySet.union` with a plan (l. 434-438). -/
def KS.planUnion (hsh : Op → Except KErr ℤ) (a b : KS) : Except KErr KS := do
  let o ← build (.union a.op b.op)
  KS.initPlan hsh o a.cols

/-- `KeySetPlan.is_equivalent` (l. 809-835), between plans. -/
def KS.planIsEquivalent (same : Frame → Frame → Bool) (a b : KS) : Except KErr (Option Bool) := do
  let e ← opEq same a.op b.op
  if e then pure (some true)
  else if decide (a.cols ≠ b.cols) then pure (some false)
  else pure none

/-- `KeySetPlan.__eq__` (l. 837-848), between plans. -/
def KS.planEq (same : Frame → Frame → Bool) (a b : KS) : Except KErr Bool := do
  let e ← a.planIsEquivalent same b
  pure (e.getD false)

end Verif.KeySet
