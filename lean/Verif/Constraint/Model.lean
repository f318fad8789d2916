import Verif.Table.Value
import Mathlib.Data.List.Sort

/-!
# Model of truncation constraints

Sources: `/repo/src/tmlt/analytics/constraints/_truncation.py`, `_simplify.py`, and
`/repo/src/tmlt/analytics/_query_expr_compiler/_base_measurement_visitor.py` (choice of truncation).

The truncations themselves (`LimitRowsPerGroup`, `LimitKeysPerGroup`, `LimitRowsPerKeyPerGroup` and their
`...Value` versions for ID tables) are part of `tmlt.core`, not of /repo. They are modelled by contract: a
window function that, within each group, orders rows (or keys) by a hash and keeps the first `n`.
-/

namespace Verif.Constraint

/-- The three constraints (`_truncation.py` l. 84, 162, 275). `max` is at least one
(`__post_init__`, l. 97, 177, 288). -/
inductive Constraint where
  | maxRowsPerID (max : Nat)
  | maxGroupsPerID (col : String) (max : Nat)
  | maxRowsPerGroupPerID (col : String) (max : Nat)
  deriving DecidableEq, Repr

open Constraint

/-- `d[c] = min(d.get(c), m)` on an insertion-ordered dict (l. 58-62, 64-67). -/
def insertMin (d : List (String × Nat)) (c : String) (m : Nat) : List (String × Nat) :=
  match d with
  | [] => [(c, m)]
  | (k, v) :: rest => if k = c then (k, if v > m then m else v) :: rest else (k, v) :: insertMin rest c m

/-- The loop state of `simplify_truncation_constraints` (l. 52-69). The fourth bucket of the code,
`other_constraints`, is always empty: there are no other constraint classes. -/
structure Buckets where
  rows : List Nat
  groups : List (String × Nat)
  rowsPerGroup : List (String × Nat)

/-- One iteration (l. 55-69). -/
def collect (b : Buckets) : Constraint → Buckets
  | maxRowsPerID m => { b with rows := b.rows ++ [m] }
  | maxGroupsPerID c m => { b with groups := insertMin b.groups c m }
  | maxRowsPerGroupPerID c m => { b with rowsPerGroup := insertMin b.rowsPerGroup c m }

/-- `min(...)` of a non-empty list. -/
def minList : List Nat → Option Nat
  | [] => none
  | x :: xs => some (xs.foldl min x)

/-- `simplify_constraints` / `simplify_truncation_constraints` (l. 50-80). -/
def simplify (cs : List Constraint) : List Constraint :=
  let b := cs.foldl collect ⟨[], [], []⟩
  (match minList b.rows with
    | some m => [maxRowsPerID m]
    | none => []) ++
  b.groups.map (fun p => maxGroupsPerID p.1 p.2) ++
  b.rowsPerGroup.map (fun p => maxRowsPerGroupPerID p.1 p.2)

/-- The hash orders used by the truncations of `tmlt.core`. -/
structure Hash where
  row : Row → Row → Bool
  key : Option Value → Option Value → Bool

/-- Apply `f` within each group (a Spark window partitioned by `key`). -/
def perGroup {K : Type} [DecidableEq K] (key : Row → K) (f : Table → Table) (t : Table) : Table :=
  (t.map key).dedup.flatMap (fun k => f (t.filter (fun r => decide (key r = k))))

/-- Keep `n` rows (of a group), in hash order. -/
def takeRows (h : Hash) (n : Nat) (t : Table) : Table := (t.insertionSort (fun a b => h.row a b = true)).take n

/-- Keep the rows with the first `n` distinct values of column `c`, in hash order. -/
def takeKeys (h : Hash) (c : String) (n : Nat) (t : Table) : Table :=
  let keep := ((t.map (fun r => Row.get r c)).dedup.insertionSort
    (fun a b => h.key a b = true)).take n
  t.filter (fun r => decide (Row.get r c ∈ keep))

/-- `Constraint._enforce` (l. 103-158, 186-271, 297-375): `LimitRowsPerGroup`, `LimitKeysPerGroup`,
`LimitRowsPerKeyPerGroup`. With and without `update_metric` the same rows are kept. -/
def enforce (h : Hash) (id : String) : Constraint → Table → Table
  | maxRowsPerID n => perGroup (fun r => Row.get r id) (takeRows h n)
  | maxGroupsPerID c n => perGroup (fun r => Row.get r id) (takeKeys h c n)
  | maxRowsPerGroupPerID c n => perGroup (fun r => (Row.get r id, Row.get r c)) (takeRows h n)

/-! ## Choice of truncation -/

/-- The privacy notions of a session (`output_measure`). -/
inductive Measure where
  | pureDP
  | approxDP
  | zCDP
  deriving DecidableEq, Repr

/-- A combination of constraints that bounds the contribution of an ID. -/
inductive Truncation where
  | rows (n : Nat)
  | groups (col : String) (g r : Nat)
  deriving DecidableEq, Repr

/-- `next((c for c in constraints if isinstance(c, MaxRowsPerID)), None)` (l. 163-165). -/
def firstRows : List Constraint → Option Nat
  | [] => none
  | maxRowsPerID n :: _ => some n
  | _ :: cs => firstRows cs

/-- `{c.grouping_column: c for c in constraints if isinstance(c, MaxGroupsPerID)}` (l. 166-168), lookup:
the last one wins. -/
def lastGroups (col : String) (cs : List Constraint) : Option Nat :=
  cs.foldl (fun acc c => match c with
    | maxGroupsPerID k n => if k = col then some n else acc
    | _ => acc) none

/-- Same for `MaxRowsPerGroupPerID` (l. 169-171). -/
def lastRowsPerGroup (col : String) (cs : List Constraint) : Option Nat :=
  cs.foldl (fun acc c => match c with
    | maxRowsPerGroupPerID k n => if k = col then some n else acc
    | _ => acc) none

/-- Columns mentioned by `MaxGroupsPerID` constraints. -/
def groupCols (cs : List Constraint) : List String :=
  cs.filterMap (fun c => match c with | maxGroupsPerID k _ => some k | _ => none)

/-- `_get_truncatable_constraints` (l. 156-179). The order in which a Python set is iterated is not
determined; `order` is any reordering of the columns. -/
def truncatable (order : List String → List String) (cs : List Constraint) : List Truncation :=
  ((order (groupCols cs).dedup).filterMap (fun col =>
    match lastGroups col cs, lastRowsPerGroup col cs with
    | some g, some r => some (.groups col g r)
    | _, _ => none)) ++
  (match firstRows cs with
    | some n => [.rows n]
    | none => [])

/-- `_constraint_stability` (l. 182-214), squared, so that the square root in the zCDP case becomes exact
(the code compares floats). -/
def stabilitySq (m : Measure) (grouping : List String) : Truncation → Nat
  | .rows n => n ^ 2
  | .groups col g r =>
    if m = .pureDP ∨ m = .approxDP ∨ col ∉ grouping then (g * r) ^ 2 else g * r ^ 2

/-- `truncatable_constraints.sort(key=...)` followed by `truncatable_constraints[0]` (l. 548-559): the
first element with the least key; `none` is the `RuntimeError`. -/
def chooseTruncation (m : Measure) (grouping : List String) : List Truncation → Option Truncation
  | [] => none
  | x :: xs => some (xs.foldl (fun best y =>
      if stabilitySq m grouping y < stabilitySq m grouping best then y else best) x)

/-- The chosen constraints are enforced one after the other (l. 559-585). -/
def applyTruncation (h : Hash) (id : String) : Truncation → Table → Table
  | .rows n, t => enforce h id (maxRowsPerID n) t
  | .groups col g r, t =>
    enforce h id (maxRowsPerGroupPerID col r) (enforce h id (maxGroupsPerID col g) t)

/-- `_truncate_table` (l. 534-589) on a table with IDs. -/
def truncateTable (h : Hash) (order : List String → List String) (m : Measure) (id : String)
    (cs : List Constraint) (grouping : List String) (t : Table) : Option Table :=
  (chooseTruncation m grouping (truncatable order cs)).map (fun tr => applyTruncation h id tr t)

/-! ## count_distinct -/

/-- `_generate_constrained_count_distinct` (l. 217-300), on a table with ID column `id`: the constraint to
enforce before a plain count, if the shortcut applies. `toCount` are the columns to count
(`query.columns_to_count or schema.columns`), `groupby` the group-by columns. -/
def countDistinctShortcut (id : String) (toCount groupby : List String) (cs : List Constraint) :
    Option Constraint :=
  if ¬ (id ∈ toCount ∧ ∀ c ∈ toCount, c = id) then none
  else
    match groupby with
    | [] => some (maxRowsPerID 1)
    | [g] =>
      if cs.any (fun c => match c with | maxGroupsPerID k _ => decide (k = g) | _ => false)
      then some (maxRowsPerGroupPerID g 1) else none
    | _ => none

end Verif.Constraint
