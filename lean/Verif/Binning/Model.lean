import Verif.Common
import Mathlib.Order.Basic
import Mathlib.Data.Rat.Floor
import Mathlib.Data.List.Dedup

/-!
# Model of `binning_spec.py`

Source: `/repo/src/tmlt/analytics/binning_spec.py`.

Simplifications
* Values of the binned type form a linear order `α` (ints, strings, dates, timestamps, floats without NaN;
  the infinities are ordinary elements). A value to be binned is `null`, `nan` or an element of `α`.
* Type checks (`get_element_type`, `ColumnType`, l. 197-201, 231-240) are not modelled: a spec is built from
  edges and names of one type each. NaN cannot be an edge, since the sortedness check (l. 202) fails on it.
* Bin names have decidable equality; a NaN *name* (not equal to itself in Python) is not modelled.
-/

namespace Verif.Binning

/-- Exceptions. -/
inductive Err where
  | valueError
  | runtimeError
  deriving DecidableEq, Repr

/-- A cell of the column that is binned. -/
inductive Cell (α : Type) where
  | null
  | nan
  | val (a : α)
  deriving DecidableEq

/-- The attributes of a `BinningSpec` (l. 154-160). -/
structure Spec (α N : Type) where
  edges : List α
  names : List N
  right : Bool
  both : Bool
  nanBin : Option N
  deriving DecidableEq

variable {α N : Type}

/-- `all(bin_edges[i] < bin_edges[i + 1] for i in range(num_bins))` (l. 202). -/
def sorted [LinearOrder α] (e : List α) : Bool :=
  (List.range (e.length - 1)).all (fun i =>
    match e[i]?, e[i + 1]? with
    | some a, some b => decide (a < b)
    | _, _ => false)

/-- `BinningSpec.__init__` (l. 162-245); `dflt` is `_default_bin_names`. -/
def mk [LinearOrder α] (dflt : List α → Bool → Bool → Except Err (List N)) (edges : List α)
    (names : Option (List N)) (right both : Bool) (nanBin : Option N) : Except Err (Spec α N) :=
  if edges.length < 2 then .error .valueError
  else if !sorted edges then .error .valueError
  else
    match names with
    | none =>
      match dflt edges right both with
      | .error e => .error e
      | .ok ns => .ok ⟨edges, ns, right, both, nanBin⟩
    | some ns =>
      if ns.length ≠ edges.length - 1 then .error .valueError
      else .ok ⟨edges, ns, right, both, nanBin⟩

/-- The loop of `bisect.bisect_left` (standard library). -/
def bisectLeft [LinearOrder α] (a : List α) (x : α) (lo hi : Nat) : Nat :=
  if h : lo < hi then
    let mid := (lo + hi) / 2
    match a[mid]? with
    | none => lo
    | some y => if y < x then bisectLeft a x (mid + 1) hi else bisectLeft a x lo mid
  else lo
termination_by hi - lo
decreasing_by all_goals omega

/-- The loop of `bisect.bisect_right` (standard library). -/
def bisectRight [LinearOrder α] (a : List α) (x : α) (lo hi : Nat) : Nat :=
  if h : lo < hi then
    let mid := (lo + hi) / 2
    match a[mid]? with
    | none => lo
    | some y => if x < y then bisectRight a x lo mid else bisectRight a x (mid + 1) hi
  else lo
termination_by hi - lo
decreasing_by all_goals omega

/-- `BinningSpec.__call__` (l. 307-336). The inner `Option` of Python indexing (`self.names[i]`) never
fails on a spec built by `mk`; `none` is `None`. -/
def Spec.call [LinearOrder α] (s : Spec α N) : Cell α → Option N
  | .null => none
  | .nan => s.nanBin
  | .val v =>
    match s.edges[0]?, s.edges[s.edges.length - 1]? with
    | some first, some last =>
      if s.right then
        if s.both && decide (v = first) then s.names[0]?
        else if v ≤ first ∨ last < v then none
        else s.names[bisectLeft s.edges v 0 s.edges.length - 1]?
      else if s.both && decide (v = last) then s.names[s.names.length - 1]?
      else if v < first ∨ last ≤ v then none
      else s.names[bisectRight s.edges v 0 s.edges.length - 1]?
    | _, _ => none

/-- `list(dict.fromkeys(names))`: keep the first occurrence of each element. -/
def firstOccurrences {β : Type} [DecidableEq β] : List β → List β
  | [] => []
  | x :: xs => x :: (firstOccurrences xs).filter (fun y => decide (y ≠ x))

/-- `BinningSpec.bins` (l. 290-305). -/
def Spec.bins [DecidableEq N] (s : Spec α N) (includeNull : Bool) : List (Option N) :=
  firstOccurrences
    (s.names.map some ++ (match s.nanBin with | none => [] | some n => [some n])
      ++ (if includeNull then [none] else []))

/-- Rounding half to even, to an integer. -/
def roundHalfEven (q : ℚ) : ℤ :=
  let f := q.floor
  let r := q - f
  if r < 1 / 2 then f else if 1 / 2 < r then f + 1 else if f % 2 = 0 then f else f + 1

/-- `f"{e:.{p}f}"`: the decimal string is determined by the sign and the rounded number of units. -/
def fmt (p : Nat) (e : ℚ) : Bool × ℤ := (decide (e < 0), roundHalfEven (e * 10 ^ p))

/-- The search for a precision in `_edges_as_str` (l. 57-67): precisions 2..16. -/
def findPrecision (edges : List ℚ) : Option Nat :=
  ((List.range 15).map (· + 2)).find? (fun p => decide (edges.map (fmt p)).Nodup)

/-- `_default_bin_names` (l. 93-119) on float edges, with a bin name represented by the pair of formatted
edges, the closedness of both sides, and the precision that determines the strings. -/
structure FloatName where
  precision : Nat
  leftClosed : Bool
  lo : Bool × ℤ
  hi : Bool × ℤ
  rightClosed : Bool
  deriving DecidableEq

def dfltFloat (edges : List ℚ) (right both : Bool) : Except Err (List FloatName) :=
  match findPrecision edges with
  | none => .error .runtimeError
  | some p =>
    let strs := edges.map (fmt p)
    let pairs := strs.zip strs.tail
    let n := pairs.length
    .ok (pairs.mapIdx (fun i (lo, hi) =>
      if right then ⟨p, both && i == 0, lo, hi, true⟩
      else ⟨p, true, lo, hi, both && i + 1 == n⟩))

end Verif.Binning
