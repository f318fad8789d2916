import Verif.Whole.AnswersChain
import Verif.Whole.Grouped
import Verif.Whole.Histogram
import Mathlib.Data.Sum.Order
import Mathlib.Data.String.Basic

/-!
# Binning specifications from Python values

Source: `/repo/src/tmlt/analytics/binning_spec.py`, with the type checks and the names as strings that
`Verif/Binning/Model.lean` leaves out, and `QueryBuilder.histogram` (`query_builder.py` l. 1655-1663) from its arguments.

Simplifications
* `get_element_type` (tmlt.core, assumed): the type of the elements if all have the same type and none is `None`,
  otherwise `ValueError`.
* A NaN name is one value (Python compares NaN objects by identity in `dict.fromkeys`).
* `-0.0` is `0.0`. NumPy arrays are lists.
* A value of the binned column that cannot be compared with the edges is in no bin (Python raises `TypeError`).
-/

namespace Verif.Bins

open Verif Verif.Schema Verif.Expr
open Verif.Binning (Spec Cell Err fmt)
open Verif.Whole (Binner)

/-! ## Values -/

/-- A Python object that is given as an edge or as a name; `other` is an object of a type that is not supported. -/
inductive Obj where
  | value (v : Value)
  | other
  deriving DecidableEq

/-- `type(o)`, if it is a supported one. -/
def Obj.type : Obj → Option ColumnType
  | .value v => KeySet.vtype v
  | .other => none

/-- `ColumnType(get_element_type(l, allow_none=False))` (l. 51, 197-198). -/
def elementType (l : List Obj) : Except Err ColumnType :=
  match l.map Obj.type with
  | some t :: ts => if ts.all (fun x => decide (x = some t)) then .ok t else .error .valueError
  | _ => .error .valueError

/-- The values of a list of objects of supported types. -/
def values (l : List Obj) : List Value :=
  l.filterMap (fun o => match o with | .value v => some v | .other => none)

/-- `a < b` of floats. -/
def fltLt : Flt → Flt → Bool
  | .fin a, .fin b => decide (a < b)
  | .fin _, .pinf => true
  | .ninf, .fin _ => true
  | .ninf, .pinf => true
  | _, _ => false

/-- `a < b` in Python, for values of one type. -/
def pyLt : Value → Value → Bool
  | .int a, .int b => decide (a < b)
  | .dec a, .dec b => fltLt a b
  | .str a, .str b => decide (a < b)
  | .date a, .date b => decide (a < b)
  | .ts a, .ts b => decide (a < b)
  | _, _ => false

/-- `all(bin_edges[i] < bin_edges[i + 1] for i in range(num_bins))` (l. 202). -/
def increasing : List Value → Bool
  | a :: b :: l => pyLt a b && increasing (b :: l)
  | _ => true

/-! ## Default names -/

/-- The precision of `datetime.isoformat`. -/
inductive TimeSpec where
  | minutes
  | seconds
  | milliseconds
  | microseconds
  deriving DecidableEq

/-- The number of microseconds in a unit. -/
def TimeSpec.size : TimeSpec → ℤ
  | .minutes => 60000000
  | .seconds => 1000000
  | .milliseconds => 1000
  | .microseconds => 1

/-- How Python writes strings, dates and timestamps (assumed): `repr(s)` ends with its closing quote and determines `s`;
`str(d)` and `t.isoformat(sep=" ", timespec=…)` have no comma, and determine the date, and the timestamp up to the unit. -/
structure Format where
  repr : String → String
  repr_delim : ∀ s s' x y, (repr s).toList ++ x = (repr s').toList ++ y → s = s'
  date : ℤ → String
  date_inj : ∀ d d', date d = date d' → d = d'
  date_comma : ∀ d, ',' ∉ (date d).toList
  iso : TimeSpec → ℤ → String
  iso_inj : ∀ u t t', iso u t = iso u t' → t / u.size = t' / u.size
  iso_comma : ∀ u t, ',' ∉ (iso u t).toList

/-- The digits of a number. -/
def natStr (n : Nat) : List Char :=
  if n < 10 then [Nat.digitChar n] else natStr (n / 10) ++ [Nat.digitChar (n % 10)]
termination_by n
decreasing_by omega

/-- `str(z)`. -/
def intStr (z : ℤ) : String :=
  String.ofList (if z < 0 then '-' :: natStr z.natAbs else natStr z.natAbs)

/-- The last `p` digits of a number. -/
def lastDigits : Nat → Nat → List Char
  | 0, _ => []
  | p + 1, n => lastDigits p (n / 10) ++ [Nat.digitChar (n % 10)]

/-- `f"{e:.{p}f}"`. -/
def fltStr (p : Nat) : Flt → String
  | .fin q =>
    let (neg, n) := fmt p q
    String.ofList ((if neg then ['-'] else []) ++ natStr (n.natAbs / 10 ^ p) ++ '.' :: lastDigits p n.natAbs)
  | .pinf => "inf"
  | .ninf => "-inf"
  | .nan => "nan"

/-- `e.microsecond`, `e.second`. -/
def microsecond (t : ℤ) : ℤ := t % 1000000

def second (t : ℤ) : ℤ := t / 1000000 % 60

/-- The choice of the unit (l. 75-82). -/
def timeSpec (l : List ℤ) : TimeSpec :=
  if l.any (fun t => decide (microsecond t % 1000 ≠ 0)) then .microseconds
  else if l.any (fun t => decide (microsecond t ≠ 0)) then .milliseconds
  else if l.any (fun t => decide (second t ≠ 0)) then .seconds
  else .minutes

/-- Python floats, timestamps and strings in a list. -/
def floats (l : List Value) : List Flt := l.filterMap (fun v => match v with | .dec f => some f | _ => none)

def times (l : List Value) : List ℤ := l.filterMap (fun v => match v with | .ts t => some t | _ => none)

def strings (l : List Value) : List String := l.filterMap (fun v => match v with | .str s => some s | _ => none)

/-- `str(e)` of a number or date. -/
def strOf (fm : Format) : Value → String
  | .int z => intStr z
  | .date d => fm.date d
  | _ => ""

/-- `_edges_as_str` (l. 55-90). -/
def edgesAsStr (fm : Format) (edges : List Value) : Except Err (List String) :=
  match edges with
  | .dec _ :: _ =>
    match ((List.range 15).map (· + 2)).find? (fun p => decide ((floats edges).map (fltStr p)).Nodup) with
    | none => .error .runtimeError
    | some p => .ok ((floats edges).map (fltStr p))
  | .ts _ :: _ => .ok ((times edges).map (fm.iso (timeSpec (times edges))))
  | .str _ :: _ => .ok ((strings edges).map fm.repr)
  | _ => .ok (edges.map (strOf fm))

/-- `f"({strs[i]}, {strs[i + 1]}]"`, with the brackets. -/
def interval (strs : List String) (l r : String) (i : Nat) : String :=
  l ++ strs.getD i "" ++ ", " ++ strs.getD (i + 1) "" ++ r

/-- `_default_bin_names` (l. 93-119). -/
def defaultNames (fm : Format) (edges : List Value) (right both : Bool) : Except Err (List String) :=
  match edgesAsStr fm edges with
  | .error x => .error x
  | .ok strs =>
    let n := edges.length
    if right then
      if both then .ok (interval strs "[" "]" 0 :: (List.range (n - 2)).map (fun i => interval strs "(" "]" (i + 1)))
      else .ok ((List.range (n - 1)).map (interval strs "(" "]"))
    else if both then .ok ((List.range (n - 2)).map (interval strs "[" ")") ++ [interval strs "[" "]" (n - 2)])
    else .ok ((List.range (n - 1)).map (interval strs "[" ")"))

/-! ## The constructor -/

/-- Numbers in their order, with the infinities. -/
abbrev Num := WithBot (WithTop ℚ)

/-- Values that can be compared: numbers, strings, dates, timestamps. -/
abbrev Key := Num ⊕ₗ (String ⊕ₗ (ℤ ⊕ₗ ℤ))

/-- The place of a value in the order of its type. -/
def key : Value → Option Key
  | .null => none
  | .int z => some (toLex (.inl (((z : ℚ) : WithTop ℚ) : Num)))
  | .dec (.fin q) => some (toLex (.inl ((q : WithTop ℚ) : Num)))
  | .dec .pinf => some (toLex (.inl ((⊤ : WithTop ℚ) : Num)))
  | .dec .ninf => some (toLex (.inl (⊥ : Num)))
  | .dec .nan => none
  | .str s => some (toLex (.inr (toLex (.inl s))))
  | .date d => some (toLex (.inr (toLex (.inr (toLex (.inl d))))))
  | .ts t => some (toLex (.inr (toLex (.inr (toLex (.inr t))))))

/-- `val is None`, `math.isnan(val)` and the others (`__call__`, l. 316-319). -/
def read (v : Value) : Cell Key :=
  match key v with
  | some x => .val x
  | none => if v = .dec .nan then .nan else .null

/-- Names of bins are not null. -/
abbrev Name := {v : Value // v ≠ .null}

def binner : Binner Key Name where
  read := read
  write := Subtype.val
  inj := fun _ _ h => Subtype.ext h
  notNull := fun a => a.2

/-- `math.isnan(bin_name)` (l. 42-45). -/
def isNaN : Value → Bool
  | .dec .nan => true
  | _ => false

/-- `bin_name in [float("inf"), float("-inf")]` (l. 46-48). -/
def isInf : Value → Bool
  | .dec .pinf => true
  | .dec .ninf => true
  | _ => false

def asName (v : Value) : Option Name := if h : v ≠ .null then some ⟨v, h⟩ else none

/-- A `BinningSpec` (l. 154-160). -/
structure Made where
  edges : List Value
  inputType : ColumnType
  spec : Spec Key Name
  desc : Desc

/-- The names (l. 213-233). -/
def namesOf (fm : Format) (edges : List Value) (names : Option (List Obj)) (right both : Bool) : Except Err (List Obj) :=
  match names with
  | none => (defaultNames fm edges right both).map (fun l => l.map (fun s => Obj.value (.str s)))
  | some ns => if ns.length ≠ edges.length - 1 then .error .valueError else .ok ns

/-- `BinningSpec.__init__` (l. 162-250) with `_get_column_descriptor` (l. 23-52). `nanBin` is `None` or a name. -/
def init (fm : Format) (edges : List Obj) (names : Option (List Obj)) (right both : Bool) (nanBin : Obj) : Except Err Made :=
  if edges.length - 1 < 1 then .error .valueError
  else
    match elementType edges with
    | .error x => .error x
    | .ok t =>
      let es := values edges
      if !increasing es then .error .valueError
      else
        match namesOf fm es names right both with
        | .error x => .error x
        | .ok ns =>
          match elementType ns with
          | .error x => .error x
          | .ok t' =>
            let all := values ns ++ (if nanBin = .value .null then [] else values [nanBin])
            let desc : Desc := ⟨t', true, all.any isNaN, all.any isInf⟩
            if nanBin ≠ .value .null ∧ nanBin.type ≠ some t' then .error .valueError
            else
              .ok ⟨es, t, ⟨es.filterMap key, (values ns).filterMap asName, right, both, (values [nanBin]).head?.bind asName⟩, desc⟩

end Verif.Bins
