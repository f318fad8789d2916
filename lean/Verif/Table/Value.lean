import Verif.Common
import Mathlib.Data.Rat.Defs
import Mathlib.Data.List.Dedup
import Mathlib.Data.List.Perm.Basic

/-!
# Data: values, rows and tables

What the library calls a table is a Spark data frame. It is modelled as a list of rows; the order of rows
has no meaning, so statements about tables are up to permutation. A row is an association list from column
names to values, in column order.
-/

namespace Verif

/-- A floating point value. Finite floats are represented by the rational they stand for. As in Spark (for
joins and grouping), NaN is equal to itself. -/
inductive Flt where
  | fin (q : ℚ)
  | nan
  | pinf
  | ninf
  deriving DecidableEq

/-- A cell. -/
inductive Value where
  | null
  | int (z : ℤ)
  | dec (f : Flt)
  | str (s : String)
  | date (d : ℤ)
  | ts (t : ℤ)
  deriving DecidableEq

abbrev Row := List (String × Value)

abbrev Table := List Row

/-- The value in a column. -/
def Row.get (r : Row) (c : String) : Option Value := List.lookup c r

/-- Column names. -/
def Row.cols (r : Row) : List String := r.map Prod.fst

/-- The rows of a table whose column `c` has value `v`. -/
def Table.whereEq (t : Table) (c : String) (v : Option Value) : Table :=
  t.filter (fun r => decide (Row.get r c = v))

end Verif
