import Verif.Nested.Compile

/-!
# The tables made half way

In a session that protects IDs, replacing or dropping nulls and NaNs goes through a temporary table: nulls are
handled first and the result is stored, NaNs are handled in what was stored
(`_base_transformation_visitor.py` l. 1161-1193 and l. 1453-1485).
The theorems say that the stored table is the right one: handling NaNs in it gives the result of the query.
-/

namespace Verif.Nested

open Verif Verif.Schema Verif.Constraint Verif.Expr Verif.Query

/-- Replacing the NaNs of the table made half way gives the table with nulls and NaNs replaced. -/
theorem midReplace_then {w : Dict String Value} {o y : Out} {x : Leaf} (hx : midReplace w o = some x)
    (hy : visitReplaceNull w o = .ok y) :
    ∃ m : Dict String Value, y.dom = update (setNan false) (Dict.keys m) x.dom ∧
      ∀ D, y.run D = (x.run D).map (replaceRow isNan m) := by
  unfold midReplace at hx
  unfold visitReplaceNull at hy
  split at hy
  · cases hy
  · split at hy
    · cases hy
    · next rw hrw =>
      rw [hrw] at hx
      dsimp only at hx
      split at hx
      · cases hx
      · cases hx
        cases hy
        refine ⟨restrict allowsNan o.dom rw, rfl, fun D => ?_⟩
        simp only [List.map_map]
        rfl

/-- Dropping the rows with NaNs from the table made half way gives the table without nulls and NaNs. -/
theorem midDrop_then {cols : List String} {o y : Out} {x : Leaf} (hx : midDrop cols o = some x)
    (hy : visitDropNull cols o = .ok y) :
    ∃ m : List String, y.dom = update (setNan false) m x.dom ∧ ∀ D, y.run D = dropRows isNan m (x.run D) := by
  unfold midDrop at hx
  unfold visitDropNull at hy
  split at hy
  · cases hy
  · split at hy
    · cases hy
    · dsimp only at hx
      split at hx
      · cases hx
      · cases hx
        cases hy
        exact ⟨having allowsNan o.dom (dropNullCols cols o.dom o.metric.col), rfl, fun D => rfl⟩

namespace Example

/-- A table with IDs, a column with nulls and NaNs and one with nulls. -/
def halfOut : Out where
  dom := [("id", .string false), ("x", .float true false true), ("y", .integer true)]
  metric := .ids "id"
  space := some "people"
  cons := []
  run := fun D => D "t"

def halfRow : Row := [("id", .str "a"), ("x", .dec .nan), ("y", .null)]

def halfMap : Dict String Value := [("x", .dec (.fin 2)), ("y", .int 7)]

/-- Half way only the null is replaced. -/
theorem midReplace_example :
    (midReplace halfMap halfOut).map (fun x => x.run (fun _ => [halfRow])) =
      some [[("id", .str "a"), ("x", .dec .nan), ("y", .int 7)]] := by
  decide +kernel

/-- In the end the NaN is replaced as well. -/
theorem midReplace_then_example :
    ((visitReplaceNull halfMap halfOut).toOption).map (fun y => y.run (fun _ => [halfRow])) =
      some [[("id", .str "a"), ("x", .dec (.fin 2)), ("y", .int 7)]] := by
  decide +kernel

/-- Half way a row with a NaN and no null is still there. -/
theorem midDrop_example :
    (midDrop [] halfOut).map (fun x => x.run (fun _ => [halfRow,
      [("id", .str "b"), ("x", .dec .nan), ("y", .int 1)]])) =
      some [[("id", .str "b"), ("x", .dec .nan), ("y", .int 1)]] := by
  decide +kernel

end Example

end Verif.Nested
