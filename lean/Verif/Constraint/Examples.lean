import Verif.Constraint.Truncate
import Mathlib.SetTheory.Cardinal.Order

/-!
# Cases that meet the hypotheses of the constraint theorems
-/

namespace Verif.Constraint

open Constraint

/-- Linear hash orders exist (`Hash.Lawful` can be met). -/
theorem Hash.exists_lawful : ∃ h : Hash, h.Lawful := by
  classical
  have lin : ∀ α : Type, ∃ le : α → α → Bool, (∀ a b, le a b = true ∨ le b a = true) ∧
      (∀ a b c, le a b = true → le b c = true → le a c = true) ∧
      (∀ a b, le a b = true → le b a = true → a = b) := by
    intro α
    letI : LinearOrder α := IsWellOrder.linearOrder WellOrderingRel
    refine ⟨fun a b => decide (a ≤ b), ?_, ?_, ?_⟩
    · intro a b; simpa using le_total a b
    · intro a b c h1 h2; simp only [decide_eq_true_eq] at *; exact le_trans h1 h2
    · intro a b h1 h2; simp only [decide_eq_true_eq] at *; exact le_antisymm h1 h2
  obtain ⟨r, r1, r2, r3⟩ := lin Row
  obtain ⟨k, k1, k2, k3⟩ := lin (Option Value)
  exact ⟨⟨r, k⟩, ⟨r1, r2, r3, k1, k2, k3⟩⟩

namespace Demo

def row (i g : String) (n : Int) : Row := [("id", .str i), ("g", .str g), ("n", .int n)]

/-- User `a` has four rows in three groups, user `b` one. -/
def t : Table := [row "a" "x" 1, row "a" "x" 2, row "a" "y" 3, row "b" "x" 4, row "a" "z" 5]

def cs : List Constraint :=
  [maxRowsPerID 9, maxGroupsPerID "g" 3, maxRowsPerGroupPerID "g" 1, maxGroupsPerID "g" 2, maxRowsPerID 4]

def h : Hash := ⟨fun _ _ => true, fun _ _ => true⟩

/-- Simplification merges, and takes the smaller bounds. -/
example : simplify cs = [maxRowsPerID 4, maxGroupsPerID "g" 2, maxRowsPerGroupPerID "g" 1] := by
  decide

/-- The pair of group constraints is cheaper than the row bound. -/
example : chooseTruncation .pureDP [] (truncatable (fun l => l) (simplify cs)) =
    some (.groups "g" 2 1) := by decide

/-- Truncation really drops rows of `a`. -/
example : truncateTable h (fun l => l) .pureDP "id" (simplify cs) [] t =
    some [row "b" "x" 4, row "a" "x" 1, row "a" "y" 3] := by decide +kernel

/-- Enforcing is not the identity here. -/
example : (enforce h "id" (maxRowsPerID 1) t).length = 2 := by decide +kernel

/-- The shortcut applies with one grouping column. -/
example : countDistinctShortcut "id" ["id"] ["g"] (simplify cs) = some (maxRowsPerGroupPerID "g" 1) := by
  decide

/-- No usable combination: only a bound on groups. -/
example : truncateTable h (fun l => l) .zCDP "id" (simplify [maxGroupsPerID "g" 2]) [] t = none := by
  decide +kernel

end Demo

end Verif.Constraint
