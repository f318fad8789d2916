import Verif.Whole.Shuffled
import Verif.Whole.Examples

/-!
# Examples for C84
-/

namespace Verif.Whole.Example

open Verif Verif.Schema Verif.Constraint Verif.Expr Verif.Query Verif.Stability
open Verif.Budget (XNum PB Rounding)

/-- The mechanism of the examples does not depend on the order of rows. -/
theorem coin_orderFree : coinCore.OrderFree := by
  intro c t t' h
  have : score c t = score c t' := by
    unfold score
    rw [callDist_congr c h (List.Perm.refl [])]
  dsimp only [coinCore]
  rw [this]

/-- **C84**: three tables, two of them protected by IDs; the analyst counts people and splits cities. -/
theorem C84_example (b : PB) (n : ℕ) : ∃ outA outB,
    Relation.initCore (ctx .pureDP).cast .pureDP Relation.demoA = .ok outA ∧
    Relation.initCore (ctx .pureDP).cast .pureDP (Relation.demoDb [[.int 2], [.int 1], [.int 2]]
      [[.int 2, .int 1], [.int 1, .int 2], [.int 1, .int 1]] [[.int 7], [.int 7]]) = .ok outB ∧
    learned (ctx .pureDP) coinCore analyst n b outA = learned (ctx .pureDP) coinCore analyst n b outB := by
  obtain ⟨hA, _, _, ⟨outA, h⟩, _⟩ := Relation.C34_example (ctx .pureDP).cast .pureDP
  obtain ⟨outB, h1, h2⟩ := C84_order (ctx := ctx .pureDP) coin_orderFree hA 
    (Relation.demo_stored _ [[.int 2], [.int 1], [.int 2]] [[.int 2, .int 1], [.int 1, .int 2], [.int 1, .int 1]] [[.int 7], [.int 7]])
    (.cons ⟨rfl, rfl, rfl, by decide⟩ (.cons ⟨rfl, rfl, rfl, by decide⟩
      (.cons ⟨rfl, rfl, rfl, by decide⟩ .nil))) h b analyst n
  exact ⟨outA, outB, h, h1, h2⟩

end Verif.Whole.Example
