import Verif.Whole.Unread
import Verif.Whole.Examples

/-!
# Examples for C82
-/

namespace Verif.Whole.Example

open Verif Verif.Schema Verif.Constraint Verif.Expr Verif.Query Verif.Stability
open Verif.Budget (XNum PB Rounding)
open Verif.Composition (Within)

/-- The analyst of C56 counts people and splits cities. -/
theorem analyst_names : ∀ hist w, ∀ op ∈ (analyst hist w).support, ∀ n ∈ namedIn op, n ∉ ({"rest"} : Set String) := by
  intro hist w op hop
  unfold analyst at hop
  split at hop <;> rw [PMF.support_pure, Set.mem_singleton_iff] at hop <;> rw [hop] <;>
    simp [namedIn, people, city, Stability.child, Expr.sources]

theorem rest_differs (p c o o' : List Relation.DataRow) :
    SameBut {"rest"} (Relation.demoDb p c o) (Relation.demoDb p c o') :=
  .cons ⟨rfl, rfl, rfl, fun _ => rfl⟩ (.cons ⟨rfl, rfl, rfl, fun _ => rfl⟩
    (.cons ⟨rfl, rfl, rfl, fun h => absurd rfl h⟩ .nil))

/-- **C82**: nothing is learned about the third table, whatever its rows and whatever core answers, with an infinite budget
too. -/
theorem C82_example (core : Core) (o : List Relation.DataRow) (b : PB) (n : ℕ) : ∃ outA outB,
    Relation.initCore (ctx .pureDP).cast .pureDP Relation.demoA = .ok outA ∧
    Relation.initCore (ctx .pureDP).cast .pureDP (Relation.demoDb [[.int 1], [.int 2], [.int 2]]
      [[.int 1, .int 1], [.int 1, .int 2], [.int 2, .int 1]] o) = .ok outB ∧
    learned (ctx .pureDP) core analyst n b outA = learned (ctx .pureDP) core analyst n b outB := by
  obtain ⟨hA, _, _, ⟨outA, h⟩, _⟩ := Relation.C34_example (ctx .pureDP).cast .pureDP
  obtain ⟨outB, h1, h2⟩ := C82_unread (ctx := ctx .pureDP) core hA (Relation.demo_stored _ _ _ o) (rest_differs _ _ _ _) h b
    analyst analyst_names n
  exact ⟨outA, outB, h, h1, h2⟩

/-- **C82**: the people and cities change as protected, the third table entirely. -/
theorem C82_protected_example (o : List Relation.DataRow) (n : ℕ) : ∃ outA outB,
    Relation.initCore (ctx .pureDP).cast .pureDP Relation.demoA = .ok outA ∧
    Relation.initCore (ctx .pureDP).cast .pureDP (Relation.demoDb [[.int 1]]
      [[.int 2, .int 1], [.int 2, .int 2], [.int 2, .int 3]] o) = .ok outB ∧
    Within (.pure (5 : ℚ)) 1 (learned (ctx .pureDP) coinCore analyst n (.pure (5 : ℚ)) outA)
      (learned (ctx .pureDP) coinCore analyst n (.pure (5 : ℚ)) outB) := by
  obtain ⟨hA, hM, hn, ⟨outA, h⟩, _⟩ := Relation.C34_example (ctx .pureDP).cast .pureDP
  obtain ⟨outB, h1, h2⟩ := C82_protected (ctx := ctx .pureDP) (lawful _) (coin_private _) hA hM
    (Relation.demo_stored _ _ _ o) (frames_ok (by simp [Long]) (by simp [Long]) (by simp [Long]))
    (frames_ok (by simp [Long]) (by simp [Long]) (by simp [Long])) hn (rest_differs _ _ _ o) h
    (b := .pure (5 : ℚ)) (WithTop.coe_nonneg.2 (by norm_num)) analyst analyst_valid analyst_names n
  exact ⟨outA, outB, h, h1, h2⟩

end Verif.Whole.Example
