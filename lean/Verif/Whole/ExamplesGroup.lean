import Verif.Whole.Group
import Verif.Whole.Examples

/-!
# Examples for C78 and C79
-/

namespace Verif.Whole.Example

open Verif Verif.Schema Verif.Constraint Verif.Expr Verif.Query Verif.Stability
open Verif.Budget (XNum PB Rounding)
open Verif.Composition (Within PureClose)

/-- **C78**: the number of calls that were answered, computed from the answers of a session. -/
theorem C78_example (n : ℕ) : ∃ outA outB,
    Relation.initCore (ctx .pureDP).cast .pureDP Relation.demoA = .ok outA ∧
    Relation.initCore (ctx .pureDP).cast .pureDP Relation.demoB = .ok outB ∧
    Within (.pure (5 : ℚ)) 1
      ((learned (ctx .pureDP) coinCore analyst n (.pure (5 : ℚ)) outA).bind fun hist => PMF.pure hist.length)
      ((learned (ctx .pureDP) coinCore analyst n (.pure (5 : ℚ)) outB).bind fun hist => PMF.pure hist.length) := by
  obtain ⟨hA, hB, hn, ⟨outA, h⟩, _⟩ := Relation.C34_example (ctx .pureDP).cast .pureDP
  obtain ⟨outB, h1, h2⟩ := C78_derived (ctx := ctx .pureDP) (lawful _) (coin_private _) hA hB
    (frames_ok (by simp [Long]) (by simp [Long]) (by simp [Long])) (frames_ok (by simp [Long]) (by simp [Long]) (by simp [Long])) hn h
    (b := .pure (5 : ℚ)) (WithTop.coe_nonneg.2 (by norm_num)) analyst analyst_valid n fun hist => PMF.pure hist.length
  exact ⟨outA, outB, h, h1, h2⟩

theorem kept_table {change : Relation.Change} (hc : change.valid = true) {rows : List Relation.DataRow}
    (h : ∀ r ∈ rows, ∃ x, r = [x] ∧ Long x) (cast : SparkType → Value → Value) :
    KeptTable cast "people" [⟨"id", .long, false⟩] change rows := by
  refine ⟨⟨by rw [Dict.wf_iff]; simp [oneTable, Dict.keys], ?_, ?_, ?_⟩, ⟨?_⟩⟩
  all_goals
    intro n df ch hm
    simp only [oneTable, List.mem_singleton, Prod.mk.injEq] at hm
    obtain ⟨rfl, rfl, rfl⟩ := hm
  · exact hc
  · rfl
  · simp [Relation.columns]
  · intro r hr
    obtain ⟨_, rfl, x, rfl, hx⟩ := h r hr
    exact .cons ⟨hx, nofun⟩ .nil

/-- **C79**: five rows replaced by one, where changes of two rows are protected: three changes. -/
theorem C79_rows_example (n : ℕ) : ∃ outA outB,
    Relation.initCore (ctx .pureDP).cast .pureDP (oneTable "people" [⟨"id", .long, false⟩] (.maxRows (2 : ℕ))
      [[.int 1], [.int 2], [.int 3], [.int 4], [.int 5], [.int 6]]) = .ok outA ∧
    Relation.initCore (ctx .pureDP).cast .pureDP (oneTable "people" [⟨"id", .long, false⟩] (.maxRows (2 : ℕ))
      [[.int 7], [.int 1]]) = .ok outB ∧
    PureClose ((3 : ℕ) * (5 : ℚ)) (learned (ctx .pureDP) coinCore analyst n (.pure (5 : ℚ)) outA)
      (learned (ctx .pureDP) coinCore analyst n (.pure (5 : ℚ)) outB) := by
  have hA : ∃ outA, Relation.initCore (ctx .pureDP).cast .pureDP (oneTable "people" [⟨"id", .long, false⟩] (.maxRows (2 : ℕ))
      [[.int 1], [.int 2], [.int 3], [.int 4], [.int 5], [.int 6]]) = .ok outA := ⟨_, rfl⟩
  obtain ⟨outA, hA⟩ := hA
  obtain ⟨outB, h1, h2⟩ := C79_rows (ctx := ctx .pureDP) (lawful _) (coin_private _) (k := 3) (m := 2) (by norm_num)
    (kept_table rfl (by simp [Long]) _) (kept_table (rows := [[.int 7], [.int 1]]) rfl (by simp [Long]) _)
    ⟨[[.int 1]], [[.int 2], [.int 3], [.int 4], [.int 5], [.int 6]], [[.int 7]], .refl _, .swap _ _ _, by norm_num⟩ hA
    (ε := 5) (by norm_num) analyst analyst_valid n
  exact ⟨outA, outB, hA, h1, h2⟩

/-- **C79**: one person replaced by another. -/
theorem C79_ids_example (n : ℕ) : ∃ outA outB,
    Relation.initCore (ctx .pureDP).cast .pureDP (oneTable "people" [⟨"id", .long, false⟩] (.rowsWithID "id" "persons")
      [[.int 1], [.int 2], [.int 2]]) = .ok outA ∧
    Relation.initCore (ctx .pureDP).cast .pureDP (oneTable "people" [⟨"id", .long, false⟩] (.rowsWithID "id" "persons")
      [[.int 2], [.int 1]]) = .ok outB ∧
    PureClose (2 * (1 : ℕ) * (5 : ℚ)) (learned (ctx .pureDP) coinCore analyst n (.pure (5 : ℚ)) outA)
      (learned (ctx .pureDP) coinCore analyst n (.pure (5 : ℚ)) outB) := by
  have hA : ∃ outA, Relation.initCore (ctx .pureDP).cast .pureDP (oneTable "people" [⟨"id", .long, false⟩]
      (.rowsWithID "id" "persons") [[.int 1], [.int 2], [.int 2]]) = .ok outA := ⟨_, rfl⟩
  obtain ⟨outA, hA⟩ := hA
  obtain ⟨outB, h1, h2⟩ := C79_ids (ctx := ctx .pureDP) (lawful _) (coin_private _) (changed := {some (.int 2)}) (by simp)
    (kept_table rfl (by simp [Long]) _) (kept_table (rows := [[.int 2], [.int 1]]) rfl (by simp [Long]) _)
    (by
      intro w hw
      have : ∀ x, Relation.cell ⟨[⟨"id", .long, false⟩], x⟩ "id" [Value.int 1] = some (.int 1) := fun _ => rfl
      have : ∀ x, Relation.cell ⟨[⟨"id", .long, false⟩], x⟩ "id" [Value.int 2] = some (.int 2) := fun _ => rfl
      have : ¬ some (Value.int 2) = w := fun e => hw (by simp [e])
      by_cases e : some (Value.int 1) = w <;> simp [Relation.rowsWith, *]) hA
    (ε := 5) (by norm_num) analyst analyst_valid n
  exact ⟨outA, outB, hA, h1, by simpa using h2⟩

end Verif.Whole.Example
