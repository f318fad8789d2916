import Verif.Whole.Several
import Verif.Whole.Examples

/-!
# Example for C81
-/

namespace Verif.Whole.Example

open Verif Verif.Schema Verif.Constraint Verif.Expr Verif.Query Verif.Stability
open Verif.Budget (XNum PB Rounding)
open Verif.Composition (PureClose)

/-- An analyst who counts people in the first session, then in the second if the first answer is not empty, then goes back to
split the first. -/
noncomputable def alternating : Composition.Analysts 2 Request Meas Tab PubFrame Value Table := fun hist _ =>
  match hist with
  | [] => PMF.pure (0, .evaluate 0 people (.pure (2 : ℚ)))
  | [(_, _, _, some (_ :: _))] => PMF.pure (1, .evaluate 0 people (.pure (3 : ℚ)))
  | [_, _] => PMF.pure (0, .partition 0 "cities" (.pure (3 : ℚ)) "city" [("one", .int 1), ("two", .int 2)])
  | _ => PMF.pure (0, .evaluate 1 city (.pure (2 : ℚ)))

theorem alternating_valid : ∀ hist w, ∀ p ∈ (alternating hist w).support, p.2.BudgetValid := by
  have h2 : (0 : XNum) ≤ ((2 : ℚ) : XNum) := WithTop.coe_nonneg.2 (by norm_num)
  have h3 : (0 : XNum) ≤ ((3 : ℚ) : XNum) := WithTop.coe_nonneg.2 (by norm_num)
  intro hist w op hop
  unfold alternating at hop
  split at hop <;> rw [PMF.support_pure, Set.mem_singleton_iff] at hop <;> rw [hop] <;>
    first | exact h2 | exact h3 | trivial

/-- **C81**: two sessions on the same tables, with budgets 5 and 3. -/
theorem C81_example (n : ℕ) : ∃ outA outB,
    Relation.initCore (ctx .pureDP).cast .pureDP Relation.demoA = .ok outA ∧
    Relation.initCore (ctx .pureDP).cast .pureDP Relation.demoB = .ok outB ∧
    PureClose 8 (learnedFromAll (ctx .pureDP) coinCore alternating n (fun j => .pure ((![5, 3] j : ℚ))) (fun _ => outA))
      (learnedFromAll (ctx .pureDP) coinCore alternating n (fun j => .pure ((![5, 3] j : ℚ))) (fun _ => outB)) := by
  obtain ⟨hA, hB, hn, ⟨outA, h⟩, _⟩ := Relation.C34_example (ctx .pureDP).cast .pureDP
  obtain ⟨outB, h1, h2, _⟩ := C81_sessions (N := 2) (ctx := ctx .pureDP) (lawful _) (coin_private _) (fun _ => hA) (fun _ => hB)
    (fun _ => frames_ok (by simp [Long]) (by simp [Long]) (by simp [Long]))
    (fun _ => frames_ok (by simp [Long]) (by simp [Long]) (by simp [Long])) (fun _ => hn) (fun _ => h) alternating
    alternating_valid n
  have e : outB = fun _ => outB 0 := by
    funext j
    have := (h1 j).symm.trans (h1 0)
    simpa using this
  have h3 := h2 ![5, 3] (by intro j; fin_cases j <;> simp)
  rw [e] at h3
  refine ⟨outA, outB 0, h, h1 0, ?_⟩
  have s : (∑ j : Fin 2, ((![5, 3] j : ℚ) : ℝ)) = 8 := by
    rw [Fin.sum_univ_two]
    norm_num
  rw [s] at h3
  exact h3

end Verif.Whole.Example
