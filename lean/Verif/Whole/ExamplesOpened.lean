import Verif.Whole.Opened
import Verif.Whole.ExamplesSeveral

/-!
# Example for C81, with sessions opened on the way
-/

namespace Verif.Whole.Example

open Verif Verif.Schema Verif.Constraint Verif.Expr Verif.Query Verif.Stability
open Verif.Budget (XNum PB Rounding)
open Verif.Composition (ApproxClose)

/-- Sessions with a pure budget, and with an approximate one. -/
def either : Bool → Measure
  | true => .pureDP
  | false => .approxDP

/-- An analyst who opens a session with a pure budget of 5, counts people in it, and opens another session, with an approximate
budget of (3, 1/10) if the answer is not empty, and else with a pure budget of 1. -/
noncomputable def opening : Composition.Opener Bool Request Meas Tab PubFrame Value Table := fun hist _ =>
  match hist with
  | [] => PMF.pure (.start true (.pure (5 : ℚ)))
  | [_] => PMF.pure (.call 0 (.evaluate 0 people (.pure (2 : ℚ))))
  | [(_, some (_, some (_ :: _))), _] => PMF.pure (.start false (.approx (3 : ℚ) (1 / 10 : ℚ)))
  | [_, _] => PMF.pure (.start true (.pure (1 : ℚ)))
  | _ => PMF.pure (.call 1 (.evaluate 0 people (.pure (3 : ℚ))))

theorem opening_valid : ∀ hist w, ∀ j op, Composition.Act.call j op ∈ (opening hist w).support → op.BudgetValid := by
  have h2 : (0 : XNum) ≤ ((2 : ℚ) : XNum) := WithTop.coe_nonneg.2 (by norm_num)
  have h3 : (0 : XNum) ≤ ((3 : ℚ) : XNum) := WithTop.coe_nonneg.2 (by norm_num)
  intro hist w j op hop
  unfold opening at hop
  split at hop <;> rw [PMF.support_pure, Set.mem_singleton_iff] at hop <;> cases hop <;> first | exact h2 | exact h3

/-- Both sessions may be opened within a total of 8 and 1/10, but no third one. -/
theorem opening_allowed :
    Composition.Allowed (.pure 0) (8, 1 / 10) 0 (.pure (5 : ℚ)) ∧
      Composition.Allowed (.approx 0 0) (8, 1 / 10) (0 + Composition.real (.pure (5 : ℚ))) (.approx (3 : ℚ) (1 / 10 : ℚ)) ∧
      ¬ Composition.Allowed (.pure 0) (8, 1 / 10)
        (0 + Composition.real (.pure (5 : ℚ)) + Composition.real (.approx (3 : ℚ) (1 / 10 : ℚ))) (.pure (1 : ℚ)) := by
  have e : ∀ q : ℚ, Composition.real (.pure (q : XNum)) = ((q : ℝ), 0) := fun q => by
    change ((q : ℝ), ((0 : ℚ) : ℝ)) = _
    simp
  have e' : ∀ q r : ℚ, Composition.real (.approx (q : XNum) (r : XNum)) = ((q : ℝ), (r : ℝ)) := fun q r => rfl
  have h10 : ((1 / 10 : ℚ) : XNum) ≤ 1 := by
    rw [← WithTop.coe_one, WithTop.coe_le_coe]
    norm_num
  have hfin : (PB.approx ((3 : ℚ) : XNum) ((1 / 10 : ℚ) : XNum)).isInfinite = false := by
    have : ((1 / 10 : ℚ) : XNum) ≠ 1 := by
      rw [← WithTop.coe_one, Ne, WithTop.coe_eq_coe]
      norm_num
    simpa [PB.isInfinite] using this
  refine ⟨⟨WithTop.coe_nonneg.2 (by norm_num), rfl, trivial, ?_⟩,
    ⟨⟨WithTop.coe_nonneg.2 (by norm_num), WithTop.coe_nonneg.2 (by norm_num), h10⟩, hfin, trivial, ?_⟩, ?_⟩
  · rw [e]; constructor <;> norm_num
  · rw [e, e']; constructor <;> norm_num
  · rintro ⟨_, _, _, h⟩
    rw [e, e, e'] at h
    have := h.1
    norm_num at this

/-- **C81**: sessions opened on the way, within a total of 8 and 1/10. -/
theorem C81_opened_example (n : ℕ) : ∃ outA outB : Bool → Relation.Output,
    (∀ i, Relation.initCore (ctx (either i)).cast (coreMeasure (either i)) Relation.demoA = .ok (outA i)) ∧
    (∀ i, Relation.initCore (ctx (either i)).cast (coreMeasure (either i)) Relation.demoB = .ok (outB i)) ∧
    ApproxClose 8 (1 / 10) (learnedOpening (fun i => ctx (either i)) (fun _ => coinCore) opening n (8, 1 / 10) outA)
      (learnedOpening (fun i => ctx (either i)) (fun _ => coinCore) opening n (8, 1 / 10) outB) := by
  have hex := fun i => Relation.C34_example (ctx (either i)).cast (coreMeasure (either i))
  choose hA hB hn h _ using hex
  choose outA h using h
  obtain ⟨outB, h1, _, h2, _⟩ := C81_opened (I := Bool) (ctx := fun i => ctx (either i)) (fun _ => lawful _)
    (fun _ => coin_private _) hA hB
    (fun _ => frames_ok (by simp [Long]) (by simp [Long]) (by simp [Long]))
    (fun _ => frames_ok (by simp [Long]) (by simp [Long]) (by simp [Long])) hn h opening opening_valid n
  exact ⟨outA, outB, h, h1, h2 (fun i => by cases i; exacts [.inr rfl, .inl rfl]) 8 (1 / 10) (by norm_num) (by norm_num)⟩

end Verif.Whole.Example
