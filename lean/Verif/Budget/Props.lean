import Verif.Budget.Model
import Mathlib.Tactic.Linarith
import Mathlib.Tactic.Ring

/-!
# Properties of privacy budgets (C04, C09, C10)
-/

namespace Verif.Budget

/-! ## Specification vocabulary (independent of the model's helper functions) -/

/-- `req` is above `rem`, but by at most one part in 10^9 of `rem` (both finite). -/
def WithinTolerance (req rem : XNum) : Prop :=
  ∃ a b : ℚ, req = (a : XNum) ∧ rem = (b : XNum) ∧ b < a ∧ a - b ≤ b / 10 ^ 9

/-- Componentwise order on budgets of the same kind. -/
def PB.Le : PB → PB → Prop
  | .pure a, .pure b => a ≤ b
  | .approx a b, .approx c d => a ≤ c ∧ b ≤ d
  | .zcdp a, .zcdp b => a ≤ b
  | _, _ => False

/-- Both budgets are of the same kind. -/
def PB.SameKind : PB → PB → Prop
  | .pure _, .pure _ => True
  | .approx _ _, .approx _ _ => True
  | .zcdp _, .zcdp _ => True
  | _, _ => False

/-! ## C04: tolerance adjustment -/

theorem slightlyHigher_iff (req rem : XNum) :
    slightlyHigher req rem = true ↔ WithinTolerance req rem := by
  unfold slightlyHigher WithinTolerance
  cases rem using WithTop.recTopCoe with
  | top => constructor
           · intro h; exact absurd h (by simp)
           · rintro ⟨a, b, _, h, _⟩; exact absurd h (by simp)
  | coe rm =>
    cases req using WithTop.recTopCoe with
    | top => constructor
             · intro h; exact absurd h (by simp)
             · rintro ⟨a, b, h, _⟩; exact absurd h (by simp)
    | coe rq =>
      show (if 0 ≤ rm - rq then false else decide (|rm - rq| ≤ rm / 10 ^ 9)) = true ↔ _
      constructor
      · intro h
        by_cases h0 : 0 ≤ rm - rq
        · simp [h0] at h
        · rw [if_neg h0, decide_eq_true_iff] at h
          push Not at h0
          rw [abs_of_neg h0] at h
          exact ⟨rq, rm, rfl, rfl, by linarith, by linarith⟩
      · rintro ⟨a, b, ha, hb, hlt, hle⟩
        have ha' : rq = a := WithTop.coe_injective ha
        have hb' : rm = b := WithTop.coe_injective hb
        subst ha' hb'
        rw [if_neg (by push Not; linarith), decide_eq_true_iff, abs_of_neg (by linarith)]
        linarith

/-- **C04.** A request within the tolerance is lowered to exactly the remaining budget, every other
request is used exactly as it is. -/
theorem C04_adjust_number (req rem : XNum) :
    (WithinTolerance req rem → adjustNumber req rem = rem) ∧
    (¬ WithinTolerance req rem → adjustNumber req rem = req) := by
  unfold adjustNumber
  rw [← slightlyHigher_iff]
  constructor
  · intro h; simp [h]
  · intro h; simp [h]

/-- **C04.** The adjusted amount is never larger than the request, and if it differs from the
request then the request exceeded the remaining budget by at most `10^-9` of it. -/
theorem C04_adjust_number_le (req rem : XNum) :
    adjustNumber req rem ≤ req ∧
    (adjustNumber req rem ≠ req →
      adjustNumber req rem = rem ∧ ∃ a b : ℚ, req = a ∧ rem = b ∧ b < a ∧ a ≤ b * (1 + 1 / 10 ^ 9)) := by
  by_cases h : WithinTolerance req rem
  · rw [(C04_adjust_number req rem).1 h]
    obtain ⟨a, b, rfl, rfl, hlt, hle⟩ := h
    refine ⟨WithTop.coe_le_coe.mpr hlt.le, fun _ => ⟨rfl, a, b, rfl, rfl, hlt, ?_⟩⟩
    have : b * (1 + 1 / 10 ^ 9) = b + b / 10 ^ 9 := by ring
    linarith
  · rw [(C04_adjust_number req rem).2 h]
    exact ⟨le_refl _, fun h' => absurd rfl h'⟩

/-- **C04** for whole budgets: adjustment is defined exactly for budgets of one kind, keeps the
kind, never charges more than requested, works component by component, and keeps the budget valid. -/
theorem C04_adjust_budget (req rem : PB) :
    (PB.SameKind req rem → ∃ b, adjustBudget req rem = .ok b ∧ PB.Le b req ∧
      (req.Valid → rem.Valid → b.Valid)) ∧
    (¬ PB.SameKind req rem → adjustBudget req rem = .error .valueError) := by
  have key : ∀ a b : XNum, 0 ≤ a → 0 ≤ b → 0 ≤ adjustNumber a b := by
    intro a b ha hb; unfold adjustNumber; split <;> assumption
  constructor
  · intro h
    cases req with
    | pure a => cases rem with
      | pure b => exact ⟨_, rfl, (C04_adjust_number_le a b).1, fun h1 h2 => key a b h1 h2⟩
      | approx _ _ => exact absurd h (by simp [PB.SameKind])
      | zcdp _ => exact absurd h (by simp [PB.SameKind])
    | approx a b => cases rem with
      | approx c d =>
        refine ⟨_, rfl, ⟨(C04_adjust_number_le a c).1, (C04_adjust_number_le b d).1⟩, ?_⟩
        rintro ⟨h1, h2, h3⟩ ⟨h4, h5, h6⟩
        refine ⟨key _ _ h1 h4, key _ _ h2 h5, ?_⟩
        exact le_trans (C04_adjust_number_le b d).1 h3
      | pure _ => exact absurd h (by simp [PB.SameKind])
      | zcdp _ => exact absurd h (by simp [PB.SameKind])
    | zcdp a => cases rem with
      | zcdp b => exact ⟨_, rfl, (C04_adjust_number_le a b).1, fun h1 h2 => key a b h1 h2⟩
      | approx _ _ => exact absurd h (by simp [PB.SameKind])
      | pure _ => exact absurd h (by simp [PB.SameKind])
  · intro h
    cases req <;> cases rem <;> first | rfl | exact absurd trivial h

/-- Non-vacuity: a request within the tolerance, one above it, one below. -/
example : WithinTolerance ((1 + 1 / 10 ^ 10 : ℚ) : XNum) ((1 : ℚ) : XNum) :=
  ⟨_, _, rfl, rfl, by norm_num, by norm_num⟩
example : ¬ WithinTolerance ((1 + 1 / 10 ^ 8 : ℚ) : XNum) ((1 : ℚ) : XNum) := by
  rintro ⟨a, b, ha, hb, _, h⟩
  have ha' := WithTop.coe_injective ha
  have hb' := WithTop.coe_injective hb
  subst ha' hb'
  norm_num at h

/-! ## C10: equality and hashing -/

/-- A budget that bounds nothing: an infinite epsilon or rho, or delta = 1. -/
def PB.Unlimited : PB → Prop
  | .pure ε => ε = ⊤
  | .approx ε δ => ε = ⊤ ∨ δ = ((1 : ℚ) : XNum)
  | .zcdp ρ => ρ = ⊤

/-- `is_infinite` says exactly that. -/
theorem isInfinite_iff_unlimited (x : PB) : x.isInfinite = true ↔ x.Unlimited := by
  cases x <;> simp [PB.isInfinite, PB.Unlimited]

/-- **C10.** `==` on budgets is an equivalence relation, distinguishes kinds, identifies all
infinite budgets of one kind, identifies two finite budgets only if all components agree, and is
compatible with `hash`. -/
theorem C10_budget_eq (r : Rounding) :
    (∀ x : PB, x.pyEq x = true) ∧
    (∀ x y : PB, x.pyEq y = y.pyEq x) ∧
    (∀ x y z : PB, x.pyEq y = true → y.pyEq z = true → x.pyEq z = true) ∧
    (∀ x y : PB, x.pyEq y = true → PB.SameKind x y) ∧
    (∀ x : PB, x.isInfinite = true ↔ x.Unlimited) ∧
    (∀ x y : PB, PB.SameKind x y → x.Unlimited → y.Unlimited → x.pyEq y = true) ∧
    (∀ x y : PB, ¬ x.Unlimited → x.pyEq y = true → x = y) ∧
    (∀ x y : PB, x.pyEq y = true → x.hashKey r = y.hashKey r) := by
  refine ⟨?_, ?_, ?_, ?_, isInfinite_iff_unlimited, ?_, ?_, ?_⟩
  · intro x; cases x <;> simp [PB.pyEq]
  · intro x y
    cases x <;> cases y <;> simp only [PB.pyEq] <;>
      first
      | (rename_i a b; exact decide_eq_decide.mpr eq_comm)
      | (rename_i a b c d
         rw [Bool.and_comm (PB.approx a b).isInfinite,
           decide_eq_decide.mpr (eq_comm (a := a) (b := c)),
           decide_eq_decide.mpr (eq_comm (a := b) (b := d))])
  · intro x y z hxy hyz
    cases x <;> cases y <;> cases z <;> simp_all [PB.pyEq]
    rename_i a b c d e f
    by_cases h1 : (PB.approx a b).isInfinite = true <;>
    by_cases h2 : (PB.approx c d).isInfinite = true <;>
    by_cases h3 : (PB.approx e f).isInfinite = true <;> simp_all
  · intro x y h; cases x <;> cases y <;> simp_all [PB.pyEq, PB.SameKind]
  · intro x y hk hx hy
    rw [← isInfinite_iff_unlimited] at hx hy
    cases x <;> cases y <;> simp_all [PB.pyEq, PB.SameKind, PB.isInfinite]
  · intro x y hx h
    rw [← isInfinite_iff_unlimited] at hx
    cases x <;> cases y <;> simp_all [PB.pyEq]
  · intro x y h
    cases x <;> cases y <;> simp_all [PB.pyEq, PB.hashKey]
    rename_i a b c d
    by_cases h1 : (PB.approx a b).isInfinite = true <;>
    by_cases h2 : (PB.approx c d).isInfinite = true <;> simp_all

theorem pyEq_of_infinite {x y : PB} (hk : PB.SameKind x y) (hx : x.isInfinite = true)
    (hy : y.isInfinite = true) : x.pyEq y = true :=
  (C10_budget_eq Rounding.exact).2.2.2.2.2.1 x y hk ((isInfinite_iff_unlimited x).mp hx)
    ((isInfinite_iff_unlimited y).mp hy)

/-- Non-vacuity of the infinite case: two different infinite approximate budgets. -/
example : (PB.approx ⊤ (0 : ℚ)).isInfinite = true ∧ (PB.approx (1 : ℚ) (1 : ℚ)).isInfinite = true ∧
    (PB.approx ⊤ (0 : ℚ)).pyEq (PB.approx (1 : ℚ) (1 : ℚ)) = true ∧
    PB.approx ⊤ (0 : ℚ) ≠ PB.approx (1 : ℚ) (1 : ℚ) := by decide

end Verif.Budget
