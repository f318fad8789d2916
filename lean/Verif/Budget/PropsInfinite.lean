import Verif.Budget.Arith

/-!
# C09: infinite budgets, and subtracting too much
-/

namespace Verif.Budget

/-- Budgets that can be subtracted: of one kind, or a pure one from an approximate one. -/
def PB.Subtracts : PB → PB → Prop
  | .pure _, .pure _ => True
  | .approx _ _, .pure _ => True
  | .approx _ _, .approx _ _ => True
  | .zcdp _, .zcdp _ => True
  | _, _ => False

/-- Adds in the order of approximate budgets. -/
theorem addApprox_infinite (r : Rounding) (a b c d : XNum)
    (h : (PB.approx a b).isInfinite = true ∨ (PB.approx c d).isInfinite = true) :
    ∃ z, addApprox r a b c d = .ok z ∧ z.isInfinite = true := by
  unfold addApprox
  split
  · rename_i h'
    exact ⟨_, rfl, h'⟩
  · rename_i h'
    have h := h.resolve_left h'
    rw [if_pos h]
    exact ⟨_, rfl, h⟩

/-- **C09.** Whatever the rounding, an infinite budget stays the same when another one is subtracted, and a sum with an
infinite budget of the same kind is infinite. -/
theorem C09_infinite (r : Rounding) (x y : PB) :
    (x.Subtracts y → x.isInfinite = true → x.sub r y = .ok x) ∧
    (PB.SameKind x y → x.isInfinite = true ∨ y.isInfinite = true → ∃ z, x.add r y = .ok z ∧ z.isInfinite = true) := by
  constructor
  · intro hs hi
    cases x <;> cases y <;> simp only [PB.Subtracts] at hs
    · simp only [PB.sub]
      rw [if_pos hi]
    · simp only [PB.sub, subApprox]
      rw [if_pos hi]
    · simp only [PB.sub, subApprox]
      rw [if_pos hi]
    · simp only [PB.sub]
      rw [if_pos hi]
  · intro hs hi
    cases x <;> cases y <;> simp only [PB.SameKind] at hs
    · simp only [PB.add]
      split
      · rename_i h
        exact ⟨_, rfl, h⟩
      · rename_i h
        have hi := hi.resolve_left h
        rw [if_pos hi]
        exact ⟨_, rfl, hi⟩
    · exact addApprox_infinite r _ _ _ _ hi
    · simp only [PB.add]
      split
      · rename_i h
        exact ⟨_, rfl, h⟩
      · rename_i h
        have hi := hi.resolve_left h
        rw [if_pos hi]
        exact ⟨_, rfl, hi⟩

/-- `b` exceeds `a` by more than the tolerance. -/
def Exceeds (b a : ℚ) : Prop := a < b ∧ a / 10 ^ 9 < b - a

theorem adjust_exceeds {a b : ℚ} (h : Exceeds b a) : adjustNumber (b : XNum) (a : XNum) = (b : XNum) := by
  refine (C04_adjust_number _ _).2 ?_
  rintro ⟨p, q, hp, hq, _, hle⟩
  have := WithTop.coe_injective hp
  have := WithTop.coe_injective hq
  subst_vars
  exact absurd hle (not_le.mpr h.2)

/-- **C09.** In exact arithmetic, subtracting more than there is, beyond the tolerance, from a finite approximate or zCDP
budget is a `ValueError`, if one of the two numbers is too large. -/
theorem C09_sub_exceeds (a b c d : ℚ) (hb1 : b < 1) :
    (Exceeds c a ∨ Exceeds d b → (PB.approx a b).sub .exact (.approx c d) = .error .valueError) ∧
    (Exceeds c a → (PB.approx a b).sub .exact (.pure c) = .error .valueError) ∧
    (Exceeds c a → (PB.zcdp a).sub .exact (.zcdp c) = .error .valueError) := by
  have hi : (PB.approx (a : XNum) (b : XNum)).isInfinite = false := by
    simp only [PB.isInfinite, WithTop.coe_ne_top, decide_false, WithTop.coe_inj, hb1.ne, Bool.or_self]
  have hA : ∀ d : ℚ, Exceeds c a ∨ Exceeds d b → subApprox .exact (a : XNum) (b : XNum) (c : XNum) (d : XNum) = .error .valueError := by
    intro d h
    simp only [subApprox, hi, Bool.false_eq_true, if_false]
    rcases h with h | h
    · rw [adjust_exceeds h]
      simp only [toPy_exact, pySub_exact]
      have : a - c < 0 := by linarith [h.1]
      have hx : ∀ y, mkApprox (.fin (a - c)) y = .error .valueError := by
        intro y
        unfold mkApprox
        simp [negative, h.1]
      exact hx _
    · rw [adjust_exceeds h]
      simp only [toPy_exact, pySub_exact]
      have : b - d < 0 := by linarith [h.1]
      have hx : ∀ y, mkApprox y (.fin (b - d)) = .error .valueError := by
        intro y
        unfold mkApprox
        have : deltaOutOfRange (.fin (b - d)) = true := by simp [deltaOutOfRange, h.1]
        cases y <;> simp [this]
      exact hx _
  refine ⟨hA d, fun h => ?_, fun h => ?_⟩
  · show subApprox .exact _ _ (pureAsApprox .exact (c : XNum)) ((0 : ℚ) : XNum) = _
    have : pureAsApprox .exact (c : XNum) = (c : XNum) := by simp [pureAsApprox, toPy_exact, toExact]
    rw [this]
    exact hA 0 (.inl h)
  · simp only [PB.sub, isInf_zcdp_coe, Bool.false_eq_true, if_false]
    rw [adjust_exceeds h]
    simp only [toPy_exact, pySub_exact]
    simp [mkZCDP, h.1]

/-- Budgets with infinite and with large numbers. -/
theorem C09_infinite_example :
    (PB.approx ⊤ ((0 : ℚ) : XNum)).Subtracts (.approx ((1 : ℚ) : XNum) ((0 : ℚ) : XNum)) ∧
    (PB.approx ⊤ ((0 : ℚ) : XNum)).isInfinite = true ∧ Exceeds 2 1 ∧ ¬ Exceeds (1 + 1 / 10 ^ 10) 1 := by
  refine ⟨trivial, by decide, ⟨by norm_num, by norm_num⟩, fun h => absurd h.2 (by norm_num)⟩

end Verif.Budget
