import Verif.Session.NoiseInfo
import Verif.Query.OtherBudget

/-!
# Requests with other budgets (C87)
-/

namespace Verif.Session

open Verif.Budget (XNum PB Rounding WithinTolerance adjustNumber adjustBudget)
open Verif.Query (Alike Selects)

variable {Q M T D V N : Type}

/-! ## Specification -/

/-- Both amounts are zero or none is. -/
def ZeroAlike (x y : XNum) : Prop := x = 0 ↔ y = 0

/-- Budgets of one kind that are zero in the same components, and both infinite or both finite. -/
def Comparable : PB → PB → Prop
  | .pure ε, .pure ε' => ZeroAlike ε ε' ∧ ((PB.pure ε).isInfinite = (PB.pure ε').isInfinite)
  | .approx ε δ, .approx ε' δ' =>
    ZeroAlike ε ε' ∧ ZeroAlike δ δ' ∧ (PB.approx ε δ).isInfinite = (PB.approx ε' δ').isInfinite
  | .zcdp ρ, .zcdp ρ' => ZeroAlike ρ ρ' ∧ ((PB.zcdp ρ).isInfinite = (PB.zcdp ρ').isInfinite)
  | _, _ => False

/-! ## Proofs -/

theorem tolerance_pos {x y : XNum} (h : WithinTolerance x y) : 0 < y ∧ y < x ∧ x ≠ ⊤ := by
  obtain ⟨a, b, rfl, rfl, h1, h2⟩ := h
  refine ⟨?_, WithTop.coe_lt_coe.2 h1, WithTop.coe_ne_top⟩
  have : (0 : ℚ) < b := by
    by_contra hb
    have : b / 10 ^ 9 ≤ 0 := div_nonpos_of_nonpos_of_nonneg (not_lt.1 hb) (by norm_num)
    linarith
  exact WithTop.coe_lt_coe.2 this

theorem adjustNumber_pos (x y : XNum) : 0 < adjustNumber x y ↔ 0 < x := by
  rcases adjustNumber_cases x y with h | ⟨h, ht⟩
  · rw [h]
  · rw [h]
    obtain ⟨h1, h2, _⟩ := tolerance_pos ht
    exact ⟨fun _ => h1.trans h2, fun _ => h1⟩

theorem adjustNumber_top (x y : XNum) : adjustNumber x y = ⊤ ↔ x = ⊤ := by
  rcases adjustNumber_cases x y with h | ⟨h, ht⟩
  · rw [h]
  · rw [h]
    obtain ⟨h1, h2, h3⟩ := tolerance_pos ht
    exact ⟨fun e => absurd h2 (by rw [e]; exact not_top_lt), fun e => absurd e h3⟩

theorem adjustNumber_one {x y : XNum} (hx : x ≤ ((1 : ℚ) : XNum)) (h : x ≠ ((1 : ℚ) : XNum)) :
    adjustNumber x y ≠ ((1 : ℚ) : XNum) := by
  rcases adjustNumber_cases x y with e | ⟨e, ht⟩
  · rwa [e]
  · rw [e]
    exact ((tolerance_pos ht).2.1.trans_le hx).ne

/-- A request is turned into one that allows the selection of keys if it does itself. -/
theorem processRequested_selects {r : Rounding} {rem b adj : PB} (hv : b.Valid) (h : processRequested r rem b = .ok adj) :
    Selects adj ↔ Selects b := by
  cases b with
  | pure ε =>
    cases rem <;> simp only [processRequested, adjustBudget] at h <;> cases h
    exact Iff.rfl
  | zcdp ρ =>
    cases rem <;> simp only [processRequested, adjustBudget] at h <;> cases h
    exact Iff.rfl
  | approx ε δ =>
    by_cases hi : (PB.approx ε δ).isInfinite = true
    · have : adj = .approx ⊤ (1 : ℚ) := by
        cases rem <;> simp only [processRequested, hi, if_true] at h <;> cases h <;> rfl
      subst this
      exact ⟨fun _ => .inl hi, fun _ => .inl rfl⟩
    · cases rem with
      | pure _ => simp only [processRequested, hi] at h; cases h
      | zcdp _ => simp only [processRequested, hi] at h; cases h
      | approx x y =>
        simp only [processRequested, hi, adjustBudget] at h
        cases h
        have hn : ¬ (PB.approx (adjustNumber ε (downX r x)) (adjustNumber δ (downX r y))).isInfinite = true := by
          simp only [PB.isInfinite, Bool.or_eq_true, decide_eq_true_eq, adjustNumber_top, not_or] at hi ⊢
          exact ⟨hi.1, adjustNumber_one hv.2.2 hi.2⟩
        simp only [Selects, hn, hi, adjustNumber_pos]

/-- Of the kind of the session, a request is accepted as a number; whether it can be paid is another question. -/
theorem processRequested_defined {r : Rounding} {rem b : PB} (h : kindMatches rem b = true) :
    ∃ adj, processRequested r rem b = .ok adj ∧ kindMatches b adj = true := by
  cases rem <;> cases b <;> simp only [kindMatches] at h <;> first | cases h | skip
  · exact ⟨_, rfl, rfl⟩
  · rename_i x y ε δ
    by_cases hi : (PB.approx ε δ).isInfinite = true
    · exact ⟨.approx ⊤ (1 : ℚ), by simp only [processRequested, hi, if_true], rfl⟩
    · exact ⟨_, by simp only [processRequested, hi, adjustBudget]; rfl, rfl⟩
  · exact ⟨_, rfl, rfl⟩

theorem comparable_convert {b b' : PB} (h : Comparable b b') (rem : PB) :
    Comparable (convertBudget rem b) (convertBudget rem b') := by
  cases b <;> cases b' <;> first | exact h.elim | skip
  · cases rem with
    | approx x y =>
      refine ⟨h.1, Iff.rfl, ?_⟩
      have := h.2
      simp only [PB.isInfinite] at this ⊢
      rw [this]
    | _ => exact h
  · cases rem <;> exact h
  · cases rem <;> exact h

theorem isZero_pure (x : XNum) : isZeroBudget (.pure x) = decide (x = 0) := by simp [isZeroBudget, PB.pyEq]

theorem isZero_zcdp (x : XNum) : isZeroBudget (.zcdp x) = decide (x = 0) := by simp [isZeroBudget, PB.pyEq]

theorem isZero_approx (x y : XNum) : isZeroBudget (.approx x y) = (decide (x = 0) && decide (y = 0)) := by
  have : (PB.approx 0 0).isInfinite = false := rfl
  simp [isZeroBudget, PB.pyEq, this]

theorem comparable_zero {b b' : PB} (h : Comparable b b') : isZeroBudget b = isZeroBudget b' := by
  cases b <;> cases b' <;> first | exact h.elim | skip
  · rw [isZero_pure, isZero_pure]; exact decide_eq_decide.2 h.1
  · rw [isZero_approx, isZero_approx, decide_eq_decide.2 h.1, decide_eq_decide.2 h.2.1]
  · rw [isZero_zcdp, isZero_zcdp]; exact decide_eq_decide.2 h.1

theorem comparable_kind {b b' : PB} (h : Comparable b b') (rem : PB) : kindMatches rem b = kindMatches rem b' := by
  cases b <;> cases b' <;> first | exact h.elim | (cases rem <;> rfl)

theorem comparable_selects {b b' : PB} (h : Comparable b b') (hb : b.Valid) (hb' : b'.Valid) : Selects b ↔ Selects b' := by
  cases b <;> cases b' <;> first | exact h.elim | exact Iff.rfl | skip
  obtain ⟨h1, h2, h3⟩ := h
  have pos : ∀ {x y : XNum}, 0 ≤ x → 0 ≤ y → ZeroAlike x y → (0 < x ↔ 0 < y) := fun hx hy hz => by
    rw [hx.lt_iff_ne, hy.lt_iff_ne, ne_comm, @ne_comm _ 0]
    exact not_congr hz
  simp only [Selects, h3, pos hb.1 hb'.1 h1, pos hb.2.1 hb'.2.1 h2]

/-- Comparable requests are turned into alike ones. -/
theorem processRequested_alike {r : Rounding} {rem b b' : PB} (h : Comparable b b') (hb : b.Valid) (hb' : b'.Valid)
    (hk : kindMatches rem b = true) : ∃ adj adj', processRequested r rem b = .ok adj ∧
      processRequested r rem b' = .ok adj' ∧ Alike adj adj' := by
  obtain ⟨adj, h1, k1⟩ := processRequested_defined (r := r) hk
  obtain ⟨adj', h2, k2⟩ := processRequested_defined (r := r) ((comparable_kind h rem).symm.trans hk)
  refine ⟨adj, adj', h1, h2, ?_, ?_⟩
  · cases b <;> cases b' <;> first | exact h.elim | skip
    all_goals cases adj <;> first | (cases k1; done) | skip
    all_goals cases adj' <;> first | (cases k2; done) | exact True.intro
  · rw [processRequested_selects hb h1, processRequested_selects hb' h2]
    exact comparable_selects h hb hb'

/-- If a compiler treats alike budgets alike, a session does so with comparable ones. -/
theorem compileInfo_alike {env : Env Q M T D V} {q : Q} {note : M → N}
    (hc : ∀ tables pub b b', Alike b b' →
      (env.compile tables pub q b).map note = (env.compile tables pub q b').map note)
    (w : World M T D) (n : Node M T) {b b' : PB} (h : Comparable b b') (hb : b.Valid) (hb' : b'.Valid) :
    (compileInfo env w n q b).map (fun p => note p.1) = (compileInfo env w n q b').map (fun p => note p.1) := by
  have h1 := comparable_convert h n.remaining
  have v1 := convertBudget_valid (rem := n.remaining) hb
  have v2 := convertBudget_valid (rem := n.remaining) hb'
  unfold compileInfo
  dsimp only
  rw [← comparable_kind h1, ← comparable_zero h1]
  split
  · rfl
  next hk =>
  split
  · rfl
  obtain ⟨adj, adj', e1, e2, ha⟩ := processRequested_alike (r := env.rounding) h1 v1 v2 (by simpa using hk)
  rw [e1, e2]
  dsimp only
  have := hc n.tables (w.pubOf n) adj adj' ha
  revert this
  cases env.compile n.tables (w.pubOf n) q adj <;> cases env.compile n.tables (w.pubOf n) q adj' <;> intro this <;>
    simp_all [Except.map]

theorem noiseInfo_alike {env : Env Q M T D V} {q : Q} {note : M → N}
    (hc : ∀ tables pub b b', Alike b b' →
      (env.compile tables pub q b).map note = (env.compile tables pub q b').map note)
    (w : World M T D) (i : Nat) {b b' : PB} (h : Comparable b b') (hb : b.Valid) (hb' : b'.Valid) :
    noiseInfo env note w i q b = noiseInfo env note w i q b' := by
  unfold noiseInfo
  cases w.nodes[i]? with
  | none => rfl
  | some n =>
    dsimp only
    have := compileInfo_alike hc w n h hb hb'
    revert this
    cases compileInfo env w n q b <;> cases compileInfo env w n q b' <;> intro this <;> simp_all [Except.map]

/-! ### Smaller requests -/

theorem adjustNumber_le {x y d rem : XNum} (hxy : x ≤ y) (hd : d ≤ rem) (h : adjustNumber y d ≤ rem) :
    adjustNumber x d ≤ rem := by
  rcases adjustNumber_cases x d with e | ⟨e, _⟩
  · rcases adjustNumber_cases y d with e' | ⟨e', a, b, rfl, rfl, h1, h2⟩
    · rw [e]
      rw [e'] at h
      exact hxy.trans h
    · by_cases hx : x ≤ (b : XNum)
      · rw [e]
        exact hx.trans hd
      · cases x using WithTop.recTopCoe with
        | top => exact absurd hxy (by simp)
        | coe c =>
          have hc : b < c := WithTop.coe_lt_coe.1 (not_le.1 hx)
          have hca : c ≤ a := WithTop.coe_le_coe.1 hxy
          rw [(Verif.Budget.C04_adjust_number (c : XNum) (b : XNum)).1 ⟨c, b, rfl, rfl, hc, by linarith⟩]
          exact hd
  · rw [e]
    exact hd

/-- What can be paid can be paid when it is less. -/
theorem canSpend_less {r : Rounding} (hl : r.Lawful) {rem b b' adj adj' : PB} (hc : Comparable b b') (hle : PB.Le b' b)
    (h : processRequested r rem b = .ok adj) (h' : processRequested r rem b' = .ok adj') (hs : canSpend rem adj = true) :
    canSpend rem adj' = true := by
  have hd : ∀ x : XNum, downX r x ≤ x := fun x => by
    cases x using WithTop.recTopCoe with
    | top => exact le_top
    | coe q => exact WithTop.coe_le_coe.2 (hl.down_le q)
  cases b <;> cases b' <;> first | exact hc.elim | skip
  · cases rem <;> simp only [processRequested, adjustBudget] at h h' <;> cases h <;> cases h'
    simp only [canSpend, Bool.or_eq_true, decide_eq_true_eq] at hs ⊢
    exact hs.imp id (fun hs => adjustNumber_le hle (hd _) hs)
  · rename_i ε δ ε' δ'
    have hinf := hc.2.2
    by_cases hi : (PB.approx ε δ).isInfinite = true
    · have hi' := hinf.symm.trans hi
      have e1 : adj = .approx ⊤ (1 : ℚ) := by
        cases rem <;> simp only [processRequested, hi, if_true] at h <;> cases h <;> rfl
      have e2 : adj' = .approx ⊤ (1 : ℚ) := by
        cases rem <;> simp only [processRequested, hi', if_true] at h' <;> cases h' <;> rfl
      rw [e2, ← e1]
      exact hs
    · have hi' : ¬ (PB.approx ε' δ').isInfinite = true := fun e => hi (hinf.trans e)
      cases rem with
      | pure _ => simp only [processRequested, hi] at h; cases h
      | zcdp _ => simp only [processRequested, hi] at h; cases h
      | approx x y =>
        simp only [processRequested, hi, hi', adjustBudget] at h h'
        cases h
        cases h'
        simp only [canSpend, Bool.or_eq_true, Bool.and_eq_true, decide_eq_true_eq] at hs ⊢
        exact hs.imp id (fun hs => ⟨adjustNumber_le hle.1 (hd _) hs.1, adjustNumber_le hle.2 (hd _) hs.2⟩)
  · cases rem <;> simp only [processRequested, adjustBudget] at h h' <;> cases h <;> cases h'
    simp only [canSpend, Bool.or_eq_true, decide_eq_true_eq] at hs ⊢
    exact hs.imp id (fun hs => adjustNumber_le hle (hd _) hs)

end Verif.Session
