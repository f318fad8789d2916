import Verif.Session.Steps
import Mathlib.Algebra.Order.Monoid.WithTop
import Mathlib.Algebra.Order.Field.Rat
import Mathlib.Algebra.Order.Monoid.Prod
import Mathlib.Algebra.BigOperators.Group.List.Basic
import Mathlib.Algebra.Order.BigOperators.Group.List
import Mathlib.Tactic.Linarith
import Mathlib.Tactic.Ring

/-! # Lemmas about budget requests and spending (auxiliary) -/

namespace Verif.Session

open Verif.Budget

variable {Q M T D V : Type}

/-- A budget as a pair (epsilon or rho, delta). -/
def vec : PB → XNum × XNum
  | .pure ε => (ε, 0)
  | .approx ε δ => (ε, δ)
  | .zcdp ρ => (ρ, 0)

theorem kindMatches_iff (a b : PB) : kindMatches a b = true ↔ PB.SameKind a b := by
  cases a <;> cases b <;> simp [kindMatches, PB.SameKind]

theorem downX_nonneg {r : Rounding} (hr : r.Lawful) {x : XNum} (h : 0 ≤ x) : 0 ≤ downX r x := by
  cases x using WithTop.recTopCoe with
  | top => exact le_top
  | coe q => exact WithTop.coe_nonneg.mpr (hr.down_nonneg q (WithTop.coe_nonneg.mp h))

theorem downX_le {r : Rounding} (hr : r.Lawful) (x : XNum) : downX r x ≤ x := by
  cases x using WithTop.recTopCoe with
  | top => exact le_top
  | coe q => exact WithTop.coe_le_coe.mpr (hr.down_le q)

theorem adjustNumber_cases (req rem : XNum) :
    (adjustNumber req rem = req) ∨ (adjustNumber req rem = rem ∧ WithinTolerance req rem) := by
  by_cases h : WithinTolerance req rem
  · exact Or.inr ⟨(C04_adjust_number req rem).1 h, h⟩
  · exact Or.inl ((C04_adjust_number req rem).2 h)

theorem adjustNumber_nonneg {req rem : XNum} (h1 : 0 ≤ req) (h2 : 0 ≤ rem) :
    0 ≤ adjustNumber req rem := by
  rcases adjustNumber_cases req rem with h | ⟨h, _⟩ <;> rw [h] <;> assumption

/-- The budget that is used for a request of the right kind. -/
theorem processRequested_ok (r : Rounding) (rem b : PB) (h : PB.SameKind rem b) :
    ∃ adj, processRequested r rem b = .ok adj ∧ PB.SameKind rem adj := by
  cases rem <;> cases b <;> simp only [PB.SameKind] at h
  · exact ⟨_, rfl, trivial⟩
  · rename_i a b c d
    by_cases hi : (PB.approx c d).isInfinite = true
    · exact ⟨.approx ⊤ (1 : ℚ), by simp [processRequested, hi], trivial⟩
    · exact ⟨.approx (adjustNumber c (downX r a)) (adjustNumber d (downX r b)),
        by simp [processRequested, hi, adjustBudget], trivial⟩
  · exact ⟨_, rfl, trivial⟩

theorem processRequested_valid {r : Rounding} (hr : r.Lawful) {rem b adj : PB} (h1 : rem.Valid)
    (h2 : b.Valid) (h : processRequested r rem b = .ok adj) : adj.Valid := by
  have one : (0 : XNum) ≤ ((1 : ℚ) : XNum) := WithTop.coe_nonneg.mpr zero_le_one
  cases rem <;> cases b <;> simp only [processRequested, adjustBudget] at h
  all_goals try (cases h; done)
  · cases h; exact adjustNumber_nonneg h2 (downX_nonneg hr h1)
  · split at h
    · cases h; exact ⟨le_top, one, le_refl _⟩
    · exact absurd h (by simp)
  · split at h
    · cases h; exact ⟨le_top, one, le_refl _⟩
    · cases h
      refine ⟨adjustNumber_nonneg h2.1 (downX_nonneg hr h1.1),
        adjustNumber_nonneg h2.2.1 (downX_nonneg hr h1.2.1), ?_⟩
      rcases adjustNumber_cases _ (downX r _) with e | ⟨e, _⟩
      · rw [e]; exact h2.2.2
      · rw [e]; exact le_trans (downX_le hr _) h1.2.2
  · split at h
    · cases h; exact ⟨le_top, one, le_refl _⟩
    · exact absurd h (by simp)
  · cases h; exact adjustNumber_nonneg h2 (downX_nonneg hr h1)

theorem convertBudget_valid {rem b : PB} (h : b.Valid) : (convertBudget rem b).Valid := by
  cases rem <;> cases b <;> first | exact h | skip
  exact ⟨h, le_refl _, WithTop.coe_nonneg.mpr zero_le_one⟩

theorem canSpend_sameKind {rem b : PB} (h : canSpend rem b = true) : PB.SameKind rem b := by
  cases rem <;> cases b <;> simp_all [canSpend, PB.SameKind]

theorem canSpend_infinite {rem b : PB} (h1 : PB.SameKind rem b) (h2 : rem.isInfinite = true) :
    canSpend rem b = true := by
  cases rem <;> cases b <;> simp_all [canSpend, PB.SameKind]

theorem spend_infinite {rem : PB} (b : PB) (h : rem.isInfinite = true) : spend rem b = rem := by
  cases rem <;> cases b <;> simp_all [spend]

/-- Spending from a finite number. -/
theorem subX_facts {a b : XNum} (ha : a ≠ ⊤) (hb : b ≤ a) :
    b ≠ ⊤ ∧ 0 ≤ subX a b ∧ subX a b + b = a ∧ subX a b ≠ ⊤ := by
  cases a using WithTop.recTopCoe with
  | top => exact absurd rfl ha
  | coe p =>
    cases b using WithTop.recTopCoe with
    | top => exact absurd hb (by simp)
    | coe q =>
      have hqp : q ≤ p := WithTop.coe_le_coe.mp hb
      have e : subX (p : XNum) (q : XNum) = ((p - q : ℚ) : XNum) := rfl
      refine ⟨WithTop.coe_ne_top, ?_, ?_, ?_⟩
      · rw [e]; exact WithTop.coe_nonneg.mpr (by linarith)
      · rw [e, ← WithTop.coe_add]; congr 1; ring
      · rw [e]; exact WithTop.coe_ne_top

theorem subX_le {a b : XNum} (hb0 : 0 ≤ b) : subX a b ≤ a := by
  cases a using WithTop.recTopCoe with
  | top => exact le_top
  | coe p =>
    cases b using WithTop.recTopCoe with
    | top => exact le_refl _
    | coe q =>
      have e : subX (p : XNum) (q : XNum) = ((p - q : ℚ) : XNum) := rfl
      rw [e]
      have := WithTop.coe_nonneg.mp hb0
      exact WithTop.coe_le_coe.mpr (by linarith)

/-- Spending from a finite, valid budget. -/
theorem spend_finite {rem b : PB} (hv : rem.Valid) (hb : b.Valid) (hf : rem.isInfinite = false)
    (h : canSpend rem b = true) :
    vec (spend rem b) + vec b = vec rem ∧ (spend rem b).Valid ∧ (spend rem b).isInfinite = false ∧
      b.isInfinite = false ∧ PB.SameKind rem (spend rem b) ∧ PB.Le (spend rem b) rem := by
  cases rem with
  | pure a =>
    cases b with
    | pure c =>
      have ha : a ≠ ⊤ := by simpa [PB.isInfinite] using hf
      have hc : c ≤ a := by simpa [canSpend, hf] using h
      obtain ⟨h1, h2, h3, h4⟩ := subX_facts ha hc
      have e : spend (.pure a) (.pure c) = .pure (subX a c) := by simp [spend, hf]
      rw [e]
      refine ⟨?_, h2, by simpa [PB.isInfinite] using h4, by simpa [PB.isInfinite] using h1, trivial,
        subX_le hb⟩
      simp [vec, h3]
    | approx c d => simp [canSpend] at h
    | zcdp c => simp [canSpend] at h
  | approx a a' =>
    cases b with
    | pure c => simp [canSpend] at h
    | approx c d =>
      have haa : a ≠ ⊤ ∧ a' ≠ ((1 : ℚ) : XNum) := by simpa [PB.isInfinite] using hf
      have hcc : c ≤ a ∧ d ≤ a' := by
        simp only [canSpend] at h
        rw [hf] at h
        simpa using h
      have ha' : a' ≠ ⊤ := by
        intro h; rw [h] at hv; exact absurd hv.2.2 (by simp)
      obtain ⟨h1, h2, h3, h4⟩ := subX_facts haa.1 hcc.1
      obtain ⟨k1, k2, k3, k4⟩ := subX_facts ha' hcc.2
      have e : spend (.approx a a') (.approx c d) = .approx (subX a c) (subX a' d) := by
        simp only [spend]; rw [hf]; rfl
      rw [e]
      have hle : subX a' d ≤ a' := subX_le hb.2.1
      have hlt1 : ∀ {x : XNum}, x ≤ a' → x ≠ ((1 : ℚ) : XNum) := by
        intro x hx h
        rw [h] at hx
        exact haa.2 (le_antisymm hv.2.2 hx)
      refine ⟨?_, ⟨h2, k2, le_trans hle hv.2.2⟩, ?_, ?_, trivial, subX_le hb.1, hle⟩
      · simp [vec, h3, k3]
      · simp [PB.isInfinite, h4]; exact hlt1 hle
      · simp [PB.isInfinite, h1]; exact hlt1 hcc.2
    | zcdp c => simp [canSpend] at h
  | zcdp a =>
    cases b with
    | pure c => simp [canSpend] at h
    | approx c d => simp [canSpend] at h
    | zcdp c =>
      have ha : a ≠ ⊤ := by simpa [PB.isInfinite] using hf
      have hc : c ≤ a := by simpa [canSpend, hf] using h
      obtain ⟨h1, h2, h3, h4⟩ := subX_facts ha hc
      have e : spend (.zcdp a) (.zcdp c) = .zcdp (subX a c) := by simp [spend, hf]
      rw [e]
      refine ⟨?_, h2, by simpa [PB.isInfinite] using h4, by simpa [PB.isInfinite] using h1, trivial,
        subX_le hb⟩
      simp [vec, h3]

/-- The components of a successful `_compile_and_get_info`. -/
theorem compileInfo_ok {env : Env Q M T D V} {w : World M T D} {n : Node M T} {q : Q} {b adj : PB}
    {m : M} (h : compileInfo env w n q b = .ok (m, adj)) :
    PB.SameKind n.remaining (convertBudget n.remaining b) ∧
    isZeroBudget (convertBudget n.remaining b) = false ∧
    processRequested env.rounding n.remaining (convertBudget n.remaining b) = .ok adj ∧
    env.compile n.tables (w.pubOf n) q adj = .ok m := by
  unfold compileInfo at h
  simp only at h
  split at h
  · exact absurd h (by simp)
  · rename_i h1
    split at h
    · exact absurd h (by simp)
    · rename_i h2
      split at h
      · exact absurd h (by simp)
      · rename_i adj' h3
        split at h
        · exact absurd h (by simp)
        · rename_i m' h4
          cases h
          refine ⟨(kindMatches_iff _ _).mp (by simpa using h1), by simpa using h2, h3, h4⟩

end Verif.Session
