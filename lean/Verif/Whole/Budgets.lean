import Verif.Whole.Exact
import Verif.Query.PropsBudget
import Verif.Query.Examples

/-!
# C30: automatic keys in a session

The compiler alone gets budgets with `delta = 1` wrong (`C30_fails`), but a session never compiles with them: it makes
infinite budgets into `ApproxDPBudget(inf, 1)` first.
-/

namespace Verif.Whole

open Verif Verif.Schema Verif.Constraint Verif.Expr Verif.Query Verif.Stability
open Verif.Budget (XNum PB Rounding)

/-- `x` is `y`, or less by no more than the tolerance. -/
def About (x y : XNum) : Prop := x = y ∨ ∃ a b : ℚ, x = a ∧ y = b ∧ a < b ∧ b ≤ a * (1 + 1 / 10 ^ 9)

theorem about_adjust (x y : XNum) : About (Budget.adjustNumber x y) x := by
  by_cases h : Budget.adjustNumber x y = x
  · exact .inl h
  · obtain ⟨e, a, b, rfl, rfl, h1, h2⟩ := (Budget.C04_adjust_number_le x y).2 h
    exact .inr ⟨b, a, e, rfl, h1, h2⟩

theorem About.le {x y : XNum} (h : About x y) : x ≤ y := by
  rcases h with rfl | ⟨a, b, rfl, rfl, h, _⟩
  · exact le_rfl
  · exact WithTop.coe_le_coe.2 h.le

/-- **C30**. A query with automatic keys is answered by `evaluate` only with an approximate budget. If it is infinite, keys
are selected and the aggregation is done without any limit. If it is finite, epsilon is divided equally between the two and
delta is used for the keys only; what is used is all that is charged, which is the requested budget up to the tolerance of
C04. In both cases keys can be selected. -/
theorem C30_session {ctx : Ctx} {w : Session.World Meas Tab PubFrame} {i : Nat} {q : Query} {ok : Admissible (child q)}
    {b : PB} (hv : b.Valid) {cs : List String} (hq : q.autoKeys = some cs) {m : Meas} {amt : PB}
    (h : (Session.step (env ctx) w (.evaluate i (.query q ok) b)).1 = .ok (.answer m amt)) :
    (b.isInfinite = true → m.call.keyBudget = .approx ⊤ (1 : ℚ) ∧ m.call.aggBudget = .approx ⊤ 0) ∧
    (b.isInfinite = false → ∃ ε δ ε' δ', b = .approx ε δ ∧ amt = .approx ε' δ' ∧ About ε' ε ∧ About δ' δ ∧
      ∃ half, m.call.keyBudget = .approx half δ' ∧ m.call.aggBudget = .approx half 0 ∧ half + half = ε' ∧ 0 < half ∧
        half ≠ ⊤ ∧ 0 < δ') := by
  have st := Session.step_cases (env ctx) w (.evaluate i (.query q ok) b)
  rw [h] at st
  generalize (Session.step (env ctx) w (.evaluate i (.query q ok) b)).2 = w' at st
  cases st with
  | evaluate _ _ _ n _ _ ns hn hc ha hp hs =>
  obtain ⟨a, hqa, hk⟩ := autoKeys_agg hq
  constructor
  · intro hinf
    obtain ⟨hun, hm⟩ := unlimited_adj hinf hc
    obtain ⟨cat, p, _, hp, hmk, hma, _⟩ := compileM_plan hm
    obtain ⟨h1, h2, _⟩ := compileQuery_budget hqa hp
    rw [hk] at h1 h2
    obtain ⟨u1, u2⟩ := unlimited_auto hun h1 h2
    rw [hmk, hma]
    exact ⟨u1, u2⟩
  · intro hfin
    obtain ⟨hsk, hz, hadj, hm⟩ := Session.compileInfo_ok hc
    obtain ⟨cat, p, _, hp, hmk, hma, _⟩ := compileM_plan (ok := ok) hm
    obtain ⟨ε', δ', rfl, _, fin⟩ := C30_split_partial _ _ _ _ cs hq hp
    obtain ⟨h1, h2, h3⟩ := compileQuery_budget hqa hp
    have main : ∃ ε δ, Session.convertBudget n.remaining b = .approx ε δ ∧ (PB.approx ε δ).isInfinite = false ∧
        About ε' ε ∧ About δ' δ ∧ δ ≤ ((1 : ℚ) : XNum) ∧ (b = .approx ε δ ∨ δ = (0 : ℚ)) := by
      generalize n.remaining = rem at hadj hsk ⊢
      cases rem <;> cases b <;> simp only [Session.convertBudget, Session.processRequested, Budget.adjustBudget] at hadj hsk ⊢ <;>
        try (cases hadj; done)
      · cases hsk
      · next x y ε =>
        have hne : ε ≠ ⊤ := by simpa [PB.isInfinite] using hfin
        have hx : (PB.approx ε ((0 : ℚ) : XNum)).isInfinite = false := by
          simp [PB.isInfinite, hne]
        rw [hx] at hadj
        simp only [Bool.false_eq_true, if_false, Except.ok.injEq, PB.approx.injEq] at hadj
        obtain ⟨rfl, rfl⟩ := hadj
        exact ⟨_, _, rfl, hx, about_adjust _ _, about_adjust _ _, by exact_mod_cast zero_le_one, .inr rfl⟩
      · next x y ε δ =>
        rw [hfin] at hadj
        simp only [Bool.false_eq_true, if_false, Except.ok.injEq, PB.approx.injEq] at hadj
        obtain ⟨rfl, rfl⟩ := hadj
        exact ⟨_, _, rfl, hfin, about_adjust _ _, about_adjust _ _, hv.2.2, .inl rfl⟩
      · cases hsk
    obtain ⟨ε, δ, _, hf, a1, a2, hd, hb⟩ := main
    have hf' : ε ≠ ⊤ ∧ δ ≠ ((1 : ℚ) : XNum) := by simpa [PB.isInfinite] using hf
    have e1 : ε' ≠ ⊤ := ne_top_of_le_ne_top hf'.1 a1.le
    have e2 : δ' ≠ 1 := by
      intro he
      rw [he] at a2
      exact hf'.2 (le_antisymm hd a2.le)
    obtain ⟨k1, k2, k3, k4, k5, k6, k7, k8⟩ := fin e1 e2
    unfold Plan.keysOK at k1
    rw [h3, hk] at k1
    cases hkb : p.keyBudget with
    | pure x => rw [hkb] at k1; cases k1
    | zcdp x => rw [hkb] at k1; cases k1
    | approx x y =>
    rw [hk] at h2
    rw [hkb] at k1 k3 k4 k7
    simp only [Bool.and_eq_true, decide_eq_true_eq] at k1
    cases hab : p.aggBudget with
    | pure z =>
      unfold keyAndQueryBudget splitBudget at h2
      rw [k2, hab] at h2
      simp only at h2
      split at h2 <;> simp at h2
    | zcdp z =>
      unfold keyAndQueryBudget splitBudget at h2
      rw [k2, hab] at h2
      simp only at h2
      split at h2 <;> simp at h2
    | approx z y' =>
    rw [hab] at k3 k4 k5 k6 k8
    simp only [first, second] at k3 k4 k5 k6 k7 k8
    subst k4 k7 k8
    have hbb : b = .approx ε δ := by
      rcases hb with hb | rfl
      · exact hb
      · exact absurd (lt_of_lt_of_le k1.2 a2.le) (lt_irrefl _)
    exact ⟨ε, δ, ε', _, hbb, rfl, a1, a2, _, by rw [hmk, hkb], by rw [hma, hab], k3, k5, k6, k1.2⟩

end Verif.Whole
