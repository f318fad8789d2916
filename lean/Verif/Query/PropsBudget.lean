import Verif.Query.Steps
import Mathlib.Tactic.Linarith
import Mathlib.Tactic.Ring

/-!
# C30, C31: the budgets of a compiled query
-/

namespace Verif.Query

open Verif Verif.Schema Verif.Expr Verif.Constraint Verif.Budget

/-! ## Specification -/

/-- The columns whose values are to be selected automatically. -/
def Query.autoKeys (q : Query) : Option (List String) :=
  match q.agg?.map Agg.keys with
  | some (.cols cs) => some cs
  | _ => none

/-- The first parameter of a budget: epsilon or rho. -/
def first : PB → XNum
  | .pure ε => ε
  | .approx ε _ => ε
  | .zcdp ρ => ρ

/-- Delta. -/
def second : PB → XNum
  | .approx _ δ => δ
  | _ => 0

/-- Budgets of the same kind. -/
def sameKind : PB → PB → Prop
  | .pure _, .pure _ => True
  | .approx _ _, .approx _ _ => True
  | .zcdp _, .zcdp _ => True
  | _, _ => False

/-! ## Lemmas -/

theorem half_add (ε : XNum) : ε.map (fun q => q * (1 / 2)) + ε.map (fun q => q * (1 / 2)) = ε := by
  cases ε using WithTop.recTopCoe with
  | top => rfl
  | coe q =>
    rw [WithTop.map_coe, ← WithTop.coe_add]
    congr 1
    ring

theorem half_pos {ε : XNum} (h : 0 < ε) : 0 < ε.map (fun q => q * (1 / 2)) := by
  cases ε using WithTop.recTopCoe with
  | top => exact h
  | coe q =>
    have : 0 < q := by exact_mod_cast h
    rw [WithTop.map_coe]
    have h2 : 0 < q * (1 / 2) := by linarith
    exact_mod_cast h2

theorem half_ne_top {ε : XNum} (h : ε ≠ ⊤) : ε.map (fun q => q * (1 / 2)) ≠ ⊤ := by
  cases ε using WithTop.recTopCoe with
  | top => exact absurd rfl h
  | coe q => exact WithTop.coe_ne_top

theorem isInfinite_approx {ε δ : XNum} : (PB.approx ε δ).isInfinite = true ↔ ε = ⊤ ∨ δ = 1 := by
  simp [PB.isInfinite]

theorem compileQuery_budget {env : Env} {b : PB} {q : Query} {p : Plan} {a : Agg} (hq : q.agg? = some a)
    (h : compileQuery env b q = .ok p) :
    adjustForQuery a.keys a.kind.mech b = .ok p.total ∧
      keyAndQueryBudget a.keys b p.total = .ok (p.keyBudget, p.aggBudget) ∧ p.keys = a.keys := by
  obtain ⟨a₁, a₂, p₁, _, hr, hf, hc, hp⟩ := compileQuery_ok hq h
  obtain ⟨_, _, _, _, _, hk, hkind, _⟩ := rewriteAgg_ok hr
  obtain ⟨fk, fm, _, _⟩ := hf.keys
  have e1 := hc.adjusted
  have e2 := hc.budgets
  have e3 := hc.keys
  rw [fk, fm, hk, hkind] at e1
  rw [fk, hk] at e2 e3
  rcases hp with ⟨_, rfl⟩ | ⟨_, _, _, _, _, rfl⟩
  · exact ⟨e1, e2, e3⟩
  · exact ⟨e1, e2, e3⟩

theorem autoKeys_agg {q : Query} {cs : List String} (h : q.autoKeys = some cs) :
    ∃ a, q.agg? = some a ∧ a.keys = .cols cs := by
  unfold Query.autoKeys at h
  cases ha : q.agg? with
  | none => simp [ha] at h
  | some a =>
    cases hk : a.keys with
    | set k => simp [ha, hk] at h
    | cols cs' =>
      simp only [ha, Option.map_some, hk, Option.some.injEq] at h
      exact ⟨a, rfl, by rw [hk, h]⟩

theorem compileQuery_groups {env : Env} {b : PB} {e : Expr} {cols : List String} {p : Plan}
    (h : compileQuery env b (.groups e cols) = .ok p) :
    ∃ ε δ, b = .approx ε δ ∧ p.total = .approx ε δ ∧ p.keyBudget = .approx ε δ ∧ p.aggBudget = .approx 0 0 := by
  unfold compileQuery at h
  split at h
  · cases h
  · simp only [rewrite, visit] at h
    unfold visitGroups at h
    split at h
    · next ε δ =>
      refine ⟨ε, δ, rfl, ?_⟩
      split at h
      · cases h
      · dsimp only at h
        generalize (if cols ≠ [] then cols else _) = columns at h
        split at h
        · cases h
        · split at h
          · cases h
          · split at h
            · cases h
            · split at h
              · cases h
              · cases h
                exact ⟨rfl, rfl, rfl⟩
    · cases h

/-! ## C30 -/

/-- **C30**, except for finite budgets with delta = 1. With automatic keys the budget is an approximate one and is
split into halves of epsilon; the key selection gets all of delta and the aggregation none. An infinite budget is
split into infinite ones. The full claim has no condition on delta; see `C30_fails`. -/
theorem C30_split_partial (env : Env) (b : PB) (q : Query) (p : Plan) (cs : List String)
    (hq : q.autoKeys = some cs) (h : compileQuery env b q = .ok p) :
    ∃ ε δ, b = .approx ε δ ∧
      (ε = ⊤ → p.keyBudget.isInfinite = true ∧ p.aggBudget.isInfinite = true ∧ second p.aggBudget = 0) ∧
      (ε ≠ ⊤ → δ ≠ 1 → p.keysOK = true ∧ p.total = b ∧
        first p.keyBudget + first p.aggBudget = ε ∧ first p.keyBudget = first p.aggBudget ∧
        0 < first p.aggBudget ∧ first p.aggBudget ≠ ⊤ ∧
        second p.keyBudget = δ ∧ second p.aggBudget = 0) := by
  obtain ⟨a, ha, hk⟩ := autoKeys_agg hq
  obtain ⟨h1, h2, h3⟩ := compileQuery_budget ha h
  rw [hk] at h1 h2 h3
  unfold keyAndQueryBudget at h2
  cases b with
  | pure ε =>
    simp only [adjustForQuery, Except.ok.injEq] at h1
    rw [← h1] at h2
    cases h2
  | zcdp ε =>
    simp only [adjustForQuery, Except.ok.injEq] at h1
    rw [← h1] at h2
    cases h2
  | approx ε δ =>
    refine ⟨ε, δ, rfl, ?_, ?_⟩
    · rintro rfl
      have hinf : (PB.approx ⊤ δ).isInfinite = true := isInfinite_approx.2 (Or.inl rfl)
      simp only [adjustForQuery, hinf, Bool.true_eq_false, and_false, if_false] at h1
      split at h1
      · cases h1
      · have hinf' : (PB.approx ⊤ 0).isInfinite = true := isInfinite_approx.2 (Or.inl rfl)
        rw [← Except.ok.inj h1] at h2
        simp only [splitBudget, hinf', if_true, Except.ok.injEq, Prod.mk.injEq] at h2
        rw [← h2.1, ← h2.2]
        exact ⟨isInfinite_approx.2 (Or.inl rfl), isInfinite_approx.2 (Or.inl rfl), rfl⟩
    · intro hε hδ
      have hfin : (PB.approx ε δ).isInfinite = false := by
        rw [← Bool.not_eq_true, isInfinite_approx]
        rintro (h | h)
        · exact hε h
        · exact hδ h
      simp only [adjustForQuery, Keys.isAuto, hfin, and_self, if_true] at h1
      split at h1
      · cases h1
      · split at h1
        · cases h1
        · next hε0 =>
          split at h1
          · cases h1
          · next hδ0 =>
            rw [← Except.ok.inj h1] at h2
            simp only [splitBudget, hfin, Bool.false_eq_true, if_false, Except.ok.injEq, Prod.mk.injEq] at h2
            have hp : 0 < ε := not_le.1 hε0
            have hd : 0 < δ := not_le.1 hδ0
            refine ⟨?_, (Except.ok.inj h1).symm, ?_⟩
            · unfold Plan.keysOK
              rw [h3, ← h2.1]
              simp only [Bool.and_eq_true, decide_eq_true_eq]
              exact ⟨half_pos hp, hd⟩
            · rw [← h2.1, ← h2.2]
              exact ⟨half_add ε, rfl, half_pos hp, half_ne_top hε, rfl, rfl⟩

/-! ## C31 -/

/-- **C31** (KeySets). With a KeySet, an approximate budget is used without its delta; nothing is spent on keys. -/
theorem C31_no_delta (env : Env) (ε δ : XNum) (q : Query) (p : Plan) (a : Agg) (k : KeySetV)
    (hq : q.agg? = some a) (hk : a.keys = .set k) (h : compileQuery env (.approx ε δ) q = .ok p) :
    p.total = .approx ε 0 ∧ p.keyBudget = .approx 0 0 ∧ p.aggBudget = .approx ε 0 ∧ p.keysOK = true := by
  obtain ⟨h1, h2, h3⟩ := compileQuery_budget hq h
  rw [hk] at h1 h2 h3
  have ht : p.total = .approx ε 0 := by
    simp only [adjustForQuery, Keys.isAuto, Bool.false_eq_true, false_and, if_false] at h1
    split at h1
    · cases h1
    · exact (Except.ok.inj h1).symm
  simp only [keyAndQueryBudget, zeroBudget, Except.ok.injEq, Prod.mk.injEq] at h2
  refine ⟨ht, h2.1.symm, by rw [← h2.2, ht], ?_⟩
  unfold Plan.keysOK
  rw [h3, ← h2.1]
  simp

/-- **C31** (other budgets). With a KeySet, pure and concentrated budgets go to the aggregation entirely. -/
theorem C31_all_used (env : Env) (b : PB) (q : Query) (p : Plan) (a : Agg) (k : KeySetV)
    (hq : q.agg? = some a) (hk : a.keys = .set k) (hb : ∀ ε δ, b ≠ .approx ε δ)
    (h : compileQuery env b q = .ok p) :
    p.total = b ∧ first p.keyBudget = 0 ∧ p.aggBudget = b ∧ p.keysOK = true := by
  obtain ⟨h1, h2, h3⟩ := compileQuery_budget hq h
  rw [hk] at h1 h2 h3
  cases b with
  | approx ε δ => exact absurd rfl (hb ε δ)
  | pure ε =>
    simp only [adjustForQuery, Except.ok.injEq] at h1
    simp only [keyAndQueryBudget, zeroBudget, Except.ok.injEq, Prod.mk.injEq] at h2
    refine ⟨h1.symm, by rw [← h2.1]; rfl, by rw [← h2.2, h1], ?_⟩
    unfold Plan.keysOK
    rw [h3, ← h2.1]
    simp
  | zcdp ε =>
    simp only [adjustForQuery, Except.ok.injEq] at h1
    simp only [keyAndQueryBudget, zeroBudget, Except.ok.injEq, Prod.mk.injEq] at h2
    refine ⟨h1.symm, by rw [← h2.1]; rfl, by rw [← h2.2, h1], ?_⟩
    unfold Plan.keysOK
    rw [h3, ← h2.1]
    simp

/-- **C31** (bound). No compiled query has a larger budget than requested, and (unless epsilon is infinite) the parts
given to key selection and aggregation do not add up to more either. -/
theorem C31_within (env : Env) (b : PB) (hb : b.Valid) (q : Query) (p : Plan) (h : compileQuery env b q = .ok p) :
    sameKind p.total b ∧ first p.total ≤ first b ∧ second p.total ≤ second b ∧
      first p.keyBudget + first p.aggBudget ≤ first b ∧
      (first b ≠ ⊤ → second p.keyBudget + second p.aggBudget ≤ second b) := by
  cases hq : q.agg? with
  | none =>
    cases q with
    | agg a => cases hq
    | suppress a c t => cases hq
    | groups e cols =>
      obtain ⟨ε, δ, rfl, e1, e2, e3⟩ := compileQuery_groups h
      rw [e1, e2, e3]
      refine ⟨trivial, le_refl _, le_refl _, ?_, fun _ => ?_⟩
      · show ε + 0 ≤ ε
        rw [add_zero]
      · show δ + 0 ≤ δ
        rw [add_zero]
  | some a =>
    obtain ⟨h1, h2, h3⟩ := compileQuery_budget hq h
    cases hk : a.keys with
    | set k =>
      cases b with
      | approx ε δ =>
        obtain ⟨e1, e2, e3, _⟩ := C31_no_delta env ε δ q p a k hq hk h
        rw [e1, e2, e3]
        have hd : (0 : XNum) ≤ δ := hb.2.1
        exact ⟨trivial, le_refl _, hd, by simp [first], fun _ => by simpa [second] using hd⟩
      | pure ε =>
        obtain ⟨e1, e2, e3, _⟩ := C31_all_used env _ q p a k hq hk (by simp) h
        rw [hk] at h2
        simp only [keyAndQueryBudget, zeroBudget, Except.ok.injEq, Prod.mk.injEq] at h2
        rw [e1, e3, ← h2.1]
        exact ⟨trivial, le_refl _, le_refl _, by simp [first], fun _ => by simp [second]⟩
      | zcdp ε =>
        obtain ⟨e1, e2, e3, _⟩ := C31_all_used env _ q p a k hq hk (by simp) h
        rw [hk] at h2
        simp only [keyAndQueryBudget, zeroBudget, Except.ok.injEq, Prod.mk.injEq] at h2
        rw [e1, e3, ← h2.1]
        exact ⟨trivial, le_refl _, le_refl _, by simp [first], fun _ => by simp [second]⟩
    | cols cs =>
      rw [hk] at h1 h2
      cases b with
      | pure ε =>
        simp only [adjustForQuery, Except.ok.injEq] at h1
        rw [← h1] at h2
        cases h2
      | zcdp ε =>
        simp only [adjustForQuery, Except.ok.injEq] at h1
        rw [← h1] at h2
        cases h2
      | approx ε δ =>
        have hd : (0 : XNum) ≤ δ := hb.2.1
        have total : (p.total = .approx ε δ ∧ (PB.approx ε δ).isInfinite = false) ∨ p.total = .approx ε 0 := by
          simp only [adjustForQuery] at h1
          split at h1
          · cases h1
          · split at h1
            · next hc =>
              split at h1
              · cases h1
              · split at h1
                · cases h1
                · exact Or.inl ⟨(Except.ok.inj h1).symm, hc.2⟩
            · exact Or.inr (Except.ok.inj h1).symm
        have main : ∀ δ', p.total = .approx ε δ' → δ' ≤ δ → ((PB.approx ε δ').isInfinite = true → ε = ⊤) →
            sameKind p.total (.approx ε δ) ∧
            first p.total ≤ ε ∧ second p.total ≤ δ ∧ first p.keyBudget + first p.aggBudget ≤ ε ∧
            (ε ≠ ⊤ → second p.keyBudget + second p.aggBudget ≤ δ) := by
          intro δ' ht hle himp
          rw [ht] at h2 ⊢
          refine ⟨trivial, le_refl _, hle, ?_⟩
          simp only [keyAndQueryBudget, splitBudget] at h2
          split at h2
          · next hinf =>
            simp only [Except.ok.injEq, Prod.mk.injEq] at h2
            rw [← h2.1, ← h2.2]
            have := himp hinf
            subst this
            exact ⟨le_refl _, fun h => absurd rfl h⟩
          · simp only [Except.ok.injEq, Prod.mk.injEq] at h2
            rw [← h2.1, ← h2.2]
            refine ⟨(half_add ε).le, fun _ => ?_⟩
            show δ' + 0 ≤ δ
            rw [add_zero]
            exact hle
        rcases total with ⟨ht, hf⟩ | ht
        · exact main δ ht (le_refl _) (fun h => by rw [hf] at h; cases h)
        · refine main 0 ht hd (fun h => ?_)
          rcases isInfinite_approx.1 h with h | h
          · exact h
          · exact absurd h (by decide)

end Verif.Query
