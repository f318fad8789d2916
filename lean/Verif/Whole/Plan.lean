import Verif.Whole.Views
import Verif.Composition.Props
import Mathlib.Probability.ProbabilityMassFunction.Constructions

/-!
# What core is asked for
-/

namespace Verif.Whole

open Verif Verif.Schema Verif.Constraint Verif.Expr Verif.Query Verif.Stability
open Verif.Budget (XNum PB Rounding)
open Verif.Composition
open scoped NNReal

structure PlanFacts (env : Query.Env) (b : PB) (q : Query) (p : Plan) : Prop where
  total : p.total = b ∨ ∃ ε δ, b = .approx ε δ ∧ p.total = .approx ε 0
  l2 : p.useL2 = true → env.m = .zCDP
  gauss : ∀ k, p.mech = some k → (p.useL2 = true ↔ k.Gaussian)
  keys : p.useL2 = true → p.keys.columns = groupCols q
  agg : p.useL2 = true → q.agg?.isSome
  auto : p.keys.isAuto = true → measureOf b = .approxDP
  parts : b.isInfinite = false → first p.keyBudget + first p.aggBudget ≤ first p.total ∧
    second p.keyBudget + second p.aggBudget ≤ second p.total
  unwrap : unwraps p.task = true → measureOf b = env.m → env.m = .zCDP → p.useL2 = true

theorem zero_parts (b t : PB) : first (zeroBudget b) + first t ≤ first t ∧ second (zeroBudget b) + second t ≤ second t := by
  cases b <;> exact ⟨(zero_add _).le, (zero_add _).le⟩

theorem plan_facts {env : Query.Env} {b : PB} {q : Query} {p : Plan} (hc : env.cat.OK) (ha : (child q).WF)
    (h : compileQuery env b q = .ok p) : PlanFacts env b q p := by
  have main : ∀ a, q.agg? = some a → child q = a.child → groupCols q = a.keys.columns → PlanFacts env b q p := by
    intro a hq hch hgc
    obtain ⟨a₁, a₂, p₁, _, hrw, hfin, hcomp, hp⟩ := compileQuery_ok hq h
    obtain ⟨a₀, c₀, h1, h2, rfl, hkeys, hkind, _⟩ := rewriteAgg_ok hrw
    obtain ⟨fk, fm, fc, _⟩ := hfin.keys
    have hk : a₂.keys = a.keys := by rw [fk]; exact hkeys
    have hpp : p.total = p₁.total ∧ p.keyBudget = p₁.keyBudget ∧ p.aggBudget = p₁.aggBudget ∧ p.useL2 = p₁.useL2 ∧
        p.mech = p₁.mech ∧ p.keys = p₁.keys := by
      rcases hp with ⟨_, rfl⟩ | ⟨_, _, _, _, _, rfl⟩ <;> exact ⟨rfl, rfl, rfl, rfl, rfl, rfl⟩
    obtain ⟨q1, q2, q3, q4, q5, q6⟩ := hpp
    have adj := hcomp.adjusted
    have bud := hcomp.budgets
    rw [hk, ← q1] at adj
    rw [hk, ← q1, ← q2, ← q3] at bud
    have hpk : p.keys = a.keys := by rw [q6, hcomp.keys, hk]
    have total : p.total = b ∨ ∃ ε δ, b = .approx ε δ ∧ p.total = .approx ε 0 := by
      cases b with
      | pure ε => exact .inl (Except.ok.inj adj).symm
      | zcdp ε => exact .inl (Except.ok.inj adj).symm
      | approx ε δ =>
        simp only [adjustForQuery] at adj
        split at adj
        · cases adj
        · split at adj
          · split at adj
            · cases adj
            · split at adj
              · cases adj
              · exact .inl (Except.ok.inj adj).symm
          · exact .inr ⟨ε, δ, rfl, (Except.ok.inj adj).symm⟩
    have l2 : (p.useL2 = true → env.m = .zCDP) ∧ ∀ k, p.mech = some k → (p.useL2 = true ↔ k.Gaussian) := by
      rw [q4, q5]
      cases hmk : a.kind.mech with
      | none =>
        obtain ⟨e1, e2⟩ := hcomp.mech.2 (by rw [fm]; exact (congrArg (fun k => Kind.mech k) hkind).trans hmk)
        refine ⟨fun hu => ?_, fun k hk => ?_⟩
        · rw [e2] at hu
          generalize env.m = m at hu
          cases m <;> first | rfl | (simp [usesL2, defaultMech] at hu)
        · rw [e1] at hk; cases hk
      | some k =>
        obtain ⟨c, e1, e2, e3⟩ := C28_right_noise env hc b q a (hch ▸ ha) hq p h k hmk
        rw [q5] at e1
        rw [q4] at e3
        refine ⟨fun hu => e2.zcdp (e3.1 hu), fun k hk => ?_⟩
        rw [e1] at hk
        cases hk
        exact e3
    have unwrap : unwraps p.task = true → measureOf b = env.m → env.m = .zCDP → p.useL2 = true := by
      intro hu _ hz
      have ht : p.task = p₁.task := by rcases hp with ⟨_, rfl⟩ | ⟨_, _, _, _, _, rfl⟩ <;> rfl
      rw [ht, hcomp.task] at hu
      have hmn : a₂.kind.mech = none := by
        cases hkk : a₂.kind <;> rw [hkk] at hu <;> first | rfl | cases hu
      rw [q4, (hcomp.mech.2 hmn).2, hz]
      rfl
    refine ⟨total, l2.1, l2.2, fun _ => by rw [hpk, hgc], fun _ => by rw [hq]; rfl, ?_, ?_, unwrap⟩
    · intro hauto
      rw [hpk] at hauto
      cases hkk : a.keys with
      | set k => rw [hkk] at hauto; cases hauto
      | cols cs =>
        rw [hkk] at bud
        simp only [keyAndQueryBudget] at bud
        rcases total with ht | ⟨ε, δ, rfl, _⟩
        · rw [ht] at bud
          cases b with
          | pure ε => cases bud
          | zcdp ε => cases bud
          | approx ε δ => rfl
        · rfl
    · intro hinf
      cases hkk : a.keys with
      | set k =>
        rw [hkk] at bud
        simp only [keyAndQueryBudget, Except.ok.injEq, Prod.mk.injEq] at bud
        rw [← bud.1, ← bud.2]
        exact zero_parts b p.total
      | cols cs =>
        rw [hkk] at bud adj
        simp only [keyAndQueryBudget] at bud
        cases b with
        | pure ε => simp only [adjustForQuery, Except.ok.injEq] at adj; rw [← adj] at bud; cases bud
        | zcdp ε => simp only [adjustForQuery, Except.ok.injEq] at adj; rw [← adj] at bud; cases bud
        | approx ε δ =>
          simp only [adjustForQuery, Keys.isAuto, hinf, and_self, if_true] at adj
          split at adj
          · cases adj
          · split at adj
            · cases adj
            · split at adj
              · cases adj
              · rw [← Except.ok.inj adj] at bud ⊢
                simp only [splitBudget, hinf, Bool.false_eq_true, if_false, Except.ok.injEq, Prod.mk.injEq] at bud
                rw [← bud.1, ← bud.2]
                exact ⟨(half_add ε).le, (add_zero _).le⟩
  cases q with
  | agg a => exact main a rfl rfl rfl
  | suppress a col t => exact main a rfl rfl rfl
  | groups e cols =>
    have h' := h
    obtain ⟨ε, δ, rfl, e1, e2, e3⟩ := compileQuery_groups h
    unfold compileQuery at h
    split at h
    · cases h
    · simp only [rewrite, visit, visitGroups] at h
      split at h
      · cases h
      · generalize (if cols ≠ [] then cols else _) = columns at h
        split at h
        · cases h
        · split at h
          · cases h
          · split at h
            · cases h
            · split at h
              · cases h
              · cases h
                refine ⟨.inl rfl, nofun, nofun, nofun, nofun, fun _ => rfl, fun _ => ⟨?_, ?_⟩,
                  fun _ h1 h2 => by rw [h2] at h1; cases h1⟩
                · exact (add_zero _).le
                · exact (add_zero _).le

/-! ## Distances -/

theorem callDist_congr (c : Call) {s s' t t' : Table} (hs : s.Perm s') (ht : t.Perm t') : callDist c s t = callDist c s' t' := by
  unfold callDist rootDist
  rw [rowDist_congr hs ht, sqDist_congr hs ht]

theorem callDist_comm (c : Call) (s t : Table) : callDist c s t = callDist c t s := by
  unfold callDist rootDist
  rw [rowDist_comm, sqDist_comm]

theorem callDist_self (c : Call) (s : Table) : callDist c s s = 0 := by
  unfold callDist rootDist
  rw [rowDist_self, sqDist_self]
  simp

theorem callDist_triangle (c : Call) (s t u : Table) : callDist c s u ≤ callDist c s t + callDist c t u := by
  unfold callDist
  split
  · exact rootDist_triangle _ _ _ _
  · exact_mod_cast rowDist_triangle s t u

/-! ## Answers -/

theorem within_total {A : Type} {b t : PB} (h : t = b ∨ ∃ ε δ, b = .approx ε δ ∧ t = .approx ε 0 ∧ 0 ≤ δ)
    {s : ℝ≥0} {P Q : PMF A} (hw : Within t s P Q) : Within b s P Q := by
  rcases h with rfl | ⟨ε, δ, rfl, rfl, hd⟩
  · exact hw
  · intro hb
    have hfin : (PB.approx ε 0).isInfinite = false := by
      simp only [PB.isInfinite, Bool.or_eq_false_iff, decide_eq_false_iff_not] at hb ⊢
      exact ⟨hb.1, by decide⟩
    refine ApproxClose.mono (hw hfin) le_rfl ?_
    rw [num_zero, mul_zero]
    exact mul_nonneg s.2 (num_nonneg hd)

theorem within_post {A B : Type} {b : PB} {s : ℝ≥0} {P Q : PMF A} (h : Within b s P Q) (f : A → B) :
    Within b s (P.bind (fun a => PMF.pure (f a))) (Q.bind (fun a => PMF.pure (f a))) := by
  intro hb
  have := h hb
  cases b with
  | pure ε => simpa using PureClose.bind this (fun a => PureClose.refl (PMF.pure (f a)))
  | approx ε δ =>
    have e : ∀ (R : PMF A) (S : Set B), (R.bind (fun a => PMF.pure (f a))).toOuterMeasure S = R.toOuterMeasure (f ⁻¹' S) :=
      fun R S => PMF.toOuterMeasure_map_apply f R S
    intro S
    rw [e, e]
    exact this (f ⁻¹' S)
  | zcdp ρ => simpa using ZCDPClose.bind this (fun a => ZCDPClose.refl (PMF.pure (f a)))

end Verif.Whole
