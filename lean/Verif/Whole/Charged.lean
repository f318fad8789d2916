import Verif.Whole.Budgets
import Verif.Whole.ExamplesTotal

/-!
# C67: what a query is charged, and what its measurement uses

The measurement that core makes is private for `Call.total` (`Core.Private`); `evaluate` charges the requested budget
(`session.py` l. 1132-1134).
-/

namespace Verif.Whole

open Verif Verif.Schema Verif.Constraint Verif.Expr Verif.Query Verif.Stability
open Verif.Budget (XNum PB Rounding)

/-- The query has a KeySet for its groups, or no groups. -/
def WithKeySet (q : Query) : Prop := ∃ a k, q.agg? = some a ∧ a.keys = .set k

theorem compileM_uses {ctx : Ctx} {tables : List (String × Tab)} {pub : List (String × PubFrame)} {q : Query}
    {ok : Admissible (child q)} {b : PB} {m : Meas} (h : compileM ctx tables pub (.query q ok) b = .ok m) :
    ∃ cat p, compileQuery ⟨ctx.h, ctx.order, ctx.m, cat⟩ b q = .ok p ∧ m.call.total = p.total := by
  dsimp only [compileM] at h
  split at h
  · cases h
  split at h
  · cases h
  next cat hc =>
  split at h
  · cases h
  next p hp =>
  split at h
  · cases h
  split at h
  · cases h
  · cases h
    exact ⟨cat, p, hp, rfl⟩

/-- What the measurement of a query uses of the budget it is compiled with. -/
theorem total_of {env : Query.Env} {b : PB} {q : Query} {p : Plan} (h : compileQuery env b q = .ok p) :
    (WithKeySet q ∧ ∃ ε δ, b = .approx ε δ ∧ p.total = .approx ε 0) ∨
      (b.isInfinite = false → ¬(WithKeySet q ∧ ∃ ε δ, b = .approx ε δ) → p.total = b) := by
  cases hq : q.agg? with
  | none =>
    refine .inr fun _ _ => ?_
    cases q with
    | agg a => cases hq
    | suppress a c t => cases hq
    | groups e cols =>
      obtain ⟨ε, δ, rfl, e1, _⟩ := compileQuery_groups h
      exact e1
  | some a =>
    obtain ⟨h1, _⟩ := compileQuery_budget hq h
    cases hk : a.keys with
    | set k =>
      cases b with
      | approx ε δ => exact .inl ⟨⟨a, k, hq, hk⟩, ε, δ, rfl, (C31_no_delta env ε δ q p a k hq hk h).1⟩
      | pure ε => exact .inr fun _ _ => (C31_all_used env _ q p a k hq hk (by simp) h).1
      | zcdp ε => exact .inr fun _ _ => (C31_all_used env _ q p a k hq hk (by simp) h).1
    | cols cs =>
      refine .inr fun hfin _ => ?_
      cases b with
      | pure ε => simp only [adjustForQuery, Except.ok.injEq] at h1; exact h1.symm
      | zcdp ε => simp only [adjustForQuery, Except.ok.injEq] at h1; exact h1.symm
      | approx ε δ =>
        rw [hk] at h1
        simp only [adjustForQuery, Keys.isAuto, hfin] at h1
        revert h1
        simp only [Bool.false_eq_true, not_false_eq_true, and_self, if_true]
        intro h1
        split at h1
        · cases h1
        split at h1
        · cases h1
        split at h1
        · cases h1
        · exact (Except.ok.inj h1).symm

/-- **C67**. What remains after an answer is what remained before without the charge. Unless the budget is infinite, the
measurement uses exactly what is charged, except for the delta of a query with a KeySet. -/
theorem C67_charged_partial {ctx : Ctx} {w : Session.World Meas Tab PubFrame} {i : Nat} {q : Query}
    {ok : Admissible (child q)} {b : PB} {m : Meas} {amt : PB}
    (h : (Session.step (env ctx) w (.evaluate i (.query q ok) b)).1 = .ok (.answer m amt)) :
    ∃ n n', w.nodes[i]? = some n ∧ (Session.step (env ctx) w (.evaluate i (.query q ok) b)).2.nodes[i]? = some n' ∧
      n'.remaining = Session.spend n.remaining amt ∧
      (amt.isInfinite = false → (WithKeySet q → ∀ ε δ, amt ≠ .approx ε δ) → m.call.total = amt) ∧
      (WithKeySet q → ∀ ε δ, amt = .approx ε δ → m.call.total = .approx ε 0) := by
  have st := Session.step_cases (env ctx) w (.evaluate i (.query q ok) b)
  rw [h] at st
  generalize (Session.step (env ctx) w (.evaluate i (.query q ok) b)).2 = w' at st ⊢
  cases st with
  | evaluate _ _ _ n _ _ ns hn hc ha hp hs =>
  obtain ⟨_, _, _, hm⟩ := Session.compileInfo_ok hc
  obtain ⟨cat, p, hp', ht⟩ := compileM_uses (ok := ok) hm
  have hlen := (Session.activate_stateOnly ha).length
  have hi : i < w.nodes.length := (List.getElem?_eq_some_iff.1 hn).1
  refine ⟨n, _, hn, List.getElem?_set_self (hlen ▸ hi), rfl, ?_, ?_⟩
  · intro hfin hk
    rcases total_of hp' with ⟨hw, ε, δ, rfl, _⟩ | h2
    · exact absurd rfl (hk hw ε δ)
    · rw [ht]
      exact h2 hfin fun ⟨hw, ε, δ, he⟩ => hk hw ε δ he
  · rintro hw ε δ rfl
    rw [ht]
    obtain ⟨a, k, hq, hk⟩ := hw
    exact (C31_no_delta _ ε δ q p a k hq hk hp').1

/-- **C67 fails**. A finite approximate budget that is charged for a query with a KeySet loses its delta, which the
measurement does not use: "the delta value of the budget will be replaced with zero" (`_base_measurement_visitor.py`
l. 650-653) is true of the measurement only. -/
theorem C67_delta_lost {ctx : Ctx} {w : Session.World Meas Tab PubFrame} {i : Nat} {q : Query}
    {ok : Admissible (child q)} {b : PB} {m : Meas} {ε δ : ℚ} (hq : WithKeySet q)
    (h : (Session.step (env ctx) w (.evaluate i (.query q ok) b)).1 = .ok (.answer m (.approx ε δ)))
    {n : Session.Node Meas Tab} (hn : w.nodes[i]? = some n) {e d : ℚ} (hr : n.remaining = .approx e d) (hd : d ≠ 1) :
    m.call.total = .approx ε 0 ∧
      ∃ n', (Session.step (env ctx) w (.evaluate i (.query q ok) b)).2.nodes[i]? = some n' ∧
        n'.remaining = .approx ((e - ε : ℚ) : XNum) ((d - δ : ℚ) : XNum) := by
  obtain ⟨n0, n', h1, h2, h3, _, h5⟩ := C67_charged_partial h
  rw [hn] at h1
  cases h1
  refine ⟨h5 hq _ _ rfl, n', h2, ?_⟩
  rw [h3, hr]
  have : (PB.approx (e : XNum) (d : XNum)).isInfinite = false := by
    simp only [PB.isInfinite, Bool.or_eq_false_iff, decide_eq_false_iff_not]
    exact ⟨WithTop.coe_ne_top, fun h => hd (by exact_mod_cast h)⟩
  simp only [Session.spend, this]
  rfl

namespace Example

/-- Two queries in a new session with `ApproxDPBudget(2, 1/10)`: the number of rows for given cities with Laplace noise and
budget `(1, 1/10)`, then for all cities there are, with the same budget. The budget the first measurement was built for,
what remains after it, and the outcome of the second. -/
noncomputable def twoCounts : Option (PB × List PB × Except Session.Err Unit) :=
  match Relation.initCore (fun _ v => v) (coreMeasure .approxDP) Relation.demoA with
  | .error _ => none
  | .ok out =>
    let w := Session.init (.approx 2 (1/10 : ℚ)) (startTables out)
    let r := Session.step (env (ctx .approxDP)) w (.evaluate 0 (.query cityLaplace cityLaplace_ok) (.approx 1 (1/10 : ℚ)))
    match r.1 with
    | .ok (.answer p _) => some (p.call.total, r.2.nodes.map (fun n => n.remaining),
        (Session.step (env (ctx .approxDP)) r.2 (.evaluate 0 (.query cityCount cityCount_ok) (.approx 1 (1/10 : ℚ)))).1.map
          (fun _ => ()))
    | _ => none

/-- **C67 fails**: the first answer uses no delta, and yet none is left, so that the second query is refused. -/
theorem C67_fails : twoCounts = some (.approx 1 0, [.approx 1 0], .error .insufficientBudget) ∧ WithKeySet cityLaplace :=
  ⟨by decide +kernel, _, _, rfl, rfl⟩

end Example

end Verif.Whole
