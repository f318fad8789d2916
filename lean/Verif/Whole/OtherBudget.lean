import Verif.Session.OtherBudget
import Verif.Whole.Told

/-!
# The amount of a budget decides about noise only (C87)
-/

namespace Verif.Whole

open Verif Verif.Schema Verif.Constraint Verif.Expr Verif.Query Verif.Stability
open Verif.Budget (XNum PB Rounding)
open Verif.Session (World Op Comparable)

/-! ## Specification -/

/-- A measurement without its budgets: the mechanism, the norm, the keys, the task, the distance it is built for, the table it
is applied to, and what is done with the answer remain. -/
def Meas.unpriced (m : Meas) : Meas :=
  { m with call := { m.call with total := .pure 0, keyBudget := .pure 0, aggBudget := .pure 0 } }

/-! ## Proofs -/

theorem measureOf_alike {b b' : PB} (h : Alike b b') : measureOf b = measureOf b' := by
  have h1 := h.1
  cases b <;> cases b' <;> first | exact h1.elim | rfl

theorem compileM_alike (ctx : Ctx) (r : Request) (tables : List (String × Tab)) (pub : List (String × PubFrame)) (b b' : PB)
    (h : Alike b b') :
    (compileM ctx tables pub r b).map Meas.unpriced = (compileM ctx tables pub r b').map Meas.unpriced := by
  cases r with
  | table e ok => rfl
  | query q ok =>
    dsimp only [compileM]
    rw [measureOf_alike h]
    split
    · rfl
    cases catalog tables pub with
    | error x => rfl
    | ok cat =>
      dsimp only
      have := C87_compile ⟨ctx.h, ctx.order, ctx.m, cat⟩ h q
      revert this
      cases compileQuery ⟨ctx.h, ctx.order, ctx.m, cat⟩ b q with
      | error x =>
        cases compileQuery ⟨ctx.h, ctx.order, ctx.m, cat⟩ b' q with
        | error y =>
          intro this
          cases this
          rfl
        | ok p' =>
          intro this
          cases this
      | ok p =>
        cases compileQuery ⟨ctx.h, ctx.order, ctx.m, cat⟩ b' q with
        | error y =>
          intro this
          cases this
        | ok p' =>
          intro this
          obtain ⟨t, kb, ab, mech, l2, keys, task, prep, post, ch, tr⟩ := p
          obtain ⟨t', kb', ab', mech', l2', keys', task', prep', post', ch', tr'⟩ := p'
          simp only [Except.map, Plan.unpriced, Except.ok.injEq, Plan.mk.injEq, true_and] at this
          obtain ⟨rfl, rfl, rfl, rfl, rfl, rfl, rfl, rfl⟩ := this
          dsimp only
          cases compile ctx.h cat ch with
          | error x => rfl
          | ok o =>
            dsimp only
            have h1 : rootMetric ctx.m (Stability.groupCols q) o ⟨t, kb, ab, mech, l2, keys, task, prep, post, ch, tr⟩ =
                rootMetric ctx.m (Stability.groupCols q) o ⟨t', kb', ab', mech, l2, keys, task, prep, post, ch, tr⟩ := rfl
            have h2 : callDelta ctx.m ctx.h cat tables (Stability.groupCols q) o
                  ⟨t, kb, ab, mech, l2, keys, task, prep, post, ch, tr⟩ =
                callDelta ctx.m ctx.h cat tables (Stability.groupCols q) o
                  ⟨t', kb', ab', mech, l2, keys, task, prep, post, ch, tr⟩ := rfl
            rw [h1, h2]
            split <;> rfl

/-- **C87**: with another amount of a comparable budget, a query is compiled in a session to the same measurement but for the
budgets, or refused with the same exception. -/
theorem C87_noise (ctx : Ctx) (w : World Meas Tab PubFrame) (i : Nat) (r : Request) {b b' : PB} (h : Comparable b b')
    (hb : b.Valid) (hb' : b'.Valid) :
    Session.noiseInfo (env ctx) Meas.unpriced w i r b = Session.noiseInfo (env ctx) Meas.unpriced w i r b' :=
  Session.noiseInfo_alike (env := env ctx) (compileM_alike ctx r) w i h hb hb'

variable {ctx : Ctx} {sources : Relation.Sources} {out : Relation.Output}

/-- **C87**: in a session that was made by the builder or by partitions, after any calls: if `evaluate` answers a query with
one budget, then it does with any comparable budget, unless the remaining budget does not suffice; the measurements are the
same but for the budgets. -/
theorem C87_answered (core : Core) (hst : Relation.Stored ctx.cast sources) (hf : FramesOK sources)
    (h : Relation.initCore ctx.cast (coreMeasure ctx.m) sources = .ok out) (hl : ctx.rounding.Lawful) {b₀ : PB}
    (hv₀ : b₀.Valid) (ops : List (Op Request PubFrame Value)) (hops : ∀ op ∈ ops, op.BudgetValid)
    (w : World Meas Tab PubFrame) (hw : w = Session.run (env ctx) (Session.init b₀ (startTables out)) ops) (i : Nat)
    (r : Request) (b b' : PB) (hc : Comparable b b') (hb : b.Valid) (hb' : b'.Valid) (m : Meas) (amt : PB)
    (ha : (Session.step (env ctx) w (.evaluate i r b)).1 = .ok (.answer m amt)) :
    (∃ m' amt', (Session.step (env ctx) w (.evaluate i r b')).1 = .ok (.answer m' amt') ∧ m'.unpriced = m.unpriced) ∨
      ∃ e, e.LacksBudget ∧ (Session.step (env ctx) w (.evaluate i r b')).1 = .error e := by
  have h1 := Session.C85_used (env ctx) Meas.unpriced (w := w) (i := i) (q := r) (b := b) ha
  rw [C87_noise ctx w i r hc hb hb'] at h1
  rcases told_session Meas.unpriced core hst hf h hl hv₀ ops hops w hw i r b' hb' _ h1 with h2 | ⟨e, h2, -⟩ | h2
  · exact .inl h2
  · exfalso
    change (Session.evaluate (env ctx) w i r b).1 = _ at ha
    unfold Session.evaluate at ha
    repeat' split at ha
    all_goals first | (cases ha; done) | simp_all
  · exact .inr h2

/-- **C87**: and a query that is answered with one budget is answered with every smaller one that is comparable. -/
theorem C87_less (core : Core) (hst : Relation.Stored ctx.cast sources) (hf : FramesOK sources)
    (h : Relation.initCore ctx.cast (coreMeasure ctx.m) sources = .ok out) (hl : ctx.rounding.Lawful) {b₀ : PB}
    (hv₀ : b₀.Valid) (ops : List (Op Request PubFrame Value)) (hops : ∀ op ∈ ops, op.BudgetValid)
    (w : World Meas Tab PubFrame) (hw : w = Session.run (env ctx) (Session.init b₀ (startTables out)) ops) (i : Nat)
    (r : Request) (b b' : PB) (hc : Comparable b b') (hle : Budget.PB.Le b' b) (hb : b.Valid) (hb' : b'.Valid) (m : Meas)
    (amt : PB) (ha : (Session.step (env ctx) w (.evaluate i r b)).1 = .ok (.answer m amt)) :
    ∃ m' amt', (Session.step (env ctx) w (.evaluate i r b')).1 = .ok (.answer m' amt') ∧ m'.unpriced = m.unpriced := by
  rcases C87_answered core hst hf h hl hv₀ ops hops w hw i r b b' hc hb hb' m amt ha with h1 | ⟨e, he, h1⟩
  · exact h1
  · exfalso
    change (Session.evaluate (env ctx) w i r b).1 = _ at ha
    change (Session.evaluate (env ctx) w i r b').1 = _ at h1
    have hnote := C87_noise ctx w i r hc hb hb'
    unfold Session.evaluate at ha h1
    unfold Session.noiseInfo at hnote
    cases hn : w.nodes[i]? with
    | none => simp [hn] at ha
    | some n =>
      simp only [hn] at ha h1 hnote
      cases hq : Session.compileInfo (env ctx) w n r b with
      | error x => simp [hq] at ha
      | ok p =>
        obtain ⟨m1, adj⟩ := p
        simp only [hq] at ha hnote
        cases hq' : Session.compileInfo (env ctx) w n r b' with
        | error x => simp [hq'] at hnote
        | ok p' =>
          obtain ⟨m2, adj'⟩ := p'
          simp only [hq'] at h1
          have hpr := promise_kept core hst hf h hl hv₀ ops hops w hw i r b' hb' n m2 adj' hn hq'
          obtain ⟨_, _, e1, _⟩ := Session.compileInfo_ok hq
          obtain ⟨_, _, e2, _⟩ := Session.compileInfo_ok hq'
          have hle' : Budget.PB.Le (Session.convertBudget n.remaining b') (Session.convertBudget n.remaining b) := by
            cases b <;> cases b' <;> first | exact hc.elim | skip
            all_goals cases n.remaining <;> first | exact hle | exact ⟨hle, le_rfl⟩
          cases hact : Session.activate w.nodes i with
          | error x => simp [hact] at ha
          | ok ns =>
            simp only [hact] at ha h1
            split at ha
            · cases ha
            split at ha
            · cases ha
            next hs =>
            have hs' := Session.canSpend_less hl (Session.comparable_convert hc n.remaining) hle' e1 e2 (by simpa using hs)
            simp only [hpr, hs', Bool.not_true, Bool.false_eq_true, if_false] at h1
            split at ha
            · cases ha
            next n' hn' =>
            simp [hn'] at h1

end Verif.Whole
