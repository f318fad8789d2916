import Verif.Whole.OtherKeys
import Verif.Whole.Total

/-!
# Noise that is told is used (C85), in sessions made by the library
-/

namespace Verif.Whole

open Verif Verif.Schema Verif.Constraint Verif.Expr Verif.Query Verif.Stability
open Verif.Budget (XNum PB Rounding)
open Verif.Session (World Op)

/-- A measurement promises at most the budget it was compiled for. -/
theorem compileM_covered {ctx : Ctx} {tables : List (String × Tab)} {pub : List (String × PubFrame)} {R : Root}
    (ht : ∀ p ∈ tables, TabOK ctx.m p.2 R) {r : Request} {b : PB} {m : Meas} (hv : b.Valid)
    (h : compileM ctx tables pub r b = .ok m) : covered m b = true := by
  cases r with
  | table e ok => cases h
  | query q ok =>
    dsimp only [compileM] at h
    split at h
    · cases h
    split at h
    · cases h
    next cat hc =>
    split at h
    · cases h
    next p hp =>
    have hf := plan_facts (env := ⟨ctx.h, ctx.order, ctx.m, cat⟩) (cat_facts hc ht).ok ok.wf hp
    have htot : m.call.total = p.total := by
      repeat' split at h
      all_goals first | (cases h; done) | (cases h; rfl)
    rcases hf.total with h1 | ⟨ε, δ, rfl, h1⟩
    · simp only [covered, htot, h1]
      cases b <;> simp
    · simp only [covered, htot, h1]
      simpa using hv.2.1

variable {ctx : Ctx} {sources : Relation.Sources} {out : Relation.Output}

/-- Core's check of what a measurement promises does not fail in the sessions of the library. -/
theorem promise_kept (core : Core) (hst : Relation.Stored ctx.cast sources) (hf : FramesOK sources)
    (h : Relation.initCore ctx.cast (coreMeasure ctx.m) sources = .ok out) (hl : ctx.rounding.Lawful) {b₀ : PB}
    (hv₀ : b₀.Valid) (ops : List (Op Request PubFrame Value)) (hops : ∀ op ∈ ops, op.BudgetValid)
    (w : World Meas Tab PubFrame) (hw : w = Session.run (env ctx) (Session.init b₀ (startTables out)) ops) (i : Nat)
    (r : Request) (b : PB) (hb : b.Valid) (n : Session.Node Meas Tab) (m : Meas) (adj : PB) (hn : w.nodes[i]? = some n)
    (hc : Session.compileInfo (env ctx) w n r b = .ok (m, adj)) : (env ctx).privRel m adj = true := by
  have hbk := Session.books_run (env := env ctx) hl hv₀ (startTables out) ops hops
  have hre := reached core hst hf h b₀ ops i n (by rw [← hw]; exact hn)
  obtain ⟨R, tok⟩ := hre.tabs
  rw [← hw] at hbk
  obtain ⟨_, _, hadj, hcomp⟩ := Session.compileInfo_ok hc
  have hav := Session.processRequested_valid hl (hbk.valid i n hn).1 (Session.convertBudget_valid hb) hadj
  exact compileM_covered tok hav hcomp

/-- Whatever is told about the measurement of a query in a session of the library is true of the measurement `evaluate` uses,
unless the session is not active or the budget does not suffice. -/
theorem told_session {N : Type} (note : Meas → N) (core : Core) (hst : Relation.Stored ctx.cast sources) (hf : FramesOK sources)
    (h : Relation.initCore ctx.cast (coreMeasure ctx.m) sources = .ok out) (hl : ctx.rounding.Lawful) {b₀ : PB}
    (hv₀ : b₀.Valid) (ops : List (Op Request PubFrame Value)) (hops : ∀ op ∈ ops, op.BudgetValid)
    (w : World Meas Tab PubFrame) (hw : w = Session.run (env ctx) (Session.init b₀ (startTables out)) ops) (i : Nat)
    (r : Request) (b : PB) (hb : b.Valid) (x : N) (hx : Session.noiseInfo (env ctx) note w i r b = .ok x) :
    (∃ m amt, (Session.step (env ctx) w (.evaluate i r b)).1 = .ok (.answer m amt) ∧ note m = x) ∨
      (∃ e, Session.activate w.nodes i = .error e ∧ (Session.step (env ctx) w (.evaluate i r b)).1 = .error e) ∨
      ∃ e, e.LacksBudget ∧ (Session.step (env ctx) w (.evaluate i r b)).1 = .error e := by
  have hx' := hx
  unfold Session.noiseInfo at hx'
  split at hx'
  · cases hx'
  next n hn =>
  split at hx'
  · cases hx'
  next m adj hc =>
  cases hx'
  have hpr := promise_kept core hst hf h hl hv₀ ops hops w hw i r b hb n m adj hn hc
  rcases Session.C85_told (env ctx) note hx with h1 | h2 | h3 | ⟨m', adj', h4, h5, h6⟩
  · exact .inl h1
  · exact .inr (.inl h2)
  · exact .inr (.inr h3)
  · cases ha : Session.activate w.nodes i with
    | error e =>
      refine .inr (.inl ⟨e, rfl, ?_⟩)
      change (Session.evaluate (env ctx) w i r b).1 = _
      simp [Session.evaluate, hn, hc, ha]
    | ok ns =>
      exfalso
      simp only [Session.evaluate, hn, hc, ha, hpr, Bool.not_true, Bool.false_eq_true, if_false] at h6
      split at h6
      · unfold Session.refusal at h6
        split at h6 <;> cases h6
      · split at h6 <;> cases h6

/-- **C85**: in a session that was made by the builder or by partitions, after any calls, if the noise of a query is told
then `evaluate` answers with this noise, unless the session is not active or the budget does not suffice. -/
theorem C85_session (core : Core) (hst : Relation.Stored ctx.cast sources) (hf : FramesOK sources)
    (h : Relation.initCore ctx.cast (coreMeasure ctx.m) sources = .ok out) (hl : ctx.rounding.Lawful) {b₀ : PB}
    (hv₀ : b₀.Valid) (ops : List (Op Request PubFrame Value)) (hops : ∀ op ∈ ops, op.BudgetValid)
    (w : World Meas Tab PubFrame) (hw : w = Session.run (env ctx) (Session.init b₀ (startTables out)) ops) (i : Nat)
    (r : Request) (b : PB) (hb : b.Valid) (x : Noise) (hx : Session.noiseInfo (env ctx) noiseOf w i r b = .ok x) :
    (∃ m amt, (Session.step (env ctx) w (.evaluate i r b)).1 = .ok (.answer m amt) ∧ noiseOf m = x) ∨
      (∃ e, Session.activate w.nodes i = .error e ∧ (Session.step (env ctx) w (.evaluate i r b)).1 = .error e) ∨
      ∃ e, e.LacksBudget ∧ (Session.step (env ctx) w (.evaluate i r b)).1 = .error e :=
  told_session noiseOf core hst hf h hl hv₀ ops hops w hw i r b hb x hx

/-- **C85**: in such a session, spending without executing is refused exactly if `evaluate` is, with the same exception, and
leaves all sessions with the same state, budget and tables. -/
theorem C85_spends (core : Core) (hst : Relation.Stored ctx.cast sources) (hf : FramesOK sources)
    (h : Relation.initCore ctx.cast (coreMeasure ctx.m) sources = .ok out) (hl : ctx.rounding.Lawful) {b₀ : PB}
    (hv₀ : b₀.Valid) (ops : List (Op Request PubFrame Value)) (hops : ∀ op ∈ ops, op.BudgetValid)
    (w : World Meas Tab PubFrame) (hw : w = Session.run (env ctx) (Session.init b₀ (startTables out)) ops) (i : Nat)
    (r : Request) (b : PB) (hb : b.Valid) :
    (∀ e, (Session.spendOnly (env ctx) w i r b).1 = .error e ↔ (Session.step (env ctx) w (.evaluate i r b)).1 = .error e) ∧
      (Session.spendOnly (env ctx) w i r b).2.nodes.map Session.seen =
        (Session.step (env ctx) w (.evaluate i r b)).2.nodes.map Session.seen ∧
      (Session.spendOnly (env ctx) w i r b).2.heap = (Session.step (env ctx) w (.evaluate i r b)).2.heap := by
  change (∀ e, (Session.spendOnly (env ctx) w i r b).1 = .error e ↔ (Session.evaluate (env ctx) w i r b).1 = .error e) ∧
    (Session.spendOnly (env ctx) w i r b).2.nodes.map Session.seen =
      (Session.evaluate (env ctx) w i r b).2.nodes.map Session.seen ∧
    (Session.spendOnly (env ctx) w i r b).2.heap = (Session.evaluate (env ctx) w i r b).2.heap
  cases hev : (Session.evaluate (env ctx) w i r b).1 with
  | error e =>
    have := Session.C85_spent_refused (env ctx) (promise_kept core hst hf h hl hv₀ ops hops w hw i r b hb) hev
    rw [this]
    exact ⟨fun _ => Iff.rfl, rfl, rfl⟩
  | ok o =>
    obtain ⟨m, adj, rfl⟩ : ∃ m adj, o = .answer m adj := by
      unfold Session.evaluate at hev
      repeat' split at hev
      all_goals first | (cases hev; done) | (cases hev; exact ⟨_, _, rfl⟩)
    obtain ⟨h1, h2, h3⟩ := Session.C85_spent (env ctx) hev
    rw [h1]
    exact ⟨fun e => ⟨nofun, nofun⟩, h2, h3⟩

end Verif.Whole
