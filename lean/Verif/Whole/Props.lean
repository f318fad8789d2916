import Verif.Whole.Start
import Verif.Composition.Props

/-!
# C55, C56: what a session promises about the tables it was built from

Here everything comes together: `Session.Builder` (`Verif.Relation`), queries (`Verif.Expr`, `Verif.Query`), truncation
and stability (`Verif.Constraint`, `Verif.Stability`), budgets (`Verif.Budget`, `Verif.Session`), and adaptive composition
(`Verif.Composition`). The only contract left is that of core's measurements, `Core.Private`.
-/

namespace Verif.Whole

open Verif Verif.Schema Verif.Constraint Verif.Expr Verif.Query Verif.Stability
open Verif.Budget (XNum PB Rounding)
open Verif.Composition (Within)
open scoped NNReal

/-- **C55**: a measurement that a session accepts for a budget is private for that budget: if the tables change by a share
of what is protected, the answers are as close as that share of the budget promises. -/
theorem C55_measurement {ctx : Ctx} {core : Core} (hcore : core.Private ctx.m) {s : ℝ≥0} (hs : s ≤ 1)
    {x x' : Root × Data} (hn : Near ctx.m s x x') {tables : List (String × Tab)} {pub : List (String × PubFrame)}
    (ht : ∀ p ∈ tables, TabOK ctx.m p.2 x.1) {r : Request} {b : PB} {m : Meas} (hb : b.Valid)
    (hm : compileM ctx tables pub r b = .ok m) (hcov : covered m b = true) :
    Within b s ((sem ctx core).mech m x) ((sem ctx core).mech m x') :=
  measurement_private hcore hs hn ht hb hm hcov

/-- **C55**: what a session knows about a view is right: its columns, its distance, its IDs. -/
theorem C55_view {ctx : Ctx} {tables : List (String × Tab)} {pub : List (String × PubFrame)} {R : Root} {r : Request}
    {t : Tab} (h : transform ctx tables pub r = .ok t) (ht : ∀ p ∈ tables, TabOK ctx.m p.2 R) : TabOK ctx.m t R :=
  view_ok h ht

/-- **C55**: if the tables of a session change by the share `s` of what is protected, the tables of the sessions made by a
partition change by shares that add up to at most `s`; what each of them knows about its table is right. -/
theorem C55_partition {ctx : Ctx} {s : ℝ≥0} {x x' : Root × Data} (hn : Near ctx.m s x x')
    {tables : List (String × Tab)} {pub : List (String × PubFrame)} (ht : ∀ p ∈ tables, TabOK ctx.m p.2 x.1)
    {src col : String} {vals : List Value} {t : Tab} (h : partTab ctx tables pub src col vals = .ok t) :
    ∃ sh : ℕ → ℝ≥0, ∑ k ∈ Finset.range vals.length, sh k ≤ s ∧ ∀ k < vals.length,
      Near ctx.m (sh k) (partData ctx tables x src col vals k) (partData ctx tables x' src col vals k) ∧
      TabOK ctx.m t (partData ctx tables x src col vals k).1 ∧ TabOK ctx.m t (partData ctx tables x' src col vals k).1 :=
  partition_sound hn ht h

/-- The assumptions of C50 hold for the library. -/
theorem sound {ctx : Ctx} {core : Core} (hcore : core.Private ctx.m) :
    Composition.Sound (env ctx) (sem ctx core) (Near ctx.m) (fun t x => TabOK ctx.m t x.1) where
  mech hs hn ht _ hb hm hcov := C55_measurement hcore hs hn ht hb hm hcov
  view ht h := C55_view h ht
  part _ _ _ _ hn ht _ h := C55_partition hn ht h

/-- **C56**: a session built from neighbouring tables (tables that differ by what the protected changes allow, in all
tables at once) can be built for both or neither; it shows the same tables; and everything an analyst learns from any
sequence of queries, views and partitions, each chosen with all answers so far, is as close as the total budget
promises. -/
theorem C56_session {ctx : Ctx} (hr : ctx.rounding.Lawful) {core : Core} (hcore : core.Private ctx.m)
    {sA sB : Relation.Sources} (hA : Relation.Stored ctx.cast sA) (hB : Relation.Stored ctx.cast sB)
    (hfA : FramesOK sA) (hfB : FramesOK sB) (hn : Relation.Neighbors sA sB) {outA : Relation.Output}
    (h : Relation.initCore ctx.cast (coreMeasure ctx.m) sA = .ok outA) {b : PB} (hb : b.Valid)
    (analyst : Composition.Analyst Request Meas Tab PubFrame Value Table)
    (ha : ∀ hist w, ∀ op ∈ (analyst hist w).support, op.BudgetValid) (n : ℕ) :
    ∃ outB, Relation.initCore ctx.cast (coreMeasure ctx.m) sB = .ok outB ∧ startTables outB = startTables outA ∧
      Within b 1
        (Composition.transcript (env ctx) (sem ctx core) analyst n (Session.init b (startTables outA))
          (fun _ => (startRoot outA, startData outA)) [])
        (Composition.transcript (env ctx) (sem ctx core) analyst n (Session.init b (startTables outB))
          (fun _ => (startRoot outB, startData outB)) []) := by
  obtain ⟨outB, hoB, hme, hdi, _⟩ := Relation.C34_distance hA hB hn h
  have hd := Relation.C34_domain hn h hoB
  obtain ⟨ht, hnear⟩ := start_near hA hB hfA hfB hn h hoB hd hme.symm hdi.symm
  refine ⟨outB, hoB, ht, ?_⟩
  rw [ht]
  refine Composition.C50_adaptive hr (sound hcore) analyst ha hb _ hnear (fun p hp => ⟨?_, ?_⟩) n
  · exact start_tabOK hA hfA h p hp
  · exact start_tabOK hB hfB hoB p (by rw [ht]; exact hp)

/-! ## From the calls of the builder -/

/-- Spark keeps the values of a column in its type. -/
def CallTyped : Relation.Call PB → Prop
  | .priv _ df _ => ∀ r ∈ df.rows, List.Forall₂ (fun f v => Holds f v) df.fields r
  | _ => True

/-- The same call, but for the rows of a private table. -/
inductive Twin : Relation.Call PB → Relation.Call PB → Prop
  | same (c) : Twin c c
  | rows (n : String) {df df' : Frame} (ch : Relation.Change) : df.fields = df'.fields →
      Twin (.priv n df ch) (.priv n df' ch)

/-- Which of core's measures a session uses (`session.py` l. 411-434). -/
def sessionMeasure (b : PB) : Relation.Measure := coreMeasure (measureOf b)

section
variable {isIdent : String → Bool} {cast : SparkType → Value → Value} {measOf : PB → Relation.Measure}

theorem coerceLoop_congr : ∀ (fs : List Field) {df df' : Frame}, df.fields = df'.fields →
    (∃ e, coerceLoop cast fs df = .error e ∧ coerceLoop cast fs df' = .error e) ∨
    ∃ a b, coerceLoop cast fs df = .ok a ∧ coerceLoop cast fs df' = .ok b ∧ a.fields = b.fields
  | [], df, df', h => .inr ⟨df, df', rfl, rfl, h⟩
  | f :: fs, df, df', h => by
    rw [coerceLoop, coerceLoop]
    split
    next ty _ =>
      unfold withColumn
      rw [← h]
      by_cases hl : (df.fields.filter (fun g => decide (g.name = f.name))).length = 1
      · rw [if_pos hl, if_pos hl]
        exact coerceLoop_congr fs rfl
      · rw [if_neg hl, if_neg hl]
        exact .inl ⟨_, rfl, rfl⟩
    · exact coerceLoop_congr fs h

theorem coerce_congr {df df' : Frame} (h : df.fields = df'.fields) :
    (∃ e, coerce cast df = .error e ∧ coerce cast df' = .error e) ∨
    ∃ a b, coerce cast df = .ok a ∧ coerce cast df' = .ok b ∧ a.fields = b.fields := by
  unfold coerce
  rw [← h]
  split
  · exact .inl ⟨_, rfl, rfl⟩
  · split
    · exact .inl ⟨_, rfl, rfl⟩
    · exact coerceLoop_congr df.fields h

/-- Builders that differ in the rows of private tables only. -/
structure TwinBuilders (a b : Relation.Builder PB) : Prop where
  budget : b.budget = a.budget
  pub : b.pub = a.pub
  spaces : b.spaces = a.spaces
  priv : List.Forall₂ (fun p q => p.1 = q.1 ∧ p.2.1.fields = q.2.1.fields ∧ p.2.2 = q.2.2) a.priv b.priv

theorem TwinBuilders.keys {a b : Relation.Builder PB} (h : TwinBuilders a b) : Dict.keys b.priv = Dict.keys a.priv := by
  have := h.priv
  generalize a.priv = l, b.priv = l' at this
  unfold Dict.keys
  induction this with
  | nil => rfl
  | cons hp _ ih => rw [List.map_cons, List.map_cons, ih, hp.1]

theorem twin_step {a b : Relation.Builder PB} (h : TwinBuilders a b) {c c' : Relation.Call PB} (hc : Twin c c') :
    TwinBuilders (Relation.step isIdent cast measOf a c).1 (Relation.step isIdent cast measOf b c').1 := by
  have hpriv : ∀ (n : String) {df df' : Frame} (ch : Relation.Change), df.fields = df'.fields →
      TwinBuilders (Relation.step isIdent cast measOf a (.priv n df ch)).1
        (Relation.step isIdent cast measOf b (.priv n df' ch)).1 := by
    intro n df df' ch hf
    dsimp only [Relation.step]
    rw [h.keys, h.pub]
    split
    · exact h
    · split
      · exact h
      · split
        · exact h
        · rename_i hk
          push Not at hk
          rcases coerce_congr (cast := cast) hf with ⟨e, h1, h2⟩ | ⟨x, y, h1, h2, h3⟩
          · rw [h1, h2]
            exact h
          · rw [h1, h2]
            refine ⟨h.budget, rfl, h.spaces, ?_⟩
            dsimp only
            rw [Dict.set_new hk.1, Dict.set_new (h.keys ▸ hk.1)]
            exact List.rel_append h.priv (.cons ⟨rfl, h3, rfl⟩ .nil)
  have hspace : ∀ s, (∃ e, Relation.withIdSpace isIdent a s = .error e ∧ Relation.withIdSpace isIdent b s = .error e) ∨
      ∃ a' b', Relation.withIdSpace isIdent a s = .ok a' ∧ Relation.withIdSpace isIdent b s = .ok b' ∧ TwinBuilders a' b' := by
    intro s
    unfold Relation.withIdSpace
    rw [h.spaces]
    split
    · exact .inl ⟨_, rfl, rfl⟩
    · split
      · exact .inl ⟨_, rfl, rfl⟩
      · exact .inr ⟨_, _, rfl, rfl, h.budget, h.pub, rfl, h.priv⟩
  cases hc with
  | rows n ch hf => exact hpriv n ch hf
  | same =>
    cases c with
    | priv n df ch => exact hpriv n ch rfl
    | budget x =>
      dsimp only [Relation.step]
      rw [h.budget]
      cases a.budget with
      | some y => exact h
      | none => exact ⟨rfl, h.pub, h.spaces, h.priv⟩
    | pub n df =>
      dsimp only [Relation.step]
      rw [h.keys, h.pub]
      split
      · exact h
      · split
        · exact h
        · cases coerce cast df with
          | error e => exact h
          | ok df' => exact ⟨h.budget, rfl, h.spaces, h.priv⟩
    | space s =>
      dsimp only [Relation.step]
      rcases hspace s with ⟨e, h1, h2⟩ | ⟨a', b', h1, h2, h3⟩
      · rw [h1, h2]; exact h
      · rw [h1, h2]; exact h3
    | build =>
      have hadd : (∃ e, Relation.addIdSpace isIdent a = .error e ∧ Relation.addIdSpace isIdent b = .error e) ∨
          ∃ a' b', Relation.addIdSpace isIdent a = .ok a' ∧ Relation.addIdSpace isIdent b = .ok b' ∧ TwinBuilders a' b' := by
        have hp := h.priv
        unfold Relation.addIdSpace
        generalize a.priv = l, b.priv = l' at hp
        match l, l', hp with
        | [], [], _ => exact .inr ⟨a, b, rfl, rfl, h⟩
        | [(n, df, ch)], [(n', df', ch')], .cons e .nil =>
          obtain ⟨_, _, e⟩ := e
          dsimp only at e
          subst e
          cases ch with
          | rowsWithID c s =>
            dsimp only
            rw [h.spaces]
            split
            · exact .inr ⟨a, b, rfl, rfl, h⟩
            · exact hspace s
          | _ => exact .inr ⟨a, b, rfl, rfl, h⟩
        | (_, _, ch) :: _ :: _, (_, _, ch') :: _ :: _, .cons _ (.cons _ _) =>
          cases ch <;> cases ch' <;> exact .inr ⟨a, b, rfl, rfl, h⟩
      have hnil : (b.priv = []) ↔ (a.priv = []) := by
        have hp := h.priv
        generalize a.priv = l, b.priv = l' at hp
        cases hp <;> simp
      dsimp only [Relation.step]
      rw [h.budget]
      cases hb : a.budget with
      | none => exact h
      | some x =>
        dsimp only
        by_cases he : a.priv = []
        · rw [if_pos he, if_pos (hnil.2 he)]
          exact h
        · rw [if_neg he, if_neg (fun e => he (hnil.1 e))]
          rcases hadd with ⟨e, h1, h2⟩ | ⟨a', b', h1, h2, h3⟩
          · rw [h1, h2]; exact h
          · rw [h1, h2]; exact h3

theorem twin_run {cs cs' : List (Relation.Call PB)} (hcs : List.Forall₂ Twin cs cs') : ∀ {a b : Relation.Builder PB},
    TwinBuilders a b → TwinBuilders (Relation.run isIdent cast measOf a cs) (Relation.run isIdent cast measOf b cs') := by
  induction hcs with
  | nil => exact fun h => h
  | cons hc _ ih => exact fun h => ih (twin_step h hc)

theorem run_typed (hcast : CastOK cast) : ∀ (calls : List (Relation.Call PB)) {b : Relation.Builder PB},
    (∀ c ∈ calls, CallTyped c) → FramesOK b.priv → FramesOK (Relation.run isIdent cast measOf b calls).priv
  | [], _, _, h => h
  | c :: cs, b, hc, h => by
    rw [Relation.run]
    refine run_typed hcast cs (fun x hx => hc x (List.mem_cons_of_mem _ hx)) ?_
    rcases Relation.step_effect (isIdent := isIdent) (cast := cast) (measOf := measOf) b c with
      e | ⟨x, _, hb, e⟩ | ⟨n, df, df', ch, hcall, hv, hi, h1, h2, hco, e⟩ | ⟨n, df, df', _, hi, h1, h2, hc, e⟩ |
      ⟨s, hi, hs, _, e⟩ <;> rw [e]
    · exact h
    · exact h
    · refine ⟨fun m d k hm => ?_⟩
      rcases List.mem_append.1 hm with hm' | hm'
      · exact h.typed m d k hm'
      · rw [List.mem_singleton] at hm'
        cases hm'
        have := hc c (by simp)
        rw [hcall] at this
        exact coerce_typed hcast hco this
    · exact h
    · exact h

end

/-- **C56**: two builders get the same calls, but for the rows of private tables; the stored tables are neighbours. If
`build` returns a session for the first, it does for the second, with the same budget, the same private and public tables
to see, and everything an analyst learns from either is as close as the budget promises. -/
theorem C56_builder {ctx : Ctx} (hr : ctx.rounding.Lawful) {core : Core} (hcore : core.Private ctx.m)
    {callsA callsB : List (Relation.Call PB)} (htw : List.Forall₂ Twin callsA callsB)
    (hcA : ∀ c ∈ callsA, c.Columns ∧ CallTyped c) (hcB : ∀ c ∈ callsB, c.Columns ∧ CallTyped c)
    (hn : Relation.Neighbors (Relation.run ctx.isIdent ctx.cast sessionMeasure .new callsA).priv
      (Relation.run ctx.isIdent ctx.cast sessionMeasure .new callsB).priv) {sess : Relation.Built PB}
    (h : (Relation.step ctx.isIdent ctx.cast sessionMeasure
      (Relation.run ctx.isIdent ctx.cast sessionMeasure .new callsA) .build).2 = .ok (some sess))
    (hm : measureOf sess.budget = ctx.m) (hb : sess.budget.Valid)
    (analyst : Composition.Analyst Request Meas Tab PubFrame Value Table)
    (ha : ∀ hist w, ∀ op ∈ (analyst hist w).support, op.BudgetValid) (n : ℕ) :
    ∃ sess', (Relation.step ctx.isIdent ctx.cast sessionMeasure
        (Relation.run ctx.isIdent ctx.cast sessionMeasure .new callsB) .build).2 = .ok (some sess') ∧
      sess'.budget = sess.budget ∧ sess'.pub = sess.pub ∧ startTables sess'.out = startTables sess.out ∧
      Within sess.budget 1
        (Composition.transcript (env ctx) (sem ctx core) analyst n (Session.init sess.budget (startTables sess.out))
          (fun _ => (startRoot sess.out, startData sess.out)) [])
        (Composition.transcript (env ctx) (sem ctx core) analyst n (Session.init sess'.budget (startTables sess'.out))
          (fun _ => (startRoot sess'.out, startData sess'.out)) []) := by
  have tw : TwinBuilders (Relation.run ctx.isIdent ctx.cast sessionMeasure .new callsA)
      (Relation.run ctx.isIdent ctx.cast sessionMeasure .new callsB) := twin_run htw ⟨rfl, rfl, rfl, .nil⟩
  have emp : FramesOK (Relation.Builder.new (β := PB)).priv := ⟨by simp [Relation.Builder.new]⟩
  have hfA : FramesOK (Relation.run ctx.isIdent ctx.cast sessionMeasure .new callsA).priv :=
    run_typed ctx.castOK callsA (fun c hc => (hcA c hc).2) emp
  have hfB : FramesOK (Relation.run ctx.isIdent ctx.cast sessionMeasure .new callsB).priv :=
    run_typed ctx.castOK callsB (fun c hc => (hcB c hc).2) emp
  have hsA := Relation.stored_run (isIdent := ctx.isIdent) (cast := ctx.cast) (measOf := sessionMeasure)
    (fun c hc => (hcA c hc).1)
  have hsB := Relation.stored_run (isIdent := ctx.isIdent) (cast := ctx.cast) (measOf := sessionMeasure)
    (fun c hc => (hcB c hc).1)
  obtain ⟨x, out, h1, h2, h3, rfl, h5⟩ := (Relation.C37_build (fun c hc => (hcA c hc).1) sess).1 h
  dsimp only at hm hb ⊢
  have h3' := h3
  rw [sessionMeasure, hm] at h3'
  obtain ⟨outB, g1, g2, g3⟩ := C56_session hr hcore hsA hsB hfA hfB hn h3' hb analyst ha n
  refine ⟨⟨x, outB, (Relation.run ctx.isIdent ctx.cast sessionMeasure .new callsB).pub⟩,
    (Relation.C37_build (fun c hc => (hcB c hc).1) _).2 ⟨x, outB, by rw [tw.budget, h1], ?_, ?_, rfl, ?_⟩, rfl, tw.pub, g2, g3⟩
  · have hp := tw.priv
    intro he
    rw [he] at hp
    generalize (Relation.run ctx.isIdent ctx.cast sessionMeasure .new callsA).priv = l at hp h2
    cases hp
    exact h2 rfl
  · rw [sessionMeasure, hm]
    exact g1
  · rintro sp ⟨nm, df, c, hu⟩
    have hlen := tw.priv.length_eq
    have : Relation.Uses (Relation.run ctx.isIdent ctx.cast sessionMeasure .new callsA).priv sp := by
      have hp := tw.priv
      generalize (Relation.run ctx.isIdent ctx.cast sessionMeasure .new callsA).priv = l,
        (Relation.run ctx.isIdent ctx.cast sessionMeasure .new callsB).priv = l' at hp hu
      clear * - hp hu
      induction hp with
      | nil => cases hu
      | cons hh _ ih =>
        rename_i p q _ _ _
        rcases List.mem_cons.1 hu with e | hu'
        · subst e
          obtain ⟨n0, d0, c0⟩ := p
          obtain ⟨_, _, e⟩ := hh
          dsimp only at e
          subst e
          exact ⟨n0, d0, c, by simp⟩
        · obtain ⟨a, b, c', hm⟩ := ih hu'
          exact ⟨a, b, c', List.mem_cons_of_mem _ hm⟩
    rcases h5 sp this with h' | ⟨h', h''⟩
    · exact .inl (by rw [tw.spaces]; exact h')
    · exact .inr ⟨by omega, h''⟩

end Verif.Whole
