import Verif.Whole.Blind
import Verif.Whole.Group

/-!
# C82: tables that are not named stay unknown

A session may have many private tables. Whoever only names some of them, in queries, views and partitions, learns nothing at
all about the others: not within a budget, but nothing. This is not about core, nor about budgets; no assumption is made about
the answers of core's measurements, and budgets may be infinite.
-/

namespace Verif.Whole

open Verif Verif.Schema Verif.Constraint Verif.Expr Verif.Query Verif.Stability
open Verif.Budget (XNum PB Rounding)
open scoped NNReal

/-! ## Specification -/

/-- The private tables and views that a call names: in `evaluate`, `create_view` and `partition_and_create`
(`session.py` l. 1020, 1179, 1465). -/
def namedIn : Session.Op Request PubFrame Value → List String
  | .evaluate _ (.query q _) _ => (child q).sources
  | .evaluate _ (.table e _) _ => e.sources
  | .createView _ (.table e _) _ => e.sources
  | .createView _ (.query q _) _ => (child q).sources
  | .partition _ src _ _ _ => [src]
  | .deleteView _ _ => []
  | .addPublic _ _ _ => []
  | .stop _ => []

/-- Tables for a builder that are the same, except that tables with names in `S` may have any other rows. -/
def SameBut (S : Set String) (sA sB : Relation.Sources) : Prop :=
  List.Forall₂ (fun p q => p.1 = q.1 ∧ p.2.1.fields = q.2.1.fields ∧ p.2.2 = q.2.2 ∧
    (p.1 ∉ S → p.2.1.rows = q.2.1.rows)) sA sB

/-! ## Proofs: transformations -/

/-- The result of a transformation depends on the tables it names only. -/
theorem run_congr {h : Hash} {cat : Cat} {D D' : Data} (e : Expr) (hd : ∀ id ∈ e.sources, D id = D' id) {o : Expr.Out}
    (ho : compile h cat e = .ok o) : o.run D = o.run D' := by
  induction e generalizing o with
  | source id =>
    simp only [compile, visitSource] at ho
    split at ho
    · cases ho
    cases ho
    exact hd id (by simp [Expr.sources])
  | rename e m ih =>
    obtain ⟨o', ho', ho⟩ := bind_ok ho
    obtain ⟨_, _, rfl⟩ := visitRename_ok ho
    exact congrArg (List.map _) (ih hd ho')
  | filter e valid cond ih =>
    obtain ⟨o', ho', ho⟩ := bind_ok ho
    cases ho
    exact congrArg (List.filter _) (ih hd ho')
  | select e cols ih =>
    obtain ⟨o', ho', ho⟩ := bind_ok ho
    obtain ⟨_, _, rfl⟩ := visitSelect_ok ho
    exact congrArg (List.map _) (ih hd ho')
  | map e f new augment ih =>
    obtain ⟨o', ho', ho⟩ := bind_ok ho
    obtain ⟨_, rfl⟩ := visitMap_ok ho
    exact congrArg (List.map _) (ih hd ho')
  | flatMap e f new augment n ih =>
    obtain ⟨o', ho', ho⟩ := bind_ok ho
    obtain ⟨g, _, _, _, _, hrun, hmm⟩ := visitFlatMap_ok ho
    rw [hrun, hrun, ih hd ho']
  | flatMapByID e f new ih =>
    obtain ⟨o', ho', ho⟩ := bind_ok ho
    obtain ⟨i, _, h1, _, _, _, e2, _, _, hrun⟩ := visitFlatMapByID_ok ho
    rw [hrun, hrun, ih hd ho']
  | joinPrivate l r tl tr cols ihl ihr =>
    obtain ⟨ol, hol, ho⟩ := bind_ok ho
    obtain ⟨or, hor, ho⟩ := bind_ok ho
    have pl := ihl (fun id hid => hd id (List.mem_append_left _ hid)) hol
    have pr := ihr (fun id hid => hd id (List.mem_append_right _ hid)) hor
    obtain ⟨_, _, _, _, h1, h2, hcase⟩ := visitJoinPrivate_ok ho
    rcases hcase with ⟨i, hi, hrun⟩ | ⟨a, b, rfl, rfl, hsym, hrun⟩
    · rw [hrun.2, hrun.2, pl, pr]
    · rw [hrun, hrun, pl, pr]
  | joinPublic e pub cols how ih =>
    obtain ⟨o', ho', ho⟩ := bind_ok ho
    obtain ⟨ps, pt, hp, _, hmo, _, _, _, hrun⟩ := visitJoinPublic_ok ho
    rw [hrun, hrun, ih hd ho']
  | replaceNull e w ih =>
    obtain ⟨o', ho', ho⟩ := bind_ok ho
    obtain ⟨_, _, _, rfl⟩ := visitReplaceNull_ok ho
    exact congrArg (List.map _) (ih hd ho')
  | replaceInf e w ih =>
    obtain ⟨o', ho', ho⟩ := bind_ok ho
    obtain ⟨_, rfl⟩ := visitReplaceInf_ok ho
    exact congrArg (List.map _) (ih hd ho')
  | dropNull e cols ih =>
    obtain ⟨o', ho', ho⟩ := bind_ok ho
    obtain ⟨_, _, rfl⟩ := visitDropNull_ok ho
    exact congrArg (fun t => (List.filter _ (List.filter _ t))) (ih hd ho')
  | dropInf e cols ih =>
    obtain ⟨o', ho', ho⟩ := bind_ok ho
    obtain ⟨_, rfl⟩ := visitDropInf_ok ho
    exact congrArg (List.filter _) (ih hd ho')
  | enforce e c ih =>
    obtain ⟨o', ho', ho⟩ := bind_ok ho
    obtain ⟨i, hi, _, rfl⟩ := visitEnforce_ok ho
    exact congrArg (enforce h i c) (ih hd ho')

theorem build_compile {h : Hash} {cat : Cat} {e : Expr} {s : Schema} {o : Expr.Out} (hb : build h cat e = .ok (s, o)) :
    compile h cat e = .ok o := by
  unfold build at hb
  repeat' split at hb
  all_goals first | cases hb; assumption | cases hb

/-- What core is given for a query depends on the tables it names only. -/
theorem prep_congr {env : Query.Env} {b : PB} {q : Query} {p : Plan} (h : compileQuery env b q = .ok p) {D D' : Data}
    (hd : ∀ id ∈ (child q).sources, D id = D' id) : p.prep D = p.prep D' := by
  obtain ⟨e, s, o, col, f, _, hx, hb, ht, hp⟩ := prep_ok h
  have hr : o.run D = o.run D' := run_congr e (by rw [hx.keeps.1]; exact hd) (build_compile hb)
  have hf : f D = f D' := by
    unfold truncateOut at ht
    split at ht
    · split at ht
      · cases ht
      · simp only [Except.ok.injEq, Prod.mk.injEq] at ht
        rw [← ht.2.2]
        exact congrArg (applyTruncation _ _ _) hr
    · simp only [Except.ok.injEq, Prod.mk.injEq] at ht
      rw [← ht.2.2]
      exact hr
  rcases hp with rfl | ⟨cols, _, _, hp⟩
  · exact hf
  · rw [hp]
    exact congrArg (List.map _) hf

/-! ## Proofs: sessions -/

/-- The data of the tables outside of `S` is the same. -/
def Agree (S : Set String) (D D' : Data) : Prop := ∀ n, n ∉ S → D n = D' n

/-- Tables with other names than those in `S` do not depend on the data of tables with names in `S`. -/
def Deaf (S : Set String) (tables : List (String × Tab)) : Prop :=
  ∀ p ∈ tables, p.1 ∉ S → ∀ D D', Agree S D D' → p.2.run D = p.2.run D'

theorem Deaf.resolve {S : Set String} {tables : List (String × Tab)} (h : Deaf S tables) {D D' : Data} (hd : Agree S D D') :
    Agree S (resolve tables D) (resolve tables D') := by
  intro n hn
  unfold Whole.resolve
  cases hg : Dict.get tables n with
  | none => rfl
  | some t => exact h _ (Dict.mem_of_get hg) hn D D' hd

theorem measure_deaf {ctx : Ctx} {S : Set String} {tables : List (String × Tab)} (h : Deaf S tables)
    {pub : List (String × PubFrame)} {q : Query} {ok} {b : PB} {m : Meas}
    (hm : compileM ctx tables pub (.query q ok) b = .ok m) (hq : ∀ n ∈ (child q).sources, n ∉ S) {D D' : Data}
    (hd : Agree S D D') : m.run D = m.run D' := by
  dsimp only [compileM] at hm
  split at hm
  · cases hm
  split at hm
  · cases hm
  split at hm
  · cases hm
  · next p hp =>
    split at hm
    · cases hm
    split at hm
    · cases hm
    cases hm
    exact prep_congr hp fun id hid => h.resolve hd id (hq id hid)

theorem view_deaf {ctx : Ctx} {S : Set String} {tables : List (String × Tab)} (h : Deaf S tables)
    {pub : List (String × PubFrame)} {e : Expr} {ok} {t : Tab} (ht : transform ctx tables pub (.table e ok) = .ok t)
    (he : ∀ n ∈ e.sources, n ∉ S) {D D' : Data} (hd : Agree S D D') : t.run D = t.run D' := by
  dsimp only [transform] at ht
  split at ht
  · cases ht
  split at ht
  · cases ht
  · next s o hb =>
    cases ht
    exact run_congr e (fun id hid => h.resolve hd id (he id hid)) (build_compile hb)

theorem part_run {ctx : Ctx} {tables : List (String × Tab)} {pub : List (String × PubFrame)} {src col : String}
    {vals : List Value} {t : Tab} (h : partTab ctx tables pub src col vals = .ok t) : t.run = fun D => D src := by
  unfold partTab at h
  repeat' split at h
  all_goals first | cases h; rfl | cases h

/-- The tables of a part of a table that is not in `S`. -/
theorem part_agree {ctx : Ctx} {S : Set String} {tables : List (String × Tab)} (h : Deaf S tables) {x x' : Root × Data}
    (hx : x.1 = x'.1 ∧ Agree S x.2 x'.2) {src : String} (hs : src ∉ S) (col : String) (vals : List Value) (k : Nat) :
    (partData ctx tables x src col vals k).1 = (partData ctx tables x' src col vals k).1 ∧
      Agree S (partData ctx tables x src col vals k).2 (partData ctx tables x' src col vals k).2 := by
  unfold partData
  split
  · next p t hp ht =>
    split
    · refine ⟨rfl, fun n _ => ?_⟩
      dsimp only
      rw [h _ (Dict.mem_of_get ht) hs _ _ hx.2]
    · exact hx
  · exact hx

/-- The tables of all sessions. -/
def AllDeaf (S : Set String) (ns : List (Session.Node Meas Tab)) : Prop :=
  ∀ (i : Nat) (n : Session.Node Meas Tab), ns[i]? = some n → Deaf S n.tables

theorem AllDeaf.stateOnly {S : Set String} {ns ns' : List (Session.Node Meas Tab)} (h : AllDeaf S ns)
    (so : Session.StateOnly ns ns') : AllDeaf S ns' := by
  intro i n hn
  obtain ⟨s, hs⟩ := so.get' hn
  have := h i _ hs
  exact this

theorem AllDeaf.set {S : Set String} {ns : List (Session.Node Meas Tab)} (h : AllDeaf S ns) {i : Nat}
    {n n' : Session.Node Meas Tab} (hn : ns[i]? = some n) (hd : Deaf S n'.tables) : AllDeaf S (ns.set i n') := by
  intro j m hm
  rw [Session.get_set hn n' j] at hm
  split at hm
  · cases hm; exact hd
  · exact h j m hm

theorem step_deaf {ctx : Ctx} {S : Set String} {w w' : Session.World Meas Tab PubFrame}
    {op : Session.Op Request PubFrame Value} {res : Except Session.Err (Session.Out Meas)}
    (h : Session.Step (env ctx) w op res w') (hop : ∀ n ∈ namedIn op, n ∉ S) (hd : AllDeaf S w.nodes) : AllDeaf S w'.nodes := by
  cases h with
  | reject => exact hd
  | late _ e ns h => exact hd.stateOnly (Session.activate_stateOnly h)
  | evaluate i q b n m adj ns hn hc ha hp hs =>
    exact (hd.stateOnly (Session.activate_stateOnly ha)).set (Session.activate_self hn ha) (hd i n hn)
  | createView i q name n t ns hn hi ha h1 h2 ht =>
    refine (hd.stateOnly (Session.activate_stateOnly ha)).set (Session.activate_self hn ha) ?_
    intro p hp hs D D' hDD
    simp only [List.mem_cons] at hp
    rcases hp with rfl | hp
    · cases q with
      | query q ok => cases ht
      | table e ok => exact view_deaf (ok := ok) (hd i n hn) ht hop hDD
    · exact hd i n hn p hp hs D D' hDD
  | deleteView i name n ns hn ha h1 =>
    refine (hd.stateOnly (Session.activate_stateOnly ha)).set (Session.activate_self hn ha) ?_
    exact fun p hp => hd i n hn p (List.mem_of_mem_filter hp)
  | addPublic => exact hd
  | partition i src b col splits n adj t ns hn hkm hid hadj ht ha hs =>
    have so := Session.activate_stateOnly ha
    intro j m hm
    simp only at hm
    rw [List.getElem?_append] at hm
    split at hm
    · exact (hd.stateOnly so).set (Session.activate_self hn ha) (by exact hd i n hn) j m hm
    · obtain ⟨s, _, rfl⟩ := Session.mkChildren_get _ _ _ _ _ _ _ _ hm
      intro p hp _ D D' hDD
      simp only [List.mem_singleton] at hp
      rw [hp]
      have hr := part_run (ctx := ctx) ht
      dsimp only
      rw [hr]
      exact hDD src (hop src (by simp [namedIn]))
  | stop i n hn => exact hd.stateOnly (Session.retire_stateOnly w.nodes i)

theorem bind_same {A B : Type} {P : PMF A} {f g : A → PMF B} (h : ∀ a ∈ P.support, f a = g a) : P.bind f = P.bind g := by
  ext b
  rw [PMF.bind_apply, PMF.bind_apply]
  refine tsum_congr fun a => ?_
  by_cases ha : a ∈ P.support
  · rw [h a ha]
  · rw [(P.apply_eq_zero_iff a).2 ha, zero_mul, zero_mul]

theorem transcript_deaf {ctx : Ctx} (core : Core) {S : Set String}
    {analyst : Composition.Analyst Request Meas Tab PubFrame Value Table}
    (ha : ∀ hist w, ∀ op ∈ (analyst hist w).support, ∀ n ∈ namedIn op, n ∉ S) : ∀ (n : ℕ)
    (w : Session.World Meas Tab PubFrame) (data data' : Nat → Root × Data) (hist), AllDeaf S w.nodes →
    (∀ i, (data i).1 = (data' i).1 ∧ Agree S (data i).2 (data' i).2) →
    Composition.transcript (env ctx) (sem ctx core) analyst n w data hist =
      Composition.transcript (env ctx) (sem ctx core) analyst n w data' hist
  | 0, _, _, _, _, _, _ => rfl
  | k + 1, w, data, data', hist, hw, hd => by
    rw [Composition.transcript, Composition.transcript]
    refine bind_same fun op hop => ?_
    have hop := ha hist w op hop
    have st := Session.step_cases (env ctx) w op
    have hw' := step_deaf st hop hw
    generalize (Session.step (env ctx) w op).1 = res at st ⊢
    generalize (Session.step (env ctx) w op).2 = w' at st hw' ⊢
    have hr : Composition.respond (sem ctx core) data op.target res =
        Composition.respond (sem ctx core) data' op.target res := by
      cases st with
      | evaluate i q b n m adj ns hn hc hact hp hs =>
        dsimp only [Composition.respond, Session.Op.target]
        obtain ⟨_, _, _, hcm⟩ := Session.compileInfo_ok hc
        have hm : (sem ctx core).mech m (data i) = (sem ctx core).mech m (data' i) := by
          cases q with
          | table e ok => cases hcm
          | query q ok =>
            dsimp only [sem]
            rw [measure_deaf (ok := ok) (hw i n hn) hcm hop (hd i).2]
        rw [hm]
      | _ => rfl
    rw [hr]
    congr 1
    funext r
    refine transcript_deaf core ha k _ _ _ _ hw' fun j => ?_
    cases st with
    | partition i src b col splits n adj t ns hn hkm hid hadj ht hact hs =>
      dsimp only [Composition.nextData]
      split
      · exact hd j
      · have htab : Composition.tablesOf w i = n.tables := by
          unfold Composition.tablesOf
          rw [hn]
        rw [htab]
        exact part_agree (hw i n hn) (hd i) (hop src (by simp [namedIn])) _ _ _
    | reject op e => cases op <;> exact hd j
    | late op e => cases op <;> exact hd j
    | _ => exact hd j

/-! ## C82 -/

section
variable {ctx : Ctx} {S : Set String} {sA sB : Relation.Sources} {outA outB : Relation.Output}

theorem sameBut_known (h : SameBut S sA sB) (m : Relation.Measure) (hA : Relation.initCore ctx.cast m sA = .ok outA) :
    ∃ outB, Relation.initCore ctx.cast m sB = .ok outB ∧ outA.known = outB.known := by
  have h' : List.Forall₂ (fun p q => p.1 = q.1 ∧ p.2.1.fields = q.2.1.fields ∧ p.2.2 = q.2.2) sA sB :=
    List.Forall₂.imp (fun _ _ k => ⟨k.1, k.2.1, k.2.2.1⟩) h
  have hg : Relation.generateRelation sA = Relation.generateRelation sB := by
    unfold Relation.generateRelation
    rw [Relation.same_genLoop h']
  unfold Relation.initCore at hA ⊢
  rw [hg] at hA
  cases hr : Relation.generateRelation sB with
  | error e => rw [hr] at hA; cases hA
  | ok rel =>
    rw [hr] at hA
    dsimp only at hA ⊢
    have := createCore_same (cast := ctx.cast) (frames_same h') m rel
    rw [hA] at this
    cases hB : Relation.createCore ctx.cast m (Relation.frames sB) rel with
    | error e => rw [hB] at this; cases this
    | ok outB =>
      rw [hB] at this
      exact ⟨outB, rfl, Except.ok.inj this⟩

theorem sameBut_mem (h : SameBut S sA sB) {n : String} {df : Frame} {ch : Relation.Change} (hm : (n, df, ch) ∈ sA) :
    ∃ df', (n, df', ch) ∈ sB ∧ df.fields = df'.fields ∧ (n ∉ S → df.rows = df'.rows) := by
  induction h with
  | nil => cases hm
  | @cons p q as bs hp _ ih =>
    rcases List.mem_cons.1 hm with rfl | hm
    · obtain ⟨n', df', ch'⟩ := q
      obtain ⟨h1, h2, h3, h4⟩ := hp
      dsimp only at h1 h2 h3 h4
      subst h1 h3
      exact ⟨df', List.mem_cons_self, h2, h4⟩
    · obtain ⟨df', h1, h2⟩ := ih hm
      exact ⟨df', List.mem_cons_of_mem _ h1, h2⟩

/-- **C82**: the tables a builder is given are the same, apart from the rows of tables whose names are in `S`. Whoever never
names one of those, whatever they ask of which session depending on all answers, with whatever budget, learns the same: the
distribution of everything they see is the same for both. -/
theorem C82_unread (core : Core) (hA : Relation.Stored ctx.cast sA) (hB : Relation.Stored ctx.cast sB) (h : SameBut S sA sB)
    (hoA : Relation.initCore ctx.cast (coreMeasure ctx.m) sA = .ok outA) (b : PB)
    (analyst : Composition.Analyst Request Meas Tab PubFrame Value Table)
    (ha : ∀ hist w, ∀ op ∈ (analyst hist w).support, ∀ n ∈ namedIn op, n ∉ S) (n : ℕ) :
    ∃ outB, Relation.initCore ctx.cast (coreMeasure ctx.m) sB = .ok outB ∧
      learned ctx core analyst n b outA = learned ctx core analyst n b outB := by
  obtain ⟨outB, hoB, hk⟩ := sameBut_known h _ hoA
  refine ⟨outB, hoB, ?_⟩
  have htab : startTables outA = startTables outB := startTables_known hk
  have hroot : startRoot outA = startRoot outB := by
    have hk' := hk
    simp only [Relation.Output.known, Prod.mk.injEq] at hk'
    unfold startRoot distanceOf
    simp only [htab, startTab_known hk, hk'.2.1, hk'.2.2, hk'.1]
  have hdata : Agree S (startData outA) (startData outB) := by
    intro n hS
    by_cases hn : n ∈ Dict.keys sA
    · obtain ⟨⟨df, ch⟩, h1⟩ := Dict.mem_keys.1 hn
      obtain ⟨s, h2⟩ := start_facts hA hoA h1
      obtain ⟨df', h3, h4, h5⟩ := sameBut_mem h h1
      obtain ⟨s', h6⟩ := start_facts hB hoB h3
      rw [h2.data, h6.data]
      unfold Frame.named
      rw [h4, h5 hS]
    · have hf : Relation.findReference n outA.domain = none := by
        rw [Relation.C35_missing, (Relation.C33_names hA hoA).2.2 n]
        exact hn
      have hf' : Relation.findReference n outB.domain = none := by
        have : outB.domain = outA.domain := (congrArg Prod.fst hk).symm
        rw [this]
        exact hf
      unfold startData
      rw [hf, hf']
  unfold learned
  rw [← htab]
  refine transcript_deaf core ha n _ _ _ _ ?_ fun _ => ⟨hroot, hdata⟩
  intro i m hm p hp hS D D' hD
  unfold Session.init at hm
  cases i with
  | succ i => simp at hm
  | zero =>
    cases hm
    obtain ⟨df, ch, s, _, h2, h3⟩ := start_mem hA hoA hp
    rw [h2.tab] at h3
    rw [← Option.some.inj h3]
    exact hD _ hS

/-- **C82**: if the tables that are named change as the session protects, and the others in any way, then what is learned is
protected as the budget says. -/
theorem C82_protected (hr : ctx.rounding.Lawful) {core : Core} (hcore : core.Private ctx.m) {sM : Relation.Sources}
    (hA : Relation.Stored ctx.cast sA) (hM : Relation.Stored ctx.cast sM) (hB : Relation.Stored ctx.cast sB)
    (hfA : FramesOK sA) (hfM : FramesOK sM) (hn : Relation.Neighbors sA sM) (h : SameBut S sM sB)
    (hoA : Relation.initCore ctx.cast (coreMeasure ctx.m) sA = .ok outA) {b : PB} (hb : b.Valid)
    (analyst : Composition.Analyst Request Meas Tab PubFrame Value Table)
    (hv : ∀ hist w, ∀ op ∈ (analyst hist w).support, op.BudgetValid)
    (ha : ∀ hist w, ∀ op ∈ (analyst hist w).support, ∀ n ∈ namedIn op, n ∉ S) (n : ℕ) :
    ∃ outB, Relation.initCore ctx.cast (coreMeasure ctx.m) sB = .ok outB ∧
      Composition.Within b 1 (learned ctx core analyst n b outA) (learned ctx core analyst n b outB) := by
  obtain ⟨outM, h1, _, h3⟩ := C56_session hr hcore hA hM hfA hfM hn hoA hb analyst hv n
  obtain ⟨outB, h4, h5⟩ := C82_unread core hM hB h h1 b analyst ha n
  refine ⟨outB, h4, ?_⟩
  rw [← h5]
  exact h3

end

end Verif.Whole
