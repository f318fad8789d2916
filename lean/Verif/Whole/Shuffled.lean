import Verif.Whole.Unread

/-!
# The order of rows does not matter (C84)

Spark keeps no order of rows, and data frames are read from several files and distributed to several machines. Truncation
(`enforce`, joins, partitions) must therefore not depend on it. `Shuffled` says that builders are given the same tables up to
the order of rows; the invariant `AllCalm` is that the tables and views of all sessions only change their order with it.
-/

namespace Verif.Whole

open Verif Verif.Schema Verif.Constraint Verif.Expr Verif.Query Verif.Stability
open Verif.Budget (XNum PB Rounding)

/-! ## Specification -/

/-- Tables for a builder that have the same rows, in any order. -/
def Shuffled (sA sB : Relation.Sources) : Prop :=
  List.Forall₂ (fun p q => p.1 = q.1 ∧ p.2.1.fields = q.2.1.fields ∧ p.2.2 = q.2.2 ∧ p.2.1.rows.Perm q.2.1.rows) sA sB

/-- Assumed of core: noise is added to numbers that do not depend on the order of the rows. -/
def Core.OrderFree (core : Core) : Prop := ∀ (c : Call) (t t' : Table), t.Perm t' → core.noise c t = core.noise c t'

/-! ## Proofs -/

/-- What core is given for a query depends on the order of rows only in the order of its rows. -/
theorem prep_perm {env : Query.Env} (hl : env.h.Lawful) {b : PB} {q : Query} {p : Plan} (h : compileQuery env b q = .ok p)
    (hof : OrderFree (child q)) {D D' : Data} (hd : ∀ id ∈ (child q).sources, (D id).Perm (D' id)) :
    (p.prep D).Perm (p.prep D') := by
  obtain ⟨e, s, o, col, f, _, hx, hb, ht, hp⟩ := prep_ok h
  have hr : (o.run D).Perm (o.run D') :=
    run_perm hl e (hx.keeps.2.2.2.2.1 hof) (by rw [hx.keeps.1]; exact hd) (build_compile hb)
  have hf : (f D).Perm (f D') := by
    unfold truncateOut at ht
    split at ht
    · split at ht
      · cases ht
      · simp only [Except.ok.injEq, Prod.mk.injEq] at ht
        rw [← ht.2.2]
        exact applyTruncation_congr _ hl _ _ hr
    · simp only [Except.ok.injEq, Prod.mk.injEq] at ht
      rw [← ht.2.2]
      exact hr
  rcases hp with rfl | ⟨cols, _, _, hp⟩
  · exact hf
  · rw [hp]
    exact hf.map _

/-- The tables have the same rows. -/
def Reordered (D D' : Data) : Prop := ∀ n, (D n).Perm (D' n)

/-- Tables only change their order with the order of the data. -/
def Calm (tables : List (String × Tab)) : Prop := ∀ p ∈ tables, ∀ D D', Reordered D D' → (p.2.run D).Perm (p.2.run D')

theorem Calm.resolve {tables : List (String × Tab)} (h : Calm tables) {D D' : Data} (hd : Reordered D D') :
    Reordered (resolve tables D) (resolve tables D') := by
  intro n
  unfold Whole.resolve
  cases hg : Dict.get tables n with
  | none => exact .refl _
  | some t => exact h _ (Dict.mem_of_get hg) D D' hd

theorem measure_calm {ctx : Ctx} {tables : List (String × Tab)} (h : Calm tables) {pub : List (String × PubFrame)} {q : Query}
    {ok : Admissible (child q)} {b : PB} {m : Meas} (hm : compileM ctx tables pub (.query q ok) b = .ok m) {D D' : Data}
    (hd : Reordered D D') : (m.run D).Perm (m.run D') := by
  dsimp only [compileM] at hm
  split at hm
  · cases hm
  split at hm
  · cases hm
  split at hm
  · cases hm
  · next p hp =>
    split at hm
    · cases hm
    split at hm
    · cases hm
    cases hm
    exact prep_perm ctx.lawful hp ok.orderFree fun id _ => h.resolve hd id

theorem view_calm {ctx : Ctx} {tables : List (String × Tab)} (h : Calm tables) {pub : List (String × PubFrame)} {e : Expr}
    {ok : Admissible e} {t : Tab} (ht : transform ctx tables pub (.table e ok) = .ok t) {D D' : Data} (hd : Reordered D D') :
    (t.run D).Perm (t.run D') := by
  dsimp only [transform] at ht
  split at ht
  · cases ht
  split at ht
  · cases ht
  · next s o hb =>
    cases ht
    exact run_perm ctx.lawful e ok.orderFree (fun id _ => h.resolve hd id) (build_compile hb)

theorem cutRows_congr {h : Hash} (hl : h.Lawful) (col : String) (cut : Cut) {s t : Table} (hp : s.Perm t) :
    (cutRows h col cut s).Perm (cutRows h col cut t) := by
  cases cut with
  | rows => exact hp
  | groupsOfID i g => exact C15_order_independent h hl i (.maxGroupsPerID col g) hp
  | rowsOfID i r => exact C15_order_independent h hl i (.maxRowsPerID r) hp

/-- The tables of a part. -/
theorem part_alike {ctx : Ctx} {tables : List (String × Tab)} (h : Calm tables) {x x' : Root × Data}
    (hx : x.1 = x'.1 ∧ Reordered x.2 x'.2) (src col : String) (vals : List Value) (k : Nat) :
    (partData ctx tables x src col vals k).1 = (partData ctx tables x' src col vals k).1 ∧
      Reordered (partData ctx tables x src col vals k).2 (partData ctx tables x' src col vals k).2 := by
  unfold partData
  split
  · next p t hp ht =>
    split
    · refine ⟨rfl, fun n => ?_⟩
      dsimp only
      split
      · exact (cutRows_congr ctx.lawful _ _ (h _ (Dict.mem_of_get ht) _ _ hx.2)).filter _
      · exact .refl _
    · exact hx
  · exact hx

/-- The tables of all sessions. -/
def AllCalm (ns : List (Session.Node Meas Tab)) : Prop :=
  ∀ (i : Nat) (n : Session.Node Meas Tab), ns[i]? = some n → Calm n.tables

theorem AllCalm.stateOnly {ns ns' : List (Session.Node Meas Tab)} (h : AllCalm ns) (so : Session.StateOnly ns ns') :
    AllCalm ns' := by
  intro i n hn
  obtain ⟨s, hs⟩ := so.get' hn
  have := h i _ hs
  exact this

theorem AllCalm.set {ns : List (Session.Node Meas Tab)} (h : AllCalm ns) {i : Nat} {n n' : Session.Node Meas Tab}
    (hn : ns[i]? = some n) (hd : Calm n'.tables) : AllCalm (ns.set i n') := by
  intro j m hm
  rw [Session.get_set hn n' j] at hm
  split at hm
  · cases hm; exact hd
  · exact h j m hm

theorem step_calm {ctx : Ctx} {w w' : Session.World Meas Tab PubFrame} {op : Session.Op Request PubFrame Value}
    {res : Except Session.Err (Session.Out Meas)} (h : Session.Step (env ctx) w op res w') (hd : AllCalm w.nodes) :
    AllCalm w'.nodes := by
  cases h with
  | reject => exact hd
  | late _ e ns h => exact hd.stateOnly (Session.activate_stateOnly h)
  | evaluate i q b n m adj ns hn hc ha hp hs =>
    exact (hd.stateOnly (Session.activate_stateOnly ha)).set (Session.activate_self hn ha) (hd i n hn)
  | createView i q name n t ns hn hi ha h1 h2 ht =>
    refine (hd.stateOnly (Session.activate_stateOnly ha)).set (Session.activate_self hn ha) ?_
    intro p hp D D' hDD
    simp only [List.mem_cons] at hp
    rcases hp with rfl | hp
    · cases q with
      | query q ok => cases ht
      | table e ok => exact view_calm (ok := ok) (hd i n hn) ht hDD
    · exact hd i n hn p hp D D' hDD
  | deleteView i name n ns hn ha h1 =>
    refine (hd.stateOnly (Session.activate_stateOnly ha)).set (Session.activate_self hn ha) ?_
    exact fun p hp => hd i n hn p (List.mem_of_mem_filter hp)
  | addPublic => exact hd
  | partition i src b col splits n adj t ns hn hkm hid hadj ht ha hs =>
    have so := Session.activate_stateOnly ha
    intro j m hm
    simp only at hm
    rw [List.getElem?_append] at hm
    split at hm
    · exact (hd.stateOnly so).set (Session.activate_self hn ha) (by exact hd i n hn) j m hm
    · obtain ⟨s, _, rfl⟩ := Session.mkChildren_get _ _ _ _ _ _ _ _ hm
      intro p hp D D' hDD
      simp only [List.mem_singleton] at hp
      rw [hp]
      have hr := part_run (ctx := ctx) ht
      dsimp only
      rw [hr]
      exact hDD src
  | stop i n hn => exact hd.stateOnly (Session.retire_stateOnly w.nodes i)

theorem transcript_calm {ctx : Ctx} {core : Core} (hcore : core.OrderFree)
    {analyst : Composition.Analyst Request Meas Tab PubFrame Value Table} : ∀ (n : ℕ)
    (w : Session.World Meas Tab PubFrame) (data data' : Nat → Root × Data) (hist), AllCalm w.nodes →
    (∀ i, (data i).1 = (data' i).1 ∧ Reordered (data i).2 (data' i).2) →
    Composition.transcript (env ctx) (sem ctx core) analyst n w data hist =
      Composition.transcript (env ctx) (sem ctx core) analyst n w data' hist
  | 0, _, _, _, _, _, _ => rfl
  | k + 1, w, data, data', hist, hw, hd => by
    rw [Composition.transcript, Composition.transcript]
    refine bind_same fun op hop => ?_
    have st := Session.step_cases (env ctx) w op
    have hw' := step_calm st hw
    generalize (Session.step (env ctx) w op).1 = res at st ⊢
    generalize (Session.step (env ctx) w op).2 = w' at st hw' ⊢
    have hr : Composition.respond (sem ctx core) data op.target res =
        Composition.respond (sem ctx core) data' op.target res := by
      cases st with
      | evaluate i q b n m adj ns hn hc hact hp hs =>
        dsimp only [Composition.respond, Session.Op.target]
        obtain ⟨_, _, _, hcm⟩ := Session.compileInfo_ok hc
        have hm : (sem ctx core).mech m (data i) = (sem ctx core).mech m (data' i) := by
          cases q with
          | table e ok => cases hcm
          | query q ok =>
            dsimp only [sem]
            rw [hcore m.call _ _ (measure_calm (ok := ok) (hw i n hn) hcm (hd i).2)]
        rw [hm]
      | _ => rfl
    rw [hr]
    congr 1
    funext r
    refine transcript_calm hcore k _ _ _ _ hw' fun j => ?_
    cases st with
    | partition i src b col splits n adj t ns hn hkm hid hadj ht hact hs =>
      dsimp only [Composition.nextData]
      split
      · exact hd j
      · have htab : Composition.tablesOf w i = n.tables := by
          unfold Composition.tablesOf
          rw [hn]
        rw [htab]
        exact part_alike (hw i n hn) (hd i) _ _ _ _
    | reject op e => cases op <;> exact hd j
    | late op e => cases op <;> exact hd j
    | _ => exact hd j

theorem shuffled_mem {sA sB : Relation.Sources} (h : Shuffled sA sB) {n : String} {df : Frame} {ch : Relation.Change}
    (hm : (n, df, ch) ∈ sA) : ∃ df', (n, df', ch) ∈ sB ∧ df.fields = df'.fields ∧ df.rows.Perm df'.rows := by
  induction h with
  | nil => cases hm
  | @cons p q as bs hp _ ih =>
    rcases List.mem_cons.1 hm with rfl | hm
    · obtain ⟨n', df', ch'⟩ := q
      obtain ⟨h1, h2, h3, h4⟩ := hp
      dsimp only at h1 h2 h3 h4
      subst h1 h3
      exact ⟨df', List.mem_cons_self, h2, h4⟩
    · obtain ⟨df', h1, h2⟩ := ih hm
      exact ⟨df', List.mem_cons_of_mem _ h1, h2⟩

/-- **C84**: sessions on the same tables with the rows in another order. Whatever is asked of them, depending on all answers
and with whatever budget, the distribution of everything that is returned and raised is the same. -/
theorem C84_order {ctx : Ctx} {sA sB : Relation.Sources} {outA : Relation.Output} {core : Core} (hcore : core.OrderFree)
    (hA : Relation.Stored ctx.cast sA) (hB : Relation.Stored ctx.cast sB) (h : Shuffled sA sB)
    (hoA : Relation.initCore ctx.cast (coreMeasure ctx.m) sA = .ok outA) (b : PB)
    (analyst : Composition.Analyst Request Meas Tab PubFrame Value Table) (n : ℕ) :
    ∃ outB, Relation.initCore ctx.cast (coreMeasure ctx.m) sB = .ok outB ∧
      learned ctx core analyst n b outA = learned ctx core analyst n b outB := by
  have hbut : SameBut Set.univ sA sB :=
    List.Forall₂.imp (fun _ _ k => ⟨k.1, k.2.1, k.2.2.1, fun hn => absurd (Set.mem_univ _) hn⟩) h
  obtain ⟨outB, hoB, hk⟩ := sameBut_known hbut _ hoA
  refine ⟨outB, hoB, ?_⟩
  have htab : startTables outA = startTables outB := startTables_known hk
  have hroot : startRoot outA = startRoot outB := by
    have hk' := hk
    simp only [Relation.Output.known, Prod.mk.injEq] at hk'
    unfold startRoot distanceOf
    simp only [htab, startTab_known hk, hk'.2.1, hk'.2.2, hk'.1]
  have hdata : Reordered (startData outA) (startData outB) := by
    intro n
    by_cases hn : n ∈ Dict.keys sA
    · obtain ⟨⟨df, ch⟩, h1⟩ := Dict.mem_keys.1 hn
      obtain ⟨s, h2⟩ := start_facts hA hoA h1
      obtain ⟨df', h3, h4, h5⟩ := shuffled_mem h h1
      obtain ⟨s', h6⟩ := start_facts hB hoB h3
      rw [h2.data, h6.data]
      unfold Frame.named
      rw [h4]
      exact h5.map _
    · have hf : Relation.findReference n outA.domain = none := by
        rw [Relation.C35_missing, (Relation.C33_names hA hoA).2.2 n]
        exact hn
      have hf' : Relation.findReference n outB.domain = none := by
        have : outB.domain = outA.domain := (congrArg Prod.fst hk).symm
        rw [this]
        exact hf
      unfold startData
      rw [hf, hf']
  unfold learned
  rw [← htab]
  refine transcript_calm hcore n _ _ _ _ ?_ fun _ => ⟨hroot, hdata⟩
  intro i m hm p hp D D' hD
  unfold Session.init at hm
  cases i with
  | succ i => simp at hm
  | zero =>
    cases hm
    obtain ⟨df, ch, s, _, h2, h3⟩ := start_mem hA hoA hp
    rw [h2.tab] at h3
    rw [← Option.some.inj h3]
    exact hD _

end Verif.Whole
