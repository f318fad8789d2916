import Verif.Whole.Describe
import Verif.Whole.AnswersChain
import Verif.Whole.SessionFits

/-!
# C77: descriptions of tables and queries are true
-/

namespace Verif.Whole

open Verif Verif.Schema Verif.Constraint Verif.Expr Verif.Query Verif.Stability
open Verif.Budget (XNum PB Rounding)
open Verif.Session (Op World)

theorem run_snoc {Q M T D V : Type} [DecidableEq V] (env : Session.Env Q M T D V) (w : Session.World M T D)
    (ops : List (Session.Op Q D V)) (op : Session.Op Q D V) :
    Session.run env w (ops ++ [op]) = (Session.step env (Session.run env w ops) op).2 := by
  induction ops generalizing w with
  | nil => rfl
  | cons a l ih => exact ih _

theorem sameTable_of {s s' : Schema} (w : s.WF) (w' : s'.WF) (hd : analyticsToSparkColumns s = analyticsToSparkColumns s')
    (hi : s.idColumn = s'.idColumn) (hg : s.grouping = s'.grouping) (hsp : s.idSpace = s'.idSpace) : SameTable s s' := by
  refine ⟨?_, hi, hg, fun _ => hsp⟩
  rw [analytics_dom w, analytics_dom w', map_eq_forall₂] at hd
  refine hd.imp ?_
  rintro ⟨n, ⟨t, x, y, z⟩⟩ ⟨n', ⟨t', x', y', z'⟩⟩ h
  simp only [Prod.mk.injEq] at h
  obtain ⟨rfl, h⟩ := h
  cases t <;> cases t' <;> simp [toSparkDesc] at h ⊢ <;> simp_all

/-- Describing a private table. -/
theorem build_source {h : Hash} {cat : Cat} (hc : cat.OK) {id : String} {s : Schema} {cs : List Constraint}
    (hg : Dict.get cat.priv id = some (s, cs)) (hp : id ∉ Dict.keys cat.pub) :
    ∃ o, build h cat (.source id) = .ok (s, o) ∧ o.cons = cs := by
  obtain ⟨w, _, nb⟩ := hc.priv _ _ _ hg
  refine ⟨⟨analyticsToSparkColumns s, metricOf s, s.idSpace, cs, fun D => D id⟩, ?_, rfl⟩
  have hs : schemaOf cat (.source id) = .ok s := by
    simp only [schemaOf, schSource, hg]
    rw [if_neg hp]
  have hv : validate s ⟨analyticsToSparkColumns s, metricOf s, s.idSpace, cs, fun D => D id⟩ = .ok () := by
    have h1 : Dict.pyEq (analyticsToSparkColumns s) (analyticsToSparkColumns s) = true :=
      (Dict.pyEq_iff (wf_analytics s) (wf_analytics s)).2 (fun _ _ => Iff.rfl)
    unfold validate
    rw [if_neg, if_neg (by simp [h1]), if_neg (by simp)]
    rintro ⟨h2, h3⟩
    rw [nb h3] at h2
    cases h2
  unfold build
  rw [hs]
  simp only [compile, visitSource, hg]
  rw [hv]

section
variable {ctx : Ctx} {sources : Relation.Sources} {out : Relation.Output}

/-- **C77** for builders: in a session that was made by the builder or by partitions, at any time before it is stopped,
`describe(builder)` says exactly what `describe(name)` and `describe()` say of the view that `create_view(builder, name)`
makes; if there is no such view, it fails with the same exception. -/
theorem C77_view (core : Core) (hst : Relation.Stored ctx.cast sources) (hf : FramesOK sources)
    (h : Relation.initCore ctx.cast (coreMeasure ctx.m) sources = .ok out) (b : PB)
    (ops : List (Op Request PubFrame Value)) (w : World Meas Tab PubFrame)
    (hw : w = Session.run (env ctx) (Session.init b (startTables out)) ops) (i : Nat) (n : Session.Node Meas Tab)
    (hn : w.nodes[i]? = some n) (hlive : n.state ≠ .retired) (e : Expr) (ok : Admissible e) (name : String)
    (hid : ctx.isIdent name = true) (h1 : name ∉ Session.names n.tables) (h2 : name ∉ Session.names (w.pubOf n))
    (res : Except Session.Err (Session.Out Meas)) (w' : World Meas Tab PubFrame)
    (hstep : Session.step (env ctx) w (.createView i (.table e ok) name) = (res, w')) :
    (∀ x, describeObj ctx n.tables (w.pubOf n) (.builder e) = .error x → res = .error (toErr x)) ∧
    ∀ d, describeObj ctx n.tables (w.pubOf n) (.builder e) = .ok d →
      res = .ok .none ∧ ∃ n', w'.nodes[i]? = some n' ∧ describeObj ctx n'.tables (w'.pubOf n') (.name name) = .ok d ∧
        ∃ priv pub s, describe n'.tables (w'.pubOf n') = .ok (priv, pub) ∧ (name, s, d.constraints) ∈ priv ∧
          describeSchema s = d.table := by
  have hre := reached core hst hf h b ops i n (by rw [← hw]; exact hn)
  rw [← hw] at hre
  obtain ⟨R, tok⟩ := hre.tabs
  obtain ⟨cat, hcat⟩ := catalog_total hre.names hre.pubNames tok hre.pub
  have cf := cat_facts hcat tok
  obtain ⟨ns, ha⟩ := Session.activate_ok hn hlive
  have hself := Session.activate_self hn ha
  have hnt : ((Session.names n.tables).contains name || (Session.names (w.pubOf n)).contains name) = false := by
    simp [h1, h2]
  have hpub : w.pubOf { n with state := .active } = w.pubOf n := rfl
  have hd : describeObj ctx n.tables (w.pubOf n) (.builder e) =
      match build ctx.h cat e with
      | .error x => .error x
      | .ok (s, o) => .ok ⟨describeSchema s, o.cons, none⟩ := by
    simp only [describeObj, describeExpr, hcat]
    cases build ctx.h cat e <;> rfl
  cases hb : build ctx.h cat e with
  | error x =>
    rw [hb] at hd
    dsimp only at hd
    rw [hd]
    refine ⟨fun y hy => ?_, nofun⟩
    cases hy
    have : Session.step (env ctx) w (.createView i (.table e ok) name) = (.error (toErr x), { w with nodes := ns }) := by
      simp only [Session.step, Session.createView, hn, env, hid, Bool.not_true, Bool.false_eq_true, if_false, ha, hself, hpub,
        hnt, transform, hcat, hb]
    rw [this] at hstep
    cases hstep
    rfl
  | ok so =>
    obtain ⟨s, o⟩ := so
    rw [hb] at hd
    dsimp only at hd
    rw [hd]
    refine ⟨nofun, fun d hd' => ?_⟩
    cases hd'
    obtain ⟨hs, ho, _, heq, hmet⟩ := build_ok hb
    have ag := agree cf.ok e ok.wf hs ho
    obtain ⟨t, e1, e2, e3, e4, hst'⟩ : ∃ t : Tab, t.dom = o.dom ∧ t.metric = o.metric ∧ t.space = o.space ∧ t.cons = o.cons ∧
        Session.step (env ctx) w (.createView i (.table e ok) name) =
          (.ok .none, { w with nodes := ns.set i { n with state := .active, tables := (name, t) :: n.tables } }) := by
      refine ⟨⟨o.dom, o.metric, o.space, o.cons, outDist (decide (ctx.m = .zCDP)) ctx.h cat n.tables o e,
        fun D => o.run (resolve n.tables D)⟩, rfl, rfl, rfl, rfl, ?_⟩
      simp only [Session.step, Session.createView, hn, env, hid, Bool.not_true, Bool.false_eq_true, if_false, ha, hself, hpub,
        hnt, transform, hcat, hb]
    have hw' : w' = Session.run (env ctx) (Session.init b (startTables out)) (ops ++ [.createView i (.table e ok) name]) := by
      rw [run_snoc, ← hw]
      show w' = (Session.step (env ctx) w (.createView i (.table e ok) name)).2
      rw [hstep]
    rw [hst'] at hstep
    cases hstep
    have hn' : (ns.set i { n with state := .active, tables := (name, t) :: n.tables })[i]? =
        some { n with state := .active, tables := (name, t) :: n.tables } := by
      rw [Session.get_set hself]
      exact if_pos rfl
    refine ⟨rfl, _, hn', ?_⟩
    have hre' := reached core hst hf h b (ops ++ [.createView i (.table e ok) name]) i _ (by rw [← hw']; exact hn')
    rw [← hw'] at hre'
    obtain ⟨R', tok'⟩ := hre'.tabs
    obtain ⟨cat', hcat'⟩ := catalog_total hre'.names hre'.pubNames tok' hre'.pub
    have cf' := cat_facts hcat' tok'
    obtain ⟨hpriv, hpubc⟩ := catalog_ok hcat'
    obtain ⟨dd, d1, d2, _⟩ := pubCat_total hre'.pubNames hre'.pub
    rw [hpubc] at d1
    cases d1
    have tk := tok' (name, t) List.mem_cons_self
    obtain ⟨s', hs', _⟩ := tk.schema
    obtain ⟨rest, hrest⟩ : ∃ rest, cat'.priv = (name, (s', t.cons)) :: rest := by
      dsimp only [privCat] at hpriv
      rw [hs'] at hpriv
      split at hpriv
      · next hh _ =>
        cases hh
        split at hpriv
        · cases hpriv
        · exact ⟨_, (Except.ok.inj hpriv).symm⟩
      · next hh => cases hh
      · cases hpriv
    have hget : Dict.get cat'.priv name = some (s', t.cons) := by
      rw [hrest, Dict.get_cons]
      exact if_pos rfl
    obtain ⟨o', hb', hc'⟩ := build_source (h := ctx.h) cf'.ok hget (by rw [d2]; exact h2)
    have sf := t.schema_for tk.wf hs'
    have hsame : describeSchema s' = describeSchema s := by
      refine (C77_table sf.wf ag.wfs).2 (sameTable_of sf.wf ag.wfs ?_ ?_ ?_ ?_)
      · rw [sf.dom, e1]
        exact Dict.ext_get ag.wfd (wf_analytics s) (by rw [ag.keys, keys_analytics ag.wfs])
          fun c => Option.ext fun v => by
            rw [Dict.get_eq_some ag.wfd, Dict.get_eq_some (wf_analytics s)]
            exact (Dict.pyEq_iff ag.wfd (wf_analytics s)).1 heq c v
      · rw [sf.idColumn, e2, hmet]
        unfold metricOf
        cases hi : s.idColumn <;> cases hgr : s.grouping <;> simp_all [idOf]
      · have := ag.noBoth
        rw [sf.grouping, e2, hmet]
        unfold metricOf
        cases hi : s.idColumn <;> cases hgr : s.grouping <;> simp_all [groupOf]
      · rw [sf.idSpace, e3, ag.space]
    refine ⟨?_, cat'.priv, cat'.pub.map (fun p => (p.1, p.2.1)), s', ?_, ?_, hsame⟩
    · simp only [describeObj, newBuilder, hid, if_true, describeExpr, hcat', hb', hsame, hc', e4]
    · simp only [describe, hcat']
      rw [if_neg (by rw [hrest]; simp)]
    · rw [hrest, e4]
      exact List.mem_cons_self

theorem session_catalog (core : Core) (hst : Relation.Stored ctx.cast sources) (hf : FramesOK sources)
    (h : Relation.initCore ctx.cast (coreMeasure ctx.m) sources = .ok out) (b : PB)
    (ops : List (Op Request PubFrame Value)) (w : World Meas Tab PubFrame)
    (hw : w = Session.run (env ctx) (Session.init b (startTables out)) ops) (i : Nat) (n : Session.Node Meas Tab)
    (hn : w.nodes[i]? = some n) :
    ∃ cat, catalog n.tables (w.pubOf n) = .ok cat ∧ cat.OK ∧ Dict.keys cat.priv = Session.names n.tables ∧
      Dict.keys cat.pub = Session.names (w.pubOf n) := by
  have hre := reached core hst hf h b ops i n (by rw [← hw]; exact hn)
  rw [← hw] at hre
  obtain ⟨R, tok⟩ := hre.tabs
  obtain ⟨d, d1, d2, _⟩ := privCat_total hre.names tok
  obtain ⟨p, p1, p2, _⟩ := pubCat_total hre.pubNames hre.pub
  have hcat : catalog n.tables (w.pubOf n) = .ok ⟨d, p⟩ := by unfold catalog; rw [d1, p1]
  exact ⟨_, hcat, (cat_facts hcat tok).ok, d2, p2⟩

/-- **C77** for names: `describe(name)` says of a private table what `describe()` says of it, and so what the getters say
(`C60_reports`). -/
theorem C77_name (core : Core) (hst : Relation.Stored ctx.cast sources) (hf : FramesOK sources)
    (h : Relation.initCore ctx.cast (coreMeasure ctx.m) sources = .ok out) (b : PB)
    (ops : List (Op Request PubFrame Value)) (w : World Meas Tab PubFrame)
    (hw : w = Session.run (env ctx) (Session.init b (startTables out)) ops) (i : Nat) (n : Session.Node Meas Tab)
    (hn : w.nodes[i]? = some n) (id : String) (hid : ctx.isIdent id = true) (hin : id ∈ Session.names n.tables)
    (hp : id ∉ Session.names (w.pubOf n)) :
    ∃ s cs priv pub, describeObj ctx n.tables (w.pubOf n) (.name id) = .ok ⟨describeSchema s, cs, none⟩ ∧
      describe n.tables (w.pubOf n) = .ok (priv, pub) ∧ (id, s, cs) ∈ priv := by
  obtain ⟨cat, hcat, hok, h1, h2⟩ := session_catalog core hst hf h b ops w hw i n hn
  rw [← h1] at hin
  rw [← h2] at hp
  cases hg : Dict.get cat.priv id with
  | none => exact absurd hin (Dict.get_eq_none.1 hg)
  | some v =>
    obtain ⟨s, cs⟩ := v
    obtain ⟨o, hb, ho⟩ := build_source (h := ctx.h) hok hg hp
    refine ⟨s, cs, cat.priv, cat.pub.map (fun p => (p.1, p.2.1)), ?_, ?_, Dict.mem_of_get hg⟩
    · simp only [describeObj, newBuilder, hid, if_true, describeExpr, hcat, hb, ho]
    · simp only [describe, hcat]
      rw [if_neg]
      intro h0
      rw [h0] at hg
      cases hg

/-- **C77** fails for public tables: `describe(name)` raises `ValueError` for them, as for names of no table. -/
theorem C77_public_fails (core : Core) (hst : Relation.Stored ctx.cast sources) (hf : FramesOK sources)
    (h : Relation.initCore ctx.cast (coreMeasure ctx.m) sources = .ok out) (b : PB)
    (ops : List (Op Request PubFrame Value)) (w : World Meas Tab PubFrame)
    (hw : w = Session.run (env ctx) (Session.init b (startTables out)) ops) (i : Nat) (n : Session.Node Meas Tab)
    (hn : w.nodes[i]? = some n) (id : String) (hid : id ∉ Session.names n.tables ∨ id ∈ Session.names (w.pubOf n)) :
    describeObj ctx n.tables (w.pubOf n) (.name id) = .error .value := by
  obtain ⟨cat, hcat, hok, h1, h2⟩ := session_catalog core hst hf h b ops w hw i n hn
  rw [← h1, ← h2] at hid
  by_cases hi : ctx.isIdent id = true
  · have hs : schemaOf cat (.source id) = .error .value := by
      simp only [schemaOf, schSource]
      by_cases hp : id ∈ Dict.keys cat.pub
      · rw [if_pos hp]
      · rw [if_neg hp]
        rcases hid with hid | hid
        · rw [Dict.get_eq_none.2 hid]
        · exact absurd hid hp
    have hb : build ctx.h cat (.source id) = .error .value := by
      unfold build
      rw [hs]
    simp only [describeObj, newBuilder, hi, if_true, describeExpr, hcat, hb]
  · simp only [describeObj, newBuilder, hi, Bool.false_eq_true, if_false]

/-! ## Queries -/

/-- Assumed of core, for one aggregation: each row of the answer is the row of a group of some table, by the rules of
`CoreOK`, after its key, which is one of the KeySet or of the data. -/
def RowsOf (c : Call) (ty : String → Option ColumnType) (t out : Table) : Prop :=
  ∀ r ∈ out, ∃ f t', CoreOK f ty ∧
    if c.keys.columns = [] then r = f c.task t'
    else ∃ key, r = key ++ f c.task t' ∧
      match c.keys with
      | .set k => key ∈ k.rows
      | .cols cs => ∃ r' ∈ t, key = cs.map (fun c => (c, cell r' c))

theorem groupedAnswer_const {cols : List String} (hne : cols ≠ []) (keys : List Row) (x : Row) (t : Table) :
    groupedAnswer cols keys (fun _ => x) t = keys.map (fun k => k ++ x) :=
  groupedAnswer_eq hne keys _ t

theorem answered_plan {w : World Meas Tab PubFrame} {i : Nat} {q : Query} {ok : Admissible (child q)} {b : PB} {m : Meas}
    {amt : PB} (hev : (Session.step (env ctx) w (.evaluate i (.query q ok) b)).1 = .ok (.answer m amt)) :
    ∃ n cat pl s, w.nodes[i]? = some n ∧ catalog n.tables (w.pubOf n) = .ok cat ∧
      compileQuery ⟨ctx.h, ctx.order, ctx.m, cat⟩ amt q = .ok pl ∧ q.schema cat = .ok s ∧ m.call.keys = pl.keys ∧
      m.call.task = pl.task ∧ (∀ D, m.run D = pl.prep (resolve n.tables D)) ∧ m.post = pl.post := by
  have st := Session.step_cases (env ctx) w (.evaluate i (.query q ok) b)
  rw [hev] at st
  generalize (Session.step (env ctx) w (.evaluate i (.query q ok) b)).2 = w' at st
  cases st with
  | evaluate _ _ _ n _ _ ns hn hcomp ha hp hs =>
  have hm : compileM ctx n.tables (w.pubOf n) (.query q ok) amt = .ok m := by
    unfold Session.compileInfo at hcomp
    dsimp only at hcomp
    split at hcomp
    · cases hcomp
    split at hcomp
    · cases hcomp
    split at hcomp
    · cases hcomp
    split at hcomp
    · cases hcomp
    next m' hm' => cases hcomp; exact hm'
  obtain ⟨cat, pl, hcat, hpl, _, _, hkeys, htask, hrun, hpost⟩ := compileM_plan hm
  obtain ⟨s, hsch⟩ : ∃ s, q.schema cat = .ok s := by
    have := hpl
    unfold compileQuery at this
    split at this
    · cases this
    · next s hs => exact ⟨s, hs⟩
  exact ⟨n, cat, pl, s, hn, hcat, hpl, hsch, hkeys, htask, hrun, hpost⟩

theorem respond_support {core : Core} {data : Nat → Root × Data} {i : Nat} {m : Meas} {amt : PB}
    {r : Composition.Reply Meas Table}
    (hr : r ∈ (Composition.respond (sem ctx core) data i (.ok (.answer m amt))).support) :
    ∃ ans ∈ (core.noise m.call (m.run (data i).2)).support, r = (.ok (.answer m amt), some (m.post ans)) := by
  dsimp only [Composition.respond] at hr
  simp only [PMF.support_bind, Set.mem_iUnion, PMF.support_pure, Set.mem_singleton_iff] at hr
  obtain ⟨t, ht, rfl⟩ := hr
  simp only [sem, PMF.support_bind, Set.mem_iUnion, PMF.support_pure, Set.mem_singleton_iff] at ht
  obtain ⟨ans, hans, rfl⟩ := ht
  exact ⟨ans, hans, rfl⟩

/-- **C77** for queries (partial: as `C59_answer_partial`, and for core by the contract `RowsOf`). In a session that was made
by the builder or by partitions, after any calls, if `evaluate` answers a query then `describe` of it succeeds, and every
answer is a table of the schema that it shows. -/
theorem C77_answer_partial (core : Core) (hst : Relation.Stored ctx.cast sources) (hf : FramesOK sources)
    (h : Relation.initCore ctx.cast (coreMeasure ctx.m) sources = .ok out) (b₀ : PB)
    (ops : List (Op Request PubFrame Value)) (w : World Meas Tab PubFrame)
    (hw : w = Session.run (env ctx) (Session.init b₀ (startTables out)) ops) (data : Nat → Root × Data)
    (hdata : data = dataAfter ctx core (Session.init b₀ (startTables out)) (fun _ => (startRoot out, startData out)) ops)
    (i : Nat) (q : Query) (ok : Admissible (child q)) (b : PB) (m : Meas) (amt : PB)
    (hev : (Session.step (env ctx) w (.evaluate i (.query q ok) b)).1 = .ok (.answer m amt)) :
    ∃ n cat s, w.nodes[i]? = some n ∧ catalog n.tables (w.pubOf n) = .ok cat ∧
      describeObj ctx n.tables (w.pubOf n) (.query q) = .ok ⟨describeSchema s, [], none⟩ ∧
      ∀ a s₀, q.agg? = some a → schemaOf cat a.child = .ok s₀ → a.keys.OK → a.keys.NullsOK s → (outColumns a).Nodup →
        (∀ c ∈ outColumns a, c ∉ a.keys.columns) →
        (∀ t, ∀ ans ∈ (core.noise m.call t).support, RowsOf m.call (fun c => (Dict.get s₀.descs c).map Desc.ty) t ans) →
        ∀ r ∈ (Composition.respond (sem ctx core) data i
          (Session.step (env ctx) w (.evaluate i (.query q ok) b)).1).support,
          ∃ rows, r = (.ok (.answer m amt), some rows) ∧ Conforms s rows := by
  have inv := (start_inv hst hf h b₀).run (core := core) ops
  rw [← hw, ← hdata] at inv
  obtain ⟨n, cat, pl, s, hn, hcat, hpl, hsch, hkeys, htask, hrun, hpost⟩ := answered_plan hev
  rw [hev]
  obtain ⟨σ, near⟩ := inv.near i (Composition.lt_of_get hn)
  have cf := cat_facts hcat (inv.tabs i n hn)
  refine ⟨n, cat, s, hn, hcat, by simp only [describeObj, hcat, hsch], ?_⟩
  intro a s₀ hq hs₀ hk hnull hnd hdis hcore r hr
  have hch : child q = a.child := by cases q <;> cases hq <;> rfl
  rw [hch] at ok
  obtain ⟨ans, hans, rfl⟩ := respond_support hr
  refine ⟨_, rfl, ?_⟩
  have hrows := hcore _ _ hans
  rw [hpost]
  intro r hr
  have hpk := (compileQuery_budget hq hpl).2.2
  have hin : r ∈ ans ∧ ∀ out' : Table, r ∈ out' → r ∈ pl.post out' := by
    rw [compiled_post hq hpl] at hr ⊢
    cases q with
    | groups e cols => cases hq
    | agg a' => exact ⟨hr, fun _ h => h⟩
    | suppress a' c' t' =>
      obtain ⟨h1, h2⟩ := List.mem_filter.1 hr
      exact ⟨h1, fun out' h => List.mem_filter.2 ⟨h, h2⟩⟩
  obtain ⟨f, t', hfok, hform⟩ := hrows r hin.1
  have hD := cf.data _ near.conf
  have done : ∀ keys, pl.KeysFor (resolve n.tables (data i).2) keys →
      (m.call.keys.columns ≠ [] → ∃ key ∈ keys, r = key ++ f m.call.task t') → RowFits s.columnDescs.elements r := by
    intro keys hkf hkey
    refine (C59_answer_partial ⟨ctx.h, ctx.order, ctx.m, cat⟩ amt q a pl s cf.ok hq ok.wf ok.fns ok.renames hk hnull hnd hdis hsch
      hpl (fun task _ => f task t') ?_ _ hD keys hkf).2.2.2 r (hin.2 _ ?_)
    · intro s₁ hs₁
      rw [hs₀] at hs₁
      cases hs₁
      exact ⟨fun o _ => hfok.count o t', fun o _ => hfok.countDistinct o t', fun c x l u o _ => hfok.quantile c x l u o t',
        fun c T l u o _ => hfok.sum c T l u o t', fun st c l u o _ => hfok.other st c l u o t',
        fun c T l u _ => hfok.bounds c T l u t', fun _ => hfok.groups t'⟩
    · rw [← hkeys, ← htask]
      by_cases hc : m.call.keys.columns = []
      · rw [if_pos hc] at hform
        rw [hform]
        unfold groupedAnswer
        rw [if_pos hc]
        exact List.mem_singleton_self _
      · obtain ⟨key, h1, h2⟩ := hkey hc
        rw [groupedAnswer_const hc, h2]
        exact List.mem_map.2 ⟨key, h1, rfl⟩
  cases hks : m.call.keys with
  | set k =>
    refine done k.rows ?_ ?_
    · unfold Plan.KeysFor
      rw [← hkeys, hks]
    · intro hc
      rw [if_neg hc, hks] at hform
      obtain ⟨key, h1, h2⟩ := hform
      exact ⟨key, h2, h1⟩
  | cols cs =>
    by_cases hc : m.call.keys.columns = []
    · refine done [] ?_ (absurd hc)
      unfold Plan.KeysFor
      rw [← hkeys, hks]
      exact ⟨List.nodup_nil, nofun⟩
    · rw [if_neg hc, hks] at hform
      obtain ⟨key, h1, r', h2, h3⟩ := hform
      refine done [key] ?_ fun _ => ⟨key, List.mem_singleton_self _, h1⟩
      unfold Plan.KeysFor
      rw [← hkeys, hks]
      refine ⟨List.nodup_singleton _, fun k hk => ?_⟩
      rw [List.mem_singleton] at hk
      subst hk
      rw [hrun] at h2
      exact ⟨r', h2, h3⟩

/-- **C77** for groups (partial: for core by the contracts of C66 and C55). Grouped by a KeySet, the number of groups that
`describe` shows is the number of rows of every answer, except to queries with `suppress`, which may have fewer. -/
theorem C77_grouped_partial {core : Core} (hcore : OneRowPerKey core) (w : World Meas Tab PubFrame) (i : Nat)
    (n : Session.Node Meas Tab) (hn : w.nodes[i]? = some n) (a : Agg) (ok : Admissible (child (.agg a))) (k : KeySetV)
    (ha : a.keys = .set k) (d : Description) (cols : List String) (size : Nat)
    (hd : describeObj ctx n.tables (w.pubOf n) (.grouped a.child a.keys) = .ok d) (hg : d.groups = some (cols, some size))
    (b : PB) (m : Meas) (amt : PB) (hev : (Session.step (env ctx) w (.evaluate i (.query (.agg a) ok) b)).1 = .ok (.answer m amt))
    (data : Nat → Root × Data) :
    cols = a.keys.columns ∧ ∀ r ∈ (Composition.respond (sem ctx core) data i
        (Session.step (env ctx) w (.evaluate i (.query (.agg a) ok) b)).1).support,
      ∃ rows, r = (.ok (.answer m amt), some rows) ∧ rows.length = size := by
  obtain ⟨n', cat, pl, s, hn', hcat, hpl, hsch, hkeys, htask, hrun, hpost⟩ := answered_plan hev
  have hdg : d.groups = groupsShown a.keys := by
    dsimp only [describeObj, describeExpr] at hd
    split at hd
    · cases hd
    split at hd
    · cases hd
    cases hd
    rfl
  rw [hdg, ha] at hg
  dsimp only [groupsShown] at hg
  split at hg
  · next hlen =>
    cases hg
    have hpk := (compileQuery_budget (a := a) rfl hpl).2.2
    refine ⟨by rw [ha]; rfl, fun r hr => ?_⟩
    rw [hev] at hr
    obtain ⟨ans, hans, rfl⟩ := respond_support hr
    obtain ⟨f, rfl⟩ := hcore _ k _ ans (by rw [hkeys, hpk, ha]) (List.ne_nil_of_length_pos hlen) hans
    refine ⟨_, rfl, ?_⟩
    rw [hpost, compiled_post (a := a) rfl hpl]
    show (k.rows.map _).length = _
    rw [List.length_map]
  · cases hg

/-- **C77** for groups. Of a builder grouped by columns the columns are shown, of one grouped by a KeySet the columns and
the number of groups; a KeySet without columns is not shown. -/
theorem C77_groups_shown {tables : List (String × Tab)} {pub : List (String × PubFrame)} {e : Expr} {keys : Keys}
    {d : Description} (hd : describeObj ctx tables pub (.grouped e keys) = .ok d) :
    (d.groups = none ↔ ∃ k, keys = .set k ∧ keys.columns = []) ∧
      ∀ cols size, d.groups = some (cols, size) ↔ cols = keys.columns ∧
        ((∃ k, keys = .set k ∧ cols ≠ [] ∧ size = some k.rows.length) ∨ keys = .cols cols ∧ size = none) := by
  have hdg : d.groups = groupsShown keys := by
    dsimp only [describeObj, describeExpr] at hd
    split at hd
    · cases hd
    split at hd
    · cases hd
    cases hd
    rfl
  rw [hdg]
  cases keys with
  | cols cs =>
    refine ⟨by simp [groupsShown], fun cols size => ?_⟩
    simp only [groupsShown, Option.some.injEq, Prod.mk.injEq, Keys.columns, reduceCtorEq, false_and, exists_false, false_or,
      Keys.cols.injEq]
    constructor
    · rintro ⟨rfl, rfl⟩
      exact ⟨rfl, rfl, rfl⟩
    · rintro ⟨rfl, _, rfl⟩
      exact ⟨rfl, rfl⟩
  | set k =>
    dsimp only [groupsShown, Keys.columns]
    by_cases hk : Dict.keys k.schema = []
    · rw [if_neg (by simp [hk])]
      refine ⟨⟨fun _ => ⟨k, rfl, hk⟩, fun _ => rfl⟩, fun cols size => ?_⟩
      constructor
      · rintro ⟨⟩
      · rintro ⟨e, ⟨_, _, h, _⟩ | ⟨h, _⟩⟩
        · exact absurd (e.trans hk) h
        · cases h
    · rw [if_pos (List.length_pos_iff.2 hk)]
      refine ⟨⟨nofun, fun ⟨_, _, h⟩ => absurd h hk⟩, fun cols size => ?_⟩
      constructor
      · rintro ⟨⟩
        exact ⟨rfl, .inl ⟨k, rfl, hk, rfl⟩⟩
      · rintro ⟨rfl, ⟨_, h, _, rfl⟩ | ⟨h, _⟩⟩
        · cases h
          rfl
        · cases h

/-- **C77** for `get_groups` (partial: as `C59_groups_partial`, and for core by the contract that the answer consists of keys
of the data). -/
theorem C77_groups_partial (core : Core) (hst : Relation.Stored ctx.cast sources) (hf : FramesOK sources)
    (h : Relation.initCore ctx.cast (coreMeasure ctx.m) sources = .ok out) (b₀ : PB)
    (ops : List (Op Request PubFrame Value)) (w : World Meas Tab PubFrame)
    (hw : w = Session.run (env ctx) (Session.init b₀ (startTables out)) ops) (data : Nat → Root × Data)
    (hdata : data = dataAfter ctx core (Session.init b₀ (startTables out)) (fun _ => (startRoot out, startData out)) ops)
    (i : Nat) (e : Expr) (cols : List String) (hnd : cols.Nodup) (ok : Admissible (child (.groups e cols))) (b : PB) (m : Meas)
    (amt : PB) (hev : (Session.step (env ctx) w (.evaluate i (.query (.groups e cols) ok) b)).1 = .ok (.answer m amt))
    (hcore : ∀ cs, m.call.keys = .cols cs → ∀ t, ∀ ans ∈ (core.noise m.call t).support,
      ans.Nodup ∧ ∀ k ∈ ans, ∃ r ∈ t, k = cs.map (fun c => (c, cell r c))) :
    ∃ n s, w.nodes[i]? = some n ∧
      describeObj ctx n.tables (w.pubOf n) (.query (.groups e cols)) = .ok ⟨describeSchema s, [], none⟩ ∧
      ∀ r ∈ (Composition.respond (sem ctx core) data i
        (Session.step (env ctx) w (.evaluate i (.query (.groups e cols) ok) b)).1).support,
        ∃ rows, r = (.ok (.answer m amt), some rows) ∧ (Schema.keys s ≠ [] → Conforms s rows) := by
  have inv := (start_inv hst hf h b₀).run (core := core) ops
  rw [← hw, ← hdata] at inv
  obtain ⟨n, cat, pl, s, hn, hcat, hpl, hsch, hkeys, htask, hrun, hpost⟩ := answered_plan hev
  obtain ⟨σ, near⟩ := inv.near i (Composition.lt_of_get hn)
  have cf := cat_facts hcat (inv.tabs i n hn)
  have hD := cf.data _ near.conf
  rw [hev]
  refine ⟨n, s, hn, by simp only [describeObj, hcat, hsch], fun r hr => ?_⟩
  obtain ⟨ans, hans, rfl⟩ := respond_support hr
  refine ⟨_, rfl, fun hne => ?_⟩
  obtain ⟨s₀, o, col, tr, f, hs₀, hvis, ht, hpk, htk, hpo, hprep⟩ := groups_plan hpl
  have hkf : pl.KeysFor (resolve n.tables (data i).2) ans := by
    obtain ⟨h1, h2⟩ := hcore _ (hkeys.trans hpk) _ _ hans
    unfold Plan.KeysFor
    rw [hpk]
    refine ⟨h1, fun k hk => ?_⟩
    rw [← hrun]
    exact h2 k hk
  rw [hpost, hpo]
  exact (C59_groups_partial ⟨ctx.h, ctx.order, ctx.m, cat⟩ amt e cols pl s cf.ok ok.wf ok.fns ok.renames hnd hsch hne hpl
    (fun _ _ => []) (fun _ => rfl) _ hD ans hkf).2.2

end

end Verif.Whole
