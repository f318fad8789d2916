import Verif.Whole.Reports
import Verif.Query.Total
import Verif.Session.PropsRequests

/-!
# C62: a session answers what type-checks

`Expr.Total` and `Query.Total` show that what type-checks is compiled, for a fixed catalog of which they assume that
tables without IDs have no constraints. Here: the tables of a session always are like that, so `create_view` and
`evaluate` of a session succeed.
-/

namespace Verif.Whole

open Verif Verif.Schema Verif.Constraint Verif.Expr Verif.Query Verif.Stability
open Verif.Budget (XNum PB Rounding)
open Verif.Session (World Op Step step_cases)

/-! ## Tables without IDs have no constraints -/

/-- Without IDs no constraints. -/
def NoCons (k : Metric) (cs : List Constraint) : Prop := (∀ i, k ≠ .ids i) → cs = []

theorem compile_plain {h : Hash} {cat : Cat} (hp : cat.Plain) (e : Expr) :
    ∀ {o : Expr.Out}, compile h cat e = .ok o → NoCons o.metric o.cons := by
  induction e with
  | source id =>
    intro o ho hm
    dsimp only [compile, visitSource] at ho
    split at ho
    · cases ho
    next s cs hg =>
    cases ho
    refine hp id s cs hg ?_
    cases hi : s.idColumn with
    | none => rfl
    | some i => exact absurd (by simp only [metricOf, hi]) (hm i)
  | rename e m ih =>
    intro o ho hm
    obtain ⟨x, hx, ho⟩ := bind_ok ho
    unfold visitRename at ho
    split at ho
    · cases ho
    split at ho
    · cases ho
    cases ho
    have := ih hx (fun i hi => hm (renamed m i) (by simp only [hi, Metric.rename]))
    simp only [this]; rfl
  | filter e c f ih =>
    intro o ho hm
    obtain ⟨x, hx, ho⟩ := bind_ok ho
    cases ho
    have := ih hx hm
    simp only [this]; rfl
  | select e cols ih =>
    intro o ho hm
    obtain ⟨x, hx, ho⟩ := bind_ok ho
    unfold visitSelect at ho
    split at ho
    · cases ho
    split at ho
    · cases ho
    cases ho
    have := ih hx hm
    simp only [this]; rfl
  | map e f new augment ih =>
    intro o ho hm
    obtain ⟨x, hx, ho⟩ := bind_ok ho
    unfold visitMap at ho
    split at ho
    · cases ho
    split at ho
    · cases ho
    cases ho
    have := ih hx hm
    simp only [this]; rfl
  | flatMap e f new augment n ih =>
    intro o ho hm
    obtain ⟨x, hx, ho⟩ := bind_ok ho
    unfold visitFlatMap at ho
    simp only [] at ho
    split at ho
    · cases ho
    split at ho
    · next i hk =>
      split at ho
      · cases ho
      split at ho
      · cases ho
      cases ho
      exact absurd hk (hm i)
    · next hk =>
      have hc := ih hx (fun i hi => hk i hi)
      split at ho
      · cases ho
      split at ho
      · cases ho
      split at ho
      · split at ho
        · cases ho
        cases ho
        simp only [hc]; rfl
      · cases ho
        simp only [hc]; rfl
  | flatMapByID e f new ih =>
    intro o ho hm
    obtain ⟨x, hx, ho⟩ := bind_ok ho
    unfold visitFlatMapByID at ho
    split at ho
    · split at ho
      · cases ho
      split at ho
      · cases ho
      cases ho
      rfl
    · cases ho
  | joinPrivate l r tl tr cols ihl ihr =>
    intro o ho hm
    obtain ⟨x, hx, ho⟩ := bind_ok ho
    obtain ⟨y, hy, ho⟩ := bind_ok ho
    unfold visitJoinPrivate at ho
    simp only [] at ho
    split at ho
    · cases ho
    split at ho
    · cases ho
    split at ho
    · split at ho
      · cases ho
      split at ho
      · cases ho
      cases ho
      exact absurd rfl (hm _)
    · next h1 h2 =>
      split at ho
      · cases ho
        have a := ihl hx (by rw [h1]; nofun)
        have b := ihr hy (by rw [h2]; nofun)
        simp only [a, b]; rfl
      · cases ho
    · cases ho
  | joinPublic e pub cols how ih =>
    intro o ho hm
    obtain ⟨x, hx, ho⟩ := bind_ok ho
    unfold visitJoinPublic at ho
    split at ho
    · cases ho
    simp only [] at ho
    split at ho
    · cases ho
    split at ho
    · cases ho
    cases ho
    have := ih hx hm
    simp only [this]; rfl
  | replaceNull e w ih =>
    intro o ho hm
    obtain ⟨x, hx, ho⟩ := bind_ok ho
    unfold visitReplaceNull at ho
    split at ho
    · cases ho
    split at ho
    · cases ho
    cases ho
    have := ih hx hm
    simp only [this]; rfl
  | replaceInf e w ih =>
    intro o ho hm
    obtain ⟨x, hx, ho⟩ := bind_ok ho
    unfold visitReplaceInf at ho
    split at ho
    · cases ho
    cases ho
    have := ih hx hm
    simp only [this]; rfl
  | dropNull e cols ih =>
    intro o ho hm
    obtain ⟨x, hx, ho⟩ := bind_ok ho
    unfold visitDropNull at ho
    split at ho
    · cases ho
    split at ho
    · cases ho
    cases ho
    have := ih hx hm
    simp only [this]; rfl
  | dropInf e cols ih =>
    intro o ho hm
    obtain ⟨x, hx, ho⟩ := bind_ok ho
    unfold visitDropInf at ho
    split at ho
    · cases ho
    split at ho
    · cases ho
    cases ho
    have := ih hx hm
    simp only [this]; rfl
  | enforce e c ih =>
    intro o ho hm
    obtain ⟨x, hx, ho⟩ := bind_ok ho
    unfold visitEnforce at ho
    split at ho
    · next i hk =>
      split at ho
      · cases ho
      cases ho
      exact absurd hk (hm i)
    · cases ho

/-- No table without IDs has constraints. -/
def PlainTabs (tables : List (String × Tab)) : Prop := ∀ p ∈ tables, NoCons p.2.metric p.2.cons

theorem plain_cat {m : Measure} {tables : List (String × Tab)} {R : Root} {cat : Cat} (cf : CatFacts m tables R cat)
    (hp : PlainTabs tables) : cat.Plain := by
  intro id s cs hg hi
  obtain ⟨t, h1, _, h2, rfl⟩ := cf.get id s cs hg
  refine hp _ (Dict.mem_of_get h1) (fun i hk => ?_)
  have := h2.idColumn
  rw [hi] at this
  dsimp only at hk
  rw [hk] at this
  cases this

theorem transform_plain {ctx : Ctx} {m : Measure} {tables : List (String × Tab)} {pub : List (String × PubFrame)} {R : Root}
    {q : Request} {t : Tab} (ht : ∀ p ∈ tables, TabOK m p.2 R) (hp : PlainTabs tables)
    (h : transform ctx tables pub q = .ok t) : NoCons t.metric t.cons := by
  cases q with
  | query q ok => cases h
  | table e ok =>
    dsimp only [transform] at h
    split at h
    · cases h
    next cat hc =>
    split at h
    · cases h
    next s o hb =>
    cases h
    exact compile_plain (plain_cat (cat_facts hc ht) hp) e (build_ok hb).2.1

theorem part_plain {ctx : Ctx} {tables : List (String × Tab)} {pub : List (String × PubFrame)} {src col : String}
    {vals : List Value} {t : Tab} (h : partTab ctx tables pub src col vals = .ok t) : t.cons = [] := by
  unfold partTab at h
  split at h
  · split at h <;> cases h
  split at h
  · cases h
  split at h
  · cases h
  split at h
  · cases h
  split at h
  · cases h
  split at h
  · cases h
  cases h
  rfl

theorem plain_step {ctx : Ctx} {w : World Meas Tab PubFrame} {data : Nat → Root × Data} (inv : Inv ctx w data)
    (hk : ∀ (i : Nat) (n : Session.Node Meas Tab), w.nodes[i]? = some n → PlainTabs n.tables) (op : Op Request PubFrame Value) :
    ∀ (i : Nat) (n : Session.Node Meas Tab), (Session.step (env ctx) w op).2.nodes[i]? = some n → PlainTabs n.tables := by
  have st := step_cases (env ctx) w op
  generalize (Session.step (env ctx) w op).1 = res at st
  generalize (Session.step (env ctx) w op).2 = w' at st
  intro j n' hn' p hp
  by_cases hlt : j < w.nodes.length
  · obtain ⟨n, hn, _, hc⟩ := tables_exact st hlt hn'
    rcases hc with e | ⟨name, _, e⟩ | ⟨q, name, t, ho, ht, _, e⟩
    · rw [e] at hp
      exact hk j n hn p hp
    · rw [e] at hp
      exact hk j n hn p (List.mem_of_mem_filter hp)
    · rw [e] at hp
      rcases List.mem_cons.1 hp with rfl | hp
      · exact transform_plain (inv.tabs j n hn) (hk j n hn) ht
      · exact hk j n hn p hp
  · obtain ⟨i, src, b, col, splits, n, t, x, s, rfl, rfl, hn, ht, _, htab, hs⟩ := tables_new st (by omega) hn'
    rw [htab, List.mem_singleton] at hp
    rw [hp]
    exact fun _ => part_plain ht

theorem plain_run {ctx : Ctx} {core : Core} : ∀ (ops : List (Op Request PubFrame Value))
    {w : World Meas Tab PubFrame} {data : Nat → Root × Data}, Inv ctx w data →
    (∀ (i : Nat) (n : Session.Node Meas Tab), w.nodes[i]? = some n → PlainTabs n.tables) →
    ∀ (i : Nat) (n : Session.Node Meas Tab), (Session.run (env ctx) w ops).nodes[i]? = some n → PlainTabs n.tables
  | [], _, _, _, hk => hk
  | op :: ops, _, _, inv, hk => plain_run (core := core) ops (inv.step (core := core) op) (plain_step inv hk op)

theorem start_plain {ctx : Ctx} {sources : Relation.Sources} (hst : Relation.Stored ctx.cast sources)
    {out : Relation.Output} (h : Relation.initCore ctx.cast (coreMeasure ctx.m) sources = .ok out) (b : PB) (i : Nat)
    (n : Session.Node Meas Tab) (hn : (Session.init b (startTables out) : World Meas Tab PubFrame).nodes[i]? = some n) :
    PlainTabs n.tables := by
  cases i with
  | zero =>
    simp only [Session.init, List.getElem?_cons_zero, Option.some.injEq] at hn
    subst hn
    intro p hp _
    obtain ⟨df, ch, s, h1, h2, h3⟩ := start_mem hst h hp
    exact (starts_as hst h h1 h2 h3).cons
  | succ i => simp [Session.init] at hn

/-! ## The kind of the remaining budget -/

theorem measure_same {a b : PB} (h : PB.SameKind a b) : measureOf b = measureOf a := by
  cases a <;> cases b <;> first | rfl | cases h

theorem measure_spend (a b : PB) : measureOf (Session.spend a b) = measureOf a := by
  cases a <;> cases b <;> simp only [Session.spend] <;> (try split) <;> rfl

theorem measure_run {Q M T D V : Type} (senv : Session.Env Q M T D V) (b : PB) (tables : List (String × T))
    (ops : List (Op Q D V)) : ∀ (i : Nat) (n : Session.Node M T),
      (Session.run senv (Session.init b tables : World M T D) ops).nodes[i]? = some n → measureOf n.remaining = measureOf b := by
  refine Session.run_induction (env := senv)
    (fun w => ∀ (i : Nat) (n : Session.Node M T), w.nodes[i]? = some n → measureOf n.remaining = measureOf b) ?_ ops _ ?_
  · intro w op res w' hw st j n' hn'
    have so : ∀ {ns : List (Session.Node M T)}, Session.StateOnly w.nodes ns → ∀ {m : Session.Node M T}, ns[j]? = some m →
        measureOf m.remaining = measureOf b := by
      intro ns so m hm
      obtain ⟨s, hs⟩ := so.get' hm
      exact hw j { m with state := s } hs
    have upd : ∀ {i : Nat} {n m : Session.Node M T} {ns : List (Session.Node M T)}, w.nodes[i]? = some n →
        Session.activate w.nodes i = .ok ns → measureOf m.remaining = measureOf b →
        ∀ {m' : Session.Node M T}, (ns.set i m)[j]? = some m' → measureOf m'.remaining = measureOf b := by
      intro i n m ns hn ha hm m' hm'
      rw [Session.get_set (Session.activate_self hn ha) m j] at hm'
      split at hm'
      · cases hm'
        exact hm
      · exact so (Session.activate_stateOnly ha) hm'
    cases st with
    | reject => exact hw j n' hn'
    | late _ e ns h => exact so (Session.activate_stateOnly h) hn'
    | evaluate i q b n m adj ns hn hc ha hp hs => exact upd hn ha (by rw [measure_spend]; exact hw i n hn) hn'
    | createView i q name n t ns hn hi ha h1 h2 ht =>
      exact upd (m := { n with state := .active, tables := (name, t) :: n.tables }) hn ha (hw i n hn) hn'
    | deleteView i name n ns hn ha h1 =>
      exact upd (m := { n with state := .active, tables := n.tables.filter (fun p => p.1 != name) }) hn ha (hw i n hn) hn'
    | addPublic => exact hw j n' hn'
    | partition i src b' col splits n adj t ns hn hkm hid hadj ht ha hs =>
      simp only at hn'
      rw [List.getElem?_append] at hn'
      split at hn'
      · exact upd hn ha (by rw [measure_spend]; exact hw i n hn) hn'
      · obtain ⟨s, _, rfl⟩ := Session.mkChildren_get _ _ _ _ _ _ _ _ hn'
        obtain ⟨adj', h1, h2⟩ := Session.processRequested_ok senv.rounding n.remaining _ ((Session.kindMatches_iff _ _).1 hkm)
        rw [hadj] at h1
        cases h1
        rw [← hw i n hn]
        exact measure_same h2
    | stop i n hn => exact so (Session.retire_stateOnly w.nodes i) hn'
  · intro i n hn
    cases i with
    | zero =>
      simp only [Session.init, List.getElem?_cons_zero, Option.some.injEq] at hn
      subst hn
      cases b <;> simp only [Session.initialBudget] <;> (try split) <;> rfl
    | succ i => simp [Session.init] at hn

/-! ## Compilation for a session -/

theorem visitChild_compile {h : Hash} {cat : Cat} {e : Expr} {o : Expr.Out} (hv : visitChild h cat e = .ok o) :
    compile h cat e = .ok o := by
  unfold visitChild at hv
  split at hv
  · cases hv
  next o' ho =>
  split at hv
  · cases hv
  split at hv
  · cases hv
  cases hv
  exact ho

/-- The expression of a plan compiles. -/
theorem plan_compiles {qenv : Query.Env} {b : PB} {q : Query} {p : Plan} (h : compileQuery qenv b q = .ok p) :
    ∃ o, compile qenv.h qenv.cat p.child = .ok o := by
  have main : ∀ a, q.agg? = some a → ∃ o, compile qenv.h qenv.cat p.child = .ok o := by
    intro a hq
    obtain ⟨a₁, a₂, p₁, _, hrw, hfin, hcomp, hp⟩ := compileQuery_ok hq h
    have hpc : p.child = p₁.child := by rcases hp with ⟨_, rfl⟩ | ⟨_, _, _, _, _, rfl⟩ <;> rfl
    obtain ⟨o, _, _, _, ho, _⟩ := hcomp.prep
    exact ⟨o, by rw [hpc, hcomp.child]; exact visitChild_compile ho⟩
  cases q with
  | agg a => exact main a rfl
  | suppress a c t => exact main a rfl
  | groups e cols =>
    unfold compileQuery at h
    split at h
    · cases h
    simp only [rewrite, visit, visitGroups] at h
    split at h
    · split at h
      · cases h
      generalize (if cols ≠ [] then cols else _) = columns at h
      split at h
      · cases h
      split at h
      · cases h
      next o ho =>
      split at h
      · cases h
      split at h
      · cases h
      cases h
      exact ⟨o, visitChild_compile ho⟩
    · cases h

/-- What an aggregation needs besides `Answerable`: Laplace noise in a zCDP session only for tables without IDs and
grouping column. -/
structure AggReady (qenv : Query.Env) (b : PB) (a : Agg) : Prop where
  ready : Ready qenv.cat a.child
  answerable : ∀ s o, schemaOf qenv.cat a.child = .ok s → compile qenv.h qenv.cat a.child = .ok o →
    Answerable qenv b a s o.cons
  laplace : qenv.m = .zCDP → a.kind.mech = some .laplace → ∀ s, schemaOf qenv.cat a.child = .ok s →
    s.idColumn = none ∧ s.grouping = none

/-- What `get_groups` needs. -/
structure GroupsReady (qenv : Query.Env) (b : PB) (e : Expr) (cols : List String) : Prop where
  ready : Ready qenv.cat e
  approx : ∃ ε δ, b = .approx ε δ
  ids : ∀ s, schemaOf qenv.cat e = .ok s → ∀ i, s.idColumn = some i → i ∉ cols ∧ (∃ c ∈ Schema.keys s, c ≠ i) ∧
    ∀ o, compile qenv.h qenv.cat e = .ok o → Limits none o.cons

/-- What a query needs besides type checking. -/
def QueryReady (qenv : Query.Env) (b : PB) : Query → Prop
  | .agg a => AggReady qenv b a
  | .suppress a _ _ => AggReady qenv b a ∧ ∃ k, a.kind = .count k
  | .groups e cols => GroupsReady qenv b e cols

theorem agg_child {cat : Cat} {a : Agg} {out : Schema} (h : a.schema cat = .ok out) :
    ∃ s, schemaOf cat a.child = .ok s := by
  obtain ⟨s, hs, _⟩ := Query.agg_schema h
  exact ⟨s, hs⟩

theorem query_compiles {qenv : Query.Env} {b : PB} (hc : qenv.cat.OK) (hp : qenv.cat.Plain)
    (hord : ∀ l, (qenv.order l).Perm l) {q : Query} {out : Schema} (he : (child q).WF)
    (hs : q.schema qenv.cat = .ok out) (hr : QueryReady qenv b q) : ∃ p, compileQuery qenv b q = .ok p := by
  cases q with
  | agg a =>
    obtain ⟨s, hcs⟩ := agg_child hs
    exact C62_agg_partial hc hp hord he hr.ready hcs hs (fun o ho => hr.answerable s o hcs ho)
  | suppress a c t =>
    obtain ⟨hr, k, hk⟩ := hr
    obtain ⟨s, hcs⟩ := agg_child hs
    exact C62_suppress_partial hc hp hord he hr.ready hcs hs hk (fun o ho => hr.answerable s o hcs ho) c t
  | groups e cols =>
    obtain ⟨ε, δ, rfl⟩ := hr.approx
    have : ∃ s, schemaOf qenv.cat e = .ok s := by
      dsimp only [Query.schema, groupsSchema] at hs
      split at hs
      · cases hs
      next s h => exact ⟨s, h⟩
    obtain ⟨s, hcs⟩ := this
    exact C62_groups_partial hc hp hord he hr.ready hcs hs (hr.ids s hcs)

/-- Core accepts the metric. -/
theorem root_accepted {qenv : Query.Env} {b : PB} (hc : qenv.cat.OK) (hp : qenv.cat.Plain) {q : Query} {out : Schema}
    (he : (child q).WF) (hs : q.schema qenv.cat = .ok out) (hr : QueryReady qenv b q) (hb : measureOf b = qenv.m)
    {p : Plan} (h : compileQuery qenv b q = .ok p) {o : Expr.Out} (ho : compile qenv.h qenv.cat p.child = .ok o) :
    (rootMetric qenv.m (groupCols q) o p && !unwraps p.task && !p.useL2) = false := by
  have hf := plan_facts hc he h
  by_cases hz : qenv.m = .zCDP
  · have main : ∀ a, q.agg? = some a → a.child = child q → a.schema qenv.cat = .ok out → AggReady qenv b a →
        (rootMetric qenv.m (groupCols q) o p && !unwraps p.task && !p.useL2) = false := by
      intro a hq hch has hr
      cases hu : p.useL2 with
      | true => simp
      | false =>
        have hch' := he
        rw [← hch] at hch'
        have hkl : a.kind.mech = some .laplace := by
          obtain ⟨a₁, a₂, p₁, _, hrw, hfin, hcomp, hpp⟩ := compileQuery_ok hq h
          cases hm : a.kind.mech with
          | none =>
            obtain ⟨_, _, _, _, _, _, hkind, _⟩ := rewriteAgg_ok hrw
            have h2 := (hcomp.mech.2 (by rw [hfin.keys.2.1, hkind, hm])).2
            have : p.useL2 = p₁.useL2 := by rcases hpp with ⟨_, rfl⟩ | ⟨_, _, _, _, _, rfl⟩ <;> rfl
            rw [this, h2, hz] at hu
            cases hu
          | some k =>
            obtain ⟨c, _, e2, e3⟩ := C28_right_noise qenv hc b q a hch' hq p h k hm
            have hng : ¬ c.Gaussian := fun hg => by rw [e3.2 hg] at hu; cases hu
            cases k with
            | laplace => rfl
            | gaussian => exact absurd (e2.gaussian rfl) hng
            | default => exact absurd ((e2.default rfl).2 hz) hng
        obtain ⟨s, hcs⟩ := agg_child has
        obtain ⟨hi, hg⟩ := hr.laplace hz hkl s hcs
        obtain ⟨s0, hs0, hval, hfor⟩ := Query.agg_schema has
        rw [hcs] at hs0
        cases hs0
        obtain ⟨o₀, ho₀, _⟩ := compile_total (h := qenv.h) hc hp _ hch' hr.ready hcs
        have ans := hr.answerable s o₀ hcs ho₀
        obtain ⟨a', s', hrw, _, _, _, _, he', hr', hs', _, hid', hgr', _, _⟩ :=
          rewriteAgg_total hc hp hch' hr.ready hcs ho₀ hval hfor (fun h => (ans.gaussian h).1) ans.clamp
            (fun _ h => by rw [hi] at h; cases h)
        obtain ⟨a₁, a₂, p₁, _, hrw', hfin, hcomp, hpp⟩ := compileQuery_ok hq h
        rw [hrw] at hrw'
        cases hrw'
        have e1 : p.trunc = p₁.trunc ∧ p.child = p₁.child := by
          rcases hpp with ⟨_, rfl⟩ | ⟨_, _, _, _, _, rfl⟩ <;> exact ⟨rfl, rfl⟩
        cases hfin with
        | shortcut _ _ hs2 hi2 _ =>
          rw [hs'] at hs2
          cases hs2
          rw [hid', hi] at hi2
          cases hi2
        | same =>
          obtain ⟨o', ho', fit⟩ := compile_total (h := qenv.h) hc hp _ he' hr' hs'
          have hmet : o'.metric = .symDiff := by
            rw [fit.metric]
            exact metric_plain (hgr'.trans hg) (hid'.trans hi)
          obtain ⟨o2, col, tr, f, hv, htr, htr', _⟩ := hcomp.prep
          have := visitChild_compile hv
          rw [ho'] at this
          cases this
          have hoo : o = o' := by
            rw [e1.2, hcomp.child, ho'] at ho
            exact (Except.ok.inj ho).symm
          subst hoo
          unfold truncateOut at htr
          rw [hmet] at htr
          cases htr
          have : rootMetric qenv.m (groupCols q) o p = false := by
            unfold rootMetric
            rw [e1.1, htr', hmet]
            rfl
          rw [this]
          rfl
    cases q with
    | agg a => exact main a rfl rfl hs hr
    | suppress a c t => exact main a rfl rfl hs hr.1
    | groups e cols =>
      obtain ⟨ε, δ, rfl⟩ := hr.approx
      rw [hz] at hb
      cases hb
  · rw [root_zcdp hf.l2 hz]
    rfl

/-- A query that type-checks becomes a measurement that is private for the budget. -/
theorem compileM_total {ctx : Ctx} {tables : List (String × Tab)} {pub : List (String × PubFrame)} {cat : Cat} {R : Root}
    (hcat : catalog tables pub = .ok cat) (ht : ∀ p ∈ tables, TabOK ctx.m p.2 R) (hp : PlainTabs tables)
    (hord : ∀ l, (ctx.order l).Perm l) {q : Query} {ok : Admissible (child q)} {out : Schema}
    (hs : q.schema cat = .ok out) {b : PB} (hb : measureOf b = ctx.m) (hv : b.Valid)
    (hr : QueryReady ⟨ctx.h, ctx.order, ctx.m, cat⟩ b q) :
    ∃ m, compileM ctx tables pub (.query q ok) b = .ok m ∧ covered m b = true := by
  have cf := cat_facts hcat ht
  have hpl := plain_cat cf hp
  obtain ⟨p, hc⟩ := query_compiles (qenv := ⟨ctx.h, ctx.order, ctx.m, cat⟩) cf.ok hpl hord ok.wf hs hr
  obtain ⟨o, ho⟩ := plan_compiles hc
  have hroot := root_accepted (qenv := ⟨ctx.h, ctx.order, ctx.m, cat⟩) cf.ok hpl ok.wf hs hr hb hc ho
  dsimp only at hroot ho
  have hf := plan_facts (env := ⟨ctx.h, ctx.order, ctx.m, cat⟩) cf.ok ok.wf hc
  refine ⟨⟨⟨p.total, p.keyBudget, p.aggBudget, p.mech, p.useL2, p.keys, p.task,
    callDelta ctx.m ctx.h cat tables (Stability.groupCols q) o p⟩, fun D => p.prep (resolve tables D), p.post⟩, ?_, ?_⟩
  · dsimp only [compileM]
    rw [if_neg (by simp [hb]), hcat]
    dsimp only
    rw [hc]
    dsimp only
    rw [ho]
    dsimp only
    rw [hroot]
    rfl
  · rcases hf.total with h1 | ⟨ε, δ, rfl, h1⟩
    · simp only [covered, h1]
      cases b <;> simp
    · simp only [covered, h1]
      simpa using hv.2.1

/-! ## The theorems -/

theorem catalog_total {ctx : Ctx} {tables : List (String × Tab)} {pub : List (String × PubFrame)} {R : Root}
    (n1 : (Session.names tables).Nodup) (n2 : (Session.names pub).Nodup) (tok : ∀ p ∈ tables, TabOK ctx.m p.2 R)
    (pok : ∀ p ∈ pub, coerce ctx.cast p.2.frame = .ok p.2.frame) : ∃ cat, catalog tables pub = .ok cat := by
  obtain ⟨d, d1, _⟩ := privCat_total n1 tok
  obtain ⟨p, p1, _⟩ := pubCat_total n2 pok
  exact ⟨⟨d, p⟩, by unfold catalog; rw [d1, p1]⟩

theorem QueryReady.adjusted {qenv : Query.Env} {r : Rounding} (hl : r.Lawful) {rem b adj : PB} (hrv : rem.Valid)
    (hbv : b.Valid) (hadj : Session.processRequested r rem b = .ok adj) (hk : PB.SameKind rem b) {q : Query}
    (h : QueryReady qenv b q) : QueryReady qenv adj q := by
  obtain ⟨adj', h1, hk'⟩ := Session.processRequested_ok r rem b hk
  rw [hadj] at h1
  cases h1
  have hav := Session.processRequested_valid hl hrv hbv hadj
  have nz : ∀ (x y : XNum), x ≠ 0 → Budget.adjustNumber x y ≠ 0 := by
    intro x y hx
    rcases Session.adjustNumber_cases x y with e | ⟨e, p, q, rfl, rfl, h1, h2⟩
    · rw [e]; exact hx
    · rw [e]
      intro h0
      have hq : q = 0 := by exact_mod_cast h0
      rw [hq] at h1 h2
      norm_num at h2
      linarith
  have hagg : ∀ a, AggReady qenv b a → AggReady qenv adj a := by
    intro a ha
    refine ⟨ha.ready, fun s o hs ho => ?_, ha.laplace⟩
    have an := ha.answerable s o hs ho
    refine ⟨fun hg => ?_, fun ks hks => ?_, an.clamp, an.ids, an.noId, an.distinct⟩
    · obtain ⟨h1, ρ, rfl⟩ := an.gaussian hg
      refine ⟨h1, ?_⟩
      cases rem <;> cases adj <;> first | exact ⟨_, rfl⟩ | exact False.elim hk | exact False.elim hk'
    · obtain ⟨ε, δ, rfl, hpos⟩ := an.auto ks hks
      cases rem with
      | pure x => cases hk
      | zcdp x => cases hk
      | approx x y =>
        cases hinf : (PB.approx ε δ).isInfinite with
        | true =>
          simp only [Session.processRequested, hinf, if_true, Except.ok.injEq] at hadj
          subst hadj
          exact ⟨_, _, rfl, .inl rfl⟩
        | false =>
          rcases hpos with hpos | ⟨h1, h2⟩
          · rw [hinf] at hpos; cases hpos
          simp only [Session.processRequested, hinf, Bool.false_eq_true, if_false, Budget.adjustBudget,
            Except.ok.injEq] at hadj
          subst hadj
          exact ⟨_, _, rfl, .inr ⟨lt_of_le_of_ne hav.1 (nz _ _ h1.ne').symm,
            lt_of_le_of_ne hav.2.1 (nz _ _ h2.ne').symm⟩⟩
  cases q with
  | agg a => exact hagg a h
  | suppress a c t => exact ⟨hagg a h.1, h.2⟩
  | groups e cols =>
    obtain ⟨ε, δ, rfl⟩ := h.approx
    refine ⟨h.ready, ?_, h.ids⟩
    cases rem <;> cases adj <;> first | exact ⟨_, _, rfl⟩ | exact False.elim hk | exact False.elim hk'

/-- What is known about a session that was reached from the builder. -/
structure Reached (ctx : Ctx) (w : World Meas Tab PubFrame) (n : Session.Node Meas Tab) : Prop where
  tabs : ∃ R, ∀ p ∈ n.tables, TabOK ctx.m p.2 R
  plain : PlainTabs n.tables
  names : (Session.names n.tables).Nodup
  pubNames : (Session.names (w.pubOf n)).Nodup
  pub : ∀ p ∈ w.pubOf n, coerce ctx.cast p.2.frame = .ok p.2.frame

theorem reached {ctx : Ctx} (core : Core) {sources : Relation.Sources} (hst : Relation.Stored ctx.cast sources)
    (hf : FramesOK sources) {out : Relation.Output}
    (h : Relation.initCore ctx.cast (coreMeasure ctx.m) sources = .ok out) (b : PB)
    (ops : List (Op Request PubFrame Value)) (i : Nat) (n : Session.Node Meas Tab)
    (hn : (Session.run (env ctx) (Session.init b (startTables out)) ops).nodes[i]? = some n) :
    Reached ctx (Session.run (env ctx) (Session.init b (startTables out)) ops) n := by
  have inv := (start_inv hst hf h b).run (core := core) ops
  obtain ⟨n1, n2⟩ := (Session.C36_names_partial (env := env ctx) (D := PubFrame) b (startTables out)
    (start_names hst h) ops).1 i n hn
  exact ⟨⟨_, inv.tabs i n hn⟩, plain_run (core := core) ops (start_inv hst hf h b) (start_plain hst h b) i n hn, n1, n2,
    (pubOK_run (ctx := ctx) ops b (startTables out)).pubOf n⟩

/-- What the getters say about a table agrees with a schema. -/
structure SaysOf (s : Schema) (tables : List (String × Tab)) (pub : List (String × PubFrame)) (name : String) : Prop where
  schema : ∃ ds, getSchema tables pub name = .ok ds ∧ Dict.keys ds = Schema.keys s ∧
    ∀ c d, Dict.get s.descs c = some d → ∃ d', Dict.get ds c = some d' ∧ d'.ty = d.ty ∧ d'.allowNull = d.allowNull ∧
      (d.ty = .DECIMAL → d' = d)
  grouping : getGroupingColumn tables pub name = .ok s.grouping
  ids : getIdColumn tables pub name = .ok s.idColumn
  space : getIdSpace tables pub name = .ok s.idSpace

theorem says_of {s : Schema} {o : Expr.Out} {tables : List (String × Tab)} {pub : List (String × PubFrame)} {name : String}
    {t : Tab} (hg : Dict.get tables name = some t) (h1 : t.dom = o.dom) (h2 : t.metric = o.metric) (h3 : t.space = o.space)
    (a : Agree s o) (f : Fits s o) : SaysOf s tables pub name := by
  have hd : t.dom = s.columnDescs.elements.map (fun p => (p.1, toSparkDesc p.2)) := by
    rw [h1, f.dom, analytics_dom a.wfs]
  have hw : Dict.WF t.dom := by rw [h1]; exact a.wfd
  have hds : sparkDomainToAnalytics t.dom = s.columnDescs.elements.map (fun p => (p.1, ofSparkDesc (toSparkDesc p.2))) := by
    rw [domain_descs hw, hd, List.map_map]
    rfl
  refine ⟨⟨sparkDomainToAnalytics t.dom, by simp only [getSchema, hg], ?_, ?_⟩, ?_, ?_, ?_⟩
  · rw [hds]
    exact (keys_mapVal s.columnDescs.elements (fun d => ofSparkDesc (toSparkDesc d))).trans (by unfold Schema.keys; rw [Schema.descs_eq a.wfs]; rfl)
  · intro c d hc
    rw [hds, get_mapVal _ (fun p => ofSparkDesc (toSparkDesc p.2)) c]
    rw [Schema.descs_eq a.wfs] at hc
    rw [hc]
    refine ⟨_, rfl, ?_⟩
    obtain ⟨ty, x, y, z⟩ := d
    cases ty <;> simp [ofSparkDesc, toSparkDesc]
  · simp only [getGroupingColumn, ofPrivate, hg, h2, f.metric]
    have := a.noBoth
    unfold metricOf
    cases hi : s.idColumn <;> cases hgr : s.grouping <;> simp_all [groupOf]
  · simp only [getIdColumn, ofPrivate, hg, h2, f.metric]
    unfold metricOf
    cases hi : s.idColumn <;> cases hgr : s.grouping <;> simp_all [idOf]
  · simp only [getIdSpace, ofPrivate, hg, h3, a.space]

section
variable {ctx : Ctx} {sources : Relation.Sources} {out : Relation.Output}

/-- **C62** for views (partial: `Ready` lists what has to hold besides type checking; the witnesses of
`Query.ExamplesTotal` show that the code refuses the other cases). In a session that was made by the builder or by
partitions, at any time before it is stopped, `create_view` with a fresh name and an expression that type-checks
succeeds, and the getters then describe the view by the schema that type checking gave. -/
theorem C62_view_partial (core : Core) (hst : Relation.Stored ctx.cast sources) (hf : FramesOK sources)
    (h : Relation.initCore ctx.cast (coreMeasure ctx.m) sources = .ok out) (b : PB)
    (ops : List (Op Request PubFrame Value)) (w : World Meas Tab PubFrame)
    (hw : w = Session.run (env ctx) (Session.init b (startTables out)) ops) (i : Nat) (n : Session.Node Meas Tab)
    (hn : w.nodes[i]? = some n) (hlive : n.state ≠ .retired) :
    ∃ cat, catalog n.tables (w.pubOf n) = .ok cat ∧
      ∀ e (ok : Admissible e) name s, ctx.isIdent name = true → name ∉ Session.names n.tables →
        name ∉ Session.names (w.pubOf n) → schemaOf cat e = .ok s → Ready cat e →
        (Session.step (env ctx) w (.createView i (.table e ok) name)).1 = .ok .none ∧
        ∃ n', (Session.step (env ctx) w (.createView i (.table e ok) name)).2.nodes[i]? = some n' ∧
          SaysOf s n'.tables ((Session.step (env ctx) w (.createView i (.table e ok) name)).2.pubOf n') name := by
  have hre := reached core hst hf h b ops i n (by rw [← hw]; exact hn)
  rw [← hw] at hre
  obtain ⟨R, tok⟩ := hre.tabs
  obtain ⟨cat, hcat⟩ := catalog_total hre.names hre.pubNames tok hre.pub
  refine ⟨cat, hcat, fun e ok name s hid h1 h2 hs hr => ?_⟩
  have cf := cat_facts hcat tok
  obtain ⟨o, hb, fit⟩ := C62_build_partial (h := ctx.h) cf.ok (plain_cat cf hre.plain) e ok.wf hr hs
  obtain ⟨_, ho, _⟩ := build_ok hb
  have ag := agree cf.ok e ok.wf hs ho
  obtain ⟨ns, ha⟩ := Session.activate_ok hn hlive
  have hself := Session.activate_self hn ha
  have hnt : ((Session.names n.tables).contains name || (Session.names (w.pubOf n)).contains name) = false := by
    simp [h1, h2]
  have hres : ∃ t, t.dom = o.dom ∧ t.metric = o.metric ∧ t.space = o.space ∧
      Session.step (env ctx) w (.createView i (.table e ok) name) =
        (.ok .none, { w with nodes := ns.set i { n with state := .active, tables := (name, t) :: n.tables } }) := by
    refine ⟨⟨o.dom, o.metric, o.space, o.cons, outDist (decide (ctx.m = .zCDP)) ctx.h cat n.tables o e,
      fun D => o.run (resolve n.tables D)⟩, rfl, rfl, rfl, ?_⟩
    have hpub : w.pubOf { n with state := .active } = w.pubOf n := rfl
    simp only [Session.step, Session.createView, hn, env, hid, Bool.not_true, Bool.false_eq_true, if_false, ha, hself, hpub,
      hnt, transform, hcat, hb]
  obtain ⟨t, e1, e2, e3, hst'⟩ := hres
  rw [hst']
  refine ⟨rfl, { n with state := .active, tables := (name, t) :: n.tables }, ?_, ?_⟩
  · dsimp only
    rw [Session.get_set hself]
    exact if_pos rfl
  · exact says_of (by rw [Dict.get_cons]; exact if_pos rfl) e1 e2 e3 ag fit

/-- **C62** for queries (partial: `QueryReady` lists what has to hold besides type checking; the witnesses of
`Query.ExamplesTotal` and `C62_laplace_fails` show that the code refuses the other cases). In a session that was made by
the builder or by partitions, at any time before it is stopped, a query that type-checks is answered if its budget is of
the session's kind, not zero, and not more than what remains. -/
theorem C62_evaluate_partial (core : Core) (hst : Relation.Stored ctx.cast sources) (hf : FramesOK sources)
    (h : Relation.initCore ctx.cast (coreMeasure ctx.m) sources = .ok out) (hl : ctx.rounding.Lawful)
    (hord : ∀ l, (ctx.order l).Perm l) {b₀ : PB} (hm₀ : measureOf b₀ = ctx.m) (hv₀ : b₀.Valid)
    (ops : List (Op Request PubFrame Value)) (hops : ∀ op ∈ ops, op.BudgetValid) (w : World Meas Tab PubFrame)
    (hw : w = Session.run (env ctx) (Session.init b₀ (startTables out)) ops) (i : Nat) (n : Session.Node Meas Tab)
    (hn : w.nodes[i]? = some n) (hlive : n.state ≠ .retired) :
    ∃ cat, catalog n.tables (w.pubOf n) = .ok cat ∧
      ∀ q (ok : Admissible (child q)) b sch, q.schema cat = .ok sch → b.Valid →
        QueryReady ⟨ctx.h, ctx.order, ctx.m, cat⟩ b q → ¬ Session.PB.IsZero b → Session.PBRel (· ≤ ·) b n.remaining →
        ∃ m amt, (Session.step (env ctx) w (.evaluate i (.query q ok) b)).1 = .ok (.answer m amt) := by
  have hre := reached core hst hf h b₀ ops i n (by rw [← hw]; exact hn)
  have hmr := measure_run (env ctx) b₀ (startTables out) ops i n (by rw [← hw]; exact hn)
  have hbk := Session.books_run (env := env ctx) hl hv₀ (startTables out) ops hops
  rw [← hw] at hre hbk
  obtain ⟨R, tok⟩ := hre.tabs
  obtain ⟨cat, hcat⟩ := catalog_total hre.names hre.pubNames tok hre.pub
  refine ⟨cat, hcat, fun q ok b sch hs hbv hr hz hle => ?_⟩
  have hk : PB.SameKind n.remaining b := by
    generalize n.remaining = rem at hle
    cases b <;> cases rem <;> first | trivial | exact False.elim hle
  have hconv : Session.convertBudget n.remaining b = b := by
    generalize n.remaining = rem at hk
    cases b <;> cases rem <;> first | rfl | exact False.elim hk
  have hz' : Session.isZeroBudget b = false := by
    unfold Session.isZeroBudget
    have h0 : (PB.approx 0 0).isInfinite = false := by decide
    clear hr hconv hk hle hbv
    cases b <;> simp_all [Session.PB.IsZero, PB.pyEq]
  have hwf : Session.WellFormed (env ctx) w n (.query q ok) b := by
    intro adj hadj
    rw [hconv] at hadj
    obtain ⟨adj', h1, hk'⟩ := Session.processRequested_ok ctx.rounding n.remaining b hk
    have hadj' : Session.processRequested ctx.rounding n.remaining b = .ok adj := hadj
    rw [hadj'] at h1
    cases h1
    exact compileM_total (ok := ok) hcat tok hre.plain hord hs (by rw [measure_same hk', hmr, hm₀])
      (Session.processRequested_valid hl (hbk.valid i n hn).1 hbv hadj') (hr.adjusted hl (hbk.valid i n hn).1 hbv hadj' hk)
  obtain ⟨adj, m, hadj, _, _, hres⟩ := Session.evaluate_result hn hlive hwf (by rw [hconv]; exact hk) (by rw [hconv]; exact hz')
  rw [hconv] at hadj
  have hadj : Session.processRequested ctx.rounding n.remaining b = .ok adj := hadj
  refine ⟨m, adj, ?_⟩
  have hcs : Session.canSpend n.remaining adj = true := by
    obtain ⟨adj', h1, hk'⟩ := Session.processRequested_ok ctx.rounding n.remaining b hk
    rw [hadj] at h1
    cases h1
    cases hi : n.remaining.isInfinite with
    | true => exact Session.canSpend_infinite hk' hi
    | false =>
      have hfb : b.isInfinite = false := by
        have hvr := (hbk.valid i n hn).1
        clear hadj hre hbk hmr hwf hres hr hconv
        generalize n.remaining = rem at hle hi hvr
        cases b with
        | pure x =>
          cases rem with
          | pure y =>
            simp only [PB.isInfinite, decide_eq_false_iff_not] at hi ⊢
            rintro rfl
            exact hi (top_le_iff.1 hle)
          | approx y z => exact False.elim hle
          | zcdp y => exact False.elim hle
        | zcdp x =>
          cases rem with
          | zcdp y =>
            simp only [PB.isInfinite, decide_eq_false_iff_not] at hi ⊢
            rintro rfl
            exact hi (top_le_iff.1 hle)
          | approx y z => exact False.elim hle
          | pure y => exact False.elim hle
        | approx x x' =>
          cases rem with
          | approx y y' =>
            simp only [PB.isInfinite, Bool.or_eq_false_iff, decide_eq_false_iff_not] at hi ⊢
            refine ⟨?_, ?_⟩
            · rintro rfl
              exact hi.1 (top_le_iff.1 hle.1)
            · rintro rfl
              exact hi.2 (le_antisymm hvr.2.2 hle.2)
          | pure y => exact False.elim hle
          | zcdp y => exact False.elim hle
      rw [Session.canSpend_iff hl hi hfb hadj]
      exact hle.mono fun x y hxy => .inl hxy
  exact hres.trans (if_pos hcs)

end

end Verif.Whole
