import Verif.Whole.AnswersChain
import Verif.Whole.Groups

/-!
# C73: `get_groups` and `suppress`, from their arguments to the answers

Sources: `query_builder.py` l. 157-235, 1722-1786, 2817-2893.
-/

namespace Verif.Whole

open Verif Verif.Schema Verif.Constraint Verif.Expr Verif.Query Verif.Stability
open Verif.Budget (XNum PB Rounding)
open Verif.Meaning

/-! ## Model -/

/-- `get_groups` (l. 1781-1786). -/
def callGetGroups (e : Expr) (columns : ColsArg) : Query :=
  .groups e (match columns with
    | .missing => []
    | .one c => [c]
    | .list cs => cs)

/-- `suppress` (l. 216-226) of a query; the threshold is a finite number. -/
def callSuppress (a : Agg) (t : ℚ) : Except PyErr Query :=
  match a.kind with
  | .count _ => .ok (.suppress a a.out t)
  | _ => .error .notImplemented

/-- A query that is finished with a method and `.suppress(t)`. Only `GroupedQueryBuilder.count` returns a `GroupbyCountQuery`
(l. 2893), which is the only class with the method `suppress` (l. 229). -/
def finishSuppress (py : Py) (flag flag' : Bool) (e : Expr) (gb : Option By) (m : Method) (t : ℚ) : Except PyErr Query :=
  match finish py flag flag' e gb m with
  | .error x => .error x
  | .ok a =>
    match gb, m with
    | some _, .count _ _ => callSuppress a t
    | _, _ => .error .attribute

/-! ## Specification -/

/-- The rows that have a number of at least `t` in column `col`. -/
def largeRows (col : String) (t : ℚ) (rows : Table) : Table :=
  rows.filter (fun r => match Row.get r col with
    | some (.int z) => decide (t ≤ z)
    | _ => false)

/-- A session without the record of what was released. -/
def unlogged (n : Session.Node Meas Tab) : Session.Node Meas Tab := { n with log := [] }

/-- Two states of a program that show the same: only which measurements were released may differ. -/
def Alike (w w' : Session.World Meas Tab PubFrame) : Prop := w.heap = w'.heap ∧ w.nodes.map unlogged = w'.nodes.map unlogged

/-- The rows of a KeySet have no other columns than the KeySet. -/
def Shaped : Keys → Prop
  | .set k => ∀ r ∈ k.rows, ∀ p ∈ r, p.1 ∈ Dict.keys k.schema
  | .cols _ => True

/-- Assumed of core: the rows of a count have an integer in the column of the count. -/
def WholeCounts (core : Core) : Prop :=
  ∀ c out, c.task = .count out → out ∉ c.keys.columns → Shaped c.keys →
    ∀ t, ∀ a ∈ (core.noise c t).support, ∀ r ∈ a, ∃ z, Row.get r out = some (.int z)

/-- Assumed of core: partition selection returns some of the keys of the table, each once. -/
def SomeGroups (core : Core) : Prop :=
  ∀ c cs, c.keys = .cols cs → c.task = .groups → cs ≠ [] →
    ∀ t, ∀ a ∈ (core.noise c t).support, a.Nodup ∧ ∀ k ∈ a, ∃ r ∈ t, k = cs.map (fun c => (c, cell r c))

/-- The columns of the groups: those that are listed, or all but the ID column. -/
def groupsOf (listed : List String) (all : List String) (id : Option String) : List String :=
  if listed = [] then all.filter (fun c => decide (id ≠ some c)) else listed

/-! ## Acceptance -/

variable {py : Py} {flag flag' : Bool} {m : Method}

/-- **C73**: `suppress` can be called on the count of a grouped builder, and on nothing else. -/
theorem C73_accepts (e : Expr) (gb : Option By) (m : Method) (t : ℚ) (hx : m.Exact py) :
    ((∃ q, finishSuppress py flag flag' e gb m t = .ok q) ↔
      m.Valid py ∧ By.Allowed flag flag' gb ∧ gb.isSome ∧ ∃ name mech, m = .count name mech) := by
  rw [← and_assoc, ← (C71_accepts (e := e) hx gb).1]
  unfold finishSuppress
  constructor
  · rintro ⟨q, hq⟩
    split at hq
    · cases hq
    next a ha =>
    split at hq
    · exact ⟨⟨a, ha⟩, rfl, _, _, rfl⟩
    · cases hq
  · rintro ⟨⟨a, ha⟩, hs, name, mech, rfl⟩
    obtain ⟨by', rfl⟩ := Option.isSome_iff_exists.1 hs
    rw [ha]
    dsimp only
    have hkind : ∃ mm, a.kind = .count mm := by
      have := (finish_ok ha).1
      unfold Method.build at this
      dsimp only at this
      split at this
      · cases this
      · obtain ⟨_, h⟩ := (construct_plain rfl).1 this
        rw [h]
        exact ⟨_, rfl⟩
    obtain ⟨mm, hk⟩ := hkind
    unfold callSuppress
    rw [hk]
    exact ⟨_, rfl⟩

/-! ## `suppress` -/

/-- Small counts removed after the answer. -/
def withPost (f : Table → Table) (m : Meas) : Meas := { m with post := fun t => f (m.post t) }

theorem rewrite_count {ms : Measure} {cat : Cat} {a a' : Agg} {mm : Mech} (hk : a.kind = .count mm)
    (h : rewriteAgg ms cat a = .ok a') : a'.kind = .count mm ∧ a'.out = a.out ∧ a'.keys = a.keys := by
  unfold rewriteAgg at h
  obtain ⟨a1, h1, h2⟩ := bind_ok h
  unfold specialValues at h1
  rw [hk] at h1
  cases h1
  unfold selectNoise at h2
  rw [hk] at h2
  dsimp only at h2
  split at h2
  · cases h2
  · cases h2
    exact ⟨rfl, rfl, rfl⟩

theorem compile_suppress {env : Env} {b : PB} {a : Agg} {mm : Mech} (hk : a.kind = .count mm) (col : String) (t : ℚ) :
    compileQuery env b (.suppress a col t) =
      (compileQuery env b (.agg a)).map (fun p => { p with post := fun rows => suppressRows col t (p.post rows) }) := by
  unfold compileQuery
  have hsch : Query.schema env.cat (.suppress a col t) = Query.schema env.cat (.agg a) := rfl
  rw [hsch]
  cases Query.schema env.cat (.agg a) with
  | error x => rfl
  | ok s =>
    dsimp only [rewrite]
    cases h : rewriteAgg env.m env.cat a with
    | error x => rfl
    | ok a' =>
      dsimp only [Except.map, visit, visitAgg]
      rw [(rewrite_count hk h).1]
      dsimp only
      cases visitCount env b a' <;> rfl

theorem compileM_suppress {ctx : Ctx} {tables : List (String × Tab)} {pub : List (String × PubFrame)} {b : PB} {a : Agg}
    {mm : Mech} (hk : a.kind = .count mm) (col : String) (t : ℚ) (ok : Admissible (child (.agg a)))
    (ok' : Admissible (child (.suppress a col t))) :
    compileM ctx tables pub (.query (.suppress a col t) ok') b =
      (compileM ctx tables pub (.query (.agg a) ok) b).map (withPost (suppressRows col t)) := by
  unfold compileM
  dsimp only
  split
  · rfl
  cases catalog tables pub with
  | error x => rfl
  | ok cat =>
    dsimp only
    rw [compile_suppress hk]
    cases compileQuery ⟨ctx.h, ctx.order, ctx.m, cat⟩ b (.agg a) with
    | error x => rfl
    | ok p =>
      dsimp only [Except.map]
      cases compile ctx.h cat p.child with
      | error x => rfl
      | ok o =>
        dsimp only
        split
        · next h =>
          have h' : (rootMetric ctx.m (groupCols (.agg a)) o p && !unwraps p.task && !p.useL2) = true := h
          rw [if_pos h']
        · next h =>
          have h' : ¬ (rootMetric ctx.m (groupCols (.agg a)) o p && !unwraps p.task && !p.useL2) = true := h
          rw [if_neg h']
          rfl

theorem count_plan {env : Env} {b : PB} {a : Agg} {mm : Mech} (hk : a.kind = .count mm) {p : Plan}
    (h : compileQuery env b (.agg a) = .ok p) : p.task = .count a.out ∧ p.keys = a.keys ∧ p.post = id := by
  unfold compileQuery at h
  split at h
  · cases h
  dsimp only [rewrite] at h
  cases hr : rewriteAgg env.m env.cat a with
  | error x => rw [hr] at h; cases h
  | ok a' =>
    obtain ⟨h1, h2, h3⟩ := rewrite_count hk hr
    rw [hr] at h
    dsimp only [Except.map, visit, visitAgg] at h
    rw [h1] at h
    dsimp only [visitCount] at h
    split at h
    · cases h
    split at h
    · cases h
    split at h
    · cases h
    split at h
    · cases h
    cases h
    exact ⟨by rw [← h2], h3, rfl⟩

theorem bind_congr' {α β : Type} {p : PMF α} {f g : α → PMF β} (h : ∀ a ∈ p.support, f a = g a) : p.bind f = p.bind g := by
  ext b
  rw [PMF.bind_apply, PMF.bind_apply]
  refine tsum_congr fun a => ?_
  by_cases ha : p a = 0
  · rw [ha, zero_mul, zero_mul]
  · rw [h a ((PMF.mem_support_iff p a).2 ha)]

theorem suppress_large {col : String} {t : ℚ} {rows : Table} (h : ∀ r ∈ rows, ∃ z, Row.get r col = some (.int z)) :
    suppressRows col t rows = largeRows col t rows := by
  unfold suppressRows largeRows
  refine List.filter_congr fun r hr => ?_
  obtain ⟨z, hz⟩ := h r hr
  rw [hz]
  rfl

theorem alike_refl (w : Session.World Meas Tab PubFrame) : Alike w w := ⟨rfl, rfl⟩

/-- **C73**: in any session, in any state and with any budget, a count with `suppress(t)` is refused as the count is, costs
what the count costs, and shows the answer to the count without the rows whose count is less than `t`. -/
theorem C73_suppress {ctx : Ctx} {core : Core} (hcore : WholeCounts core) (w : Session.World Meas Tab PubFrame)
    (data : Nat → Root × Data) (i : Nat) (a : Agg) (t : ℚ) (q : Query) (hq : callSuppress a t = .ok q)
    (hout : a.out ∉ a.keys.columns) (hshape : Shaped a.keys) (ok : Admissible (child (.agg a))) (ok' : Admissible (child q)) (b : PB)
    (count large : Except Session.Err (Session.Out Meas) × Session.World Meas Tab PubFrame)
    (hc : count = Session.step (env ctx) w (.evaluate i (.query (.agg a) ok) b))
    (hl : large = Session.step (env ctx) w (.evaluate i (.query q ok') b)) :
    Alike count.2 large.2 ∧ (∀ x, count.1 = .error x ↔ large.1 = .error x) ∧
      ∀ m amt, count.1 = .ok (.answer m amt) → ∃ m', large.1 = .ok (.answer m' amt) ∧
        Composition.respond (sem ctx core) data i large.1 =
          (Composition.respond (sem ctx core) data i count.1).map (fun x => (large.1, x.2.map (largeRows a.out t))) := by
  have hk : ∃ mm, a.kind = .count mm ∧ q = .suppress a a.out t := by
    unfold callSuppress at hq
    split at hq
    · next mm hk => cases hq; exact ⟨mm, hk, rfl⟩
    · cases hq
  obtain ⟨mm, hk, rfl⟩ := hk
  replace hc : count = Session.evaluate (env ctx) w i (.query (.agg a) ok) b := hc
  replace hl : large = Session.evaluate (env ctx) w i (.query (.suppress a a.out t) ok') b := hl
  unfold Session.evaluate at hc hl
  cases hn : w.nodes[i]? with
  | none =>
    rw [hn] at hc hl
    subst hc hl
    exact ⟨alike_refl _, fun x => Iff.rfl, fun _ _ h => by cases h⟩
  | some n =>
    rw [hn] at hc hl
    dsimp only at hc hl
    have hinfo : Session.compileInfo (env ctx) w n (.query (.suppress a a.out t) ok') b =
        (Session.compileInfo (env ctx) w n (.query (.agg a) ok) b).map (fun p => (withPost (suppressRows a.out t) p.1, p.2)) := by
      unfold Session.compileInfo
      dsimp only
      split
      · rfl
      split
      · rfl
      split
      · rfl
      next adj _ =>
      have e : (env ctx).compile n.tables (w.pubOf n) (.query (.suppress a a.out t) ok') adj =
          ((env ctx).compile n.tables (w.pubOf n) (.query (.agg a) ok) adj).map (withPost (suppressRows a.out t)) :=
        compileM_suppress hk a.out t ok ok'
      rw [e]
      cases (env ctx).compile n.tables (w.pubOf n) (.query (.agg a) ok) adj <;> rfl
    rw [hinfo] at hl
    cases hi : Session.compileInfo (env ctx) w n (.query (.agg a) ok) b with
    | error x =>
      rw [hi] at hc hl
      subst hc hl
      exact ⟨alike_refl _, fun x => Iff.rfl, fun _ _ h => by cases h⟩
    | ok p =>
      obtain ⟨m, amt⟩ := p
      rw [hi] at hc hl
      dsimp only [Except.map] at hc hl
      cases ha : Session.activate w.nodes i with
      | error x =>
        rw [ha] at hc hl
        subst hc hl
        exact ⟨alike_refl _, fun x => Iff.rfl, fun _ _ h => by cases h⟩
      | ok ns =>
        rw [ha] at hc hl
        dsimp only at hc hl
        have hcov : (env ctx).privRel (withPost (suppressRows a.out t) m) amt = (env ctx).privRel m amt := rfl
        rw [hcov] at hl
        split at hc
        · next h1 =>
          rw [if_pos h1] at hl
          subst hc hl
          exact ⟨alike_refl _, fun x => Iff.rfl, fun _ _ h => by cases h⟩
        next h1 =>
        rw [if_neg h1] at hl
        split at hc
        · next h2 =>
          rw [if_pos h2] at hl
          subst hc hl
          exact ⟨alike_refl _, fun x => Iff.rfl, fun _ _ h => by cases h⟩
        next h2 =>
        rw [if_neg h2] at hl
        cases hi' : ns[i]? with
        | none =>
          rw [hi'] at hc hl
          subst hc hl
          exact ⟨alike_refl _, fun x => Iff.rfl, fun _ _ h => by cases h⟩
        | some n' =>
          rw [hi'] at hc hl
          dsimp only at hc hl
          subst hc hl
          refine ⟨⟨rfl, ?_⟩, fun x => ⟨fun h => (by cases h), fun h => (by cases h)⟩, ?_⟩
          · show (ns.set i _).map unlogged = (ns.set i _).map unlogged
            rw [List.map_set, List.map_set]
            rfl
          · rintro m₁ amt₁ h
            cases h
            refine ⟨_, rfl, ?_⟩
            have hm : compileM ctx n.tables (w.pubOf n) (.query (.agg a) ok) amt = .ok m := by
              unfold Session.compileInfo at hi
              dsimp only at hi
              split at hi
              · cases hi
              split at hi
              · cases hi
              split at hi
              · cases hi
              split at hi
              · cases hi
              next hm => cases hi; exact hm
            obtain ⟨cat, p, _, hp, _, _, hkeys, htask, _, hpost⟩ := compileM_plan hm
            obtain ⟨p1, p2, p3⟩ := count_plan hk hp
            have hints := hcore m.call a.out (by rw [htask, p1]) (by rw [hkeys, p2]; exact hout) (by rw [hkeys, p2]; exact hshape) (m.run (data i).2)
            have hpost : m.post = id := hpost.trans p3
            dsimp only [Composition.respond]
            show ((core.noise m.call (m.run (data i).2)).bind (fun x => PMF.pure (suppressRows a.out t (m.post x)))).bind _ =
              (((core.noise m.call (m.run (data i).2)).bind (fun x => PMF.pure (m.post x))).bind _).map _
            rw [hpost]
            simp only [PMF.bind_bind, PMF.pure_bind, PMF.map_bind, PMF.pure_map, id, Option.map_some]
            exact bind_congr' fun x hx => by rw [suppress_large (hints x hx)]

theorem evaluate_answer {ctx : Ctx} {w : Session.World Meas Tab PubFrame} {i : Nat} {q : Request} {b : PB}
    {o : Session.Out Meas} (h : (Session.step (env ctx) w (.evaluate i q b)).1 = .ok o) : ∃ m amt, o = .answer m amt := by
  have h : (Session.evaluate (env ctx) w i q b).1 = .ok o := h
  unfold Session.evaluate at h
  split at h
  · cases h
  split at h
  · cases h
  split at h
  · cases h
  split at h
  · cases h
  split at h
  · cases h
  split at h
  · cases h
  · cases h
    exact ⟨_, _, rfl⟩

/-- **C73** (partial). In any session that was made by the builder or by partitions, after any calls: grouped counts of any
chain of transformation methods, with `suppress(t)` and evaluated with an infinite budget, are the documented counts of a
documented table, for those keys that have at least `t` rows.

Partial: as `C72_answer_partial`; the column of the count is not a group-by column, and a KeySet has rows of its columns. -/
theorem C73_answer_partial {ctx : Ctx} {core : Core} (hcore : NoNoise core) (hints : WholeCounts core)
    {sources : Relation.Sources}
    (hst : Relation.Stored ctx.cast sources) (hf : FramesOK sources) {out : Relation.Output}
    (h : Relation.initCore ctx.cast (coreMeasure ctx.m) sources = .ok out) (b₀ : PB)
    (ops : List (Session.Op Request PubFrame Value)) (hs : ViewsSafe ctx (Session.init b₀ (startTables out)) ops)
    (w : Session.World Meas Tab PubFrame) (hw : w = Session.run (env ctx) (Session.init b₀ (startTables out)) ops)
    (data : Nat → Root × Data)
    (hdata : data = dataAfter ctx core (Session.init b₀ (startTables out)) (fun _ => (startRoot out, startData out)) ops)
    (i : Nat) (c : Chain) (hk : c.Kept) (e : Expr) (he : c.build ctx = .ok e) (by' : By) (name : Option String) (mech : MechArg)
    (t : ℚ) (q : Query) (hq : finishSuppress py flag flag' e (some by') (.count name mech) t = .ok q)
    (hout : name.getD "count" ∉ by'.columns) (hshape : ∀ k, by' = .keyset k → Shaped (.set k)) (b : PB) (hinf : b.isInfinite = true) :
    ∃ ok : Admissible (child q), ∀ (p : Meas) (amt : PB),
      (Session.step (env ctx) w (.evaluate i (.query q ok) b)).1 = .ok (.answer p amt) →
      ∃ n cat, w.nodes[i]? = some n ∧ catalog n.tables (w.pubOf n) = .ok cat ∧
        (e.ConsSafe ctx.h cat → ∃ T x keys, c.Faithful cat (resolve n.tables (data i).2) T ∧
          by'.Keys (.count name mech) T keys ∧
          Composition.respond (sem ctx core) data i (Session.step (env ctx) w (.evaluate i (.query q ok) b)).1 =
            PMF.pure (.ok (.answer p amt), some (largeRows (name.getD "count") t
              ((Method.count name mech).answer py x (names (c.columns cat)) keys T (some by'))))) := by
  have hx : (Method.count name mech).Exact py := fun _ _ h => by cases h
  unfold finishSuppress at hq
  split at hq
  · cases hq
  next a ha =>
  dsimp only at hq
  obtain ⟨ok, hall⟩ := C72_answer_partial (m := .count name mech) hcore hst hf h b₀ ops hs w hw data hdata i c hk e he hx trivial
    (some by') a ha b hinf
  have facts : a.out = name.getD "count" ∧ a.keys.columns = by'.columns ∧ child q = child (.agg a) ∧ Shaped a.keys := by
    refine ⟨?_, ?_, ?_, ?_⟩
    · have := (finish_ok ha).1
      unfold Method.build at this
      dsimp only at this
      split at this
      · cases this
      · obtain ⟨_, h⟩ := (construct_plain rfl).1 this
        rw [h]
        cases name <;> rfl
    · rw [(built hx (finish_ok ha).1).sameKeys]
      cases by' <;> rfl
    · unfold callSuppress at hq
      split at hq
      · cases hq; rfl
      · cases hq
    · rw [(built hx (finish_ok ha).1).sameKeys]
      cases by' with
      | keyset k => exact hshape k rfl
      | list cs => trivial
      | str c => trivial
  obtain ⟨f1, f2, f3, f4⟩ := facts
  have ok' : Admissible (child q) := f3 ▸ ok
  refine ⟨ok', fun p amt hev => ?_⟩
  obtain ⟨_, herr, hmap⟩ := C73_suppress hints w data i a t q hq (by rw [f1, f2]; exact hout) f4 ok ok' b _ _ rfl rfl
  have hcount : ∃ m, (Session.step (env ctx) w (.evaluate i (.query (.agg a) ok) b)).1 = .ok (.answer m amt) := by
    cases hc : (Session.step (env ctx) w (.evaluate i (.query (.agg a) ok) b)).1 with
    | error x =>
      rw [(herr x).1 hc] at hev
      cases hev
    | ok o =>
      obtain ⟨m, amt', rfl⟩ := evaluate_answer hc
      obtain ⟨m', h1, _⟩ := hmap m amt' hc
      rw [h1] at hev
      cases hev
      exact ⟨m, rfl⟩
  obtain ⟨m, hm⟩ := hcount
  obtain ⟨n, cat, hn, hcat, hdoc⟩ := hall m amt hm
  refine ⟨n, cat, hn, hcat, fun hsafe => ?_⟩
  obtain ⟨T, x, keys, hT, hr⟩ := hdoc hsafe
  obtain ⟨k1, k2⟩ := hr (fun _ _ _ h => by cases h)
  refine ⟨T, x, keys, hT, k1 by' rfl, ?_⟩
  obtain ⟨m', h1, h2⟩ := hmap m amt hm
  rw [h2, k2, PMF.pure_map, hev, ← f1]
  rfl

/-! ## `get_groups` -/

/-- **C73** (partial). In any session that was made by the builder or by partitions, after any calls, `get_groups` of any chain
of transformation methods returns combinations of values of a documented table, each once; with an infinite budget all of
them. Only approximate budgets are accepted.

Partial: left joins of public tables with tables with IDs are inner joins (C57); that all combinations are returned needs constraints
that are sufficient for what was done before (`ConsSafe`, C16); at least one column. -/
theorem C73_groups_partial {ctx : Ctx} {core : Core} (hcore : AllGroups core) (hsome : SomeGroups core)
    {sources : Relation.Sources}
    (hst : Relation.Stored ctx.cast sources) (hf : FramesOK sources) {out : Relation.Output}
    (h : Relation.initCore ctx.cast (coreMeasure ctx.m) sources = .ok out) (b₀ : PB)
    (ops : List (Session.Op Request PubFrame Value)) (hs : ViewsSafe ctx (Session.init b₀ (startTables out)) ops)
    (w : Session.World Meas Tab PubFrame) (hw : w = Session.run (env ctx) (Session.init b₀ (startTables out)) ops)
    (data : Nat → Root × Data)
    (hdata : data = dataAfter ctx core (Session.init b₀ (startTables out)) (fun _ => (startRoot out, startData out)) ops)
    (i : Nat) (c : Chain) (hk : c.Kept) (e : Expr) (he : c.build ctx = .ok e) (columns : ColsArg) (listed : List String)
    (hlist : columns.Lists listed) (b : PB) :
    ∃ ok : Admissible (child (callGetGroups e columns)), ∀ (p : Meas) (amt : PB),
      (Session.step (env ctx) w (.evaluate i (.query (callGetGroups e columns) ok) b)).1 = .ok (.answer p amt) →
      ∃ n cat, w.nodes[i]? = some n ∧ catalog n.tables (w.pubOf n) = .ok cat ∧
        (∀ cs, cs = groupsOf listed (names (c.columns cat)) (c.id cat) → cs ≠ [] →
          ∃ T, c.Faithful cat (resolve n.tables (data i).2) T ∧
          (∀ r ∈ (Composition.respond (sem ctx core) data i
              (Session.step (env ctx) w (.evaluate i (.query (callGetGroups e columns) ok) b)).1).support,
            ∃ keys : List Row, r.2 = some keys ∧ keys.Nodup ∧
              (∀ key ∈ keys, ∃ row ∈ T, key = cs.map (fun c => (c, cell row c))) ∧
              (b.isInfinite = true → e.ConsSafe ctx.h cat → ∀ row ∈ T, cs.map (fun c => (c, cell row c)) ∈ keys))) := by
  have ok : Admissible (child (callGetGroups e columns)) := admissible c hk he
  have hgq : callGetGroups e columns = .groups e listed := by
    unfold callGetGroups
    cases columns <;> cases hlist <;> rfl
  refine ⟨ok, fun m amt hev => ?_⟩
  generalize callGetGroups e columns = q at ok hev hgq ⊢
  subst hgq
  have inv := (start_inv hst hf h b₀).run (core := core) ops
  have known := C60_constraints_partial (core := core) hst hf h b₀ ops hs i
  rw [← hw, ← hdata] at inv known
  have st := Session.step_cases (env ctx) w (.evaluate i (.query (.groups e listed) ok) b)
  rw [hev] at st ⊢
  generalize (Session.step (env ctx) w (.evaluate i (.query (.groups e listed) ok) b)).2 = w' at st
  cases st with
  | evaluate _ _ _ n _ _ ns hn hc ha hp hs =>
  have hm : compileM ctx n.tables (w.pubOf n) (.query (.groups e listed) ok) amt = .ok m := by
    unfold Session.compileInfo at hc
    dsimp only at hc
    split at hc
    · cases hc
    split at hc
    · cases hc
    split at hc
    · cases hc
    split at hc
    · cases hc
    next hm => cases hc; exact hm
  obtain ⟨σ, near⟩ := inv.near i (List.getElem?_eq_some_iff.1 hn).1
  obtain ⟨wf, fns, ren, _, _⟩ := ok
  obtain ⟨cat, p, hcat, hp, hmk, _, hmkeys, hmt, hmr, hpost⟩ := compileM_plan hm
  obtain ⟨s, o, col, tr, f, hs0, hvis, htr, hpk, hpt, hpp, hprep⟩ := groups_plan hp
  obtain ⟨ε, δ, hamt, _, hkb, _⟩ := compileQuery_groups hp
  have cf := cat_facts hcat (inv.tabs i n hn)
  have hD := cf.data _ near.conf
  obtain ⟨s2, hbd⟩ := visitChild_build' hvis
  have hbd : build ctx.h cat e = .ok (s2, o) := hbd
  obtain ⟨_, ho, _⟩ := build_ok hbd
  refine ⟨n, cat, hn, hcat, fun cs hcs hne => ⟨o.run (resolve n.tables (data i).2), ?_, fun r hr => ?_⟩⟩
  · exact faithful cf.ok c hk he hs0 (Meaning.faithful_of_build cf.ok hD _ wf fns ren hbd)
  have hcs : cs = groupColumns s listed := by
    obtain ⟨c1, c2, _⟩ := C72_columns cf.ok c hk he hs0
    rw [hcs, ← c1, ← c2]
    show groupsOf listed (names (stys s)) s.idColumn = _
    rw [names_stys (schemaOf_wf cf.ok e wf hs0)]
    rfl
  subst hcs
  have hsub := (truncate_known htr (resolve n.tables (data i).2)).1
  have e1 : m.call.keys = .cols (groupColumns s listed) := by rw [hmkeys, hpk]
  have e2 : m.call.task = .groups := by rw [hmt, hpt]
  dsimp only [Composition.respond] at hr
  obtain ⟨x, hx, hr⟩ := (PMF.mem_support_bind_iff _ _ _).1 hr
  obtain ⟨a, hx', hr'⟩ := (PMF.mem_support_bind_iff _ _ _).1 hx
  rw [PMF.mem_support_pure_iff] at hr hr'
  have hr' : x = a := by rw [hr', hpost, hpp]; rfl
  subst hr'
  have back : ∀ key, (∃ r ∈ m.run (data i).2, key = (groupColumns s listed).map (fun c => (c, cell r c))) ↔
      ∃ r ∈ f (resolve n.tables (data i).2), key = (groupColumns s listed).map (fun c => (c, cell r c)) := by
    intro key
    rw [hmr, hprep]
    constructor
    · rintro ⟨r, hr, rfl⟩
      obtain ⟨r', hr', rfl⟩ := List.mem_map.1 hr
      exact ⟨r', hr', pick_pick _ r'⟩
    · rintro ⟨r, hr, rfl⟩
      exact ⟨_, List.mem_map.2 ⟨r, hr, rfl⟩, (pick_pick _ r).symm⟩
  obtain ⟨k1, k2⟩ := hsome m.call _ e1 e2 hne (m.run (data i).2) x hx'
  refine ⟨x, by rw [hr], k1, fun key hkey => ?_, fun hinf hsafe row hrow => ?_⟩
  · obtain ⟨r, hr, hkr⟩ := (back key).1 (k2 key hkey)
    exact ⟨r, hsub.subset hr, hkr⟩
  · have hperm : (f (resolve n.tables (data i).2)).Perm (o.run (resolve n.tables (data i).2)) := by
      refine (truncate_known htr _).2 fun j hj c hcc => ?_
      exact (cons_hold cf.ok cf.ids hD (known_cat cf (known n hn)) _ wf fns ren hsafe hs0 ho hj c hcc).1
    have hk1 : m.call.keyBudget = .approx ⊤ (1 : ℚ) := by rw [hmk, hkb, ← hamt]; exact infinite_adj hinf hc hamt
    obtain ⟨keys, _, k4, k5⟩ := hcore m.call _ hk1 e1 e2 hne (m.run (data i).2)
    rw [k5, PMF.mem_support_pure_iff] at hx'
    rw [hx']
    exact (k4 _).2 ((back _).2 ⟨row, hperm.mem_iff.2 hrow, rfl⟩)

end Verif.Whole
