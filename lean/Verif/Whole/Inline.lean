import Verif.Query.Inline
import Verif.Nested.Steps
import Verif.Whole.Total
import Verif.Whole.Plan
import Verif.Whole.PropsDescribe
import Verif.Session.NoiseInfo

/-!
# Views are abbreviations (C88)
-/

namespace Verif.Whole

open Verif Verif.Schema Verif.Constraint Verif.Expr Verif.Query Verif.Stability
open Verif.Budget (XNum PB Rounding)
open Verif.Session (World Op)
open Verif.Nested (IsIDs)
open scoped NNReal

/-! ## Specification -/

/-- No flat map of the expression groups its result. -/
def NoGroups : Expr → Prop
  | .source _ => True
  | .rename e _ => NoGroups e
  | .filter e _ _ => NoGroups e
  | .select e _ => NoGroups e
  | .map e _ _ _ => NoGroups e
  | .flatMap e _ new _ _ => new.grouping = none ∧ NoGroups e
  | .flatMapByID e _ _ => NoGroups e
  | .joinPrivate l r _ _ _ => NoGroups l ∧ NoGroups r
  | .joinPublic e _ _ _ => NoGroups e
  | .replaceNull e _ => NoGroups e
  | .replaceInf e _ => NoGroups e
  | .dropNull e _ => NoGroups e
  | .dropInf e _ => NoGroups e
  | .enforce e _ => NoGroups e

/-! ## Admissible expressions -/

theorem admissible_inline {name : String} {v e : Expr} (hv : Admissible v) (he : Admissible e) :
    Admissible (Expr.inline name v e) := by
  obtain ⟨v1, v2, v3, v4, v5⟩ := hv
  obtain ⟨e1, e2, e3, e4, e5⟩ := he
  induction e with
  | source id =>
    dsimp only [Expr.inline]
    split
    · exact ⟨v1, v2, v3, v4, v5⟩
    · exact ⟨trivial, trivial, trivial, trivial, trivial⟩
  | rename e m ih =>
    obtain ⟨a, b, c, d, f⟩ := ih e1.1 e2 e3.1 e4 e5
    exact ⟨⟨a, e1.2⟩, b, ⟨c, e3.2⟩, d, f⟩
  | joinPrivate l r tl tr cols ihl ihr =>
    obtain ⟨a, b, c, d, f⟩ := ihl e1.1 e2.1 e3.1 e4.1 e5.1
    obtain ⟨a', b', c', d', f'⟩ := ihr e1.2 e2.2 e3.2 e4.2 e5.2
    exact ⟨⟨a, a'⟩, ⟨b, b'⟩, ⟨c, c'⟩, ⟨d, d'⟩, ⟨f, f'⟩⟩
  | filter e valid cond ih =>
    obtain ⟨a, b, c, d, f⟩ := ih e1 e2 e3 e4 e5
    exact ⟨a, b, c, d, f⟩
  | select e cols ih =>
    obtain ⟨a, b, c, d, f⟩ := ih e1 e2 e3 e4 e5
    exact ⟨a, b, c, d, f⟩
  | map e f new augment ih =>
    obtain ⟨a, b, c, d, f⟩ := ih e1.1 e2.1 e3 e4 e5
    exact ⟨⟨a, e1.2⟩, ⟨b, e2.2⟩, c, d, f⟩
  | flatMap e f new augment n ih =>
    obtain ⟨a, b, c, d, f⟩ := ih e1.1 e2.1 e3 e4 e5.1
    exact ⟨⟨a, e1.2⟩, ⟨b, e2.2⟩, c, d, ⟨f, e5.2⟩⟩
  | flatMapByID e f new ih =>
    obtain ⟨a, b, c, d, f⟩ := ih e1.1 e2.1 e3 e4.1 e5
    exact ⟨⟨a, e1.2⟩, ⟨b, e2.2⟩, c, ⟨d, e4.2⟩, f⟩
  | joinPublic e pub cols how ih =>
    obtain ⟨a, b, c, d, f⟩ := ih e1.1 e2.1 e3 e4 e5
    exact ⟨⟨a, e1.2⟩, ⟨b, e2.2⟩, c, d, f⟩
  | replaceNull e w ih =>
    obtain ⟨a, b, c, d, f⟩ := ih e1.1 e2 e3 e4 e5
    exact ⟨⟨a, e1.2⟩, b, c, d, f⟩
  | replaceInf e w ih =>
    obtain ⟨a, b, c, d, f⟩ := ih e1.1 e2 e3 e4 e5
    exact ⟨⟨a, e1.2⟩, b, c, d, f⟩
  | dropNull e cols ih =>
    obtain ⟨a, b, c, d, f⟩ := ih e1 e2 e3 e4 e5
    exact ⟨a, b, c, d, f⟩
  | dropInf e cols ih =>
    obtain ⟨a, b, c, d, f⟩ := ih e1 e2 e3 e4 e5
    exact ⟨a, b, c, d, f⟩
  | enforce e k ih =>
    obtain ⟨a, b, c, d, f⟩ := ih e1 e2 e3 e4 e5
    exact ⟨a, b, c, d, f⟩

theorem child_inline (name : String) (v : Expr) (q : Query) : child (Query.inline name v q) = Expr.inline name v (child q) := by
  cases q <;> rfl

/-- The query in which a table is written out, as a request. -/
def writtenOut (name : String) (v : Expr) (hv : Admissible v) (q : Query) (hq : Admissible (child q)) : Request :=
  .query (Query.inline name v q) (child_inline name v q ▸ admissible_inline hv hq)

/-! ## Distances -/

theorem sources_ne (e : Expr) : e.sources ≠ [] := by
  induction e with
  | source id => simp [Expr.sources]
  | joinPrivate l r tl tr cols ihl ihr => simp [Expr.sources, ihl]
  | _ => simpa only [Expr.sources]

/-- A table has IDs if and only if the tables it is made of have. -/
theorem ids_sources {h : Hash} {cat : Cat} (e : Expr) {o : Out} (ho : compile h cat e = .ok o) :
    ∀ id ∈ e.sources, ∃ s cs, Dict.get cat.priv id = some (s, cs) ∧ (IsIDs o.metric ↔ IsIDs (metricOf s)) := by
  induction e generalizing o with
  | source id =>
    intro x hx
    obtain rfl : x = id := by simpa [Expr.sources] using hx
    simp only [compile, visitSource] at ho
    split at ho
    · cases ho
    next s cs hg =>
    cases ho
    exact ⟨s, cs, hg, Iff.rfl⟩
  | joinPrivate l r tl tr cols ihl ihr =>
    obtain ⟨ol, hl, ho⟩ := bind_ok ho
    obtain ⟨or, hr, ho⟩ := bind_ok ho
    have hlr : (IsIDs o.metric ↔ IsIDs ol.metric) ∧ (IsIDs o.metric ↔ IsIDs or.metric) := by
      simp only [visitJoinPrivate] at ho
      repeat' split at ho
      all_goals first | (cases ho; done) | skip
      all_goals cases ho
      all_goals simp_all [IsIDs]
    intro x hx
    rcases List.mem_append.1 hx with hx | hx
    · obtain ⟨s, cs, h1, h2⟩ := ihl hl x hx
      exact ⟨s, cs, h1, hlr.1.trans h2⟩
    · obtain ⟨s, cs, h1, h2⟩ := ihr hr x hx
      exact ⟨s, cs, h1, hlr.2.trans h2⟩
  | rename e m ih =>
    obtain ⟨o', ho', ho⟩ := bind_ok ho
    intro x hx
    obtain ⟨s, cs, h1, h2⟩ := ih ho' x hx
    exact ⟨s, cs, h1, ((Nested.local_rename m).ids _ _ ho).trans h2⟩
  | filter e valid cond ih =>
    obtain ⟨o', ho', ho⟩ := bind_ok ho
    intro x hx
    obtain ⟨s, cs, h1, h2⟩ := ih ho' x hx
    exact ⟨s, cs, h1, ((Nested.local_filter cond).ids _ _ ho).trans h2⟩
  | select e cols ih =>
    obtain ⟨o', ho', ho⟩ := bind_ok ho
    intro x hx
    obtain ⟨s, cs, h1, h2⟩ := ih ho' x hx
    exact ⟨s, cs, h1, ((Nested.local_select cols).ids _ _ ho).trans h2⟩
  | map e f new augment ih =>
    obtain ⟨o', ho', ho⟩ := bind_ok ho
    intro x hx
    obtain ⟨s, cs, h1, h2⟩ := ih ho' x hx
    exact ⟨s, cs, h1, ((Nested.local_map f new augment).ids _ _ ho).trans h2⟩
  | flatMap e f new augment n ih =>
    obtain ⟨o', ho', ho⟩ := bind_ok ho
    intro x hx
    obtain ⟨s, cs, h1, h2⟩ := ih ho' x hx
    exact ⟨s, cs, h1, ((Nested.local_flatMap f new augment n).ids _ _ ho).trans h2⟩
  | flatMapByID e f new ih =>
    obtain ⟨o', ho', ho⟩ := bind_ok ho
    intro x hx
    obtain ⟨s, cs, h1, h2⟩ := ih ho' x hx
    exact ⟨s, cs, h1, ((Nested.local_flatMapByID f new).ids _ _ ho).trans h2⟩
  | joinPublic e pub cols how ih =>
    obtain ⟨o', ho', ho⟩ := bind_ok ho
    intro x hx
    obtain ⟨s, cs, h1, h2⟩ := ih ho' x hx
    exact ⟨s, cs, h1, ((Nested.local_joinPublic cat pub cols how).ids _ _ ho).trans h2⟩
  | replaceNull e w ih =>
    obtain ⟨o', ho', ho⟩ := bind_ok ho
    intro x hx
    obtain ⟨s, cs, h1, h2⟩ := ih ho' x hx
    exact ⟨s, cs, h1, ((Nested.local_replaceNull w).ids _ _ ho).trans h2⟩
  | replaceInf e w ih =>
    obtain ⟨o', ho', ho⟩ := bind_ok ho
    intro x hx
    obtain ⟨s, cs, h1, h2⟩ := ih ho' x hx
    exact ⟨s, cs, h1, ((Nested.local_replaceInf w).ids _ _ ho).trans h2⟩
  | dropNull e cols ih =>
    obtain ⟨o', ho', ho⟩ := bind_ok ho
    intro x hx
    obtain ⟨s, cs, h1, h2⟩ := ih ho' x hx
    exact ⟨s, cs, h1, ((Nested.local_dropNull cols).ids _ _ ho).trans h2⟩
  | dropInf e cols ih =>
    obtain ⟨o', ho', ho⟩ := bind_ok ho
    intro x hx
    obtain ⟨s, cs, h1, h2⟩ := ih ho' x hx
    exact ⟨s, cs, h1, ((Nested.local_dropInf cols).ids _ _ ho).trans h2⟩
  | enforce e c ih =>
    obtain ⟨o', ho', ho⟩ := bind_ok ho
    intro x hx
    obtain ⟨s, cs, h1, h2⟩ := ih ho' x hx
    exact ⟨s, cs, h1, ((Nested.local_enforce h c).ids _ _ ho).trans h2⟩

/-- Without grouping flat maps the distance does not depend on the mechanism. -/
theorem distOf_l2 {h : Hash} {cat : Cat} {d : String → ℝ≥0} (l l' : Bool) (e : Expr) (he : NoGroups e) :
    distOf l h cat d e = distOf l' h cat d e := by
  induction e with
  | flatMap e f new augment n ih => simp [distOf, he.1, ih he.2]
  | joinPrivate a b tl tr cols iha ihb =>
    simp only [distOf]
    split
    · rw [iha he.1, ihb he.2]
    · rfl
  | source id => rfl
  | _ => simp_all only [distOf, NoGroups]

theorem ownGroups_none (e : Expr) (he : NoGroups e) : ownGroups e = false := by
  induction e with
  | flatMap e f new augment n ih => simp [ownGroups, he.1, ih he.2]
  | joinPrivate a b tl tr cols iha ihb => rfl
  | source id => rfl
  | _ => simp_all only [ownGroups, NoGroups]

theorem ownGroups_inline {name : String} {v : Expr} (hv : ownGroups v = false) (e : Expr) :
    ownGroups (Expr.inline name v e) = ownGroups e := by
  induction e with
  | source id =>
    dsimp only [Expr.inline]
    split
    · exact hv
    · rfl
  | joinPrivate a b tl tr cols iha ihb => rfl
  | _ => simp_all only [Expr.inline, ownGroups]

theorem head_inline {name : String} {v : Expr} (e : Expr) :
    (e.sources.headD "" = name ∧ (Expr.inline name v e).sources.headD "" = v.sources.headD "") ∨
      (e.sources.headD "" ≠ name ∧ (Expr.inline name v e).sources.headD "" = e.sources.headD "") := by
  induction e with
  | source id =>
    dsimp only [Expr.inline]
    split
    · next hid => exact .inl ⟨hid, rfl⟩
    · next hid => exact .inr ⟨hid, rfl⟩
  | joinPrivate a b tl tr cols iha ihb =>
    have h1 : ∀ x y : List String, x ≠ [] → (x ++ y).headD "" = x.headD "" := fun x y hx => by
      cases x with
      | nil => exact absurd rfl hx
      | cons a x => rfl
    simp only [Expr.inline, Expr.sources]
    rw [h1 _ _ (sources_ne _), h1 _ _ (sources_ne _)]
    exact iha
  | rename e m ih => exact ih
  | filter e valid cond ih => exact ih
  | select e cols ih => exact ih
  | map e f new augment ih => exact ih
  | flatMap e f new augment n ih => exact ih
  | flatMapByID e f new ih => exact ih
  | joinPublic e pub cols how ih => exact ih
  | replaceNull e w ih => exact ih
  | replaceInf e w ih => exact ih
  | dropNull e cols ih => exact ih
  | dropInf e cols ih => exact ih
  | enforce e c ih => exact ih

variable {h : Hash} {cat cat' : Cat} {name : String} {v : Expr} {s : Schema} {o : Out}

theorem publicStability_inline (d : Defines h cat cat' name v s o) (e : Expr) (pub : PubRef) (cols : Option (List String))
    (how : How) : publicStability h cat (Expr.inline name v e) pub cols how = publicStability h cat' e pub cols how := by
  unfold publicStability
  rw [compile_inline d, resolvePub_eq d.pub]
  cases compile h cat' e with
  | error x => rfl
  | ok o' => cases hp : resolvePub cat pub <;> simp only [hp, Except.map] <;> rfl

theorem distOf_inline (df : Defines h cat cat' name v s o) {l : Bool} {d d' : String → ℝ≥0}
    (hother : ∀ id, id ≠ name → d' id = d id) (e : Expr) (hname : name ∈ e.sources → d' name = distOf l h cat d v) :
    distOf l h cat d (Expr.inline name v e) = distOf l h cat' d' e := by
  induction e with
  | source id =>
    dsimp only [Expr.inline]
    split
    · next hid =>
      subst hid
      exact (hname (by simp [Expr.sources])).symm
    · next hid => exact (hother id hid).symm
  | joinPrivate a b tl tr cols iha ihb =>
    simp only [Expr.inline, distOf]
    rw [iha (fun hm => hname (List.mem_append_left _ hm)), ihb (fun hm => hname (List.mem_append_right _ hm))]
  | joinPublic e pub cols how ih =>
    simp only [Expr.inline, distOf, publicStability_inline df]
    rw [ih hname]
  | rename e m ih => exact ih hname
  | filter e valid cond ih => exact ih hname
  | select e cols ih => exact ih hname
  | map e f new augment ih => exact ih hname
  | flatMap e f new augment n ih =>
    simp only [Expr.inline, distOf]
    rw [ih hname]
  | flatMapByID e f new ih => exact ih hname
  | replaceNull e w ih => exact ih hname
  | replaceInf e w ih => exact ih hname
  | dropNull e cols ih => exact ih hname
  | dropInf e cols ih => exact ih hname
  | enforce e c ih =>
    simp only [Expr.inline, distOf]
    rw [ih hname]

/-! ## Measurements -/

/-- The view as a table of the session. -/
noncomputable def viewTab (ctx : Ctx) (cat : Cat) (tables : List (String × Tab)) (v : Expr) (o : Out) : Tab :=
  ⟨o.dom, o.metric, o.space, o.cons, outDist (decide (ctx.m = .zCDP)) ctx.h cat tables o v, fun D => o.run (resolve tables D)⟩

theorem get_head {V : Type} (name : String) (x : V) (l : List (String × V)) : Dict.get ((name, x) :: l) name = some x := by
  simp [Dict.get]

theorem get_tail {V : Type} {name id : String} (x : V) (l : List (String × V)) (hid : id ≠ name) :
    Dict.get ((name, x) :: l) id = Dict.get l id := by
  have : (id == name) = false := by simpa using hid
  simp [Dict.get, List.lookup_cons, this]

theorem resolve_view {tables : List (String × Tab)} {V : Tab} {run : Data → Table}
    (hrun : ∀ D, V.run D = run (resolve tables D)) (D : Data) :
    resolve ((name, V) :: tables) D = withTable name run (resolve tables D) := by
  funext id
  by_cases hid : id = name
  · subst hid
    simp only [withTable, if_true, ← hrun]
    simp only [resolve, get_head]
  · simp only [withTable, hid, if_false, resolve, get_tail V tables hid]

theorem outDist_inline {ctx : Ctx} {tables : List (String × Tab)} (df : Defines ctx.h cat cat' name v s o)
    (hg : NoGroups v ∨ ctx.m ≠ .zCDP) {l : Bool} (hl : l = true → ctx.m = .zCDP) {e : Expr} {o' : Out}
    (ho : compile ctx.h cat' e = .ok o') (f : Data → Data) :
    outDist l ctx.h cat tables (Out.after f o') (Expr.inline name v e) =
      outDist l ctx.h cat' ((name, viewTab ctx cat tables v o) :: tables) o' e := by
  have hids := ids_sources e ho
  have hself : distAt ((name, viewTab ctx cat tables v o) :: tables) name = (viewTab ctx cat tables v o).dist := by
    simp only [distAt, get_head]
  have hother : ∀ id, id ≠ name → distAt ((name, viewTab ctx cat tables v o) :: tables) id = distAt tables id := by
    intro id hid
    simp only [distAt, get_tail _ tables hid]
  have hmet : name ∈ e.sources → (IsIDs o'.metric ↔ IsIDs o.metric) := by
    intro hm
    obtain ⟨s', cs, h1, h2⟩ := hids name hm
    rw [df.get] at h1
    cases h1
    rw [df.metric]
    exact h2
  unfold outDist
  cases hm : o'.metric with
  | ids i =>
    have : (Out.after f o').metric = .ids i := hm
    rw [this]
    dsimp only
    rcases head_inline (name := name) (v := v) e with ⟨h1, h2⟩ | ⟨h1, h2⟩
    · rw [h2, h1, hself]
      have hin : name ∈ e.sources := by
        cases hs : e.sources with
        | nil => exact absurd hs (sources_ne e)
        | cons a l =>
          rw [hs] at h1
          rw [← h1]
          simp
      have : IsIDs o.metric := (hmet hin).1 ⟨i, hm⟩
      obtain ⟨j, hj⟩ := this
      unfold viewTab outDist
      rw [hj]
    · rw [h2, hother _ h1]
  | symDiff | grouped g =>
    have : (Out.after f o').metric = o'.metric := rfl
    rw [this, hm]
    dsimp only
    refine distOf_inline df hother e fun hin => ?_
    rw [hself]
    have hno : ¬ IsIDs o.metric := fun h => by
      obtain ⟨j, hj⟩ := (hmet hin).2 h
      rw [hm] at hj
      cases hj
    have hz : distOf (decide (ctx.m = .zCDP)) ctx.h cat (distAt tables) v = distOf l ctx.h cat (distAt tables) v := by
      rcases hg with hg | hg
      · exact distOf_l2 _ _ v hg
      · cases l with
        | true => exact absurd (hl rfl) hg
        | false => rw [decide_eq_false hg]
    rw [← hz]
    unfold viewTab outDist
    cases ho : o.metric with
    | ids j => exact absurd ⟨j, ho⟩ hno
    | symDiff => rfl
    | grouped g => rfl

theorem innerOf_inline {m : Measure} (hg : NoGroups v ∨ m ≠ .zCDP) {l : Bool} (hl : l = true → m = .zCDP) (e : Expr) :
    decide (innerOf m l (Expr.inline name v e) = .zCDP) = decide (innerOf m l e = .zCDP) := by
  rcases hg with hg | hg
  · unfold innerOf
    rw [ownGroups_inline (ownGroups_none v hg)]
  · have hno : ∀ e, innerOf m l e ≠ .zCDP := by
      intro e
      have : l = false := by
        cases l with
        | true => exact absurd (hl rfl) hg
        | false => rfl
      unfold innerOf
      split
      · rw [this]
        simp
      · exact hg
    rw [decide_eq_false (hno _), decide_eq_false (hno _)]

theorem groupCols_inline (name : String) (v : Expr) (q : Query) :
    groupCols (Query.inline name v q) = groupCols q := by
  cases q <;> rfl

/-- The compiled query with the view and the query in which the view is written out are the same measurement. -/
theorem compileM_inline {ctx : Ctx} {tables : List (String × Tab)} {pub : List (String × PubFrame)}
    (hcat : catalog tables pub = .ok cat) (hcat' : catalog ((name, viewTab ctx cat tables v o) :: tables) pub = .ok cat')
    (hc : cat'.OK) (df : Defines ctx.h cat cat' name v s o) (hg : NoGroups v ∨ ctx.m ≠ .zCDP) (q : Query)
    (hq : Admissible (child q)) (hf : Query.FiltersBySpark q) (hv : Admissible v) (b : PB) :
    compileM ctx tables pub (writtenOut name v hv q hq) b =
      compileM ctx ((name, viewTab ctx cat tables v o) :: tables) pub (.query q hq) b := by
  unfold compileM writtenOut
  dsimp only
  split
  · rfl
  rw [hcat, hcat']
  dsimp only
  have hd : DefinesIn ⟨ctx.h, ctx.order, ctx.m, cat⟩ ⟨ctx.h, ctx.order, ctx.m, cat'⟩ name v s o := ⟨rfl, rfl, rfl, df⟩
  rw [C88_compile hd b q hf]
  cases hp : compileQuery ⟨ctx.h, ctx.order, ctx.m, cat'⟩ b q with
  | error x => rfl
  | ok p =>
  have hl : p.useL2 = true → ctx.m = .zCDP := (plan_facts hc hq.wf hp).l2
  have hvl : visitL2 p = true → ctx.m = .zCDP := by
    unfold visitL2
    split
    · intro h; cases h
    · exact hl
  dsimp only [Except.map, Plan.inline]
  rw [compile_inline df]
  cases ho : compile ctx.h cat' p.child with
  | error x => rfl
  | ok o' =>
  have hplan : planDelta ctx.m ctx.h cat tables (groupCols q) (Out.after (withTable name o.run) o')
      (Plan.inline name v o.run p) =
      planDelta ctx.m ctx.h cat' ((name, viewTab ctx cat tables v o) :: tables) (groupCols q) o' p := by
    have := outDist_inline (tables := tables) df hg hvl ho (withTable name o.run)
    unfold planDelta
    dsimp only [Plan.inline]
    cases p.trunc with
    | none => exact this
    | some tr =>
      dsimp only
      rw [← this]
      rfl
  have hroot : rootMetric ctx.m (groupCols q) (Out.after (withTable name o.run) o') (Plan.inline name v o.run p) =
      rootMetric ctx.m (groupCols q) o' p := by
    unfold rootMetric
    dsimp only [Plan.inline]
    cases p.trunc with
    | none =>
      dsimp only
      rw [← innerOf_inline (name := name) hg hvl p.child]
      rfl
    | some tr => cases tr <;> rfl
  have hdelta : callDelta ctx.m ctx.h cat tables (groupCols q) (Out.after (withTable name o.run) o')
      (Plan.inline name v o.run p) =
      callDelta ctx.m ctx.h cat' ((name, viewTab ctx cat tables v o) :: tables) (groupCols q) o' p := by
    unfold callDelta
    rw [hplan, hroot]
    rfl
  dsimp only [Except.map]
  rw [groupCols_inline]
  have hrun : (fun D => p.prep (withTable name o.run (resolve tables D))) =
      fun D => p.prep (resolve ((name, viewTab ctx cat tables v o) :: tables) D) := by
    funext D
    rw [resolve_view (V := viewTab ctx cat tables v o) (run := o.run) (fun D => rfl)]
  rw [hrun]
  simp only [Plan.inline] at hroot hdelta
  rw [hroot, hdelta]

/-! ## Sessions -/

/-- What `evaluate` gives depends on the compiled query and on the budget that is left. -/
theorem evaluate_same {w w' : World Meas Tab PubFrame} {env env' : Session.Env Request Meas Tab PubFrame Value} {i : Nat}
    {n n' : Session.Node Meas Tab} {q q' : Request} {b : PB} (hp : env'.privRel = env.privRel) (hn : w.nodes[i]? = some n)
    (hn' : w'.nodes[i]? = some n') (hlive : n.state ≠ .retired) (hlive' : n'.state ≠ .retired)
    (hrem : n'.remaining = n.remaining)
    (hc : Session.compileInfo env' w' n' q' b = Session.compileInfo env w n q b) :
    (Session.evaluate env' w' i q' b).1 = (Session.evaluate env w i q b).1 ∧
      ∃ m m', (Session.evaluate env w i q b).2.nodes[i]? = some m ∧
        (Session.evaluate env' w' i q' b).2.nodes[i]? = some m' ∧ m'.remaining = m.remaining := by
  obtain ⟨ns, ha⟩ := Session.activate_ok hn hlive
  obtain ⟨ns', ha'⟩ := Session.activate_ok hn' hlive'
  have hs := Session.activate_self hn ha
  have hs' := Session.activate_self hn' ha'
  have hlen : i < ns.length := (List.getElem?_eq_some_iff.1 hs).1
  have hlen' : i < ns'.length := (List.getElem?_eq_some_iff.1 hs').1
  unfold Session.evaluate
  rw [hn, hn']
  dsimp only
  rw [hc]
  cases Session.compileInfo env w n q b with
  | error x => exact ⟨rfl, n, n', hn, hn', hrem⟩
  | ok p =>
    obtain ⟨m, adj⟩ := p
    dsimp only
    rw [ha, ha', hp, hrem]
    dsimp only
    by_cases h1 : (!env.privRel m adj) = true
    · rw [if_pos h1, if_pos h1]
      exact ⟨rfl, _, _, hs, hs', hrem⟩
    rw [if_neg h1, if_neg h1]
    by_cases h2 : (!Session.canSpend n.remaining adj) = true
    · rw [if_pos h2, if_pos h2]
      exact ⟨rfl, _, _, hs, hs', hrem⟩
    rw [if_neg h2, if_neg h2, hs, hs']
    refine ⟨rfl, _, _, List.getElem?_set_self hlen, List.getElem?_set_self hlen', ?_⟩
    show Session.spend n'.remaining adj = Session.spend n.remaining adj
    rw [hrem]

section
variable {ctx : Ctx} {sources : Relation.Sources} {out : Relation.Output}

/-- **C88** (partial: outside of zCDP sessions, or without flat maps that group; `C88_fails` is what happens otherwise). Once a
view was created in a session, every query about it gets the answer, costs what the query costs in which the view is written
out, and is refused with the same exception. -/
theorem C88_view_partial (core : Core) (hst : Relation.Stored ctx.cast sources) (hf : FramesOK sources)
    (h : Relation.initCore ctx.cast (coreMeasure ctx.m) sources = .ok out) (b₀ : PB)
    (ops : List (Op Request PubFrame Value)) (w : World Meas Tab PubFrame)
    (hw : w = Session.run (env ctx) (Session.init b₀ (startTables out)) ops) (i : Nat) (v : Expr) (hv : Admissible v)
    (name : String) (hok : (Session.step (env ctx) w (.createView i (.table v hv) name)).1 = .ok .none)
    (hg : NoGroups v ∨ ctx.m ≠ .zCDP) (q : Query) (hq : Admissible (child q)) (hfq : Query.FiltersBySpark q) (b : PB) :
    let w' := (Session.step (env ctx) w (.createView i (.table v hv) name)).2
    (Session.step (env ctx) w' (.evaluate i (.query q hq) b)).1 =
      (Session.step (env ctx) w (.evaluate i (writtenOut name v hv q hq) b)).1 ∧
    (∃ m m', (Session.step (env ctx) w (.evaluate i (writtenOut name v hv q hq) b)).2.nodes[i]? = some m ∧
      (Session.step (env ctx) w' (.evaluate i (.query q hq) b)).2.nodes[i]? = some m' ∧
      m'.remaining = m.remaining) ∧
    Session.noiseInfo (env ctx) id w' i (.query q hq) b =
      Session.noiseInfo (env ctx) id w i (writtenOut name v hv q hq) b := by
  have st := Session.step_cases (env ctx) w (.createView i (.table v hv) name)
  have hw' : (Session.step (env ctx) w (.createView i (.table v hv) name)).2 =
      Session.run (env ctx) (Session.init b₀ (startTables out)) (ops ++ [.createView i (.table v hv) name]) := by
    rw [run_snoc, ← hw]
  rw [hok] at st
  generalize (Session.step (env ctx) w (.createView i (.table v hv) name)).2 = w' at st hw' ⊢
  cases st with
  | createView _ _ _ n V ns hn hid ha h1 h2 ht =>
  have hself := Session.activate_self hn ha
  obtain ⟨cat, s, o, hcat, hb, rfl⟩ : ∃ cat s o, catalog n.tables (w.pubOf n) = .ok cat ∧ build ctx.h cat v = .ok (s, o) ∧
      V = viewTab ctx cat n.tables v o := by
    change transform ctx n.tables (w.pubOf n) (.table v hv) = .ok V at ht
    dsimp only [transform] at ht
    split at ht
    · cases ht
    next cat hcat =>
    split at ht
    · cases ht
    next s o hb => exact ⟨cat, s, o, hcat, hb, (Except.ok.inj ht).symm⟩
  obtain ⟨R, htabs⟩ := (reached core hst hf h b₀ ops i n (hw ▸ hn)).tabs
  have cf := cat_facts hcat htabs
  obtain ⟨hs, ho, hdom, hmet, hspace⟩ := build_exact cf.ok hv.wf hb
  have a := agree cf.ok v hv.wf hs ho
  have hlen : i < ns.length := (List.getElem?_eq_some_iff.1 hself).1
  have hn' : (ns.set i { n with state := .active, tables := (name, viewTab ctx cat n.tables v o) :: n.tables })[i]? =
      some { n with state := .active, tables := (name, viewTab ctx cat n.tables v o) :: n.tables } :=
    List.getElem?_set_self hlen
  generalize hN : ({ n with state := .active, tables := (name, viewTab ctx cat n.tables v o) :: n.tables } :
    Session.Node Meas Tab) = n' at hw' hn' ⊢
  generalize hW : ({ w with nodes := ns.set i n' } : World Meas Tab PubFrame) = w' at hw' ⊢
  have hn'' : w'.nodes[i]? = some n' := by rw [← hW]; exact hn'
  have hpub' : w'.pubOf n' = w.pubOf n := by rw [← hW, ← hN]; rfl
  have hre' := reached core hst hf h b₀ (ops ++ [.createView i (.table v hv) name]) i _ (by rw [← hw']; exact hn'')
  rw [← hw'] at hre'
  obtain ⟨R', tok'⟩ := hre'.tabs
  obtain ⟨cat', hcat'⟩ := catalog_total hre'.names hre'.pubNames tok' hre'.pub
  have cf' := cat_facts hcat' tok'
  have htn : n'.tables = (name, viewTab ctx cat n.tables v o) :: n.tables := by rw [← hN]
  rw [hpub', htn] at hcat'
  rw [htn] at tok'
  obtain ⟨hpriv, hpubc⟩ := catalog_ok hcat'
  obtain ⟨hpriv₀, hpubc₀⟩ := catalog_ok hcat
  obtain ⟨s', hs', _⟩ := (tok' (name, viewTab ctx cat n.tables v o) List.mem_cons_self).schema
  have hgi : groupOf o.metric = s.grouping ∧ idOf o.metric = s.idColumn := by
    rw [hmet]
    have := a.noBoth
    unfold metricOf
    cases hi : s.idColumn <;> cases hgr : s.grouping <;> simp_all [groupOf, idOf]
  have sf := Tab.schema_for (t := viewTab ctx cat n.tables v o)
    (tok' (name, viewTab ctx cat n.tables v o) List.mem_cons_self).wf hs'
  have hal : Alike s s' :=
    ⟨by rw [sf.dom]; exact hdom.symm, by rw [sf.grouping]; exact hgi.1.symm, by rw [sf.idColumn]; exact hgi.2.symm,
      by rw [sf.idSpace]; exact hspace.symm⟩
  have hrest : cat'.priv = (name, (s', o.cons)) :: cat.priv := by
    dsimp only [privCat] at hpriv
    rw [hs', hpriv₀] at hpriv
    dsimp only at hpriv
    split at hpriv
    · cases hpriv
    · exact (Except.ok.inj hpriv).symm
  have hpubs : cat'.pub = cat.pub := by
    rw [hpubc₀] at hpubc
    exact (Except.ok.inj hpubc).symm
  have hnp : name ∉ Dict.keys cat.pub := by
    obtain ⟨dd, d1, d2, _⟩ := pubCat_total (ctx := ctx) (pub := w.pubOf n) (hpub' ▸ hre'.pubNames) (hpub' ▸ hre'.pub)
    rw [hpubc₀] at d1
    cases d1
    rw [d2]
    exact h2
  have df : Defines ctx.h cat cat' name v s' o :=
    ⟨hnp, hpubs, by rw [hrest]; exact get_head _ _ _, fun id hid => by rw [hrest]; exact get_tail _ _ hid, ⟨s, hs, hal⟩, ho,
      hdom.trans hal.columns, hmet.trans hal.metric, hspace.trans hal.idSpace⟩
  have hcomp : ∀ b, compileM ctx n'.tables (w'.pubOf n') (.query q hq) b =
      compileM ctx n.tables (w.pubOf n) (writtenOut name v hv q hq) b := by
    intro b
    rw [htn, hpub']
    exact (compileM_inline hcat hcat' cf'.ok df hg q hq hfq hv b).symm
  have hrem : n'.remaining = n.remaining := by rw [← hN]
  have hinfo : Session.compileInfo (env ctx) w' n' (.query q hq) b =
      Session.compileInfo (env ctx) w n (writtenOut name v hv q hq) b := by
    have : (env ctx).compile = compileM ctx := rfl
    simp only [Session.compileInfo, hrem, this, hcomp]
  have hlive : n.state ≠ .retired := Session.activate_not_retired hn ha
  have hlive' : n'.state ≠ .retired := by rw [← hN]; simp
  obtain ⟨r1, r2⟩ := evaluate_same (b := b) rfl hn hn'' hlive hlive' hrem hinfo
  refine ⟨r1, r2, ?_⟩
  unfold Session.noiseInfo
  rw [hn, hn'']
  dsimp only
  rw [hinfo]

end

end Verif.Whole
