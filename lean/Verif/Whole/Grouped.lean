import Verif.KeySet.Expression
import Verif.Whole.Exact

/-!
# C66: answers have one row for each key of the KeySet

The KeySets of `Verif.KeySet` in the queries of `Verif.Whole`: what the documentation says an expression of KeySets stands
for is what the answer of a query grouped by it has.
-/

namespace Verif.Whole

open Verif Verif.Schema Verif.Constraint Verif.Expr Verif.Query Verif.Stability
open Verif.Budget (XNum PB Rounding)
open Verif.KeySet (KS KExpr KErr Assign Cond Shows)
open Verif.Meaning (Means NoLeftIDs Faithful)
open scoped NNReal

/-- What aggregations see of a KeySet: `schema()` (`_query_expr_compiler/_output_schema_visitor.py` l. 1512-1527) and
`dataframe()` (`_base_measurement_visitor.py` l. 849-871). -/
def viewOf (ev : Cond → (String → Option Value) → Bool) (k : KS) : Except KErr KeySetV := do
  let s ← k.schema
  let d ← k.dataframe (KeySet.world ev)
  pure ⟨s, d.rows.map (fun r => d.cols.zip r)⟩

/-! ## Specification -/

/-- The keys are those that the documentation says the KeySet has, each once. -/
def KeysAre (ev : Cond → (String → Option Value) → Bool) (e : KExpr) (keys : List Row) : Prop :=
  keys.Nodup ∧ ∀ key, key ∈ keys ↔ ∃ ρ : Assign, e.Den ev ρ ∧ key = e.columns.map (fun c => (c, ρ c))

/-- Assumed of core: grouped by a KeySet, the answer has a row for each key, whatever the data. -/
def OneRowPerKey (core : Core) : Prop :=
  ∀ c k t out, c.keys = .set k → Dict.keys k.schema ≠ [] → out ∈ (core.noise c t).support →
    ∃ f : Row → Row, out = k.rows.map (fun key => key ++ f key)

/-! ## Proof -/

theorem zip_map (cols : List String) (ρ : Assign) : cols.zip (cols.map ρ) = cols.map (fun c => (c, ρ c)) := by
  induction cols with
  | nil => rfl
  | cons c cs ih => simp [ih]

theorem zip_inj {cols : List String} {a b : List Value} (ha : a.length = cols.length) (hb : b.length = cols.length)
    (h : cols.zip a = cols.zip b) : a = b := by
  have := congrArg (List.map Prod.snd) h
  rwa [List.map_snd_zip (by omega), List.map_snd_zip (by omega)] at this

theorem descOK_of_fits {d : Desc} {v : Value} (h : KeySet.Fits d v) (ht : d.ty ≠ .DECIMAL) : DescOK d v := by
  rcases h with ⟨rfl, h⟩ | h
  · exact h
  · cases v <;> simp only [KeySet.vtype, Option.some.injEq, reduceCtorEq] at h
    case dec x => exact absurd h.symm ht
    all_goals exact h.symm

/-- What aggregations see of a KeySet is as assumed for C59, and has the documented keys. -/
theorem C66_view_partial (ev : Cond → (String → Option Value) → Bool) {hsh : KeySet.Op → Except KErr ℤ} {e : KExpr} {k : KS}
    (hk : e.eval hsh = .ok k) (ht : e.Treated ev) :
    ∃ v, viewOf ev k = .ok v ∧ v.OK ∧ Dict.keys v.schema = e.columns ∧ (e.columns ≠ [] → KeysAre ev e v.rows) := by
  obtain ⟨g, hc, hm⟩ := e.eval_good ev hk ht
  have hE := KeySet.world_real ev
  obtain ⟨s, t, hts, hst, hs, hks, hgs⟩ := g.schema hE
  obtain ⟨d, hd, hkey⟩ := g.shows hE.noPlans hE.2
  have wfs : Dict.WF s := by
    rw [Dict.wf_iff, hks]
    exact g.nodup
  have types : ∀ c x, (c, x) ∈ s → x.ty ≠ .DECIMAL := by
    intro c x hx
    have := KeySet.schema_types g.op.1 hts (c, x) (Dict.mem_of_get (by rw [← hgs]; exact (Dict.get_eq_some wfs).2 hx))
    intro h
    rw [show (c, x).2.ty = .DECIMAL from h] at this
    simp [KeySet.keysetTypes] at this
  have hdc : d.cols = e.columns := hd.cols.trans hc
  refine ⟨⟨s, d.rows.map (fun r => d.cols.zip r)⟩, ?_, ⟨wfs, ?_, types⟩, hks.trans hc, fun hne => ⟨?_, fun key => ?_⟩⟩
  · unfold viewOf
    rw [hs, hd.run]
    rfl
  · intro r hr
    obtain ⟨a, ha, rfl⟩ := List.mem_map.1 hr
    have hl := hd.len a ha
    have hcols : Row.cols (d.cols.zip a) = d.cols := List.map_fst_zip (by omega)
    refine ⟨by rw [hcols]; exact hd.nodup, fun c => by rw [hcols, hks, hd.cols], fun c v hv x hx => ?_⟩
    have hval : v = KeySet.cell d.cols a c := by
      rw [← KeySet.map_cell hd.nodup hl, zip_map] at hv
      obtain ⟨c', _, h'⟩ := List.mem_map.1 hv
      cases h'
      rfl
    have hmat : k.op.Matches (KeySet.world ev) (KeySet.cell d.cols a) := by
      rw [← hkey]
      right
      rwa [KeySet.map_cell hd.nodup hl]
    rw [hval]
    refine descOK_of_fits ?_ (types c x hx)
    exact KeySet.schema_describes g.op.1 g.op.2 hE.leaf hts hmat (by rw [← hgs]; exact (Dict.get_eq_some wfs).2 hx)
  · refine List.Nodup.map_on (fun a ha b hb h => zip_inj (hd.len a ha) (hd.len b hb) h) hd.rows
  · simp only [List.mem_map]
    constructor
    · rintro ⟨a, ha, rfl⟩
      have hmc := KeySet.map_cell hd.nodup (hd.len a ha)
      refine ⟨KeySet.cell d.cols a, ?_, ?_⟩
      · rw [← hm, ← hkey]
        right
        rwa [hmc]
      · rw [← hdc, ← zip_map, hmc]
    · rintro ⟨ρ, hρ, rfl⟩
      rw [← hm, ← hkey] at hρ
      rcases hρ with h | h
      · exact absurd (hdc ▸ h) hne
      · exact ⟨_, h, by rw [zip_map, hdc]⟩

section
variable (ev : Cond → (String → Option Value) → Bool) {hsh : KeySet.Op → Except KErr ℤ} {e : KExpr} {k : KS} {v : KeySetV}
  {ctx : Ctx} {core : Core}

/-- **C66** (partial). A query grouped by a KeySet has one row for each key the KeySet stands for, in every session, for
every budget and whatever the data (`suppress` may remove rows afterwards).

Partial: KeySets with a projection of an empty KeySet are excluded, for which the claim is false
(`C23_getitem_empty_fails`), as are subtraction and filtering of KeySets without columns. -/
theorem C66_keys_partial (hcore : OneRowPerKey core) (hk : e.eval hsh = .ok k) (ht : e.Treated ev) (hne : e.columns ≠ [])
    (hv : viewOf ev k = .ok v) (w : Session.World Meas Tab PubFrame) (i : Nat) (q : Query) (ok : Admissible (child q)) (a : Agg)
    (hq : q.agg? = some a) (ha : a.keys = .set v) (b : PB) (m : Meas) (amt : PB)
    (hev : (Session.step (env ctx) w (.evaluate i (.query q ok) b)).1 = .ok (.answer m amt)) :
    ∃ keys, KeysAre ev e keys ∧ ∀ data, ∀ r ∈ (Composition.respond (sem ctx core) data i
        (Session.step (env ctx) w (.evaluate i (.query q ok) b)).1).support,
      ∃ f : Row → Row, r = (.ok (.answer m amt), some (shown q (keys.map (fun key => key ++ f key)))) := by
  obtain ⟨v', hv', hok, hcols, hkeys⟩ := C66_view_partial ev hk ht
  rw [hv] at hv'
  cases hv'
  refine ⟨v.rows, hkeys hne, fun data r hr => ?_⟩
  have st := Session.step_cases (env ctx) w (.evaluate i (.query q ok) b)
  rw [hev] at st hr
  generalize (Session.step (env ctx) w (.evaluate i (.query q ok) b)).2 = w' at st
  cases st with
  | evaluate _ _ _ n _ _ ns hn hc _ hp hs =>
  obtain ⟨bb, hcm⟩ : ∃ bb, compileM ctx n.tables (w.pubOf n) (.query q ok) bb = .ok m := by
    unfold Session.compileInfo at hc
    dsimp only at hc
    split at hc
    · cases hc
    split at hc
    · cases hc
    split at hc
    · cases hc
    next adj _ =>
    split at hc
    · cases hc
    next m' hm =>
    cases hc
    exact ⟨_, hm⟩
  obtain ⟨cat, p, _, hp, _, _, hmk, _, _, hpost⟩ := compileM_plan hcm
  have hpk := (compileQuery_budget hq hp).2.2
  dsimp only [Composition.respond] at hr
  simp only [PMF.support_bind, Set.mem_iUnion, PMF.support_pure, Set.mem_singleton_iff] at hr
  obtain ⟨t, ht, rfl⟩ := hr
  simp only [sem, PMF.support_bind, Set.mem_iUnion, PMF.support_pure, Set.mem_singleton_iff] at ht
  obtain ⟨out, hout, rfl⟩ := ht
  obtain ⟨f, rfl⟩ := hcore _ v _ out (by rw [hmk, hpk, ha]) (by rwa [hcols]) hout
  exact ⟨f, by rw [hpost, compiled_post hq hp]⟩

/-- **C66** (partial, without noise). In sessions made by the builder, after any calls, a query grouped by a KeySet and
evaluated with an infinite budget is answered with one row for each key the KeySet stands for, with the aggregate of the
rows that have this key. Partial as `C61_session_partial` and `C66_keys_partial`. -/
theorem C66_exact_partial (hcore : NoNoise core) (hk : e.eval hsh = .ok k) (ht : e.Treated ev) (hne : e.columns ≠ [])
    (hv : viewOf ev k = .ok v) {sources : Relation.Sources} (hst : Relation.Stored ctx.cast sources) (hf : FramesOK sources)
    {out : Relation.Output} (h : Relation.initCore ctx.cast (coreMeasure ctx.m) sources = .ok out) (b₀ : PB)
    (ops : List (Session.Op Request PubFrame Value)) (hs : ViewsSafe ctx (Session.init b₀ (startTables out)) ops)
    (w : Session.World Meas Tab PubFrame) (hw : w = Session.run (env ctx) (Session.init b₀ (startTables out)) ops)
    (data : Nat → Root × Data)
    (hdata : data = dataAfter ctx core (Session.init b₀ (startTables out)) (fun _ => (startRoot out, startData out)) ops)
    (i : Nat) (q : Query) (ok : Admissible (child q)) (a : Agg) (hq : q.agg? = some a) (ha : a.keys = .set v)
    (hb : BoundsOK a.kind) (b : PB) (hinf : b.isInfinite = true) (m : Meas) (amt : PB)
    (hev : (Session.step (env ctx) w (.evaluate i (.query q ok) b)).1 = .ok (.answer m amt)) :
    ∃ keys n cat s T x, KeysAre ev e keys ∧ w.nodes[i]? = some n ∧ catalog n.tables (w.pubOf n) = .ok cat ∧
      schemaOf cat a.child = .ok s ∧ Faithful cat (resolve n.tables (data i).2) a.child T ∧
      (a.child.ConsSafe ctx.h cat →
        Composition.respond (sem ctx core) data i (Session.step (env ctx) w (.evaluate i (.query q ok) b)).1 =
          PMF.pure (.ok (.answer m amt), some (shown q
            (keys.map (fun key => key ++ aggregate x a (Schema.keys s) (Query.group e.columns key T)))))) := by
  obtain ⟨v', hv', hok, hcols, hkeys⟩ := C66_view_partial ev hk ht
  rw [hv] at hv'
  cases hv'
  obtain ⟨n, cat, s, T, x, keys, h1, h2, h3, h4, h5⟩ :=
    C61_session_partial hcore hst hf h b₀ ops hs w hw data hdata i q ok a hq hb b hinf m amt hev
  have e' : a.keys.columns = e.columns := by rw [ha]; exact hcols
  refine ⟨v.rows, n, cat, s, T, x, hkeys hne, h1, h2, h3, h4, fun hc => ?_⟩
  obtain ⟨hkk, hr⟩ := h5 hc
  simp only [KeysOf, ha] at hkk
  rw [hr, answerFor, e', if_neg hne, hkk]

end

end Verif.Whole
