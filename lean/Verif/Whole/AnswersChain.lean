import Verif.Whole.ColumnsChain

/-!
# C72: the rows of the table a chain of methods makes, and answers
-/

namespace Verif.Whole

open Verif Verif.Schema Verif.Constraint Verif.Expr Verif.Query Verif.Stability
open Verif.Meaning
open Verif.Budget (XNum PB Rounding)

theorem each_mono {R S : Row → Row → Prop} (h : ∀ r r', R r r' → S r r') {t t' : Table} (ht : Each R t t') : Each S t t' := by
  obtain ⟨u, hu, hp⟩ := ht
  exact ⟨u, hu.imp h, hp⟩

theorem replaced_mono {P Q : String → Value → Value → Prop} (h : ∀ c v v', P c v v' → Q c v v') {r r' : Row}
    (hr : Replaced P r r') : Replaced Q r r' := by
  intro c
  have := hr c
  cases hg : Row.get r c with
  | none => rw [hg] at this; exact this
  | some v =>
    rw [hg] at this
    obtain ⟨v', h1, h2⟩ := this
    exact ⟨v', h1, h c v v' h2⟩

theorem kept_rows {s : Schema} {grouping : Bool} {n : Option ℤ} (hn : ∀ z, n = some z → 0 ≤ z) {xs ys : Table}
    (h : FlatKept s grouping (n.map Int.toNat) xs ys) : KeptRows s.idColumn grouping n xs ys := by
  obtain ⟨h1, h2⟩ := h
  unfold KeptRows
  cases hi : s.idColumn with
  | some i => exact h1 (by rw [hi]; rfl)
  | none =>
    obtain ⟨k, hk, h3, h4, h5⟩ := h2 hi
    cases n with
    | none => cases hk
    | some z =>
      cases hk
      exact ⟨by have := hn z rfl; omega, h4, h5⟩

theorem nulls_replaced {s : Schema} {tag : Option String} {w : Option (Dict String Value)} {c : String} {v v' : Value}
    (h : NullReplaced s tag (w.getD []) c v v') : NullsReplaced (stys s) s.idColumn tag w c v v' := by
  intro t ht
  obtain ⟨⟨c', d⟩, hm, he⟩ := List.mem_map.1 ht
  cases he
  have h := h d hm
  have hw : w.getD [] = [] ↔ w = none ∨ w = some [] := by cases w <;> simp
  by_cases hn : w = none ∨ w = some []
  · rw [if_pos (hw.2 hn)] at h
    rw [if_pos hn]
    split
    · next hc => exact h.1 hc
    · next hc => exact h.2 hc
  · rw [if_neg (mt hw.1 hn)] at h
    rw [if_neg hn]
    rintro m rfl
    refine ⟨fun x hx => ?_, fun hx => h.2 fun _ => hx⟩
    split
    · next hv => exact h.1 x hx hv
    · next hv => exact h.2 fun hv' => absurd hv' hv

theorem infs_replaced {w : Option (Dict String (Value × Value))} {c : String} {v v' : Value}
    (h : InfReplaced (w.getD []) c v v') : InfsReplaced w c v v' := by
  have hw : w.getD [] = [] ↔ w = none ∨ w = some [] := by cases w <;> simp
  unfold InfReplaced at h
  unfold InfsReplaced
  by_cases hn : w = none ∨ w = some []
  · rw [if_pos (hw.2 hn)] at h
    rw [if_pos hn]
    split
    · next hc => exact h.1 hc
    · next hc => rw [not_or] at hc; exact h.2 hc.1 hc.2
  · rw [if_neg (mt hw.1 hn)] at h
    rw [if_neg hn]
    rintro m rfl
    refine ⟨fun x hx => ?_, fun hx => h.2.2 (.inl hx)⟩
    split
    · next hv => exact h.1 x hx hv
    split
    · next hv => exact h.2.1 x hx hv
    · next h1 h2 => exact h.2.2 (.inr ⟨h1, h2⟩)

theorem bin_added {b : Bins} (hv : let _ := b.order; Binning.Valid b.spec) {column name : String} {r r' : Row}
    (h : Made true r (b.fn column name r) r') : BinAdded b column name r r' := by
  let _ := b.order
  let _ := b.dec
  unfold Made at h
  have hg : ∀ c, Row.get (b.fn column name r) c =
      if c = name then some (b.binner.cell (b.spec.call (b.binner.read (Expr.cell r column)))) else none := by
    intro c
    show Dict.get [(name, _)] c = _
    rw [Dict.get_cons]
    rfl
  refine ⟨fun c hc => ?_, b.binner.cell (b.spec.call (b.binner.read (Expr.cell r column))), ?_, fun v hr => ?_⟩
  · rw [h c, hg c, if_neg hc]
    rfl
  · rw [h name, hg name, if_pos rfl]
    rfl
  · have hcell : Expr.cell r column = v := by unfold Expr.cell; rw [hr]; rfl
    rw [hcell]
    cases hcall : b.spec.call (b.binner.read v) with
    | some a => exact .inl ⟨a, rfl, (call_iff hv v a).1 hcall⟩
    | none =>
      refine .inr ⟨rfl, fun a ha => ?_⟩
      rw [(call_iff hv v a).2 ha] at hcall
      cases hcall

theorem names_stys {s : Schema} (w : s.WF) : names (stys s) = Schema.keys s := keys_stys w

theorem private_join {ls rs : Schema} (wl : ls.WF) (wr : rs.WF) {given : ColsArg} {tl tr : Option Trunc}
    {lt rt lt' rt' t' : Table}
    (h : InnerJoined (Schema.keys ls) (Schema.keys rs) (onCols (joinTuple given) (Schema.keys ls) (Schema.keys rs)) lt' rt' t')
    (h1 : ls.idColumn.isSome → lt' = lt ∧ rt' = rt)
    (h2 : ls.idColumn = none → ∃ a b, tl = some a ∧ tr = some b ∧
      Truncated (onCols (joinTuple given) (Schema.keys ls) (Schema.keys rs)) a lt lt' ∧
      Truncated (onCols (joinTuple given) (Schema.keys ls) (Schema.keys rs)) b rt rt') :
    PrivateJoin ls.idColumn (stys ls) (stys rs) given tl tr lt rt t' := by
  unfold PrivateJoin
  dsimp only
  rw [names_stys wl, names_stys wr, given_eq]
  cases hi : ls.idColumn with
  | some i =>
    obtain ⟨rfl, rfl⟩ := h1 (by rw [hi]; rfl)
    exact h
  | none =>
    obtain ⟨a, b, e1, e2, e3, e4⟩ := h2 hi
    exact ⟨a, b, lt', rt', e1, e2, e3, e4, h⟩

/-- What the documentation says about the expression is what it says about the calls that made it. -/
theorem documented {ctx : Ctx} {cat : Cat} (hc : cat.OK) {D : Data} (c : Chain) (hk : c.Kept) {e : Expr}
    (h : c.build ctx = .ok e) {s : Schema} (hs : schemaOf cat e = .ok s) {t : Table} {drops : Bool}
    (ht : Meaning.MeansBy drops cat D e t) : c.DocumentedBy drops cat D t := by
  induction c generalizing e s t with
  | start id =>
    cases newBuilder_ok h
    exact ht
  | rename c m ih =>
    obtain ⟨e', h', h⟩ := bind_ok h
    split at h
    · cases h
    cases h
    obtain ⟨s', hs', hs⟩ := bind_ok hs
    obtain ⟨t₀, ht₀, ht⟩ := ht
    exact ⟨t₀, ih hk.1 h' hs' ht₀, ht⟩
  | filter c valid cond ih =>
    obtain ⟨e', h', h⟩ := bind_ok h
    cases h
    obtain ⟨s', hs', hs⟩ := bind_ok hs
    obtain ⟨t₀, ht₀, ht⟩ := ht
    exact ⟨t₀, ih hk h' hs' ht₀, ht⟩
  | select c columns ih =>
    obtain ⟨e', h', h⟩ := bind_ok h
    split at h
    · cases h
    split at h
    swap
    · cases h
    cases h
    obtain ⟨s', hs', hs⟩ := bind_ok hs
    obtain ⟨t₀, ht₀, ht⟩ := ht
    exact ⟨t₀, _, ih hk h' hs' ht₀, lists_iff.2 rfl, ht⟩
  | map c f types augment ih =>
    obtain ⟨e', h', h⟩ := bind_ok h
    obtain ⟨new, _, rfl⟩ := callMap_ok h
    obtain ⟨s', hs', hs⟩ := bind_ok hs
    obtain ⟨t₀, ht₀, ht⟩ := ht
    exact ⟨t₀, ih hk.1 h' hs' ht₀, ht⟩
  | flatMap c f types augment grouping n ih =>
    obtain ⟨e', h', h⟩ := bind_ok h
    obtain ⟨new, hn, hg, hz, rfl⟩ := callFlatMap_ok h
    obtain ⟨_, gn, _⟩ := newSchema_ok hk.2.1 hn
    obtain ⟨t₀, s', ht₀, hs', us, hu, hp⟩ := ht
    obtain ⟨_, i2, _⟩ := C72_columns hc c hk.1 h' hs'
    have hgr : new.grouping.isSome = grouping := by
      rw [gn]
      cases grouping with
      | false => rfl
      | true =>
        obtain ⟨p, rfl⟩ := hg rfl
        rfl
    refine ⟨t₀, ih hk.1 h' hs' ht₀, us, hu.imp ?_, hp⟩
    rintro r u ⟨ys, h1, h2⟩
    rw [hgr] at h1
    exact ⟨ys, i2 ▸ kept_rows hz h1, h2⟩
  | flatMapByID c f types ih =>
    obtain ⟨e', h', h⟩ := bind_ok h
    obtain ⟨new, _, rfl⟩ := callFlatMapByID_ok h
    obtain ⟨t₀, s', i, ht₀, hs', hi, ht⟩ := ht
    obtain ⟨_, i2, _⟩ := C72_columns hc c hk.1 h' hs'
    exact ⟨t₀, i, ih hk.1 h' hs' ht₀, i2 ▸ hi, ht⟩
  | binColumn c column bins name ih =>
    obtain ⟨e', h', h⟩ := bind_ok h
    obtain ⟨n, hn, _, rfl⟩ := callBin_ok h
    obtain ⟨s', hs', hs⟩ := bind_ok hs
    obtain ⟨t₀, ht₀, ht⟩ := ht
    subst hn
    exact ⟨t₀, ih hk.1 h' hs' ht₀, each_mono (fun r r' h => bin_added hk.2.1 h) ht⟩
  | joinPublic c pub columns how ih =>
    obtain ⟨e', h', h⟩ := bind_ok h
    obtain ⟨p, k, hp, hh, rfl⟩ := callJoinPublic_ok h
    obtain ⟨t₀, s', ps, pt, ht₀, hs', hpt, ht⟩ := ht
    obtain ⟨i1, i2, _⟩ := C72_columns hc c hk h' hs'
    have w' := schemaOf_wf hc e' (admissible c hk h').wf hs'
    have hr : resolvePub cat p = .ok (ps, pt) := by
      cases p with
      | name n =>
        have : Dict.get cat.pub n = some (ps, pt) := hpt
        unfold resolvePub
        dsimp only
        rw [this]
      | df s t => obtain ⟨rfl, rfl⟩ := hpt; rfl
    obtain ⟨wp, pc, prow⟩ := pub_facts hc hp hr
    refine ⟨t₀, pt, ih hk h' hs' ht₀, prow, ?_⟩
    dsimp only
    rw [← i1, ← pc, given_eq]
    rw [← i2]
    have nw : names (List.map (fun p => (p.1, p.2.ty)) s'.columnDescs.elements) = Schema.keys s' := names_stys w'
    have np : names (stys ps) = Schema.keys ps := names_stys wp
    rw [nw, np]
    rcases howOf_ok hh with ⟨rfl, rfl⟩ | ⟨rfl, rfl⟩
    · exact .inl ⟨rfl, ht⟩
    · exact .inr ⟨rfl, ht⟩
  | joinPrivate c r tl tr columns ih ih' =>
    obtain ⟨e', h', h⟩ := bind_ok h
    obtain ⟨e'', h'', h⟩ := bind_ok h
    cases callJoinPrivate_ok h
    obtain ⟨lt, rt, ls, rs, hlt, hrt, hls, hrs, lt', rt', hj, h1, h2⟩ := ht
    obtain ⟨i1, i2, _⟩ := C72_columns hc c hk.1 h' hls
    obtain ⟨j1, _, _⟩ := C72_columns hc r hk.2 h'' hrs
    have wl := schemaOf_wf hc e' (admissible c hk.1 h').wf hls
    have wr := schemaOf_wf hc e'' (admissible r hk.2 h'').wf hrs
    refine ⟨lt, rt, ih hk.1 h' hls hlt, ih' hk.2 h'' hrs hrt, ?_⟩
    rw [← i1, ← i2, ← j1]
    exact private_join wl wr hj h1 h2
  | joinTable c table tl tr columns ih =>
    obtain ⟨e', h', h⟩ := bind_ok h
    obtain ⟨e'', h'', h⟩ := bind_ok h
    cases newBuilder_ok h''
    cases callJoinPrivate_ok h
    obtain ⟨lt, rt, ls, rs, hlt, hrt, hls, hrs, lt', rt', hj, h1, h2⟩ := ht
    obtain ⟨i1, i2, _⟩ := C72_columns hc c hk h' hls
    have wl := schemaOf_wf hc e' (admissible c hk h').wf hls
    have wr := schemaOf_wf hc (.source table) trivial hrs
    refine ⟨lt, rt, ih hk h' hls hlt, hrt, ?_⟩
    rw [← i1, ← i2, ← (source_facts hrs).1]
    exact private_join wl wr hj h1 h2
  | replaceNull c w ih =>
    obtain ⟨e', h', h⟩ := bind_ok h
    cases callReplaceNull_ok h
    obtain ⟨t₀, s', ht₀, hs', ht⟩ := ht
    obtain ⟨i1, i2, i3⟩ := C72_columns hc c hk.1 h' hs'
    refine ⟨t₀, ih hk.1 h' hs' ht₀, each_mono (fun r r' h => replaced_mono (fun x v v' hv => ?_) h) ht⟩
    rw [← i1, ← i2, ← i3]
    exact nulls_replaced hv
  | replaceInf c w ih =>
    obtain ⟨e', h', h⟩ := bind_ok h
    cases callReplaceInf_ok h
    obtain ⟨s', hs', hs⟩ := bind_ok hs
    obtain ⟨t₀, ht₀, ht⟩ := ht
    exact ⟨t₀, ih hk.1 h' hs' ht₀, each_mono (fun r r' h => replaced_mono (fun x v v' hv => infs_replaced hv) h) ht⟩
  | dropNull c columns ih =>
    obtain ⟨e', h', h⟩ := bind_ok h
    cases h
    obtain ⟨t₀, s', ht₀, hs', keep, hp, hkeep⟩ := ht
    obtain ⟨_, i2, i3⟩ := C72_columns hc c hk h' hs'
    refine ⟨t₀, _, keep, ih hk h' hs' ht₀, lists_iff.2 rfl, hp, ?_⟩
    rw [← i2, ← i3]
    exact hkeep
  | dropInf c columns ih =>
    obtain ⟨e', h', h⟩ := bind_ok h
    cases h
    obtain ⟨s', hs', hs⟩ := bind_ok hs
    obtain ⟨t₀, ht₀, keep, hp, hkeep⟩ := ht
    exact ⟨t₀, _, keep, ih hk h' hs' ht₀, lists_iff.2 rfl, hp, hkeep⟩
  | enforce c k ih =>
    obtain ⟨e', h', h⟩ := bind_ok h
    cases h
    obtain ⟨t₀, s', i, ht₀, hs', hi, ht⟩ := ht
    obtain ⟨_, i2, _⟩ := C72_columns hc c hk h' hs'
    exact ⟨t₀, i, ih hk h' hs' ht₀, i2 ▸ hi, ht⟩

theorem noLeft {ctx : Ctx} {cat : Cat} (hc : cat.OK) (c : Chain) (hk : c.Kept) {e : Expr} (h : c.build ctx = .ok e)
    (hl : c.NoLeft cat) : NoLeftIDs cat e := by
  induction c generalizing e with
  | start id =>
    cases newBuilder_ok h
    trivial
  | rename c m ih =>
    obtain ⟨e', h', h⟩ := bind_ok h
    split at h
    · cases h
    cases h
    exact (ih hk.1 h' hl : NoLeftIDs cat e')
  | select c columns ih =>
    obtain ⟨e', h', h⟩ := bind_ok h
    split at h
    · cases h
    split at h
    · cases h; exact (ih hk h' hl : NoLeftIDs cat e')
    · cases h
  | filter c _ _ ih => obtain ⟨e', h', h⟩ := bind_ok h; cases h; exact (ih hk h' hl : NoLeftIDs cat e')
  | map c f types augment ih =>
    obtain ⟨e', h', h⟩ := bind_ok h
    obtain ⟨new, _, rfl⟩ := callMap_ok h
    exact (ih hk.1 h' hl : NoLeftIDs cat e')
  | flatMap c f types augment grouping n ih =>
    obtain ⟨e', h', h⟩ := bind_ok h
    obtain ⟨new, _, _, _, rfl⟩ := callFlatMap_ok h
    exact (ih hk.1 h' hl : NoLeftIDs cat e')
  | flatMapByID c f types ih =>
    obtain ⟨e', h', h⟩ := bind_ok h
    obtain ⟨new, _, rfl⟩ := callFlatMapByID_ok h
    exact (ih hk.1 h' hl : NoLeftIDs cat e')
  | binColumn c column bins name ih =>
    obtain ⟨e', h', h⟩ := bind_ok h
    obtain ⟨n, _, _, rfl⟩ := callBin_ok h
    exact (ih hk.1 h' hl : NoLeftIDs cat e')
  | joinPublic c pub columns how ih =>
    obtain ⟨e', h', h⟩ := bind_ok h
    obtain ⟨p, k, hp, hh, rfl⟩ := callJoinPublic_ok h
    refine ⟨ih hk h' hl.1, fun hleft s hs => ?_⟩
    rw [(C72_columns hc c hk h' hs).2.1]
    rcases howOf_ok hh with ⟨_, rfl⟩ | ⟨h1, _⟩
    · cases hleft
    · exact hl.2 h1
  | joinPrivate c r tl tr columns ih ih' =>
    obtain ⟨e', h', h⟩ := bind_ok h
    obtain ⟨e'', h'', h⟩ := bind_ok h
    cases callJoinPrivate_ok h
    exact ⟨ih hk.1 h' hl.1, ih' hk.2 h'' hl.2⟩
  | joinTable c table tl tr columns ih =>
    obtain ⟨e', h', h⟩ := bind_ok h
    obtain ⟨e'', h'', h⟩ := bind_ok h
    cases newBuilder_ok h''
    cases callJoinPrivate_ok h
    exact ⟨ih hk h' hl, trivial⟩
  | replaceNull c w ih =>
    obtain ⟨e', h', h⟩ := bind_ok h
    cases callReplaceNull_ok h
    exact (ih hk.1 h' hl : NoLeftIDs cat e')
  | replaceInf c w ih =>
    obtain ⟨e', h', h⟩ := bind_ok h
    cases callReplaceInf_ok h
    exact (ih hk.1 h' hl : NoLeftIDs cat e')
  | dropNull c _ ih => obtain ⟨e', h', h⟩ := bind_ok h; cases h; exact (ih hk h' hl : NoLeftIDs cat e')
  | dropInf c _ ih => obtain ⟨e', h', h⟩ := bind_ok h; cases h; exact (ih hk h' hl : NoLeftIDs cat e')
  | enforce c _ ih => obtain ⟨e', h', h⟩ := bind_ok h; cases h; exact (ih hk h' hl : NoLeftIDs cat e')

/-- The catalog of a session made by the builder, after any calls. -/
theorem session_cat {ctx : Ctx} (core : Core) {sources : Relation.Sources}
    (hst : Relation.Stored ctx.cast sources) (hf : FramesOK sources) {out : Relation.Output}
    (h : Relation.initCore ctx.cast (coreMeasure ctx.m) sources = .ok out) (b₀ : PB)
    (ops : List (Session.Op Request PubFrame Value)) (w : Session.World Meas Tab PubFrame)
    (hw : w = Session.run (env ctx) (Session.init b₀ (startTables out)) ops) {i : Nat} {n : Session.Node Meas Tab}
    (hn : w.nodes[i]? = some n) {cat : Cat} (hcat : catalog n.tables (w.pubOf n) = .ok cat) : cat.OK := by
  have hre := reached core hst hf h b₀ ops i n (by rw [← hw]; exact hn)
  obtain ⟨R, tok⟩ := hre.tabs
  exact (cat_facts hcat tok).ok

/-- The same for what is computed. -/
theorem faithful {ctx : Ctx} {cat : Cat} (hc : cat.OK) {D : Data} (c : Chain) (hk : c.Kept) {e : Expr}
    (h : c.build ctx = .ok e) {s : Schema} (hs : schemaOf cat e = .ok s) {t : Table} (ht : Meaning.Faithful cat D e t) :
    c.Faithful cat D t :=
  ⟨documented hc c hk h hs ht.1, fun hl => documented hc c hk h hs (ht.2 (noLeft hc c hk h hl))⟩

variable {py : Py} {flag flag' : Bool} {m : Method}

/-- **C72** (partial). In any session that was made by the builder or by partitions, after any calls, a query that is made by
any chain of transformation methods and one aggregation method, evaluated with an infinite budget, gives what the
aggregation method is documented to compute, on a table that the transformation methods are documented to make from the
tables of the session.

Partial: left joins of public tables with tables with IDs are inner joins (`C57`), constraints of the table are sufficient for
what was done before (`ConsSafe`, C16), and the exceptions of `C71_answer_partial`. -/
theorem C72_answer_partial {ctx : Ctx} {core : Core} (hcore : NoNoise core) {sources : Relation.Sources}
    (hst : Relation.Stored ctx.cast sources) (hf : FramesOK sources) {out : Relation.Output}
    (h : Relation.initCore ctx.cast (coreMeasure ctx.m) sources = .ok out) (b₀ : PB)
    (ops : List (Session.Op Request PubFrame Value)) (hs : ViewsSafe ctx (Session.init b₀ (startTables out)) ops)
    (w : Session.World Meas Tab PubFrame) (hw : w = Session.run (env ctx) (Session.init b₀ (startTables out)) ops)
    (data : Nat → Root × Data)
    (hdata : data = dataAfter ctx core (Session.init b₀ (startTables out)) (fun _ => (startRoot out, startData out)) ops)
    (i : Nat) (c : Chain) (hk : c.Kept) (e : Expr) (he : c.build ctx = .ok e) (hx : m.Exact py) (hname : m.Named)
    (gb : Option By) (a : Agg) (ha : finish py flag flag' e gb m = .ok a) (b : PB) (hinf : b.isInfinite = true) :
    ∃ ok : Admissible (child (.agg a)), ∀ (p : Meas) (amt : PB),
      (Session.step (env ctx) w (.evaluate i (.query (.agg a) ok) b)).1 = .ok (.answer p amt) →
      ∃ n cat, w.nodes[i]? = some n ∧ catalog n.tables (w.pubOf n) = .ok cat ∧
        (e.ConsSafe ctx.h cat → ∃ T x keys, c.Faithful cat (resolve n.tables (data i).2) T ∧
          (m.NoInfinities gb.isSome T → (∀ by', gb = some by' → by'.Keys m T keys) ∧
            Composition.respond (sem ctx core) data i (Session.step (env ctx) w (.evaluate i (.query (.agg a) ok) b)).1 =
              PMF.pure (.ok (.answer p amt), some (m.answer py x (names (c.columns cat)) keys T gb)))) := by
  have hchild : a.child = e := ((C71_accepts hx gb).2 a ha).1
  have ok : Admissible (child (.agg a)) := by
    show Admissible a.child
    rw [hchild]
    exact admissible c hk he
  refine ⟨ok, fun p amt hev => ?_⟩
  obtain ⟨n, cat, s, hn, hcat, hsch, hall⟩ := C71_answer_partial hcore hst hf h b₀ ops hs w hw data hdata i hx hname gb a ha ok
    b hinf p amt hev
  have hc := session_cat core hst hf h b₀ ops w hw hn hcat
  refine ⟨n, cat, hn, hcat, fun hsafe => ?_⟩
  obtain ⟨T, x, keys, hT, hresp⟩ := hall hsafe
  refine ⟨T, x, keys, faithful hc c hk he hsch hT, fun hni => ?_⟩
  obtain ⟨h1, h2⟩ := hresp hni
  refine ⟨h1, ?_⟩
  rw [h2]
  have : names (c.columns cat) = Schema.keys s := by
    rw [← (C72_columns hc c hk he hsch).1]
    exact names_stys (schemaOf_wf hc e (admissible c hk he).wf hsch)
  rw [this]

end Verif.Whole
