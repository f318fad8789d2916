import Verif.Stability.Truncate
import Verif.Expr.PropsGrouping

/-!
# C48, C54: stability of transformations

Core computes the stability of a compiled transformation from the stabilities of its parts; these are taken from core's
documentation (assumed). What belongs to Analytics is which transformations are combined, and with which thresholds.
-/

namespace Verif.Stability

open Verif Verif.Schema Verif.Constraint Verif.Expr

/-! ## Core's stability functions -/

/-- The join columns and the rows of a public table (`visit_join_public`, `_base_transformation_visitor.py` l. 924-1010). -/
def publicStability (h : Hash) (cat : Cat) (e : Expr) (pub : PubRef) (cols : Option (List String)) (how : How) : ℕ :=
  match compile h cat e, resolvePub cat pub with
  | .ok o, .ok (ps, pt) =>
    joinStability how (joinCols (Dict.keys o.dom) (Dict.keys (analyticsToSparkColumns ps)) cols) pt
  | _, _ => 0

/-- The stability of a compiled transformation of tables without IDs, where table `id` may change by `d id` rows:
`FlatMap` and `GroupingFlatMap` multiply by `max_num_rows` (l. 583-609), `PrivateJoin` is the weighted sum of its sides
(l. 778-801, thresholds from l. 832-843), `PublicJoin` multiplies by the multiplicity, all others keep it. -/
def stability (h : Hash) (cat : Cat) (d : String → ℕ) : Expr → ℕ
  | .source id => d id
  | .rename e _ => stability h cat d e
  | .filter e _ _ => stability h cat d e
  | .select e _ => stability h cat d e
  | .map e _ _ _ => stability h cat d e
  | .flatMap e _ _ _ n => n.getD 0 * stability h cat d e
  | .flatMapByID e _ _ => stability h cat d e
  | .joinPrivate l r tl tr _ =>
    match tl, tr with
    | some a, some b =>
      threshold b * truncStability a * stability h cat d l + threshold a * truncStability b * stability h cat d r
    | _, _ => 0
  | .joinPublic e pub cols how => publicStability h cat e pub cols how * stability h cat d e
  | .replaceNull e _ => stability h cat d e
  | .replaceInf e _ => stability h cat d e
  | .dropNull e _ => stability h cat d e
  | .dropInf e _ => stability h cat d e
  | .enforce e _ => stability h cat d e

/-- Its square when the grouped metric is `RootSumOfSquared`, where a grouped table may change by the root of `d2 id`:
a `GroupingFlatMap` multiplies by the root of `max_num_rows` only. -/
def stabilitySq (h : Hash) (cat : Cat) (d d2 : String → ℕ) : Expr → ℕ
  | .source id => d2 id
  | .rename e _ => stabilitySq h cat d d2 e
  | .filter e _ _ => stabilitySq h cat d d2 e
  | .select e _ => stabilitySq h cat d d2 e
  | .map e _ _ _ => stabilitySq h cat d d2 e
  | .flatMap e _ new _ n =>
    if new.grouping.isSome then n.getD 0 * stability h cat d e ^ 2 else n.getD 0 ^ 2 * stabilitySq h cat d d2 e
  | .flatMapByID e _ _ => stabilitySq h cat d d2 e
  | .joinPrivate l r tl tr cols => stability h cat d (.joinPrivate l r tl tr cols) ^ 2
  | .joinPublic e pub cols how => publicStability h cat e pub cols how ^ 2 * stabilitySq h cat d d2 e
  | .replaceNull e _ => stabilitySq h cat d d2 e
  | .replaceInf e _ => stabilitySq h cat d d2 e
  | .dropNull e _ => stabilitySq h cat d d2 e
  | .dropInf e _ => stabilitySq h cat d d2 e
  | .enforce e _ => stabilitySq h cat d d2 e

/-! ## Rows -/

theorem rowDist_map (f : Row → Row) (s t : Table) : rowDist (s.map f) (t.map f) ≤ rowDist s t := by
  have := rowDist_flatMap (F := fun r => [f r]) (k := 1) (s := s) (t := t) (by simp) (by simp)
  rwa [Nat.one_mul, ← List.map_eq_flatMap, ← List.map_eq_flatMap] at this

theorem rowDist_filter_le (p : Row → Bool) (s t : Table) : rowDist (s.filter p) (t.filter p) ≤ rowDist s t := by
  rw [rowDist_filter p s t]
  omega

theorem publicStability_eq {h : Hash} {cat : Cat} {e : Expr} {pub : PubRef} {o : Out} {ps : Schema} {pt : Table}
    (ho : compile h cat e = .ok o) (hp : resolvePub cat pub = .ok (ps, pt)) (cols : Option (List String)) (how : How) :
    publicStability h cat e pub cols how =
      joinStability how (joinCols (Dict.keys o.dom) (Dict.keys (analyticsToSparkColumns ps)) cols) pt := by
  simp only [publicStability, ho, hp]

theorem rows_stable {h : Hash} (hl : h.Lawful) {cat : Cat} {D D' : Data} {d : String → ℕ} (e : Expr)
    (hd : ∀ id ∈ e.sources, rowDist (D id) (D' id) ≤ d id) {o : Out} (ho : compile h cat e = .ok o)
    (hm : ∀ i, o.metric ≠ .ids i) : rowDist (o.run D) (o.run D') ≤ stability h cat d e := by
  induction e generalizing o with
  | source id =>
    simp only [compile, visitSource] at ho
    split at ho
    · cases ho
    cases ho
    exact hd id (by simp [Expr.sources])
  | rename e m ih =>
    obtain ⟨o', ho', ho⟩ := bind_ok ho
    obtain ⟨_, _, rfl⟩ := visitRename_ok ho
    refine (rowDist_map _ _ _).trans (ih hd ho' ?_)
    intro i hi
    exact hm (renamed m i) (by show o'.metric.rename m = _; rw [hi]; rfl)
  | filter e valid cond ih =>
    obtain ⟨o', ho', ho⟩ := bind_ok ho
    cases ho
    exact (rowDist_filter_le _ _ _).trans (ih hd ho' hm)
  | select e cols ih =>
    obtain ⟨o', ho', ho⟩ := bind_ok ho
    obtain ⟨_, _, rfl⟩ := visitSelect_ok ho
    exact (rowDist_map _ _ _).trans (ih hd ho' hm)
  | map e f new augment ih =>
    obtain ⟨o', ho', ho⟩ := bind_ok ho
    obtain ⟨_, rfl⟩ := visitMap_ok ho
    exact (rowDist_map _ _ _).trans (ih hd ho' hm)
  | flatMap e f new augment n ih =>
    obtain ⟨o', ho', ho⟩ := bind_ok ho
    obtain ⟨g, _, _, _, _, hrun, hmm⟩ := visitFlatMap_ok ho
    rcases hmm with ⟨⟨i, hi⟩, h1, _⟩ | ⟨hni, ⟨k, rfl, hg⟩, _⟩
    · exact absurd (h1.trans hi) (hm i)
    · rw [hrun, hrun]
      have hk : ∀ r, (g r).length ≤ k := by
        intro r
        rw [hg]
        simp only
        split <;> exact List.length_take_le _ _
      refine (rowDist_flatMap (k := k) ?_ ?_).trans (Nat.mul_le_mul_left k (ih hd ho' hni)) <;>
      · intro r _
        rw [List.length_map]
        exact hk r
  | flatMapByID e f new ih =>
    obtain ⟨o', ho', ho⟩ := bind_ok ho
    obtain ⟨i, _, h1, _, _, _, e2, _⟩ := visitFlatMapByID_ok ho
    exact absurd (e2.trans h1) (hm i)
  | joinPrivate l r tl tr cols ihl ihr =>
    obtain ⟨ol, hol, ho⟩ := bind_ok ho
    obtain ⟨or, hor, ho⟩ := bind_ok ho
    obtain ⟨_, _, _, _, h1, h2, hcase⟩ := visitJoinPrivate_ok ho
    rcases hcase with ⟨i, hi, _⟩ | ⟨a, b, rfl, rfl, hsym, hrun⟩
    · exact absurd (h1.trans hi) (hm i)
    · rw [hrun, hrun]
      refine (truncatedJoin_stable hl _ _ _ a b _ _ _ _).trans ?_
      refine Nat.add_le_add (Nat.mul_le_mul_left _ (ihl ?_ hol ?_)) (Nat.mul_le_mul_left _ (ihr ?_ hor ?_))
      · exact fun id hid => hd id (List.mem_append_left _ hid)
      · intro i hi; rw [hsym] at hi; cases hi
      · exact fun id hid => hd id (List.mem_append_right _ hid)
      · intro i hi; rw [h2, hsym] at hi; cases hi
  | joinPublic e pub cols how ih =>
    obtain ⟨o', ho', ho⟩ := bind_ok ho
    obtain ⟨ps, pt, hp, _, hmo, _, _, _, hrun⟩ := visitJoinPublic_ok ho
    have hm' : ∀ i, o'.metric ≠ .ids i := by rwa [hmo] at hm
    have heff : effHow o'.metric how = how := by
      cases hx : o'.metric with
      | ids i => exact absurd hx (hm' i)
      | symDiff => rfl
      | grouped c => rfl
    rw [heff] at hrun
    have hrun' : ∀ D, o.run D = (o'.run D).flatMap (publicRows how (Dict.keys o'.dom)
        (Dict.keys (analyticsToSparkColumns ps))
        (joinCols (Dict.keys o'.dom) (Dict.keys (analyticsToSparkColumns ps)) cols) pt) := by
      intro D
      rw [hrun]
      cases how <;> rfl
    rw [hrun', hrun', stability, publicStability_eq ho' hp]
    refine (rowDist_flatMap ?_ ?_).trans (Nat.mul_le_mul_left _ (ih hd ho' hm')) <;>
    exact fun r _ => publicRows_length how _ _ _ pt r
  | replaceNull e w ih =>
    obtain ⟨o', ho', ho⟩ := bind_ok ho
    obtain ⟨_, _, _, rfl⟩ := visitReplaceNull_ok ho
    exact (rowDist_map _ _ _).trans (ih hd ho' hm)
  | replaceInf e w ih =>
    obtain ⟨o', ho', ho⟩ := bind_ok ho
    obtain ⟨_, rfl⟩ := visitReplaceInf_ok ho
    exact (rowDist_map _ _ _).trans (ih hd ho' hm)
  | dropNull e cols ih =>
    obtain ⟨o', ho', ho⟩ := bind_ok ho
    obtain ⟨_, _, rfl⟩ := visitDropNull_ok ho
    exact (rowDist_filter_le _ _ _).trans ((rowDist_filter_le _ _ _).trans (ih hd ho' hm))
  | dropInf e cols ih =>
    obtain ⟨o', ho', ho⟩ := bind_ok ho
    obtain ⟨_, rfl⟩ := visitDropInf_ok ho
    exact (rowDist_filter_le _ _ _).trans (ih hd ho' hm)
  | enforce e c ih =>
    obtain ⟨o', ho', ho⟩ := bind_ok ho
    obtain ⟨i, hi, _, rfl⟩ := visitEnforce_ok ho
    exact absurd hi (hm i)

/-! ## Groups -/

/-- The rows a grouping flat map makes from one row are in different groups: rows with only one column differ there. -/
theorem grouping_rows {new : Schema} (w : new.WF) {g : String} (hk : Schema.keys new = [g]) {k : ℕ} {fs : List Row}
    (hf : ∀ x ∈ fs, RowFits (withNulls new) x) {pre : Row} (hp : g ∉ pre.cols) (augment : Bool) :
    (((fs.dedup.take k).map (fun x => if augment then pre ++ x else x)).map (fun r => cell r g)).Nodup := by
  have one : ∀ x ∈ fs, x = [(g, cell x g)] := by
    intro x hx
    obtain ⟨nd, hc, _⟩ := hf x hx
    have hc' : ∀ c, c ∈ Row.cols x ↔ c = g := by
      intro c
      have : Dict.keys (withNulls new) = Schema.keys new := by
        rw [keys_eq w]
        exact keys_mapVal' _ _
      rw [hc, this, hk, List.mem_singleton]
    match x, nd, hc' with
    | [], _, hc' => exact absurd ((hc' g).2 rfl) (by simp [Row.cols])
    | [(c, v)], _, hc' =>
      have := (hc' c).1 (by simp [Row.cols])
      subst this
      simp [cell, Row.get]
    | (c, v) :: (c', v') :: x, nd, hc' =>
      have h1 := (hc' c).1 (by simp [Row.cols])
      have h2 := (hc' c').1 (by simp [Row.cols])
      subst h1
      subst h2
      simp [Row.cols] at nd
  rw [List.map_map]
  refine List.Nodup.map_on ?_ ((List.nodup_dedup fs).sublist (List.take_sublist _ _))
  have hcell : ∀ x : Row, cell (if augment then pre ++ x else x) g = cell x g := by
    intro x
    cases augment with
    | false => rfl
    | true =>
      simp only [if_true]
      unfold cell
      show (Dict.get (pre ++ x) g).getD _ = (Dict.get x g).getD _
      rw [Dict.get_append, Dict.get_eq_none.2 hp]
      rfl
  intro x hx y hy hxy
  have hx' := one x (List.mem_dedup.1 (List.mem_of_mem_take hx))
  have hy' := one y (List.mem_dedup.1 (List.mem_of_mem_take hy))
  simp only [Function.comp_apply, hcell] at hxy
  rw [hx', hy', hxy]

/-- Grouped tables: every step keeps the groups apart. -/
theorem groups_stable {h : Hash} (hl : h.Lawful) {cat : Cat} {D D' : Data} {d d2 : String → ℕ} (hc : cat.OK)
    (hD : cat.DataOK D) (hD' : cat.DataOK D') (e : Expr) (he : e.WF) (hf : e.FnsOK) (hr : e.RenamesDistinct) {s : Schema}
    {o : Out} (hs : schemaOf cat e = .ok s) (ho : compile h cat e = .ok o) {g : String} (hm : o.metric = .grouped g)
    (hty : Dict.get (tys o.dom) g ≠ some .DECIMAL)
    (hd : ∀ id ∈ e.sources, rowDist (D id) (D' id) ≤ d id)
    (hd2 : ∀ id ∈ e.sources, ∀ s cs c, Dict.get cat.priv id = some (s, cs) → s.grouping = some c →
      sqDist (fun r => cell r c) (D id) (D' id) ≤ d2 id) :
    sqDist (fun r => cell r g) (o.run D) (o.run D') ≤ stabilitySq h cat d d2 e := by
  have conf := fun {e : Expr} (he : e.WF) (hf : e.FnsOK) (hr : e.RenamesDistinct) {s : Schema} {o : Out}
    (hs : schemaOf cat e = .ok s) (ho : compile h cat e = .ok o) => rows_conform hc hD e he hf hr hs ho
  have conf' := fun {e : Expr} (he : e.WF) (hf : e.FnsOK) (hr : e.RenamesDistinct) {s : Schema} {o : Out}
    (hs : schemaOf cat e = .ok s) (ho : compile h cat e = .ok o) => rows_conform hc hD' e he hf hr hs ho
  have mem := fun {e : Expr} (he : e.WF) (hr : e.RenamesDistinct) {s : Schema} {o : Out}
    (hs : schemaOf cat e = .ok s) (ho : compile h cat e = .ok o) {g : String} (hm : o.metric = .grouped g) =>
      group_mem hc e he hr hs ho hm
  have keep : ∀ {g j : String} {f : Row → Row} {t t' : Table}, (∀ r ∈ t, cell (f r) g = cell r j) →
      (∀ r ∈ t', cell (f r) g = cell r j) →
      sqDist (fun r => cell r g) (t.map f) (t'.map f) ≤ sqDist (fun r => cell r j) t t' := by
    intro g j f t t' h1 h2
    have := sqDist_flatMap (key := fun r => cell r j) (key' := fun r => cell r g) (F := fun r => [f r]) (k := 1)
      (s := t) (t := t') (fun r hr => ⟨by simp, by simpa using h1 r hr⟩) (fun r hr => ⟨by simp, by simpa using h2 r hr⟩)
    rwa [Nat.one_pow, Nat.one_mul, ← List.map_eq_flatMap, ← List.map_eq_flatMap] at this
  have drop : ∀ {g : String} {p : Row → Bool} {t t' : Table},
      sqDist (fun r => cell r g) (t.filter p) (t'.filter p) ≤ sqDist (fun r => cell r g) t t' := by
    intro g p t t'
    have e : ∀ t : Table, t.filter p = t.flatMap (fun r => if p r then [r] else []) := by
      intro t
      induction t with
      | nil => rfl
      | cons r t ih => cases hp : p r <;> simp [hp, ih]
    have hF : ∀ r : Row, (if p r then [r] else []).length ≤ 1 ∧ ∀ x ∈ (if p r then [r] else []), cell x g = cell r g := by
      intro r
      split <;> simp
    have := sqDist_flatMap (key := fun r => cell r g) (key' := fun r => cell r g) (F := fun r => if p r then [r] else [])
      (k := 1) (s := t) (t := t') (fun r _ => hF r) (fun r _ => hF r)
    rwa [Nat.one_pow, Nat.one_mul, ← e, ← e] at this
  induction e generalizing s o g with
  | source id =>
    simp only [compile, visitSource] at ho
    split at ho
    · cases ho
    next s' cs hg =>
    cases ho
    exact hd2 id (by simp [Expr.sources]) s' cs g hg (metricOf_grouped hm)
  | rename e m ih =>
    obtain ⟨s', hs', hs⟩ := bind_ok hs
    obtain ⟨o', ho', ho⟩ := bind_ok ho
    have a := agree hc e he.1 hs' ho'
    have cf := conf he.1 hf hr.1 hs' ho'
    have cf' := conf' he.1 hf hr.1 hs' ho'
    obtain ⟨_, h2, rfl⟩ := visitRename_ok ho
    obtain ⟨j, hj, rfl⟩ := (rename_grouped m o'.metric g).1 hm
    have hk := mem he.1 hr.1 hs' ho' hj
    have inj := renamed_inj he.2 hr.2 h2
    have ht : Dict.get (tys o'.dom) j ≠ some .DECIMAL := by
      intro ht
      apply hty
      show Dict.get (tys (Dict.ofPairs (o'.dom.map (fun p => (renamed m p.1, p.2))))) (renamed m j) = _
      rw [Dict.ofPairs_eq (wf_rename inj a.wfd), get_tys, get_rename inj hk, ← get_tys]
      exact ht
    refine (keep (j := j) ?_ ?_).trans (ih he.1 hf hr.1 hs' ho' hj ht hd hd2)
    · intro r' hr'
      unfold cell
      rw [get_row_rename (cf r' hr') inj hk]
    · intro r' hr'
      unfold cell
      rw [get_row_rename (cf' r' hr') inj hk]
  | filter e valid cond ih =>
    obtain ⟨s', hs', hs⟩ := bind_ok hs
    obtain ⟨o', ho', ho⟩ := bind_ok ho
    cases ho
    exact drop.trans (ih he hf hr hs' ho' hm hty hd hd2)
  | select e cols ih =>
    obtain ⟨s', hs', hs⟩ := bind_ok hs
    obtain ⟨o', ho', ho⟩ := bind_ok ho
    obtain ⟨sub, hcol, rfl⟩ := visitSelect_ok ho
    have hcg := hcol g (by rw [show o'.metric = .grouped g from hm]; rfl)
    have ht : Dict.get (tys o'.dom) g ≠ some .DECIMAL := by
      intro ht
      apply hty
      show Dict.get (tys (pick o'.dom cols)) g = _
      rw [get_tys, get_pick, if_pos hcg, ← get_tys]
      exact ht
    have hcell : ∀ r' : Row, cell (cols.map (fun c => (c, cell r' c))) g = cell r' g := by
      intro r'
      show (Row.get (cols.map (fun c => (c, cell r' c))) g).getD _ = _
      rw [get_row_select r' hcg]
      rfl
    exact (keep (fun r _ => hcell r) (fun r _ => hcell r)).trans (ih he hf hr hs' ho' hm ht hd hd2)
  | map e f new augment ih =>
    obtain ⟨s', hs', hs⟩ := bind_ok hs
    obtain ⟨o', ho', ho⟩ := bind_ok ho
    have a := agree hc e he.1 hs' ho'
    have cf := conf he.1 hf.1 hr hs' ho'
    have cf' := conf' he.1 hf.1 hr hs' ho'
    obtain ⟨w, hh⟩ := schMap_ok he.2 a.wfs hs
    obtain ⟨hma, rfl⟩ := visitMap_ok ho
    have hk := mem he.1 hr hs' ho' hm
    rcases hh with ⟨rfl, dis, _, _, _, el⟩ | ⟨rfl, _⟩
    · have ht : Dict.get (tys o'.dom) g ≠ some .DECIMAL := by
        intro ht
        apply hty
        show Dict.get (tys (Dict.union o'.dom (newDescs new))) g = _
        rw [(keys_append_new a w he.2 dis el).1, tys_append, Dict.get_append, ht]
        rfl
      refine (keep (j := g) ?_ ?_).trans (ih he.1 hf.1 hr hs' ho' hm ht hd hd2)
      · intro r' hr'
        simp only [if_true]
        unfold cell
        rw [get_row_append (cf r' hr') _ hk]
      · intro r' hr'
        simp only [if_true]
        unfold cell
        rw [get_row_append (cf' r' hr') _ hk]
    · have := (hma rfl).1
      rw [show o'.metric = .grouped g from hm] at this
      cases this
  | flatMap e f new augment n ih =>
    obtain ⟨s', hs', hs⟩ := bind_ok hs
    obtain ⟨o', ho', ho⟩ := bind_ok ho
    have a := agree hc e he.1 hs' ho'
    have cf := conf he.1 hf.1 hr hs' ho'
    have cf' := conf' he.1 hf.1 hr hs' ho'
    have hs0 := hs
    obtain ⟨w, hng, hh⟩ := schFlatMap_ok he.2 a.wfs hs
    obtain ⟨f', hdom, _, _, _, hrun, hmm⟩ := visitFlatMap_ok ho
    rw [hrun, hrun]
    rcases hmm with ⟨⟨i, hi⟩, h1, _⟩ | ⟨hni, ⟨k, rfl, hf'⟩, ha, ⟨hn, h1⟩ | ⟨c, hn, hsym, h1⟩⟩
    · rw [h1, hi] at hm; cases hm
    · rw [h1] at hm
      have aug : augment = true := by
        by_contra hne
        rw [hm] at ha
        cases ha (by simpa using hne)
      subst aug
      have hk := mem he.1 hr hs' ho' hm
      rcases hh with ⟨_, dis, _, _, _, el⟩ | ⟨hff, _⟩
      · have ht : Dict.get (tys o'.dom) g ≠ some .DECIMAL := by
          intro ht
          apply hty
          rw [hdom]
          simp only [if_true]
          rw [(keys_append_new a w he.2 dis el).1, tys_append, Dict.get_append, ht]
          rfl
        simp only [if_true, stabilitySq, hn, Option.isSome_none, Bool.false_eq_true, if_false, Option.getD_some]
        refine (sqDist_flatMap (key := fun r => cell r g) (k := k) ?_ ?_).trans
          (Nat.mul_le_mul_left _ (ih he.1 hf.1 hr hs' ho' hm ht hd hd2))
        · intro r hrow
          refine ⟨?_, ?_⟩
          · rw [List.length_map, hf', hn]
            exact List.length_take_le _ _
          · intro x hx
            obtain ⟨y, _, rfl⟩ := List.mem_map.1 hx
            unfold cell
            rw [get_row_append (cf r hrow) _ hk]
        · intro r hrow
          refine ⟨?_, ?_⟩
          · rw [List.length_map, hf', hn]
            exact List.length_take_le _ _
          · intro x hx
            obtain ⟨y, _, rfl⟩ := List.mem_map.1 hx
            unfold cell
            rw [get_row_append (cf' r hrow) _ hk]
      · cases hff
    · rw [h1] at hm
      cases hm
      have hone : (Schema.keys new).length = 1 := by
        by_contra hne
        rw [schFlatMap, if_pos ⟨by simp [hn], hne⟩] at hs0
        cases hs0
      have hgk : Schema.keys new = [g] := by
        obtain ⟨c, hcn⟩ := List.length_eq_one_iff.1 hone
        have := he.2.grouping g hn
        rw [← keys_eq he.2, hcn, List.mem_singleton] at this
        rw [hcn, this]
      simp only [stabilitySq, hn, Option.isSome_some, if_true, Option.getD_some]
      have side : ∀ r, RowOK o'.dom r → ((f' r).map (fun x => if augment then r ++ x else x)).length ≤ k ∧
          (((f' r).map (fun x => if augment then r ++ x else x)).map (fun r => cell r g)).Nodup := by
        intro r hrow
        rw [hf', hn]
        simp only [Option.isSome_some, if_true]
        refine ⟨?_, ?_⟩
        · rw [List.length_map]
          exact List.length_take_le _ _
        · cases augment with
          | false => exact grouping_rows he.2 hgk (hf.2 r) (pre := []) (by simp [Row.cols]) false
          | true =>
            refine grouping_rows he.2 hgk (hf.2 r) (pre := r) ?_ true
            rcases hh with ⟨_, dis, _⟩ | ⟨hff, _⟩
            · intro hk
              have hk' := (hrow.mem_cols g).1 hk
              rw [a.keys] at hk'
              exact dis g (by rw [hgk]; simp) hk'
            · cases hff
      refine (sqDist_grouping (k := k) ?_ ?_).trans
        (Nat.mul_le_mul_left _ (Nat.pow_le_pow_left (rows_stable hl e hd ho' (by intro i hi; rw [hsym] at hi; cases hi)) 2))
      · exact fun r hrow => side r (cf r hrow)
      · exact fun r hrow => side r (cf' r hrow)
  | flatMapByID e f new ih =>
    obtain ⟨o', ho', ho⟩ := bind_ok ho
    obtain ⟨_, _, h1, _, _, _, e2, _⟩ := visitFlatMapByID_ok ho
    rw [e2, h1] at hm
    cases hm
  | joinPrivate l r tl tr cols ihl ihr =>
    obtain ⟨ol, hol, ho⟩ := bind_ok ho
    obtain ⟨or, hor, ho⟩ := bind_ok ho
    obtain ⟨_, _, _, _, hm', hmr, hcase⟩ := visitJoinPrivate_ok ho
    rw [hm'] at hm
    rcases hcase with ⟨i, hi, _⟩ | ⟨_, _, _, _, hi, _⟩ <;> rw [hi] at hm <;> cases hm
  | joinPublic e pub cols how ih =>
    obtain ⟨s', hs', hs⟩ := bind_ok hs
    obtain ⟨o', ho', ho⟩ := bind_ok ho
    have cf := conf he.1 hf.1 hr hs' ho'
    have cf' := conf' he.1 hf.1 hr hs' ho'
    obtain ⟨ps, pt, hp, hdom, hm', _, hov, _, hrun⟩ := visitJoinPublic_ok ho
    have wp := (resolvePub_ok hc he.2 hp).1
    have hpt := (conforms_iff wp _).1 (resolvePub_conforms hD hf.2 hp)
    rw [hm'] at hm
    have hno := hov g (by rw [hm]; rfl)
    have hk := mem he.1 hr hs' ho' hm
    have ht : Dict.get (tys o'.dom) g ≠ some .DECIMAL := by
      intro ht
      apply hty
      rw [tyJoin_left hdom hk hno, ht]
    have heff : effHow o'.metric how = how := by rw [hm]; rfl
    rw [heff] at hrun hdom
    have row : ∀ l, RowOK o'.dom l → ∀ x ∈ publicRows how (Dict.keys o'.dom) (Dict.keys (analyticsToSparkColumns ps))
          (joinCols (Dict.keys o'.dom) (Dict.keys (analyticsToSparkColumns ps)) cols) pt l, cell x g = cell l g := by
      intro l hl x hx
      have one : ∀ b, RightOK how (analyticsToSparkColumns ps) b →
          (RowOK (analyticsToSparkColumns ps) b → ∀ c ∈ joinCols (Dict.keys o'.dom)
            (Dict.keys (analyticsToSparkColumns ps)) cols, cell l c = cell b c) →
          cell (joinRow (Dict.keys o'.dom) (Dict.keys (analyticsToSparkColumns ps))
            (joinCols (Dict.keys o'.dom) (Dict.keys (analyticsToSparkColumns ps)) cols) l b) g = cell l g := by
        intro b hb hmb
        have hx := rowOK_join hdom hl hb hmb
        have := get_joinRow_left hdom hl hx hk
        rw [suffixed_of_notMem hno] at this
        unfold cell
        rw [this]
      have inner : ∀ b ∈ pt.filter (matches_ (joinCols (Dict.keys o'.dom)
          (Dict.keys (analyticsToSparkColumns ps)) cols) l),
          cell (joinRow (Dict.keys o'.dom) (Dict.keys (analyticsToSparkColumns ps))
            (joinCols (Dict.keys o'.dom) (Dict.keys (analyticsToSparkColumns ps)) cols) l b) g = cell l g := by
        intro b hb
        obtain ⟨hb1, hb2⟩ := List.mem_filter.1 hb
        exact one b (Or.inl (hpt b hb1)) (fun _ => matches_iff.1 hb2)
      cases how with
      | inner =>
        obtain ⟨b, hb', rfl⟩ := List.mem_map.1 hx
        exact inner b hb'
      | left =>
        simp only [publicRows] at hx
        split at hx
        · rw [List.mem_singleton] at hx
          subst hx
          refine one [] (Or.inr ⟨rfl, rfl⟩) ?_
          intro hrok c hcj
          exact absurd ((hrok.mem_cols c).2 (domainAfterJoin_jc hdom c hcj).2) (by simp [Row.cols])
        · obtain ⟨b, hb', rfl⟩ := List.mem_map.1 hx
          exact inner b hb'
    have hrun' : ∀ D, o.run D = (o'.run D).flatMap (publicRows how (Dict.keys o'.dom)
        (Dict.keys (analyticsToSparkColumns ps))
        (joinCols (Dict.keys o'.dom) (Dict.keys (analyticsToSparkColumns ps)) cols) pt) := by
      intro D
      rw [hrun]
      cases how <;> rfl
    rw [hrun', hrun', stabilitySq, publicStability_eq ho' hp]
    refine (sqDist_flatMap (key := fun r => cell r g) ?_ ?_).trans
      (Nat.mul_le_mul_left _ (ih he.1 hf.1 hr hs' ho' hm ht hd hd2))
    · exact fun r hrow => ⟨publicRows_length how _ _ _ pt r, row r (cf r hrow)⟩
    · exact fun r hrow => ⟨publicRows_length how _ _ _ pt r, row r (cf' r hrow)⟩
  | replaceNull e w ih =>
    obtain ⟨s', hs', hs⟩ := bind_ok hs
    obtain ⟨o', ho', ho⟩ := bind_ok ho
    obtain ⟨rw', hrw, hk, rfl⟩ := visitReplaceNull_ok ho
    have hm' : o'.metric = .grouped g := hm
    have ht : Dict.get (tys o'.dom) g ≠ some .DECIMAL := by
      intro ht
      apply hty
      rw [← ht]
      exact congrArg (fun d => Dict.get d g)
        ((tys_update (tyOf_setNan false) _ _).trans (tys_update (tyOf_setNull false) _ _))
    have hni := (replaceWith_keys hrw hk).1 g (by rw [hm']; rfl)
    refine (keep (j := g) ?_ ?_).trans (ih he.1 hf hr hs' ho' hm' ht hd hd2) <;>
    · intro r _
      unfold cell
      rw [get_replaceRow_of_notMem _ _ (fun hx => hni (keys_restrict hx).1),
        get_replaceRow_of_notMem _ _ (fun hx => hni (keys_restrict hx).1)]
  | replaceInf e w ih =>
    obtain ⟨s', hs', hs⟩ := bind_ok hs
    obtain ⟨o', ho', ho⟩ := bind_ok ho
    obtain ⟨hcons, rfl⟩ := visitReplaceInf_ok ho
    have hm' : o'.metric = .grouped g := hm
    have ht : Dict.get (tys o'.dom) g ≠ some .DECIMAL := by
      intro ht
      apply hty
      rw [← ht]
      exact congrArg (fun d => Dict.get d g) (tys_update (tyOf_setInf false) _ _)
    have hni : g ∉ Dict.keys (infReplaceWith w o'.dom) := by
      intro hk
      obtain ⟨v, hv⟩ := Dict.mem_keys.1 hk
      have hfl := hcons _ hv
      rw [Option.any_eq_true_iff_get] at hfl
      obtain ⟨hs1, hfl⟩ := hfl
      apply ht
      rw [get_tys, ← Option.some_get hs1, Option.map_some, (isFloat_iff _).1 hfl]
    refine (keep (j := g) ?_ ?_).trans (ih he.1 hf hr hs' ho' hm' ht hd hd2) <;>
    · intro r _
      unfold cell
      rw [get_replaceInfRow_of_notMem hni]
  | dropNull e cols ih =>
    obtain ⟨s', hs', hs⟩ := bind_ok hs
    obtain ⟨o', ho', ho⟩ := bind_ok ho
    obtain ⟨_, _, rfl⟩ := visitDropNull_ok ho
    have ht : Dict.get (tys o'.dom) g ≠ some .DECIMAL := by
      intro ht
      apply hty
      rw [← ht]
      exact congrArg (fun d => Dict.get d g)
        ((tys_update (tyOf_setNan false) _ _).trans (tys_update (tyOf_setNull false) _ _))
    exact drop.trans (drop.trans (ih he hf hr hs' ho' hm ht hd hd2))
  | dropInf e cols ih =>
    obtain ⟨s', hs', hs⟩ := bind_ok hs
    obtain ⟨o', ho', ho⟩ := bind_ok ho
    obtain ⟨_, rfl⟩ := visitDropInf_ok ho
    have ht : Dict.get (tys o'.dom) g ≠ some .DECIMAL := by
      intro ht
      apply hty
      rw [← ht]
      exact congrArg (fun d => Dict.get d g) (tys_update (tyOf_setInf false) _ _)
    exact drop.trans (ih he hf hr hs' ho' hm ht hd hd2)
  | enforce e c ih =>
    obtain ⟨o', ho', ho⟩ := bind_ok ho
    obtain ⟨j, hj, _, rfl⟩ := visitEnforce_ok ho
    rw [show o'.metric = .grouped g from hm] at hj
    cases hj

end Verif.Stability
