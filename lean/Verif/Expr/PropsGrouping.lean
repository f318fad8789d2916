import Verif.Expr.PropsIds
import Verif.Expr.ExamplesSchema

/-!
# C21: the grouping column introduced by a flat map is kept
-/

namespace Verif.Expr

open Verif Verif.Schema Verif.Constraint

/-! ## Specification -/

/-- The column an aggregation of `e` has to group by: the one the last grouping flat map introduced (or the one of the
table), under its present name. -/
def groupTag (cat : Cat) : Expr → Option String
  | .source id => (Dict.get cat.priv id).bind (fun p => p.1.grouping)
  | .rename e m => (groupTag cat e).map (fun g => (Dict.get m g).getD g)
  | .filter e _ _ => groupTag cat e
  | .select e _ => groupTag cat e
  | .map e _ _ _ => groupTag cat e
  | .flatMap e _ new _ _ => if new.grouping.isSome then new.grouping else groupTag cat e
  | .flatMapByID e _ _ => groupTag cat e
  | .joinPrivate l r _ _ _ => if (groupTag cat l).isSome then groupTag cat l else groupTag cat r
  | .joinPublic e _ _ _ => groupTag cat e
  | .replaceNull e _ => groupTag cat e
  | .replaceInf e _ => groupTag cat e
  | .dropNull e _ => groupTag cat e
  | .dropInf e _ => groupTag cat e
  | .enforce e _ => groupTag cat e

/-- The values the grouping column of `e` was given when it was introduced. -/
def Emitted (h : Hash) (cat : Cat) (D : Data) : Expr → Value → Prop
  | .source id, v => ∃ s cs g, Dict.get cat.priv id = some (s, cs) ∧ s.grouping = some g ∧ ∃ r ∈ D id, v = cell r g
  | .rename e _, v => Emitted h cat D e v
  | .filter e _ _, v => Emitted h cat D e v
  | .select e _, v => Emitted h cat D e v
  | .map e _ _ _, v => Emitted h cat D e v
  | .flatMap e f new _ _, v =>
    match new.grouping with
    | some g => ∃ o', compile h cat e = .ok o' ∧ ∃ r ∈ o'.run D, ∃ x ∈ f r, v = cell x g
    | none => Emitted h cat D e v
  | .flatMapByID e _ _, v => Emitted h cat D e v
  | .joinPrivate l r _ _ _, v => Emitted h cat D l v ∨ Emitted h cat D r v
  | .joinPublic e _ _ _, v => Emitted h cat D e v
  | .replaceNull e _, v => Emitted h cat D e v
  | .replaceInf e _, v => Emitted h cat D e v
  | .dropNull e _, v => Emitted h cat D e v
  | .dropInf e _, v => Emitted h cat D e v
  | .enforce e _, v => Emitted h cat D e v

/-! ## The metric -/

theorem rename_grouped (m : Dict String String) (x : Metric) (g : String) :
    x.rename m = .grouped g ↔ ∃ j, x = .grouped j ∧ renamed m j = g := by
  cases x <;> simp [Metric.rename]

/-- The compiled table is grouped by the column the specification says. -/
theorem metric_groupTag {h : Hash} {cat : Cat} (hc : cat.OK) (e : Expr) {o : Out} (ho : compile h cat e = .ok o)
    (g : String) : o.metric = .grouped g ↔ groupTag cat e = some g := by
  induction e generalizing o g with
  | source id =>
    simp only [compile, visitSource] at ho
    split at ho
    · cases ho
    next s cs hg =>
    cases ho
    obtain ⟨_, _, nb⟩ := hc.priv _ _ _ hg
    show metricOf s = _ ↔ _
    simp only [groupTag, hg, Option.bind_some]
    unfold metricOf
    cases hi : s.idColumn with
    | none => cases hgr : s.grouping <;> simp
    | some i => simp [nb (by simp [hi])]
  | rename e m ih =>
    obtain ⟨o', ho', ho⟩ := bind_ok ho
    obtain ⟨_, _, rfl⟩ := visitRename_ok ho
    show o'.metric.rename m = _ ↔ _
    rw [rename_grouped, groupTag, Option.map_eq_some_iff]
    exact exists_congr fun j => and_congr (ih ho' j) Iff.rfl
  | filter e valid cond ih =>
    obtain ⟨o', ho', ho⟩ := bind_ok ho
    cases ho
    have t := ih ho' g
    exact t
  | select e cols ih =>
    obtain ⟨o', ho', ho⟩ := bind_ok ho
    obtain ⟨_, _, rfl⟩ := visitSelect_ok ho
    have t := ih ho' g
    exact t
  | map e f new augment ih =>
    obtain ⟨o', ho', ho⟩ := bind_ok ho
    obtain ⟨_, rfl⟩ := visitMap_ok ho
    have t := ih ho' g
    exact t
  | flatMap e f new augment n ih =>
    obtain ⟨o', ho', ho⟩ := bind_ok ho
    obtain ⟨_, _, _, _, _, _, hm⟩ := visitFlatMap_ok ho
    have t := ih ho' g
    rw [groupTag]
    rcases hm with ⟨_, h1, _, hn, _⟩ | ⟨_, _, _, ⟨hn, h1⟩ | ⟨c, hn, _, h1⟩⟩
    · rw [h1, hn]; exact t
    · rw [h1, hn]; exact t
    · rw [h1, hn]; simp
  | flatMapByID e f new ih =>
    obtain ⟨o', ho', ho⟩ := bind_ok ho
    obtain ⟨_, _, _, _, _, _, e2, _⟩ := visitFlatMapByID_ok ho
    have t := ih ho' g
    rw [e2]
    exact t
  | joinPrivate l r tl tr cols ihl ihr =>
    obtain ⟨ol, hol, ho⟩ := bind_ok ho
    obtain ⟨or, hor, ho⟩ := bind_ok ho
    obtain ⟨_, _, _, _, hm, hmr, hcase⟩ := visitJoinPrivate_ok ho
    have ng : ∀ x, ol.metric ≠ .grouped x := by
      intro x
      rcases hcase with ⟨i, hi, _⟩ | ⟨_, _, _, _, hi, _⟩ <;> rw [hi] <;> simp
    have nl : groupTag cat l = none := by
      cases hl : groupTag cat l with
      | none => rfl
      | some x => exact absurd ((ihl hol x).2 hl) (ng x)
    have nr : groupTag cat r = none := by
      cases hl : groupTag cat r with
      | none => rfl
      | some x => exact absurd (hmr.symm.trans ((ihr hor x).2 hl)) (ng x)
    rw [groupTag, nl, nr, hm]
    simp [ng g]
  | joinPublic e pub cols how ih =>
    obtain ⟨o', ho', ho⟩ := bind_ok ho
    obtain ⟨_, _, _, _, hm, _⟩ := visitJoinPublic_ok ho
    have t := ih ho' g
    rw [hm]
    exact t
  | replaceNull e w ih =>
    obtain ⟨o', ho', ho⟩ := bind_ok ho
    obtain ⟨_, _, _, rfl⟩ := visitReplaceNull_ok ho
    have t := ih ho' g
    exact t
  | replaceInf e w ih =>
    obtain ⟨o', ho', ho⟩ := bind_ok ho
    obtain ⟨_, rfl⟩ := visitReplaceInf_ok ho
    have t := ih ho' g
    exact t
  | dropNull e cols ih =>
    obtain ⟨o', ho', ho⟩ := bind_ok ho
    obtain ⟨_, _, rfl⟩ := visitDropNull_ok ho
    have t := ih ho' g
    exact t
  | dropInf e cols ih =>
    obtain ⟨o', ho', ho⟩ := bind_ok ho
    obtain ⟨_, rfl⟩ := visitDropInf_ok ho
    have t := ih ho' g
    exact t
  | enforce e c ih =>
    obtain ⟨o', ho', ho⟩ := bind_ok ho
    obtain ⟨_, _, _, rfl⟩ := visitEnforce_ok ho
    have t := ih ho' g
    exact t

theorem metricOf_grouped {s : Schema} {g : String} (h : metricOf s = .grouped g) : s.grouping = some g := by
  unfold metricOf at h
  split at h
  · cases h
  · next hg => cases h; exact hg
  · cases h

/-- **C21** (tracking). The schema of an accepted expression names the grouping column, and it is a column of the
result: it has not been dropped or renamed away. -/
theorem C21_tracked {h : Hash} {cat : Cat} (hc : cat.OK) {e : Expr} (he : e.WF) {s : Schema} {o : Out}
    (hb : build h cat e = .ok (s, o)) :
    s.grouping = groupTag cat e ∧ ∀ g, groupTag cat e = some g → g ∈ s.columnDescs.elements.map Prod.fst := by
  obtain ⟨hs, ho, hid, _, hm⟩ := build_ok hb
  have a := agree hc e he hs ho
  have key : s.grouping = groupTag cat e := by
    apply Option.ext
    intro g
    rw [← metric_groupTag hc e ho g, hm]
    refine ⟨fun hg => ?_, metricOf_grouped⟩
    unfold metricOf
    rw [hid.resolve_left (by simp [hg]), hg]
  refine ⟨key, fun g hg => a.wfs.grouping g (key.trans hg)⟩

/-! ## Values -/

/-- The grouping column is a column of the compiled table. -/
theorem group_mem {h : Hash} {cat : Cat} (hc : cat.OK) (e : Expr) (he : e.WF) (hr : e.RenamesDistinct) {s : Schema}
    {o : Out} (hs : schemaOf cat e = .ok s) (ho : compile h cat e = .ok o) {g : String} (hm : o.metric = .grouped g) :
    g ∈ Dict.keys o.dom := by
  induction e generalizing s o g with
  | source id =>
    simp only [compile, visitSource] at ho
    split at ho
    · cases ho
    next s' cs hg =>
    cases ho
    obtain ⟨w, _⟩ := hc.priv _ _ _ hg
    show g ∈ Dict.keys (analyticsToSparkColumns s')
    rw [keys_analytics w, keys_eq w]
    exact w.grouping g (metricOf_grouped hm)
  | rename e m ih =>
    obtain ⟨s', hs', hs⟩ := bind_ok hs
    obtain ⟨o', ho', ho⟩ := bind_ok ho
    obtain ⟨_, h2, rfl⟩ := visitRename_ok ho
    obtain ⟨j, hj, rfl⟩ := (rename_grouped m o'.metric g).1 hm
    have a := agree hc e he.1 hs' ho'
    have t := ih he.1 hr.1 hs' ho' hj
    obtain ⟨d, hd⟩ := Dict.mem_keys.1 t
    show renamed m j ∈ Dict.keys (Dict.ofPairs (o'.dom.map (fun p => (renamed m p.1, p.2))))
    rw [Dict.ofPairs_eq (wf_rename (renamed_inj he.2 hr.2 h2) a.wfd)]
    exact List.mem_map.2 ⟨_, List.mem_map.2 ⟨_, hd, rfl⟩, rfl⟩
  | filter e valid cond ih =>
    obtain ⟨s', hs', hs⟩ := bind_ok hs
    obtain ⟨o', ho', ho⟩ := bind_ok ho
    cases ho
    have t := ih he hr hs' ho' hm
    exact t
  | select e cols ih =>
    obtain ⟨s', hs', hs⟩ := bind_ok hs
    obtain ⟨o', ho', ho⟩ := bind_ok ho
    obtain ⟨sub, hcol, rfl⟩ := visitSelect_ok ho
    show g ∈ Dict.keys (pick o'.dom cols)
    rw [pick_keys sub]
    exact hcol g (by rw [show o'.metric = .grouped g from hm]; rfl)
  | map e f new augment ih =>
    obtain ⟨s', hs', hs⟩ := bind_ok hs
    obtain ⟨o', ho', ho⟩ := bind_ok ho
    have a := agree hc e he.1 hs' ho'
    obtain ⟨w, hh⟩ := schMap_ok he.2 a.wfs hs
    obtain ⟨hma, rfl⟩ := visitMap_ok ho
    have t := ih he.1 hr hs' ho' hm
    rcases hh with ⟨rfl, dis, _, _, _, el⟩ | ⟨rfl, _⟩
    · show g ∈ Dict.keys (Dict.union o'.dom (newDescs new))
      rw [(keys_append_new a w he.2 dis el).1, Dict.keys_append]
      exact List.mem_append_left _ t
    · have := (hma rfl).1
      rw [show o'.metric = .grouped g from hm] at this
      cases this
  | flatMap e f new augment n ih =>
    obtain ⟨s', hs', hs⟩ := bind_ok hs
    obtain ⟨o', ho', ho⟩ := bind_ok ho
    have a := agree hc e he.1 hs' ho'
    obtain ⟨w, hng, hh⟩ := schFlatMap_ok he.2 a.wfs hs
    obtain ⟨f', hd, _, _, _, _, hmm⟩ := visitFlatMap_ok ho
    have old : o'.metric = .grouped g → g ∈ Dict.keys o.dom := by
      intro hg
      have t := ih he.1 hr hs' ho' hg
      rcases hh with ⟨rfl, dis, _, _, _, el⟩ | ⟨rfl, _⟩
      · rw [hd]
        simp only [if_true]
        rw [(keys_append_new a w he.2 dis el).1, Dict.keys_append]
        exact List.mem_append_left _ t
      · rcases hmm with ⟨_, _, h2, _⟩ | ⟨_, _, h2, _⟩
        · cases h2
        · rw [hg] at h2
          cases h2 rfl
    have new' : new.grouping = some g → g ∈ Dict.keys o.dom := by
      intro hg
      have hk : g ∈ Dict.keys (newDescs new) := by
        rw [keys_newDescs he.2, keys_eq he.2]
        exact he.2.grouping g hg
      rw [hd]
      rcases hh with ⟨rfl, dis, _, _, _, el⟩ | ⟨rfl, _⟩
      · simp only [if_true]
        rw [(keys_append_new a w he.2 dis el).1, Dict.keys_append]
        exact List.mem_append_right _ hk
      · exact hk
    rcases hmm with ⟨⟨i, hi⟩, h1, _⟩ | ⟨_, _, _, ⟨_, h1⟩ | ⟨c, hn, _, h1⟩⟩
    · rw [h1, hi] at hm; cases hm
    · rw [h1] at hm; exact old hm
    · rw [h1] at hm
      cases hm
      exact new' hn
  | flatMapByID e f new ih =>
    obtain ⟨o', ho', ho⟩ := bind_ok ho
    obtain ⟨_, _, h1, _, _, _, e2, _⟩ := visitFlatMapByID_ok ho
    rw [e2, h1] at hm
    cases hm
  | joinPrivate l r tl tr cols ihl ihr =>
    obtain ⟨ol, hol, ho⟩ := bind_ok ho
    obtain ⟨or, hor, ho⟩ := bind_ok ho
    obtain ⟨_, _, _, _, hm', hmr, hcase⟩ := visitJoinPrivate_ok ho
    rw [hm'] at hm
    rcases hcase with ⟨i, hi, _⟩ | ⟨_, _, _, _, hi, _⟩ <;> rw [hi] at hm <;> cases hm
  | joinPublic e pub cols how ih =>
    obtain ⟨s', hs', hs⟩ := bind_ok hs
    obtain ⟨o', ho', ho⟩ := bind_ok ho
    obtain ⟨_, _, _, hd, hm', _, hov, _⟩ := visitJoinPublic_ok ho
    rw [hm'] at hm
    have t := ih he.1 hr hs' ho' hm
    have := suffixed_mem_left hd t
    rwa [suffixed_of_notMem (hov g (by rw [hm]; rfl))] at this
  | replaceNull e w ih =>
    obtain ⟨s', hs', hs⟩ := bind_ok hs
    obtain ⟨o', ho', ho⟩ := bind_ok ho
    obtain ⟨_, _, _, rfl⟩ := visitReplaceNull_ok ho
    have t := ih he.1 hr hs' ho' hm
    show g ∈ Dict.keys (update _ _ (update _ _ o'.dom))
    rw [keys_update, keys_update]
    exact t
  | replaceInf e w ih =>
    obtain ⟨s', hs', hs⟩ := bind_ok hs
    obtain ⟨o', ho', ho⟩ := bind_ok ho
    obtain ⟨_, rfl⟩ := visitReplaceInf_ok ho
    have t := ih he.1 hr hs' ho' hm
    show g ∈ Dict.keys (update _ _ o'.dom)
    rw [keys_update]
    exact t
  | dropNull e cols ih =>
    obtain ⟨s', hs', hs⟩ := bind_ok hs
    obtain ⟨o', ho', ho⟩ := bind_ok ho
    obtain ⟨_, _, rfl⟩ := visitDropNull_ok ho
    have t := ih he hr hs' ho' hm
    show g ∈ Dict.keys (update _ _ (update _ _ o'.dom))
    rw [keys_update, keys_update]
    exact t
  | dropInf e cols ih =>
    obtain ⟨s', hs', hs⟩ := bind_ok hs
    obtain ⟨o', ho', ho⟩ := bind_ok ho
    obtain ⟨_, rfl⟩ := visitDropInf_ok ho
    have t := ih he hr hs' ho' hm
    show g ∈ Dict.keys (update _ _ o'.dom)
    rw [keys_update]
    exact t
  | enforce e c ih =>
    obtain ⟨s', hs', hs⟩ := bind_ok hs
    obtain ⟨o', ho', ho⟩ := bind_ok ho
    obtain ⟨_, _, _, rfl⟩ := visitEnforce_ok ho
    have t := ih he hr hs' ho' hm
    exact t


/-- Values of the grouping column of a compiled table, as long as it is not a floating point column. -/
theorem group_values {h : Hash} {cat : Cat} {D : Data} (hc : cat.OK) (hD : cat.DataOK D) (e : Expr) (he : e.WF)
    (hf : e.FnsOK) (hr : e.RenamesDistinct) {s : Schema} {o : Out} (hs : schemaOf cat e = .ok s)
    (ho : compile h cat e = .ok o) {g : String} (hm : o.metric = .grouped g)
    (hty : Dict.get (tys o.dom) g ≠ some .DECIMAL) : ∀ r ∈ o.run D, Emitted h cat D e (cell r g) := by
  have conf := fun {e : Expr} (he : e.WF) (hf : e.FnsOK) (hr : e.RenamesDistinct) {s : Schema} {o : Out}
    (hs : schemaOf cat e = .ok s) (ho : compile h cat e = .ok o) => rows_conform hc hD e he hf hr hs ho
  have mem := fun {e : Expr} (he : e.WF) (hr : e.RenamesDistinct) {s : Schema} {o : Out}
    (hs : schemaOf cat e = .ok s) (ho : compile h cat e = .ok o) {g : String} (hm : o.metric = .grouped g) =>
      group_mem hc e he hr hs ho hm
  induction e generalizing s o g with
  | source id =>
    simp only [compile, visitSource] at ho
    split at ho
    · cases ho
    next s' cs hg =>
    cases ho
    exact fun r hrow => ⟨s', cs, g, hg, metricOf_grouped hm, r, hrow, rfl⟩
  | rename e m ih =>
    obtain ⟨s', hs', hs⟩ := bind_ok hs
    obtain ⟨o', ho', ho⟩ := bind_ok ho
    have a := agree hc e he.1 hs' ho'
    have cf := conf he.1 hf hr.1 hs' ho'
    obtain ⟨_, h2, rfl⟩ := visitRename_ok ho
    obtain ⟨j, hj, rfl⟩ := (rename_grouped m o'.metric g).1 hm
    have hk := mem he.1 hr.1 hs' ho' hj
    have inj := renamed_inj he.2 hr.2 h2
    have ht : Dict.get (tys o'.dom) j ≠ some .DECIMAL := by
      intro ht
      apply hty
      show Dict.get (tys (Dict.ofPairs (o'.dom.map (fun p => (renamed m p.1, p.2))))) (renamed m j) = _
      rw [Dict.ofPairs_eq (wf_rename inj a.wfd), get_tys, get_rename inj hk, ← get_tys]
      exact ht
    intro r hrow
    obtain ⟨r', hr', rfl⟩ := List.mem_map.1 hrow
    have : cell (r'.map (fun p => (renamed m p.1, p.2))) (renamed m j) = cell r' j := by
      unfold cell
      rw [get_row_rename (cf r' hr') inj hk]
    rw [this]
    exact ih he.1 hf hr.1 hs' ho' hj ht r' hr'
  | filter e valid cond ih =>
    obtain ⟨s', hs', hs⟩ := bind_ok hs
    obtain ⟨o', ho', ho⟩ := bind_ok ho
    cases ho
    intro r hrow
    have t := ih he hf hr hs' ho' hm hty r (List.mem_filter.1 hrow).1
    exact t
  | select e cols ih =>
    obtain ⟨s', hs', hs⟩ := bind_ok hs
    obtain ⟨o', ho', ho⟩ := bind_ok ho
    obtain ⟨sub, hcol, rfl⟩ := visitSelect_ok ho
    have hcg := hcol g (by rw [show o'.metric = .grouped g from hm]; rfl)
    have ht : Dict.get (tys o'.dom) g ≠ some .DECIMAL := by
      intro ht
      apply hty
      show Dict.get (tys (pick o'.dom cols)) g = _
      rw [get_tys, get_pick, if_pos hcg, ← get_tys]
      exact ht
    intro r hrow
    obtain ⟨r', hr', rfl⟩ := List.mem_map.1 hrow
    have : cell (cols.map (fun c => (c, cell r' c))) g = cell r' g := by
      show (Row.get (cols.map (fun c => (c, cell r' c))) g).getD _ = _
      rw [get_row_select r' hcg]
      rfl
    rw [this]
    have t := ih he hf hr hs' ho' hm ht r' hr'
    exact t
  | map e f new augment ih =>
    obtain ⟨s', hs', hs⟩ := bind_ok hs
    obtain ⟨o', ho', ho⟩ := bind_ok ho
    have a := agree hc e he.1 hs' ho'
    have cf := conf he.1 hf.1 hr hs' ho'
    obtain ⟨w, hh⟩ := schMap_ok he.2 a.wfs hs
    obtain ⟨hma, rfl⟩ := visitMap_ok ho
    have hk := mem he.1 hr hs' ho' hm
    rcases hh with ⟨rfl, dis, _, _, _, el⟩ | ⟨rfl, _⟩
    · have ht : Dict.get (tys o'.dom) g ≠ some .DECIMAL := by
        intro ht
        apply hty
        show Dict.get (tys (Dict.union o'.dom (newDescs new))) g = _
        rw [(keys_append_new a w he.2 dis el).1, tys_append, Dict.get_append, ht]
        rfl
      intro r hrow
      obtain ⟨r', hr', rfl⟩ := List.mem_map.1 hrow
      simp only [if_true]
      have : cell (r' ++ f r') g = cell r' g := by
        unfold cell
        rw [get_row_append (cf r' hr') _ hk]
      rw [this]
      have t := ih he.1 hf.1 hr hs' ho' hm ht r' hr'
      exact t
    · have := (hma rfl).1
      rw [show o'.metric = .grouped g from hm] at this
      cases this
  | flatMap e f new augment n ih =>
    obtain ⟨s', hs', hs⟩ := bind_ok hs
    obtain ⟨o', ho', ho⟩ := bind_ok ho
    have a := agree hc e he.1 hs' ho'
    have cf := conf he.1 hf.1 hr hs' ho'
    obtain ⟨w, hng, hh⟩ := schFlatMap_ok he.2 a.wfs hs
    obtain ⟨f', hd, _, _, _, hrun, hmm⟩ := visitFlatMap_ok ho
    intro r hrow
    rw [hrun] at hrow
    obtain ⟨r', hr', hx⟩ := List.mem_flatMap.1 hrow
    obtain ⟨x, hx', rfl⟩ := List.mem_map.1 hx
    rcases hmm with ⟨⟨i, hi⟩, h1, _⟩ | ⟨_, ⟨k, _, hf'⟩, ha, ⟨hn, h1⟩ | ⟨c, hn, hsym, h1⟩⟩
    · rw [h1, hi] at hm; cases hm
    · rw [h1] at hm
      have aug : augment = true := by
        by_contra hne
        rw [hm] at ha
        cases ha (by simpa using hne)
      subst aug
      have hk := mem he.1 hr hs' ho' hm
      rcases hh with ⟨_, dis, _, _, _, el⟩ | ⟨hff, _⟩
      · have ht : Dict.get (tys o'.dom) g ≠ some .DECIMAL := by
          intro ht
          apply hty
          rw [hd]
          simp only [if_true]
          rw [(keys_append_new a w he.2 dis el).1, tys_append, Dict.get_append, ht]
          rfl
        simp only [if_true]
        have : cell (r' ++ x) g = cell r' g := by
          unfold cell
          rw [get_row_append (cf r' hr') _ hk]
        rw [this, Emitted, hn]
        exact ih he.1 hf.1 hr hs' ho' hm ht r' hr'
      · cases hff
    · rw [h1] at hm
      cases hm
      rw [Emitted, hn]
      refine ⟨o', ho', r', hr', x, ?_, ?_⟩
      · rw [hf'] at hx'
        exact mem_limited hx'
      · cases augment with
        | false => rfl
        | true =>
          simp only [if_true]
          rcases hh with ⟨_, dis, _, _, _, el⟩ | ⟨hff, _⟩
          · have hnk : g ∉ r'.cols := by
              intro hk
              have hk' := ((cf r' hr').mem_cols g).1 hk
              rw [a.keys] at hk'
              refine dis g ?_ hk'
              rw [keys_eq he.2]
              exact he.2.grouping g hn
            unfold cell
            show (Dict.get (r' ++ x) g).getD _ = (Dict.get x g).getD _
            rw [Dict.get_append, Dict.get_eq_none.2 hnk]
            rfl
          · cases hff
  | flatMapByID e f new ih =>
    obtain ⟨o', ho', ho⟩ := bind_ok ho
    obtain ⟨_, _, h1, _, _, _, e2, _⟩ := visitFlatMapByID_ok ho
    rw [e2, h1] at hm
    cases hm
  | joinPrivate l r tl tr cols ihl ihr =>
    obtain ⟨ol, hol, ho⟩ := bind_ok ho
    obtain ⟨or, hor, ho⟩ := bind_ok ho
    obtain ⟨_, _, _, _, hm', hmr, hcase⟩ := visitJoinPrivate_ok ho
    rw [hm'] at hm
    rcases hcase with ⟨i, hi, _⟩ | ⟨_, _, _, _, hi, _⟩ <;> rw [hi] at hm <;> cases hm
  | joinPublic e pub cols how ih =>
    obtain ⟨s', hs', hs⟩ := bind_ok hs
    obtain ⟨o', ho', ho⟩ := bind_ok ho
    have cf := conf he.1 hf.1 hr hs' ho'
    obtain ⟨ps, pt, hp, hd, hm', _, hov, _, hrun⟩ := visitJoinPublic_ok ho
    have wp := (resolvePub_ok hc he.2 hp).1
    have hpt := (conforms_iff wp _).1 (resolvePub_conforms hD hf.2 hp)
    rw [hm'] at hm
    have hno := hov g (by rw [hm]; rfl)
    have hk := mem he.1 hr hs' ho' hm
    have ht : Dict.get (tys o'.dom) g ≠ some .DECIMAL := by
      intro ht
      apply hty
      rw [tyJoin_left hd hk hno, ht]
    have ih' := ih he.1 hf.1 hr hs' ho' hm ht
    have row : ∀ l ∈ o'.run D, ∀ b, RightOK (effHow o'.metric how) (analyticsToSparkColumns ps) b →
        (RowOK (analyticsToSparkColumns ps) b → ∀ c ∈ joinCols (Dict.keys o'.dom)
          (Dict.keys (analyticsToSparkColumns ps)) cols, cell l c = cell b c) →
        cell (joinRow (Dict.keys o'.dom) (Dict.keys (analyticsToSparkColumns ps))
          (joinCols (Dict.keys o'.dom) (Dict.keys (analyticsToSparkColumns ps)) cols) l b) g = cell l g := by
      intro l hl b hb hmb
      have hx := rowOK_join hd (cf l hl) hb hmb
      have := get_joinRow_left hd (cf l hl) hx hk
      rw [suffixed_of_notMem hno] at this
      unfold cell
      rw [this]
    intro r hrow
    rw [hrun] at hrow
    show Emitted h cat D e (cell r g)
    have inner : ∀ l ∈ o'.run D, ∀ b ∈ pt.filter (matches_ (joinCols (Dict.keys o'.dom)
        (Dict.keys (analyticsToSparkColumns ps)) cols) l),
        cell (joinRow (Dict.keys o'.dom) (Dict.keys (analyticsToSparkColumns ps))
          (joinCols (Dict.keys o'.dom) (Dict.keys (analyticsToSparkColumns ps)) cols) l b) g = cell l g := by
      intro l hl b hb
      obtain ⟨hb1, hb2⟩ := List.mem_filter.1 hb
      exact row l hl b (Or.inl (hpt b hb1)) (fun _ => matches_iff.1 hb2)
    split at hrow
    · obtain ⟨l, hl, hb⟩ := List.mem_flatMap.1 hrow
      obtain ⟨b, hb', rfl⟩ := List.mem_map.1 hb
      rw [inner l hl b hb']
      exact ih' l hl
    · next heff =>
      obtain ⟨l, hl, hb⟩ := List.mem_flatMap.1 hrow
      split at hb
      · rw [List.mem_singleton] at hb
        subst hb
        rw [row l hl [] (Or.inr ⟨heff, rfl⟩) ?_]
        · exact ih' l hl
        · intro hrok c hcj
          exact absurd ((hrok.mem_cols c).2 (domainAfterJoin_jc hd c hcj).2) (by simp [Row.cols])
      · obtain ⟨b, hb', rfl⟩ := List.mem_map.1 hb
        rw [inner l hl b hb']
        exact ih' l hl
  | replaceNull e w ih =>
    obtain ⟨s', hs', hs⟩ := bind_ok hs
    obtain ⟨o', ho', ho⟩ := bind_ok ho
    obtain ⟨rw', hrw, hk, rfl⟩ := visitReplaceNull_ok ho
    have hm' : o'.metric = .grouped g := hm
    have ht : Dict.get (tys o'.dom) g ≠ some .DECIMAL := by
      intro ht
      apply hty
      rw [← ht]
      exact congrArg (fun d => Dict.get d g)
        ((tys_update (tyOf_setNan false) _ _).trans (tys_update (tyOf_setNull false) _ _))
    intro r hrow
    obtain ⟨r', hr', rfl⟩ := List.mem_map.1 hrow
    have hni := (replaceWith_keys hrw hk).1 g (by rw [hm']; rfl)
    show Emitted h cat D e _
    unfold cell
    rw [get_replaceRow_of_notMem _ _ (fun hx => hni (keys_restrict hx).1),
      get_replaceRow_of_notMem _ _ (fun hx => hni (keys_restrict hx).1)]
    exact ih he.1 hf hr hs' ho' hm' ht r' hr'
  | replaceInf e w ih =>
    obtain ⟨s', hs', hs⟩ := bind_ok hs
    obtain ⟨o', ho', ho⟩ := bind_ok ho
    have a := agree hc e he.1 hs' ho'
    obtain ⟨hcons, rfl⟩ := visitReplaceInf_ok ho
    have hm' : o'.metric = .grouped g := hm
    have hk := mem he.1 hr hs' ho' hm'
    have ht : Dict.get (tys o'.dom) g ≠ some .DECIMAL := by
      intro ht
      apply hty
      rw [← ht]
      exact congrArg (fun d => Dict.get d g) (tys_update (tyOf_setInf false) _ _)
    have hni : g ∉ Dict.keys (infReplaceWith w o'.dom) := by
      intro hk
      obtain ⟨v, hv⟩ := Dict.mem_keys.1 hk
      have hfl := hcons _ hv
      rw [Option.any_eq_true_iff_get] at hfl
      obtain ⟨hs1, hfl⟩ := hfl
      apply ht
      rw [get_tys, ← Option.some_get hs1, Option.map_some, (isFloat_iff _).1 hfl]
    intro r hrow
    obtain ⟨r', hr', rfl⟩ := List.mem_map.1 hrow
    show Emitted h cat D e _
    unfold cell
    rw [get_replaceInfRow_of_notMem hni]
    exact ih he.1 hf hr hs' ho' hm' ht r' hr'
  | dropNull e cols ih =>
    obtain ⟨s', hs', hs⟩ := bind_ok hs
    obtain ⟨o', ho', ho⟩ := bind_ok ho
    obtain ⟨_, _, rfl⟩ := visitDropNull_ok ho
    have ht : Dict.get (tys o'.dom) g ≠ some .DECIMAL := by
      intro ht
      apply hty
      rw [← ht]
      exact congrArg (fun d => Dict.get d g)
        ((tys_update (tyOf_setNan false) _ _).trans (tys_update (tyOf_setNull false) _ _))
    intro r hrow
    have t := ih he hf hr hs' ho' hm ht r (List.mem_filter.1 (List.mem_filter.1 hrow).1).1
    exact t
  | dropInf e cols ih =>
    obtain ⟨s', hs', hs⟩ := bind_ok hs
    obtain ⟨o', ho', ho⟩ := bind_ok ho
    obtain ⟨_, rfl⟩ := visitDropInf_ok ho
    have ht : Dict.get (tys o'.dom) g ≠ some .DECIMAL := by
      intro ht
      apply hty
      rw [← ht]
      exact congrArg (fun d => Dict.get d g) (tys_update (tyOf_setInf false) _ _)
    intro r hrow
    have t := ih he hf hr hs' ho' hm ht r (List.mem_filter.1 hrow).1
    exact t
  | enforce e c ih =>
    obtain ⟨o', ho', ho⟩ := bind_ok ho
    obtain ⟨j, hj, _, rfl⟩ := visitEnforce_ok ho
    rw [show o'.metric = .grouped g from hm] at hj
    cases hj

/-- **C21** (values). Every value in the grouping column of the result was put there by the flat map that introduced
the column: no transformation has overwritten it.

Partial: renames that give two columns the same new name are excluded (`C19_fails`), and so are floating point
grouping columns (`C21_fails`). KeySets have no floating point columns. -/
theorem C21_values_partial {h : Hash} {cat : Cat} {D : Data} (hc : cat.OK) (hD : cat.DataOK D) {e : Expr} (he : e.WF)
    (hf : e.FnsOK) (hr : e.RenamesDistinct) {s : Schema} {o : Out} (hb : build h cat e = .ok (s, o)) {g : String}
    (hg : groupTag cat e = some g) (hty : ∀ d, (g, d) ∈ s.columnDescs.elements → d.ty ≠ .DECIMAL) :
    ∀ r ∈ o.run D, Emitted h cat D e (cell r g) := by
  obtain ⟨hs, ho, _⟩ := build_ok hb
  have a := agree hc e he hs ho
  refine group_values hc hD e he hf hr hs ho ((metric_groupTag hc e ho g).2 hg) ?_
  rw [types hc e he hs ho, get_stys a.wfs, Schema.descs_eq a.wfs]
  intro hx
  obtain ⟨d, hd, ht⟩ := Option.map_eq_some_iff.1 hx
  exact hty d (Dict.mem_of_get hd) ht

namespace Example

/-- Split each row into two groups. -/
def groups : Schema := sch [("G", ⟨.VARCHAR, false, false, false⟩)] (some "G") none none

def grouped : Expr :=
  .replaceNull
    (.joinPublic
      (.rename
        (.flatMap (.source "u") (fun _ => [[("G", .str "a")], [("G", .str "b")], [("G", .null)]]) groups true (some 2))
        [("G", "H"), ("A", "Z")])
      (.df (sch [("H", ⟨.VARCHAR, true, false, false⟩), ("W", ⟨.INTEGER, true, false, false⟩)] none none none)
        [[("H", .str "a"), ("W", .int 5)], [("H", .str "c"), ("W", .null)]]) none .left)
    []

theorem grouped_observed : observe cat grouped D = some
    ⟨sch [("H", ⟨.VARCHAR, true, false, false⟩), ("Z", ⟨.INTEGER, false, false, false⟩),
        ("B", ⟨.INTEGER, false, false, false⟩), ("W", ⟨.INTEGER, false, false, false⟩)] (some "H") none none,
      [("H", .string true), ("Z", .integer false), ("B", .integer false), ("W", .integer false)],
      .grouped "H", [],
      [[("H", .str "a"), ("Z", .int 1), ("B", .int 2), ("W", .int 5)],
       [("H", .str "b"), ("Z", .int 1), ("B", .int 2), ("W", .int 0)]]⟩ := by
  decide +kernel

theorem grouped_ok : grouped.WF ∧ grouped.FnsOK ∧ grouped.RenamesDistinct := by
  refine ⟨⟨⟨⟨⟨trivial, ?_⟩, ?_⟩, ?_⟩, ?_⟩, ⟨⟨trivial, ?_⟩, ?_⟩, ⟨trivial, by decide⟩⟩
  · exact schemaWF_of (by decide)
  · simp [Dict.WF]
  · exact ⟨schemaWF_of (by decide), rfl, rfl⟩
  · simp [Dict.WF]
  · intro r x hx
    simp only [List.mem_cons, List.not_mem_nil, or_false] at hx
    rcases hx with rfl | rfl | rfl <;> exact rowFits_of (by decide +kernel)
  · exact conforms_of (by decide +kernel)

example : ∃ s o, build h cat grouped = .ok (s, o) ∧ groupTag cat grouped = some "H" ∧
    (∀ d, ("H", d) ∈ s.columnDescs.elements → d.ty ≠ .DECIMAL) ∧ (o.run D).length = 2 := by
  obtain ⟨o, hb, _, _, _, hrun⟩ := observe_ok grouped_observed
  refine ⟨_, o, hb, by decide +kernel, ?_, by rw [hrun]; rfl⟩
  intro d hd
  simp only [sch, List.mem_cons, Prod.mk.injEq, List.not_mem_nil, or_false] at hd
  rcases hd with ⟨_, rfl⟩ | ⟨h, _⟩ | ⟨h, _⟩ | ⟨h, _⟩
  · decide
  all_goals simp at h

/-- A floating point grouping column with infinities. -/
def floats : Schema := sch [("G", ⟨.DECIMAL, false, false, true⟩)] (some "G") none none

def overwritten : Expr :=
  .joinPublic
    (.replaceInf (.flatMap (.source "u") (fun _ => [[("G", .dec .pinf)]]) floats true (some 1)) [])
    (.df (sch [("G", ⟨.DECIMAL, false, false, false⟩)] none none none) [[("G", .dec (.fin 0))]]) none .inner

theorem overwritten_observed : observe cat overwritten D = some
    ⟨sch [("G", ⟨.DECIMAL, false, false, false⟩), ("A", ⟨.INTEGER, false, false, false⟩),
        ("B", ⟨.INTEGER, false, false, false⟩)] (some "G") none none,
      [("G", .float false false false), ("A", .integer false), ("B", .integer false)],
      .grouped "G", [],
      [[("G", .dec (.fin 0)), ("A", .int 1), ("B", .int 2)]]⟩ := by
  decide +kernel

theorem overwritten_ok : overwritten.WF ∧ overwritten.FnsOK ∧ overwritten.RenamesDistinct := by
  refine ⟨⟨⟨⟨trivial, ?_⟩, ?_⟩, ?_⟩, ⟨⟨trivial, ?_⟩, ?_⟩, trivial⟩
  · exact schemaWF_of (by decide)
  · simp [Dict.WF]
  · exact ⟨schemaWF_of (by decide), rfl, rfl⟩
  · intro r x hx
    simp only [List.mem_cons, List.not_mem_nil, or_false] at hx
    subst hx
    exact rowFits_of (by decide +kernel)
  · exact conforms_of (by decide +kernel)

end Example

/-- **C21** fails for floating point grouping columns: `replace_infinity()` without arguments also replaces the
infinities of the grouping column. The schema then disagrees with the compiled table, but an inner join on that column
removes the disagreement and the query is accepted. (That core joins on floating point columns, and that its
`ReplaceInfs` does not refuse the column a metric groups by, is assumed.) -/
theorem C21_fails : ∃ h cat D e s o g, Cat.OK cat ∧ cat.DataOK D ∧ Expr.WF e ∧ e.FnsOK ∧ e.RenamesDistinct ∧
    build h cat e = .ok (s, o) ∧ groupTag cat e = some g ∧ ∃ r ∈ o.run D, ¬ Emitted h cat D e (cell r g) := by
  obtain ⟨o, hb, _, _, _, hrun⟩ := Example.observe_ok Example.overwritten_observed
  refine ⟨_, _, Example.D, Example.overwritten, _, o, "G", Example.cat_ok, Example.data_ok, Example.overwritten_ok.1,
    Example.overwritten_ok.2.1, Example.overwritten_ok.2.2, hb, by decide +kernel,
    [("G", .dec (.fin 0)), ("A", .int 1), ("B", .int 2)], by rw [hrun]; simp, ?_⟩
  rintro ⟨o', _, r, _, x, hx, he⟩
  simp only [List.mem_cons, List.not_mem_nil, or_false] at hx
  subst hx
  revert he
  decide +kernel

end Verif.Expr
