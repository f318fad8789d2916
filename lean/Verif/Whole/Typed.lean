import Verif.Stability.PropsQuery

/-!
# Types of grouping columns, and the tables behind a result
-/

namespace Verif.Whole

open Verif Verif.Schema Verif.Constraint Verif.Expr Verif.Stability

variable {h : Hash} {cat : Cat}

/-- Flat maps do not group by floating point columns. -/
def GroupsNotFloat : Expr → Prop
  | .source _ => True
  | .rename e _ => GroupsNotFloat e
  | .filter e _ _ => GroupsNotFloat e
  | .select e _ => GroupsNotFloat e
  | .map e _ _ _ => GroupsNotFloat e
  | .flatMap e _ new _ _ => GroupsNotFloat e ∧ ∀ g, new.grouping = some g → ∀ d, (g, d) ∈ new.columnDescs.elements → d.ty ≠ .DECIMAL
  | .flatMapByID e _ _ => GroupsNotFloat e
  | .joinPrivate l r _ _ _ => GroupsNotFloat l ∧ GroupsNotFloat r
  | .joinPublic e _ _ _ => GroupsNotFloat e
  | .replaceNull e _ => GroupsNotFloat e
  | .replaceInf e _ => GroupsNotFloat e
  | .dropNull e _ => GroupsNotFloat e
  | .dropInf e _ => GroupsNotFloat e
  | .enforce e _ => GroupsNotFloat e

/-- Nor are the grouping columns of private tables floating point columns. -/
def CatGroupsNotFloat (cat : Cat) : Prop :=
  ∀ id s cs g, Dict.get cat.priv id = some (s, cs) → s.grouping = some g →
    ∀ d, (g, d) ∈ s.columnDescs.elements → d.ty ≠ .DECIMAL

def GroupTyped (o : Out) : Prop :=
  ∀ i, o.metric = .grouped i → ∃ t, Dict.get (tys o.dom) i = some t ∧ t ≠ .DECIMAL

theorem GroupTyped.mem {o : Out} (h : GroupTyped o) {i : String} (hi : o.metric = .grouped i) : i ∈ Dict.keys o.dom := by
  obtain ⟨t, ht, _⟩ := h i hi
  rw [← keys_tys]
  exact Dict.get_isSome.1 (by rw [ht]; rfl)

theorem tys_keeps_group {o' o : Out} (h : GroupTyped o') (hm : o.metric = o'.metric) (ht : tys o.dom = tys o'.dom) :
    GroupTyped o := by
  intro i hi
  rw [hm] at hi
  rw [ht]
  exact h i hi

theorem group_typed (hc : cat.OK) (hid : CatGroupsNotFloat cat) (e : Expr) (he : e.WF)
    (hr : e.RenamesDistinct) (hg : GroupsNotFloat e) {s : Schema} {o : Out} (hs : schemaOf cat e = .ok s)
    (ho : compile h cat e = .ok o) : GroupTyped o := by
  induction e generalizing s o with
  | source id =>
    simp only [compile, visitSource] at ho
    split at ho
    · cases ho
    next s' cs hg =>
    cases ho
    intro i hi
    obtain ⟨w, _⟩ := hc.priv _ _ _ hg
    have hi' : s'.grouping = some i := metricOf_grouped hi
    show ∃ t, Dict.get (tys (analyticsToSparkColumns s')) i = some t ∧ _
    have hk : i ∈ Schema.keys s' := by
      rw [keys_eq w]
      exact w.grouping i hi'
    rw [tys_analytics w, get_stys w]
    obtain ⟨d, hd⟩ := Option.isSome_iff_exists.1 (Dict.get_isSome.2 hk)
    rw [hd]
    refine ⟨d.ty, rfl, hid id s' cs i hg hi' d ?_⟩
    have := Dict.mem_of_get hd
    rwa [Schema.descs_eq w] at this
  | rename e m ih =>
    obtain ⟨s', hs', hs⟩ := bind_ok hs
    obtain ⟨o', ho', ho⟩ := bind_ok ho
    have a := agree hc e he.1 hs' ho'
    have ih := ih he.1 hr.1 hg hs' ho'
    obtain ⟨_, h2, rfl⟩ := visitRename_ok ho
    intro i hi
    obtain ⟨j, hj, rfl⟩ := (rename_grouped m o'.metric i).1 hi
    obtain ⟨t, ht, hne⟩ := ih j hj
    refine ⟨t, ?_, hne⟩
    have inj := renamed_inj he.2 hr.2 h2
    show Dict.get (tys (Dict.ofPairs (o'.dom.map (fun p => (renamed m p.1, p.2))))) (renamed m j) = _
    rw [Dict.ofPairs_eq (wf_rename inj a.wfd), get_tys, get_rename inj (ih.mem hj), ← get_tys]
    exact ht
  | filter e valid cond ih =>
    obtain ⟨s', hs', hs⟩ := bind_ok hs
    obtain ⟨o', ho', ho⟩ := bind_ok ho
    have ih := ih he hr hg hs' ho'
    cases ho
    exact tys_keeps_group ih rfl rfl
  | select e cols ih =>
    obtain ⟨s', hs', hs⟩ := bind_ok hs
    obtain ⟨o', ho', ho⟩ := bind_ok ho
    have ih := ih he hr hg hs' ho'
    obtain ⟨sub, hm, rfl⟩ := visitSelect_ok ho
    intro i hi
    obtain ⟨t, ht, hne⟩ := ih i hi
    refine ⟨t, ?_, hne⟩
    show Dict.get (tys (pick o'.dom cols)) i = _
    rw [get_tys, get_pick, if_pos (hm i (by rw [show o'.metric = .grouped i from hi]; rfl)), ← get_tys]
    exact ht
  | map e f new augment ih =>
    obtain ⟨s', hs', hs⟩ := bind_ok hs
    obtain ⟨o', ho', ho⟩ := bind_ok ho
    have a := agree hc e he.1 hs' ho'
    have ih := ih he.1 hr hg hs' ho'
    obtain ⟨w, hh⟩ := schMap_ok he.2 a.wfs hs
    obtain ⟨hm, rfl⟩ := visitMap_ok ho
    intro i hi
    obtain ⟨t, ht, hne⟩ := ih i hi
    refine ⟨t, ?_, hne⟩
    rcases hh with ⟨rfl, dis, g1, g2, g3, el⟩ | ⟨rfl, i1, i2, g1, g2, g3, el⟩
    · show Dict.get (tys (Dict.union o'.dom (newDescs new))) i = _
      rw [(keys_append_new a w he.2 dis el).1, tys_append, Dict.get_append, ht]
      rfl
    · have := (hm rfl).1
      rw [show o'.metric = .grouped i from hi] at this
      cases this
  | flatMap e f new augment n ih =>
    obtain ⟨s', hs', hs⟩ := bind_ok hs
    obtain ⟨o', ho', ho⟩ := bind_ok ho
    have a := agree hc e he.1 hs' ho'
    have ih := ih he.1 hr hg.1 hs' ho'
    obtain ⟨w, hng, hh⟩ := schFlatMap_ok he.2 a.wfs hs
    obtain ⟨g, hd, _, _, _, _, hm⟩ := visitFlatMap_ok ho
    intro i hi
    have old : o'.metric = .grouped i → ∃ t, Dict.get (tys o.dom) i = some t ∧ t ≠ .DECIMAL := by
      intro hi'
      obtain ⟨t, ht, hne⟩ := ih i hi'
      refine ⟨t, ?_, hne⟩
      rcases hh with ⟨rfl, dis, _, _, _, el⟩ | ⟨rfl, _⟩
      · rw [hd]
        simp only [if_true]
        rw [(keys_append_new a w he.2 dis el).1, tys_append, Dict.get_append, ht]
        rfl
      · rcases hm with ⟨_, _, h2, _⟩ | ⟨_, _, h2, _⟩
        · cases h2
        · rw [hi'] at h2
          cases h2 rfl
    have new' : new.grouping = some i → ∃ t, Dict.get (tys o.dom) i = some t ∧ t ≠ .DECIMAL := by
      intro hn
      have hk : i ∈ Schema.keys new := by
        rw [keys_eq he.2]
        exact he.2.grouping i hn
      obtain ⟨p, hp, hpi⟩ := List.mem_map.1 (he.2.grouping i hn)
      obtain ⟨i', d⟩ := p
      cases hpi
      have hmem : (i', d.ty) ∈ tys (newDescs new) := by
        rw [tys_newDescs he.2]
        exact List.mem_map.2 ⟨(i', { d with allowNull := true }), List.mem_map.2 ⟨(i', d), (Schema.descs_eq he.2).symm ▸ hp, rfl⟩, rfl⟩
      have hget : Dict.get (tys (newDescs new)) i' = some d.ty :=
        (Dict.get_eq_some (by show (Dict.keys (tys (newDescs new))).Nodup; rw [keys_tys]; exact wf_newDescs new)).2 hmem
      refine ⟨d.ty, ?_, hg.2 i' hn d hp⟩
      rw [hd]
      rcases hh with ⟨rfl, dis, _, _, _, el⟩ | ⟨rfl, _⟩
      · simp only [if_true]
        have hout : Dict.get (tys o'.dom) i' = none := by
          rw [Dict.get_eq_none, keys_tys, a.keys]
          exact dis i' hk
        rw [(keys_append_new a w he.2 dis el).1, tys_append, Dict.get_append, hout, hget]
        rfl
      · exact hget
    rcases hm with ⟨⟨i, hi'⟩, h1, _⟩ | ⟨_, _, _, ⟨_, h1⟩ | ⟨c, hn, _, h1⟩⟩
    · rw [h1, hi'] at hi; cases hi
    · rw [h1] at hi; exact old hi
    · rw [h1] at hi
      cases hi
      exact new' hn
  | flatMapByID e f new ih =>
    obtain ⟨s', hs', hs⟩ := bind_ok hs
    obtain ⟨o', ho', ho⟩ := bind_ok ho
    obtain ⟨i, d, hm, hd, hn, e1, e2, e3, _, hrun⟩ := visitFlatMapByID_ok ho
    intro j hj
    rw [e2, hm] at hj
    cases hj
  | joinPrivate l r tl tr cols ihl ihr =>
    obtain ⟨ol, hol, ho⟩ := bind_ok ho
    obtain ⟨or, hor, ho⟩ := bind_ok ho
    obtain ⟨_, _, _, _, hm, _, hcase⟩ := visitJoinPrivate_ok ho
    intro i hi
    rw [hm] at hi
    rcases hcase with ⟨j, hj, _⟩ | ⟨_, _, _, _, hj, _⟩ <;> rw [hj] at hi <;> cases hi
  | joinPublic e pub cols how ih =>
    obtain ⟨s', hs', hs⟩ := bind_ok hs
    obtain ⟨o', ho', ho⟩ := bind_ok ho
    have ih := ih he.1 hr hg hs' ho'
    obtain ⟨ps, pt, hp, hd, hm, _, hov, _⟩ := visitJoinPublic_ok ho
    intro i hi
    rw [hm] at hi
    obtain ⟨t, ht, hne⟩ := ih i hi
    refine ⟨t, ?_, hne⟩
    rw [tyJoin_left hd (ih.mem hi) (hov i (by rw [hi]; rfl)), ht]
  | replaceNull e w ih =>
    obtain ⟨s', hs', hs⟩ := bind_ok hs
    obtain ⟨o', ho', ho⟩ := bind_ok ho
    have ih := ih he.1 hr hg hs' ho'
    obtain ⟨rw, _, _, rfl⟩ := visitReplaceNull_ok ho
    exact tys_keeps_group ih rfl ((tys_update (tyOf_setNan false) _ _).trans (tys_update (tyOf_setNull false) _ _))
  | replaceInf e w ih =>
    obtain ⟨s', hs', hs⟩ := bind_ok hs
    obtain ⟨o', ho', ho⟩ := bind_ok ho
    have ih := ih he.1 hr hg hs' ho'
    obtain ⟨_, rfl⟩ := visitReplaceInf_ok ho
    exact tys_keeps_group ih rfl (tys_update (tyOf_setInf false) _ _)
  | dropNull e cols ih =>
    obtain ⟨s', hs', hs⟩ := bind_ok hs
    obtain ⟨o', ho', ho⟩ := bind_ok ho
    have ih := ih he hr hg hs' ho'
    obtain ⟨_, _, rfl⟩ := visitDropNull_ok ho
    exact tys_keeps_group ih rfl ((tys_update (tyOf_setNan false) _ _).trans (tys_update (tyOf_setNull false) _ _))
  | dropInf e cols ih =>
    obtain ⟨s', hs', hs⟩ := bind_ok hs
    obtain ⟨o', ho', ho⟩ := bind_ok ho
    have ih := ih he hr hg hs' ho'
    obtain ⟨_, rfl⟩ := visitDropInf_ok ho
    exact tys_keeps_group ih rfl (tys_update (tyOf_setInf false) _ _)
  | enforce e c ih =>
    obtain ⟨s', hs', hs⟩ := bind_ok hs
    obtain ⟨o', ho', ho⟩ := bind_ok ho
    have ih := ih he hr hg hs' ho'
    obtain ⟨i, _, _, rfl⟩ := visitEnforce_ok ho
    exact tys_keeps_group ih rfl rfl


/-- The private tables behind a table without IDs have no ID column, and no grouping column either if it has none. -/
theorem sources_rows (e : Expr) {o : Out} (ho : compile h cat e = .ok o) (hm : ∀ i, o.metric ≠ .ids i) :
    ∀ id ∈ e.sources, ∃ s cs, Dict.get cat.priv id = some (s, cs) ∧ (∀ i, metricOf s ≠ .ids i) ∧
      (o.metric = .symDiff → metricOf s = .symDiff) := by
  induction e generalizing o with
  | source id =>
    simp only [compile, visitSource] at ho
    split at ho
    · cases ho
    next s' cs hg =>
    cases ho
    intro id' hid'
    rw [Expr.sources, List.mem_singleton] at hid'
    subst hid'
    exact ⟨s', cs, hg, hm, id⟩
  | rename e m ih =>
    obtain ⟨o', ho', ho⟩ := bind_ok ho
    obtain ⟨_, h2, rfl⟩ := visitRename_ok ho
    have hm' : (∀ i, o'.metric ≠ .ids i) ∧ (o'.metric.rename m = .symDiff → o'.metric = .symDiff) := by
      refine ⟨fun i hi => hm (renamed m i) (by show o'.metric.rename m = _; rw [hi]; rfl), fun hs => ?_⟩
      generalize o'.metric = x at hs
      cases x with
      | symDiff => rfl
      | grouped g => cases hs
      | ids i => cases hs
    intro id hid
    obtain ⟨s, cs, h1, h2, h3⟩ := ih ho' hm'.1 id hid
    exact ⟨s, cs, h1, h2, fun hs => h3 (hm'.2 hs)⟩
  | filter e valid cond ih =>
    obtain ⟨o', ho', ho⟩ := bind_ok ho
    cases ho
    have t := ih ho' hm
    exact t
  | select e cols ih =>
    obtain ⟨o', ho', ho⟩ := bind_ok ho
    obtain ⟨sub, _, rfl⟩ := visitSelect_ok ho
    have t := ih ho' hm
    exact t
  | map e f new augment ih =>
    obtain ⟨o', ho', ho⟩ := bind_ok ho
    obtain ⟨_, rfl⟩ := visitMap_ok ho
    have t := ih ho' hm
    exact t
  | flatMap e f new augment n ih =>
    obtain ⟨o', ho', ho⟩ := bind_ok ho
    obtain ⟨g, hd, hsp, _, _, hrun, hmm⟩ := visitFlatMap_ok ho
    rcases hmm with ⟨⟨i, hi⟩, h1, _⟩ | ⟨h0, _, _, h1⟩
    · exact absurd (h1.trans hi) (hm i)
    · intro id hid
      obtain ⟨s, cs, t1, t2, t3⟩ := ih ho' h0 id hid
      refine ⟨s, cs, t1, t2, fun hs => t3 ?_⟩
      rcases h1 with ⟨_, h1⟩ | ⟨c, _, h2, _⟩
      · exact h1.symm.trans hs
      · exact h2
  | flatMapByID e f new ih =>
    obtain ⟨o', ho', ho⟩ := bind_ok ho
    obtain ⟨j, d, h1, hd, hn, e1, e2, e3, _, hrun⟩ := visitFlatMapByID_ok ho
    exact absurd (e2.trans h1) (hm j)
  | joinPrivate l r tl tr cols ihl ihr =>
    obtain ⟨ol, hol, ho⟩ := bind_ok ho
    obtain ⟨or, hor, ho'⟩ := bind_ok ho
    obtain ⟨hs1, hs2, hd, _, hml, hmr, hcase⟩ := visitJoinPrivate_ok ho'
    rw [hml] at hm ⊢
    intro id hid
    rw [Expr.sources, List.mem_append] at hid
    rcases hid with hx | hx
    · exact ihl hol hm id hx
    · rw [← hmr]
      exact ihr hor (fun i hi => hm i (hmr.symm.trans hi)) id hx
  | joinPublic e pub cols how ih =>
    obtain ⟨o', ho', ho⟩ := bind_ok ho
    obtain ⟨_, _, _, _, hm', _⟩ := visitJoinPublic_ok ho
    rw [hm'] at hm ⊢
    exact ih ho' hm
  | replaceNull e w ih =>
    obtain ⟨o', ho', ho⟩ := bind_ok ho
    obtain ⟨_, _, _, rfl⟩ := visitReplaceNull_ok ho
    have t := ih ho' hm
    exact t
  | replaceInf e w ih =>
    obtain ⟨o', ho', ho⟩ := bind_ok ho
    obtain ⟨_, rfl⟩ := visitReplaceInf_ok ho
    have t := ih ho' hm
    exact t
  | dropNull e cols ih =>
    obtain ⟨o', ho', ho⟩ := bind_ok ho
    obtain ⟨_, _, rfl⟩ := visitDropNull_ok ho
    have t := ih ho' hm
    exact t
  | dropInf e cols ih =>
    obtain ⟨o', ho', ho⟩ := bind_ok ho
    obtain ⟨_, rfl⟩ := visitDropInf_ok ho
    have t := ih ho' hm
    exact t
  | enforce e c ih =>
    obtain ⟨o', ho', ho⟩ := bind_ok ho
    obtain ⟨_, _, _, rfl⟩ := visitEnforce_ok ho
    have t := ih ho' hm
    exact t

end Verif.Whole
