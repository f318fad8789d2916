import Verif.Nested.Session

/-!
# C65: creating and deleting views, and the sessions of a partition
-/

namespace Verif.Nested

open Verif Verif.Schema Verif.Constraint Verif.Expr Verif.Query
open Verif.Relation (Ident Dom Ref RErr lookupDomain findReference findNamedTables Path UniqueNames EndsWith wfs_mem lookupDomain_iff namesOf)
open Verif.Whole (Tab PubFrame)

theorem get_none_of_not_mem {tables : List (String × Tab)} {name : String} (h : name ∉ tables.map Prod.fst) :
    Dict.get tables name = none := by
  by_contra hne
  exact h (Dict.get_isSome.1 (Option.isSome_iff_ne_none.2 hne))

/-- **C65**: what a query is compiled to gives, from the nested dictionaries, the rows it gives from the list of tables, and
leaves the named tables as they are. -/
theorem C65_query {core : Core} (hc : core.Lawful) {tables : List (String × Tab)} {st : Store} (hr : Rep tables st)
    {pub : List (String × PubFrame)} {cat : Cat} (hcat : Whole.catalog tables pub = .ok cat)
    (hw : ∀ n t, Dict.get tables n = some t → Dict.WF t.dom) (h : Hash) (e : Expr) (hj : core.selfJoin = true ∨ NoSelfJoin e) :
    ∃ cat', catalogOf st pub = .ok cat' ∧
      match build h cat e with
      | .error x => buildT core h cat' e st.state = .error x
      | .ok (_, o) => ∃ s' ref l, buildT core h cat' e st.state = .ok (s', ref, o.cons) ∧ leafAt s' ref = .ok l ∧
          l.dom = o.dom ∧ l.metric = o.metric ∧ spaceOf ref.dropLast = o.space ∧
          (∀ D, l.run D = o.run (Whole.resolve tables D)) ∧ Rep tables ⟨s', st.cons⟩ := by
  obtain ⟨cat', h1, h2, h3⟩ := catalog_rep hr hcat
  refine ⟨cat', h1, ?_⟩
  have hs : Srcs st.state cat' (Whole.resolve tables) := by
    have := srcs_rep hr hcat hw
    intro id
    have h4 := this id
    rw [← h2 id] at h4
    exact h4
  have hv := visit_spec (h := h) hc e hj hr.good hs
  unfold Spec at hv
  rw [comp_congr h2 h3] at hv
  unfold build buildT
  rw [sch_congr h2 h3]
  cases hsch : schemaOf cat e with
  | error x => rfl
  | ok sch =>
    dsimp only
    cases hcomp : compile h cat e with
    | error x =>
      rw [hcomp] at hv
      dsimp only at hv ⊢
      rw [hv]
    | ok o =>
      rw [hcomp] at hv
      dsimp only at hv ⊢
      obtain ⟨s', k, v1, v2, v3, v4, _⟩ := hv
      rw [v1]
      dsimp only
      rw [(leafAt_ok v2.wf).2 v4]
      dsimp only
      rw [List.dropLast_concat, spaceOf_place]
      have hval : validate sch ((leafOf (pre (Whole.resolve tables) o)).out o.space o.cons) = validate sch o := rfl
      rw [hval]
      cases validate sch o with
      | error x => rfl
      | ok u => exact ⟨s', _, _, rfl, (leafAt_ok v2.wf).2 v4, rfl, rfl, by rw [List.dropLast_concat, spaceOf_place], fun _ => rfl,
          rep_ext hr v2 v3⟩

/-- **C65**: `create_view` adds the view that the list of tables would get, or fails in the same way. -/
theorem C65_create {core : Core} (hc : core.Lawful) {tables : List (String × Tab)} {st : Store} (hr : Rep tables st)
    {pub : List (String × PubFrame)} {cat : Cat} (hcat : Whole.catalog tables pub = .ok cat)
    (hw : ∀ n t, Dict.get tables n = some t → Dict.WF t.dom) (ctx : Whole.Ctx) (e : Expr) (ok : Whole.Admissible e)
    (hj : core.selfJoin = true ∨ NoSelfJoin e) (name : String) (cache : Bool) :
    if name ∈ tables.map Prod.fst ∨ name ∈ Dict.keys pub then
      createView core ctx.h pub name cache e st = .error .value
    else
      match Whole.transform ctx tables pub (.table e ok) with
      | .error x => ∃ y, createView core ctx.h pub name cache e st = .error y ∧ Whole.toErr y = x
      | .ok t => ∃ st', createView core ctx.h pub name cache e st = .ok st' ∧ Rep ((name, t) :: tables) st' := by
  obtain ⟨names, n1, -, n3⟩ := C65_sources hr
  unfold createView
  rw [n1]
  dsimp only
  by_cases hn : name ∈ tables.map Prod.fst ∨ name ∈ Dict.keys pub
  · rw [if_pos hn, if_pos (by rw [n3]; exact hn)]
  rw [if_neg hn, if_neg (by rw [n3]; exact hn)]
  obtain ⟨cat', h1, h2⟩ := C65_query hc hr hcat hw ctx.h e hj
  rw [h1]
  dsimp only [Whole.transform]
  rw [hcat]
  dsimp only
  have hnone := get_none_of_not_mem (fun h => hn (.inl h))
  cases hb : build ctx.h cat e with
  | error x =>
    rw [hb] at h2
    dsimp only at h2 ⊢
    rw [h2]
    exact ⟨x, rfl, rfl⟩
  | ok so =>
    obtain ⟨sch, o⟩ := so
    rw [hb] at h2
    dsimp only at h2 ⊢
    obtain ⟨s1, ref, l, b1, b2, b3, b4, b5, b6, b7⟩ := h2
    rw [b1]
    dsimp only
    have hl := (leafAt_ok b7.good.wf).1 b2
    obtain ⟨sp, k, kvs, rfl, -, -, -, -, -⟩ := loc b7.good hl
    rw [List.dropLast_concat, spaceOf_place] at b5
    subst b5
    obtain ⟨s2, k2, p1, p2, p3, p4⟩ := persist_ok hc b7.good hl cache
    rw [p1]
    dsimp only
    have b8 := rep_ext b7 p2 p3
    obtain ⟨s3, q1, q2, q3⟩ := copy_ok p2 p4 (target := .named name)
      (fun x hx => b8.only name hnone _ _ hx (endsWith_named.2 rfl)) nofun
      (fun n hn r x hx => by cases hn; exact b8.only _ hnone r x hx)
    unfold renameTable
    rw [q1]
    refine ⟨_, rfl, rep_add (st := ⟨s2, st.cons⟩) b8 hnone q2 fun r x => (q3 r x).trans (or_congr_right ?_)⟩
    have : l = ⟨o.dom, o.metric, fun D => o.run (Whole.resolve tables D)⟩ := by
      cases l
      simp only at b3 b4 b6
      rw [Leaf.mk.injEq]
      exact ⟨b3, b4, funext b6⟩
    rw [this]

/-! ## Deleting -/

theorem get_filter {K V : Type} [DecidableEq K] (p : K → Bool) : ∀ (d : Dict K V) (k : K),
    Dict.get (d.filter (fun q => p q.1)) k = if p k then Dict.get d k else none
  | [], k => by simp [Dict.get]
  | (k', v) :: d, k => by
    have ih := get_filter p d k
    rw [List.filter_cons]
    by_cases hp : p k' = true
    · rw [if_pos hp, Dict.get_cons, Dict.get_cons, ih]
      by_cases hk : k = k'
      · subst hk; simp [hp]
      · simp [hk]
    · rw [if_neg hp, ih, Dict.get_cons]
      by_cases hk : k = k'
      · subst hk; simp [hp]
      · simp [hk]

theorem good_filter {s : State} (hg : Good s) {sp : Option String} {kvs : Entries} (hp : Path s.tree (place sp) (.dict kvs))
    (keep : Ident → Bool) (hk : ∀ n, keep (.collection n) = true) :
    Good ⟨setAt (place sp) (.dict (kvs.filter (fun q => keep q.1))) s.tree, s.arks⟩ := by
  have hat := fun r x => at_filter hg.wf hp keep (r := r) (x := x)
  have hw := path_wf hg.wf hp
  rw [Dom.WF] at hw
  refine ⟨wf_setAt ?_ hg.wf, (hat _ _).2 ⟨hg.root, fun k q h => by simp at h⟩, ?_, ?_, ?_⟩
  · rw [Dom.WF]
    refine ⟨hw.1.sublist (List.filter_sublist.map _), wfs_iff.2 fun k d hm => wfs_mem hw.2 (List.mem_filter.1 hm).1⟩
  · intro r x h
    exact hg.shape r x ((hat r x).1 h).1
  · intro r
    rw [hg.arks]
    refine exists_congr fun n => and_congr_right fun hr => ?_
    rw [hat]
    refine ⟨fun h => ⟨h, fun k q he => ?_⟩, fun h => h.1⟩
    subst hr
    cases sp with
    | none => cases he; exact hk n
    | some m => simp [place] at he
  · intro n r r' x x' h h' e e'
    exact hg.names n r r' x x' ((hat r x).1 h).1 ((hat r' x').1 h').1 e e'

/-- **C65**: `delete_view` deletes the table of this name and no other; it fails only if there is none, or if core does not
make an empty dictionary and this would be one. -/
theorem C65_delete {core : Core} (hc : core.Lawful) {tables : List (String × Tab)} {st : Store} (hr : Rep tables st) (name : String) :
    match Dict.get tables name with
    | none => deleteView core name st = .error .key
    | some t => (core.emptySubset = true ∨ ∃ n u, Dict.get tables n = some u ∧ n ≠ name ∧ (u.space = t.space ∨ t.space = none)) →
        ∃ st', deleteView core name st = .ok st' ∧ Rep (tables.filter (fun p => p.1 != name)) st' := by
  unfold deleteView
  cases hg : Dict.get tables name with
  | none =>
    dsimp only
    rw [find_none.2 (hr.only name hg)]
  | some t =>
    dsimp only
    intro hne
    obtain ⟨h1, -⟩ := hr.tabs name t hg
    rw [find_ok hr.good h1 (endsWith_named.2 rfl)]
    dsimp only
    rw [(leafAt_ok hr.good.wf).2 h1]
    dsimp only
    obtain ⟨s1, c1, c2, c3⟩ := copy_ok hr.good h1 (not_temp hc st.state (place t.space)) (notColl_temp _) nofun
    unfold unpersistTable
    rw [c1]
    dsimp only [Except.map]
    have hr1 : Rep tables ⟨s1, st.cons⟩ := rep_ext hr c2 ⟨fun r x h => (c3 r x).2 (.inl h), fun r x h => by
      rcases (c3 r x).1 h with h | ⟨h, _⟩
      · exact .inl h
      · exact .inr ⟨_, _, h⟩⟩
    have h2 := (hr1.tabs name t hg).1
    obtain ⟨sp, k, kvs, e1, hp, hget, -, -, -⟩ := loc c2 h2
    have a1 : place t.space = place sp := by simpa using congrArg List.dropLast e1
    have := place_inj a1; subst this
    have := List.append_cancel_left e1; cases this
    let keep : Ident → Bool := fun k => !isTemp k && decide (k ≠ .named name)
    have hkeep : ∀ n, keep (.collection n) = true := fun n => rfl
    have hat := fun r x => at_filter c2.wf hp keep (r := r) (x := x)
    have hsub : subset core kvs keep = .ok (kvs.filter (fun q => keep q.1)) := by
      unfold subset
      rw [if_neg]
      intro hcontra
      simp only [Bool.and_eq_true, Bool.not_eq_true', List.isEmpty_iff] at hcontra
      rcases hne with h | ⟨n, u, g1, g2, g3⟩
      · rw [h] at hcontra; cases hcontra.2
      · obtain ⟨d, u1, u2⟩ := (hr1.tabs n u g1).1
        have hex : ∃ k d, (k, d) ∈ kvs ∧ keep k = true := by
          rcases g3 with g3 | g3
          · rw [g3] at u1
            obtain ⟨d', p1, p2⟩ := path_append.1 u1
            have := path_unique c2.wf p1 hp
            subst this
            obtain ⟨d2, p3, _⟩ := path_cons.1 p2
            exact ⟨_, d2, p3, by simp [keep, isTemp, g2]⟩
          · rw [g3] at hp
            have hroot := path_nil.1 hp
            rw [← hroot] at u1
            cases hsp : u.space with
            | none =>
              rw [hsp] at u1
              obtain ⟨d2, p3, _⟩ := path_cons.1 u1
              exact ⟨_, d2, p3, by simp [keep, isTemp, g2]⟩
            | some m =>
              rw [hsp] at u1
              obtain ⟨d2, p3, _⟩ := path_cons.1 u1
              exact ⟨_, d2, p3, rfl⟩
        obtain ⟨k, d, h3, h4⟩ := hex
        have : (k, d) ∈ kvs.filter (fun q => keep q.1) := List.mem_filter.2 ⟨h3, h4⟩
        rw [hcontra.1] at this
        cases this
    have hdel : deleteTable core s1 (place t.space ++ [.named name]) =
        .ok ⟨setAt (place t.space) (.dict (kvs.filter (fun q => keep q.1))) s1.tree, s1.arks⟩ := by
      unfold deleteTable
      simp only [List.getLast?_append, List.getLast?_singleton, Option.some_or, List.dropLast_concat]
      rw [nested_both c2 hp]
      have : subset core kvs (fun k => !isTemp k && decide (k ≠ .named name)) = .ok (kvs.filter (fun q => keep q.1)) := hsub
      rw [this]
      rfl
    rw [hdel]
    refine ⟨_, rfl, good_filter c2 hp keep hkeep, fun n u hgu => ?_, fun n hgn r x hx hend => ?_⟩
    · have hf := get_filter (fun k : String => k != name) tables n
      rw [hf] at hgu
      split at hgu
      · next hb =>
        have hnn : n ≠ name := by simpa using hb
        obtain ⟨u1, u2⟩ := hr1.tabs n u hgu
        refine ⟨(hat _ _).2 ⟨u1, fun k q he => ?_⟩, ?_⟩
        · have hmem : k ∈ place u.space ++ [.named n] := by rw [he]; simp
          rcases List.mem_append.1 hmem with hm | hm
          · cases hus : u.space with
            | none => rw [hus] at hm; cases hm
            | some m =>
              rw [hus] at hm
              cases List.mem_singleton.1 hm
              rfl
          · cases List.mem_singleton.1 hm
            simp [keep, isTemp, hnn]
        · dsimp only at u2 ⊢
          rw [get_filter (fun k : Ident => decide (k ≠ .named name))]
          simp [hnn, u2]
      · cases hgu
    · have hx' := (hat r x).1 hx
      obtain ⟨u, u1, u2, u3⟩ := hr1.at_name hx'.1 hend
      rw [get_filter (fun k : String => k != name)] at hgn
      by_cases hnn : n = name
      · subst hnn
        rw [hg] at u1
        cases u1
        have := hx'.2 (.named n) [] u2
        simp [keep] at this
      · simp [hnn, u1] at hgn

/-! ## Partitions -/

/-- **C65**: the sessions of a partition have their table where it belongs. -/
theorem C65_partition {ctx : Whole.Ctx} {tables : List (String × Tab)} {st : Store} (hr : Rep tables st)
    {pub : List (String × PubFrame)} {src col : String} {vals : List Value} {t0 t : Tab} (h0 : Dict.get tables src = some t0)
    (hp : Whole.partTab ctx tables pub src col vals = .ok t) (split : String) :
    tabOf st src = .ok { t0 with dist := 0 } ∧
      Rep [(split, t)] ⟨partState t0.space split ⟨t.dom, t.metric, t.run⟩, [(.named split, [])]⟩ := by
  refine ⟨by rw [C65_table hr, h0], ?_⟩
  have hkind : KindOK t0.space t0.metric := by
    obtain ⟨h1, -⟩ := hr.tabs src t0 h0
    obtain ⟨sp, k, kvs, e1, -, -, -, -, hk⟩ := loc hr.good h1
    have a1 : place t0.space = place sp := by simpa using congrArg List.dropLast e1
    have := place_inj a1; subst this
    exact hk
  have hfacts : t.cons = [] ∧ ((∃ n i, t0.space = some n ∧ t.metric = .ids i ∧ t.space = some n) ∨
      (t.metric = .symDiff ∧ t.space = none)) := by
    unfold Whole.partTab at hp
    rw [h0] at hp
    dsimp only at hp
    split at hp
    · cases hp
    · next cut hcut =>
      split at hp
      · cases hp
      · (repeat' split at hp) <;> cases hp
        refine ⟨rfl, ?_⟩
        cases cut with
        | rows => exact .inr ⟨rfl, rfl⟩
        | rowsOfID _ _ => exact .inr ⟨rfl, rfl⟩
        | groupsOfID i g =>
          have hid : IsIDs t0.metric := by
            unfold Whole.cutOf at hcut
            split at hcut
            · next j hj => exact ⟨j, hj⟩
            · cases hcut
          obtain ⟨n, hn⟩ := Option.ne_none_iff_exists'.1 (hkind.1 hid)
          exact .inl ⟨n, i, hn, rfl, hn⟩
  obtain ⟨hcons, h | ⟨hm, hs⟩⟩ := hfacts
  · obtain ⟨n, i, hsp, hm, hs⟩ := h
    have hst : partState t0.space split ⟨t.dom, t.metric, t.run⟩ =
        ⟨.dict [(.collection n, .dict [(.named split, .table ⟨t.dom, t.metric, t.run⟩)])], [[.collection n]]⟩ := by
      rw [hsp, hm]; rfl
    rw [hst]
    have hat : ∀ r x, At (.dict [(.collection n, .dict [(.named split, .table (⟨t.dom, t.metric, t.run⟩ : Leaf))])]) r x ↔
        (r = [] ∧ x = none) ∨ (r = [.collection n] ∧ x = none) ∨
        (r = [.collection n, .named split] ∧ x = some ⟨t.dom, t.metric, t.run⟩) := by
      intro r x
      constructor
      · rintro ⟨d, h1, h2⟩
        cases h1 with
        | here => exact .inl ⟨rfl, h2.symm⟩
        | down hm1 h1 =>
          cases List.mem_singleton.1 hm1
          cases h1 with
          | here => exact .inr (.inl ⟨rfl, h2.symm⟩)
          | down hm2 h1 =>
            cases List.mem_singleton.1 hm2
            cases h1
            exact .inr (.inr ⟨rfl, h2.symm⟩)
      · rintro (⟨rfl, rfl⟩ | ⟨rfl, rfl⟩ | ⟨rfl, rfl⟩)
        · exact ⟨_, .here _, rfl⟩
        · exact ⟨_, .down (List.mem_singleton.2 rfl) (.here _), rfl⟩
        · exact ⟨_, .down (List.mem_singleton.2 rfl) (.down (List.mem_singleton.2 rfl) (.here _)), rfl⟩
    refine ⟨⟨by simp [Dom.WF, Relation.wfs], (hat _ _).2 (.inl ⟨rfl, rfl⟩), ?_, ?_, ?_⟩, ?_, ?_⟩
    · intro r x h
      rcases (hat r x).1 h with ⟨rfl, rfl⟩ | ⟨rfl, rfl⟩ | ⟨rfl, rfl⟩
      · exact .inl ⟨rfl, none, rfl⟩
      · exact .inl ⟨rfl, some n, rfl⟩
      · exact .inr ⟨some n, .named split, _, rfl, rfl, nofun, by rw [hm]; exact ⟨fun _ => by simp, fun _ => ⟨i, rfl⟩⟩⟩
    · intro r
      rw [List.mem_singleton]
      constructor
      · rintro rfl
        exact ⟨n, rfl, (hat _ _).2 (.inr (.inl ⟨rfl, rfl⟩))⟩
      · rintro ⟨m, rfl, h⟩
        rcases (hat _ _).1 h with ⟨h, _⟩ | ⟨h, _⟩ | ⟨h, _⟩
        · cases h
        · exact h
        · cases h
    · intro m r r' x x' h h' e e'
      rcases (hat r x).1 h with ⟨rfl, rfl⟩ | ⟨rfl, rfl⟩ | ⟨rfl, rfl⟩
      · cases e
      · cases e
      · rcases (hat r' x').1 h' with ⟨rfl, rfl⟩ | ⟨rfl, rfl⟩ | ⟨rfl, rfl⟩
        · cases e'
        · cases e'
        · rfl
    · intro m u hg
      rw [Dict.get_cons] at hg
      split at hg
      · next he =>
        cases hg
        subst he
        rw [hs, hcons]
        exact ⟨(hat _ _).2 (.inr (.inr ⟨rfl, rfl⟩)), by simp [Dict.get]⟩
      · cases hg
    · intro m hg r x h e
      rcases (hat r x).1 h with ⟨rfl, rfl⟩ | ⟨rfl, rfl⟩ | ⟨rfl, rfl⟩
      · cases e
      · cases e
      · cases e
        simp [Dict.get] at hg
  · have hst : partState t0.space split ⟨t.dom, t.metric, t.run⟩ =
        ⟨.dict [(.named split, .table ⟨t.dom, t.metric, t.run⟩)], []⟩ := by
      rw [hm]; unfold partState; cases t0.space <;> rfl
    rw [hst]
    have hat : ∀ r x, At (.dict [(.named split, .table (⟨t.dom, t.metric, t.run⟩ : Leaf))]) r x ↔
        (r = [] ∧ x = none) ∨ (r = [.named split] ∧ x = some ⟨t.dom, t.metric, t.run⟩) := by
      intro r x
      constructor
      · rintro ⟨d, h1, h2⟩
        cases h1 with
        | here => exact .inl ⟨rfl, h2.symm⟩
        | down hm1 h1 =>
          cases List.mem_singleton.1 hm1
          cases h1
          exact .inr ⟨rfl, h2.symm⟩
      · rintro (⟨rfl, rfl⟩ | ⟨rfl, rfl⟩)
        · exact ⟨_, .here _, rfl⟩
        · exact ⟨_, .down (List.mem_singleton.2 rfl) (.here _), rfl⟩
    refine ⟨⟨by simp [Dom.WF, Relation.wfs], (hat _ _).2 (.inl ⟨rfl, rfl⟩), ?_, ?_, ?_⟩, ?_, ?_⟩
    · intro r x h
      rcases (hat r x).1 h with ⟨rfl, rfl⟩ | ⟨rfl, rfl⟩
      · exact .inl ⟨rfl, none, rfl⟩
      · exact .inr ⟨none, .named split, _, rfl, rfl, nofun, by rw [hm]; simp [KindOK, IsIDs]⟩
    · intro r
      constructor
      · intro h; cases h
      · rintro ⟨m, rfl, h⟩
        rcases (hat _ _).1 h with ⟨h, _⟩ | ⟨h, _⟩ <;> cases h
    · intro m r r' x x' h h' e e'
      rcases (hat r x).1 h with ⟨rfl, rfl⟩ | ⟨rfl, rfl⟩
      · cases e
      · rcases (hat r' x').1 h' with ⟨rfl, rfl⟩ | ⟨rfl, rfl⟩
        · cases e'
        · rfl
    · intro m u hg
      rw [Dict.get_cons] at hg
      split at hg
      · next he =>
        cases hg
        subst he
        rw [hs, hcons]
        exact ⟨(hat _ _).2 (.inr ⟨rfl, rfl⟩), by simp [Dict.get]⟩
      · cases hg
    · intro m hg r x h e
      rcases (hat r x).1 h with ⟨rfl, rfl⟩ | ⟨rfl, rfl⟩
      · cases e
      · cases e
        simp [Dict.get] at hg

end Verif.Nested
