import Verif.Nested.Steps

/-!
# C65: compiling a query adds temporary tables and changes nothing else
-/

namespace Verif.Nested

open Verif Verif.Schema Verif.Constraint Verif.Expr Verif.Query
open Verif.Relation (Ident Dom Ref RErr lookupDomain findReference findNamedTables Path UniqueNames EndsWith wfs_mem lookupDomain_iff)

/-! ## Specification -/

/-- The dictionary of the tables of an ID space, or of those without IDs. -/
def place : Option String → Ref
  | none => []
  | some n => [.collection n]

def NotColl (k : Ident) : Prop := ∀ n, k ≠ .collection n

/-- Tables with IDs are in an ID space, all others are not. -/
def KindOK (sp : Option String) (m : Expr.Metric) : Prop := IsIDs m ↔ sp ≠ none

/-- The dictionaries of a session. -/
structure Good (s : State) : Prop where
  wf : s.tree.WF
  root : At s.tree [] none
  shape : ∀ r x, At s.tree r x → (x = none ∧ ∃ sp, r = place sp) ∨
    ∃ sp k l, x = some l ∧ r = place sp ++ [k] ∧ NotColl k ∧ KindOK sp l.metric
  arks : ∀ r, r ∈ s.arks ↔ ∃ n, r = [.collection n] ∧ At s.tree r none
  names : ∀ n r r' x x', At s.tree r x → At s.tree r' x' → EndsWith r n → EndsWith r' n → r = r'

/-- Only temporary tables have been added. -/
structure Ext (s s' : State) : Prop where
  old : ∀ r x, At s.tree r x → At s'.tree r x
  new : ∀ r x, At s'.tree r x → At s.tree r x ∨ ∃ p n, r = p ++ [.temporary n]

/-- The tables of a catalog are where they should be; `ρ` gives their rows. -/
def Srcs (s : State) (cat : Cat) (ρ : Data → Data) : Prop :=
  ∀ id, match Dict.get cat.priv id with
    | none => ∀ r x, At s.tree r x → ¬ EndsWith r id
    | some (sch, _) => At s.tree (place sch.idSpace ++ [.named id])
      (some ⟨analyticsToSparkColumns sch, metricOf sch, fun D => ρ D id⟩)

/-- No table is joined with itself, neither side having been changed in any way. -/
def NoSelfJoin : Expr → Prop
  | .source _ => True
  | .rename e _ => NoSelfJoin e
  | .filter e _ _ => NoSelfJoin e
  | .select e _ => NoSelfJoin e
  | .map e _ _ _ => NoSelfJoin e
  | .flatMap e _ _ _ _ => NoSelfJoin e
  | .flatMapByID e _ _ => NoSelfJoin e
  | .joinPrivate l r _ _ _ => NoSelfJoin l ∧ NoSelfJoin r ∧ ∀ a, l = .source a → r = .source a → False
  | .joinPublic e _ _ _ => NoSelfJoin e
  | .replaceNull e _ => NoSelfJoin e
  | .replaceInf e _ => NoSelfJoin e
  | .dropNull e _ => NoSelfJoin e
  | .dropInf e _ => NoSelfJoin e
  | .enforce e _ => NoSelfJoin e

/-! ## Proofs -/

theorem spaceOf_place (sp : Option String) : spaceOf (place sp) = sp := by cases sp <;> rfl

theorem place_inj {a b : Option String} (h : place a = place b) : a = b := by
  rw [← spaceOf_place a, h, spaceOf_place]

theorem endsWith_temp {p : Ref} {n : Nat} {id : String} : ¬ EndsWith (p ++ [.temporary n]) id := by
  simp [EndsWith]

theorem endsWith_named {p : Ref} {n id : String} : EndsWith (p ++ [.named n]) id ↔ n = id := by
  simp [EndsWith]

theorem Ext.refl (s : State) : Ext s s := ⟨fun _ _ h => h, fun _ _ h => .inl h⟩

theorem Ext.trans {a b c : State} (h : Ext a b) (h' : Ext b c) : Ext a c :=
  ⟨fun r x hx => h'.old r x (h.old r x hx), fun r x hx => by
    rcases h'.new r x hx with h1 | h1
    · exact h.new r x h1
    · exact .inr h1⟩

theorem Srcs.ext {s s' : State} {cat : Cat} {ρ : Data → Data} (h : Srcs s cat ρ) (he : Ext s s') : Srcs s' cat ρ := by
  intro id
  have := h id
  split at this
  · intro r x hx hend
    rcases he.new r x hx with h1 | ⟨p, n, rfl⟩
    · exact this r x h1 hend
    · exact endsWith_temp hend
  · exact he.old _ _ this

theorem leafAt_ok {s : State} (hw : s.tree.WF) {r : Ref} {l : Leaf} : leafAt s r = .ok l ↔ At s.tree r (some l) := by
  unfold leafAt
  constructor
  · intro h
    split at h
    · cases h
    · cases h
    · next h1 => cases h; exact ⟨_, (lookupDomain_iff _ _ _ hw).1 h1, rfl⟩
  · rintro ⟨d, h1, h2⟩
    rw [skel_table h2] at h1
    rw [(lookupDomain_iff _ _ _ hw).2 h1]

theorem find_ok {s : State} (hg : Good s) {r : Ref} {x : Option Leaf} {id : String} (h : At s.tree r x) (he : EndsWith r id) :
    findReference id s.tree = some r := by
  obtain ⟨d, h1, h2⟩ := h
  refine (Relation.C35_exact hg.wf ?_ h1 he).1
  intro n p q d d' hp hq e1 e2
  exact hg.names n p q _ _ ⟨d, hp, rfl⟩ ⟨d', hq, rfl⟩ e1 e2

theorem find_none {s : State} {id : String} : findReference id s.tree = none ↔ ∀ r x, At s.tree r x → ¬ EndsWith r id := by
  rw [Relation.C35_missing]
  constructor
  · rintro h r x ⟨d, h1, _⟩ he
    exact h ⟨r, d, h1, he⟩
  · rintro h ⟨p, d, h1, he⟩
    exact h p _ ⟨d, h1, rfl⟩ he

theorem find_at {s : State} {id : String} {r : Ref} (h : findReference id s.tree = some r) :
    EndsWith r id ∧ ∃ x, At s.tree r x := by
  obtain ⟨h1, d, h2⟩ := Relation.findReference_some id s.tree r h
  exact ⟨h1, _, d, h2, rfl⟩

/-- Where a table is. -/
theorem loc {s : State} (hg : Good s) {r : Ref} {l : Leaf} (h : At s.tree r (some l)) :
    ∃ sp k kvs, r = place sp ++ [k] ∧ Path s.tree (place sp) (.dict kvs) ∧ Dict.get kvs k = some (.table l) ∧
      (kvs.map Prod.fst).Nodup ∧ NotColl k ∧ KindOK sp l.metric := by
  rcases hg.shape r _ h with ⟨h1, _⟩ | ⟨sp, k, l', h1, rfl, h3, h4⟩
  · cases h1
  · cases h1
    obtain ⟨d, h5, h6⟩ := h
    obtain ⟨d', h7, h8⟩ := path_append.1 h5
    cases d' with
    | table _ => cases h8
    | dict kvs =>
      obtain ⟨d2, h9, h10⟩ := path_cons.1 h8
      rw [path_nil] at h10
      subst h10
      have hw := path_wf hg.wf h7
      rw [Dom.WF] at hw
      rw [skel_table h6] at h9
      exact ⟨sp, k, kvs, rfl, h7, (Dict.get_eq_some hw.1).2 h9, hw.1, h3, h4⟩

/-- A generator is applied to the dictionary it is meant for. -/
theorem nested_eq {α : Type} {s : State} (hg : Good s) {sp : Option String} {kvs : Entries}
    (hp : Path s.tree (place sp) (.dict kvs)) (g : Gens α) (target : Ident) :
    nested s (place sp) g target =
      match (match sp with | none => g.dict | some _ => g.ark) with
      | none => .error .value
      | some gen =>
        match gen kvs target with
        | .error e => .error e
        | .ok (kvs', x) => .ok (⟨setAt (place sp) (.dict kvs') s.tree, s.arks⟩, place sp ++ [target], x) := by
  have hnil : ([] : Ref) ∉ s.arks := by
    intro h
    obtain ⟨n, h1, _⟩ := (hg.arks _).1 h
    cases h1
  have hroot : ∃ K, lookupDomain s.tree [] = .ok (.dict K) := by
    obtain ⟨d, h1, h2⟩ := hg.root
    obtain ⟨K, rfl⟩ := skel_dict h2
    exact ⟨K, (lookupDomain_iff _ _ _ hg.wf).2 h1⟩
  unfold nested
  rw [(lookupDomain_iff _ _ _ hg.wf).2 hp]
  cases sp with
  | none =>
    have hanc : ancestorsOK s (place none) = true := by simp [ancestorsOK, place]
    rw [hanc]
    dsimp only [place]
    simp only [hnil, if_false, if_true]
    cases g.dict with
    | none => rfl
    | some gen =>
      dsimp only
      cases gen kvs target with
      | error e => rfl
      | ok y => rfl
  | some n =>
    have hin : place (some n) ∈ s.arks := (hg.arks _).2 ⟨n, rfl, _, hp, rfl⟩
    have hanc : ancestorsOK s (place (some n)) = true := by
      obtain ⟨K, hK⟩ := hroot
      simp [ancestorsOK, place, hK, hnil]
    rw [hanc]
    dsimp only
    simp only [hin, if_true]
    cases g.ark with
    | none => rfl
    | some gen =>
      dsimp only
      cases gen kvs target with
      | error e => rfl
      | ok y => rfl

theorem nested_both {α : Type} {s : State} (hg : Good s) {sp : Option String} {kvs : Entries}
    (hp : Path s.tree (place sp) (.dict kvs)) (gen : Gen α) (target : Ident) :
    nested s (place sp) ⟨some gen, some gen⟩ target =
      match gen kvs target with
      | .error e => .error e
      | .ok (kvs', x) => .ok (⟨setAt (place sp) (.dict kvs') s.tree, s.arks⟩, place sp ++ [target], x) := by
  rw [nested_eq hg hp]
  cases sp <;> rfl

/-- Adding tables. -/
theorem good_add {s : State} (hg : Good s) {sp : Option String} {kvs : Entries} (hp : Path s.tree (place sp) (.dict kvs))
    (new : List (Ident × Leaf)) (hn : (new.map Prod.fst).Nodup) (hk : ∀ k l, (k, l) ∈ new → k ∉ Dict.keys kvs ∧ NotColl k ∧
      KindOK sp l.metric ∧ ∀ n, k = .named n → ∀ r x, At s.tree r x → ¬ EndsWith r n) :
    Good ⟨setAt (place sp) (.dict (kvs ++ new.map (fun q => (q.1, .table q.2)))) s.tree, s.arks⟩ := by
  have hat := fun r x => at_add hg.wf hp new (r := r) (x := x)
  have hw := path_wf hg.wf hp
  rw [Dom.WF] at hw
  refine ⟨wf_setAt ?_ hg.wf, (hat _ _).2 (.inl hg.root), ?_, ?_, ?_⟩
  · rw [Dom.WF]
    refine ⟨?_, wfs_iff.2 ?_⟩
    · rw [List.map_append, List.map_map]
      refine List.Nodup.append hw.1 hn ?_
      intro k h1 h2
      obtain ⟨⟨k', l⟩, h3, rfl⟩ := List.mem_map.1 h2
      exact (hk _ _ h3).1 h1
    · intro k d hm
      rcases List.mem_append.1 hm with hm | hm
      · exact wfs_mem hw.2 hm
      · obtain ⟨q, _, h2⟩ := List.mem_map.1 hm
        cases h2
        trivial
  · intro r x h
    rcases (hat r x).1 h with h | ⟨k, l, h1, h2, h3⟩
    · exact hg.shape r x h
    · exact .inr ⟨sp, k, l, h3, h2, (hk k l h1).2.1, (hk k l h1).2.2.1⟩
  · intro r
    rw [hg.arks]
    constructor
    · rintro ⟨n, h1, h2⟩
      exact ⟨n, h1, (hat _ _).2 (.inl h2)⟩
    · rintro ⟨n, h1, h2⟩
      rcases (hat _ _).1 h2 with h2 | ⟨k, l, _, _, h3⟩
      · exact ⟨n, h1, h2⟩
      · cases h3
  · intro n r r' x x' h h' e e'
    rcases (hat r x).1 h with h | ⟨k, l, h1, h2, h3⟩ <;> rcases (hat r' x').1 h' with h' | ⟨k', l', h1', h2', h3'⟩
    · exact hg.names n r r' x x' h h' e e'
    · subst h2'
      have : k' = .named n := by simpa [EndsWith] using e'
      exact absurd e ((hk k' l' h1').2.2.2 n this r x h)
    · subst h2
      have : k = .named n := by simpa [EndsWith] using e
      exact absurd e' ((hk k l h1).2.2.2 n this r' x' h')
    · subst h2 h2'
      have e1 : k = .named n := by simpa [EndsWith] using e
      have e2 : k' = .named n := by simpa [EndsWith] using e'
      rw [e1, e2]

theorem temp_new {s : State} {p : Ref} {kvs : Entries} (hp : Path s.tree p (.dict kvs)) {n : Nat} (h : n ∉ temps s.tree) :
    Ident.temporary n ∉ Dict.keys kvs := by
  intro h1
  obtain ⟨d, h2⟩ := Dict.mem_keys.1 h1
  exact h (temps_at (p := p) (x := skel d) ⟨d, path_append.2 ⟨_, hp, .down h2 (.here _)⟩, rfl⟩)

theorem notColl_temp (n : Nat) : NotColl (.temporary n) := nofun

theorem addEntry_ok {kvs : Entries} {k : Ident} (h : k ∉ Dict.keys kvs) (l : Leaf) :
    addEntry kvs k l = .ok (kvs ++ [(k, .table l)]) := if_neg h

/-- What a visitor method does. -/
theorem apply_ok {core : Core} (hc : core.Lawful) {st : Step} {f : Out → Except PyErr Out} (hf : Local f) (hark : st.ark = some f)
    (hdict : st.dict = some f ∨ (st.dict = none ∧ ∀ o : Out, ¬ IsIDs o.metric → f o = .error .value))
    (hmid : ∀ o x, st.mid o = some x → x.metric = o.metric) {s : State} (hg : Good s) {sp : Option String} {k : Ident}
    {l : Leaf} (hl : At s.tree (place sp ++ [k]) (some l)) (cons : List Constraint) :
    match f (l.out sp cons) with
    | .error e => apply core st (s, place sp ++ [k], cons) = .error e
    | .ok o => ∃ s' n, apply core st (s, place sp ++ [k], cons) = .ok (s', place sp ++ [.temporary n], o.cons) ∧ Good s' ∧
        Ext s s' ∧ At s'.tree (place sp ++ [.temporary n]) (some (leafOf o)) ∧ n ∉ temps s.tree := by
  obtain ⟨sp', k', kvs, h1, hp, hget, hnd, hk, hkind⟩ := loc hg hl
  have hsp : place sp = place sp' := by
    have := congrArg List.dropLast h1
    simpa using this
  have := place_inj hsp; subst this
  have hkk : k' = k := by
    have := List.append_cancel_left h1
    cases this; rfl
  subst hkk
  have hfresh := hc (temps s.tree)
  have hfresh2 := hc (core.fresh (temps s.tree) :: temps s.tree)
  set n := core.fresh (temps s.tree) with hn
  have hstart : apply core st (s, place sp ++ [k'], cons) =
      nested s (place sp) ⟨st.dict.map (fun f => stepGen core (n :: temps s.tree) k' sp cons f (fun _ => none)),
        st.ark.map (fun f => stepGen core (n :: temps s.tree) k' sp cons f st.mid)⟩ (.temporary n) := by
    unfold apply
    dsimp only
    rw [(leafAt_ok hg.wf).2 hl]
    simp only [List.getLast?_append, List.getLast?_singleton, Option.some_or, List.dropLast_concat, spaceOf_place]
    rfl
  rw [nested_eq hg hp] at hstart
  have hgen : ∀ mid : Out → Option Leaf, (∀ o x, mid o = some x → x.metric = o.metric) →
      match f (l.out sp cons) with
      | .error e => stepGen core (n :: temps s.tree) k' sp cons f mid kvs (.temporary n) = .error e
      | .ok o => ∃ new : List (Ident × Leaf), stepGen core (n :: temps s.tree) k' sp cons f mid kvs (.temporary n) =
          .ok (kvs ++ new.map (fun q => (q.1, .table q.2)), o.cons) ∧ (new.map Prod.fst).Nodup ∧
          (∀ k x, (k, x) ∈ new → k ∉ Dict.keys kvs ∧ (∃ m, k = .temporary m) ∧ KindOK sp x.metric) ∧
          (.temporary n, leafOf o) ∈ new := by
    intro mid hmid'
    unfold stepGen
    rw [hget]
    dsimp only
    cases ho : f (l.out sp cons) with
    | error e => rfl
    | ok o =>
      dsimp only
      have ht := temp_new hp hfresh
      have hkf : KindOK sp o.metric := (hf.ids _ _ ho).trans hkind
      cases hm : mid (l.out sp cons) with
      | none =>
        refine ⟨[(.temporary n, leafOf o)], ?_, by simp, ?_, by simp⟩
        · dsimp only
          rw [addEntry_ok ht]; rfl
        · intro k x hx
          simp only [List.mem_singleton, Prod.mk.injEq] at hx
          obtain ⟨rfl, rfl⟩ := hx
          exact ⟨ht, ⟨n, rfl⟩, hkf⟩
      | some x =>
        rw [List.mem_cons, not_or] at hfresh2
        have ht2 := temp_new hp hfresh2.2
        set m := core.fresh (n :: temps s.tree)
        refine ⟨[(.temporary m, x), (.temporary n, leafOf o)], ?_, ?_, ?_, by simp⟩
        · dsimp only
          rw [addEntry_ok ht2]
          dsimp only
          rw [addEntry_ok]
          · simp [Except.map]
          · rw [Dict.keys_append, List.mem_append, not_or]
            refine ⟨ht, ?_⟩
            simp only [Dict.keys, List.map_cons, List.map_nil, List.mem_singleton, Ident.temporary.injEq]
            exact fun h => hfresh2.1 h.symm
        · simp [hfresh2.1]
        · intro k y hy
          simp only [List.mem_cons, Prod.mk.injEq, List.not_mem_nil, or_false] at hy
          rcases hy with ⟨rfl, rfl⟩ | ⟨rfl, rfl⟩
          · refine ⟨ht2, ⟨m, rfl⟩, ?_⟩
            rw [hmid' _ _ hm]
            exact hkind
          · exact ⟨ht, ⟨n, rfl⟩, hkf⟩
  have main : ∀ mid : Out → Option Leaf, (∀ o x, mid o = some x → x.metric = o.metric) →
      apply core st (s, place sp ++ [k'], cons) =
        (match stepGen core (n :: temps s.tree) k' sp cons f mid kvs (.temporary n) with
        | .error e => .error e
        | .ok (kvs', x) => .ok (⟨setAt (place sp) (.dict kvs') s.tree, s.arks⟩, place sp ++ [.temporary n], x)) →
      match f (l.out sp cons) with
      | .error e => apply core st (s, place sp ++ [k'], cons) = .error e
      | .ok o => ∃ s' n, apply core st (s, place sp ++ [k'], cons) = .ok (s', place sp ++ [.temporary n], o.cons) ∧ Good s' ∧
          Ext s s' ∧ At s'.tree (place sp ++ [.temporary n]) (some (leafOf o)) ∧ n ∉ temps s.tree := by
    intro mid hmid' heq
    have := hgen mid hmid'
    cases ho : f (l.out sp cons) with
    | error e =>
      rw [ho] at this
      dsimp only at this ⊢
      rw [heq, this]
    | ok o =>
      rw [ho] at this
      dsimp only at this ⊢
      obtain ⟨new, g1, g2, g3, g4⟩ := this
      rw [heq, g1]
      have hat := fun r x => at_add hg.wf hp new (r := r) (x := x)
      refine ⟨_, n, rfl, good_add hg hp new g2 ?_, ⟨fun r x h => (hat r x).2 (.inl h), fun r x h => ?_⟩, ?_, hfresh⟩
      · intro k x hx
        obtain ⟨a1, ⟨m, rfl⟩, a3⟩ := g3 k x hx
        exact ⟨a1, notColl_temp m, a3, nofun⟩
      · rcases (hat r x).1 h with h | ⟨k, y, h1, h2, _⟩
        · exact .inl h
        · obtain ⟨_, ⟨m, rfl⟩, _⟩ := g3 k y h1
          exact .inr ⟨_, m, h2⟩
      · exact (hat _ _).2 (.inr ⟨_, _, g4, rfl, rfl⟩)
  cases sp with
  | some a =>
    refine main st.mid hmid ?_
    rw [hstart, hark]
    dsimp only [Option.map]
    cases stepGen core (n :: temps s.tree) k' (some a) cons f st.mid kvs (.temporary n) <;> rfl
  | none =>
    rcases hdict with hd | ⟨hd, hv⟩
    · refine main (fun _ => none) (by simp) ?_
      rw [hstart, hd]
      dsimp only [Option.map]
      cases stepGen core (n :: temps s.tree) k' none cons f (fun _ => none) kvs (.temporary n) <;> rfl
    · rw [hv _ (fun h => (hkind.1 h) rfl)]
      dsimp only
      rw [hstart, hd]
      rfl

/-- What compiling a query should do. -/
def Spec (core : Core) (h : Hash) (cat : Cat) (ρ : Data → Data) (s : State) (e : Expr) : Prop :=
  match compile h cat e with
  | .error x => visit core h cat e s = .error x
  | .ok o => ∃ s' k, visit core h cat e s = .ok (s', place o.space ++ [k], o.cons) ∧ Good s' ∧ Ext s s' ∧
      At s'.tree (place o.space ++ [k]) (some (leafOf (pre ρ o))) ∧
      ((∃ id, k = .named id ∧ e = .source id ∧ s' = s) ∨ ∃ n, k = .temporary n ∧ ∀ p x, ¬ At s.tree (p ++ [.temporary n]) x)

theorem not_at {s s' : State} (he : Ext s s') {n : Nat} (h : n ∉ temps s'.tree) (p : Ref) (x : Option Leaf) :
    ¬ At s.tree (p ++ [.temporary n]) x := fun h1 => h (temps_at (he.old _ _ h1))

theorem spec_step {core : Core} (hc : core.Lawful) {h : Hash} {cat : Cat} {ρ : Data → Data} {s : State} {e e' : Expr}
    (he : Spec core h cat ρ s e) {st : Step} {f : Out → Except PyErr Out} (hf : Local f) (hark : st.ark = some f)
    (hdict : st.dict = some f ∨ (st.dict = none ∧ ∀ o : Out, ¬ IsIDs o.metric → f o = .error .value))
    (hmid : ∀ o x, st.mid o = some x → x.metric = o.metric)
    (h1 : compile h cat e' = (compile h cat e).bind f)
    (h2 : visit core h cat e' s = (visit core h cat e s).bind (apply core st)) : Spec core h cat ρ s e' := by
  unfold Spec at he ⊢
  rw [h1]
  cases ho : compile h cat e with
  | error x =>
    rw [ho] at he
    dsimp only [Except.bind] at he ⊢
    rw [h2, he]
    rfl
  | ok o =>
    rw [ho] at he
    dsimp only [Except.bind] at he ⊢
    obtain ⟨s', k, hv, hg, hext, hat, hk⟩ := he
    have := apply_ok hc hf hark hdict hmid hg hat o.cons
    have heq : (leafOf (pre ρ o)).out o.space o.cons = pre ρ o := rfl
    rw [heq, hf.pre] at this
    cases hfo : f o with
    | error x =>
      rw [hfo] at this
      dsimp only [Except.map] at this ⊢
      rw [h2, hv]
      exact this
    | ok o' =>
      rw [hfo] at this
      dsimp only [Except.map] at this ⊢
      obtain ⟨s2, n, g1, g2, g3, g4, g5⟩ := this
      have hsp := hf.space _ _ hfo
      rw [h2, hv, hsp]
      exact ⟨s2, .temporary n, g1, g2, hext.trans g3, g4, .inr ⟨n, rfl, not_at hext g5⟩⟩

theorem applyJoin_ok {core : Core} (hc : core.Lawful) {h : Hash} {tl tr : Option Trunc} {cols : Option (List String)}
    {s : State} (hg : Good s) {l r : Out} {lk rk : Ident} (hl : At s.tree (place l.space ++ [lk]) (some (leafOf l)))
    (hr : At s.tree (place r.space ++ [rk]) (some (leafOf r))) (hne : core.selfJoin = true ∨ lk ≠ rk) :
    match visitJoinPrivate h tl tr cols l r with
    | .error e => applyJoin core h tl tr cols (place l.space ++ [lk]) l.cons (s, place r.space ++ [rk], r.cons) = .error e
    | .ok o => ∃ s' n, applyJoin core h tl tr cols (place l.space ++ [lk]) l.cons (s, place r.space ++ [rk], r.cons) =
          .ok (s', place o.space ++ [.temporary n], o.cons) ∧ Good s' ∧ Ext s s' ∧
        At s'.tree (place o.space ++ [.temporary n]) (some (leafOf o)) ∧ n ∉ temps s.tree := by
  unfold applyJoin
  simp only [List.dropLast_concat]
  by_cases hsp : l.space = r.space
  case neg =>
    have h1 : visitJoinPrivate h tl tr cols l r = .error .value := by
      simp only [visitJoinPrivate]
      rw [if_pos hsp]
    rw [h1, if_pos (fun h => hsp (place_inj h))]
  rw [if_neg (by rw [hsp]; exact fun h => h rfl)]
  rw [(leafAt_ok hg.wf).2 hl, (leafAt_ok hg.wf).2 hr]
  simp only [List.getLast?_append, List.getLast?_singleton, Option.some_or, spaceOf_place]
  obtain ⟨sp1, k1, kvs, e1, hp, hget, -, -, hkind⟩ := loc hg hl
  obtain ⟨sp2, k2, kvs2, e2, hp2, hget2, -, -, -⟩ := loc hg hr
  have a1 : place l.space = place sp1 := by simpa using congrArg List.dropLast e1
  have a2 : place r.space = place sp2 := by simpa using congrArg List.dropLast e2
  have := place_inj a1; subst this
  have := place_inj a2; subst this
  have := List.append_cancel_left e1; cases this
  have := List.append_cancel_left e2; cases this
  rw [← hsp] at hp2
  have := path_unique hg.wf hp hp2; cases this
  have hfresh := hc (temps s.tree)
  rw [← hsp, nested_both hg hp]
  have hjg : joinGen core h tl tr cols lk rk l.space l.cons r.cons kvs (newTemp core s) =
      match visitJoinPrivate h tl tr cols l r with
      | .error e => .error e
      | .ok o => .ok (kvs ++ [(newTemp core s, .table (leafOf o))], o.cons) := by
    unfold joinGen
    rw [hget, hget2]
    dsimp only
    rw [if_neg (by rintro ⟨a, b⟩; rcases hne with h1 | h1; rw [h1] at b; cases b; exact h1 a)]
    have q1 : (leafOf l).out l.space l.cons = l := rfl
    have q2 : (leafOf r).out l.space r.cons = r := by rw [hsp]; rfl
    rw [q1, q2]
    cases visitJoinPrivate h tl tr cols l r with
    | error e => rfl
    | ok o =>
      dsimp only
      rw [addEntry_ok (k := newTemp core s) (temp_new hp hfresh)]
      rfl
  rw [hjg]
  cases ho : visitJoinPrivate h tl tr cols l r with
  | error e => rfl
  | ok o =>
    dsimp only
    obtain ⟨-, b2, b3⟩ := join_keep ho
    have hat := fun r x => at_add hg.wf hp [(newTemp core s, leafOf o)] (r := r) (x := x)
    rw [b2]
    refine ⟨_, _, rfl, good_add hg hp [(newTemp core s, leafOf o)] (by simp) ?_,
      ⟨fun r x h => (hat r x).2 (.inl h), fun r x h => ?_⟩, ?_, hfresh⟩
    · intro k x hx
      simp only [List.mem_singleton, Prod.mk.injEq] at hx
      obtain ⟨rfl, rfl⟩ := hx
      exact ⟨temp_new hp hfresh, notColl_temp _, b3.trans hkind, nofun⟩
    · rcases (hat r x).1 h with h | ⟨k, y, h1, h2, _⟩
      · exact .inl h
      · simp only [List.mem_singleton, Prod.mk.injEq] at h1
        obtain ⟨rfl, rfl⟩ := h1
        exact .inr ⟨_, _, h2⟩
    · exact (hat _ _).2 (.inr ⟨_, _, List.mem_singleton.2 rfl, rfl, rfl⟩)

theorem midReplace_metric {w : Dict String Value} {o : Out} {x : Leaf} (h : midReplace w o = some x) : x.metric = o.metric := by
  unfold midReplace at h
  split at h
  · cases h
  · split at h
    · cases h
    · cases h; rfl

theorem midDrop_metric {w : List String} {o : Out} {x : Leaf} (h : midDrop w o = some x) : x.metric = o.metric := by
  unfold midDrop at h
  dsimp only at h
  split at h
  · cases h
  · cases h; rfl

theorem byID_ids (f : List Row → List Row) (new : Schema) (o : Out) (h : ¬ IsIDs o.metric) :
    visitFlatMapByID f new o = .error .value := by
  unfold visitFlatMapByID
  split
  · next i hi => exact absurd ⟨i, hi⟩ h
  · rfl

theorem enforce_ids (hh : Hash) (c : Constraint) (o : Out) (h : ¬ IsIDs o.metric) : visitEnforce hh c o = .error .value := by
  unfold visitEnforce
  split
  · next i hi => exact absurd ⟨i, hi⟩ h
  · rfl

theorem spec_both {core : Core} (hc : core.Lawful) {h : Hash} {cat : Cat} {ρ : Data → Data} {s : State} {e e' : Expr}
    (he : Spec core h cat ρ s e) {f : Out → Except PyErr Out} (hf : Local f)
    (h1 : compile h cat e' = (compile h cat e).bind f)
    (h2 : visit core h cat e' s = (visit core h cat e s).bind (apply core (.both f))) : Spec core h cat ρ s e' :=
  spec_step hc he hf rfl (.inl rfl) (fun _ _ h => by cases h) h1 h2

/-- Compiling a query. -/
theorem visit_spec {core : Core} (hc : core.Lawful) {h : Hash} {cat : Cat} {ρ : Data → Data} :
    (e : Expr) → (core.selfJoin = true ∨ NoSelfJoin e) → {s : State} → Good s → Srcs s cat ρ → Spec core h cat ρ s e
  | .source id, _, s, hg, hs => by
    unfold Spec
    have hid := hs id
    simp only [compile, visitSource, visit]
    cases hget : Dict.get cat.priv id with
    | none =>
      rw [hget] at hid
      dsimp only at hid ⊢
      rw [find_none.2 hid]
    | some x =>
      obtain ⟨sch, cs⟩ := x
      rw [hget] at hid
      dsimp only at hid ⊢
      rw [find_ok hg hid (endsWith_named.2 rfl)]
      exact ⟨s, .named id, rfl, hg, .refl s, hid, .inl ⟨id, rfl, rfl, rfl⟩⟩
  | .rename e m, hj, s, hg, hs =>
    spec_both hc (visit_spec hc e hj hg hs) (local_rename m) rfl (by rw [visit])
  | .filter e _ c, hj, s, hg, hs =>
    spec_both hc (visit_spec hc e hj hg hs) (local_filter c) rfl (by rw [visit])
  | .select e c, hj, s, hg, hs =>
    spec_both hc (visit_spec hc e hj hg hs) (local_select c) rfl (by rw [visit])
  | .map e f new a, hj, s, hg, hs =>
    spec_both hc (visit_spec hc e hj hg hs) (local_map f new a) rfl (by rw [visit])
  | .flatMap e f new a n, hj, s, hg, hs =>
    spec_both hc (visit_spec hc e hj hg hs) (local_flatMap f new a n) rfl (by rw [visit])
  | .flatMapByID e f new, hj, s, hg, hs =>
    spec_step (st := ⟨none, some (visitFlatMapByID f new), fun _ => none⟩) hc
      (visit_spec hc e hj hg hs) (local_flatMapByID f new) rfl (.inr ⟨rfl, byID_ids f new⟩) (fun _ _ h => by cases h) rfl
      (by rw [visit])
  | .joinPublic e p c how, hj, s, hg, hs =>
    spec_both hc (visit_spec hc e hj hg hs) (local_joinPublic cat p c how) rfl (by rw [visit])
  | .replaceNull e w, hj, s, hg, hs =>
    spec_step (st := ⟨some (visitReplaceNull w), some (visitReplaceNull w), midReplace w⟩) hc
      (visit_spec hc e hj hg hs) (local_replaceNull w) rfl (.inl rfl) (fun _ _ => midReplace_metric) rfl
      (by rw [visit])
  | .replaceInf e w, hj, s, hg, hs =>
    spec_both hc (visit_spec hc e hj hg hs) (local_replaceInf w) rfl (by rw [visit])
  | .dropNull e c, hj, s, hg, hs =>
    spec_step (st := ⟨some (visitDropNull c), some (visitDropNull c), midDrop c⟩) hc
      (visit_spec hc e hj hg hs) (local_dropNull c) rfl (.inl rfl) (fun _ _ => midDrop_metric) rfl
      (by rw [visit])
  | .dropInf e c, hj, s, hg, hs =>
    spec_both hc (visit_spec hc e hj hg hs) (local_dropInf c) rfl (by rw [visit])
  | .enforce e c, hj, s, hg, hs =>
    spec_step (st := ⟨none, some (visitEnforce h c), fun _ => none⟩) hc
      (visit_spec hc e hj hg hs) (local_enforce h c) rfl (.inr ⟨rfl, enforce_ids h c⟩) (fun _ _ h => by cases h) rfl
      (by rw [visit])
  | .joinPrivate l r tl tr cols, hj, s, hg, hs => by
    have hl := visit_spec (h := h) hc l (hj.imp_right (fun h => h.1)) hg hs
    unfold Spec at hl ⊢
    rw [compile, visit]
    cases hcl : compile h cat l with
    | error x =>
      rw [hcl] at hl
      dsimp only [Except.bind] at hl ⊢
      rw [hl]
    | ok ol =>
      rw [hcl] at hl
      dsimp only [Except.bind] at hl ⊢
      obtain ⟨s1, k1, v1, g1, x1, a1, n1⟩ := hl
      rw [v1]
      dsimp only
      have hr := visit_spec (h := h) hc r (hj.imp_right (fun h => h.2.1)) g1 (hs.ext x1)
      unfold Spec at hr
      cases hcr : compile h cat r with
      | error x =>
        rw [hcr] at hr
        dsimp only at hr ⊢
        rw [hr]
      | ok or =>
        rw [hcr] at hr
        dsimp only at hr ⊢
        obtain ⟨s2, k2, v2, g2, x2, a2, n2⟩ := hr
        rw [v2]
        dsimp only
        have hne : core.selfJoin = true ∨ k1 ≠ k2 := by
          rcases hj with hj | ⟨-, -, hj⟩
          · exact .inl hj
          refine .inr ?_
          rintro rfl
          rcases n1 with ⟨i, rfl, e1, _⟩ | ⟨n, rfl, _⟩ <;> rcases n2 with ⟨i', h3, e2, _⟩ | ⟨n', h3, e2⟩ <;> cases h3
          · exact hj i e1 e2
          · exact e2 _ _ a1
        have := applyJoin_ok hc (h := h) (tl := tl) (tr := tr) (cols := cols) g2 (l := pre ρ ol) (r := pre ρ or)
          (x2.old _ _ a1) a2 hne
        rw [join_pre] at this
        cases hvj : visitJoinPrivate h tl tr cols ol or with
        | error e =>
          rw [hvj] at this
          exact this
        | ok o =>
          rw [hvj] at this
          dsimp only [Except.map] at this ⊢
          obtain ⟨s3, n, q1, q2, q3, q4, q5⟩ := this
          exact ⟨s3, .temporary n, q1, q2, (x1.trans x2).trans q3, q4,
            .inr ⟨n, rfl, not_at (x1.trans x2) q5⟩⟩

end Verif.Nested
