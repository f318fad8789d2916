import Verif.Relation.Cover
import Mathlib.Data.List.Pairwise

/-!
# C33: relations generated from protected changes
-/

namespace Verif.Relation

open Verif
open Verif.Schema (SparkType Field Frame SparkDesc PyErr)

/-! ## Specification -/

/-- The tables, without their protected changes. -/
def frames (sources : Sources) : Tables := sources.map (fun p => (p.1, p.2.1))

/-- The tables of an ID space with their ID columns. -/
def idTables (s : String) (sources : Sources) : Dict String String :=
  sources.filterMap (fun p =>
    match p.2.2 with
    | .rowsWithID c s' => if s' = s then some (p.1, c) else none
    | _ => none)

/-- The relation of a table that is protected by itself. -/
def direct (p : String × Frame × Change) : Option Relation :=
  match p.2.2 with
  | .maxRows n => some (.rows p.1 n)
  | .maxRowsInMaxGroups c g r => some (.groups p.1 c g r)
  | _ => none

/-- How core addresses a relation. -/
def idOf : Relation → Ident
  | .rows t _ => .named t
  | .groups t _ _ _ => .named t
  | .keys s _ _ => .collection s
  | .conj _ => .temporary 0

/-! ## Proofs -/

def IdsInv (done : Sources) (ids : Dict String (Dict String String)) : Prop :=
  Dict.WF ids ∧ ∀ s m, Dict.get ids s = some m ↔ m = idTables s done ∧ m ≠ []

theorem idTables_append (s : String) (a b : Sources) : idTables s (a ++ b) = idTables s a ++ idTables s b := by
  simp [idTables]

theorem mem_idTables {s n c : String} {sources : Sources} :
    (n, c) ∈ idTables s sources ↔ ∃ df, (n, df, Change.rowsWithID c s) ∈ sources := by
  unfold idTables
  rw [List.mem_filterMap]
  constructor
  · rintro ⟨⟨n', df, ch⟩, hm, h⟩
    cases ch with
    | rowsWithID c' s' =>
      dsimp only at h
      by_cases hs : s' = s
      · rw [if_pos hs] at h
        cases h
        exact ⟨df, hs ▸ hm⟩
      · rw [if_neg hs] at h
        cases h
    | _ => cases h
  · rintro ⟨df, hm⟩
    exact ⟨_, hm, by simp⟩

theorem idTables_names {s : String} {sources : Sources} {n : String} (h : n ∈ Dict.keys (idTables s sources)) :
    n ∈ Dict.keys sources := by
  obtain ⟨c, hc⟩ := Dict.mem_keys.1 h
  obtain ⟨df, hm⟩ := mem_idTables.1 hc
  exact Dict.mem_keys.2 ⟨_, hm⟩

theorem idTables_wf {s : String} {sources : Sources} (hw : Dict.WF sources) : Dict.WF (idTables s sources) := by
  have : (idTables s sources).map Prod.fst = (sources.filter (fun p =>
      match p.2.2 with | .rowsWithID _ s' => decide (s' = s) | _ => false)).map Prod.fst := by
    unfold idTables
    induction sources with
    | nil => rfl
    | cons x xs ih =>
      unfold Dict.WF at hw
      rw [List.map_cons, List.nodup_cons] at hw
      have ih' := ih hw.2
      obtain ⟨n, df, ch⟩ := x
      cases ch with
      | rowsWithID c s' =>
        by_cases hs : s' = s
        · simp [hs] at ih' ⊢
          exact ih'
        · simp [hs] at ih' ⊢
          exact ih'
      | _ => simpa using ih'
  unfold Dict.WF
  rw [this]
  exact (List.filter_sublist.map _).nodup hw

theorem genLoop_ok : ∀ (rest done : Sources) (rels : List Relation) (ids : Dict String (Dict String String)),
    Dict.WF (done ++ rest) → (∀ p ∈ rest, p.2.2 ≠ .other) → IdsInv done ids →
    ∃ ids', genLoop rest rels ids = .ok (rels ++ rest.filterMap direct, ids') ∧ IdsInv (done ++ rest) ids'
  | [], done, rels, ids, _, _, hi => ⟨ids, by simp [genLoop], by simpa using hi⟩
  | (name, df, ch) :: rest, done, rels, ids, hw, ho, hi => by
    have ho' : ∀ p ∈ rest, p.2.2 ≠ .other := fun p hp => ho p (List.mem_cons_of_mem _ hp)
    have hw' : Dict.WF (done ++ [(name, df, ch)] ++ rest) := by simpa using hw
    have he : done ++ [(name, df, ch)] ++ rest = done ++ (name, df, ch) :: rest := by simp
    cases ch with
    | other => exact absurd rfl (ho (name, df, .other) (by simp))
    | maxRows n =>
      have hi' : IdsInv (done ++ [(name, df, .maxRows n)]) ids := by
        refine ⟨hi.1, fun s m => ?_⟩
        rw [hi.2, idTables_append]
        simp [idTables]
      obtain ⟨ids', h1, h2⟩ := genLoop_ok rest _ (rels ++ [.rows name n]) ids hw' ho' hi'
      exact ⟨ids', by rw [genLoop, h1]; simp [direct], he ▸ h2⟩
    | maxRowsInMaxGroups c g r =>
      have hi' : IdsInv (done ++ [(name, df, .maxRowsInMaxGroups c g r)]) ids := by
        refine ⟨hi.1, fun s m => ?_⟩
        rw [hi.2, idTables_append]
        simp [idTables]
      obtain ⟨ids', h1, h2⟩ := genLoop_ok rest _ (rels ++ [.groups name c g r]) ids hw' ho' hi'
      exact ⟨ids', by rw [genLoop, h1]; simp [direct], he ▸ h2⟩
    | rowsWithID c s =>
      have hold : (Dict.get ids s).getD [] = idTables s done := by
        cases hg : Dict.get ids s with
        | some m => exact ((hi.2 s m).1 hg).1
        | none =>
          by_cases hne : idTables s done = []
          · rw [hne]; rfl
          · have := (hi.2 s _).2 ⟨rfl, hne⟩
            rw [hg] at this
            cases this
      have hnew : name ∉ Dict.keys (idTables s done) := by
        intro hk
        have hk' := idTables_names hk
        unfold Dict.WF at hw
        rw [List.map_append, List.nodup_append] at hw
        exact hw.2.2 name hk' name (by simp) rfl
      have hi' : IdsInv (done ++ [(name, df, .rowsWithID c s)])
          (Dict.set ids s (Dict.set ((Dict.get ids s).getD []) name c)) := by
        rw [hold, Dict.set_new hnew]
        refine ⟨Dict.wf_set hi.1 _ _, fun s' m => ?_⟩
        rw [Dict.get_set, idTables_append]
        by_cases hs : s' = s
        · subst hs
          rw [if_pos rfl]
          have e : idTables s' [(name, df, .rowsWithID c s')] = [(name, c)] := by simp [idTables]
          rw [e]
          constructor
          · intro h
            cases h
            simp
          · rintro ⟨rfl, _⟩
            rfl
        · rw [if_neg hs, hi.2]
          have e : idTables s' [(name, df, .rowsWithID c s)] = [] := by simp [idTables, Ne.symm hs]
          rw [e, List.append_nil]
      obtain ⟨ids', h1, h2⟩ := genLoop_ok rest _ rels _ hw' ho' hi'
      exact ⟨ids', by rw [genLoop, h1, List.filterMap_cons]; rfl, he ▸ h2⟩

theorem genLoop_other : ∀ (sources : Sources) rels ids, (∃ p ∈ sources, p.2.2 = .other) →
    genLoop sources rels ids = .error .value
  | [], _, _, h => by simp at h
  | (name, df, ch) :: rest, rels, ids, h => by
    cases ch with
    | other => rw [genLoop]
    | maxRows n => rw [genLoop]; exact genLoop_other rest _ _ (by simpa using h)
    | maxRowsInMaxGroups c g r => rw [genLoop]; exact genLoop_other rest _ _ (by simpa using h)
    | rowsWithID c s => rw [genLoop]; exact genLoop_other rest _ _ (by simpa using h)

theorem genKeys_ok : ∀ (ids : Dict String (Dict String String)), (∀ p ∈ ids, p.1 ≠ "" ∧ p.2 ≠ []) →
    genKeys ids = .ok (ids.map (fun p => Relation.keys p.1 p.2 1))
  | [], _ => rfl
  | (s, m) :: rest, h => by
    have h1 := h (s, m) (by simp)
    rw [genKeys, mkKeys, if_neg h1.1, if_neg h1.2, if_neg (by decide),
      genKeys_ok rest (fun p hp => h p (List.mem_cons_of_mem _ hp))]
    rfl

theorem flattens_simple : ∀ {cs : List Relation}, (∀ c ∈ cs, c.Simple) → flattens cs = cs
  | [], _ => by rw [flattens]
  | c :: cs, h => by
    rw [flattens, flattens_simple (fun x hx => h x (List.mem_cons_of_mem _ hx))]
    have := h c (by simp)
    cases c with
    | conj => exact absurd this id
    | rows => simp [Relation.flatten]
    | groups => simp [Relation.flatten]
    | keys => simp [Relation.flatten]

/-- The relation generated for a collection of tables. -/
theorem generate_ok {sources : Sources} (hw : Dict.WF sources) (hv : ∀ p ∈ sources, p.2.2.valid = true)
    (ho : ∀ p ∈ sources, p.2.2 ≠ .other) :
    ∃ cs, generateRelation sources = .ok (.conj cs) ∧ (∀ c ∈ cs, c.Simple) ∧ (cs.map idOf).Nodup ∧
      (cs.flatMap Relation.covers).Perm (Dict.keys sources) ∧
      ∀ c, c ∈ cs ↔ (∃ p ∈ sources, direct p = some c) ∨
        ∃ s, idTables s sources ≠ [] ∧ c = .keys s (idTables s sources) 1 := by
  obtain ⟨ids, h1, hids⟩ := genLoop_ok sources [] [] [] (by simpa using hw) ho
    ⟨Dict.wf_nil, fun s m => by simp [idTables]⟩
  rw [List.nil_append] at h1
  rw [List.nil_append] at hids
  have hmem : ∀ s m, (s, m) ∈ ids ↔ m = idTables s sources ∧ m ≠ [] := fun s m => by
    rw [← hids.2, Dict.get_eq_some hids.1]
  have hk := genKeys_ok ids (fun p hp => by
    obtain ⟨s, m⟩ := p
    obtain ⟨rfl, hne⟩ := (hmem s m).1 hp
    refine ⟨?_, hne⟩
    intro he
    dsimp only at he
    subst he
    obtain ⟨⟨n, c⟩, hm⟩ := List.exists_mem_of_ne_nil _ hne
    obtain ⟨df, hm'⟩ := mem_idTables.1 hm
    have := hv _ hm'
    simp [Change.valid] at this)
  have hcs : ∀ c, c ∈ sources.filterMap direct ++ ids.map (fun p => Relation.keys p.1 p.2 1) ↔
      (∃ p ∈ sources, direct p = some c) ∨ ∃ s, idTables s sources ≠ [] ∧ c = .keys s (idTables s sources) 1 := by
    intro c
    rw [List.mem_append, List.mem_filterMap, List.mem_map]
    refine or_congr Iff.rfl ?_
    constructor
    · rintro ⟨⟨s, m⟩, hp, rfl⟩
      obtain ⟨rfl, hne⟩ := (hmem s m).1 hp
      exact ⟨s, hne, rfl⟩
    · rintro ⟨s, hne, rfl⟩
      exact ⟨(s, idTables s sources), (hmem _ _).2 ⟨rfl, hne⟩, rfl⟩
  have hsimple : ∀ c ∈ sources.filterMap direct ++ ids.map (fun p => Relation.keys p.1 p.2 1), c.Simple := by
    intro c hc
    rcases (hcs c).1 hc with ⟨⟨n, df, ch⟩, _, hd⟩ | ⟨s, _, rfl⟩
    · cases ch <;> cases hd <;> trivial
    · exact idTables_wf hw
  have hdirect : (sources.filterMap direct).map idOf =
      ((sources.filter (fun p => (direct p).isSome)).map Prod.fst).map Ident.named ∧
      (sources.filterMap direct).flatMap Relation.covers =
        (sources.filter (fun p => (direct p).isSome)).map Prod.fst := by
    clear h1 hids hmem hk hcs hsimple hw hv ho
    induction sources with
    | nil => exact ⟨rfl, rfl⟩
    | cons x xs ih =>
      obtain ⟨n, df, ch⟩ := x
      cases ch <;> simp [direct, idOf, Relation.covers] at ih ⊢ <;> exact ih
  have hnd : ((sources.filter (fun p => (direct p).isSome)).map Prod.fst).Nodup :=
    (List.filter_sublist.map _).nodup hw
  refine ⟨_, by unfold generateRelation; rw [h1]; dsimp only; rw [hk]; dsimp only [mkConj];
                rw [flattens_simple hsimple], hsimple, ?_, ?_, hcs⟩
  · rw [List.map_append, hdirect.1]
    refine List.Nodup.append (hnd.map (fun a b h => by cases h; rfl)) ?_ ?_
    · have : (ids.map (fun p => Relation.keys p.1 p.2 1)).map idOf = (ids.map Prod.fst).map Ident.collection := by
        simp [idOf]
      rw [this]
      exact List.Nodup.map (fun a b h => by cases h; rfl) hids.1
    · intro i h1 h2
      obtain ⟨n, _, rfl⟩ := List.mem_map.1 h1
      obtain ⟨c, hc, he⟩ := List.mem_map.1 h2
      obtain ⟨p, _, rfl⟩ := List.mem_map.1 hc
      cases he
  · rw [List.flatMap_append, hdirect.2]
    have hsp : ∀ s s' n, n ∈ Dict.keys (idTables s sources) → n ∈ Dict.keys (idTables s' sources) → s = s' := by
      intro s s' n hn hn'
      obtain ⟨c, hc⟩ := Dict.mem_keys.1 hn
      obtain ⟨c', hc'⟩ := Dict.mem_keys.1 hn'
      obtain ⟨df, hm⟩ := mem_idTables.1 hc
      obtain ⟨df', hm'⟩ := mem_idTables.1 hc'
      have e := (Dict.get_eq_some hw).2 hm
      rw [(Dict.get_eq_some hw).2 hm'] at e
      cases e
      rfl
    refine (List.perm_ext_iff_of_nodup ?_ hw).2 ?_
    · refine List.Nodup.append hnd ?_ ?_
      · rw [List.nodup_flatMap]
        refine ⟨?_, ?_⟩
        · intro c hc
          obtain ⟨⟨s, m⟩, hp, rfl⟩ := List.mem_map.1 hc
          obtain ⟨rfl, _⟩ := (hmem s m).1 hp
          exact idTables_wf hw
        · rw [List.pairwise_map]
          have hp := hids.1
          unfold Dict.WF at hp
          unfold List.Nodup at hp
          rw [List.pairwise_map] at hp
          refine hp.imp_of_mem ?_
          rintro ⟨s, m⟩ ⟨s', m'⟩ ha hb hne n hn hn'
          obtain ⟨rfl, _⟩ := (hmem s m).1 ha
          obtain ⟨rfl, _⟩ := (hmem s' m').1 hb
          exact hne (hsp s s' n hn hn')
      · intro n hn hn'
        obtain ⟨⟨n', df, ch⟩, hf, rfl⟩ := List.mem_map.1 hn
        rw [List.mem_filter] at hf
        obtain ⟨c, hc, hcn⟩ := List.mem_flatMap.1 hn'
        obtain ⟨⟨s, m⟩, hp, rfl⟩ := List.mem_map.1 hc
        obtain ⟨rfl, _⟩ := (hmem s m).1 hp
        obtain ⟨col, hcol⟩ := Dict.mem_keys.1 hcn
        obtain ⟨df', hm'⟩ := mem_idTables.1 hcol
        have e := (Dict.get_eq_some hw).2 hf.1
        rw [(Dict.get_eq_some hw).2 hm'] at e
        cases e
        exact absurd hf.2 (by simp [direct])
    · intro n
      rw [List.mem_append]
      constructor
      · rintro (h | h)
        · obtain ⟨p, hp, rfl⟩ := List.mem_map.1 h
          exact List.mem_map.2 ⟨p, (List.mem_filter.1 hp).1, rfl⟩
        · obtain ⟨c, hc, hcn⟩ := List.mem_flatMap.1 h
          obtain ⟨⟨s, m⟩, hp, rfl⟩ := List.mem_map.1 hc
          obtain ⟨rfl, _⟩ := (hmem s m).1 hp
          exact idTables_names hcn
      · intro h
        obtain ⟨⟨df, ch⟩, hm⟩ := Dict.mem_keys.1 h
        by_cases hd : (direct (n, df, ch)).isSome = true
        · exact .inl (List.mem_map.2 ⟨_, List.mem_filter.2 ⟨hm, hd⟩, rfl⟩)
        · right
          cases ch with
          | other => exact absurd rfl (ho _ hm)
          | maxRows => exact absurd rfl hd
          | maxRowsInMaxGroups => exact absurd rfl hd
          | rowsWithID c s =>
            have hin : (n, c) ∈ idTables s sources := mem_idTables.2 ⟨df, hm⟩
            refine List.mem_flatMap.2 ⟨.keys s (idTables s sources) 1, List.mem_map.2 ⟨(s, idTables s sources),
              (hmem _ _).2 ⟨rfl, fun e => by rw [e] at hin; simp at hin⟩, rfl⟩, ?_⟩
            exact Dict.mem_keys.2 ⟨c, hin⟩

end Verif.Relation
