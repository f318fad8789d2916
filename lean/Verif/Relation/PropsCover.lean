import Verif.Relation.Visit

/-!
# C33: sessions cover each table exactly once
-/

namespace Verif.Relation

open Verif
open Verif.Schema (SparkType Field Frame SparkDesc PyErr)

/-- `_generate_neighboring_relation` followed by `_create_accountant_from_neighboring_relation`, as in
`Session.Builder.build` (`session.py` l. 267-276). -/
def initCore (cast : SparkType → Value → Value) (meas : Measure) (sources : Sources) : Except RErr Output :=
  match generateRelation sources with
  | .error e => .error e
  | .ok rel => createCore cast meas (frames sources) rel

/-! ## Specification -/

/-- A type that may be used for groups and IDs. -/
def KeyType (ty : SparkType) : Prop := ty = .long ∨ ty = .string ∨ ty = .date

/-- What is required of tables and protected changes. -/
structure SourcesOK (sources : Sources) : Prop where
  known : ∀ n df, (n, df, Change.other) ∉ sources
  groups : ∀ n df c g r, (n, df, Change.maxRowsInMaxGroups c g r) ∈ sources →
    c ∈ columns df ∧ ∀ f ∈ df.fields, f.name = c → KeyType f.ty
  ids : ∀ s, ∃ ty, KeyType ty ∧ ∀ n df c, (n, df, Change.rowsWithID c s) ∈ sources → ColumnHas df c ty

/-- Tables as the builder keeps them: distinct names, valid protected changes, coerced frames with distinct column
names. -/
structure Stored (cast : SparkType → Value → Value) (sources : Sources) : Prop where
  wf : Dict.WF sources
  valid : ∀ n df ch, (n, df, ch) ∈ sources → ch.valid = true
  coerced : ∀ n df ch, (n, df, ch) ∈ sources → Schema.coerce cast df = .ok df
  columns : ∀ n df ch, (n, df, ch) ∈ sources → (columns df).Nodup

/-- The metric on a table with a protected change. -/
def expectedMetric (meas : Measure) : Change → Metric
  | .maxRows _ => .symDiff
  | .maxRowsInMaxGroups c _ _ => if meas = .zCDP then .groupedRoot c else .groupedSum c
  | .rowsWithID c _ => .groupedSym c
  | .other => .symDiff

/-- The distance between neighboring tables: `n` rows; `r` rows in each of `g` groups, summed up or as the root of the
sum of squares; one ID. -/
def expectedDist (meas : Measure) : Change → Dist
  | .maxRows n => .num n
  | .maxRowsInMaxGroups _ g r => if meas = .zCDP then .timesRoot r g else .num (r * g)
  | .rowsWithID _ _ => .num 1
  | .other => .num 0

/-- Where core keeps a table: tables with IDs under their ID space. -/
def expectedRef (n : String) : Change → Ref
  | .rowsWithID _ s => [.collection s, .named n]
  | _ => [.named n]

/-- Some ID column of the space may hold nulls. -/
def NullableSpace (s : String) (sources : Sources) : Prop :=
  ∃ n df c f, (n, df, Change.rowsWithID c s) ∈ sources ∧ f ∈ df.fields ∧ f.name = c ∧ f.nullable = true

/-- Core's description of a table: that of its data frame, but ID columns of one space agree on nulls. -/
def SchemaFits (sources : Sources) (df : Frame) (ch : Change) (s : TableSchema) : Prop :=
  ∀ col, match ch with
    | .rowsWithID c sp =>
      (NullableSpace sp sources → Dict.get s col = expected df (some c) col) ∧
      (¬ NullableSpace sp sources → Dict.get s col = expected df none col)
    | _ => Dict.get s col = expected df none col

/-! ## Proofs -/

variable {cast : SparkType → Value → Value}

theorem mem_frames {sources : Sources} {n : String} {df : Frame} :
    (n, df) ∈ frames sources ↔ ∃ ch, (n, df, ch) ∈ sources := by
  unfold frames
  rw [List.mem_map]
  constructor
  · rintro ⟨⟨n', df', ch⟩, hm, he⟩
    cases he
    exact ⟨ch, hm⟩
  · rintro ⟨ch, hm⟩
    exact ⟨_, hm, rfl⟩

theorem keys_frames (sources : Sources) : Dict.keys (frames sources) = Dict.keys sources := by
  simp [frames, Dict.keys]

theorem visitChildren_ok (dfs : Tables) (meas : Measure) : ∀ (cs : List Relation) (p : Parts),
    (∀ c ∈ cs, c.Simple ∧ ∃ o, visitOne dfs meas c = .ok o) → (cs.map idOf).Nodup →
    (∀ c ∈ cs, idOf c ∉ Dict.keys p.domain ∧ idOf c ∉ Dict.keys p.metric ∧ idOf c ∉ Dict.keys p.distance ∧
      idOf c ∉ Dict.keys p.data) →
    ∃ outs : List (Ident × Output), outs.map Prod.fst = cs.map idOf ∧
      (∀ c ∈ cs, ∃ o, (idOf c, o) ∈ outs ∧ visitOne dfs meas c = .ok o) ∧
      visitChildren dfs meas cs p = .ok ⟨p.domain ++ outs.map (fun x => (x.1, x.2.domain)),
        p.metric ++ outs.map (fun x => (x.1, x.2.metric)), p.distance ++ outs.map (fun x => (x.1, x.2.distance)),
        p.data ++ outs.map (fun x => (x.1, x.2.data))⟩
  | [], p, _, _, _ => ⟨[], rfl, by simp, by simp [visitChildren]⟩
  | c :: cs, p, h, hn, hp => by
    rw [List.map_cons, List.nodup_cons] at hn
    obtain ⟨hsim, o, ho⟩ := h c (by simp)
    have hid : relationId c = .ok (idOf c) := by
      cases c with
      | conj => exact absurd hsim id
      | _ => rfl
    obtain ⟨p1, p2, p3, p4⟩ := hp c (by simp)
    obtain ⟨outs, h1, h2, h3⟩ := visitChildren_ok dfs meas cs
      ⟨p.domain ++ [(idOf c, o.domain)], p.metric ++ [(idOf c, o.metric)], p.distance ++ [(idOf c, o.distance)],
        p.data ++ [(idOf c, o.data)]⟩ (fun x hx => h x (List.mem_cons_of_mem _ hx)) hn.2
      (fun x hx => by
        have hne : idOf x ≠ idOf c := fun e => hn.1 (e ▸ List.mem_map_of_mem hx)
        have step : ∀ {V : Type} (d : Dict Ident V) (v : V), idOf x ∉ Dict.keys d →
            idOf x ∉ Dict.keys (d ++ [(idOf c, v)]) := by
          intro V d v hd
          rw [Dict.keys_append, List.mem_append]
          rintro (h | h)
          · exact hd h
          · simp [Dict.keys] at h
            exact hne h
        obtain ⟨q1, q2, q3, q4⟩ := hp x (List.mem_cons_of_mem _ hx)
        exact ⟨step _ _ q1, step _ _ q2, step _ _ q3, step _ _ q4⟩)
    refine ⟨(idOf c, o) :: outs, by simp [h1], ?_, ?_⟩
    · intro x hx
      rcases List.mem_cons.1 hx with rfl | hx'
      · exact ⟨o, by simp, ho⟩
      · obtain ⟨o', ho1, ho2⟩ := h2 x hx'
        exact ⟨o', List.mem_cons_of_mem _ ho1, ho2⟩
    · rw [visitChildren, hid]
      dsimp only
      rw [ho]
      dsimp only
      rw [Dict.set_new p1, Dict.set_new p2, Dict.set_new p3, Dict.set_new p4, h3]
      simp

/-- How the requirements on a generated relation read in terms of tables and protected changes. -/
theorem columns_iff {sources : Sources} (hw : Dict.WF sources) {cs : List Relation}
    (hcs : ∀ c, c ∈ cs ↔ (∃ p ∈ sources, direct p = some c) ∨
      ∃ s, idTables s sources ≠ [] ∧ c = .keys s (idTables s sources) 1)
    (ho : ∀ p ∈ sources, p.2.2 ≠ .other) :
    (∀ c ∈ cs, c.ColumnsOK (frames sources)) ↔ SourcesOK sources := by
  have huniq : ∀ {n df ch df' ch'}, (n, df, ch) ∈ sources → (n, df', ch') ∈ sources → df = df' ∧ ch = ch' := by
    intro n df ch df' ch' h1 h2
    have e1 := (Dict.get_eq_some hw).2 h1
    rw [(Dict.get_eq_some hw).2 h2] at e1
    cases e1
    exact ⟨rfl, rfl⟩
  constructor
  · intro h
    refine ⟨fun n df hm => ho _ hm rfl, ?_, ?_⟩
    · intro n df c g r hm
      exact h (.groups n c g r) ((hcs _).2 (.inl ⟨_, hm, rfl⟩)) df (mem_frames.2 ⟨_, hm⟩)
    · intro s
      by_cases hne : idTables s sources = []
      · refine ⟨.long, .inl rfl, fun n df c hm => ?_⟩
        have : (n, c) ∈ idTables s sources := mem_idTables.2 ⟨df, hm⟩
        rw [hne] at this
        simp at this
      · obtain ⟨ty, hty, hall⟩ := h _ ((hcs _).2 (.inr ⟨s, hne, rfl⟩))
        exact ⟨ty, hty, fun n df c hm => hall n c (mem_idTables.2 ⟨df, hm⟩) df (mem_frames.2 ⟨_, hm⟩)⟩
  · intro h c hc
    rcases (hcs c).1 hc with ⟨⟨n, df, ch⟩, hm, hd⟩ | ⟨s, hne, rfl⟩
    · cases ch with
      | maxRows k => cases hd; trivial
      | maxRowsInMaxGroups col g r =>
        cases hd
        intro df' hm'
        obtain ⟨ch', hm''⟩ := mem_frames.1 hm'
        cases (huniq hm hm'').1
        exact h.groups n df col g r hm
      | rowsWithID => cases hd
      | other => cases hd
    · obtain ⟨ty, hty, hall⟩ := h.ids s
      refine ⟨ty, hty, fun t col htc df hdf => ?_⟩
      obtain ⟨df', hm⟩ := mem_idTables.1 htc
      obtain ⟨ch', hm'⟩ := mem_frames.1 hdf
      cases (huniq hm hm').1
      exact hall t _ col hm

theorem stored_frames {sources : Sources} (hst : Stored cast sources) :
    Dict.WF (frames sources) ∧ CoercedAll cast (frames sources) ∧
      ∀ t df, (t, df) ∈ frames sources → (columns df).Nodup := by
  refine ⟨?_, ?_, ?_⟩
  · have : Dict.WF (frames sources) ↔ Dict.WF sources := by
      rw [Dict.wf_iff, Dict.wf_iff, keys_frames]
    exact this.2 hst.wf
  · intro t df h
    obtain ⟨ch, hm⟩ := mem_frames.1 h
    exact hst.coerced t df ch hm
  · intro t df h
    obtain ⟨ch, hm⟩ := mem_frames.1 h
    exact hst.columns t df ch hm

/-- What is known about the output of an accepted collection of tables. -/
theorem initCore_ok {sources : Sources} (hst : Stored cast sources) (meas : Measure) {out : Output}
    (h : initCore cast meas sources = .ok out) :
    SourcesOK sources ∧ ∃ (cs : List Relation) (outs : List (Ident × Output)),
      (∀ c, c ∈ cs ↔ (∃ p ∈ sources, direct p = some c) ∨
        ∃ s, idTables s sources ≠ [] ∧ c = .keys s (idTables s sources) 1) ∧
      (cs.map idOf).Nodup ∧ (cs.flatMap Relation.covers).Perm (Dict.keys sources) ∧
      outs.map Prod.fst = cs.map idOf ∧
      (∀ c ∈ cs, ∃ o, (idOf c, o) ∈ outs ∧ GoodOut (frames sources) meas c o) ∧
      generateRelation sources = .ok (.conj cs) ∧
      out = ⟨.dict (outs.map (fun x => (x.1, x.2.domain))), .dict (outs.map (fun x => (x.1, x.2.metric))),
        .dict (outs.map (fun x => (x.1, x.2.distance))), .dict (outs.map (fun x => (x.1, x.2.data)))⟩ := by
  obtain ⟨hwf, hco, hcol⟩ := stored_frames hst
  by_cases ho : ∀ p ∈ sources, p.2.2 ≠ .other
  · obtain ⟨cs, h1, h2, h3, h4, h5⟩ := generate_ok hst.wf (fun p hp => hst.valid p.1 p.2.1 p.2.2 hp) ho
    unfold initCore at h
    rw [h1] at h
    dsimp only at h
    unfold createCore at h
    cases hv : validateInput cast (.conj cs) (frames sources) with
    | error e => rw [hv] at h; cases h
    | ok u =>
      have hacc := (C33_accepts hwf hco h2).1 hv
      have hfl : flattens [Relation.conj cs] = cs := by
        rw [flattens, flattens, Relation.flatten, flattens_simple h2, List.append_nil]
      have hvisit : ∀ c ∈ cs, ∃ o, visitOne (frames sources) meas c = .ok o ∧ GoodOut (frames sources) meas c o :=
        fun c hc => visitOne_ok meas (h2 c hc) hwf hco hcol (fun t ht =>
          hacc.1.mem_iff.1 (List.mem_flatMap.2 ⟨c, hc, ht⟩)) (hacc.2 c hc)
      obtain ⟨outs, o1, o2, o3⟩ := visitChildren_ok (frames sources) meas cs ⟨[], [], [], []⟩
        (fun c hc => ⟨h2 c hc, by obtain ⟨o, a, _⟩ := hvisit c hc; exact ⟨o, a⟩⟩) h3
        (by simp [Dict.keys])
      rw [hv] at h
      dsimp only at h
      rw [hfl, visitConj, o3] at h
      dsimp only [Except.map] at h
      cases h
      refine ⟨(columns_iff hst.wf h5 ho).1 hacc.2, cs, outs, h5, h3, h4, o1, ?_, h1, by simp⟩
      intro c hc
      obtain ⟨o, a1, a2⟩ := hvisit c hc
      obtain ⟨o', b1, b2⟩ := o2 c hc
      rw [a1] at b2
      cases b2
      exact ⟨o, b1, a2⟩
  · push Not at ho
    obtain ⟨p, hp, he⟩ := ho
    unfold initCore generateRelation at h
    rw [genLoop_other sources [] [] ⟨p, hp, he⟩] at h
    cases h

/-- **C33**: a collection of tables with protected changes is accepted iff its changes are known, grouping columns
exist and can be grouped by, and the ID columns of every ID space exist and have one and the same type. -/
theorem C33_session {sources : Sources} (hst : Stored cast sources) (meas : Measure) :
    (∃ out, initCore cast meas sources = .ok out) ↔ SourcesOK sources := by
  constructor
  · rintro ⟨out, h⟩
    exact (initCore_ok hst meas h).1
  · intro hok
    obtain ⟨hwf, hco, hcol⟩ := stored_frames hst
    have ho : ∀ p ∈ sources, p.2.2 ≠ .other := by
      rintro ⟨n, df, ch⟩ hp he
      dsimp only at he
      subst he
      exact hok.known n df hp
    obtain ⟨cs, h1, h2, h3, h4, h5⟩ := generate_ok hst.wf (fun p hp => hst.valid p.1 p.2.1 p.2.2 hp) ho
    have hcols := (columns_iff hst.wf h5 ho).2 hok
    have hacc := (C33_accepts hwf hco h2).2 ⟨by rw [keys_frames]; exact h4, hcols⟩
    have hfl : flattens [Relation.conj cs] = cs := by
      rw [flattens, flattens, Relation.flatten, flattens_simple h2, List.append_nil]
    obtain ⟨outs, o1, o2, o3⟩ := visitChildren_ok (frames sources) meas cs ⟨[], [], [], []⟩
      (fun c hc => ⟨h2 c hc, by
        obtain ⟨o, a, _⟩ := visitOne_ok meas (h2 c hc) hwf hco hcol (fun t ht => by
          rw [keys_frames]
          exact h4.mem_iff.1 (List.mem_flatMap.2 ⟨c, hc, ht⟩)) (hcols c hc)
        exact ⟨o, a⟩⟩) h3
      (by simp [Dict.keys])
    refine ⟨⟨.dict (outs.map (fun x => (x.1, x.2.domain))), .dict (outs.map (fun x => (x.1, x.2.metric))),
      .dict (outs.map (fun x => (x.1, x.2.distance))), .dict (outs.map (fun x => (x.1, x.2.data)))⟩, ?_⟩
    unfold initCore
    rw [h1]
    dsimp only
    unfold createCore
    rw [hacc]
    dsimp only
    rw [hfl, visitConj, o3]
    rfl

/-- Where a table is found. -/
def refOf (c : Relation) (n : String) : Ref :=
  match c with
  | .keys s _ _ => [.collection s, .named n]
  | _ => [.named n]

theorem tableDom_path {L : Type} {d : Dict Ident L} {p : Ref} {x : Dom L} (h : Path (tableDom d) p x) :
    p = [] ∨ ∃ k l, p = [k] ∧ (k, l) ∈ d ∧ x = .table l := by
  unfold tableDom at h
  cases h with
  | here => exact .inl rfl
  | down hm hp =>
    obtain ⟨⟨k', l⟩, hm', he⟩ := List.mem_map.1 hm
    cases he
    cases hp
    exact .inr ⟨_, l, rfl, hm', rfl⟩

theorem tableDom_wf {L : Type} {d : Dict Ident L} (h : (Dict.keys d).Nodup) : (tableDom d).WF := by
  unfold tableDom
  rw [Dom.WF]
  refine ⟨?_, ?_⟩
  · have : (d.map (fun p => (p.1, Dom.table p.2))).map Prod.fst = Dict.keys d := by simp [Dict.keys]
    rw [this]
    exact h
  · clear h
    induction d with
    | nil => simp [wfs]
    | cons x d ih =>
      rw [List.map_cons, wfs, Dom.WF]
      exact ⟨trivial, ih⟩

theorem wfs_of : ∀ {L : Type} {kvs : List (Ident × Dom L)}, (∀ k d, (k, d) ∈ kvs → d.WF) → wfs kvs
  | _, [], _ => by simp [wfs]
  | _, (k, d) :: kvs, h => by
    rw [wfs]
    exact ⟨h k d (by simp), wfs_of (fun k' d' hm => h k' d' (List.mem_cons_of_mem _ hm))⟩

/-- The domain of what is known about a relation's output. -/
theorem goodOut_wf {sources : Sources} {meas : Measure} {c : Relation} {o : Output} (hs : c.Simple)
    (h : GoodOut (frames sources) meas c o) : o.domain.WF ∧ o.data.WF := by
  cases c with
  | conj => exact absurd h id
  | rows t n => obtain ⟨df, s, _, rfl, _⟩ := h; simp [Dom.WF]
  | groups t col g r =>
    obtain ⟨df, s, _, rfl, _⟩ := h
    split <;> simp [Dom.WF]
  | keys sp m k =>
    obtain ⟨doms, ds, rfl, h1, h2, _⟩ := h
    have hn : ((Dict.keys m).map Ident.named).Nodup := List.Nodup.map (fun a b h => by cases h; rfl) hs
    exact ⟨tableDom_wf (h1 ▸ hn), tableDom_wf (h2 ▸ hn)⟩

/-- Paths in a relation's part of the domain that lead to a named table. -/
theorem goodOut_path {dfs : Tables} {meas : Measure} {c : Relation} {o : Output} (h : GoodOut dfs meas c o)
    {p : Ref} {x : Dom TableSchema} (hp : Path o.domain p x) {n : String} (he : EndsWith (idOf c :: p) n) :
    n ∈ c.covers ∧ idOf c :: p = refOf c n ∧ ∃ l, x = .table l := by
  cases c with
  | conj => exact absurd h id
  | rows t k =>
    obtain ⟨df, s, _, rfl, _⟩ := h
    cases hp
    simp only [idOf, EndsWith, List.getLast?_singleton, Option.some.injEq, Ident.named.injEq] at he
    subst he
    exact ⟨by simp [Relation.covers], rfl, s, rfl⟩
  | groups t col g r =>
    obtain ⟨df, s, _, rfl, _⟩ := h
    have hx : p = [] ∧ ∃ l, x = .table l := by
      split at hp <;> cases hp <;> exact ⟨rfl, s, rfl⟩
    obtain ⟨rfl, hl⟩ := hx
    simp only [idOf, EndsWith, List.getLast?_singleton, Option.some.injEq, Ident.named.injEq] at he
    subst he
    exact ⟨by simp [Relation.covers], rfl, hl⟩
  | keys sp m k =>
    obtain ⟨doms, ds, rfl, h1, _, _⟩ := h
    rcases tableDom_path hp with rfl | ⟨i, l, rfl, hm, rfl⟩
    · simp [EndsWith, idOf] at he
    · simp only [idOf, EndsWith, List.getLast?_cons_cons, List.getLast?_singleton, Option.some.injEq] at he
      subst he
      have : Ident.named n ∈ Dict.keys doms := Dict.mem_keys.2 ⟨l, hm⟩
      rw [h1] at this
      obtain ⟨n', hn', e⟩ := List.mem_map.1 this
      cases e
      exact ⟨hn', rfl, l, rfl⟩

theorem covers_unique {cs : List Relation} (h : (cs.flatMap Relation.covers).Nodup) {c c' : Relation} (hc : c ∈ cs)
    (hc' : c' ∈ cs) {n : String} (hn : n ∈ c.covers) (hn' : n ∈ c'.covers) : c = c' := by
  rw [List.nodup_flatMap] at h
  by_contra hne
  have : Std.Symm (Function.onFun List.Disjoint Relation.covers) := ⟨fun a b hab => List.Disjoint.symm hab⟩
  exact (h.2.forall hc hc' hne) hn hn'

/-- The part of the relation for a table. -/
def PartOf (sources : Sources) (n : String) (c : Relation) : Change → Prop
  | .maxRows k => c = .rows n k
  | .maxRowsInMaxGroups col g r => c = .groups n col g r
  | .rowsWithID _ s => c = .keys s (idTables s sources) 1
  | .other => False

/-- Which part of a generated relation a table belongs to. -/
theorem source_part {sources : Sources} {cs : List Relation}
    (hcs : ∀ c, c ∈ cs ↔ (∃ p ∈ sources, direct p = some c) ∨
      ∃ s, idTables s sources ≠ [] ∧ c = .keys s (idTables s sources) 1)
    {n : String} {df : Frame} {ch : Change} (hm : (n, df, ch) ∈ sources) (hk : ch ≠ .other) :
    ∃ c ∈ cs, n ∈ c.covers ∧ PartOf sources n c ch := by
  cases ch with
  | maxRows k => exact ⟨.rows n k, (hcs _).2 (.inl ⟨_, hm, rfl⟩), by simp [Relation.covers], rfl⟩
  | maxRowsInMaxGroups col g r =>
    exact ⟨.groups n col g r, (hcs _).2 (.inl ⟨_, hm, rfl⟩), by simp [Relation.covers], rfl⟩
  | rowsWithID col s =>
    have hi : (n, col) ∈ idTables s sources := mem_idTables.2 ⟨df, hm⟩
    have hne : idTables s sources ≠ [] := by
      intro e
      rw [e] at hi
      simp at hi
    refine ⟨_, (hcs _).2 (.inr ⟨s, hne, rfl⟩), ?_, rfl⟩
    exact List.mem_map.2 ⟨_, hi, rfl⟩
  | other => exact absurd rfl hk

theorem nullableSpace_iff {sources : Sources} (hw : Dict.WF sources) (s : String) :
    NullableKey (idTables s sources) (frames sources) ↔ NullableSpace s sources := by
  constructor
  · rintro ⟨t, c, df, f, hi, hd, hf, hn, hb⟩
    obtain ⟨df', hm⟩ := mem_idTables.1 hi
    obtain ⟨ch, hm'⟩ := mem_frames.1 hd
    have e := (Dict.get_eq_some hw).2 hm
    rw [(Dict.get_eq_some hw).2 hm'] at e
    cases e
    exact ⟨t, df, c, f, hm, hf, hn, hb⟩
  · rintro ⟨t, df, c, f, hm, hf, hn, hb⟩
    exact ⟨t, c, df, f, mem_idTables.2 ⟨df, hm⟩, mem_frames.2 ⟨_, hm⟩, hf, hn, hb⟩

theorem outs_nodup {outs : List (Ident × Output)} {β : Type} {f : Output → β} :
    (outs.map (fun x => (x.1, f x.2))).map Prod.fst = outs.map Prod.fst := by simp

theorem outs_get {outs : List (Ident × Output)} (h : (outs.map Prod.fst).Nodup) {β : Type} (f : Output → β) {i : Ident}
    {o : Output} (hm : (i, o) ∈ outs) : Dict.get (outs.map (fun x => (x.1, f x.2))) i = some (f o) := by
  refine (Dict.get_eq_some ?_).2 (List.mem_map.2 ⟨_, hm, rfl⟩)
  show ((outs.map (fun x => (x.1, f x.2))).map Prod.fst).Nodup
  rw [outs_nodup]
  exact h

/-- Every part of the output belongs to a part of the relation. -/
theorem outs_part {cs : List Relation} {outs : List (Ident × Output)} {P : Relation → Output → Prop}
    (hn : (cs.map idOf).Nodup) (h1 : outs.map Prod.fst = cs.map idOf)
    (h2 : ∀ c ∈ cs, ∃ o, (idOf c, o) ∈ outs ∧ P c o) {i : Ident} {o : Output} (hm : (i, o) ∈ outs) :
    ∃ c ∈ cs, i = idOf c ∧ P c o := by
  have : i ∈ cs.map idOf := h1 ▸ List.mem_map_of_mem hm
  obtain ⟨c, hc, rfl⟩ := List.mem_map.1 this
  obtain ⟨o', ho', hp⟩ := h2 c hc
  have hw : Dict.WF outs := by
    show (outs.map Prod.fst).Nodup
    rw [h1]
    exact hn
  have e := (Dict.get_eq_some hw).2 hm
  rw [(Dict.get_eq_some hw).2 ho'] at e
  cases e
  exact ⟨c, hc, rfl, hp⟩

/-- **C33**: the names found in the session are those of the given tables, each in exactly one place. -/
theorem C33_names {sources : Sources} (hst : Stored cast sources) {meas : Measure} {out : Output}
    (h : initCore cast meas sources = .ok out) :
    out.domain.WF ∧ UniqueNames out.domain ∧
      ∀ n, (∃ p d, Path out.domain p d ∧ EndsWith p n) ↔ n ∈ Dict.keys sources := by
  obtain ⟨hok, cs, outs, hcs, hids, hcov, ho1, ho2, _, rfl⟩ := initCore_ok hst meas h
  have hcnod : (cs.flatMap Relation.covers).Nodup := hcov.nodup_iff.2 ((Dict.wf_iff _).1 hst.wf)
  have honod : (outs.map Prod.fst).Nodup := ho1 ▸ hids
  have hsim : ∀ c ∈ cs, c.Simple := by
    intro c hc
    rcases (hcs c).1 hc with ⟨⟨n, df, ch⟩, hm, hd⟩ | ⟨s, _, rfl⟩
    · cases ch <;> cases hd <;> trivial
    · exact idTables_wf hst.wf
  have split : ∀ p d n, Path (Dom.dict (outs.map (fun x => (x.1, x.2.domain)))) p d → EndsWith p n →
      ∃ c ∈ cs, n ∈ c.covers ∧ p = refOf c n := by
    intro p d n hp he
    cases hp with
    | here => simp [EndsWith] at he
    | down hm hp' =>
      obtain ⟨⟨i, o⟩, hmo, e⟩ := List.mem_map.1 hm
      cases e
      obtain ⟨c, hc, rfl, hg⟩ := outs_part hids ho1 ho2 hmo
      obtain ⟨a, b, _⟩ := goodOut_path hg hp' he
      exact ⟨c, hc, a, b⟩
  refine ⟨?_, ?_, fun n => ⟨?_, ?_⟩⟩
  · dsimp only
    rw [Dom.WF]
    refine ⟨by rw [outs_nodup]; exact honod, wfs_of ?_⟩
    intro k d hm
    obtain ⟨⟨i, o⟩, hmo, e⟩ := List.mem_map.1 hm
    cases e
    obtain ⟨c, hc, rfl, hg⟩ := outs_part hids ho1 ho2 hmo
    exact (goodOut_wf (hsim c hc) hg).1
  · intro n p q d d' hp hq hep heq
    obtain ⟨c, hc, hn, rfl⟩ := split p d n hp hep
    obtain ⟨c', hc', hn', rfl⟩ := split q d' n hq heq
    rw [covers_unique hcnod hc hc' hn hn']
  · rintro ⟨p, d, hp, he⟩
    obtain ⟨c, hc, hn, _⟩ := split p d n hp he
    exact hcov.mem_iff.1 (List.mem_flatMap.2 ⟨c, hc, hn⟩)
  · intro hn
    obtain ⟨c, hc, hnc⟩ := List.mem_flatMap.1 (hcov.mem_iff.2 hn)
    obtain ⟨o, hmo, hg⟩ := ho2 c hc
    cases c with
    | conj => exact absurd hg id
    | rows t k =>
      simp only [Relation.covers, List.mem_singleton] at hnc
      subst hnc
      exact ⟨[.named n], _, .down (List.mem_map.2 ⟨_, hmo, rfl⟩) (.here _), rfl⟩
    | groups t col g r =>
      simp only [Relation.covers, List.mem_singleton] at hnc
      subst hnc
      exact ⟨[.named n], _, .down (List.mem_map.2 ⟨_, hmo, rfl⟩) (.here _), rfl⟩
    | keys s m k =>
      obtain ⟨doms, ds, rfl, k1, _, _⟩ := hg
      have : Ident.named n ∈ Dict.keys doms := by
        rw [k1]
        exact List.mem_map_of_mem hnc
      obtain ⟨l, hl⟩ := Dict.mem_keys.1 this
      exact ⟨[.collection s, .named n], _, .down (List.mem_map.2 ⟨_, hmo, rfl⟩)
        (.down (List.mem_map.2 ⟨_, hl, rfl⟩) (.here _)), rfl⟩

/-- **C33**: every table is found under its name, with its data, its schema, and the metric and distance of its
protected change. -/
theorem C33_tables {sources : Sources} (hst : Stored cast sources) {meas : Measure} {out : Output}
    (h : initCore cast meas sources = .ok out) {n : String} {df : Frame} {ch : Change} (hm : (n, df, ch) ∈ sources) :
    ∃ k rest s dists, findReference n out.domain = some (k :: rest) ∧
      lookupDomain out.domain (k :: rest) = .ok (.table s) ∧ SchemaFits sources df ch s ∧
      lookupDomain out.data (k :: rest) = .ok (.table df) ∧
      lookupMetric out.metric (k :: rest) = .ok (expectedMetric meas ch) ∧
      out.distance = .dict dists ∧ Dict.get dists k = some (expectedDist meas ch) ∧
      (∀ n' df' ch', (n', df', ch') ∈ sources → (∃ rest', findReference n' out.domain = some (k :: rest')) →
        n' = n ∨ ∃ c c' sp, ch = .rowsWithID c sp ∧ ch' = .rowsWithID c' sp) ∧ k :: rest = expectedRef n ch := by
  obtain ⟨hwf, huniq, hnames⟩ := C33_names hst h
  obtain ⟨hok, cs, outs, hcs, hids, hcov, ho1, ho2, _, rfl⟩ := initCore_ok hst meas h
  have honod : (outs.map Prod.fst).Nodup := ho1 ▸ hids
  have hframe : ∀ {df'}, (n, df') ∈ frames sources → df' = df := by
    intro df' hd
    obtain ⟨ch', hm'⟩ := mem_frames.1 hd
    have e := (Dict.get_eq_some hst.wf).2 hm
    rw [(Dict.get_eq_some hst.wf).2 hm'] at e
    cases e
    rfl
  have hknown : ∀ {n df ch}, (n, df, ch) ∈ sources → ch ≠ .other := fun hm e => hok.known _ _ (e ▸ hm)
  have hfr : (n, df) ∈ frames sources := mem_frames.2 ⟨_, hm⟩
  obtain ⟨c, hc, hcn, hform⟩ := source_part hcs hm (hknown hm)
  obtain ⟨o, hmo, hg⟩ := ho2 c hc
  -- other tables in the same part
  have hothers : ∀ {k : Ident} {rest : Ref}, k = idOf c → ∀ n' df' ch', (n', df', ch') ∈ sources →
      (∃ rest', findReference n' (Dom.dict (outs.map (fun x => (x.1, x.2.domain)))) = some (k :: rest')) →
      n' = n ∨ ∃ c c' sp, ch = .rowsWithID c sp ∧ ch' = .rowsWithID c' sp := by
    rintro k _ rfl n' df' ch' hm' ⟨rest', hf⟩
    obtain ⟨he, d, hl, hp⟩ := C35_found hwf hf
    cases hp with
    | down hmk hp' =>
      obtain ⟨⟨i, o'⟩, hmo', e⟩ := List.mem_map.1 hmk
      cases e
      replace hmo' : (idOf c, o') ∈ outs := hmo'
      have e := (Dict.get_eq_some (show Dict.WF outs from honod)).2 hmo
      rw [(Dict.get_eq_some (show Dict.WF outs from honod)).2 hmo'] at e
      cases e
      obtain ⟨hcov', _, _⟩ := goodOut_path hg hp' he
      cases ch with
      | maxRows k => cases (show c = _ from hform); simp only [Relation.covers, List.mem_singleton] at hcov'; exact .inl hcov'
      | maxRowsInMaxGroups col g r =>
        cases (show c = _ from hform); simp only [Relation.covers, List.mem_singleton] at hcov'; exact .inl hcov'
      | rowsWithID col sp =>
        cases (show c = _ from hform)
        obtain ⟨⟨t, col'⟩, hi, rfl⟩ := List.mem_map.1 (show n' ∈ Dict.keys (idTables sp sources) from hcov')
        obtain ⟨df'', hm''⟩ := mem_idTables.1 hi
        have e := (Dict.get_eq_some hst.wf).2 hm'
        rw [(Dict.get_eq_some hst.wf).2 hm''] at e
        cases e
        exact .inr ⟨_, _, _, rfl, rfl⟩
      | other => exact absurd hform id
  have finish : ∀ {k rest s}, Path (Dom.dict (outs.map (fun x => (x.1, x.2.domain)))) (k :: rest) (.table s) →
      EndsWith (k :: rest) n →
      findReference n (Dom.dict (outs.map (fun x => (x.1, x.2.domain)))) = some (k :: rest) ∧
      lookupDomain (Dom.dict (outs.map (fun x => (x.1, x.2.domain)))) (k :: rest) = .ok (.table s) :=
    fun hp he => C35_exact hwf huniq hp he
  cases ch with
  | other => exact absurd hform id
  | maxRows k =>
    cases (show c = _ from hform)
    obtain ⟨df', s, hd, rfl, hs⟩ := hg
    cases hframe hd
    obtain ⟨f1, f2⟩ := finish (k := .named n) (rest := [])
      (.down (List.mem_map.2 ⟨_, hmo, rfl⟩) (.here _)) rfl
    refine ⟨.named n, [], s, _, f1, f2, hs, ?_, ?_, rfl, outs_get honod Output.distance hmo,
      hothers (rest := []) rfl, rfl⟩
    · rw [lookupDomain, outs_get honod Output.data (i := .named n) hmo]
      rfl
    · rw [lookupMetric, outs_get honod Output.metric (i := .named n) hmo]
      rfl
  | maxRowsInMaxGroups col g r =>
    cases (show c = _ from hform)
    obtain ⟨df', s, hd, ho, hs⟩ := hg
    cases hframe hd
    have hdom : o.domain = .table s := by rw [ho]; split <;> rfl
    have hdat : o.data = .table df := by rw [ho]; split <;> rfl
    have hmet : o.metric = expectedMetric meas (.maxRowsInMaxGroups col g r) := by
      rw [ho, expectedMetric]; split <;> rfl
    have hdis : o.distance = expectedDist meas (.maxRowsInMaxGroups col g r) := by
      rw [ho, expectedDist]; split <;> rfl
    obtain ⟨f1, f2⟩ := finish (k := .named n) (rest := []) (s := s)
      (.down (List.mem_map.2 ⟨_, hmo, rfl⟩) (hdom ▸ .here _)) rfl
    refine ⟨.named n, [], s, _, f1, f2, hs, ?_, ?_, rfl, hdis ▸ outs_get honod Output.distance hmo,
      hothers (rest := []) rfl, rfl⟩
    · rw [lookupDomain, outs_get honod Output.data (i := .named n) hmo]
      exact congrArg Except.ok hdat
    · rw [lookupMetric, outs_get honod Output.metric (i := .named n) hmo]
      show lookupMetric o.metric [] = _
      rw [hmet]
      generalize expectedMetric meas _ = mm
      cases mm <;> rfl
  | rowsWithID col sp =>
    cases (show c = _ from hform)
    have hi : (n, col) ∈ idTables sp sources := mem_idTables.2 ⟨df, hm⟩
    obtain ⟨doms, ds, rfl, k1, k2, k3⟩ := hg
    obtain ⟨hds, s, hdoms, hs⟩ := k3 n col hi df hfr
    have hin : (Dict.keys (idTables sp sources)).map Ident.named |>.Nodup :=
      List.Nodup.map (fun a b h => by cases h; rfl) ((Dict.wf_iff _).1 (idTables_wf hst.wf))
    have hwd : Dict.WF doms := (Dict.wf_iff _).2 (k1 ▸ hin)
    have hwds : Dict.WF ds := (Dict.wf_iff _).2 (k2 ▸ hin)
    obtain ⟨f1, f2⟩ := finish (k := .collection sp) (rest := [.named n]) (s := s)
      (.down (List.mem_map.2 ⟨_, hmo, rfl⟩)
        (.down (List.mem_map.2 ⟨_, (Dict.get_eq_some hwd).1 hdoms, rfl⟩) (.here _))) rfl
    refine ⟨.collection sp, [.named n], s, _, f1, f2, ?_, ?_, ?_, rfl, outs_get honod Output.distance hmo,
      hothers (rest := [.named n]) rfl, rfl⟩
    · intro c
      have := hs c
      rw [nullableSpace_iff hst.wf] at this
      exact this
    · rw [lookupDomain, outs_get honod Output.data (i := .collection sp) hmo]
      show lookupDomain (tableDom ds) [.named n] = _
      have hwt : (tableDom ds).WF := tableDom_wf ((Dict.wf_iff _).1 hwds)
      refine (lookupDomain_iff _ _ _ hwt).2 ?_
      exact .down (List.mem_map.2 ⟨_, (Dict.get_eq_some hwds).1 hds, rfl⟩) (.here _)
    · rw [lookupMetric, outs_get honod Output.metric (i := .collection sp) hmo]
      show lookupMetric (.addRemoveKeys _) [.named n] = _
      have hg : Dict.get ((idTables sp sources).map (fun p => (Ident.named p.1, p.2))) (.named n) = some col := by
        refine (Dict.get_eq_some ?_).2 (List.mem_map.2 ⟨_, hi, rfl⟩)
        show (((idTables sp sources).map (fun p => (Ident.named p.1, p.2))).map Prod.fst).Nodup
        have : ((idTables sp sources).map (fun p => (Ident.named p.1, p.2))).map Prod.fst =
            (Dict.keys (idTables sp sources)).map Ident.named := by simp [Dict.keys]
        rw [this]
        exact hin
      rw [lookupMetric, hg]
      rfl

/-! ## Examples -/

/-- Two tables in an ID space (one with nullable IDs), one protected by groups and one by rows. -/
def demoSources : Sources :=
  [("people", ⟨[⟨"id", .long, true⟩, ⟨"age", .long, false⟩], []⟩, .rowsWithID "id" "persons"),
    ("cities", ⟨[⟨"city", .string, false⟩, ⟨"x", .double, true⟩], []⟩, .maxRowsInMaxGroups "city" 3 4),
    ("visits", ⟨[⟨"who", .long, false⟩], []⟩, .rowsWithID "who" "persons"),
    ("rest", ⟨[⟨"x", .double, false⟩], []⟩, .maxRows 2)]

/-- **C33**: a session with tables of all kinds; the ID space is one entry with two tables, the non-nullable ID column
is widened; the same tables with one ID column of another type are refused. -/
theorem C33_example (cast : SparkType → Value → Value) :
    Stored cast demoSources ∧ SourcesOK demoSources ∧
      (∃ out, initCore cast .pureDP demoSources = .ok out ∧
        findReference "visits" out.domain = some [.collection "persons", .named "visits"] ∧
        lookupDomain out.domain [.collection "persons", .named "visits"] =
          .ok (.table [("who", .integer true)]) ∧
        out.distance = .dict [(.named "cities", .num 12), (.named "rest", .num 2), (.collection "persons", .num 1)]) ∧
      initCore cast .pureDP (demoSources ++
        [("more", ⟨[⟨"id", .string, false⟩], []⟩, .rowsWithID "id" "persons")]) = .error .value := by
  have hst : Stored cast demoSources := by
    refine ⟨by rw [Dict.wf_iff]; decide, ?_, ?_, ?_⟩ <;> intro n df ch h <;>
      simp only [demoSources, List.mem_cons, List.not_mem_nil, or_false, Prod.mk.injEq] at h <;>
      rcases h with ⟨rfl, rfl, rfl⟩ | ⟨rfl, rfl, rfl⟩ | ⟨rfl, rfl, rfl⟩ | ⟨rfl, rfl, rfl⟩ <;>
      first | rfl | decide
  have hrun : ∃ out, initCore cast .pureDP demoSources = .ok out ∧
        findReference "visits" out.domain = some [.collection "persons", .named "visits"] ∧
        lookupDomain out.domain [.collection "persons", .named "visits"] =
          .ok (.table [("who", .integer true)]) ∧
        out.distance = .dict [(.named "cities", .num 12), (.named "rest", .num 2), (.collection "persons", .num 1)] :=
    ⟨_, rfl, rfl, rfl, rfl⟩
  refine ⟨hst, (C33_session hst .pureDP).1 ⟨_, hrun.choose_spec.1⟩, hrun, rfl⟩

end Verif.Relation
