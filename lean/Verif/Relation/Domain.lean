import Verif.Relation.Distance

/-!
# C34: neighboring databases give core the same domain
-/

namespace Verif.Relation

open Verif
open Verif.Schema (SparkType Field Frame SparkDesc PyErr)

theorem mem_set {K V : Type} [DecidableEq K] {d : Dict K V} {k k' : K} {v v' : V} (h : (k', v') ∈ Dict.set d k v) :
    (k', v') ∈ d ∨ (k', v') = (k, v) := by
  unfold Dict.set at h
  split at h
  · obtain ⟨⟨a, b⟩, hm, he⟩ := List.mem_map.1 h
    dsimp only at he
    split at he
    · next hk => exact .inr (hk ▸ he.symm)
    · exact .inl (he ▸ hm)
  · rcases List.mem_append.1 h with h | h
    · exact .inl h
    · exact .inr (List.mem_singleton.1 h)

/-- Tables with the same names and columns. -/
abbrev SameFrames (a b : Tables) : Prop := List.Forall₂ (fun p q => p.1 = q.1 ∧ p.2.fields = q.2.fields) a b

theorem sameFrames_get {a b : Tables} (h : SameFrames a b) (t : String) :
    (Dict.get a t).map Frame.fields = (Dict.get b t).map Frame.fields := by
  induction h with
  | nil => rfl
  | @cons p q as bs hp _ ih =>
    obtain ⟨n, x⟩ := p
    obtain ⟨m, y⟩ := q
    obtain ⟨h1, h2⟩ := hp
    dsimp only at h1 h2
    subst h1
    rw [Dict.get_cons, Dict.get_cons]
    split
    · simp [h2]
    · exact ih

theorem fromSparkSchema_congr {a b : Frame} (h : a.fields = b.fields) : fromSparkSchema a = fromSparkSchema b := by
  unfold fromSparkSchema
  rw [h]

theorem fromSparkSchema_wf {a : Frame} {s : TableSchema} (h : fromSparkSchema a = .ok s) : Dict.WF s := by
  unfold fromSparkSchema at h
  split at h
  · cases h
  · cases h
    exact Dict.wf_ofPairs _

theorem keysLoop_congr {a b : Tables} (h : SameFrames a b) : ∀ (m : Dict String String) (doms ms da db),
    (keysLoop a m doms ms da).map (fun x => (x.1, x.2.1)) = (keysLoop b m doms ms db).map (fun x => (x.1, x.2.1))
  | [], _, _, _, _ => rfl
  | (t, c) :: rest, doms, ms, da, db => by
    have hg := sameFrames_get h t
    rw [keysLoop, keysLoop]
    cases ha : Dict.get a t with
    | none =>
      rw [ha] at hg
      cases hb : Dict.get b t with
      | none => rfl
      | some y => rw [hb] at hg; cases hg
    | some x =>
      rw [ha] at hg
      cases hb : Dict.get b t with
      | none => rw [hb] at hg; cases hg
      | some y =>
        rw [hb] at hg
        have hf : x.fields = y.fields := by simpa using hg
        dsimp only
        rw [fromSparkSchema_congr hf]
        cases fromSparkSchema y with
        | error e => rfl
        | ok s => exact keysLoop_congr h rest _ _ _ _

theorem visitOne_congr {a b : Tables} (h : SameFrames a b) (meas : Measure) {c : Relation} {oa ob : Output}
    (ha : visitOne a meas c = .ok oa) (hb : visitOne b meas c = .ok ob) : oa.domain = ob.domain := by
  cases c with
  | conj cs => cases ha
  | rows t n =>
    have hg := sameFrames_get h t
    rw [visitOne] at ha hb
    cases ea : Dict.get a t with
    | none => rw [ea] at ha; cases ha
    | some x =>
      cases eb : Dict.get b t with
      | none => rw [eb] at hb; cases hb
      | some y =>
        rw [ea] at hg ha
        rw [eb] at hg hb
        have hf : x.fields = y.fields := by simpa using hg
        dsimp only at ha hb
        rw [fromSparkSchema_congr hf] at ha
        cases e : fromSparkSchema y with
        | error e' => rw [e] at ha; cases ha
        | ok s =>
          rw [e] at ha hb
          cases ha
          cases hb
          rfl
  | groups t col g r =>
    have hg := sameFrames_get h t
    rw [visitOne] at ha hb
    cases ea : Dict.get a t with
    | none => rw [ea] at ha; cases ha
    | some x =>
      cases eb : Dict.get b t with
      | none => rw [eb] at hb; cases hb
      | some y =>
        rw [ea] at hg ha
        rw [eb] at hg hb
        have hf : x.fields = y.fields := by simpa using hg
        dsimp only at ha hb
        rw [fromSparkSchema_congr hf] at ha
        cases e : fromSparkSchema y with
        | error e' => rw [e] at ha; cases ha
        | ok s =>
          rw [e] at ha hb
          cases meas <;> cases ha <;> cases hb <;> rfl
  | keys sp m k =>
    have hl := keysLoop_congr h m [] [] [] []
    rw [visitOne] at ha hb
    cases ea : keysLoop a m [] [] [] with
    | error e => rw [ea] at ha; cases ha
    | ok x =>
      cases eb : keysLoop b m [] [] [] with
      | error e => rw [eb] at hb; cases hb
      | ok y =>
        rw [ea] at ha hl
        rw [eb] at hb hl
        obtain ⟨d, ms, da⟩ := x
        obtain ⟨d', ms', db⟩ := y
        cases hl
        dsimp only at ha hb
        cases e : ensureValid ms d with
        | error e' => rw [e] at ha; cases ha
        | ok doms =>
          rw [e] at ha hb
          cases ha
          cases hb
          rfl

theorem visitChildren_congr {a b : Tables} (h : SameFrames a b) (meas : Measure) : ∀ (cs : List Relation) (p q pa qb : Parts),
    p.domain = q.domain → visitChildren a meas cs p = .ok pa → visitChildren b meas cs q = .ok qb → pa.domain = qb.domain
  | [], p, q, pa, qb, hd, ha, hb => by
    cases ha
    cases hb
    exact hd
  | c :: cs, p, q, pa, qb, hd, ha, hb => by
    rw [visitChildren] at ha hb
    cases hi : relationId c with
    | error e => rw [hi] at ha; cases ha
    | ok i =>
      rw [hi] at ha hb
      dsimp only at ha hb
      cases ea : visitOne a meas c with
      | error e => rw [ea] at ha; cases ha
      | ok oa =>
        cases eb : visitOne b meas c with
        | error e => rw [eb] at hb; cases hb
        | ok ob =>
          rw [ea] at ha
          rw [eb] at hb
          exact visitChildren_congr h meas cs _ _ pa qb (by dsimp only; rw [hd, visitOne_congr h meas ea eb]) ha hb

theorem same_frames {sA sB : Sources} (h : Neighbors sA sB) : SameFrames (frames sA) (frames sB) := by
  have := h.same
  clear h
  induction this with
  | nil => exact .nil
  | cons hp _ ih => exact .cons ⟨hp.1, hp.2.1⟩ ih

/-- **C34**: sessions of neighboring databases have the same tables with the same columns, ID columns and ID spaces. -/
theorem C34_domain {cast : SparkType → Value → Value} {sA sB : Sources} (hn : Neighbors sA sB) {meas : Measure}
    {outA outB : Output} (hA : initCore cast meas sA = .ok outA) (hB : initCore cast meas sB = .ok outB) :
    outA.domain = outB.domain := by
  unfold initCore at hA hB
  have hg : generateRelation sA = generateRelation sB := by
    unfold generateRelation
    rw [same_genLoop hn.same]
  rw [hg] at hA
  cases e : generateRelation sB with
  | error e' => rw [e] at hA; cases hA
  | ok rel =>
    rw [e] at hA hB
    dsimp only at hA hB
    unfold createCore at hA hB
    split at hA
    · cases hA
    split at hB
    · cases hB
    unfold visitConj at hA hB
    cases ea : visitChildren (frames sA) meas (flattens [rel]) ⟨[], [], [], []⟩ with
    | error e => rw [ea] at hA; cases hA
    | ok pa =>
      cases eb : visitChildren (frames sB) meas (flattens [rel]) ⟨[], [], [], []⟩ with
      | error e => rw [eb] at hB; cases hB
      | ok pb =>
        rw [ea] at hA
        rw [eb] at hB
        cases hA
        cases hB
        exact congrArg Dom.dict (visitChildren_congr (same_frames hn) meas _ _ _ _ _ rfl ea eb)

/-! ## Schemas of tables are dictionaries -/

/-- All tables of a domain have schemas without repeated columns. -/
def SchemasWF (d : Dom TableSchema) : Prop := ∀ p s, Path d p (.table s) → Dict.WF s

theorem schemasWF_dict {kvs : List (Ident × Dom TableSchema)} (h : ∀ k d, (k, d) ∈ kvs → SchemasWF d) : SchemasWF (.dict kvs) := by
  intro p s hp
  cases hp with
  | down hm hp' => exact h _ _ hm _ _ hp'

theorem keysLoop_wf (dfs : Tables) : ∀ (m : Dict String String) (doms ms ds) {x},
    (∀ k s, (k, s) ∈ doms → Dict.WF s) → keysLoop dfs m doms ms ds = .ok x → ∀ k s, (k, s) ∈ x.1 → Dict.WF s
  | [], doms, ms, ds, x, h, hk => by cases hk; exact h
  | (t, c) :: rest, doms, ms, ds, x, h, hk => by
    rw [keysLoop] at hk
    split at hk
    · cases hk
    · split at hk
      · cases hk
      · next s hs =>
        refine keysLoop_wf dfs rest _ _ _ ?_ hk
        intro k s' hm
        rcases mem_set hm with h1 | h1
        · exact h _ _ h1
        · cases h1; exact fromSparkSchema_wf hs

theorem widenAll_wf : ∀ (m : Dict Ident String) (doms : Dict Ident TableSchema) {x}, (∀ k s, (k, s) ∈ doms → Dict.WF s) →
    widenAll m doms = .ok x → ∀ k s, (k, s) ∈ x → Dict.WF s
  | [], doms, x, h, hk => by cases hk; exact h
  | (t, c) :: rest, doms, x, h, hk => by
    rw [widenAll] at hk
    split at hk
    · cases hk
    · next s0 h0 =>
      split at hk
      · cases hk
      · refine widenAll_wf rest _ ?_ hk
        intro k s' hm
        rcases mem_set hm with h1 | h1
        · exact h _ _ h1
        · cases h1; exact Dict.wf_set (h _ _ (Dict.mem_of_get h0)) _ _

theorem visitOne_wf {dfs : Tables} {meas : Measure} {c : Relation} {o : Output} (h : visitOne dfs meas c = .ok o) :
    SchemasWF o.domain := by
  have table : ∀ {df : Frame} {s : TableSchema}, fromSparkSchema df = .ok s → SchemasWF (.table s) := by
    intro df s hs p s' hp
    cases hp
    exact fromSparkSchema_wf hs
  cases c with
  | conj cs => cases h
  | rows t n =>
    rw [visitOne] at h
    split at h
    · cases h
    · next df _ =>
      cases e : fromSparkSchema df with
      | error e' => rw [e] at h; cases h
      | ok s => rw [e] at h; cases h; exact table e
  | groups t col g r =>
    rw [visitOne] at h
    split at h
    · cases h
    · next df _ =>
      cases e : fromSparkSchema df with
      | error e' => rw [e] at h; cases h
      | ok s => rw [e] at h; cases meas <;> cases h <;> exact table e
  | keys sp m k =>
    rw [visitOne] at h
    split at h
    · cases h
    · next doms ms ds hk =>
      cases e : ensureValid ms doms with
      | error e' => rw [e] at h; cases h
      | ok doms' =>
        rw [e] at h
        cases h
        have h1 := keysLoop_wf dfs m _ _ _ (by simp) hk
        have h2 : ∀ k s, (k, s) ∈ doms' → Dict.WF s := by
          unfold ensureValid at e
          split at e
          · cases e
          · cases e; exact h1
          · exact widenAll_wf _ _ h1 e
        refine schemasWF_dict fun k d hm => ?_
        obtain ⟨⟨k', s⟩, hm', he⟩ := List.mem_map.1 hm
        cases he
        intro p s' hp
        cases hp
        exact h2 _ _ hm'

theorem visitChildren_wf (dfs : Tables) (meas : Measure) : ∀ (cs : List Relation) (p q : Parts),
    (∀ k d, (k, d) ∈ p.domain → SchemasWF d) → visitChildren dfs meas cs p = .ok q → ∀ k d, (k, d) ∈ q.domain → SchemasWF d
  | [], p, q, h, hv => by cases hv; exact h
  | c :: cs, p, q, h, hv => by
    rw [visitChildren] at hv
    split at hv
    · cases hv
    · split at hv
      · cases hv
      · next o ho =>
        refine visitChildren_wf dfs meas cs _ q ?_ hv
        intro k d hm
        rcases mem_set hm with h1 | h1
        · exact h _ _ h1
        · cases h1; exact visitOne_wf ho

theorem initCore_schemas {cast : SparkType → Value → Value} {meas : Measure} {s : Sources} {out : Output}
    (h : initCore cast meas s = .ok out) : SchemasWF out.domain := by
  unfold initCore at h
  split at h
  · cases h
  unfold createCore at h
  split at h
  · cases h
  unfold visitConj at h
  next rel _ _ _ =>
  cases e : visitChildren (frames s) meas (flattens [rel]) ⟨[], [], [], []⟩ with
  | error e' => rw [e] at h; cases h
  | ok p =>
    rw [e] at h
    cases h
    exact schemasWF_dict (visitChildren_wf _ _ _ _ _ (by simp) e)

end Verif.Relation
