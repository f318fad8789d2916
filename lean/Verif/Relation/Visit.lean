import Verif.Relation.Generate

/-!
# C33: the domain, metric, distance and data of a relation
-/

namespace Verif.Relation

open Verif
open Verif.Schema (SparkType Field Frame SparkDesc PyErr)

/-! ## Specification -/

/-- The descriptor of a column: as in the data frame, except that the column `widen` may hold nulls. -/
def expected (df : Frame) (widen : Option String) (col : String) : Option SparkDesc :=
  (df.fields.find? (fun f => decide (f.name = col))).bind
    (fun f => fieldSpark (if widen = some col then { f with nullable := true } else f))

/-- Some key column may hold nulls. -/
def NullableKey (m : Dict String String) (dfs : Tables) : Prop :=
  ∃ t c df f, (t, c) ∈ m ∧ (t, df) ∈ dfs ∧ f ∈ df.fields ∧ f.name = c ∧ f.nullable = true

/-- What core is given for a relation. -/
def GoodOut (dfs : Tables) (meas : Measure) : Relation → Output → Prop
  | .rows t n, o => ∃ df s, (t, df) ∈ dfs ∧ o = ⟨.table s, .symDiff, .num n, .table df⟩ ∧
    ∀ col, Dict.get s col = expected df none col
  | .groups t c g r, o => ∃ df s, (t, df) ∈ dfs ∧
    o = (if meas = .zCDP then ⟨.table s, .groupedRoot c, .timesRoot r g, .table df⟩
      else ⟨.table s, .groupedSum c, .num (r * g), .table df⟩) ∧
    ∀ col, Dict.get s col = expected df none col
  | .keys _ m k, o => ∃ doms ds,
    o = ⟨tableDom doms, .addRemoveKeys (m.map (fun p => (.named p.1, p.2))), .num k, tableDom ds⟩ ∧
    Dict.keys doms = (Dict.keys m).map Ident.named ∧ Dict.keys ds = (Dict.keys m).map Ident.named ∧
    ∀ t c, (t, c) ∈ m → ∀ df, (t, df) ∈ dfs → Dict.get ds (.named t) = some df ∧
      ∃ s, Dict.get doms (.named t) = some s ∧ ∀ col,
        (NullableKey m dfs → Dict.get s col = expected df (some c) col) ∧
        (¬ NullableKey m dfs → Dict.get s col = expected df none col)
  | .conj _, _ => False

/-! ## Proofs -/

theorem fieldSpark_nullable (f : Field) : fieldSpark { f with nullable := true } = (fieldSpark f).map setNull := by
  unfold fieldSpark
  cases f.ty <;> rfl

theorem expected_eq (df : Frame) (widen : Option String) (col : String) :
    expected df widen col = ((df.fields.find? (fun f => decide (f.name = col))).bind fieldSpark).map
      (fun d => if widen = some col then setNull d else d) := by
  unfold expected
  cases df.fields.find? (fun f => decide (f.name = col)) with
  | none => rfl
  | some f =>
    by_cases h : widen = some col
    · simp only [Option.bind_some, h, if_true, fieldSpark_nullable]
    · simp only [Option.bind_some, h, if_false, Option.map_id']

variable {cast : SparkType → Value → Value}

theorem coerced_types {df : Frame} (h : Schema.coerce cast df = .ok df) : ∀ f ∈ df.fields, f.ty ∈ Schema.supported := by
  unfold Schema.coerce at h
  split at h
  · cases h
  · split at h
    · cases h
    · rename_i h2
      rw [not_not, List.length_eq_zero_iff, List.filter_eq_nil_iff] at h2
      intro f hf
      have := h2 f hf
      simpa using this

theorem fieldSpark_some {f : Field} (h : f.ty ∈ Schema.supported) : ∃ d, fieldSpark f = some d := by
  unfold fieldSpark
  cases ht : f.ty with
  | other n => rw [ht] at h; simp [Schema.supported] at h
  | _ => exact ⟨_, rfl⟩

theorem fieldsSpark_ok : ∀ {fs : List Field}, (∀ f ∈ fs, f.ty ∈ Schema.supported) →
    ∃ ds : Dict String SparkDesc, fieldsSpark fs = some ds ∧ ds.map Prod.fst = fs.map Field.name ∧
      ∀ col, Dict.get ds col = (fs.find? (fun f => decide (f.name = col))).bind fieldSpark
  | [], _ => ⟨[], rfl, rfl, fun col => rfl⟩
  | f :: fs, h => by
    obtain ⟨d, hd⟩ := fieldSpark_some (h f (by simp))
    obtain ⟨ds, h1, h2, h3⟩ := fieldsSpark_ok (fun x hx => h x (List.mem_cons_of_mem _ hx))
    refine ⟨(f.name, d) :: ds, by rw [fieldsSpark, hd, h1], by simp [h2], fun col => ?_⟩
    rw [Dict.get_cons, List.find?_cons, h3]
    by_cases hc : f.name = col
    · rw [if_pos hc.symm, decide_eq_true hc]
      exact hd.symm
    · rw [if_neg (Ne.symm hc), decide_eq_false hc]

theorem fromSparkSchema_ok {df : Frame} (h : Schema.coerce cast df = .ok df) (hn : (columns df).Nodup) :
    ∃ s, fromSparkSchema df = .ok s ∧ ∀ col, Dict.get s col = expected df none col := by
  obtain ⟨ds, h1, h2, h3⟩ := fieldsSpark_ok (coerced_types h)
  refine ⟨ds, ?_, fun col => ?_⟩
  · unfold fromSparkSchema
    rw [h1]
    dsimp only
    rw [Dict.ofPairs_eq]
    rw [h2]
    exact hn
  · rw [h3]
    rw [expected_eq]
    simp

/-- The schema core derives from a table. -/
def schemaOf (dfs : Tables) (t : String) : TableSchema :=
  match Dict.get dfs t with
  | none => []
  | some df =>
    match fromSparkSchema df with
    | .ok s => s
    | .error _ => []

def frameOf (dfs : Tables) (t : String) : Frame := (Dict.get dfs t).getD ⟨[], []⟩

theorem keysLoop_ok (dfs : Tables) : ∀ (m : Dict String String) (doms ms ds),
    (∀ t ∈ Dict.keys m, ∃ df s, Dict.get dfs t = some df ∧ fromSparkSchema df = .ok s) →
    Dict.WF m →
    (∀ t ∈ Dict.keys m, Ident.named t ∉ Dict.keys doms ∧ Ident.named t ∉ Dict.keys ms ∧ Ident.named t ∉ Dict.keys ds) →
    keysLoop dfs m doms ms ds = .ok (doms ++ m.map (fun p => (.named p.1, schemaOf dfs p.1)),
      ms ++ m.map (fun p => (.named p.1, p.2)), ds ++ m.map (fun p => (.named p.1, frameOf dfs p.1)))
  | [], doms, ms, ds, _, _, _ => by simp [keysLoop]
  | (t, c) :: m, doms, ms, ds, h, hw, hn => by
    obtain ⟨df, s, h1, h2⟩ := h t (by simp [Dict.keys])
    have hs : schemaOf dfs t = s := by unfold schemaOf; rw [h1]; dsimp only; rw [h2]
    have hf : frameOf dfs t = df := by unfold frameOf; rw [h1]; rfl
    unfold Dict.WF at hw
    rw [List.map_cons, List.nodup_cons] at hw
    obtain ⟨n1, n2, n3⟩ := hn t (by simp [Dict.keys])
    rw [keysLoop, h1]
    dsimp only
    rw [h2]
    dsimp only
    rw [Dict.set_new n1, Dict.set_new n2, Dict.set_new n3, keysLoop_ok dfs m _ _ _ ?_ hw.2 ?_, ← hs, ← hf]
    · simp
    · intro x hx
      exact h x (by simp only [Dict.keys, List.map_cons, List.mem_cons]; exact .inr hx)
    · intro x hx
      obtain ⟨a1, a2, a3⟩ := hn x (by simp only [Dict.keys, List.map_cons, List.mem_cons]; exact .inr hx)
      have hxt : x ≠ t := fun e => hw.1 (e ▸ hx)
      have step : ∀ {V : Type} (d : Dict Ident V) (v : V), Ident.named x ∉ Dict.keys d →
          Ident.named x ∉ Dict.keys (d ++ [(Ident.named t, v)]) := by
        intro V d v hd
        rw [Dict.keys_append, List.mem_append]
        rintro (h | h)
        · exact hd h
        · simp [Dict.keys] at h
          exact hxt h
      exact ⟨step _ _ a1, step _ _ a2, step _ _ a3⟩

theorem anyNullable_ok (doms : Dict Ident TableSchema) : ∀ ms : Dict Ident String,
    (∀ t c, (t, c) ∈ ms → ∃ s d, Dict.get doms t = some s ∧ Dict.get s c = some d) →
    ∃ b, anyNullable doms ms = .ok b ∧ (b = true ↔ ∃ t c s d, (t, c) ∈ ms ∧ Dict.get doms t = some s ∧
      Dict.get s c = some d ∧ allowNull d = true)
  | [], _ => ⟨false, rfl, by simp⟩
  | (t, c) :: ms, h => by
    obtain ⟨s, d, h1, h2⟩ := h t c (by simp)
    obtain ⟨b, hb, hiff⟩ := anyNullable_ok doms ms (fun t c hm => h t c (List.mem_cons_of_mem _ hm))
    rw [anyNullable, h1]
    dsimp only [Option.bind]
    rw [h2]
    dsimp only
    by_cases hd : allowNull d = true
    · rw [if_pos hd]
      exact ⟨true, rfl, by simp only [true_iff]; exact ⟨t, c, s, d, by simp, h1, h2, hd⟩⟩
    · rw [if_neg hd]
      refine ⟨b, hb, hiff.trans ⟨?_, ?_⟩⟩
      · rintro ⟨t', c', s', d', hm, hr⟩
        exact ⟨t', c', s', d', List.mem_cons_of_mem _ hm, hr⟩
      · rintro ⟨t', c', s', d', hm, g1, g2, g3⟩
        rcases List.mem_cons.1 hm with he | hm'
        · cases he
          rw [h1] at g1
          cases g1
          rw [h2] at g2
          cases g2
          exact absurd g3 hd
        · exact ⟨t', c', s', d', hm', g1, g2, g3⟩

theorem keys_set_mem {K V : Type} [DecidableEq K] {d : Dict K V} {k : K} (h : k ∈ Dict.keys d) (v : V) :
    Dict.keys (Dict.set d k v) = Dict.keys d := by
  rw [Dict.keys_set, if_pos h]

theorem widenAll_ok : ∀ (ms : Dict Ident String) (doms : Dict Ident TableSchema), Dict.WF ms →
    (∀ t c, (t, c) ∈ ms → ∃ s d, Dict.get doms t = some s ∧ Dict.get s c = some d) →
    ∃ doms', widenAll ms doms = .ok doms' ∧ Dict.keys doms' = Dict.keys doms ∧
      (∀ t, t ∉ Dict.keys ms → Dict.get doms' t = Dict.get doms t) ∧
      ∀ t c, (t, c) ∈ ms → ∀ s d, Dict.get doms t = some s → Dict.get s c = some d →
        Dict.get doms' t = some (Dict.set s c (setNull d))
  | [], doms, _, _ => ⟨doms, rfl, rfl, fun _ _ => rfl, by simp⟩
  | (t, c) :: ms, doms, hw, h => by
    unfold Dict.WF at hw
    rw [List.map_cons, List.nodup_cons] at hw
    obtain ⟨s, d, h1, h2⟩ := h t c (by simp)
    have hne : ∀ t' c', (t', c') ∈ ms → t' ≠ t := fun t' c' hm e => hw.1 (e ▸ List.mem_map.2 ⟨_, hm, rfl⟩)
    obtain ⟨doms', w1, w2, w3, w4⟩ := widenAll_ok ms (Dict.set doms t (Dict.set s c (setNull d))) hw.2
      (fun t' c' hm => by
        obtain ⟨s', d', g1, g2⟩ := h t' c' (List.mem_cons_of_mem _ hm)
        exact ⟨s', d', by rw [Dict.get_set, if_neg (hne t' c' hm), g1], g2⟩)
    refine ⟨doms', by rw [widenAll, h1]; dsimp only; rw [h2]; exact w1, ?_, ?_, ?_⟩
    · rw [w2, keys_set_mem (Dict.get_isSome.1 (by rw [h1]; rfl))]
    · intro x hx
      simp only [Dict.keys, List.map_cons, List.mem_cons, not_or] at hx
      rw [w3 x hx.2, Dict.get_set, if_neg hx.1]
    · intro t' c' hm s' d' g1 g2
      rcases List.mem_cons.1 hm with he | hm'
      · cases he
        rw [h1] at g1
        cases g1
        rw [h2] at g2
        cases g2
        rw [w3 _ hw.1, Dict.get_set, if_pos rfl]
      · exact w4 t' c' hm' s' d' (by rw [Dict.get_set, if_neg (hne t' c' hm'), g1]) g2

theorem get_named {V : Type} (m : Dict String String) (f : String → V) (hw : Dict.WF m) {t c : String} (h : (t, c) ∈ m) :
    Dict.get (m.map (fun p => (Ident.named p.1, f p.1))) (.named t) = some (f t) := by
  have hw' : Dict.WF (m.map (fun p => (Ident.named p.1, f p.1))) := by
    unfold Dict.WF
    have : (m.map (fun p => (Ident.named p.1, f p.1))).map Prod.fst = (m.map Prod.fst).map Ident.named := by simp
    rw [this]
    exact List.Nodup.map (fun a b h => by cases h; rfl) hw
  exact (Dict.get_eq_some hw').2 (List.mem_map.2 ⟨(t, c), h, rfl⟩)

theorem allowNull_field {f : Field} {d : SparkDesc} (h : fieldSpark f = some d) : allowNull d = f.nullable := by
  unfold fieldSpark at h
  cases ht : f.ty <;> rw [ht] at h <;> cases h <;> rfl

theorem find_unique {df : Frame} (hn : (columns df).Nodup) {f : Field} (hf : f ∈ df.fields) :
    df.fields.find? (fun g => decide (g.name = f.name)) = some f := by
  unfold columns at hn
  generalize df.fields = fs at hn hf
  induction fs with
  | nil => simp at hf
  | cons g fs ih =>
    rw [List.map_cons, List.nodup_cons] at hn
    rw [List.find?_cons]
    rcases List.mem_cons.1 hf with rfl | hf'
    · simp
    · have : g.name ≠ f.name := fun e => hn.1 (e ▸ List.mem_map_of_mem hf')
      rw [decide_eq_false this]
      exact ih hn.2 hf'

theorem expected_widen {df : Frame} {s : TableSchema} {c : String} {d : SparkDesc}
    (h : ∀ col, Dict.get s col = expected df none col) (hd : Dict.get s c = some d) (col : String) :
    Dict.get (Dict.set s c (setNull d)) col = expected df (some c) col := by
  rw [Dict.get_set]
  by_cases hc : col = c
  · subst hc
    rw [if_pos rfl]
    rw [h] at hd
    rw [expected_eq] at hd ⊢
    cases hf : (df.fields.find? (fun f => decide (f.name = col))).bind fieldSpark with
    | none => rw [hf] at hd; cases hd
    | some d' =>
      rw [hf] at hd
      simp at hd ⊢
      rw [hd]
  · rw [if_neg hc, h]
    rw [expected_eq, expected_eq]
    simp [Ne.symm hc]

theorem visitOne_ok {dfs : Tables} {c : Relation} (meas : Measure) (hs : c.Simple) (hw : Dict.WF dfs)
    (hc : CoercedAll cast dfs) (hn : ∀ t df, (t, df) ∈ dfs → (columns df).Nodup)
    (hcov : ∀ t ∈ c.covers, t ∈ Dict.keys dfs) (hok : c.ColumnsOK dfs) :
    ∃ o, visitOne dfs meas c = .ok o ∧ GoodOut dfs meas c o := by
  cases c with
  | conj => exact absurd hs id
  | rows t n =>
    obtain ⟨df, hm⟩ := Dict.mem_keys.1 (hcov t (by simp [Relation.covers]))
    obtain ⟨s, h1, h2⟩ := fromSparkSchema_ok (hc t df hm) (hn t df hm)
    refine ⟨⟨.table s, .symDiff, .num n, .table df⟩, ?_, ⟨df, s, hm, rfl, h2⟩⟩
    rw [visitOne, (Dict.get_eq_some hw).2 hm]
    dsimp only
    rw [h1]
    rfl
  | groups t col g r =>
    obtain ⟨df, hm⟩ := Dict.mem_keys.1 (hcov t (by simp [Relation.covers]))
    obtain ⟨s, h1, h2⟩ := fromSparkSchema_ok (hc t df hm) (hn t df hm)
    refine ⟨if meas = .zCDP then ⟨.table s, .groupedRoot col, .timesRoot r g, .table df⟩
      else ⟨.table s, .groupedSum col, .num (r * g), .table df⟩, ?_, ⟨df, s, hm, rfl, h2⟩⟩
    rw [visitOne, (Dict.get_eq_some hw).2 hm]
    dsimp only
    rw [h1]
    cases meas <;> rfl
  | keys sp m k =>
    have hwm : Dict.WF m := hs
    have hget : ∀ t ∈ Dict.keys m, ∃ df s, Dict.get dfs t = some df ∧ fromSparkSchema df = .ok s ∧
        (∀ col, Dict.get s col = expected df none col) := by
      intro t ht
      obtain ⟨df, hm⟩ := Dict.mem_keys.1 (hcov t ht)
      obtain ⟨s, h1, h2⟩ := fromSparkSchema_ok (hc t df hm) (hn t df hm)
      exact ⟨df, s, (Dict.get_eq_some hw).2 hm, h1, h2⟩
    have hloop := keysLoop_ok dfs m [] [] [] (fun t ht => by
      obtain ⟨df, s, a, b, _⟩ := hget t ht
      exact ⟨df, s, a, b⟩) hwm (by simp [Dict.keys])
    simp only [List.nil_append] at hloop
    have hms : Dict.WF (m.map (fun p => (Ident.named p.1, p.2))) := by
      unfold Dict.WF
      have : (m.map (fun p => (Ident.named p.1, p.2))).map Prod.fst = (m.map Prod.fst).map Ident.named := by simp
      rw [this]
      exact List.Nodup.map (fun a b h => by cases h; rfl) hwm
    -- what is known of each table
    have hall : ∀ t c, (t, c) ∈ m → ∃ df s d f, (t, df) ∈ dfs ∧ frameOf dfs t = df ∧ schemaOf dfs t = s ∧
        (∀ col, Dict.get s col = expected df none col) ∧ f ∈ df.fields ∧ f.name = c ∧ fieldSpark f = some d ∧
        Dict.get s c = some d := by
      intro t c htc
      obtain ⟨df, s, a, b, e⟩ := hget t (Dict.mem_keys.2 ⟨c, htc⟩)
      have hm := Dict.mem_of_get a
      obtain ⟨ty, _, hcol⟩ := hok
      obtain ⟨f, hf, hfn⟩ := List.mem_map.1 (hcol t c htc df hm).1
      obtain ⟨d, hd⟩ := fieldSpark_some (coerced_types (hc t df hm) f hf)
      refine ⟨df, s, d, f, hm, ?_, ?_, e, hf, hfn, hd, ?_⟩
      · unfold frameOf; rw [a]; rfl
      · unfold schemaOf; rw [a]; dsimp only; rw [b]
      · rw [e]
        rw [expected_eq]
        rw [← hfn, find_unique (hn t df hm) hf]
        simp [hd]
    have hlook : ∀ t c, (t, c) ∈ m.map (fun p => (Ident.named p.1, p.2)) → ∃ s d,
        Dict.get (m.map (fun p => (Ident.named p.1, schemaOf dfs p.1))) t = some s ∧ Dict.get s c = some d := by
      intro i c hm
      obtain ⟨⟨t, c'⟩, hm', he⟩ := List.mem_map.1 hm
      cases he
      obtain ⟨df, s, d, f, _, _, hsc, _, _, _, _, hd⟩ := hall t c' hm'
      exact ⟨s, d, by rw [get_named m (schemaOf dfs) hwm hm', hsc], hd⟩
    obtain ⟨b, hb, hiff⟩ := anyNullable_ok _ _ hlook
    have hnull : b = true ↔ NullableKey m dfs := by
      rw [hiff]
      constructor
      · rintro ⟨i, c, s, d, hm, g1, g2, g3⟩
        obtain ⟨⟨t, c'⟩, hm', he⟩ := List.mem_map.1 hm
        cases he
        obtain ⟨df, s', d', f, a1, _, a3, _, a5, a6, a7, a8⟩ := hall t c' hm'
        rw [get_named m (schemaOf dfs) hwm hm', a3] at g1
        cases g1
        rw [a8] at g2
        cases g2
        exact ⟨t, c', df, f, hm', a1, a5, a6, by rw [← allowNull_field a7]; exact g3⟩
      · rintro ⟨t, c, df, f, hm, hdf, hf, hfn, hfnull⟩
        obtain ⟨df', s', d', f', a1, _, a3, _, a5, a6, a7, a8⟩ := hall t c hm
        have e : df' = df := by
          have e1 := (Dict.get_eq_some hw).2 a1
          rw [(Dict.get_eq_some hw).2 hdf] at e1
          cases e1
          rfl
        subst e
        have e2 : f' = f := by
          have u1 := find_unique (hn t _ hdf) hf
          have u2 := find_unique (hn t _ hdf) a5
          rw [hfn] at u1
          rw [a6, u1] at u2
          cases u2
          rfl
        subst e2
        refine ⟨.named t, c, s', d', List.mem_map.2 ⟨(t, c), hm, rfl⟩, ?_, a8, by rw [allowNull_field a7]; exact hfnull⟩
        rw [get_named m (schemaOf dfs) hwm hm, a3]
    have hkeys : ∀ {V : Type} (g : String → V), Dict.keys (m.map (fun p => (Ident.named p.1, g p.1))) =
        (Dict.keys m).map Ident.named := fun g => by simp [Dict.keys]
    have hframe : ∀ t c, (t, c) ∈ m → ∀ df, (t, df) ∈ dfs →
        Dict.get (m.map (fun p => (Ident.named p.1, frameOf dfs p.1))) (.named t) = some df := by
      intro t c hm df hdf
      rw [get_named m (frameOf dfs) hwm hm]
      unfold frameOf
      rw [(Dict.get_eq_some hw).2 hdf]
      rfl
    have huniq : ∀ {t df df'}, (t, df) ∈ dfs → (t, df') ∈ dfs → df = df' := by
      intro t df df' h1 h2
      have e1 := (Dict.get_eq_some hw).2 h1
      rw [(Dict.get_eq_some hw).2 h2] at e1
      cases e1
      rfl
    cases b with
    | false =>
      refine ⟨_, by rw [visitOne, hloop]; dsimp only; rw [ensureValid, hb]; rfl, _, _, rfl, hkeys _, hkeys _, ?_⟩
      intro t c hm df hdf
      refine ⟨hframe t c hm df hdf, ?_⟩
      obtain ⟨df', s', d', f', a1, _, a3, a4, _⟩ := hall t c hm
      cases huniq a1 hdf
      refine ⟨s', by rw [get_named m (schemaOf dfs) hwm hm, a3], fun col => ⟨fun hnk => ?_, fun _ => a4 col⟩⟩
      exact absurd (hnull.2 hnk) (by simp)
    | true =>
      obtain ⟨doms', w1, w2, _, w4⟩ := widenAll_ok _ _ hms hlook
      refine ⟨_, by rw [visitOne, hloop]; dsimp only; rw [ensureValid, hb]; dsimp only; rw [w1]; rfl, _, _, rfl, ?_,
        hkeys _, ?_⟩
      · rw [w2]; exact hkeys _
      intro t c hm df hdf
      refine ⟨hframe t c hm df hdf, ?_⟩
      obtain ⟨df', s', d', f', a1, _, a3, a4, _, _, _, a8⟩ := hall t c hm
      cases huniq a1 hdf
      refine ⟨_, w4 (.named t) c (List.mem_map.2 ⟨(t, c), hm, rfl⟩) s' d'
        (by rw [get_named m (schemaOf dfs) hwm hm, a3]) a8, fun col => ⟨fun _ => expected_widen a4 a8 col, fun hnk => ?_⟩⟩
      exact absurd (hnull.1 rfl) hnk

end Verif.Relation
