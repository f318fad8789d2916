import Verif.Expr.PropsSchema
import Verif.Constraint.Truncate

/-!
# The ID column of a compiled query: lookups in the rows of each transformation
-/

namespace Verif.Expr

open Verif Verif.Schema Verif.Constraint

/-! ## Values in rows -/

theorem RowOK.get {dom : Dict String SparkDesc} {r : Row} (h : RowOK dom r) {c : String}
    (hc : c ∈ Dict.keys dom) : Row.get r c = some (Expr.cell r c) := by
  obtain ⟨d, hd⟩ := Option.isSome_iff_exists.1 (Dict.get_isSome.2 hc)
  exact (h.cell hd).1

theorem get_row_rename {dom : Dict String SparkDesc} {r : Row} (hr : RowOK dom r) {f : String → String}
    (inj : ∀ a ∈ Dict.keys dom, ∀ b ∈ Dict.keys dom, f a = f b → a = b) {c : String}
    (hc : c ∈ Dict.keys dom) : Row.get (r.map (fun p => (f p.1, p.2))) (f c) = Row.get r c :=
  get_rename (fun a ha b hb => inj a ((hr.mem_cols a).1 ha) b ((hr.mem_cols b).1 hb)) ((hr.mem_cols c).2 hc)

theorem get_row_select {cols : List String} (r : Row) {c : String} (hc : c ∈ cols) :
    Row.get (cols.map (fun c => (c, cell r c))) c = some (cell r c) := by
  show Dict.get (cols.map (fun c => (c, cell r c))) c = _
  induction cols with
  | nil => simp at hc
  | cons x xs ih =>
    rw [List.map_cons, Dict.get_cons]
    by_cases h : c = x
    · subst h; rw [if_pos rfl]
    · rw [if_neg h]
      exact ih ((List.mem_cons.1 hc).resolve_left h)

theorem get_row_append {dom : Dict String SparkDesc} {r : Row} (hr : RowOK dom r) (x : Row) {c : String}
    (hc : c ∈ Dict.keys dom) : Row.get (r ++ x) c = Row.get r c := by
  show Dict.get (r ++ x) c = Dict.get r c
  rw [Dict.get_append, show Dict.get r c = some (cell r c) from hr.get hc]
  rfl

theorem get_replaceRow (p : Value → Bool) (m : Dict String Value) (r : Row) (c : String) :
    Row.get (replaceRow p m r) c =
      (Row.get r c).map (fun v => if p v then (Dict.get m c).getD v else v) := by
  rw [replaceRow_eq]
  exact get_mapVal r (fun q => if p q.2 then (Dict.get m q.1).getD q.2 else q.2) c

theorem get_replaceRow_of_notMem (p : Value → Bool) {m : Dict String Value} (r : Row) {c : String}
    (hc : c ∉ Dict.keys m) : Row.get (replaceRow p m r) c = Row.get r c := by
  rw [get_replaceRow, Dict.get_eq_none.2 hc]
  simp

theorem keys_restrict {V : Type} {p : SparkDesc → Bool} {dom : Dict String SparkDesc} {rw : Dict String V}
    {c : String} (h : c ∈ Dict.keys (restrict p dom rw)) :
    c ∈ Dict.keys rw ∧ (Dict.get dom c).any p = true := by
  obtain ⟨v, hv⟩ := Dict.mem_keys.1 h
  obtain ⟨h1, h2⟩ := List.mem_filter.1 hv
  exact ⟨Dict.mem_keys.2 ⟨v, h1⟩, h2⟩

/-- The replaced columns: not the one the metric groups by; the given ones, if any are given. -/
theorem replaceWith_keys {w : Dict String Value} {dom : Dict String SparkDesc} {grp : Option String}
    {rw : Dict String Value} (h : replaceWith w dom grp = .ok rw) (hg : ∀ c, grp = some c → c ∉ Dict.keys w) :
    (∀ c, grp = some c → c ∉ Dict.keys rw) ∧ (w ≠ [] → Dict.keys rw = Dict.keys w) := by
  unfold replaceWith at h
  split at h
  · next hw =>
    cases h
    refine ⟨?_, fun hn => absurd hw hn⟩
    intro c hc hk
    obtain ⟨v, hv⟩ := Dict.mem_keys.1 hk
    obtain ⟨p, hp, e⟩ := List.mem_map.1 hv
    cases e
    have := (List.mem_filter.1 hp).2
    simp [hc] at this
  · split at h
    · cases h
    · cases h
      refine ⟨?_, fun _ => ?_⟩
      · intro c hc
        rw [keys_mapVal' w (fun p => if (Dict.get dom p.1).any isFloat then toFloat p.2 else p.2)]
        exact hg c hc
      · exact keys_mapVal' w (fun p => if (Dict.get dom p.1).any isFloat then toFloat p.2 else p.2)

theorem keys_infReplaceWith {w : Dict String (Value × Value)} {dom : Dict String SparkDesc} (hw : w ≠ []) :
    Dict.keys (infReplaceWith w dom) = Dict.keys w := by
  unfold infReplaceWith
  rw [if_neg hw]
  exact keys_mapVal' w (fun p => (toFloat p.2.1, toFloat p.2.2))

/-- The value that replaces `v` in column `c`. -/
def infVal (rw : Dict String (Value × Value)) (c : String) (v : Value) : Value :=
  let u := if isNinf v then ((Dict.get rw c).map Prod.fst).getD v else v
  if isPinf u then ((Dict.get rw c).map Prod.snd).getD u else u

theorem get_replaceInfRow (rw : Dict String (Value × Value)) (r : Row) (c : String) :
    Row.get (replaceInfRow rw r) c = (Row.get r c).map (infVal rw c) := by
  unfold replaceInfRow
  rw [get_replaceRow, get_replaceRow, get_mapVal rw (fun p => p.2.1), get_mapVal rw (fun p => p.2.2),
    Option.map_map]
  rfl

theorem infVal_of_notMem {rw : Dict String (Value × Value)} {c : String} (hc : c ∉ Dict.keys rw) (v : Value) :
    infVal rw c v = v := by
  unfold infVal
  rw [Dict.get_eq_none.2 hc]
  simp

theorem get_replaceInfRow_of_notMem {rw : Dict String (Value × Value)} {c : String} (hc : c ∉ Dict.keys rw)
    (r : Row) : Row.get (replaceInfRow rw r) c = Row.get r c := by
  rw [get_replaceInfRow]
  cases Row.get r c <;> simp [infVal_of_notMem hc]

/-! ## Rows of a join -/

theorem joinCols_mem_left {how : How} {ld rd js : Dict String SparkDesc} {jc : List String}
    (h : joinColDescs how ld rd jc = some js) : ∀ c ∈ jc, c ∈ Dict.keys ld := by
  induction jc generalizing js with
  | nil => simp
  | cons c cs ih =>
    rw [joinColDescs] at h
    split at h
    · next d ds hd hds =>
      intro x hx
      rcases List.mem_cons.1 hx with rfl | hx
      · unfold joinColDesc at hd
        split at hd
        · next a b ha hb => exact Dict.get_isSome.1 (by rw [ha]; rfl)
        · cases hd
      · exact ih hds x hx
    · cases h

theorem domainAfterJoin_jc {how : How} {ld rd dom : Dict String SparkDesc} {jc : List String}
    (h : domainAfterJoin how ld rd jc = .ok dom) :
    ∀ c ∈ jc, c ∈ Dict.keys ld ∧ c ∈ Dict.keys rd := by
  unfold domainAfterJoin at h
  split at h
  · split at h
    · next js hj => exact fun c hc => ⟨joinCols_mem_left hj c hc, joinCols_mem hj c hc⟩
    · cases h
  · cases h

section
variable {lk rk jc : List String} {l r : Row}

theorem get_of_mem {x : Row} (w : Dict.WF x) {c : String} {v : Value} (h : (c, v) ∈ x) : Row.get x c = some v :=
  (Dict.get_eq_some w).2 h

theorem mem_joinRow_jc {c : String} (hc : c ∈ jc) : (c, cell l c) ∈ joinRow lk rk jc l r := by
  unfold joinRow
  simp only [List.mem_append, List.mem_map]
  exact Or.inl (Or.inl (Or.inl ⟨c, hc, rfl⟩))

theorem mem_joinRow_left {c : String} (hc : c ∈ lk) :
    (suffixed (overlap lk rk jc) "_left" c, cell l c) ∈ joinRow lk rk jc l r := by
  by_cases hj : c ∈ jc
  · have : c ∉ overlap lk rk jc := fun h => (overlap_mem h).2.2 hj
    rw [suffixed, if_neg this]
    exact mem_joinRow_jc hj
  · by_cases hr : c ∈ rk
    · have ho : c ∈ overlap lk rk jc := by
        simp only [overlap, common, List.mem_filter, decide_eq_true_eq]
        exact ⟨⟨hc, hr⟩, hj⟩
      rw [suffixed, if_pos ho]
      unfold joinRow
      simp only [List.mem_append, List.mem_flatMap]
      exact Or.inr ⟨c, ho, by simp⟩
    · have : c ∉ overlap lk rk jc := fun h => hr (overlap_mem h).2.1
      rw [suffixed, if_neg this]
      unfold joinRow
      simp only [List.mem_append, List.mem_map, List.mem_filter, decide_eq_true_eq]
      exact Or.inl (Or.inl (Or.inr ⟨c, ⟨hc, hr⟩, rfl⟩))

theorem mem_joinRow_right {c : String} (hc : c ∈ rk) (hm : matches_ jc l r = true) :
    (suffixed (overlap lk rk jc) "_right" c, cell r c) ∈ joinRow lk rk jc l r := by
  by_cases hj : c ∈ jc
  · have : c ∉ overlap lk rk jc := fun h => (overlap_mem h).2.2 hj
    rw [suffixed, if_neg this, ← matches_iff.1 hm c hj]
    exact mem_joinRow_jc hj
  · by_cases hl : c ∈ lk
    · have ho : c ∈ overlap lk rk jc := by
        simp only [overlap, common, List.mem_filter, decide_eq_true_eq]
        exact ⟨⟨hl, hc⟩, hj⟩
      rw [suffixed, if_pos ho]
      unfold joinRow
      simp only [List.mem_append, List.mem_flatMap]
      exact Or.inr ⟨c, ho, by simp⟩
    · have : c ∉ overlap lk rk jc := fun h => hl (overlap_mem h).1
      rw [suffixed, if_neg this]
      unfold joinRow
      simp only [List.mem_append, List.mem_map, List.mem_filter, decide_eq_true_eq]
      exact Or.inl (Or.inr ⟨c, ⟨hc, hl⟩, rfl⟩)

end

theorem suffixed_mem_left {how : How} {ld rd dom : Dict String SparkDesc} {jc : List String}
    (h : domainAfterJoin how ld rd jc = .ok dom) {c : String} (hc : c ∈ Dict.keys ld) :
    suffixed (overlap (Dict.keys ld) (Dict.keys rd) jc) "_left" c ∈ Dict.keys dom := by
  rw [(domainAfterJoin_keys h).1]
  have := mem_joinRow_left (l := []) (r := []) (rk := Dict.keys rd) (jc := jc) hc
  have hk : (joinRow (Dict.keys ld) (Dict.keys rd) jc [] []).map Prod.fst =
      joinKeys (Dict.keys ld) (Dict.keys rd) jc := by
    simp [joinRow, joinKeys, Function.comp_def, List.map_flatMap]
  rw [← hk]
  exact List.mem_map.2 ⟨_, this, rfl⟩

theorem suffixed_mem_right {how : How} {ld rd dom : Dict String SparkDesc} {jc : List String}
    (h : domainAfterJoin how ld rd jc = .ok dom) {c : String} (hc : c ∈ Dict.keys rd) :
    suffixed (overlap (Dict.keys ld) (Dict.keys rd) jc) "_right" c ∈ Dict.keys dom := by
  rw [(domainAfterJoin_keys h).1]
  have := mem_joinRow_right (l := []) (r := []) (lk := Dict.keys ld) (jc := jc) hc (by simp [matches_iff])
  have hk : (joinRow (Dict.keys ld) (Dict.keys rd) jc [] []).map Prod.fst =
      joinKeys (Dict.keys ld) (Dict.keys rd) jc := by
    simp [joinRow, joinKeys, Function.comp_def, List.map_flatMap]
  rw [← hk]
  exact List.mem_map.2 ⟨_, this, rfl⟩

/-- A column of the left table in a row of a join. -/
theorem get_joinRow_left {how : How} {ld rd dom : Dict String SparkDesc} {jc : List String} {l r : Row}
    (h : domainAfterJoin how ld rd jc = .ok dom) (hl : RowOK ld l)
    (hx : RowOK dom (joinRow (Dict.keys ld) (Dict.keys rd) jc l r)) {c : String} (hc : c ∈ Dict.keys ld) :
    Row.get (joinRow (Dict.keys ld) (Dict.keys rd) jc l r)
      (suffixed (overlap (Dict.keys ld) (Dict.keys rd) jc) "_left" c) = Row.get l c := by
  rw [get_of_mem hx.1 (mem_joinRow_left hc), hl.get hc]

/-- A column of the right table in a row of a join. -/
theorem get_joinRow_right {how : How} {ld rd dom : Dict String SparkDesc} {jc : List String} {l r : Row}
    (h : domainAfterJoin how ld rd jc = .ok dom) (hr : RowOK rd r)
    (hx : RowOK dom (joinRow (Dict.keys ld) (Dict.keys rd) jc l r)) (hm : matches_ jc l r = true) {c : String}
    (hc : c ∈ Dict.keys rd) :
    Row.get (joinRow (Dict.keys ld) (Dict.keys rd) jc l r)
      (suffixed (overlap (Dict.keys ld) (Dict.keys rd) jc) "_right" c) = Row.get r c := by
  rw [get_of_mem hx.1 (mem_joinRow_right hc hm), hr.get hc]

theorem suffixed_of_notMem {ov : List String} {s c : String} (h : c ∉ ov) : suffixed ov s c = c := if_neg h

/-! ## The type of the ID column -/

/-- ID columns of private tables are not floating point columns. Assumed of core, which does not accept float
columns as keys; nothing in Analytics checks it. -/
def Cat.IdsNotFloat (cat : Cat) : Prop :=
  ∀ id s cs i, Dict.get cat.priv id = some (s, cs) → s.idColumn = some i →
    ∀ d, (i, d) ∈ s.columnDescs.elements → d.ty ≠ .DECIMAL

theorem tyJoin_left {ld rd : Dict String SparkDesc} {how : How} {jc : List String} {dom : Dict String SparkDesc}
    (h : domainAfterJoin how ld rd jc = .ok dom) {c : String} (hc : c ∈ Dict.keys ld)
    (ho : c ∉ overlap (Dict.keys ld) (Dict.keys rd) jc) :
    Dict.get (tys dom) c = Dict.get (tys ld) c := by
  have w : Dict.WF (tys dom) := by
    rw [Dict.wf_iff, keys_tys]; exact (domainAfterJoin_keys h).2
  obtain ⟨t, ht⟩ := Option.isSome_iff_exists.1
    (Dict.get_isSome.2 (show c ∈ Dict.keys (tys ld) by rw [keys_tys]; exact hc))
  rw [ht, Dict.get_eq_some w, tys_join h]
  unfold tyJoin
  by_cases hj : c ∈ jc
  · simp only [List.mem_append]
    refine Or.inl (Or.inl (Or.inl ?_))
    rw [List.mem_filterMap]
    exact ⟨c, hj, by rw [ht]; rfl⟩
  · have hr : c ∉ Dict.keys rd := by
      intro hr
      apply ho
      simp only [overlap, common, List.mem_filter, decide_eq_true_eq]
      exact ⟨⟨hc, hr⟩, hj⟩
    simp only [List.mem_append]
    refine Or.inl (Or.inl (Or.inr ?_))
    rw [List.mem_filterMap]
    refine ⟨c, ?_, by rw [ht]; rfl⟩
    rw [List.mem_filter]
    refine ⟨by rw [keys_tys]; exact hc, ?_⟩
    rw [keys_tys]
    simpa using hr

/-- The ID column of a compiled query is one of its columns and not a floating point column. -/
def IdTyped (o : Out) : Prop :=
  ∀ i, o.metric = .ids i → ∃ t, Dict.get (tys o.dom) i = some t ∧ t ≠ .DECIMAL

theorem IdTyped.mem {o : Out} (h : IdTyped o) {i : String} (hi : o.metric = .ids i) : i ∈ Dict.keys o.dom := by
  obtain ⟨t, ht, _⟩ := h i hi
  rw [← keys_tys]
  exact Dict.get_isSome.1 (by rw [ht]; rfl)

theorem IdTyped.desc {o : Out} (h : IdTyped o) {i : String} (hi : o.metric = .ids i) :
    ∃ d, Dict.get o.dom i = some d ∧ isFloat d = false := by
  obtain ⟨t, ht, hne⟩ := h i hi
  rw [get_tys, Option.map_eq_some_iff] at ht
  obtain ⟨d, hd, rfl⟩ := ht
  refine ⟨d, hd, ?_⟩
  by_contra hf
  exact hne ((isFloat_iff d).1 (by simpa using hf))

theorem tys_keeps_id {o' o : Out} (h : IdTyped o') (hm : o.metric = o'.metric) (ht : tys o.dom = tys o'.dom) :
    IdTyped o := by
  intro i hi
  rw [hm] at hi
  rw [ht]
  exact h i hi

theorem id_typed {h : Hash} {cat : Cat} (hc : cat.OK) (hid : cat.IdsNotFloat) (e : Expr) (he : e.WF)
    (hr : e.RenamesDistinct) {s : Schema} {o : Out} (hs : schemaOf cat e = .ok s)
    (ho : compile h cat e = .ok o) : IdTyped o := by
  induction e generalizing s o with
  | source id =>
    simp only [compile, visitSource] at ho
    split at ho
    · cases ho
    next s' cs hg =>
    cases ho
    intro i hi
    obtain ⟨w, _⟩ := hc.priv _ _ _ hg
    have hi' : s'.idColumn = some i := (metricOf_ids s' i).1 hi
    show ∃ t, Dict.get (tys (analyticsToSparkColumns s')) i = some t ∧ _
    have hk : i ∈ Schema.keys s' := by
      rw [keys_eq w]
      exact w.idColumn i hi'
    rw [tys_analytics w, get_stys w]
    obtain ⟨d, hd⟩ := Option.isSome_iff_exists.1 (Dict.get_isSome.2 hk)
    rw [hd]
    refine ⟨d.ty, rfl, hid id s' cs i hg hi' d ?_⟩
    have := Dict.mem_of_get hd
    rwa [Schema.descs_eq w] at this
  | rename e m ih =>
    obtain ⟨s', hs', hs⟩ := bind_ok hs
    obtain ⟨o', ho', ho⟩ := bind_ok ho
    have a := agree hc e he.1 hs' ho'
    have ih := ih he.1 hr.1 hs' ho'
    obtain ⟨_, h2, rfl⟩ := visitRename_ok ho
    intro i hi
    obtain ⟨j, hj, rfl⟩ := (rename_ids m o'.metric i).1 hi
    obtain ⟨t, ht, hne⟩ := ih j hj
    refine ⟨t, ?_, hne⟩
    have inj := renamed_inj he.2 hr.2 h2
    show Dict.get (tys (Dict.ofPairs (o'.dom.map (fun p => (renamed m p.1, p.2))))) (renamed m j) = _
    rw [Dict.ofPairs_eq (wf_rename inj a.wfd), get_tys, get_rename inj (ih.mem hj), ← get_tys]
    exact ht
  | filter e valid cond ih =>
    obtain ⟨s', hs', hs⟩ := bind_ok hs
    obtain ⟨o', ho', ho⟩ := bind_ok ho
    have ih := ih he hr hs' ho'
    cases ho
    exact tys_keeps_id ih rfl rfl
  | select e cols ih =>
    obtain ⟨s', hs', hs⟩ := bind_ok hs
    obtain ⟨o', ho', ho⟩ := bind_ok ho
    have ih := ih he hr hs' ho'
    obtain ⟨sub, hm, rfl⟩ := visitSelect_ok ho
    intro i hi
    obtain ⟨t, ht, hne⟩ := ih i hi
    refine ⟨t, ?_, hne⟩
    show Dict.get (tys (pick o'.dom cols)) i = _
    rw [get_tys, get_pick, if_pos (hm i (by rw [show o'.metric = .ids i from hi]; rfl)), ← get_tys]
    exact ht
  | map e f new augment ih =>
    obtain ⟨s', hs', hs⟩ := bind_ok hs
    obtain ⟨o', ho', ho⟩ := bind_ok ho
    have a := agree hc e he.1 hs' ho'
    have ih := ih he.1 hr hs' ho'
    obtain ⟨w, hh⟩ := schMap_ok he.2 a.wfs hs
    obtain ⟨hm, rfl⟩ := visitMap_ok ho
    intro i hi
    obtain ⟨t, ht, hne⟩ := ih i hi
    refine ⟨t, ?_, hne⟩
    rcases hh with ⟨rfl, dis, g1, g2, g3, el⟩ | ⟨rfl, i1, i2, g1, g2, g3, el⟩
    · show Dict.get (tys (Dict.union o'.dom (newDescs new))) i = _
      rw [(keys_append_new a w he.2 dis el).1, tys_append, Dict.get_append, ht]
      rfl
    · have := (hm rfl).1
      rw [show o'.metric = .ids i from hi] at this
      cases this
  | flatMap e f new augment n ih =>
    obtain ⟨s', hs', hs⟩ := bind_ok hs
    obtain ⟨o', ho', ho⟩ := bind_ok ho
    have a := agree hc e he.1 hs' ho'
    have ih := ih he.1 hr hs' ho'
    obtain ⟨w, hng, hh⟩ := schFlatMap_ok he.2 a.wfs hs
    obtain ⟨g, hd, _, _, _, _, hm⟩ := visitFlatMap_ok ho
    intro i hi
    have hi' : o'.metric = .ids i ∧ augment = true := by
      rcases hm with ⟨_, h1, h2, _⟩ | ⟨h0, _, _, ⟨_, h1⟩ | ⟨c, _, _, h1⟩⟩
      · exact ⟨h1 ▸ hi, h2⟩
      · exact absurd (h1 ▸ hi) (h0 i)
      · rw [h1] at hi; cases hi
    obtain ⟨t, ht, hne⟩ := ih i hi'.1
    refine ⟨t, ?_, hne⟩
    rw [hd, hi'.2]
    rcases hh with ⟨_, dis, g1, g2, g3, el⟩ | ⟨hf, _⟩
    · simp only [if_true]
      rw [(keys_append_new a w he.2 dis el).1, tys_append, Dict.get_append, ht]
      rfl
    · rw [hi'.2] at hf; cases hf
  | flatMapByID e f new ih =>
    obtain ⟨s', hs', hs⟩ := bind_ok hs
    obtain ⟨o', ho', ho⟩ := bind_ok ho
    have ih := ih he.1 hr hs' ho'
    obtain ⟨i, d, hm, hd, hn, e1, e2, e3, _, hrun⟩ := visitFlatMapByID_ok ho
    intro j hj
    rw [e2] at hj
    obtain ⟨t, ht, hne⟩ := ih j hj
    rw [hm] at hj
    cases hj
    refine ⟨t, ?_, hne⟩
    rw [e1, get_tys, Dict.get_cons, if_pos rfl]
    rw [get_tys, hd] at ht
    exact ht
  | joinPrivate l r tl tr cols ihl ihr =>
    obtain ⟨sl, hsl, hs⟩ := bind_ok hs
    obtain ⟨sr, hsr, hs⟩ := bind_ok hs
    obtain ⟨ol, hol, ho⟩ := bind_ok ho
    obtain ⟨or, hor, ho⟩ := bind_ok ho
    have ihl := ihl he.1 hr.1 hsl hol
    obtain ⟨_, _, hd, _, hm, _, hcase⟩ := visitJoinPrivate_ok ho
    intro i hi
    rw [hm] at hi
    obtain ⟨t, ht, hne⟩ := ihl i hi
    refine ⟨t, ?_, hne⟩
    rcases hcase with ⟨j, hj, hjc, _⟩ | ⟨a, b, _, _, hsym, _⟩
    · rw [hi] at hj
      cases hj
      rw [tyJoin_left hd (ihl.mem hi) (fun h => (overlap_mem h).2.2 hjc), ht]
    · rw [hi] at hsym; cases hsym
  | joinPublic e pub cols how ih =>
    obtain ⟨s', hs', hs⟩ := bind_ok hs
    obtain ⟨o', ho', ho⟩ := bind_ok ho
    have ih := ih he.1 hr hs' ho'
    obtain ⟨ps, pt, hp, hd, hm, _, hov, _⟩ := visitJoinPublic_ok ho
    intro i hi
    rw [hm] at hi
    obtain ⟨t, ht, hne⟩ := ih i hi
    refine ⟨t, ?_, hne⟩
    rw [tyJoin_left hd (ih.mem hi) (hov i (by rw [hi]; rfl)), ht]
  | replaceNull e w ih =>
    obtain ⟨s', hs', hs⟩ := bind_ok hs
    obtain ⟨o', ho', ho⟩ := bind_ok ho
    have ih := ih he.1 hr hs' ho'
    obtain ⟨rw, _, _, rfl⟩ := visitReplaceNull_ok ho
    exact tys_keeps_id ih rfl ((tys_update (tyOf_setNan false) _ _).trans (tys_update (tyOf_setNull false) _ _))
  | replaceInf e w ih =>
    obtain ⟨s', hs', hs⟩ := bind_ok hs
    obtain ⟨o', ho', ho⟩ := bind_ok ho
    have ih := ih he.1 hr hs' ho'
    obtain ⟨_, rfl⟩ := visitReplaceInf_ok ho
    exact tys_keeps_id ih rfl (tys_update (tyOf_setInf false) _ _)
  | dropNull e cols ih =>
    obtain ⟨s', hs', hs⟩ := bind_ok hs
    obtain ⟨o', ho', ho⟩ := bind_ok ho
    have ih := ih he hr hs' ho'
    obtain ⟨_, _, rfl⟩ := visitDropNull_ok ho
    exact tys_keeps_id ih rfl ((tys_update (tyOf_setNan false) _ _).trans (tys_update (tyOf_setNull false) _ _))
  | dropInf e cols ih =>
    obtain ⟨s', hs', hs⟩ := bind_ok hs
    obtain ⟨o', ho', ho⟩ := bind_ok ho
    have ih := ih he hr hs' ho'
    obtain ⟨_, rfl⟩ := visitDropInf_ok ho
    exact tys_keeps_id ih rfl (tys_update (tyOf_setInf false) _ _)
  | enforce e c ih =>
    obtain ⟨s', hs', hs⟩ := bind_ok hs
    obtain ⟨o', ho', ho⟩ := bind_ok ho
    have ih := ih he hr hs' ho'
    obtain ⟨i, _, _, rfl⟩ := visitEnforce_ok ho
    exact tys_keeps_id ih rfl rfl

/-- The ID column is never among those whose infinities are replaced. -/
theorem id_not_replaced {w : Dict String (Value × Value)} {s' s : Schema} {o' : Out} (a : Agree s' o')
    (hs : schReplaceInf w s' = .ok s) (ht : IdTyped o') {i : String} (hi : o'.metric = .ids i) :
    i ∉ Dict.keys (infReplaceWith w o'.dom) := by
  by_cases hw : w = []
  · obtain ⟨d, hd, hf⟩ := ht.desc hi
    intro hk
    obtain ⟨v, hv⟩ := Dict.mem_keys.1 hk
    unfold infReplaceWith at hv
    rw [if_pos hw] at hv
    obtain ⟨p, hp, e⟩ := List.mem_map.1 hv
    cases e
    obtain ⟨hp1, hp2⟩ := List.mem_filter.1 hp
    rw [(Dict.get_eq_some a.wfd).2 hp1] at hd
    cases hd
    simp [hf] at hp2
  · rw [keys_infReplaceWith hw]
    obtain ⟨_, _, _, h, _⟩ := schReplaceInf_ok a.wfs hs
    exact h i ((a.ids i).1 hi)

end Verif.Expr
