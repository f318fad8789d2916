import Verif.Expr.Types

/-!
# What type-checks compiles

`schemaOf` is what a user sees of type checking; `build` compiles and compares the result with the schema. The
cases in which a query that type-checks is refused are listed in `Ready`; in all others `build` succeeds.
-/

namespace Verif.Expr

open Verif Verif.Schema Verif.Constraint

/-- The column a table with this schema is grouped by. -/
def keyCol (s : Schema) : Option String := (metricOf s).col

/-- No float column with infinities is the ID or grouping column. -/
def KeyFinite (s : Schema) : Prop :=
  ∀ c, keyCol s = some c → ∀ d, Dict.get s.descs c = some d → d.ty = .DECIMAL → d.allowInf = false

/-- What compilation needs besides type checking. -/
def Ready (cat : Cat) : Expr → Prop
  | .source _ => True
  | .rename e _ => Ready cat e
  | .filter e _ _ => Ready cat e
  | .select e _ => Ready cat e
  | .map e _ _ _ => Ready cat e
  | .flatMap e _ new augment n => Ready cat e ∧ (augment = false → new.grouping = none) ∧
    ∀ s, schemaOf cat e = .ok s → s.idColumn = none → n.isSome = true
  | .flatMapByID e _ _ => Ready cat e
  -- core refuses to join a table with itself (assumed)
  | .joinPrivate l r tl tr cols => Ready cat l ∧ Ready cat r ∧ (∀ a, l = .source a → r = .source a → False) ∧
    ∀ sl sr, schemaOf cat l = .ok sl → schemaOf cat r = .ok sr →
      sl.grouping = none ∧ sr.grouping = none ∧
      (sl.idColumn = none → tl.isSome = true ∧ tr.isSome = true) ∧
      ∀ i, sl.idColumn = some i → i ∈ joinCols (Schema.keys sl) (Schema.keys sr) cols
  | .joinPublic e pub cols how => Ready cat e ∧
    ∀ s ps pt, schemaOf cat e = .ok s → resolvePub cat pub = .ok (ps, pt) →
      (s.idColumn.isSome = true → how = .inner) ∧
      ∀ c, keyCol s = some c →
        c ∉ overlap (Schema.keys s) (Schema.keys ps) (joinCols (Schema.keys s) (Schema.keys ps) cols)
  | .replaceNull e _ => Ready cat e
  | .replaceInf e w => Ready cat e ∧ (w = [] → ∀ s, schemaOf cat e = .ok s → KeyFinite s)
  | .dropNull e _ => Ready cat e
  | .dropInf e cols => Ready cat e ∧ (cols = [] → ∀ s, schemaOf cat e = .ok s → KeyFinite s)
  | .enforce e _ => Ready cat e

/-- Tables without IDs have no constraints. -/
def Cat.Plain (cat : Cat) : Prop :=
  ∀ id s cs, Dict.get cat.priv id = some (s, cs) → s.idColumn = none → cs = []

/-- The compiled table is the one the schema calls for. -/
structure Fits (s : Schema) (o : Out) : Prop where
  dom : o.dom = analyticsToSparkColumns s
  metric : o.metric = metricOf s
  plain : s.idColumn = none → o.cons = []

theorem simplify_nil : simplify [] = [] := rfl

theorem metricOf_congr {s s' : Schema} (hg : s.grouping = s'.grouping) (hi : s.idColumn = s'.idColumn) :
    metricOf s = metricOf s' := by unfold metricOf; rw [hg, hi]

theorem metricOf_rename {s s' : Schema} {m : Dict String String} (hg : s.grouping = s'.grouping.map (renamed m))
    (hi : s.idColumn = s'.idColumn.map (renamed m)) : metricOf s = (metricOf s').rename m := by
  unfold metricOf
  rw [hg, hi]
  cases s'.idColumn <;> cases s'.grouping <;> rfl

theorem toSpark_null (d : Desc) : toSparkDesc { d with allowNull := true } = setNull true (toSparkDesc d) := by
  obtain ⟨t, a, b, c⟩ := d
  cases t <;> rfl

theorem newDescs_nullable {new : Schema} (w : new.WF) :
    newDescs new = (nullable new).map (fun p => (p.1, toSparkDesc p.2)) := by
  unfold newDescs nullable
  rw [analytics_dom w, Schema.descs_eq w, List.map_map, List.map_map]
  apply List.map_congr_left
  intro p _
  simp [toSpark_null]

/-- The column of the metric is the ID or grouping column of the schema. -/
theorem keyCol_some {s : Schema} {c : String} (h : keyCol s = some c) :
    s.idColumn = some c ∨ (s.idColumn = none ∧ s.grouping = some c) := by
  unfold keyCol metricOf at h
  cases hi : s.idColumn <;> cases hg : s.grouping <;> rw [hi, hg] at h <;> simp_all [Metric.col]

theorem keyCol_free {s : Schema} (nb : s.idColumn.isSome → s.grouping = none) (c : String) :
    free s c = decide (keyCol s ≠ some c) := by
  unfold keyCol metricOf free
  cases hi : s.idColumn <;> cases hg : s.grouping <;> simp_all [Metric.col]

/-- Changing the descriptors of some columns, and converting the changed schema. -/
theorem dom_keeps {s' s : Schema} {g : String × Desc → Desc} (w' : s'.WF) (ks : Keeps s' s g)
    {f : String × SparkDesc → SparkDesc}
    (h : ∀ p ∈ s'.columnDescs.elements, toSparkDesc (g p) = f (p.1, toSparkDesc p.2)) :
    (analyticsToSparkColumns s').map (fun p => (p.1, f p)) = analyticsToSparkColumns s := by
  rw [analytics_dom w', analytics_dom ks.wf, ks.elems, List.map_map, List.map_map]
  apply List.map_congr_left
  intro p hp
  simp [h p hp]

theorem get_analytics {s : Schema} (w : s.WF) (c : String) :
    Dict.get (analyticsToSparkColumns s) c = (Dict.get s.descs c).map toSparkDesc := by
  rw [analytics_dom w, Schema.descs_eq w]
  exact get_mapVal _ (fun p => toSparkDesc p.2) c

theorem get_elem {s : Schema} (w : s.WF) {p : String × Desc} (h : p ∈ s.columnDescs.elements) :
    Dict.get s.descs p.1 = some p.2 := by
  rw [Schema.descs_eq w]
  exact (Dict.get_eq_some (by rw [Dict.wf_iff]; exact w.nodup)).2 h

/-- Clearing nulls and NaNs on both sides. -/
theorem null_dom {s' s : Schema} {ncs cs k1 k2 : List String} (w' : s'.WF) (ks : Keeps s' s (noNull ncs))
    (h1 : ∀ c d, Dict.get (analyticsToSparkColumns s') c = some d → (c ∈ k1 ↔ c ∈ cs ∧ d.allowNull = true))
    (h2 : ∀ c d, Dict.get (analyticsToSparkColumns s') c = some d → (c ∈ k2 ↔ c ∈ cs ∧ allowsNan d = true))
    (hc : ∀ c d, Dict.get s'.descs c = some d →
      (toSparkDesc d).allowNull = true ∨ allowsNan (toSparkDesc d) = true → (c ∈ cs ↔ c ∈ ncs)) :
    update (setNan false) k2 (update (setNull false) k1 (analyticsToSparkColumns s'))
      = analyticsToSparkColumns s := by
  unfold update
  rw [List.map_map]
  refine dom_keeps (f := fun p => if p.1 ∈ k2 then setNan false (if p.1 ∈ k1 then setNull false p.2 else p.2)
    else (if p.1 ∈ k1 then setNull false p.2 else p.2)) w' ks ?_
  rintro ⟨c, d⟩ hp
  have hg := get_elem w' hp
  have hd : Dict.get (analyticsToSparkColumns s') c = some (toSparkDesc d) := by
    rw [get_analytics w', hg]; rfl
  have a1 := h1 c _ hd
  have a2 := h2 c _ hd
  have a3 := hc c d hg
  simp only [a1, a2]
  clear h1 h2 hc a1 a2 hg hd hp
  obtain ⟨t, a, b, e⟩ := d
  unfold noNull
  cases t <;> cases a <;> cases b <;> by_cases c ∈ ncs <;> by_cases c ∈ cs <;>
    simp_all [toSparkDesc, SparkDesc.allowNull, allowsNan, setNull, setNan]

/-- Clearing infinities on both sides. -/
theorem inf_dom {s' s : Schema} {ncs k : List String} (w' : s'.WF) (ks : Keeps s' s (noInf ncs))
    (hc : ∀ c d, Dict.get s'.descs c = some d → allowsInf (toSparkDesc d) = true → (c ∈ k ↔ c ∈ ncs)) :
    update (setInf false) k (analyticsToSparkColumns s') = analyticsToSparkColumns s := by
  unfold update
  refine dom_keeps (f := fun p => if p.1 ∈ k then setInf false p.2 else p.2) w' ks ?_
  rintro ⟨c, d⟩ hp
  have a3 := hc c d (get_elem w' hp)
  clear hc hp
  obtain ⟨t, a, b, e⟩ := d
  unfold noInf
  cases t <;> cases e <;> by_cases c ∈ ncs <;> by_cases c ∈ k <;>
    simp_all [toSparkDesc, allowsInf, setInf]

theorem mem_restrict {V : Type} {p : SparkDesc → Bool} {dom : Dict String SparkDesc} {rw : Dict String V}
    {c : String} {d : SparkDesc} (h : Dict.get dom c = some d) :
    c ∈ Dict.keys (restrict p dom rw) ↔ c ∈ Dict.keys rw ∧ p d = true := by
  unfold Dict.keys restrict
  simp only [List.mem_map, List.mem_filter]
  constructor
  · rintro ⟨q, ⟨hq, hp⟩, rfl⟩
    rw [h] at hp
    exact ⟨⟨q, hq, rfl⟩, by simpa using hp⟩
  · rintro ⟨⟨q, hq, rfl⟩, hp⟩
    exact ⟨q, ⟨hq, by rw [h]; simpa using hp⟩, rfl⟩

theorem mem_having {p : SparkDesc → Bool} {dom : Dict String SparkDesc} {cs : List String}
    {c : String} {d : SparkDesc} (h : Dict.get dom c = some d) :
    c ∈ having p dom cs ↔ c ∈ cs ∧ p d = true := by
  unfold having
  rw [List.mem_filter, h]
  simp

/-- The columns of a converted schema that satisfy a condition. -/
theorem mem_filter_analytics {s : Schema} (w : s.WF) {q : String × SparkDesc → Bool} {c : String} {d : Desc}
    (h : Dict.get s.descs c = some d) :
    c ∈ ((analyticsToSparkColumns s).filter q).map Prod.fst ↔ q (c, toSparkDesc d) = true := by
  have hd : Dict.get (analyticsToSparkColumns s) c = some (toSparkDesc d) := by
    rw [get_analytics w, h]; rfl
  simp only [List.mem_map, List.mem_filter]
  constructor
  · rintro ⟨⟨c', x⟩, ⟨hm, hq⟩, rfl⟩
    rw [(Dict.get_eq_some (wf_analytics s)).2 hm] at hd
    cases hd
    exact hq
  · intro hq
    exact ⟨_, ⟨Dict.mem_of_get hd, hq⟩, rfl⟩

theorem mem_filter_descs {s : Schema} (w : s.WF) {q : String × Desc → Bool} {c : String} {d : Desc}
    (h : Dict.get s.descs c = some d) : c ∈ (s.descs.filter q).map Prod.fst ↔ q (c, d) = true := by
  simp only [List.mem_map, List.mem_filter]
  constructor
  · rintro ⟨⟨c', x⟩, ⟨hm, hq⟩, rfl⟩
    rw [(Dict.get_eq_some (wf_descs w)).2 hm] at h
    cases h
    exact hq
  · intro hq
    exact ⟨_, ⟨Dict.mem_of_get h, hq⟩, rfl⟩

theorem toSpark_null_iff (d : Desc) : (toSparkDesc d).allowNull = d.allowNull := by
  obtain ⟨t, a, b, c⟩ := d
  cases t <;> rfl

theorem isFloat_toSpark (d : Desc) : isFloat (toSparkDesc d) = decide (d.ty = .DECIMAL) := by
  obtain ⟨t, a, b, c⟩ := d
  cases t <;> rfl

theorem allowsInf_toSpark (d : Desc) :
    allowsInf (toSparkDesc d) = (decide (d.ty = .DECIMAL) && d.allowInf) := by
  obtain ⟨t, a, b, c⟩ := d
  cases t <;> rfl

/-- By default, both sides clear the same columns of nulls and NaNs. -/
theorem nullCols_default {s : Schema} (w : s.WF) (nb : s.idColumn.isSome → s.grouping = none) {c : String}
    {d : Desc} (h : Dict.get s.descs c = some d)
    (ha : (toSparkDesc d).allowNull = true ∨ allowsNan (toSparkDesc d) = true) :
    c ∈ ((analyticsToSparkColumns s).filter
        (fun p => decide (keyCol s ≠ some p.1) && (p.2.allowNull || allowsNan p.2))).map Prod.fst ↔
      c ∈ nullCols s [] := by
  unfold nullCols
  rw [if_pos rfl, mem_filter_analytics w h, mem_filter_descs w h]
  simp only [keyCol_free nb]
  have hb : (d.allowNull || d.allowNan) = true := by
    obtain ⟨t, a, b, e⟩ := d
    cases t <;> simp_all [toSparkDesc, SparkDesc.allowNull, allowsNan]
  have hb' : ((toSparkDesc d).allowNull || allowsNan (toSparkDesc d)) = true := by simpa using ha
  simp only [hb, hb', Bool.and_true, Bool.true_and]

/-- By default, both sides clear the same columns of infinities, unless the ID or grouping column allows them. -/
theorem infCols_default {s : Schema} (nb : s.idColumn.isSome → s.grouping = none) (w : s.WF)
    (hf : KeyFinite s) {c : String} {d : Desc} (h : Dict.get s.descs c = some d)
    (ha : allowsInf (toSparkDesc d) = true) : c ∈ infCols s [] := by
  unfold infCols
  rw [if_pos rfl, mem_filter_descs w h]
  rw [allowsInf_toSpark] at ha
  simp only [Bool.and_eq_true, decide_eq_true_eq] at ha
  simp only [keyCol_free nb, ha.1, ha.2, decide_true, Bool.and_self, Bool.true_and, decide_eq_true_eq]
  intro hk
  rw [hf c hk d h ha.1] at ha
  cases ha.2

/-! ## Every node -/

theorem any_eq_false {α : Type} {l : List α} {p : α → Bool} (h : ∀ a ∈ l, p a = false) : ¬ l.any p = true := by
  simp only [List.any_eq_true, not_exists, not_and]
  intro a ha
  simp [h a ha]

theorem opt_any_false {o : Option String} {p : String → Bool} (h : ∀ c, o = some c → p c = false) :
    ¬ o.any p = true := by
  cases o with
  | none => simp
  | some c => simp [h c rfl]

theorem rename_total {m : Dict String String} {s' s : Schema} {o' : Out} (w' : s'.WF) (f : Fits s' o')
    (hk : Dict.keys o'.dom = Schema.keys s') (h : schRename m s' = .ok s) :
    ∃ o, visitRename m o' = .ok o ∧ Fits s o := by
  obtain ⟨h1, h2, h3, w, hg, hi, hsp, el⟩ := schRename_ok h
  unfold visitRename
  rw [if_neg (any_eq_false (fun c hc => by rw [hk]; simpa using h2 c hc)),
    if_neg (any_eq_false (fun p hp => by
      rw [hk, Bool.and_eq_false_iff]
      by_cases hx : p.2 ∈ Schema.keys s'
      · exact Or.inr (by simpa using h3 p hp hx)
      · exact Or.inl (by simpa using hx)))]
  refine ⟨_, rfl, ?_, ?_, ?_⟩
  · show Dict.ofPairs _ = _
    rw [f.dom, analytics_dom w, el, ofPairs_mapVal toSparkDesc, analytics_dom w', Schema.descs_eq w',
      List.map_map, List.map_map]
    rfl
  · show o'.metric.rename m = _
    rw [f.metric, metricOf_rename hg hi]
  · intro hn
    show simplify (propagateRename m o'.cons) = []
    rw [f.plain (by rw [hi] at hn; simpa using hn)]
    rfl

theorem select_total {cols : List String} {s' s : Schema} {o' : Out} (w' : s'.WF) (f : Fits s' o')
    (hk : Dict.keys o'.dom = Schema.keys s') (h : schSelect cols s' = .ok s) :
    ∃ o, visitSelect cols o' = .ok o ∧ Fits s o := by
  obtain ⟨nd, hg, hi, sub, w, g1, g2, g3, el, k⟩ := schSelect_ok h
  unfold visitSelect
  rw [if_neg (any_eq_false (fun c hc => by rw [hk]; simpa using sub c hc)),
    if_neg (opt_any_false (fun c hc => by
      rw [f.metric] at hc
      rcases keyCol_some hc with h | ⟨_, h⟩
      · simpa using hi c h
      · simpa using hg c h))]
  refine ⟨_, rfl, ?_, ?_, ?_⟩
  · show pick o'.dom cols = _
    rw [f.dom, analytics_dom w, el, List.map_filterMap]
    unfold pick
    congr 1
    funext c
    rw [get_analytics w']
    cases Dict.get s'.descs c <;> rfl
  · show o'.metric = _
    rw [f.metric, metricOf_congr g1 g2]
  · intro hn
    show simplify (propagateSelect cols o'.cons) = []
    rw [f.plain (by rw [← g2]; exact hn)]
    rfl

theorem append_dom {s s' new : Schema} {o' : Out} (a : Agree s' o') (f : Fits s' o') (w : s.WF) (wn : new.WF)
    (dis : ∀ c ∈ Schema.keys new, c ∉ Schema.keys s')
    (el : s.columnDescs.elements = s'.columnDescs.elements ++ nullable new) :
    Dict.union o'.dom (newDescs new) = analyticsToSparkColumns s := by
  rw [(keys_append_new a w wn dis el).1, f.dom, analytics_dom w, analytics_dom a.wfs, el, List.map_append,
    newDescs_nullable wn]

theorem metric_plain {s : Schema} (hg : s.grouping = none) (hi : s.idColumn = none) : metricOf s = .symDiff := by
  unfold metricOf; rw [hg, hi]

theorem map_total {g : Row → Row} {new s' s : Schema} {augment : Bool} {o' : Out} (a : Agree s' o') (f : Fits s' o')
    (wn : new.WF) (h : schMap new augment s' = .ok s) :
    ∃ o, visitMap g new augment o' = .ok o ∧ Fits s o := by
  obtain ⟨w, hh⟩ := schMap_ok wn a.wfs h
  unfold visitMap
  rcases hh with ⟨rfl, dis, g1, g2, g3, el⟩ | ⟨rfl, i1, i2, g1, g2, g3, el⟩
  · rw [if_neg (by simp), if_neg (by simp)]
    refine ⟨_, rfl, append_dom a f w wn dis el, f.metric.trans (metricOf_congr g1 g2).symm, ?_⟩
    intro hn
    show simplify o'.cons = []
    rw [f.plain (by rw [← g2]; exact hn)]
    rfl
  · rw [if_neg (by rw [f.metric, metric_plain i1 i2]; simp), if_neg (by rw [f.plain i2]; simp)]
    refine ⟨_, rfl, ?_, ?_, ?_⟩
    · show newDescs new = _
      rw [analytics_dom w, el, newDescs_nullable wn]
    · show o'.metric = _
      rw [f.metric, metric_plain i1 i2, metric_plain g1 g2]
    · intro _
      show simplify o'.cons = []
      rw [f.plain i2]
      rfl

theorem flatMap_total {g : Row → List Row} {new s' s : Schema} {augment : Bool} {n : Option Nat} {o' : Out}
    (a : Agree s' o') (f : Fits s' o') (wn : new.WF) (hr : augment = false → new.grouping = none)
    (hn : s'.idColumn = none → n.isSome = true) (h : schFlatMap new augment s' = .ok s) :
    ∃ o, visitFlatMap g new augment n o' = .ok o ∧ Fits s o := by
  obtain ⟨w, hng, hh⟩ := schFlatMap_ok wn a.wfs h
  unfold visitFlatMap
  rcases hh with ⟨rfl, dis, g1, g2, g3, el⟩ | ⟨rfl, i1, i2, g1, g2, g3, el⟩
  · have hd := append_dom a f w wn dis el
    have hc : s'.idColumn = none → simplify (propagateFlatMap o'.cons) = [] := by
      intro hn; rw [f.plain hn]; rfl
    simp only [Bool.true_eq_false, false_and, if_false, if_true]
    cases hi : s'.idColumn with
    | some i =>
      have hm : o'.metric = .ids i := by rw [f.metric]; exact (metricOf_ids s' i).2 hi
      have hnn : new.grouping = none := by
        cases e : new.grouping with
        | none => rfl
        | some x => have := (hng (by simp [e])).2; rw [hi] at this; cases this
      simp only [hm, hnn, Option.isSome_none, Bool.false_eq_true, if_false]
      refine ⟨_, rfl, hd, ?_, ?_⟩
      · show Metric.ids i = _
        exact ((metricOf_ids s i).2 (g2.trans hi)).symm
      · intro hx; rw [g2, hi] at hx; cases hx
    | none =>
      obtain ⟨k, rfl⟩ := Option.isSome_iff_exists.1 (hn hi)
      cases hnn : new.grouping with
      | none =>
        rw [hnn] at g1
        simp only [Option.isSome_none, Bool.false_eq_true, if_false] at g1
        have hm : o'.metric = metricOf s := f.metric.trans (metricOf_congr g1 g2).symm
        cases hg : s'.grouping with
        | none =>
          have hm' : o'.metric = .symDiff := by rw [f.metric, metric_plain hg hi]
          simp only [hm']
          exact ⟨_, rfl, hd, hm ▸ hm'.symm, fun _ => hc hi⟩
        | some x =>
          have hm' : o'.metric = .grouped x := a.grouped x hg
          simp only [hm']
          exact ⟨_, rfl, hd, hm ▸ hm'.symm, fun _ => hc hi⟩
      | some x =>
        have hg := (hng (by simp [hnn])).1
        have hm' : o'.metric = .symDiff := by rw [f.metric, metric_plain hg hi]
        simp only [hm', ne_eq, not_true_eq_false, if_false]
        refine ⟨_, rfl, hd, ?_, fun _ => hc hi⟩
        show Metric.grouped x = metricOf s
        unfold metricOf
        rw [g2, hi, g1, hnn]
        rfl
  · have hm' : o'.metric = .symDiff := by rw [f.metric, metric_plain i1 i2]
    obtain ⟨k, rfl⟩ := Option.isSome_iff_exists.1 (hn i2)
    simp only [f.plain i2, hm', hr rfl, ne_eq, not_true_eq_false, and_false, if_false]
    refine ⟨_, rfl, ?_, ?_, fun _ => rfl⟩
    · show newDescs new = _
      rw [analytics_dom w, el, newDescs_nullable wn]
    · show Metric.symDiff = _
      rw [metric_plain g1 g2]

theorem flatMapByID_total {g : List Row → List Row} {new s' s : Schema} {o' : Out} (w' : s'.WF) (f : Fits s' o')
    (wn : new.WF) (h : schFlatMapByID new s' = .ok s) :
    ∃ o, visitFlatMapByID g new o' = .ok o ∧ Fits s o := by
  obtain ⟨i, d, hi, hg, hn, hd, w, g1, g2, g3, el⟩ := schFlatMapByID_ok wn h
  have hm : o'.metric = .ids i := by rw [f.metric]; exact (metricOf_ids s' i).2 hi
  have hget : Dict.get o'.dom i = some (toSparkDesc d) := by rw [f.dom, get_analytics w', hd]; rfl
  have hnew : i ∉ Dict.keys (newDescs new) := by rw [keys_newDescs wn]; exact hn
  unfold visitFlatMapByID
  simp only [hm, hget, hnew, if_false]
  refine ⟨_, rfl, ?_, ((metricOf_ids s i).2 g2).symm, fun _ => rfl⟩
  show Dict.union [(i, toSparkDesc d)] (newDescs new) = _
  rw [Dict.union_disjoint _ _ (wf_newDescs new), analytics_dom w, el, newDescs_nullable wn]
  · rfl
  · intro k hk hk'
    simp only [Dict.keys, List.map_cons, List.map_nil, List.mem_singleton] at hk'
    exact hnew (hk' ▸ hk)

/-- The schema of a join, converted, is the domain it was made from. -/
theorem join_dom {how : How} {cols : Option (List String)} {l r s : Schema} (h : schemaForJoin how cols l r = .ok s) :
    domainAfterJoin how (analyticsToSparkColumns l) (analyticsToSparkColumns r)
      (joinCols (Schema.keys l) (Schema.keys r) cols) = .ok (analyticsToSparkColumns s) := by
  unfold schemaForJoin at h
  split at h
  · cases h
  · next d hd =>
    obtain ⟨k, w⟩ := domainAfterJoin_keys hd
    have w' : Dict.WF (sparkDomainToAnalytics d) := by
      rw [keys_ofSpark w]; exact wf_mapVal w (fun p => ofSparkDesc p.2)
    obtain ⟨h1, _, _, _, h5⟩ := mk_ok w' h
    rw [hd, analytics_dom h1, h5, keys_ofSpark w, List.map_map]
    congr 1
    conv_lhs => rw [← List.map_id d]
    apply List.map_congr_left
    intro p _
    simp [toSparkDesc_ofSparkDesc]

theorem joinPrivate_total {hash : Hash} {tl tr : Option Trunc} {cols : Option (List String)} {sl sr s : Schema}
    {l r : Out} (al : Agree sl l) (fl : Fits sl l) (ar : Agree sr r) (fr : Fits sr r)
    (gl : sl.grouping = none) (gr : sr.grouping = none)
    (ht : sl.idColumn = none → tl.isSome = true ∧ tr.isSome = true)
    (hi : ∀ i, sl.idColumn = some i → i ∈ joinCols (Schema.keys sl) (Schema.keys sr) cols)
    (h : schJoinPrivate cols sl sr = .ok s) :
    ∃ o, visitJoinPrivate hash tl tr cols l r = .ok o ∧ Fits s o := by
  obtain ⟨hid, hspace, _, w, g1, g2, g3, k, hj⟩ := schJoinPrivate_ok al.wfs ar.wfs h
  have hd := join_dom hj
  unfold visitJoinPrivate
  rw [if_neg (by rw [al.space, ar.space, hspace]; simp)]
  simp only [al.keys, ar.keys]
  rw [fl.dom, fr.dom, hd]
  rw [gl, gr] at g1
  simp only [Option.isSome_none, Bool.false_eq_true, if_false] at g1
  cases hc : sl.idColumn with
  | some i =>
    have hm : l.metric = .ids i := by rw [fl.metric]; exact (metricOf_ids sl i).2 hc
    have hm' : r.metric = .ids i := by rw [fr.metric]; exact (metricOf_ids sr i).2 (hid ▸ hc)
    simp only [hm, hm', ne_eq, not_true_eq_false, if_false, hi i hc, not_true]
    refine ⟨_, rfl, rfl, ((metricOf_ids s i).2 (g2.trans hc)).symm, ?_⟩
    intro hx; rw [g2, hc] at hx; cases hx
  | none =>
    have hm : l.metric = .symDiff := by rw [fl.metric, metric_plain gl hc]
    have hm' : r.metric = .symDiff := by rw [fr.metric, metric_plain gr (hid ▸ hc)]
    obtain ⟨x, rfl⟩ := Option.isSome_iff_exists.1 (ht hc).1
    obtain ⟨y, rfl⟩ := Option.isSome_iff_exists.1 (ht hc).2
    simp only [hm, hm', fl.plain hc, fr.plain (hid ▸ hc)]
    refine ⟨_, rfl, rfl, (metric_plain g1 (g2.trans hc)).symm, fun _ => rfl⟩

theorem joinPublic_total {cat : Cat} (hc : cat.OK) {pub : PubRef} {cols : Option (List String)} {how : How}
    {s' s : Schema} {o' : Out} (a : Agree s' o') (f : Fits s' o')
    (hp : match pub with
      | .name _ => True
      | .df s _ => s.WF ∧ s.grouping = none ∧ s.idColumn = none)
    (hr : ∀ ps pt, resolvePub cat pub = .ok (ps, pt) →
      (s'.idColumn.isSome = true → how = .inner) ∧
      ∀ c, keyCol s' = some c →
        c ∉ overlap (Schema.keys s') (Schema.keys ps) (joinCols (Schema.keys s') (Schema.keys ps) cols))
    (h : schJoinPublic cat pub cols how s' = .ok s) :
    ∃ o, visitJoinPublic cat pub cols how o' = .ok o ∧ Fits s o := by
  obtain ⟨ps, pt, hrp, wp, _, w, g1, g2, g3, k, hj⟩ := schJoinPublic_ok hc hp a.wfs h
  obtain ⟨hin, hov⟩ := hr ps pt hrp
  have hd := join_dom hj
  unfold visitJoinPublic
  have hkk : Dict.keys o'.dom = Schema.keys s' := a.keys
  have hcol : o'.metric.col = keyCol s' := by rw [f.metric]; rfl
  have hm := f.metric.trans (metricOf_congr g1 g2).symm
  have hpl : ∀ jc ov, s.idColumn = none → simplify (propagateJoinPublic jc ov pt o'.cons) = [] := by
    intro jc ov hn
    rw [f.plain (g2 ▸ hn)]
    rfl
  simp only [hrp, hcol]
  rw [hkk, keys_analytics wp, f.dom]
  cases hmm : o'.metric with
  | ids i =>
    have := hin (by rw [(metricOf_ids s' i).1 (f.metric ▸ hmm)]; rfl)
    subst this
    simp only [hd]
    rw [if_neg (opt_any_false (fun c hcc => by simpa using hov c hcc))]
    exact ⟨_, rfl, rfl, hmm ▸ hm, hpl _ _⟩
  | grouped i =>
    simp only [hd]
    rw [if_neg (opt_any_false (fun c hcc => by simpa using hov c hcc))]
    exact ⟨_, rfl, rfl, hmm ▸ hm, hpl _ _⟩
  | symDiff =>
    simp only [hd]
    rw [if_neg (opt_any_false (fun c hcc => by simpa using hov c hcc))]
    exact ⟨_, rfl, rfl, hmm ▸ hm, hpl _ _⟩

theorem replaceNull_total {w : Dict String Value} {s' s : Schema} {o' : Out} (a : Agree s' o') (f : Fits s' o')
    (h : schReplaceNull w s' = .ok s) : ∃ o, visitReplaceNull w o' = .ok o ∧ Fits s o := by
  obtain ⟨ks, hv, hg, hi, ht⟩ := schReplaceNull_ok a.wfs h
  unfold visitReplaceNull
  have hkc : o'.metric.col = keyCol s' := by rw [f.metric]; rfl
  rw [if_neg (opt_any_false (fun c hcc => by
    rw [hkc] at hcc
    rcases keyCol_some hcc with h | ⟨_, h⟩
    · simpa using hi c h
    · simpa using hg c h)), hkc]
  have hp : s.idColumn = none → simplify (propagateReplace (Dict.keys w) o'.cons) = [] := by
    intro hn
    rw [f.plain (ks.idColumn ▸ hn)]
    rfl
  have hm : o'.metric = metricOf s := f.metric.trans (metricOf_congr ks.grouping ks.idColumn).symm
  unfold replaceWith
  by_cases hw : w = []
  · subst hw
    simp only [if_true]
    refine ⟨_, rfl, ?_, hm, hp⟩
    show update (setNan false) _ (update (setNull false) _ o'.dom) = _
    rw [f.dom]
    refine null_dom (cs := Dict.keys _) a.wfs ks (fun c d hd => mem_restrict hd) (fun c d hd => mem_restrict hd) ?_
    intro c d hd ha
    rw [show Dict.keys ([] : Dict String Value) = [] from rfl, ← nullCols_default a.wfs a.noBoth hd ha]
    unfold Dict.keys
    rw [List.map_map]
    rfl
  · rw [if_neg hw, if_neg (any_eq_false (fun p hp => by
      obtain ⟨d, hd, _⟩ := ht p hp
      rw [a.keys]
      have hx : p.1 ∈ Schema.keys s' := Dict.get_isSome.1 (by rw [hd]; rfl)
      simpa using hx))]
    refine ⟨_, rfl, ?_, hm, hp⟩
    show update (setNan false) _ (update (setNull false) _ o'.dom) = _
    rw [f.dom]
    refine null_dom (cs := Dict.keys _) a.wfs ks (fun c d hd => mem_restrict hd) (fun c d hd => mem_restrict hd) ?_
    intro c d hd ha
    have : nullCols s' (Dict.keys w) = Dict.keys w := by
      unfold nullCols
      rw [if_neg (by rw [keys_eq_nil]; exact hw)]
    rw [this]
    unfold Dict.keys
    rw [List.map_map]
    rfl

theorem dropNull_total {cols : List String} {s' s : Schema} {o' : Out} (a : Agree s' o') (f : Fits s' o')
    (h : schDropNull cols s' = .ok s) : ∃ o, visitDropNull cols o' = .ok o ∧ Fits s o := by
  obtain ⟨ks, hg, hi, hk⟩ := schDropNull_ok a.wfs h
  unfold visitDropNull
  have hkc : o'.metric.col = keyCol s' := by rw [f.metric]; rfl
  rw [if_neg (opt_any_false (fun c hcc => by
    rw [hkc] at hcc
    rcases keyCol_some hcc with h | ⟨_, h⟩
    · simpa using hi c h
    · simpa using hg c h)), if_neg (any_eq_false (fun c hc => by rw [a.keys]; simpa using hk c hc)), hkc]
  refine ⟨_, rfl, ?_, f.metric.trans (metricOf_congr ks.grouping ks.idColumn).symm, ?_⟩
  · show update (setNan false) _ (update (setNull false) _ o'.dom) = _
    rw [f.dom]
    refine null_dom a.wfs ks (fun c d hd => mem_having hd) (fun c d hd => mem_having hd) ?_
    intro c d hd ha
    unfold dropNullCols
    by_cases hw : cols = []
    · subst hw
      rw [if_pos rfl, ← nullCols_default a.wfs a.noBoth hd ha]
      simp only [Bool.and_comm]
    · rw [if_neg hw]
      unfold nullCols
      rw [if_neg hw]
  · intro hn
    show simplify o'.cons = []
    rw [f.plain (ks.idColumn ▸ hn)]
    rfl

theorem replaceInf_total {w : Dict String (Value × Value)} {s' s : Schema} {o' : Out} (a : Agree s' o')
    (f : Fits s' o') (hf : w = [] → KeyFinite s') (h : schReplaceInf w s' = .ok s) :
    ∃ o, visitReplaceInf w o' = .ok o ∧ Fits s o := by
  obtain ⟨ks, hv, hg, hi, ht⟩ := schReplaceInf_ok a.wfs h
  unfold visitReplaceInf
  have hany : ∀ p ∈ infReplaceWith w o'.dom, (!((Dict.get o'.dom p.1).any isFloat)) = false := by
    intro p hp
    unfold infReplaceWith at hp
    split at hp
    · rw [List.mem_map] at hp
      obtain ⟨q, hq, rfl⟩ := hp
      rw [List.mem_filter] at hq
      rw [(Dict.get_eq_some a.wfd).2 hq.1]
      simpa using hq.2
    · rw [List.mem_map] at hp
      obtain ⟨q, hq, rfl⟩ := hp
      obtain ⟨d, hd, hty⟩ := ht q hq
      rw [f.dom, get_analytics a.wfs, hd]
      simp [isFloat_toSpark, hty]
  rw [if_neg (any_eq_false hany)]
  refine ⟨_, rfl, ?_, f.metric.trans (metricOf_congr ks.grouping ks.idColumn).symm, ?_⟩
  · show update (setInf false) _ o'.dom = _
    rw [f.dom]
    apply inf_dom a.wfs ks
    intro c d hd ha
    unfold infReplaceWith
    by_cases hw : w = []
    · subst hw
      rw [if_pos rfl]
      refine iff_of_true ?_ (infCols_default a.noBoth a.wfs (hf rfl) hd ha)
      unfold Dict.keys
      rw [List.map_map]
      show c ∈ ((analyticsToSparkColumns s').filter (fun p => isFloat p.2)).map Prod.fst
      rw [mem_filter_analytics a.wfs hd]
      rw [allowsInf_toSpark] at ha
      simp only [Bool.and_eq_true] at ha
      rw [isFloat_toSpark]; exact ha.1
    · rw [if_neg hw]
      unfold infCols
      rw [if_neg (by rw [keys_eq_nil]; exact hw)]
      unfold Dict.keys
      rw [List.map_map]
      rfl
  · intro hn
    show simplify (propagateReplace (Dict.keys w) o'.cons) = []
    rw [f.plain (ks.idColumn ▸ hn)]
    rfl

theorem dropInf_total {cols : List String} {s' s : Schema} {o' : Out} (a : Agree s' o')
    (f : Fits s' o') (hf : cols = [] → KeyFinite s') (h : schDropInf cols s' = .ok s) :
    ∃ o, visitDropInf cols o' = .ok o ∧ Fits s o := by
  obtain ⟨ks, hg, hi, ht⟩ := schDropInf_ok a.wfs h
  unfold visitDropInf
  rw [if_neg (any_eq_false (fun c hc => by
      obtain ⟨d, hd, _⟩ := ht c hc
      rw [a.keys]
      have hx : c ∈ Schema.keys s' := Dict.get_isSome.1 (by rw [hd]; rfl)
      simpa using hx)),
    if_neg (any_eq_false (fun c hc => by
      obtain ⟨d, hd, hty⟩ := ht c hc
      rw [f.dom, get_analytics a.wfs, hd]
      simp [isFloat_toSpark, hty]))]
  refine ⟨_, rfl, ?_, f.metric.trans (metricOf_congr ks.grouping ks.idColumn).symm, ?_⟩
  · show update (setInf false) _ o'.dom = _
    rw [f.dom]
    apply inf_dom a.wfs ks
    intro c d hd ha
    unfold dropInfCols
    by_cases hw : cols = []
    · subst hw
      rw [if_pos rfl]
      refine iff_of_true ?_ (infCols_default a.noBoth a.wfs (hf rfl) hd ha)
      rw [mem_filter_analytics a.wfs hd, isFloat_toSpark, ha, Bool.and_true]
      rw [allowsInf_toSpark] at ha
      simp only [Bool.and_eq_true] at ha
      exact ha.1
    · rw [if_neg hw]
      unfold infCols
      rw [if_neg hw]
  · intro hn
    show simplify o'.cons = []
    rw [f.plain (ks.idColumn ▸ hn)]
    rfl

theorem enforce_total {hash : Hash} {c : Constraint} {s' s : Schema} {o' : Out} (a : Agree s' o')
    (f : Fits s' o') (h : schEnforce c s' = .ok s) : ∃ o, visitEnforce hash c o' = .ok o ∧ Fits s o := by
  obtain ⟨rfl, i, hi, hg⟩ := schEnforce_ok h
  have hm : o'.metric = .ids i := by rw [f.metric]; exact (metricOf_ids s i).2 hi
  unfold visitEnforce
  simp only [hm]
  rw [if_neg (opt_any_false (fun g hgc => by
    rw [a.keys]
    simpa using hg g hgc))]
  refine ⟨_, rfl, f.dom, hm ▸ f.metric, ?_⟩
  intro hn; rw [hi] at hn; cases hn

/-- **C62, the table part.** A query expression that type-checks compiles to exactly the table its schema
describes. -/
theorem compile_total {h : Hash} {cat : Cat} (hc : cat.OK) (hp : cat.Plain) (e : Expr) (he : e.WF)
    (hr : Ready cat e) {s : Schema} (hs : schemaOf cat e = .ok s) :
    ∃ o, compile h cat e = .ok o ∧ Fits s o := by
  induction e generalizing s with
  | source id =>
    simp only [schemaOf, schSource] at hs
    split at hs
    · cases hs
    split at hs
    · next s' cs hg =>
      cases hs
      exact ⟨⟨analyticsToSparkColumns s, metricOf s, s.idSpace, cs, fun D => D id⟩,
        by simp only [compile, visitSource, hg], rfl, rfl, hp _ _ _ hg⟩
    · cases hs
  | rename e m ih =>
    obtain ⟨s', hs', hs⟩ := bind_ok hs
    obtain ⟨o', ho', f⟩ := ih he.1 hr hs'
    have a := agree hc e he.1 hs' ho'
    obtain ⟨o, ho, fo⟩ := rename_total a.wfs f a.keys hs
    exact ⟨o, by rw [compile, ho']; exact ho, fo⟩
  | filter e valid cond ih =>
    obtain ⟨s', hs', hs⟩ := bind_ok hs
    obtain ⟨o', ho', f⟩ := ih he hr hs'
    unfold schFilter at hs
    split at hs
    · cases hs
      refine ⟨{ o' with cons := simplify o'.cons, run := fun D => (o'.run D).filter cond },
        by rw [compile, ho']; rfl, f.dom, f.metric, ?_⟩
      intro hn
      show simplify o'.cons = []
      rw [f.plain hn]; rfl
    · cases hs
  | select e cols ih =>
    obtain ⟨s', hs', hs⟩ := bind_ok hs
    obtain ⟨o', ho', f⟩ := ih he hr hs'
    have a := agree hc e he hs' ho'
    obtain ⟨o, ho, fo⟩ := select_total a.wfs f a.keys hs
    exact ⟨o, by rw [compile, ho']; exact ho, fo⟩
  | map e g new augment ih =>
    obtain ⟨s', hs', hs⟩ := bind_ok hs
    obtain ⟨o', ho', f⟩ := ih he.1 hr hs'
    obtain ⟨o, ho, fo⟩ := map_total (g := g) (agree hc e he.1 hs' ho') f he.2 hs
    exact ⟨o, by rw [compile, ho']; exact ho, fo⟩
  | flatMap e g new augment n ih =>
    obtain ⟨s', hs', hs⟩ := bind_ok hs
    obtain ⟨o', ho', f⟩ := ih he.1 hr.1 hs'
    obtain ⟨o, ho, fo⟩ := flatMap_total (g := g) (agree hc e he.1 hs' ho') f he.2 hr.2.1 (hr.2.2 s' hs') hs
    exact ⟨o, by rw [compile, ho']; exact ho, fo⟩
  | flatMapByID e g new ih =>
    obtain ⟨s', hs', hs⟩ := bind_ok hs
    obtain ⟨o', ho', f⟩ := ih he.1 hr hs'
    obtain ⟨o, ho, fo⟩ := flatMapByID_total (g := g) (agree hc e he.1 hs' ho').wfs f he.2 hs
    exact ⟨o, by rw [compile, ho']; exact ho, fo⟩
  | joinPrivate l r tl tr cols ihl ihr =>
    obtain ⟨sl, hsl, hs⟩ := bind_ok hs
    obtain ⟨sr, hsr, hs⟩ := bind_ok hs
    obtain ⟨ol, hol, fl⟩ := ihl he.1 hr.1 hsl
    obtain ⟨or, hor, fr⟩ := ihr he.2 hr.2.1 hsr
    obtain ⟨gl, gr, ht, hi⟩ := hr.2.2.2 sl sr hsl hsr
    obtain ⟨o, ho, fo⟩ := joinPrivate_total (hash := h) (agree hc l he.1 hsl hol) fl (agree hc r he.2 hsr hor) fr
      gl gr ht hi hs
    exact ⟨o, by rw [compile, hol, hor]; exact ho, fo⟩
  | joinPublic e pub cols how ih =>
    obtain ⟨s', hs', hs⟩ := bind_ok hs
    obtain ⟨o', ho', f⟩ := ih he.1 hr.1 hs'
    obtain ⟨o, ho, fo⟩ := joinPublic_total hc (agree hc e he.1 hs' ho') f he.2
      (fun ps pt hpp => hr.2 s' ps pt hs' hpp) hs
    exact ⟨o, by rw [compile, ho']; exact ho, fo⟩
  | replaceNull e w ih =>
    obtain ⟨s', hs', hs⟩ := bind_ok hs
    obtain ⟨o', ho', f⟩ := ih he.1 hr hs'
    obtain ⟨o, ho, fo⟩ := replaceNull_total (agree hc e he.1 hs' ho') f hs
    exact ⟨o, by rw [compile, ho']; exact ho, fo⟩
  | replaceInf e w ih =>
    obtain ⟨s', hs', hs⟩ := bind_ok hs
    obtain ⟨o', ho', f⟩ := ih he.1 hr.1 hs'
    obtain ⟨o, ho, fo⟩ := replaceInf_total (agree hc e he.1 hs' ho') f (fun hw => hr.2 hw s' hs') hs
    exact ⟨o, by rw [compile, ho']; exact ho, fo⟩
  | dropNull e cols ih =>
    obtain ⟨s', hs', hs⟩ := bind_ok hs
    obtain ⟨o', ho', f⟩ := ih he hr hs'
    obtain ⟨o, ho, fo⟩ := dropNull_total (agree hc e he hs' ho') f hs
    exact ⟨o, by rw [compile, ho']; exact ho, fo⟩
  | dropInf e cols ih =>
    obtain ⟨s', hs', hs⟩ := bind_ok hs
    obtain ⟨o', ho', f⟩ := ih he hr.1 hs'
    obtain ⟨o, ho, fo⟩ := dropInf_total (agree hc e he hs' ho') f (fun hw => hr.2 hw s' hs') hs
    exact ⟨o, by rw [compile, ho']; exact ho, fo⟩
  | enforce e c ih =>
    obtain ⟨s', hs', hs⟩ := bind_ok hs
    obtain ⟨o', ho', f⟩ := ih he hr hs'
    obtain ⟨o, ho, fo⟩ := enforce_total (hash := h) (agree hc e he hs' ho') f hs
    exact ⟨o, by rw [compile, ho']; exact ho, fo⟩

theorem validate_fits {s : Schema} {o : Out} (a : Agree s o) (f : Fits s o) : validate s o = .ok () := by
  unfold validate
  rw [if_neg, if_neg, if_neg]
  · rw [f.metric]; simp
  · rw [f.dom, Bool.not_eq_false]
    exact (Dict.pyEq_iff (wf_analytics s) (wf_analytics s)).2 (fun _ _ => Iff.rfl)
  · rintro ⟨h1, h2⟩
    rw [a.noBoth h2] at h1
    cases h1

/-- **C62, the table part.** A query expression that type-checks is compiled, and passes the comparison of the
result with the schema. -/
theorem C62_build_partial {h : Hash} {cat : Cat} (hc : cat.OK) (hp : cat.Plain) (e : Expr) (he : e.WF)
    (hr : Ready cat e) {s : Schema} (hs : schemaOf cat e = .ok s) :
    ∃ o, build h cat e = .ok (s, o) ∧ Fits s o := by
  obtain ⟨o, ho, f⟩ := compile_total (h := h) hc hp e he hr hs
  refine ⟨o, ?_, f⟩
  unfold build
  simp only [hs, ho, validate_fits (agree hc e he hs ho) f]

end Verif.Expr
