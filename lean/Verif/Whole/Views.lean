import Verif.Whole.Stable

/-!
# The catalog of a session, and its views
-/

namespace Verif.Whole

open Verif Verif.Schema Verif.Constraint Verif.Expr Verif.Query Verif.Stability
open scoped NNReal

/-! ## Schemas of tables -/

theorem toSpark_ofSpark (d : SparkDesc) : toSparkDesc (ofSparkDesc d) = d := by
  cases d <;> rfl

theorem domain_descs {dom : Dict String SparkDesc} (w : Dict.WF dom) :
    sparkDomainToAnalytics dom = dom.map (fun p => (p.1, ofSparkDesc p.2)) := by
  unfold sparkDomainToAnalytics
  rw [Dict.ofPairs_eq]
  rw [keys_mapVal]; exact w

structure SchemaFor (dom : Dict String SparkDesc) (k : Metric) (sp : Option String) (s : Schema) : Prop where
  wf : s.WF
  grouping : s.grouping = groupOf k
  idColumn : s.idColumn = idOf k
  idSpace : s.idSpace = sp
  dom : analyticsToSparkColumns s = dom
  metric : metricOf s = k

theorem schema_for {dom : Dict String SparkDesc} {k : Metric} {sp : Option String} {s : Schema} (w : Dict.WF dom)
    (hs : Expr.mk (sparkDomainToAnalytics dom) (groupOf k) (idOf k) sp = .ok s) : SchemaFor dom k sp s := by
  rw [domain_descs w] at hs
  obtain ⟨h1, h2, h3, h4, h5⟩ := mk_ok (wf_mapVal w (fun p => ofSparkDesc p.2)) hs
  refine ⟨h1, h2, h3, h4, ?_, ?_⟩
  · rw [analytics_dom h1, h5, List.map_map]
    conv_rhs => rw [← List.map_id dom]
    refine List.map_congr_left fun p _ => ?_
    simp [toSpark_ofSpark]
  · unfold metricOf
    rw [h2, h3]
    cases k <;> rfl

theorem Tab.schema_for {t : Tab} {s : Schema} (w : Dict.WF t.dom) (hs : t.schema = .ok s) :
    SchemaFor t.dom t.metric t.space s := Whole.schema_for w hs

theorem schema_exists {dom : Dict String SparkDesc} {k : Metric} {sp : Option String} (w : Dict.WF dom)
    (ne : "" ∉ Dict.keys dom) (hg : ∀ g, k = .grouped g → ∃ t, Dict.get (tys dom) g = some t ∧ t ≠ .DECIMAL)
    (hi : ∀ i, k = .ids i → ∃ t, Dict.get (tys dom) i = some t ∧ t ≠ .DECIMAL)
    (hsp : (∀ i, k ≠ .ids i) → sp = none) :
    ∃ s, Expr.mk (sparkDomainToAnalytics dom) (groupOf k) (idOf k) sp = .ok s ∧ SchemaOK s := by
  have hk : Dict.keys (dom.map (fun p => (p.1, ofSparkDesc p.2))) = Dict.keys dom :=
    keys_mapVal' dom (fun p => ofSparkDesc p.2)
  have mem : ∀ c, (∃ t, Dict.get (tys dom) c = some t ∧ t ≠ .DECIMAL) → c ∈ Dict.keys dom := by
    rintro c ⟨t, ht, _⟩
    rw [← keys_tys]
    exact Dict.get_isSome.1 (by rw [ht]; rfl)
  have ty : ∀ c, (∃ t, Dict.get (tys dom) c = some t ∧ t ≠ .DECIMAL) →
      ∀ d, (c, d) ∈ dom.map (fun p => (p.1, ofSparkDesc p.2)) → d.ty ≠ .DECIMAL := by
    rintro c ⟨t, ht, hne⟩ d hd
    rw [List.mem_map] at hd
    obtain ⟨⟨c', sd⟩, hm, he⟩ := hd
    cases he
    rw [get_tys, (Dict.get_eq_some w).2 hm] at ht
    cases ht
    cases sd <;> exact hne
  have wf : Schema.WF ⟨⟨dom.map (fun p => (p.1, ofSparkDesc p.2))⟩, groupOf k, idOf k, sp⟩ := by
    refine ⟨?_, ?_, ?_, ?_⟩
    · exact wf_mapVal w (fun p => ofSparkDesc p.2)
    · show "" ∉ Dict.keys _
      rw [hk]; exact ne
    · intro g h1
      show g ∈ Dict.keys _
      rw [hk]
      cases k <;> cases h1
      exact mem _ (hg _ rfl)
    · intro g h1
      show g ∈ Dict.keys _
      rw [hk]
      cases k <;> cases h1
      exact mem _ (hi _ rfl)
  refine ⟨_, ?_, wf, ?_, ?_, ?_, ?_⟩
  · rw [domain_descs w]
    exact Schema.init_descs wf
  · intro h1
    refine hsp fun i h2 => ?_
    subst h2
    cases h1
  · intro h1
    cases k <;> first | rfl | cases h1
  · intro i h1
    cases k <;> cases h1
    exact ty _ (hi _ rfl)
  · intro i h1
    cases k <;> cases h1
    exact ty _ (hg _ rfl)

/-! ## The catalog -/

theorem privCat_get : ∀ {tables : List (String × Tab)} {d : Dict String (Schema × List Constraint)},
    privCat tables = .ok d → ∀ n s cs, Dict.get d n = some (s, cs) →
      ∃ t, Dict.get tables n = some t ∧ t.schema = .ok s ∧ cs = t.cons
  | [], d, h, n, s, cs, hg => by cases h; cases hg
  | (n', t) :: rest, d, h, n, s, cs, hg => by
    dsimp only [privCat] at h
    split at h
    · next s' d' h1 h2 =>
      split at h
      · cases h
      cases h
      rw [Dict.get_cons] at hg ⊢
      split at hg
      · next he =>
        cases hg
        exact ⟨t, by rw [if_pos he], h1, rfl⟩
      · next he =>
        rw [if_neg he]
        exact privCat_get h2 n s cs hg
    · cases h
    · cases h

theorem pubCat_get : ∀ {pub : List (String × PubFrame)} {d : Dict String (Schema × Table)},
    pubCat pub = .ok d → ∀ n s t, Dict.get d n = some (s, t) →
      ∃ (f : PubFrame) (ds : Dict String Desc), sparkSchemaToAnalytics f.frame.fields = .ok ds ∧ Expr.mk ds none none none = .ok s ∧
        t = Frame.named f.frame
  | [], d, h, n, s, t, hg => by cases h; cases hg
  | (n', f) :: rest, d, h, n, s, t, hg => by
    dsimp only [pubCat] at h
    split at h
    · next ds d' h1 h2 =>
      split at h
      · next s' h3 =>
        split at h
        · cases h
        cases h
        rw [Dict.get_cons] at hg
        split at hg
        · cases hg
          exact ⟨f, ds, h1, h3, rfl⟩
        · exact pubCat_get h2 n s t hg
      · cases h
    · cases h
    · cases h

theorem catalog_ok {tables : List (String × Tab)} {pub : List (String × PubFrame)} {cat : Cat}
    (h : catalog tables pub = .ok cat) : privCat tables = .ok cat.priv ∧ pubCat pub = .ok cat.pub := by
  unfold catalog at h
  split at h
  · next h1 h2 => cases h; exact ⟨h1, h2⟩
  · cases h
  · cases h

theorem supported_of_ok : ∀ {fs : List Field} {ds : List (String × Desc)}, fieldDescs fs = some ds →
    ∀ f ∈ fs, f.ty ∈ supported
  | [], _, _, f, hf => by cases hf
  | f' :: fs, ds, h, f, hf => by
    dsimp only [fieldDescs] at h
    split at h
    · next h1 h2 =>
      cases hf with
      | head => 
        unfold fieldDesc at h1
        revert h1
        generalize f'.ty = t
        cases t <;> simp [sparkToAnalytics, supported]
      | tail _ hf => exact supported_of_ok h2 f hf
    · cases h

theorem pub_conforms {f : PubFrame} {ds : Dict String Desc} {s : Schema}
    (h1 : sparkSchemaToAnalytics f.frame.fields = .ok ds) (h2 : Expr.mk ds none none none = .ok s) :
    s.WF ∧ s.grouping = none ∧ s.idColumn = none ∧ Conforms s (Frame.named f.frame) := by
  have sup : ∀ g ∈ f.frame.fields, g.ty ∈ supported := by
    unfold sparkSchemaToAnalytics at h1
    split at h1
    · cases h1
    · next h => exact supported_of_ok h
  obtain ⟨ds', e, hk, _, _, hrows⟩ := C39_frame f.names sup
  rw [e] at h1
  cases h1
  have w : Dict.WF ds := by
    show (ds.map Prod.fst).Nodup
    rw [hk]; exact f.names
  obtain ⟨h3, h4, h5, _, h6⟩ := mk_ok w h2
  refine ⟨h3, h4, h5, ?_⟩
  unfold Conforms
  rw [h6]
  exact hrows f.typed

/-- What is known about the catalog of a session whose tables are right. -/
structure CatFacts (m : Measure) (tables : List (String × Tab)) (R : Root) (cat : Cat) : Prop where
  get : ∀ n s cs, Dict.get cat.priv n = some (s, cs) → ∃ t, Dict.get tables n = some t ∧ TabOK m t R ∧
    SchemaFor t.dom t.metric t.space s ∧ cs = t.cons
  ok : cat.OK
  ids : cat.IdsNotFloat
  groups : CatGroupsNotFloat cat
  data : ∀ D, Conf R D → cat.DataOK (resolve tables D)

theorem cat_facts {m : Measure} {tables : List (String × Tab)} {pub : List (String × PubFrame)} {cat : Cat} {R : Root}
    (hc : catalog tables pub = .ok cat) (ht : ∀ p ∈ tables, TabOK m p.2 R) : CatFacts m tables R cat := by
  obtain ⟨hpriv, hpub⟩ := catalog_ok hc
  have get : ∀ n s cs, Dict.get cat.priv n = some (s, cs) → ∃ t, Dict.get tables n = some t ∧ TabOK m t R ∧
      SchemaFor t.dom t.metric t.space s ∧ cs = t.cons ∧ SchemaOK s := by
    intro n s cs hg
    obtain ⟨t, h1, h2, h3⟩ := privCat_get hpriv n s cs hg
    have tok := ht _ (Dict.mem_of_get h1)
    refine ⟨t, h1, tok, t.schema_for tok.wf h2, h3, ?_⟩
    obtain ⟨s', h4, h5⟩ := tok.schema
    rw [h4] at h2
    cases h2
    exact h5
  have pget : ∀ n s t, Dict.get cat.pub n = some (s, t) →
      s.WF ∧ s.grouping = none ∧ s.idColumn = none ∧ Conforms s t := by
    intro n s t hg
    obtain ⟨f, ds, h1, h2, rfl⟩ := pubCat_get hpub n s t hg
    exact pub_conforms h1 h2
  refine ⟨?_, ⟨?_, ?_⟩, ?_, ?_, ?_⟩
  · intro n s cs hg
    obtain ⟨t, h1, h2, h3, h4, _⟩ := get n s cs hg
    exact ⟨t, h1, h2, h3, h4⟩
  · intro n s cs hg
    obtain ⟨t, h1, h2, h3, h4, h5⟩ := get n s cs hg
    exact ⟨h5.wf, h5.noSpace, h5.noBoth⟩
  · intro n s t hg
    obtain ⟨h1, h2, h3, _⟩ := pget n s t hg
    exact ⟨h1, h2, h3⟩
  · intro n s cs i hg hi
    obtain ⟨t, h1, h2, h3, h4, h5⟩ := get n s cs hg
    exact h5.idTy i hi
  · intro n s cs g hg hi
    obtain ⟨t, h1, h2, h3, h4, h5⟩ := get n s cs hg
    exact h5.groupTy g hi
  · intro D hD
    refine ⟨?_, ?_⟩
    · intro n s cs hg
      obtain ⟨t, h1, h2, h3, h4, h5⟩ := get n s cs hg
      rw [conforms_iff h5.wf, h3.dom]
      simp only [resolve, h1]
      exact h2.conf D hD
    · intro n s t hg
      exact (pget n s t hg).2.2.2

/-! ## Compiled expressions -/

section
variable {h : Hash} {m : Measure} {tables : List (String × Tab)} {R : Root} {cat : Cat}

/-- How far the result of an expression moves, in the metric of its table. -/
theorem out_rows (hl : h.Lawful) (hc : CatFacts m tables R cat) {e : Expr} (he : Admissible e) {s : Schema} {o : Out}
    (hs : schemaOf cat e = .ok s) (ho : compile h cat e = .ok o) (hm : ∀ i, o.metric ≠ .ids i) {l2 : Bool}
    (hl2 : l2 = true → m = .zCDP) {σ : ℝ≥0} {D D' : Data}
    (hD : Conf R D) (hD' : Conf R D') (hr : RowsClose m R σ D D') :
    tdist (innerOf m l2 e) o.metric (o.run (resolve tables D)) (o.run (resolve tables D')) ≤
      σ * outDist l2 h cat tables o e := by
  have : outDist l2 h cat tables o e = distOf l2 h cat (distAt tables) e := by
    unfold outDist
    split
    · next hi => exact absurd hi (hm _)
    · rfl
  rw [this]
  refine tdist_le hl hc.ok hc.groups (hc.data D hD) (hc.data D' hD') he hs ho hm hl2 ?_
  intro id hid s' cs hg hni
  obtain ⟨t, h1, h2, h3, _⟩ := hc.get id s' cs hg
  simp only [resolve, distAt, h1]
  rw [h3.metric] at hni ⊢
  exact h2.rows hni σ D D' hD hD' hr

/-- IDs whose rows are the same in the data have the same rows in the result of an expression. -/
theorem out_ids (hl : h.Lawful) (hc : CatFacts m tables R cat) {e : Expr} (he : Admissible e) {s : Schema} {o : Out}
    (hs : schemaOf cat e = .ok s) (ho : compile h cat e = .ok o) {i : String} (hi : o.metric = .ids i)
    {q : Option Value → Bool} {D D' : Data} (hD : Conf R D) (hD' : Conf R D') (hr : SameRows R o.space q D D') :
    ((o.run (resolve tables D)).filter (fun r => q (Row.get r i))).Perm
      ((o.run (resolve tables D')).filter (fun r => q (Row.get r i))) := by
  refine ids_stable hl hc.ok hc.ids (hc.data D hD) (hc.data D' hD') he.wf he.fns he.renames he.orderFree hs ho hi ?_
  intro id hid s' cs j hg hj
  obtain ⟨t, h1, h2, h3, _⟩ := hc.get id s' cs hg
  obtain ⟨s'', cs'', j'', hg', hj', hsp⟩ := sources_ids e ho hi id hid
  rw [hg] at hg'
  cases hg'
  simp only [resolve, h1]
  have hm : t.metric = .ids j := by rw [← h3.metric]; exact (metricOf_ids s' j).2 hj
  refine h2.ids j hm q D D' hD hD' ?_
  rw [← h3.idSpace, hsp]
  exact hr

/-- The number of IDs by which a table with IDs moves is that of its ID space. -/
theorem out_dist (hc : CatFacts m tables R cat) {e : Expr} {o : Out} (ho : compile h cat e = .ok o) {i : String}
    (hi : o.metric = .ids i) (l2 : Bool) : outDist l2 h cat tables o e = R.idDist o.space := by
  unfold outDist
  rw [hi]
  have hne : e.sources ≠ [] := by
    clear ho hi
    induction e with
    | source id => simp [Expr.sources]
    | joinPrivate l r _ _ _ ihl _ => simp [Expr.sources, ihl]
    | _ => assumption
  have hh : e.sources.headD "" ∈ e.sources := by
    cases hx : e.sources with
    | nil => exact absurd hx hne
    | cons a l => simp
  obtain ⟨s', cs, j, hg, hj, hsp⟩ := sources_ids e ho hi _ hh
  obtain ⟨t, h1, h2, h3, _⟩ := hc.get _ s' cs hg
  simp only [distAt, h1]
  rw [h2.dist j (by rw [← h3.metric]; exact (metricOf_ids s' j).2 hj), ← h3.idSpace, hsp]

theorem resolve_empty (hc : CatFacts m tables R cat) {e : Expr} {o : Out} (ho : compile h cat e = .ok o)
    (ht : ∀ p ∈ tables, TabOK m p.2 R) : o.run (resolve tables (fun _ => [])) = [] := by
  refine run_empty e ho _ fun id _ => ?_
  unfold resolve
  split
  · next t hg => exact (ht _ (Dict.mem_of_get hg)).empty
  · rfl

/-- The result of an expression, as a table. -/
theorem out_tab (hl : h.Lawful) (hc : CatFacts m tables R cat) (ht : ∀ p ∈ tables, TabOK m p.2 R) {e : Expr}
    (he : Admissible e) {s : Schema} {o : Out} (hb : build h cat e = .ok (s, o)) :
    TabOK m ⟨o.dom, o.metric, o.space, o.cons, outDist (decide (m = .zCDP)) h cat tables o e, fun D => o.run (resolve tables D)⟩ R := by
  obtain ⟨hs, ho, hnb, hdom, hm⟩ := build_ok hb
  have a := agree hc.ok e he.wf hs ho
  refine ⟨?_, a.wfd, ?_, ?_, ?_, ?_, ?_⟩
  · refine schema_exists a.wfd ?_ (group_typed hc.ok hc.groups e he.wf he.renames he.groups hs ho)
      (id_typed hc.ok hc.ids e he.wf he.renames hs ho) ?_
    · show "" ∉ Dict.keys o.dom
      rw [a.keys]
      unfold Schema.keys
      rw [Schema.descs_eq a.wfs]
      exact a.wfs.nonempty
    · intro hni
      show o.space = none
      rw [a.space]
      refine a.noSpace ?_
      cases hc : s.idColumn with
      | none => rfl
      | some i => exact absurd ((a.ids i).2 hc) (hni i)
  · intro D hD
    exact rows_conform hc.ok (hc.data D hD) e he.wf he.fns he.renames hs ho
  · intro hni σ D D' hD hD' hr
    have := out_rows hl hc he hs ho hni (l2 := decide (m = .zCDP)) of_decide_eq_true hD hD' hr
    have hin : ∀ S T, tdist (innerOf m (decide (m = .zCDP)) e) o.metric S T = tdist m o.metric S T := by
      intro S T
      unfold innerOf tdist
      by_cases hz : m = .zCDP
      · subst hz; simp
      · simp only [decide_eq_false hz, Bool.false_eq_true, if_false]
        split
        · split <;> simp [hz]
        · rfl
    rw [hin] at this
    exact this
  · intro i hi
    exact out_dist hc ho hi _
  · intro i hi q D D' hD hD' hr
    exact out_ids hl hc he hs ho hi hD hD' hr
  · exact resolve_empty hc ho ht

end

/-- A view is a right table. -/
theorem view_ok {ctx : Ctx} {tables : List (String × Tab)} {pub : List (String × PubFrame)} {R : Root} {r : Request}
    {t : Tab} (h : transform ctx tables pub r = .ok t) (ht : ∀ p ∈ tables, TabOK ctx.m p.2 R) : TabOK ctx.m t R := by
  cases r with
  | query q ok => cases h
  | table e ok =>
    dsimp only [transform] at h
    split at h
    · cases h
    next cat hc =>
    split at h
    · cases h
    next s o hb =>
    cases h
    exact out_tab ctx.lawful (cat_facts hc ht) ht ok hb

end Verif.Whole
