import Verif.Whole.Partition
import Verif.Whole.Measure
import Verif.Relation.Domain
import Verif.Relation.Builder

/-!
# C56: the tables of a new session

`Relation.Model` says what core is given for the tables of a builder; here this is what a session knows about its tables.
-/

namespace Verif.Whole

open Verif Verif.Schema Verif.Constraint Verif.Expr Verif.Query Verif.Stability
open Verif.Budget (XNum PB Rounding)
open scoped NNReal

/-! ## Model -/

/-- Core's measure (`session.py` l. 411-434). -/
def coreMeasure : Measure → Relation.Measure
  | .pureDP => .pureDP
  | .approxDP => .approxDP
  | .zCDP => .zCDP

/-- How `get_grouping_column` and `get_id_column` read core's metric (l. 829-833, 858-862). -/
def tableMetric : Relation.Metric → Metric
  | .groupedSum c => .grouped c
  | .groupedRoot c => .grouped c
  | .groupedSym c => .ids c
  | _ => .symDiff

/-- `get_id_space` (l. 883-891). The parent of a table of a new session is the whole domain or an ID space. -/
def spaceOf (ref : Relation.Ref) : Option String :=
  match ref.dropLast.getLast? with
  | some (.collection s) => some s
  | _ => none

/-- Core's distances as numbers. -/
noncomputable def amount : Relation.Dist → ℝ≥0
  | .num n => n.toNat
  | .timesRoot r g => r.toNat * NNReal.sqrt g.toNat
  | .dict _ => 0

/-- The distance of an entry of the session's dictionary of tables and ID spaces (`self._accountant.d_in`). -/
noncomputable def distanceOf (out : Relation.Output) (k : Relation.Ident) : ℝ≥0 :=
  match out.distance with
  | .dict ds => ((Dict.get ds k).map amount).getD 0
  | _ => 0

/-- What the session knows about a table (`get_schema`, `get_grouping_column`, `get_id_column`, `get_id_space`,
l. 785-788, 819-891; no constraints at first, l. 327-329). -/
noncomputable def startTab (out : Relation.Output) (n : String) : Option Tab :=
  match Relation.findReference n out.domain with
  | some (k :: rest) =>
    match Relation.lookupDomain out.domain (k :: rest), Relation.lookupMetric out.metric (k :: rest) with
    | .ok (.table s), .ok mt => some ⟨s, tableMetric mt, spaceOf (k :: rest), [], distanceOf out k, fun D => D n⟩
    | _, _ => none
  | _ => none

/-- The private tables of a new session (`private_sources`, l. 476-484). -/
noncomputable def startTables (out : Relation.Output) : List (String × Tab) :=
  match Relation.privateSources out.domain with
  | .ok names => names.filterMap (fun n => (startTab out n).map (fun t => (n, t)))
  | .error _ => []

/-- The data of a new session (`PrivacyAccountant.launch(measurement, dataframes)`, l. 452). -/
def startData (out : Relation.Output) : Data := fun n =>
  match Relation.findReference n out.domain with
  | some ref =>
    match Relation.lookupDomain out.data ref with
    | .ok (.table df) => Frame.named df
    | _ => []
  | none => []

/-- What is known about the data of a new session. -/
noncomputable def startRoot (out : Relation.Output) : Root where
  priv := (startTables out).filterMap (fun p =>
    match p.2.schema with
    | .ok s => some (p.1, s)
    | .error _ => none)
  dist := fun n => ((startTab out n).map Tab.dist).getD 0
  idDist := fun sp =>
    match sp with
    | some s => distanceOf out (.collection s)
    | none => 0

/-! ## Specification -/

/-- Spark keeps the values of a column in its type. -/
structure FramesOK (sources : Relation.Sources) : Prop where
  typed : ∀ n df ch, (n, df, ch) ∈ sources → ∀ r ∈ df.rows, List.Forall₂ (fun f v => Holds f v) df.fields r

/-! ## Proofs -/

def changeMetric : Relation.Change → Metric
  | .maxRowsInMaxGroups c _ _ => .grouped c
  | .rowsWithID c _ => .ids c
  | _ => .symDiff

def changeSpace : Relation.Change → Option String
  | .rowsWithID _ s => some s
  | _ => none

noncomputable def changeDist (m : Measure) : Relation.Change → ℝ≥0
  | .maxRows n => n.toNat
  | .maxRowsInMaxGroups _ g r => if m = .zCDP then r.toNat * NNReal.sqrt g.toNat else r.toNat * g.toNat
  | .rowsWithID _ _ => 1
  | .other => 0

section
variable {cast : SparkType → Value → Value} {sources : Relation.Sources} {m : Measure} {out : Relation.Output}

/-- What the session knows about a table, by its protected change. -/
structure StartFacts (m : Measure) (sources : Relation.Sources) (out : Relation.Output) (n : String) (df : Frame)
    (ch : Relation.Change) (s : Relation.TableSchema) : Prop where
  tab : startTab out n = some ⟨s, changeMetric ch, changeSpace ch, [], changeDist m ch, fun D => D n⟩
  data : startData out n = Frame.named df
  wf : Dict.WF s
  fits : Relation.SchemaFits sources df ch s
  space : ∀ sp, changeSpace ch = some sp → distanceOf out (.collection sp) = 1

theorem start_facts (hst : Relation.Stored cast sources) (h : Relation.initCore cast (coreMeasure m) sources = .ok out)
    {n : String} {df : Frame} {ch : Relation.Change} (hm : (n, df, ch) ∈ sources) :
    ∃ s, StartFacts m sources out n df ch s := by
  obtain ⟨k, rest, s, dists, h1, h2, h3, h4, h5, h6, h7, _, h9⟩ := Relation.C33_tables hst h hm
  have hok := (Relation.initCore_ok hst _ h).1
  have hv := hst.valid _ _ _ hm
  have hd : distanceOf out k = changeDist m ch := by
    unfold distanceOf
    rw [h6]
    dsimp only
    rw [h7]
    cases ch with
    | maxRows n => rfl
    | maxRowsInMaxGroups c g r =>
      simp only [Relation.Change.valid, Bool.and_eq_true, decide_eq_true_eq] at hv
      cases m <;> simp only [Relation.expectedDist, coreMeasure, changeDist, amount, reduceCtorEq, if_false, if_true,
        Option.map_some, Option.getD_some]
      · rw [Int.toNat_mul (by omega) (by omega)]; push_cast; rfl
      · rw [Int.toNat_mul (by omega) (by omega)]; push_cast; rfl
    | rowsWithID c sp =>
      show amount (.num 1) = 1
      simp [amount]
    | other => exact absurd hm (hok.known n df)
  refine ⟨s, ?_, ?_, ?_, h3, ?_⟩
  · unfold startTab
    rw [h1]
    dsimp only
    rw [h2, h5]
    dsimp only
    rw [hd]
    congr 2
    · cases ch <;> first | rfl | (cases m <;> rfl)
    · rw [h9]
      cases ch <;> rfl
  · unfold startData
    rw [h1]
    dsimp only
    rw [h4]
  · obtain ⟨hwf, _, _⟩ := Relation.C33_names hst h
    exact Relation.initCore_schemas h _ _ ((Relation.lookupDomain_iff _ _ _ hwf).1 h2)
  · intro sp hsp
    cases ch <;> cases hsp
    cases h9
    exact hd

theorem spark_value {f : Field} {d : SparkDesc} {v : Value} (hd : Relation.fieldSpark f = some d) (hv : Holds f v) : ValOK d v := by
  obtain ⟨fn, ft, fnull⟩ := f
  obtain ⟨h1, h2⟩ := hv
  dsimp only at h1 h2
  unfold Relation.fieldSpark at hd
  cases ft <;> cases hd <;> cases v with
  | dec x => cases x <;> first | exact absurd h1 id | simp [ValOK, DescOK, ofSparkDesc]
  | null => exact h2 rfl
  | _ => first | exact absurd h1 id | rfl

theorem value_null {d : SparkDesc} {v : Value} (h : ValOK d v) : ValOK (Relation.setNull d) v := by
  cases d <;> cases v with
  | dec x => cases x <;> simpa [ValOK, DescOK, ofSparkDesc, Relation.setNull] using h
  | _ => simpa [ValOK, DescOK, ofSparkDesc, Relation.setNull] using h

/-- A column of a data frame and its description. -/
theorem get_row {w : Option String} (c : String) : ∀ {fields : List Field} {r : List Value},
    List.Forall₂ (fun f v => Holds f v) fields r → (∀ f ∈ fields, f.ty ∈ supported) →
    Rel (((fields.find? (fun f => decide (f.name = c))).bind Relation.fieldSpark).map
        (fun d => if w = some c then Relation.setNull d else d))
      (Dict.get ((fields.map Field.name).zip r) c)
  | [], _, .nil, _ => trivial
  | f :: fs, v :: r, .cons hv hr, hs => by
    rw [List.map_cons, List.zip_cons_cons, Dict.get_cons, List.find?_cons]
    by_cases hc : f.name = c
    · rw [if_pos hc.symm]
      simp only [hc, decide_true, Option.bind_some]
      obtain ⟨d, hd⟩ := Relation.fieldSpark_some (hs f (by simp))
      rw [hd]
      simp only [Option.map_some]
      show ValOK _ v
      have h1 := spark_value hd hv
      split
      · exact value_null h1
      · exact h1
    · rw [if_neg (fun e => hc e.symm)]
      simp only [hc, decide_false]
      exact get_row c hr (fun f hf => hs f (List.mem_cons_of_mem _ hf))

theorem fits_widen {df : Frame} {ch : Relation.Change} {s : Relation.TableSchema} (h : Relation.SchemaFits sources df ch s) :
    ∃ w, ∀ col, Dict.get s col = Relation.expected df w col := by
  cases ch with
  | rowsWithID c sp =>
    by_cases hn : Relation.NullableSpace sp sources
    · exact ⟨some c, fun col => (h col).1 hn⟩
    · exact ⟨none, fun col => (h col).2 hn⟩
  | _ => exact ⟨none, h⟩

theorem start_row {n : String} {df : Frame} {ch : Relation.Change} {s : Relation.TableSchema} (hst : Relation.Stored cast sources)
    (hf : FramesOK sources) (hm : (n, df, ch) ∈ sources) (h : Relation.SchemaFits sources df ch s) :
    ∀ r ∈ Frame.named df, RowOK s r := by
  intro r hr
  obtain ⟨r0, hr0, rfl⟩ := List.mem_map.1 hr
  obtain ⟨w, hw⟩ := fits_widen h
  have ht := hf.typed n df ch hm r0 hr0
  refine ⟨?_, fun c => ?_⟩
  · have : ((df.fields.map Field.name).zip r0).map Prod.fst = df.fields.map Field.name := by
      rw [List.map_fst_zip]
      rw [List.length_map, ht.length_eq]
    show (((df.fields.map Field.name).zip r0).map Prod.fst).Nodup
    rw [this]
    exact hst.columns _ _ _ hm
  · rw [hw c, Relation.expected_eq]
    exact get_row c ht (Relation.coerced_types (hst.coerced _ _ _ hm))

/-- The type of a column that may be grouped by or identify units. -/
theorem key_column {n : String} {df : Frame} {ch : Relation.Change} {s : Relation.TableSchema}
    (hst : Relation.Stored cast sources) (hm : (n, df, ch) ∈ sources) (h : Relation.SchemaFits sources df ch s) {c : String}
    (hc : c ∈ Relation.columns df) (hk : ∀ f ∈ df.fields, f.name = c → Relation.KeyType f.ty) :
    ∃ t, Dict.get (tys s) c = some t ∧ t ≠ .DECIMAL := by
  obtain ⟨w, hw⟩ := fits_widen h
  obtain ⟨f, hf, rfl⟩ := List.mem_map.1 hc
  have hfind := Relation.find_unique (hst.columns _ _ _ hm) hf
  have hty := hk f hf rfl
  rw [get_tys, hw, Relation.expected_eq, hfind, Option.bind_some]
  unfold Relation.fieldSpark
  rcases hty with e | e | e <;> rw [e] <;> refine ⟨_, rfl, ?_⟩ <;> dsimp only <;> split <;> nofun

theorem start_schema {n : String} {df : Frame} {ch : Relation.Change} {s : Relation.TableSchema}
    (hst : Relation.Stored cast sources) (hok : Relation.SourcesOK sources) (hm : (n, df, ch) ∈ sources)
    (hs : StartFacts m sources out n df ch s) :
    ∃ sch, Expr.mk (sparkDomainToAnalytics s) (groupOf (changeMetric ch)) (idOf (changeMetric ch)) (changeSpace ch) = .ok sch ∧
      SchemaOK sch := by
  refine schema_exists hs.wf ?_ ?_ ?_ ?_
  · intro hk
    have h1 := Dict.get_isSome.2 hk
    obtain ⟨w, hw⟩ := fits_widen hs.fits
    rw [hw, Relation.expected_eq] at h1
    have : df.fields.find? (fun f => decide (f.name = "")) = none := by
      rw [List.find?_eq_none]
      intro f hf' he
      have hc := hst.coerced _ _ _ hm
      unfold coerce at hc
      rw [if_pos (List.mem_map.2 ⟨f, hf', by simpa using he⟩)] at hc
      cases hc
    rw [this] at h1
    cases h1
  · intro g hg
    cases ch <;> cases hg
    obtain ⟨h1, h2⟩ := hok.groups _ _ _ _ _ hm
    exact key_column hst hm hs.fits h1 h2
  · intro i hi
    cases ch <;> cases hi
    next sp =>
    obtain ⟨ty, h1, h2⟩ := hok.ids sp
    obtain ⟨h3, h4⟩ := h2 _ _ _ hm
    exact key_column hst hm hs.fits h3 (fun f hf' hn => h4 f hf' hn ▸ h1)
  · intro hi
    cases ch with
    | rowsWithID c sp => exact absurd rfl (hi c)
    | _ => rfl

/-- Every private table of a new session was given to the builder. -/
theorem start_mem (hst : Relation.Stored cast sources) (h : Relation.initCore cast (coreMeasure m) sources = .ok out)
    {p : String × Tab} (hp : p ∈ startTables out) :
    ∃ df ch s, (p.1, df, ch) ∈ sources ∧ StartFacts m sources out p.1 df ch s ∧ startTab out p.1 = some p.2 := by
  obtain ⟨names, hn, hmem⟩ := Relation.privateSources_ok hst h
  unfold startTables at hp
  rw [hn] at hp
  dsimp only at hp
  obtain ⟨n, hn', he⟩ := List.mem_filterMap.1 hp
  obtain ⟨t, ht, rfl⟩ := Option.map_eq_some_iff.1 he
  obtain ⟨⟨df, ch⟩, hm⟩ := Dict.mem_keys.1 ((hmem n).1 hn')
  obtain ⟨s, hs⟩ := start_facts hst h hm
  exact ⟨df, ch, s, hm, hs, ht⟩

/-- The schemas of the tables of a new session. -/
theorem root_get (hst : Relation.Stored cast sources) (h : Relation.initCore cast (coreMeasure m) sources = .ok out)
    {n : String} {sch : Schema} (hg : Dict.get (startRoot out).priv n = some sch) :
    ∃ df ch s, (n, df, ch) ∈ sources ∧ StartFacts m sources out n df ch s ∧
      Expr.mk (sparkDomainToAnalytics s) (groupOf (changeMetric ch)) (idOf (changeMetric ch)) (changeSpace ch) = .ok sch := by
  have hm := Dict.mem_of_get hg
  obtain ⟨p, hp, he⟩ := List.mem_filterMap.1 hm
  obtain ⟨df, ch, s, h1, h2, h3⟩ := start_mem hst h hp
  split at he
  · next sch' hs =>
    cases he
    refine ⟨df, ch, s, h1, h2, ?_⟩
    rw [h2.tab] at h3
    rw [← hs, ← Option.some.inj h3]
    rfl
  · cases he

theorem named_filter (df : Frame) (c : String) (v : Option Value) :
    (Frame.named df).filter (fun r => decide (Row.get r c = v)) =
      (Relation.rowsWith df c v).map (fun r => (df.fields.map Field.name).zip r) := by
  unfold Frame.named Relation.rowsWith
  rw [List.filter_map]
  rfl

/-- What a new session knows about its tables is right. -/
theorem start_tabOK (hst : Relation.Stored cast sources) (hf : FramesOK sources)
    (h : Relation.initCore cast (coreMeasure m) sources = .ok out) : ∀ p ∈ startTables out, TabOK m p.2 (startRoot out) := by
  intro p hp
  have hok := (Relation.initCore_ok hst _ h).1
  obtain ⟨df, ch, s, hm, hs, ht⟩ := start_mem hst h hp
  obtain ⟨sch, h1, h2⟩ := start_schema hst hok hm hs
  have hpt : p.2 = ⟨s, changeMetric ch, changeSpace ch, [], changeDist m ch, fun D => D p.1⟩ := by
    rw [hs.tab] at ht
    exact (Option.some.inj ht).symm
  have hsch : p.2.schema = .ok sch := by rw [hpt]; exact h1
  have sf := p.2.schema_for (by rw [hpt]; exact hs.wf) hsch
  -- the root knows this table
  have hget : Dict.get (startRoot out).priv p.1 = some sch := by
    have hmem : (p.1, sch) ∈ (startRoot out).priv := by
      refine List.mem_filterMap.2 ⟨p, hp, ?_⟩
      rw [hsch]
    cases hg : Dict.get (startRoot out).priv p.1 with
    | none => exact absurd (Dict.mem_keys.2 ⟨_, hmem⟩) (Dict.get_eq_none.1 hg)
    | some sch' =>
      obtain ⟨df', ch', s', hm', hs', hmk⟩ := root_get hst h hg
      have e := (Dict.get_eq_some hst.wf).2 hm
      rw [(Dict.get_eq_some hst.wf).2 hm'] at e
      cases e
      have e := hs.tab
      rw [hs'.tab] at e
      cases e
      rw [h1] at hmk
      cases hmk
      rfl
  refine ⟨⟨sch, hsch, h2⟩, by rw [hpt]; exact hs.wf, ?_, ?_, ?_, ?_, by rw [hpt]⟩
  · intro D hD r hr
    have := (conforms_iff sf.wf _).1 (hD p.1 sch hget)
    rw [sf.dom] at this
    rw [hpt] at hr
    exact this r hr
  · intro hni σ D D' hD hD' hr
    have h3 := hr p.1 sch hget (by
      rw [sf.idColumn]
      cases hk : p.2.metric with
      | ids i => exact absurd hk (hni i)
      | _ => rfl)
    have h4 : (startRoot out).dist p.1 = p.2.dist := by
      show ((startTab out p.1).map Tab.dist).getD 0 = _
      rw [ht]
      rfl
    rw [h4, sf.metric] at h3
    have h5 : ∀ D, p.2.run D = D p.1 := fun D => by rw [hpt]
    rw [h5, h5]
    exact h3
  · intro i hi
    rw [hpt] at hi ⊢
    cases ch <;> cases hi
    next sp =>
    show (1 : ℝ≥0) = distanceOf out (.collection sp)
    rw [hs.space sp rfl]
  · intro i hi q D D' hD hD' hsame
    have h5 : ∀ D, p.2.run D = D p.1 := fun D => by rw [hpt]
    rw [h5, h5]
    exact hsame p.1 sch i hget (by rw [sf.idColumn, hi]; rfl) sf.idSpace

/-- The data of a new session is as its schemas say. -/
theorem start_conf (hst : Relation.Stored cast sources) (hf : FramesOK sources)
    (h : Relation.initCore cast (coreMeasure m) sources = .ok out) : Conf (startRoot out) (startData out) := by
  intro n sch hg
  obtain ⟨df, ch, sc, hm, hs, hmk⟩ := root_get hst h hg
  have sf := schema_for hs.wf hmk
  rw [conforms_iff sf.wf, sf.dom, hs.data]
  exact start_row hst hf hm hs.fits

end

/-! ### Neighbors -/

theorem rowDist_named {fields : List String} {a b : List (List Value)} {n : ℤ} (h : Relation.Differ n a b) :
    rowDist (a.map (fun r => fields.zip r)) (b.map (fun r => fields.zip r)) ≤ n.toNat := by
  obtain ⟨c, r, d, ha, hb, hn⟩ := h
  have h1 := ha.map (fun r => fields.zip r)
  have h2 := hb.map (fun r => fields.zip r)
  rw [List.map_append] at h1 h2
  refine (rowDist_le_of_perm h1 h2).trans ?_
  rw [List.length_map, List.length_map]
  omega

section
variable {cast : SparkType → Value → Value} {sA sB : Relation.Sources} {m : Measure} {outA outB : Relation.Output}

/-- A source and its neighbor. -/
theorem partner (hn : Relation.Neighbors sA sB) {n : String} {a : Frame} {ch : Relation.Change} (hm : (n, a, ch) ∈ sA) :
    ∃ b, (n, b, ch) ∈ sB ∧ a.fields = b.fields := (Relation.same_parts hn.same).2.2.2 n a ch hm

/-- The groups of a table whose grouping column is not a null. -/
theorem group_named (a : Frame) (c : String) (hcol : c ∈ Relation.columns a)
    (hlen : ∀ r ∈ a.rows, r.length = a.fields.length) (v : Value) :
    Stability.group (fun r => cell r c) v (Frame.named a) = (Relation.rowsWith a c (some v)).map (fun r => (a.fields.map Field.name).zip r) := by
  rw [← named_filter]
  unfold Stability.group
  refine List.filter_congr fun r hr => ?_
  obtain ⟨r0, hr0, rfl⟩ := List.mem_map.1 hr
  have hin : c ∈ Dict.keys ((a.fields.map Field.name).zip r0) := by
    show c ∈ ((a.fields.map Field.name).zip r0).map Prod.fst
    rw [List.map_fst_zip (by rw [List.length_map, hlen r0 hr0])]
    exact hcol
  obtain ⟨x, hx⟩ := Option.isSome_iff_exists.1 (Dict.get_isSome.2 hin)
  have hx' : Row.get ((a.fields.map Field.name).zip r0) c = some x := hx
  simp only [cell, hx', Option.getD_some, Option.some.injEq]

/-- Neighboring databases give neighboring data. -/
theorem start_near (hA : Relation.Stored cast sA) (hB : Relation.Stored cast sB) (hfA : FramesOK sA) (hfB : FramesOK sB)
    (hn : Relation.Neighbors sA sB) (h : Relation.initCore cast (coreMeasure m) sA = .ok outA)
    (h' : Relation.initCore cast (coreMeasure m) sB = .ok outB) (hd : outA.domain = outB.domain) (hme : outA.metric = outB.metric)
    (hdi : outA.distance = outB.distance) :
    startTables outB = startTables outA ∧
      Near m 1 (startRoot outA, startData outA) (startRoot outB, startData outB) := by
  have hdo : ∀ k, distanceOf outB k = distanceOf outA k := fun k => by unfold distanceOf; rw [hdi]
  have htab : ∀ n, startTab outB n = startTab outA n := by
    intro n
    unfold startTab
    simp only [hdo]
    rw [hd, hme]
  have htabs : startTables outB = startTables outA := by
    unfold startTables
    simp only [htab]
    rw [hd]
  have hroot : startRoot outB = startRoot outA := by
    unfold startRoot
    rw [htabs]
    simp only [hdo, htab]
  have hok := (Relation.initCore_ok hA _ h).1
  have hone : scale m 1 = 1 := by
    unfold scale
    split
    · exact NNReal.sqrt_one
    · rfl
  have hwfB := hB.wf
  -- the frame of a table in the other database
  have other : ∀ {n a ch}, (n, a, ch) ∈ sA → ∃ b, (n, b, ch) ∈ sB ∧ a.fields = b.fields ∧
      startData outA n = Frame.named a ∧ startData outB n = Frame.named b := by
    intro n a ch hm
    obtain ⟨b, hb, he⟩ := partner hn hm
    obtain ⟨_, hs⟩ := start_facts hA h hm
    obtain ⟨_, hs'⟩ := start_facts hB h' hb
    exact ⟨b, hb, he, hs.data, hs'.data⟩
  refine ⟨htabs, ⟨hroot, ?_, start_conf hA hfA h, ?_, ?_, ?_⟩⟩
  · intro n sch hg
    obtain ⟨df, ch, s, hm, hs, hmk⟩ := root_get hA h hg
    obtain ⟨sch', h1, h2⟩ := start_schema hA hok hm hs
    rw [hmk] at h1
    cases h1
    exact h2
  · have := start_conf hB hfB h'
    rw [hroot] at this
    exact this
  · intro n sch hg hid
    obtain ⟨a, ch, s, hm, hs, hmk⟩ := root_get hA h hg
    obtain ⟨b, hb, he, e1, e2⟩ := other hm
    have sf := schema_for hs.wf hmk
    dsimp only
    rw [sf.metric, e1, e2, hone, one_mul]
    have hdist : (startRoot outA).dist n = changeDist m ch := by
      show ((startTab outA n).map Tab.dist).getD 0 = _
      rw [hs.tab]
      rfl
    rw [hdist]
    cases ch with
    | other => exact absurd hm (hok.known n a)
    | rowsWithID c sp => rw [sf.idColumn] at hid; cases hid
    | maxRows k =>
      have h1 := rowDist_named (fields := a.fields.map Field.name) (hn.rows n a b k hm hb)
      show ((rowDist (Frame.named a) (Frame.named b) : ℕ) : ℝ≥0) ≤ (k.toNat : ℝ≥0)
      unfold Frame.named
      rw [← he]
      exact_mod_cast h1
    | maxRowsInMaxGroups c g r =>
      have hv := hA.valid _ _ _ hm
      simp only [Relation.Change.valid, Bool.and_eq_true, decide_eq_true_eq] at hv
      obtain ⟨changed, hc, h0, h1⟩ := hn.groups n a b c g r hm hb
      have hlen : ∀ {sx : Relation.Sources} {x} {y : Relation.Change}, FramesOK sx → (n, x, y) ∈ sx → ∀ r ∈ x.rows, r.length = x.fields.length :=
        fun hf hx r hr => ((hf.typed _ _ _ hx r hr).length_eq).symm
      have hcol := (hok.groups _ _ _ _ _ hm).1
      have ga := group_named a c hcol (hlen hfA hm)
      have gb := group_named b c (by unfold Relation.columns; rw [← he]; exact hcol) (hlen hfB hb)
      have same : ∀ v, some v ∉ changed → rowDist (Stability.group (fun r => cell r c) v (Frame.named a))
          (Stability.group (fun r => cell r c) v (Frame.named b)) = 0 := by
        intro v hv'
        rw [ga, gb, rowDist_eq_zero, ← he]
        exact (h0 _ hv').map _
      have diff : ∀ v, some v ∈ changed → rowDist (Stability.group (fun r => cell r c) v (Frame.named a))
          (Stability.group (fun r => cell r c) v (Frame.named b)) ≤ r.toNat := by
        intro v hv'
        rw [ga, gb, ← he]
        exact rowDist_named (h1 _ hv')
      set chg : Finset Value := changed.preimage some (fun _ _ _ _ e => Option.some.inj e) with hchg
      have hmem : ∀ v, v ∈ chg ↔ some v ∈ changed := fun v => Finset.mem_preimage
      have hcard : chg.card ≤ g.toNat := by
        have : chg.card ≤ changed.card := by
          rw [← Finset.card_map (Function.Embedding.some)]
          refine Finset.card_le_card fun x hx => ?_
          obtain ⟨v, hv', rfl⟩ := Finset.mem_map.1 hx
          exact (hmem v).1 hv'
        omega
      unfold tdist
      dsimp only [changeMetric, changeDist]
      by_cases hz : m = .zCDP
      · rw [if_pos hz, if_pos hz, rootDist_le]
        have h2 := Relation.sum_few (groupKeys (fun r => cell r c) (Frame.named a) (Frame.named b)) chg
          (fun v => rowDist (Stability.group (fun r => cell r c) v (Frame.named a)) (Stability.group (fun r => cell r c) v (Frame.named b)) ^ 2)
          (r.toNat ^ 2) (fun v hv' => by rw [same v (fun hx => hv' ((hmem v).2 hx))]; rfl)
          (fun v hv' => Nat.pow_le_pow_left (diff v ((hmem v).1 hv')) 2)
        rw [mul_pow, NNReal.sq_sqrt]
        have h3 : sqDist (fun r => cell r c) (Frame.named a) (Frame.named b) ≤ r.toNat ^ 2 * g.toNat := by
          refine h2.trans ?_
          rw [Nat.mul_comm]
          exact Nat.mul_le_mul_left _ hcard
        exact_mod_cast h3
      · rw [if_neg hz, if_neg hz]
        have h2 := Relation.sum_few (groupKeys (fun r => cell r c) (Frame.named a) (Frame.named b)) chg
          (fun v => rowDist (Stability.group (fun r => cell r c) v (Frame.named a)) (Stability.group (fun r => cell r c) v (Frame.named b)))
          r.toNat (fun v hv' => same v (fun hx => hv' ((hmem v).2 hx))) (fun v hv' => diff v ((hmem v).1 hv'))
        have h3 : rowDist (Frame.named a) (Frame.named b) ≤ r.toNat * g.toNat := by
          rw [← sumDist_eq (fun r => cell r c)]
          refine h2.trans ?_
          rw [Nat.mul_comm]
          exact Nat.mul_le_mul_left _ hcard
        exact_mod_cast h3
  · intro sp
    rw [hone, one_mul]
    -- tables of the ID space
    have tables : ∀ {n sch i}, Dict.get (startRoot outA).priv n = some sch → sch.idColumn = some i → sch.idSpace = sp →
        ∃ a b s, (n, a, .rowsWithID i s) ∈ sA ∧ (n, b, .rowsWithID i s) ∈ sB ∧ a.fields = b.fields ∧ sp = some s ∧
          startData outA n = Frame.named a ∧ startData outB n = Frame.named b := by
      intro n sch i hg hi hs
      obtain ⟨a, ch, s, hm, hs', hmk⟩ := root_get hA h hg
      obtain ⟨b, hb, he, e1, e2⟩ := other hm
      have sf := schema_for hs'.wf hmk
      rw [sf.idColumn] at hi
      rw [sf.idSpace] at hs
      cases ch <;> cases hi
      exact ⟨a, b, _, hm, hb, he, hs.symm, e1, e2⟩
    cases sp with
    | none =>
      refine ⟨0, by simp, .same ?_⟩
      intro n sch i hg hi hs
      obtain ⟨_, _, s, _, _, _, e, _⟩ := tables hg hi hs
      cases e
    | some s =>
      obtain ⟨changed, hc, h0, h1⟩ := hn.ids s
      have named : ∀ (x : Frame) (fs : List Field) (i : String) (v : Option Value), fs = x.fields →
          (Frame.named x).filter (fun r => decide (Row.get r i = v)) =
            (Relation.rowsWith x i v).map (fun r => (fs.map Field.name).zip r) := by
        rintro x _ i v rfl
        exact named_filter x i v
      -- rows with the same IDs
      have perm : ∀ (q : Option Value → Bool) {n sch i}, Dict.get (startRoot outA).priv n = some sch → sch.idColumn = some i →
          sch.idSpace = some s → (∀ v ∈ changed, q v = false) →
          ((startData outA n).filter (fun r => q (Row.get r i))).Perm ((startData outB n).filter (fun r => q (Row.get r i))) := by
        intro q n sch i hg hi hs hq
        obtain ⟨a, b, s', ha, hb, he, e, e1, e2⟩ := tables hg hi hs
        cases e
        rw [e1, e2]
        classical
        rw [← rowDist_eq_zero, ← sumDist_eq (fun r => Row.get r i)]
        refine Finset.sum_eq_zero fun v _ => ?_
        have hgr : ∀ t : Table, Stability.group (fun r => Row.get r i) v (t.filter (fun r => q (Row.get r i))) =
            if q v then t.filter (fun r => decide (Row.get r i = v)) else [] := by
          intro t
          unfold Stability.group
          rw [List.filter_filter]
          split
          · next hv =>
            refine List.filter_congr fun x _ => ?_
            by_cases hx : Row.get x i = v
            · simp [hx, hv]
            · simp [hx]
          · next hv =>
            rw [List.filter_eq_nil_iff]
            intro x _ hx
            simp only [Bool.and_eq_true, decide_eq_true_eq] at hx
            exact hv (hx.1 ▸ hx.2)
        rw [hgr, hgr]
        split
        · next hv =>
          rw [rowDist_eq_zero, named a a.fields i v rfl, named b a.fields i v he]
          refine (h0 v (fun hx => ?_) n a b i ha hb).map _
          rw [hq v hx] at hv
          cases hv
        · exact rowDist_self _
      have hdist : (startRoot outA).idDist (some s) = distanceOf outA (.collection s) := rfl
      by_cases hx : changed = ∅
      · refine ⟨0, by simp, .same ?_⟩
        intro n sch i hg hi hs
        exact perm (fun _ => true) hg hi hs (by simp [hx])
      · obtain ⟨v, hv⟩ := Finset.nonempty_iff_ne_empty.2 hx
        have hsub : ∀ w ∈ changed, w = v := fun w hw => Finset.card_le_one.1 hc w hw v hv
        by_cases hex : ∃ n c a, (n, a, Relation.Change.rowsWithID c s) ∈ sA
        · refine ⟨1, ?_, .step (E := startData outB) ⟨v, ?_, ?_⟩ ?_ (.same ?_)⟩
          · obtain ⟨n, c, a, hm⟩ := hex
            obtain ⟨_, hs⟩ := start_facts hA h hm
            rw [hdist, hs.space s rfl]
            simp
          · intro n sch i hg hi hs
            exact perm (fun x => decide (x ≠ v)) hg hi hs (fun w hw => by simp [hsub w hw])
          · rcases h1 v hv with h2 | h2
            · left
              intro n sch i hg hi hs
              obtain ⟨a, b, s', ha, hb, he, e, e1, e2⟩ := tables hg hi hs
              cases e
              dsimp only
              rw [e1, named a a.fields i v rfl, h2 n a i ha]
              exact .refl _
            · right
              intro n sch i hg hi hs
              obtain ⟨a, b, s', ha, hb, he, e, e1, e2⟩ := tables hg hi hs
              cases e
              dsimp only
              rw [e2, named b a.fields i v he, h2 n b i hb]
              exact .refl _
          · have := start_conf hB hfB h'
            rw [hroot] at this
            exact this
          · intro n sch i hg hi hs
            exact .refl _
        · refine ⟨0, by simp, .same ?_⟩
          intro n sch i hg hi hs
          obtain ⟨a, _, s', ha, _, _, e, _⟩ := tables hg hi hs
          cases e
          exact absurd ⟨n, i, a, ha⟩ hex

end

end Verif.Whole
