import Verif.Schema.Model
import Mathlib.Algebra.Field.Rat
import Mathlib.Tactic.Linarith
import Mathlib.Algebra.Order.Ring.Rat

/-!
# Properties of schemas

C38 (FrozenDict), C39 (conversions and coercion), C40 (equality and hashing of schemas).

The specification of a dictionary is its set of entries `(k, v) ∈ d` and the order of its keys.
-/

namespace Verif.Schema

open Verif

section Frozen

variable {K V : Type} [DecidableEq K]

theorem search_eq (l : List (K × V)) (k : K) : FrozenDict.search l k = Dict.get l k := by
  induction l with
  | nil => rfl
  | cons p l ih =>
    rw [FrozenDict.search, Dict.get_cons, ih]
    by_cases h : p.1 = k
    · simp [h]
    · rw [if_neg h, if_neg (fun e => h e.symm)]

theorem filterMap_lookup (l : List (K × V)) (m : List (K × V)) (h : (l.map Prod.fst).Nodup) (sub : m ⊆ l) :
    (m.map Prod.fst).filterMap (fun k => (FrozenDict.search l k).map (fun v => (k, v))) = m := by
  induction m with
  | nil => rfl
  | cons p m ih =>
    have hp : Dict.get l p.1 = some p.2 := (Dict.get_eq_some h).2 (sub (by simp))
    rw [List.map_cons, List.filterMap_cons, search_eq, hp]
    simp only [Option.map_some]
    rw [ih (fun x hx => sub (List.mem_cons_of_mem _ hx))]

/-- C38, round trip: converting a dictionary to a `FrozenDict` and back gives the same entries in the same
order. -/
theorem C38_roundtrip (d : Dict K V) (w : Dict.WF d) : (FrozenDict.fromDict d).toDict = d := by
  have : (FrozenDict.fromDict d).toDict = Dict.ofPairs d := by
    unfold FrozenDict.toDict FrozenDict.iter FrozenDict.getItem FrozenDict.fromDict
    rw [filterMap_lookup d d w (fun x hx => hx)]
  rw [this, Dict.ofPairs_eq w]

/-- Converting any `FrozenDict`, even one built directly with repeated keys, gives a dictionary. -/
theorem toDict_wf (f : FrozenDict K V) : Dict.WF f.toDict := Dict.wf_ofPairs _

/-- C38, lookup: a `FrozenDict` made from a dictionary finds exactly the dictionary's entries, and raises
`KeyError` exactly on the keys that are not there. -/
theorem C38_lookup (d : Dict K V) (w : Dict.WF d) (k : K) :
    (∀ v, (FrozenDict.fromDict d).getItem k = some v ↔ (k, v) ∈ d) ∧
    ((FrozenDict.fromDict d).getItem k = none ↔ ∀ v, (k, v) ∉ d) ∧
    ((FrozenDict.fromDict d).iter = d.map Prod.fst ∧ (FrozenDict.fromDict d).len = d.length) := by
  have e : (FrozenDict.fromDict d).getItem k = Dict.get d k := search_eq d k
  refine ⟨fun v => ?_, ?_, rfl, rfl⟩
  · rw [e, Dict.get_eq_some w]
  · rw [e, Dict.get_eq_none, Dict.mem_keys]
    simp

/-- C38, equality: two `FrozenDict`s made from dictionaries are equal exactly when the dictionaries have the
same keys in the same order and the same entries. In particular reordering makes them different. -/
theorem C38_eq [DecidableEq V] (a b : Dict K V) (wa : Dict.WF a) (wb : Dict.WF b) :
    (FrozenDict.fromDict a).pyEq (FrozenDict.fromDict b) = true ↔
      a.map Prod.fst = b.map Prod.fst ∧ ∀ k v, (k, v) ∈ a ↔ (k, v) ∈ b := by
  unfold FrozenDict.pyEq FrozenDict.fromDict
  simp only [decide_eq_true_eq]
  constructor
  · rintro rfl
    simp
  · rintro ⟨hk, he⟩
    refine Dict.ext_get wa wb hk (fun k => ?_)
    cases h : Dict.get a k with
    | some v => exact ((Dict.get_eq_some wb).2 ((he k v).1 ((Dict.get_eq_some wa).1 h))).symm
    | none =>
      rw [Dict.get_eq_none] at h
      symm
      rw [Dict.get_eq_none]
      intro hk'
      exact h (by unfold Dict.keys at *; rw [hk]; exact hk')

/-- C38, hashing: equal `FrozenDict`s have equal hashes, whatever the hash function on tuples. -/
theorem C38_hash [DecidableEq V] {β : Type} (H : List (K × V) → β) (f g : FrozenDict K V)
    (h : f.pyEq g = true) : f.pyHash H = g.pyHash H := by
  unfold FrozenDict.pyEq at h
  unfold FrozenDict.pyHash
  rw [of_decide_eq_true h]

/-- What merging two dictionaries means: the entries of the right one, and those of the left one whose key is
not overridden; the keys of the left one first, in their order, then the new ones in theirs. -/
structure IsMerge (a b m : Dict K V) : Prop where
  wf : Dict.WF m
  entries : ∀ k v, (k, v) ∈ m ↔ (k, v) ∈ b ∨ (k, v) ∈ a ∧ ∀ v', (k, v') ∉ b
  order : m.map Prod.fst = a.map Prod.fst ++ (b.map Prod.fst).filter (fun k => decide (k ∉ a.map Prod.fst))

theorem union_isMerge (a b : Dict K V) (wa : Dict.WF a) (wb : Dict.WF b) : IsMerge a b (Dict.union a b) := by
  refine ⟨Dict.wf_union wa b, fun k v => ?_, Dict.keys_union a b wb⟩
  rw [← Dict.get_eq_some (Dict.wf_union wa b), Dict.get_union a b wb]
  have hb : (∀ v', (k, v') ∉ b) ↔ Dict.get b k = none := by
    rw [Dict.get_eq_none, Dict.mem_keys]; simp
  rw [hb, ← Dict.get_eq_some wa, ← Dict.get_eq_some wb]
  cases Dict.get b k <;> simp

/-- C38, merging: `FrozenDict | dict` and `FrozenDict | FrozenDict` agree with merging the dictionaries, and
anything else is a `TypeError`. -/
theorem C38_merge (a b : Dict K V) (wa : Dict.WF a) (wb : Dict.WF b) :
    (∃ m, (FrozenDict.fromDict a).or (.dict b) = .ok m ∧ IsMerge a b m.elements) ∧
    (∃ m, (FrozenDict.fromDict a).or (.frozen (FrozenDict.fromDict b)) = .ok m ∧ IsMerge a b m.elements) ∧
    (FrozenDict.fromDict a).or .other = .error .type := by
  refine ⟨⟨_, rfl, ?_⟩, ⟨_, rfl, ?_⟩, rfl⟩
  · rw [C38_roundtrip a wa]
    exact union_isMerge a b wa wb
  · rw [C38_roundtrip a wa, C38_roundtrip b wb]
    exact union_isMerge a b wa wb

end Frozen

/-- The hypotheses of C38 are met by a real dictionary, and order matters for equality. -/
example : Dict.WF [("a", 1), ("b", 2)] ∧ Dict.WF [("b", 2), ("a", 1)] ∧
    (FrozenDict.fromDict [("a", 1), ("b", 2)]).pyEq (FrozenDict.fromDict [("b", 2), ("a", 1)]) = false := by
  refine ⟨?_, ?_, ?_⟩ <;> simp [Dict.WF, FrozenDict.pyEq, FrozenDict.fromDict]

/-! ## Schemas -/

/-- A schema as the constructor makes it: no column named "", no repeated column, and the grouping and ID
columns exist. -/
structure Schema.WF (s : Schema) : Prop where
  nodup : (s.columnDescs.elements.map Prod.fst).Nodup
  nonempty : "" ∉ s.columnDescs.elements.map Prod.fst
  grouping : ∀ g, s.grouping = some g → g ∈ s.columnDescs.elements.map Prod.fst
  idColumn : ∀ g, s.idColumn = some g → g ∈ s.columnDescs.elements.map Prod.fst

theorem Schema.descs_eq {s : Schema} (w : s.WF) : s.descs = s.columnDescs.elements :=
  C38_roundtrip s.columnDescs.elements w.nodup

theorem resolveAll_some {nul nan inf : Bool} {cols : Dict String ColSpec} {ds : Dict String Desc}
    (h : resolveAll nul nan inf cols = some ds) :
    List.Forall₂ (fun p q => q.1 = p.1 ∧ resolve nul nan inf p.2 = some q.2) cols ds := by
  induction cols generalizing ds with
  | nil => simp [resolveAll] at h; subst h; exact .nil
  | cons p cols ih =>
    obtain ⟨c, s⟩ := p
    rw [resolveAll] at h
    cases h1 : resolve nul nan inf s with
    | none => simp [h1] at h
    | some d =>
      cases h2 : resolveAll nul nan inf cols with
      | none => simp [h1, h2] at h
      | some ds' =>
        simp [h1, h2] at h
        subst h
        exact .cons ⟨rfl, h1⟩ (ih h2)

theorem forall₂_keys {cols : Dict String ColSpec} {ds : Dict String Desc} {R : ColSpec → Desc → Prop}
    (h : List.Forall₂ (fun p q => q.1 = p.1 ∧ R p.2 q.2) cols ds) : ds.map Prod.fst = cols.map Prod.fst := by
  induction h with
  | nil => rfl
  | cons hp _ ih => rw [List.map_cons, List.map_cons, hp.1, ih]

/-- The constructor's result: the given columns in the given order, each with its descriptor. -/
theorem Schema.init_ok {cols : Dict String ColSpec} {g i sp : Option String} {nul nan inf : Bool} {s : Schema}
    (w : Dict.WF cols) (h : Schema.init cols g i sp nul nan inf = .ok s) :
    s.WF ∧ s.grouping = g ∧ s.idColumn = i ∧ s.idSpace = sp ∧
    List.Forall₂ (fun p q => q.1 = p.1 ∧ resolve nul nan inf p.2 = some q.2) cols s.columnDescs.elements := by
  unfold Schema.init at h
  split at h
  · cases h
  next h1 =>
  split at h
  · cases h
  next h2 =>
  split at h
  · cases h
  next h3 =>
  split at h
  · cases h
  next ds h4 =>
  cases h
  have f := resolveAll_some h4
  have k : ds.map Prod.fst = cols.map Prod.fst := forall₂_keys (R := fun s d => resolve nul nan inf s = some d) f
  refine ⟨⟨?_, ?_, ?_, ?_⟩, rfl, rfl, rfl, f⟩
  · show (ds.map Prod.fst).Nodup
    rw [k]; exact w
  · show "" ∉ ds.map Prod.fst
    rw [k]; exact h1
  · rintro c rfl
    show c ∈ ds.map Prod.fst
    rw [k]
    rw [Option.any_some, decide_eq_true_eq, not_not] at h2
    exact h2
  · rintro c rfl
    show c ∈ ds.map Prod.fst
    rw [k]
    rw [Option.any_some, decide_eq_true_eq, not_not] at h3
    exact h3

/-- Every schema as the constructor makes it can be made by the constructor from its own descriptors. -/
theorem Schema.init_descs {s : Schema} (w : s.WF) :
    Schema.init (s.columnDescs.elements.map (fun p => (p.1, ColSpec.desc p.2))) s.grouping s.idColumn s.idSpace
      = .ok s := by
  have hk : Dict.keys (s.columnDescs.elements.map (fun p => (p.1, ColSpec.desc p.2)))
      = s.columnDescs.elements.map Prod.fst := by simp [Dict.keys, Function.comp_def]
  have hr : ∀ l : List (String × Desc),
      resolveAll false false false (l.map (fun p => (p.1, ColSpec.desc p.2))) = some l := by
    intro l
    induction l with
    | nil => rfl
    | cons p l ih => simp [resolveAll, resolve, ih]
  unfold Schema.init
  rw [hk, if_neg w.nonempty, if_neg, if_neg, hr]
  · rfl
  · cases h : s.idColumn with
    | none => simp
    | some c => simpa using w.idColumn c h
  · cases h : s.grouping with
    | none => simp
    | some c => simpa using w.grouping c h

/-! ### C39: conversions -/

/-- The flags `allow_nan` and `allow_inf` mean something on DECIMAL columns only. -/
def Desc.Meaningful (d : Desc) : Prop := d.ty ≠ .DECIMAL → d.allowNan = false ∧ d.allowInf = false

theorem ofSparkDesc_toSparkDesc (d : Desc) : ofSparkDesc (toSparkDesc d) = d ↔ d.Meaningful := by
  obtain ⟨t, a, b, c⟩ := d
  cases t <;> cases b <;> cases c <;> simp [ofSparkDesc, toSparkDesc, Desc.Meaningful]

theorem toSparkDesc_ofSparkDesc (d : SparkDesc) : toSparkDesc (ofSparkDesc d) = d := by
  cases d <;> rfl

theorem keys_mapVal {V W : Type} (l : List (String × V)) (f : V → W) :
    (l.map (fun p => (p.1, f p.2))).map Prod.fst = l.map Prod.fst := by
  simp [Function.comp_def]

theorem roundtrip_eq {s : Schema} (w : s.WF) :
    sparkDomainToAnalytics (analyticsToSparkColumns s)
      = s.columnDescs.elements.map (fun p => (p.1, ofSparkDesc (toSparkDesc p.2))) := by
  unfold sparkDomainToAnalytics analyticsToSparkColumns
  rw [Schema.descs_eq w, Dict.ofPairs_eq (l := s.columnDescs.elements.map _), Dict.ofPairs_eq]
  · simp [Function.comp_def]
  · rw [keys_mapVal, keys_mapVal]; exact w.nodup
  · rw [keys_mapVal]; exact w.nodup

/-- C39: converting a schema's columns to core's column descriptors and back returns the same columns in the
same order **exactly when** no column other than a DECIMAL one carries the NaN or infinity flag. Partial: the
claim is for every schema, and `C39_roundtrip_loses` shows it fails. -/
theorem C39_roundtrip_partial {s : Schema} (w : s.WF) :
    sparkDomainToAnalytics (analyticsToSparkColumns s) = s.columnDescs.elements ↔
      ∀ c d, (c, d) ∈ s.columnDescs.elements → d.Meaningful := by
  rw [roundtrip_eq w]
  generalize s.columnDescs.elements = l
  induction l with
  | nil => simp
  | cons p l ih =>
    rw [List.map_cons, List.cons.injEq, ih]
    simp only [List.mem_cons, Prod.ext_iff, true_and, ofSparkDesc_toSparkDesc]
    constructor
    · rintro ⟨h1, h2⟩ c d (⟨_, rfl⟩ | h)
      · exact h1
      · exact h2 c d h
    · intro h
      exact ⟨h p.1 p.2 (.inl ⟨rfl, rfl⟩), fun c d hd => h c d (.inr hd)⟩

/-- C39 does not hold for every schema: an INTEGER column declared with the default flags of `map`
(`default_allow_nan=True`) comes back without them. -/
theorem C39_roundtrip_loses :
    ∃ s, Schema.init [("A", .name "INTEGER")] (nul := true) (nan := true) (inf := true) = .ok s ∧
      sparkDomainToAnalytics (analyticsToSparkColumns s) ≠ s.descs := by
  refine ⟨⟨⟨[("A", ⟨.INTEGER, true, true, true⟩)]⟩, none, none, none⟩, by decide, by decide⟩

/-- C39, what always survives: names, order, types and nullability, and on DECIMAL columns everything. -/
theorem C39_roundtrip_keeps {s : Schema} (w : s.WF) :
    List.Forall₂ (fun p q => q.1 = p.1 ∧ q.2.ty = p.2.ty ∧ q.2.allowNull = p.2.allowNull ∧
        (p.2.ty = .DECIMAL → q.2 = p.2))
      s.columnDescs.elements (sparkDomainToAnalytics (analyticsToSparkColumns s)) := by
  rw [roundtrip_eq w, List.forall₂_map_right_iff, List.forall₂_same]
  rintro ⟨c, ⟨t, a, b, i⟩⟩ _
  cases t <;> simp [ofSparkDesc, toSparkDesc]

/-- C39, the other way: core's descriptors survive the trip through an Analytics schema, for every domain. -/
theorem C39_domain_roundtrip (dom : Dict String SparkDesc) (w : Dict.WF dom) (g i sp : Option String) :
    analyticsToSparkColumns ⟨FrozenDict.fromDict (sparkDomainToAnalytics dom), g, i, sp⟩ = dom := by
  have hk : (dom.map (fun p => (p.1, ofSparkDesc p.2))).map Prod.fst = dom.map Prod.fst := keys_mapVal _ _
  have e1 : sparkDomainToAnalytics dom = dom.map (fun p => (p.1, ofSparkDesc p.2)) := by
    unfold sparkDomainToAnalytics
    rw [Dict.ofPairs_eq]
    rw [hk]; exact w
  unfold analyticsToSparkColumns Schema.descs
  rw [C38_roundtrip, e1, Dict.ofPairs_eq]
  · simp [Function.comp_def, toSparkDesc_ofSparkDesc]
  · rw [keys_mapVal, hk]; exact w
  · rw [e1, Dict.WF, hk]; exact w

/-- The types coercion leaves. -/
def Coerced (t : SparkType) : Prop := t = .long ∨ t = .double ∨ t = .string ∨ t = .date ∨ t = .timestamp

theorem fieldDescs_ok (fs : List Field) (h : ∀ f ∈ fs, f.ty ∈ supported) :
    ∃ ds, fieldDescs fs = some ds ∧ List.Forall₂ (fun f q => q.1 = f.name ∧ fieldDesc f = some q.2) fs ds := by
  induction fs with
  | nil => exact ⟨[], rfl, .nil⟩
  | cons f fs ih =>
    obtain ⟨ds, e, hf⟩ := ih (fun g hg => h g (List.mem_cons_of_mem _ hg))
    have : ∃ d, fieldDesc f = some d := by
      have := h f (by simp)
      obtain ⟨n, t, nu⟩ := f
      cases t <;> simp_all [supported, fieldDesc, sparkToAnalytics]
    obtain ⟨d, hd⟩ := this
    exact ⟨(f.name, d) :: ds, by simp [fieldDescs, hd, e], .cons ⟨rfl, hd⟩ hf⟩

theorem forall₂_names {fs : List Field} {ds : List (String × Desc)} {R : Field → Desc → Prop}
    (h : List.Forall₂ (fun f q => q.1 = f.name ∧ R f q.2) fs ds) : ds.map Prod.fst = fs.map Field.name := by
  induction h with
  | nil => rfl
  | cons hp _ ih => rw [List.map_cons, List.map_cons, hp.1, ih]

/-- C39: reading the columns of a coerced data frame and writing them back as a Spark schema gives the same
Spark schema. -/
theorem C39_spark_roundtrip (fs : List Field) (nd : (fs.map Field.name).Nodup) (h : ∀ f ∈ fs, Coerced f.ty)
    (g i sp : Option String) :
    ∃ ds, sparkSchemaToAnalytics fs = .ok ds ∧
      analyticsToSparkSchema ⟨FrozenDict.fromDict ds, g, i, sp⟩ = fs := by
  have hs : ∀ f ∈ fs, f.ty ∈ supported := by
    intro f hf
    rcases h f hf with e | e | e | e | e <;> rw [e] <;> decide
  obtain ⟨ds, e, hf⟩ := fieldDescs_ok fs hs
  have hk := forall₂_names (R := fun f d => fieldDesc f = some d) hf
  have w : (ds.map Prod.fst).Nodup := by rw [hk]; exact nd
  refine ⟨ds, by simp [sparkSchemaToAnalytics, e, Dict.ofPairs_eq w], ?_⟩
  unfold analyticsToSparkSchema Schema.descs
  rw [C38_roundtrip ds w]
  clear e hk w hs nd
  induction hf with
  | nil => rfl
  | @cons f q fs ds hp _ ih =>
    rw [List.map_cons, ih (fun f' hf' => h f' (List.mem_cons_of_mem _ hf'))]
    congr 1
    have hc := h f (by simp)
    obtain ⟨n, t, nu⟩ := f
    obtain ⟨c, d⟩ := q
    obtain ⟨rfl, hd⟩ := hp
    simp only [fieldDesc] at hd
    rcases hc with e | e | e | e | e <;> simp only at e <;> subst e <;>
      simp [sparkToAnalytics] at hd <;> subst hd <;> rfl

/-- C39: a schema written as a Spark schema and read back keeps names, order, types and nullability; NaNs and
infinities are then allowed on exactly the DECIMAL columns. -/
theorem C39_struct {s : Schema} (w : s.WF) :
    ∃ ds, sparkSchemaToAnalytics (analyticsToSparkSchema s) = .ok ds ∧
      List.Forall₂ (fun p q => q.1 = p.1 ∧ q.2.ty = p.2.ty ∧ q.2.allowNull = p.2.allowNull ∧
          (q.2.allowNan = true ↔ p.2.ty = .DECIMAL) ∧ (q.2.allowInf = true ↔ p.2.ty = .DECIMAL))
        s.columnDescs.elements ds := by
  have hs : ∀ f ∈ analyticsToSparkSchema s, f.ty ∈ supported := by
    intro f hf
    simp only [analyticsToSparkSchema, List.mem_map] at hf
    obtain ⟨p, _, rfl⟩ := hf
    obtain ⟨c, ⟨t, a, b, i⟩⟩ := p
    cases t <;> simp [analyticsToSpark, supported]
  obtain ⟨ds, e, hf⟩ := fieldDescs_ok _ hs
  have hk := forall₂_names (R := fun f d => fieldDesc f = some d) hf
  have hw : (ds.map Prod.fst).Nodup := by
    rw [hk, analyticsToSparkSchema, Schema.descs_eq w, List.map_map]
    exact w.nodup
  refine ⟨ds, by simp [sparkSchemaToAnalytics, e, Dict.ofPairs_eq hw], ?_⟩
  rw [analyticsToSparkSchema, Schema.descs_eq w, List.forall₂_map_left_iff] at hf
  refine hf.imp ?_
  rintro ⟨c, ⟨t, a, b, i⟩⟩ ⟨c', d⟩ ⟨rfl, hd⟩
  cases t <;> simp [fieldDesc, sparkToAnalytics, analyticsToSpark] at hd <;> subst hd <;> simp

/-! ### C39: coercion -/

/-- Values a Spark type can hold: 32- and 64-bit integers, IEEE single and double precision floats. -/
def Fits : SparkType → Value → Prop
  | _, .null => True
  | .integer, .int z => -2 ^ 31 ≤ z ∧ z < 2 ^ 31
  | .long, .int z => -2 ^ 63 ≤ z ∧ z < 2 ^ 63
  | .float, .dec (.fin q) => ∃ m e : ℤ, -2 ^ 24 < m ∧ m < 2 ^ 24 ∧ -149 ≤ e ∧ e ≤ 104 ∧ q = m * 2 ^ e
  | .double, .dec (.fin q) => ∃ m e : ℤ, -2 ^ 53 < m ∧ m < 2 ^ 53 ∧ -1074 ≤ e ∧ e ≤ 971 ∧ q = m * 2 ^ e
  | .float, .dec _ => True
  | .double, .dec _ => True
  | .string, .str _ => True
  | .date, .date _ => True
  | .timestamp, .ts _ => True
  | _, _ => False

/-- The contract of Spark's casts: a value the target type can hold is unchanged. -/
def CastOK (cast : SparkType → Value → Value) : Prop := ∀ ty v, Fits ty v → cast ty v = v

/-- The intended coercion of a type. -/
def widen : SparkType → SparkType
  | .integer => .long
  | .float => .double
  | t => t

theorem fits_widen {t : SparkType} {v : Value} (h : Fits t v) : Fits (widen t) v := by
  by_cases hw : widen t = t
  · rw [hw]; exact h
  cases t <;> cases v <;> simp only [widen, Fits, not_true_eq_false] at *
  · omega
  case float.dec f =>
    cases f with
    | fin q =>
      obtain ⟨m, e, h1, h2, h3, h4, h5⟩ := h
      exact ⟨m, e, by omega, by omega, by omega, by omega, h5⟩
    | nan => trivial
    | pinf => trivial
    | ninf => trivial

theorem coercion_widen (t : SparkType) :
    (∀ t', Dict.get coercionMap t = some t' → t' = widen t) ∧ (Dict.get coercionMap t = none → widen t = t) := by
  cases t <;> simp [coercionMap, Dict.get_cons, widen, eq_comm]

/-- A frame whose rows hold values of the declared types. -/
def Frame.Typed (df : Frame) : Prop := ∀ r ∈ df.rows, List.Forall₂ (fun f v => Fits f.ty v) df.fields r

theorem filter_one {l : List Field} {a b : List Field} {f : Field} (e : l = a ++ f :: b)
    (h : (l.filter (fun g => decide (g.name = f.name))).length = 1) :
    (∀ g ∈ a, g.name ≠ f.name) ∧ (∀ g ∈ b, g.name ≠ f.name) := by
  subst e
  rw [List.filter_append, List.filter_cons, if_pos (by simp), List.length_append, List.length_cons] at h
  have ha : (a.filter (fun g => decide (g.name = f.name))) = [] := List.eq_nil_of_length_eq_zero (by omega)
  have hb : (b.filter (fun g => decide (g.name = f.name))) = [] := List.eq_nil_of_length_eq_zero (by omega)
  simp only [List.filter_eq_nil_iff, decide_eq_true_eq] at ha hb
  exact ⟨ha, hb⟩

theorem map_id_of {l : List Field} {n : String} {ty : SparkType} (h : ∀ g ∈ l, g.name ≠ n) :
    l.map (fun f => if f.name = n then { f with ty := ty } else f) = l := by
  conv_rhs => rw [← List.map_id l]
  apply List.map_congr_left
  intro g hg
  simp [h g hg]

def widenF (f : Field) : Field := { f with ty := widen f.ty }

theorem zipWith_cast {cast : SparkType → Value → Value} (hc : CastOK cast) {n : String} {ty : SparkType}
    {fs : List Field} {r : List Value}
    (h : List.Forall₂ (fun f v => f.name = n → Fits ty v) fs r) :
    List.zipWith (fun f v => if f.name = n then cast ty v else v) fs r = r := by
  induction h with
  | nil => rfl
  | @cons f v fs r hp _ ih =>
    rw [List.zipWith_cons_cons, ih]
    by_cases e : f.name = n
    · rw [if_pos e, hc _ _ (hp e)]
    · rw [if_neg e]

theorem forall₂_replace {α β : Type} {R : α → β → Prop} {a a' : α} (hR : ∀ v, R a v → R a' v) {pre fs : List α}
    {r : List β} (h : List.Forall₂ R (pre ++ a :: fs) r) : List.Forall₂ R (pre ++ a' :: fs) r := by
  induction pre generalizing r with
  | nil =>
    cases h with
    | cons hp hr => exact .cons (hR _ hp) hr
  | cons g pre ih =>
    cases h with
    | cons hp hr => exact .cons hp (ih hr)

theorem coerceLoop_spec {cast : SparkType → Value → Value} (fs pre : List Field) (rows : List (List Value))
    (df' : Frame) (h : coerceLoop cast fs ⟨pre ++ fs, rows⟩ = .ok df') :
    df'.fields = pre ++ fs.map widenF ∧
      (CastOK cast → (∀ r ∈ rows, List.Forall₂ (fun f v => Fits (widen f.ty) v) (pre ++ fs) r) →
        df'.rows = rows) := by
  induction fs generalizing pre rows with
  | nil =>
    simp only [coerceLoop, Except.ok.injEq] at h
    subst h
    simp
  | cons f fs ih =>
    rw [coerceLoop] at h
    cases hm : Dict.get coercionMap f.ty with
    | none =>
      rw [hm] at h
      simp only at h
      have hw := (coercion_widen f.ty).2 hm
      have e : pre ++ f :: fs = (pre ++ [f]) ++ fs := by simp
      rw [e] at h
      obtain ⟨h1, h2⟩ := ih _ _ h
      refine ⟨?_, ?_⟩
      · rw [h1]
        have : widenF f = f := by unfold widenF; rw [hw]
        simp [this]
      · intro hc ht
        exact h2 hc (by rw [← e]; exact ht)
    | some ty =>
      rw [hm] at h
      simp only [withColumn] at h
      have hw := (coercion_widen f.ty).1 ty hm
      split at h
      next df1 hdf1 =>
        split at hdf1
        · next huniq =>
          cases hdf1
          obtain ⟨ha, hb⟩ := filter_one (f := f) rfl huniq
          have ef : (pre ++ f :: fs).map (fun g => if g.name = f.name then { g with ty := ty } else g)
              = (pre ++ [widenF f]) ++ fs := by
            rw [List.map_append, List.map_cons, map_id_of ha, map_id_of hb, if_pos rfl]
            simp [widenF, hw]
          rw [ef] at h
          obtain ⟨h1, h2⟩ := ih _ _ h
          refine ⟨by rw [h1]; simp, ?_⟩
          intro hc ht
          have er : rows.map (fun r => List.zipWith (fun g v => if g.name = f.name then cast ty v else v)
              (pre ++ f :: fs) r) = rows := by
            conv_rhs => rw [← List.map_id rows]
            apply List.map_congr_left
            intro r hr
            apply zipWith_cast hc
            have hmem : ∀ g ∈ pre ++ f :: fs, g.name = f.name → g = f := by
              intro g hg e
              simp only [List.mem_append, List.mem_cons] at hg
              rcases hg with hg | hg | hg
              · exact absurd e (ha g hg)
              · exact hg
              · exact absurd e (hb g hg)
            have := ht r hr
            have : ∀ (gs : List Field), gs ⊆ pre ++ f :: fs → ∀ r,
                List.Forall₂ (fun g v => Fits (widen g.ty) v) gs r →
                List.Forall₂ (fun g v => g.name = f.name → Fits ty v) gs r := by
              intro gs sub r h
              induction h with
              | nil => exact .nil
              | @cons g v gs r hp _ ih' =>
                refine .cons (fun e => ?_) (ih' (fun x hx => sub (List.mem_cons_of_mem _ hx)))
                have := hmem g (sub (by simp)) e
                subst this
                rw [hw]; exact hp
            exact this _ (fun x hx => hx) _ (ht r hr)
          rw [er] at h2
          refine h2 hc ?_
          intro r hr
          have := ht r hr
          have ww : widen (widen f.ty) = widen f.ty := by cases f.ty <;> rfl
          have e : (pre ++ [widenF f]) ++ fs = pre ++ widenF f :: fs := by simp
          rw [e]
          refine forall₂_replace (R := fun (f : Field) v => Fits (widen f.ty) v) ?_ this
          intro v hv
          rw [widenF, ww]; exact hv
        · cases hdf1
      next => cases h

theorem widen_coerced {t : SparkType} (h : t ∈ supported) : Coerced (widen t) := by
  cases t <;> simp [supported, widen, Coerced] at *

theorem coerced_supported {t : SparkType} (h : Coerced t) : t ∈ supported := by
  rcases h with e | e | e | e | e <;> rw [e] <;> decide

theorem coerced_widen {t : SparkType} (h : Coerced t) : Dict.get coercionMap t = none := by
  rcases h with e | e | e | e | e <;> rw [e] <;> decide

theorem coerceLoop_coerced {cast : SparkType → Value → Value} (fs : List Field) (df : Frame)
    (h : ∀ f ∈ fs, Coerced f.ty) : coerceLoop cast fs df = .ok df := by
  induction fs with
  | nil => rfl
  | cons f fs ih =>
    rw [coerceLoop, coerced_widen (h f (by simp))]
    exact ih (fun g hg => h g (List.mem_cons_of_mem _ hg))

/-- C39, coercion. If a data frame is accepted, every column of the result has one of the five types the
library works with, 32-bit integers and single precision floats having become 64-bit and double precision;
names, order and nullability are unchanged; every value is unchanged, provided Spark's casts keep values that
fit the target type; and coercing the result again changes nothing. -/
theorem C39_coerce {cast : SparkType → Value → Value} {df df' : Frame} (h : coerce cast df = .ok df') :
    List.Forall₂ (fun f f' => f'.name = f.name ∧ f'.nullable = f.nullable ∧ Coerced f'.ty ∧
        (f'.ty = f.ty ∨ f.ty = .integer ∧ f'.ty = .long ∨ f.ty = .float ∧ f'.ty = .double))
      df.fields df'.fields ∧
    (CastOK cast → df.Typed → df'.rows = df.rows ∧ df'.Typed) ∧
    coerce cast df' = .ok df' := by
  unfold coerce at h
  split at h
  · cases h
  next h1 =>
  split at h
  · cases h
  next h2 =>
  have hs : ∀ f ∈ df.fields, f.ty ∈ supported := by
    simp only [ne_eq, not_not] at h2
    have := List.eq_nil_of_length_eq_zero h2
    simpa [List.filter_eq_nil_iff] using this
  obtain ⟨e1, e2⟩ := coerceLoop_spec df.fields [] df.rows df' h
  rw [List.nil_append] at e1
  have hw : ∀ r : List Value, List.Forall₂ (fun f v => Fits (Field.ty f) v) df.fields r →
      List.Forall₂ (fun f v => Fits (widen f.ty) v) df.fields r := fun r h => h.imp (fun _ _ h => fits_widen h)
  refine ⟨?_, ?_, ?_⟩
  · rw [e1, List.forall₂_map_right_iff, List.forall₂_same]
    intro f hf
    refine ⟨rfl, rfl, widen_coerced (hs f hf), ?_⟩
    unfold widenF
    cases f.ty <;> simp [widen]
  · intro hc ht
    have er : df'.rows = df.rows := e2 hc (fun r hr => hw r (ht r hr))
    refine ⟨er, ?_⟩
    intro r hr
    rw [er] at hr
    rw [e1, List.forall₂_map_left_iff]
    exact hw r (ht r hr)
  · have hn : df'.fields.map Field.name = df.fields.map Field.name := by
      rw [e1, List.map_map]; rfl
    have hco : ∀ f ∈ df'.fields, Coerced f.ty := by
      intro f hf
      rw [e1, List.mem_map] at hf
      obtain ⟨g, hg, rfl⟩ := hf
      exact widen_coerced (hs g hg)
    unfold coerce
    rw [hn, if_neg h1, if_neg, coerceLoop_coerced _ _ hco]
    simp only [ne_eq, not_not, List.length_eq_zero_iff, List.filter_eq_nil_iff, decide_eq_true_eq]
    exact fun f hf => coerced_supported (hco f hf)

/-- C39, acceptance: a data frame with distinct column names is accepted exactly when no column is named ""
and every type is supported. -/
theorem C39_coerce_accepts {cast : SparkType → Value → Value} {df : Frame}
    (nd : (df.fields.map Field.name).Nodup) :
    (∃ df', coerce cast df = .ok df') ↔ (∀ f ∈ df.fields, f.name ≠ "" ∧ f.ty ∈ supported) := by
  have key : ∀ (fs pre : List Field) (rows : List (List Value)), ((pre ++ fs).map Field.name).Nodup →
      ∃ df', coerceLoop cast fs ⟨pre ++ fs, rows⟩ = .ok df' := by
    intro fs
    induction fs with
    | nil => exact fun pre rows _ => ⟨_, rfl⟩
    | cons f fs ih =>
      intro pre rows nd
      rw [coerceLoop]
      cases hm : Dict.get coercionMap f.ty with
      | none =>
        simp only
        have e : pre ++ f :: fs = (pre ++ [f]) ++ fs := by simp
        rw [e] at nd ⊢
        exact ih _ _ nd
      | some ty =>
        have ha : ∀ g ∈ pre, g.name ≠ f.name := by
          rw [List.map_append, List.nodup_append] at nd
          exact fun g hg => nd.2.2 g.name (List.mem_map_of_mem hg) f.name (by simp)
        have hb : ∀ g ∈ fs, g.name ≠ f.name := by
          rw [List.map_append, List.nodup_append, List.map_cons, List.nodup_cons] at nd
          exact fun g hg e => nd.2.1.1 (e ▸ List.mem_map_of_mem hg)
        have hl : ((pre ++ f :: fs).filter (fun g => decide (g.name = f.name))).length = 1 := by
          rw [List.filter_append, List.filter_cons, if_pos (by simp),
            List.filter_eq_nil_iff.2 (by simpa using ha), List.filter_eq_nil_iff.2 (by simpa using hb)]
          rfl
        simp only [withColumn, hl, if_true]
        have ef : (pre ++ f :: fs).map (fun g => if g.name = f.name then { g with ty := ty } else g)
            = (pre ++ [{ f with ty := ty }]) ++ fs := by
          rw [List.map_append, List.map_cons, map_id_of ha, map_id_of hb, if_pos rfl]
          simp
        rw [ef]
        apply ih
        simpa using nd
  unfold coerce
  constructor
  · rintro ⟨df', h⟩
    split at h
    · cases h
    next h1 =>
    split at h
    · cases h
    next h2 =>
    simp only [ne_eq, not_not] at h2
    have := List.eq_nil_of_length_eq_zero h2
    simp only [List.filter_eq_nil_iff, decide_eq_true_eq, not_not] at this
    intro f hf
    exact ⟨fun e => h1 (e ▸ List.mem_map_of_mem hf), this f hf⟩
  · intro h
    rw [if_neg, if_neg]
    · exact key df.fields [] df.rows nd
    · simp only [ne_eq, not_not, List.length_eq_zero_iff, List.filter_eq_nil_iff, decide_eq_true_eq]
      exact fun f hf => (h f hf).2
    · intro hm
      obtain ⟨f, hf, e⟩ := List.mem_map.1 hm
      exact (h f hf).1 e

/-- A data frame that is coerced. -/
def demoFrame : Frame :=
  ⟨[⟨"A", .integer, true⟩, ⟨"B", .float, true⟩, ⟨"C", .string, false⟩],
    [[.int 3, .dec (.fin (1 / 2)), .str "x"], [.null, .dec .nan, .str "y"]]⟩

/-- The hypotheses of C39 about coercion are met, with identity casts. -/
example : ∃ df', coerce (fun _ v => v) demoFrame = .ok df' ∧ CastOK (fun _ v => v) ∧ demoFrame.Typed ∧
    df'.fields = [⟨"A", .long, true⟩, ⟨"B", .double, true⟩, ⟨"C", .string, false⟩] := by
  refine ⟨⟨[⟨"A", .long, true⟩, ⟨"B", .double, true⟩, ⟨"C", .string, false⟩], demoFrame.rows⟩,
    by decide +kernel, fun _ _ _ => rfl, ?_, rfl⟩
  intro r hr
  simp only [demoFrame, List.mem_cons, List.not_mem_nil, or_false] at hr
  rcases hr with rfl | rfl
  · refine .cons ?_ (.cons ?_ (.cons ?_ .nil))
    · simp [Fits]
    · refine ⟨1, -1, by norm_num, by norm_num, by norm_num, by norm_num, by norm_num⟩
    · simp [Fits]
  · refine .cons ?_ (.cons ?_ (.cons ?_ .nil)) <;> simp [Fits]

/-! ### C40 -/

/-- What equality of schemas means: the same columns with the same descriptors, in any order, and the same
grouping column, ID column and ID space. -/
def SameSchema (s t : Schema) : Prop :=
  (∀ c d, (c, d) ∈ s.columnDescs.elements ↔ (c, d) ∈ t.columnDescs.elements) ∧
  s.grouping = t.grouping ∧ s.idColumn = t.idColumn ∧ s.idSpace = t.idSpace

theorem Schema.pyEq_iff {s t : Schema} (ws : s.WF) (wt : t.WF) : s.pyEq t = true ↔ SameSchema s t := by
  unfold Schema.pyEq SameSchema
  rw [Schema.descs_eq ws, Schema.descs_eq wt]
  simp only [Bool.and_eq_true, decide_eq_true_eq, Dict.pyEq_iff (show Dict.WF _ from ws.nodup) wt.nodup,
    Dict.Same, and_assoc]

/-- C40: equality of schemas is an equivalence. -/
theorem C40_equivalence :
    (∀ s : Schema, s.WF → s.pyEq s = true) ∧
    (∀ s t : Schema, s.WF → t.WF → s.pyEq t = true → t.pyEq s = true) ∧
    (∀ s t u : Schema, s.WF → t.WF → u.WF → s.pyEq t = true → t.pyEq u = true → s.pyEq u = true) := by
  refine ⟨fun s w => (Schema.pyEq_iff w w).2 ⟨fun _ _ => Iff.rfl, rfl, rfl, rfl⟩, ?_, ?_⟩
  · intro s t ws wt h
    obtain ⟨h1, h2, h3, h4⟩ := (Schema.pyEq_iff ws wt).1 h
    exact (Schema.pyEq_iff wt ws).2 ⟨fun c d => (h1 c d).symm, h2.symm, h3.symm, h4.symm⟩
  · intro s t u ws wt wu h h'
    obtain ⟨h1, h2, h3, h4⟩ := (Schema.pyEq_iff ws wt).1 h
    obtain ⟨k1, k2, k3, k4⟩ := (Schema.pyEq_iff wt wu).1 h'
    exact (Schema.pyEq_iff ws wu).2
      ⟨fun c d => (h1 c d).trans (k1 c d), h2.trans k2, h3.trans k3, h4.trans k4⟩

/-- C40 in part: equal schemas that list their columns in the same order have equal hashes. Missing: the claim
is about all equal schemas, and `C40_fails` shows it is false for those that differ in column order. -/
theorem C40_hash_partial {β : Type} (H : List (String × Desc) → β) {s t : Schema} (ws : s.WF) (wt : t.WF)
    (h : s.pyEq t = true)
    (order : s.columnDescs.elements.map Prod.fst = t.columnDescs.elements.map Prod.fst) :
    s.pyHash H = t.pyHash H := by
  obtain ⟨h1, _⟩ := (Schema.pyEq_iff ws wt).1 h
  have := (C38_eq s.columnDescs.elements t.columnDescs.elements ws.nodup wt.nodup).2 ⟨order, h1⟩
  exact C38_hash H _ _ this

/-- C40 fails: two schemas with the same columns in different orders are equal, and have different hashes
under every hash function on tuples that separates the two tuples. -/
theorem C40_fails :
    ∃ s t : Schema,
      Schema.init [("A", .ty .INTEGER), ("B", .ty .VARCHAR)] = .ok s ∧
      Schema.init [("B", .ty .VARCHAR), ("A", .ty .INTEGER)] = .ok t ∧
      s.pyEq t = true ∧
      ∀ {β : Type} (H : List (String × Desc) → β), Function.Injective H → s.pyHash H ≠ t.pyHash H := by
  refine ⟨⟨⟨[("A", ⟨.INTEGER, false, false, false⟩), ("B", ⟨.VARCHAR, false, false, false⟩)]⟩, none, none, none⟩,
    ⟨⟨[("B", ⟨.VARCHAR, false, false, false⟩), ("A", ⟨.INTEGER, false, false, false⟩)]⟩, none, none, none⟩,
    by decide, by decide, by decide, ?_⟩
  intro β H hH h
  have := hH h
  simp at this

end Verif.Schema
