import Verif.Expr.Conform

/-!
# Schemas that are the same to Spark (C88)

Type checking gives up the flags for NaN and infinity of columns that are not floating point when a view is stored. Here: no
later step of type checking looks at them.
-/

namespace Verif.Expr

open Verif Verif.Schema

/-! ## Specification -/

/-- The schemas differ at most in the flags for NaN and infinity of columns that are not floating point. -/
structure Alike (s s' : Schema) : Prop where
  columns : analyticsToSparkColumns s = analyticsToSparkColumns s'
  grouping : s.grouping = s'.grouping
  idColumn : s.idColumn = s'.idColumn
  idSpace : s.idSpace = s'.idSpace

/-- Both fail with the same exception, or both give schemas that are alike. -/
def AlikeE : Except PyErr Schema → Except PyErr Schema → Prop
  | .ok s, .ok s' => Alike s s'
  | .error e, .error e' => e = e'
  | _, _ => False

/-- The filters of the expression are accepted or not by what Spark knows of the schema (`Filter.schema`, `_query_expr.py`
l. 404-419, tries the condition on an empty data frame). -/
def FiltersBySpark : Expr → Prop
  | .source _ => True
  | .rename e _ => FiltersBySpark e
  | .filter e valid _ => FiltersBySpark e ∧ ∀ s s', Alike s s' → valid s = valid s'
  | .select e _ => FiltersBySpark e
  | .map e _ _ _ => FiltersBySpark e
  | .flatMap e _ _ _ _ => FiltersBySpark e
  | .flatMapByID e _ _ => FiltersBySpark e
  | .joinPrivate l r _ _ _ => FiltersBySpark l ∧ FiltersBySpark r
  | .joinPublic e _ _ _ => FiltersBySpark e
  | .replaceNull e _ => FiltersBySpark e
  | .replaceInf e _ => FiltersBySpark e
  | .dropNull e _ => FiltersBySpark e
  | .dropInf e _ => FiltersBySpark e
  | .enforce e _ => FiltersBySpark e

/-! ## Proofs -/

/-- What Spark knows of a dictionary of descriptors. -/
def sig (d : Dict String Desc) : Dict String SparkDesc := d.map (fun p => (p.1, toSparkDesc p.2))

theorem wf_descs_alike (s : Schema) : Dict.WF s.descs := Dict.wf_ofPairs _

theorem columns_sig (s : Schema) : analyticsToSparkColumns s = sig s.descs :=
  Dict.ofPairs_eq (by rw [keys_mapVal]; exact wf_descs_alike s)

theorem keys_sig (d : Dict String Desc) : Dict.keys (sig d) = Dict.keys d := keys_mapVal' d (fun p => toSparkDesc p.2)

theorem get_sig (d : Dict String Desc) (c : String) : Dict.get (sig d) c = (Dict.get d c).map toSparkDesc :=
  get_mapVal d (fun p => toSparkDesc p.2) c

theorem sig_set (d : Dict String Desc) (k : String) (v : Desc) : sig (Dict.set d k v) = Dict.set (sig d) k (toSparkDesc v) := by
  unfold Dict.set
  rw [keys_sig]
  split
  · unfold sig
    rw [List.map_map, List.map_map]
    refine List.map_congr_left fun p _ => ?_
    dsimp only [Function.comp]
    split <;> rfl
  · simp [sig]

theorem sig_union (a b : Dict String Desc) : sig (Dict.union a b) = Dict.union (sig a) (sig b) := by
  unfold Dict.union
  induction b generalizing a with
  | nil => rfl
  | cons p b ih =>
    rw [List.foldl_cons, ih, sig_set]
    rfl

theorem sig_ofPairs (l : List (String × Desc)) : sig (Dict.ofPairs l) = Dict.ofPairs (sig l) := sig_union [] l

theorem sig_pick (d : Dict String Desc) (cols : List String) :
    sig (cols.filterMap (fun c => (Dict.get d c).map (fun x => (c, x)))) =
      cols.filterMap (fun c => (Dict.get (sig d) c).map (fun x => (c, x))) := by
  unfold sig
  rw [List.map_filterMap]
  refine List.filterMap_congr fun c _ => ?_
  have := get_sig d c
  unfold sig at this
  rw [this]
  cases Dict.get d c <;> rfl

theorem toSpark_ty (d : Desc) : d.ty = (match toSparkDesc d with
    | .integer _ => .INTEGER
    | .float _ _ _ => .DECIMAL
    | .string _ => .VARCHAR
    | .date _ => .DATE
    | .timestamp _ => .TIMESTAMP) := by
  obtain ⟨t, a, b, c⟩ := d
  cases t <;> rfl

/-- Same type and null flag, same other flags if floating point. -/
theorem toSpark_eq {d d' : Desc} (h : toSparkDesc d = toSparkDesc d') : d.ty = d'.ty ∧ d.allowNull = d'.allowNull ∧
    (d.ty = .DECIMAL → d = d') := by
  obtain ⟨t, a, b, c⟩ := d
  obtain ⟨t', a', b', c'⟩ := d'
  cases t <;> cases t' <;> simp_all [toSparkDesc]

namespace Alike

variable {s s' : Schema}

theorem refl (s : Schema) : Alike s s := ⟨rfl, rfl, rfl, rfl⟩

theorem sig (a : Alike s s') : Expr.sig s.descs = Expr.sig s'.descs := by
  rw [← columns_sig, ← columns_sig]
  exact a.columns

theorem keys (a : Alike s s') : Schema.keys s = Schema.keys s' := by
  unfold Schema.keys
  rw [← keys_sig, ← keys_sig, a.sig]

theorem get (a : Alike s s') (c : String) :
    (Dict.get s.descs c = none ∧ Dict.get s'.descs c = none) ∨
      ∃ d d', Dict.get s.descs c = some d ∧ Dict.get s'.descs c = some d' ∧ toSparkDesc d = toSparkDesc d' := by
  have h : (Dict.get s.descs c).map toSparkDesc = (Dict.get s'.descs c).map toSparkDesc := by
    rw [← get_sig, ← get_sig, a.sig]
  cases h1 : Dict.get s.descs c <;> cases h2 : Dict.get s'.descs c <;> simp_all

theorem getTy (a : Alike s s') (c : String) : (Dict.get s.descs c).map Desc.ty = (Dict.get s'.descs c).map Desc.ty := by
  rcases a.get c with ⟨h1, h2⟩ | ⟨d, d', h1, h2, h3⟩
  · rw [h1, h2]
  · rw [h1, h2]
    simp [(toSpark_eq h3).1]

theorem metric (a : Alike s s') : metricOf s = metricOf s' := by
  unfold metricOf
  rw [a.grouping, a.idColumn]

end Alike

theorem resolve_desc (d : Dict String Desc) : resolveAll false false false (d.map (fun p => (p.1, ColSpec.desc p.2))) = some d := by
  induction d with
  | nil => rfl
  | cons p d ih => simp [resolveAll, resolve, ih]

theorem mk_eq (d : Dict String Desc) (g i sp : Option String) : mk d g i sp =
    if "" ∈ Dict.keys d then .error .value
    else if g.any (fun x => decide (x ∉ Dict.keys d)) then .error .key
    else if i.any (fun x => decide (x ∉ Dict.keys d)) then .error .key
    else .ok ⟨⟨d⟩, g, i, sp⟩ := by
  unfold mk Schema.init
  have hk : Dict.keys (d.map (fun p => (p.1, ColSpec.desc p.2))) = Dict.keys d := keys_mapVal' d (fun p => ColSpec.desc p.2)
  rw [hk, resolve_desc]
  rfl

theorem toDict_sig (d : Dict String Desc) :
    sig (FrozenDict.toDict (⟨d⟩ : FrozenDict String Desc)) = FrozenDict.toDict (⟨sig d⟩ : FrozenDict String SparkDesc) := by
  unfold FrozenDict.toDict
  rw [sig_ofPairs]
  congr 1
  have hg : ∀ k, FrozenDict.getItem (⟨sig d⟩ : FrozenDict String SparkDesc) k =
      (FrozenDict.getItem (⟨d⟩ : FrozenDict String Desc) k).map toSparkDesc := by
    intro k
    unfold FrozenDict.getItem
    dsimp only
    induction d with
    | nil => rfl
    | cons p d ih =>
      show FrozenDict.search ((p.1, toSparkDesc p.2) :: sig d) k = _
      dsimp only [FrozenDict.search]
      split
      · rfl
      · exact ih
  have hi : FrozenDict.iter (⟨sig d⟩ : FrozenDict String SparkDesc) = FrozenDict.iter (⟨d⟩ : FrozenDict String Desc) := by
    unfold FrozenDict.iter
    exact keys_sig d
  rw [hi]
  unfold sig
  rw [List.map_filterMap]
  refine List.filterMap_congr fun c _ => ?_
  have := hg c
  unfold sig at this
  rw [this]
  cases FrozenDict.getItem (⟨d⟩ : FrozenDict String Desc) c <;> rfl

theorem mk_alike {d d' : Dict String Desc} (h : sig d = sig d') (g i sp : Option String) : AlikeE (mk d g i sp) (mk d' g i sp) := by
  have hk : Dict.keys d = Dict.keys d' := by rw [← keys_sig, ← keys_sig, h]
  rw [mk_eq, mk_eq, hk]
  split
  · rfl
  split
  · rfl
  split
  · rfl
  refine ⟨?_, rfl, rfl, rfl⟩
  rw [columns_sig, columns_sig]
  show sig (FrozenDict.toDict ⟨d⟩) = sig (FrozenDict.toDict ⟨d'⟩)
  rw [toDict_sig, toDict_sig, h]

theorem alikeE_refl (x : Except PyErr Schema) : AlikeE x x := by
  cases x with
  | ok s => exact Alike.refl s
  | error e => rfl

variable {s s' : Schema}

theorem rename_alike (m : Dict String String) (a : Alike s s') : AlikeE (schRename m s) (schRename m s') := by
  unfold schRename
  rw [a.keys, a.grouping, a.idColumn, a.idSpace]
  split
  · rfl
  split
  · rfl
  split
  · rfl
  refine mk_alike ?_ _ _ _
  rw [sig_ofPairs, sig_ofPairs]
  have h := a.sig
  have : ∀ d : Dict String Desc, sig (d.map (fun p => (renamed m p.1, p.2))) = (sig d).map (fun p => (renamed m p.1, p.2)) := by
    intro d
    simp [sig, Function.comp_def]
  rw [this, this, h]

theorem select_alike (cols : List String) (a : Alike s s') : AlikeE (schSelect cols s) (schSelect cols s') := by
  unfold schSelect
  rw [a.keys, a.grouping, a.idColumn, a.idSpace]
  split
  · rfl
  split
  · rfl
  split
  · rfl
  split
  · rfl
  refine mk_alike ?_ _ _ _
  rw [sig_pick, sig_pick, a.sig]

theorem map_alike (new : Schema) (augment : Bool) (a : Alike s s') : AlikeE (schMap new augment s) (schMap new augment s') := by
  unfold schMap
  rw [a.keys, a.grouping, a.idColumn, a.idSpace]
  repeat' split
  all_goals first | rfl | exact alikeE_refl _ | skip
  exact mk_alike (by rw [sig_union, sig_union, a.sig]) _ _ _

theorem flatMap_alike (new : Schema) (augment : Bool) (a : Alike s s') :
    AlikeE (schFlatMap new augment s) (schFlatMap new augment s') := by
  unfold schFlatMap
  rw [a.keys, a.grouping, a.idColumn, a.idSpace]
  split
  · rfl
  split
  · rfl
  split
  · rfl
  split
  · split
    · rfl
    exact mk_alike (by rw [sig_union, sig_union, a.sig]) _ _ _
  split
  · rfl
  split
  · rfl
  exact alikeE_refl _

theorem flatMapByID_alike (new : Schema) (a : Alike s s') : AlikeE (schFlatMapByID new s) (schFlatMapByID new s') := by
  unfold schFlatMapByID
  rw [a.grouping, a.idColumn, a.idSpace]
  split
  · rfl
  split
  · rfl
  next i _ =>
  split
  · rfl
  split
  · rfl
  rcases a.get i with ⟨h1, h2⟩ | ⟨d, d', h1, h2, h3⟩
  · rw [h1, h2]
    rfl
  · rw [h1, h2]
    refine mk_alike ?_ _ _ _
    rw [sig_union, sig_union]
    simp only [sig, List.map_cons, List.map_nil, h3]

theorem join_alike {l l' r r' : Schema} (cols : Option (List String)) (how : How) (a : Alike l l') (b : Alike r r') :
    validateJoin cols l r = validateJoin cols l' r' ∧ schemaForJoin how cols l r = schemaForJoin how cols l' r' := by
  refine ⟨?_, ?_⟩
  · unfold validateJoin
    simp only [a.keys, b.keys, a.grouping, b.grouping, a.getTy, b.getTy]
  · unfold schemaForJoin
    simp only [a.keys, b.keys, a.columns, b.columns, a.grouping, b.grouping, a.idColumn, a.idSpace]

theorem joinPrivate_alike {l l' r r' : Schema} (cols : Option (List String)) (a : Alike l l') (b : Alike r r') :
    AlikeE (schJoinPrivate cols l r) (schJoinPrivate cols l' r') := by
  obtain ⟨h1, h2⟩ := join_alike cols .inner a b
  have : schJoinPrivate cols l r = schJoinPrivate cols l' r' := by
    unfold schJoinPrivate
    rw [h1, h2, a.idColumn, b.idColumn, a.idSpace, b.idSpace]
  rw [this]
  exact alikeE_refl _

theorem joinPublic_alike {cat cat' : Cat} (hp : cat'.pub = cat.pub) (pub : PubRef) (cols : Option (List String)) (how : How)
    (a : Alike s s') : AlikeE (schJoinPublic cat pub cols how s) (schJoinPublic cat' pub cols how s') := by
  have hr : resolvePub cat' pub = resolvePub cat pub := by cases pub <;> simp only [resolvePub, hp]
  have : schJoinPublic cat pub cols how s = schJoinPublic cat' pub cols how s' := by
    unfold schJoinPublic
    rw [hr]
    cases resolvePub cat pub with
    | error e => rfl
    | ok x =>
      obtain ⟨r, t⟩ := x
      obtain ⟨h1, h2⟩ := join_alike cols how a (Alike.refl r)
      dsimp only
      rw [h1, h2]
  rw [this]
  exact alikeE_refl _

theorem free_alike (a : Alike s s') : free s = free s' := by
  funext c
  unfold free
  rw [a.grouping, a.idColumn]

/-- Without nulls and NaN. -/
def sparkNoNull : SparkDesc → SparkDesc
  | .integer _ => .integer false
  | .float _ inf _ => .float false inf false
  | .string _ => .string false
  | .date _ => .date false
  | .timestamp _ => .timestamp false

/-- Without infinities. -/
def sparkNoInf : SparkDesc → SparkDesc
  | .float nan _ null => .float nan false null
  | d => d

theorem mem_filter_keys {d : Dict String Desc} (w : Dict.WF d) {p : String × Desc} (hp : p ∈ d) (f : String × Desc → Bool) :
    p.1 ∈ (d.filter f).map Prod.fst ↔ f p = true := by
  rw [List.mem_map]
  constructor
  · rintro ⟨q, hq, h⟩
    obtain ⟨h1, h2⟩ := List.mem_filter.1 hq
    have : q = p := by
      have e1 := (Dict.get_eq_some w).2 (show (p.1, p.2) ∈ d from hp)
      have e2 := (Dict.get_eq_some w).2 (show (q.1, q.2) ∈ d from h1)
      rw [h, e1] at e2
      exact Prod.ext h (Option.some.inj e2).symm
    rwa [this] at h2
  · intro h
    exact ⟨p, List.mem_filter.2 ⟨hp, h⟩, rfl⟩

theorem notMem_filter_keys {d : Dict String Desc} (w : Dict.WF d) {p : String × Desc} (hp : p ∈ d)
    (f : String × Desc → Bool) : decide (p.1 ∉ (d.filter f).map Prod.fst) = !f p := by
  rw [Bool.eq_iff_iff, decide_eq_true_iff, mem_filter_keys w hp]
  simp

/-- Forgetting the null and NaN flags of the columns given, or of all free columns that have one. -/
theorem sig_noNull (s : Schema) (cols : List String) :
    sig (s.descs.map (fun p => (p.1, { p.2 with
        allowNull := p.2.allowNull && decide (p.1 ∉ (if cols = [] then
          (s.descs.filter (fun p => (p.2.allowNull || p.2.allowNan) && free s p.1)).map Prod.fst else cols))
        allowNan := p.2.allowNan && decide (p.1 ∉ (if cols = [] then
          (s.descs.filter (fun p => (p.2.allowNull || p.2.allowNan) && free s p.1)).map Prod.fst else cols)) }))) =
      (sig s.descs).map (fun p => (p.1, if (if cols = [] then free s p.1 else decide (p.1 ∈ cols)) then sparkNoNull p.2 else p.2)) := by
  unfold sig
  rw [List.map_map, List.map_map]
  refine List.map_congr_left fun p hp => ?_
  dsimp only [Function.comp]
  congr 1
  by_cases hc : cols = []
  · simp only [hc, if_true]
    rw [notMem_filter_keys (wf_descs_alike s) hp]
    obtain ⟨c, ⟨t, x, y, z⟩⟩ := p
    dsimp only
    rcases Bool.eq_false_or_eq_true (free s c) with hfr | hfr <;> cases t <;> cases x <;> cases y <;>
      simp [toSparkDesc, sparkNoNull, hfr]
  · simp only [hc, if_false]
    obtain ⟨c, ⟨t, x, y, z⟩⟩ := p
    dsimp only
    by_cases hm : c ∈ cols <;> cases t <;> simp [toSparkDesc, sparkNoNull, hm]

theorem sig_noInf (s : Schema) (cols : List String) :
    sig (s.descs.map (fun p => (p.1, { p.2 with
        allowInf := p.2.allowInf && decide (p.1 ∉ (if cols = [] then
          (s.descs.filter (fun p => decide (p.2.ty = .DECIMAL) && p.2.allowInf && free s p.1)).map Prod.fst else cols)) }))) =
      (sig s.descs).map (fun p => (p.1, if (if cols = [] then free s p.1 else decide (p.1 ∈ cols)) then sparkNoInf p.2 else p.2)) := by
  unfold sig
  rw [List.map_map, List.map_map]
  refine List.map_congr_left fun p hp => ?_
  dsimp only [Function.comp]
  congr 1
  by_cases hc : cols = []
  · simp only [hc, if_true]
    rw [notMem_filter_keys (wf_descs_alike s) hp]
    obtain ⟨c, ⟨t, x, y, z⟩⟩ := p
    dsimp only
    rcases Bool.eq_false_or_eq_true (free s c) with hfr | hfr <;> cases t <;> cases z <;> simp [toSparkDesc, sparkNoInf, hfr]
  · simp only [hc, if_false]
    obtain ⟨c, ⟨t, x, y, z⟩⟩ := p
    dsimp only
    by_cases hm : c ∈ cols <;> cases t <;> simp [toSparkDesc, sparkNoInf, hm]

theorem ite_alike {b b' : Bool} {e : PyErr} {y y' : Except PyErr Schema} (h : b = b') (hy : AlikeE y y') :
    AlikeE (if b = true then .error e else y) (if b' = true then .error e else y') := by
  subst h
  split
  · rfl
  · exact hy

theorem keys_nil_iff {V : Type} (w : Dict String V) : Dict.keys w = [] ↔ w = [] := by
  unfold Dict.keys
  exact List.map_eq_nil_iff

theorem replaceNull_alike (w : Dict String Value) (a : Alike s s') : AlikeE (schReplaceNull w s) (schReplaceNull w s') := by
  have hty : ∀ c x, (match Dict.get s.descs c with | none => true | some d => !typeOK d.ty x) =
      (match Dict.get s'.descs c with | none => true | some d => !typeOK d.ty x) := by
    intro c x
    rcases a.get c with ⟨h1, h2⟩ | ⟨d, d', h1, h2, h3⟩
    · rw [h1, h2]
    · rw [h1, h2]
      dsimp only
      rw [(toSpark_eq h3).1]
  unfold schReplaceNull
  rw [← a.grouping, ← a.idColumn, ← a.idSpace]
  split
  · rfl
  split
  · rfl
  split
  · rfl
  refine ite_alike (by congr 1; funext p; exact hty _ _) ?_
  refine mk_alike ?_ _ _ _
  have h1 := sig_noNull s (Dict.keys w)
  have h2 := sig_noNull s' (Dict.keys w)
  simp only [keys_nil_iff] at h1 h2
  dsimp only
  rw [h1, h2, a.sig, free_alike a]

theorem replaceInf_alike (w : Dict String (Value × Value)) (a : Alike s s') :
    AlikeE (schReplaceInf w s) (schReplaceInf w s') := by
  have hty : ∀ c, (match Dict.get s.descs c with | none => true | some d => decide (d.ty ≠ ColumnType.DECIMAL)) =
      (match Dict.get s'.descs c with | none => true | some d => decide (d.ty ≠ ColumnType.DECIMAL)) := by
    intro c
    rcases a.get c with ⟨h1, h2⟩ | ⟨d, d', h1, h2, h3⟩
    · rw [h1, h2]
    · rw [h1, h2]
      dsimp only
      rw [(toSpark_eq h3).1]
  unfold schReplaceInf
  rw [← a.grouping, ← a.idColumn, ← a.idSpace]
  split
  · rfl
  split
  · rfl
  split
  · rfl
  refine ite_alike (by congr 1; funext p; exact hty _) ?_
  refine mk_alike ?_ _ _ _
  have h1 := sig_noInf s (Dict.keys w)
  have h2 := sig_noInf s' (Dict.keys w)
  simp only [keys_nil_iff] at h1 h2
  dsimp only
  rw [h1, h2, a.sig, free_alike a]

theorem dropNull_alike (cols : List String) (a : Alike s s') : AlikeE (schDropNull cols s) (schDropNull cols s') := by
  unfold schDropNull
  rw [← a.grouping, ← a.idColumn, ← a.idSpace, ← a.keys]
  split
  · rfl
  split
  · rfl
  split
  · rfl
  refine mk_alike ?_ _ _ _
  dsimp only
  rw [sig_noNull s cols, sig_noNull s' cols, a.sig, free_alike a]

theorem dropInf_alike (cols : List String) (a : Alike s s') : AlikeE (schDropInf cols s) (schDropInf cols s') := by
  have hty : ∀ c, (match Dict.get s.descs c with | none => true | some d => decide (d.ty ≠ ColumnType.DECIMAL)) =
      (match Dict.get s'.descs c with | none => true | some d => decide (d.ty ≠ ColumnType.DECIMAL)) := by
    intro c
    rcases a.get c with ⟨h1, h2⟩ | ⟨d, d', h1, h2, h3⟩
    · rw [h1, h2]
    · rw [h1, h2]
      dsimp only
      rw [(toSpark_eq h3).1]
  unfold schDropInf
  rw [← a.grouping, ← a.idColumn, ← a.idSpace]
  split
  · rfl
  split
  · rfl
  refine ite_alike (by congr 1; funext p; exact hty _) ?_
  refine mk_alike ?_ _ _ _
  dsimp only
  rw [sig_noInf s cols, sig_noInf s' cols, a.sig, free_alike a]

theorem enforce_alike (c : Constraint.Constraint) (a : Alike s s') : AlikeE (schEnforce c s) (schEnforce c s') := by
  unfold schEnforce
  rw [a.idColumn, a.keys]
  split
  · rfl
  split
  · rfl
  split
  · rfl
  exact a

theorem filter_alike {valid : Schema → Bool} (hv : ∀ s s', Alike s s' → valid s = valid s') (a : Alike s s') :
    AlikeE (schFilter valid s) (schFilter valid s') := by
  unfold schFilter
  rw [hv s s' a]
  split
  · exact a
  · rfl

theorem bind_alike {x x' : Except PyErr Schema} {f f' : Schema → Except PyErr Schema} (h : AlikeE x x')
    (hf : ∀ s s', Alike s s' → AlikeE (f s) (f' s')) : AlikeE (x.bind f) (x'.bind f') := by
  cases x <;> cases x'
  · exact h
  · exact h.elim
  · exact h.elim
  · exact hf _ _ h

theorem alikeE_cases {x y : Except PyErr Schema} (h : AlikeE x y) :
    (∃ e, x = .error e ∧ y = .error e) ∨ ∃ s s', x = .ok s ∧ y = .ok s' ∧ Alike s s' := by
  cases x <;> cases y
  · cases h
    exact .inl ⟨_, rfl, rfl⟩
  · exact h.elim
  · exact h.elim
  · exact .inr ⟨_, _, rfl, rfl, h⟩

end Verif.Expr
