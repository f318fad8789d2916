import Verif.Expr.Conform

/-!
# The schema of an expression and its compiled domain have the same columns
-/

namespace Verif.Expr

open Verif Verif.Schema Verif.Constraint

theorem bind_ok {α β : Type} {x : Except PyErr α} {f : α → Except PyErr β} {b : β} (h : x.bind f = .ok b) :
    ∃ a, x = .ok a ∧ f a = .ok b := by
  cases x with
  | error e => cases h
  | ok a => exact ⟨a, rfl, h⟩

/-- The schemas of a session's tables are as the constructor makes them; private tables do not have both an ID
and a grouping column, and have an ID space only with an ID column; public tables have none of these. -/
structure Cat.OK (cat : Cat) : Prop where
  priv : ∀ id s cs, Dict.get cat.priv id = some (s, cs) → s.WF ∧ (s.idColumn = none → s.idSpace = none) ∧
    (s.idColumn.isSome → s.grouping = none)
  pub : ∀ id s t, Dict.get cat.pub id = some (s, t) → s.WF ∧ s.grouping = none ∧ s.idColumn = none

/-- The objects an expression is built from are well-formed: dictionaries have distinct keys, schemas are as
the constructor makes them. -/
def Expr.WF : Expr → Prop
  | .source _ => True
  | .rename e m => e.WF ∧ Dict.WF m
  | .filter e _ _ => e.WF
  | .select e _ => e.WF
  | .map e _ new _ => e.WF ∧ new.WF
  | .flatMap e _ new _ _ => e.WF ∧ new.WF
  | .flatMapByID e _ new => e.WF ∧ new.WF
  | .joinPrivate l r _ _ _ => l.WF ∧ r.WF
  | .joinPublic e pub _ _ => e.WF ∧ match pub with
    | .name _ => True
    | .df s _ => s.WF ∧ s.grouping = none ∧ s.idColumn = none
  | .replaceNull e w => e.WF ∧ Dict.WF w
  | .replaceInf e w => e.WF ∧ Dict.WF w
  | .dropNull e _ => e.WF
  | .dropInf e _ => e.WF
  | .enforce e _ => e.WF

theorem mk_ok {cols : Dict String Desc} {g i sp : Option String} {s : Schema} (w : Dict.WF cols)
    (h : mk cols g i sp = .ok s) :
    s.WF ∧ s.grouping = g ∧ s.idColumn = i ∧ s.idSpace = sp ∧ s.columnDescs.elements = cols := by
  unfold mk at h
  obtain ⟨h1, h2, h3, h4, h5⟩ := Schema.init_ok (wf_mapVal w (fun p => ColSpec.desc p.2)) h
  refine ⟨h1, h2, h3, h4, ?_⟩
  rw [List.forall₂_map_left_iff] at h5
  clear h h1 h2 h3 h4 w
  generalize s.columnDescs.elements = ds at h5
  induction h5 with
  | nil => rfl
  | @cons p q _ _ hp _ ih =>
    rw [ih]
    congr 1
    have := hp.2
    simp only [resolve, Option.some.injEq] at this
    exact Prod.ext hp.1 this.symm

theorem keys_eq {s : Schema} (w : s.WF) : Schema.keys s = s.columnDescs.elements.map Prod.fst := by
  unfold Schema.keys Dict.keys
  rw [Schema.descs_eq w]

theorem keys_analytics {s : Schema} (w : s.WF) : Dict.keys (analyticsToSparkColumns s) = Schema.keys s := by
  rw [analytics_dom w, keys_eq w]
  exact keys_mapVal' _ (fun p => toSparkDesc p.2)

theorem wf_descs {s : Schema} (w : s.WF) : Dict.WF s.descs := by rw [Schema.descs_eq w]; exact w.nodup

theorem keys_mk {cols : Dict String Desc} {g i sp : Option String} {s : Schema} (w : Dict.WF cols)
    (h : mk cols g i sp = .ok s) : Schema.keys s = Dict.keys cols := by
  obtain ⟨h1, _, _, _, h5⟩ := mk_ok w h
  rw [keys_eq h1, h5]; rfl

theorem ofPairs_keys_congr {V W : Type} {a : List (String × V)} {b : List (String × W)}
    (h : a.map Prod.fst = b.map Prod.fst) : Dict.keys (Dict.ofPairs a) = Dict.keys (Dict.ofPairs b) := by
  unfold Dict.ofPairs Dict.union
  have key : ∀ (x : Dict String V) (y : Dict String W), Dict.keys x = Dict.keys y →
      Dict.keys (a.foldl (fun d p => Dict.set d p.1 p.2) x)
        = Dict.keys (b.foldl (fun d p => Dict.set d p.1 p.2) y) := by
    induction a generalizing b with
    | nil => cases b with
      | nil => exact fun x y h => h
      | cons q b => simp at h
    | cons p a ih => cases b with
      | nil => simp at h
      | cons q b =>
        simp only [List.map_cons, List.cons.injEq] at h
        intro x y hxy
        rw [List.foldl_cons, List.foldl_cons]
        apply ih h.2
        rw [Dict.keys_set, Dict.keys_set, hxy, h.1]
  exact key [] [] rfl

theorem keys_nullable {new : Schema} : Dict.keys (nullable new) = Schema.keys new :=
  keys_mapVal' new.descs (fun p => ({ p.2 with allowNull := true } : Desc))

theorem wf_nullable {new : Schema} (w : new.WF) : Dict.WF (nullable new) :=
  wf_mapVal (wf_descs w) (fun p => ({ p.2 with allowNull := true } : Desc))

theorem keys_newDescs {new : Schema} (w : new.WF) : Dict.keys (newDescs new) = Schema.keys new := by
  unfold newDescs
  rw [keys_mapVal' _ (fun p => setNull true p.2), keys_analytics w]

theorem wf_newDescs (new : Schema) : Dict.WF (newDescs new) :=
  wf_mapVal (wf_analytics new) (fun p => setNull true p.2)

theorem keys_union_congr {V W : Type} {a b : Dict String V} {c d : Dict String W} (wb : Dict.WF b)
    (wd : Dict.WF d) (h1 : Dict.keys a = Dict.keys c) (h2 : Dict.keys b = Dict.keys d) :
    Dict.keys (Dict.union a b) = Dict.keys (Dict.union c d) := by
  rw [Dict.keys_union _ _ wb, Dict.keys_union _ _ wd, h1, h2]

theorem keys_update (f : SparkDesc → SparkDesc) (cs : List String) (d : Dict String SparkDesc) :
    Dict.keys (update f cs d) = Dict.keys d := keys_mapVal' d (fun p => if p.1 ∈ cs then f p.2 else p.2)

theorem wf_update {f : SparkDesc → SparkDesc} {cs : List String} {d : Dict String SparkDesc} (w : Dict.WF d) :
    Dict.WF (update f cs d) := wf_mapVal w (fun p => if p.1 ∈ cs then f p.2 else p.2)

theorem wf_pick {d : Dict String SparkDesc} {cs : List String} (h : ∀ c ∈ cs, c ∈ Dict.keys d)
    (nd : cs.Nodup) : Dict.WF (pick d cs) := by
  rw [Dict.wf_iff, pick_keys h]; exact nd

theorem keys_ofSpark {d : Dict String SparkDesc} (w : Dict.WF d) :
    sparkDomainToAnalytics d = d.map (fun p => (p.1, ofSparkDesc p.2)) := by
  unfold sparkDomainToAnalytics
  rw [Dict.ofPairs_eq]
  exact wf_mapVal w (fun p => ofSparkDesc p.2)

theorem any_false {α : Type} {l : List α} {p : α → Bool} (h : ¬ l.any p = true) : ∀ a ∈ l, p a = false := by
  intro a ha
  by_contra hc
  exact h (List.any_eq_true.2 ⟨a, ha, by simpa using hc⟩)

theorem resolvePub_ok {cat : Cat} (hc : cat.OK) {pub : PubRef} {s : Schema} {t : Table}
    (hp : match pub with
      | .name _ => True
      | .df s _ => s.WF ∧ s.grouping = none ∧ s.idColumn = none)
    (h : resolvePub cat pub = .ok (s, t)) : s.WF ∧ s.grouping = none ∧ s.idColumn = none := by
  cases pub with
  | name n =>
    simp only [resolvePub] at h
    split at h
    · next p hg => cases h; exact hc.pub _ _ _ hg
    · cases h
  | df s' t' => cases h; exact hp

/-- Schemas of joins. -/
theorem schemaForJoin_ok {how : How} {cols : Option (List String)} {l r s : Schema} (wl : l.WF) (wr : r.WF)
    (h : schemaForJoin how cols l r = .ok s) :
    s.WF ∧ s.grouping = (if l.grouping.isSome then l.grouping else r.grouping) ∧ s.idColumn = l.idColumn ∧
      s.idSpace = l.idSpace ∧
      Schema.keys s = joinKeys (Schema.keys l) (Schema.keys r) (joinCols (Schema.keys l) (Schema.keys r) cols) := by
  unfold schemaForJoin at h
  split at h
  · cases h
  · next d hd =>
    obtain ⟨k, w⟩ := domainAfterJoin_keys hd
    rw [keys_analytics wl, keys_analytics wr] at k
    have w' : Dict.WF (sparkDomainToAnalytics d) := by
      rw [keys_ofSpark w]; exact wf_mapVal w (fun p => ofSparkDesc p.2)
    obtain ⟨h1, h2, h3, h4, _⟩ := mk_ok w' h
    refine ⟨h1, h2, h3, h4, ?_⟩
    rw [keys_mk w' h, keys_ofSpark w, keys_mapVal' d (fun p => ofSparkDesc p.2), k]

/-! ## What accepted nodes look like -/

theorem pickD_keys {d : Dict String Desc} {cs : List String} (h : ∀ c ∈ cs, c ∈ Dict.keys d) :
    Dict.keys (cs.filterMap (fun c => (Dict.get d c).map (fun x => (c, x)))) = cs := by
  induction cs with
  | nil => rfl
  | cons x xs ih =>
    obtain ⟨v, hv⟩ := Option.isSome_iff_exists.1 (Dict.get_isSome.2 (h x (by simp)))
    have := ih (fun c hc => h c (by simp [hc]))
    unfold Dict.keys at *
    simp [hv, this]

/-- Schemas that keep the columns and change some descriptors. -/
theorem mkMap_ok {s s' : Schema} {g : String × Desc → Desc} (w : s'.WF)
    (h : mk (s'.descs.map (fun p => (p.1, g p))) s'.grouping s'.idColumn s'.idSpace = .ok s) :
    s.WF ∧ s.grouping = s'.grouping ∧ s.idColumn = s'.idColumn ∧ s.idSpace = s'.idSpace ∧
      s.columnDescs.elements = s'.columnDescs.elements.map (fun p => (p.1, g p)) ∧
      Schema.keys s = Schema.keys s' := by
  have w' := wf_mapVal (wf_descs w) g
  obtain ⟨h1, h2, h3, h4, h5⟩ := mk_ok w' h
  refine ⟨h1, h2, h3, h4, ?_, ?_⟩
  · rw [h5, Schema.descs_eq w]
  · rw [keys_mk w' h, keys_mapVal']; rfl

theorem schRename_ok {m : Dict String String} {s' s : Schema} (h : schRename m s' = .ok s) :
    (∀ p ∈ m, p.2 ≠ "") ∧ (∀ c ∈ Dict.keys m, c ∈ Schema.keys s') ∧
      (∀ p ∈ m, p.2 ∈ Schema.keys s' → p.2 = p.1) ∧
      s.WF ∧ s.grouping = s'.grouping.map (renamed m) ∧ s.idColumn = s'.idColumn.map (renamed m) ∧
      s.idSpace = s'.idSpace ∧
      s.columnDescs.elements = Dict.ofPairs (s'.descs.map (fun p => (renamed m p.1, p.2))) := by
  unfold schRename at h
  split_ifs at h with h1 h2 h3
  obtain ⟨a, b, c, d, e⟩ := mk_ok (Dict.wf_ofPairs _) h
  refine ⟨?_, ?_, ?_, a, b, c, d, e⟩
  · exact fun p hp => by simpa using any_false h1 p hp
  · exact fun c hc => by simpa using any_false h2 c hc
  · exact fun p hp hk => by simpa [hk] using any_false h3 p hp

theorem schSelect_ok {cols : List String} {s' s : Schema} (h : schSelect cols s' = .ok s) :
    cols.Nodup ∧ (∀ g, s'.grouping = some g → g ∈ cols) ∧ (∀ g, s'.idColumn = some g → g ∈ cols) ∧
      (∀ c ∈ cols, c ∈ Schema.keys s') ∧ s.WF ∧ s.grouping = s'.grouping ∧ s.idColumn = s'.idColumn ∧
      s.idSpace = s'.idSpace ∧
      s.columnDescs.elements = cols.filterMap (fun c => (Dict.get s'.descs c).map (fun d => (c, d))) ∧
      Schema.keys s = cols := by
  unfold schSelect at h
  split_ifs at h with h1 h2 h3 h4
  have nd : cols.Nodup := by simpa using h1
  have sub : ∀ c ∈ cols, c ∈ Schema.keys s' := fun c hc => by simpa using any_false h4 c hc
  have k := pickD_keys sub
  have w : Dict.WF (cols.filterMap (fun c => (Dict.get s'.descs c).map (fun d => (c, d)))) := by
    rw [Dict.wf_iff, k]; exact nd
  obtain ⟨a, b, c, d, e⟩ := mk_ok w h
  refine ⟨nd, ?_, ?_, sub, a, b, c, d, e, ?_⟩
  · intro g hg; rw [hg] at h2; simpa using h2
  · intro g hg; rw [hg] at h3; simpa using h3
  · rw [keys_mk w h, k]

/-- New columns: appended to the old ones, or instead of them. -/
theorem schMap_ok {new s' s : Schema} {augment : Bool} (wn : new.WF) (ws : s'.WF)
    (h : schMap new augment s' = .ok s) :
    s.WF ∧
    ((augment = true ∧ (∀ c ∈ Schema.keys new, c ∉ Schema.keys s') ∧ s.grouping = s'.grouping ∧
        s.idColumn = s'.idColumn ∧ s.idSpace = s'.idSpace ∧
        s.columnDescs.elements = s'.columnDescs.elements ++ nullable new) ∨
      (augment = false ∧ s'.grouping = none ∧ s'.idColumn = none ∧ s.grouping = none ∧ s.idColumn = none ∧
        s.idSpace = none ∧ s.columnDescs.elements = nullable new)) := by
  unfold schMap at h
  cases augment
  · simp only [Bool.false_eq_true, if_false] at h
    split_ifs at h with h1 h2 h3
    obtain ⟨a, b, c, d, e⟩ := mk_ok (wf_nullable wn) h
    exact ⟨a, Or.inr ⟨rfl, by simpa using h2, by simpa using h3, b, c, d, e⟩⟩
  · simp only [if_true] at h
    split_ifs at h with h1 h2
    have dis : ∀ c ∈ Schema.keys new, c ∉ Schema.keys s' := fun c hc => by simpa using any_false h2 c hc
    obtain ⟨a, b, c, d, e⟩ := mk_ok (Dict.wf_union (wf_descs ws) _) h
    refine ⟨a, Or.inl ⟨rfl, dis, b, c, d, ?_⟩⟩
    rw [e, Dict.union_disjoint _ _ (wf_nullable wn), Schema.descs_eq ws]
    intro k hk
    rw [keys_nullable] at hk
    exact dis k hk

theorem schFlatMap_ok {new s' s : Schema} {augment : Bool} (wn : new.WF) (ws : s'.WF)
    (h : schFlatMap new augment s' = .ok s) :
    s.WF ∧ (new.grouping.isSome → s'.grouping = none ∧ s'.idColumn = none) ∧
    ((augment = true ∧ (∀ c ∈ Schema.keys new, c ∉ Schema.keys s') ∧
        s.grouping = (if new.grouping.isSome then new.grouping else s'.grouping) ∧
        s.idColumn = s'.idColumn ∧ s.idSpace = s'.idSpace ∧
        s.columnDescs.elements = s'.columnDescs.elements ++ nullable new) ∨
      (augment = false ∧ s'.grouping = none ∧ s'.idColumn = none ∧ s.grouping = none ∧ s.idColumn = none ∧
        s.idSpace = none ∧ s.columnDescs.elements = nullable new)) := by
  unfold schFlatMap at h
  split at h
  · cases h
  split at h
  · cases h
  next g1 =>
  split at h
  · cases h
  next g2 =>
  have hg : new.grouping.isSome → s'.grouping = none ∧ s'.idColumn = none := by
    intro hn
    constructor
    · cases e : s'.grouping with
      | none => rfl
      | some x => exact absurd ⟨hn, by simp [e]⟩ g1
    · cases e : s'.idColumn with
      | none => rfl
      | some x => exact absurd ⟨hn, by simp [e]⟩ g2
  cases augment
  · simp only [Bool.false_eq_true, if_false] at h
    split at h
    · cases h
    next h2 =>
    split at h
    · cases h
    next h3 =>
    obtain ⟨a, b, c, d, e⟩ := mk_ok (wf_nullable wn) h
    exact ⟨a, hg, Or.inr ⟨rfl, by simpa using h2, by simpa using h3, b, c, d, e⟩⟩
  · simp only [if_true] at h
    split at h
    · cases h
    next h2 =>
    have dis : ∀ c ∈ Schema.keys new, c ∉ Schema.keys s' := fun c hc => by simpa using any_false h2 c hc
    obtain ⟨a, b, c, d, e⟩ := mk_ok (Dict.wf_union (wf_descs ws) _) h
    refine ⟨a, hg, Or.inl ⟨rfl, dis, b, c, d, ?_⟩⟩
    rw [e, Dict.union_disjoint _ _ (wf_nullable wn), Schema.descs_eq ws]
    intro k hk
    rw [keys_nullable] at hk
    exact dis k hk

theorem schFlatMapByID_ok {new s' s : Schema} (wn : new.WF) (h : schFlatMapByID new s' = .ok s) :
    ∃ i d, s'.idColumn = some i ∧ s'.grouping = none ∧ i ∉ Schema.keys new ∧ Dict.get s'.descs i = some d ∧
      s.WF ∧ s.grouping = none ∧ s.idColumn = some i ∧ s.idSpace = s'.idSpace ∧
      s.columnDescs.elements = (i, d) :: nullable new := by
  unfold schFlatMapByID at h
  split at h
  · cases h
  split at h
  · cases h
  next i hi =>
  split at h
  · cases h
  next hg =>
  split at h
  · cases h
  next hn =>
  split at h
  · cases h
  next d hd =>
  have w1 : Dict.WF [(i, d)] := by simp [Dict.WF]
  obtain ⟨a, b, c, e, f⟩ := mk_ok (Dict.wf_union w1 _) h
  refine ⟨i, d, hi, by simpa using hg, hn, hd, a, b, c, e, ?_⟩
  rw [f, Dict.union_disjoint _ _ (wf_nullable wn)]
  · rfl
  · intro k hk hk'
    rw [keys_nullable] at hk
    simp only [Dict.keys, List.map_cons, List.map_nil, List.mem_singleton] at hk'
    exact hn (hk' ▸ hk)

/-- The columns whose nulls and NaNs are replaced or dropped, according to the schema. -/
def nullCols (s : Schema) (cols : List String) : List String :=
  if cols = [] then (s.descs.filter (fun p => (p.2.allowNull || p.2.allowNan) && free s p.1)).map Prod.fst
  else cols

/-- The columns whose infinities are replaced or dropped, according to the schema. -/
def infCols (s : Schema) (cols : List String) : List String :=
  if cols = [] then
    (s.descs.filter (fun p => decide (p.2.ty = .DECIMAL) && p.2.allowInf && free s p.1)).map Prod.fst
  else cols

def noNull (cs : List String) (p : String × Desc) : Desc :=
  { p.2 with
    allowNull := p.2.allowNull && decide (p.1 ∉ cs)
    allowNan := p.2.allowNan && decide (p.1 ∉ cs) }

def noInf (cs : List String) (p : String × Desc) : Desc :=
  { p.2 with allowInf := p.2.allowInf && decide (p.1 ∉ cs) }

/-- The result keeps columns, grouping and ID; descriptors change by `g`. -/
structure Keeps (s' s : Schema) (g : String × Desc → Desc) : Prop where
  wf : s.WF
  grouping : s.grouping = s'.grouping
  idColumn : s.idColumn = s'.idColumn
  idSpace : s.idSpace = s'.idSpace
  elems : s.columnDescs.elements = s'.columnDescs.elements.map (fun p => (p.1, g p))
  keys : Schema.keys s = Schema.keys s'

theorem keeps_of {s s' : Schema} {g : String × Desc → Desc} (w : s'.WF)
    (h : mk (s'.descs.map (fun p => (p.1, g p))) s'.grouping s'.idColumn s'.idSpace = .ok s) : Keeps s' s g :=
  let ⟨a, b, c, d, e, f⟩ := mkMap_ok w h
  ⟨a, b, c, d, e, f⟩

theorem keys_eq_nil {V : Type} {w : Dict String V} : Dict.keys w = [] ↔ w = [] := by simp [Dict.keys]

theorem schReplaceNull_ok {w : Dict String Value} {s' s : Schema} (ws : s'.WF)
    (h : schReplaceNull w s' = .ok s) :
    Keeps s' s (noNull (nullCols s' (Dict.keys w))) ∧ (∀ p ∈ w, validReplacement p.2 = true) ∧
      (∀ g, s'.grouping = some g → g ∉ Dict.keys w) ∧ (∀ g, s'.idColumn = some g → g ∉ Dict.keys w) ∧
      ∀ p ∈ w, ∃ d, Dict.get s'.descs p.1 = some d ∧ typeOK d.ty p.2 = true := by
  unfold schReplaceNull at h
  split at h
  · cases h
  next h1 =>
  split at h
  · cases h
  next h2 =>
  split at h
  · cases h
  next h3 =>
  split at h
  · cases h
  next h4 =>
  refine ⟨?_, ?_, ?_, ?_, ?_⟩
  · apply keeps_of ws
    unfold nullCols noNull
    simp only [keys_eq_nil]
    exact h
  · exact fun p hp => by simpa using any_false h1 p hp
  · intro g hg; rw [hg] at h2; simpa using h2
  · intro g hg; rw [hg] at h3; simpa using h3
  · intro p hp
    have := any_false h4 p hp
    cases hd : Dict.get s'.descs p.1 with
    | none => simp [hd] at this
    | some d => exact ⟨d, rfl, by simpa [hd] using this⟩

theorem schReplaceInf_ok {w : Dict String (Value × Value)} {s' s : Schema} (ws : s'.WF)
    (h : schReplaceInf w s' = .ok s) :
    Keeps s' s (noInf (infCols s' (Dict.keys w))) ∧
      (∀ p ∈ w, typeOK .DECIMAL p.2.1 = true ∧ validReplacement p.2.1 = true ∧ typeOK .DECIMAL p.2.2 = true ∧
        validReplacement p.2.2 = true) ∧
      (∀ g, s'.grouping = some g → g ∉ Dict.keys w) ∧ (∀ g, s'.idColumn = some g → g ∉ Dict.keys w) ∧
      ∀ p ∈ w, ∃ d, Dict.get s'.descs p.1 = some d ∧ d.ty = .DECIMAL := by
  unfold schReplaceInf at h
  split at h
  · cases h
  next h1 =>
  split at h
  · cases h
  next h2 =>
  split at h
  · cases h
  next h3 =>
  split at h
  · cases h
  next h4 =>
  refine ⟨?_, ?_, ?_, ?_, ?_⟩
  · apply keeps_of ws
    unfold infCols noInf
    simp only [keys_eq_nil]
    exact h
  · intro p hp
    have := any_false h1 p hp
    simp only [Bool.not_eq_false', Bool.and_eq_true] at this
    exact ⟨this.1.1.1, this.1.1.2, this.1.2, this.2⟩
  · intro g hg; rw [hg] at h2; simpa using h2
  · intro g hg; rw [hg] at h3; simpa using h3
  · intro p hp
    have := any_false h4 p hp
    cases hd : Dict.get s'.descs p.1 with
    | none => simp [hd] at this
    | some d => exact ⟨d, rfl, by simpa [hd] using this⟩

theorem schDropNull_ok {cols : List String} {s' s : Schema} (ws : s'.WF) (h : schDropNull cols s' = .ok s) :
    Keeps s' s (noNull (nullCols s' cols)) ∧
      (∀ g, s'.grouping = some g → g ∉ cols) ∧ (∀ g, s'.idColumn = some g → g ∉ cols) ∧
      ∀ c ∈ cols, c ∈ Schema.keys s' := by
  unfold schDropNull at h
  split at h
  · cases h
  next h2 =>
  split at h
  · cases h
  next h3 =>
  split at h
  · cases h
  next h4 =>
  refine ⟨keeps_of ws h, ?_, ?_, ?_⟩
  · intro g hg; rw [hg] at h2; simpa using h2
  · intro g hg; rw [hg] at h3; simpa using h3
  · exact fun c hc => by simpa using any_false h4 c hc

theorem schDropInf_ok {cols : List String} {s' s : Schema} (ws : s'.WF) (h : schDropInf cols s' = .ok s) :
    Keeps s' s (noInf (infCols s' cols)) ∧
      (∀ g, s'.grouping = some g → g ∉ cols) ∧ (∀ g, s'.idColumn = some g → g ∉ cols) ∧
      ∀ c ∈ cols, ∃ d, Dict.get s'.descs c = some d ∧ d.ty = .DECIMAL := by
  unfold schDropInf at h
  split at h
  · cases h
  next h2 =>
  split at h
  · cases h
  next h3 =>
  split at h
  · cases h
  next h4 =>
  refine ⟨keeps_of ws h, ?_, ?_, ?_⟩
  · intro g hg; rw [hg] at h2; simpa using h2
  · intro g hg; rw [hg] at h3; simpa using h3
  · intro c hc
    have := any_false h4 c hc
    cases hd : Dict.get s'.descs c with
    | none => simp [hd] at this
    | some d => exact ⟨d, rfl, by simpa [hd] using this⟩

theorem schEnforce_ok {c : Constraint} {s' s : Schema} (h : schEnforce c s' = .ok s) :
    s = s' ∧ ∃ i, s'.idColumn = some i ∧ ∀ g, consCol c = some g → g ∈ Schema.keys s' ∧ g ≠ i := by
  unfold schEnforce at h
  split at h
  · cases h
  next i hi =>
  split at h
  · cases h
  next h1 =>
  split at h
  · cases h
  next h2 =>
  cases h
  refine ⟨rfl, i, hi, fun g hg => ⟨?_, ?_⟩⟩
  · rw [hg] at h1; simpa using h1
  · rintro rfl; exact h2 hg

theorem schJoinPrivate_ok {cols : Option (List String)} {l r s : Schema} (wl : l.WF) (wr : r.WF)
    (h : schJoinPrivate cols l r = .ok s) :
    l.idColumn = r.idColumn ∧ l.idSpace = r.idSpace ∧ validateJoin cols l r = .ok () ∧ s.WF ∧
      s.grouping = (if l.grouping.isSome then l.grouping else r.grouping) ∧ s.idColumn = l.idColumn ∧
      s.idSpace = l.idSpace ∧
      Schema.keys s = joinKeys (Schema.keys l) (Schema.keys r) (joinCols (Schema.keys l) (Schema.keys r) cols) ∧
      schemaForJoin .inner cols l r = .ok s := by
  unfold schJoinPrivate at h
  split at h
  · cases h
  next h1 =>
  split at h
  · cases h
  next h2 =>
  split at h
  · cases h
  next h3 =>
  obtain ⟨a, b, c, d, e⟩ := schemaForJoin_ok wl wr h
  exact ⟨by simpa using h1, by simpa using h2, h3, a, b, c, d, e, h⟩

theorem schJoinPublic_ok {cat : Cat} (hc : cat.OK) {pub : PubRef} {cols : Option (List String)} {how : How}
    {s' s : Schema} (hp : match pub with
      | .name _ => True
      | .df s _ => s.WF ∧ s.grouping = none ∧ s.idColumn = none)
    (ws : s'.WF) (h : schJoinPublic cat pub cols how s' = .ok s) :
    ∃ ps pt, resolvePub cat pub = .ok (ps, pt) ∧ ps.WF ∧ validateJoin cols s' ps = .ok () ∧ s.WF ∧
      s.grouping = s'.grouping ∧ s.idColumn = s'.idColumn ∧ s.idSpace = s'.idSpace ∧
      Schema.keys s
        = joinKeys (Schema.keys s') (Schema.keys ps) (joinCols (Schema.keys s') (Schema.keys ps) cols) ∧
      schemaForJoin how cols s' ps = .ok s := by
  unfold schJoinPublic at h
  split at h
  · cases h
  next ps pt hr =>
  split at h
  · cases h
  next hv =>
  obtain ⟨w, g, _⟩ := resolvePub_ok hc hp hr
  obtain ⟨a, b, c, d, e⟩ := schemaForJoin_ok ws w h
  refine ⟨ps, pt, hr, w, hv, a, ?_, c, d, e, h⟩
  rw [b, g]
  cases s'.grouping <;> rfl

/-! ### Visitors -/

theorem visitRename_ok {m : Dict String String} {o' o : Out} (h : visitRename m o' = .ok o) :
    (∀ c ∈ Dict.keys m, c ∈ Dict.keys o'.dom) ∧ (∀ p ∈ m, p.2 ∈ Dict.keys o'.dom → p.2 = p.1) ∧
      o = { dom := Dict.ofPairs (o'.dom.map (fun p => (renamed m p.1, p.2)))
            metric := o'.metric.rename m
            space := o'.space
            cons := simplify (propagateRename m o'.cons)
            run := fun D => (o'.run D).map (fun r => r.map (fun p => (renamed m p.1, p.2))) } := by
  unfold visitRename at h
  split_ifs at h with h1 h2
  cases h
  exact ⟨fun c hc => by simpa using any_false h1 c hc,
    fun p hp hk => by simpa [hk] using any_false h2 p hp, rfl⟩

theorem visitSelect_ok {cols : List String} {o' o : Out} (h : visitSelect cols o' = .ok o) :
    (∀ c ∈ cols, c ∈ Dict.keys o'.dom) ∧ (∀ c, o'.metric.col = some c → c ∈ cols) ∧
      o = { o' with
            dom := pick o'.dom cols
            cons := simplify (propagateSelect cols o'.cons)
            run := fun D => (o'.run D).map (fun r => cols.map (fun c => (c, cell r c))) } := by
  unfold visitSelect at h
  split_ifs at h with h1 h2
  cases h
  refine ⟨fun c hc => by simpa using any_false h1 c hc, ?_, rfl⟩
  intro c hc
  rw [hc] at h2
  simpa using h2

theorem visitMap_ok {f : Row → Row} {new : Schema} {augment : Bool} {o' o : Out}
    (h : visitMap f new augment o' = .ok o) :
    (augment = false → o'.metric = .symDiff ∧ o'.cons = []) ∧
      o = { o' with
            dom := if augment then Dict.union o'.dom (newDescs new) else newDescs new
            cons := simplify o'.cons
            run := fun D => (o'.run D).map (fun r => if augment then r ++ f r else f r) } := by
  unfold visitMap at h
  split at h
  · cases h
  next h1 =>
  split at h
  · cases h
  next h2 =>
  cases h
  refine ⟨fun ha => ⟨?_, ?_⟩, rfl⟩
  · by_contra hne; exact h1 ⟨ha, hne⟩
  · by_contra hne; exact h2 ⟨ha, hne⟩

theorem visitReplaceNull_ok {w : Dict String Value} {o' o : Out} (h : visitReplaceNull w o' = .ok o) :
    ∃ rw, replaceWith w o'.dom o'.metric.col = .ok rw ∧ (∀ c, o'.metric.col = some c → c ∉ Dict.keys w) ∧
      o = { o' with
            dom := update (setNan false) (Dict.keys (restrict allowsNan o'.dom rw))
              (update (setNull false) (Dict.keys (restrict SparkDesc.allowNull o'.dom rw)) o'.dom)
            cons := simplify (propagateReplace (Dict.keys w) o'.cons)
            run := fun D => (o'.run D).map (fun r =>
              replaceRow isNan (restrict allowsNan o'.dom rw)
                (replaceRow isNull (restrict SparkDesc.allowNull o'.dom rw) r)) } := by
  unfold visitReplaceNull at h
  split at h
  · cases h
  next h1 =>
  split at h
  · cases h
  next rw hrw =>
  cases h
  refine ⟨rw, hrw, ?_, rfl⟩
  intro c hc
  rw [hc] at h1
  simpa using h1

theorem visitReplaceInf_ok {w : Dict String (Value × Value)} {o' o : Out} (h : visitReplaceInf w o' = .ok o) :
    (∀ p ∈ infReplaceWith w o'.dom, (Dict.get o'.dom p.1).any isFloat = true) ∧
      o = { o' with
            dom := update (setInf false) (Dict.keys (infReplaceWith w o'.dom)) o'.dom
            cons := simplify (propagateReplace (Dict.keys w) o'.cons)
            run := fun D => (o'.run D).map (replaceInfRow (infReplaceWith w o'.dom)) } := by
  unfold visitReplaceInf at h
  split at h
  · cases h
  next h1 =>
  cases h
  exact ⟨fun p hp => by simpa using any_false h1 p hp, rfl⟩

theorem visitDropInf_ok {cols : List String} {o' o : Out} (h : visitDropInf cols o' = .ok o) :
    (∀ c ∈ cols, (Dict.get o'.dom c).any isFloat = true) ∧
      o = { o' with
            dom := update (setInf false) (dropInfCols cols o'.dom) o'.dom
            cons := simplify o'.cons
            run := fun D => dropRows (fun v => isPinf v || isNinf v) (dropInfCols cols o'.dom) (o'.run D) } := by
  unfold visitDropInf at h
  split at h
  · cases h
  split at h
  · cases h
  next h1 =>
  cases h
  exact ⟨fun p hp => by simpa using any_false h1 p hp, rfl⟩

theorem visitDropNull_ok {cols : List String} {o' o : Out} (h : visitDropNull cols o' = .ok o) :
    (∀ c, o'.metric.col = some c → c ∉ cols) ∧ (∀ c ∈ cols, c ∈ Dict.keys o'.dom) ∧
      o = { o' with
            dom := update (setNan false) (having allowsNan o'.dom (dropNullCols cols o'.dom o'.metric.col))
              (update (setNull false)
                (having SparkDesc.allowNull o'.dom (dropNullCols cols o'.dom o'.metric.col)) o'.dom)
            cons := simplify o'.cons
            run := fun D => dropRows isNan (having allowsNan o'.dom (dropNullCols cols o'.dom o'.metric.col))
              (dropRows isNull (having SparkDesc.allowNull o'.dom (dropNullCols cols o'.dom o'.metric.col))
                (o'.run D)) } := by
  unfold visitDropNull at h
  split at h
  · cases h
  next h1 =>
  split at h
  · cases h
  next h2 =>
  cases h
  refine ⟨?_, fun p hp => by simpa using any_false h2 p hp, rfl⟩
  intro c hc
  rw [hc] at h1
  simpa using h1

theorem visitEnforce_ok {h : Hash} {c : Constraint} {o' o : Out} (ho : visitEnforce h c o' = .ok o) :
    ∃ i, o'.metric = .ids i ∧ (∀ g, consCol c = some g → g ∈ Dict.keys o'.dom ∧ g ≠ i) ∧
      o = { o' with
            cons := simplify (o'.cons ++ [c])
            run := fun D => Constraint.enforce h i c (o'.run D) } := by
  unfold visitEnforce at ho
  split at ho
  · next i hi =>
    split at ho
    · cases ho
    next h1 =>
    cases ho
    refine ⟨i, hi, ?_, rfl⟩
    intro g hg
    rw [hg] at h1
    simpa using h1
  · cases ho

theorem visitFlatMap_ok {f : Row → List Row} {new : Schema} {augment : Bool} {n : Option Nat} {o' o : Out}
    (h : visitFlatMap f new augment n o' = .ok o) :
    ∃ g : Row → List Row,
      o.dom = (if augment then Dict.union o'.dom (newDescs new) else newDescs new) ∧ o.space = o'.space ∧
      o.cons = simplify (propagateFlatMap o'.cons) ∧ (augment = false → o'.cons = []) ∧
      (∀ D, o.run D = (o'.run D).flatMap (fun r => (g r).map (fun x => if augment then r ++ x else x))) ∧
      (((∃ i, o'.metric = .ids i) ∧ o.metric = o'.metric ∧ augment = true ∧ new.grouping = none ∧ g = f) ∨
        ((∀ i, o'.metric ≠ .ids i) ∧ (∃ k, n = some k ∧ g = fun r => if new.grouping.isSome then (f r).dedup.take k else (f r).take k) ∧
          (augment = false → o'.metric = .symDiff) ∧
          ((new.grouping = none ∧ o.metric = o'.metric) ∨
            ∃ c, new.grouping = some c ∧ o'.metric = .symDiff ∧ o.metric = .grouped c))) := by
  unfold visitFlatMap at h
  simp only at h
  split at h
  · cases h
  next h0 =>
  have hcons : augment = false → o'.cons = [] := fun ha => by
    by_contra hne
    exact h0 ⟨ha, hne⟩
  split at h
  · next i hi =>
    split at h
    · cases h
    next h1 =>
    split at h
    · cases h
    next h2 =>
    cases h
    exact ⟨f, rfl, rfl, rfl, hcons, fun D => rfl,
      Or.inl ⟨⟨i, hi⟩, rfl, by simpa using h1, by simpa using h2, rfl⟩⟩
  · next hni =>
    split at h
    · cases h
    next k =>
    split at h
    · cases h
    next h1 =>
    have ha : augment = false → o'.metric = .symDiff := fun ha => by
      by_contra hne
      exact h1 ⟨ha, hne⟩
    split at h
    · next c hcg =>
      split at h
      · cases h
      next h2 =>
      cases h
      exact ⟨fun r => (f r).dedup.take k, rfl, rfl, rfl, hcons, fun D => rfl,
        Or.inr ⟨hni, ⟨k, rfl, by simp [hcg]⟩, ha, Or.inr ⟨c, hcg, by simpa using h2, rfl⟩⟩⟩
    · next hcg =>
      cases h
      exact ⟨fun r => (f r).take k, rfl, rfl, rfl, hcons, fun D => rfl,
        Or.inr ⟨hni, ⟨k, rfl, by simp [hcg]⟩, ha, Or.inl ⟨hcg, rfl⟩⟩⟩

/-- A flat map only makes rows that the function returns. -/
theorem mem_limited {f : Row → List Row} {b : Bool} {k : Nat} {r x : Row}
    (hx : x ∈ (if b then (f r).dedup.take k else (f r).take k)) : x ∈ f r := by
  split at hx
  · exact List.mem_dedup.1 (List.mem_of_mem_take hx)
  · exact List.mem_of_mem_take hx

theorem visitFlatMapByID_ok {f : List Row → List Row} {new : Schema} {o' o : Out}
    (h : visitFlatMapByID f new o' = .ok o) :
    ∃ i d, o'.metric = .ids i ∧ Dict.get o'.dom i = some d ∧ i ∉ Dict.keys (newDescs new) ∧
      o.dom = (i, d) :: newDescs new ∧ o.metric = o'.metric ∧ o.space = o'.space ∧ o.cons = [] ∧
      ∀ D, o.run D = ((o'.run D).map (fun r => cell r i)).dedup.flatMap (fun v =>
            (f ((o'.run D).filter (fun r => decide (cell r i = v)))).map (fun x => (i, v) :: x)) := by
  unfold visitFlatMapByID at h
  split at h
  · next i hi =>
    split at h
    · cases h
    next d hd =>
    split at h
    · cases h
    next hn =>
    cases h
    refine ⟨i, d, hi, hd, hn, ?_, rfl, rfl, rfl, fun D => rfl⟩
    show Dict.union [(i, d)] (newDescs new) = _
    rw [Dict.union_disjoint _ _ (wf_newDescs new)]
    · rfl
    · intro k hk hk'
      simp only [Dict.keys, List.map_cons, List.map_nil, List.mem_singleton] at hk'
      exact hn (hk' ▸ hk)
  · cases h

theorem visitJoinPrivate_ok {h : Hash} {tl tr : Option Trunc} {cols : Option (List String)} {l r o : Out}
    (ho : visitJoinPrivate h tl tr cols l r = .ok o) :
    l.space = r.space ∧ o.space = l.space ∧
    domainAfterJoin .inner l.dom r.dom (joinCols (Dict.keys l.dom) (Dict.keys r.dom) cols) = .ok o.dom ∧
    o.cons = simplify (propagateJoinPrivate (joinCols (Dict.keys l.dom) (Dict.keys r.dom) cols)
      (overlap (Dict.keys l.dom) (Dict.keys r.dom) (joinCols (Dict.keys l.dom) (Dict.keys r.dom) cols))
      l.cons r.cons) ∧ o.metric = l.metric ∧ r.metric = l.metric ∧
    ((∃ i, l.metric = .ids i ∧ i ∈ joinCols (Dict.keys l.dom) (Dict.keys r.dom) cols ∧
        ∀ D, o.run D = innerJoin (Dict.keys l.dom) (Dict.keys r.dom)
          (joinCols (Dict.keys l.dom) (Dict.keys r.dom) cols) (l.run D) (r.run D)) ∨
      ∃ a b, tl = some a ∧ tr = some b ∧ l.metric = .symDiff ∧
        ∀ D, o.run D = innerJoin (Dict.keys l.dom) (Dict.keys r.dom)
          (joinCols (Dict.keys l.dom) (Dict.keys r.dom) cols)
          (truncateBy h (joinCols (Dict.keys l.dom) (Dict.keys r.dom) cols) a (l.run D))
          (truncateBy h (joinCols (Dict.keys l.dom) (Dict.keys r.dom) cols) b (r.run D))) := by
  unfold visitJoinPrivate at ho
  simp only at ho
  split at ho
  · cases ho
  next h1 =>
  split at ho
  · cases ho
  next d hd =>
  have h1' : l.space = r.space := by simpa using h1
  split at ho
  · next i j hi hj =>
    split at ho
    · cases ho
    next hij =>
    split at ho
    · cases ho
    next hin =>
    cases ho
    have : i = j := by simpa using hij
    subst this
    exact ⟨h1', rfl, hd, rfl, hi.symm, hj.trans hi.symm, Or.inl ⟨i, hi, by simpa using hin, fun D => rfl⟩⟩
  · next hi hj =>
    split at ho
    · next a b =>
      cases ho
      exact ⟨h1', rfl, hd, rfl, hi.symm, hj.trans hi.symm, Or.inr ⟨a, b, rfl, rfl, hi, fun D => rfl⟩⟩
    · cases ho
  · cases ho

/-- The kind of public join that is performed. -/
def effHow (m : Metric) (how : How) : How :=
  match m with
  | .ids _ => .inner
  | _ => how

theorem visitJoinPublic_ok {cat : Cat} {pub : PubRef} {cols : Option (List String)} {how : How} {o' o : Out}
    (h : visitJoinPublic cat pub cols how o' = .ok o) :
    ∃ ps pt, resolvePub cat pub = .ok (ps, pt) ∧
      domainAfterJoin (effHow o'.metric how) o'.dom (analyticsToSparkColumns ps)
        (joinCols (Dict.keys o'.dom) (Dict.keys (analyticsToSparkColumns ps)) cols) = .ok o.dom ∧
      o.metric = o'.metric ∧ o.space = o'.space ∧ (∀ c, o'.metric.col = some c →
        c ∉ overlap (Dict.keys o'.dom) (Dict.keys (analyticsToSparkColumns ps))
          (joinCols (Dict.keys o'.dom) (Dict.keys (analyticsToSparkColumns ps)) cols)) ∧
      o.cons = simplify (propagateJoinPublic
        (joinCols (Dict.keys o'.dom) (Dict.keys (analyticsToSparkColumns ps)) cols)
        (overlap (Dict.keys o'.dom) (Dict.keys (analyticsToSparkColumns ps))
          (joinCols (Dict.keys o'.dom) (Dict.keys (analyticsToSparkColumns ps)) cols)) pt o'.cons) ∧
      ∀ D, o.run D = match effHow o'.metric how with
        | .inner => innerJoin (Dict.keys o'.dom) (Dict.keys (analyticsToSparkColumns ps))
            (joinCols (Dict.keys o'.dom) (Dict.keys (analyticsToSparkColumns ps)) cols) (o'.run D) pt
        | .left => leftJoin (Dict.keys o'.dom) (Dict.keys (analyticsToSparkColumns ps))
            (joinCols (Dict.keys o'.dom) (Dict.keys (analyticsToSparkColumns ps)) cols) (o'.run D) pt := by
  unfold visitJoinPublic at h
  split at h
  · cases h
  next ps pt hr =>
  simp only at h
  split at h
  · cases h
  next d hd =>
  split at h
  · cases h
  next hcol =>
  cases h
  refine ⟨ps, pt, hr, hd, rfl, rfl, ?_, rfl, fun D => rfl⟩
  intro c hc
  rw [hc] at hcol
  simpa using hcol

/-! ## Agreement -/

/-- The result of schema inference and the compiled table: the same columns, ID column and ID space; a
grouping column of the schema is the one of the metric. -/
structure Agree (s : Schema) (o : Out) : Prop where
  wfs : s.WF
  wfd : Dict.WF o.dom
  keys : Dict.keys o.dom = Schema.keys s
  ids : ∀ i, o.metric = .ids i ↔ s.idColumn = some i
  space : o.space = s.idSpace
  noSpace : s.idColumn = none → s.idSpace = none
  noBoth : s.idColumn.isSome → s.grouping = none
  grouped : ∀ g, s.grouping = some g → o.metric = .grouped g

theorem Agree.of_keeps {s' s : Schema} {o' o : Out} {g : String × Desc → Desc} (a : Agree s' o')
    (ks : Keeps s' s g) (hw : Dict.WF o.dom) (hk : Dict.keys o.dom = Dict.keys o'.dom)
    (hm : o.metric = o'.metric) (hsp : o.space = o'.space) : Agree s o := by
  refine ⟨ks.wf, hw, ?_, ?_, ?_, ?_, ?_, ?_⟩
  · rw [hk, a.keys, ks.keys]
  · rw [hm, ks.idColumn]; exact a.ids
  · rw [hsp, ks.idSpace]; exact a.space
  · rw [ks.idColumn, ks.idSpace]; exact a.noSpace
  · rw [ks.idColumn, ks.grouping]; exact a.noBoth
  · rw [hm, ks.grouping]; exact a.grouped

theorem metricOf_ids (s : Schema) (i : String) : metricOf s = .ids i ↔ s.idColumn = some i := by
  unfold metricOf
  cases s.idColumn <;> cases s.grouping <;> simp

theorem rename_ids (m : Dict String String) (x : Metric) (i : String) :
    x.rename m = .ids i ↔ ∃ j, x = .ids j ∧ renamed m j = i := by
  cases x <;> simp [Metric.rename]

theorem keys_append_new {s s' new : Schema} {o' : Out} (a : Agree s' o') (w : s.WF) (wn : new.WF)
    (dis : ∀ c ∈ Schema.keys new, c ∉ Schema.keys s')
    (el : s.columnDescs.elements = s'.columnDescs.elements ++ nullable new) :
    Dict.union o'.dom (newDescs new) = o'.dom ++ newDescs new ∧
      Dict.keys (Dict.union o'.dom (newDescs new)) = Schema.keys s := by
  have e : Dict.union o'.dom (newDescs new) = o'.dom ++ newDescs new := by
    rw [Dict.union_disjoint _ _ (wf_newDescs new)]
    intro k hk
    rw [keys_newDescs wn] at hk
    rw [a.keys]
    exact dis k hk
  refine ⟨e, ?_⟩
  rw [e, keys_eq w, el, Dict.keys_append, a.keys, keys_eq a.wfs, keys_newDescs wn, ← keys_nullable]
  simp [Dict.keys]

/-- The schema of an accepted expression and its compiled table have the same columns in the same order, and
the same ID column and ID space. -/
theorem agree {h : Hash} {cat : Cat} (hc : cat.OK) (e : Expr) (he : e.WF) {s : Schema} {o : Out}
    (hs : schemaOf cat e = .ok s) (ho : compile h cat e = .ok o) : Agree s o := by
  induction e generalizing s o with
  | source id =>
    simp only [schemaOf, schSource] at hs
    simp only [compile, visitSource] at ho
    split at hs
    · cases hs
    split at hs
    · next s' cs hg =>
      cases hs
      rw [hg] at ho
      cases ho
      obtain ⟨w, nsp, nb⟩ := hc.priv _ _ _ hg
      refine ⟨w, wf_analytics s, keys_analytics w, metricOf_ids s, rfl, nsp, nb, ?_⟩
      intro g hg
      show metricOf s = _
      unfold metricOf
      cases hi : s.idColumn with
      | none => simp [hg]
      | some i => simp [nb (by simp [hi])] at hg
    · cases hs
  | rename e m ih =>
    obtain ⟨s', hs', hs⟩ := bind_ok hs
    obtain ⟨o', ho', ho⟩ := bind_ok ho
    have a := ih he.1 hs' ho'
    obtain ⟨_, _, _, w, hg, hi, hsp, el⟩ := schRename_ok hs
    obtain ⟨_, _, rfl⟩ := visitRename_ok ho
    refine ⟨w, Dict.wf_ofPairs _, ?_, ?_, ?_, ?_, ?_, ?_⟩
    · rw [keys_eq w, el]
      apply ofPairs_keys_congr
      have := a.keys
      unfold Schema.keys Dict.keys at this
      rw [List.map_map, List.map_map]
      show o'.dom.map (renamed m ∘ Prod.fst) = s'.descs.map (renamed m ∘ Prod.fst)
      rw [← List.map_map, ← List.map_map, this]
    · intro i
      rw [hi, rename_ids, Option.map_eq_some_iff]
      constructor
      · rintro ⟨j, hj, e⟩; exact ⟨j, (a.ids j).1 hj, e⟩
      · rintro ⟨j, hj, e⟩; exact ⟨j, (a.ids j).2 hj, e⟩
    · rw [hsp]; exact a.space
    · rw [hi, hsp, Option.map_eq_none_iff]; exact a.noSpace
    · rw [hi, hg, Option.isSome_map, Option.map_eq_none_iff]; exact a.noBoth
    · intro g hg'
      rw [hg, Option.map_eq_some_iff] at hg'
      obtain ⟨x, hx, rfl⟩ := hg'
      show o'.metric.rename m = _
      rw [a.grouped x hx]; rfl
  | filter e valid cond ih =>
    obtain ⟨s', hs', hs⟩ := bind_ok hs
    obtain ⟨o', ho', ho⟩ := bind_ok ho
    have a := ih he hs' ho'
    unfold schFilter at hs
    split at hs
    · cases hs; cases ho
      exact ⟨a.wfs, a.wfd, a.keys, a.ids, a.space, a.noSpace, a.noBoth, a.grouped⟩
    · cases hs
  | select e cols ih =>
    obtain ⟨s', hs', hs⟩ := bind_ok hs
    obtain ⟨o', ho', ho⟩ := bind_ok ho
    have a := ih he hs' ho'
    obtain ⟨nd, _, _, _, w, g1, g2, g3, _, k⟩ := schSelect_ok hs
    obtain ⟨subd, _, rfl⟩ := visitSelect_ok ho
    refine ⟨w, wf_pick subd nd, (pick_keys subd).trans k.symm, ?_, ?_, ?_, ?_, ?_⟩
    · rw [g2]; exact a.ids
    · rw [g3]; exact a.space
    · rw [g2, g3]; exact a.noSpace
    · rw [g1, g2]; exact a.noBoth
    · rw [g1]; exact a.grouped
  | map e f new augment ih =>
    obtain ⟨s', hs', hs⟩ := bind_ok hs
    obtain ⟨o', ho', ho⟩ := bind_ok ho
    have a := ih he.1 hs' ho'
    obtain ⟨w, hh⟩ := schMap_ok he.2 a.wfs hs
    obtain ⟨hm, rfl⟩ := visitMap_ok ho
    rcases hh with ⟨rfl, dis, g1, g2, g3, el⟩ | ⟨rfl, i1, i2, g1, g2, g3, el⟩
    · refine ⟨w, Dict.wf_union a.wfd _, (keys_append_new a w he.2 dis el).2, ?_, ?_, ?_, ?_, ?_⟩
      · rw [g2]; exact a.ids
      · rw [g3]; exact a.space
      · rw [g2, g3]; exact a.noSpace
      · rw [g1, g2]; exact a.noBoth
      · rw [g1]; exact a.grouped
    · refine ⟨w, wf_newDescs new, ?_, ?_, ?_, ?_, ?_, ?_⟩
      · show Dict.keys (newDescs new) = _
        rw [keys_eq w, el, keys_newDescs he.2, ← keys_nullable]; rfl
      · intro i
        show o'.metric = _ ↔ _
        rw [(hm rfl).1, g2]; simp
      · rw [g3]
        exact a.space.trans (a.noSpace i2)
      · exact fun _ => g3
      · exact fun _ => g1
      · rw [g1]; simp
  | flatMap e f new augment n ih =>
    obtain ⟨s', hs', hs⟩ := bind_ok hs
    obtain ⟨o', ho', ho⟩ := bind_ok ho
    have a := ih he.1 hs' ho'
    obtain ⟨w, hng, hh⟩ := schFlatMap_ok he.2 a.wfs hs
    obtain ⟨g, hd, hsp, _, _, _, hm⟩ := visitFlatMap_ok ho
    rcases hh with ⟨rfl, dis, g1, g2, g3, el⟩ | ⟨rfl, i1, i2, g1, g2, g3, el⟩
    · simp only [if_true] at hd
      refine ⟨w, hd ▸ Dict.wf_union a.wfd _, ?_, ?_, ?_, ?_, ?_, ?_⟩
      · rw [hd]; exact (keys_append_new a w he.2 dis el).2
      · intro i
        rw [g2, ← a.ids]
        rcases hm with ⟨_, hm, _⟩ | ⟨hn, _, _, ⟨_, hm⟩ | ⟨c, _, hs, hm⟩⟩
        · rw [hm]
        · rw [hm]
        · rw [hm, hs]; simp
      · rw [hsp, g3]; exact a.space
      · rw [g2, g3]; exact a.noSpace
      · rw [g1, g2]
        intro hi
        split
        · next hn =>
          rw [(hng hn).2] at hi
          simp at hi
        · exact a.noBoth hi
      · intro x hx
        rw [g1] at hx
        rcases hm with ⟨_, hm, _, hn, _⟩ | ⟨hn, _, _, ⟨hn, hm⟩ | ⟨c, hcg, hs, hm⟩⟩
        · rw [hn] at hx
          rw [hm]; exact a.grouped x hx
        · rw [hn] at hx
          rw [hm]; exact a.grouped x hx
        · rw [hcg] at hx
          simp only [Option.isSome_some, if_true, Option.some.injEq] at hx
          rw [hm, hx]
    · simp only [Bool.false_eq_true, if_false] at hd
      have hni : ∀ i, o.metric ≠ .ids i := by
        intro i
        rcases hm with ⟨_, _, hm, _⟩ | ⟨hn, _, _, ⟨_, hm⟩ | ⟨c, _, hs, hm⟩⟩
        · cases hm
        · rw [hm]; exact hn i
        · rw [hm]; simp
      refine ⟨w, hd ▸ wf_newDescs new, ?_, ?_, ?_, ?_, ?_, ?_⟩
      · rw [hd, keys_eq w, el, keys_newDescs he.2, ← keys_nullable]; rfl
      · intro i
        rw [g2]
        simp [hni i]
      · rw [hsp, g3]
        exact a.space.trans (a.noSpace i2)
      · exact fun _ => g3
      · exact fun _ => g1
      · rw [g1]; simp
  | flatMapByID e f new ih =>
    obtain ⟨s', hs', hs⟩ := bind_ok hs
    obtain ⟨o', ho', ho⟩ := bind_ok ho
    have a := ih he.1 hs' ho'
    obtain ⟨i, d, hi, hg, hn, hd, w, g1, g2, g3, el⟩ := schFlatMapByID_ok he.2 hs
    obtain ⟨i', d', hm, hd', hn', e1, e2, e3, _⟩ := visitFlatMapByID_ok ho
    have : i = i' := by
      have := (a.ids i').1 hm
      rw [hi] at this
      exact Option.some.inj this
    subst this
    refine ⟨w, ?_, ?_, ?_, ?_, ?_, ?_, ?_⟩
    · rw [e1, Dict.wf_iff]
      exact List.nodup_cons.2 ⟨hn', wf_newDescs new⟩
    · rw [keys_eq w, el, e1]
      show i :: Dict.keys (newDescs new) = i :: Dict.keys (nullable new)
      rw [keys_newDescs he.2, keys_nullable]
    · intro j
      rw [e2, hm, g2]; simp
    · rw [e3, g3]; exact a.space
    · rw [g2]; simp
    · exact fun _ => g1
    · rw [g1]; simp
  | joinPrivate l r tl tr cols ihl ihr =>
    obtain ⟨sl, hsl, hs⟩ := bind_ok hs
    obtain ⟨sr, hsr, hs⟩ := bind_ok hs
    obtain ⟨ol, hol, ho⟩ := bind_ok ho
    obtain ⟨or, hor, ho⟩ := bind_ok ho
    have al := ihl he.1 hsl hol
    have ar := ihr he.2 hsr hor
    obtain ⟨hid, hspace, _, w, g1, g2, g3, k, _⟩ := schJoinPrivate_ok al.wfs ar.wfs hs
    obtain ⟨_, hsp, hd, _, hm, hmr, hcase⟩ := visitJoinPrivate_ok ho
    obtain ⟨k', w'⟩ := domainAfterJoin_keys hd
    have ng : ∀ g, o.metric ≠ .grouped g := by
      intro g
      rw [hm]
      rcases hcase with ⟨i, hi, _⟩ | ⟨_, _, _, _, hi, _⟩
      · rw [hi]; simp
      · rw [hi]; simp
    have gl : sl.grouping = none := by
      cases hgl : sl.grouping with
      | none => rfl
      | some x => exact absurd (hm.trans (al.grouped x hgl)) (ng x)
    have gr : sr.grouping = none := by
      cases hgl : sr.grouping with
      | none => rfl
      | some x => exact absurd (hm.trans (hmr.symm.trans (ar.grouped x hgl))) (ng x)
    have gs : s.grouping = none := by rw [g1, gl, gr]; rfl
    refine ⟨w, w', ?_, ?_, ?_, ?_, ?_, ?_⟩
    · rw [k', k, al.keys, ar.keys]
    · rw [hm, g2]; exact al.ids
    · rw [hsp, g3]; exact al.space
    · rw [g2, g3]; exact al.noSpace
    · exact fun _ => gs
    · rw [gs]; simp
  | joinPublic e pub cols how ih =>
    obtain ⟨s', hs', hs⟩ := bind_ok hs
    obtain ⟨o', ho', ho⟩ := bind_ok ho
    have a := ih he.1 hs' ho'
    obtain ⟨ps, pt, hp, wp, _, w, g1, g2, g3, k, _⟩ := schJoinPublic_ok hc he.2 a.wfs hs
    obtain ⟨ps', pt', hp', hd, hm, hsp, _⟩ := visitJoinPublic_ok ho
    rw [hp] at hp'
    cases hp'
    obtain ⟨k', w'⟩ := domainAfterJoin_keys hd
    refine ⟨w, w', ?_, ?_, ?_, ?_, ?_, ?_⟩
    · rw [k, k', ← a.keys, ← keys_analytics wp]
    · rw [hm, g2]; exact a.ids
    · rw [hsp, g3]; exact a.space
    · rw [g2, g3]; exact a.noSpace
    · rw [g1, g2]; exact a.noBoth
    · rw [hm, g1]; exact a.grouped
  | replaceNull e w ih =>
    obtain ⟨s', hs', hs⟩ := bind_ok hs
    obtain ⟨o', ho', ho⟩ := bind_ok ho
    have a := ih he.1 hs' ho'
    obtain ⟨ks, _⟩ := schReplaceNull_ok a.wfs hs
    obtain ⟨rw, _, _, rfl⟩ := visitReplaceNull_ok ho
    exact a.of_keeps ks (wf_update (wf_update a.wfd)) (by rw [keys_update, keys_update]) rfl rfl
  | replaceInf e w ih =>
    obtain ⟨s', hs', hs⟩ := bind_ok hs
    obtain ⟨o', ho', ho⟩ := bind_ok ho
    have a := ih he.1 hs' ho'
    obtain ⟨ks, _⟩ := schReplaceInf_ok a.wfs hs
    obtain ⟨_, rfl⟩ := visitReplaceInf_ok ho
    exact a.of_keeps ks (wf_update a.wfd) (by rw [keys_update]) rfl rfl
  | dropNull e cols ih =>
    obtain ⟨s', hs', hs⟩ := bind_ok hs
    obtain ⟨o', ho', ho⟩ := bind_ok ho
    have a := ih he hs' ho'
    obtain ⟨ks, _⟩ := schDropNull_ok a.wfs hs
    obtain ⟨_, _, rfl⟩ := visitDropNull_ok ho
    exact a.of_keeps ks (wf_update (wf_update a.wfd)) (by rw [keys_update, keys_update]) rfl rfl
  | dropInf e cols ih =>
    obtain ⟨s', hs', hs⟩ := bind_ok hs
    obtain ⟨o', ho', ho⟩ := bind_ok ho
    have a := ih he hs' ho'
    obtain ⟨ks, _⟩ := schDropInf_ok a.wfs hs
    obtain ⟨_, rfl⟩ := visitDropInf_ok ho
    exact a.of_keeps ks (wf_update a.wfd) (by rw [keys_update]) rfl rfl
  | enforce e c ih =>
    obtain ⟨s', hs', hs⟩ := bind_ok hs
    obtain ⟨o', ho', ho⟩ := bind_ok ho
    have a := ih he hs' ho'
    obtain ⟨rfl, _⟩ := schEnforce_ok hs
    obtain ⟨i, _, _, rfl⟩ := visitEnforce_ok ho
    exact ⟨a.wfs, a.wfd, a.keys, a.ids, a.space, a.noSpace, a.noBoth, a.grouped⟩

end Verif.Expr
