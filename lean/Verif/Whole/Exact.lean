import Verif.Whole.Reports
import Verif.Query.PropsResult
import Mathlib.Algebra.BigOperators.Group.Multiset.Basic
import Mathlib.Data.Multiset.AddSub
import Mathlib.Data.Set.Card

/-!
# C61: answers without noise

With an infinite budget core adds no noise. What a session then returns is what the query asks for, computed by hand from
the rows that its transformations describe.
-/

namespace Verif.Whole

open Verif Verif.Schema Verif.Constraint Verif.Expr Verif.Query Verif.Stability
open Verif.Budget (XNum PB Rounding)
open Verif.Meaning (Means NoLeftIDs Faithful)
open scoped NNReal

/-! ## Core without noise -/

/-- A number of Python or Spark. -/
def ratOf : Value → ℚ
  | .int z => z
  | .dec (.fin q) => q
  | _ => 0

def clampTo (low high q : ℚ) : ℚ := max low (min high q)

/-- What core computes from the values of a group: `bounded` and `quantile` from values within the bounds. Quantiles and
bounds are left open, variances and standard deviations too, as is the average of an empty group. -/
structure Stats where
  bounded : Stat → ℚ → ℚ → Multiset ℚ → Value
  quantile : ℚ → ℚ → ℚ → Multiset ℚ → Value
  bounds : Multiset ℚ → Value × Value
  sum : ∀ low high s, ratOf (bounded .sum low high s) = s.sum
  average : ∀ low high s, s ≠ 0 → ratOf (bounded .average low high s) = s.sum / Multiset.card s

/-- The row core computes from the rows of a group, before any noise. -/
noncomputable def coreRow (x : Stats) : Task → Table → Row
  | .count out, t => [(out, .int t.length)]
  | .countDistinct out, t => [(out, .int (Set.ncard ((fun (r : Row) c => Row.get r c) '' {r | r ∈ t})))]
  | .bounded st c low high out, t =>
    [(out, x.bounded st (ratOf low) (ratOf high)
      (t.map (fun r => clampTo (ratOf low) (ratOf high) (ratOf (cell r c))) : Multiset ℚ))]
  | .quantile c q low high out, t =>
    [(out, x.quantile q (ratOf low) (ratOf high)
      (t.map (fun r => clampTo (ratOf low) (ratOf high) (ratOf (cell r c))) : Multiset ℚ))]
  | .bounds c l u, t =>
    [(l, (x.bounds (t.map (fun r => ratOf (cell r c)) : Multiset ℚ)).1),
      (u, (x.bounds (t.map (fun r => ratOf (cell r c)) : Multiset ℚ)).2)]
  | .groups, _ => []

/-- A budget for which no noise is added. -/
def Unlimited : PB → Prop
  | .pure ε => ε = ⊤
  | .approx ε _ => ε = ⊤
  | .zcdp ρ => ρ = ⊤

/-- Assumed of core: with an infinite budget aggregations are exact, and partition selection with `delta = 1` returns all
keys. -/
structure NoNoise (core : Core) : Prop where
  set : ∀ c k, Unlimited c.aggBudget → c.keys = .set k → ∃ x : Stats, ∀ t,
    core.noise c t = PMF.pure (groupedAnswer (Dict.keys k.schema) k.rows (coreRow x c.task) t)
  auto : ∀ c cs, Unlimited c.aggBudget → c.keyBudget = .approx ⊤ (1 : ℚ) → c.keys = .cols cs → c.task ≠ .groups →
    ∃ x : Stats, ∀ t, ∃ keys : List Row, keys.Nodup ∧ (∀ k, k ∈ keys ↔ ∃ r ∈ t, k = cs.map (fun c => (c, cell r c))) ∧
      core.noise c t = PMF.pure (groupedAnswer cs keys (coreRow x c.task) t)

/-! ## Specification -/

/-- The number that a value counts as when a column is aggregated within bounds: nulls and NaNs do not count, numbers out
of bounds count as the bound. -/
def countsAs (low high : ℚ) : Value → Option ℚ
  | .int z => some (max low (min high z))
  | .dec (.fin q) => some (max low (min high q))
  | .dec .pinf => some high
  | .dec .ninf => some low
  | _ => none

/-- The finite numbers of a column. -/
def finite : Value → Option ℚ
  | .int z => some z
  | .dec (.fin q) => some q
  | _ => none

/-- The aggregate of the rows of a group. `cols` are the columns of the table. -/
def aggregate (x : Stats) (a : Agg) (cols : List String) (g : Table) : Row :=
  match a.kind with
  | .count _ => [(a.out, .int g.length)]
  | .countDistinct cs _ =>
    [(a.out, .int ((g.map (fun r => (if cs = [] then cols else cs).map (cell r))).dedup.length))]
  | .bounded st c low high _ => [(a.out, x.bounded st (ratOf low) (ratOf high)
      (g.filterMap (fun r => countsAs (ratOf low) (ratOf high) (cell r c)) : Multiset ℚ))]
  | .quantile c q low high => [(a.out, x.quantile q (ratOf low) (ratOf high)
      (g.filterMap (fun r => countsAs (ratOf low) (ratOf high) (cell r c)) : Multiset ℚ))]
  | .bounds c l u =>
    [(l, (x.bounds (g.filterMap (fun r => finite (cell r c)) : Multiset ℚ)).1),
      (u, (x.bounds (g.filterMap (fun r => finite (cell r c)) : Multiset ℚ)).2)]

/-- Whether a row counts for the aggregation. -/
def Counts (a : Agg) (r : Row) : Prop :=
  match a.kind with
  | .bounded _ c _ _ _ => (countsAs 0 0 (cell r c)).isSome
  | .quantile c _ _ _ => (countsAs 0 0 (cell r c)).isSome
  | .bounds c _ _ => (finite (cell r c)).isSome
  | _ => True

/-- The bounds of an aggregation are in order, as its constructor requires. -/
def BoundsOK (k : Kind) : Prop := ∀ b, k.clamp = some b → ratOf b.1 ≤ ratOf b.2

/-- `suppress`: rows with a value below the threshold are left out. -/
def shown : Query → Table → Table
  | .suppress _ col t, rows => rows.filter (fun r => atLeast t (Row.get r col))
  | _, rows => rows

/-! ## Lemmas -/

theorem group_perm {cols : List String} {k : Row} {t t' : Table} (h : t.Perm t') :
    (Query.group cols k t).Perm (Query.group cols k t') := h.filter _

theorem coreRow_perm {x : Stats} {task : Task} {t t' : Table} (h : t.Perm t') : coreRow x task t = coreRow x task t' := by
  have e : ∀ f : Row → ℚ, (t.map f : Multiset ℚ) = (t'.map f : Multiset ℚ) := fun f => Multiset.coe_eq_coe.2 (h.map f)
  cases task with
  | count out => simp only [coreRow, h.length_eq]
  | countDistinct out =>
    have : {r | r ∈ t} = {r | r ∈ t'} := by ext r; exact h.mem_iff
    simp only [coreRow, this]
  | quantile c q low high out => simp only [coreRow, e]
  | bounded st c low high out => simp only [coreRow, e]
  | bounds c l u => simp only [coreRow, e]
  | groups => rfl

theorem ncard_map {α β : Type} [DecidableEq β] (f : α → β) (l : List α) :
    Set.ncard (f '' {a | a ∈ l}) = (l.map f).dedup.length := by
  have : f '' {a | a ∈ l} = ((l.map f).toFinset : Set β) := by
    ext b
    simp
  rw [this, Set.ncard_coe_finset, List.card_toFinset]

theorem ncard_kernel {α β γ : Type} (f : α → β) (g : α → γ) (s : Set α)
    (h : ∀ a ∈ s, ∀ b ∈ s, f a = f b ↔ g a = g b) : Set.ncard (f '' s) = Set.ncard (g '' s) := by
  classical
  refine Set.ncard_congr (fun b hb => g hb.choose) ?_ ?_ ?_
  · intro b hb
    exact ⟨_, hb.choose_spec.1, rfl⟩
  · intro b b' hb hb' he
    have := (h _ hb.choose_spec.1 _ hb'.choose_spec.1).2 he
    rw [hb.choose_spec.2, hb'.choose_spec.2] at this
    exact this
  · rintro c ⟨a, ha, rfl⟩
    refine ⟨f a, ⟨a, ha, rfl⟩, ?_⟩
    have hb : f a ∈ f '' s := ⟨a, ha, rfl⟩
    exact (h _ hb.choose_spec.1 _ ha).1 hb.choose_spec.2

/-- Rows with the same columns are equal if their cells are. -/
theorem rows_eq {dom : Dict String SparkDesc} {r r' : Row} (h : RowOK dom r) (h' : RowOK dom r') :
    (fun c => Row.get r c) = (fun c => Row.get r' c) ↔ ∀ c ∈ Dict.keys dom, cell r c = cell r' c := by
  constructor
  · intro he c _
    have := congrFun he c
    simp only [cell, this]
  · intro he
    funext c
    by_cases hc : c ∈ Dict.keys dom
    · obtain ⟨d, hd⟩ := Option.isSome_iff_exists.1 (Dict.get_isSome.2 hc)
      have h1 := (h.cell hd).1
      have h2 := (h'.cell hd).1
      show Dict.get r c = Dict.get r' c
      rw [h1, h2, he c hc]
    · have h1 := mt (h.mem_cols c).1 hc
      have h2 := mt (h'.mem_cols c).1 hc
      rw [← Dict.get_isSome, Bool.not_eq_true, Option.isSome_eq_false_iff, Option.isNone_iff_eq_none] at h1 h2
      show Dict.get r c = Dict.get r' c
      rw [h1, h2]

theorem cell_setCell_ne {r : Row} {c x : String} (h : x ≠ c) (v : Value) : cell (setCell r c v) x = cell r x := by
  unfold cell Row.get setCell
  congr 1
  induction r with
  | nil => rfl
  | cons p r ih =>
    obtain ⟨k, w⟩ := p
    rw [List.map_cons, List.lookup_cons, List.lookup_cons]
    by_cases hk : k = c
    · subst hk
      simp only [if_true]
      rw [show (x == k) = false by simpa using h]
      exact ih
    · rw [if_neg hk]
      cases x == k
      · exact ih
      · rfl

theorem cleanRow_cells {b : Option (Value × Value)} {c x : String} {r r' : Row} (hx : x ≠ c) (h : cleanRow b c r = some r') :
    cell r' x = cell r x := by
  unfold cleanRow at h
  split at h
  · cases h
  · cases h
  · obtain ⟨_, _, rfl⟩ := Option.map_eq_some_iff.1 h
    exact cell_setCell_ne hx _
  · obtain ⟨_, _, rfl⟩ := Option.map_eq_some_iff.1 h
    exact cell_setCell_ne hx _
  · cases h; rfl

theorem group_clean {b : Option (Value × Value)} {c : String} {cols : List String} (hc : c ∉ cols) (k : Row) (t : Table) :
    Query.group cols k (t.filterMap (cleanRow b c)) = (Query.group cols k t).filterMap (cleanRow b c) := by
  unfold Query.group
  rw [List.filter_filterMap, List.filterMap_filter]
  congr 1
  funext r
  cases hr : cleanRow b c r with
  | none => simp
  | some r' =>
    have : cols.all (fun x => decide (cell r' x = cell k x)) = cols.all (fun x => decide (cell r x = cell k x)) := by
      rw [Bool.eq_iff_iff, List.all_eq_true, List.all_eq_true]
      refine forall₂_congr fun x hx => ?_
      rw [cleanRow_cells (x := x) (c := c) (fun he => hc (he ▸ hx)) hr]
    simp only [Option.filter_some, this]

theorem values_clamp {low high : Value} (hle : ratOf low ≤ ratOf high) {c : String} {t : Table}
    (hn : ∀ r ∈ t.filterMap (cleanRow (some (low, high)) c), Number (cell r c)) (hc : ∀ r ∈ t, c ∈ Dict.keys r) :
    (t.filterMap (cleanRow (some (low, high)) c)).map
        (fun r => clampTo (ratOf low) (ratOf high) (ratOf (cell r c))) =
      t.filterMap (fun r => countsAs (ratOf low) (ratOf high) (cell r c)) := by
  rw [List.map_filterMap]
  apply List.filterMap_congr
  intro r hr
  have hn' : ∀ r', cleanRow (some (low, high)) c r = some r' → Number (cell r' c) :=
    fun r' h => hn r' (List.mem_filterMap.2 ⟨r, hr, h⟩)
  have hfl : ∀ v, ratOf (toFloat v) = ratOf v := by
    intro v
    cases v <;> rfl
  have h1 : clampTo (ratOf low) (ratOf high) (ratOf low) = ratOf low := by
    unfold clampTo; rw [min_eq_right hle, max_self]
  have h2 : clampTo (ratOf low) (ratOf high) (ratOf high) = ratOf high := by
    unfold clampTo; rw [min_self, max_eq_right hle]
  unfold cleanRow at hn' ⊢
  cases hv : cell r c with
  | null => rfl
  | dec f =>
    cases f with
    | nan => rfl
    | fin q =>
      simp only [hv]
      simp only [countsAs, Option.map_some, hv, ratOf, clampTo]
    | pinf =>
      simp only [Option.map_some, countsAs]
      rw [cell_setCell (hc r hr), hfl, h2]
    | ninf =>
      simp only [Option.map_some, countsAs]
      rw [cell_setCell (hc r hr), hfl, h1]
  | int z => simp only [countsAs, Option.map_some, hv, ratOf, clampTo]
  | str s => 
    rw [hv] at hn'
    have := hn' r rfl
    rw [hv] at this
    cases this
  | date d => 
    rw [hv] at hn'
    have := hn' r rfl
    rw [hv] at this
    cases this
  | ts d => 
    rw [hv] at hn'
    have := hn' r rfl
    rw [hv] at this
    cases this

theorem values_finite {c : String} {t : Table} (hn : ∀ r ∈ t.filterMap (cleanRow none c), Number (cell r c)) :
    (t.filterMap (cleanRow none c)).map (fun r => ratOf (cell r c)) = t.filterMap (fun r => finite (cell r c)) := by
  rw [List.map_filterMap]
  apply List.filterMap_congr
  intro r hr
  have hn' : ∀ r', cleanRow none c r = some r' → Number (cell r' c) :=
    fun r' h => hn r' (List.mem_filterMap.2 ⟨r, hr, h⟩)
  unfold cleanRow at hn' ⊢
  cases hv : cell r c with
  | null => rfl
  | dec f =>
    cases f with
    | fin q => simp only [finite, Option.map_some, hv, ratOf]
    | _ => rfl
  | int z => simp only [finite, Option.map_some, hv, ratOf]
  | str s =>
    rw [hv] at hn'
    have := hn' r rfl
    rw [hv] at this
    cases this
  | date d =>
    rw [hv] at hn'
    have := hn' r rfl
    rw [hv] at this
    cases this
  | ts d =>
    rw [hv] at hn'
    have := hn' r rfl
    rw [hv] at this
    cases this

/-! ## What core is asked for -/

/-- The schema of the child, and that the aggregated column is not a group-by column. -/
theorem agg_schema {cat : Cat} {a : Agg} {s' : Schema} (h : a.schema cat = .ok s') :
    ∃ s, schemaOf cat a.child = .ok s ∧ (∀ c ∈ a.keys.columns, c ∈ Schema.keys s) ∧
      ∀ c, a.kind.measure = some c → c ∉ a.keys.columns ∧ c ∈ Schema.keys s := by
  unfold Agg.schema at h
  split at h
  · cases h
  next s hs =>
  split at h
  · cases h
  next hv =>
  refine ⟨s, hs, checkKeys_mem (validateGroupby_keys hv), fun c hc => ?_⟩
  unfold validateGroupby at hv
  rw [hc] at hv
  split at hv
  · cases hv
  split at hv
  · cases hv
  dsimp only at hv
  split at hv
  · cases hv
  next hn =>
  refine ⟨hn, ?_⟩
  unfold checkMeasure at hv
  split at hv
  · cases hv
  next d hd => 
  have := Dict.get_isSome.1 (by rw [hd]; rfl : (Dict.get s.descs c).isSome)
  exact this

theorem get_proj (cs : List String) (r : Row) (c : String) :
    Row.get (cs.map (fun x => (x, cell r x))) c = if c ∈ cs then some (cell r c) else none := by
  unfold Row.get
  induction cs with
  | nil => rfl
  | cons x cs ih =>
    rw [List.map_cons, List.lookup_cons]
    by_cases hx : c = x
    · subst hx; simp
    · rw [show (c == x) = false by simpa using hx]
      simp only [ih, List.mem_cons, hx, false_or]

theorem cell_proj {cs : List String} {c : String} (hc : c ∈ cs) (r : Row) : cell (cs.map (fun x => (x, cell r x))) c = cell r c := by
  rw [cell, get_proj, if_pos hc]
  rfl

theorem mem_group {cols : List String} {k r : Row} {t : Table} :
    r ∈ Query.group cols k t ↔ r ∈ t ∧ ∀ c ∈ cols, cell r c = cell k c := by
  unfold Query.group
  rw [List.mem_filter, List.all_eq_true]
  simp only [decide_eq_true_eq]

theorem distinct_proj {cs toCount cols : List String} (h : ∀ x, x ∈ cs ↔ x ∈ toCount ∨ x ∈ cols) (t : Table) (k : Row) :
    Set.ncard ((fun (r : Row) c => Row.get r c) '' {r | r ∈ Query.group cols k (t.map (fun r => cs.map (fun x => (x, cell r x))))})
      = ((Query.group cols k t).map (fun r => toCount.map (cell r))).dedup.length := by
  have e : {r | r ∈ Query.group cols k (t.map (fun r => cs.map (fun x => (x, cell r x))))} =
      (fun r : Row => cs.map (fun x => (x, cell r x))) '' {r | r ∈ Query.group cols k t} := by
    ext r'
    simp only [Set.mem_setOf_eq, mem_group, List.mem_map, Set.mem_image]
    constructor
    · rintro ⟨⟨r, hr, rfl⟩, hk⟩
      exact ⟨r, ⟨hr, fun c hc => by rw [← hk c hc, cell_proj ((h c).2 (.inr hc))]⟩, rfl⟩
    · rintro ⟨r, ⟨hr, hk⟩, rfl⟩
      exact ⟨⟨r, hr, rfl⟩, fun c hc => by rw [cell_proj ((h c).2 (.inr hc)), hk c hc]⟩
  rw [e, ← Set.image_comp, ← ncard_map]
  apply ncard_kernel
  intro r hr r' hr'
  rw [Set.mem_setOf_eq, mem_group] at hr hr'
  simp only [Function.comp]
  constructor
  · intro he
    apply List.map_congr_left
    intro c hc
    have := congrFun he c
    simp only [get_proj, if_pos ((h c).2 (.inl hc)), Option.some.injEq] at this
    exact this
  · intro he
    funext c
    rw [get_proj, get_proj]
    split
    · next hc =>
      rcases (h c).1 hc with hc | hc
      · rw [List.map_inj_left.1 he c hc]
      · rw [hr.2 c hc, hr'.2 c hc]
    · rfl

theorem distinct_rows {dom : Dict String SparkDesc} {cols : List String} {t : Table} (ht : ∀ r ∈ t, RowOK dom r) (k : Row) :
    Set.ncard ((fun (r : Row) c => Row.get r c) '' {r | r ∈ Query.group cols k t})
      = ((Query.group cols k t).map (fun r => (Dict.keys dom).map (cell r))).dedup.length := by
  rw [← ncard_map]
  apply ncard_kernel
  intro r hr r' hr'
  rw [Set.mem_setOf_eq, mem_group] at hr hr'
  rw [rows_eq (ht r hr.1) (ht r' hr'.1), List.map_inj_left]

theorem compileM_plan {ctx : Ctx} {tables : List (String × Tab)} {pub : List (String × PubFrame)} {q : Query}
    {ok : Admissible (child q)} {b : PB} {m : Meas} (h : compileM ctx tables pub (.query q ok) b = .ok m) :
    ∃ cat p, catalog tables pub = .ok cat ∧ compileQuery ⟨ctx.h, ctx.order, ctx.m, cat⟩ b q = .ok p ∧
      m.call.keyBudget = p.keyBudget ∧ m.call.aggBudget = p.aggBudget ∧ m.call.keys = p.keys ∧ m.call.task = p.task ∧
      (∀ D, m.run D = p.prep (resolve tables D)) ∧ m.post = p.post := by
  dsimp only [compileM] at h
  split at h
  · cases h
  split at h
  · cases h
  next cat hc =>
  split at h
  · cases h
  next p hp =>
  split at h
  · cases h
  split at h
  · cases h
  cases h
  exact ⟨cat, p, hc, hp, rfl, rfl, rfl, rfl, fun _ => rfl, rfl⟩

theorem group_one {g : String} {k : Row} {t : Table} (hg : ∀ r ∈ t, Row.get r g = some (cell r g)) :
    Query.group [g] k t = t.whereEq g (some (cell k g)) := by
  unfold Query.group Table.whereEq
  apply List.filter_congr
  intro r hr
  simp [hg r hr]

theorem group_nil (k : Row) (t : Table) : Query.group [] k t = t := by
  unfold Query.group
  simp

/-- The answer of `count_distinct` by a count of IDs. -/
theorem shortcut_exact {h : Hash} {i : String} {toCount cols : List String} {cs : List Constraint} {c : Constraint}
    (hc : countDistinctShortcut i toCount cols cs = some c) {t : Table}
    (hi : ∀ r ∈ t, Row.get r i = some (cell r i)) (hg : ∀ g ∈ cols, ∀ r ∈ t, Row.get r g = some (cell r g)) (k : Row) :
    (Query.group cols k (enforce h i c t)).length = ((Query.group cols k t).map (fun r => toCount.map (cell r))).dedup.length ∧
      ((∃ r ∈ enforce h i c t, k = cols.map (fun c => (c, cell r c))) ↔ ∃ r ∈ t, k = cols.map (fun c => (c, cell r c))) := by
  have hmem : i ∈ toCount := by
    unfold countDistinctShortcut at hc
    split at hc
    · cases hc
    · next hn => push Not at hn; exact hn.1
  obtain ⟨hall, hh⟩ := C49_shortcut h i toCount cols cs c hc t
  have hsub := (C15_enforce h i c t).2.1
  have hid : ∀ l : Table, (∀ r ∈ l, r ∈ t) →
      (l.map (fun r => Row.get r i)).dedup.length = (l.map (fun r => toCount.map (cell r))).dedup.length := by
    intro l hl
    rw [← ncard_map, ← ncard_map]
    apply ncard_kernel
    intro r hr r' hr'
    rw [hi r (hl r hr), hi r' (hl r' hr'), List.map_inj_left, Option.some.injEq]
    exact ⟨fun he x hx => by rw [hall x hx]; exact he, fun he => he i hmem⟩
  rcases hh with ⟨rfl, h1, _⟩ | ⟨g, rfl, h1, _⟩
  · refine ⟨?_, ?_⟩
    · rw [group_nil, group_nil, h1]
      exact hid t (fun _ h => h)
    · simp only [List.map_nil, exists_and_right]
      refine and_congr_left fun _ => ?_
      have : 0 < (enforce h i c t).length ↔ 0 < t.length := by
        rw [h1]
        constructor
        · intro hp
          by_contra hz
          have : t = [] := List.length_eq_zero_iff.1 (by omega)
          subst this
          simp at hp
        · intro hp
          obtain ⟨r, hr⟩ := List.exists_mem_of_length_pos hp
          exact List.length_pos_of_mem (List.mem_dedup.2 (List.mem_map.2 ⟨r, hr, rfl⟩))
      rwa [List.length_pos_iff_exists_mem, List.length_pos_iff_exists_mem] at this
  · have hg' := hg g List.mem_cons_self
    have he : ∀ r ∈ enforce h i c t, Row.get r g = some (cell r g) := fun r hr => hg' r (hsub.subset hr)
    refine ⟨?_, ?_⟩
    · rw [group_one he, group_one hg', h1]
      exact hid _ (fun r hr => (List.mem_filter.1 hr).1)
    · constructor
      · rintro ⟨r, hr, hk⟩
        exact ⟨r, hsub.subset hr, hk⟩
      · rintro ⟨r, hr, hk⟩
        have hpos : 0 < ((enforce h i c t).whereEq g (Row.get r g)).length := by
          rw [h1]
          refine List.length_pos_of_mem (a := Row.get r i) (List.mem_dedup.2 (List.mem_map.2 ⟨r, ?_, rfl⟩))
          exact List.mem_filter.2 ⟨hr, by simp⟩
        obtain ⟨r', hr'⟩ := List.exists_mem_of_length_pos hpos
        obtain ⟨h2, h3⟩ := List.mem_filter.1 hr'
        rw [decide_eq_true_eq] at h3
        have : cell r' g = cell r g := by simp only [cell, h3]
        exact ⟨r', h2, by rw [hk]; simp only [List.map_cons, List.map_nil, this]⟩

theorem exists_congr_perm {t t' : Table} (h : t.Perm t') (P : Row → Prop) : (∃ r ∈ t, P r) ↔ ∃ r ∈ t', P r :=
  exists_congr fun _ => and_congr_left fun _ => h.mem_iff

/-- The keys of the rows that are left when special values are treated. -/
theorem clean_keys {b : Option (Value × Value)} {c : String} {cols : List String} (hc : c ∉ cols) (t : Table) (k : Row) :
    (∃ r ∈ t.filterMap (cleanRow b c), k = cols.map (fun x => (x, cell r x))) ↔
      ∃ r ∈ t, (cleanRow b c r).isSome ∧ k = cols.map (fun x => (x, cell r x)) := by
  have e : ∀ {r r' : Row}, cleanRow b c r = some r' →
      cols.map (fun x => (x, cell r' x)) = cols.map (fun x => (x, cell r x)) := by
    intro r r' h
    apply List.map_congr_left
    intro x hx
    rw [cleanRow_cells (x := x) (c := c) (fun he => hc (he ▸ hx)) h]
  constructor
  · rintro ⟨r', hr', rfl⟩
    obtain ⟨r, hr, h⟩ := List.mem_filterMap.1 hr'
    exact ⟨r, hr, by rw [h]; rfl, e h⟩
  · rintro ⟨r, hr, hs, rfl⟩
    obtain ⟨r', h⟩ := Option.isSome_iff_exists.1 hs
    exact ⟨r', List.mem_filterMap.2 ⟨r, hr, h⟩, (e h).symm⟩

theorem Number_row {b : Option (Value × Value)} {c : String} {r : Row}
    (hn : ∀ r', cleanRow b c r = some r' → Number (cell r' c)) :
    cell r c = .null ∨ (∃ f, cell r c = .dec f) ∨ ∃ z, cell r c = .int z := by
  unfold cleanRow at hn
  cases hv : cell r c with
  | null => exact .inl rfl
  | dec f => exact .inr (.inl ⟨f, rfl⟩)
  | int z => exact .inr (.inr ⟨z, rfl⟩)
  | str s => rw [hv] at hn; have := hn r rfl; rw [hv] at this; cases this
  | date s => rw [hv] at hn; have := hn r rfl; rw [hv] at this; cases this
  | ts s => rw [hv] at hn; have := hn r rfl; rw [hv] at this; cases this

/-- What core is asked for is what the query says. -/
theorem exactly {ctx : Ctx} {tables : List (String × Tab)} {pub : List (String × PubFrame)} {R : Root} {q : Query}
    {ok : Admissible (child q)} {a : Agg} (hq : q.agg? = some a) {b : PB} {m : Meas}
    (h : compileM ctx tables pub (.query q ok) b = .ok m) (ht : ∀ p ∈ tables, TabOK ctx.m p.2 R) {D : Data}
    (hD : Conf R D) (hb : BoundsOK a.kind) :
    ∃ cat s T, catalog tables pub = .ok cat ∧ schemaOf cat a.child = .ok s ∧
      Faithful cat (resolve tables D) a.child T ∧
      ((∀ p ∈ tables, Known p.2 D) → a.child.ConsSafe ctx.h cat →
        (∀ x key, coreRow x m.call.task (Query.group a.keys.columns key (m.run D)) =
          aggregate x a (Schema.keys s) (Query.group a.keys.columns key T)) ∧
        ∀ key, (∃ r ∈ m.run D, key = a.keys.columns.map (fun c => (c, cell r c))) ↔
          ∃ r ∈ T, Counts a r ∧ key = a.keys.columns.map (fun c => (c, cell r c))) := by
  have hch : child q = a.child := by cases q <;> cases hq <;> rfl
  obtain ⟨wf, fns, ren, _, _⟩ := hch ▸ ok
  obtain ⟨cat, p, hc, hp, _, _, _, hmt, hmr, _⟩ := compileM_plan h
  obtain ⟨a₁, a₂, p₁, ⟨s', hsch⟩, hrw, hfin, hcomp, hpp⟩ := compileQuery_ok hq hp
  have cf := cat_facts hc ht
  have hdata := cf.data D hD
  have hsch' : a.schema cat = .ok s' := by
    cases q with
    | agg a' => cases hq; exact hsch
    | groups _ _ => cases hq
    | suppress a' _ _ => cases hq; exact hsch
  obtain ⟨s, hs, hkc, hmc⟩ := agg_schema hsch'
  have e1 : p.task = p₁.task ∧ p.prep = p₁.prep := by
    rcases hpp with ⟨_, rfl⟩ | ⟨_, _, _, _, _, rfl⟩ <;> exact ⟨rfl, rfl⟩
  cases hkind : a.kind with
  | countDistinct toCount mech =>
    obtain ⟨a₀, c₀, h1, _, rfl, hkeys, hkind', hout⟩ := rewriteAgg_ok hrw
    have ha0 : a₀ = a := by
      rcases specialValues_child h1 with ⟨_, rfl⟩ | ⟨_, _, _, hn, _⟩
      · rfl
      · rw [hkind] at hn; cases hn
    subst ha0
    have key : ∀ o, compile ctx.h cat a₀.child = .ok o → (∀ r ∈ o.run (resolve tables D), RowOK o.dom r) ∧
        Dict.keys o.dom = Schema.keys s := fun o ho =>
      ⟨rows_conform cf.ok hdata _ wf fns ren hs ho, (agree cf.ok _ wf hs ho).keys⟩
    have gets : ∀ o, compile ctx.h cat a₀.child = .ok o → ∀ c ∈ Schema.keys s, ∀ r ∈ o.run (resolve tables D),
        Row.get r c = some (cell r c) := by
      intro o ho c hcs r hr
      obtain ⟨k1, k2⟩ := key o ho
      rw [← k2] at hcs
      obtain ⟨d, hd⟩ := Option.isSome_iff_exists.1 (Dict.get_isSome.2 hcs)
      exact ((k1 r hr).cell hd).1
    cases hfin with
    | same =>
      obtain ⟨o, col, tr, f, hv, htr, _, hf⟩ := hcomp.prep
      obtain ⟨s2, hbd⟩ := visitChild_build hv
      replace hbd : build ctx.h cat a₀.child = .ok (s2, o) := hbd
      obtain ⟨_, ho, _⟩ := build_ok hbd
      obtain ⟨k1, k2⟩ := key o ho
      refine ⟨cat, s, o.run (resolve tables D), hc, hs, ?_, fun hkn hsafe => ?_⟩
      · exact Meaning.faithful_of_build cf.ok hdata _ wf fns ren hbd
      have hperm : (f (resolve tables D)).Perm (o.run (resolve tables D)) := by
        refine (truncate_known htr _).2 fun i hi c hcs => ?_
        exact (cons_hold cf.ok cf.ids hdata (known_cat cf hkn) _ wf fns ren hsafe hs ho hi c hcs).1
      have htask : m.call.task = .countDistinct a₀.out := by
        rw [hmt, e1.1, hcomp.task]
        dsimp only
        rw [hkind]
      have hcnt : ∀ r, Counts a₀ r := fun r => by unfold Counts; rw [hkind]; trivial
      rcases hf with ⟨hf, hem⟩ | ⟨tc, mech', cols, hk2, hne, hall, hcols, hf⟩
      · have hempty : toCount = [] := hem _ _ hkind
        have hrun : m.run D = f (resolve tables D) := by rw [hmr, e1.2, hf]
        refine ⟨fun x key => ?_, fun key => ?_⟩
        · rw [htask, hrun, coreRow_perm (group_perm hperm)]
          simp only [coreRow, aggregate, hkind, hempty, if_true]
          rw [distinct_rows k1, k2]
        · rw [hrun, exists_congr_perm hperm]
          simp only [hcnt, true_and]
      · have hk3 : toCount = tc := by
          have : a₀.kind = .countDistinct tc mech' := hk2
          rw [hkind] at this
          cases this
          rfl
        subst hk3
        have hrun : m.run D = (f (resolve tables D)).map (fun r => cols.map (fun x => (x, cell r x))) := by
          rw [hmr, e1.2, hf]
        have hcs : ∀ x, x ∈ cols ↔ x ∈ toCount ∨ x ∈ a₀.keys.columns := by
          intro x
          rw [hcols, List.mem_filter, decide_eq_true_eq, ← List.mem_append]
          exact ⟨fun hx => hx.2, fun hx => ⟨hall x hx, hx⟩⟩
        refine ⟨fun x key => ?_, fun key => ?_⟩
        · rw [htask, hrun, coreRow_perm (group_perm (hperm.map _))]
          simp only [coreRow, aggregate, hkind, hne, if_false]
          rw [distinct_proj hcs]
        · rw [hrun]
          simp only [hcnt, true_and]
          rw [exists_congr_perm (hperm.map _)]
          constructor
          · rintro ⟨r', hr', rfl⟩
            obtain ⟨r, hr, rfl⟩ := List.mem_map.1 hr'
            refine ⟨r, hr, List.map_congr_left fun x hx => ?_⟩
            rw [cell_proj ((hcs x).2 (.inr hx))]
          · rintro ⟨r, hr, rfl⟩
            refine ⟨_, List.mem_map.2 ⟨r, hr, rfl⟩, List.map_congr_left fun x hx => ?_⟩
            rw [cell_proj ((hcs x).2 (.inr hx))]
    | shortcut hk2 ho2 hs2 hi2 hc2 =>
      rename_i tc mech' o0 s2 i k
      obtain ⟨o, col, tr, f, hv, htr, _, hf⟩ := hcomp.prep
      obtain ⟨s3, hbd⟩ := visitChild_build hv
      replace hbd : build ctx.h cat (a₀.child.enforce k) = .ok (s3, o) := hbd
      obtain ⟨hs3, ho3, _⟩ := build_ok hbd
      obtain ⟨s4, hbd0⟩ := visitChild_build ho2
      replace hbd0 : build ctx.h cat a₀.child = .ok (s4, o0) := hbd0
      obtain ⟨_, ho0, _⟩ := build_ok hbd0
      replace hs2 : schemaOf cat a₀.child = .ok s2 := hs2
      rw [hs] at hs2
      cases hs2
      have hk3 : toCount = tc := by
        have : a₀.kind = .countDistinct tc mech' := hk2
        rw [hkind] at this
        cases this
        rfl
      subst hk3
      obtain ⟨o0', ho0', hvis⟩ := bind_ok ho3
      rw [ho0] at ho0'
      cases ho0'
      obtain ⟨i', hi', _, hoe⟩ := visitEnforce_ok hvis
      have ag := agree cf.ok _ wf hs ho0
      have : i = i' := by
        have := (ag.ids i').1 hi'
        rw [hi2] at this
        exact Option.some.inj this
      subst this
      have hf' : p₁.prep = f := by
        rcases hf with ⟨hf, _⟩ | ⟨_, _, _, hx, _⟩
        · exact hf
        · cases hx
      have htask : m.call.task = .count a₀.out := by
        rw [hmt, e1.1, hcomp.task]
      have hrunE : o.run (resolve tables D) = enforce ctx.h i k (o0.run (resolve tables D)) := by rw [hoe]
      have hcnt : ∀ r, Counts a₀ r := fun r => by unfold Counts; rw [hkind]; trivial
      have hidk : i ∈ Schema.keys s := by
        have w := ag.wfs
        have := w.idColumn i hi2
        rw [Schema.keys, Schema.descs_eq w]
        exact this
      refine ⟨cat, s, o0.run (resolve tables D), hc, hs, ?_, fun hkn hsafe => ?_⟩
      · exact Meaning.faithful_of_build cf.ok hdata _ wf fns ren hbd0
      have hperm : (f (resolve tables D)).Perm (enforce ctx.h i k (o0.run (resolve tables D))) := by
        rw [← hrunE]
        refine (truncate_known htr _).2 fun i hi c hcs => ?_
        exact (cons_hold cf.ok cf.ids hdata (known_cat cf hkn) (a₀.child.enforce k) wf fns ren hsafe hs3 ho3 hi c hcs).1
      have hrun : m.run D = f (resolve tables D) := by rw [hmr, e1.2, hf']
      have sx := fun key => shortcut_exact (h := ctx.h) hc2 (t := o0.run (resolve tables D)) (gets o0 ho0 i hidk)
        (fun g hg => gets o0 ho0 g (hkc g hg)) key
      refine ⟨fun x key => ?_, fun key => ?_⟩
      · rw [htask, hrun, coreRow_perm (group_perm hperm)]
        simp only [coreRow, aggregate, hkind]
        have := (sx key).1
        dsimp only at this
        rw [this]
      · rw [hrun, exists_congr_perm hperm]
        simp only [hcnt, true_and]
        exact (sx key).2
  | count mech => 
    have hnd : ∀ cols k, a.kind ≠ .countDistinct cols k := fun _ _ hx => by rw [hkind] at hx; cases hx
    obtain ⟨cat', o, hc', ho, hmeans, _, hperm, _, htask⟩ := query_run hq hnd h ht hD
    rw [hc] at hc'
    cases hc'
    refine ⟨cat, s, o.run (resolve tables D), hc, hs, hmeans, fun hkn hsafe => ?_⟩
    have hperm := hperm hkn hsafe
    rw [hkind] at hperm htask
    simp only [Kind.measure, Option.elim_none, List.filterMap_some] at hperm
    dsimp only at htask
    refine ⟨fun x key => ?_, fun key => ?_⟩
    · rw [htask, coreRow_perm (group_perm hperm)]
      simp only [coreRow, aggregate, hkind]
    · rw [exists_congr_perm hperm]
      simp only [Counts, hkind, true_and]
  | quantile c qq low high =>
    have hnd : ∀ cols k, a.kind ≠ .countDistinct cols k := fun _ _ hx => by rw [hkind] at hx; cases hx
    have hm : a.kind.measure = some c := by rw [hkind]; rfl
    obtain ⟨cat', o, hc', ho, hmeans, _, hperm, _, htask⟩ := query_run hq hnd h ht hD
    rw [hc] at hc'
    cases hc'
    obtain ⟨hck, hcs⟩ := hmc c hm
    obtain ⟨o', o2, d, s2, col, tr, hc0, hpc, hbd, _, htr, main⟩ := prep_run cf.ok hq hm wf fns ren hp
    replace hc0 : compile ctx.h cat a.child = .ok o' := hc0
    rw [ho] at hc0
    cases hc0
    obtain ⟨m1, m2⟩ := main _ hdata
    rw [m1] at m2
    have hkeys := (agree cf.ok _ wf hs ho).keys
    have hrows := rows_conform cf.ok hdata _ wf fns ren hs ho
    have hin : ∀ r ∈ o.run (resolve tables D), c ∈ Dict.keys r := fun r hr =>
      ((hrows r hr).mem_cols c).2 (by rw [hkeys]; exact hcs)
    have hle := hb (low, high) (by rw [hkind]; rfl)
    refine ⟨cat, s, o.run (resolve tables D), hc, hs, hmeans, fun hkn hsafe => ?_⟩
    have hperm := hperm hkn hsafe
    rw [hm] at hperm
    rw [hkind] at hperm htask m2
    simp only [Option.elim_some, Kind.clamp] at hperm m2
    dsimp only at htask
    refine ⟨fun x key => ?_, fun key => ?_⟩
    · rw [htask, coreRow_perm (group_perm hperm), group_clean hck]
      simp only [coreRow, aggregate, hkind]
      rw [values_clamp hle]
      · intro r hr
        rw [← group_clean hck] at hr
        exact m2 r (mem_group.1 hr).1
      · exact fun r hr => hin r (mem_group.1 hr).1
    · rw [exists_congr_perm hperm, clean_keys hck]
      refine exists_congr fun r => and_congr_right fun hr => and_congr_left fun _ => ?_
      have := Number_row (fun r' hr' => m2 r' (List.mem_filterMap.2 ⟨r, hr, hr'⟩))
      simp only [Counts, hkind, cleanRow]
      rcases this with hv | ⟨f, hv⟩ | ⟨z, hv⟩
      · simp [hv, countsAs]
      · cases f <;> simp [hv, countsAs]
      · simp [hv, countsAs]
  | bounded st c low high mech =>
    have hnd : ∀ cols k, a.kind ≠ .countDistinct cols k := fun _ _ hx => by rw [hkind] at hx; cases hx
    have hm : a.kind.measure = some c := by rw [hkind]; rfl
    obtain ⟨cat', o, hc', ho, hmeans, _, hperm, _, htask⟩ := query_run hq hnd h ht hD
    rw [hc] at hc'
    cases hc'
    obtain ⟨hck, hcs⟩ := hmc c hm
    obtain ⟨o', o2, d, s2, col, tr, hc0, hpc, hbd, _, htr, main⟩ := prep_run cf.ok hq hm wf fns ren hp
    replace hc0 : compile ctx.h cat a.child = .ok o' := hc0
    rw [ho] at hc0
    cases hc0
    obtain ⟨m1, m2⟩ := main _ hdata
    rw [m1] at m2
    have hkeys := (agree cf.ok _ wf hs ho).keys
    have hrows := rows_conform cf.ok hdata _ wf fns ren hs ho
    have hin : ∀ r ∈ o.run (resolve tables D), c ∈ Dict.keys r := fun r hr =>
      ((hrows r hr).mem_cols c).2 (by rw [hkeys]; exact hcs)
    have hle := hb (low, high) (by rw [hkind]; rfl)
    refine ⟨cat, s, o.run (resolve tables D), hc, hs, hmeans, fun hkn hsafe => ?_⟩
    have hperm := hperm hkn hsafe
    rw [hm] at hperm
    rw [hkind] at hperm htask m2
    simp only [Option.elim_some, Kind.clamp] at hperm m2
    dsimp only at htask
    refine ⟨fun x key => ?_, fun key => ?_⟩
    · rw [htask, coreRow_perm (group_perm hperm), group_clean hck]
      simp only [coreRow, aggregate, hkind]
      rw [values_clamp hle]
      · intro r hr
        rw [← group_clean hck] at hr
        exact m2 r (mem_group.1 hr).1
      · exact fun r hr => hin r (mem_group.1 hr).1
    · rw [exists_congr_perm hperm, clean_keys hck]
      refine exists_congr fun r => and_congr_right fun hr => and_congr_left fun _ => ?_
      have := Number_row (fun r' hr' => m2 r' (List.mem_filterMap.2 ⟨r, hr, hr'⟩))
      simp only [Counts, hkind, cleanRow]
      rcases this with hv | ⟨f, hv⟩ | ⟨z, hv⟩
      · simp [hv, countsAs]
      · cases f <;> simp [hv, countsAs]
      · simp [hv, countsAs]
  | bounds c l u =>
    have hnd : ∀ cols k, a.kind ≠ .countDistinct cols k := fun _ _ hx => by rw [hkind] at hx; cases hx
    have hm : a.kind.measure = some c := by rw [hkind]; rfl
    obtain ⟨cat', o, hc', ho, hmeans, _, hperm, _, htask⟩ := query_run hq hnd h ht hD
    rw [hc] at hc'
    cases hc'
    obtain ⟨hck, hcs⟩ := hmc c hm
    obtain ⟨o', o2, d, s2, col, tr, hc0, hpc, hbd, _, htr, main⟩ := prep_run cf.ok hq hm wf fns ren hp
    replace hc0 : compile ctx.h cat a.child = .ok o' := hc0
    rw [ho] at hc0
    cases hc0
    obtain ⟨m1, m2⟩ := main _ hdata
    rw [m1] at m2
    refine ⟨cat, s, o.run (resolve tables D), hc, hs, hmeans, fun hkn hsafe => ?_⟩
    have hperm := hperm hkn hsafe
    rw [hm] at hperm
    rw [hkind] at hperm htask m2
    simp only [Option.elim_some, Kind.clamp] at hperm m2
    dsimp only at htask
    refine ⟨fun x key => ?_, fun key => ?_⟩
    · rw [htask, coreRow_perm (group_perm hperm), group_clean hck]
      simp only [coreRow, aggregate, hkind]
      rw [values_finite]
      intro r hr
      rw [← group_clean hck] at hr
      exact m2 r (mem_group.1 hr).1
    · rw [exists_congr_perm hperm, clean_keys hck]
      refine exists_congr fun r => and_congr_right fun hr => and_congr_left fun _ => ?_
      have := Number_row (fun r' hr' => m2 r' (List.mem_filterMap.2 ⟨r, hr, hr'⟩))
      simp only [Counts, hkind, cleanRow]
      rcases this with hv | ⟨f, hv⟩ | ⟨z, hv⟩
      · simp [hv, finite]
      · cases f <;> simp [hv, finite]
      · simp [hv, finite]

theorem compiled_post {env : Env} {b : PB} {q : Query} {p : Plan} {a : Agg} (hq : q.agg? = some a)
    (h : compileQuery env b q = .ok p) : p.post = shown q := by
  obtain ⟨_, _, _, _, _, _, hc, hp⟩ := compileQuery_ok hq h
  rcases hp with ⟨rfl, rfl⟩ | ⟨_, _, _, rfl, _, rfl⟩
  · rw [hc.post]; rfl
  · rfl

theorem task_ne_groups {env : Env} {b : PB} {q : Query} {p : Plan} {a : Agg} (hq : q.agg? = some a)
    (h : compileQuery env b q = .ok p) : p.task ≠ .groups := by
  obtain ⟨_, a₂, _, _, _, _, hc, hp⟩ := compileQuery_ok hq h
  have : ∀ p₁ : Plan, Compiled env b a₂ p₁ → p₁.task ≠ .groups := by
    intro p₁ hc he
    rw [hc.task] at he
    split at he <;> cases he
  rcases hp with ⟨rfl, rfl⟩ | ⟨_, _, _, rfl, _, rfl⟩
  · exact this _ hc
  · exact fun he => this _ hc he

theorem unlimited_set {b x : PB} {k : KeySetV} {mech : Option Mech} {r : PB × PB} (hb : Unlimited b)
    (h1 : adjustForQuery (.set k) mech b = .ok x) (h2 : keyAndQueryBudget (.set k) b x = .ok r) : Unlimited r.2 := by
  cases h2
  cases b with
  | pure ε => cases h1; exact hb
  | zcdp ρ => cases h1; exact hb
  | approx ε δ =>
    dsimp only [adjustForQuery] at h1
    split at h1
    · cases h1
    split at h1
    · next hx => exact absurd hx.1 (by simp [Keys.isAuto])
    · cases h1; exact hb

theorem unlimited_auto {b x : PB} {cs : List String} {mech : Option Mech} {r : PB × PB} (hb : Unlimited b)
    (h1 : adjustForQuery (.cols cs) mech b = .ok x) (h2 : keyAndQueryBudget (.cols cs) b x = .ok r) :
    r.1 = .approx ⊤ (1 : ℚ) ∧ r.2 = .approx ⊤ 0 := by
  cases b with
  | pure ε => cases h1; cases h2
  | zcdp ρ => cases h1; cases h2
  | approx ε δ =>
    have hb : ε = ⊤ := hb
    subst hb
    dsimp only [adjustForQuery] at h1
    split at h1
    · cases h1
    split at h1
    · next hx => exact absurd hx.2 (by simp [PB.isInfinite])
    · cases h1
      cases h2
      exact ⟨rfl, rfl⟩

/-! ## C61 -/

/-- The answer: without group-by columns the aggregate of the table, otherwise a row for each key with the aggregate of its
group. -/
def answerFor (x : Stats) (a : Agg) (cols : List String) (keys : List Row) (T : Table) : Table :=
  if a.keys.columns = [] then [aggregate x a cols T]
  else keys.map (fun key => key ++ aggregate x a cols (Query.group a.keys.columns key T))

theorem grouped_exact {x : Stats} {a : Agg} {task : Task} {cols : List String} {t T : Table} (keys : List Row)
    (h : ∀ key, coreRow x task (Query.group a.keys.columns key t) = aggregate x a cols (Query.group a.keys.columns key T)) :
    groupedAnswer a.keys.columns keys (coreRow x task) t = answerFor x a cols keys T := by
  by_cases hc : a.keys.columns = []
  · have := h []
    rw [hc] at this
    have e : ∀ t : Table, Query.group [] [] t = t := fun t => List.filter_eq_self.2 fun _ _ => rfl
    rw [e, e] at this
    rw [hc, groupedAnswer, if_pos rfl, answerFor, if_pos hc, this]
  · rw [groupedAnswer_eq hc, answerFor, if_neg hc]
    exact List.map_congr_left fun k _ => by rw [rowFor, h]

/-- **C61** (partial). A query grouped by a KeySet and evaluated with an infinite budget is answered exactly: one row for
each key, with the aggregate of those rows of the query's table that have the key.

Partial: the rows of the table are what the documentation says with left joins of ID tables read as inner joins (C57); no
row is left out only if the constraints the session relies on are true; for variances, standard deviations, quantiles and
bounds, and averages of empty groups, what core computes from the values is left open. -/
theorem C61_exact_partial {ctx : Ctx} {core : Core} (hcore : NoNoise core) {tables : List (String × Tab)}
    {pub : List (String × PubFrame)} {R : Root} {q : Query} {ok : Admissible (child q)} {a : Agg} (hq : q.agg? = some a)
    {k : KeySetV} (hk : a.keys = .set k) {b : PB} (hub : Unlimited b) {m : Meas}
    (h : compileM ctx tables pub (.query q ok) b = .ok m) (ht : ∀ p ∈ tables, TabOK ctx.m p.2 R) {D : Data}
    (hD : Conf R D) (hb : BoundsOK a.kind) (hkn : ∀ p ∈ tables, Known p.2 D) :
    ∃ cat s T x, catalog tables pub = .ok cat ∧ schemaOf cat a.child = .ok s ∧
      Faithful cat (resolve tables D) a.child T ∧
      (a.child.ConsSafe ctx.h cat →
        (sem ctx core).mech m (R, D) = PMF.pure (shown q (answerFor x a (Schema.keys s) k.rows T))) := by
  obtain ⟨cat, s, T, hc, hs, hmeans, hex⟩ := exactly hq h ht hD hb
  obtain ⟨cat', p, _, hp, hmk, hma, hmkeys, hmt, _, hpost⟩ := compileM_plan h
  obtain ⟨h1, h2, h3⟩ := compileQuery_budget hq hp
  rw [hk] at h1 h2
  have hun : Unlimited m.call.aggBudget := by rw [hma]; exact unlimited_set hub h1 h2
  obtain ⟨x, hx⟩ := hcore.set m.call k hun (by rw [hmkeys, h3, hk])
  refine ⟨cat, s, T, x, hc, hs, hmeans, fun hsafe => ?_⟩
  obtain ⟨e1, _⟩ := hex hkn hsafe
  have e : a.keys.columns = Dict.keys k.schema := by rw [hk]; rfl
  have := grouped_exact k.rows (e1 x)
  rw [e] at this
  show (core.noise m.call (m.run D)).bind (fun a => PMF.pure (m.post a)) = _
  rw [hx, this, PMF.pure_bind, hpost, compiled_post hq hp]

/-- **C61** (partial, automatic keys). Grouped by columns and evaluated with an infinite budget, a query is answered with
one row for each key that occurs in the rows that count. Partial as before. -/
theorem C61_auto_partial {ctx : Ctx} {core : Core} (hcore : NoNoise core) {tables : List (String × Tab)}
    {pub : List (String × PubFrame)} {R : Root} {q : Query} {ok : Admissible (child q)} {a : Agg} (hq : q.agg? = some a)
    {cs : List String} (hk : a.keys = .cols cs) {b : PB} (hub : Unlimited b) {m : Meas}
    (h : compileM ctx tables pub (.query q ok) b = .ok m) (ht : ∀ p ∈ tables, TabOK ctx.m p.2 R) {D : Data}
    (hD : Conf R D) (hb : BoundsOK a.kind) (hkn : ∀ p ∈ tables, Known p.2 D) :
    ∃ cat s T x, catalog tables pub = .ok cat ∧ schemaOf cat a.child = .ok s ∧
      Faithful cat (resolve tables D) a.child T ∧
      (a.child.ConsSafe ctx.h cat → ∃ keys : List Row, keys.Nodup ∧
        (∀ key, key ∈ keys ↔ ∃ r ∈ T, Counts a r ∧ key = cs.map (fun c => (c, cell r c))) ∧
        (sem ctx core).mech m (R, D) = PMF.pure (shown q (answerFor x a (Schema.keys s) keys T))) := by
  obtain ⟨cat, s, T, hc, hs, hmeans, hex⟩ := exactly hq h ht hD hb
  obtain ⟨cat', p, _, hp, hmk, hma, hmkeys, hmt, _, hpost⟩ := compileM_plan h
  obtain ⟨h1, h2, h3⟩ := compileQuery_budget hq hp
  rw [hk] at h1 h2
  obtain ⟨u1, u2⟩ := unlimited_auto hub h1 h2
  obtain ⟨x, hx⟩ := hcore.auto m.call cs (by rw [hma]; exact congrArg Unlimited u2 ▸ rfl) (by rw [hmk]; exact u1) (by rw [hmkeys, h3, hk])
    (by rw [hmt]; exact task_ne_groups hq hp)
  refine ⟨cat, s, T, x, hc, hs, hmeans, fun hsafe => ?_⟩
  obtain ⟨e1, e2⟩ := hex hkn hsafe
  obtain ⟨keys, k1, k2, k3⟩ := hx (m.run D)
  have e : a.keys.columns = cs := by rw [hk]; rfl
  rw [e] at e2
  refine ⟨keys, k1, fun key => (k2 key).trans (e2 key), ?_⟩
  have := grouped_exact keys (e1 x)
  rw [e] at this
  show (core.noise m.call (m.run D)).bind (fun a => PMF.pure (m.post a)) = _
  rw [k3, this, PMF.pure_bind, hpost, compiled_post hq hp]

theorem adjust_top (y : XNum) : Budget.adjustNumber ⊤ y = ⊤ := by
  unfold Budget.adjustNumber
  cases y using WithTop.recTopCoe with
  | top => exact ite_self _
  | coe q => rfl

theorem unlimited_adj {ctx : Ctx} {w : Session.World Meas Tab PubFrame} {n : Session.Node Meas Tab} {r : Request} {b amt : PB}
    {m : Meas} (hb : b.isInfinite = true) (h : Session.compileInfo (env ctx) w n r b = .ok (m, amt)) :
    Unlimited amt ∧ compileM ctx n.tables (w.pubOf n) r amt = .ok m := by
  unfold Session.compileInfo at h
  dsimp only at h
  have hb' : (Session.convertBudget n.remaining b).isInfinite = true := by
    unfold Session.convertBudget
    split
    · next ε _ =>
      have : ε = ⊤ := by simpa [PB.isInfinite] using hb
      simp [PB.isInfinite, this]
    · exact hb
  generalize Session.convertBudget n.remaining b = b' at h hb'
  split at h
  · cases h
  split at h
  · cases h
  split at h
  · cases h
  next adj hadj =>
  split at h
  · cases h
  next m' hm =>
  cases h
  refine ⟨?_, hm⟩
  cases b' with
  | pure ε =>
    have he : ε = ⊤ := by simpa [PB.isInfinite] using hb'
    subst he
    generalize n.remaining = rem at hadj
    cases rem <;> simp only [Session.processRequested, Budget.adjustBudget, adjust_top] at hadj <;> cases hadj
    rfl
  | zcdp ε =>
    have he : ε = ⊤ := by simpa [PB.isInfinite] using hb'
    subst he
    generalize n.remaining = rem at hadj
    cases rem <;> simp only [Session.processRequested, Budget.adjustBudget, adjust_top] at hadj <;> cases hadj
    rfl
  | approx ε δ =>
    generalize n.remaining = rem at hadj
    cases rem <;> simp only [Session.processRequested, hb', if_true] at hadj <;> cases hadj <;> rfl

/-- The keys of the answer: those of the KeySet in their order, or all keys of rows that count, each once. -/
def KeysOf (a : Agg) (T : Table) (keys : List Row) : Prop :=
  match a.keys with
  | .set k => keys = k.rows
  | .cols cs => keys.Nodup ∧ ∀ key, key ∈ keys ↔ ∃ r ∈ T, Counts a r ∧ key = cs.map (fun c => (c, cell r c))

/-- **C61** (partial). In any session that was made by the builder or by partitions, after any calls, `evaluate` with an
infinite budget gives the exact answer.

Partial: as `C61_exact_partial`; views are those that C16 is proved for. -/
theorem C61_session_partial {ctx : Ctx} {core : Core} (hcore : NoNoise core) {sources : Relation.Sources}
    (hst : Relation.Stored ctx.cast sources) (hf : FramesOK sources) {out : Relation.Output}
    (h : Relation.initCore ctx.cast (coreMeasure ctx.m) sources = .ok out) (b₀ : PB)
    (ops : List (Session.Op Request PubFrame Value)) (hs : ViewsSafe ctx (Session.init b₀ (startTables out)) ops)
    (w : Session.World Meas Tab PubFrame) (hw : w = Session.run (env ctx) (Session.init b₀ (startTables out)) ops)
    (data : Nat → Root × Data)
    (hdata : data = dataAfter ctx core (Session.init b₀ (startTables out)) (fun _ => (startRoot out, startData out)) ops)
    (i : Nat) (q : Query) (ok : Admissible (child q)) (a : Agg) (hq : q.agg? = some a) (hb : BoundsOK a.kind) (b : PB)
    (hinf : b.isInfinite = true) (m : Meas) (amt : PB)
    (hev : (Session.step (env ctx) w (.evaluate i (.query q ok) b)).1 = .ok (.answer m amt)) :
    ∃ n cat s T x keys, w.nodes[i]? = some n ∧ catalog n.tables (w.pubOf n) = .ok cat ∧ schemaOf cat a.child = .ok s ∧
      Faithful cat (resolve n.tables (data i).2) a.child T ∧
      (a.child.ConsSafe ctx.h cat → KeysOf a T keys ∧
        Composition.respond (sem ctx core) data i (Session.step (env ctx) w (.evaluate i (.query q ok) b)).1 =
          PMF.pure (.ok (.answer m amt), some (shown q (answerFor x a (Schema.keys s) keys T)))) := by
  have inv := (start_inv hst hf h b₀).run (core := core) ops
  have known := C60_constraints_partial (core := core) hst hf h b₀ ops hs i
  rw [← hw, ← hdata] at inv known
  have st := Session.step_cases (env ctx) w (.evaluate i (.query q ok) b)
  rw [hev] at st ⊢
  generalize (Session.step (env ctx) w (.evaluate i (.query q ok) b)).2 = w' at st
  cases st with
  | evaluate _ _ _ n _ _ ns hn hc ha hp hs =>
  obtain ⟨hun, hm⟩ := unlimited_adj hinf hc
  obtain ⟨σ, near⟩ := inv.near i (List.getElem?_eq_some_iff.1 hn).1
  have fin : ∀ t : Table, (sem ctx core).mech m (data i) = PMF.pure t →
      Composition.respond (sem ctx core) data i (.ok (.answer m amt)) = PMF.pure (.ok (.answer m amt), some t) := by
    intro t ht
    dsimp only [Composition.respond]
    rw [ht, PMF.pure_bind]
  cases hk : a.keys with
  | set k =>
    obtain ⟨cat, s, T, x, h1, h2, h3, h4⟩ := C61_exact_partial hcore hq hk hun hm (inv.tabs i n hn) near.conf hb (known n hn)
    exact ⟨n, cat, s, T, x, k.rows, hn, h1, h2, h3, fun hc => ⟨by simp only [KeysOf, hk], fin _ (h4 hc)⟩⟩
  | cols cs =>
    obtain ⟨cat, s, T, x, h1, h2, h3, h4⟩ := C61_auto_partial hcore hq hk hun hm (inv.tabs i n hn) near.conf hb (known n hn)
    by_cases hc : a.child.ConsSafe ctx.h cat
    · obtain ⟨keys, k1, k2, k3⟩ := h4 hc
      exact ⟨n, cat, s, T, x, keys, hn, h1, h2, h3, fun _ => ⟨by simp only [KeysOf, hk]; exact ⟨k1, k2⟩, fin _ k3⟩⟩
    · exact ⟨n, cat, s, T, x, [], hn, h1, h2, h3, fun hc' => absurd hc' hc⟩

end Verif.Whole
