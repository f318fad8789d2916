import Verif.Whole.Measure

/-!
# C55: partitions
-/

namespace Verif.Whole

open Verif Verif.Schema Verif.Constraint Verif.Expr Verif.Query Verif.Stability
open Verif.Budget (XNum PB Rounding)
open Verif.Composition
open scoped NNReal

/-! ## Shares -/

theorem sum_getElem {M : Type} [AddCommMonoid M] {V : Type} (f : Option V → M) (l : List V) :
    ∑ k ∈ Finset.range l.length, f l[k]? = (l.map (fun v => f (some v))).sum := by
  induction l with
  | nil => simp
  | cons v l ih =>
    rw [List.length_cons, Finset.sum_range_succ', List.map_cons, List.sum_cons, add_comm]
    congr 1

/-- Distances of the parts that add up (for zCDP: whose squares add up) to no more than a share `s` are shares that add up
to `s`. -/
theorem share_exists {m : Measure} {s d : ℝ≥0} {N : ℕ} {n : ℕ → ℝ≥0}
    (h : if m = .zCDP then ∑ k ∈ Finset.range N, n k ^ 2 ≤ s * d ^ 2 else ∑ k ∈ Finset.range N, n k ≤ s * d) :
    ∃ sh : ℕ → ℝ≥0, ∑ k ∈ Finset.range N, sh k ≤ s ∧ ∀ k < N, n k ≤ scale m (sh k) * d := by
  have single : ∀ {f : ℕ → ℝ≥0} {x : ℝ≥0}, ∑ k ∈ Finset.range N, f k ≤ x → ∀ k < N, f k ≤ x := by
    intro f x hx k hk
    exact (Finset.single_le_sum (f := f) (fun _ _ => zero_le) (Finset.mem_range.2 hk)).trans hx
  by_cases hm : m = .zCDP
  · rw [if_pos hm] at h
    refine ⟨fun k => n k ^ 2 / d ^ 2, ?_, fun k hk => ?_⟩
    · rw [← Finset.sum_div]
      by_cases hd : d = 0
      · simp [hd]
      · exact div_le_of_le_mul₀ zero_le zero_le h
    · unfold scale
      rw [if_pos hm]
      by_cases hd : d = 0
      · have := single h k hk
        rw [hd] at this
        simp at this
        simp [this]
      · dsimp only
        rw [← div_pow, NNReal.sqrt_sq, div_mul_cancel₀ _ hd]
  · rw [if_neg hm] at h
    refine ⟨fun k => n k / d, ?_, fun k hk => ?_⟩
    · rw [← Finset.sum_div]
      by_cases hd : d = 0
      · simp [hd]
      · exact div_le_of_le_mul₀ zero_le zero_le h
    · unfold scale
      rw [if_neg hm]
      by_cases hd : d = 0
      · have := single h k hk
        rw [hd] at this
        simp at this
        simp [this]
      · dsimp only
        rw [div_mul_cancel₀ _ hd]

theorem scale_sq {m : Measure} {s : ℝ≥0} (h : m = .zCDP) (d : ℝ≥0) : (scale m s * d) ^ 2 = s * d ^ 2 := by
  unfold scale
  rw [if_pos h, mul_pow, NNReal.sq_sqrt]

theorem scale_other {m : Measure} {s : ℝ≥0} (h : m ≠ .zCDP) (d : ℝ≥0) : scale m s * d = s * d := by
  unfold scale
  rw [if_neg h]

/-! ## Parts -/

/-- The rows of a part. -/
def partRows (col : String) (vals : List Value) (k : Nat) (s : Table) : Table :=
  s.filter (fun r => decide (some (cell r col) = vals[k]?))

theorem sum_parts_le (col : String) {vals : List Value} (hv : vals.Nodup) (φ : ℕ → ℕ) (h0 : φ 0 = 0) (s t : Table) :
    ∑ k ∈ Finset.range vals.length, φ (rowDist (partRows col vals k s) (partRows col vals k t)) ≤
      ∑ v ∈ groupKeys (fun r => cell r col) s t, φ (rowDist (Stability.group (fun r => cell r col) v s) (Stability.group (fun r => cell r col) v t)) := by
  classical
  have e := sum_getElem (fun o : Option Value => φ (rowDist (s.filter (fun r => decide (some (cell r col) = o)))
    (t.filter (fun r => decide (some (cell r col) = o))))) vals
  unfold partRows
  rw [e]
  have e2 : (vals.map (fun v => φ (rowDist (s.filter (fun r => decide (some (cell r col) = some v)))
      (t.filter (fun r => decide (some (cell r col) = some v)))))).sum =
      ∑ v ∈ vals.toFinset, φ (rowDist (Stability.group (fun r => cell r col) v s) (Stability.group (fun r => cell r col) v t)) := by
    rw [List.sum_toFinset _ hv]
    unfold Stability.group
    simp only [Option.some.injEq]
  rw [e2, sum_groups_eq (F := groupKeys (fun r => cell r col) s t ∪ vals.toFinset) Finset.subset_union_left φ h0]
  exact Finset.sum_le_sum_of_subset Finset.subset_union_right

theorem sum_parts_rows (col : String) {vals : List Value} (hv : vals.Nodup) (s t : Table) :
    ∑ k ∈ Finset.range vals.length, rowDist (partRows col vals k s) (partRows col vals k t) ≤ rowDist s t :=
  (sum_parts_le col hv id rfl s t).trans (sumDist_eq (fun r => cell r col) s t).le

theorem sum_parts_sq (col : String) {vals : List Value} (hv : vals.Nodup) (s t : Table) :
    ∑ k ∈ Finset.range vals.length, rowDist (partRows col vals k s) (partRows col vals k t) ^ 2 ≤
      sqDist (fun r => cell r col) s t :=
  sum_parts_le col hv (· ^ 2) rfl s t

/-- Parts of row tables get shares. -/
theorem row_shares {m : Measure} {col : String} {vals : List Value} (hv : vals.Nodup) {s d : ℝ≥0} {S T : Table}
    (h : tdist m (.grouped col) S T ≤ scale m s * d) :
    ∃ sh : ℕ → ℝ≥0, ∑ k ∈ Finset.range vals.length, sh k ≤ s ∧
      ∀ k < vals.length, (rowDist (partRows col vals k S) (partRows col vals k T) : ℝ≥0) ≤ scale m (sh k) * d := by
  refine share_exists ?_
  unfold tdist at h
  by_cases hm : m = .zCDP
  · simp only [hm, if_true] at h ⊢
    rw [rootDist_le, scale_sq rfl] at h
    exact le_trans (by exact_mod_cast sum_parts_sq col hv S T) h
  · simp only [hm, if_false] at h ⊢
    rw [scale_other hm] at h
    exact le_trans (by exact_mod_cast sum_parts_rows col hv S T) h

theorem tdist_grouped_le (m : Measure) (col : String) (S T : Table) : tdist m (.grouped col) S T ≤ rowDist S T := by
  unfold tdist
  simp only
  split
  · exact rootDist_le_rowDist _ _ _
  · exact le_rfl

/-! ## IDs -/

theorem SameRows.symm {R : Root} {sp : Option String} {q : Option Value → Bool} {D D' : Data} (h : SameRows R sp q D D') :
    SameRows R sp q D' D := fun n s i a b c => (h n s i a b c).symm

theorem SameRows.trans {R : Root} {sp : Option String} {q : Option Value → Bool} {D E F : Data} (h : SameRows R sp q D E)
    (h' : SameRows R sp q E F) : SameRows R sp q D F := fun n s i a b c => (h n s i a b c).trans (h' n s i a b c)

theorem SameRows.of_all {R : Root} {sp : Option String} (q : Option Value → Bool) {D E : Data}
    (h : SameRows R sp (fun _ => true) D E) : SameRows R sp q D E := by
  intro n s i a b c
  have := h n s i a b c
  simp only [List.filter_true] at this
  exact this.filter _

theorem IDs.of_same {R : Root} {sp : Option String} {k : ℕ} {D E F : Data} (h : SameRows R sp (fun _ => true) D E)
    (hi : IDs R sp k E F) : IDs R sp k D F := by
  cases hi with
  | same h' => exact .same (h.trans h')
  | step h1 h2 h3 =>
    obtain ⟨v, a, b⟩ := h1
    refine .step ⟨v, (h.of_all _).trans a, ?_⟩ h2 h3
    rcases b with b | b
    · exact .inl ((h.of_all _).trans b)
    · exact .inr b

/-- How many parts have rows of an ID. -/
theorem parts_of_id {i col : String} {g : Nat} {C : Table} (hsat : Sat i (.maxGroupsPerID col g) C) {vals : List Value}
    (hv : vals.Nodup) (v : Option Value) :
    (∑ k ∈ Finset.range vals.length, if (partRows col vals k C).filter (fun r => decide (Row.get r i = v)) = [] then 0 else 1) ≤ g := by
  classical
  have e := sum_getElem (fun o : Option Value => if ((C.filter (fun r => decide (some (cell r col) = o))).filter
    (fun r => decide (Row.get r i = v))) = [] then 0 else 1) vals
  unfold partRows
  rw [e]
  refine le_trans ?_ (hsat v)
  have e2 : (vals.map (fun w => if ((C.filter (fun r => decide (some (cell r col) = some w))).filter
      (fun r => decide (Row.get r i = v))) = [] then 0 else 1)).sum =
      ((vals.toFinset.filter (fun w => w ∈ (C.whereEq i v).map (fun r => cell r col))).card) := by
    rw [Finset.card_filter, List.sum_toFinset _ hv]
    congr 1
    refine List.map_congr_left fun w _ => ?_
    by_cases hw : w ∈ (C.whereEq i v).map (fun r => cell r col)
    · rw [if_pos hw, if_neg]
      obtain ⟨r, hr, rfl⟩ := List.mem_map.1 hw
      obtain ⟨h1, h2⟩ := List.mem_filter.1 hr
      exact List.ne_nil_of_mem (List.mem_filter.2 ⟨List.mem_filter.2 ⟨h1, by simp⟩, h2⟩)
    · rw [if_neg hw, if_pos]
      rw [List.eq_nil_iff_forall_not_mem]
      intro r hr
      obtain ⟨h1, h2⟩ := List.mem_filter.1 hr
      obtain ⟨h3, h4⟩ := List.mem_filter.1 h1
      exact hw (List.mem_map.2 ⟨r, List.mem_filter.2 ⟨h3, h2⟩, by simpa using h4⟩)
  rw [e2, ← List.card_toFinset]
  have hsub : vals.toFinset.filter (fun w => w ∈ (C.whereEq i v).map (fun r => cell r col)) ⊆
      ((C.whereEq i v).map (fun r => Row.get r col)).toFinset.image (fun o => o.getD .null) := by
    intro w hw
    obtain ⟨r, hr, rfl⟩ := List.mem_map.1 (Finset.mem_filter.1 hw).2
    exact Finset.mem_image.2 ⟨Row.get r col, List.mem_toFinset.2 (List.mem_map.2 ⟨r, hr, rfl⟩), rfl⟩
  exact (Finset.card_le_card hsub).trans Finset.card_image_le

/-! ## The sessions of a partition -/

/-- What a successful partition says. -/
structure PartFacts (ctx : Ctx) (tables : List (String × Tab)) (src col : String) (vals : List Value) (t : Tab) (t0 : Tab)
    (cut : Cut) : Prop where
  get : Dict.get tables src = some t0
  cutOK : cutOf t0 col = .ok cut
  nodup : vals.Nodup
  grouped : ∀ g, t0.metric = .grouped g → g = col
  tab : t = ⟨t0.dom, partMetric cut, partSpace t0.space cut, [],
          partDist ctx.m t0.dist cut, fun D => D src⟩
  any : ∀ pub, partTab ctx tables pub src col vals = .ok t

theorem partTab_ok {ctx : Ctx} {tables : List (String × Tab)} {pub : List (String × PubFrame)} {src col : String}
    {vals : List Value} {t : Tab} (h : partTab ctx tables pub src col vals = .ok t) :
    ∃ t0 cut, PartFacts ctx tables src col vals t t0 cut := by
  have h' := h
  unfold partTab at h
  split at h
  · split at h <;> cases h
  next t0 hg =>
  split at h
  · cases h
  next cut hc =>
  split at h
  · cases h
  next d hd =>
  split at h
  · cases h
  next h1 =>
  split at h
  · cases h
  next h2 =>
  split at h
  · cases h
  next h3 =>
  cases h
  refine ⟨t0, cut, hg, hc, not_not.1 h2, ?_, rfl, ?_⟩
  · intro g hgm
    by_contra hne
    apply h3
    rw [hgm]
    simp [groupOf, hne]
  · intro pub'
    unfold partTab
    rw [hg]
    simp only [hc, hd]
    rw [if_neg h1, if_neg h2, if_neg h3]

theorem partMetric_ids {t0 : Tab} {col : String} {cut : Cut} (h : cutOf t0 col = .ok cut) {i : String}
    (hi : partMetric cut = .ids i) : t0.metric = .ids i ∧ ∃ g, cut = .groupsOfID i g := by
  unfold cutOf at h
  cases cut with
  | rows => cases hi
  | rowsOfID j r => cases hi
  | groupsOfID j g =>
    cases hi
    split at h
    · next hm =>
      split at h
      · cases h; exact ⟨hm, g, rfl⟩
      · split at h <;> cases h
    · cases h

theorem cut_metric {t0 : Tab} {col : String} {cut : Cut} (h : cutOf t0 col = .ok cut) :
    match cut with
    | .rows => ∀ i, t0.metric ≠ .ids i
    | .groupsOfID i _ => t0.metric = .ids i
    | .rowsOfID i _ => t0.metric = .ids i := by
  unfold cutOf at h
  split at h
  · next hm =>
    split at h
    · cases h; exact hm
    · split at h
      · cases h; exact hm
      · cases h
  · next hm => cases h; exact hm

section
variable {ctx : Ctx} {tables : List (String × Tab)} {R : Root} {src col : String} {vals : List Value} {t t0 : Tab} {cut : Cut}

theorem part_wf (hp : PartFacts ctx tables src col vals t t0 cut) (h0 : TabOK ctx.m t0 R) : Dict.WF t.dom := by
  rw [hp.tab]; exact h0.wf

/-- The table of a part has a schema. -/
theorem part_schema (hp : PartFacts ctx tables src col vals t t0 cut) (h0 : TabOK ctx.m t0 R) :
    ∃ s, t.schema = .ok s ∧ SchemaOK s := by
  obtain ⟨s0, hs0, ok0⟩ := h0.schema
  have sf := t0.schema_for h0.wf hs0
  have hdom : t0.dom = s0.columnDescs.elements.map (fun p => (p.1, toSparkDesc p.2)) := by
    rw [← sf.dom, analytics_dom sf.wf]
  have hkeys : Dict.keys t0.dom = s0.columnDescs.elements.map Prod.fst := by
    rw [hdom]; exact keys_mapVal' s0.columnDescs.elements (fun p => toSparkDesc p.2)
  have := hp.tab
  subst this
  refine schema_exists h0.wf ?_ ?_ ?_ ?_
  · rw [hkeys]; exact sf.wf.nonempty
  · intro g hg
    cases cut <;> cases hg
  · intro i hi
    obtain ⟨hm, _⟩ := partMetric_ids hp.cutOK hi
    have hid : s0.idColumn = some i := by rw [sf.idColumn, hm]; rfl
    have hmem := sf.wf.idColumn i hid
    obtain ⟨⟨c, d⟩, hd, rfl⟩ := List.mem_map.1 hmem
    refine ⟨d.ty, ?_, ok0.idTy _ hid d hd⟩
    have : (c, toSparkDesc d) ∈ t0.dom := by
      rw [hdom]; exact List.mem_map.2 ⟨_, hd, rfl⟩
    rw [get_tys, (Dict.get_eq_some h0.wf).2 this]
    obtain ⟨ty, a, b, e⟩ := d
    cases ty <;> rfl
  · intro hni
    cases cut with
    | rows => rfl
    | rowsOfID _ _ => rfl
    | groupsOfID i g => exact absurd rfl (hni i)

/-- What the data of a part is. -/
theorem partData_eq (hp : PartFacts ctx tables src col vals t t0 cut) {s : Schema} (hs : t.schema = .ok s) (x : Root × Data)
    (k : Nat) : partData ctx tables x src col vals k =
      (⟨[(src, s)], fun _ => t.dist, fun _ => t.dist⟩,
       fun n => if n = src then partRows col vals k (cutRows ctx.h col cut (t0.run x.2)) else []) := by
  unfold partData
  rw [hp.any, hp.get]
  simp only [hp.cutOK, hs]
  rfl

theorem cutRows_subperm (h : Hash) (col : String) (cut : Cut) (T : Table) : (cutRows h col cut T).Subperm T := by
  cases cut with
  | rows => exact List.Subperm.refl _
  | groupsOfID i g => exact enforce_subperm h i (.maxGroupsPerID col g) T
  | rowsOfID i r => exact enforce_subperm h i (.maxRowsPerID r) T

/-- The root of a part. -/
def partRoot (src : String) (s : Schema) (d : ℝ≥0) : Root := ⟨[(src, s)], fun _ => d, fun _ => d⟩

theorem partRoot_get {src : String} {s : Schema} {d : ℝ≥0} {n : String} {s' : Schema}
    (h : Dict.get (partRoot src s d).priv n = some s') : n = src ∧ s' = s := by
  unfold partRoot at h
  rw [Dict.get_cons] at h
  split at h
  · next he => cases h; exact ⟨he, rfl⟩
  · cases h

theorem part_tab (hp : PartFacts ctx tables src col vals t t0 cut) (h0 : TabOK ctx.m t0 R) {s : Schema}
    (hs : t.schema = .ok s) (hok : SchemaOK s) : TabOK ctx.m t (partRoot src s t.dist) := by
  have wf := part_wf hp h0
  have sf := t.schema_for wf hs
  have hself : Dict.get (partRoot src s t.dist).priv src = some s := by
    unfold partRoot; rw [Dict.get_cons, if_pos rfl]
  have hrun : t.run = fun D => D src := by rw [hp.tab]
  refine ⟨⟨s, hs, hok⟩, wf, ?_, ?_, ?_, ?_, ?_⟩
  · intro D hD
    rw [hrun, ← sf.dom]
    exact (conforms_iff sf.wf _).1 (hD src s hself)
  · intro hni σ D D' _ _ hr
    have := hr src s hself (by
      rw [sf.idColumn]
      generalize t.metric = k at hni
      cases k with
      | ids i => exact absurd rfl (hni i)
      | _ => rfl)
    rw [sf.metric] at this
    rw [hrun]
    exact this
  · intro i _
    rfl
  · intro i hi q D D' _ _ hq
    rw [hrun]
    exact hq src s i hself (by rw [sf.idColumn, hi]; rfl) sf.idSpace
  · rw [hrun]

/-- The rows of a part are as the schema says. -/
theorem part_conf (hp : PartFacts ctx tables src col vals t t0 cut) (h0 : TabOK ctx.m t0 R) {s : Schema}
    (hs : t.schema = .ok s) {D : Data} (hD : Conf R D) (k : Nat) :
    Conf (partRoot src s t.dist) (fun n => if n = src then partRows col vals k (cutRows ctx.h col cut (t0.run D)) else []) := by
  intro n s' hg
  obtain ⟨rfl, rfl⟩ := partRoot_get hg
  have sf := t.schema_for (part_wf hp h0) hs
  rw [conforms_iff sf.wf, sf.dom]
  intro r hr
  simp only [if_true] at hr
  have h1 := (cutRows_subperm ctx.h col cut _).subset (List.mem_filter.1 hr).1
  have := h0.conf D hD r h1
  rw [hp.tab]
  exact this

/-- Two parts are near when their tables are. -/
theorem part_near (hp : PartFacts ctx tables src col vals t t0 cut) {x x' : Root × Data} (h0 : TabOK ctx.m t0 x.1)
    {s : Schema} (hs : t.schema = .ok s) (hok : SchemaOK s) (hD : Conf x.1 x.2) (hD' : Conf x.1 x'.2) {k : Nat} {w : ℝ≥0}
    (hrows : (∀ i, t.metric ≠ .ids i) → (rowDist (partRows col vals k (cutRows ctx.h col cut (t0.run x.2)))
      (partRows col vals k (cutRows ctx.h col cut (t0.run x'.2))) : ℝ≥0) ≤ scale ctx.m w * t.dist)
    (hids : ∀ i, t.metric = .ids i → ∃ n : ℕ, (n : ℝ≥0) ≤ scale ctx.m w * t.dist ∧
      IDs (partRoot src s t.dist) t.space n
        (fun n => if n = src then partRows col vals k (cutRows ctx.h col cut (t0.run x.2)) else [])
        (fun n => if n = src then partRows col vals k (cutRows ctx.h col cut (t0.run x'.2)) else [])) :
    Near ctx.m w (partData ctx tables x src col vals k) (partData ctx tables x' src col vals k) := by
  have sf := t.schema_for (part_wf hp h0) hs
  rw [partData_eq hp hs, partData_eq hp hs]
  refine ⟨rfl, ?_, part_conf hp h0 hs hD k, part_conf hp h0 hs hD' k, ?_, ?_⟩
  · intro n s' hg
    obtain ⟨rfl, rfl⟩ := partRoot_get (d := t.dist) hg
    exact hok
  · intro n s' hg hid
    obtain ⟨rfl, rfl⟩ := partRoot_get (d := t.dist) hg
    simp only [if_true]
    have hk : metricOf s' = .symDiff := by
      rw [sf.metric]
      have h1 := sf.idColumn
      rw [hid] at h1
      rw [hp.tab] at h1 ⊢
      cases cut <;> first | rfl | cases h1
    rw [hk]
    refine hrows fun i hi => ?_
    rw [sf.metric, hi] at hk
    cases hk
  · intro sp
    by_cases h : ∃ i, t.metric = .ids i ∧ sp = t.space
    · obtain ⟨i, hi, rfl⟩ := h
      exact hids i hi
    · refine ⟨0, by simp, .same ?_⟩
      intro n s' i hg hi hsp
      obtain ⟨rfl, rfl⟩ := partRoot_get (d := t.dist) hg
      exfalso
      refine h ⟨i, ?_, by rw [← hsp, sf.idSpace]⟩
      rw [← sf.metric]
      exact (metricOf_ids _ i).2 hi

/-! ## Tables with IDs -/

/-- One ID is added or removed: after truncation, too. -/
theorem cut_step (hl : ctx.h.Lawful) (h0 : TabOK ctx.m t0 R) {i : String} (hi : t0.metric = .ids i) (c : Constraint)
    {D E : Data} (hD : Conf R D) (hE : Conf R E) (h1 : OneID R t0.space D E) :
    ∃ v, ((enforce ctx.h i c (t0.run D)).filter (fun r => decide (Row.get r i ≠ v))).Perm
        ((enforce ctx.h i c (t0.run E)).filter (fun r => decide (Row.get r i ≠ v))) ∧
      ((enforce ctx.h i c (t0.run D)).filter (fun r => decide (Row.get r i = v)) = [] ∨
       (enforce ctx.h i c (t0.run E)).filter (fun r => decide (Row.get r i = v)) = []) := by
  obtain ⟨v, a, b⟩ := h1
  refine ⟨v, ?_, ?_⟩
  · rw [enforce_filter ctx.h i c (fun x => decide (x ≠ v)), enforce_filter ctx.h i c (fun x => decide (x ≠ v))]
    exact C15_order_independent ctx.h hl i c (h0.ids i hi _ D E hD hE a)
  · have none : ∀ {D : Data}, Conf R D → SameRows R t0.space (fun x => decide (x = v)) D (fun _ => []) →
        (enforce ctx.h i c (t0.run D)).filter (fun r => decide (Row.get r i = v)) = [] := by
      intro D hD b
      have := h0.ids i hi _ D _ hD (conf_empty R) b
      rw [h0.empty] at this
      have e := List.perm_nil.1 this
      rw [List.eq_nil_iff_forall_not_mem] at e ⊢
      intro r hr
      obtain ⟨h1, h2⟩ := List.mem_filter.1 hr
      exact e r (List.mem_filter.2 ⟨(enforce_subperm ctx.h i c _).subset h1, h2⟩)
    rcases b with b | b
    · exact .inl (none hD b)
    · exact .inr (none hE b)

theorem same_perm (h0 : TabOK ctx.m t0 R) {i : String} (hi : t0.metric = .ids i) {D E : Data} (hD : Conf R D)
    (hE : Conf R E) (h1 : SameRows R t0.space (fun _ => true) D E) : (t0.run D).Perm (t0.run E) := by
  have := h0.ids i hi (fun _ => true) D E hD hE h1
  simpa only [List.filter_true] using this

/-- A bound on the rows of each ID bounds the rows that change. -/
theorem rows_of_ids (hl : ctx.h.Lawful) (h0 : TabOK ctx.m t0 R) {i : String} (hi : t0.metric = .ids i) (r : Nat) {K : ℕ}
    {D D' : Data} (hD : Conf R D) (hD' : Conf R D') (hr : IDs R t0.space K D D') :
    rowDist (enforce ctx.h i (.maxRowsPerID r) (t0.run D)) (enforce ctx.h i (.maxRowsPerID r) (t0.run D')) ≤ r * K := by
  induction hr with
  | @same D D' h1 =>
    rw [rowDist_congr (C15_order_independent ctx.h hl i _ (same_perm h0 hi hD hD' h1)) (.refl _), rowDist_self]
    exact Nat.zero_le _
  | @step K D E D' h1 hE _ ih =>
    refine (rowDist_triangle _ (enforce ctx.h i (.maxRowsPerID r) (t0.run E)) _).trans ?_
    have h2 := ih hE hD'
    have h3 : rowDist (enforce ctx.h i (.maxRowsPerID r) (t0.run D)) (enforce ctx.h i (.maxRowsPerID r) (t0.run E)) ≤ r := by
      obtain ⟨v, a, b⟩ := cut_step hl h0 hi (.maxRowsPerID r) hD hE h1
      have s1 := (C15_enforce ctx.h i (.maxRowsPerID r) (t0.run D)).1 v
      have s2 := (C15_enforce ctx.h i (.maxRowsPerID r) (t0.run E)).1 v
      rw [rowDist_filter (fun r => decide (Row.get r i = v))]
      have e : ∀ s : Table, s.filter (fun r => !decide (Row.get r i = v)) = s.filter (fun r => decide (Row.get r i ≠ v)) := by
        intro s
        refine List.filter_congr fun x _ => ?_
        simp
      rw [e, e, rowDist_congr a (.refl _), rowDist_self, Nat.add_zero]
      rcases b with b | b
      · rw [b, rowDist_comm, rowDist_nil]; exact s2
      · rw [b, rowDist_nil]; exact s1
    calc _ ≤ r + r * K := Nat.add_le_add h3 h2
      _ = r * (K + 1) := by ring

/-- A bound on the groups of each ID bounds the parts that change. -/
theorem parts_of_ids (hl : ctx.h.Lawful) (hp : PartFacts ctx tables src col vals t t0 cut) (h0 : TabOK ctx.m t0 R)
    {i : String} {g : Nat} (hcut : cut = .groupsOfID i g) {s : Schema} (hs : t.schema = .ok s) {K : ℕ} {D D' : Data}
    (hD : Conf R D) (hD' : Conf R D') (hr : IDs R t0.space K D D') :
    ∃ n : ℕ → ℕ, (∀ k, n k ≤ K) ∧ ∑ k ∈ Finset.range vals.length, n k ≤ g * K ∧
      ∀ k, IDs (partRoot src s t.dist) t.space (n k)
        (fun n => if n = src then partRows col vals k (cutRows ctx.h col cut (t0.run D)) else [])
        (fun n => if n = src then partRows col vals k (cutRows ctx.h col cut (t0.run D')) else []) := by
  have hi : t0.metric = .ids i := by
    subst hcut
    exact cut_metric hp.cutOK
  have sf := t.schema_for (part_wf hp h0) hs
  have hcol : ∀ {n : String} {s' : Schema} {j : String}, Dict.get (partRoot src s t.dist).priv n = some s' →
      s'.idColumn = some j → n = src ∧ j = i := by
    intro n s' j hg hj
    obtain ⟨rfl, rfl⟩ := partRoot_get hg
    rw [sf.idColumn, hp.tab, hcut] at hj
    cases hj
    exact ⟨rfl, rfl⟩
  have lift : ∀ {q : Option Value → Bool} {A B : Table}, (A.filter (fun r => q (Row.get r i))).Perm (B.filter (fun r => q (Row.get r i))) →
      SameRows (partRoot src s t.dist) t.space q (fun n => if n = src then A else []) (fun n => if n = src then B else []) := by
    intro q A B hAB n s' j hg hj _
    obtain ⟨rfl, rfl⟩ := hcol hg hj
    simp only [if_true]
    exact hAB
  induction hr with
  | @same D D' h1 =>
    refine ⟨fun _ => 0, fun _ => le_rfl, by simp, fun k => .same (lift ?_)⟩
    simp only [List.filter_true]
    rw [hcut]
    exact List.Perm.filter _ (C15_order_independent ctx.h hl i (.maxGroupsPerID col g) (same_perm h0 hi hD hD' h1))
  | @step K D E D' h1 hE _ ih =>
    obtain ⟨n, n1, n2, n3⟩ := ih hE hD'
    obtain ⟨v, a, b⟩ := cut_step hl h0 hi (.maxGroupsPerID col g) hD hE h1
    have sD := (C15_enforce ctx.h i (.maxGroupsPerID col g) (t0.run D)).1
    have sE := (C15_enforce ctx.h i (.maxGroupsPerID col g) (t0.run E)).1
    have hcD : cutRows ctx.h col cut (t0.run D) = enforce ctx.h i (.maxGroupsPerID col g) (t0.run D) := by rw [hcut]; rfl
    have hcE : cutRows ctx.h col cut (t0.run E) = enforce ctx.h i (.maxGroupsPerID col g) (t0.run E) := by rw [hcut]; rfl
    rw [hcD]
    rw [hcE] at n3
    have confE := fun k => part_conf hp h0 hs (k := k) hE
    rw [hcE] at confE
    generalize enforce ctx.h i (.maxGroupsPerID col g) (t0.run D) = A at *
    generalize enforce ctx.h i (.maxGroupsPerID col g) (t0.run E) = B at *
    -- the rows of the ID in a part
    have comm : ∀ (S : Table) k (q : Row → Bool), (partRows col vals k S).filter q = partRows col vals k (S.filter q) := by
      intro S k q
      unfold partRows
      rw [List.filter_filter, List.filter_filter]
      exact List.filter_congr fun x _ => Bool.and_comm _ _
    have nil : ∀ {S : Table} k, S.filter (fun r => decide (Row.get r i = v)) = [] →
        (partRows col vals k S).filter (fun r => decide (Row.get r i = v)) = [] := by
      intro S k hS
      rw [comm, hS]
      rfl
    have key : ∀ k, ((partRows col vals k A).filter (fun r => decide (Row.get r i ≠ v))).Perm
        ((partRows col vals k B).filter (fun r => decide (Row.get r i ≠ v))) := by
      intro k
      rw [comm, comm]
      exact a.filter _
    have split : ∀ S : Table, S.filter (fun r => decide (Row.get r i = v)) = [] →
        S.filter (fun r => decide (Row.get r i ≠ v)) = S := by
      intro S hS
      rw [List.filter_eq_self]
      intro r hr
      refine decide_eq_true fun hv => ?_
      have : r ∈ S.filter (fun r => decide (Row.get r i = v)) := List.mem_filter.2 ⟨hr, decide_eq_true hv⟩
      rw [hS] at this
      cases this
    obtain ⟨c, c1, c2, c3⟩ : ∃ c : ℕ → ℕ, (∀ k, c k ≤ 1) ∧ ∑ k ∈ Finset.range vals.length, c k ≤ g ∧
        ∀ k, c k = 0 → (partRows col vals k A).Perm (partRows col vals k B) := by
      rcases b with b | b
      · refine ⟨fun k => if (partRows col vals k B).filter (fun r => decide (Row.get r i = v)) = [] then 0 else 1, ?_,
          parts_of_id sE hp.nodup v, ?_⟩
        · intro k; dsimp only; split <;> omega
        · intro k hk
          have hk : (partRows col vals k B).filter (fun r => decide (Row.get r i = v)) = [] := by
            by_contra hne
            simp [hne] at hk
          have := key k
          rwa [split _ hk, split _ (nil k b)] at this
      · refine ⟨fun k => if (partRows col vals k A).filter (fun r => decide (Row.get r i = v)) = [] then 0 else 1, ?_,
          parts_of_id sD hp.nodup v, ?_⟩
        · intro k; dsimp only; split <;> omega
        · intro k hk
          have hk : (partRows col vals k A).filter (fun r => decide (Row.get r i = v)) = [] := by
            by_contra hne
            simp [hne] at hk
          have := key k
          rwa [split _ hk, split _ (nil k b)] at this
    refine ⟨fun k => n k + c k, fun k => Nat.add_le_add (n1 k) (c1 k), ?_, fun k => ?_⟩
    · rw [Finset.sum_add_distrib]
      calc _ ≤ g * K + g := Nat.add_le_add n2 c2
        _ = g * (K + 1) := by ring
    · dsimp only
      by_cases hk : c k = 0
      · rw [hk]
        refine IDs.of_same (lift ?_) (n3 k)
        simp only [List.filter_true]
        exact c3 k hk
      · have : c k = 1 := by have := c1 k; omega
        rw [this]
        refine .step ⟨v, lift (key k), ?_⟩ (confE k) (n3 k)
        have empty : ∀ {S : Table}, S.filter (fun r => decide (Row.get r i = v)) = [] →
            SameRows (partRoot src s t.dist) t.space (fun x => decide (x = v))
              (fun n => if n = src then partRows col vals k S else []) (fun _ => []) := by
          intro S hS n s' j hg hj _
          obtain ⟨rfl, rfl⟩ := hcol hg hj
          simp only [if_true]
          rw [nil k hS]
          exact .refl _
        rcases b with b | b
        · exact .inl (empty b)
        · exact .inr (empty b)

end

/-- **C55**. -/
theorem partition_sound {ctx : Ctx} {s : ℝ≥0} {x x' : Root × Data} (hn : Near ctx.m s x x')
    {tables : List (String × Tab)} {pub : List (String × PubFrame)} (ht : ∀ p ∈ tables, TabOK ctx.m p.2 x.1)
    {src col : String} {vals : List Value} {t : Tab} (h : partTab ctx tables pub src col vals = .ok t) :
    ∃ sh : Nat → ℝ≥0, ∑ k ∈ Finset.range vals.length, sh k ≤ s ∧
      ∀ k < vals.length, Near ctx.m (sh k) (partData ctx tables x src col vals k) (partData ctx tables x' src col vals k) ∧
        TabOK ctx.m t (partData ctx tables x src col vals k).1 ∧
        TabOK ctx.m t (partData ctx tables x' src col vals k).1 := by
  obtain ⟨t0, cut, hp⟩ := partTab_ok h
  have h0 := ht _ (Dict.mem_of_get hp.get)
  obtain ⟨sch, hs, hok⟩ := part_schema hp h0
  have tab : ∀ (y : Root × Data) k, TabOK ctx.m t (partData ctx tables y src col vals k).1 := by
    intro y k
    rw [partData_eq hp hs]
    exact part_tab hp h0 hs hok
  have hcm := cut_metric hp.cutOK
  have hD := hn.conf
  have hD' := hn.conf'
  cases hcut : cut with
  | rows =>
    subst hcut
    have hd : t.dist = t0.dist := by rw [hp.tab]; rfl
    have base : tdist ctx.m (.grouped col) (t0.run x.2) (t0.run x'.2) ≤ scale ctx.m s * t.dist := by
      have := h0.rows hcm _ _ _ hD hD' hn.rows
      rw [hd]
      cases hm : t0.metric with
      | ids i => exact absurd hm (hcm i)
      | grouped g => rw [hm, hp.grouped g hm] at this; exact this
      | symDiff => rw [hm] at this; exact (tdist_grouped_le _ _ _ _).trans this
    obtain ⟨sh, h1, h2⟩ := row_shares hp.nodup base
    refine ⟨sh, h1, fun k hk => ⟨part_near hp h0 hs hok hD hD' (fun _ => h2 k hk) ?_, tab _ _, tab _ _⟩⟩
    intro i hi
    rw [hp.tab] at hi
    cases hi
  | rowsOfID i r =>
    subst hcut
    obtain ⟨K, hK, hids⟩ := hn.ids t0.space
    have hd : t.dist = r * t0.dist := by rw [hp.tab]; rfl
    have base : tdist ctx.m (.grouped col) (cutRows ctx.h col (.rowsOfID i r) (t0.run x.2))
        (cutRows ctx.h col (.rowsOfID i r) (t0.run x'.2)) ≤ scale ctx.m s * t.dist := by
      refine (tdist_grouped_le _ _ _ _).trans ?_
      refine (Nat.cast_le.2 (rows_of_ids ctx.lawful h0 hcm r hD hD' hids)).trans ?_
      rw [hd, h0.dist i hcm]
      push_cast
      calc (r : ℝ≥0) * K ≤ r * (scale ctx.m s * x.1.idDist t0.space) := mul_le_mul_right hK _
        _ = _ := by ring
    obtain ⟨sh, h1, h2⟩ := row_shares hp.nodup base
    refine ⟨sh, h1, fun k hk => ⟨part_near hp h0 hs hok hD hD' (fun _ => h2 k hk) ?_, tab _ _, tab _ _⟩⟩
    intro i hi
    rw [hp.tab] at hi
    cases hi
  | groupsOfID i g =>
    subst hcut
    obtain ⟨K, hK, hids⟩ := hn.ids t0.space
    obtain ⟨n, n1, n2, n3⟩ := parts_of_ids ctx.lawful hp h0 rfl hs hD hD' hids
    rw [← h0.dist i hcm] at hK
    have hd : t.dist = if ctx.m = .zCDP then NNReal.sqrt g * t0.dist else (g : ℝ≥0) * t0.dist := by rw [hp.tab]; rfl
    obtain ⟨sh, h1, h2⟩ : ∃ sh : ℕ → ℝ≥0, ∑ k ∈ Finset.range vals.length, sh k ≤ s ∧
        ∀ k < vals.length, (n k : ℝ≥0) ≤ scale ctx.m (sh k) * t.dist := by
      refine share_exists ?_
      by_cases hm : ctx.m = .zCDP
      · rw [if_pos hm]
        rw [if_pos hm] at hd
        have h3 : ∑ k ∈ Finset.range vals.length, n k ^ 2 ≤ g * K ^ 2 := by
          calc ∑ k ∈ Finset.range vals.length, n k ^ 2 ≤ ∑ k ∈ Finset.range vals.length, K * n k := by
                refine Finset.sum_le_sum fun k _ => ?_
                rw [pow_two]
                exact Nat.mul_le_mul_right _ (n1 k)
            _ = K * ∑ k ∈ Finset.range vals.length, n k := by rw [Finset.mul_sum]
            _ ≤ K * (g * K) := Nat.mul_le_mul_left _ n2
            _ = g * K ^ 2 := by ring
        have h4 : (K : ℝ≥0) ^ 2 ≤ s * t0.dist ^ 2 := by
          rw [← scale_sq hm]
          exact pow_le_pow_left₀ zero_le hK 2
        have h5 : ∑ k ∈ Finset.range vals.length, (n k : ℝ≥0) ^ 2 ≤ g * (K : ℝ≥0) ^ 2 := by exact_mod_cast h3
        refine h5.trans ?_
        rw [hd, mul_pow, NNReal.sq_sqrt]
        calc (g : ℝ≥0) * (K : ℝ≥0) ^ 2 ≤ g * (s * t0.dist ^ 2) := mul_le_mul_right h4 _
          _ = _ := by ring
      · rw [if_neg hm]
        rw [if_neg hm] at hd
        rw [scale_other hm] at hK
        have h5 : ∑ k ∈ Finset.range vals.length, (n k : ℝ≥0) ≤ g * (K : ℝ≥0) := by exact_mod_cast n2
        refine h5.trans ?_
        rw [hd]
        calc (g : ℝ≥0) * (K : ℝ≥0) ≤ g * (s * t0.dist) := mul_le_mul_right hK _
          _ = _ := by ring
    refine ⟨sh, h1, fun k hk => ⟨part_near hp h0 hs hok hD hD' ?_ (fun _ _ => ⟨n k, h2 k hk, n3 k⟩), tab _ _, tab _ _⟩⟩
    intro hni
    exact absurd (by rw [hp.tab]; rfl) (hni i)

end Verif.Whole
