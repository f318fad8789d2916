import Verif.Whole.Plan

/-!
# Measurements protect the data of a session
-/

namespace Verif.Whole

open Verif Verif.Schema Verif.Constraint Verif.Expr Verif.Query Verif.Stability
open Verif.Budget (XNum PB Rounding)
open Verif.Composition
open scoped NNReal

theorem conf_empty (R : Root) : Conf R (fun _ => []) := fun _ _ _ r hr => by cases hr

theorem Admissible.extends {e e' : Expr} (h : Admissible e) (hx : Extends e e') : Admissible e' := by
  obtain ⟨_, k2, k3, k4, k5, _⟩ := hx.keeps
  refine ⟨k2 h.wf, k3 h.fns, k4 h.renames, k5 h.orderFree, ?_⟩
  have hg := h.groups
  clear h k2 k3 k4 k5
  rename_i k1 k6
  clear k1 k6
  induction hx with
  | refl => exact hg
  | dropNull _ ih => exact ih
  | dropInf _ ih => exact ih
  | replaceInf _ _ ih => exact ih
  | enforce _ ih => exact ih

/-! ## Tables without IDs -/

theorem cell_select {cols : List String} {r : Row} {g : String} (hg : g ∈ cols) :
    cell (cols.map (fun x => (x, cell r x))) g = cell r g := by
  have := get_row_select r hg
  unfold cell at this ⊢
  rw [this]
  rfl

theorem sqDist_select {cols : List String} {g : String} (hg : g ∈ cols) (s t : Table) :
    sqDist (fun r => cell r g) (s.map (fun r => cols.map (fun x => (x, cell r x))))
      (t.map (fun r => cols.map (fun x => (x, cell r x)))) ≤ sqDist (fun r => cell r g) s t := by
  have := sqDist_flatMap (key := fun r => cell r g) (key' := fun r => cell r g)
    (F := fun r => [cols.map (fun x => (x, cell r x))]) (k := 1) (s := s) (t := t)
    (fun r _ => ⟨le_rfl, fun x hx => by rw [List.mem_singleton.1 hx]; exact cell_select hg⟩)
    (fun r _ => ⟨le_rfl, fun x hx => by rw [List.mem_singleton.1 hx]; exact cell_select hg⟩)
  rwa [one_pow, one_mul, ← List.map_eq_flatMap, ← List.map_eq_flatMap] at this

/-- Grouping by more columns does not increase the distance. -/
theorem sqDist_columns {cols : List String} {g : String} (hg : g ∈ cols) (s t : Table) :
    sqDist (fun r => cols.map (fun x => Row.get r x)) s t ≤ sqDist (fun r => cell r g) s t := by
  obtain ⟨n, hn, rfl⟩ := List.mem_iff_getElem.1 hg
  refine sqDist_finer (fun l => (l.getD n none).getD .null) ?_ ?_ <;>
  · intro r _
    simp [cell, List.getD, hn]

section
variable {env : Query.Env} {b : PB} {q : Query} {p : Plan} {tables : List (String × Tab)} {R : Root} {D D' : Data}
variable {o : Out} {c : Call}

theorem rows_case (hl : env.h.Lawful) (hc : CatFacts env.m tables R env.cat) (he : Admissible (child q))
    (h : compileQuery env b q = .ok p) (hf : PlanFacts env b q p) (ho : compile env.h env.cat p.child = .ok o)
    (hm : ∀ i, o.metric ≠ .ids i) (hroot : (rootMetric env.m (groupCols q) o p && !p.useL2) = false)
    (c1 : c.useL2 = p.useL2) (c2 : c.keys = p.keys) {σ : ℝ≥0} (hD : Conf R D) (hD' : Conf R D')
    (hr : RowsClose env.m R σ D D') :
    callDist c (p.prep (resolve tables D)) (p.prep (resolve tables D')) ≤
      σ * planDelta env.m env.h env.cat tables (groupCols q) o p := by
  obtain ⟨e, s, o', col, f, hpc, hx, hb, ht, hp⟩ := prep_ok h
  obtain ⟨hs', ho', _⟩ := build_ok hb
  subst hpc
  rw [ho] at ho'
  cases ho'
  have hne : p.trunc = none ∧ f = o.run := by
    generalize p.trunc = tr0 at ht ⊢
    unfold truncateOut at ht
    split at ht
    · next i hi => exact absurd hi (hm i)
    · cases ht; exact ⟨rfl, rfl⟩
  obtain ⟨htr, rfl⟩ := hne
  have hv : visitL2 p = true → p.useL2 = true := by
    unfold visitL2
    split
    · nofun
    · exact id
  have main := out_rows hl hc (he.extends hx) hs' ho hm (l2 := visitL2 p) (fun h => hf.l2 (hv h)) hD hD' hr
  have hdelta : planDelta env.m env.h env.cat tables (groupCols q) o p =
      outDist (visitL2 p) env.h env.cat tables o p.child := by
    unfold planDelta
    rw [htr]
  rw [hdelta]
  generalize σ * outDist (visitL2 p) env.h env.cat tables o p.child = Δ at main ⊢
  have rows : rowDist (p.prep (resolve tables D)) (p.prep (resolve tables D')) ≤
      rowDist (o.run (resolve tables D)) (o.run (resolve tables D')) := by
    rcases hp with hp | ⟨cols, _, _, hp⟩ <;> rw [hp]
    exact rowDist_map _ _ _
  unfold callDist
  rw [c1, c2]
  split
  · next hu =>
    cases hk : o.metric with
    | ids i => exact absurd hk (hm i)
    | symDiff =>
      rw [hk] at main
      exact (rootDist_le_rowDist _ _ _).trans ((Nat.cast_le.2 rows).trans main)
    | grouped g =>
      rw [hk] at main
      simp only [tdist] at main
      split at main
      swap
      · exact (rootDist_le_rowDist _ _ _).trans ((Nat.cast_le.2 rows).trans main)
      rw [rootDist_le] at main ⊢
      refine le_trans (Nat.cast_le.2 ?_) main
      have hg : g ∈ groupCols q := by
        obtain ⟨o0, h0, hm0⟩ := hx.metric ho
        have htag := (metric_groupTag hc.ok _ h0 g).1 (hm0.trans hk)
        cases q with
        | agg a => exact (C21_required env hc.ok b _ a rfl p h g htag).1
        | suppress a col t => exact (C21_required env hc.ok b _ a rfl p h g htag).1
        | groups e cols =>
          cases hf.agg hu
      rw [hf.keys hu]
      refine (sqDist_columns hg _ _).trans ?_
      rcases hp with hp | ⟨cols, hsub, _, hp⟩ <;> rw [hp]
      exact sqDist_select (hsub g hg) _ _
  · next hu =>
    refine le_trans (Nat.cast_le.2 rows) ?_
    cases hk : o.metric with
    | ids i => exact absurd hk (hm i)
    | symDiff => rw [hk] at main; exact main
    | grouped g =>
      rw [hk] at main
      simp only [tdist] at main
      split at main
      · next hz =>
        exfalso
        have : rootMetric env.m (groupCols q) o p = true := by
          unfold rootMetric
          rw [htr, hk]
          simp [hz, groupOf]
        rw [this] at hroot
        simp [hu] at hroot
      · exact main

/-! ## Tables with IDs -/

/-- The rows of one ID are removed: boundedly many rows disappear. -/
theorem trunc_step {h : Hash} (hl : h.Lawful) (m : Measure) (grouping : List String) (tr : Truncation) {i : String}
    {v : Option Value} {S T : Table}
    (hst : (S.filter (fun r => decide (Row.get r i ≠ v))).Perm (T.filter (fun r => decide (Row.get r i ≠ v))))
    (hT : T.filter (fun r => decide (Row.get r i = v)) = []) :
    ∃ C X, (applyTruncation h i tr S).Perm (C ++ X) ∧ (applyTruncation h i tr T).Perm C ∧
      changeSq m grouping X ≤ Constraint.stabilitySq m grouping tr := by
  obtain ⟨C, X, Y, p1, p2, b1, _, hv⟩ := C17_neighbours h hl m i grouping tr S T v hst
  have hY : Y = [] := by
    rw [List.eq_nil_iff_forall_not_mem]
    intro r hr
    have hmem := (applyTruncation_subperm h i tr T).subset (p2.mem_iff.2 (List.mem_append_right _ hr))
    have : r ∈ T.filter (fun r => decide (Row.get r i = v)) :=
      List.mem_filter.2 ⟨hmem, decide_eq_true (hv r (List.mem_append_right _ hr))⟩
    rw [hT] at this
    cases this
  subst hY
  rw [List.append_nil] at p2
  exact ⟨C, X, p1, p2, b1⟩

/-- The distance of a table that gets more rows. -/
theorem callDist_append {m : Measure} {grouping : List String} {tr : Truncation} (hl2 : c.useL2 = true → m = .zCDP)
    (hk : c.useL2 = true → c.keys.columns = grouping)
    (hroot : c.useL2 = false → m = .zCDP → ∀ col g r, tr = .groups col g r → col ∉ grouping) {C X : Table}
    (hX : changeSq (if c.useL2 then .zCDP else .pureDP) grouping X ≤
      Constraint.stabilitySq (if c.useL2 then .zCDP else .pureDP) grouping tr) :
    callDist c (C ++ X) C ≤ NNReal.sqrt (Constraint.stabilitySq m grouping tr) := by
  unfold callDist
  by_cases hu : c.useL2 = true
  · rw [if_pos hu] at hX ⊢
    rw [rootDist_le, NNReal.sq_sqrt, sqDist_append, hl2 hu, hk hu]
    exact_mod_cast hX
  · rw [if_neg hu] at hX ⊢
    rw [rowDist_append_self, NNReal.le_sqrt_iff_sq_le]
    have e : Constraint.stabilitySq m grouping tr = Constraint.stabilitySq .pureDP grouping tr := by
      cases tr with
      | rows n => rfl
      | groups col g r =>
        simp only [Constraint.stabilitySq, true_or, if_true]
        rw [if_pos]
        by_cases hm : m = .zCDP
        · exact .inr (.inr (hroot (by simpa using hu) hm col g r rfl))
        · cases m
          · exact .inl rfl
          · exact .inr (.inl rfl)
          · exact absurd rfl hm
    rw [e]
    exact_mod_cast hX

theorem ids_case (hl : env.h.Lawful) (hc : CatFacts env.m tables R env.cat) (ht0 : ∀ p ∈ tables, TabOK env.m p.2 R)
    (he : Admissible (child q)) (h : compileQuery env b q = .ok p) (hf : PlanFacts env b q p)
    (ho : compile env.h env.cat p.child = .ok o) {i : String} (hi : o.metric = .ids i)
    (hroot : (rootMetric env.m (groupCols q) o p && !p.useL2) = false) (c1 : c.useL2 = p.useL2) (c2 : c.keys = p.keys)
    {k : ℕ} {σ : ℝ≥0} (hk : (k : ℝ≥0) ≤ σ * R.idDist o.space) (hD : Conf R D) (hD' : Conf R D')
    (hr : IDs R o.space k D D') :
    callDist c (p.prep (resolve tables D)) (p.prep (resolve tables D')) ≤
      σ * planDelta env.m env.h env.cat tables (groupCols q) o p := by
  obtain ⟨e, s, o', col, f, hpc, hx, hb, ht, hp⟩ := prep_ok h
  obtain ⟨hs', ho', _⟩ := build_ok hb
  subst hpc
  rw [ho] at ho'
  cases ho'
  obtain ⟨tr, htr, hfe⟩ : ∃ tr, p.trunc = some tr ∧ f = fun D => applyTruncation env.h i tr (o.run D) := by
    generalize p.trunc = tr0 at ht ⊢
    unfold truncateOut at ht
    rw [hi] at ht
    simp only at ht
    split at ht
    · cases ht
    · next tr _ => cases ht; exact ⟨tr, rfl, rfl⟩
  have hdelta : planDelta env.m env.h env.cat tables (groupCols q) o p =
      R.idDist o.space * NNReal.sqrt (Constraint.stabilitySq env.m (groupCols q) tr) := by
    unfold planDelta
    rw [htr]
    simp only
    rw [out_dist hc ho hi _]
  have hroot' : c.useL2 = false → env.m = .zCDP → ∀ col g r, tr = .groups col g r → col ∉ groupCols q := by
    intro hu hz col g r hgr hmem
    have : rootMetric env.m (groupCols q) o p = true := by
      unfold rootMetric
      rw [htr, hz, hgr]
      simp [hmem]
    rw [this] at hroot
    rw [c1] at hu
    simp [hu] at hroot
  have bound : ∀ {C X : Table}, changeSq (if c.useL2 then .zCDP else .pureDP) (groupCols q) X ≤
      Constraint.stabilitySq (if c.useL2 then .zCDP else .pureDP) (groupCols q) tr →
      callDist c (C ++ X) C ≤ NNReal.sqrt (Constraint.stabilitySq env.m (groupCols q) tr) := by
    intro C X hX
    refine callDist_append ?_ ?_ hroot' hX
    · rw [c1]; exact hf.l2
    · rw [c1, c2]; exact hf.keys
  -- one ID is removed
  have drop : ∀ {D E : Data} {v : Option Value}, Conf R D → Conf R E → SameRows R o.space (fun x => decide (x ≠ v)) D E →
      SameRows R o.space (fun x => decide (x = v)) E (fun _ => []) →
      callDist c (p.prep (resolve tables D)) (p.prep (resolve tables E)) ≤
        NNReal.sqrt (Constraint.stabilitySq env.m (groupCols q) tr) := by
    intro D E v hD hE h1 h2
    have s1 := out_ids hl hc (he.extends hx) hs' ho hi hD hE h1
    have s2 := out_ids hl hc (he.extends hx) hs' ho hi hE (conf_empty R) h2
    rw [resolve_empty hc ho ht0] at s2
    obtain ⟨C, X, p1, p2, b1⟩ := trunc_step hl (if c.useL2 then .zCDP else .pureDP) (groupCols q) tr s1 (List.perm_nil.1 s2)
    rcases hp with hp | ⟨cols, hg, hsub, hp⟩
    · rw [hp, hfe, callDist_congr c p1 p2]
      exact bound b1
    · have cf := rows_conform hc.ok (hc.data D hD) _ (he.extends hx).wf (he.extends hx).fns (he.extends hx).renames hs' ho
      have sub : ∀ r ∈ X, ∀ c ∈ cols, Row.get r c = some (cell r c) := by
        intro r hrX x hxc
        have := (applyTruncation_subperm env.h i tr _).subset (p1.mem_iff.2 (List.mem_append_right _ hrX))
        exact (cf r this).get (hsub x hxc)
      rw [hp, hfe]
      simp only
      rw [callDist_congr c ((p1.map _).trans (by rw [List.map_append])) (p2.map _)]
      refine bound ?_
      rw [changeSq_select _ hg sub]
      exact b1
  rw [hdelta]
  have main : ∀ {k : ℕ} {D D' : Data}, Conf R D → Conf R D' → IDs R o.space k D D' →
      callDist c (p.prep (resolve tables D)) (p.prep (resolve tables D')) ≤
        k * NNReal.sqrt (Constraint.stabilitySq env.m (groupCols q) tr) := by
    intro k D D' hD hD' hr
    induction hr with
    | @same D D' h1 =>
      have s1 := out_ids hl hc (he.extends hx) hs' ho hi hD hD' h1
      simp only [List.filter_true] at s1
      have pf : (p.prep (resolve tables D)).Perm (p.prep (resolve tables D')) := by
        have := applyTruncation_congr env.h hl i tr s1
        rcases hp with hp | ⟨cols, _, _, hp⟩
        · rw [hp, hfe]; exact this
        · rw [hp, hfe]; exact this.map _
      rw [callDist_congr c pf (.refl _), callDist_self]
      exact zero_le
    | @step k D E D' h1 hE _ ih =>
      refine (callDist_triangle c _ (p.prep (resolve tables E)) _).trans ?_
      have h2 : callDist c (p.prep (resolve tables D)) (p.prep (resolve tables E)) ≤
          NNReal.sqrt (Constraint.stabilitySq env.m (groupCols q) tr) := by
        obtain ⟨v, h1, h2 | h2⟩ := h1
        · rw [callDist_comm]
          exact drop hE hD (fun n s i a b c => (h1 n s i a b c).symm) h2
        · exact drop hD hE h1 h2
      calc _ ≤ NNReal.sqrt (Constraint.stabilitySq env.m (groupCols q) tr) +
            k * NNReal.sqrt (Constraint.stabilitySq env.m (groupCols q) tr) := add_le_add h2 (ih hE hD')
        _ = _ := by push_cast; ring
  refine (main hD hD' hr).trans ?_
  rw [← mul_assoc]
  exact mul_le_mul_left hk _

end

theorem measureOf_total {b t : PB} (h : t = b ∨ ∃ ε δ, b = .approx ε δ ∧ t = .approx ε 0) : measureOf t = measureOf b := by
  rcases h with rfl | ⟨ε, δ, rfl, rfl⟩ <;> rfl

theorem valid_total {b t : PB} (hb : b.Valid) (h : t = b ∨ ∃ ε δ, b = .approx ε δ ∧ t = .approx ε 0) : t.Valid := by
  rcases h with rfl | ⟨ε, δ, rfl, rfl⟩
  · exact hb
  · exact ⟨hb.1, le_rfl, WithTop.coe_nonneg.2 zero_le_one⟩

theorem visitL2_le (p : Plan) : visitL2 p = true → p.useL2 = true := by
  unfold visitL2
  split
  · nofun
  · exact id

/-- Metrics with a `RootSumOfSquared` are only found in zCDP sessions. -/
theorem root_zcdp {m : Measure} {p : Plan} (hl : p.useL2 = true → m = .zCDP) (hm : m ≠ .zCDP) (grouping : List String)
    (o : Out) : rootMetric m grouping o p = false := by
  have hv : visitL2 p = false := by
    cases h : visitL2 p
    · rfl
    · exact absurd (hl (visitL2_le p h)) hm
  unfold rootMetric
  split
  · simp [hm]
  · rfl
  · unfold innerOf
    rw [hv]
    by_cases ho : ownGroups p.child = true <;> simp [ho, hm]

theorem scale_le_one {m : Measure} {s : ℝ≥0} (hs : s ≤ 1) : scale m s ≤ 1 := by
  unfold scale
  split
  · exact NNReal.sqrt_le_one.2 hs
  · exact hs

/-- Distances are roots of natural numbers. -/
theorem callDist_root (c : Call) (s t : Table) : ∃ n : ℕ, callDist c s t = NNReal.sqrt n := by
  unfold callDist
  split
  · exact ⟨_, rfl⟩
  · refine ⟨rowDist s t ^ 2, ?_⟩
    push_cast
    exact (NNReal.sqrt_sq _).symm

/-- Squares of distances may be used instead of distances. -/
theorem le_callDelta {m : Measure} {h : Hash} {cat : Cat} {tables : List (String × Tab)} {grouping : List String} {o : Out}
    {p : Plan} {c : Call} {X Y : Table} {σ : ℝ≥0} (hσ : σ ≤ 1)
    (hd : callDist c X Y ≤ σ * planDelta m h cat tables grouping o p) :
    callDist c X Y ≤ σ * callDelta m h cat tables grouping o p := by
  unfold callDelta
  split
  · obtain ⟨n, hn⟩ := callDist_root c X Y
    generalize planDelta m h cat tables grouping o p = Δ at hd
    have h1 : callDist c X Y ≤ callDist c X Y ^ 2 := by
      rw [hn, NNReal.sq_sqrt]
      rcases Nat.eq_zero_or_pos n with rfl | hpos
      · simp
      · rw [NNReal.sqrt_le_iff_le_sq]
        exact_mod_cast Nat.le_self_pow (by decide) n
    calc callDist c X Y ≤ callDist c X Y ^ 2 := h1
      _ ≤ (σ * Δ) ^ 2 := by gcongr
      _ = σ * (σ * Δ ^ 2) := by ring
      _ ≤ σ * (1 * Δ ^ 2) := by gcongr
      _ = σ * Δ ^ 2 := by rw [one_mul]
  · exact hd

/-- An accepted measurement is as private as its budget says, for any share of it. -/
theorem measurement_private {ctx : Ctx} {core : Core} (hcore : core.Private ctx.m) {s : ℝ≥0} (hs : s ≤ 1)
    {x x' : Root × Data} (hn : Near ctx.m s x x') {tables : List (String × Tab)} {pub : List (String × PubFrame)}
    (ht : ∀ p ∈ tables, TabOK ctx.m p.2 x.1) {r : Request} {b : PB} {m : Meas} (hbv : b.Valid)
    (hm : compileM ctx tables pub r b = .ok m) (hcov : covered m b = true) :
    Within b s ((sem ctx core).mech m x) ((sem ctx core).mech m x') := by
  cases r with
  | table e ok => cases hm
  | query q ok =>
    dsimp only [compileM] at hm
    split at hm
    · cases hm
    next hmb =>
    split at hm
    · cases hm
    next cat hc =>
    split at hm
    · cases hm
    next p hp =>
    split at hm
    · cases hm
    next o ho =>
    split at hm
    · cases hm
    next hroot =>
    have cf := cat_facts hc ht
    have hf := plan_facts cf.ok ok.wf hp
    have hmb : measureOf b = ctx.m := by simpa using hmb
    cases hm
    by_cases hbi : b.isInfinite = true
    · intro hb; rw [hbi] at hb; cases hb
    have hbi : b.isInfinite = false := by simpa using hbi
    have hd : p.total = b ∨ ∃ ε δ, b = .approx ε δ ∧ p.total = .approx ε 0 ∧ 0 ≤ δ := by
      rcases hf.total with h1 | ⟨ε, δ, rfl, h1⟩
      · exact .inl h1
      · simp only [covered, h1, Bool.and_eq_true, decide_eq_true_eq] at hcov
        exact .inr ⟨ε, δ, rfl, h1, hcov.2⟩
    have hcall : CallOK ctx.m ⟨p.total, p.keyBudget, p.aggBudget, p.mech, p.useL2, p.keys, p.task,
        callDelta ctx.m ctx.h cat tables (groupCols q) o p⟩ :=
      ⟨by rw [← hmb]; exact measureOf_total hf.total, valid_total hbv hf.total, hf.l2, hf.gauss, by rw [← hmb]; exact hf.auto, hf.parts hbi⟩
    have hroot' : (rootMetric ctx.m (groupCols q) o p && !p.useL2) = false := by
      by_cases hu : unwraps p.task = true
      · by_cases hz : ctx.m = .zCDP
        · rw [hf.unwrap hu hmb hz]; simp
        · rw [root_zcdp hf.l2 hz]; rfl
      · simpa [hu] using hroot
    dsimp only [sem]
    refine within_total hd (within_post (hcore _ s _ _ hs hcall ?_) _)
    refine le_callDelta (scale_le_one hs) ?_
    by_cases hi : ∃ i, o.metric = .ids i
    · obtain ⟨i, hi⟩ := hi
      obtain ⟨k, hk, hids⟩ := hn.ids o.space
      exact ids_case (env := ⟨ctx.h, ctx.order, ctx.m, cat⟩) ctx.lawful cf ht ok hp hf ho hi hroot' rfl rfl
        hk hn.conf hn.conf' hids
    · exact rows_case (env := ⟨ctx.h, ctx.order, ctx.m, cat⟩) ctx.lawful cf ok hp hf ho (fun i h => hi ⟨i, h⟩)
        hroot' rfl rfl hn.conf hn.conf' hn.rows

end Verif.Whole
