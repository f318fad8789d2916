import Verif.Whole.Model

/-!
# Stability with real distances
-/

namespace Verif.Whole

open Verif Verif.Schema Verif.Constraint Verif.Expr Verif.Query Verif.Stability
open scoped NNReal

variable {h : Hash} {cat : Cat} {m : Measure} {l2 : Bool}

theorem mul_scaled {a b : ℕ} {σ x : ℝ≥0} (hb : (b : ℝ≥0) ≤ σ * x) : ((a * b : ℕ) : ℝ≥0) ≤ σ * (a * x) := by
  push_cast
  calc (a : ℝ≥0) * b ≤ a * (σ * x) := mul_le_mul_right hb _
    _ = σ * (a * x) := by ring

/-- The stability of a transformation without `RootSumOfSquared`. -/
theorem stability_le {σ : ℝ≥0} {d : String → ℕ} {δ : String → ℝ≥0} (e : Expr)
    (hd : ∀ id ∈ e.sources, (d id : ℝ≥0) ≤ σ * δ id) {o : Out} (ho : compile h cat e = .ok o)
    (hm : ∀ i, o.metric ≠ .ids i) (hk : l2 = true → o.metric = .symDiff) :
    (Stability.stability h cat d e : ℝ≥0) ≤ σ * distOf l2 h cat δ e := by
  induction e generalizing o with
  | source id => exact hd id (by simp [Expr.sources])
  | rename e m' ih =>
    obtain ⟨o', ho', ho⟩ := bind_ok ho
    obtain ⟨_, _, rfl⟩ := visitRename_ok ho
    refine ih hd ho' (fun i hi => hm (renamed m' i) ?_) (fun hz => ?_)
    · show o'.metric.rename m' = _
      rw [hi]; rfl
    · have := hk hz
      change o'.metric.rename m' = _ at this
      generalize o'.metric = x at this
      cases x with
      | symDiff => rfl
      | grouped g => cases this
      | ids i => cases this
  | filter e valid cond ih =>
    obtain ⟨o', ho', ho⟩ := bind_ok ho
    cases ho
    exact ih hd ho' hm hk
  | select e cols ih =>
    obtain ⟨o', ho', ho⟩ := bind_ok ho
    obtain ⟨_, _, rfl⟩ := visitSelect_ok ho
    exact ih hd ho' hm hk
  | map e f new augment ih =>
    obtain ⟨o', ho', ho⟩ := bind_ok ho
    obtain ⟨_, rfl⟩ := visitMap_ok ho
    exact ih hd ho' hm hk
  | flatMap e f new augment n ih =>
    obtain ⟨o', ho', ho⟩ := bind_ok ho
    obtain ⟨g, hdom, hsp, _, _, hrun, hmm⟩ := visitFlatMap_ok ho
    rcases hmm with ⟨⟨i, hi⟩, h1, _⟩ | ⟨h0, _, _, h1⟩
    · exact absurd (h1.trans hi) (hm i)
    · rw [Stability.stability, distOf, if_neg]
      · refine mul_scaled (ih hd ho' h0 fun hz => ?_)
        rcases h1 with ⟨_, h1⟩ | ⟨_, _, h1, _⟩
        · exact h1.symm.trans (hk hz)
        · exact h1
      · rintro ⟨hg, hz⟩
        rcases h1 with ⟨h1, _⟩ | ⟨c, _, _, h2⟩
        · rw [h1] at hg; cases hg
        · rw [hk hz] at h2; cases h2
  | flatMapByID e f new ih =>
    obtain ⟨o', ho', ho⟩ := bind_ok ho
    obtain ⟨j, dd, h1, hdd, hn, e1, e2, e3, _, hrun⟩ := visitFlatMapByID_ok ho
    exact absurd (e2.trans h1) (hm j)
  | joinPrivate l r tl tr cols ihl ihr =>
    obtain ⟨ol, hol, ho⟩ := bind_ok ho
    obtain ⟨or, hor, ho'⟩ := bind_ok ho
    obtain ⟨hs1, hs2, hdd, _, hml, hmr, hcase⟩ := visitJoinPrivate_ok ho'
    rw [hml] at hm hk
    have il := ihl (fun id hid => hd id (by rw [Expr.sources, List.mem_append]; exact .inl hid)) hol hm hk
    have ir := ihr (fun id hid => hd id (by rw [Expr.sources, List.mem_append]; exact .inr hid)) hor
      (fun i hi => hm i (hmr.symm.trans hi)) (fun hz => hmr.trans (hk hz))
    rcases hcase with ⟨i, hi, _⟩ | ⟨a, b, rfl, rfl, _⟩
    · exact absurd hi (hm i)
    rw [Stability.stability, distOf, Nat.cast_add, mul_add]
    exact add_le_add (mul_scaled il) (mul_scaled ir)
  | joinPublic e pub cols how ih =>
    obtain ⟨o', ho', ho⟩ := bind_ok ho
    obtain ⟨_, _, _, _, hm', _⟩ := visitJoinPublic_ok ho
    rw [hm'] at hm hk
    exact mul_scaled (ih hd ho' hm hk)
  | replaceNull e w ih =>
    obtain ⟨o', ho', ho⟩ := bind_ok ho
    obtain ⟨_, _, _, rfl⟩ := visitReplaceNull_ok ho
    exact ih hd ho' hm hk
  | replaceInf e w ih =>
    obtain ⟨o', ho', ho⟩ := bind_ok ho
    obtain ⟨_, rfl⟩ := visitReplaceInf_ok ho
    exact ih hd ho' hm hk
  | dropNull e cols ih =>
    obtain ⟨o', ho', ho⟩ := bind_ok ho
    obtain ⟨_, _, rfl⟩ := visitDropNull_ok ho
    exact ih hd ho' hm hk
  | dropInf e cols ih =>
    obtain ⟨o', ho', ho⟩ := bind_ok ho
    obtain ⟨_, rfl⟩ := visitDropInf_ok ho
    exact ih hd ho' hm hk
  | enforce e c ih =>
    obtain ⟨o', ho', ho⟩ := bind_ok ho
    obtain ⟨_, _, _, rfl⟩ := visitEnforce_ok ho
    exact ih hd ho' hm hk

theorem sq_scaled {a b : ℕ} {σ x : ℝ≥0} (hb : (b : ℝ≥0) ≤ (σ * x) ^ 2) :
    ((a ^ 2 * b : ℕ) : ℝ≥0) ≤ (σ * (a * x)) ^ 2 := by
  push_cast
  calc (a : ℝ≥0) ^ 2 * b ≤ a ^ 2 * (σ * x) ^ 2 := mul_le_mul_right hb _
    _ = (σ * (a * x)) ^ 2 := by ring

/-- The stability of a transformation to a grouped table, for zCDP. -/
theorem stabilitySq_le {σ : ℝ≥0} {d d2 : String → ℕ} {δ : String → ℝ≥0} (e : Expr)
    (hd : ∀ id ∈ e.sources, ∀ s cs, Dict.get cat.priv id = some (s, cs) → metricOf s = .symDiff → (d id : ℝ≥0) ≤ σ * δ id)
    (hd2 : ∀ id ∈ e.sources, ∀ s cs c, Dict.get cat.priv id = some (s, cs) → metricOf s = .grouped c →
      (d2 id : ℝ≥0) ≤ (σ * δ id) ^ 2)
    {o : Out} (ho : compile h cat e = .ok o) {g : String} (hm : o.metric = .grouped g)
    (hown : ownGroups e = true → l2 = true) :
    (Stability.stabilitySq h cat d d2 e : ℝ≥0) ≤ (σ * distOf l2 h cat δ e) ^ 2 := by
  induction e generalizing o g with
  | source id =>
    simp only [compile, visitSource] at ho
    split at ho
    · cases ho
    next s' cs hg =>
    cases ho
    exact hd2 id (by simp [Expr.sources]) s' cs g hg hm
  | rename e m' ih =>
    obtain ⟨o', ho', ho⟩ := bind_ok ho
    obtain ⟨_, _, rfl⟩ := visitRename_ok ho
    obtain ⟨j, hj, _⟩ := (rename_grouped m' o'.metric g).1 hm
    exact ih hd hd2 ho' hj hown
  | filter e valid cond ih =>
    obtain ⟨o', ho', ho⟩ := bind_ok ho
    cases ho
    exact ih hd hd2 ho' hm hown
  | select e cols ih =>
    obtain ⟨o', ho', ho⟩ := bind_ok ho
    obtain ⟨_, _, rfl⟩ := visitSelect_ok ho
    exact ih hd hd2 ho' hm hown
  | map e f new augment ih =>
    obtain ⟨o', ho', ho⟩ := bind_ok ho
    obtain ⟨_, rfl⟩ := visitMap_ok ho
    exact ih hd hd2 ho' hm hown
  | flatMap e f new augment n ih =>
    obtain ⟨o', ho', ho⟩ := bind_ok ho
    obtain ⟨g', hdom, hsp, _, _, hrun, hmm⟩ := visitFlatMap_ok ho
    rcases hmm with ⟨⟨i, hi⟩, h1, _⟩ | ⟨h0, _, _, h1⟩
    · rw [h1, hi] at hm; cases hm
    · rw [Stability.stabilitySq, distOf]
      rcases h1 with ⟨hn, h1⟩ | ⟨c, hn, h1, _⟩
      · rw [if_neg (by simp [hn]), if_neg (by simp [hn])]
        exact sq_scaled (ih hd hd2 ho' (h1.symm.trans hm) (fun ho => hown (by simp [ownGroups, ho])))
      · rw [if_pos (by simp [hn]), if_pos ⟨by simp [hn], hown (by simp [ownGroups, hn])⟩]
        have hb : (Stability.stability h cat d e : ℝ≥0) ≤ σ * distOf l2 h cat δ e := by
          refine stability_le e (fun id hid => ?_) ho' h0 (fun _ => h1)
          obtain ⟨s, cs, hg, _, hs⟩ := sources_rows e ho' h0 id hid
          exact hd id hid s cs hg (hs h1)
        push_cast
        calc ((n.getD 0 : ℕ) : ℝ≥0) * (Stability.stability h cat d e : ℝ≥0) ^ 2
            ≤ (n.getD 0 : ℕ) * (σ * distOf l2 h cat δ e) ^ 2 := by gcongr
          _ = (σ * (NNReal.sqrt (n.getD 0 : ℕ) * distOf l2 h cat δ e)) ^ 2 := by
              rw [mul_pow, mul_pow, mul_pow, NNReal.sq_sqrt]; ring
  | flatMapByID e f new ih =>
    obtain ⟨o', ho', ho⟩ := bind_ok ho
    obtain ⟨j, dd, h1, hdd, hn, e1, e2, e3, _, hrun⟩ := visitFlatMapByID_ok ho
    rw [e2, h1] at hm; cases hm
  | joinPrivate l r tl tr cols ihl ihr =>
    obtain ⟨ol, hol, ho⟩ := bind_ok ho
    obtain ⟨or, hor, ho'⟩ := bind_ok ho
    obtain ⟨hs1, hs2, hdd, _, hml, hmr, hcase⟩ := visitJoinPrivate_ok ho'
    rw [hml] at hm
    rcases hcase with ⟨i, hi, _⟩ | ⟨_, _, _, _, hi, _⟩ <;> rw [hi] at hm <;> cases hm
  | joinPublic e pub cols how ih =>
    obtain ⟨o', ho', ho⟩ := bind_ok ho
    obtain ⟨_, _, _, _, hm', _⟩ := visitJoinPublic_ok ho
    rw [hm'] at hm
    exact sq_scaled (ih hd hd2 ho' hm hown)
  | replaceNull e w ih =>
    obtain ⟨o', ho', ho⟩ := bind_ok ho
    obtain ⟨_, _, _, rfl⟩ := visitReplaceNull_ok ho
    exact ih hd hd2 ho' hm hown
  | replaceInf e w ih =>
    obtain ⟨o', ho', ho⟩ := bind_ok ho
    obtain ⟨_, rfl⟩ := visitReplaceInf_ok ho
    exact ih hd hd2 ho' hm hown
  | dropNull e cols ih =>
    obtain ⟨o', ho', ho⟩ := bind_ok ho
    obtain ⟨_, _, rfl⟩ := visitDropNull_ok ho
    exact ih hd hd2 ho' hm hown
  | dropInf e cols ih =>
    obtain ⟨o', ho', ho⟩ := bind_ok ho
    obtain ⟨_, rfl⟩ := visitDropInf_ok ho
    exact ih hd hd2 ho' hm hown
  | enforce e c ih =>
    obtain ⟨o', ho', ho⟩ := bind_ok ho
    obtain ⟨_, _, _, rfl⟩ := visitEnforce_ok ho
    exact ih hd hd2 ho' hm hown

/-- A flat map that makes groups starts from tables without groups. -/
theorem own_sources (e : Expr) {o : Out} (ho : compile h cat e = .ok o) (hm : ∀ i, o.metric ≠ .ids i)
    (hown : ownGroups e = true) :
    ∀ id ∈ e.sources, ∃ s cs, Dict.get cat.priv id = some (s, cs) ∧ metricOf s = .symDiff := by
  induction e generalizing o with
  | source id => cases hown
  | rename e m' ih =>
    obtain ⟨o', ho', ho⟩ := bind_ok ho
    obtain ⟨_, _, rfl⟩ := visitRename_ok ho
    refine ih ho' (fun i hi => hm (renamed m' i) ?_) hown
    show o'.metric.rename m' = _
    rw [hi]; rfl
  | filter e valid cond ih =>
    obtain ⟨o', ho', ho⟩ := bind_ok ho
    cases ho
    exact ih ho' hm hown
  | select e cols ih =>
    obtain ⟨o', ho', ho⟩ := bind_ok ho
    obtain ⟨_, _, rfl⟩ := visitSelect_ok ho
    exact ih ho' hm hown
  | map e f new augment ih =>
    obtain ⟨o', ho', ho⟩ := bind_ok ho
    obtain ⟨_, rfl⟩ := visitMap_ok ho
    exact ih ho' hm hown
  | flatMap e f new augment n ih =>
    obtain ⟨o', ho', ho⟩ := bind_ok ho
    obtain ⟨g, hdom, hsp, _, _, hrun, hmm⟩ := visitFlatMap_ok ho
    rcases hmm with ⟨⟨i, hi⟩, h1, _⟩ | ⟨h0, _, _, h1⟩
    · exact absurd (h1.trans hi) (hm i)
    · rcases h1 with ⟨hn, h1⟩ | ⟨c, hn, h1, _⟩
      · refine ih ho' h0 ?_
        simpa [ownGroups, hn] using hown
      · intro id hid
        obtain ⟨s, cs, hg, _, hs⟩ := sources_rows e ho' h0 id hid
        exact ⟨s, cs, hg, hs h1⟩
  | flatMapByID e f new ih =>
    obtain ⟨o', ho', ho⟩ := bind_ok ho
    obtain ⟨j, dd, h1, hdd, hn, e1, e2, e3, _, hrun⟩ := visitFlatMapByID_ok ho
    exact absurd (e2.trans h1) (hm j)
  | joinPrivate l r tl tr cols ihl ihr => cases hown
  | joinPublic e pub cols how ih =>
    obtain ⟨o', ho', ho⟩ := bind_ok ho
    obtain ⟨_, _, _, _, hm', _⟩ := visitJoinPublic_ok ho
    rw [hm'] at hm
    exact ih ho' hm hown
  | replaceNull e w ih =>
    obtain ⟨o', ho', ho⟩ := bind_ok ho
    obtain ⟨_, _, _, rfl⟩ := visitReplaceNull_ok ho
    exact ih ho' hm hown
  | replaceInf e w ih =>
    obtain ⟨o', ho', ho⟩ := bind_ok ho
    obtain ⟨_, rfl⟩ := visitReplaceInf_ok ho
    exact ih ho' hm hown
  | dropNull e cols ih =>
    obtain ⟨o', ho', ho⟩ := bind_ok ho
    obtain ⟨_, _, rfl⟩ := visitDropNull_ok ho
    exact ih ho' hm hown
  | dropInf e cols ih =>
    obtain ⟨o', ho', ho⟩ := bind_ok ho
    obtain ⟨_, rfl⟩ := visitDropInf_ok ho
    exact ih ho' hm hown
  | enforce e c ih =>
    obtain ⟨o', ho', ho⟩ := bind_ok ho
    obtain ⟨_, _, _, rfl⟩ := visitEnforce_ok ho
    exact ih ho' hm hown

/-- A compiled expression without IDs moves by no more than core computes, in the metric of its table. -/
theorem tdist_le (hl : h.Lawful) {D D' : Data} (hc : cat.OK) (hcg : CatGroupsNotFloat cat) (hD : cat.DataOK D)
    (hD' : cat.DataOK D') {e : Expr} (he : Admissible e) {s : Schema} {o : Out} (hs : schemaOf cat e = .ok s)
    (ho : compile h cat e = .ok o) (hm : ∀ i, o.metric ≠ .ids i) (hl2 : l2 = true → m = .zCDP) {σ : ℝ≥0}
    {δ : String → ℝ≥0}
    (hd : ∀ id ∈ e.sources, ∀ s cs, Dict.get cat.priv id = some (s, cs) → (∀ i, metricOf s ≠ .ids i) →
      tdist m (metricOf s) (D id) (D' id) ≤ σ * δ id) :
    tdist (innerOf m l2 e) o.metric (o.run D) (o.run D') ≤ σ * distOf l2 h cat δ e := by
  have src := sources_rows e ho hm
  have rows : (l2 = true → o.metric = .symDiff) → (ownGroups e = true ∨ (m = .zCDP → o.metric = .symDiff)) →
      (rowDist (o.run D) (o.run D') : ℝ≥0) ≤ σ * distOf l2 h cat δ e := by
    intro hz hown
    have h1 := rows_stable (d := fun id => rowDist (D id) (D' id)) hl e (fun _ _ => le_rfl) ho hm
    refine (Nat.cast_le.2 h1).trans (stability_le e (fun id hid => ?_) ho hm hz)
    obtain ⟨s', cs, hg, hni, hsym⟩ := src id hid
    have := hd id hid s' cs hg hni
    rcases hown with hown | hown
    · obtain ⟨s'', cs'', hg'', hsym''⟩ := own_sources e ho hm hown id hid
      rw [hg] at hg''
      cases hg''
      rw [hsym''] at this
      exact this
    · generalize metricOf s' = k at this hni hsym
      cases k with
      | symDiff => exact this
      | ids i => exact absurd rfl (hni i)
      | grouped g =>
        simp only [tdist] at this
        split at this
        · next hz' => cases hsym (hown hz')
        · exact this
  cases hk : o.metric with
  | symDiff => exact rows (fun _ => hk) (.inr fun _ => hk)
  | ids i => exact absurd hk (hm i)
  | grouped g =>
    simp only [tdist]
    split
    · next hz =>
      have hmz : m = .zCDP ∧ (ownGroups e = true → l2 = true) := by
        unfold innerOf at hz
        by_cases hown : ownGroups e = true
        · rw [if_pos hown] at hz
          have : l2 = true := by
            cases l2
            · cases hz
            · rfl
          exact ⟨hl2 this, fun _ => this⟩
        · rw [if_neg hown] at hz
          exact ⟨hz, fun h => absurd h hown⟩
      obtain ⟨rfl, hown⟩ := hmz
      rw [rootDist_le]
      obtain ⟨t, ht, hne⟩ := group_typed hc hcg e he.wf he.renames he.groups hs ho g hk
      have h1 := groups_stable (d := fun id => rowDist (D id) (D' id))
        (d2 := fun id => match Dict.get cat.priv id with
          | some (s, _) => (match s.grouping with
            | some c => sqDist (fun r => cell r c) (D id) (D' id)
            | none => 0)
          | none => 0) hl hc hD hD' e he.wf he.fns he.renames hs ho hk
        (by rw [ht]; exact fun hh => hne (Option.some.inj hh)) (fun _ _ => le_rfl)
        (by intro id _ s' cs c h1 h2; simp only [h1, h2]; exact le_rfl)
      refine (Nat.cast_le.2 h1).trans (stabilitySq_le e ?_ ?_ ho hk hown)
      · intro id hid s' cs hg hsym
        have := hd id hid s' cs hg (by rw [hsym]; nofun)
        rw [hsym] at this
        exact this
      · intro id hid s' cs c hg hgr
        have := hd id hid s' cs hg (by rw [hgr]; nofun)
        rw [hgr] at this
        simp only [hg, metricOf_grouped hgr]
        simp only [tdist, if_true] at this
        exact rootDist_le.1 this
    · next hz =>
      have hmz : l2 = false ∧ (ownGroups e = true ∨ m ≠ .zCDP) := by
        unfold innerOf at hz
        by_cases hown : ownGroups e = true
        · rw [if_pos hown] at hz
          refine ⟨?_, .inl hown⟩
          cases l2
          · rfl
          · exact absurd rfl hz
        · rw [if_neg hown] at hz
          refine ⟨?_, .inr hz⟩
          cases hl : l2
          · rfl
          · exact absurd (hl2 hl) hz
      exact rows (fun h => by rw [hmz.1] at h; cases h) (hmz.2.imp id fun h h' => absurd h' h)

end Verif.Whole
