import Verif.Composition.Props

/-!
# C81: several sessions

An analyst works with several sessions at once, in any order, and chooses each call with all answers of all of them.
-/

namespace Verif.Composition

open Verif.Budget (XNum PB Rounding)
open Verif.Session
open scoped ENNReal NNReal

variable {Q M T D V X A B : Type}

/-! ## Specification -/

/-- A session with its data, and the sessions that were split from it. -/
structure Running (M T D X : Type) where
  world : World M T D
  data : Nat → X

/-- What has been seen so far, latest call first, with the session that was called. -/
abbrev Histories (N : ℕ) (Q M D V A : Type) := List (Fin N × Op Q D V × Reply M A)

/-- An analyst of several sessions: the distribution of the session that is called next, and of the call. -/
abbrev Analysts (N : ℕ) (Q M T D V A : Type) := Histories N Q M D V A → (Fin N → World M T D) → PMF (Fin N × Op Q D V)

/-- The distribution of what the analyst sees in `n` calls. -/
noncomputable def interleaved {N : ℕ} (env : Env Q M T D V) (sem : Sem M T V X A) (analyst : Analysts N Q M T D V A) :
    Nat → (Fin N → Running M T D X) → Histories N Q M D V A → PMF (Histories N Q M D V A)
  | 0, _, hist => PMF.pure hist
  | n + 1, run, hist =>
    (analyst hist (fun j => (run j).world)).bind (fun p =>
      (respond sem (run p.1).data p.2.target (step env (run p.1).world p.2).1).bind (fun r =>
        interleaved env sem analyst n
          (Function.update run p.1 ⟨(step env (run p.1).world p.2).2,
            nextData sem (run p.1).world (run p.1).data p.2 (step env (run p.1).world p.2).1⟩)
          ((p.1, p.2, r) :: hist)))

/-! ## Proofs -/

/-- Data of a session and of its descendants that differ by shares of what is protected. -/
structure Apart (near : ℝ≥0 → X → X → Prop) (fits : T → X → Prop) (k : PB) (w : World M T D) (data data' : Nat → X)
    (share : Nat → ℝ≥0) : Prop where
  finite : AllFinite k w.nodes
  near : ∀ i < w.nodes.length, share i ≤ 1 ∧ near (share i) (data i) (data' i)
  fits : ∀ (i : Nat) (n : Node M T), w.nodes[i]? = some n → ∀ p ∈ n.tables, fits p.2 (data i) ∧ fits p.2 (data' i)

/-- One call: what it shows and what is left after it together show no more than what was left before. -/
theorem step_close {env : Env Q M T D V} (hr : env.rounding.Lawful) {sem : Sem M T V X A} {near : ℝ≥0 → X → X → Prop}
    {fits : T → X → Prop} (hs : Sound env sem near fits) {k : PB} {w : World M T D} {data data' : Nat → X}
    {share : Nat → ℝ≥0} (ha : Apart near fits k w data data' share) {op : Op Q D V} (hop : op.BudgetValid) :
    ∃ (e : ℝ × ℝ) (share' : Nat → ℝ≥0), 0 ≤ e ∧ e + potential (step env w op).2.nodes share' ≤ potential w.nodes share ∧
      Apart near fits k (step env w op).2 (nextData sem w data op (step env w op).1) (nextData sem w data' op (step env w op).1)
        share' ∧
      CloseAt k e (respond sem data op.target (step env w op).1) (respond sem data' op.target (step env w op).1) := by
  obtain ⟨hf, hnear, hfit⟩ := ha
  obtain ⟨hf', eff⟩ := effect_step hr hop hf (step_cases env w op)
  have hold : ∀ j n', j < w.nodes.length → (step env w op).2.nodes[j]? = some n' → ∀ p ∈ n'.tables,
      fits p.2 (data j) ∧ fits p.2 (data' j) := by
    intro j n' hj hn' p hp
    obtain ⟨n, hn, hc⟩ := tables_step (step_cases env w op) hj hn'
    rcases hc p hp with hp' | ⟨pub, q, ht⟩
    · exact hfit j n hn p hp'
    · exact ⟨hs.view (fun p hp => (hfit j n hn p hp).1) ht, hs.view (fun p hp => (hfit j n hn p hp).2) ht⟩
  generalize (step env w op).1 = res at eff ⊢
  generalize (step env w op).2 = w' at eff hf' hold ⊢
  have quiet : ∀ {data : Nat → X}, (∀ m b, res ≠ .ok (.answer m b)) →
      respond sem data op.target res = PMF.pure (res, none) := by
    intro data h
    unfold respond
    split
    · next m b => exact absurd rfl (h m b)
    · rfl
  generalize hw : w'.nodes = ns' at eff hf'
  cases eff with
  | quiet _ _ _ h1 h2 hl h =>
    have nd : ∀ {data : Nat → X}, nextData sem w data op res = data := by
      intro data
      unfold nextData
      split
      · next i src b col splits x => exact absurd rfl (h2 _ _ _ _ _ _ rfl)
      · rfl
    refine ⟨0, share, le_rfl, ?_, ⟨hw ▸ hf', fun i hi => ?_, fun i n hn => ?_⟩, ?_⟩
    · rw [zero_add, potential_congr hl h]
    · rw [nd, nd]
      rw [hw, hl] at hi
      exact hnear i hi
    · rw [nd, nd]
      have := lt_of_get hn
      rw [hw, hl] at this
      exact hold i n this hn
    · rw [quiet h1, quiet h1]
      exact CloseAt.refl k _
  | answer _ m b _ hi hk hv hfin hp hnop hcm hl h ho =>
    obtain ⟨n0, pub, q, hn0, hcm⟩ := hcm
    have nd : ∀ {data : Nat → X}, nextData sem w data op (.ok (.answer m b)) = data := by
      intro data
      unfold nextData
      split
      · next i src b col splits x => exact absurd rfl (hnop _ _ _ _ _)
      · rfl
    have cl := within_closeAt hk hfin (hs.mech (hnear _ hi).1 (hnear _ hi).2
      (fun p hp => (hfit _ n0 hn0 p hp).1) (fun p hp => (hfit _ n0 hn0 p hp).2) hv hcm hp)
    have nn : 0 ≤ (share op.target : ℝ) • real b := smul_nonneg (share _).2 (real_nonneg hv)
    refine ⟨(share op.target : ℝ) • real b, share, nn, ?_, ⟨hw ▸ hf', fun i hi => ?_, fun i n hn => ?_⟩, ?_⟩
    · rw [potential_spend hi hl h (fun j _ => ho j) share]
    · rw [nd, nd]
      rw [hw, hl] at hi
      exact hnear i hi
    · rw [nd, nd]
      have := lt_of_get hn
      rw [hw, hl] at this
      exact hold i n this hn
    · unfold respond
      simp only
      rw [← add_zero ((share op.target : ℝ) • real b)]
      exact CloseAt.bind nn le_rfl cl fun a => CloseAt.refl k _
  | split i src b0 col splits b ids _ hi hv hp hl h ho hc =>
    obtain ⟨n0, pub, tb, hn0, hp, hch⟩ := hp
    have htab : tablesOf w i = n0.tables := by
      unfold tablesOf
      rw [hn0]
    obtain ⟨t, ht, htn⟩ := hs.part src col (splits.map Prod.snd) (hnear i hi).1 (hnear i hi).2
      (fun p hp => (hfit _ n0 hn0 p hp).1) (fun p hp => (hfit _ n0 hn0 p hp).2) hp
    rw [List.length_map] at ht htn
    have ht1 : ∀ k < splits.length, t k ≤ 1 := fun k hk =>
      le_trans (Finset.single_le_sum (f := t) (fun _ _ => zero_le) (Finset.mem_range.2 hk)) (ht.trans (hnear i hi).1)
    refine ⟨0, fun j => if j < w.nodes.length then share j else t (j - w.nodes.length), le_rfl, ?_,
      ⟨hw ▸ hf', fun j hj => ?_, fun j n' hn' p hp => ?_⟩, ?_⟩
    · rw [zero_add]
      unfold potential
      rw [hl, Finset.sum_range_add]
      have e1 : ∑ j ∈ Finset.range splits.length,
          ((if w.nodes.length + j < w.nodes.length then share (w.nodes.length + j)
            else t (w.nodes.length + j - w.nodes.length) : ℝ≥0) : ℝ) • left ns' (w.nodes.length + j) =
          ((∑ j ∈ Finset.range splits.length, t j : ℝ≥0) : ℝ) • real b := by
        rw [NNReal.coe_sum, Finset.sum_smul]
        refine Finset.sum_congr rfl fun j hj => ?_
        rw [if_neg (by omega), Nat.add_sub_cancel_left, hc j (Finset.mem_range.1 hj)]
      have e2 : ∑ j ∈ Finset.range w.nodes.length,
          ((if j < w.nodes.length then share j else t (j - w.nodes.length) : ℝ≥0) : ℝ) • left ns' j =
          ∑ j ∈ Finset.range w.nodes.length, (share j : ℝ) • left ns' j :=
        Finset.sum_congr rfl fun j hj => by rw [if_pos (Finset.mem_range.1 hj)]
      rw [e1, e2]
      have hm : i ∈ Finset.range w.nodes.length := Finset.mem_range.2 hi
      rw [← Finset.add_sum_erase _ _ hm, ← Finset.add_sum_erase (a := i) _ _ hm, ← h]
      have e3 : ∑ j ∈ (Finset.range w.nodes.length).erase i, (share j : ℝ) • left ns' j =
          ∑ j ∈ (Finset.range w.nodes.length).erase i, (share j : ℝ) • left w.nodes j := by
        refine Finset.sum_congr rfl fun j hj => ?_
        rw [Finset.mem_erase, Finset.mem_range] at hj
        rw [ho j hj.2 hj.1]
      rw [e3, smul_add, add_right_comm]
      refine add_le_add (add_le_add le_rfl ?_) le_rfl
      exact smul_le_smul_of_nonneg_right (by exact_mod_cast ht) (real_nonneg hv)
    · simp only [nextData]
      split
      · next hlt => exact hnear j hlt
      · rw [hw, hl] at hj
        rw [htab]
        exact ⟨ht1 _ (by omega), (htn _ (by omega)).1⟩
    · simp only [nextData]
      split
      · next hlt => exact hold j n' hlt hn' p hp
      · next hlt =>
        have hj := lt_of_get hn'
        rw [hw, hl] at hj
        rw [htab, hch j n' (by omega) (hw ▸ hn') p hp]
        exact (htn _ (by omega)).2
    · rw [quiet nofun, quiet nofun]
      exact CloseAt.refl k _

theorem interleaved_close {N : ℕ} {env : Env Q M T D V} (hr : env.rounding.Lawful) {sem : Sem M T V X A}
    {near : ℝ≥0 → X → X → Prop} {fits : T → X → Prop} (hs : Sound env sem near fits) (analyst : Analysts N Q M T D V A)
    (ha : ∀ hist w, ∀ p ∈ (analyst hist w).support, p.2.BudgetValid) (k : PB) :
    ∀ (n : Nat) (run run' : Fin N → Running M T D X) (share : Fin N → Nat → ℝ≥0) (hist : Histories N Q M D V A),
      (∀ j, (run' j).world = (run j).world) →
      (∀ j, Apart near fits k (run j).world (run j).data (run' j).data (share j)) →
      CloseAt k (∑ j, potential (run j).world.nodes (share j)) (interleaved env sem analyst n run hist)
        (interleaved env sem analyst n run' hist)
  | 0, run, run', share, hist, _, hap =>
    (CloseAt.refl k _).mono (Finset.sum_nonneg fun j _ => potential_nonneg (hap j).finite (share j))
  | n + 1, run, run', share, hist, hw, hap => by
    classical
    have hnn : 0 ≤ ∑ j, potential (run j).world.nodes (share j) :=
      Finset.sum_nonneg fun j _ => potential_nonneg (hap j).finite (share j)
    simp only [interleaved, hw]
    refine CloseAt.bind_same hnn fun p hp => ?_
    obtain ⟨i, op⟩ := p
    obtain ⟨e, share', h0, hle, hap', hcl⟩ := step_close hr hs (hap i) (ha _ _ _ hp)
    dsimp only
    have ih := fun r => interleaved_close hr hs analyst ha k n
      (Function.update run i ⟨(step env (run i).world op).2,
        nextData sem (run i).world (run i).data op (step env (run i).world op).1⟩)
      (Function.update run' i ⟨(step env (run i).world op).2,
        nextData sem (run i).world (run' i).data op (step env (run i).world op).1⟩)
      (Function.update share i share') ((i, op, r) :: hist)
      (by
        intro j
        by_cases hj : j = i
        · subst hj; simp
        · simp [hj, hw])
      (by
        intro j
        by_cases hj : j = i
        · subst hj; simpa using hap'
        · simpa [hj] using hap j)
    have hsum : e + ∑ j, potential ((Function.update run i ⟨(step env (run i).world op).2,
        nextData sem (run i).world (run i).data op (step env (run i).world op).1⟩) j).world.nodes
          (Function.update share i share' j) ≤ ∑ j, potential (run j).world.nodes (share j) := by
      rw [← Finset.add_sum_erase _ _ (Finset.mem_univ i), ← Finset.add_sum_erase _ _ (Finset.mem_univ i), ← add_assoc]
      refine add_le_add (by simpa using hle) (le_of_eq ?_)
      refine Finset.sum_congr rfl fun j hj => ?_
      have : j ≠ i := (Finset.mem_erase.1 hj).1
      simp [this]
    refine CloseAt.mono (CloseAt.bind h0 ?_ hcl ih) hsum
    refine Finset.sum_nonneg fun j _ => ?_
    by_cases hj : j = i
    · subst hj
      simpa using potential_nonneg hap'.finite share'
    · simpa [hj] using potential_nonneg (hap j).finite (share j)

/-- **C81**, for sessions with finite budgets of one kind. -/
theorem C81_several {N : ℕ} {env : Env Q M T D V} (hr : env.rounding.Lawful) {sem : Sem M T V X A}
    {near : ℝ≥0 → X → X → Prop} {fits : T → X → Prop} (hs : Sound env sem near fits) (analyst : Analysts N Q M T D V A)
    (ha : ∀ hist w, ∀ p ∈ (analyst hist w).support, p.2.BudgetValid) {k : PB} {b : Fin N → PB}
    (hb : ∀ j, (b j).Valid ∧ (b j).isInfinite = false ∧ PB.SameKind k (b j)) (tables : Fin N → List (String × T))
    {x x' : Fin N → X} (hx : ∀ j, near 1 (x j) (x' j)) (ht : ∀ j, ∀ p ∈ tables j, fits p.2 (x j) ∧ fits p.2 (x' j)) (n : Nat) :
    CloseAt k (∑ j, real (b j))
      (interleaved env sem analyst n (fun j => ⟨init (b j) (tables j), fun _ => x j⟩) [])
      (interleaved env sem analyst n (fun j => ⟨init (b j) (tables j), fun _ => x' j⟩) []) := by
  have hib : ∀ j, _ := fun j => initialBudget_finite (hb j).2.1
  have e : ∀ j, potential (init (b j) (tables j) : World M T D).nodes (fun _ => 1) = real (b j) := by
    intro j
    simp [potential, init, left, hib]
  have := interleaved_close hr hs analyst ha k n (fun j => ⟨init (b j) (tables j), fun _ => x j⟩)
    (fun j => ⟨init (b j) (tables j), fun _ => x' j⟩) (fun _ _ => 1) [] (fun _ => rfl) (fun j => ⟨?_, ?_, ?_⟩)
  · simpa only [e] using this
  · intro i m hm
    cases i with
    | zero =>
      cases hm
      simp only [hib]
      exact hb j
    | succ i => cases hm
  · exact fun i _ => ⟨le_rfl, hx j⟩
  · intro i m hm p hp
    cases i with
    | zero => cases hm; exact ht j p hp
    | succ i => cases hm

end Verif.Composition
