import Verif.Composition.Several

/-!
# C81: sessions that are opened on the way

The analyst of `Composition.Several` knows beforehand how many sessions there are, on which tables and with which budgets.
Here all of this is chosen on the way, depending on answers, as long as the budgets add up to no more than a given total.
Sessions with a pure and with an approximate budget may be mixed.
-/

namespace Verif.Composition

open Verif.Budget (XNum PB Rounding)
open Verif.Session
open scoped ENNReal NNReal

variable {I Q M T D V X A B : Type}

/-! ## Specification -/

/-- What an analyst does: open a session with the tables `i` and a budget, or call the `j`-th session. -/
inductive Act (I Q D V : Type) where
  | start (i : I) (b : PB)
  | call (j : ℕ) (op : Op Q D V)

/-- What has been done and seen so far, latest first. -/
abbrev Diary (I Q M D V A : Type) := List (Act I Q D V × Option (Reply M A))

/-- An analyst: the distribution of what they do next. -/
abbrev Opener (I Q M T D V A : Type) := Diary I Q M D V A → (ℕ → Option (World M T D)) → PMF (Act I Q D V)

/-- The guarantee of kind `k` counts for sessions with budgets of kind `k'`: the same kind, or a pure budget for an approximate
guarantee. -/
def Counts : PB → PB → Prop
  | .approx _ _, .pure _ => True
  | k, k' => PB.SameKind k k'

/-- May a session with budget `b` be opened, if `used` has been given to sessions before? The total is `cap`. -/
def Allowed (k : PB) (cap used : ℝ × ℝ) (b : PB) : Prop :=
  b.Valid ∧ b.isInfinite = false ∧ PB.SameKind k b ∧ used + real b ≤ cap

/-- A kind of session that can be opened: the kind of its budget, how it works, its private tables and their metadata. -/
structure Offer (Q M T D V X A : Type) where
  kind : PB
  env : Env Q M T D V
  sem : Sem M T V X A
  tables : List (String × T)
  data : X

/-- An opened session: which offer it is of, and its state. -/
abbrev Opened (I M T D X : Type) := I × Running M T D X

open Classical in
/-- The distribution of what the analyst sees in `n` steps. `m` sessions have been opened so far. A session that is not allowed
is not opened. -/
noncomputable def adaptive (offer : I → Offer Q M T D V X A) (analyst : Opener I Q M T D V A) (cap : ℝ × ℝ) :
    ℕ → ℕ → ℝ × ℝ → (ℕ → Option (Opened I M T D X)) → Diary I Q M D V A → PMF (Diary I Q M D V A)
  | 0, _, _, _, hist => PMF.pure hist
  | n + 1, m, used, run, hist =>
    (analyst hist (fun j => (run j).map (·.2.world))).bind fun
      | .start i b =>
        if Allowed (offer i).kind cap used b then
          adaptive offer analyst cap n (m + 1) (used + real b)
            (Function.update run m (some (i, ⟨init b (offer i).tables, fun _ => (offer i).data⟩))) ((.start i b, none) :: hist)
        else adaptive offer analyst cap n m used run ((.start i b, none) :: hist)
      | .call j op =>
        match run j with
        | none => adaptive offer analyst cap n m used run ((.call j op, none) :: hist)
        | some (i, r) =>
          (respond (offer i).sem r.data op.target (step (offer i).env r.world op).1).bind fun a =>
            adaptive offer analyst cap n m used
              (Function.update run j (some (i, ⟨(step (offer i).env r.world op).2,
                nextData (offer i).sem r.world r.data op (step (offer i).env r.world op).1⟩)))
              ((.call j op, some a) :: hist)

/-- Offers that differ in private data only. -/
def SameOffer (o o' : Offer Q M T D V X A) : Prop := o' = { o with data := o'.data }

/-! ## Proofs -/

theorem PureClose.approx {e d : ℝ} {P Q : PMF A} (h : PureClose e P Q) : ApproxClose e d P Q := by
  intro S
  refine le_trans ?_ le_self_add
  rw [PMF.toOuterMeasure_apply, PMF.toOuterMeasure_apply, ← ENNReal.tsum_mul_left]
  refine ENNReal.tsum_le_tsum fun a => ?_
  by_cases ha : a ∈ S
  · simpa [ha] using h a
  · simp [ha]

theorem CloseAt.counts {k k' : PB} (hk : Counts k k') {e : ℝ × ℝ} {P Q : PMF A} (h : CloseAt k' e P Q) :
    CloseAt k e P Q := by
  cases k <;> cases k' <;> first | exact h | exact hk.elim | exact PureClose.approx h

/-- What is left in a session, if there is one. -/
noncomputable def leftIn (o : Option (Opened I M T D X)) (share : Nat → ℝ≥0) : ℝ × ℝ :=
  match o with
  | none => 0
  | some r => potential r.2.world.nodes share

/-- Two sessions with the same books and data that differs by shares of what is protected; or none. -/
def Both (near : I → ℝ≥0 → X → X → Prop) (fits : I → T → X → Prop) (k : I → PB) (share : Nat → ℝ≥0) :
    Option (Opened I M T D X) → Option (Opened I M T D X) → Prop
  | none, none => True
  | some r, some r' => r'.1 = r.1 ∧ r'.2.world = r.2.world ∧
    Apart (near r.1) (fits r.1) (k r.1) r.2.world r.2.data r'.2.data share
  | _, _ => False

theorem Both.world {near : I → ℝ≥0 → X → X → Prop} {fits : I → T → X → Prop} {k : I → PB} {share : Nat → ℝ≥0}
    {o o' : Option (Opened I M T D X)} (h : Both near fits k share o o') :
    o'.map (·.2.world) = o.map (·.2.world) := by
  cases o <;> cases o' <;> first | rfl | exact h.elim | simp [h.2.1]

theorem Both.nonneg {near : I → ℝ≥0 → X → X → Prop} {fits : I → T → X → Prop} {k : I → PB} {share : Nat → ℝ≥0}
    {o o' : Option (Opened I M T D X)} (h : Both near fits k share o o') : 0 ≤ leftIn o share := by
  cases o with
  | none => exact le_rfl
  | some r =>
    cases o' with
    | none => exact h.elim
    | some r' => exact potential_nonneg h.2.2.finite share

/-- Two new sessions. -/
theorem apart_init {near : ℝ≥0 → X → X → Prop} {fits : T → X → Prop} {k b : PB}
    (hb : b.Valid ∧ b.isInfinite = false ∧ PB.SameKind k b) {tables : List (String × T)} {x x' : X} (hx : near 1 x x')
    (ht : ∀ p ∈ tables, fits p.2 x ∧ fits p.2 x') :
    Apart (D := D) (M := M) near fits k (init b tables) (fun _ => x) (fun _ => x') (fun _ => 1) ∧
      potential (init b tables : World M T D).nodes (fun _ => 1) = real b := by
  have hib := initialBudget_finite hb.2.1
  refine ⟨⟨?_, ?_, ?_⟩, by simp [potential, init, left, hib]⟩
  · intro i m hm
    cases i with
    | zero =>
      cases hm
      simp only [hib]
      exact hb
    | succ i => cases hm
  · exact fun i _ => ⟨le_rfl, hx⟩
  · intro i m hm p hp
    cases i with
    | zero => cases hm; exact ht p hp
    | succ i => cases hm

/-- What is required of an offer and its neighbour. -/
structure OfferOK (K : PB) (near : ℝ≥0 → X → X → Prop) (fits : T → X → Prop) (o o' : Offer Q M T D V X A) : Prop where
  counts : Counts K o.kind
  lawful : o.env.rounding.Lawful
  sound : Sound o.env o.sem near fits
  near : near 1 o.data o'.data
  fits : ∀ p ∈ o.tables, fits p.2 o.data ∧ fits p.2 o'.data

theorem adaptive_close {K : PB} {offer offer' : I → Offer Q M T D V X A} (hsame : ∀ i, SameOffer (offer i) (offer' i))
    {near : I → ℝ≥0 → X → X → Prop} {fits : I → T → X → Prop} (hok : ∀ i, OfferOK K (near i) (fits i) (offer i) (offer' i))
    (analyst : Opener I Q M T D V A)
    (ha : ∀ hist w, ∀ j op, Act.call j op ∈ (analyst hist w).support → op.BudgetValid) (cap : ℝ × ℝ) :
    ∀ (n m : ℕ) (used : ℝ × ℝ) (run run' : ℕ → Option (Opened I M T D X)) (share : ℕ → Nat → ℝ≥0)
      (hist : Diary I Q M D V A), used ≤ cap →
      (∀ j, Both near fits (fun i => (offer i).kind) (share j) (run j) (run' j)) → (∀ j, m ≤ j → run j = none) →
      CloseAt K (cap - used + ∑ j ∈ Finset.range m, leftIn (run j) (share j))
        (adaptive offer analyst cap n m used run hist) (adaptive offer' analyst cap n m used run' hist)
  | 0, m, used, run, run', share, hist, hu, hb, _ =>
    (CloseAt.refl K _).mono (add_nonneg (sub_nonneg.2 hu) (Finset.sum_nonneg fun j _ => (hb j).nonneg))
  | n + 1, m, used, run, run', share, hist, hu, hb, hm => by
    have hnn : 0 ≤ cap - used + ∑ j ∈ Finset.range m, leftIn (run j) (share j) :=
      add_nonneg (sub_nonneg.2 hu) (Finset.sum_nonneg fun j _ => (hb j).nonneg)
    have hkind : ∀ i, (offer' i).kind = (offer i).kind := fun i => by rw [hsame i]
    have henv : ∀ i, (offer' i).env = (offer i).env := fun i => by rw [hsame i]
    have hsem : ∀ i, (offer' i).sem = (offer i).sem := fun i => by rw [hsame i]
    have htab : ∀ i, (offer' i).tables = (offer i).tables := fun i => by rw [hsame i]
    simp only [adaptive, (hb _).world]
    refine CloseAt.bind_same hnn fun p hp => ?_
    cases p with
    | start i b =>
      dsimp only
      by_cases hal : Allowed (offer i).kind cap used b
      · rw [if_pos hal, if_pos (by rwa [hkind]), htab]
        obtain ⟨hap, hpot⟩ := apart_init (D := D) (M := M) ⟨hal.1, hal.2.1, hal.2.2.1⟩ (hok i).near (hok i).fits
        refine (adaptive_close hsame hok analyst ha cap n (m + 1) _ _ _ (Function.update share m fun _ => 1) _ hal.2.2.2
          (fun j => ?_) (fun j hj => ?_)).mono (le_of_eq ?_)
        · by_cases hj : j = m
          · subst hj
            simp only [Function.update_self]
            exact ⟨rfl, rfl, hap⟩
          · simpa [hj] using hb j
        · rw [Function.update_of_ne (by omega)]
          exact hm j (by omega)
        · rw [Finset.sum_range_succ]
          have e : ∑ j ∈ Finset.range m, leftIn (Function.update run m
              (some (i, ⟨init b (offer i).tables, fun _ => (offer i).data⟩)) j)
              (Function.update share m (fun _ => 1) j) = ∑ j ∈ Finset.range m, leftIn (run j) (share j) := by
            refine Finset.sum_congr rfl fun j hj => ?_
            have : j ≠ m := (Finset.mem_range.1 hj).ne
            simp [this]
          rw [e]
          simp only [Function.update_self, leftIn]
          rw [hpot]
          abel
      · rw [if_neg hal, if_neg (by rwa [hkind])]
        exact adaptive_close hsame hok analyst ha cap n m used run run' share _ hu hb hm
    | call j op =>
      dsimp only
      have hbj := hb j
      rcases hrun : run j with _ | ⟨i, r⟩
      · rcases hrun' : run' j with _ | r'
        · exact adaptive_close hsame hok analyst ha cap n m used run run' share _ hu hb hm
        · rw [hrun, hrun'] at hbj; exact hbj.elim
      · rcases hrun' : run' j with _ | ⟨i', r'⟩
        · rw [hrun, hrun'] at hbj; exact hbj.elim
        · rw [hrun, hrun'] at hbj
          obtain ⟨hi, hw, hap⟩ := hbj
          dsimp only at hi hw hap
          subst hi
          have hjm : j < m := by
            by_contra hc
            rw [hm j (not_lt.mp hc)] at hrun
            cases hrun
          obtain ⟨e, share', h0, hle, hap', hcl⟩ := step_close (hok i').lawful (hok i').sound hap (ha _ _ _ _ hp)
          dsimp only
          rw [hw, henv, hsem]
          have hb' : ∀ l, Both near fits (fun i => (offer i).kind) (Function.update share j share' l)
              (Function.update run j (some (i', ⟨(step (offer i').env r.world op).2,
                nextData (offer i').sem r.world r.data op (step (offer i').env r.world op).1⟩)) l)
              (Function.update run' j (some (i', ⟨(step (offer i').env r.world op).2,
                nextData (offer i').sem r.world r'.data op (step (offer i').env r.world op).1⟩)) l) := by
            intro l
            by_cases hl : l = j
            · subst hl
              simp only [Function.update_self]
              exact ⟨rfl, rfl, hap'⟩
            · simpa [hl] using hb l
          have ih := fun a => adaptive_close hsame hok analyst ha cap n m used _ _ _
            ((.call j op, some a) :: hist) hu hb' (by
              intro l hl
              rw [Function.update_of_ne (by omega)]
              exact hm l hl)
          refine CloseAt.mono (CloseAt.bind h0 (add_nonneg (sub_nonneg.2 hu) (Finset.sum_nonneg fun l _ => (hb' l).nonneg))
            (hcl.counts (hok i').counts) ih) ?_
          rw [add_left_comm]
          refine add_le_add le_rfl ?_
          have hjr : j ∈ Finset.range m := Finset.mem_range.2 hjm
          rw [← Finset.add_sum_erase _ _ hjr, ← Finset.add_sum_erase (a := j) _ _ hjr, ← add_assoc]
          refine add_le_add (by simpa [leftIn, hrun] using hle) (le_of_eq ?_)
          refine Finset.sum_congr rfl fun l hl => ?_
          have : l ≠ j := (Finset.mem_erase.1 hl).1
          simp [this]

/-- **C81**: sessions opened on the way, with finite budgets that add up to no more than `cap`. -/
theorem C81_adaptive {K : PB} {offer offer' : I → Offer Q M T D V X A} (hsame : ∀ i, SameOffer (offer i) (offer' i))
    {near : I → ℝ≥0 → X → X → Prop} {fits : I → T → X → Prop} (hok : ∀ i, OfferOK K (near i) (fits i) (offer i) (offer' i))
    (analyst : Opener I Q M T D V A)
    (ha : ∀ hist w, ∀ j op, Act.call j op ∈ (analyst hist w).support → op.BudgetValid) {cap : ℝ × ℝ} (hcap : 0 ≤ cap) (n : ℕ) :
    CloseAt K cap (adaptive offer analyst cap n 0 0 (fun _ => none) []) (adaptive offer' analyst cap n 0 0 (fun _ => none) []) := by
  have := adaptive_close hsame hok analyst ha cap n 0 0 (fun _ => none) (fun _ => none) (fun _ _ => 1) [] hcap
    (fun _ => trivial) (fun _ _ => rfl)
  simpa using this

end Verif.Composition
