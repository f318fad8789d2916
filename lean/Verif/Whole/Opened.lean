import Verif.Composition.Adaptive
import Verif.Whole.Several

/-!
# C81: sessions that are opened on the way
-/

namespace Verif.Whole

open Verif Verif.Schema Verif.Constraint Verif.Expr Verif.Query Verif.Stability
open Verif.Budget (XNum PB Rounding)
open Verif.Composition (PureClose ApproxClose ZCDPClose)
open scoped ENNReal NNReal

/-- The kind of budget of sessions with a notion of privacy. -/
def kindOf : Measure → PB
  | .pureDP => .pure 0
  | .approxDP => .approx 0 0
  | .zCDP => .zcdp 0

/-- A session that can be opened. -/
noncomputable def offerOf (ctx : Ctx) (core : Core) (out : Relation.Output) :
    Composition.Offer Request Meas Tab PubFrame Value (Root × Data) Table :=
  ⟨kindOf ctx.m, env ctx, sem ctx core, startTables out, (startRoot out, startData out)⟩

/-- What an analyst learns in `n` steps, of which each opens a session on tables of their choice, with a budget of their
choice, as long as the budgets add up to no more than `cap`, or calls one of the sessions opened before. -/
noncomputable def learnedOpening {I : Type} (ctx : I → Ctx) (core : I → Core)
    (analyst : Composition.Opener I Request Meas Tab PubFrame Value Table) (n : ℕ) (cap : ℝ × ℝ)
    (out : I → Relation.Output) : PMF (Composition.Diary I Request Meas PubFrame Value Table) :=
  Composition.adaptive (fun i => offerOf (ctx i) (core i) (out i)) analyst cap n 0 0 (fun _ => none) []

/-- **C81**: an analyst who opens sessions as they like, each on tables and with a notion of privacy that are chosen from a
collection, is promised what the total of the budgets they may give to sessions promises, if each session protects the change
of its tables. Sessions with PureDPBudget and with ApproxDPBudget may be mixed. -/
theorem C81_opened {I : Type} {ctx : I → Ctx} (hr : ∀ i, (ctx i).rounding.Lawful) {core : I → Core}
    (hcore : ∀ i, (core i).Private (ctx i).m) {sA sB : I → Relation.Sources} (hA : ∀ i, Relation.Stored (ctx i).cast (sA i))
    (hB : ∀ i, Relation.Stored (ctx i).cast (sB i)) (hfA : ∀ i, FramesOK (sA i)) (hfB : ∀ i, FramesOK (sB i))
    (hn : ∀ i, Relation.Neighbors (sA i) (sB i)) {outA : I → Relation.Output}
    (h : ∀ i, Relation.initCore (ctx i).cast (coreMeasure (ctx i).m) (sA i) = .ok (outA i))
    (analyst : Composition.Opener I Request Meas Tab PubFrame Value Table)
    (ha : ∀ hist w, ∀ j op, Composition.Act.call j op ∈ (analyst hist w).support → op.BudgetValid) (n : ℕ) :
    ∃ outB : I → Relation.Output, (∀ i, Relation.initCore (ctx i).cast (coreMeasure (ctx i).m) (sB i) = .ok (outB i)) ∧
      ((∀ i, (ctx i).m = .pureDP) → ∀ ε : ℝ, 0 ≤ ε → PureClose ε (learnedOpening ctx core analyst n (ε, 0) outA)
        (learnedOpening ctx core analyst n (ε, 0) outB)) ∧
      ((∀ i, (ctx i).m = .pureDP ∨ (ctx i).m = .approxDP) → ∀ ε δ : ℝ, 0 ≤ ε → 0 ≤ δ →
        ApproxClose ε δ (learnedOpening ctx core analyst n (ε, δ) outA) (learnedOpening ctx core analyst n (ε, δ) outB)) ∧
      ((∀ i, (ctx i).m = .zCDP) → ∀ ρ : ℝ, 0 ≤ ρ → ZCDPClose ρ (learnedOpening ctx core analyst n (ρ, 0) outA)
        (learnedOpening ctx core analyst n (ρ, 0) outB)) := by
  have hex : ∀ i, ∃ outB, Relation.initCore (ctx i).cast (coreMeasure (ctx i).m) (sB i) = .ok outB ∧
      startTables outB = startTables (outA i) ∧
      Near (ctx i).m 1 (startRoot (outA i), startData (outA i)) (startRoot outB, startData outB) := by
    intro i
    obtain ⟨outB, hoB, hme, hdi, _⟩ := Relation.C34_distance (hA i) (hB i) (hn i) (h i)
    have hd := Relation.C34_domain (hn i) (h i) hoB
    obtain ⟨ht, hnear⟩ := start_near (hA i) (hB i) (hfA i) (hfB i) (hn i) (h i) hoB hd hme.symm hdi.symm
    exact ⟨outB, hoB, ht, hnear⟩
  choose outB hoB ht hnear using hex
  refine ⟨outB, hoB, ?_⟩
  have main : ∀ (K : PB), (∀ i, Composition.Counts K (kindOf (ctx i).m)) → ∀ (cap : ℝ × ℝ), 0 ≤ cap →
      Composition.CloseAt K cap (learnedOpening ctx core analyst n cap outA)
        (learnedOpening ctx core analyst n cap outB) := by
    intro K hK cap hcap
    refine Composition.C81_adaptive (near := fun i => Near (ctx i).m) (fun i => ?_)
      (fun i => ⟨hK i, hr i, sound (hcore i), hnear i, fun p hp => ⟨?_, ?_⟩⟩) analyst ha hcap n
    · simp only [Composition.SameOffer, offerOf, ht]
    · exact start_tabOK (hA i) (hfA i) (h i) p hp
    · exact start_tabOK (hB i) (hfB i) (hoB i) p (by rw [ht]; exact hp)
  refine ⟨fun hm ε hε => main (.pure 0) (fun i => ?_) (ε, 0) ⟨hε, le_rfl⟩,
    fun hm ε δ hε hδ => main (.approx 0 0) (fun i => ?_) (ε, δ) ⟨hε, hδ⟩,
    fun hm ρ hρ => main (.zcdp 0) (fun i => ?_) (ρ, 0) ⟨hρ, le_rfl⟩⟩
  · rw [hm i]; trivial
  · rcases hm i with hi | hi <;> rw [hi] <;> trivial
  · rw [hm i]; trivial

end Verif.Whole
