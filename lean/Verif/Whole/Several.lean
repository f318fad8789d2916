import Verif.Composition.Several
import Verif.Whole.Group

/-!
# C81: several sessions on the same people
-/

namespace Verif.Whole

open Verif Verif.Schema Verif.Constraint Verif.Expr Verif.Query Verif.Stability
open Verif.Budget (XNum PB Rounding)
open Verif.Composition (PureClose ApproxClose ZCDPClose)
open scoped ENNReal NNReal

/-- What an analyst learns in `n` calls of several new sessions, each on its own tables, in any order. -/
noncomputable def learnedFromAll {N : ℕ} (ctx : Ctx) (core : Core)
    (analyst : Composition.Analysts N Request Meas Tab PubFrame Value Table) (n : ℕ) (b : Fin N → PB)
    (out : Fin N → Relation.Output) : PMF (Composition.Histories N Request Meas PubFrame Value Table) :=
  Composition.interleaved (env ctx) (sem ctx core) analyst n
    (fun j => ⟨Session.init (b j) (startTables (out j)), fun _ => (startRoot (out j), startData (out j))⟩) []

/-- **C81**: everything that is learned from several sessions, of which any call may depend on all answers of all sessions, is
as close as the sum of their budgets promises, if each of them protects the change of its tables. -/
theorem C81_sessions {N : ℕ} {ctx : Ctx} (hr : ctx.rounding.Lawful) {core : Core} (hcore : core.Private ctx.m)
    {sA sB : Fin N → Relation.Sources} (hA : ∀ j, Relation.Stored ctx.cast (sA j)) (hB : ∀ j, Relation.Stored ctx.cast (sB j))
    (hfA : ∀ j, FramesOK (sA j)) (hfB : ∀ j, FramesOK (sB j)) (hn : ∀ j, Relation.Neighbors (sA j) (sB j))
    {outA : Fin N → Relation.Output} (h : ∀ j, Relation.initCore ctx.cast (coreMeasure ctx.m) (sA j) = .ok (outA j))
    (analyst : Composition.Analysts N Request Meas Tab PubFrame Value Table)
    (ha : ∀ hist w, ∀ p ∈ (analyst hist w).support, p.2.BudgetValid) (n : ℕ) :
    ∃ outB : Fin N → Relation.Output, (∀ j, Relation.initCore ctx.cast (coreMeasure ctx.m) (sB j) = .ok (outB j)) ∧
      (∀ ε : Fin N → ℚ, (∀ j, 0 ≤ ε j) → PureClose (∑ j, (ε j : ℝ))
        (learnedFromAll ctx core analyst n (fun j => .pure (ε j)) outA)
        (learnedFromAll ctx core analyst n (fun j => .pure (ε j)) outB)) ∧
      (∀ ε δ : Fin N → ℚ, (∀ j, 0 ≤ ε j) → (∀ j, 0 ≤ δ j ∧ δ j < 1) → ApproxClose (∑ j, (ε j : ℝ)) (∑ j, (δ j : ℝ))
        (learnedFromAll ctx core analyst n (fun j => .approx (ε j) (δ j)) outA)
        (learnedFromAll ctx core analyst n (fun j => .approx (ε j) (δ j)) outB)) ∧
      (∀ ρ : Fin N → ℚ, (∀ j, 0 ≤ ρ j) → ZCDPClose (∑ j, (ρ j : ℝ))
        (learnedFromAll ctx core analyst n (fun j => .zcdp (ρ j)) outA)
        (learnedFromAll ctx core analyst n (fun j => .zcdp (ρ j)) outB)) := by
  have hex : ∀ j, ∃ outB, Relation.initCore ctx.cast (coreMeasure ctx.m) (sB j) = .ok outB ∧
      startTables outB = startTables (outA j) ∧
      Near ctx.m 1 (startRoot (outA j), startData (outA j)) (startRoot outB, startData outB) := by
    intro j
    obtain ⟨outB, hoB, hme, hdi, _⟩ := Relation.C34_distance (hA j) (hB j) (hn j) (h j)
    have hd := Relation.C34_domain (hn j) (h j) hoB
    obtain ⟨ht, hnear⟩ := start_near (hA j) (hB j) (hfA j) (hfB j) (hn j) (h j) hoB hd hme.symm hdi.symm
    exact ⟨outB, hoB, ht, hnear⟩
  choose outB hoB ht hnear using hex
  refine ⟨outB, hoB, ?_⟩
  have main : ∀ (k : PB) (b : Fin N → PB), (∀ j, (b j).Valid ∧ (b j).isInfinite = false ∧ PB.SameKind k (b j)) →
      Composition.CloseAt k (∑ j, Composition.real (b j)) (learnedFromAll ctx core analyst n b outA)
        (learnedFromAll ctx core analyst n b outB) := by
    intro k b hb
    unfold learnedFromAll
    simp only [ht]
    refine Composition.C81_several hr (sound hcore) analyst ha hb _ hnear (fun j p hp => ⟨?_, ?_⟩) n
    · exact start_tabOK (hA j) (hfA j) (h j) p hp
    · exact start_tabOK (hB j) (hfB j) (hoB j) p (by rw [ht]; exact hp)
  refine ⟨fun ε hε => ?_, fun ε δ hε hδ => ?_, fun ρ hρ => ?_⟩
  · have := main (.pure 0) (fun j => .pure (ε j)) (fun j => ⟨WithTop.coe_nonneg.2 (hε j), rfl, trivial⟩)
    simp only [Composition.CloseAt, Prod.fst_sum] at this
    exact this
  · have := main (.approx 0 0) (fun j => .approx (ε j) (δ j)) (fun j => ⟨⟨WithTop.coe_nonneg.2 (hε j), WithTop.coe_nonneg.2 (hδ j).1,
      WithTop.coe_le_coe.2 (hδ j).2.le⟩, by simpa [PB.isInfinite] using (hδ j).2.ne, trivial⟩)
    simp only [Composition.CloseAt, Prod.fst_sum, Prod.snd_sum] at this
    exact this
  · have := main (.zcdp 0) (fun j => .zcdp (ρ j)) (fun j => ⟨WithTop.coe_nonneg.2 (hρ j), rfl, trivial⟩)
    simp only [Composition.CloseAt, Prod.fst_sum] at this
    exact this

end Verif.Whole
