import Verif.Whole.Installation
import Verif.Whole.ExamplesTotal
import Mathlib.Probability.Distributions.Uniform

/-!
# C86: a concrete installation
-/

namespace Verif.Whole.Example

open Verif Verif.Schema Verif.Query Verif.Stability
open Verif.Budget (PB)

/-- A core that answers counts with one row for each key, with one of two numbers each, and tables without rows otherwise. -/
noncomputable def fairCore : Core where
  noise := fun c _ => match c.keys, c.task with
    | .set k, .count name => (PMF.uniformOfFintype Bool).bind
        (fun x => PMF.pure (k.rows.map (fun key => key ++ [(name, .int (if x then 1 else 2))])))
    | _, _ => PMF.pure []

theorem fairCore_counts : CountsByKey fairCore := by
  intro c k t out name hk _ ht hout
  simp only [fairCore, hk, ht, PMF.support_bind, Set.mem_iUnion, PMF.support_pure, Set.mem_singleton_iff] at hout
  obtain ⟨x, _, rfl⟩ := hout
  exact ⟨fun _ => if x then 1 else 2, rfl⟩

/-- **C86**: the hypotheses hold of a core with noise, and tables that are not as they should be are found. -/
theorem C86_example (py : Py) :
    (∀ r ∈ (tryBlock (ctx .pureDP) fairCore py false (fun _ => .ok 0) (fun _ _ => true)).support, r = .ok ()) ∧
    checkTable [] = .error .noRows ∧
    checkTable [[("A", .str "a0"), ("n", .int 1)]] = .error .columns ∧
    checkTable [[("A", .str "a0"), ("count", .int 1)]] = .error .count ∧
    checkTable [[("A", .str "a0"), ("count", .int 1)], [("A", .str "a1"), ("count", .int 1)],
      [("A", .str "a1"), ("count", .int 1)]] = .error .rows ∧
    checkTable [[("A", .str "a2"), ("count", .int 1)], [("A", .str "a1"), ("count", .int 0)],
      [("A", .str "a0"), ("count", .int (-3))]] = .ok () :=
  ⟨C86_succeeds_partial (ctx .pureDP) fairCore py false _ _ rfl rfl (lawful _) (fun l => .refl l) fairCore_counts,
    by decide +kernel, by decide +kernel, by decide +kernel, by decide +kernel, by decide +kernel⟩

end Verif.Whole.Example
