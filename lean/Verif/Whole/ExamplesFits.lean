import Verif.Whole.SessionFits
import Verif.Whole.ExamplesChain
import Verif.Expr.ExamplesIds

/-!
# C76: concrete cases
-/

namespace Verif.Whole.Example

open Verif Verif.Schema Verif.Constraint Verif.Expr Verif.Query Verif.Stability
open Verif.Meaning
open Verif.Expr.Example (cat2 cat2_ok schemaWF_of)

theorem callsCat_ok : callsCat.OK := by
  constructor
  · intro id s cs h
    have := Dict.mem_of_get h
    simp only [callsCat, List.mem_cons, Prod.mk.injEq, List.not_mem_nil, or_false] at this
    obtain ⟨_, rfl, _⟩ := this
    exact ⟨schemaWF_of (by decide), by decide, by decide⟩
  · intro id s t h
    cases h

/-- **C76**: the six calls of `steps` fit the table. -/
theorem C76_example : callsCat.OK ∧ steps.ByTypes ∧ steps.Fits callsCat :=
  ⟨callsCat_ok, ⟨trivial, fun _ _ _ => rfl⟩,
    (C76_fits callsCat_ok steps steps_kept ⟨trivial, fun _ _ _ => rfl⟩ steps_built).1.1 ⟨_, rfl⟩⟩

/-- A column that is selected is missing. -/
def missing : Chain := .select (.start "t") (.list ["city", "town"])

theorem C76_missing : ¬ missing.Fits callsCat ∧ ∃ e, missing.build (ctx .pureDP) = .ok e ∧ schemaOf callsCat e = .error .value := by
  refine ⟨fun h => ?_, _, rfl, by decide +kernel⟩
  have := (h.2 ["city", "town"] rfl).1 "town" (by simp)
  revert this
  decide +kernel

/-- `QueryBuilder("l").join_private("r", join_columns=["g"])` of two tables with the ID column `id`: -/
def notOnIDs : Chain := .joinTable (.start "l") "r" none none (.list ["g"])

/-- the ID column is not in the result, which has `id_left` and `id_right`. The error is a `KeyError`. -/
theorem C76_key_error : ¬ notOnIDs.Fits cat2 ∧ ∃ e, notOnIDs.build (ctx .pureDP) = .ok e ∧ schemaOf cat2 e = .error .key := by
  refine ⟨fun h => ?_, _, rfl, by decide +kernel⟩
  have := h.2.2.2.2.2.2.2.2 "id" (.inl (by decide +kernel))
  revert this
  decide +kernel

end Verif.Whole.Example
