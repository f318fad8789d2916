import Mathlib.Data.List.Dedup
import Verif.Common

/-!
# C42: `validate_collection`

Source: `/repo/src/tmlt/analytics/_utils.py` l. 59-141. Elements are assumed to be hashable and sortable (the error
message sorts them); Python sets are modelled by lists without duplicates.
-/

namespace Verif.Misc

variable {α : Type} [DecidableEq α]

/-- Which of the two errors is raised, with the elements it names. -/
inductive CollectionError (α : Type) where
  | missing (elements : List α)
  | unexpected (elements : List α)
  deriving DecidableEq

/-- `a - b` for sets (l. 125, 134). -/
def setDiff (a b : List α) : List α := a.filter (fun x => decide (x ∉ b))

/-- `validate_collection` (l. 59-141). -/
def validateCollection (test required optional : List α) : Except (CollectionError α) Unit :=
  let testSet := test.dedup
  let requiredSet := required.dedup
  let allowedSet := (requiredSet ++ optional).dedup
  let missing := setDiff requiredSet testSet
  if missing ≠ [] then .error (.missing missing)
  else
    let unexpected := setDiff testSet allowedSet
    if unexpected ≠ [] then .error (.unexpected unexpected)
    else .ok ()

theorem mem_setDiff {a b : List α} {x : α} : x ∈ setDiff a b ↔ x ∈ a ∧ x ∉ b := by simp [setDiff]

theorem setDiff_eq_nil {a b : List α} : setDiff a b = [] ↔ ∀ x ∈ a, x ∈ b := by
  simp [setDiff, List.filter_eq_nil_iff]

/-- **C42**. Validation succeeds iff every required element is present and every element present is required or
optional. -/
theorem C42_decides (test required optional : List α) :
    validateCollection test required optional = .ok () ↔
      (∀ x ∈ required, x ∈ test) ∧ ∀ x ∈ test, x ∈ required ∨ x ∈ optional := by
  unfold validateCollection
  simp only
  split
  · next h =>
    refine ⟨fun h' => (by cases h'), fun h' => absurd ?_ h⟩
    rw [setDiff_eq_nil]
    simpa using h'.1
  · next h =>
    rw [not_not, setDiff_eq_nil] at h
    split
    · next h2 =>
      refine ⟨fun h' => (by cases h'), fun h' => absurd ?_ h2⟩
      rw [setDiff_eq_nil]
      simpa using h'.2
    · next h2 =>
      rw [not_not, setDiff_eq_nil] at h2
      simp only [true_iff]
      exact ⟨by simpa using h, by simpa using h2⟩

/-- **C42** (errors). The error names exactly the offending elements, missing ones first. -/
theorem C42_errors (test required optional : List α) (e : CollectionError α)
    (h : validateCollection test required optional = .error e) :
    (∃ l, e = .missing l ∧ l ≠ [] ∧ ∀ x, x ∈ l ↔ x ∈ required ∧ x ∉ test) ∨
      ∃ l, e = .unexpected l ∧ l ≠ [] ∧ (∀ x ∈ required, x ∈ test) ∧
        ∀ x, x ∈ l ↔ x ∈ test ∧ x ∉ required ∧ x ∉ optional := by
  unfold validateCollection at h
  simp only at h
  split at h
  · next hm =>
    cases h
    exact Or.inl ⟨_, rfl, hm, fun x => by simp [mem_setDiff]⟩
  · next hm =>
    split at h
    · next hu =>
      cases h
      refine Or.inr ⟨_, rfl, hu, ?_, fun x => by simp [mem_setDiff]⟩
      rw [not_not, setDiff_eq_nil] at hm
      simpa using hm
    · cases h

/-- **C42** (sets). Order and repetitions do not matter. -/
theorem C42_sets (t t' r r' o o' : List α) (ht : ∀ x, x ∈ t ↔ x ∈ t') (hr : ∀ x, x ∈ r ↔ x ∈ r')
    (ho : ∀ x, x ∈ o ↔ x ∈ o') : validateCollection t r o = .ok () ↔ validateCollection t' r' o' = .ok () := by
  rw [C42_decides, C42_decides]
  simp only [ht, hr, ho]

example : validateCollection ["a", "b", "c"] ["a", "c"] ["b"] = .ok () := by decide
example : validateCollection ["a", "b"] ["a", "c"] ["b"] = .error (.missing ["c"]) := by decide
example : validateCollection ["a", "b", "c", "d"] ["a", "c"] ["b"] = .error (.unexpected ["d"]) := by decide

end Verif.Misc
