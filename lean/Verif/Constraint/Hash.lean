import Verif.Constraint.Truncate
import Mathlib.Algebra.Order.Ring.Rat

/-!
# A hash order that can be computed

Used in examples: `Hash.Lawful` can be met, and what it gives can be evaluated.
-/

namespace Verif.Constraint

open Verif

/-- A linear order, as a Boolean function. -/
structure Linear {α : Type} (le : α → α → Bool) : Prop where
  total : ∀ a b, le a b = true ∨ le b a = true
  trans : ∀ a b c, le a b = true → le b c = true → le a c = true
  antisymm : ∀ a b, le a b = true → le b a = true → a = b

theorem linear_of {α : Type} [LinearOrder α] : Linear (fun a b : α => decide (a ≤ b)) :=
  ⟨fun a b => by simpa using le_total a b, fun a b c h1 h2 => by simpa using le_trans (by simpa using h1) (by simpa using h2),
    fun a b h1 h2 => le_antisymm (by simpa using h1) (by simpa using h2)⟩

theorem Linear.comap {α β : Type} {le : β → β → Bool} (h : Linear le) {f : α → β} (hf : Function.Injective f) :
    Linear (fun a b => le (f a) (f b)) :=
  ⟨fun a b => h.total _ _, fun _ _ _ => h.trans _ _ _, fun _ _ h1 h2 => hf (h.antisymm _ _ h1 h2)⟩

/-- Compare lists element by element. -/
def leList {α : Type} [DecidableEq α] (le : α → α → Bool) : List α → List α → Bool
  | [], _ => true
  | _ :: _, [] => false
  | a :: s, b :: t => if a = b then leList le s t else le a b

theorem Linear.list {α : Type} [DecidableEq α] {le : α → α → Bool} (h : Linear le) : Linear (leList le) := by
  constructor
  · intro s
    induction s with
    | nil => exact fun t => Or.inl rfl
    | cons a s ih =>
      intro t
      cases t with
      | nil => exact Or.inr rfl
      | cons b t =>
        by_cases e : a = b
        · simp only [leList, if_pos e, if_pos e.symm]
          exact ih t
        · simp only [leList, if_neg e, if_neg (Ne.symm e)]
          exact h.total a b
  · intro s
    induction s with
    | nil => exact fun _ _ _ _ => rfl
    | cons a s ih =>
      intro t u h1 h2
      cases t with
      | nil => cases h1
      | cons b t =>
        cases u with
        | nil => cases h2
        | cons c u =>
          unfold leList at h1 h2 ⊢
          by_cases e : a = b
          · subst e
            rw [if_pos rfl] at h1
            by_cases e' : a = c
            · subst e'
              rw [if_pos rfl] at h2 ⊢
              exact ih _ _ h1 h2
            · rw [if_neg e'] at h2 ⊢
              exact h2
          · rw [if_neg e] at h1
            by_cases e' : b = c
            · subst e'
              rw [if_neg e]
              exact h1
            · rw [if_neg e'] at h2
              have := h.trans _ _ _ h1 h2
              split
              · next e'' =>
                subst e''
                exact absurd (h.antisymm _ _ h1 h2) e
              · exact this
  · intro s
    induction s with
    | nil =>
      intro t _ h2
      cases t with
      | nil => rfl
      | cons b t => cases h2
    | cons a s ih =>
      intro t h1 h2
      cases t with
      | nil => cases h1
      | cons b t =>
        unfold leList at h1 h2
        by_cases e : a = b
        · subst e
          rw [if_pos rfl] at h1 h2
          rw [ih t h1 h2]
        · rw [if_neg e] at h1
          rw [if_neg (Ne.symm e)] at h2
          exact absurd (h.antisymm _ _ h1 h2) e

/-- A string as numbers. -/
def strCode (s : String) : List ℚ := s.toList.map (fun c => (c.toNat : ℚ))

theorem strCode_inj : Function.Injective strCode := by
  intro s t h
  have : Function.Injective (fun c : Char => (c.toNat : ℚ)) := by
    intro a b hab
    have hab' : (a.toNat : ℚ) = b.toNat := hab
    have : a.toNat = b.toNat := by exact_mod_cast hab'
    exact Char.toNat_inj.1 this
  exact String.toList_inj.1 (List.map_injective_iff.2 this h)

/-- A value as numbers. -/
def valCode : Value → List ℚ
  | .null => [0]
  | .int z => [1, z]
  | .dec (.fin q) => [2, q]
  | .dec .nan => [3]
  | .dec .pinf => [4]
  | .dec .ninf => [5]
  | .str s => 6 :: strCode s
  | .date d => [7, d]
  | .ts t => [8, t]

theorem valCode_inj : Function.Injective valCode := by
  intro a b h
  cases a with
  | dec f => cases f <;> (cases b with
    | dec g => cases g <;> simp_all [valCode]
    | _ => simp [valCode] at h)
  | str s =>
    cases b with
    | str t => rw [strCode_inj (List.cons.inj h).2]
    | dec g => cases g <;> simp [valCode] at h
    | _ => simp [valCode] at h
  | _ =>
    cases b with
    | dec g => cases g <;> simp [valCode] at h
    | _ => simp_all [valCode]

def leNums : List (List ℚ) → List (List ℚ) → Bool := leList (leList (fun a b => decide (a ≤ b)))

/-- Rows and keys by their codes. -/
def codeHash : Hash :=
  ⟨fun a b => leNums (a.flatMap (fun p => [strCode p.1, valCode p.2])) (b.flatMap (fun p => [strCode p.1, valCode p.2])),
    fun a b => leNums (a.toList.map valCode) (b.toList.map valCode)⟩

theorem codeHash_lawful : codeHash.Lawful := by
  have lin : Linear leNums := (Linear.list (Linear.list linear_of))
  have row : Function.Injective (fun a : Row => a.flatMap (fun p => [strCode p.1, valCode p.2])) := by
    intro a
    induction a with
    | nil =>
      intro b h
      cases b with
      | nil => rfl
      | cons q b => simp at h
    | cons p a ih =>
      intro b h
      cases b with
      | nil => simp at h
      | cons q b =>
        simp only [List.flatMap_cons, List.cons_append, List.nil_append, List.cons.injEq] at h
        obtain ⟨h1, h2, h3⟩ := h
        rw [ih h3, Prod.ext (strCode_inj h1) (valCode_inj h2)]
  have key : Function.Injective (fun a : Option Value => a.toList.map valCode) := by
    intro a b h
    cases a <;> cases b <;> simp at h
    · rfl
    · rw [valCode_inj h]
  have lr := lin.comap row
  have lk := lin.comap key
  exact ⟨lr.total, lr.trans, lr.antisymm, lk.total, lk.trans, lk.antisymm⟩

end Verif.Constraint
