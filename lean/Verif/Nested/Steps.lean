import Verif.Nested.Tree
import Mathlib.Tactic.SplitIfs

/-!
# The steps of a query, on tables given as functions of other data
-/

namespace Verif.Nested

open Verif Verif.Schema Verif.Constraint Verif.Expr Verif.Query

/-- The same table, as a function of other data. -/
@[reducible] def pre (ρ : Data → Data) (o : Out) : Out := { o with run := fun D => o.run (ρ D) }

def IsIDs (k : Expr.Metric) : Prop := ∃ i, k = .ids i

/-- A step does not depend on what the data is, and stays in the dictionary. -/
structure Local (f : Out → Except PyErr Out) : Prop where
  pre : ∀ ρ o, f (pre ρ o) = (f o).map (pre ρ)
  space : ∀ o o', f o = .ok o' → o'.space = o.space
  ids : ∀ o o', f o = .ok o' → (IsIDs o'.metric ↔ IsIDs o.metric)

theorem isIDs_rename (m : Dict String String) (k : Expr.Metric) : IsIDs (k.rename m) ↔ IsIDs k := by
  cases k <;> simp [IsIDs, Expr.Metric.rename]

macro "loc" f:ident : tactic => `(tactic| (
  refine ⟨fun ρ o => ?_, fun o o' h => ?_, fun o o' h => ?_⟩
  · simp only [$f:ident, pre]; (try split_ifs) <;> rfl
  · simp only [$f:ident] at h; (repeat' split at h) <;> first | (cases h; rfl) | cases h
  · simp only [$f:ident] at h; (repeat' split at h) <;> first | (cases h; exact Iff.rfl) | cases h))

theorem local_rename (m : Dict String String) : Local (visitRename m) := by
  refine ⟨fun ρ o => ?_, fun o o' h => ?_, fun o o' h => ?_⟩
  · simp only [visitRename, pre]; split_ifs <;> rfl
  · simp only [visitRename] at h; (repeat' split at h) <;> cases h; rfl
  · simp only [visitRename] at h; (repeat' split at h) <;> cases h; exact isIDs_rename _ _
theorem local_filter (c : Row → Bool) : Local (visitFilter c) := by loc visitFilter
theorem local_select (c : List String) : Local (visitSelect c) := by loc visitSelect
theorem local_map (f : Row → Row) (new : Schema) (a : Bool) : Local (visitMap f new a) := by loc visitMap
theorem local_flatMap (f : Row → List Row) (new : Schema) (a : Bool) (n : Option Nat) : Local (visitFlatMap f new a n) := by
  refine ⟨fun ρ o => ?_, fun o o' h => ?_, fun o o' h => ?_⟩
  · simp only [visitFlatMap, pre]
    cases o.metric <;> cases n <;> cases new.grouping <;> dsimp only <;> split_ifs <;> rfl
  · simp only [visitFlatMap] at h; (repeat' split at h) <;> first | (cases h; rfl) | cases h
  · simp only [visitFlatMap] at h; (repeat' split at h) <;> first | (cases h; exact Iff.rfl) | (cases h; simp_all [IsIDs]; done) | cases h
theorem local_flatMapByID (f : List Row → List Row) (new : Schema) : Local (visitFlatMapByID f new) := by
  refine ⟨fun ρ o => ?_, fun o o' h => ?_, fun o o' h => ?_⟩
  · simp only [visitFlatMapByID, pre]
    cases o.metric with
    | ids i =>
      dsimp only
      generalize Dict.get o.dom i = y
      cases y <;> dsimp only <;> (try split_ifs) <;> rfl
    | _ => rfl
  · simp only [visitFlatMapByID] at h; (repeat' split at h) <;> first | (cases h; rfl) | cases h
  · simp only [visitFlatMapByID] at h; (repeat' split at h) <;> first | (cases h; exact Iff.rfl) | (cases h; simp_all [IsIDs]; done) | cases h
theorem local_joinPublic (cat : Cat) (p : PubRef) (c : Option (List String)) (how : How) :
    Local (visitJoinPublic cat p c how) := by
  refine ⟨fun ρ o => ?_, fun o o' h => ?_, fun o o' h => ?_⟩
  · simp only [visitJoinPublic, pre]
    cases resolvePub cat p with
    | error _ => rfl
    | ok x =>
      dsimp only
      generalize domainAfterJoin _ _ _ _ = y
      cases y <;> dsimp only <;> (try split_ifs) <;> rfl
  · simp only [visitJoinPublic] at h; (repeat' split at h) <;> first | (cases h; rfl) | cases h
  · simp only [visitJoinPublic] at h; (repeat' split at h) <;> first | (cases h; exact Iff.rfl) | (cases h; simp_all [IsIDs]; done) | cases h
theorem local_replaceNull (w : Dict String Value) : Local (visitReplaceNull w) := by
  refine ⟨fun ρ o => ?_, fun o o' h => ?_, fun o o' h => ?_⟩
  · simp only [visitReplaceNull, pre]
    cases replaceWith w o.dom o.metric.col <;> dsimp only <;> split_ifs <;> rfl
  · simp only [visitReplaceNull] at h; (repeat' split at h) <;> first | (cases h; rfl) | cases h
  · simp only [visitReplaceNull] at h; (repeat' split at h) <;> first | (cases h; exact Iff.rfl) | (cases h; simp_all [IsIDs]; done) | cases h
theorem local_replaceInf (w : Dict String (Value × Value)) : Local (visitReplaceInf w) := by loc visitReplaceInf
theorem local_dropNull (c : List String) : Local (visitDropNull c) := by loc visitDropNull
theorem local_dropInf (c : List String) : Local (visitDropInf c) := by loc visitDropInf
theorem local_enforce (hh : Hash) (c : Constraint) : Local (visitEnforce hh c) := by
  refine ⟨fun ρ o => ?_, fun o o' h => ?_, fun o o' h => ?_⟩
  · simp only [visitEnforce, pre]
    cases o.metric <;> dsimp only <;> (try split_ifs) <;> rfl
  · simp only [visitEnforce] at h; (repeat' split at h) <;> first | (cases h; rfl) | cases h
  · simp only [visitEnforce] at h; (repeat' split at h) <;> first | (cases h; exact Iff.rfl) | (cases h; simp_all [IsIDs]; done) | cases h

theorem join_pre (h : Hash) (tl tr : Option Trunc) (cols : Option (List String)) (ρ : Data → Data) (l r : Out) :
    visitJoinPrivate h tl tr cols (pre ρ l) (pre ρ r) = (visitJoinPrivate h tl tr cols l r).map (pre ρ) := by
  simp only [visitJoinPrivate, pre]
  generalize domainAfterJoin _ _ _ _ = y
  cases y <;> cases l.metric <;> cases r.metric <;> cases tl <;> cases tr <;> dsimp only <;> (try split_ifs) <;> rfl

theorem join_keep {h : Hash} {tl tr : Option Trunc} {cols : Option (List String)} {l r o : Out}
    (hj : visitJoinPrivate h tl tr cols l r = .ok o) :
    l.space = r.space ∧ o.space = l.space ∧ (IsIDs o.metric ↔ IsIDs l.metric) := by
  simp only [visitJoinPrivate] at hj
  split at hj
  · cases hj
  next hs =>
  refine ⟨not_not.1 hs, ?_⟩
  (repeat' split at hj) <;> cases hj
  all_goals exact ⟨rfl, by simp_all [IsIDs]⟩

end Verif.Nested
