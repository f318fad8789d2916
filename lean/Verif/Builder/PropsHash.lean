import Verif.Builder.PropsEqFails

/-!
# C53: hashes of equal queries
-/

namespace Verif.Builder

open Verif Verif.Schema Verif.Expr Verif.Constraint Verif.Query

/-- No part of the expression is hashed by identity: no functions, and no public tables given as data frames. -/
structure NoObjects (e : PExpr) : Prop where
  map : mapFns e = []
  flatMap : flatMapFns e = []
  byID : byIDFns e = []
  pub : ∀ o s r, .df o s r ∉ pubs e

theorem NoObjects.child {o : Op} {e : PExpr} (h : NoObjects (.op o e)) : NoObjects e := by
  obtain ⟨h1, h2, h3, h4⟩ := h
  cases o <;> simp only [mapFns, flatMapFns, byIDFns, pubs, List.mem_cons, not_or, reduceCtorEq] at h1 h2 h3 h4 <;>
    first
      | exact ⟨h1, h2, h3, h4⟩
      | exact ⟨h1, h2, h3, fun o s r => (h4 o s r).2⟩

theorem NoObjects.join {l r : PExpr} {a b c} (h : NoObjects (.join l r a b c)) : NoObjects l ∧ NoObjects r := by
  obtain ⟨h1, h2, h3, h4⟩ := h
  simp only [mapFns, flatMapFns, byIDFns, List.append_eq_nil_iff] at h1 h2 h3
  exact ⟨⟨h1.1, h2.1, h3.1, fun o s r hm => h4 o s r (List.mem_append_left _ hm)⟩,
    ⟨h1.2, h2.2, h3.2, fun o s r hm => h4 o s r (List.mem_append_right _ hm)⟩⟩

theorem valDigest_eq {a b : Value} (h : valEq a b = true) : valDigest a = valDigest b := by
  unfold valEq at h
  split at h
  · simp only [decide_eq_true_eq] at h
    simp [valDigest, h]
  · simp only [decide_eq_true_eq] at h
    simp [valDigest, h]
  · rw [of_decide_eq_true h]

theorem pairsDigest_eq {V : Type} {eq : V → V → Bool} {g : String × V → Digest}
    (hg : ∀ a x y, eq x y = true → g (a, x) = g (a, y)) :
    ∀ {m m' : List (String × V)}, pairsEq eq m m' = true → m.map g = m'.map g
  | [], [], _ => rfl
  | (a, x) :: r, (b, y) :: s, h => by
    simp only [pairsEq, Bool.and_eq_true, decide_eq_true_eq] at h
    obtain ⟨⟨rfl, hv⟩, h⟩ := h
    rw [List.map_cons, List.map_cons, hg _ _ _ hv, pairsDigest_eq hg h]
  | [], _ :: _, h => by simp [pairsEq] at h
  | _ :: _, [], h => by simp [pairsEq] at h

theorem exprDigest_eq : ∀ {e e' : PExpr}, exprEq e e' = true → NoObjects e → exprDigest e = exprDigest e'
  | .source _, .source _, h, _ => by
    simp only [exprEq, decide_eq_true_eq] at h
    rw [h]
  | .op o e, .op o' e', h, hn => by
    simp only [exprEq, Bool.and_eq_true] at h
    have ih := exprDigest_eq h.2 hn.child
    have ho := h.1
    simp only [exprDigest, ih]
    cases o <;> cases o' <;> simp only [opEq, Bool.and_eq_true, decide_eq_true_eq, Bool.false_eq_true] at ho
    · rw [pairsEq_strings ho]
    · rw [ho]
    · rw [ho]
    · simpa [mapFns] using hn.map
    · simpa [flatMapFns] using hn.flatMap
    · simpa [byIDFns] using hn.byID
    · obtain ⟨⟨hp, rfl⟩, rfl⟩ := ho
      rename_i p _ _ q
      cases p <;> cases q <;> simp only [pubEq, decide_eq_true_eq, Bool.false_eq_true] at hp
      · rw [hp]
      · exact absurd List.mem_cons_self (hn.pub _ _ _)
    · simp only [opDigest]
      rw [pairsDigest_eq (fun a x y h => by simp [valDigest_eq h]) ho]
    · simp only [opDigest]
      rw [pairsDigest_eq (fun a x y h => by
        simp only [valPairEq, Bool.and_eq_true] at h
        simp [valDigest_eq h.1, valDigest_eq h.2]) ho]
    · rw [ho]
    · rw [ho]
    · rw [ho]
  | .join l r _ _ _, .join l' r' _ _ _, h, hn => by
    simp only [exprEq, Bool.and_eq_true, decide_eq_true_eq] at h
    obtain ⟨⟨⟨⟨hl, hr⟩, rfl⟩, rfl⟩, rfl⟩ := h
    simp only [exprDigest, exprDigest_eq hl hn.join.1, exprDigest_eq hr hn.join.2]
  | .source _, .op _ _, h, _ => by simp [exprEq] at h
  | .source _, .join _ _ _ _ _, h, _ => by simp [exprEq] at h
  | .op _ _, .source _, h, _ => by simp [exprEq] at h
  | .op _ _, .join _ _ _ _ _, h, _ => by simp [exprEq] at h
  | .join _ _ _ _ _, .source _, h, _ => by simp [exprEq] at h
  | .join _ _ _ _ _, .op _ _, h, _ => by simp [exprEq] at h

theorem kindDigest_eq {k k' : Kind} (h : kindEq k k' = true) : kindDigest k = kindDigest k' := by
  cases k <;> cases k' <;> simp only [kindEq, Bool.and_eq_true, decide_eq_true_eq, Bool.false_eq_true] at h
  · rw [h]
  · rw [h.1, h.2]
  · simp [kindDigest, h.1.1.1, h.1.1.2, valDigest_eq h.1.2, valDigest_eq h.2]
  · obtain ⟨⟨⟨rfl, hl⟩, hh⟩, hs⟩ := h
    cases hs
    simp [kindDigest, valDigest_eq hl, valDigest_eq hh]
  · rw [h.1.1, h.1.2, h.2]

/-- **C53**: equal queries have equal hashes, if they have no functions and no public data frames, and equal KeySets
have equal hashes. Without these conditions it is false (`C53_hash_fails`, `Verif.KeySet.C25_hash_fails`). -/
theorem C53_hash_partial {k : KeyCmp} (hk : ∀ a b, k.eq a b = true → a.schema = b.schema) {q q' : PQuery}
    (h : queryEq k q q' = true) (hn : NoObjects q.child) : queryDigest q = queryDigest q' := by
  have agg : ∀ {a b : PAgg}, aggEq k a b = true → NoObjects a.child → aggDigest a = aggDigest b := by
    intro a b h hn
    simp only [aggEq, Bool.and_eq_true, decide_eq_true_eq] at h
    obtain ⟨⟨⟨h1, h2⟩, h3⟩, h4⟩ := h
    have hkd : keysDigest a.keys = keysDigest b.keys := by
      cases ha : a.keys <;> cases hb : b.keys <;> simp only [ha, hb, keysEq, decide_eq_true_eq, Bool.false_eq_true] at h2
      · simp [keysDigest, hk _ _ h2]
      · rw [h2]
    simp only [aggDigest, exprDigest_eq h1 hn, hkd, kindDigest_eq h3, h4]
  cases q <;> cases q' <;> simp only [queryEq, Bool.and_eq_true, decide_eq_true_eq, Bool.false_eq_true] at h
  · exact agg h hn
  · simp only [queryDigest, exprDigest_eq h.1 hn, h.2]
  · simp only [queryDigest, agg h.1.1 hn, h.1.2, h.2]

/-- **C53** fails: the same `bin_column` query built twice compares equal and means the same, but is hashed by the
identity of the function made on each call. So a query built again is not found in a dictionary or set. -/
theorem C53_hash_fails : ∃ q q' : PQuery, queryEq Example.cmp q q' = true ∧ q.denote Example.sql = q'.denote Example.sql ∧
    queryDigest q ≠ queryDigest q' := by
  refine ⟨Example.binQuery 1 [0, 5, 10], Example.binQuery 2 [0, 5, 10], by decide +kernel, rfl, ?_⟩
  intro h
  simp [queryDigest, aggDigest, exprDigest, opDigest, Example.binQuery, binFn] at h

/-- A case of `C53_hash_partial`: replacing by 1 and by 1.0. -/
example : ∃ (k : KeyCmp) (q q' : PQuery), (∀ a b, k.eq a b = true → a.schema = b.schema) ∧ queryEq k q q' = true ∧
    NoObjects q.child ∧ q ≠ q' := by
  refine ⟨Example.cmp, Example.replQuery (.int 1), Example.replQuery (.dec (.fin 1)), ?_, by decide +kernel,
    ⟨rfl, rfl, rfl, by intro o s r h; simp [Example.replQuery, PQuery.child, pubs] at h⟩, ?_⟩
  · intro a b h
    rw [of_decide_eq_true h]
  · intro h
    simp [Example.replQuery] at h

end Verif.Builder
