import Verif.Query.Model

/-!
# The amount of a budget does not matter for the acceptance of a query (C87)
-/

namespace Verif.Query

open Verif Verif.Schema Verif.Expr Verif.Constraint Verif.Budget

/-! ## Specification -/

/-- Whether keys can be selected with a budget: an approximate budget that is infinite, or positive in both components. -/
def Selects : PB → Prop
  | .approx ε δ => (PB.approx ε δ).isInfinite = true ∨ (0 < ε ∧ 0 < δ)
  | _ => False

/-- Budgets of one kind, which both allow the selection of keys, or both do not. -/
def Alike (b b' : PB) : Prop :=
  (match b, b' with
    | .pure _, .pure _ => True
    | .approx _ _, .approx _ _ => True
    | .zcdp _, .zcdp _ => True
    | _, _ => False) ∧ (Selects b ↔ Selects b')

/-- A plan without its three budgets. -/
def Plan.unpriced (p : Plan) : Plan := { p with total := .pure 0, keyBudget := .pure 0, aggBudget := .pure 0 }

/-! ## Proofs -/

theorem Alike.symm {b b' : PB} (h : Alike b b') : Alike b' b := by
  refine ⟨?_, h.2.symm⟩
  have h1 := h.1
  cases b <;> cases b' <;> first | trivial | exact h1

theorem splitBudget_approx (ε δ : XNum) : ∃ x, splitBudget (.approx ε δ) = .ok x := by
  unfold splitBudget
  split
  · rename_i h
    cases h
    split <;> exact ⟨_, rfl⟩
  · rename_i h
    exact (h ε δ rfl).elim

/-- The common part ends alike. -/
theorem start_alike (env : Env) {b b' : PB} (h : Alike b b') (a : Agg) :
    (start env b a).map (fun _ => ()) = (start env b' a).map (fun _ => ()) := by
  obtain ⟨h1, h2⟩ := h
  unfold start
  cases b <;> cases b' <;> first | exact h1.elim | skip
  · dsimp only [adjustForQuery]
    cases a.schema env.cat <;> cases a.keys <;> rfl
  · rename_i ε δ ε' δ'
    simp only [Selects] at h2
    dsimp only [adjustForQuery]
    by_cases hg : a.kind.mech = some .gaussian
    · simp [hg]
    · simp only [hg, if_false]
      cases hk : a.keys with
      | set k => cases a.schema env.cat <;> rfl
      | cols cs =>
        have key : ∀ ε δ : XNum, Except.map (fun _ => ())
            (match (if ((Keys.cols cs).isAuto = true ∧ (PB.approx ε δ).isInfinite = false) then
                (if ε ≤ 0 then Except.error PyErr.value else if δ ≤ 0 then Except.error PyErr.value
                  else Except.ok (PB.approx ε δ)) else Except.ok (PB.approx ε 0)) with
              | .error e => .error e
              | .ok adj =>
                match a.schema env.cat with
                | .error e => .error e
                | .ok _ =>
                  match keyAndQueryBudget (.cols cs) (.approx ε δ) adj with
                  | .error e => .error e
                  | .ok (kb, qb) => Except.ok (adj, kb, qb)) =
            if ((PB.approx ε δ).isInfinite = true ∨ (0 < ε ∧ 0 < δ)) then (a.schema env.cat).map (fun _ => ())
            else .error .value := by
          intro ε δ
          obtain ⟨x, hx⟩ := splitBudget_approx ε 0
          obtain ⟨y, hy⟩ := splitBudget_approx ε δ
          by_cases i1 : (PB.approx ε δ).isInfinite = true
          · simp only [i1, Keys.isAuto, keyAndQueryBudget]
            cases a.schema env.cat <;> simp [Except.map, hx]
          · by_cases p1 : ε ≤ 0
            · simp [i1, p1, Keys.isAuto, not_lt.2 p1, Except.map]
            · by_cases d1 : δ ≤ 0
              · simp [i1, p1, d1, Keys.isAuto, not_lt.2 d1, Except.map]
              · have p1' := not_le.1 p1
                have d1' := not_le.1 d1
                simp only [i1, p1, d1, p1', d1', Keys.isAuto, keyAndQueryBudget]
                cases a.schema env.cat <;> simp [Except.map, hy]
        have k1 := key ε δ
        have k2 := key ε' δ'
        refine k1.trans (Eq.trans ?_ k2.symm)
        simp only [h2]
  · dsimp only [adjustForQuery]
    cases a.schema env.cat <;> cases a.keys <;> rfl

/-- What ends alike either fails with one exception or succeeds twice. -/
theorem start_cases (env : Env) {b b' : PB} (h : Alike b b') (a : Agg) :
    (∃ e, start env b a = .error e ∧ start env b' a = .error e) ∨
      ∃ x y, start env b a = .ok x ∧ start env b' a = .ok y := by
  have := start_alike env h a
  cases h1 : start env b a <;> cases h2 : start env b' a <;> simp_all [Except.map]

theorem visitCount_alike (env : Env) {b b' : PB} (h : Alike b b') (a : Agg) :
    (visitCount env b a).map Plan.unpriced = (visitCount env b' a).map Plan.unpriced := by
  unfold visitCount
  rcases start_cases env h a with ⟨e, h1, h2⟩ | ⟨⟨x1, x2, x3⟩, ⟨y1, y2, y3⟩, h1, h2⟩
  · rw [h1, h2]
  · rw [h1, h2]
    dsimp only
    repeat' split
    all_goals first | rfl | simp_all [Except.map, Plan.unpriced]

theorem visitCountDistinct_alike (env : Env) {b b' : PB} (h : Alike b b') (a : Agg) (toCount : List String) (mech : Mech) :
    (visitCountDistinct env b a toCount mech).map Plan.unpriced =
      (visitCountDistinct env b' a toCount mech).map Plan.unpriced := by
  unfold visitCountDistinct
  rcases start_cases env h a with ⟨e, h1, h2⟩ | ⟨⟨x1, x2, x3⟩, ⟨y1, y2, y3⟩, h1, h2⟩
  · rw [h1, h2]
  · rw [h1, h2]
    dsimp only
    cases a.core with
    | none => rfl
    | some c =>
      dsimp only
      cases visitChild env.h env.cat a.child with
      | error e => rfl
      | ok o =>
        dsimp only
        cases schemaOf env.cat a.child with
        | error e => rfl
        | ok s =>
          dsimp only
          split
          · exact visitCount_alike env h _
          · cases truncateOut env.h env.order env.m o a.keys.columns with
            | error e => rfl
            | ok x =>
              obtain ⟨col, tr, prep⟩ := x
              dsimp only
              split
              · rfl
              · cases hk : a.keys with
                | cols cs => rfl
                | set k =>
                  dsimp only
                  split
                  · rfl
                  · split
                    · rfl
                    · rfl

theorem visitOther_alike (env : Env) {b b' : PB} (h : Alike b b') (a : Agg) (mech : Except PyErr (Option CoreMech))
    (l2 : CoreMech → Bool) (task : Task) :
    (visitOther env b a mech l2 task).map Plan.unpriced = (visitOther env b' a mech l2 task).map Plan.unpriced := by
  unfold visitOther
  rcases start_cases env h a with ⟨e, h1, h2⟩ | ⟨⟨x1, x2, x3⟩, ⟨y1, y2, y3⟩, h1, h2⟩
  · rw [h1, h2]
  · rw [h1, h2]
    dsimp only
    repeat' split
    all_goals first | rfl | simp_all [Except.map, Plan.unpriced]

theorem visitAgg_alike (env : Env) {b b' : PB} (h : Alike b b') (a : Agg) :
    (visitAgg env b a).map Plan.unpriced = (visitAgg env b' a).map Plan.unpriced := by
  unfold visitAgg
  split
  · exact visitCount_alike env h a
  · exact visitCountDistinct_alike env h a _ _
  all_goals exact visitOther_alike env h a _ _ _

theorem visitGroups_alike (env : Env) {b b' : PB} (h : Alike b b') (e : Expr) (cols : List String) :
    (visitGroups env b e cols).map Plan.unpriced = (visitGroups env b' e cols).map Plan.unpriced := by
  have h1 := h.1
  cases b <;> cases b' <;> first | exact h1.elim | skip
  · rfl
  · dsimp only [visitGroups]
    cases schemaOf env.cat e with
    | error x => rfl
    | ok s =>
      dsimp only
      generalize (if cols ≠ [] then cols else (Schema.keys s).filter (fun c => decide (s.idColumn ≠ some c))) = columns
      split
      · rfl
      · cases visitChild env.h env.cat e with
        | error x => rfl
        | ok o =>
          dsimp only
          cases truncateOut env.h env.order env.m o [] with
          | error x => rfl
          | ok x =>
            obtain ⟨col, tr, prep⟩ := x
            dsimp only
            split <;> rfl
  · rfl

/-- **C87**: with another amount of budget, a query is accepted or refused alike, with the same exception; the plans agree in
everything but the budgets. -/
theorem C87_compile (env : Env) {b b' : PB} (h : Alike b b') (q : Query) :
    (compileQuery env b q).map Plan.unpriced = (compileQuery env b' q).map Plan.unpriced := by
  unfold compileQuery
  cases q.schema env.cat with
  | error e => rfl
  | ok _ =>
    dsimp only
    cases rewrite env.m env.cat q with
    | error e => rfl
    | ok q' =>
      cases q' with
      | agg a => exact visitAgg_alike env h a
      | groups e cols => exact visitGroups_alike env h e cols
      | suppress a col t =>
        dsimp only [visit]
        split
        · have := visitCount_alike env h a
          revert this
          cases visitCount env b a <;> cases visitCount env b' a <;> intro this <;>
            simp_all [Except.map, Plan.unpriced]
        · rfl

end Verif.Query
