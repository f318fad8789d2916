import Verif.Query.Model

/-!
# The rows of a KeySet do not matter for the compilation of a query (C85)
-/

namespace Verif.Query

open Verif Verif.Schema Verif.Expr Verif.Constraint Verif.Budget

/-! ## Specification -/

/-- A KeySet with the same columns and other rows. -/
def Keys.withRows (rows : List Row) : Keys → Keys
  | .set k => .set { k with rows := rows }
  | .cols cs => .cols cs

/-- The same query with other rows in its KeySet. -/
def Query.withRows (rows : List Row) : Query → Query
  | .agg a => .agg { a with keys := a.keys.withRows rows }
  | .groups e cols => .groups e cols
  | .suppress a col t => .suppress { a with keys := a.keys.withRows rows } col t

/-- The same plan for other keys. -/
def Plan.withRows (rows : List Row) (p : Plan) : Plan := { p with keys := p.keys.withRows rows }

/-! ## Proofs -/

theorem Keys.withRows_columns (rows : List Row) (k : Keys) : (k.withRows rows).columns = k.columns := by cases k <;> rfl

theorem checkKeys_withRows (s : Schema) (rows : List Row) (k : Keys) : checkKeys s (k.withRows rows) = checkKeys s k := by
  cases k <;> rfl

theorem Agg.schema_withRows (cat : Cat) (rows : List Row) (a : Agg) :
    Agg.schema cat { a with keys := a.keys.withRows rows } = a.schema cat := by
  simp only [Agg.schema, validateGroupby, schemaForGroupby, Keys.withRows_columns, checkKeys_withRows]

/-- An aggregation with other keys. -/
abbrev Agg.withRows (rows : List Row) (a : Agg) : Agg := { a with keys := a.keys.withRows rows }

theorem specialValues_withRows (cat : Cat) (rows : List Row) (a : Agg) :
    specialValues cat (a.withRows rows) = (specialValues cat a).map (Agg.withRows rows) := by
  unfold specialValues
  dsimp only [Agg.withRows]
  repeat' split
  all_goals first | rfl | simp_all [Except.map]

theorem selectNoise_withRows (m : Measure) (cat : Cat) (rows : List Row) (a : Agg) :
    selectNoise m cat (a.withRows rows) = (selectNoise m cat a).map (Agg.withRows rows) := by
  unfold selectNoise
  dsimp only [Agg.withRows]
  repeat' split
  all_goals first | rfl | simp_all [Except.map]

theorem rewriteAgg_withRows (m : Measure) (cat : Cat) (rows : List Row) (a : Agg) :
    rewriteAgg m cat (a.withRows rows) = (rewriteAgg m cat a).map (Agg.withRows rows) := by
  unfold rewriteAgg
  rw [specialValues_withRows]
  cases specialValues cat a with
  | error e => rfl
  | ok a' => exact selectNoise_withRows m cat rows a'

theorem start_withRows (env : Env) (b : PB) (rows : List Row) (a : Agg) : start env b (a.withRows rows) = start env b a := by
  have h1 : adjustForQuery (a.keys.withRows rows) a.kind.mech b = adjustForQuery a.keys a.kind.mech b := by
    cases a.keys <;> rfl
  have h2 : ∀ adj, keyAndQueryBudget (a.keys.withRows rows) b adj = keyAndQueryBudget a.keys b adj := by
    intro adj
    cases a.keys <;> rfl
  simp only [start, Agg.withRows, h1, h2, Agg.schema_withRows]

theorem visitCount_withRows (env : Env) (b : PB) (rows : List Row) (a : Agg) :
    visitCount env b (a.withRows rows) = (visitCount env b a).map (Plan.withRows rows) := by
  unfold visitCount
  rw [start_withRows]
  simp only [Agg.withRows, Keys.withRows_columns]
  repeat' split
  all_goals first | rfl | simp_all [Except.map]

theorem visitCountDistinct_withRows (env : Env) (b : PB) (rows : List Row) (a : Agg) (toCount : List String) (mech : Mech) :
    visitCountDistinct env b (a.withRows rows) toCount mech =
      (visitCountDistinct env b a toCount mech).map (Plan.withRows rows) := by
  unfold visitCountDistinct
  rw [start_withRows]
  simp only [Agg.withRows, Keys.withRows_columns]
  cases start env b a with
  | error e => rfl
  | ok x =>
    obtain ⟨adj, kb, qb⟩ := x
    dsimp only
    cases a.core with
    | none => rfl
    | some c =>
      dsimp only
      cases visitChild env.h env.cat a.child with
      | error e => rfl
      | ok o =>
        dsimp only
        cases schemaOf env.cat a.child with
        | error e => rfl
        | ok s =>
          dsimp only
          split
          · rename_i k _
            exact visitCount_withRows env b rows ⟨a.child.enforce k, a.keys, .count mech, a.out, some c⟩
          · cases truncateOut env.h env.order env.m o a.keys.columns with
            | error e => rfl
            | ok x =>
              obtain ⟨col, tr, prep⟩ := x
              dsimp only
              split
              · rfl
              · cases hk : a.keys with
                | cols cs => rfl
                | set k =>
                  dsimp only [Keys.withRows]
                  split
                  · rfl
                  · split
                    · rfl
                    · rfl

theorem visitOther_withRows (env : Env) (b : PB) (rows : List Row) (a : Agg) (mech : Except PyErr (Option CoreMech))
    (l2 : CoreMech → Bool) (task : Task) :
    visitOther env b (a.withRows rows) mech l2 task = (visitOther env b a mech l2 task).map (Plan.withRows rows) := by
  unfold visitOther
  rw [start_withRows]
  simp only [Agg.withRows, Keys.withRows_columns]
  repeat' split
  all_goals first | rfl | simp_all [Except.map]

theorem visitAgg_withRows (env : Env) (b : PB) (rows : List Row) (a : Agg) :
    visitAgg env b (a.withRows rows) = (visitAgg env b a).map (Plan.withRows rows) := by
  obtain ⟨e, k, kind, out, core⟩ := a
  cases kind with
  | count m => exact visitCount_withRows env b rows ⟨e, k, .count m, out, core⟩
  | countDistinct t m => exact visitCountDistinct_withRows env b rows ⟨e, k, .countDistinct t m, out, core⟩ t m
  | quantile c q l h =>
    exact visitOther_withRows env b rows ⟨e, k, .quantile c q l h, out, core⟩ (.ok none) usesL2
      (.quantile c q l h out)
  | bounded st c l h m => exact visitOther_withRows env b rows ⟨e, k, .bounded st c l h m, out, core⟩ _ _ _
  | bounds c l u => exact visitOther_withRows env b rows ⟨e, k, .bounds c l u, out, core⟩ (.ok none) usesL2 (.bounds c l u)

theorem visitGroups_withRows (env : Env) (b : PB) (rows : List Row) (e : Expr) (cols : List String) :
    visitGroups env b e cols = (visitGroups env b e cols).map (Plan.withRows rows) := by
  cases h : visitGroups env b e cols with
  | error x => rfl
  | ok p =>
    unfold visitGroups at h
    dsimp only at h
    repeat' split at h
    all_goals first | (cases h; done) | skip
    all_goals cases h; rfl

/-- A query with other keys is accepted alike, and its plan is the same but for the keys. -/
theorem compileQuery_withRows (env : Env) (b : PB) (rows : List Row) (q : Query) :
    compileQuery env b (q.withRows rows) = (compileQuery env b q).map (Plan.withRows rows) := by
  cases q with
  | groups e cols =>
    simp only [compileQuery, Query.withRows, rewrite, visit]
    split
    · rfl
    · exact visitGroups_withRows env b rows e cols
  | agg a =>
    simp only [compileQuery, Query.withRows, Query.schema, Agg.schema_withRows, rewrite]
    cases a.schema env.cat with
    | error e => rfl
    | ok s =>
      dsimp only
      have := rewriteAgg_withRows env.m env.cat rows a
      simp only [Agg.withRows] at this
      rw [this]
      cases rewriteAgg env.m env.cat a with
      | error e => rfl
      | ok a' => exact visitAgg_withRows env b rows a'
  | suppress a col t =>
    simp only [compileQuery, Query.withRows, Query.schema, Agg.schema_withRows, rewrite]
    cases a.schema env.cat with
    | error e => rfl
    | ok s =>
      dsimp only
      have := rewriteAgg_withRows env.m env.cat rows a
      simp only [Agg.withRows] at this
      rw [this]
      cases rewriteAgg env.m env.cat a with
      | error e => rfl
      | ok a' =>
        obtain ⟨e, k, kind, out, core⟩ := a'
        cases kind with
        | count m =>
          have := visitCount_withRows env b rows ⟨e, k, .count m, out, core⟩
          simp only [Agg.withRows] at this
          simp only [Except.map, visit]
          rw [this]
          cases visitCount env b ⟨e, k, .count m, out, core⟩ with
          | error e => rfl
          | ok p => rfl
        | countDistinct t m => rfl
        | quantile c q l h => rfl
        | bounded st c l h m => rfl
        | bounds c l u => rfl

end Verif.Query
