import Verif.Query.Model
import Verif.Expr.Named

/-!
# Only the tables that a query names matter (C89)
-/

namespace Verif.Query

open Verif Verif.Schema Verif.Expr Verif.Constraint Verif.Budget

/-! ## Specification -/

/-- The catalogs agree about the tables that the query names. -/
def Query.SameNamed (cat cat' : Cat) : Query → Prop
  | .agg a => Expr.SameNamed cat cat' a.child
  | .groups e _ => Expr.SameNamed cat cat' e
  | .suppress a _ _ => Expr.SameNamed cat cat' a.child

/-! ## Proofs -/

/-- The surroundings agree but for the catalog. -/
structure SameEnv (env env' : Env) : Prop where
  h : env'.h = env.h
  order : env'.order = env.order
  m : env'.m = env.m

variable {env env' : Env}

theorem aggSchema_named {cat cat' : Cat} (a : Agg) (d : Expr.SameNamed cat cat' a.child) : a.schema cat' = a.schema cat := by
  unfold Agg.schema
  rw [schemaOf_named a.child d]

theorem querySchema_named {cat cat' : Cat} (q : Query) (d : Query.SameNamed cat cat' q) : q.schema cat' = q.schema cat := by
  cases q with
  | agg a => exact aggSchema_named a d
  | groups e cols =>
    dsimp only [Query.schema, groupsSchema]
    rw [schemaOf_named e d]
  | suppress a col t => exact aggSchema_named a d

theorem specialValues_named {cat cat' : Cat} (a : Agg) (d : Expr.SameNamed cat cat' a.child) :
    specialValues cat' a = specialValues cat a := by
  unfold specialValues
  rw [schemaOf_named a.child d]

theorem specialValues_keepsNamed {cat₀ cat cat' : Cat} {a a' : Agg} (h : specialValues cat₀ a = .ok a')
    (d : Expr.SameNamed cat cat' a.child) : Expr.SameNamed cat cat' a'.child := by
  unfold specialValues at h
  repeat' split at h
  all_goals first | (cases h; done) | skip
  all_goals cases h
  all_goals first | exact d | skip
  all_goals
    dsimp only
    first
      | exact d.of rfl rfl
      | (split <;> exact d.of rfl rfl)

theorem selectNoise_named {m : Measure} {cat cat' : Cat} (a : Agg) (d : Expr.SameNamed cat cat' a.child) :
    selectNoise m cat' a = selectNoise m cat a := by
  unfold selectNoise
  rw [schemaOf_named a.child d]

theorem selectNoise_keepsNamed {m : Measure} {cat₀ cat cat' : Cat} {a a' : Agg} (h : selectNoise m cat₀ a = .ok a')
    (d : Expr.SameNamed cat cat' a.child) : Expr.SameNamed cat cat' a'.child := by
  unfold selectNoise at h
  repeat' split at h
  all_goals first | (cases h; done) | skip
  all_goals cases h
  all_goals exact d

theorem rewriteAgg_named {m : Measure} {cat cat' : Cat} (a : Agg) (d : Expr.SameNamed cat cat' a.child) :
    rewriteAgg m cat' a = rewriteAgg m cat a := by
  unfold rewriteAgg
  rw [specialValues_named a d]
  cases ha : specialValues cat a with
  | error e => rfl
  | ok a' => exact selectNoise_named a' (specialValues_keepsNamed ha d)

theorem rewriteAgg_keepsNamed {m : Measure} {cat₀ cat cat' : Cat} {a a' : Agg} (h : rewriteAgg m cat₀ a = .ok a')
    (d : Expr.SameNamed cat cat' a.child) : Expr.SameNamed cat cat' a'.child := by
  unfold rewriteAgg at h
  obtain ⟨a1, h1, h2⟩ := bind_ok h
  exact selectNoise_keepsNamed h2 (specialValues_keepsNamed h1 d)

theorem start_named (b : PB) (a : Agg) (d : Expr.SameNamed env.cat env'.cat a.child) : start env' b a = start env b a := by
  unfold start
  rw [aggSchema_named a d]

theorem visitChild_named {h : Hash} {cat cat' : Cat} (e : Expr) (d : Expr.SameNamed cat cat' e) :
    visitChild h cat' e = visitChild h cat e := by
  unfold visitChild
  rw [compile_named e d, schemaOf_named e d]

theorem visitCount_named (se : SameEnv env env') (b : PB) (a : Agg) (d : Expr.SameNamed env.cat env'.cat a.child) :
    visitCount env' b a = visitCount env b a := by
  unfold visitCount
  rw [start_named b a d, visitChild_named a.child d, se.h, se.order, se.m]

theorem visitCountDistinct_named (se : SameEnv env env') (b : PB) (a : Agg) (d : Expr.SameNamed env.cat env'.cat a.child)
    (toCount : List String) (mech : Mech) : visitCountDistinct env' b a toCount mech = visitCountDistinct env b a toCount mech := by
  have hc : ∀ k c, visitCount env' b ⟨a.child.enforce k, a.keys, .count mech, a.out, c⟩ =
      visitCount env b ⟨a.child.enforce k, a.keys, .count mech, a.out, c⟩ :=
    fun k c => visitCount_named se b _ (d.of rfl rfl)
  unfold visitCountDistinct
  simp only [start_named b a d, visitChild_named a.child d, schemaOf_named a.child d, se.h, se.order, se.m, hc]

theorem visitOther_named (se : SameEnv env env') (b : PB) (a : Agg) (d : Expr.SameNamed env.cat env'.cat a.child)
    (mech : Except PyErr (Option CoreMech)) (l2 : CoreMech → Bool) (task : Task) :
    visitOther env' b a mech l2 task = visitOther env b a mech l2 task := by
  unfold visitOther
  rw [start_named b a d, visitChild_named a.child d, se.h, se.order, se.m]

theorem visitAgg_named (se : SameEnv env env') (b : PB) (a : Agg) (d : Expr.SameNamed env.cat env'.cat a.child) :
    visitAgg env' b a = visitAgg env b a := by
  obtain ⟨e, k, kind, out, core⟩ := a
  cases kind with
  | count m => exact visitCount_named se b ⟨e, k, .count m, out, core⟩ d
  | countDistinct t m => exact visitCountDistinct_named se b ⟨e, k, .countDistinct t m, out, core⟩ d t m
  | quantile c q l h => exact visitOther_named se b ⟨e, k, .quantile c q l h, out, core⟩ d (.ok none) usesL2 (.quantile c q l h out)
  | bounded st c l h m => exact visitOther_named se b ⟨e, k, .bounded st c l h m, out, core⟩ d _ _ _
  | bounds c l u => exact visitOther_named se b ⟨e, k, .bounds c l u, out, core⟩ d (.ok none) usesL2 (.bounds c l u)

theorem visitGroups_named (se : SameEnv env env') (b : PB) (e : Expr) (cols : List String)
    (d : Expr.SameNamed env.cat env'.cat e) : visitGroups env' b e cols = visitGroups env b e cols := by
  unfold visitGroups
  rw [visitChild_named e d, schemaOf_named e d, se.h, se.order, se.m]

/-- **C89**: a query is accepted, and compiled, by what the catalog knows of the tables that the query names. -/
theorem C89_compile (se : SameEnv env env') (b : PB) (q : Query) (d : Query.SameNamed env.cat env'.cat q) :
    compileQuery env' b q = compileQuery env b q := by
  unfold compileQuery
  rw [querySchema_named q d]
  cases q.schema env.cat with
  | error e => rfl
  | ok _ =>
    dsimp only
    cases q with
    | groups e cols => exact visitGroups_named se b e cols d
    | agg a =>
      dsimp only [rewrite]
      rw [se.m, rewriteAgg_named a d]
      cases ha : rewriteAgg env.m env.cat a with
      | error e => rfl
      | ok a' => exact visitAgg_named se b a' (rewriteAgg_keepsNamed ha d)
    | suppress a col t =>
      dsimp only [rewrite]
      rw [se.m, rewriteAgg_named a d]
      cases ha : rewriteAgg env.m env.cat a with
      | error e => rfl
      | ok a' =>
        have d' := rewriteAgg_keepsNamed ha d
        obtain ⟨e, k, kind, out, core⟩ := a'
        cases kind <;> try rfl
        rename_i mm
        have := visitCount_named se b ⟨e, k, .count mm, out, core⟩ d'
        dsimp only [Except.map, visit] at this ⊢
        rw [this]

end Verif.Query
