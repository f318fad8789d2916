import Verif.Query.PropsBudget
import Verif.Query.PropsNoise
import Verif.Query.PropsSpecial
import Verif.Query.PropsAnswer
import Verif.Expr.ExamplesIds

/-!
# C27–C32: concrete cases, and a budget that cannot be split
-/

namespace Verif.Query

open Verif Verif.Schema Verif.Expr Verif.Constraint Verif.Budget

namespace Example

/-- What can be observed of a compiled query. -/
structure Obs where
  total : PB
  keyBudget : PB
  aggBudget : PB
  mech : Option CoreMech
  useL2 : Bool
  task : Task
  keysOK : Bool
  keys : Keys
  rows : List (List (String × Value))
  deriving DecidableEq

def observe (env : Env) (b : PB) (q : Query) (D : Data) : Option Obs :=
  match compileQuery env b q with
  | .error _ => none
  | .ok p => some ⟨p.total, p.keyBudget, p.aggBudget, p.mech, p.useL2, p.task, p.keysOK, p.keys, p.prep D⟩

theorem observe_ok {env : Env} {b : PB} {q : Query} {D : Data} {x : Obs} (h : observe env b q D = some x) :
    ∃ p, compileQuery env b q = .ok p ∧ p.total = x.total ∧ p.keyBudget = x.keyBudget ∧
      p.aggBudget = x.aggBudget ∧ p.mech = x.mech ∧ p.useL2 = x.useL2 ∧ p.task = x.task ∧ p.keysOK = x.keysOK ∧ p.keys = x.keys ∧
      p.prep D = x.rows := by
  unfold observe at h
  split at h
  · cases h
  · next p hp =>
    cases h
    exact ⟨p, hp, rfl, rfl, rfl, rfl, rfl, rfl, rfl, rfl, rfl⟩

def env (m : Measure) : Env := ⟨Expr.Example.h, id, m, Expr.Example.cat⟩

/-- The keys 7 and 8 for column `A`. -/
def keys : KeySetV :=
  ⟨[("A", ⟨.INTEGER, false, false, false⟩)], [[("A", .int 7)], [("A", .int 8)]]⟩

/-- The ID table with at most two rows per ID. -/
def two : Expr := .enforce (.source "t") (.maxRowsPerID 2)

/-- The sum of a column with nulls, NaNs and infinities, clamped to [0, 5], by `A`. -/
def sumX (ks : Keys) (m : Mech) : Agg :=
  ⟨two, ks, .bounded .sum "X" (.dec (.fin 0)) (.dec (.fin 5)) m, "s", none⟩

def countA (ks : Keys) (m : Mech) : Agg := ⟨two, ks, .count m, "n", none⟩

theorem child_ok (ks : Keys) (m : Mech) : (sumX ks m).child.WF ∧ (sumX ks m).child.FnsOK ∧
    (sumX ks m).child.RenamesDistinct := ⟨trivial, trivial, trivial⟩

/-- C29, C31: the NaN row is dropped, the infinity clamped; the delta is not used. -/
theorem sum_observed : observe (env .approxDP) (.approx 2 (1/10 : ℚ)) (.agg (sumX (.set keys) .default))
    Expr.Example.D = some
    ⟨.approx 2 0, .approx 0 0, .approx 2 0, some .laplace, false,
      .bounded .sum "X" (.dec (.fin 0)) (.dec (.fin 5)) "s", true, .set keys,
      [[("id", .str "ann"), ("A", .null), ("X", .dec (.fin 5))],
        [("id", .str "bob"), ("A", .int 7), ("X", .dec (.fin 2))]]⟩ := by
  decide +kernel

example : ∃ env b q a p k, env.cat.OK ∧ q.agg? = some a ∧ a.kind.measure = some "X" ∧ a.child.WF ∧ a.child.FnsOK ∧
    a.child.RenamesDistinct ∧ a.keys = .set k ∧ Dict.keys k.schema ≠ [] ∧ env.cat.DataOK Expr.Example.D ∧
    compileQuery env b q = .ok p ∧ p.mech = some .laplace := by
  obtain ⟨p, hp, _, _, _, hm, _⟩ := observe_ok sum_observed
  exact ⟨_, _, _, sumX (.set keys) .default, p, keys, Expr.Example.cat_ok, rfl, rfl, trivial, trivial, trivial, rfl,
    by decide, Expr.Example.data_ok, hp, hm⟩

/-- C28: under zCDP the default is Gaussian; for an integer aggregate it is the discrete one. -/
theorem gauss_observed : observe (env .zCDP) (.zcdp 3) (.agg (countA (.set keys) .default))
    Expr.Example.D = some
    ⟨.zcdp 3, .zcdp 0, .zcdp 3, some .discreteGaussian, true, .count "n", true, .set keys, Expr.Example.D "t"⟩ := by
  decide +kernel

/-- C30: automatic keys, with finite and infinite epsilon. -/
theorem auto_observed : observe (env .approxDP) (.approx 2 (1/10 : ℚ)) (.agg (countA (.cols ["A"]) .default))
    Expr.Example.D = some
    ⟨.approx 2 (1/10 : ℚ), .approx 1 (1/10 : ℚ), .approx 1 0, some .geometric, false, .count "n", true,
      .cols ["A"], Expr.Example.D "t"⟩ := by
  decide +kernel

theorem infinite_observed : observe (env .approxDP) (.approx ⊤ (1/10 : ℚ)) (.agg (countA (.cols ["A"]) .default))
    Expr.Example.D = some
    ⟨.approx ⊤ 0, .approx ⊤ 1, .approx ⊤ 0, some .geometric, false, .count "n", true, .cols ["A"], Expr.Example.D "t"⟩ := by
  decide +kernel

/-- C27 for automatic keys: there is a possible selection. -/
example : ∃ p, compileQuery (env .approxDP) (.approx 2 (1/10 : ℚ)) (.agg (countA (.cols ["A"]) .default)) = .ok p ∧
    ∃ keys, p.KeysFor Expr.Example.D keys ∧ keys = [[("A", .int 7)]] := by
  obtain ⟨p, hp, _, _, _, _, _, _, _, hk, hr⟩ := observe_ok auto_observed
  refine ⟨p, hp, _, ?_, rfl⟩
  unfold Plan.KeysFor
  rw [hk]
  refine ⟨by simp, ?_⟩
  intro k hk
  rw [hr]
  simp only [List.mem_singleton] at hk
  subst hk
  exact ⟨[("id", .str "bob"), ("A", .int 7), ("X", .dec (.fin 2))], by decide +kernel, by decide +kernel⟩

/-- C32: a suppression. -/
theorem suppress_observed : observe (env .pureDP) (.pure 1) (.suppress (countA (.set keys) .laplace) "n" 2)
    Expr.Example.D = some
    ⟨.pure 1, .pure 0, .pure 1, some .geometric, false, .count "n", true, .set keys, Expr.Example.D "t"⟩ := by
  decide +kernel

example : ∃ env b a k p, a.keys = .set k ∧ Dict.keys k.schema ≠ [] ∧ (∀ r ∈ k.rows, a.out ∉ r.cols) ∧
    compileQuery env b (.suppress a a.out 2) = .ok p ∧ p.KeysFor Expr.Example.D k.rows := by
  obtain ⟨p, hp, _, _, _, _, _, _, _, hk, _⟩ := observe_ok suppress_observed
  refine ⟨_, _, countA (.set keys) .laplace, keys, p, rfl, by decide, by decide, hp, ?_⟩
  unfold Plan.KeysFor
  rw [hk]

/-- A finite budget with delta = 1 and automatic keys. -/
theorem delta_one_observed : observe (env .approxDP) (.approx 2 1) (.agg (countA (.cols ["A"]) .default))
    Expr.Example.D = some
    ⟨.approx 2 0, .approx 1 0, .approx 1 0, some .geometric, false, .count "n", false, .cols ["A"], Expr.Example.D "t"⟩ := by
  decide +kernel

end Example

/-- **C30** fails for finite budgets with delta = 1: such a budget counts as infinite when it is adjusted, so its
delta is removed, and the keys get no delta. The query compiles but the selection of keys cannot be built when it is
run. -/
theorem C30_fails : ∃ (env : Env) (b : PB) (q : Query) (p : Plan) (cs : List String), b.Valid ∧
    q.autoKeys = some cs ∧ compileQuery env b q = .ok p ∧ first b ≠ ⊤ ∧ 0 < second b ∧
    second p.keyBudget = 0 ∧ p.keysOK = false := by
  obtain ⟨p, hp, _, hk, _, _, _, _, ho, _⟩ := Example.observe_ok Example.delta_one_observed
  refine ⟨_, _, _, p, _, ?_, rfl, hp, ?_, ?_, by rw [hk]; rfl, ho⟩
  · simp [PB.Valid]
  · simp [first]
  · simp [second]

end Verif.Query
