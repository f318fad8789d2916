import Verif.Query.OtherKeys
import Verif.Session.NoiseInfo
import Verif.Whole.Model

/-!
# The rows of a KeySet decide about the rows of the answer only (C85)
-/

namespace Verif.Whole

open Verif Verif.Schema Verif.Constraint Verif.Expr Verif.Query Verif.Stability
open Verif.Budget (XNum PB Rounding)
open scoped ENNReal NNReal

/-! ## Specification -/

theorem child_withRows (rows : List Row) (q : Query) : child (q.withRows rows) = child q := by cases q <;> rfl

/-- The same request with other rows in its KeySet. -/
def Request.withRows (rows : List Row) : Request → Request
  | .query q ok => .query (q.withRows rows) ((child_withRows rows q).symm ▸ ok)
  | .table e ok => .table e ok

/-- The same measurement for other keys: the budgets, the mechanism, the norm, the task, the distance it is built for, the
table it is applied to, and what is done with the answer are the same. -/
def Meas.withRows (rows : List Row) (m : Meas) : Meas := { m with call := { m.call with keys := m.call.keys.withRows rows } }

/-- What decides about the noise of an aggregation. `_build_adaptive_groupby_agg_and_noise_info`
(`_base_measurement_visitor.py` l. 492-510) builds the aggregation for a KeySet of the same columns with one row of its own
and looks at its noise. -/
structure Noise where
  budget : PB
  mech : Option CoreMech
  useL2 : Bool
  columns : List String
  task : Task
  delta : ℝ≥0

/-- What is told about the noise of a measurement. -/
def noiseOf (m : Meas) : Noise :=
  ⟨m.call.aggBudget, m.call.mech, m.call.useL2, m.call.keys.columns, m.call.task, m.call.delta⟩

/-! ## Proofs -/

theorem compileM_withRows (ctx : Ctx) (rows : List Row) (r : Request) (tables : List (String × Tab))
    (pub : List (String × PubFrame)) (b : PB) :
    compileM ctx tables pub (r.withRows rows) b = (compileM ctx tables pub r b).map (Meas.withRows rows) := by
  cases r with
  | table e ok => rfl
  | query q ok =>
    have hg : Stability.groupCols (q.withRows rows) = Stability.groupCols q := by
      cases q <;> simp [Stability.groupCols, Query.withRows, Keys.withRows_columns]
    dsimp only [compileM, Request.withRows]
    split
    · rfl
    cases catalog tables pub with
    | error x => rfl
    | ok cat =>
      dsimp only
      rw [compileQuery_withRows, hg]
      cases compileQuery ⟨ctx.h, ctx.order, ctx.m, cat⟩ b q with
      | error x => rfl
      | ok p =>
        simp only [Except.map, Plan.withRows]
        cases compile ctx.h cat p.child with
        | error x => rfl
        | ok o =>
          dsimp only
          have h1 : rootMetric ctx.m (Stability.groupCols q) o { p with keys := p.keys.withRows rows } =
              rootMetric ctx.m (Stability.groupCols q) o p := rfl
          have h2 : callDelta ctx.m ctx.h cat tables (Stability.groupCols q) o { p with keys := p.keys.withRows rows } =
              callDelta ctx.m ctx.h cat tables (Stability.groupCols q) o p := rfl
          rw [h1, h2]
          split <;> rfl

theorem covered_withRows (rows : List Row) (m : Meas) (b : PB) : covered (m.withRows rows) b = covered m b := rfl

/-- **C85**: with other rows in the KeySet of a query, `evaluate` raises the same exception, or charges the same and leaves all
sessions in the same state; the measurement is the same but for the keys. -/
theorem C85_keys (ctx : Ctx) (w : Session.World Meas Tab PubFrame) (i : Nat) (r : Request) (b : PB) (rows : List Row) :
    (Session.evaluate (env ctx) w i (r.withRows rows) b).1 =
        (Session.evaluate (env ctx) w i r b).1.map (Session.Out.map (Meas.withRows rows)) ∧
      (Session.evaluate (env ctx) w i (r.withRows rows) b).2.nodes.map Session.seen =
        (Session.evaluate (env ctx) w i r b).2.nodes.map Session.seen ∧
      (Session.evaluate (env ctx) w i (r.withRows rows) b).2.heap = (Session.evaluate (env ctx) w i r b).2.heap :=
  Session.evaluate_map (env := env ctx) (fun tables pub b => compileM_withRows ctx rows r tables pub b)
    (covered_withRows rows) w i b

/-- **C85**: and `_noise_info` tells the same. -/
theorem C85_noise_keys (ctx : Ctx) (w : Session.World Meas Tab PubFrame) (i : Nat) (r : Request) (b : PB) (rows : List Row) :
    Session.noiseInfo (env ctx) noiseOf w i (r.withRows rows) b = Session.noiseInfo (env ctx) noiseOf w i r b :=
  Session.noiseInfo_map (env := env ctx) (fun tables pub b => compileM_withRows ctx rows r tables pub b)
    (fun m => by simp [noiseOf, Meas.withRows, Keys.withRows_columns]) w i b

end Verif.Whole
