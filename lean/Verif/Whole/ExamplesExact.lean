import Verif.Whole.Budgets
import Verif.Whole.ExamplesReports

/-!
# C61: a concrete case

A session with the tables of `Relation.demoA` and an infinite budget: sums by city, counts by automatic keys.
-/

namespace Verif.Whole.Example

open Verif Verif.Schema Verif.Constraint Verif.Expr Verif.Query Verif.Stability
open Verif.Budget (XNum PB Rounding)
open Verif.Meaning (Means NoLeftIDs Faithful)
open scoped NNReal

def stats : Stats where
  bounded := fun st _ _ s =>
    match st with
    | .sum => .dec (.fin s.sum)
    | .average => .dec (.fin (s.sum / Multiset.card s))
    | _ => .null
  quantile := fun _ low _ _ => .dec (.fin low)
  bounds := fun _ => (.int 0, .int 0)
  sum := fun _ _ _ => rfl
  average := fun _ _ _ _ => rfl

/-- The key rows and the answer, without noise. -/
noncomputable def exactTable (c : Call) (t : Table) : Table :=
  match c.keys with
  | .set k => groupedAnswer (Dict.keys k.schema) k.rows (coreRow stats c.task) t
  | .cols cs => groupedAnswer cs (t.map (fun r => cs.map (fun c => (c, cell r c)))).dedup (coreRow stats c.task) t

noncomputable def exactCore : Core := ⟨fun c t => PMF.pure (exactTable c t)⟩

theorem exactCore_ok : NoNoise exactCore where
  set := fun c k _ hk => ⟨stats, fun t => by simp only [exactCore, exactTable, hk]⟩
  auto := fun c cs _ _ hk _ => ⟨stats, fun t => ⟨(t.map (fun r => cs.map (fun c => (c, cell r c)))).dedup,
    List.nodup_dedup _, fun k => by simp [eq_comm], by simp only [exactCore, exactTable, hk]⟩⟩

def cityKeys : KeySetV := ⟨[("city", ⟨.INTEGER, false, false, false⟩)],
  [[("city", .int 1)], [("city", .int 2)], [("city", .int 3)]]⟩

/-- The sum of `x`, within 0 and 1, by city. -/
def citySum : Query := .agg ⟨.source "cities", .set cityKeys, .bounded .sum "x" (.int 0) (.int 1) .default, "s", none⟩

/-- The number of rows by city, for all cities there are. -/
def cityCount : Query := .agg ⟨.source "cities", .cols ["city"], .count .default, "n", none⟩

theorem citySum_ok : Admissible (child citySum) := ⟨trivial, trivial, trivial, trivial, trivial⟩

theorem cityCount_ok : Admissible (child cityCount) := ⟨trivial, trivial, trivial, trivial, trivial⟩

/-- What is returned for the two queries, in sessions with a view. -/
noncomputable def exactAnswers (m : Measure) (b : PB) (q : Query) (ok : Admissible (child q)) : Option (List (List (String × Value))) :=
  match Relation.initCore (fun _ v => v) (coreMeasure m) Relation.demoA with
  | .error _ => none
  | .ok out =>
    let w := Session.run (env (ctx m)) (Session.init b (startTables out)) (viewCalls.take 1)
    match (Session.step (env (ctx m)) w (.evaluate 0 (.query q ok) b)).1 with
    | .ok (.answer p _) => some (exactTable p.call (p.run (startData out)))
    | _ => none

theorem exact_sum : exactAnswers .pureDP (.pure ⊤) citySum citySum_ok = some
    [[("city", .int 1), ("s", .dec (.fin 2))], [("city", .int 2), ("s", .dec (.fin 1))],
      [("city", .int 3), ("s", .dec (.fin 0))]] := by
  decide +kernel

theorem exact_count : exactAnswers .approxDP (.approx 1 (1 : ℚ)) cityCount cityCount_ok = some
    [[("city", .int 1), ("n", .int 2)], [("city", .int 2), ("n", .int 1)]] := by
  decide +kernel

theorem exact_hyps {m : Measure} {b : PB} {q : Query} {ok : Admissible (child q)} {t : Table}
    (hs : exactAnswers m b q ok = some t) :
    ∃ out p amt, Relation.initCore (fun _ v => v) (coreMeasure m) Relation.demoA = .ok out ∧
      Relation.Stored (fun _ v => v) Relation.demoA ∧ FramesOK Relation.demoA ∧
      ViewsSafe (ctx m) (Session.init b (startTables out)) (viewCalls.take 1) ∧
      (Session.step (env (ctx m)) (Session.run (env (ctx m)) (Session.init b (startTables out)) (viewCalls.take 1))
        (.evaluate 0 (.query q ok) b)).1 = .ok (.answer p amt) ∧
      exactTable p.call (p.run (startData out)) = t := by
  unfold exactAnswers at hs
  split at hs
  · cases hs
  next out ho =>
  dsimp only at hs
  split at hs
  swap
  · cases hs
  next p amt hp =>
  refine ⟨out, p, amt, ho, (Relation.C34_example (fun _ v => v) .pureDP).1,
    frames_ok (by simp [Long]) (by simp [Long]) (by simp [Long]), ⟨?_, trivial⟩, hp, Option.some.inj hs⟩
  intro i e ok name n cat he _ _
  cases he
  trivial

/-- **C61**: the theorem applies to both queries. The second one has the budget `ApproxDPBudget(1, 1)`, which is infinite
too. -/
theorem C61_example : (∃ out p amt, Relation.initCore (fun _ v => v) (coreMeasure .pureDP) Relation.demoA = .ok out ∧
      Relation.Stored (fun _ v => v) Relation.demoA ∧ FramesOK Relation.demoA ∧
      ViewsSafe (ctx .pureDP) (Session.init (.pure ⊤) (startTables out)) (viewCalls.take 1) ∧
      (Session.step (env (ctx .pureDP))
        (Session.run (env (ctx .pureDP)) (Session.init (.pure ⊤) (startTables out)) (viewCalls.take 1))
        (.evaluate 0 (.query citySum citySum_ok) (.pure ⊤))).1 = .ok (.answer p amt) ∧
      exactTable p.call (p.run (startData out)) =
        [[("city", .int 1), ("s", .dec (.fin 2))], [("city", .int 2), ("s", .dec (.fin 1))],
          [("city", .int 3), ("s", .dec (.fin 0))]]) ∧
    (∃ out p amt, Relation.initCore (fun _ v => v) (coreMeasure .approxDP) Relation.demoA = .ok out ∧
      Relation.Stored (fun _ v => v) Relation.demoA ∧ FramesOK Relation.demoA ∧
      ViewsSafe (ctx .approxDP) (Session.init (.approx 1 (1 : ℚ)) (startTables out)) (viewCalls.take 1) ∧
      (Session.step (env (ctx .approxDP))
        (Session.run (env (ctx .approxDP)) (Session.init (.approx 1 (1 : ℚ)) (startTables out)) (viewCalls.take 1))
        (.evaluate 0 (.query cityCount cityCount_ok) (.approx 1 (1 : ℚ)))).1 = .ok (.answer p amt) ∧
      exactTable p.call (p.run (startData out)) =
        [[("city", .int 1), ("n", .int 2)], [("city", .int 2), ("n", .int 1)]]) ∧
    NoNoise exactCore ∧ BoundsOK (.bounded .sum "x" (.int 0) (.int 1) .default) ∧
    (PB.pure ⊤).isInfinite = true ∧ (PB.approx 1 (1 : ℚ)).isInfinite = true ∧
    ∀ h cat, (Expr.source "cities").ConsSafe h cat ∧ NoLeftIDs cat (.source "cities") := by
  refine ⟨exact_hyps exact_sum, exact_hyps exact_count, exactCore_ok, ?_, rfl, rfl, fun _ _ => ⟨trivial, trivial⟩⟩
  intro b hb
  cases hb
  norm_num [ratOf]

/-- The budgets for keys and aggregation of a count with automatic keys. -/
noncomputable def autoBudgets (b : PB) : Option (PB × PB × PB) :=
  match Relation.initCore (fun _ v => v) (coreMeasure .approxDP) Relation.demoA with
  | .error _ => none
  | .ok out =>
    match (Session.step (env (ctx .approxDP)) (Session.init b (startTables out))
      (.evaluate 0 (.query cityCount cityCount_ok) b)).1 with
    | .ok (.answer p amt) => some (p.call.keyBudget, p.call.aggBudget, amt)
    | _ => none

/-- **C30**: the theorem applies to finite and infinite budgets; `ApproxDPBudget(1, 1)` is infinite. -/
theorem C30_example : cityCount.autoKeys = some ["city"] ∧
    autoBudgets (.approx 2 (1/10 : ℚ)) = some (.approx 1 (1/10 : ℚ), .approx 1 0, .approx 2 (1/10 : ℚ)) ∧
    autoBudgets (.approx 1 (1 : ℚ)) = some (.approx ⊤ (1 : ℚ), .approx ⊤ 0, .approx ⊤ (1 : ℚ)) ∧
    (PB.approx 2 (1/10 : ℚ)).Valid ∧ (PB.approx 1 (1 : ℚ)).Valid := by
  refine ⟨rfl, by decide +kernel, by decide +kernel, ?_, ?_⟩
  · refine ⟨by norm_num, ?_, ?_⟩ <;> exact_mod_cast (by norm_num : _)
  · refine ⟨by norm_num, ?_, le_rfl⟩
    exact_mod_cast (zero_le_one : (0 : ℚ) ≤ 1)

end Verif.Whole.Example
