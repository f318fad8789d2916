import Verif.Whole.Grouped
import Verif.Whole.Groups
import Verif.Whole.ExamplesExact

/-!
# C66: a concrete case

`(KeySet.from_dict({"city": [1, 2, 3], "z": ["a"]}) - KeySet.from_tuples([(3,)], ["city"]))["city"]`, filtered and
united with `KeySet.from_tuples([(7,)], ["city"])`.
-/

namespace Verif.Whole.Example

open Verif Verif.Schema Verif.Constraint Verif.Expr Verif.Query Verif.Stability
open Verif.Budget (XNum PB Rounding)
open Verif.KeySet (KS KExpr KErr Assign Cond Shows)

/-- Spark keeps the rows with another city than 2. -/
def notTwo : Cond → (String → Option Value) → Bool := fun _ r => decide (r "city" ≠ some (.int 2))

def cityExpr : KExpr :=
  .union
    (.filter
      (.getitem (.sub (.dict [("city", [.int 1, .int 2, .int 3]), ("z", [.str "a"])]) (.tuples [[.int 3]] ["city"])) ["city"])
      (.sql "city != 2"))
    (.tuples [[.int 7]] ["city"])

def cityView : KeySetV := ⟨[("city", ⟨.INTEGER, false, false, false⟩)], [[("city", .int 7)], [("city", .int 1)]]⟩

theorem cityExpr_treated : cityExpr.Treated notTwo := by
  refine ⟨⟨⟨⟨trivial, trivial, by decide⟩, fun c => if c = "city" then .int 1 else .str "a", ?_, ?_⟩, by decide⟩, trivial⟩
  · intro d hd
    simp only [List.mem_cons, List.not_mem_nil, or_false] at hd
    rcases hd with rfl | rfl <;> decide
  · rintro (h | h)
    · cases h
    · revert h
      decide

def viewed : Option KeySetV :=
  match cityExpr.eval KeySet.Wit.h0 with
  | .error _ => none
  | .ok k =>
    match viewOf notTwo k with
    | .error _ => none
    | .ok v => some v

theorem viewed_eq : viewed = some cityView := by decide +kernel

/-- The number of rows by the cities of this KeySet. -/
def cityGrouped : Query := .agg ⟨.source "cities", .set cityView, .count .default, "n", none⟩

theorem cityGrouped_ok : Admissible (child cityGrouped) := ⟨trivial, trivial, trivial, trivial, trivial⟩

theorem exact_grouped : exactAnswers .pureDP (.pure ⊤) cityGrouped cityGrouped_ok = some
    [[("city", .int 7), ("n", .int 0)], [("city", .int 1), ("n", .int 2)]] := by
  decide +kernel

theorem exactCore_rows : OneRowPerKey exactCore := by
  intro c k t out hk hne ho
  simp only [exactCore, PMF.support_pure, Set.mem_singleton_iff] at ho
  subst ho
  simp only [exactTable, hk, groupedAnswer, if_neg hne]
  exact ⟨_, rfl⟩

/-- **C66**: the theorems apply to this KeySet: it has the keys 1 and 7, and the query has an answer. -/
theorem C66_example : (∃ k, cityExpr.eval KeySet.Wit.h0 = .ok k ∧ viewOf notTwo k = .ok cityView) ∧
    cityExpr.Treated notTwo ∧ cityExpr.columns = ["city"] ∧ OneRowPerKey exactCore ∧ NoNoise exactCore ∧
    (∃ out p amt, Relation.initCore (fun _ v => v) (coreMeasure .pureDP) Relation.demoA = .ok out ∧
      Relation.Stored (fun _ v => v) Relation.demoA ∧ FramesOK Relation.demoA ∧
      ViewsSafe (ctx .pureDP) (Session.init (.pure ⊤) (startTables out)) (viewCalls.take 1) ∧
      (Session.step (env (ctx .pureDP))
        (Session.run (env (ctx .pureDP)) (Session.init (.pure ⊤) (startTables out)) (viewCalls.take 1))
        (.evaluate 0 (.query cityGrouped cityGrouped_ok) (.pure ⊤))).1 = .ok (.answer p amt) ∧
      exactTable p.call (p.run (startData out)) =
        [[("city", .int 7), ("n", .int 0)], [("city", .int 1), ("n", .int 2)]]) := by
  refine ⟨?_, cityExpr_treated, rfl, exactCore_rows, exactCore_ok, exact_hyps exact_grouped⟩
  have h := viewed_eq
  unfold viewed at h
  split at h
  · cases h
  next k hk =>
  split at h
  · cases h
  next v hv =>
  cases h
  exact ⟨k, hk, hv⟩

/-- The cities there are. -/
def cityGroups : Query := .groups (.source "cities") ["city"]

theorem cityGroups_ok : Admissible (child cityGroups) := ⟨trivial, trivial, trivial, trivial, trivial⟩

theorem exact_groups : exactAnswers .approxDP (.approx 1 (1 : ℚ)) cityGroups cityGroups_ok = some
    [[("city", .int 1)], [("city", .int 2)]] := by
  decide +kernel

theorem exactCore_groups : AllGroups exactCore := by
  intro c cs _ hk ht hne t
  refine ⟨(t.map (fun r => cs.map (fun c => (c, cell r c)))).dedup, List.nodup_dedup _, fun k => by simp [eq_comm], ?_⟩
  simp only [exactCore, exactTable, hk, ht, groupedAnswer_eq hne, coreRow]
  congr 1
  conv_rhs => rw [← List.map_id (List.dedup _)]
  apply List.map_congr_left
  intro k _
  simp [rowFor, coreRow]

/-- **C61**: the theorem on `get_groups` applies. -/
theorem C61_groups_example : AllGroups exactCore ∧ (PB.approx 1 (1 : ℚ)).isInfinite = true ∧
    ∃ out p amt, Relation.initCore (fun _ v => v) (coreMeasure .approxDP) Relation.demoA = .ok out ∧
      Relation.Stored (fun _ v => v) Relation.demoA ∧ FramesOK Relation.demoA ∧
      ViewsSafe (ctx .approxDP) (Session.init (.approx 1 (1 : ℚ)) (startTables out)) (viewCalls.take 1) ∧
      (Session.step (env (ctx .approxDP))
        (Session.run (env (ctx .approxDP)) (Session.init (.approx 1 (1 : ℚ)) (startTables out)) (viewCalls.take 1))
        (.evaluate 0 (.query cityGroups cityGroups_ok) (.approx 1 (1 : ℚ)))).1 = .ok (.answer p amt) ∧
      exactTable p.call (p.run (startData out)) = [[("city", .int 1)], [("city", .int 2)]] :=
  ⟨exactCore_groups, rfl, exact_hyps exact_groups⟩

end Verif.Whole.Example
