import Verif.Whole.Props
import Verif.Whole.Noise
import Verif.Constraint.Hash

/-!
# C55, C56: a concrete case

The tables of `Relation.demoA` and `Relation.demoB`: `people` with IDs, `cities` with bounded groups, `rest` with bounded
rows. All three change at once. The noise is that of `Verif.Whole.Noise`.
-/

namespace Verif.Whole.Example

open Verif Verif.Schema Verif.Constraint Verif.Expr Verif.Query Verif.Stability
open Verif.Budget (XNum PB Rounding)
open Verif.Composition (Within)
open scoped NNReal

def ctx (m : Measure) : Ctx where
  h := codeHash
  lawful := codeHash_lawful
  order := id
  m := m
  cast := fun _ v => v
  castOK := fun _ _ _ => rfl
  isIdent := fun _ => true
  rounding := .exact

theorem lawful (m : Measure) : (ctx m).rounding.Lawful := ⟨fun _ _ h => h, rfl, rfl, fun _ => le_rfl, fun _ h => h, fun _ _ h => h⟩

/-- The number of people, with at most two rows for each. -/
def people : Request := .query (.agg ⟨.enforce (.source "people") (.maxRowsPerID 2), .set ⟨[], [[]]⟩, .count .default, "n", none⟩)
  ⟨trivial, trivial, trivial, trivial, trivial⟩

/-- The number of rows of the first city. -/
def city : Request := .query (.agg ⟨.source "one", .set ⟨[], [[]]⟩, .count .default, "n", none⟩)
  ⟨trivial, trivial, trivial, trivial, trivial⟩

/-- Count people, split by city, count in the first city. -/
def calls : List (Session.Op Request PubFrame Value) :=
  [.evaluate 0 people (.pure (2 : ℚ)), .partition 0 "cities" (.pure (3 : ℚ)) "city" [("one", .int 1), ("two", .int 2)],
    .evaluate 1 city (.pure (2 : ℚ))]

/-- An analyst who makes these calls, and stops after the first if the answer is empty. -/
noncomputable def analyst : Composition.Analyst Request Meas Tab PubFrame Value Table := fun hist _ =>
  match hist with
  | [] => PMF.pure (.evaluate 0 people (.pure (2 : ℚ)))
  | [(_, _, some (_ :: _))] => PMF.pure (.partition 0 "cities" (.pure (3 : ℚ)) "city" [("one", .int 1), ("two", .int 2)])
  | [_] => PMF.pure (.stop 0)
  | _ => PMF.pure (.evaluate 1 city (.pure (2 : ℚ)))

theorem analyst_valid : ∀ hist w, ∀ op ∈ (analyst hist w).support, op.BudgetValid := by
  have h2 : (0 : XNum) ≤ ((2 : ℚ) : XNum) := WithTop.coe_nonneg.2 (by norm_num)
  have h3 : (0 : XNum) ≤ ((3 : ℚ) : XNum) := WithTop.coe_nonneg.2 (by norm_num)
  intro hist w op hop
  unfold analyst at hop
  split at hop <;> rw [PMF.support_pure, Set.mem_singleton_iff] at hop <;> rw [hop] <;>
    first | exact h2 | exact h3 | trivial

def Long (v : Value) : Prop := ∃ x : Int, v = .int x ∧ -2 ^ 63 ≤ x ∧ x < 2 ^ 63

theorem frames_ok {p c o : List Relation.DataRow} (hp : ∀ r ∈ p, ∃ x, r = [x] ∧ Long x)
    (hc : ∀ r ∈ c, ∃ x y, r = [x, y] ∧ Long x ∧ Long y) (ho : ∀ r ∈ o, ∃ x, r = [x] ∧ Long x) :
    FramesOK (Relation.demoDb p c o) := by
  refine ⟨fun n df ch h r hr => ?_⟩
  simp only [Relation.demoDb, List.mem_cons, List.not_mem_nil, or_false, Prod.mk.injEq] at h
  have hold : ∀ (c : String) {v : Value}, Long v → Holds ⟨c, .long, false⟩ v := by
    rintro c _ ⟨x, rfl, hx⟩
    exact ⟨hx, nofun⟩
  rcases h with ⟨_, rfl, _⟩ | ⟨_, rfl, _⟩ | ⟨_, rfl, _⟩
  · obtain ⟨x, rfl, hx⟩ := hp r hr
    exact .cons (hold _ hx) .nil
  · obtain ⟨x, y, rfl, hx, hy⟩ := hc r hr
    exact .cons (hold _ hx) (.cons (hold _ hy) .nil)
  · obtain ⟨x, rfl, hx⟩ := ho r hr
    exact .cons (hold _ hx) .nil

/-- **C56**: the theorem applies to these tables, with noise that depends on the data. -/
theorem C56_example (n : ℕ) : ∃ outA outB, Relation.initCore (ctx .pureDP).cast .pureDP Relation.demoA = .ok outA ∧
    Relation.initCore (ctx .pureDP).cast .pureDP Relation.demoB = .ok outB ∧ startTables outB = startTables outA ∧
    Within (.pure (5 : ℚ)) 1
      (Composition.transcript (env (ctx .pureDP)) (sem (ctx .pureDP) coinCore) analyst n
        (Session.init (.pure (5 : ℚ)) (startTables outA)) (fun _ => (startRoot outA, startData outA)) [])
      (Composition.transcript (env (ctx .pureDP)) (sem (ctx .pureDP) coinCore) analyst n
        (Session.init (.pure (5 : ℚ)) (startTables outB)) (fun _ => (startRoot outB, startData outB)) []) := by
  obtain ⟨hA, hB, hn, ⟨outA, h⟩, _⟩ := Relation.C34_example (ctx .pureDP).cast .pureDP
  obtain ⟨outB, h1, h2, h3⟩ := C56_session (ctx := ctx .pureDP) (lawful _) (coin_private _) hA hB
    (frames_ok (by simp [Long]) (by simp [Long]) (by simp [Long])) (frames_ok (by simp [Long]) (by simp [Long]) (by simp [Long])) hn h
    (b := .pure (5 : ℚ)) (WithTop.coe_nonneg.2 (by norm_num)) analyst analyst_valid n
  exact ⟨outA, outB, h, h1, h2, h3⟩

/-- The results of the calls, as far as they are returned or raise. -/
noncomputable def results : List (Session.Op Request PubFrame Value) →
    Session.World Meas Tab PubFrame → List Bool
  | [], _ => []
  | op :: ops, w =>
    (match (Session.step (env (ctx .pureDP)) w op).1 with | .ok _ => true | .error _ => false) ::
      results ops (Session.step (env (ctx .pureDP)) w op).2

/-- All three calls are accepted. -/
example : (match Relation.initCore (fun _ v => v) .pureDP Relation.demoA with
    | .ok out => results calls (Session.init (.pure (5 : ℚ)) (startTables out))
    | .error _ => []) = [true, true, true] := by
  decide +kernel

end Verif.Whole.Example
