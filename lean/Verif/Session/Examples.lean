import Verif.Session.PropsViews

/-!
# A concrete session

A small concrete environment and histories. They show that the hypotheses of the theorems on sessions can
be met by non-trivial histories, and they are the witnesses for the places where code and claim part ways.
-/

namespace Verif.Session

open Verif.Budget

namespace Demo

/-- Queries are numbers; query 0 does not compile. Tables and data frames carry a number. -/
def env : Env Nat Nat Nat Nat Nat where
  isIdent s := s.length > 0
  rounding := .exact
  compile _ _ q _ := if q = 0 then .error .valueError else .ok q
  privRel _ _ := true
  transform _ _ q := if q = 0 then .error .valueError else .ok q
  partition ts _ src _ _ := match ts.find? (fun p => p.1 == src) with
    | some p => .ok p.2
    | none => .error .keyError
  coerce d := .ok d

/-- `Rounding.exact` satisfies the assumed laws. -/
theorem exact_lawful : Rounding.exact.Lawful where
  rnd_mono _ _ h := h
  rnd_zero := rfl
  rnd_one := rfl
  down_le a := le_refl a
  down_nonneg _ h := h
  down_mono _ _ h := h

theorem noBudgetErrors : env.NoBudgetErrors := by
  constructor <;> intros <;> simp only [env] <;> (repeat' split) <;>
    rename_i h _ <;> (try rcases h with rfl | rfl) <;> simp_all <;> rintro rfl <;> simp_all [Err.LacksBudget]

abbrev W := World Nat Nat Nat

/-- A session with budget ε = 10. -/
def w0 : W := init (.pure ((10 : ℚ) : XNum)) [("t", 7)]

/-- A history: ask, partition, ask both parts, try to overspend. -/
def history : List (Op Nat Nat Nat) :=
  [.evaluate 0 1 (.pure ((2 : ℚ) : XNum)),
   .partition 0 "t" (.pure ((3 : ℚ) : XNum)) "c" [("a", 1), ("b", 2)],
   .evaluate 1 1 (.pure ((3 : ℚ) : XNum)),
   .evaluate 2 1 (.pure ((1 : ℚ) : XNum)),
   .evaluate 0 1 (.pure ((9 : ℚ) : XNum))]

theorem history_valid : ∀ op ∈ history, op.BudgetValid := by
  intro op hop
  simp only [history, List.mem_cons, List.not_mem_nil, or_false] at hop
  rcases hop with rfl | rfl | rfl | rfl | rfl <;>
    simp only [Op.BudgetValid, PB.Valid] <;> decide +kernel

def remainingOf (w : W) (i : Nat) : Option PB := (w.nodes[i]?).map (·.remaining)

def w1 : W := run env w0 history

-- three sessions, budgets 5, 0 and 2 left; the last call was rejected
example : remainingOf w1 0 = some (.pure ((5 : ℚ) : XNum)) := by decide +kernel
example : remainingOf w1 1 = some (.pure ((0 : ℚ) : XNum)) := by decide +kernel
example : remainingOf w1 2 = some (.pure ((2 : ℚ) : XNum)) := by decide +kernel
example : w1.nodes.map (·.state) = [.active, .retired, .retired] := by decide +kernel

-- the general theorems apply to it
example : (loss w1.nodes w1.nodes.length 0).1 = ((5 : ℚ) : XNum) := by decide +kernel

-- C01, C06, C08 on this history
example : loss w1.nodes 5 0 ≤ vec (.pure ((10 : ℚ) : XNum)) :=
  (C01_never_overspent exact_lawful (by simp only [PB.Valid]; decide +kernel) (by decide +kernel) _
    history history_valid 5).1
example : stateOf w1 1 = some .retired := by decide +kernel

/-- Every query other than 0 is well formed for `C03_decision_partial`. -/
theorem wellFormed (w : W) (n : Node Nat Nat) (q : Nat) (hq : q ≠ 0) (b : PB) : WellFormed env w n q b := by
  intro adj _
  refine ⟨q, by simp [env, hq], by simp [env]⟩

-- C03: the session with 5 left answers a request for 5 + 5e-9 and charges 5, and refuses 5.1
example : (evaluate env w1 0 1 (.pure ((5 + 5 / 10 ^ 9 : ℚ) : XNum))).1 =
    .ok (.answer 1 (.pure ((5 : ℚ) : XNum))) := by decide +kernel
example : (evaluate env w1 0 1 (.pure ((51 / 10 : ℚ) : XNum))).1 = .error .insufficientBudget := by
  decide +kernel

-- C03_rounding_gap: a lawful rounding that rounds 4/3 down
def floorRounding : Rounding := ⟨id, fun q => (q.floor : ℚ)⟩

theorem floor_lawful : floorRounding.Lawful where
  rnd_mono _ _ h := h
  rnd_zero := rfl
  rnd_one := rfl
  down_le a := Rat.floor_le a
  down_nonneg a h := by
    have : (0 : ℤ) ≤ a.floor := Rat.le_floor_iff.mpr (by simpa using h)
    change (0 : ℚ) ≤ (a.floor : ℚ)
    exact_mod_cast this
  down_mono a b h := by
    have : a.floor ≤ b.floor := Rat.le_floor_iff.mpr (le_trans (Rat.floor_le a) h)
    change (a.floor : ℚ) ≤ (b.floor : ℚ)
    exact_mod_cast this

example : (evaluate { env with rounding := floorRounding }
    (init (.pure ((4 / 3 : ℚ) : XNum)) [("t", 7)] : W) 0 1
    (.pure ((4 / 3 * (1 + 1 / 10 ^ 9) : ℚ) : XNum))).1 = .error .insufficientBudget := by
  decide +kernel

-- C05: an infinite session stays infinite
example : remainingOf (run env (init (.pure ⊤) [("t", 7)]) history) 0 = some (.pure ⊤) := by
  decide +kernel

-- C07: the partition in `history` is charged once (10 - 2 - 3 = 5 above), both parts get 3
example : remainingOf (run env w0 (history.take 2)) 0 = some (.pure ((5 : ℚ) : XNum)) := by decide +kernel
example : remainingOf (run env w0 (history.take 2)) 1 = some (.pure ((3 : ℚ) : XNum)) := by decide +kernel
example : remainingOf (run env w0 (history.take 2)) 2 = some (.pure ((3 : ℚ) : XNum)) := by decide +kernel

-- C08: after the partition part 1 is active, part 2 waits, the parent waits for its children
example : (run env w0 (history.take 2)).nodes.map (·.state) = [.waitChildren, .active, .waitSibling] := by
  decide +kernel

-- C11: a zero request is refused
example : (evaluate env w1 0 1 (.pure ((0 : ℚ) : XNum))).1 = .error .valueError := by decide +kernel

-- C36: creating a view and deleting it again
example : (step env w1 (.createView 0 3 "v")).1 = .ok .none := by decide +kernel
example : (step env (step env w1 (.createView 0 3 "v")).2 (.deleteView 0 "v")).1 = .ok .none := by
  decide +kernel

end Demo

/-! ## Witnesses for disagreements -/

/-- **C02, lifecycle side effect.** A rejected `create_view` (here: the name is taken) or an evaluation
rejected for lack of budget changes nothing that can be observed, but it has already activated the session
and thereby retired the sessions of the last partition. -/
theorem C02_rejected_call_retires :
    ∃ (w : Demo.W) (op : Op Nat Nat Nat), stateOf w 1 = some .active ∧
      (step Demo.env w op).1 = .error .valueError ∧
      stateOf (step Demo.env w op).2 1 = some .retired := by
  refine ⟨run Demo.env Demo.w0 [.partition 0 "t" (.pure ((3 : ℚ) : XNum)) "c" [("a", 1), ("b", 2)]],
    .createView 0 1 "t", ?_, ?_, ?_⟩ <;> decide +kernel

/-- **C36, where the code and the claim part ways (2).** A part of a partition may have the name of a
public table: the name is then private and public in the new session. -/
theorem C36_partition_name_clash :
    ∃ (ops : List (Op Nat Nat Nat)), ¬ NamesDisjoint (run Demo.env Demo.w0 ops) := by
  refine ⟨[.addPublic 0 "p" 5, .partition 0 "t" (.pure ((3 : ℚ) : XNum)) "c" [("p", 1)]], ?_⟩
  intro h
  have h1 : ∃ n : Node Nat Nat, (run Demo.env Demo.w0 [.addPublic 0 "p" 5,
      .partition 0 "t" (.pure ((3 : ℚ) : XNum)) "c" [("p", 1)]]).nodes[1]? = some n ∧
      "p" ∈ names n.tables ∧ "p" ∈ names ((run Demo.env Demo.w0 [.addPublic 0 "p" 5,
      .partition 0 "t" (.pure ((3 : ℚ) : XNum)) "c" [("p", 1)]]).pubOf n) := by
    refine ⟨⟨some 0, [0], .active, .pure ((3 : ℚ) : XNum), .pure ((3 : ℚ) : XNum), [("p", 7)], 0, []⟩,
      ?_, ?_, ?_⟩ <;> decide +kernel
  obtain ⟨n, hn, ha, hb⟩ := h1
  exact h 1 n hn "p" ha hb

/-- **C47**, witness of the leak: the table added on the part shows up in the parent. -/
theorem C47_leak_witness :
    ∃ (ops : List (Op Nat Nat Nat)) (name : String) (df : Nat),
      let w := run Demo.env Demo.w0 ops
      (observe w 0).map (fun o => names o.publics) = some [] ∧
      (observe (step Demo.env w (.addPublic 1 name df)).2 0).map (fun o => names o.publics) =
        some [name] := by
  refine ⟨[.partition 0 "t" (.pure ((3 : ℚ) : XNum)) "c" [("a", 1)]], "p", 4, ?_, ?_⟩ <;>
    decide +kernel

end Verif.Session
