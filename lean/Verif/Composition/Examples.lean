import Verif.Composition.Props
import Mathlib.Probability.ProbabilityMassFunction.Constructions

/-!
# C50: a concrete case

Two bits, one for each of two parts; randomized response for the first bit a session has.
-/

namespace Verif.Composition.Example

open Verif.Budget (XNum PB Rounding)
open Verif.Session
open scoped ENNReal NNReal

/-- The right answer with probability 3/4. -/
noncomputable def rr (b : Bool) : PMF Bool :=
  PMF.ofFintype (fun a => if a = b then 3 / 4 else 1 / 4) (by
    have h : (3 / 4 + 1 / 4 : ℝ≥0∞) = 1 := by
      rw [ENNReal.div_add_div_same]
      have : (3 + 1 : ℝ≥0∞) = 4 := by norm_num
      rw [this]
      exact ENNReal.div_self (by norm_num) (by norm_num)
    cases b
    · simpa [add_comm] using h
    · simpa using h)

theorem rr_apply (a b : Bool) : rr b a = if a = b then 3 / 4 else 1 / 4 := rfl

/-- Its privacy loss is below 2. -/
theorem rr_close (b b' : Bool) {ε : ℝ} (h : 2 ≤ ε) : PureClose ε (rr b) (rr b') := by
  have h3 : (3 : ℝ≥0∞) ≤ ENNReal.ofReal (Real.exp ε) := by
    have : (3 : ℝ) ≤ Real.exp ε := by
      have := Real.add_one_le_exp ε
      linarith
    have h' := ENNReal.ofReal_le_ofReal this
    rwa [ENNReal.ofReal_ofNat] at h'
  have low : ∀ a : Bool, rr b' a ≥ 1 / 4 := by
    intro a
    rw [rr_apply]
    split
    · exact ENNReal.div_le_div_right (by norm_num) _
    · exact le_rfl
  intro a
  calc rr b a ≤ 3 / 4 := by
        rw [rr_apply]
        split
        · exact le_rfl
        · exact ENNReal.div_le_div_right (by norm_num) _
    _ = 3 * (1 / 4) := by rw [ENNReal.div_eq_inv_mul, ENNReal.div_eq_inv_mul, mul_one, mul_comm]
    _ ≤ _ := mul_le_mul' h3 (low a)

noncomputable def sem : Sem Unit Unit Bool (Bool × Bool) Bool where
  mech _ x := rr x.1
  part _ x _ _ vals k := if vals[k]? = some true then (x.1, false) else if vals[k]? = some false then (x.2, false) else (false, false)

/-- The number of bits that differ. -/
def diff (x x' : Bool × Bool) : ℕ := (if x.1 = x'.1 then 0 else 1) + (if x.2 = x'.2 then 0 else 1)

def near (s : ℝ≥0) (x x' : Bool × Bool) : Prop := (diff x x' : ℝ≥0) ≤ s

def env : Env Unit Unit Unit Unit Bool where
  isIdent _ := true
  rounding := .exact
  compile _ _ _ _ := .ok ()
  privRel _ b := match b with
    | .pure ε => decide ((2 : ℚ) ≤ ε)
    | _ => false
  transform _ _ _ := .ok ()
  partition _ _ _ _ vals := if vals.Nodup then .ok () else .error .valueError
  coerce d := .ok d

theorem sound : Sound env sem near (fun _ _ => True) where
  mech {s x x' tables pub q m b} _ hn _ _ _ _ hp := by
    intro hfin
    cases b with
    | approx => cases hp
    | zcdp => cases hp
    | pure ε =>
      simp only [env, decide_eq_true_eq] at hp
      simp only [sem]
      cases ε using WithTop.recTopCoe with
      | top => cases hfin
      | coe q =>
        have hq : (2 : ℝ) ≤ (q : ℝ) := by exact_mod_cast WithTop.coe_le_coe.1 hp
        change PureClose ((s : ℝ) * (q : ℝ)) _ _
        by_cases h : x.1 = x'.1
        · rw [h]
          exact (PureClose.refl _).mono (mul_nonneg s.2 (by linarith))
        · have hs : (1 : ℝ) ≤ s := by
            have : (1 : ℝ≥0) ≤ s := by
              refine le_trans ?_ hn
              simp only [diff, if_neg h]
              push_cast
              exact le_self_add
            exact_mod_cast this
          exact rr_close _ _ (by nlinarith)
  view _ _ := trivial
  part {s x x' tables pub t} src col vals _ hn _ _ hp := by
    refine ⟨fun k => diff (sem.part tables x src col vals k) (sem.part tables x' src col vals k), le_trans ?_ hn,
      fun k _ => ⟨le_rfl, trivial, trivial⟩⟩
    have hnd : vals.Nodup := by
      by_contra h
      simp only [env, if_neg h] at hp
      cases hp
    norm_cast
    match vals, hnd with
    | [], _ => simp
    | [a], _ => cases a <;> simp [sem, diff]
    | [a, b], h =>
      cases a <;> cases b <;> simp [Finset.sum_range_succ, sem, diff] at h ⊢
      all_goals split <;> split <;> simp
    | a :: b :: c :: _, h =>
      exfalso
      revert h
      cases a <;> cases b <;> cases c <;> simp

/-- An analyst who asks once, and then either partitions or asks again, depending on the answer. -/
noncomputable def analyst : Analyst Unit Unit Unit Unit Bool Bool := fun hist _ =>
  match hist with
  | [] => PMF.pure (.evaluate 0 () (.pure (2 : ℚ)))
  | [(_, _, some true)] => PMF.pure (.partition 0 "t" (.pure (3 : ℚ)) "c" [("a", true), ("b", false)])
  | [_] => PMF.pure (.evaluate 0 () (.pure (2 : ℚ)))
  | _ => PMF.pure (.evaluate 2 () (.pure (2 : ℚ)))

theorem analyst_valid : ∀ hist w, ∀ op ∈ (analyst hist w).support, op.BudgetValid := by
  have h2 : (0 : XNum) ≤ ((2 : ℚ) : XNum) := WithTop.coe_nonneg.2 (by norm_num)
  have h3 : (0 : XNum) ≤ ((3 : ℚ) : XNum) := WithTop.coe_nonneg.2 (by norm_num)
  intro hist w op hop
  unfold analyst at hop
  split at hop <;> rw [PMF.support_pure, Set.mem_singleton_iff] at hop <;> rw [hop] <;> first | exact h2 | exact h3

/-- `C50_adaptive` applies to them. -/
example (n : ℕ) : PureClose 5
    (transcript env sem analyst n (init (.pure (5 : ℚ)) [("t", ())]) (fun _ => (true, false)) [])
    (transcript env sem analyst n (init (.pure (5 : ℚ)) [("t", ())]) (fun _ => (true, true)) []) := by
  have lawful : Rounding.exact.Lawful := ⟨fun _ _ h => h, rfl, rfl, fun _ => le_rfl, fun _ h => h, fun _ _ h => h⟩
  have h := C50_adaptive (b := .pure (5 : ℚ)) lawful sound analyst analyst_valid (WithTop.coe_nonneg.2 (by norm_num))
    [("t", ())] (x := (true, false)) (x' := (true, true)) (by simp [near, diff])
    (fun _ _ => ⟨trivial, trivial⟩) n (by decide)
  have e : ((1 : ℝ≥0) : ℝ) * num ((5 : ℚ) : XNum) = 5 := by
    change ((1 : ℝ≥0) : ℝ) * (((5 : ℚ)) : ℝ) = 5
    norm_num
  simp only at h
  rwa [e] at h

/-- All three calls are answered when the first answer is "true". -/
example : ((step env (step env (step env (init (.pure (5 : ℚ)) [("t", ())]) (.evaluate 0 () (.pure (2 : ℚ)))).2
    (.partition 0 "t" (.pure (3 : ℚ)) "c" [("a", true), ("b", false)])).2 (.evaluate 2 () (.pure (2 : ℚ)))).1 :
    Except Err (Out Unit)) = .ok (.answer () (.pure (2 : ℚ))) := by
  decide +kernel

end Verif.Composition.Example
