import Verif.Budget.Props

/-!
# Budget arithmetic (C09)

Documented behaviour (`privacy_budget.py` l. 73-97): budgets can be divided by finite numbers > 0,
multiplied by finite numbers >= 0, added and subtracted "so long as the result is still a valid
budget"; subtracting anything from an infinite budget returns an infinite budget.
-/

namespace Verif.Budget

/-! ## Helper lemmas -/

theorem rnd_nonneg {r : Rounding} (h : r.Lawful) {q : ℚ} (hq : 0 ≤ q) : 0 ≤ r.rnd q := by
  have := h.rnd_mono 0 q hq
  rwa [h.rnd_zero] at this

theorem rnd_le_one {r : Rounding} (h : r.Lawful) {q : ℚ} (hq : q ≤ 1) : r.rnd q ≤ 1 := by
  have := h.rnd_mono q 1 hq
  rwa [h.rnd_one] at this

@[simp] theorem toPy_top (r : Rounding) : toPy r ⊤ = .pinf := rfl

theorem toPy_coe (r : Rounding) (q : ℚ) :
    toPy r (q : XNum) = .fin (if q.den = 1 then q else r.rnd q) := by
  show (if q.den = 1 then PyNum.fin q else .fin (r.rnd q)) = _
  split <;> rfl

@[simp] theorem toPy_exact (q : ℚ) : toPy .exact (q : XNum) = .fin q := by
  rw [toPy_coe]; simp [Rounding.exact]

@[simp] theorem pyAdd_exact (a b : ℚ) : pyAdd .exact (.fin a) (.fin b) = .fin (a + b) := by
  simp [pyAdd, Rounding.exact]

@[simp] theorem pySub_exact (a b : ℚ) : pySub .exact (.fin a) (.fin b) = .fin (a - b) := by
  simp [pySub, pyNeg, sub_eq_add_neg]

theorem pyAdd_comm (r : Rounding) (a b : PyNum) : pyAdd r a b = pyAdd r b a := by
  cases a <;> cases b <;> simp [pyAdd, add_comm, and_comm]

theorem mkPure_valid {v : PyNum} {b : PB} (h : mkPure v = .ok b) : b.Valid := by
  cases v with
  | nan => simp [mkPure] at h
  | ninf => simp [mkPure] at h
  | pinf => simp [mkPure] at h; subst h; exact le_top
  | fin q =>
    simp only [mkPure] at h
    split at h
    · cases h
    · cases h
      exact WithTop.coe_le_coe.mpr (by linarith)

theorem mkZCDP_valid {v : PyNum} {b : PB} (h : mkZCDP v = .ok b) : b.Valid := by
  cases v with
  | nan => simp [mkZCDP] at h
  | ninf => simp [mkZCDP] at h
  | pinf => simp [mkZCDP] at h; subst h; exact le_top
  | fin q =>
    simp only [mkZCDP] at h
    split at h
    · cases h
    · cases h
      exact WithTop.coe_le_coe.mpr (by linarith)

theorem mkApprox_valid {u v : PyNum} {b : PB} (h : mkApprox u v = .ok b) : b.Valid := by
  unfold mkApprox at h
  split at h
  · cases h
  split at h
  · cases h
  split at h
  · cases h
  split at h
  · cases h
  cases h
  rename_i h1 h2 h3 h4
  refine ⟨?_, ?_⟩
  · cases u with
    | nan => exact absurd rfl h1
    | ninf => simp [negative] at h3
    | pinf => exact le_top
    | fin q => simp [negative] at h3; exact WithTop.coe_le_coe.mpr h3
  · cases v with
    | nan => exact absurd rfl h2
    | ninf => simp [deltaOutOfRange] at h4
    | pinf => simp [deltaOutOfRange] at h4
    | fin q =>
      simp [deltaOutOfRange] at h4
      exact ⟨WithTop.coe_le_coe.mpr h4.1, WithTop.coe_le_coe.mpr h4.2⟩

theorem pureAsApprox_nonneg {r : Rounding} (h : r.Lawful) {ε : XNum} (hε : 0 ≤ ε) :
    0 ≤ pureAsApprox r ε := by
  cases ε using WithTop.recTopCoe with
  | top => exact le_top
  | coe q =>
    have hq : (0 : ℚ) ≤ q := WithTop.coe_le_coe.mp hε
    unfold pureAsApprox
    rw [toPy_coe]
    refine WithTop.coe_le_coe.mpr ?_
    split
    · exact hq
    · exact rnd_nonneg h hq

/-! ## The properties -/

/-- **C09.** Arithmetic never produces an invalid budget object: whenever an operation on valid
budgets returns, the result is a valid budget. -/
theorem C09_valid (r : Rounding) (hr : r.Lawful) (x y b : PB) (k : PyNum)
    (hx : x.Valid) (hy : y.Valid) :
    (x.add r y = .ok b → b.Valid) ∧ (x.sub r y = .ok b → b.Valid) ∧
    (x.mul r k = .ok b → b.Valid) ∧ (x.div r k = .ok b → b.Valid) := by
  have haA : ∀ {a b' c d : XNum}, (PB.approx a b').Valid → (PB.approx c d).Valid →
      addApprox r a b' c d = .ok b → b.Valid := by
    intro a b' c d h1 h2 h
    unfold addApprox at h
    split at h
    · cases h; exact h1
    split at h
    · cases h; exact h2
    exact mkApprox_valid h
  have hsA : ∀ {a b' c d : XNum}, (PB.approx a b').Valid → subApprox r a b' c d = .ok b → b.Valid := by
    intro a b' c d h1 h
    unfold subApprox at h
    split at h
    · cases h; exact h1
    exact mkApprox_valid h
  have h01 : (0 : XNum) ≤ ((0 : ℚ) : XNum) ∧ ((0 : ℚ) : XNum) ≤ ((1 : ℚ) : XNum) :=
    ⟨le_refl _, WithTop.coe_le_coe.mpr (by norm_num)⟩
  refine ⟨?_, ?_, ?_, ?_⟩
  · intro h
    cases x <;> cases y <;> simp only [PB.add] at h
    · split at h
      · cases h; exact hx
      split at h
      · cases h; exact hy
      exact mkPure_valid h
    · exact haA ⟨pureAsApprox_nonneg hr hx, h01.1, h01.2⟩ hy h
    · cases h
    · exact haA hx ⟨pureAsApprox_nonneg hr hy, h01.1, h01.2⟩ h
    · exact haA hx hy h
    · cases h
    · cases h
    · cases h
    · split at h
      · cases h; exact hx
      split at h
      · cases h; exact hy
      exact mkZCDP_valid h
  · intro h
    cases x <;> cases y <;> simp only [PB.sub] at h
    · split at h
      · cases h; exact hx
      exact mkPure_valid h
    · cases h
    · cases h
    · exact hsA hx h
    · exact hsA hx h
    · cases h
    · cases h
    · cases h
    · split at h
      · cases h; exact hx
      exact mkZCDP_valid h
  · intro h
    unfold PB.mul at h
    split at h
    · cases h
    cases x <;> simp only at h
    · exact mkPure_valid h
    · exact mkApprox_valid h
    · exact mkZCDP_valid h
  · intro h
    unfold PB.div at h
    split at h
    · cases h
    cases x <;> simp only at h
    · exact mkPure_valid h
    · exact mkApprox_valid h
    · exact mkZCDP_valid h

/-- Two results of a budget operation agree: both raise the same error, or both are budgets that
compare equal with `==`. -/
def ResEq : Except Err PB → Except Err PB → Prop
  | .ok a, .ok b => a.pyEq b = true
  | .error e, .error f => e = f
  | _, _ => False

theorem ResEq.refl (x : Except Err PB) : ResEq x x := by
  cases x
  · rfl
  · exact (C10_budget_eq .exact).1 _

theorem addApprox_comm (r : Rounding) (a b c d : XNum) :
    ResEq (addApprox r a b c d) (addApprox r c d a b) := by
  unfold addApprox
  by_cases h1 : (PB.approx a b).isInfinite = true <;> by_cases h2 : (PB.approx c d).isInfinite = true
  · simp only [h1, h2, if_true]
    exact pyEq_of_infinite trivial h1 h2
  · simp only [h1, h2, if_true]; exact ResEq.refl _
  · simp only [h1, h2, if_true]; exact ResEq.refl _
  · simp only [h1, h2]
    rw [pyAdd_comm r (toPy r c), pyAdd_comm r (toPy r d)]
    exact ResEq.refl _

/-- **C09.** Addition is commutative for all kinds (including mixed pure/approximate), for every
rounding, including which error is raised. -/
theorem C09_add_comm (r : Rounding) (x y : PB) : ResEq (x.add r y) (y.add r x) := by
  cases x <;> cases y <;> simp only [PB.add] <;>
    first
    | exact addApprox_comm _ _ _ _ _
    | exact ResEq.refl _
    | skip
  · rename_i a b
    by_cases h1 : (PB.pure a).isInfinite = true <;> by_cases h2 : (PB.pure b).isInfinite = true
    · simp only [h1, h2, if_true]; exact pyEq_of_infinite trivial h1 h2
    · simp only [h1, h2, if_true]; exact ResEq.refl _
    · simp only [h1, h2, if_true]; exact ResEq.refl _
    · simp only [h1, h2]; rw [pyAdd_comm]; exact ResEq.refl _
  · rename_i a b
    by_cases h1 : (PB.zcdp a).isInfinite = true <;> by_cases h2 : (PB.zcdp b).isInfinite = true
    · simp only [h1, h2, if_true]; exact pyEq_of_infinite trivial h1 h2
    · simp only [h1, h2, if_true]; exact ResEq.refl _
    · simp only [h1, h2, if_true]; exact ResEq.refl _
    · simp only [h1, h2]; rw [pyAdd_comm]; exact ResEq.refl _

/-- Mathematical value of the sum of two budgets: components added, delta capped at 1; pure budgets
count as delta 0 when combined with approximate ones; infinite if one of them is. -/
def SumIs (x y z : PB) : Prop :=
  match x, y with
  | .pure a, .pure b => z = .pure (a + b)
  | .zcdp a, .zcdp b => z = .zcdp (a + b)
  | .approx a b, .approx c d =>
    if (x.isInfinite || y.isInfinite) = true then z.isInfinite = true ∧ PB.SameKind x z
    else z = .approx (a + c) (min (b + d) ((1 : ℚ) : XNum))
  | .pure a, .approx c d =>
    if (x.isInfinite || y.isInfinite) = true then z.isInfinite = true ∧ PB.SameKind y z
    else z = .approx (a + c) d
  | .approx a b, .pure c =>
    if (x.isInfinite || y.isInfinite) = true then z.isInfinite = true ∧ PB.SameKind x z
    else z = .approx (a + c) b
  | _, _ => False

theorem isInf_pure_coe (q : ℚ) : (PB.pure (q : XNum)).isInfinite = false := by
  simp [PB.isInfinite]
theorem isInf_zcdp_coe (q : ℚ) : (PB.zcdp (q : XNum)).isInfinite = false := by
  simp [PB.isInfinite]

theorem approx_fin {a b : XNum} (h : (PB.approx a b).isInfinite = false)
    (hv : (PB.approx a b).Valid) :
    ∃ p q : ℚ, a = (p : XNum) ∧ b = (q : XNum) ∧ 0 ≤ p ∧ 0 ≤ q ∧ q < 1 := by
  obtain ⟨h1, h2, h3⟩ := hv
  cases a using WithTop.recTopCoe with
  | top => simp [PB.isInfinite] at h
  | coe p =>
    cases b using WithTop.recTopCoe with
    | top => exact absurd h3 (by simp)
    | coe q =>
      refine ⟨p, q, rfl, rfl, WithTop.coe_le_coe.mp h1, WithTop.coe_le_coe.mp h2, ?_⟩
      have h4 : q ≤ 1 := WithTop.coe_le_coe.mp h3
      refine lt_of_le_of_ne h4 ?_
      rintro rfl
      simp [PB.isInfinite] at h

theorem mkApprox_fin {p q : ℚ} (hp : 0 ≤ p) (hq : 0 ≤ q) (hq1 : q ≤ 1) :
    mkApprox (.fin p) (.fin q) = .ok (.approx (p : XNum) (q : XNum)) := by
  have h1 : ¬ p < 0 := not_lt.mpr hp
  have h2 : ¬ q < 0 := not_lt.mpr hq
  have h3 : ¬ 1 < q := not_lt.mpr hq1
  simp [mkApprox, negative, deltaOutOfRange, toExact, h1, h2, h3]

theorem pyMin1_fin (q : ℚ) : pyMin1 (.fin q) = .fin (min q 1) := by
  show (if 1 < q then PyNum.fin 1 else .fin q) = _
  split
  · rename_i h; rw [min_eq_right h.le]
  · rename_i h; rw [min_eq_left (not_lt.mp h)]

theorem addApprox_exact {p q s t : ℚ} (hp : 0 ≤ p) (hq : 0 ≤ q) (hs : 0 ≤ s) (ht : 0 ≤ t)
    (hq1 : q < 1) (ht1 : t < 1) :
    addApprox .exact (p : XNum) (q : XNum) (s : XNum) (t : XNum) =
      .ok (.approx ((p + s : ℚ) : XNum) ((min (q + t) 1 : ℚ) : XNum)) := by
  have h1 : (PB.approx (p : XNum) (q : XNum)).isInfinite = false := by
    have : q ≠ 1 := hq1.ne
    simp [PB.isInfinite, this]
  have h2 : (PB.approx (s : XNum) (t : XNum)).isInfinite = false := by
    have : t ≠ 1 := ht1.ne
    simp [PB.isInfinite, this]
  unfold addApprox
  simp only [h1, h2, toPy_exact, pyAdd_exact, pyMin1_fin]
  exact mkApprox_fin (by linarith) (le_min (by linarith) (by norm_num)) (min_le_right _ _)

theorem addApprox_inf {r : Rounding} {a b c d : XNum}
    (h : ((PB.approx a b).isInfinite || (PB.approx c d).isInfinite) = true) :
    ∃ z, addApprox r a b c d = .ok z ∧ z.isInfinite = true ∧ PB.SameKind (.approx a b) z := by
  unfold addApprox
  by_cases h1 : (PB.approx a b).isInfinite = true
  · exact ⟨_, by simp [h1], h1, trivial⟩
  · have h2 : (PB.approx c d).isInfinite = true := by simpa [h1] using h
    exact ⟨_, by simp [h1, h2], h2, trivial⟩

theorem pureAsApprox_exact (ε : XNum) : pureAsApprox .exact ε = ε := by
  cases ε using WithTop.recTopCoe with
  | top => rfl
  | coe q => unfold pureAsApprox; rw [toPy_exact]; rfl

theorem coe_min_add (q t : ℚ) :
    ((min (q + t) 1 : ℚ) : XNum) = min ((q : XNum) + (t : XNum)) ((1 : ℚ) : XNum) := by
  rw [← WithTop.coe_add, WithTop.coe_min]

/-- **C09.** In exact arithmetic, addition of valid budgets of compatible kinds always succeeds and
is the componentwise sum with delta capped at 1 (infinite if an operand is infinite). -/
theorem C09_add_exact (x y : PB) (hx : x.Valid) (hy : y.Valid)
    (hk : PB.SameKind x y ∨ (∃ a b c, x = .pure a ∧ y = .approx b c) ∨
      (∃ a b c, y = .pure a ∧ x = .approx b c)) :
    ∃ z, x.add .exact y = .ok z ∧ SumIs x y z := by
  have happ : ∀ {a b c d : XNum}, (PB.approx a b).Valid → (PB.approx c d).Valid →
      ∃ z, addApprox .exact a b c d = .ok z ∧ SumIs (.approx a b) (.approx c d) z := by
    intro a b c d h1 h2
    by_cases hinf : ((PB.approx a b).isInfinite || (PB.approx c d).isInfinite) = true
    · obtain ⟨z, hz, hz2, hz3⟩ := addApprox_inf (r := .exact) hinf
      exact ⟨z, hz, by simp only [SumIs]; rw [if_pos hinf]; exact ⟨hz2, hz3⟩⟩
    · have hi : (PB.approx a b).isInfinite = false ∧ (PB.approx c d).isInfinite = false := by
        simpa using hinf
      obtain ⟨p, q, rfl, rfl, hp, hq, hq1⟩ := approx_fin hi.1 h1
      obtain ⟨s, t, rfl, rfl, hs, ht, ht1⟩ := approx_fin hi.2 h2
      refine ⟨_, addApprox_exact hp hq hs ht hq1 ht1, ?_⟩
      simp only [SumIs]
      rw [if_neg hinf, coe_min_add, WithTop.coe_add]
  have hz01 : (0 : XNum) ≤ ((0 : ℚ) : XNum) ∧ ((0 : ℚ) : XNum) ≤ ((1 : ℚ) : XNum) :=
    ⟨le_refl _, WithTop.coe_le_coe.mpr (by norm_num)⟩
  have hpi : ∀ e : XNum, (PB.approx e ((0 : ℚ) : XNum)).isInfinite = (PB.pure e).isInfinite := by
    intro e; simp [PB.isInfinite]
  cases x with
  | pure a =>
    cases y with
    | pure b =>
      simp only [PB.add]
      cases a using WithTop.recTopCoe with
      | top => exact ⟨.pure ⊤, by simp [PB.isInfinite], by simp [SumIs]⟩
      | coe p =>
        cases b using WithTop.recTopCoe with
        | top => exact ⟨.pure ⊤, by simp [PB.isInfinite], by simp [SumIs]⟩
        | coe q =>
          have hp : (0 : ℚ) ≤ p := WithTop.coe_le_coe.mp hx
          have hq : (0 : ℚ) ≤ q := WithTop.coe_le_coe.mp hy
          refine ⟨.pure ((p + q : ℚ) : XNum), ?_, by simp [SumIs]⟩
          simp [isInf_pure_coe, mkPure, not_lt.mpr (add_nonneg hp hq)]
    | approx c d =>
      obtain ⟨z, hz, hs⟩ := happ (a := a) (b := ((0 : ℚ) : XNum)) ⟨hx, hz01.1, hz01.2⟩ hy
      refine ⟨z, by simp only [PB.add]; rw [pureAsApprox_exact]; exact hz, ?_⟩
      simp only [SumIs, hpi] at hs ⊢
      split
      · rename_i h; rw [if_pos h] at hs; exact ⟨hs.1, by cases z <;> simp_all [PB.SameKind]⟩
      · rename_i h; rw [if_neg h] at hs; rw [hs]
        congr 1
        rw [show (((0 : ℚ) : XNum)) = 0 from rfl, zero_add]
        exact min_eq_left hy.2.2
    | zcdp b =>
      rcases hk with h | ⟨_, _, _, _, h⟩ | ⟨_, _, _, h, _⟩
      · exact absurd h (by simp [PB.SameKind])
      · cases h
      · cases h
  | approx a b =>
    cases y with
    | pure c =>
      obtain ⟨z, hz, hs⟩ := happ (c := c) (d := ((0 : ℚ) : XNum)) hx ⟨hy, hz01.1, hz01.2⟩
      refine ⟨z, by simp only [PB.add]; rw [pureAsApprox_exact]; exact hz, ?_⟩
      simp only [SumIs, hpi] at hs ⊢
      split
      · rename_i h; rw [if_pos h] at hs; exact hs
      · rename_i h; rw [if_neg h] at hs; rw [hs]
        congr 1
        rw [show (((0 : ℚ) : XNum)) = 0 from rfl, add_zero]
        exact min_eq_left hx.2.2
    | approx c d => exact happ hx hy
    | zcdp b =>
      rcases hk with h | ⟨_, _, _, _, h⟩ | ⟨_, _, _, h, _⟩
      · exact absurd h (by simp [PB.SameKind])
      · cases h
      · cases h
  | zcdp a =>
    cases y with
    | zcdp b =>
      simp only [PB.add]
      cases a using WithTop.recTopCoe with
      | top => exact ⟨.zcdp ⊤, by simp [PB.isInfinite], by simp [SumIs]⟩
      | coe p =>
        cases b using WithTop.recTopCoe with
        | top => exact ⟨.zcdp ⊤, by simp [PB.isInfinite], by simp [SumIs]⟩
        | coe q =>
          have hp : (0 : ℚ) ≤ p := WithTop.coe_le_coe.mp hx
          have hq : (0 : ℚ) ≤ q := WithTop.coe_le_coe.mp hy
          refine ⟨.zcdp ((p + q : ℚ) : XNum), ?_, by simp [SumIs]⟩
          simp [isInf_zcdp_coe, mkZCDP, not_lt.mpr (add_nonneg hp hq)]
    | pure b =>
      rcases hk with h | ⟨_, _, _, h, _⟩ | ⟨_, _, _, _, h⟩
      · exact absurd h (by simp [PB.SameKind])
      · cases h
      · cases h
    | approx b c =>
      rcases hk with h | ⟨_, _, _, h, _⟩ | ⟨_, _, _, _, h⟩
      · exact absurd h (by simp [PB.SameKind])
      · cases h
      · cases h

/-- Sequencing of two fallible operations (a Python exception in the first one propagates). -/
def bindRes (x : Except Err PB) (f : PB → Except Err PB) : Except Err PB :=
  match x with
  | .ok a => f a
  | .error e => .error e

theorem approx_isInf_cases (z : PB) (h : z.isInfinite = true) (a b : XNum)
    (hk : PB.SameKind (.approx a b) z) : ∃ p q, z = .approx p q ∧ (PB.approx p q).isInfinite = true := by
  cases z with
  | pure _ => exact absurd hk (by simp [PB.SameKind])
  | zcdp _ => exact absurd hk (by simp [PB.SameKind])
  | approx p q => exact ⟨p, q, rfl, h⟩

theorem addApprox_ok_approx {r : Rounding} {a b c d : XNum} {z : PB}
    (h : addApprox r a b c d = .ok z) : ∃ u v, z = .approx u v := by
  unfold addApprox at h
  split at h
  · cases h; exact ⟨_, _, rfl⟩
  split at h
  · cases h; exact ⟨_, _, rfl⟩
  unfold mkApprox at h
  repeat' split at h
  all_goals cases h
  exact ⟨_, _, rfl⟩

theorem approx_assoc_aux {a b c d e f : XNum} (h1 : (PB.approx a b).Valid)
    (h2 : (PB.approx c d).Valid) (h3 : (PB.approx e f).Valid) :
    ResEq (bindRes (addApprox .exact a b c d) (fun z => z.add .exact (.approx e f)))
      (bindRes (addApprox .exact c d e f) (fun z => (PB.approx a b).add .exact z)) := by
  have two : ∀ {l m : Except Err PB}, (∃ z, l = .ok z ∧ z.isInfinite = true ∧ PB.SameKind (.approx a b) z) →
      (∃ z, m = .ok z ∧ z.isInfinite = true ∧ PB.SameKind (.approx a b) z) → ResEq l m := by
    rintro l m ⟨z, rfl, hz, hk⟩ ⟨w, rfl, hw, hk'⟩
    obtain ⟨p, q, rfl, _⟩ := approx_isInf_cases z hz a b hk
    obtain ⟨p', q', rfl, _⟩ := approx_isInf_cases w hw a b hk'
    exact pyEq_of_infinite trivial hz hw
  have addInf : ∀ {p q s t : XNum}, ((PB.approx p q).isInfinite || (PB.approx s t).isInfinite) = true →
      ∃ z, (PB.approx p q).add .exact (.approx s t) = .ok z ∧ z.isInfinite = true ∧
        PB.SameKind (.approx a b) z := by
    intro p q s t h
    obtain ⟨z, h1, h2, h3⟩ := addApprox_inf (r := .exact) h
    exact ⟨z, h1, h2, by cases z <;> simp_all [PB.SameKind]⟩
  have addFin : ∀ {p q s t : XNum}, (PB.approx p q).Valid → (PB.approx s t).Valid →
      ∃ u v, addApprox .exact p q s t = .ok (.approx u v) := by
    intro p q s t h1 h2
    obtain ⟨z, hz, hs⟩ := C09_add_exact (.approx p q) (.approx s t) h1 h2 (Or.inl trivial)
    obtain ⟨u, v, rfl⟩ := addApprox_ok_approx hz
    exact ⟨u, v, hz⟩
  -- if one of the three operands is infinite, both sides are infinite
  by_cases hi : ((PB.approx a b).isInfinite || (PB.approx c d).isInfinite ||
      (PB.approx e f).isInfinite) = true
  · apply two
    · by_cases hab : ((PB.approx a b).isInfinite || (PB.approx c d).isInfinite) = true
      · obtain ⟨z, hz, hz1, hz2⟩ := addApprox_inf (r := .exact) hab
        obtain ⟨p, q, rfl, _⟩ := approx_isInf_cases z hz1 a b hz2
        rw [hz]
        exact addInf (by simp [hz1])
      · have he : (PB.approx e f).isInfinite = true := by
          rw [Bool.or_eq_true] at hi; exact hi.resolve_left hab
        obtain ⟨u, v, huv⟩ := addFin h1 h2
        rw [huv]
        exact addInf (by simp [he])
    · by_cases hab : ((PB.approx c d).isInfinite || (PB.approx e f).isInfinite) = true
      · obtain ⟨z, hz, hz1, hz2⟩ := addApprox_inf (r := .exact) hab
        obtain ⟨p, q, rfl, _⟩ := approx_isInf_cases z hz1 c d hz2
        rw [hz]
        exact addInf (by simp [hz1])
      · have ha : (PB.approx a b).isInfinite = true := by
          rw [Bool.or_assoc, Bool.or_eq_true] at hi; exact hi.resolve_right hab
        obtain ⟨u, v, huv⟩ := addFin h2 h3
        rw [huv]
        exact addInf (by simp [ha])
  · have hf : ((PB.approx a b).isInfinite = false ∧ (PB.approx c d).isInfinite = false) ∧
        (PB.approx e f).isInfinite = false := by simpa using hi
    obtain ⟨p1, q1, rfl, rfl, hp1, hq1, hl1⟩ := approx_fin hf.1.1 h1
    obtain ⟨p2, q2, rfl, rfl, hp2, hq2, hl2⟩ := approx_fin hf.1.2 h2
    obtain ⟨p3, q3, rfl, rfl, hp3, hq3, hl3⟩ := approx_fin hf.2 h3
    rw [addApprox_exact hp1 hq1 hp2 hq2 hl1 hl2, addApprox_exact hp2 hq2 hp3 hq3 hl2 hl3]
    have inf1 : ∀ {p q : ℚ}, 1 ≤ q → (PB.approx (p : XNum) ((min q 1 : ℚ) : XNum)).isInfinite = true := by
      intro p q h; rw [min_eq_right h]; simp [PB.isInfinite]
    have inf2 : ∀ {e p q : ℚ}, 1 ≤ q →
        ∃ z, (Except.ok (.approx (e : XNum) ((min q 1 : ℚ) : XNum)) : Except Err PB) = .ok z ∧
          z.isInfinite = true ∧ PB.SameKind (.approx (p1 : XNum) (q1 : XNum)) z := by
      intro e _ q h; exact ⟨_, rfl, inf1 h, trivial⟩
    by_cases h12 : q1 + q2 < 1 <;> by_cases h23 : q2 + q3 < 1
    · rw [min_eq_left h12.le, min_eq_left h23.le]
      simp only [bindRes, PB.add]
      rw [addApprox_exact (by linarith) (by linarith) hp3 hq3 h12 hl3,
        addApprox_exact hp1 hq1 (by linarith) (by linarith) hl1 h23, add_assoc, add_assoc]
      exact ResEq.refl _
    · rw [min_eq_left h12.le]
      apply two
      · simp only [bindRes, PB.add]
        rw [addApprox_exact (by linarith) (by linarith) hp3 hq3 h12 hl3]
        exact inf2 (p := 0) (by linarith)
      · exact addInf (by rw [inf1 (by linarith)]; simp)
    · rw [min_eq_left h23.le]
      apply two
      · exact addInf (by rw [inf1 (by linarith)]; simp)
      · simp only [bindRes, PB.add]
        rw [addApprox_exact hp1 hq1 (by linarith) (by linarith) hl1 h23]
        exact inf2 (p := 0) (by linarith)
    · apply two
      · exact addInf (by rw [inf1 (by linarith)]; simp)
      · exact addInf (by rw [inf1 (by linarith)]; simp)

/-- **C09.** In exact arithmetic addition is associative: however three budgets of one kind are
added up, the results compare equal (an over-full delta saturates to "infinite" on both sides). -/
theorem C09_add_assoc (x y z : PB) (hx : x.Valid) (hy : y.Valid) (hz : z.Valid)
    (hxy : PB.SameKind x y) (hyz : PB.SameKind y z) :
    ResEq (bindRes (x.add .exact y) (fun s => s.add .exact z))
      (bindRes (y.add .exact z) (fun s => x.add .exact s)) := by
  cases x <;> cases y <;> simp only [PB.SameKind] at hxy <;>
    cases z <;> simp only [PB.SameKind] at hyz
  · rename_i a b c
    cases a using WithTop.recTopCoe <;> cases b using WithTop.recTopCoe <;>
      cases c using WithTop.recTopCoe <;>
      simp only [PB.add, PB.isInfinite, decide_true, if_true, WithTop.coe_ne_top, decide_false,
        if_false, toPy_exact, pyAdd_exact, mkPure, Bool.false_eq_true] <;>
      try exact ResEq.refl _
    · rename_i p q
      have hp : (0 : ℚ) ≤ p := WithTop.coe_le_coe.mp hy
      have hq : (0 : ℚ) ≤ q := WithTop.coe_le_coe.mp hz
      rw [if_neg (by linarith)]
      exact ResEq.refl _
    · rename_i p q
      have hp : (0 : ℚ) ≤ p := WithTop.coe_le_coe.mp hx
      have hq : (0 : ℚ) ≤ q := WithTop.coe_le_coe.mp hy
      rw [if_neg (by linarith)]
      simp only [bindRes, WithTop.coe_ne_top, decide_false, if_true, Bool.false_eq_true, if_false]
      exact ResEq.refl _
    · rename_i p q s
      have hp : (0 : ℚ) ≤ p := WithTop.coe_le_coe.mp hx
      have hq : (0 : ℚ) ≤ q := WithTop.coe_le_coe.mp hy
      have hs : (0 : ℚ) ≤ s := WithTop.coe_le_coe.mp hz
      rw [if_neg (by linarith), if_neg (by linarith)]
      simp only [bindRes, WithTop.coe_ne_top, decide_false, Bool.false_eq_true, if_false,
        toPy_exact, pyAdd_exact, mkPure, add_assoc]
      exact ResEq.refl _
  · exact approx_assoc_aux hx hy hz
  · rename_i a b c
    cases a using WithTop.recTopCoe <;> cases b using WithTop.recTopCoe <;>
      cases c using WithTop.recTopCoe <;>
      simp only [PB.add, PB.isInfinite, decide_true, if_true, WithTop.coe_ne_top, decide_false,
        if_false, toPy_exact, pyAdd_exact, mkZCDP, Bool.false_eq_true] <;>
      try exact ResEq.refl _
    · rename_i p q
      have hp : (0 : ℚ) ≤ p := WithTop.coe_le_coe.mp hy
      have hq : (0 : ℚ) ≤ q := WithTop.coe_le_coe.mp hz
      rw [if_neg (by linarith)]
      exact ResEq.refl _
    · rename_i p q
      have hp : (0 : ℚ) ≤ p := WithTop.coe_le_coe.mp hx
      have hq : (0 : ℚ) ≤ q := WithTop.coe_le_coe.mp hy
      rw [if_neg (by linarith)]
      simp only [bindRes, WithTop.coe_ne_top, decide_false, if_true, Bool.false_eq_true, if_false]
      exact ResEq.refl _
    · rename_i p q s
      have hp : (0 : ℚ) ≤ p := WithTop.coe_le_coe.mp hx
      have hq : (0 : ℚ) ≤ q := WithTop.coe_le_coe.mp hy
      have hs : (0 : ℚ) ≤ s := WithTop.coe_le_coe.mp hz
      rw [if_neg (by linarith), if_neg (by linarith)]
      simp only [bindRes, WithTop.coe_ne_top, decide_false, Bool.false_eq_true, if_false,
        toPy_exact, pyAdd_exact, mkZCDP, add_assoc]
      exact ResEq.refl _

/-- A number that survives conversion to a Python number unchanged. -/
def Representable (r : Rounding) : XNum → Prop
  | none => True
  | some q => q.den = 1 ∨ r.rnd q = q

theorem toPy_rep {r : Rounding} {q : ℚ} (h : Representable r (q : XNum)) :
    toPy r (q : XNum) = .fin q := by
  rw [toPy_coe]
  split
  · rfl
  · rename_i hd
    rcases h with h | h
    · exact absurd h hd
    · rw [h]

theorem pyAdd_zero_rep {r : Rounding} {q : ℚ} (h : Representable r (q : XNum)) :
    pyAdd r (.fin q) (.fin 0) = .fin q := by
  simp only [pyAdd, add_zero]
  split
  · rfl
  · rename_i hd
    rcases h with h | h
    · exact absurd ⟨h, rfl⟩ hd
    · rw [h]

/-- **C09.** The zero budget is neutral for budgets whose values are floats or integers. (For
exact values that are not floats, such as 1/3, adding zero rounds; see `C09_add_zero_rounds`.) -/
theorem C09_add_zero (r : Rounding) :
    (∀ a, (PB.pure a).Valid → Representable r a →
      (PB.pure a).add r (.pure (0 : ℚ)) = .ok (.pure a)) ∧
    (∀ a b, (PB.approx a b).Valid → Representable r a → Representable r b →
      (PB.approx a b).add r (.approx (0 : ℚ) (0 : ℚ)) = .ok (.approx a b)) ∧
    (∀ a, (PB.zcdp a).Valid → Representable r a →
      (PB.zcdp a).add r (.zcdp (0 : ℚ)) = .ok (.zcdp a)) := by
  have h0 : toPy r ((0 : ℚ) : XNum) = .fin 0 := by rw [toPy_coe]; simp
  refine ⟨?_, ?_, ?_⟩
  · intro a hv hr
    cases a using WithTop.recTopCoe with
    | top => simp [PB.add, PB.isInfinite]
    | coe q =>
      have hq : (0 : ℚ) ≤ q := WithTop.coe_le_coe.mp hv
      simp only [PB.add, isInf_pure_coe, Bool.false_eq_true, if_false]
      rw [toPy_rep hr, h0, pyAdd_zero_rep hr]
      simp [mkPure, not_lt.mpr hq]
  · intro a b hv hr hr'
    by_cases hi : (PB.approx a b).isInfinite = true
    · simp [PB.add, addApprox, hi]
    · have hi' : (PB.approx a b).isInfinite = false := by simpa using hi
      obtain ⟨p, q, rfl, rfl, hp, hq, hq1⟩ := approx_fin hi' hv
      have hz : (PB.approx ((0 : ℚ) : XNum) ((0 : ℚ) : XNum)).isInfinite = false := by decide
      simp only [PB.add, addApprox, hi', hz, Bool.false_eq_true, if_false]
      rw [toPy_rep hr, toPy_rep hr', h0, pyAdd_zero_rep hr, pyAdd_zero_rep hr', pyMin1_fin,
        min_eq_left hq1.le]
      exact mkApprox_fin hp hq hq1.le
  · intro a hv hr
    cases a using WithTop.recTopCoe with
    | top => simp [PB.add, PB.isInfinite]
    | coe q =>
      have hq : (0 : ℚ) ≤ q := WithTop.coe_le_coe.mp hv
      simp only [PB.add, isInf_zcdp_coe, Bool.false_eq_true, if_false]
      rw [toPy_rep hr, h0, pyAdd_zero_rep hr]
      simp [mkZCDP, not_lt.mpr hq]

/-- The representability hypothesis is needed: with a rounding that moves 1/3, adding the zero
budget to an exact 1/3 changes it. -/
theorem C09_add_zero_rounds :
    let r : Rounding := ⟨fun q => if q = 1/3 then 1/4 else q, id⟩
    (PB.pure ((1/3 : ℚ) : XNum)).add r (.pure (0 : ℚ)) ≠ .ok (.pure ((1/3 : ℚ) : XNum)) := by
  decide +kernel

theorem adjustNumber_coe_le {a b : ℚ} (h : b ≤ a) : adjustNumber (b : XNum) (a : XNum) = (b : XNum) := by
  refine (C04_adjust_number _ _).2 ?_
  rintro ⟨p, q, hp, hq, hlt, _⟩
  have := WithTop.coe_injective hp
  have := WithTop.coe_injective hq
  subst_vars
  exact absurd hlt (not_lt.mpr h)

/-- **C09.** Subtraction in exact arithmetic, one component: within budget it is the difference, up
to the tolerance it is exactly zero, beyond that a `ValueError`; infinite budgets are unchanged. -/
theorem C09_sub_exact_pure (a b : ℚ) (hb : 0 ≤ b) :
    (b ≤ a → (PB.pure a).sub .exact (.pure b) = .ok (.pure ((a - b : ℚ) : XNum))) ∧
    (a < b → b - a ≤ a / 10 ^ 9 → (PB.pure a).sub .exact (.pure b) = .ok (.pure ((0 : ℚ) : XNum))) ∧
    (a < b → a / 10 ^ 9 < b - a → (PB.pure a).sub .exact (.pure b) = .error .valueError) ∧
    (PB.pure a).sub .exact (.pure ⊤) = .error .valueError ∧
    (∀ c, (PB.pure ⊤).sub .exact (.pure c) = .ok (.pure ⊤)) := by
  refine ⟨?_, ?_, ?_, ?_, ?_⟩
  · intro h
    simp only [PB.sub, isInf_pure_coe, Bool.false_eq_true, if_false]
    rw [adjustNumber_coe_le h]
    simp [mkPure, not_lt.mpr h]
  · intro h1 h2
    simp only [PB.sub, isInf_pure_coe, Bool.false_eq_true, if_false]
    rw [(C04_adjust_number _ _).1 ⟨b, a, rfl, rfl, h1, h2⟩]
    simp [mkPure]
  · intro h1 h2
    simp only [PB.sub, isInf_pure_coe, Bool.false_eq_true, if_false]
    rw [(C04_adjust_number _ _).2]
    · simp [mkPure, h1]
    · rintro ⟨p, q, hp, hq, _, h⟩
      have := WithTop.coe_injective hp
      have := WithTop.coe_injective hq
      subst_vars
      exact absurd h (not_le.mpr h2)
  · simp only [PB.sub, isInf_pure_coe, Bool.false_eq_true, if_false]
    rw [(C04_adjust_number _ _).2]
    · simp [pySub, pyNeg, pyAdd, mkPure]
    · rintro ⟨p, q, hp, _⟩
      exact absurd hp (by simp)
  · intro c
    simp [PB.sub, PB.isInfinite]

/-- **C09.** Subtraction undoes addition in exact arithmetic for finite budgets (delta cap not
reached). -/
theorem C09_sub_add (x y : PB) (hx : x.Valid) (hy : y.Valid) (hk : PB.SameKind x y)
    (hfx : x.isInfinite = false) (hfy : y.isInfinite = false)
    (hcap : ∀ a b c d, x = .approx a b → y = .approx c d → b + d < ((1 : ℚ) : XNum)) :
    bindRes (x.add .exact y) (fun s => s.sub .exact y) = .ok x := by
  cases x <;> cases y <;> simp only [PB.SameKind] at hk
  · rename_i a b
    cases a using WithTop.recTopCoe <;> cases b using WithTop.recTopCoe <;>
      simp [PB.isInfinite] at hfx hfy
    rename_i p q
    have hp : (0 : ℚ) ≤ p := WithTop.coe_le_coe.mp hx
    have hq : (0 : ℚ) ≤ q := WithTop.coe_le_coe.mp hy
    simp only [PB.add, isInf_pure_coe, Bool.false_eq_true, if_false, toPy_exact, pyAdd_exact, mkPure]
    rw [if_neg (by linarith)]
    simp only [bindRes, PB.sub, isInf_pure_coe, Bool.false_eq_true, if_false]
    rw [adjustNumber_coe_le (by linarith), toPy_exact, toPy_exact, pySub_exact,
      add_sub_cancel_right]
    simp [mkPure, not_lt.mpr hp]
  · rename_i a b c d
    obtain ⟨p, q, rfl, rfl, hp, hq, hq1⟩ := approx_fin hfx hx
    obtain ⟨s, t, rfl, rfl, hs, ht, ht1⟩ := approx_fin hfy hy
    have hc : q + t < 1 := WithTop.coe_lt_coe.mp (by simpa using hcap _ _ _ _ rfl rfl)
    simp only [PB.add]
    rw [addApprox_exact hp hq hs ht hq1 ht1, min_eq_left hc.le]
    have hi : (PB.approx ((p + s : ℚ) : XNum) ((q + t : ℚ) : XNum)).isInfinite = false := by
      have : q + t ≠ 1 := hc.ne
      simp only [PB.isInfinite, WithTop.coe_ne_top, decide_false, WithTop.coe_inj, this, Bool.or_self]
    simp only [bindRes, PB.sub, subApprox, hi, Bool.false_eq_true, if_false]
    rw [adjustNumber_coe_le (by linarith), adjustNumber_coe_le (by linarith)]
    simp only [toPy_exact, pySub_exact, add_sub_cancel_right]
    exact mkApprox_fin hp hq hq1.le
  · rename_i a b
    cases a using WithTop.recTopCoe <;> cases b using WithTop.recTopCoe <;>
      simp [PB.isInfinite] at hfx hfy
    rename_i p q
    have hp : (0 : ℚ) ≤ p := WithTop.coe_le_coe.mp hx
    have hq : (0 : ℚ) ≤ q := WithTop.coe_le_coe.mp hy
    simp only [PB.add, isInf_zcdp_coe, Bool.false_eq_true, if_false, toPy_exact, pyAdd_exact, mkZCDP]
    rw [if_neg (by linarith)]
    simp only [bindRes, PB.sub, isInf_zcdp_coe, Bool.false_eq_true, if_false]
    rw [adjustNumber_coe_le (by linarith), toPy_exact, toPy_exact, pySub_exact,
      add_sub_cancel_right]
    simp [mkZCDP, not_lt.mpr hp]

/-- **C09.** Kinds: adding is defined between equal kinds and between pure and approximate budgets;
subtracting an approximate budget from a pure one, or mixing with zCDP, is a `TypeError`. -/
theorem C09_kinds (r : Rounding) (a b c : XNum) :
    (PB.pure a).sub r (.approx b c) = .error .typeError ∧
    (PB.pure a).add r (.zcdp b) = .error .typeError ∧
    (PB.zcdp b).add r (.pure a) = .error .typeError ∧
    (PB.approx a b).add r (.zcdp c) = .error .typeError ∧
    (PB.zcdp c).add r (.approx a b) = .error .typeError ∧
    (PB.pure a).sub r (.zcdp b) = .error .typeError ∧
    (PB.zcdp b).sub r (.pure a) = .error .typeError ∧
    (PB.approx a b).sub r (.zcdp c) = .error .typeError ∧
    (PB.zcdp c).sub r (.approx a b) = .error .typeError := by
  refine ⟨rfl, rfl, rfl, rfl, rfl, rfl, rfl, rfl, rfl⟩

/-- **C09.** Scaling by a valid factor, in exact arithmetic: multiplication always succeeds on finite
budgets and multiplies every component (delta capped at 1); division divides every component and is
rejected only if delta would exceed 1. Factors outside the documented range are rejected. -/
theorem C09_scale (p q k : ℚ) (hp : 0 ≤ p) (hq : 0 ≤ q) (_hq1 : q < 1) :
    (0 ≤ k → (PB.pure p).mul .exact (.fin k) = .ok (.pure ((p * k : ℚ) : XNum))) ∧
    (0 ≤ k → (PB.zcdp p).mul .exact (.fin k) = .ok (.zcdp ((p * k : ℚ) : XNum))) ∧
    (0 ≤ k → (PB.approx p q).mul .exact (.fin k) =
      .ok (.approx ((p * k : ℚ) : XNum) ((min (q * k) 1 : ℚ) : XNum))) ∧
    (0 < k → (PB.pure p).div .exact (.fin k) = .ok (.pure ((p / k : ℚ) : XNum))) ∧
    (0 < k → (PB.zcdp p).div .exact (.fin k) = .ok (.zcdp ((p / k : ℚ) : XNum))) ∧
    (0 < k → q / k ≤ 1 → (PB.approx p q).div .exact (.fin k) =
      .ok (.approx ((p / k : ℚ) : XNum) ((q / k : ℚ) : XNum))) ∧
    (0 < k → 1 < q / k → (PB.approx p q).div .exact (.fin k) = .error .valueError) ∧
    (∀ b : PB, k < 0 → b.mul .exact (.fin k) = .error .valueError) ∧
    (∀ b : PB, k ≤ 0 → b.div .exact (.fin k) = .error .valueError) ∧
    (∀ b : PB, ∀ v ∈ [PyNum.nan, .ninf, .pinf],
      b.mul .exact v = .error .valueError ∧ b.div .exact v = .error .valueError) := by
  have hmul : ∀ a b : ℚ, pyMul .exact (.fin a) b = .fin (a * b) := by
    intro a b; simp [pyMul, Rounding.exact]
  have hdiv : ∀ a b : ℚ, pyDiv .exact (.fin a) b = .fin (a / b) := by
    intro a b; simp [pyDiv, Rounding.exact]
  refine ⟨?_, ?_, ?_, ?_, ?_, ?_, ?_, ?_, ?_, ?_⟩
  · intro hk
    simp [PB.mul, mulArg, not_lt.mpr hk, hmul, mkPure, not_lt.mpr (mul_nonneg hp hk)]
  · intro hk
    simp [PB.mul, mulArg, not_lt.mpr hk, hmul, mkZCDP, not_lt.mpr (mul_nonneg hp hk)]
  · intro hk
    simp only [PB.mul, mulArg, not_lt.mpr hk, if_false, toPy_exact, hmul, pyMin1_fin]
    exact mkApprox_fin (mul_nonneg hp hk) (le_min (mul_nonneg hq hk) (by norm_num)) (min_le_right _ _)
  · intro hk
    simp [PB.div, divArg, not_le.mpr hk, hdiv, mkPure, not_lt.mpr (div_nonneg hp hk.le)]
  · intro hk
    simp [PB.div, divArg, not_le.mpr hk, hdiv, mkZCDP, not_lt.mpr (div_nonneg hp hk.le)]
  · intro hk h1
    simp only [PB.div, divArg, not_le.mpr hk, if_false, toPy_exact, hdiv]
    exact mkApprox_fin (div_nonneg hp hk.le) (div_nonneg hq hk.le) h1
  · intro hk h1
    simp [PB.div, divArg, not_le.mpr hk, hdiv, mkApprox, negative, deltaOutOfRange, h1]
  · intro b hk
    simp [PB.mul, mulArg, hk]
  · intro b hk
    simp [PB.div, divArg, hk]
  · intro b v hv
    simp at hv
    rcases hv with rfl | rfl | rfl <;> exact ⟨rfl, rfl⟩

/-- **C09 (disagreement).** "Budgets can be multiplied by finite values >= 0" fails for an infinite
budget and the factor 0: `inf * 0` is NaN and the constructor raises. -/
theorem C09_mul_infinite_zero_raises (r : Rounding) :
    (PB.pure ⊤).mul r (.fin 0) = .error .valueError ∧
    (PB.zcdp ⊤).mul r (.fin 0) = .error .valueError ∧
    (PB.approx ⊤ (0 : ℚ)).mul r (.fin 0) = .error .valueError := by
  refine ⟨?_, ?_, ?_⟩ <;> simp [PB.mul, mulArg, pyMul, mkPure, mkZCDP, mkApprox]

/-- **C09 (disagreement).** An approximate budget with delta = 1 counts as infinite, but dividing it
by 2 gives a finite budget: infinity is not absorbing for division. -/
theorem C09_div_infinite_is_finite :
    (PB.approx (1 : ℚ) (1 : ℚ)).isInfinite = true ∧
    (PB.approx (1 : ℚ) (1 : ℚ)).div .exact (.fin 2) = .ok (.approx ((1/2 : ℚ) : XNum) ((1/2 : ℚ) : XNum)) ∧
    (PB.approx ((1/2 : ℚ) : XNum) ((1/2 : ℚ) : XNum)).isInfinite = false := by
  decide +kernel

/-- **C09.** Pure and zCDP budgets, and approximate budgets with infinite epsilon, stay infinite under
division and under multiplication by a positive number. -/
theorem C09_scale_infinite_partial (r : Rounding) (k : ℚ) (hk : 0 < k) (δ : XNum)
    (h : (PB.approx ⊤ δ).Valid) (hδ : Representable r δ) (hr : r.Lawful) :
    (PB.pure ⊤).div r (.fin k) = .ok (.pure ⊤) ∧ (PB.pure ⊤).mul r (.fin k) = .ok (.pure ⊤) ∧
    (PB.zcdp ⊤).div r (.fin k) = .ok (.zcdp ⊤) ∧ (PB.zcdp ⊤).mul r (.fin k) = .ok (.zcdp ⊤) ∧
    (∃ b, (PB.approx ⊤ δ).mul r (.fin k) = .ok b ∧ b.isInfinite = true) ∧
    (1 ≤ k → ∃ b, (PB.approx ⊤ δ).div r (.fin k) = .ok b ∧ b.isInfinite = true) := by
  have hk' : ¬ k < 0 := not_lt.mpr hk.le
  have hk0 : k ≠ 0 := hk.ne'
  refine ⟨?_, ?_, ?_, ?_, ?_, ?_⟩
  · simp [PB.div, divArg, not_le.mpr hk, pyDiv, mkPure]
  · simp [PB.mul, mulArg, hk', pyMul, mkPure, hk0]
  · simp [PB.div, divArg, not_le.mpr hk, pyDiv, mkZCDP]
  · simp [PB.mul, mulArg, hk', pyMul, mkZCDP, hk0]
  · obtain ⟨_, h2, h3⟩ := h
    cases δ using WithTop.recTopCoe with
    | top => exact absurd h3 (by simp)
    | coe q =>
      have hq : (0 : ℚ) ≤ q := WithTop.coe_le_coe.mp h2
      have : ∃ v : ℚ, 0 ≤ v ∧ pyMul r (toPy r (q : XNum)) k = .fin v := by
        rw [toPy_rep hδ]
        simp only [pyMul]
        split
        · exact ⟨_, mul_nonneg hq hk.le, rfl⟩
        · exact ⟨_, rnd_nonneg hr (mul_nonneg hq hk.le), rfl⟩
      obtain ⟨v, hv, hv'⟩ := this
      refine ⟨.approx ⊤ ((min v 1 : ℚ) : XNum), ?_, by simp [PB.isInfinite]⟩
      have h1 : ¬ min v 1 < 0 := not_lt.mpr (le_min hv (by norm_num))
      have h2 : ¬ 1 < min v 1 := not_lt.mpr (min_le_right _ _)
      have hinf : pyMul r (toPy r ⊤) k = .pinf := by simp [pyMul, hk0]
      simp only [PB.mul, mulArg, hk', if_false]
      rw [hinf, hv', pyMin1_fin]
      simp only [mkApprox, negative, deltaOutOfRange, toExact, h1, h2, decide_false, Bool.or_self,
        Bool.false_eq_true, if_false, reduceCtorEq]
  · intro hk1
    obtain ⟨_, h2, h3⟩ := h
    cases δ using WithTop.recTopCoe with
    | top => exact absurd h3 (by simp)
    | coe q =>
      have hq : (0 : ℚ) ≤ q := WithTop.coe_le_coe.mp h2
      have hq1 : q ≤ 1 := WithTop.coe_le_coe.mp h3
      have hv0 : 0 ≤ r.rnd (q / k) := rnd_nonneg hr (div_nonneg hq hk.le)
      have hv1 : r.rnd (q / k) ≤ 1 := rnd_le_one hr (by
        rw [div_le_iff₀ hk]; linarith)
      refine ⟨.approx ⊤ ((r.rnd (q / k) : ℚ) : XNum), ?_, by simp [PB.isInfinite]⟩
      simp only [PB.div, divArg, not_le.mpr hk, if_false, toPy_top, pyDiv, toPy_rep hδ]
      simp [mkApprox, negative, deltaOutOfRange, toExact, not_lt.mpr hv0, not_lt.mpr hv1]

/-- Non-vacuity: exact rounding is lawful, and concrete budgets meet the hypotheses above. -/
example : Rounding.exact.Lawful :=
  ⟨fun _ _ h => h, rfl, rfl, fun _ => le_refl _, fun _ h => h, fun _ _ h => h⟩
example : (PB.approx ((1/2 : ℚ) : XNum) ((1/4 : ℚ) : XNum)).add .exact (.approx ((1 : ℚ) : XNum) ((1/4 : ℚ) : XNum))
    = .ok (.approx ((3/2 : ℚ) : XNum) ((1/2 : ℚ) : XNum)) := by decide +kernel
example : (PB.pure ((1 : ℚ) : XNum)).sub .exact (.pure ((1 + 1/10^10 : ℚ) : XNum)) = .ok (.pure ((0 : ℚ) : XNum)) :=
  (C09_sub_exact_pure 1 (1 + 1/10^10) (by norm_num)).2.1 (by norm_num) (by norm_num)

end Verif.Budget
