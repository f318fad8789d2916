import Verif.Session.PropsRequests
import Mathlib.Tactic.Linarith
import Mathlib.Tactic.Positivity

/-!
# What a session says when it refuses a request for lack of budget

Model of `_format_insufficient_budget_msg` (`/repo/src/tmlt/analytics/session.py` l. 146-238). The text is modelled by what
it shows: the amounts requested and remaining, and the differences with the format each is printed in. The last step,
Python's `:.3f` and `:.3e`, is not modelled.
-/

namespace Verif.Session

open Verif.Budget

variable {Q M T D V : Type}

/-! ## Model -/

/-- The names that occur in the message (`ε`, `δ`, `𝝆`). -/
inductive Comp where
  | epsilon
  | delta
  | rho
  deriving DecidableEq, Repr

/-- `:.3f` or `:.3e`. -/
inductive Style where
  | fixed
  | scientific
  deriving DecidableEq, Repr

/-- The lines "Requested", "Remaining" and "Difference". -/
structure Text where
  requested : List (Comp × XNum)
  remaining : List (Comp × XNum)
  difference : List (Comp × Style × XNum)

/-- Operations on floats that the message uses: `to_float(round_up=True)` of Core, the rounding of a difference of floats,
and Python's `round(x, 3)`. -/
structure Floats where
  up : ℚ → ℚ
  rnd : ℚ → ℚ
  round3 : ℚ → ℚ

/-- `x.to_float(round_up=True)` (l. 166-169, 212-213, 223-224). -/
def upX (f : Floats) : XNum → XNum
  | some q => ((f.up q : ℚ) : XNum)
  | none => ⊤

/-- `round(abs(remaining - requested), 3)` (l. 178, 179, 187, 193, 214, 225); `round` leaves infinity alone. (Both being
infinite gives `nan` in Python; it does not happen, as infinite budgets are never exceeded.) -/
def diffX (f : Floats) (requested remaining : XNum) : XNum :=
  match upX f requested, upX f remaining with
  | some a, some b => ((f.round3 |f.rnd (b - a)| : ℚ) : XNum)
  | _, _ => ⊤

/-- Is the difference at least `format_threshold = 0.1` (l. 153)? -/
def large (f : Floats) (x : XNum) : Bool := decide (((f.rnd (1 / 10) : ℚ) : XNum) ≤ x)

/-- How a single difference is printed (l. 188-191, 194-197, 217-220, 228-231). -/
def styleOf (f : Floats) (x : XNum) : Style := if large f x then .fixed else .scientific

/-- The line "Difference" of approximate budgets (l. 174-197). -/
def diffLine (f : Floats) (ε δ ε' δ' : XNum) : List (Comp × Style × XNum) :=
  let lacksEps := decide (upX f ε' < upX f ε)
  let lacksDelta := decide (upX f δ' < upX f δ)
  if lacksEps && lacksDelta then
    let e := diffX f ε ε'
    let d := diffX f δ δ'
    if large f e && large f d then [(.epsilon, .fixed, e), (.delta, .fixed, d)]
    else if !large f e then [(.epsilon, .scientific, e), (.delta, .fixed, d)]
    else if !large f d then [(.epsilon, .fixed, e), (.delta, .scientific, d)]
    else []
  else if lacksEps then [(.epsilon, styleOf f (diffX f ε ε'), diffX f ε ε')]
  else if lacksDelta then [(.delta, styleOf f (diffX f δ δ'), diffX f δ δ')]
  else []

/-- The lines of pure and zero-concentrated budgets (l. 211-231). -/
def oneLine (f : Floats) (c : Comp) (a b : XNum) : Text :=
  { requested := [(c, upX f a)]
    remaining := [(c, upX f b)]
    difference := [(c, styleOf f (diffX f a b), diffX f a b)] }

/-- `_format_insufficient_budget_msg` (l. 146-238): `none` where it raises `AnalyticsInternalError`. The amounts of pure
and zCDP budgets are both plain numbers, so that only the kind of the budget that was asked for tells them apart. -/
def message (f : Floats) (asked requested remaining : PB) : Option Text :=
  match asked with
  | .approx _ _ =>
    match requested, remaining with
    | .approx ε δ, .approx ε' δ' => some
      { requested := [(.epsilon, upX f ε), (.delta, upX f δ)]
        remaining := [(.epsilon, upX f ε'), (.delta, upX f δ')]
        difference := diffLine f ε δ ε' δ' }
    | _, _ => none
  | .pure _ =>
    match requested, remaining with
    | .pure a, .pure b => some (oneLine f .epsilon a b)
    | .pure a, .zcdp b => some (oneLine f .epsilon a b)
    | .zcdp a, .pure b => some (oneLine f .epsilon a b)
    | .zcdp a, .zcdp b => some (oneLine f .epsilon a b)
    | _, _ => none
  | .zcdp _ =>
    match requested, remaining with
    | .pure a, .pure b => some (oneLine f .rho a b)
    | .pure a, .zcdp b => some (oneLine f .rho a b)
    | .zcdp a, .pure b => some (oneLine f .rho a b)
    | .zcdp a, .zcdp b => some (oneLine f .rho a b)
    | _, _ => none

/-- The message of the exception that `evaluate` raises for lack of budget (l. 1135-1144): Core's `InsufficientBudgetError`
carries the amount that the accountant was asked for and the amount that remains. -/
def refusalText (f : Floats) (r : Rounding) (remaining asked : PB) : Option Text :=
  match processRequested r remaining (convertBudget remaining asked) with
  | .ok adj => message f asked adj remaining
  | .error _ => none

/-- The session raises the `RuntimeError` exactly if there is a message. -/
theorem message_canFormat (f : Floats) (asked requested remaining : PB) :
    (message f asked requested remaining).isSome = canFormat asked requested remaining := by
  cases asked <;> cases requested <;> cases remaining <;> rfl

/-! ## Specification -/

/-- The amounts of a budget. -/
def PB.amount : PB → Comp → Option XNum
  | .pure ε, .epsilon => some ε
  | .approx ε _, .epsilon => some ε
  | .approx _ δ, .delta => some δ
  | .zcdp ρ, .rho => some ρ
  | _, _ => none

/-- What is assumed about floats, for amounts that are not so small that they lose precision: results are within one part
in `10^12`, and rounding up rounds up. `round(x, 3)` is within `0.0005`, up to precision. -/
structure Floats.Lawful (f : Floats) : Prop where
  up_mono : ∀ a b, a ≤ b → f.up a ≤ f.up b
  up_ge : ∀ a, a ≤ f.up a
  rnd_near : ∀ a, |f.rnd a - a| ≤ |a| / 10 ^ 12
  round3_near : ∀ a, 0 ≤ a → |f.round3 a - a| ≤ 1 / 2000 + a / 10 ^ 12

/-- Rounding the amount `x` to a float, up or down, changes it by at most one part in `10^12`. (True of zero, and of all
numbers that are not subnormal.) -/
def Near (f : Floats) (r : Rounding) (x : XNum) : Prop :=
  ∀ a : ℚ, x = (a : XNum) → f.up a ≤ a + a / 10 ^ 12 ∧ a - a / 10 ^ 12 ≤ r.down a

/-- `x` is above `y` by more than one part in `10^9`. -/
def WellAbove (x y : XNum) : Prop := ¬ CloseTo x y

/-! ## Lemmas -/

section
variable {f : Floats} {r : Rounding}

theorem upX_mono (hf : f.Lawful) {a b : XNum} (h : a ≤ b) : upX f a ≤ upX f b := by
  cases b using WithTop.recTopCoe with
  | top => exact le_top
  | coe b =>
    cases a using WithTop.recTopCoe with
    | top => exact absurd h (by simp)
    | coe a => exact WithTop.coe_le_coe.mpr (hf.up_mono _ _ (WithTop.coe_le_coe.mp h))

/-- If the floats show a lack, then there is one. -/
theorem lt_of_upX_lt (hf : f.Lawful) {a b : XNum} (h : upX f b < upX f a) : b < a := by
  by_contra hn
  exact absurd (upX_mono hf (not_lt.mp hn)) (not_le.mpr h)

/-- The adjusted amount exceeds what remains only if it is the amount asked for. -/
theorem adjust_gt (hr : r.Lawful) {a b : XNum} (h : b < adjustNumber a (downX r b)) :
    adjustNumber a (downX r b) = a ∧ b < a ∧ ¬ WithinTolerance a (downX r b) := by
  by_cases hw : WithinTolerance a (downX r b)
  · rw [(C04_adjust_number a _).1 hw] at h
    exact absurd (downX_le hr b) (not_le.mpr h)
  · have e := (C04_adjust_number a _).2 hw
    rw [e] at h
    exact ⟨e, h, hw⟩

/-- A lack that the accountant sees is also seen by the floats. -/
theorem upX_lt (hf : f.Lawful) {a b : XNum} (hn : Near f r b) (hb : (0 : XNum) ≤ b)
    (hlt : b < a) (hw : ¬ WithinTolerance a (downX r b)) (hd : r.Lawful) : upX f b < upX f a := by
  cases b using WithTop.recTopCoe with
  | top => exact absurd hlt (by simp)
  | coe b =>
    cases a using WithTop.recTopCoe with
    | top => exact WithTop.coe_lt_top _
    | coe a =>
      have hab : b < a := WithTop.coe_lt_coe.mp hlt
      have h0 : 0 ≤ b := WithTop.coe_le_coe.mp hb
      obtain ⟨h1, h2⟩ := hn b rfl
      have h3 := hf.up_ge a
      have h4 := hd.down_le b
      have h5 : r.down b / 10 ^ 9 < a - r.down b := by
        by_contra hc
        exact hw ⟨a, r.down b, rfl, rfl, by linarith, not_lt.mp hc⟩
      refine WithTop.coe_lt_coe.mpr ?_
      change f.up b < f.up a
      rcases h0.eq_or_lt with rfl | hpos
      · linarith
      · linarith

/-- The components in the line "Difference". -/
theorem diffLine_mem (ε δ ε' δ' : XNum) (c : Comp) :
    c ∈ (diffLine f ε δ ε' δ').map Prod.fst ↔
      (c = .epsilon ∧ upX f ε' < upX f ε) ∨ (c = .delta ∧ upX f δ' < upX f δ) := by
  unfold diffLine
  by_cases h1 : upX f ε' < upX f ε <;> by_cases h2 : upX f δ' < upX f δ <;>
    simp only [h1, h2, decide_true, decide_false, Bool.and_true, Bool.and_false, Bool.false_eq_true, if_true, if_false,
      Bool.and_self, and_true, and_false, or_false, false_or, List.map_cons, List.map_nil, List.mem_singleton,
      List.not_mem_nil]
  cases large f (diffX f ε ε') <;> cases large f (diffX f δ δ') <;> simp

/-- The amounts in the line "Difference". -/
theorem diffLine_value (ε δ ε' δ' : XNum) (c : Comp) (s : Style) (v : XNum) (h : (c, s, v) ∈ diffLine f ε δ ε' δ') :
    (c = .epsilon ∧ v = diffX f ε ε') ∨ (c = .delta ∧ v = diffX f δ δ') := by
  unfold diffLine at h
  revert h
  by_cases h1 : upX f ε' < upX f ε <;> by_cases h2 : upX f δ' < upX f δ <;>
    cases large f (diffX f ε ε') <;> cases large f (diffX f δ δ') <;> simp [h1, h2]
  all_goals aesop

/-- The difference that is shown is the one between the amounts, up to the rounding. -/
theorem diffX_near (hf : f.Lawful) {a b : ℚ} (ha : 0 ≤ a) (hb : 0 ≤ b) (hna : f.up a ≤ a + a / 10 ^ 12)
    (hnb : f.up b ≤ b + b / 10 ^ 12) :
    ∃ v : ℚ, diffX f (a : XNum) (b : XNum) = (v : XNum) ∧ abs (v - |a - b|) ≤ 1 / 2000 + (a + b) / 10 ^ 11 := by
  refine ⟨f.round3 |f.rnd (f.up b - f.up a)|, rfl, ?_⟩
  have h1 := hf.up_ge a
  have h2 := hf.up_ge b
  have h3 := hf.rnd_near (f.up b - f.up a)
  have h4 := hf.round3_near |f.rnd (f.up b - f.up a)| (abs_nonneg _)
  set x := f.up b - f.up a with hx
  have h5 : |x - (b - a)| ≤ (a + b) / 10 ^ 12 := by
    rw [abs_le]
    constructor <;> rw [hx] <;> linarith
  have h6 : |x| ≤ 2 * (a + b) := by
    rw [abs_le]
    constructor <;> rw [hx] <;> linarith
  have h7 : abs (|f.rnd x| - |x|) ≤ |x| / 10 ^ 12 := (abs_abs_sub_abs_le _ _).trans h3
  have h8 : abs (|x| - |a - b|) ≤ (a + b) / 10 ^ 12 := by
    rw [abs_sub_comm a b]
    exact (abs_abs_sub_abs_le _ _).trans h5
  rw [abs_le] at h4 h7 h8 ⊢
  constructor <;> linarith [h4.1, h4.2, h7.1, h7.2, h8.1, h8.2]

end

/-! ## C83 -/

/-- A refusal of `evaluate` for lack of budget. -/
theorem evaluate_refused {env : Env Q M T D V} (he : env.NoBudgetErrors) {w : World M T D} {i : Nat} {n : Node M T} {q : Q}
    {b : PB} (hn : w.nodes[i]? = some n) {x : Err} (hx : x.LacksBudget) (h : (evaluate env w i q b).1 = .error x) :
    ∃ adj, PB.SameKind n.remaining (convertBudget n.remaining b) ∧
      processRequested env.rounding n.remaining (convertBudget n.remaining b) = .ok adj ∧
      PB.SameKind n.remaining adj ∧ canSpend n.remaining adj = false ∧ x = refusal b adj n.remaining := by
  unfold evaluate at h
  rw [hn] at h
  dsimp only at h
  cases hc : compileInfo env w n q b with
  | error e =>
    rw [hc] at h
    simp only [Except.error.injEq] at h
    subst h
    unfold compileInfo at hc
    dsimp only at hc
    split at hc
    · cases hc; rcases hx with h | h <;> cases h
    rename_i hk
    split at hc
    · cases hc; rcases hx with h | h <;> cases h
    have hsk : PB.SameKind n.remaining (convertBudget n.remaining b) := (kindMatches_iff _ _).mp (by simpa using hk)
    obtain ⟨adj, hadj, _⟩ := processRequested_ok env.rounding n.remaining _ hsk
    rw [hadj] at hc
    dsimp only at hc
    split at hc
    · rename_i e' he'
      cases hc
      exact absurd he' (he.compile _ _ _ _ _ hx)
    · cases hc
  | ok p =>
    obtain ⟨m, adj⟩ := p
    rw [hc] at h
    obtain ⟨hsk, _, hadj, _⟩ := compileInfo_ok hc
    obtain ⟨adj', h1, h2⟩ := processRequested_ok env.rounding n.remaining _ hsk
    rw [hadj] at h1
    cases h1
    dsimp only at h
    split at h
    · rename_i e ha
      unfold activate at ha
      rw [hn] at ha
      dsimp only at ha
      split at ha
      · cases ha
      · split at ha
        · cases ha; cases h; rcases hx with h | h <;> cases h
        · cases ha
    · split at h
      · cases h; rcases hx with h | h <;> cases h
      · split at h
        · rename_i hcs
          refine ⟨adj, hsk, hadj, h2, by simpa using hcs, ?_⟩
          simp only [Except.error.injEq] at h
          exact h.symm
        · split at h
          · cases h; rcases hx with h | h <;> cases h
          · cases h

/-- **C83**: when the exception for lack of budget cannot be put together. An `evaluate` that is refused for lack of budget
raises the documented `RuntimeError`, unless a `PureDPBudget` was asked for in a session with an `ApproxDPBudget`, when it
never does. -/
theorem C83_exception_partial {env : Env Q M T D V} (he : env.NoBudgetErrors) {w : World M T D} {i : Nat} {n : Node M T}
    {q : Q} {b : PB} (hn : w.nodes[i]? = some n) {x : Err} (hx : x.LacksBudget) (h : (evaluate env w i q b).1 = .error x) :
    (PB.SameKind n.remaining b ↔ x = .insufficientBudget) ∧
    (¬ PB.SameKind n.remaining b → (∃ ε δ, n.remaining = .approx ε δ) ∧ (∃ ε, b = .pure ε) ∧ x = .insufficientInternal) := by
  obtain ⟨adj, hsk, _, hk, _, rfl⟩ := evaluate_refused he hn hx h
  cases hrem : n.remaining <;> cases b <;> cases adj <;> rw [hrem] at hsk hk <;>
    simp [PB.SameKind, convertBudget, refusal, canFormat] at hsk hk ⊢

/-- **C83**: a `partition_and_create` that is refused for lack of budget always raises the documented `RuntimeError`. -/
theorem C83_partition {env : Env Q M T D V} (he : env.NoBudgetErrors) (w : World M T D) (i : Nat) (src : String) (b : PB)
    (col : String) (splits : List (String × V)) :
    (partition env w i src b col splits).1 ≠ .error .insufficientInternal := by
  unfold partition
  cases hn : w.nodes[i]? with
  | none => simp
  | some n =>
    dsimp only
    split
    · simp
    · rename_i hk
      split
      · simp
      · have hsk : PB.SameKind n.remaining (convertBudget n.remaining b) :=
          (kindMatches_iff _ _).mp (by simpa using hk)
        obtain ⟨adj, hadj, h2⟩ := processRequested_ok env.rounding n.remaining _ hsk
        rw [hadj]
        dsimp only
        split
        · rename_i e he'
          simp only [ne_eq, Except.error.injEq]
          rintro rfl
          exact he.partition _ _ _ _ _ _ (.inr rfl) he'
        · split
          · rename_i e ha
            unfold activate at ha
            rw [hn] at ha
            dsimp only at ha
            split at ha
            · cases ha
            · split at ha
              · cases ha; simp
              · cases ha
          · rw [refusal_same hsk h2]
            repeat' split
            all_goals simp

/-- **C83**: the message of the exception names what lacks. For a finite request of the session's kind that `evaluate`
refuses for lack of budget, in a session whose remaining amounts are not too small for floats to be precise:
* there is a message, with some component in its line "Difference";
* every component there is one of which more was asked for than remains;
* every component of which more than one part in `10^9` too much was asked for is there. -/
theorem C83_components {env : Env Q M T D V} (he : env.NoBudgetErrors) (hr : env.rounding.Lawful) {f : Floats}
    (hf : f.Lawful) {w : World M T D} {i : Nat} {n : Node M T} {q : Q} {b : PB} (hn : w.nodes[i]? = some n)
    (hv : ∀ c x, PB.amount n.remaining c = some x → 0 ≤ x ∧ Near f env.rounding x)
    (hfb : b.isInfinite = false) (hsame : PB.SameKind n.remaining b)
    (h : (evaluate env w i q b).1 = .error .insufficientBudget) :
    ∃ t, refusalText f env.rounding n.remaining b = some t ∧ t.difference ≠ [] ∧
      (∀ c ∈ t.difference.map Prod.fst,
        ∃ x y, PB.amount b c = some x ∧ PB.amount n.remaining c = some y ∧ y < x) ∧
      (∀ c x y, PB.amount b c = some x → PB.amount n.remaining c = some y → WellAbove x y →
        c ∈ t.difference.map Prod.fst) := by
  obtain ⟨adj, hsk, hadj, hk, hcs, hx⟩ := evaluate_refused he hn (.inl rfl) h
  have hmono : ∀ {x y : XNum}, WellAbove x y → ¬ (x ≤ y ∨ WithinTolerance x (downX env.rounding y)) := by
    rintro x y hxy (h | h)
    · exact hxy (.inl h)
    · exact hxy (withinTolerance_mono h (downX_le hr y))
  unfold refusalText
  rw [hadj]
  dsimp only
  cases hrem : n.remaining with
  | pure y =>
    rw [hrem] at hsame hadj hcs
    cases b with
    | pure x =>
      simp only [convertBudget, processRequested, adjustBudget, Except.ok.injEq] at hadj
      subst hadj
      have hlt : y < adjustNumber x (downX env.rounding y) := by
        by_contra hc
        simp [canSpend, not_lt.mp hc] at hcs
      obtain ⟨_, hlt, _⟩ := adjust_gt hr hlt
      refine ⟨_, rfl, by simp [oneLine], ?_, ?_⟩
      · intro c hc
        simp only [oneLine, List.map_cons, List.map_nil, List.mem_singleton] at hc
        subst hc
        exact ⟨x, y, rfl, rfl, hlt⟩
      · intro c x' y' hx' hy' _
        cases c <;> first | (cases hx'; done) | simp [oneLine]
    | approx _ _ => exact hsame.elim
    | zcdp _ => exact hsame.elim
  | zcdp y =>
    rw [hrem] at hsame hadj hcs
    cases b with
    | zcdp x =>
      simp only [convertBudget, processRequested, adjustBudget, Except.ok.injEq] at hadj
      subst hadj
      have hlt : y < adjustNumber x (downX env.rounding y) := by
        by_contra hc
        simp [canSpend, not_lt.mp hc] at hcs
      obtain ⟨_, hlt, _⟩ := adjust_gt hr hlt
      refine ⟨_, rfl, by simp [oneLine], ?_, ?_⟩
      · intro c hc
        simp only [oneLine, List.map_cons, List.map_nil, List.mem_singleton] at hc
        subst hc
        exact ⟨x, y, rfl, rfl, hlt⟩
      · intro c x' y' hx' hy' _
        cases c <;> first | (cases hx'; done) | simp [oneLine]
    | approx _ _ => exact hsame.elim
    | pure _ => exact hsame.elim
  | approx y1 y2 =>
    rw [hrem] at hsame hadj hcs hv
    cases b with
    | pure _ => exact hsame.elim
    | zcdp _ => exact hsame.elim
    | approx x1 x2 =>
      simp only [convertBudget, processRequested, hfb, adjustBudget, Bool.false_eq_true, if_false, Except.ok.injEq] at hadj
      subst hadj
      obtain ⟨p1, n1⟩ := hv .epsilon y1 rfl
      obtain ⟨p2, n2⟩ := hv .delta y2 rfl
      have key : ∀ {x y : XNum}, 0 ≤ y → Near f env.rounding y →
          (upX f y < upX f (adjustNumber x (downX env.rounding y)) ↔ ¬ (x ≤ y ∨ WithinTolerance x (downX env.rounding y))) := by
        intro x y hy hny
        rw [← adjust_le_iff hr, not_le]
        constructor
        · exact lt_of_upX_lt hf
        · intro hlt
          obtain ⟨e, h1, h2⟩ := adjust_gt hr hlt
          rw [e]
          exact upX_lt hf hny hy h1 h2 hr
      have hmem := fun c => diffLine_mem (f := f) (adjustNumber x1 (downX env.rounding y1))
        (adjustNumber x2 (downX env.rounding y2)) y1 y2 c
      simp only [key p1 n1, key p2 n2] at hmem
      refine ⟨_, rfl, ?_, ?_, ?_⟩
      · intro hnil
        change diffLine f _ _ _ _ = [] at hnil
        have h1 := hmem .epsilon
        have h2 := hmem .delta
        rw [hnil] at h1 h2
        simp only [List.map_nil, List.not_mem_nil, false_iff, true_and, reduceCtorEq, false_and, or_false, false_or,
          not_not] at h1 h2
        rw [← adjust_le_iff hr] at h1 h2
        simp [canSpend, h1, h2] at hcs
      · intro c hc
        rcases (hmem c).1 hc with ⟨rfl, h⟩ | ⟨rfl, h⟩
        · exact ⟨x1, y1, rfl, rfl, not_le.mp fun hle => h (.inl hle)⟩
        · exact ⟨x2, y2, rfl, rfl, not_le.mp fun hle => h (.inl hle)⟩
      · intro c x y hx' hy' hab
        refine (hmem c).2 ?_
        cases c with
        | epsilon => cases hx'; cases hy'; exact .inl ⟨rfl, hmono hab⟩
        | delta => cases hx'; cases hy'; exact .inr ⟨rfl, hmono hab⟩
        | rho => cases hx'

/-- **C83**: the differences shown are right up to `0.0005` and the precision of floats: next to a component in the line
"Difference" is what was asked for minus what remains. -/
theorem C83_difference {env : Env Q M T D V} (he : env.NoBudgetErrors) (hr : env.rounding.Lawful) {f : Floats}
    (hf : f.Lawful) {w : World M T D} {i : Nat} {n : Node M T} {q : Q} {b : PB} (hn : w.nodes[i]? = some n)
    (hfb : b.isInfinite = false) (hsame : PB.SameKind n.remaining b)
    (h : (evaluate env w i q b).1 = .error .insufficientBudget) (t : Text)
    (ht : refusalText f env.rounding n.remaining b = some t) (c : Comp) (s : Style) (v : XNum) (hc : (c, s, v) ∈ t.difference)
    (x y : ℚ) (hx : PB.amount b c = some (x : XNum)) (hy : PB.amount n.remaining c = some (y : XNum)) (hy0 : 0 ≤ y)
    (hnx : f.up x ≤ x + x / 10 ^ 12) (hny : f.up y ≤ y + y / 10 ^ 12) :
    ∃ d : ℚ, v = (d : XNum) ∧ |d - (x - y)| ≤ 1 / 2000 + (x + y) / 10 ^ 11 := by
  have fin : ∀ a : XNum, v = diffX f a (y : XNum) → a = (x : XNum) → y < x →
      ∃ d : ℚ, v = (d : XNum) ∧ |d - (x - y)| ≤ 1 / 2000 + (x + y) / 10 ^ 11 := by
    intro a h1 h2 hlt
    subst h2
    obtain ⟨d, hd1, hd2⟩ := diffX_near hf (hy0.trans hlt.le) hy0 hnx hny
    rw [abs_of_pos (sub_pos.2 hlt)] at hd2
    exact ⟨d, h1.trans hd1, hd2⟩
  obtain ⟨adj, hsk, hadj, hk, hcs, _⟩ := evaluate_refused he hn (.inl rfl) h
  unfold refusalText at ht
  rw [hadj] at ht
  dsimp only at ht
  cases hrem : n.remaining with
  | pure y' =>
    rw [hrem] at hsame hadj hcs ht hy
    cases b with
    | pure x' =>
      simp only [convertBudget, processRequested, adjustBudget, Except.ok.injEq] at hadj
      subst hadj
      have hlt : y' < adjustNumber x' (downX env.rounding y') := by
        by_contra hc
        simp [canSpend, not_lt.mp hc] at hcs
      obtain ⟨e, hlt, _⟩ := adjust_gt hr hlt
      cases ht
      simp only [oneLine, List.mem_singleton, Prod.mk.injEq] at hc
      obtain ⟨rfl, _, hv⟩ := hc
      cases hx
      cases hy
      exact fin _ hv e (WithTop.coe_lt_coe.mp hlt)
    | approx _ _ => exact hsame.elim
    | zcdp _ => exact hsame.elim
  | zcdp y' =>
    rw [hrem] at hsame hadj hcs ht hy
    cases b with
    | zcdp x' =>
      simp only [convertBudget, processRequested, adjustBudget, Except.ok.injEq] at hadj
      subst hadj
      have hlt : y' < adjustNumber x' (downX env.rounding y') := by
        by_contra hc
        simp [canSpend, not_lt.mp hc] at hcs
      obtain ⟨e, hlt, _⟩ := adjust_gt hr hlt
      cases ht
      simp only [oneLine, List.mem_singleton, Prod.mk.injEq] at hc
      obtain ⟨rfl, _, hv⟩ := hc
      cases hx
      cases hy
      exact fin _ hv e (WithTop.coe_lt_coe.mp hlt)
    | approx _ _ => exact hsame.elim
    | pure _ => exact hsame.elim
  | approx y1 y2 =>
    rw [hrem] at hsame hadj hcs ht hy
    cases b with
    | pure _ => exact hsame.elim
    | zcdp _ => exact hsame.elim
    | approx x1 x2 =>
      simp only [convertBudget, processRequested, hfb, adjustBudget, Bool.false_eq_true, if_false, Except.ok.injEq] at hadj
      subst hadj
      cases ht
      have hm := (diffLine_mem (f := f) _ _ _ _ c).1 (List.mem_map_of_mem hc)
      rcases diffLine_value _ _ _ _ _ _ _ hc with ⟨rfl, hv⟩ | ⟨rfl, hv⟩
      · simp only [true_and, reduceCtorEq, false_and, or_false] at hm
        obtain ⟨e, hlt, _⟩ := adjust_gt hr (lt_of_upX_lt hf hm)
        cases hx
        cases hy
        exact fin _ hv e (WithTop.coe_lt_coe.mp hlt)
      · simp only [true_and, reduceCtorEq, false_and, false_or] at hm
        obtain ⟨e, hlt, _⟩ := adjust_gt hr (lt_of_upX_lt hf hm)
        cases hx
        cases hy
        exact fin _ hv e (WithTop.coe_lt_coe.mp hlt)

/-- **C83**: the lines "Requested" and "Remaining" show, for the components of the session's kind in order, the remaining
amounts, and what was asked for (or what it was lowered to, if it is within the tolerance), rounded up to a float. -/
theorem C83_amounts {f : Floats} {r : Rounding} {rem b : PB} (hfb : b.isInfinite = false) (hsame : PB.SameKind rem b) {t : Text}
    (ht : refusalText f r rem b = some t) :
    (∀ c x, (c, x) ∈ t.remaining ↔ ∃ y, PB.amount rem c = some y ∧ x = upX f y) ∧
    (∀ c x, (c, x) ∈ t.requested ↔ ∃ y z, PB.amount b c = some y ∧ PB.amount rem c = some z ∧
      ((¬ WithinTolerance y (downX r z) ∧ x = upX f y) ∨ (WithinTolerance y (downX r z) ∧ x = upX f (downX r z)))) := by
  have adj : ∀ y z x : XNum, x = upX f (adjustNumber y (downX r z)) ↔
      ((¬ WithinTolerance y (downX r z) ∧ x = upX f y) ∨ (WithinTolerance y (downX r z) ∧ x = upX f (downX r z))) := by
    intro y z x
    by_cases hw : WithinTolerance y (downX r z)
    · rw [(C04_adjust_number y _).1 hw]; simp [hw]
    · rw [(C04_adjust_number y _).2 hw]; simp [hw]
  cases rem <;> cases b <;> try exact hsame.elim
  · simp only [refusalText, convertBudget, processRequested, adjustBudget, message, oneLine, Option.some.injEq] at ht
    subst ht
    constructor <;> intro c x <;> cases c <;> simp [PB.amount, adj]
  · simp only [refusalText, convertBudget, processRequested, hfb, adjustBudget, message, Bool.false_eq_true, if_false,
      Option.some.injEq] at ht
    subst ht
    constructor <;> intro c x <;> cases c <;> simp [PB.amount, adj]
  · simp only [refusalText, convertBudget, processRequested, adjustBudget, message, oneLine, Option.some.injEq] at ht
    subst ht
    constructor <;> intro c x <;> cases c <;> simp [PB.amount, adj]

end Verif.Session
