import Verif.Session.PropsBudget
import Mathlib.Tactic.NormNum
import Mathlib.Tactic.Positivity

/-!
# Properties of budget requests: C03, C05, C06, C07, C11
-/

namespace Verif.Session

open Verif.Budget

variable {Q M T D V : Type}

/-! ## Specification vocabulary -/

/-- Compare two budgets of the same kind component by component. -/
def PBRel (R : XNum → XNum → Prop) : PB → PB → Prop
  | .pure a, .pure b => R a b
  | .approx a b, .approx c d => R a c ∧ R b d
  | .zcdp a, .zcdp b => R a b
  | _, _ => False

/-- `req` is at most `rem`, or above it by at most one part in 10^9. -/
def CloseTo (req rem : XNum) : Prop := req ≤ rem ∨ WithinTolerance req rem

/-- The query makes sense on the tables of session `n` with this budget: it compiles to a measurement that is
private for the amount that the accountant will be asked for. -/
def WellFormed (env : Env Q M T D V) (w : World M T D) (n : Node M T) (q : Q) (b : PB) : Prop :=
  ∀ adj, processRequested env.rounding n.remaining (convertBudget n.remaining b) = .ok adj →
    ∃ m, env.compile n.tables (w.pubOf n) q adj = .ok m ∧ env.privRel m adj = true

/-- Exceptions for lack of budget. -/
def Err.LacksBudget (e : Err) : Prop := e = .insufficientBudget ∨ e = .insufficientInternal

/-- Only the accountant complains about insufficient budget. -/
structure Env.NoBudgetErrors (env : Env Q M T D V) : Prop where
  compile : ∀ ts ps q b e, e.LacksBudget → env.compile ts ps q b ≠ .error e
  transform : ∀ ts ps q e, e.LacksBudget → env.transform ts ps q ≠ .error e
  partition : ∀ ts ps s c vs e, e.LacksBudget → env.partition ts ps s c vs ≠ .error e
  coerce : ∀ d e, e.LacksBudget → env.coerce d ≠ .error e

/-! ## Auxiliary -/

theorem activate_ok {ns : List (Node M T)} {i : Nat} {n : Node M T} (hn : ns[i]? = some n)
    (h : n.state ≠ .retired) : ∃ ns', activate ns i = .ok ns' := by
  unfold activate
  rw [hn]
  simp only
  split
  · exact ⟨_, rfl⟩
  · exact ⟨_, rfl⟩

theorem refusal_same {asked requested remaining : PB} (h : PB.SameKind remaining asked) (h' : PB.SameKind remaining requested) :
    refusal asked requested remaining = .insufficientBudget := by
  cases remaining <;> cases asked <;> cases requested <;> first | rfl | exact h.elim | exact h'.elim

theorem refusal_lacks (asked requested remaining : PB) : (refusal asked requested remaining).LacksBudget := by
  unfold refusal
  split
  · exact .inl rfl
  · exact .inr rfl

/-- `evaluate` of a well-formed query with a budget of the right kind: the answer only depends on the
accountant's check. -/
theorem evaluate_result {env : Env Q M T D V} {w : World M T D} {i : Nat} {n : Node M T} {q : Q}
    {b : PB} (hn : w.nodes[i]? = some n) (hst : n.state ≠ .retired) (hwf : WellFormed env w n q b)
    (hk : PB.SameKind n.remaining (convertBudget n.remaining b))
    (hz : isZeroBudget (convertBudget n.remaining b) = false) :
    ∃ adj m, processRequested env.rounding n.remaining (convertBudget n.remaining b) = .ok adj ∧
      env.privRel m adj = true ∧ env.compile n.tables (w.pubOf n) q adj = .ok m ∧
      (evaluate env w i q b).1 =
        if canSpend n.remaining adj then .ok (.answer m adj) else .error (refusal b adj n.remaining) := by
  obtain ⟨adj, hadj, _⟩ := processRequested_ok env.rounding n.remaining _ hk
  obtain ⟨m, hm, hp⟩ := hwf adj hadj
  refine ⟨adj, m, hadj, hp, hm, ?_⟩
  obtain ⟨ns, ha⟩ := activate_ok hn hst
  have hc : compileInfo env w n q b = .ok (m, adj) := by
    unfold compileInfo
    simp only [(kindMatches_iff _ _).mpr hk, hz, hadj, hm]
    rfl
  unfold evaluate
  simp only [hn, hc, ha, hp, activate_self hn ha]
  cases canSpend n.remaining adj <;> rfl

theorem withinTolerance_mono {a b b' : XNum} (h : WithinTolerance a b) (hbb : b ≤ b') :
    CloseTo a b' := by
  obtain ⟨p, q, rfl, rfl, h1, h2⟩ := h
  cases b' using WithTop.recTopCoe with
  | top => exact Or.inl le_top
  | coe q' =>
    have hq : q ≤ q' := WithTop.coe_le_coe.mp hbb
    by_cases hle : p ≤ q'
    · exact Or.inl (WithTop.coe_le_coe.mpr hle)
    · refine Or.inr ⟨p, q', rfl, rfl, by linarith, ?_⟩
      have : q / 10 ^ 9 ≤ q' / 10 ^ 9 := by
        apply div_le_div_of_nonneg_right hq; positivity
      linarith

theorem adjust_le_iff {r : Rounding} (hr : r.Lawful) (a b : XNum) :
    adjustNumber a (downX r b) ≤ b ↔ a ≤ b ∨ WithinTolerance a (downX r b) := by
  constructor
  · intro h
    rcases adjustNumber_cases a (downX r b) with e | ⟨_, e⟩
    · rw [e] at h; exact Or.inl h
    · exact Or.inr e
  · rintro (h | h)
    · exact le_trans (C04_adjust_number_le a _).1 h
    · rw [(C04_adjust_number a _).1 h]; exact downX_le hr b

/-- The accountant's check on the adjusted request, in terms of the original request. -/
theorem canSpend_iff {r : Rounding} (hr : r.Lawful) {rem b adj : PB}
    (hrem : rem.isInfinite = false) (hb : b.isInfinite = false)
    (h : processRequested r rem b = .ok adj) :
    canSpend rem adj = true ↔ PBRel (fun x y => x ≤ y ∨ WithinTolerance x (downX r y)) b rem := by
  cases rem <;> cases b <;> simp only [processRequested, adjustBudget] at h
  all_goals try (cases h; done)
  · cases h
    simp only [canSpend, hrem, Bool.false_or, decide_eq_true_eq, PBRel]
    exact adjust_le_iff hr _ _
  · rw [hb] at h; cases h
  · rw [hb] at h; cases h
    simp only [canSpend, hrem, Bool.false_or, decide_eq_true_eq, PBRel, Bool.and_eq_true]
    rw [adjust_le_iff hr, adjust_le_iff hr]
  · rw [hb] at h; cases h
  · cases h
    simp only [canSpend, hrem, Bool.false_or, decide_eq_true_eq, PBRel]
    exact adjust_le_iff hr _ _

theorem PBRel.mono {R S : XNum → XNum → Prop} (h : ∀ x y, R x y → S x y) {a b : PB}
    (hab : PBRel R a b) : PBRel S a b := by
  cases a <;> cases b <;> simp only [PBRel] at *
  · exact h _ _ hab
  · exact ⟨h _ _ hab.1, h _ _ hab.2⟩
  · exact h _ _ hab

/-! ## C03 -/

/-- **C03** (partial: the first two parts are as claimed; the tolerance is granted on top of the
remaining budget *rounded down to a float*, so the claim "accepted up to one part in 10^9" holds exactly
when the remaining budget is a float; `C03_rounding_gap` shows it fails otherwise).

A finite request for a well-formed query, of the session's kind and not zero, in a session with a finite
remaining budget:
* is answered if it is at most the remaining budget;
* is rejected for insufficient budget if a component is above the remaining budget by more than one part
  in 10^9, with the documented exception if it is of the kind of the session (see `C83_mixed_fails`);
* if the remaining budget is exactly a float, is answered iff no component is above by more than one
  part in 10^9. -/
theorem C03_decision_partial {env : Env Q M T D V} (hr : env.rounding.Lawful) {w : World M T D}
    {i : Nat} {n : Node M T} {q : Q} {b : PB} (hn : w.nodes[i]? = some n) (hst : n.state ≠ .retired)
    (hwf : WellFormed env w n q b) (hk : PB.SameKind n.remaining (convertBudget n.remaining b))
    (hz : isZeroBudget (convertBudget n.remaining b) = false)
    (hfr : n.remaining.isInfinite = false) (hfb : (convertBudget n.remaining b).isInfinite = false) :
    let req := convertBudget n.remaining b
    let res := (evaluate env w i q b).1
    (PBRel (· ≤ ·) req n.remaining → ∃ m amt, res = .ok (.answer m amt)) ∧
    (¬ PBRel CloseTo req n.remaining →
      (∃ e, res = .error e ∧ e.LacksBudget) ∧ (PB.SameKind n.remaining b → res = .error .insufficientBudget)) ∧
    (PBRel (fun x y => x = y → downX env.rounding x = x) n.remaining n.remaining →
      (PBRel CloseTo req n.remaining → ∃ m amt, res = .ok (.answer m amt))) := by
  intro req res
  obtain ⟨adj, m, hadj, _, _, hres⟩ := evaluate_result hn hst hwf hk hz
  have hres : res = if canSpend n.remaining adj then .ok (.answer m adj)
    else .error (refusal b adj n.remaining) := hres
  have hadjk : PB.SameKind n.remaining adj := by
    obtain ⟨adj', h1, h2⟩ := processRequested_ok env.rounding n.remaining _ hk
    rw [hadj] at h1
    cases h1
    exact h2
  have hcs := canSpend_iff hr hfr hfb hadj
  refine ⟨?_, ?_, ?_⟩
  · intro h
    have : canSpend n.remaining adj = true :=
      hcs.mpr (PBRel.mono (fun x y hxy => Or.inl hxy) h)
    exact ⟨m, adj, by rw [hres, if_pos this]⟩
  · intro h
    have : ¬ canSpend n.remaining adj = true := by
      intro hc
      apply h
      refine PBRel.mono ?_ (hcs.mp hc)
      rintro x y (hxy | hxy)
      · exact Or.inl hxy
      · exact withinTolerance_mono hxy (downX_le hr y)
    rw [hres, if_neg this]
    exact ⟨⟨_, rfl, refusal_lacks _ _ _⟩, fun hsame => by rw [refusal_same hsame hadjk]⟩
  · intro hrep hclose
    have : canSpend n.remaining adj = true := by
      rw [hcs]
      have key : ∀ x y : XNum, downX env.rounding y = y → CloseTo x y →
          x ≤ y ∨ WithinTolerance x (downX env.rounding y) := by
        intro x y hy hxy
        rw [hy]; exact hxy
      change PBRel _ req n.remaining
      cases hrem : n.remaining <;> cases hreq : req <;>
        rw [hrem, hreq] at hclose <;> simp only [PBRel] at hclose ⊢ <;>
        rw [hrem] at hrep <;> simp only [PBRel, forall_const] at hrep
      · exact key _ _ hrep hclose
      · exact ⟨key _ _ hrep.1 hclose.1, key _ _ hrep.2 hclose.2⟩
      · exact key _ _ hrep hclose
    exact ⟨m, adj, by rw [hres, if_pos this]⟩

/-- **C03, where the code and the claim part ways.** Whenever the remaining budget is not exactly a
float, the request that exceeds it by exactly one part in 10^9 is refused. -/
theorem C03_rounding_gap {env : Env Q M T D V} (hr : env.rounding.Lawful) {w : World M T D}
    {i : Nat} {n : Node M T} {q : Q} (rem : ℚ) (hn : w.nodes[i]? = some n)
    (hst : n.state ≠ .retired)
    (hwf : WellFormed env w n q (.pure ((rem * (1 + 1 / 10 ^ 9) : ℚ) : XNum)))
    (hrem : n.remaining = .pure (rem : XNum)) (hpos : 0 < rem) (hdown : env.rounding.down rem < rem) :
    CloseTo ((rem * (1 + 1 / 10 ^ 9) : ℚ) : XNum) (rem : XNum) ∧
    (evaluate env w i q (.pure ((rem * (1 + 1 / 10 ^ 9) : ℚ) : XNum))).1 =
      .error .insufficientBudget := by
  set rq : ℚ := rem * (1 + 1 / 10 ^ 9) with hrq
  have hrq' : rq = rem + rem / 10 ^ 9 := by rw [hrq]; ring
  have hdiv : 0 < rem / 10 ^ 9 := by positivity
  have hclose : CloseTo (rq : XNum) (rem : XNum) :=
    Or.inr ⟨rq, rem, rfl, rfl, by linarith, by linarith⟩
  refine ⟨hclose, ?_⟩
  have hconv : convertBudget n.remaining (.pure (rq : XNum)) = .pure (rq : XNum) := by
    rw [hrem]; rfl
  have hz : isZeroBudget (convertBudget n.remaining (.pure (rq : XNum))) = false := by
    rw [hconv]
    simp only [isZeroBudget, PB.pyEq, Bool.or_false, decide_eq_false_iff_not]
    intro h
    have : rq = 0 := WithTop.coe_injective h
    linarith
  obtain ⟨adj, m, hadj, _, _, hres⟩ := evaluate_result (b := .pure (rq : XNum)) hn hst hwf
    (by rw [hconv, hrem]; trivial) hz
  rw [hconv] at hadj
  have hcs := canSpend_iff hr (rem := n.remaining) (by rw [hrem]; simp [PB.isInfinite])
    (b := .pure (rq : XNum)) (by simp [PB.isInfinite]) hadj
  have hadjk : PB.SameKind n.remaining adj := by
    obtain ⟨adj', h1, h2⟩ := processRequested_ok env.rounding n.remaining (.pure (rq : XNum)) (by rw [hrem]; trivial)
    rw [hadj] at h1
    cases h1
    exact h2
  rw [hres, if_neg, refusal_same (by rw [hrem]; trivial) hadjk]
  rw [hcs, hrem]
  simp only [PBRel]
  rintro (h | ⟨a, c, ha, hc, h1, h2⟩)
  · have := WithTop.coe_le_coe.mp h
    linarith
  · have ha' : rq = a := WithTop.coe_injective ha
    have hc' : env.rounding.down rem = c := WithTop.coe_injective hc
    have hmono : c / 10 ^ 9 < rem / 10 ^ 9 :=
      div_lt_div_of_pos_right (by linarith) (by norm_num)
    linarith

/-! ## C06 -/

/-- **C06.** Asking for exactly the budget that is reported as remaining is never refused for lack of
budget. -/
theorem C06_spend_all {env : Env Q M T D V} (hr : env.rounding.Lawful) (he : env.NoBudgetErrors)
    (w : World M T D) (i : Nat) (n : Node M T) (q : Q) (hn : w.nodes[i]? = some n) (x : Err) (hx : x.LacksBudget) :
    (evaluate env w i q n.remaining).1 ≠ .error x := by
  have hconv : convertBudget n.remaining n.remaining = n.remaining := by
    cases n.remaining <;> rfl
  have hsk : PB.SameKind n.remaining n.remaining := by cases n.remaining <;> simp [PB.SameKind]
  have hl : x.LacksBudget := hx
  rcases hx with rfl | rfl
  all_goals
    unfold evaluate
    simp only [hn]
    cases hc : compileInfo env w n q n.remaining with
    | error e =>
      simp only
      intro h
      simp only [Except.error.injEq] at h
      subst h
      unfold compileInfo at hc
      simp only [hconv, (kindMatches_iff _ _).mpr hsk] at hc
      obtain ⟨adj, hadj, _⟩ := processRequested_ok env.rounding n.remaining _ hsk
      rw [hadj] at hc
      simp only [Bool.not_true, Bool.false_eq_true, if_false] at hc
      split at hc
      · simp at hc
      · split at hc
        · rename_i e he'
          simp only [Except.error.injEq] at hc
          subst hc
          exact he.compile _ _ _ _ _ hl he'
        · simp at hc
    | ok p =>
      obtain ⟨m, adj⟩ := p
      simp only
      obtain ⟨_, _, hadj, _⟩ := compileInfo_ok hc
      rw [hconv] at hadj
      have hs : canSpend n.remaining adj = true := by
        cases hi : n.remaining.isInfinite with
        | true =>
          obtain ⟨adj', h1, h2⟩ := processRequested_ok env.rounding n.remaining _ hsk
          rw [hadj] at h1
          cases h1
          exact canSpend_infinite h2 hi
        | false =>
          rw [canSpend_iff hr hi hi hadj]
          cases n.remaining <;> simp [PBRel]
      split
      · rename_i e ha
        unfold activate at ha
        rw [hn] at ha
        simp only at ha
        split at ha
        · simp at ha
        · split at ha
          · simp only [Except.error.injEq] at ha; subst ha; simp
          · simp at ha
      · rename_i ns ha
        simp only [hs, activate_self hn ha]
        split <;> simp

theorem PB.le_refl' (b : PB) : PB.Le b b := by cases b <;> simp [PB.Le]

/-- **C06**, second half: no call ever increases what any session reports as remaining. -/
theorem C06_never_increases {env : Env Q M T D V} (hr : env.rounding.Lawful) {b : PB} (hb : b.Valid)
    (tables : List (String × T)) (ops : List (Op Q D V)) (op : Op Q D V)
    (hops : ∀ o ∈ ops, o.BudgetValid) (hop : op.BudgetValid) (i : Nat) (n : Node M T)
    (hn : (run env (init b tables : World M T D) ops).nodes[i]? = some n) :
    ∃ n', (step env (run env (init b tables : World M T D) ops) op).2.nodes[i]? = some n' ∧
      PB.Le n'.remaining n.remaining := by
  have hbk := books_run (M := M) (D := D) hr hb tables ops hops
  generalize run env (init b tables : World M T D) ops = w at hn hbk
  have hst := step_cases env w op
  generalize (step env w op).2 = w' at hst
  generalize (step env w op).1 = res at hst
  have hact : ∀ {ns : List (Node M T)}, StateOnly w.nodes ns →
      ∃ n' : Node M T, ns[i]? = some n' ∧ n'.remaining = n.remaining := by
    intro ns h
    obtain ⟨s, hs⟩ := h.get hn
    exact ⟨_, hs, rfl⟩
  have hact' : ∀ {ns : List (Node M T)}, StateOnly w.nodes ns →
      ∃ n' : Node M T, ns[i]? = some n' ∧ PB.Le n'.remaining n.remaining := by
    intro ns h
    obtain ⟨n', h1, h2⟩ := hact h
    exact ⟨n', h1, by rw [h2]; exact PB.le_refl' _⟩
  have hset : ∀ {ns : List (Node M T)} {j : Nat} {a : Node M T} (a' : Node M T),
      ns[j]? = some a → PB.Le a'.remaining a.remaining →
      (∃ n' : Node M T, ns[i]? = some n' ∧ n'.remaining = n.remaining) →
      ∃ n' : Node M T, (ns.set j a')[i]? = some n' ∧ PB.Le n'.remaining n.remaining := by
    rintro ns j a a' ha haa ⟨n', hn', hl⟩
    rw [get_set ha]
    by_cases hi : j = i
    · subst hi
      rw [ha] at hn'
      cases hn'
      exact ⟨a', by simp, by rw [← hl]; exact haa⟩
    · exact ⟨n', by rw [if_neg hi]; exact hn', by rw [hl]; exact PB.le_refl' _⟩
  cases hst with
  | reject _ e => exact ⟨n, hn, PB.le_refl' _⟩
  | late _ e ns h => exact hact' (activate_stateOnly h)
  | evaluate j q b a m adj ns hn hc ha hp hs =>
    obtain ⟨hv, _, hk⟩ := hbk.valid j a hn
    obtain ⟨_, _, hadj, _⟩ := compileInfo_ok hc
    have hav := processRequested_valid hr hv (convertBudget_valid hop) hadj
    obtain ⟨_, _, _, hle, _⟩ := spend_books (ev := .measured m adj) rfl hv hk hav hs
      (hbk.finite j a hn) (hbk.infinite j a hn)
    exact hset _ (activate_self hn ha) hle (hact (activate_stateOnly ha))
  | createView j q name a t ns hn hi ha h1 h2 ht =>
    exact hset _ (activate_self hn ha) (PB.le_refl' _) (hact (activate_stateOnly ha))
  | deleteView j name a ns hn ha h1 =>
    exact hset _ (activate_self hn ha) (PB.le_refl' _) (hact (activate_stateOnly ha))
  | addPublic => exact ⟨n, hn, PB.le_refl' _⟩
  | partition j src b' col splits a adj t ns hn hk hid hadj ht ha hs =>
    obtain ⟨hv, _, hk'⟩ := hbk.valid j a hn
    have hav := processRequested_valid hr hv (convertBudget_valid hop) hadj
    obtain ⟨_, _, _, hle, _⟩ := spend_books (ev := (.split adj [] : Event M)) rfl hv hk' hav hs
      (hbk.finite j a hn) (hbk.infinite j a hn)
    obtain ⟨n', h1, h2⟩ := hset (a' := { a with
              state := .waitChildren
              remaining := spend a.remaining adj
              log := a.log ++ [.split adj ((List.range splits.length).map (· + w.nodes.length))] })
        (activate_self hn ha) hle (hact (activate_stateOnly ha))
    exact ⟨n', by rw [List.getElem?_append_left (List.getElem?_eq_some_iff.mp h1).1]; exact h1, h2⟩
  | stop j a hn => exact hact' (retire_stateOnly _ _)

/-! ## C05 -/

/-- A step keeps the ghost total of every session. -/
theorem step_total {env : Env Q M T D V} {w w' : World M T D} {op : Op Q D V}
    {res : Except Err (Out M)} (hst : Step env w op res w') (i : Nat) (n : Node M T)
    (hn : w.nodes[i]? = some n) :
    ∃ n' : Node M T, w'.nodes[i]? = some n' ∧ n'.total = n.total ∧
      (op.target ≠ i → n'.remaining = n.remaining ∧ n'.tables = n.tables ∧ n'.log = n.log) := by
  have hact : ∀ {ns : List (Node M T)}, StateOnly w.nodes ns →
      ∃ n' : Node M T, ns[i]? = some n' ∧ n'.total = n.total ∧ n'.remaining = n.remaining ∧
        n'.tables = n.tables ∧ n'.log = n.log := by
    intro ns h
    obtain ⟨s, hs⟩ := h.get hn
    exact ⟨_, hs, rfl, rfl, rfl, rfl⟩
  have hset : ∀ {ns : List (Node M T)} {j : Nat} {a : Node M T} (a' : Node M T),
      ns[j]? = some a → a'.total = a.total → StateOnly w.nodes ns →
      ∃ n' : Node M T, (ns.set j a')[i]? = some n' ∧ n'.total = n.total ∧
        (j ≠ i → n'.remaining = n.remaining ∧ n'.tables = n.tables ∧ n'.log = n.log) := by
    rintro ns j a a' ha haa hso
    obtain ⟨n', hn', hl, hl'⟩ := hact hso
    rw [get_set ha]
    by_cases hi : j = i
    · subst hi
      rw [ha] at hn'
      cases hn'
      exact ⟨a', by simp, by rw [← hl]; exact haa, fun h => absurd rfl h⟩
    · exact ⟨n', by rw [if_neg hi]; exact hn', hl, fun _ => hl'⟩
  cases hst with
  | reject _ e => exact ⟨n, hn, rfl, fun _ => ⟨rfl, rfl, rfl⟩⟩
  | late _ e ns h =>
    obtain ⟨n', h1, h2, h3⟩ := hact (activate_stateOnly h)
    exact ⟨n', h1, h2, fun _ => h3⟩
  | evaluate j q b a m adj ns hn hc ha hp hs =>
    exact hset _ (activate_self hn ha) rfl (activate_stateOnly ha)
  | createView j q name a t ns hn hi ha h1 h2 ht =>
    exact hset _ (activate_self hn ha) rfl (activate_stateOnly ha)
  | deleteView j name a ns hn ha h1 =>
    exact hset _ (activate_self hn ha) rfl (activate_stateOnly ha)
  | addPublic => exact ⟨n, hn, rfl, fun _ => ⟨rfl, rfl, rfl⟩⟩
  | partition j src b' col splits a adj t ns hn hk hid hadj ht ha hs =>
    obtain ⟨n', h1, h2, h3⟩ := hset (a' := { a with
              state := .waitChildren
              remaining := spend a.remaining adj
              log := a.log ++ [.split adj ((List.range splits.length).map (· + w.nodes.length))] })
        (activate_self hn ha) rfl (activate_stateOnly ha)
    exact ⟨n', by rw [List.getElem?_append_left (List.getElem?_eq_some_iff.mp h1).1]; exact h1, h2, h3⟩
  | stop j a hn =>
    obtain ⟨n', h1, h2, h3⟩ := hact (retire_stateOnly _ _)
    exact ⟨n', h1, h2, fun _ => h3⟩

/-- **C05.** A session created with an infinite budget reports an infinite budget after any history, and
no call on it is ever refused for lack of budget. -/
theorem C05_infinite {env : Env Q M T D V} (hr : env.rounding.Lawful) (he : env.NoBudgetErrors)
    {b : PB} (hb : b.Valid) (hinf : b.isInfinite = true) (tables : List (String × T))
    (ops : List (Op Q D V)) (hops : ∀ op ∈ ops, op.BudgetValid) :
    let w : World M T D := run env (init b tables) ops
    (∃ n, w.nodes[0]? = some n ∧ n.remaining.isInfinite = true ∧ PB.SameKind b n.remaining) ∧
    (∀ op : Op Q D V, op.target = 0 → ∀ x : Err, x.LacksBudget → (step env w op).1 ≠ .error x) := by
  intro w
  have hbk : Books w := books_run hr hb tables ops hops
  obtain ⟨n, hn, ht⟩ := root_total (env := env) (D := D) (M := M) b tables ops
  have hn : w.nodes[0]? = some n := hn
  have hi : (initialBudget b).isInfinite = true ∧ PB.SameKind b (initialBudget b) := by
    cases b with
    | approx ε δ => simp only [initialBudget, hinf, if_true]; exact ⟨rfl, trivial⟩
    | pure ε => exact ⟨hinf, trivial⟩
    | zcdp ρ => exact ⟨hinf, trivial⟩
  have hrem : n.remaining = initialBudget b := by
    rw [hbk.infinite 0 n hn (by rw [ht]; exact hi.1), ht]
  have hri : n.remaining.isInfinite = true := by rw [hrem]; exact hi.1
  refine ⟨⟨n, hn, hri, by rw [hrem]; exact hi.2⟩, ?_⟩
  have hact_err : ∀ e, activate w.nodes 0 = .error e → ∀ x : Err, x.LacksBudget → e ≠ x := by
    intro e ha
    unfold activate at ha
    rw [hn] at ha
    simp only at ha
    split at ha
    · simp at ha
    · split at ha
      · simp only [Except.error.injEq] at ha; subst ha; rintro x (rfl | rfl) <;> simp
      · simp at ha
  intro op hop x hx
  have hl : x.LacksBudget := hx
  rcases hx with rfl | rfl
  all_goals
    cases op with
    | evaluate i q b =>
      simp only [Op.target] at hop
      subst hop
      simp only [step, evaluate, hn]
      cases hc : compileInfo env w n q b with
      | error e =>
        simp only [ne_eq, Except.error.injEq]
        rintro rfl
        unfold compileInfo at hc
        simp only at hc
        split at hc
        · simp at hc
        · rename_i hk
          split at hc
          · simp at hc
          · have hsk : PB.SameKind n.remaining (convertBudget n.remaining b) :=
              (kindMatches_iff _ _).mp (by simpa using hk)
            obtain ⟨adj, hadj, _⟩ := processRequested_ok env.rounding n.remaining _ hsk
            rw [hadj] at hc
            simp only at hc
            split at hc
            · rename_i e he'
              simp only [Except.error.injEq] at hc
              subst hc
              exact he.compile _ _ _ _ _ hl he'
            · simp at hc
      | ok p =>
        obtain ⟨m, adj⟩ := p
        obtain ⟨hsk, _, hadj, _⟩ := compileInfo_ok hc
        obtain ⟨adj', h1, h2⟩ := processRequested_ok env.rounding n.remaining _ hsk
        rw [hadj] at h1
        cases h1
        simp only
        split
        · rename_i e ha
          simpa using hact_err e ha _ hl
        · rename_i ns ha
          simp only [canSpend_infinite h2 hri, activate_self hn ha]
          split <;> simp
    | createView i q name =>
      simp only [Op.target] at hop
      subst hop
      simp only [step, createView, hn]
      split
      · simp
      · split
        · rename_i e ha; simpa using hact_err e ha _ hl
        · rename_i ns ha
          simp only [activate_self hn ha]
          split
          · simp
          · split
            · rename_i e he'
              simp only [ne_eq, Except.error.injEq]
              rintro rfl
              exact he.transform _ _ _ _ hl he'
            · simp
    | deleteView i name =>
      simp only [Op.target] at hop
      subst hop
      simp only [step, deleteView, hn]
      split
      · rename_i e ha; simpa using hact_err e ha _ hl
      · rename_i ns ha
        simp only [activate_self hn ha]
        split <;> simp
    | addPublic i name df =>
      simp only [Op.target] at hop
      subst hop
      simp only [step, addPublic, hn]
      split
      · simp
      · split
        · simp
        · split
          · rename_i e he'
            simp only [ne_eq, Except.error.injEq]
            rintro rfl
            exact he.coerce _ _ hl he'
          · simp
    | partition i src b col splits =>
      simp only [Op.target] at hop
      subst hop
      simp only [step, partition, hn]
      split
      · simp
      · rename_i hk
        split
        · simp
        · have hsk : PB.SameKind n.remaining (convertBudget n.remaining b) :=
            (kindMatches_iff _ _).mp (by simpa using hk)
          obtain ⟨adj, hadj, h2⟩ := processRequested_ok env.rounding n.remaining _ hsk
          rw [hadj]
          simp only
          split
          · rename_i e he'
            simp only [ne_eq, Except.error.injEq]
            rintro rfl
            exact he.partition _ _ _ _ _ _ hl he'
          · split
            · rename_i e ha; simpa using hact_err e ha _ hl
            · rename_i ns ha
              simp only [canSpend_infinite h2 hri, activate_self hn ha]
              simp
    | stop i =>
      simp only [Op.target] at hop
      subst hop
      simp only [step, stop, hn]
      simp

/-! ## C07 -/

/-- **C07**, the charge. A successful partition into any number of parts takes one amount `amt` from the
parent (nothing if its budget is infinite), and every part is a new session with total and remaining
budget `amt`; `amt` is the request unless the request was above the remaining budget within
tolerance. -/
theorem C07_charged_once {env : Env Q M T D V} (hr : env.rounding.Lawful) {b₀ : PB} (hb₀ : b₀.Valid)
    (tables : List (String × T)) (ops : List (Op Q D V)) (hops : ∀ o ∈ ops, o.BudgetValid)
    (i : Nat) (src : String) (b : PB) (col : String) (splits : List (String × V)) (hbv : b.Valid)
    (ids : List (String × Nat))
    (hok : (step env (run env (init b₀ tables : World M T D) ops) (.partition i src b col splits)).1 =
      .ok (.sessions ids)) :
    let w := run env (init b₀ tables : World M T D) ops
    let w' := (step env w (.partition i src b col splits)).2
    ∃ amt n n', w.nodes[i]? = some n ∧ w'.nodes[i]? = some n' ∧
      PBRel (fun c req => c = req ∨ WithinTolerance req c) amt
        (if (convertBudget n.remaining b).isInfinite then amt else convertBudget n.remaining b) ∧
      (n.remaining.isInfinite = false → vec n'.remaining + vec amt = vec n.remaining) ∧
      (n.remaining.isInfinite = true → n'.remaining = n.remaining) ∧
      ids.map Prod.fst = splits.map Prod.fst ∧
      w'.nodes.length = w.nodes.length + splits.length ∧
      ∀ k < splits.length, ∃ name c, ids[k]? = some (name, w.nodes.length + k) ∧
        w'.nodes[w.nodes.length + k]? = some c ∧ c.total = amt ∧ c.remaining = amt ∧
        c.parent = some i ∧ names c.tables = [name] := by
  intro w w'
  have hbk : Books w := books_run hr hb₀ tables ops hops
  have hst : Step env w (.partition i src b col splits)
      (step env w (.partition i src b col splits)).1 w' := step_cases env w _
  have hok : (step env w (.partition i src b col splits)).1 = .ok (.sessions ids) := hok
  rw [hok] at hst
  generalize w' = w'' at hst
  generalize w = w at hst hbk
  cases hst with
  | partition i src b col splits n adj t ns hn hk hid hadj ht ha hs =>
    have hn' := activate_self hn ha
    have hlen : ns.length = w.nodes.length := (activate_stateOnly ha).length
    obtain ⟨hv, _, hkk⟩ := hbk.valid i n hn
    have hav := processRequested_valid hr hv (convertBudget_valid hbv) hadj
    refine ⟨adj, n, { n with
              state := .waitChildren
              remaining := spend n.remaining adj
              log := n.log ++ [.split adj ((List.range splits.length).map (· + w.nodes.length))] },
      hn, ?_, ?_, ?_, ?_, ?_, ?_, ?_⟩
    · simp only
      rw [List.getElem?_append_left, get_set hn', if_pos rfl]
      rw [List.length_set]
      exact (List.getElem?_eq_some_iff.mp hn').1
    · -- the amount is at most the request
      have lt_or : ∀ x y : XNum, adjustNumber x y = x ∨ WithinTolerance x (adjustNumber x y) := by
        intro x y
        rcases adjustNumber_cases x y with e | ⟨e, h⟩
        · exact Or.inl e
        · rw [e]; exact Or.inr h
      have self : ∀ p : PB, PBRel (fun c req => c = req ∨ WithinTolerance req c) p p := by
        intro p; cases p <;> simp [PBRel]
      split
      · exact self _
      · rename_i hni
        generalize convertBudget n.remaining b = rq at hadj hni
        cases hrem : n.remaining <;> cases rq <;> rw [hrem] at hadj <;>
          simp only [processRequested, adjustBudget] at hadj
        all_goals try (cases hadj; done)
        · cases hadj; exact lt_or _ _
        · rw [if_neg hni] at hadj; cases hadj
        · rw [if_neg hni] at hadj; cases hadj; exact ⟨lt_or _ _, lt_or _ _⟩
        · rw [if_neg hni] at hadj; cases hadj
        · cases hadj; exact lt_or _ _
    · intro hf
      exact (spend_finite hv hav hf hs).1
    · intro hf
      exact spend_infinite _ hf
    · rw [List.map_fst_zip]
      · rfl
      · simp [names]
    · simp [mkChildren_length, names, hlen]
    · intro k hk
      have hk' : k < (mkChildren i { n with state := .active } adj t true (names splits)).length := by
        rw [mkChildren_length]; simpa [names] using hk
      have hknames : k < (names splits).length := by simpa [names] using hk
      refine ⟨(names splits)[k], (mkChildren i { n with state := .active } adj t true (names splits))[k],
        ?_, ?_, ?_⟩
      · rw [List.getElem?_zip_eq_some]
        refine ⟨List.getElem?_eq_getElem hknames, ?_⟩
        simp [hk, Nat.add_comm]
      · simp only
        rw [List.getElem?_append_right (by rw [List.length_set]; omega), List.length_set, hlen,
          Nat.add_sub_cancel_left, List.getElem?_eq_getElem hk']
      · obtain ⟨s, hs', hcc⟩ := mkChildren_get _ _ _ _ _ _ _ _ (List.getElem?_eq_getElem hk')
        rw [List.getElem?_eq_getElem hknames] at hs'
        cases hs'
        rw [hcc]
        exact ⟨rfl, rfl, rfl, rfl⟩

/-- **C07**, isolation. Whatever is called on *other* sessions (in particular on the parts made by a
partition and on their descendants) does not change what a session reports as remaining. -/
theorem C07_isolated {env : Env Q M T D V} (w : World M T D) (i : Nat) (n : Node M T)
    (hn : w.nodes[i]? = some n) (ops : List (Op Q D V)) (hops : ∀ op ∈ ops, op.target ≠ i) :
    ∃ n' : Node M T, (run env w ops).nodes[i]? = some n' ∧ n'.remaining = n.remaining := by
  apply run_induction_of (env := env)
    (P := fun w : World M T D => ∃ n' : Node M T, w.nodes[i]? = some n' ∧ n'.remaining = n.remaining)
    (C := fun op => op.target ≠ i) _ ops w hops ⟨n, hn, rfl⟩
  rintro w op res w' hop ⟨n', hn', hr'⟩ hst
  obtain ⟨n'', h1, _, h3⟩ := step_total hst i n' hn'
  exact ⟨n'', h1, by rw [(h3 hop).1, hr']⟩

/-! ## C11 -/

/-- A budget that is zero in every component. -/
def PB.IsZero : PB → Prop
  | .pure ε => ε = 0
  | .approx ε δ => ε = 0 ∧ δ = 0
  | .zcdp ρ => ρ = 0

/-- **C11.** An answer is only given for a budget of the session's kind, or a pure budget in an
approximate session (then delta is 0); neither the requested budget nor the one that is used is zero. -/
theorem C11_gatekeeping {env : Env Q M T D V} (w : World M T D) (i : Nat) (q : Q) (b : PB) (m : M)
    (amt : PB) (hbv : b.Valid) (h : (evaluate env w i q b).1 = .ok (.answer m amt)) :
    ∃ n, w.nodes[i]? = some n ∧
      (PB.SameKind n.remaining b ∨
        ∃ ε, b = .pure ε ∧ (∃ x y, n.remaining = .approx x y) ∧
          (ε ≠ ⊤ → ∃ ε', amt = .approx ε' 0)) ∧
      ¬ PB.IsZero b ∧ ¬ PB.IsZero amt ∧ PB.SameKind n.remaining amt := by
  have hst := step_cases env w (.evaluate i q b)
  replace h : (step env w (.evaluate i q b)).1 = .ok (.answer m amt) := h
  rw [h] at hst
  clear h
  generalize (step env w (.evaluate i q b)).2 = w' at hst
  cases hst with
  | evaluate i q b n m adj ns hn hc ha hp hs =>
    obtain ⟨hsk, hz, hadj, _⟩ := compileInfo_ok hc
    refine ⟨n, hn, ?_⟩
    -- nonzero components stay nonzero
    have nz : ∀ (x y : XNum), x ≠ 0 → adjustNumber x y ≠ 0 := by
      intro x y hx
      rcases adjustNumber_cases x y with e | ⟨e, p, q, rfl, rfl, h1, h2⟩
      · rw [e]; exact hx
      · rw [e]
        intro h0
        have hq : q = 0 := WithTop.coe_injective h0
        rw [hq] at h1 h2
        simp at h2
        linarith
    have z1 : ∀ y : XNum, adjustNumber 0 y = 0 := by
      intro y
      rcases adjustNumber_cases 0 y with e | ⟨_, p, q, hp, rfl, h1, h2⟩
      · exact e
      · exfalso
        have hp0 : p = 0 := by
          have : ((0 : ℚ) : XNum) = (p : XNum) := hp
          exact (WithTop.coe_injective this).symm
        rw [hp0] at h1 h2
        have : q / 10 ^ 9 < 0 := by apply div_neg_of_neg_of_pos h1; positivity
        linarith
    have top1 : ((1 : ℚ) : XNum) ≠ 0 := by
      intro h
      have : (1 : ℚ) = 0 := WithTop.coe_injective h
      exact one_ne_zero this
    cases hrem : n.remaining <;> cases b <;> rw [hrem] at hsk hadj hz <;>
      simp only [convertBudget, PB.SameKind] at hsk hadj hz
    · -- pure / pure
      simp only [processRequested, adjustBudget, Except.ok.injEq] at hadj
      subst hadj
      simp only [isZeroBudget, PB.pyEq, Bool.or_false, decide_eq_false_iff_not] at hz
      exact ⟨Or.inl trivial, hz, nz _ _ hz, trivial⟩
    · -- approximate session, pure budget
      rename_i x y ε
      have hz' : ε ≠ 0 := by
        intro h0
        subst h0
        simp [isZeroBudget, PB.pyEq] at hz
      simp only [processRequested] at hadj
      split at hadj
      · rename_i hinf
        cases hadj
        refine ⟨Or.inr ⟨ε, rfl, ⟨x, y, rfl⟩, ?_⟩, hz', fun h => top1 h.2, trivial⟩
        intro hne
        simp [PB.isInfinite, hne] at hinf
      · simp only [adjustBudget, Except.ok.injEq] at hadj
        subst hadj
        refine ⟨Or.inr ⟨ε, rfl, ⟨x, y, rfl⟩, ?_⟩, hz', fun h => nz _ _ hz' h.1, trivial⟩
        intro _
        refine ⟨adjustNumber ε (downX env.rounding x), ?_⟩
        congr 1
        exact z1 _
    · -- approximate session, approximate budget
      rename_i x y ε δ
      have hz' : ¬ (ε = 0 ∧ δ = 0) := by
        rintro ⟨rfl, rfl⟩
        simp [isZeroBudget, PB.pyEq] at hz
      simp only [processRequested] at hadj
      split at hadj
      · cases hadj
        exact ⟨Or.inl trivial, hz', fun h => top1 h.2, trivial⟩
      · simp only [adjustBudget, Except.ok.injEq] at hadj
        subst hadj
        refine ⟨Or.inl trivial, hz', ?_, trivial⟩
        rintro ⟨h1, h2⟩
        apply hz'
        constructor
        · by_contra h; exact nz _ _ h h1
        · by_contra h; exact nz _ _ h h2
    · -- zCDP
      simp only [processRequested, adjustBudget, Except.ok.injEq] at hadj
      subst hadj
      simp only [isZeroBudget, PB.pyEq, Bool.false_or, Bool.or_false, decide_eq_false_iff_not] at hz
      exact ⟨Or.inl trivial, hz, nz _ _ hz, trivial⟩

end Verif.Session
