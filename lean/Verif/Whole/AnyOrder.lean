import Verif.Whole.Renamed

/-!
# Queries that can all be paid for may be asked in any order (C94)
-/

namespace Verif.Whole

open Verif Verif.Schema Verif.Constraint Verif.Expr Verif.Query Verif.Stability
open Verif.Budget (XNum PB Rounding)
open Verif.Session (World Op)
open scoped NNReal

/-! ## Specification -/

/-- The numbers of a finite budget; the second one is delta. -/
inductive Amounts : PB → ℚ → ℚ → Prop
  | pure (e : ℚ) : Amounts (.pure (e : XNum)) e 0
  | zcdp (e : ℚ) : Amounts (.zcdp (e : XNum)) e 0
  | approx (e d : ℚ) (h : d < 1) : Amounts (.approx (e : XNum) (d : XNum)) e d

/-- Budget `b` is of a kind that a session with budget `rem` accepts, and has the numbers `c`, which are floats that are not
negative. -/
structure Costs (r : Rounding) (rem b : PB) (c : ℚ × ℚ) : Prop where
  amounts : Amounts (Session.convertBudget rem b) c.1 c.2
  kind : Session.kindMatches rem (Session.convertBudget rem b) = true
  nonneg : 0 ≤ c.1 ∧ 0 ≤ c.2
  floats : r.down c.1 = c.1 ∧ r.down c.2 = c.2

/-! ## Proofs: budgets -/

theorem adjustNumber_enough {r : Rounding} (hr : r.Lawful) {e R : ℚ} (he : r.down e = e) (h : e ≤ R) :
    Budget.adjustNumber (e : XNum) (Session.downX r (R : XNum)) = e := by
  have : e ≤ r.down R := he ▸ hr.down_mono e R h
  show (if Budget.slightlyHigher (some e) (some (r.down R)) then _ else _) = _
  have hs : Budget.slightlyHigher (some e) (some (r.down R)) = false := by
    simp [Budget.slightlyHigher, sub_nonneg.2 this]
  rw [hs]
  rfl

/-- A budget that does not exceed what is left is not adjusted, can be spent, and is subtracted. -/
theorem enough {r : Rounding} (hr : r.Lawful) {rem c : PB} {R D e d : ℚ} (ha : Amounts rem R D) (hc : Amounts c e d)
    (hk : Session.kindMatches rem c = true) (hd0 : 0 ≤ d) (hfe : r.down e = e) (hfd : r.down d = d) (he : e ≤ R) (hd : d ≤ D) :
    Session.processRequested r rem c = .ok c ∧ Session.canSpend rem c = true ∧ Amounts (Session.spend rem c) (R - e) (D - d) ∧
      (∀ b, Session.convertBudget (Session.spend rem c) b = Session.convertBudget rem b) ∧
      ∀ b, Session.kindMatches (Session.spend rem c) b = Session.kindMatches rem b := by
  cases ha with
  | pure =>
    cases hc <;> first | (cases hk; done) | skip
    have hs : Session.spend (.pure (R : XNum)) (.pure (e : XNum)) = .pure ((R - e : ℚ) : XNum) := by
      simp only [Session.spend, Budget.PB.isInfinite, WithTop.coe_ne_top, decide_false]
      rfl
    rw [hs]
    refine ⟨?_, by simp [Session.canSpend, he], by rw [sub_zero]; exact .pure _, fun b => by cases b <;> rfl,
      fun b => by cases b <;> rfl⟩
    simp only [Session.processRequested, Budget.adjustBudget, adjustNumber_enough hr hfe he]
  | zcdp =>
    cases hc <;> first | (cases hk; done) | skip
    have hs : Session.spend (.zcdp (R : XNum)) (.zcdp (e : XNum)) = .zcdp ((R - e : ℚ) : XNum) := by
      simp only [Session.spend, Budget.PB.isInfinite, WithTop.coe_ne_top, decide_false]
      rfl
    rw [hs]
    refine ⟨?_, by simp [Session.canSpend, he], by rw [sub_zero]; exact .zcdp _, fun b => by cases b <;> rfl,
      fun b => by cases b <;> rfl⟩
    simp only [Session.processRequested, Budget.adjustBudget, adjustNumber_enough hr hfe he]
  | approx _ _ hD =>
    cases hc <;> first | (cases hk; done) | skip
    rename_i hd1
    have hiD : (PB.approx (R : XNum) (D : XNum)).isInfinite = false := by
      have : (D : XNum) ≠ ((1 : ℚ) : XNum) := fun h => hD.ne (WithTop.coe_injective h)
      simp only [Budget.PB.isInfinite, WithTop.coe_ne_top, decide_false, Bool.false_or, decide_eq_false_iff_not]
      exact this
    have hid : (PB.approx (e : XNum) (d : XNum)).isInfinite = false := by
      have : (d : XNum) ≠ ((1 : ℚ) : XNum) := fun h => hd1.ne (WithTop.coe_injective h)
      simp only [Budget.PB.isInfinite, WithTop.coe_ne_top, decide_false, Bool.false_or, decide_eq_false_iff_not]
      exact this
    have hs : Session.spend (.approx (R : XNum) (D : XNum)) (.approx (e : XNum) (d : XNum)) =
        .approx ((R - e : ℚ) : XNum) ((D - d : ℚ) : XNum) := by
      simp only [Session.spend, hiD]
      rfl
    rw [hs]
    refine ⟨?_, by simp [Session.canSpend, he, hd], .approx _ _ (by linarith), fun b => by cases b <;> rfl,
      fun b => by cases b <;> rfl⟩
    simp only [Session.processRequested, hid, Budget.adjustBudget, adjustNumber_enough hr hfe he, adjustNumber_enough hr hfd hd]
    rfl

/-! ## Proofs: queries -/

/-- What `evaluate` gives if there is enough budget. -/
noncomputable def paid (ctx : Ctx) (tables : List (String × Tab)) (pub : List (String × PubFrame)) (retired : Bool) (a : Ask)
    (c : PB) : Except Session.Err (Session.Out Meas) :=
  if Session.isZeroBudget c then .error .valueError
  else
    match (env ctx).compile tables pub (.query a.q a.hq) c with
    | .error e => .error e
    | .ok m => if retired then .error .inactive else if !(env ctx).privRel m c then .error .internal else .ok (.answer m c)

theorem evaluate_paid {ctx : Ctx} {w : World Meas Tab PubFrame} {i : Nat} {n : Session.Node Meas Tab}
    (hn : w.nodes[i]? = some n) (a : Ask) {c : PB} (hcc : Session.convertBudget n.remaining a.b = c)
    (hk : Session.kindMatches n.remaining c = true)
    (hp : Session.processRequested (env ctx).rounding n.remaining c = .ok c) (hs : Session.canSpend n.remaining c = true) :
    (Session.step (env ctx) w (.evaluate i (.query a.q a.hq) a.b)).1 =
      paid ctx n.tables (w.pubOf n) (decide (n.state = .retired)) a c ∧
    ∃ m, (Session.step (env ctx) w (.evaluate i (.query a.q a.hq) a.b)).2.nodes[i]? = some m ∧ m.tables = n.tables ∧
      (Session.step (env ctx) w (.evaluate i (.query a.q a.hq) a.b)).2.pubOf m = w.pubOf n ∧
      (m.state = .retired ↔ n.state = .retired) ∧
      (m.remaining = n.remaining ∨ m.remaining = Session.spend n.remaining c) := by
  dsimp only [Session.step, Session.evaluate, paid]
  rw [hn]
  dsimp only [Session.compileInfo]
  rw [hcc, hk, hp]
  simp only [Bool.not_true, Bool.false_eq_true, if_false]
  by_cases hz : Session.isZeroBudget c = true
  · rw [if_pos hz, if_pos hz]
    exact ⟨rfl, n, hn, rfl, rfl, Iff.rfl, .inl rfl⟩
  rw [if_neg hz, if_neg hz]
  cases (env ctx).compile n.tables (w.pubOf n) (.query a.q a.hq) c with
  | error e => exact ⟨rfl, n, hn, rfl, rfl, Iff.rfl, .inl rfl⟩
  | ok m =>
    dsimp only
    by_cases hr : n.state = .retired
    · rw [activate_retired hn hr, if_pos (by simpa using hr)]
      exact ⟨rfl, n, hn, rfl, rfl, Iff.rfl, .inl rfl⟩
    rw [if_neg (by simpa using hr)]
    obtain ⟨ns, ha⟩ := Session.activate_ok hn hr
    have hself := Session.activate_self hn ha
    have hlen : i < ns.length := (List.getElem?_eq_some_iff.1 hself).1
    rw [ha]
    dsimp only
    by_cases h1 : (!(env ctx).privRel m c) = true
    · rw [if_pos h1, if_pos h1]
      exact ⟨rfl, _, hself, rfl, rfl, by simp [hr], .inl rfl⟩
    rw [if_neg h1, if_neg h1, hs, if_neg (by simp), hself]
    exact ⟨rfl, _, List.getElem?_set_self hlen, rfl, rfl, by simp [hr], .inr rfl⟩

/-- **C94**: if the budgets of queries do not exceed together what is left in the session, each of them has the outcome that it
has when it is asked first. -/
theorem C94_each_first (ctx : Ctx) (hr : (env ctx).rounding.Lawful) (w : World Meas Tab PubFrame) (i : Nat)
    (n : Session.Node Meas Tab) (hn : w.nodes[i]? = some n) (R D : ℚ) (ha : Amounts n.remaining R D) (l : List Ask)
    (cs : List (ℚ × ℚ)) (hl : List.Forall₂ (fun a c => Costs (env ctx).rounding n.remaining a.b c) l cs)
    (hR : (cs.map Prod.fst).sum ≤ R) (hD : (cs.map Prod.snd).sum ≤ D) :
    outcomes ctx w (asks i l) = l.map (fun a => (Session.step (env ctx) w (.evaluate i (.query a.q a.hq) a.b)).1) := by
  -- `w'` is the world after some of the queries.
  have nn : ∀ {l : List Ask} {cs : List (ℚ × ℚ)}, List.Forall₂ (fun a c => Costs (env ctx).rounding n.remaining a.b c) l cs →
      0 ≤ (cs.map Prod.fst).sum ∧ 0 ≤ (cs.map Prod.snd).sum := by
    intro l cs h
    induction h with
    | nil => exact ⟨le_refl _, le_refl _⟩
    | cons hc _ ih =>
      simp only [List.map_cons, List.sum_cons]
      exact ⟨add_nonneg hc.nonneg.1 ih.1, add_nonneg hc.nonneg.2 ih.2⟩
  suffices main : ∀ (w' : World Meas Tab PubFrame) (n' : Session.Node Meas Tab) (R' D' : ℚ), w'.nodes[i]? = some n' →
      n'.tables = n.tables → w'.pubOf n' = w.pubOf n → (n'.state = .retired ↔ n.state = .retired) →
      Amounts n'.remaining R' D' → (∀ b, Session.convertBudget n'.remaining b = Session.convertBudget n.remaining b) →
      (∀ b, Session.kindMatches n'.remaining b = Session.kindMatches n.remaining b) →
      (cs.map Prod.fst).sum ≤ R' → (cs.map Prod.snd).sum ≤ D' →
      outcomes ctx w' (asks i l) = l.map (fun a => (Session.step (env ctx) w (.evaluate i (.query a.q a.hq) a.b)).1) from
    main w n R D hn rfl rfl Iff.rfl ha (fun _ => rfl) (fun _ => rfl) hR hD
  induction hl with
  | nil => intros; rfl
  | @cons a c l cs hc hcs ih =>
    intro w' n' R' D' hn' ht hpub hret ha' hconv hkind hR' hD'
    simp only [List.map_cons, List.sum_cons] at hR hD hR' hD'
    obtain ⟨p1, p2⟩ := nn hcs
    obtain ⟨c1, c2⟩ := hc.nonneg
    have hk' : Session.kindMatches n'.remaining (Session.convertBudget n.remaining a.b) = true := by
      rw [hkind]
      exact hc.kind
    obtain ⟨e1, e2, _⟩ := enough hr ha hc.amounts hc.kind c2 hc.floats.1 hc.floats.2 (by linarith) (by linarith)
    obtain ⟨f1, f2, f3, f4, f5⟩ := enough hr ha' hc.amounts hk' c2 hc.floats.1 hc.floats.2 (by linarith) (by linarith)
    obtain ⟨g1, _⟩ := evaluate_paid (ctx := ctx) hn a rfl hc.kind e1 e2
    obtain ⟨k1, m, m1, m2, m3, m4, m5⟩ := evaluate_paid (ctx := ctx) hn' a (hconv a.b) hk' f1 f2
    have hd : decide (n'.state = .retired) = decide (n.state = .retired) := by
      rw [decide_eq_decide]
      exact hret
    refine congrArg₂ List.cons (by rw [k1, ht, hpub, hd, ← g1]) ?_
    rcases m5 with e | e
    · exact ih (by linarith) (by linarith) _ m R' D' m1 (m2.trans ht) (m3.trans hpub) (m4.trans hret) (by rw [e]; exact ha')
        (by rw [e]; exact hconv) (by rw [e]; exact hkind) (by linarith) (by linarith)
    · exact ih (by linarith) (by linarith) _ m (R' - c.1) (D' - c.2) m1 (m2.trans ht) (m3.trans hpub) (m4.trans hret)
        (by rw [e]; exact f3) (by rw [e]; exact fun b => (f4 b).trans (hconv b)) (by rw [e]; exact fun b => (f5 b).trans (hkind b))
        (by linarith) (by linarith)

/-- **C94**: such queries may be asked in any order. -/
theorem C94_any_order (ctx : Ctx) (hr : (env ctx).rounding.Lawful) (w : World Meas Tab PubFrame) (i : Nat)
    (n : Session.Node Meas Tab) (hn : w.nodes[i]? = some n) (R D : ℚ) (ha : Amounts n.remaining R D) (l l' : List Ask)
    (cs : List (ℚ × ℚ)) (hl : List.Forall₂ (fun a c => Costs (env ctx).rounding n.remaining a.b c) l cs)
    (hR : (cs.map Prod.fst).sum ≤ R) (hD : (cs.map Prod.snd).sum ≤ D) (hp : l.Perm l') :
    (l.zip (outcomes ctx w (asks i l))).Perm (l'.zip (outcomes ctx w (asks i l'))) := by
  obtain ⟨cs', hl', hp'⟩ : ∃ cs', List.Forall₂ (fun a c => Costs (env ctx).rounding n.remaining a.b c) l' cs' ∧ cs.Perm cs' := by
    clear hR hD
    induction hp generalizing cs with
    | nil => exact ⟨cs, hl, List.Perm.refl _⟩
    | cons a hp ih =>
      cases hl with
      | cons h1 h2 =>
        obtain ⟨cs', h3, h4⟩ := ih _ h2
        exact ⟨_, .cons h1 h3, h4.cons _⟩
    | swap a c l =>
      cases hl with
      | cons h1 h2 =>
        cases h2 with
        | cons h3 h4 => exact ⟨_, .cons h3 (.cons h1 h4), List.Perm.swap _ _ _⟩
    | trans p1 p2 ih1 ih2 =>
      obtain ⟨c1, h1, h2⟩ := ih1 _ hl
      obtain ⟨c2, h3, h4⟩ := ih2 _ h1
      exact ⟨c2, h3, h2.trans h4⟩
  have hR' : (cs'.map Prod.fst).sum ≤ R := (hp'.map Prod.fst).sum_eq ▸ hR
  have hD' : (cs'.map Prod.snd).sum ≤ D := (hp'.map Prod.snd).sum_eq ▸ hD
  rw [C94_each_first ctx hr w i n hn R D ha l cs hl hR hD, C94_each_first ctx hr w i n hn R D ha l' cs' hl' hR' hD',
    List.zip_map_right, List.zip_map_right]
  have self : ∀ l : List Ask, l.zip l = l.map (fun a => (a, a)) := fun l => by
    induction l with
    | nil => rfl
    | cons a l ih => rw [List.zip_cons_cons, List.map_cons, ih]
  rw [self, self, List.map_map, List.map_map]
  exact hp.map _

/-! ## Infinite budgets -/

theorem spend_infinite {rem c : PB} (h : rem.isInfinite = true) : Session.spend rem c = rem := by
  cases rem <;> cases c <;> simp only [Session.spend, h, if_true]

/-- In a session with an infinite budget a query changes nothing that another one depends on. -/
theorem evaluate_infinite {ctx : Ctx} {w : World Meas Tab PubFrame} {i : Nat} {n : Session.Node Meas Tab}
    (hn : w.nodes[i]? = some n) (hi : n.remaining.isInfinite = true) (q : Request) (b : PB) :
    ∃ m, (Session.evaluate (env ctx) w i q b).2.nodes[i]? = some m ∧ m.tables = n.tables ∧ m.remaining = n.remaining ∧
      (Session.evaluate (env ctx) w i q b).2.pubOf m = w.pubOf n ∧ (m.state = .retired ↔ n.state = .retired) := by
  unfold Session.evaluate
  rw [hn]
  dsimp only
  cases Session.compileInfo (env ctx) w n q b with
  | error x => exact ⟨n, hn, rfl, rfl, rfl, Iff.rfl⟩
  | ok p =>
    obtain ⟨m, adj⟩ := p
    dsimp only
    by_cases hr : n.state = .retired
    · rw [activate_retired hn hr]
      exact ⟨n, hn, rfl, rfl, rfl, Iff.rfl⟩
    obtain ⟨ns, ha⟩ := Session.activate_ok hn hr
    have hs := Session.activate_self hn ha
    have hlen : i < ns.length := (List.getElem?_eq_some_iff.1 hs).1
    rw [ha]
    dsimp only
    split
    · exact ⟨_, hs, rfl, rfl, rfl, by simp [hr]⟩
    split
    · exact ⟨_, hs, rfl, rfl, rfl, by simp [hr]⟩
    rw [hs]
    exact ⟨_, List.getElem?_set_self hlen, rfl, spend_infinite hi, rfl, by simp [hr]⟩

/-- **C94**: with an infinite budget each of any queries has the outcome that it has when it is asked first. -/
theorem C94_infinite (ctx : Ctx) (w : World Meas Tab PubFrame) (i : Nat) (n : Session.Node Meas Tab) (hn : w.nodes[i]? = some n)
    (hi : n.remaining.isInfinite = true) (l : List Ask) :
    outcomes ctx w (asks i l) = l.map (fun a => (Session.step (env ctx) w (.evaluate i (.query a.q a.hq) a.b)).1) := by
  suffices main : ∀ (w' : World Meas Tab PubFrame) (n' : Session.Node Meas Tab), w'.nodes[i]? = some n' →
      n'.tables = n.tables → n'.remaining = n.remaining → w'.pubOf n' = w.pubOf n →
      (n'.state = .retired ↔ n.state = .retired) →
      outcomes ctx w' (asks i l) = l.map (fun a => (Session.step (env ctx) w (.evaluate i (.query a.q a.hq) a.b)).1) from
    main w n hn rfl rfl rfl Iff.rfl
  induction l with
  | nil => intros; rfl
  | cons a l ih =>
    intro w' n' hn' ht hrem hpub hret
    have hinfo : Session.compileInfo (env ctx) w' n' (.query a.q a.hq) a.b =
        Session.compileInfo (env ctx) w n (.query a.q a.hq) a.b := by
      simp only [Session.compileInfo, ht, hrem, hpub]
    have hact : (∃ e, Session.activate w.nodes i = .error e ∧ Session.activate w'.nodes i = .error e) ∨
        (n.state ≠ .retired ∧ n'.state ≠ .retired) := by
      by_cases hr : n.state = .retired
      · exact .inl ⟨_, activate_retired hn hr, activate_retired hn' (hret.2 hr)⟩
      · exact .inr ⟨hr, fun hr' => hr (hret.1 hr')⟩
    obtain ⟨m, m1, m2, m3, m4, m5⟩ := evaluate_infinite (ctx := ctx) hn' (hrem ▸ hi) (.query a.q a.hq) a.b
    exact congrArg₂ List.cons (evaluate_like hn hn' hact hrem hinfo).1
      (ih _ m m1 (m2.trans ht) (m3.trans hrem) (m4.trans hpub) (m5.trans hret))

end Verif.Whole
