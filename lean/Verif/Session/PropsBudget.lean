import Verif.Session.Spend

/-!
# Budget properties of sessions: C01, C03, C05, C06, C07, C11
-/

namespace Verif.Session

open Verif.Budget

variable {Q M T D V : Type}

/-! ## Specification vocabulary -/

/-- The budget argument of a call is a budget that the classes let a user build
(`Verif.Budget.C09_valid` shows that constructors and operators only give such values). -/
def Op.BudgetValid : Op Q D V → Prop
  | .evaluate _ _ b => b.Valid
  | .partition _ _ b _ _ => b.Valid
  | _ => True

/-- Everything released through session `i` and its descendants, as a pair (epsilon or rho, delta):
sequential composition (sum) over what the session did, parallel composition (maximum) over the parts of
one partition. `fuel` bounds the nesting depth; `loss_fuel` shows that it does not matter once it is at
least the number of sessions. -/
def loss (ns : List (Node M T)) : Nat → Nat → XNum × XNum
  | 0, _ => 0
  | f + 1, i =>
    match ns[i]? with
    | none => 0
    | some n => (n.log.map (fun ev =>
        match ev with
        | .measured _ amt => vec amt
        | .split _ cs => (cs.map (loss ns f)).foldr (· ⊔ ·) 0)).sum

/-! ## Bookkeeping invariant -/

/-- The amount an event was charged. -/
def Event.amt : Event M → PB
  | .measured _ a => a
  | .split a _ => a

/-- Invariant of the books. -/
structure Books (w : World M T D) : Prop where
  valid : ∀ (i : Nat) (n : Node M T), w.nodes[i]? = some n →
    n.remaining.Valid ∧ n.total.Valid ∧ PB.SameKind n.total n.remaining
  finite : ∀ (i : Nat) (n : Node M T), w.nodes[i]? = some n → n.total.isInfinite = false →
    n.remaining.isInfinite = false ∧
    (n.log.map (fun ev => vec ev.amt)).sum + vec n.remaining = vec n.total ∧
    ∀ ev ∈ n.log, ev.amt.isInfinite = false ∧ ev.amt.Valid
  infinite : ∀ (i : Nat) (n : Node M T), w.nodes[i]? = some n → n.total.isInfinite = true →
    n.remaining = n.total
  kids : ∀ (i : Nat) (n : Node M T), w.nodes[i]? = some n → ∀ amt cs, Event.split amt cs ∈ n.log →
    ∀ c ∈ cs, i < c ∧ ∃ m, w.nodes[c]? = some m ∧ m.total = amt ∧ m.parent = some i

theorem Books.ofStateOnly {w : World M T D} {ns : List (Node M T)} (hb : Books w)
    (h : StateOnly w.nodes ns) : Books { w with nodes := ns } where
  valid i n hn := by
    obtain ⟨s, hs⟩ := h.get' hn
    simpa using hb.valid i _ hs
  finite i n hn hf := by
    obtain ⟨s, hs⟩ := h.get' hn
    simpa using hb.finite i _ hs hf
  infinite i n hn hf := by
    obtain ⟨s, hs⟩ := h.get' hn
    simpa using hb.infinite i _ hs hf
  kids i n hn amt cs hev c hc := by
    obtain ⟨s, hs⟩ := h.get' hn
    obtain ⟨h1, m, h2, h3, h4⟩ := hb.kids i _ hs amt cs hev c hc
    obtain ⟨s', hs'⟩ := h.get h2
    exact ⟨h1, _, hs', h3, h4⟩

/-- Looking up in an arena where one node was overwritten. -/
theorem get_set {ns : List (Node M T)} {i : Nat} {n : Node M T} (hn : ns[i]? = some n)
    (n' : Node M T) (j : Nat) : (ns.set i n')[j]? = if i = j then some n' else ns[j]? := by
  have hlen : i < ns.length := by
    by_contra h
    rw [List.getElem?_eq_none (by omega)] at hn
    exact absurd hn (by simp)
  rw [List.getElem?_set]
  split
  · simp [hlen]
  · rfl

theorem SameKind.trans {a b c : PB} (h1 : PB.SameKind a b) (h2 : PB.SameKind b c) :
    PB.SameKind a c := by
  cases a <;> cases b <;> cases c <;> simp_all [PB.SameKind]

/-- Overwriting a node keeps the books if the new node's own books are right. -/
theorem Books.ofSet {w : World M T D} (hb : Books w) {i : Nat} {n n' : Node M T}
    (hn : w.nodes[i]? = some n) (ht : n'.total = n.total) (hp : n'.parent = n.parent)
    (hv : n'.remaining.Valid ∧ PB.SameKind n'.total n'.remaining)
    (hf : n.total.isInfinite = false → n'.remaining.isInfinite = false ∧
      (n'.log.map (fun ev => vec ev.amt)).sum + vec n'.remaining = vec n'.total ∧
      ∀ ev ∈ n'.log, ev.amt.isInfinite = false ∧ ev.amt.Valid)
    (hinf : n.total.isInfinite = true → n'.remaining = n'.total)
    (hk : ∀ amt cs, Event.split amt cs ∈ n'.log → Event.split amt cs ∈ n.log) :
    Books { w with nodes := w.nodes.set i n' } where
  valid j a ha := by
    simp only [get_set hn n' j] at ha
    split at ha
    · cases ha; exact ⟨hv.1, by rw [ht]; exact (hb.valid i n hn).2.1, hv.2⟩
    · exact hb.valid j a ha
  finite j a ha h := by
    simp only [get_set hn n' j] at ha
    split at ha
    · cases ha; exact hf (by rw [← ht]; exact h)
    · exact hb.finite j a ha h
  infinite j a ha h := by
    simp only [get_set hn n' j] at ha
    split at ha
    · cases ha; exact hinf (by rw [← ht]; exact h)
    · exact hb.infinite j a ha h
  kids j a ha amt cs hev c hc := by
    have : j < c ∧ ∃ m, w.nodes[c]? = some m ∧ m.total = amt ∧ m.parent = some j := by
      simp only [get_set hn n' j] at ha
      split at ha
      · rename_i hij
        subst hij
        cases ha
        exact hb.kids i n hn amt cs (hk amt cs hev) c hc
      · exact hb.kids j a ha amt cs hev c hc
    obtain ⟨h1, m, h2, h3, h4⟩ := this
    refine ⟨h1, ?_⟩
    by_cases hic : i = c
    · subst hic
      rw [hn] at h2
      cases h2
      exact ⟨n', by rw [get_set hn, if_pos rfl], by rw [ht, h3], by rw [hp, h4]⟩
    · exact ⟨m, by rw [get_set hn, if_neg hic]; exact h2, h3, h4⟩

/-- What spending does to the books of the session that spends. -/
theorem spend_books {n : Node M T} {adj : PB} {ev : Event M} (hev : ev.amt = adj)
    (hv : n.remaining.Valid) (hk : PB.SameKind n.total n.remaining) (ha : adj.Valid)
    (hs : canSpend n.remaining adj = true)
    (hfin : n.total.isInfinite = false → n.remaining.isInfinite = false ∧
      (n.log.map (fun ev => vec ev.amt)).sum + vec n.remaining = vec n.total ∧
      ∀ ev ∈ n.log, ev.amt.isInfinite = false ∧ ev.amt.Valid)
    (hinf : n.total.isInfinite = true → n.remaining = n.total) :
    ((spend n.remaining adj).Valid ∧ PB.SameKind n.total (spend n.remaining adj)) ∧
    (n.total.isInfinite = false → (spend n.remaining adj).isInfinite = false ∧
      ((n.log ++ [ev]).map (fun ev => vec ev.amt)).sum + vec (spend n.remaining adj) = vec n.total ∧
      ∀ e ∈ n.log ++ [ev], e.amt.isInfinite = false ∧ e.amt.Valid) ∧
    (n.total.isInfinite = true → spend n.remaining adj = n.total) ∧
    PB.Le (spend n.remaining adj) n.remaining ∧
    (n.total.isInfinite = false → adj.isInfinite = false) := by
  have le_refl' : ∀ b : PB, PB.Le b b := by intro b; cases b <;> simp [PB.Le]
  cases hi : n.total.isInfinite with
  | true =>
    have hrem := hinf hi
    have hri : n.remaining.isInfinite = true := by rw [hrem]; exact hi
    rw [spend_infinite adj hri]
    exact ⟨⟨hv, hk⟩, fun h => absurd h (by simp), fun _ => hrem, le_refl' _, fun h => absurd h (by simp)⟩
  | false =>
    obtain ⟨h1, h2, h3⟩ := hfin hi
    obtain ⟨g1, g2, g3, g4, g5, g6⟩ := spend_finite hv ha h1 hs
    refine ⟨⟨g2, SameKind.trans hk g5⟩, fun _ => ⟨g3, ?_, ?_⟩, fun h => absurd h (by simp), g6,
      fun _ => g4⟩
    · rw [List.map_append, List.sum_append]
      simp only [List.map_cons, List.map_nil, List.sum_cons, List.sum_nil, add_zero, hev]
      rw [add_assoc, add_comm (vec adj), g1, h2]
    · intro e he
      rcases List.mem_append.mp he with he | he
      · exact h3 e he
      · rw [List.mem_singleton] at he
        rw [he, hev]; exact ⟨g4, ha⟩

theorem books_step {env : Env Q M T D V} (hr : env.rounding.Lawful) {w w' : World M T D}
    {op : Op Q D V} {res : Except Err (Out M)} (hop : op.BudgetValid) (hb : Books w)
    (h : Step env w op res w') : Books w' := by
  cases h with
  | reject _ e => exact hb
  | late _ e ns h => exact hb.ofStateOnly (activate_stateOnly h)
  | evaluate i q b n m adj ns hn hc ha hp hs =>
    obtain ⟨hv, _, hk⟩ := hb.valid i n hn
    obtain ⟨_, _, hadj, _⟩ := compileInfo_ok hc
    have hav := processRequested_valid hr hv (convertBudget_valid hop) hadj
    obtain ⟨k1, k2, k3, _, _⟩ := spend_books (ev := .measured m adj) rfl hv hk hav hs
      (hb.finite i n hn) (hb.infinite i n hn)
    have hb' := hb.ofStateOnly (activate_stateOnly ha)
    exact hb'.ofSet (activate_self hn ha) rfl rfl k1 k2 k3 (by
      intro amt cs h
      rcases List.mem_append.mp h with h | h
      · exact h
      · simp at h)
  | createView i q name n t ns hn hi ha h1 h2 ht =>
    obtain ⟨hv, _, hk⟩ := hb.valid i n hn
    have hb' := hb.ofStateOnly (activate_stateOnly ha)
    exact hb'.ofSet (activate_self hn ha) rfl rfl ⟨hv, hk⟩ (hb.finite i n hn) (hb.infinite i n hn)
      (fun _ _ h => h)
  | deleteView i name n ns hn ha h1 =>
    obtain ⟨hv, _, hk⟩ := hb.valid i n hn
    have hb' := hb.ofStateOnly (activate_stateOnly ha)
    exact hb'.ofSet (activate_self hn ha) rfl rfl ⟨hv, hk⟩ (hb.finite i n hn) (hb.infinite i n hn)
      (fun _ _ h => h)
  | addPublic => exact ⟨hb.valid, hb.finite, hb.infinite, hb.kids⟩
  | partition i src b col splits n adj t ns hn hkm hid hadj ht ha hs =>
    obtain ⟨hv, _, hk⟩ := hb.valid i n hn
    have hav := processRequested_valid hr hv (convertBudget_valid hop) hadj
    set ids := (List.range splits.length).map (· + w.nodes.length) with hids
    obtain ⟨k1, k2, k3, _, _⟩ := spend_books (ev := (.split adj ids : Event M)) rfl hv hk hav hs
      (hb.finite i n hn) (hb.infinite i n hn)
    have hb' := hb.ofStateOnly (activate_stateOnly ha)
    have hlen : ns.length = w.nodes.length := (activate_stateOnly ha).length
    have hn' := activate_self hn ha
    set n' : Node M T := { n with
      state := .waitChildren, remaining := spend n.remaining adj
      log := n.log ++ [.split adj ids] } with hn'def
    have hilt : i < ns.length := by
      by_contra h
      rw [List.getElem?_eq_none (by omega)] at hn'
      exact absurd hn' (by simp)
    -- where nodes come from
    have hget : ∀ (j : Nat) (a : Node M T),
        (ns.set i n' ++ mkChildren i { n with state := .active } adj t true (names splits))[j]? = some a →
        (j = i ∧ a = n') ∨ (j ≠ i ∧ ns[j]? = some a) ∨
        (a.total = adj ∧ a.remaining = adj ∧ a.log = [] ∧ a.parent = some i) := by
      intro j a ha
      rw [List.getElem?_append] at ha
      split at ha
      · rw [get_set hn'] at ha
        split at ha
        · rename_i hij; cases ha; exact Or.inl ⟨hij.symm, rfl⟩
        · rename_i hij; exact Or.inr (Or.inl ⟨fun h => hij h.symm, ha⟩)
      · obtain ⟨s, _, hc⟩ := mkChildren_get _ _ _ _ _ _ _ _ ha
        subst hc
        exact Or.inr (Or.inr ⟨rfl, rfl, rfl, rfl⟩)
    have hput : ∀ (j : Nat) (a : Node M T), ns[j]? = some a →
        (ns.set i n' ++ mkChildren i { n with state := .active } adj t true (names splits))[j]? =
          if i = j then some n' else some a := by
      intro j a ha
      have hj : j < ns.length := by
        by_contra h
        rw [List.getElem?_eq_none (by omega)] at ha
        exact absurd ha (by simp)
      rw [List.getElem?_append, if_pos (by rw [List.length_set]; exact hj), get_set hn', ha]
    have sk_refl : ∀ b : PB, PB.SameKind b b := by intro b; cases b <;> simp [PB.SameKind]
    constructor
    · intro j a ha
      rcases hget j a ha with ⟨_, rfl⟩ | ⟨_, h⟩ | ⟨h1, h2, _⟩
      · exact ⟨k1.1, (hb.valid i n hn).2.1, k1.2⟩
      · exact hb'.valid j a h
      · rw [h1, h2]; exact ⟨hav, hav, sk_refl _⟩
    · intro j a ha hf
      rcases hget j a ha with ⟨_, rfl⟩ | ⟨_, h⟩ | ⟨h1, h2, h3, _⟩
      · exact k2 hf
      · exact hb'.finite j a h hf
      · rw [h1] at hf
        rw [h1, h2, h3]
        exact ⟨hf, by simp, by simp⟩
    · intro j a ha hf
      rcases hget j a ha with ⟨_, rfl⟩ | ⟨_, h⟩ | ⟨h1, h2, h3, _⟩
      · exact k3 hf
      · exact hb'.infinite j a h hf
      · rw [h1, h2]
    · intro j a ha amt cs hev c hc
      have old : ∀ {j' : Nat} {a' : Node M T}, ns[j']? = some a' → Event.split amt cs ∈ a'.log →
          j' < c ∧ ∃ m, (ns.set i n' ++
            mkChildren i { n with state := .active } adj t true (names splits))[c]? = some m ∧
            m.total = amt ∧ m.parent = some j' := by
        intro j' a' ha' hev'
        obtain ⟨g1, m, g2, g3, g4⟩ := hb'.kids j' a' ha' amt cs hev' c hc
        refine ⟨g1, ?_⟩
        by_cases hic : i = c
        · subst hic
          simp only [hn', Option.some.injEq] at g2
          refine ⟨n', by rw [hput i _ hn', if_pos rfl], ?_, ?_⟩
          · rw [← g3, ← g2]
          · rw [← g4, ← g2]
        · exact ⟨m, by rw [hput c m g2, if_neg hic], g3, g4⟩
      rcases hget j a ha with ⟨hji, rfl⟩ | ⟨_, h⟩ | ⟨_, _, h3, _⟩
      · subst hji
        rcases List.mem_append.mp hev with hev | hev
        · exact old hn' hev
        · -- the new sessions
          simp only [List.mem_singleton, Event.split.injEq] at hev
          obtain ⟨rfl, rfl⟩ := hev
          rw [hids, List.mem_map] at hc
          obtain ⟨k, hk, rfl⟩ := hc
          rw [List.mem_range] at hk
          refine ⟨by omega, ?_⟩
          have hk' : k < (mkChildren j { n with state := .active } amt t true (names splits)).length := by
            rw [mkChildren_length]; simpa [names] using hk
          refine ⟨(mkChildren j { n with state := .active } amt t true (names splits))[k], ?_, ?_, ?_⟩
          · simp only
            rw [List.getElem?_append_right (by rw [List.length_set]; omega), List.length_set, hlen,
              Nat.add_sub_cancel, List.getElem?_eq_getElem hk']
          all_goals
            obtain ⟨s, _, hcc⟩ := mkChildren_get _ _ _ _ _ _ _ _ (List.getElem?_eq_getElem hk')
            rw [hcc]
      · exact old h hev
      · rw [h3] at hev; exact absurd hev (by simp)
  | stop i n hn => exact hb.ofStateOnly (retire_stateOnly _ _)

theorem initialBudget_valid {b : PB} (h : b.Valid) : (initialBudget b).Valid := by
  cases b with
  | approx ε δ =>
    simp only [initialBudget]
    split
    · exact ⟨le_top, WithTop.coe_nonneg.mpr zero_le_one, le_refl _⟩
    · exact h
  | pure ε => exact h
  | zcdp ρ => exact h

theorem books_init {b : PB} (hb : b.Valid) (tables : List (String × T)) :
    Books (init b tables : World M T D) := by
  have hget : ∀ (j : Nat) (n : Node M T), (init b tables : World M T D).nodes[j]? = some n →
      n.total = initialBudget b ∧ n.remaining = initialBudget b ∧ n.log = [] := by
    intro j n hn
    cases j with
    | zero =>
      simp only [init, List.getElem?_cons_zero, Option.some.injEq] at hn
      subst hn
      exact ⟨rfl, rfl, rfl⟩
    | succ j => simp [init] at hn
  have sk_refl : ∀ b : PB, PB.SameKind b b := by intro b; cases b <;> simp [PB.SameKind]
  constructor
  · intro i n hn
    obtain ⟨h1, h2, _⟩ := hget i n hn
    rw [h1, h2]
    exact ⟨initialBudget_valid hb, initialBudget_valid hb, sk_refl _⟩
  · intro i n hn hf
    obtain ⟨h1, h2, h3⟩ := hget i n hn
    rw [h1] at hf
    rw [h1, h2, h3]
    exact ⟨hf, by simp, by simp⟩
  · intro i n hn _
    obtain ⟨h1, h2, _⟩ := hget i n hn
    rw [h1, h2]
  · intro i n hn amt cs hev
    rw [(hget i n hn).2.2] at hev
    exact absurd hev (by simp)

theorem books_run {env : Env Q M T D V} (hr : env.rounding.Lawful) {b : PB} (hb : b.Valid)
    (tables : List (String × T)) (ops : List (Op Q D V)) (hops : ∀ op ∈ ops, op.BudgetValid) :
    Books (run env (init b tables) ops) :=
  run_induction_of Books Op.BudgetValid (fun _ _ _ _ hop hi hs => books_step hr hop hi hs) ops _ hops
    (books_init hb tables)

/-! ## C01 -/

theorem foldr_sup_le {l : List (XNum × XNum)} {B : XNum × XNum} (h0 : 0 ≤ B) (h : ∀ x ∈ l, x ≤ B) :
    l.foldr (· ⊔ ·) 0 ≤ B := by
  induction l with
  | nil => exact h0
  | cons x xs ih =>
    exact sup_le (h x (by simp)) (ih (fun y hy => h y (List.mem_cons_of_mem _ hy)))

theorem vec_nonneg {b : PB} (h : b.Valid) : 0 ≤ vec b := by
  cases b with
  | pure ε => exact ⟨h, le_refl _⟩
  | approx ε δ => exact ⟨h.1, h.2.1⟩
  | zcdp ρ => exact ⟨h, le_refl _⟩

theorem Books.loss_le {w : World M T D} (hb : Books w) :
    ∀ (f i : Nat) (n : Node M T), w.nodes[i]? = some n → n.total.isInfinite = false →
      loss w.nodes f i + vec n.remaining ≤ vec n.total := by
  intro f
  induction f with
  | zero =>
    intro i n hn hf
    obtain ⟨_, h2, h3⟩ := hb.finite i n hn hf
    rw [← h2]
    have : 0 ≤ (n.log.map (fun ev => vec ev.amt)).sum := by
      apply List.sum_nonneg
      intro x hx
      rw [List.mem_map] at hx
      obtain ⟨ev, hev, rfl⟩ := hx
      exact vec_nonneg (h3 ev hev).2
    simp only [loss, zero_add]
    exact le_add_of_nonneg_left this
  | succ f ih =>
    intro i n hn hf
    obtain ⟨_, h2, h3⟩ := hb.finite i n hn hf
    rw [← h2]
    simp only [loss, hn]
    apply add_le_add_left
    apply List.sum_le_sum
    intro ev hev
    cases ev with
    | measured m a => exact le_refl _
    | split a cs =>
      apply foldr_sup_le (vec_nonneg (h3 _ hev).2)
      intro x hx
      rw [List.mem_map] at hx
      obtain ⟨c, hc, rfl⟩ := hx
      obtain ⟨_, m, hm, hmt, _⟩ := hb.kids i n hn a cs hev c hc
      have := ih c m hm (by rw [hmt]; exact (h3 _ hev).1)
      rw [hmt] at this
      exact le_trans (le_add_of_nonneg_right (vec_nonneg (hb.valid c m hm).1)) this

/-- The nesting bound of `loss` does not matter once it is large enough. -/
theorem Books.loss_fuel {w : World M T D} (hb : Books w) :
    ∀ (f i : Nat), w.nodes.length ≤ i + f → loss w.nodes (f + 1) i = loss w.nodes f i := by
  intro f
  induction f with
  | zero =>
    intro i h
    simp only [loss, List.getElem?_eq_none (show w.nodes.length ≤ i by omega)]
  | succ f ih =>
    intro i h
    rw [loss, loss]
    cases hn : w.nodes[i]? with
    | none => rfl
    | some n =>
      simp only
      congr 1
      apply List.map_congr_left
      intro ev hev
      cases ev with
      | measured m a => rfl
      | split a cs =>
        simp only
        congr 1
        apply List.map_congr_left
        intro c hc
        exact ih c (by have := (hb.kids i n hn a cs hev c hc).1; omega)

theorem initialBudget_finite {b : PB} (h : b.isInfinite = false) : initialBudget b = b := by
  cases b with
  | approx ε δ => simp only [initialBudget, h]; rfl
  | pure ε => rfl
  | zcdp ρ => rfl

/-- The root session's ghost total is the budget it was created with. -/
theorem root_total {env : Env Q M T D V} (b : PB) (tables : List (String × T))
    (ops : List (Op Q D V)) :
    ∃ n : Node M T, (run env (init b tables : World M T D) ops).nodes[0]? = some n ∧
      n.total = initialBudget b := by
  apply run_induction (env := env)
    (P := fun w : World M T D => ∃ n : Node M T, w.nodes[0]? = some n ∧ n.total = initialBudget b)
  · rintro w op res w' ⟨n, hn, ht⟩ h
    have hset : ∀ {ns : List (Node M T)} {i : Nat} {a : Node M T} (a' : Node M T),
        ns[i]? = some a → a'.total = a.total → (∃ n : Node M T, ns[0]? = some n ∧ n.total = initialBudget b) →
        ∃ n : Node M T, (ns.set i a')[0]? = some n ∧ n.total = initialBudget b := by
      rintro ns i a a' ha haa ⟨n, hn, ht⟩
      rw [get_set ha]
      by_cases hi : i = 0
      · subst hi
        rw [ha] at hn
        cases hn
        exact ⟨a', by simp, by rw [haa, ht]⟩
      · exact ⟨n, by rw [if_neg hi]; exact hn, ht⟩
    have hact : ∀ {ns : List (Node M T)}, StateOnly w.nodes ns →
        ∃ n : Node M T, ns[0]? = some n ∧ n.total = initialBudget b := by
      intro ns h
      obtain ⟨s, hs⟩ := h.get hn
      exact ⟨_, hs, ht⟩
    cases h with
    | reject _ e => exact ⟨n, hn, ht⟩
    | late _ e ns h => exact hact (activate_stateOnly h)
    | evaluate i q b n m adj ns hn hc ha hp hs =>
      exact hset _ (activate_self hn ha) rfl (hact (activate_stateOnly ha))
    | createView i q name n t ns hn hi ha h1 h2 ht =>
      exact hset _ (activate_self hn ha) rfl (hact (activate_stateOnly ha))
    | deleteView i name n ns hn ha h1 =>
      exact hset _ (activate_self hn ha) rfl (hact (activate_stateOnly ha))
    | addPublic => exact ⟨n, hn, ht⟩
    | partition i src b' col splits n adj t ns hn hk hid hadj ht ha hs =>
      obtain ⟨a, ha1, ha2⟩ := hset (a' := { n with
              state := .waitChildren
              remaining := spend n.remaining adj
              log := n.log ++ [.split adj ((List.range splits.length).map (· + w.nodes.length))] })
        (activate_self hn ha) rfl (hact (activate_stateOnly ha))
      exact ⟨a, by rw [List.getElem?_append_left (List.getElem?_eq_some_iff.mp ha1).1]; exact ha1, ha2⟩
    | stop i n hn => exact hact (retire_stateOnly _ _)
  · exact ⟨_, rfl, rfl⟩

/-- **C01.** Whatever is done with a session and everything partitioned from it, what was released in
total is covered by the budget the session was created with; moreover what is reported as remaining is
still left on top of it. (Budgets are finite here; for an infinite budget there is nothing to bound.) -/
theorem C01_never_overspent {env : Env Q M T D V} (hr : env.rounding.Lawful) {b : PB} (hb : b.Valid)
    (hfin : b.isInfinite = false) (tables : List (String × T)) (ops : List (Op Q D V))
    (hops : ∀ op ∈ ops, op.BudgetValid) (fuel : Nat) :
    let w : World M T D := run env (init b tables) ops
    loss w.nodes fuel 0 ≤ vec b ∧
    ∀ n, w.nodes[0]? = some n → loss w.nodes fuel 0 + vec n.remaining ≤ vec b := by
  intro w
  have hbk : Books w := books_run hr hb tables ops hops
  obtain ⟨n, hn, ht⟩ := root_total (env := env) (D := D) (M := M) b tables ops
  rw [initialBudget_finite hfin] at ht
  have key := hbk.loss_le fuel 0 n hn (by rw [ht]; exact hfin)
  rw [ht] at key
  refine ⟨le_trans (le_add_of_nonneg_right (vec_nonneg (hbk.valid 0 n hn).1)) key, ?_⟩
  intro n' hn'
  have : w.nodes[0]? = some n := hn
  rw [this] at hn'
  cases hn'
  exact key

/-- **C01**, for every session of the tree: what was released through it is covered by the amount it was
given by the partition that created it. -/
theorem C01_every_session {env : Env Q M T D V} (hr : env.rounding.Lawful) {b : PB} (hb : b.Valid)
    (tables : List (String × T)) (ops : List (Op Q D V)) (hops : ∀ op ∈ ops, op.BudgetValid)
    (fuel i : Nat) (n : Node M T)
    (hn : (run env (init b tables : World M T D) ops).nodes[i]? = some n)
    (hfin : n.total.isInfinite = false) :
    loss (run env (init b tables : World M T D) ops).nodes fuel i + vec n.remaining ≤ vec n.total :=
  (books_run hr hb tables ops hops).loss_le fuel i n hn hfin

/-- The `fuel` of `loss` is immaterial. -/
theorem C01_loss_well_defined {env : Env Q M T D V} (hr : env.rounding.Lawful) {b : PB}
    (hb : b.Valid) (tables : List (String × T)) (ops : List (Op Q D V))
    (hops : ∀ op ∈ ops, op.BudgetValid) (fuel i : Nat)
    (h : (run env (init b tables : World M T D) ops).nodes.length ≤ i + fuel) :
    loss (run env (init b tables : World M T D) ops).nodes (fuel + 1) i =
      loss (run env (init b tables : World M T D) ops).nodes fuel i :=
  (books_run hr hb tables ops hops).loss_fuel fuel i h

/-- **C01**, every answer is in the books: an answer is only given out by a measurement whose privacy
relation holds for the amount that is logged for it in the session that answered, and the log keeps
everything that was there. -/
theorem C01_answers_are_logged {env : Env Q M T D V} (w : World M T D) (op : Op Q D V) (m : M)
    (amt : PB) (h : (step env w op).1 = .ok (.answer m amt)) :
    env.privRel m amt = true ∧
    ∃ n n', w.nodes[op.target]? = some n ∧ (step env w op).2.nodes[op.target]? = some n' ∧
      n'.log = n.log ++ [.measured m amt] := by
  have hst := step_cases env w op
  rw [h] at hst
  generalize (step env w op).2 = w' at hst
  cases hst with
  | evaluate i q b n m adj ns hn hc ha hp hs =>
    exact ⟨hp, n, _, hn, by simp only [Op.target]; rw [get_set (activate_self hn ha), if_pos rfl], rfl⟩

/-- Logs only grow. -/
theorem C01_log_grows {env : Env Q M T D V} (w : World M T D) (op : Op Q D V) (i : Nat)
    (n : Node M T) (hn : w.nodes[i]? = some n) :
    ∃ n' evs, (step env w op).2.nodes[i]? = some n' ∧ n'.log = n.log ++ evs := by
  have hst := step_cases env w op
  generalize (step env w op).2 = w' at hst
  generalize (step env w op).1 = res at hst
  have hact : ∀ {ns : List (Node M T)}, StateOnly w.nodes ns →
      ∃ n', ns[i]? = some n' ∧ n'.log = n.log := by
    intro ns h
    obtain ⟨s, hs⟩ := h.get hn
    exact ⟨_, hs, rfl⟩
  have hset : ∀ {ns : List (Node M T)} {j : Nat} {a : Node M T} (a' : Node M T) (evs : List (Event M)),
      ns[j]? = some a → a'.log = a.log ++ evs → (∃ n', ns[i]? = some n' ∧ n'.log = n.log) →
      ∃ n' evs', (ns.set j a')[i]? = some n' ∧ n'.log = n.log ++ evs' := by
    rintro ns j a a' evs ha haa ⟨n', hn', hl⟩
    rw [get_set ha]
    by_cases hi : j = i
    · subst hi
      rw [ha] at hn'
      cases hn'
      exact ⟨a', evs, by simp, by rw [haa, hl]⟩
    · exact ⟨n', [], by rw [if_neg hi]; exact hn', by simp [hl]⟩
  cases hst with
  | reject _ e => exact ⟨n, [], hn, by simp⟩
  | late _ e ns h =>
    obtain ⟨n', h1, h2⟩ := hact (activate_stateOnly h)
    exact ⟨n', [], h1, by simp [h2]⟩
  | evaluate j q b a m adj ns hn hc ha hp hs =>
    exact hset _ _ (activate_self hn ha) rfl (hact (activate_stateOnly ha))
  | createView j q name a t ns hn hi ha h1 h2 ht =>
    exact hset _ [] (activate_self hn ha) (by simp) (hact (activate_stateOnly ha))
  | deleteView j name a ns hn ha h1 =>
    exact hset _ [] (activate_self hn ha) (by simp) (hact (activate_stateOnly ha))
  | addPublic => exact ⟨n, [], hn, by simp⟩
  | partition j src b' col splits a adj t ns hn hk hid hadj ht ha hs =>
    obtain ⟨n', evs, h1, h2⟩ := hset (a' := { a with
              state := .waitChildren
              remaining := spend a.remaining adj
              log := a.log ++ [.split adj ((List.range splits.length).map (· + w.nodes.length))] })
        _ (activate_self hn ha) rfl (hact (activate_stateOnly ha))
    exact ⟨n', evs, by rw [List.getElem?_append_left (List.getElem?_eq_some_iff.mp h1).1]; exact h1, h2⟩
  | stop j a hn =>
    obtain ⟨n', h1, h2⟩ := hact (retire_stateOnly _ _)
    exact ⟨n', [], h1, by simp [h2]⟩

end Verif.Session
