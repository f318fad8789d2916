import Verif.Session.Model
import Mathlib.Tactic.Common

/-!
# Lemmas about the session arena: what activation and retirement change

Everything here is auxiliary; the properties are in `Verif/Session/Props*.lean`.
-/

namespace Verif.Session

open Verif.Budget (XNum PB Rounding adjustBudget)

variable {Q M T D V : Type}

/-- A node without its accountant state. -/
def Node.erase (n : Node M T) : Node M T := { n with state := .active }

/-- Two arenas differ at most in accountant states. -/
def StateOnly (ns ns' : List (Node M T)) : Prop := ns'.map Node.erase = ns.map Node.erase

theorem StateOnly.refl (ns : List (Node M T)) : StateOnly ns ns := rfl

theorem StateOnly.trans {a b c : List (Node M T)} (h1 : StateOnly a b) (h2 : StateOnly b c) :
    StateOnly a c := Eq.trans h2 h1

theorem StateOnly.symm {a b : List (Node M T)} (h : StateOnly a b) : StateOnly b a := Eq.symm h

theorem StateOnly.length {a b : List (Node M T)} (h : StateOnly a b) : b.length = a.length := by
  have := congrArg List.length h
  simpa using this

theorem StateOnly.get {a b : List (Node M T)} (h : StateOnly a b) {i : Nat} {n : Node M T}
    (hn : a[i]? = some n) : ∃ s, b[i]? = some { n with state := s } := by
  have h1 : (b.map Node.erase)[i]? = (a.map Node.erase)[i]? := by rw [h]
  rw [List.getElem?_map, List.getElem?_map, hn] at h1
  cases hb : b[i]? with
  | none => rw [hb] at h1; simp at h1
  | some m =>
    rw [hb] at h1
    simp only [Option.map_some, Option.some.injEq] at h1
    refine ⟨m.state, ?_⟩
    cases m; cases n
    simp only [Node.erase, Node.mk.injEq] at h1
    obtain ⟨h1, h2, _, h3, h4, h5, h6, h7⟩ := h1
    simp [h1, h2, h3, h4, h5, h6, h7]

theorem StateOnly.get' {a b : List (Node M T)} (h : StateOnly a b) {i : Nat} {n : Node M T}
    (hn : b[i]? = some n) : ∃ s, a[i]? = some { n with state := s } := h.symm.get hn

theorem StateOnly.getNone {a b : List (Node M T)} (h : StateOnly a b) {i : Nat}
    (hn : a[i]? = none) : b[i]? = none := by
  rw [List.getElem?_eq_none_iff] at hn ⊢
  rw [h.length]; exact hn

theorem retireWhere_get (p : Nat → Node M T → Bool) (ns : List (Node M T)) (j : Nat) :
    (retireWhere p ns)[j]? =
      (ns[j]?).map (fun n => if p j n then { n with state := .retired } else n) := by
  simp [retireWhere, List.getElem?_mapIdx]

theorem retireWhere_stateOnly (p : Nat → Node M T → Bool) (ns : List (Node M T)) :
    StateOnly ns (retireWhere p ns) := by
  apply List.ext_getElem?
  intro j
  rw [List.getElem?_map, List.getElem?_map, retireWhere_get]
  cases ns[j]? with
  | none => rfl
  | some n =>
    simp only [Option.map_some]
    split <;> rfl

theorem set_stateOnly (ns : List (Node M T)) (i : Nat) (n : Node M T) (s : AState)
    (h : ns[i]?.map Node.erase = some n.erase) : StateOnly ns (ns.set i { n with state := s }) := by
  apply List.ext_getElem?
  intro j
  rw [List.getElem?_map, List.getElem?_map, List.getElem?_set]
  split
  · rename_i hij
    subst hij
    split
    · rw [h]; rfl
    · rename_i hlen
      rw [List.getElem?_eq_none (by omega)]
  · rfl

theorem setState_stateOnly (ns : List (Node M T)) (i : Nat) (s : AState) :
    StateOnly ns (setState ns i s) := by
  unfold setState
  split
  · rename_i n hn
    exact set_stateOnly ns i n s (by rw [hn]; rfl)
  · exact StateOnly.refl _

theorem forceActivate_stateOnly (ns : List (Node M T)) (i : Nat) :
    StateOnly ns (forceActivate ns i) := by
  unfold forceActivate
  split
  · exact StateOnly.refl _
  · rename_i n hn
    split
    · exact StateOnly.refl _
    · exact StateOnly.refl _
    all_goals
      refine (retireWhere_stateOnly _ ns).trans (set_stateOnly _ i n .active ?_)
      rw [retireWhere_get, hn]
      simp only [Option.map_some]
      split <;> rfl

theorem retire_stateOnly (ns : List (Node M T)) (i : Nat) : StateOnly ns (retire ns i) := by
  unfold retire
  split
  · exact StateOnly.refl _
  · rename_i n hn
    split
    · exact StateOnly.refl _
    · exact setState_stateOnly _ _ _
    · simp only
      split
      · exact retireWhere_stateOnly _ _
      · split
        · exact (retireWhere_stateOnly _ _).trans (setState_stateOnly _ _ _)
        · exact (retireWhere_stateOnly _ _).trans (setState_stateOnly _ _ _)

theorem activate_stateOnly {ns ns' : List (Node M T)} {i : Nat} (h : activate ns i = .ok ns') :
    StateOnly ns ns' := by
  unfold activate at h
  split at h
  · exact absurd h (by simp)
  · split at h
    · cases h; exact StateOnly.refl _
    · split at h
      · exact absurd h (by simp)
      · cases h; exact forceActivate_stateOnly _ _

/-! ## Shape of the tree -/

/-- The arena is a tree rooted at session 0, parents come before children, `anc` lists all proper
ancestors. -/
structure IsTree (ns : List (Node M T)) : Prop where
  root : ∀ n, ns[0]? = some n → n.parent = none ∧ n.anc = []
  child : ∀ j n, ns[j]? = some n → 0 < j →
    ∃ p m, n.parent = some p ∧ p < j ∧ ns[p]? = some m ∧ n.anc = p :: m.anc

theorem IsTree.stateOnly {a b : List (Node M T)} (ht : IsTree a) (h : StateOnly a b) : IsTree b where
  root n hn := by
    obtain ⟨s, hs⟩ := h.get' hn
    simpa using ht.root _ hs
  child j n hn hj := by
    obtain ⟨s, hs⟩ := h.get' hn
    obtain ⟨p, m, h1, h2, h3, h4⟩ := ht.child j _ hs hj
    obtain ⟨s', hs'⟩ := h.get h3
    exact ⟨p, _, h1, h2, hs', h4⟩

theorem IsTree.parent {ns : List (Node M T)} (ht : IsTree ns) {j p : Nat} {n : Node M T}
    (hn : ns[j]? = some n) (hp : n.parent = some p) :
    p < j ∧ ∃ m, ns[p]? = some m ∧ n.anc = p :: m.anc := by
  rcases Nat.eq_zero_or_pos j with rfl | hj
  · rw [(ht.root n hn).1] at hp; exact absurd hp (by simp)
  · obtain ⟨p', m, h1, h2, h3, h4⟩ := ht.child j n hn hj
    rw [h1] at hp
    cases hp
    exact ⟨h2, m, h3, h4⟩

theorem IsTree.anc_lt {ns : List (Node M T)} (ht : IsTree ns) :
    ∀ (j : Nat) (n : Node M T), ns[j]? = some n → ∀ k ∈ n.anc, k < j := by
  intro j
  induction j using Nat.strong_induction_on with
  | _ j ih =>
    intro n hn k hk
    rcases Nat.eq_zero_or_pos j with rfl | hj
    · rw [(ht.root n hn).2] at hk; exact absurd hk (by simp)
    · obtain ⟨p, m, h1, h2, h3, h4⟩ := ht.child j n hn hj
      rw [h4] at hk
      rcases List.mem_cons.mp hk with rfl | hk
      · exact h2
      · exact Nat.lt_trans (ih p h2 m h3 k hk) h2

/-- Ancestors exist, and all of them but the root have a parent which is again an ancestor. -/
theorem IsTree.anc_get {ns : List (Node M T)} (ht : IsTree ns) :
    ∀ (j : Nat) (n : Node M T), ns[j]? = some n → ∀ k ∈ n.anc,
      ∃ m, ns[k]? = some m ∧ ∀ a ∈ m.anc, a ∈ n.anc := by
  intro j
  induction j using Nat.strong_induction_on with
  | _ j ih =>
    intro n hn k hk
    rcases Nat.eq_zero_or_pos j with rfl | hj
    · rw [(ht.root n hn).2] at hk; exact absurd hk (by simp)
    · obtain ⟨p, m, h1, h2, h3, h4⟩ := ht.child j n hn hj
      rw [h4] at hk ⊢
      rcases List.mem_cons.mp hk with rfl | hk
      · exact ⟨m, h3, fun a ha => List.mem_cons_of_mem _ ha⟩
      · obtain ⟨m', h5, h6⟩ := ih p h2 m h3 k hk
        exact ⟨m', h5, fun a ha => List.mem_cons_of_mem _ (h6 a ha)⟩

/-! ## Life cycle -/

/-- Which sessions can be alive at the same time. -/
structure Life (ns : List (Node M T)) : Prop where
  waiting : ∀ (j : Nat) (n : Node M T) (p : Nat) (m : Node M T), ns[j]? = some n → n.state ≠ .retired → n.parent = some p →
    ns[p]? = some m → m.state = .waitChildren
  sib : ∀ (i j : Nat) (n m : Node M T), i < j → ns[i]? = some n → ns[j]? = some m → n.parent = m.parent →
    n.state ≠ .retired → m.state ≠ .retired → m.state = .waitSibling

/-- Retiring a set of sessions that is closed under taking descendants. -/
theorem Life.ofRetireWhere {ns : List (Node M T)} (hl : Life ns) (ht : IsTree ns)
    (P : Nat → Node M T → Bool)
    (hc : ∀ j n p m, ns[j]? = some n → n.parent = some p → ns[p]? = some m → P p m = true →
      P j n = true) : Life (retireWhere P ns) := by
  constructor
  · intro j n p m hn hs hp hm
    rw [retireWhere_get] at hn hm
    cases hn0 : ns[j]? with
    | none => rw [hn0] at hn; simp at hn
    | some n0 =>
      rw [hn0] at hn
      simp only [Option.map_some, Option.some.injEq] at hn
      by_cases hP : P j n0 = true
      · rw [if_pos hP] at hn; subst hn; exact absurd rfl hs
      · rw [if_neg hP] at hn; subst hn
        cases hm0 : ns[p]? with
        | none => rw [hm0] at hm; simp at hm
        | some m0 =>
          rw [hm0] at hm
          simp only [Option.map_some, Option.some.injEq] at hm
          by_cases hP' : P p m0 = true
          · exact absurd (hc j n0 p m0 hn0 hp hm0 hP') hP
          · rw [if_neg hP'] at hm; subst hm
            exact hl.waiting j n0 p m0 hn0 hs hp hm0
  · intro i j n m hij hn hm hpar hsn hsm
    rw [retireWhere_get] at hn hm
    cases hn0 : ns[i]? with
    | none => rw [hn0] at hn; simp at hn
    | some n0 =>
      cases hm0 : ns[j]? with
      | none => rw [hm0] at hm; simp at hm
      | some m0 =>
        rw [hn0] at hn
        rw [hm0] at hm
        simp only [Option.map_some, Option.some.injEq] at hn hm
        by_cases hP : P i n0 = true
        · rw [if_pos hP] at hn; subst hn; exact absurd rfl hsn
        · by_cases hP' : P j m0 = true
          · rw [if_pos hP'] at hm; subst hm; exact absurd rfl hsm
          · rw [if_neg hP] at hn
            rw [if_neg hP'] at hm
            subst hn hm
            exact hl.sib i j n0 m0 hij hn0 hm0 hpar hsn hsm

/-- Making one session active whose children and preceding siblings are all retired. -/
theorem Life.setActive {ns : List (Node M T)} (hl : Life ns) {i : Nat} {n : Node M T}
    (hn : ns[i]? = some n) (hs : n.state ≠ .retired)
    (hch : ∀ (j : Nat) (m : Node M T), ns[j]? = some m → m.parent = some i → m.state = .retired)
    (hsib : ∀ (j : Nat) (m : Node M T), j < i → ns[j]? = some m → m.parent = n.parent → m.state = .retired)
    (hne : n.parent ≠ some i) :
    Life (ns.set i { n with state := .active }) := by
  have hlen : i < ns.length := by
    by_contra h
    rw [List.getElem?_eq_none (by omega)] at hn
    exact absurd hn (by simp)
  have hget : ∀ j, (ns.set i { n with state := .active })[j]? =
      if i = j then some { n with state := AState.active } else ns[j]? := by
    intro j
    rw [List.getElem?_set]
    split
    · simp [hlen]
    · rfl
  constructor
  · intro j a p b ha hsa hp hb
    rw [hget] at ha hb
    split at ha
    · rename_i hij
      subst hij
      cases ha
      split at hb
      · rename_i hip
        subst hip
        exact absurd hp hne
      · exact hl.waiting i n p b hn hs hp hb
    · split at hb
      · rename_i hip
        subst hip
        exact absurd (hch j a ha hp) hsa
      · exact hl.waiting j a p b ha hsa hp hb
  · intro k j a b hkj ha hb hpar hsa hsb
    rw [hget] at ha hb
    split at ha
    · rename_i hik
      subst hik
      cases ha
      split at hb
      · rename_i hij; omega
      · exact hl.sib i j n b hkj hn hb hpar hs hsb
    · split at hb
      · rename_i hij
        subst hij
        cases hb
        exact absurd (hsib k a hkj ha hpar) hsa
      · exact hl.sib k j a b hkj ha hb hpar hsa hsb

/-- `force_activate` keeps the life-cycle invariant. -/
theorem Life.ofForceActivate {ns : List (Node M T)} (hl : Life ns) (ht : IsTree ns) (i : Nat) :
    Life (forceActivate ns i) := by
  unfold Verif.Session.forceActivate
  split
  · exact hl
  · rename_i n hn
    have hne : n.parent ≠ some i := fun h => absurd (ht.parent hn h).1 (Nat.lt_irrefl i)
    split
    · exact hl
    · exact hl
    · -- waiting for children
      rename_i hst
      have hl' : Life (retireWhere (fun _ m => m.anc.contains i) ns) := by
        apply hl.ofRetireWhere ht
        intro j a p b ha hp hb hc
        obtain ⟨_, b', hb', hanc⟩ := ht.parent ha hp
        rw [hb] at hb'
        cases hb'
        simp only [List.contains_iff_mem] at hc ⊢
        rw [hanc]
        exact List.mem_cons_of_mem _ hc
      have hni : (n.anc.contains i) = false := by
        by_contra h
        rw [Bool.not_eq_false, List.contains_iff_mem] at h
        exact absurd (ht.anc_lt i n hn i h) (Nat.lt_irrefl i)
      have hn' : (retireWhere (fun _ m => m.anc.contains i) ns)[i]? = some n := by
        rw [retireWhere_get, hn]
        simp only [Option.map_some, hni]
        rfl
      apply hl'.setActive hn' (by rw [hst]; simp) _ _ hne
      · intro j m hm hp
        rw [retireWhere_get] at hm
        cases hm0 : ns[j]? with
        | none => rw [hm0] at hm; simp at hm
        | some m0 =>
          rw [hm0] at hm
          simp only [Option.map_some, Option.some.injEq] at hm
          split at hm
          · subst hm; rfl
          · rename_i hnc
            subst hm
            obtain ⟨_, _, _, hanc⟩ := ht.parent hm0 hp
            exact absurd (by rw [hanc]; simp) hnc
      · intro j m hj hm hp
        by_contra hr
        have hx := hl'.sib j i m n hj hm hn' hp hr (by rw [hst]; simp)
        rw [hst] at hx
        exact absurd hx (by simp)
    · -- waiting for a sibling
      rename_i hst
      set P : Nat → Node M T → Bool := fun j m =>
          (j :: m.anc).any (fun k => decide (k < i) &&
            (match ns[k]? with | some s => decide (s.parent = n.parent) | none => false)) with hP
      have hPiff : ∀ j m, P j m = true ↔
          ∃ k ∈ j :: m.anc, k < i ∧ ∃ s, ns[k]? = some s ∧ s.parent = n.parent := by
        intro j m
        simp only [hP, List.any_eq_true, Bool.and_eq_true, decide_eq_true_eq]
        constructor
        · rintro ⟨k, hk, hki, hs⟩
          refine ⟨k, hk, hki, ?_⟩
          cases hks : ns[k]? with
          | none => rw [hks] at hs; simp at hs
          | some s => rw [hks] at hs; exact ⟨s, rfl, by simpa using hs⟩
        · rintro ⟨k, hk, hki, s, hks, hs⟩
          refine ⟨k, hk, hki, ?_⟩
          rw [hks]
          simpa using hs
      have hl' : Life (retireWhere P ns) := by
        apply hl.ofRetireWhere ht
        intro j a p b ha hp hb hc
        obtain ⟨_, b', hb', hanc⟩ := ht.parent ha hp
        rw [hb] at hb'
        cases hb'
        rw [hPiff] at hc ⊢
        obtain ⟨k, hk, hrest⟩ := hc
        refine ⟨k, ?_, hrest⟩
        rw [hanc]
        exact List.mem_cons_of_mem _ hk
      have hni : P i n = false := by
        by_contra h
        rw [Bool.not_eq_false, hPiff] at h
        obtain ⟨k, hk, hki, s, hks, hs⟩ := h
        -- `k` is an ancestor of `i` with the same parent as `i`
        rcases List.mem_cons.mp hk with rfl | hk
        · omega
        · cases hpar : n.parent with
          | none =>
            rcases Nat.eq_zero_or_pos i with h0 | h0
            · omega
            · obtain ⟨p, _, hp, _⟩ := ht.child i n hn h0
              rw [hpar] at hp; exact absurd hp (by simp)
          | some p =>
            obtain ⟨_, m, hm, hanc⟩ := ht.parent hn hpar
            rw [hpar] at hs
            have h1 := (ht.parent hks hs).1
            rw [hanc] at hk
            rcases List.mem_cons.mp hk with rfl | hk
            · omega
            · have := ht.anc_lt p m hm k hk
              omega
      have hn' : (retireWhere P ns)[i]? = some n := by
        rw [retireWhere_get, hn]
        simp only [Option.map_some, hni]
        rfl
      apply hl'.setActive hn' (by rw [hst]; simp) _ _ hne
      · intro j m hm hp
        by_contra hr
        have hx := hl'.waiting j m i n hm hr hp hn'
        rw [hst] at hx
        exact absurd hx (by simp)
      · intro j m hj hm hp
        rw [retireWhere_get] at hm
        cases hm0 : ns[j]? with
        | none => rw [hm0] at hm; simp at hm
        | some m0 =>
          rw [hm0] at hm
          simp only [Option.map_some, Option.some.injEq] at hm
          split at hm
          · subst hm; rfl
          · rename_i hnc
            subst hm
            exact absurd ((hPiff j m0).mpr ⟨j, by simp, hj, m0, hm0, hp⟩) hnc

theorem nextSibling_some {ns : List (Node M T)} {i j : Nat} {par : Option Nat}
    (h : nextSibling ns i par = some j) :
    i < j ∧ (∃ s, ns[j]? = some s ∧ s.parent = par ∧ s.state = .waitSibling) ∧
    (∀ k s, i < k → k < j → ns[k]? = some s → s.parent = par → s.state ≠ .waitSibling) := by
  unfold nextSibling at h
  rw [List.find?_range_eq_some] at h
  obtain ⟨h1, _, h2⟩ := h
  rw [Bool.and_eq_true, decide_eq_true_eq] at h1
  refine ⟨h1.1, ?_, ?_⟩
  · cases hs : ns[j]? with
    | none => rw [hs] at h1; simp at h1
    | some s => rw [hs] at h1; exact ⟨s, rfl, by simpa using h1.2⟩
  · intro k s hik hkj hk hp hst
    have := h2 k hkj
    rw [hk] at this
    simp [hik, hp, hst] at this

theorem nextSibling_none {ns : List (Node M T)} {i : Nat} {par : Option Nat}
    (h : nextSibling ns i par = none) :
    ∀ k s, i < k → ns[k]? = some s → s.parent = par → s.state ≠ .waitSibling := by
  unfold nextSibling at h
  rw [List.find?_eq_none] at h
  intro k s hik hk hp hst
  have hlen : k < ns.length := by
    by_contra h
    rw [List.getElem?_eq_none (by omega)] at hk
    exact absurd hk (by simp)
  have := h k (by simpa using hlen)
  rw [hk] at this
  simp [hik, hp, hst] at this

/-- `setState` when the node is known. -/
theorem setState_eq {ns : List (Node M T)} {i : Nat} {n : Node M T} (hn : ns[i]? = some n)
    (s : AState) : setState ns i s = ns.set i { n with state := s } := by
  unfold setState; rw [hn]

/-- `retire` keeps the life-cycle invariant. -/
theorem Life.ofRetire {ns : List (Node M T)} (hl : Life ns) (ht : IsTree ns) (i : Nat) :
    Life (retire ns i) := by
  unfold Verif.Session.retire
  split
  · exact hl
  · rename_i n hn
    -- the general case: `n` is active or waits for children
    have main : n.state ≠ .retired → n.state ≠ .waitSibling →
        Life (let ns' := retireWhere (fun j m => decide (j = i) || m.anc.contains i) ns
          match n.parent with
          | none => ns'
          | some p =>
            match nextSibling ns' i (some p) with
            | some j => setState ns' j .active
            | none => setState ns' p .active) := by
      intro hr hw
      simp only
      set P : Nat → Node M T → Bool := fun j m => decide (j = i) || m.anc.contains i with hP
      have hPiff : ∀ j m, P j m = true ↔ j = i ∨ i ∈ m.anc := by
        intro j m; simp [hP]
      have hl' : Life (retireWhere P ns) := by
        apply hl.ofRetireWhere ht
        intro j a p b ha hp hb hc
        obtain ⟨_, b', hb', hanc⟩ := ht.parent ha hp
        rw [hb] at hb'
        cases hb'
        rw [hPiff] at hc ⊢
        right
        rw [hanc]
        rcases hc with rfl | hc
        · simp
        · exact List.mem_cons_of_mem _ hc
      have ht' : IsTree (retireWhere P ns) := ht.stateOnly (retireWhere_stateOnly P ns)
      -- nodes that are alive afterwards are unchanged
      have halive : ∀ j m, (retireWhere P ns)[j]? = some m → m.state ≠ .retired →
          ns[j]? = some m ∧ j ≠ i ∧ i ∉ m.anc := by
        intro j m hm hs
        rw [retireWhere_get] at hm
        cases hm0 : ns[j]? with
        | none => rw [hm0] at hm; simp at hm
        | some m0 =>
          rw [hm0] at hm
          simp only [Option.map_some, Option.some.injEq] at hm
          split at hm
          · subst hm; exact absurd rfl hs
          · rename_i hnc
            subst hm
            rw [hPiff] at hnc
            exact ⟨rfl, fun h => hnc (Or.inl h), fun h => hnc (Or.inr h)⟩
      have hkeep : ∀ j m, ns[j]? = some m → j ≠ i → i ∉ m.anc → (retireWhere P ns)[j]? = some m := by
        intro j m hm h1 h2
        rw [retireWhere_get, hm]
        simp only [Option.map_some, Option.some.injEq]
        rw [if_neg]
        rw [hPiff]
        rintro (h | h)
        · exact h1 h
        · exact h2 h
      -- living siblings of `i` afterwards come after `i` and wait
      have hsibs : ∀ j m, (retireWhere P ns)[j]? = some m → m.state ≠ .retired →
          m.parent = n.parent → i < j ∧ m.state = .waitSibling := by
        intro j m hm hs hp
        obtain ⟨h0, hji, _⟩ := halive j m hm hs
        rcases Nat.lt_or_gt_of_ne hji with hlt | hgt
        · exact absurd (hl.sib j i m n hlt h0 hn hp hs hr) hw
        · exact ⟨hgt, hl.sib i j n m hgt hn h0 hp.symm hr hs⟩
      split
      · exact hl'
      · rename_i p hp
        split
        · -- the next sibling takes over
          rename_i j hj
          obtain ⟨hij, ⟨s, hs, hsp, hsw⟩, hmin⟩ := nextSibling_some hj
          rw [setState_eq hs]
          apply hl'.setActive hs (by rw [hsw]; simp)
          · intro k m hm hmp
            by_contra hmr
            have := hl'.waiting k m j s hm hmr hmp hs
            rw [hsw] at this
            exact absurd this (by simp)
          · intro k m hkj hm hmp
            by_contra hmr
            obtain ⟨hik, hmw⟩ := hsibs k m hm hmr (by rw [hmp, hsp, hp])
            exact hmin k m hik hkj hm (by rw [hmp, hsp]) hmw
          · intro h
            exact absurd (ht'.parent hs h).1 (Nat.lt_irrefl j)
        · -- the parent takes over
          rename_i hnone
          obtain ⟨hpi, m, hm, hanc⟩ := ht.parent hn hp
          have hmw : m.state = .waitChildren := hl.waiting i n p m hn hr hp hm
          have hm' : (retireWhere P ns)[p]? = some m := by
            apply hkeep p m hm (by omega)
            intro h
            have := ht.anc_lt p m hm i h
            omega
          rw [setState_eq hm']
          apply hl'.setActive hm' (by rw [hmw]; simp)
          · intro k a ha hap
            by_contra har
            obtain ⟨hik, haw⟩ := hsibs k a ha har (by rw [hap, hp])
            exact nextSibling_none hnone k a hik ha hap haw
          · intro k a hkp ha hap
            by_contra har
            have := hl'.sib k p a m hkp ha hm' hap har (by rw [hmw]; simp)
            rw [hmw] at this
            exact absurd this (by simp)
          · intro h
            exact absurd (ht'.parent hm' h).1 (Nat.lt_irrefl p)
    split
    · exact hl
    · -- a waiting sibling is just retired
      rename_i hst
      have : setState ns i .retired = retireWhere (fun j _ => decide (j = i)) ns := by
        rw [setState_eq hn]
        apply List.ext_getElem?
        intro j
        rw [retireWhere_get, List.getElem?_set]
        split
        · rename_i hij
          subst hij
          have hlen : i < ns.length := by
            by_contra h
            rw [List.getElem?_eq_none (by omega)] at hn
            exact absurd hn (by simp)
          rw [if_pos hlen, hn]
          simp
        · rename_i hij
          cases ns[j]? with
          | none => rfl
          | some a =>
            simp only [Option.map_some, Option.some.injEq]
            rw [if_neg]
            simp only [decide_eq_true_eq]
            exact fun h => hij h.symm
      rw [this]
      constructor
      · intro j a p b ha hs hp hb
        rw [retireWhere_get] at ha hb
        cases ha0 : ns[j]? with
        | none => rw [ha0] at ha; simp at ha
        | some a0 =>
          cases hb0 : ns[p]? with
          | none => rw [hb0] at hb; simp at hb
          | some b0 =>
            rw [ha0] at ha
            rw [hb0] at hb
            simp only [Option.map_some, Option.some.injEq] at ha hb
            split at ha
            · subst ha; exact absurd rfl hs
            · subst ha
              have hw := hl.waiting j a0 p b0 ha0 hs hp hb0
              split at hb
              · rename_i hpi
                rw [decide_eq_true_eq] at hpi
                subst hpi
                rw [hn] at hb0
                cases hb0
                rw [hst] at hw
                exact absurd hw (by simp)
              · subst hb; exact hw
      · intro k j a b hkj ha hb hpar hsa hsb
        rw [retireWhere_get] at ha hb
        cases ha0 : ns[k]? with
        | none => rw [ha0] at ha; simp at ha
        | some a0 =>
          cases hb0 : ns[j]? with
          | none => rw [hb0] at hb; simp at hb
          | some b0 =>
            rw [ha0] at ha
            rw [hb0] at hb
            simp only [Option.map_some, Option.some.injEq] at ha hb
            split at ha
            · subst ha; exact absurd rfl hsa
            · subst ha
              split at hb
              · subst hb; exact absurd rfl hsb
              · subst hb
                exact hl.sib k j a0 b0 hkj ha0 hb0 hpar hsa hsb
    · rename_i h1 h2
      exact main h1 h2

/-- Two living sessions that are not waiting for a sibling lie on one branch of the tree. -/
theorem Life.comparable {ns : List (Node M T)} (hl : Life ns) (ht : IsTree ns) :
    ∀ (j i : Nat) (m n : Node M T), i < j → ns[i]? = some n → ns[j]? = some m →
      n.state ≠ .retired → n.state ≠ .waitSibling → m.state ≠ .retired → m.state ≠ .waitSibling →
      n.state = .waitChildren := by
  -- ancestors of a living session wait for their children
  have anc_waits : ∀ (j : Nat) (m : Node M T), ns[j]? = some m → m.state ≠ .retired →
      ∀ k ∈ m.anc, ∀ a, ns[k]? = some a → a.state = .waitChildren := by
    intro j
    induction j using Nat.strong_induction_on with
    | _ j ih =>
      intro m hm hs k hk a ha
      rcases Nat.eq_zero_or_pos j with rfl | hj
      · rw [(ht.root m hm).2] at hk; exact absurd hk (by simp)
      · obtain ⟨p, b, h1, h2, h3, h4⟩ := ht.child j m hm hj
        have hb := hl.waiting j m p b hm hs h1 h3
        rw [h4] at hk
        rcases List.mem_cons.mp hk with rfl | hk
        · rw [ha] at h3; cases h3; exact hb
        · exact ih p h2 b h3 (by rw [hb]; simp) k hk a ha
  -- the branch statement, by induction on the sum of the two indices
  have key : ∀ (N i j : Nat) (n m : Node M T), i + j ≤ N → ns[i]? = some n → ns[j]? = some m →
      n.state ≠ .retired → n.state ≠ .waitSibling → m.state ≠ .retired → m.state ≠ .waitSibling →
      i = j ∨ i ∈ m.anc ∨ j ∈ n.anc := by
    intro N
    induction N with
    | zero => intro i j n m h _ _ _ _ _ _; left; omega
    | succ N ih =>
      -- it is enough to treat `i < j`
      have half : ∀ (i j : Nat) (n m : Node M T), i + j ≤ N + 1 → i < j → ns[i]? = some n →
          ns[j]? = some m → n.state ≠ .retired → n.state ≠ .waitSibling → m.state ≠ .retired →
          m.state ≠ .waitSibling → i ∈ m.anc := by
        intro i j n m hN hij hn hm hn1 hn2 hm1 hm2
        obtain ⟨p, b, h1, h2, h3, h4⟩ := ht.child j m hm (by omega)
        have hb := hl.waiting j m p b hm hm1 h1 h3
        rcases ih i p n b (by omega) hn h3 hn1 hn2 (by rw [hb]; simp) (by rw [hb]; simp) with
          h | h | h
        · rw [h4, h]; simp
        · rw [h4]; exact List.mem_cons_of_mem _ h
        · -- `p` is a proper ancestor of `i`: the child of `p` towards `i` is a sibling of `j`
          exfalso
          have chain : ∀ (x : Nat) (c : Node M T), x ≤ i → ns[x]? = some c → c.state ≠ .retired →
              c.state ≠ .waitSibling → p ∈ c.anc → ∃ y d, y ≤ x ∧ ns[y]? = some d ∧
                d.parent = some p ∧ d.state ≠ .retired ∧ d.state ≠ .waitSibling := by
            intro x
            induction x using Nat.strong_induction_on with
            | _ x ihx =>
              intro c hxi hc hc1 hc2 hpc
              have hx0 : 0 < x := by
                rcases Nat.eq_zero_or_pos x with rfl | h
                · rw [(ht.root c hc).2] at hpc; exact absurd hpc (by simp)
                · exact h
              obtain ⟨q, e, g1, g2, g3, g4⟩ := ht.child x c hc hx0
              rw [g4] at hpc
              rcases List.mem_cons.mp hpc with hpq | hpq
              · exact ⟨x, c, Nat.le_refl _, hc, by rw [g1, hpq], hc1, hc2⟩
              · have he := hl.waiting x c q e hc hc1 g1 g3
                obtain ⟨y, d, k1, k2⟩ := ihx q g2 e (by omega) g3 (by rw [he]; simp)
                  (by rw [he]; simp) hpq
                exact ⟨y, d, by omega, k2⟩
          obtain ⟨y, d, hy, hd, hdp, hd1, hd2⟩ := chain i n (Nat.le_refl _) hn hn1 hn2 h
          exact hm2 (hl.sib y j d m (by omega) hd hm (by rw [hdp, h1]) hd1 hm1)
      intro i j n m hN hn hm hn1 hn2 hm1 hm2
      rcases Nat.lt_trichotomy i j with h | h | h
      · exact Or.inr (Or.inl (half i j n m hN h hn hm hn1 hn2 hm1 hm2))
      · exact Or.inl h
      · exact Or.inr (Or.inr (half j i m n (by omega) h hm hn hm1 hm2 hn1 hn2))
  intro j i m n hij hn hm hn1 hn2 hm1 hm2
  rcases key (i + j) i j n m (Nat.le_refl _) hn hm hn1 hn2 hm1 hm2 with h | h | h
  · omega
  · exact anc_waits j m hm hm1 i h n hn
  · have := ht.anc_lt i n hn j h
    omega

end Verif.Session
