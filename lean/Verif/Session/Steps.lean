import Verif.Session.Tree
import Verif.Budget.Props

/-!
# Case analysis of one call, and the arena invariants

Auxiliary lemmas: `step_cases` lists what a call can do to the state; `Inv` is kept by every call.
-/

namespace Verif.Session

open Verif.Budget (XNum PB Rounding adjustBudget)

variable {Q M T D V : Type}

theorem activate_self {ns ns' : List (Node M T)} {i : Nat} {n : Node M T} (hn : ns[i]? = some n)
    (h : activate ns i = .ok ns') : ns'[i]? = some { n with state := .active } := by
  have hlen : i < ns.length := by
    by_contra h
    rw [List.getElem?_eq_none (by omega)] at hn
    exact absurd hn (by simp)
  unfold activate at h
  rw [hn] at h
  simp only at h
  split at h
  · rename_i hs
    cases h
    rw [hn, ← hs]
  · split at h
    · exact absurd h (by simp)
    · rename_i h1 h2
      cases h
      unfold forceActivate
      rw [hn]
      simp only
      cases hst : n.state with
      | active => exact absurd hst h1
      | retired => exact absurd hst h2
      | waitChildren =>
        simp only
        rw [List.getElem?_set_self (by rw [(retireWhere_stateOnly _ ns).length]; exact hlen)]
      | waitSibling =>
        simp only
        rw [List.getElem?_set_self (by rw [(retireWhere_stateOnly _ ns).length]; exact hlen)]

theorem activate_not_retired {ns ns' : List (Node M T)} {i : Nat} {n : Node M T}
    (hn : ns[i]? = some n) (h : activate ns i = .ok ns') : n.state ≠ .retired := by
  unfold activate at h
  rw [hn] at h
  simp only at h
  split at h
  · rename_i hs; rw [hs]; simp
  · split at h
    · exact absurd h (by simp)
    · assumption

/-- What one call can do. -/
inductive Step (env : Env Q M T D V) (w : World M T D) :
    Op Q D V → Except Err (Out M) → World M T D → Prop
  /-- rejected before anything happened -/
  | reject (op : Op Q D V) (e : Err) : Step env w op (.error e) w
  /-- rejected after the accountant was activated -/
  | late (op : Op Q D V) (e : Err) (ns : List (Node M T)) (h : activate w.nodes op.target = .ok ns) :
      Step env w op (.error e) { w with nodes := ns }
  | evaluate (i : Nat) (q : Q) (b : PB) (n : Node M T) (m : M) (adj : PB) (ns : List (Node M T))
      (hn : w.nodes[i]? = some n) (hc : compileInfo env w n q b = .ok (m, adj))
      (ha : activate w.nodes i = .ok ns) (hp : env.privRel m adj = true)
      (hs : canSpend n.remaining adj = true) :
      Step env w (.evaluate i q b) (.ok (.answer m adj))
        { w with nodes := ns.set i { n with
            state := .active
            remaining := spend n.remaining adj
            log := n.log ++ [.measured m adj] } }
  | createView (i : Nat) (q : Q) (name : String) (n : Node M T) (t : T) (ns : List (Node M T))
      (hn : w.nodes[i]? = some n) (hi : env.isIdent name = true)
      (ha : activate w.nodes i = .ok ns) (h1 : name ∉ names n.tables)
      (h2 : name ∉ names (w.pubOf n)) (ht : env.transform n.tables (w.pubOf n) q = .ok t) :
      Step env w (.createView i q name) (.ok .none)
        { w with nodes := ns.set i { n with state := .active, tables := (name, t) :: n.tables } }
  | deleteView (i : Nat) (name : String) (n : Node M T) (ns : List (Node M T))
      (hn : w.nodes[i]? = some n) (ha : activate w.nodes i = .ok ns) (h1 : name ∈ names n.tables) :
      Step env w (.deleteView i name) (.ok .none)
        { w with nodes := ns.set i { n with
            state := .active, tables := n.tables.filter (fun p => p.1 != name) } }
  | addPublic (i : Nat) (name : String) (df df' : D) (n : Node M T)
      (hn : w.nodes[i]? = some n) (hi : env.isIdent name = true)
      (h1 : name ∉ names (w.pubOf n)) (h2 : name ∉ names n.tables) (hc : env.coerce df = .ok df') :
      Step env w (.addPublic i name df) (.ok .none)
        { w with heap := w.heap.set n.pub (w.pubOf n ++ [(name, df')]) }
  | partition (i : Nat) (src : String) (b : PB) (col : String) (splits : List (String × V))
      (n : Node M T) (adj : PB) (t : T) (ns : List (Node M T))
      (hn : w.nodes[i]? = some n) (hk : kindMatches n.remaining (convertBudget n.remaining b) = true)
      (hid : ∀ s ∈ names splits, env.isIdent s = true)
      (hadj : processRequested env.rounding n.remaining (convertBudget n.remaining b) = .ok adj)
      (ht : env.partition n.tables (w.pubOf n) src col (splits.map Prod.snd) = .ok t)
      (ha : activate w.nodes i = .ok ns) (hs : canSpend n.remaining adj = true) :
      Step env w (.partition i src b col splits)
        (.ok (.sessions ((names splits).zip ((List.range splits.length).map (· + w.nodes.length)))))
        { w with nodes := ns.set i { n with
              state := .waitChildren
              remaining := spend n.remaining adj
              log := n.log ++ [.split adj ((List.range splits.length).map (· + w.nodes.length))] }
            ++ mkChildren i { n with state := .active } adj t true (names splits) }
  | stop (i : Nat) (n : Node M T) (hn : w.nodes[i]? = some n) :
      Step env w (.stop i) (.ok .none) { w with nodes := retire w.nodes i }

theorem step_cases (env : Env Q M T D V) (w : World M T D) (op : Op Q D V) :
    Step env w op (step env w op).1 (step env w op).2 := by
  cases op with
  | evaluate i q b =>
    simp only [step, Verif.Session.evaluate]
    cases hn : w.nodes[i]? with
    | none => exact .reject _ _
    | some n =>
      simp only
      cases hc : compileInfo env w n q b with
      | error e => exact .reject _ _
      | ok r =>
        obtain ⟨m, adj⟩ := r
        simp only
        cases ha : activate w.nodes i with
        | error e => exact .reject _ _
        | ok ns =>
          simp only
          cases hp : env.privRel m adj with
          | false => exact .late (.evaluate i q b) _ _ ha
          | true =>
            cases hs : canSpend n.remaining adj with
            | false => exact .late (.evaluate i q b) _ _ ha
            | true =>
              simp only [activate_self hn ha]
              exact .evaluate i q b n m adj ns hn hc ha hp hs
  | createView i q name =>
    simp only [step, Verif.Session.createView]
    cases hn : w.nodes[i]? with
    | none => exact .reject _ _
    | some n =>
      simp only
      cases hi : env.isIdent name with
      | false => exact .reject _ _
      | true =>
        cases ha : activate w.nodes i with
        | error e => exact .reject _ _
        | ok ns =>
          simp only [activate_self hn ha, Bool.not_true, Bool.false_eq_true, if_false]
          split
          · exact .late (.createView i q name) _ _ ha
          · rename_i hc
            simp only [Bool.or_eq_true, List.contains_iff_mem, not_or] at hc
            have hpub : w.pubOf { n with state := .active } = w.pubOf n := rfl
            rw [hpub] at hc ⊢
            cases ht : env.transform n.tables (w.pubOf n) q with
            | error e => exact .late (.createView i q name) _ _ ha
            | ok t => exact .createView i q name n t ns hn hi ha hc.1 hc.2 ht
  | deleteView i name =>
    simp only [step, Verif.Session.deleteView]
    cases hn : w.nodes[i]? with
    | none => exact .reject _ _
    | some n =>
      simp only
      cases ha : activate w.nodes i with
      | error e => exact .reject _ _
      | ok ns =>
        simp only [activate_self hn ha]
        split
        · exact .late (.deleteView i name) _ _ ha
        · rename_i hc
          simp only [Bool.not_eq_true, Bool.not_eq_false', List.contains_iff_mem] at hc
          exact .deleteView i name n ns hn ha hc
  | addPublic i name df =>
    simp only [step, Verif.Session.addPublic]
    cases hn : w.nodes[i]? with
    | none => exact .reject _ _
    | some n =>
      simp only
      cases hi : env.isIdent name with
      | false => exact .reject _ _
      | true =>
        simp only [Bool.not_true, Bool.false_eq_true, if_false]
        split
        · exact .reject _ _
        · rename_i hc
          simp only [Bool.or_eq_true, List.contains_iff_mem, not_or] at hc
          cases hd : env.coerce df with
          | error e => exact .reject _ _
          | ok df' => exact .addPublic i name df df' n hn hi hc.1 hc.2 hd
  | partition i src b col splits =>
    simp only [step, Verif.Session.partition]
    cases hn : w.nodes[i]? with
    | none => exact .reject _ _
    | some n =>
      simp only
      cases hk : kindMatches n.remaining (convertBudget n.remaining b) with
      | false => exact .reject _ _
      | true =>
        simp only [Bool.not_true, Bool.false_eq_true, if_false]
        split
        · exact .reject _ _
        · rename_i hid
          simp only [Bool.not_eq_true, Bool.not_eq_false', List.all_eq_true] at hid
          cases hadj : processRequested env.rounding n.remaining (convertBudget n.remaining b) with
          | error e => exact .reject _ _
          | ok adj =>
            simp only
            cases ht : env.partition n.tables (w.pubOf n) src col (splits.map Prod.snd) with
            | error e => exact .reject _ _
            | ok t =>
              simp only
              cases ha : activate w.nodes i with
              | error e => exact .reject _ _
              | ok ns =>
                cases hs : canSpend n.remaining adj with
                | false => exact .late (.partition i src b col splits) _ _ ha
                | true =>
                  simp only [activate_self hn ha, (activate_stateOnly ha).length]
                  exact .partition i src b col splits n adj t ns hn hk hid hadj ht ha hs
  | stop i =>
    simp only [step, Verif.Session.stop]
    cases hn : w.nodes[i]? with
    | none => exact .reject _ _
    | some n => exact .stop i n hn

/-! ## Children made by a partition -/

theorem mkChildren_length (i : Nat) (n : Node M T) (amt : PB) (t : T) :
    ∀ (f : Bool) (l : List String), (mkChildren i n amt t f l).length = l.length
  | _, [] => rfl
  | f, s :: rest => by simp [mkChildren, mkChildren_length i n amt t false rest]

theorem mkChildren_get (i : Nat) (n : Node M T) (amt : PB) (t : T) :
    ∀ (f : Bool) (l : List String) (k : Nat) (c : Node M T), (mkChildren i n amt t f l)[k]? = some c →
      ∃ s, l[k]? = some s ∧ c =
        { parent := some i, anc := i :: n.anc,
          state := if f && decide (k = 0) then .active else .waitSibling,
          total := amt, remaining := amt, tables := [(s, t)], pub := n.pub, log := [] }
  | _, [], k, c, h => by simp [mkChildren] at h
  | f, s :: rest, 0, c, h => by
    simp only [mkChildren, List.getElem?_cons_zero, Option.some.injEq] at h
    refine ⟨s, rfl, ?_⟩
    rw [← h]
    simp
  | f, s :: rest, k + 1, c, h => by
    simp only [mkChildren, List.getElem?_cons_succ] at h
    obtain ⟨s', h1, h2⟩ := mkChildren_get i n amt t false rest k c h
    refine ⟨s', by simpa using h1, ?_⟩
    rw [h2]
    simp

/-! ## The arena invariant -/

/-- Invariant of the arena. -/
structure Inv (w : World M T D) : Prop where
  tree : IsTree w.nodes
  life : Life w.nodes

theorem IsTree.ofSet {ns : List (Node M T)} (ht : IsTree ns) {i : Nat} {n n' : Node M T}
    (hn : ns[i]? = some n) (h1 : n'.parent = n.parent) (h2 : n'.anc = n.anc) :
    IsTree (ns.set i n') := by
  have hlen : i < ns.length := by
    by_contra h
    rw [List.getElem?_eq_none (by omega)] at hn
    exact absurd hn (by simp)
  have hget : ∀ j, (ns.set i n')[j]? = if i = j then some n' else ns[j]? := by
    intro j
    rw [List.getElem?_set]
    split
    · simp [hlen]
    · rfl
  constructor
  · intro a ha
    rw [hget] at ha
    split at ha
    · rename_i hi
      subst hi
      cases ha
      rw [h1, h2]
      exact ht.root n hn
    · exact ht.root a ha
  · intro j a ha hj
    have : ∃ p m, a.parent = some p ∧ p < j ∧ ns[p]? = some m ∧ a.anc = p :: m.anc := by
      rw [hget] at ha
      split at ha
      · rename_i hi
        subst hi
        cases ha
        rw [h1, h2]
        exact ht.child i n hn hj
      · exact ht.child j a ha hj
    obtain ⟨p, m, k1, k2, k3, k4⟩ := this
    by_cases hip : i = p
    · subst hip
      rw [hn] at k3
      cases k3
      exact ⟨i, n', k1, k2, by rw [hget, if_pos rfl], by rw [k4, h2]⟩
    · exact ⟨p, m, k1, k2, by rw [hget, if_neg hip]; exact k3, k4⟩

/-- Overwriting a node without touching its state or parent keeps the life cycle. -/
theorem Life.ofSet {ns : List (Node M T)} (hl : Life ns) {i : Nat} {n n' : Node M T}
    (hn : ns[i]? = some n) (h1 : n'.parent = n.parent) (h2 : n'.state = n.state) :
    Life (ns.set i n') := by
  have hlen : i < ns.length := by
    by_contra h
    rw [List.getElem?_eq_none (by omega)] at hn
    exact absurd hn (by simp)
  have hget : ∀ (j : Nat) (a : Node M T), (ns.set i n')[j]? = some a →
      ∃ b : Node M T, ns[j]? = some b ∧ a.parent = b.parent ∧ a.state = b.state := by
    intro j a ha
    rw [List.getElem?_set] at ha
    split at ha
    · rename_i hi
      subst hi
      cases ha
      exact ⟨n, hn, h1, h2⟩
    · exact ⟨a, ha, rfl, rfl⟩
  constructor
  · intro j a p b ha hs hp hb
    obtain ⟨a', g1, g2, g3⟩ := hget j a ha
    obtain ⟨b', g4, g5, g6⟩ := hget p b hb
    rw [g6]
    exact hl.waiting j a' p b' g1 (by rw [← g3]; exact hs) (by rw [← g2]; exact hp) g4
  · intro k j a b hkj ha hb hp hs1 hs2
    obtain ⟨a', g1, g2, g3⟩ := hget k a ha
    obtain ⟨b', g4, g5, g6⟩ := hget j b hb
    rw [g6]
    exact hl.sib k j a' b' hkj g1 g4 (by rw [← g2, ← g5]; exact hp) (by rw [← g3]; exact hs1)
      (by rw [← g6]; exact hs2)

theorem Life.ofActivate {ns ns' : List (Node M T)} (hl : Life ns) (ht : IsTree ns) {i : Nat}
    (h : activate ns i = .ok ns') : Life ns' := by
  unfold activate at h
  split at h
  · exact absurd h (by simp)
  · split at h
    · cases h; exact hl
    · split at h
      · exact absurd h (by simp)
      · cases h; exact hl.ofForceActivate ht i

/-- Adding the children of a partition of an active session keeps the invariant. -/
theorem inv_partition {ns : List (Node M T)} (ht : IsTree ns) (hl : Life ns) {i : Nat}
    {n n' : Node M T} (hn : ns[i]? = some n) (hact : n.state = .active)
    (h1 : n'.parent = n.parent) (h2 : n'.anc = n.anc) (h3 : n'.state = .waitChildren)
    (amt : PB) (t : T) (l : List String) :
    IsTree (ns.set i n' ++ mkChildren i n amt t true l) ∧
    Life (ns.set i n' ++ mkChildren i n amt t true l) := by
  have hlen : i < ns.length := by
    by_contra h
    rw [List.getElem?_eq_none (by omega)] at hn
    exact absurd hn (by simp)
  -- every node of the result is `n'` at `i`, an old node elsewhere, or a new child
  have hget : ∀ (j : Nat) (a : Node M T),
      (ns.set i n' ++ mkChildren i n amt t true l)[j]? = some a →
      (j = i ∧ a = n') ∨ (j ≠ i ∧ j < ns.length ∧ ns[j]? = some a) ∨
      (ns.length ≤ j ∧ a.parent = some i ∧ a.anc = i :: n.anc ∧
        (a.state = .active ∨ a.state = .waitSibling) ∧ (ns.length < j → a.state = .waitSibling)) := by
    intro j a ha
    rw [List.getElem?_append] at ha
    split at ha
    · rename_i hj
      rw [List.length_set] at hj
      rw [List.getElem?_set] at ha
      split at ha
      · rename_i hi
        cases ha
        exact Or.inl ⟨hi.symm, rfl⟩
      · rename_i hi
        exact Or.inr (Or.inl ⟨fun h => hi h.symm, hj, ha⟩)
    · rename_i hj
      rw [List.length_set] at hj ha
      obtain ⟨s, _, hc⟩ := mkChildren_get i n amt t true l _ a ha
      subst hc
      refine Or.inr (Or.inr ⟨by omega, rfl, rfl, ?_, ?_⟩)
      · simp only
        split
        · exact Or.inl rfl
        · exact Or.inr rfl
      · intro hlt
        simp only
        rw [if_neg]
        simp
        omega
  have hput : ∀ j, j < ns.length → (ns.set i n' ++ mkChildren i n amt t true l)[j]? =
      if i = j then some n' else ns[j]? := by
    intro j hj
    rw [List.getElem?_append, if_pos (by rw [List.length_set]; exact hj), List.getElem?_set]
    split
    · simp [hlen]
    · rfl
  have hlt : ∀ {j : Nat} {a : Node M T}, ns[j]? = some a → j < ns.length := by
    intro j a ha
    by_contra h
    rw [List.getElem?_eq_none (by omega)] at ha
    exact absurd ha (by simp)
  constructor
  · constructor
    · intro a ha
      rcases hget 0 a ha with ⟨h, rfl⟩ | ⟨_, _, h⟩ | ⟨h, _⟩
      · subst h
        rw [h1, h2]; exact ht.root n hn
      · exact ht.root a h
      · omega
    · intro j a ha hj
      rcases hget j a ha with ⟨h, rfl⟩ | ⟨_, hjl, h⟩ | ⟨h, hp, hanc, _⟩
      · subst h
        obtain ⟨p, m, k1, k2, k3, k4⟩ := ht.child j n hn hj
        refine ⟨p, m, by rw [h1, k1], k2, ?_, by rw [h2, k4]⟩
        rw [hput p (hlt k3), if_neg (by omega)]
        exact k3
      · obtain ⟨p, m, k1, k2, k3, k4⟩ := ht.child j a h hj
        by_cases hip : i = p
        · subst hip
          rw [hn] at k3
          cases k3
          exact ⟨i, n', k1, k2, by rw [hput i hlen, if_pos rfl], by rw [k4, h2]⟩
        · exact ⟨p, m, k1, k2, by rw [hput p (hlt k3), if_neg hip]; exact k3, k4⟩
      · exact ⟨i, n', hp, by omega, by rw [hput i hlen, if_pos rfl], by rw [hanc, h2]⟩
  · -- old children of `i` are all retired, because `i` was active
    have hold : ∀ (j : Nat) (a : Node M T), ns[j]? = some a → a.parent = some i → a.state = .retired := by
      intro j a ha hp
      by_contra hr
      have := hl.waiting j a i n ha hr hp hn
      rw [hact] at this
      exact absurd this (by simp)
    have hnr : n.state ≠ .retired := by rw [hact]; simp
    constructor
    · intro j a p b ha hs hp hb
      rcases hget p b hb with ⟨hpi, rfl⟩ | ⟨hpi, hpl, hb'⟩ | ⟨hpl, _⟩
      · exact h3
      · rcases hget j a ha with ⟨hji, rfl⟩ | ⟨_, _, ha'⟩ | ⟨_, hp', _⟩
        · subst hji
          exact hl.waiting j n p b hn hnr (by rw [← h1]; exact hp) hb'
        · exact hl.waiting j a p b ha' hs hp hb'
        · rw [hp] at hp'
          cases hp'
          exact absurd rfl hpi
      · -- new sessions have no children
        exfalso
        rcases hget j a ha with ⟨hji, rfl⟩ | ⟨_, _, ha'⟩ | ⟨_, hp', _⟩
        · have := (ht.parent hn (by rw [← h1]; exact hp)).1
          omega
        · have h4 := hlt ha'
          have := (ht.parent ha' hp).1
          omega
        · rw [hp] at hp'
          cases hp'
          omega
    · intro k j a b hkj ha hb hp hs1 hs2
      rcases hget k a ha with ⟨hki, rfl⟩ | ⟨hki, hkl, ha'⟩ | ⟨hkl, hpa, _⟩
      · rcases hget j b hb with ⟨hji, rfl⟩ | ⟨_, _, hb'⟩ | ⟨_, hpb, _⟩
        · omega
        · subst hki
          exact hl.sib k j n b hkj hn hb' (by rw [← h1]; exact hp) hnr hs2
        · exfalso
          have := (ht.parent hn (by rw [← h1, hp, hpb])).1
          omega
      · rcases hget j b hb with ⟨hji, rfl⟩ | ⟨_, _, hb'⟩ | ⟨_, hpb, _⟩
        · subst hji
          have := hl.sib k j a n hkj ha' hn (by rw [hp, h1]) hs1 hnr
          rw [hact] at this
          exact absurd this (by simp)
        · exact hl.sib k j a b hkj ha' hb' hp hs1 hs2
        · exact absurd (hold k a ha' (by rw [hp, hpb])) hs1
      · rcases hget j b hb with ⟨hji, rfl⟩ | ⟨_, hjl, hb'⟩ | ⟨hjl, hpb, _, _, hw⟩
        · omega
        · omega
        · exact hw (by omega)

theorem inv_step {env : Env Q M T D V} {w w' : World M T D} {op : Op Q D V}
    {res : Except Err (Out M)} (hi : Inv w) (h : Step env w op res w') : Inv w' := by
  have hact : ∀ {i ns}, activate w.nodes i = .ok ns → IsTree ns ∧ Life ns := fun ha =>
    ⟨hi.tree.stateOnly (activate_stateOnly ha), hi.life.ofActivate hi.tree ha⟩
  cases h with
  | reject _ e => exact hi
  | late _ e ns h => exact ⟨(hact h).1, (hact h).2⟩
  | evaluate i q b n m adj ns hn hc ha hp hs =>
    have hn' := activate_self hn ha
    exact ⟨(hact ha).1.ofSet hn' rfl rfl, (hact ha).2.ofSet hn' rfl rfl⟩
  | createView i q name n t ns hn hi ha h1 h2 ht =>
    have hn' := activate_self hn ha
    exact ⟨(hact ha).1.ofSet hn' rfl rfl, (hact ha).2.ofSet hn' rfl rfl⟩
  | deleteView i name n ns hn ha h1 =>
    have hn' := activate_self hn ha
    exact ⟨(hact ha).1.ofSet hn' rfl rfl, (hact ha).2.ofSet hn' rfl rfl⟩
  | addPublic => exact ⟨hi.tree, hi.life⟩
  | partition i src b col splits n adj t ns hn hk hid hadj ht ha hs =>
    have hn' := activate_self hn ha
    have := inv_partition (n' := { n with
              state := .waitChildren
              remaining := spend n.remaining adj
              log := n.log ++ [.split adj ((List.range splits.length).map (· + w.nodes.length))] })
      (hact ha).1 (hact ha).2 hn' rfl rfl rfl rfl adj t (names splits)
    exact ⟨this.1, this.2⟩
  | stop i n hn =>
    exact ⟨hi.tree.stateOnly (retire_stateOnly _ _), hi.life.ofRetire hi.tree i⟩

theorem inv_init (b : PB) (tables : List (String × T)) : Inv (init b tables : World M T D) := by
  have hget : ∀ (j : Nat) (n : Node M T), (init b tables : World M T D).nodes[j]? = some n →
      j = 0 ∧ n.parent = none ∧ n.anc = [] := by
    intro j n hn
    cases j with
    | zero =>
      simp only [init, List.getElem?_cons_zero, Option.some.injEq] at hn
      subst hn
      exact ⟨rfl, rfl, rfl⟩
    | succ j => simp [init] at hn
  constructor
  · constructor
    · intro n hn; exact (hget 0 n hn).2
    · intro j n hn hj; have := (hget j n hn).1; omega
  · constructor
    · intro j n p m hn _ hp; rw [(hget j n hn).2.1] at hp; exact absurd hp (by simp)
    · intro i j n m hij hn hm; have h1 := (hget i n hn).1; have h2 := (hget j m hm).1; omega

/-- Induction over histories: anything that holds initially and is kept by every call. -/
theorem run_induction {env : Env Q M T D V} (P : World M T D → Prop)
    (hstep : ∀ w op res w', P w → Step env w op res w' → P w') :
    ∀ (ops : List (Op Q D V)) (w : World M T D), P w → P (run env w ops)
  | [], _, h => h
  | op :: ops, w, h => run_induction P hstep ops _ (hstep w op _ _ h (step_cases env w op))

/-- The same when the calls of the history satisfy a condition. -/
theorem run_induction_of {env : Env Q M T D V} (P : World M T D → Prop) (C : Op Q D V → Prop)
    (hstep : ∀ w op res w', C op → P w → Step env w op res w' → P w') :
    ∀ (ops : List (Op Q D V)) (w : World M T D), (∀ op ∈ ops, C op) → P w → P (run env w ops)
  | [], _, _, h => h
  | op :: ops, w, hC, h =>
    run_induction_of P C hstep ops _ (fun o ho => hC o (List.mem_cons_of_mem _ ho))
      (hstep w op _ _ (hC op (by simp)) h (step_cases env w op))

theorem inv_run {env : Env Q M T D V} {w : World M T D} (h : Inv w) (ops : List (Op Q D V)) :
    Inv (run env w ops) :=
  run_induction Inv (fun _ _ _ _ hi hs => inv_step hi hs) ops w h

end Verif.Session
