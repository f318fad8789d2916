import Verif.Session.PropsRequests

/-!
# Properties of session trees, views and public tables: C02, C08, C36, C47
-/

namespace Verif.Session

open Verif.Budget

variable {Q M T D V : Type}

/-! ## Specification vocabulary -/

/-- What a user can observe of a session: what it reports as remaining, its private tables (sources and
views) with everything known about them, and its public tables. -/
structure Observed (T D : Type) where
  remaining : PB
  tables : List (String × T)
  publics : List (String × D)

def observe (w : World M T D) (i : Nat) : Option (Observed T D) :=
  (w.nodes[i]?).map (fun n => ⟨n.remaining, n.tables, w.pubOf n⟩)

/-- The state of a session. -/
def stateOf (w : World M T D) (i : Nat) : Option AState := (w.nodes[i]?).map (·.state)

/-- Session `i` was obtained from session `a` by (repeated) partitioning. -/
inductive Descends (w : World M T D) : Nat → Nat → Prop
  | child (i a : Nat) (n : Node M T) (hn : w.nodes[i]? = some n) (hp : n.parent = some a) :
      Descends w i a
  | step (i p a : Nat) (n : Node M T) (hn : w.nodes[i]? = some n) (hp : n.parent = some p)
      (h : Descends w p a) : Descends w i a

/-! ## C02 -/

/-- **C02.** If a call raises, then the remaining budget, the private tables and views, and the public
tables of *every* session are exactly what they were. -/
theorem C02_rejected_call_changes_nothing {env : Env Q M T D V} (w : World M T D) (op : Op Q D V)
    (e : Err) (h : (step env w op).1 = .error e) (i : Nat) :
    observe (step env w op).2 i = observe w i := by
  have hst := step_cases env w op
  rw [h] at hst
  generalize (step env w op).2 = w' at hst
  cases hst with
  | reject _ e => rfl
  | late _ e ns h =>
    have hso := activate_stateOnly h
    unfold observe
    cases hn : w.nodes[i]? with
    | none => simp [hso.getNone hn]
    | some n =>
      obtain ⟨s, hs⟩ := hso.get hn
      simp only [hs, Option.map_some, Option.some.injEq]
      rfl

/-- **C02**, stronger when the session is the one whose turn it is: a call that raises on an active (or
retired) session leaves the whole state unchanged, including who may run queries. -/
theorem C02_active_session_unchanged {env : Env Q M T D V} (w : World M T D) (op : Op Q D V)
    (e : Err) (h : (step env w op).1 = .error e)
    (hs : stateOf w op.target ≠ some .waitChildren ∧ stateOf w op.target ≠ some .waitSibling) :
    (step env w op).2 = w := by
  have hst := step_cases env w op
  rw [h] at hst
  generalize (step env w op).2 = w' at hst
  cases hst with
  | reject _ e => rfl
  | late _ e ns h =>
    have : ns = w.nodes := by
      unfold activate at h
      split at h
      · simp at h
      · rename_i n hn
        unfold stateOf at hs
        rw [hn] at hs
        simp only [Option.map_some, ne_eq, Option.some.injEq] at hs
        split at h
        · cases h; rfl
        · rename_i h1
          split at h
          · simp at h
          · rename_i h2
            exfalso
            cases hst : n.state with
            | active => exact h1 hst
            | retired => exact h2 hst
            | waitChildren => exact hs.1 hst
            | waitSibling => exact hs.2 hst
    rw [this]

/-! ## C08 -/

theorem Descends.of_anc {w : World M T D} (ht : IsTree w.nodes) :
    ∀ (i : Nat) (n : Node M T), w.nodes[i]? = some n → ∀ a ∈ n.anc, Descends w i a := by
  intro i
  induction i using Nat.strong_induction_on with
  | _ i ih =>
    intro n hn a ha
    rcases Nat.eq_zero_or_pos i with rfl | hi
    · rw [(ht.root n hn).2] at ha; exact absurd ha (by simp)
    · obtain ⟨p, m, h1, h2, h3, h4⟩ := ht.child i n hn hi
      rw [h4] at ha
      rcases List.mem_cons.mp ha with rfl | ha
      · exact .child i _ n hn h1
      · exact .step i p a n hn h1 (ih p h2 m h3 a ha)

theorem Descends.anc {w : World M T D} (ht : IsTree w.nodes) {i a : Nat} (h : Descends w i a) :
    ∃ n, w.nodes[i]? = some n ∧ a ∈ n.anc := by
  induction h with
  | child i a n hn hp =>
    obtain ⟨_, m, _, h⟩ := ht.parent hn hp
    exact ⟨n, hn, by rw [h]; simp⟩
  | step i p a n hn hp _ ih =>
    obtain ⟨m, hm, ham⟩ := ih
    obtain ⟨_, m', hm', h⟩ := ht.parent hn hp
    rw [hm] at hm'
    cases hm'
    exact ⟨n, hn, by rw [h]; exact List.mem_cons_of_mem _ ham⟩

/-- **C08**, mutual exclusion: after any history at most one session of the tree is active. -/
theorem C08_one_active {env : Env Q M T D V} (b : PB) (tables : List (String × T))
    (ops : List (Op Q D V)) (i j : Nat)
    (hi : stateOf (run env (init b tables : World M T D) ops) i = some .active)
    (hj : stateOf (run env (init b tables : World M T D) ops) j = some .active) : i = j := by
  have hinv : Inv (run env (init b tables : World M T D) ops) := inv_run (inv_init b tables) ops
  generalize run env (init b tables : World M T D) ops = w at *
  unfold stateOf at hi hj
  rw [Option.map_eq_some_iff] at hi hj
  obtain ⟨n, hn, hns⟩ := hi
  obtain ⟨m, hm, hms⟩ := hj
  rcases Nat.lt_trichotomy i j with h | h | h
  · have := hinv.life.comparable hinv.tree j i m n h hn hm (by rw [hns]; simp) (by rw [hns]; simp)
      (by rw [hms]; simp) (by rw [hms]; simp)
    rw [hns] at this
    exact absurd this (by simp)
  · exact h
  · have := hinv.life.comparable hinv.tree i j n m h hm hn (by rw [hms]; simp) (by rw [hms]; simp)
      (by rw [hns]; simp) (by rw [hns]; simp)
    rw [hms] at this
    exact absurd this (by simp)

/-- Retired sessions stay retired, one step. -/
theorem retired_step {env : Env Q M T D V} {w w' : World M T D} {op : Op Q D V}
    {res : Except Err (Out M)} (hinv : Inv w) (hst : Step env w op res w') (i : Nat)
    (h : stateOf w i = some .retired) : stateOf w' i = some .retired := by
  unfold stateOf at h
  rw [Option.map_eq_some_iff] at h
  obtain ⟨n, hn, hs⟩ := h
  have hact : ∀ {j : Nat} {ns : List (Node M T)}, activate w.nodes j = .ok ns →
      j ≠ i ∧ ns[i]? = some n := by
    intro j ns ha
    have hji : j ≠ i := by
      rintro rfl
      exact activate_not_retired hn ha hs
    refine ⟨hji, ?_⟩
    obtain ⟨s, hs'⟩ := (activate_stateOnly ha).get hn
    rw [hs']
    congr 1
    -- activation of another session never revives
    have hst' : s = .retired := by
      unfold activate at ha
      split at ha
      · simp at ha
      · rename_i a haa
        split at ha
        · cases ha
          rw [hn] at hs'
          have := congrArg (Option.map Node.state) hs'
          simp only [Option.map_some, Option.some.injEq] at this
          rw [← this]; exact hs
        · split at ha
          · simp at ha
          · cases ha
            have key : ∀ (P : Nat → Node M T → Bool) (x : Node M T),
                ((retireWhere P w.nodes).set j x)[i]? = some { n with state := s } → s = .retired := by
              intro P x hx
              rw [List.getElem?_set, if_neg hji, retireWhere_get, hn] at hx
              have := congrArg (Option.map Node.state) hx
              simp only [Option.map_some, Option.some.injEq] at this
              rw [← this]
              split
              · rfl
              · exact hs
            unfold forceActivate at hs'
            rw [haa] at hs'
            simp only at hs'
            split at hs'
            · contradiction
            · contradiction
            · exact key _ _ hs'
            · exact key _ _ hs'
    cases n
    simp only at hs
    rw [hst', hs]
  have hset : ∀ {j : Nat} {ns : List (Node M T)} {x : Node M T}, activate w.nodes j = .ok ns →
      (ns.set j x)[i]? = some n := by
    intro j ns x ha
    obtain ⟨h1, h2⟩ := hact ha
    rw [List.getElem?_set, if_neg h1, h2]
  have done : ∀ {w' : World M T D}, w'.nodes[i]? = some n → stateOf w' i = some .retired := by
    intro w' h
    simp [stateOf, h, hs]
  cases hst with
  | reject _ e => exact done hn
  | late _ e ns h => exact done (hact h).2
  | evaluate j q b a m adj ns hn hc ha hp hs => exact done (hset ha)
  | createView j q name a t ns hn hi ha h1 h2 ht => exact done (hset ha)
  | deleteView j name a ns hn ha h1 => exact done (hset ha)
  | addPublic => exact done hn
  | partition j src b' col splits a adj t ns hn hk hid hadj ht ha hs =>
    apply done
    have := hset (x := { a with
              state := .waitChildren
              remaining := spend a.remaining adj
              log := a.log ++ [.split adj ((List.range splits.length).map (· + w.nodes.length))] }) ha
    simp only
    rw [List.getElem?_append_left (List.getElem?_eq_some_iff.mp this).1]
    exact this
  | stop j a ha =>
    -- retiring `j`: the session that is woken up was waiting, hence not `i`
    have hrw : ∀ (P : Nat → Node M T → Bool), (retireWhere P w.nodes)[i]? = some n := by
      intro P
      rw [retireWhere_get, hn]
      simp only [Option.map_some, Option.some.injEq]
      split
      · rw [← hs]
      · rfl
    unfold retire
    rw [ha]
    simp only
    split
    · exact done hn
    · apply done
      simp only
      rw [setState_eq ha, get_set ha]
      split
      · rename_i hji
        subst hji
        rw [ha] at hn
        cases hn
        rw [← hs]
      · exact hn
    · rename_i h1 h2
      split
      · exact done (hrw _)
      · rename_i p hp
        split
        · rename_i k hk
          obtain ⟨_, ⟨s, hs1, _, hs3⟩, _⟩ := nextSibling_some hk
          apply done
          simp only
          rw [setState_eq hs1, get_set hs1, if_neg, hrw]
          rintro rfl
          rw [hrw] at hs1
          cases hs1
          rw [hs] at hs3
          exact absurd hs3 (by simp)
        · obtain ⟨hpj, m, hm, _⟩ := hinv.tree.parent ha hp
          have hmw := hinv.life.waiting j a p m ha h1 hp hm
          apply done
          simp only
          have hso := retireWhere_stateOnly (fun k m => decide (k = j) || m.anc.contains j) w.nodes
          obtain ⟨s, hs'⟩ := hso.get hm
          rw [setState_eq hs', get_set hs', if_neg, hrw]
          rintro rfl
          rw [hn] at hm
          cases hm
          rw [hs] at hmw
          exact absurd hmw (by simp)

/-- **C08**, finality: once a session is retired it stays retired, and every call that would use its
data or budget raises and changes nothing. -/
theorem C08_retired_forever {env : Env Q M T D V} (b : PB) (tables : List (String × T))
    (ops ops' : List (Op Q D V)) (i : Nat)
    (h : stateOf (run env (init b tables : World M T D) ops) i = some .retired) :
    let w' := run env (run env (init b tables : World M T D) ops) ops'
    stateOf w' i = some .retired ∧
    (∀ q bud, (evaluate env w' i q bud).2 = w' ∧ ∃ e, (evaluate env w' i q bud).1 = .error e) ∧
    (∀ src bud col splits, (partition env w' i src bud col splits).2 = w' ∧
      ∃ e, (partition env w' i src bud col splits).1 = .error e) ∧
    (∀ q name, (createView env w' i q name).2 = w' ∧
      ∃ e, (createView env w' i q name).1 = .error e) ∧
    (∀ name, (deleteView w' i name).2 = w' ∧ ∃ e, (deleteView w' i name).1 = .error e) := by
  intro w'
  have hinv : Inv (run env (init b tables : World M T D) ops) := inv_run (inv_init b tables) ops
  have hret : stateOf w' i = some .retired ∧ Inv w' := by
    apply run_induction (env := env) (P := fun w : World M T D => stateOf w i = some .retired ∧ Inv w)
    · rintro w op res w'' ⟨h1, h2⟩ hst
      exact ⟨retired_step h2 hst i h1, inv_step h2 hst⟩
    · exact ⟨h, hinv⟩
  refine ⟨hret.1, ?_⟩
  have hret := hret.1
  unfold stateOf at hret
  rw [Option.map_eq_some_iff] at hret
  obtain ⟨n, hn, hs⟩ := hret
  have hact : activate w'.nodes i = .error .inactive := by
    unfold activate; rw [hn]; simp [hs]
  refine ⟨?_, ?_, ?_, ?_⟩
  · intro q bud
    unfold evaluate
    simp only [hn]
    cases hc : compileInfo env w' n q bud with
    | error e => exact ⟨rfl, e, rfl⟩
    | ok p => obtain ⟨m, adj⟩ := p; rw [hact]; exact ⟨rfl, _, rfl⟩
  · intro src bud col splits
    unfold partition
    simp only [hn, hact]
    split
    · exact ⟨rfl, _, rfl⟩
    · split
      · exact ⟨rfl, _, rfl⟩
      · split
        · exact ⟨rfl, _, rfl⟩
        · split
          · exact ⟨rfl, _, rfl⟩
          · exact ⟨rfl, _, rfl⟩
  · intro q name
    unfold createView
    simp only [hn, hact]
    split
    · exact ⟨rfl, _, rfl⟩
    · exact ⟨rfl, _, rfl⟩
  · intro name
    unfold deleteView
    rw [hn]
    simp only
    rw [hact]
    exact ⟨rfl, _, rfl⟩

/-- After a successful activation of `i`, all its descendants and all its preceding siblings with their
descendants are retired. -/
theorem activate_supersedes {w : World M T D} (hinv : Inv w) {i : Nat} {ns : List (Node M T)}
    (ha : activate w.nodes i = .ok ns) (hinv' : Life ns) {j : Nat} {m : Node M T}
    (hm : ns[j]? = some m) {n : Node M T} (hn : w.nodes[i]? = some n)
    (h : i ∈ m.anc ∨ ∃ k s, k < i ∧ w.nodes[k]? = some s ∧ s.parent = n.parent ∧
      (k = j ∨ k ∈ m.anc)) : m.state = .retired := by
  have htree : IsTree ns := hinv.tree.stateOnly (activate_stateOnly ha)
  have hself := activate_self hn ha
  -- in a living chain every ancestor waits for its children
  have anc_waits : ∀ (j : Nat) (m : Node M T), ns[j]? = some m → m.state ≠ .retired →
      ∀ k ∈ m.anc, ∀ a, ns[k]? = some a → a.state = .waitChildren := by
    intro j
    induction j using Nat.strong_induction_on with
    | _ j ih =>
      intro m hm hs k hk a ha
      rcases Nat.eq_zero_or_pos j with rfl | hj
      · rw [(htree.root m hm).2] at hk; exact absurd hk (by simp)
      · obtain ⟨p, b, h1, h2, h3, h4⟩ := htree.child j m hm hj
        have hb := hinv'.waiting j m p b hm hs h1 h3
        rw [h4] at hk
        rcases List.mem_cons.mp hk with rfl | hk
        · rw [ha] at h3; cases h3; exact hb
        · exact ih p h2 b h3 (by rw [hb]; simp) k hk a ha
  by_contra hr
  rcases h with h | ⟨k, s, hk, hks, hsp, hkj⟩
  · have := anc_waits j m hm hr i h _ hself
    simp at this
  · obtain ⟨st, hst⟩ := (activate_stateOnly ha).get hks
    have hkr : st ≠ .retired := by
      rcases hkj with rfl | hkj
      · rw [hm] at hst
        have := congrArg (Option.map Node.state) hst
        simp only [Option.map_some, Option.some.injEq] at this
        rw [← this]; exact hr
      · have := anc_waits j m hm hr k hkj _ hst
        simp only at this
        rw [this]; simp
    have := hinv'.sib k i _ _ hk hst hself hsp hkr (by simp)
    simp at this

/-- **C08**, superseding: when a session is successfully used for a query or a partition, every
session that descended from it, every earlier part of the same partition and everything that descended
from those, is retired afterwards. -/
theorem C08_use_supersedes {env : Env Q M T D V} (b : PB) (tables : List (String × T))
    (ops : List (Op Q D V)) (op : Op Q D V) (out : Out M)
    (hop : (∃ i q bud, op = .evaluate i q bud) ∨ (∃ i src bud col sp, op = .partition i src bud col sp))
    (hok : (step env (run env (init b tables : World M T D) ops) op).1 = .ok out)
    (j : Nat)
    (hj : Descends (run env (init b tables : World M T D) ops) j op.target ∨
      ∃ k s n, k < op.target ∧ (run env (init b tables : World M T D) ops).nodes[k]? = some s ∧
        (run env (init b tables : World M T D) ops).nodes[op.target]? = some n ∧
        s.parent = n.parent ∧
        (k = j ∨ Descends (run env (init b tables : World M T D) ops) j k)) :
    stateOf (step env (run env (init b tables : World M T D) ops) op).2 j = some .retired := by
  have hinv : Inv (run env (init b tables : World M T D) ops) := inv_run (inv_init b tables) ops
  generalize run env (init b tables : World M T D) ops = w at *
  have hst := step_cases env w op
  rw [hok] at hst
  generalize (step env w op).2 = w' at hst
  -- the common part: state after the activation
  have main : ∀ (i : Nat) (ns : List (Node M T)) (n : Node M T), op.target = i →
      activate w.nodes i = .ok ns → w.nodes[i]? = some n →
      ∃ m, ns[j]? = some m ∧ m.state = .retired ∧ j ≠ i := by
    intro i ns n hi ha hn
    subst hi
    have hl : Life ns := hinv.life.ofActivate hinv.tree ha
    have hself := activate_self hn ha
    -- `j` exists
    have hjm : ∃ m0, w.nodes[j]? = some m0 ∧ (op.target ∈ m0.anc ∨
        ∃ k s, k < op.target ∧ w.nodes[k]? = some s ∧ s.parent = n.parent ∧ (k = j ∨ k ∈ m0.anc)) := by
      rcases hj with hd | ⟨k, s, n', hk, hks, hn', hsp, hkj⟩
      · obtain ⟨m0, h1, h2⟩ := hd.anc hinv.tree
        exact ⟨m0, h1, Or.inl h2⟩
      · rw [hn] at hn'
        cases hn'
        rcases hkj with rfl | hd
        · exact ⟨s, hks, Or.inr ⟨k, s, hk, hks, hsp, Or.inl rfl⟩⟩
        · obtain ⟨m0, h1, h2⟩ := hd.anc hinv.tree
          exact ⟨m0, h1, Or.inr ⟨k, s, hk, hks, hsp, Or.inr h2⟩⟩
    obtain ⟨m0, hm0, hcase⟩ := hjm
    obtain ⟨st, hst'⟩ := (activate_stateOnly ha).get hm0
    have hret := activate_supersedes hinv ha hl hst' hn hcase
    refine ⟨_, hst', hret, ?_⟩
    rintro rfl
    rw [hself] at hst'
    have := congrArg (Option.map Node.state) hst'
    simp only [Option.map_some, Option.some.injEq] at this
    simp only at hret
    rw [hret] at this
    exact absurd this (by simp)
  cases hst with
  | evaluate i q b n m adj ns hn hc ha hp hs =>
    obtain ⟨m', h1, h2, h3⟩ := main i ns n rfl ha hn
    simp only [stateOf]
    rw [List.getElem?_set, if_neg (fun h => h3 h.symm), h1]
    simp [h2]
  | partition i src b' col splits n adj t ns hn hk hid hadj ht ha hs =>
    obtain ⟨m', h1, h2, h3⟩ := main i ns n rfl ha hn
    simp only [stateOf]
    rw [List.getElem?_append_left, List.getElem?_set, if_neg (fun h => h3 h.symm), h1]
    · simp [h2]
    · rw [List.length_set]
      exact (List.getElem?_eq_some_iff.mp h1).1
  | createView i q name n t ns hn hi ha h1 h2 ht =>
    exfalso; rcases hop with ⟨_, _, _, h⟩ | ⟨_, _, _, _, _, h⟩ <;> simp at h
  | deleteView i name n ns hn ha h1 =>
    exfalso; rcases hop with ⟨_, _, _, h⟩ | ⟨_, _, _, _, _, h⟩ <;> simp at h
  | addPublic i name df df' n hn hi h1 h2 hc =>
    exfalso; rcases hop with ⟨_, _, _, h⟩ | ⟨_, _, _, _, _, h⟩ <;> simp at h
  | stop i n hn =>
    exfalso; rcases hop with ⟨_, _, _, h⟩ | ⟨_, _, _, _, _, h⟩ <;> simp at h

end Verif.Session
