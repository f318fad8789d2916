import Verif.Session.PropsRequests

/-!
# What can be asked without an answer: noise of a query, and spending without executing (C85)

Source: `/repo/src/tmlt/analytics/session.py` l. 737-775, 1001-1048.
-/

namespace Verif.Session

open Verif.Budget (XNum PB Rounding)

variable {Q M T D V N : Type}

/-- `_noise_info` (l. 1001-1048): the session is compiled for, but its accountant is not asked or activated. `note` is what
`_noise_info.py` finds in a measurement (`Verif.Misc.noiseOf`). -/
def noiseInfo (env : Env Q M T D V) (note : M → N) (w : World M T D) (i : Nat) (q : Q) (b : PB) : Except Err N :=
  match w.nodes[i]? with
  | none => .error .noSession
  | some n =>
    match compileInfo env w n q b with
    | .error e => .error e
    | .ok (m, _) => .ok (note m)

/-- `_spend_budget_without_executing` (l. 737-775): as `evaluate`, with a measurement of nothing that has the cost of the
query, of which the privacy relation is not checked. Nothing is measured; the amount is logged as a split into no sessions. -/
def spendOnly (env : Env Q M T D V) (w : World M T D) (i : Nat) (q : Q) (b : PB) : Except Err (Out M) × World M T D :=
  match w.nodes[i]? with
  | none => (.error .noSession, w)
  | some n =>
    match compileInfo env w n q b with
    | .error e => (.error e, w)
    | .ok (_, adj) =>
      match activate w.nodes i with
      | .error e => (.error e, w)
      | .ok ns =>
        if !canSpend n.remaining adj then (.error (refusal b adj n.remaining), { w with nodes := ns })
        else
          match ns[i]? with
          | none => (.error .noSession, w)
          | some n' =>
            (.ok .none,
             { w with nodes := ns.set i { n' with
                remaining := spend n'.remaining adj
                log := n'.log ++ [.split adj []] } })

/-! ## Specification -/

/-- What a user sees of a session: its state, what remains, its tables. -/
def seen (n : Node M T) : AState × PB × List (String × T) := (n.state, n.remaining, n.tables)

/-- What a call returns, with another measurement. -/
def Out.map (g : M → M) : Out M → Out M
  | .answer m amt => .answer (g m) amt
  | o => o

/-! ## Theorems -/

theorem compileInfo_map {env : Env Q M T D V} {q q' : Q} {g : M → M}
    (hc : ∀ tables pub b, env.compile tables pub q' b = (env.compile tables pub q b).map g) (w : World M T D) {b : PB}
    (n : Node M T) : compileInfo env w n q' b = (compileInfo env w n q b).map (fun p => (g p.1, p.2)) := by
  simp only [compileInfo, hc]
  split
  · rfl
  split
  · rfl
  split
  · rfl
  rename_i adj _
  cases env.compile n.tables (w.pubOf n) q adj <;> rfl

/-- Queries of which the measurements correspond to each other are evaluated alike. -/
theorem evaluate_map {env : Env Q M T D V} {q q' : Q} {g : M → M}
    (hc : ∀ tables pub b, env.compile tables pub q' b = (env.compile tables pub q b).map g)
    (hp : ∀ m b, env.privRel (g m) b = env.privRel m b) (w : World M T D) (i : Nat) (b : PB) :
    (evaluate env w i q' b).1 = (evaluate env w i q b).1.map (Out.map g) ∧
      (evaluate env w i q' b).2.nodes.map seen = (evaluate env w i q b).2.nodes.map seen ∧
      (evaluate env w i q' b).2.heap = (evaluate env w i q b).2.heap := by
  have hci := compileInfo_map hc w (b := b)
  unfold evaluate
  cases hn : w.nodes[i]? with
  | none => exact ⟨rfl, rfl, rfl⟩
  | some n =>
    dsimp only
    rw [hci]
    cases compileInfo env w n q b with
    | error e => exact ⟨rfl, rfl, rfl⟩
    | ok p =>
      obtain ⟨m, adj⟩ := p
      simp only [Except.map, hp]
      cases activate w.nodes i with
      | error e => exact ⟨rfl, rfl, rfl⟩
      | ok ns =>
        dsimp only
        split
        · exact ⟨rfl, rfl, rfl⟩
        split
        · exact ⟨rfl, rfl, rfl⟩
        cases ns[i]? with
        | none => exact ⟨rfl, rfl, rfl⟩
        | some n' =>
          refine ⟨rfl, ?_, rfl⟩
          simp [List.map_set, seen]

/-- The same for what is told about noise. -/
theorem noiseInfo_map {env : Env Q M T D V} {q q' : Q} {g : M → M}
    (hc : ∀ tables pub b, env.compile tables pub q' b = (env.compile tables pub q b).map g) {note : M → N}
    (hg : ∀ m, note (g m) = note m) (w : World M T D) (i : Nat) (b : PB) :
    noiseInfo env note w i q' b = noiseInfo env note w i q b := by
  unfold noiseInfo
  cases w.nodes[i]? with
  | none => rfl
  | some n =>
    dsimp only
    rw [compileInfo_map hc]
    cases compileInfo env w n q b with
    | error e => rfl
    | ok p => simp [Except.map, hg]

/-- **C85**: the noise that is told is that of the measurement that `evaluate` uses. -/
theorem C85_used (env : Env Q M T D V) (note : M → N) {w : World M T D} {i : Nat} {q : Q} {b : PB} {m : M} {adj : PB}
    (h : (evaluate env w i q b).1 = .ok (.answer m adj)) : noiseInfo env note w i q b = .ok (note m) := by
  unfold evaluate at h
  unfold noiseInfo
  repeat' split at h
  all_goals first | (cases h; done) | skip
  all_goals simp_all

/-- **C85**: what `_noise_info` refuses `evaluate` refuses too, with the same exception and at no cost. -/
theorem C85_refused (env : Env Q M T D V) (note : M → N) {w : World M T D} {i : Nat} {q : Q} {b : PB} {e : Err}
    (h : noiseInfo env note w i q b = .error e) : evaluate env w i q b = (.error e, w) := by
  unfold noiseInfo at h
  unfold evaluate
  repeat' split at h
  all_goals first | (cases h; done) | skip
  all_goals simp_all

/-- **C85**: if `_noise_info` tells the noise, `evaluate` answers, or the session is not active, or the budget does not
suffice, or the measurement is not covered by the budget. -/
theorem C85_told (env : Env Q M T D V) (note : M → N) {w : World M T D} {i : Nat} {q : Q} {b : PB} {x : N}
    (h : noiseInfo env note w i q b = .ok x) :
    (∃ m adj, (evaluate env w i q b).1 = .ok (.answer m adj) ∧ note m = x) ∨
      (∃ e, activate w.nodes i = .error e ∧ (evaluate env w i q b).1 = .error e) ∨
      (∃ e, e.LacksBudget ∧ (evaluate env w i q b).1 = .error e) ∨
      (∃ m adj, env.privRel m adj = false ∧ note m = x ∧ (evaluate env w i q b).1 = .error .internal) := by
  unfold noiseInfo at h
  split at h
  · cases h
  · rename_i n hn
    split at h
    · cases h
    · rename_i m adj hc
      cases h
      cases ha : activate w.nodes i with
      | error e =>
        refine .inr (.inl ⟨e, rfl, ?_⟩)
        simp [evaluate, hn, hc, ha]
      | ok ns =>
        by_cases hp : env.privRel m adj = true
        · by_cases hs : canSpend n.remaining adj = true
          · have hlen : ns.length = w.nodes.length := (activate_stateOnly ha).length
            obtain ⟨n', hn'⟩ : ∃ n', ns[i]? = some n' := by
              have hi : i < w.nodes.length := (List.getElem?_eq_some_iff.1 hn).1
              exact ⟨ns[i], List.getElem?_eq_getElem (hlen ▸ hi)⟩
            refine .inl ⟨m, adj, ?_, rfl⟩
            simp [evaluate, hn, hc, ha, hp, hs, hn']
          · refine .inr (.inr (.inl ⟨refusal b adj n.remaining, refusal_lacks _ _ _, ?_⟩))
            simp [evaluate, hn, hc, ha, hp, hs]
        · refine .inr (.inr (.inr ⟨m, adj, by simpa using hp, rfl, ?_⟩))
          simp [evaluate, hn, hc, ha, hp]

/-- **C85**: spending without executing costs what `evaluate` would have cost, and leaves all sessions as `evaluate` would
have left them. -/
theorem C85_spent (env : Env Q M T D V) {w : World M T D} {i : Nat} {q : Q} {b : PB} {m : M} {adj : PB}
    (h : (evaluate env w i q b).1 = .ok (.answer m adj)) :
    (spendOnly env w i q b).1 = .ok .none ∧
      (spendOnly env w i q b).2.nodes.map seen = (evaluate env w i q b).2.nodes.map seen ∧
      (spendOnly env w i q b).2.heap = (evaluate env w i q b).2.heap := by
  unfold evaluate at h
  unfold spendOnly evaluate
  repeat' split at h
  all_goals first | (cases h; done) | skip
  all_goals simp_all [List.map_set, seen]

/-- **C85**: what `evaluate` refuses cannot be spent without executing either; it is refused with the same exception and
leaves all sessions as `evaluate` does. (`covered`: core's check of what the measurement promises does not fail.) -/
theorem C85_spent_refused (env : Env Q M T D V) {w : World M T D} {i : Nat} {q : Q} {b : PB} {e : Err}
    (covered : ∀ n m adj, w.nodes[i]? = some n → compileInfo env w n q b = .ok (m, adj) → env.privRel m adj = true)
    (h : (evaluate env w i q b).1 = .error e) :
    spendOnly env w i q b = (.error e, (evaluate env w i q b).2) := by
  unfold evaluate at h
  unfold spendOnly evaluate
  cases hn : w.nodes[i]? with
  | none => simp_all
  | some n =>
    rw [hn] at h
    dsimp only at h ⊢
    cases hc : compileInfo env w n q b with
    | error x => simp_all
    | ok p =>
      obtain ⟨m, adj⟩ := p
      rw [hc] at h
      dsimp only at h ⊢
      have hp := covered n m adj hn hc
      repeat' split at h
      all_goals first | (cases h; done) | skip
      all_goals simp_all

end Verif.Session
