import Verif.Whole.Exact

/-!
# C61 for `get_groups`

With an infinite budget, `get_groups` returns all groups of the table, each once.
-/

namespace Verif.Whole

open Verif Verif.Schema Verif.Constraint Verif.Expr Verif.Query Verif.Stability
open Verif.Budget (XNum PB Rounding)
open Verif.Meaning (Means NoLeftIDs Faithful)
open scoped NNReal

/-- Assumed of core: partition selection with `delta = 1` returns all keys. -/
def AllGroups (core : Core) : Prop :=
  ∀ c cs, c.keyBudget = .approx ⊤ (1 : ℚ) → c.keys = .cols cs → c.task = .groups → cs ≠ [] →
    ∀ t, ∃ keys : List Row, keys.Nodup ∧ (∀ k, k ∈ keys ↔ ∃ r ∈ t, k = cs.map (fun c => (c, cell r c))) ∧
      core.noise c t = PMF.pure keys

theorem cell_pick (cs : List String) (f : String → Value) {c : String} (h : c ∈ cs) :
    cell (cs.map (fun x => (x, f x))) c = f c := by
  unfold cell
  induction cs with
  | nil => cases h
  | cons a as ih =>
    by_cases hc : c = a
    · subst hc
      simp [Row.get]
    · have hca : (c == a) = false := by simpa using hc
      have := ih (by simpa [hc] using h)
      simpa [Row.get, List.lookup_cons, hca] using this

theorem pick_pick (cs : List String) (r : Row) :
    cs.map (fun c => (c, cell (cs.map (fun x => (x, cell r x))) c)) = cs.map (fun c => (c, cell r c)) :=
  List.map_congr_left fun c hc => by rw [cell_pick cs (cell r) hc]

theorem infinite_adj {ctx : Ctx} {w : Session.World Meas Tab PubFrame} {n : Session.Node Meas Tab} {r : Request} {b amt : PB}
    {m : Meas} {ε δ : XNum} (hb : b.isInfinite = true) (h : Session.compileInfo (env ctx) w n r b = .ok (m, amt))
    (ha : amt = .approx ε δ) : amt = .approx ⊤ (1 : ℚ) := by
  unfold Session.compileInfo at h
  dsimp only at h
  have hb' : (Session.convertBudget n.remaining b).isInfinite = true := by
    unfold Session.convertBudget
    split
    · next ε _ =>
      have : ε = ⊤ := by simpa [PB.isInfinite] using hb
      simp [PB.isInfinite, this]
    · exact hb
  generalize Session.convertBudget n.remaining b = b' at h hb'
  split at h
  · cases h
  split at h
  · cases h
  split at h
  · cases h
  next adj hadj =>
  split at h
  · cases h
  next m' hm =>
  cases h
  cases b' with
  | pure ε =>
    generalize n.remaining = rem at hadj
    cases rem <;> simp only [Session.processRequested, Budget.adjustBudget] at hadj <;> cases hadj
    cases ha
  | zcdp ε =>
    generalize n.remaining = rem at hadj
    cases rem <;> simp only [Session.processRequested, Budget.adjustBudget] at hadj <;> cases hadj
    cases ha
  | approx ε δ =>
    generalize n.remaining = rem at hadj
    cases rem <;> simp only [Session.processRequested, hb', if_true] at hadj <;> cases hadj <;> rfl

/-- **C61** (partial, `get_groups`). In any session that was made by the builder or by partitions, after any calls,
`get_groups` evaluated with an infinite budget returns the groups that occur in the table, each once: for the columns
asked for, or for all columns but the ID column.

Partial: as `C61_session_partial`. -/
theorem C61_groups_partial {ctx : Ctx} {core : Core} (hcore : AllGroups core) {sources : Relation.Sources}
    (hst : Relation.Stored ctx.cast sources) (hf : FramesOK sources) {out : Relation.Output}
    (h : Relation.initCore ctx.cast (coreMeasure ctx.m) sources = .ok out) (b₀ : PB)
    (ops : List (Session.Op Request PubFrame Value)) (hs : ViewsSafe ctx (Session.init b₀ (startTables out)) ops)
    (w : Session.World Meas Tab PubFrame) (hw : w = Session.run (env ctx) (Session.init b₀ (startTables out)) ops)
    (data : Nat → Root × Data)
    (hdata : data = dataAfter ctx core (Session.init b₀ (startTables out)) (fun _ => (startRoot out, startData out)) ops)
    (i : Nat) (e : Expr) (cols : List String) (ok : Admissible (child (.groups e cols))) (b : PB)
    (hinf : b.isInfinite = true) (m : Meas) (amt : PB)
    (hev : (Session.step (env ctx) w (.evaluate i (.query (.groups e cols) ok) b)).1 = .ok (.answer m amt)) :
    ∃ n cat s T, w.nodes[i]? = some n ∧ catalog n.tables (w.pubOf n) = .ok cat ∧ schemaOf cat e = .ok s ∧
      Faithful cat (resolve n.tables (data i).2) e T ∧
      ∀ cs, cs = (if cols = [] then (Schema.keys s).filter (fun c => decide (s.idColumn ≠ some c)) else cols) → cs ≠ [] →
        e.ConsSafe ctx.h cat → ∃ keys : List Row, keys.Nodup ∧
          (∀ key, key ∈ keys ↔ ∃ r ∈ T, key = cs.map (fun c => (c, cell r c))) ∧
          Composition.respond (sem ctx core) data i (Session.step (env ctx) w (.evaluate i (.query (.groups e cols) ok) b)).1 =
            PMF.pure (.ok (.answer m amt), some keys) := by
  have inv := (start_inv hst hf h b₀).run (core := core) ops
  have known := C60_constraints_partial (core := core) hst hf h b₀ ops hs i
  rw [← hw, ← hdata] at inv known
  have st := Session.step_cases (env ctx) w (.evaluate i (.query (.groups e cols) ok) b)
  rw [hev] at st ⊢
  generalize (Session.step (env ctx) w (.evaluate i (.query (.groups e cols) ok) b)).2 = w' at st
  cases st with
  | evaluate _ _ _ n _ _ ns hn hc ha hp hs =>
  obtain ⟨hun, hm⟩ := unlimited_adj hinf hc
  obtain ⟨σ, near⟩ := inv.near i (List.getElem?_eq_some_iff.1 hn).1
  obtain ⟨wf, fns, ren, _, _⟩ := ok
  obtain ⟨cat, p, hcat, hp, hmk, _, hmkeys, hmt, hmr, hpost⟩ := compileM_plan hm
  obtain ⟨s, o, col, tr, f, hs0, hvis, htr, hpk, hpt, hpp, hprep⟩ := groups_plan hp
  obtain ⟨ε, δ, hamt, _, hkb, _⟩ := compileQuery_groups hp
  have cf := cat_facts hcat (inv.tabs i n hn)
  have hD := cf.data _ near.conf
  obtain ⟨s2, hbd⟩ := visitChild_build' hvis
  have hbd : build ctx.h cat e = .ok (s2, o) := hbd
  obtain ⟨_, ho, _⟩ := build_ok hbd
  refine ⟨n, cat, s, o.run (resolve n.tables (data i).2), hn, hcat, hs0, ?_, fun cs hcs hne hsafe => ?_⟩
  · exact Meaning.faithful_of_build cf.ok hD _ wf fns ren hbd
  have hcs : cs = groupColumns s cols := hcs
  subst hcs
  have hperm : (f (resolve n.tables (data i).2)).Perm (o.run (resolve n.tables (data i).2)) := by
    refine (truncate_known htr _).2 fun j hj c hcc => ?_
    exact (cons_hold cf.ok cf.ids hD (known_cat cf (known n hn)) _ wf fns ren hsafe hs0 ho hj c hcc).1
  have hk1 : m.call.keyBudget = .approx ⊤ (1 : ℚ) := by rw [hmk, hkb, ← hamt]; exact infinite_adj hinf hc hamt
  obtain ⟨keys, k1, k2, k3⟩ := hcore m.call _ hk1 (by rw [hmkeys, hpk]) (by rw [hmt, hpt]) hne (m.run (data i).2)
  refine ⟨keys, k1, fun key => ?_, ?_⟩
  · rw [k2, hmr, hprep]
    constructor
    · rintro ⟨r, hr, rfl⟩
      obtain ⟨r', hr', rfl⟩ := List.mem_map.1 hr
      exact ⟨r', hperm.mem_iff.1 hr', pick_pick _ r'⟩
    · rintro ⟨r, hr, rfl⟩
      exact ⟨_, List.mem_map.2 ⟨r, hperm.mem_iff.2 hr, rfl⟩, (pick_pick _ r).symm⟩
  · dsimp only [Composition.respond]
    have : (sem ctx core).mech m (data i) = PMF.pure keys := by
      show (core.noise m.call (m.run (data i).2)).bind (fun a => PMF.pure (m.post a)) = _
      rw [k3, PMF.pure_bind, hpost, hpp]
      rfl
    rw [this, PMF.pure_bind]

end Verif.Whole
