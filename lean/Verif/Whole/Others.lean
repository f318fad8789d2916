import Verif.Whole.Traceless
import Verif.Session.PropsRequests
import Verif.Session.PropsTree

/-!
# Sessions of a partition do not interfere (C93)
-/

namespace Verif.Whole

open Verif Verif.Schema Verif.Constraint Verif.Expr Verif.Query Verif.Stability
open Verif.Budget (XNum PB Rounding)
open Verif.Session (World Op)
open scoped NNReal

/-! ## Specification -/

/-- The public table that a call adds. -/
def adds : Op Request PubFrame Value → Option String
  | .addPublic _ name _ => some name
  | _ => none

/-! ## Proofs -/

section
variable {ctx : Ctx} {sources : Relation.Sources} {out : Relation.Output} {b₀ : PB}

theorem Reachable.shared {w : World Meas Tab PubFrame} (h : Reachable ctx out b₀ w) : Session.SharedPub w := by
  obtain ⟨ops, rfl⟩ := h
  exact Session.run_induction Session.SharedPub (fun _ _ _ _ h hs => Session.sharedPub_step h hs) ops _
    (Session.sharedPub_init b₀ (startTables out))

/-- A call in another session changes neither tables nor budget, and adds at most a public table. -/
theorem other_step {w : World Meas Tab PubFrame} (hw : Reachable ctx out b₀ w) {i : Nat} {n : Session.Node Meas Tab}
    (hn : w.nodes[i]? = some n) {op : Op Request PubFrame Value} (ht : op.target ≠ i) :
    ∃ m, (Session.step (env ctx) w op).2.nodes[i]? = some m ∧ m.tables = n.tables ∧ m.remaining = n.remaining ∧
      ∀ id, adds op ≠ some id → Dict.get ((Session.step (env ctx) w op).2.pubOf m) id = Dict.get (w.pubOf n) id := by
  have st := Session.step_cases (env ctx) w op
  obtain ⟨m, h1, _, h2⟩ := Session.step_total st i n hn
  obtain ⟨h3, h4, _⟩ := h2 ht
  refine ⟨m, h1, h4, h3, fun id hid => ?_⟩
  have hs := hw.shared
  have hs' := (hw.step op).shared
  have pm : m.pub = 0 := hs'.2 i m h1
  have pn : n.pub = 0 := hs.2 i n hn
  rcases Session.step_heap st with e | ⟨j, name, df, df', a, rfl, ha, _, _, e, _⟩
  · unfold Session.World.pubOf
    rw [e, pm, pn]
  · have pa : a.pub = 0 := hs.2 j a ha
    have hne : id ≠ name := fun e => hid (by rw [e]; rfl)
    have hlen : a.pub < w.heap.length := by rw [pa, hs.1]; exact Nat.zero_lt_one
    have e1 : (Session.step (env ctx) w (.addPublic j name df)).2.pubOf m = w.pubOf a ++ [(name, df')] := by
      unfold Session.World.pubOf
      rw [e, pm, ← pa, List.getElem?_set_self hlen]
      rfl
    have e2 : w.pubOf a = w.pubOf n := by
      unfold Session.World.pubOf
      rw [pa, pn]
    rw [e1, e2]
    exact get_append_ne _ _ hne

theorem other_run {i : Nat} (calls : List (Op Request PubFrame Value)) (hc : ∀ op ∈ calls, op.target ≠ i) :
    ∀ {w : World Meas Tab PubFrame} {n : Session.Node Meas Tab}, Reachable ctx out b₀ w → w.nodes[i]? = some n →
    ∃ m, (Session.run (env ctx) w calls).nodes[i]? = some m ∧ m.tables = n.tables ∧ m.remaining = n.remaining ∧
      ∀ id, (∀ op ∈ calls, adds op ≠ some id) →
        Dict.get ((Session.run (env ctx) w calls).pubOf m) id = Dict.get (w.pubOf n) id := by
  induction calls with
  | nil => exact fun _ hn => ⟨_, hn, rfl, rfl, fun _ _ => rfl⟩
  | cons a l ih =>
    intro w n hw hn
    obtain ⟨m, h1, h2, h3, h4⟩ := other_step hw hn (hc a List.mem_cons_self)
    obtain ⟨m', k1, k2, k3, k4⟩ := ih (fun op hop => hc op (List.mem_cons_of_mem _ hop)) (hw.step a) h1
    exact ⟨m', k1, k2.trans h2, k3.trans h3, fun id hid =>
      (k4 id fun op hop => hid op (List.mem_cons_of_mem _ hop)).trans (h4 id (hid a List.mem_cons_self))⟩

/-- **C93**: whatever was called on other sessions, a session that was not stopped by it answers as before every query that does
not name a public table which was added. -/
theorem C93_others (core : Core) (hst : Relation.Stored ctx.cast sources) (hf : FramesOK sources)
    (h : Relation.initCore ctx.cast (coreMeasure ctx.m) sources = .ok out) (b₀ : PB)
    (ops : List (Op Request PubFrame Value)) (w : World Meas Tab PubFrame)
    (hw : w = Session.run (env ctx) (Session.init b₀ (startTables out)) ops) (i : Nat) (n : Session.Node Meas Tab)
    (hn : w.nodes[i]? = some n) (calls : List (Op Request PubFrame Value)) (hc : ∀ op ∈ calls, op.target ≠ i)
    (hlive : Session.stateOf (Session.run (env ctx) w calls) i ≠ some .retired) (q : Query) (hq : Admissible (child q))
    (hp : ∀ op ∈ calls, ∀ name, adds op = some name → name ∉ (child q).sources ∧ name ∉ publics (child q)) (b : PB) :
    let w' := Session.run (env ctx) w calls
    (Session.step (env ctx) w' (.evaluate i (.query q hq) b)).1 = (Session.step (env ctx) w (.evaluate i (.query q hq) b)).1 ∧
    ((Session.step (env ctx) w' (.evaluate i (.query q hq) b)).2.nodes[i]?).map (·.remaining) =
      ((Session.step (env ctx) w (.evaluate i (.query q hq) b)).2.nodes[i]?).map (·.remaining) ∧
    Session.noiseInfo (env ctx) id w' i (.query q hq) b = Session.noiseInfo (env ctx) id w i (.query q hq) b := by
  intro w'
  have hr : Reachable ctx out b₀ w := ⟨ops, hw⟩
  have hr' : Reachable ctx out b₀ w' := hr.run calls
  obtain ⟨n', hn', ht, hrem, hpub⟩ := other_run (ctx := ctx) calls hc hr hn
  have hinfo := info_named (hr.node core hst hf h hn) (hr'.node core hst hf h hn') hrem q hq
    ⟨fun id _ => by rw [ht], fun id hid => mem_names_get (hpub id fun op hop e => (hp op hop id e).1 hid),
      fun id hid => hpub id fun op hop e => (hp op hop id e).2 hid⟩ b
  have hl' : n'.state ≠ .retired := fun e => hlive (by
    unfold Session.stateOf
    rw [hn', Option.map_some, e])
  have hl : n.state ≠ .retired := fun e => hlive (by
    subst hw
    refine (Session.C08_retired_forever b₀ (startTables out) ops calls i ?_).1
    unfold Session.stateOf
    rw [hn, Option.map_some, e])
  obtain ⟨r1, r2⟩ := evaluate_like hn hn' (.inr ⟨hl, hl'⟩) hrem hinfo
  refine ⟨r1, r2, ?_⟩
  unfold Session.noiseInfo
  rw [hn, hn']
  dsimp only
  rw [hinfo]

end

end Verif.Whole
