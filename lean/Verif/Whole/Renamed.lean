import Verif.Whole.Inline
import Verif.Whole.Traceless

/-!
# Any number of queries about views (C88), and renaming of tables and views (C92)
-/

namespace Verif.Whole

open Verif Verif.Schema Verif.Constraint Verif.Expr Verif.Query Verif.Stability
open Verif.Budget (XNum PB Rounding)
open Verif.Session (World Op)
open scoped NNReal

/-! ## Specification -/

/-- A query and the budget that is given for it. -/
structure Ask where
  q : Query
  hq : Admissible (child q)
  b : PB

/-- The calls of `evaluate` in session `i`. -/
def asks (i : Nat) (l : List Ask) : List (Op Request PubFrame Value) := l.map (fun a => .evaluate i (.query a.q a.hq) a.b)

/-- The calls with expression `v` in place of table `name`. -/
def asksOut (i : Nat) (name : String) (v : Expr) (hv : Admissible v) (l : List Ask) : List (Op Request PubFrame Value) :=
  l.map (fun a => .evaluate i (writtenOut name v hv a.q a.hq) a.b)

/-! ## Proofs -/

section
variable {ctx : Ctx} {sources : Relation.Sources} {out : Relation.Output} {b₀ : PB}
variable (core : Core) (hst : Relation.Stored ctx.cast sources) (hf : FramesOK sources)
  (h : Relation.initCore ctx.cast (coreMeasure ctx.m) sources = .ok out)

include core hst hf h

/-- `w` is without the view, `w'` is like `w` with the view. -/
theorem asks_out {i : Nat} {v : Expr} {hv : Admissible v} {name : String} (hg : NoGroups v ∨ ctx.m ≠ .zCDP) (l : List Ask)
    (hl : ∀ a ∈ l, Query.FiltersBySpark a.q) :
    ∀ {w w' : World Meas Tab PubFrame} {m m' : Session.Node Meas Tab}, Reachable ctx out b₀ w → Reachable ctx out b₀ w' →
      (Session.step (env ctx) w (.createView i (.table v hv) name)).1 = .ok .none →
      LikeAt (Session.step (env ctx) w (.createView i (.table v hv) name)).2 w' m m' i →
      outcomes ctx w' (asks i l) = outcomes ctx w (asksOut i name v hv l) := by
  induction l with
  | nil => intros; rfl
  | cons a l ih =>
    intro w w' m m' hw hw' hok lk
    have hv' : nameIn (.createView i (.table v hv) name) = some (i, name) := rfl
    obtain ⟨n, hn⟩ : ∃ n, w.nodes[i]? = some n := by
      cases hn : w.nodes[i]? with
      | some n => exact ⟨n, rfl⟩
      | none => simp [Session.step, Session.createView, hn] at hok
    obtain ⟨ops, hops⟩ := id hw
    obtain ⟨c1, ⟨x, x', x1, x2, x3⟩, _⟩ := C88_view_partial core hst hf h b₀ ops w hops i v hv name hok hg a.q a.hq
      (hl a List.mem_cons_self) a.b
    obtain ⟨d1, d2, _⟩ := like_answers core hst hf h (hw.step _) hw' lk a.q a.hq a.b
    refine congrArg₂ List.cons (d1.trans c1) ?_
    -- The worlds after the query.
    obtain ⟨y, y1, y2, y3, y4⟩ := evaluate_frame (env := env ctx) (writtenOut name v hv a.q a.hq) a.b hn
    obtain ⟨y', z1, z2, z3, z4⟩ := evaluate_frame (env := env ctx) (.query a.q a.hq) a.b lk.node'
    have hw₁ := hw.step (.evaluate i (writtenOut name v hv a.q a.hq) a.b)
    have hw₁' := hw'.step (.evaluate i (.query a.q a.hq) a.b)
    have hy1 : (Session.step (env ctx) w (.evaluate i (writtenOut name v hv a.q a.hq) a.b)).2.nodes[i]? = some y := y1
    obtain ⟨e0, k, e1, e2, e3, e4, e5⟩ := step_setup (ctx := ctx) hv' hn (hw.heap hn)
    obtain ⟨f0, k', f1, f2, f3, f4, f5⟩ := step_setup (ctx := ctx) hv' hy1 (hw₁.heap hy1)
    obtain rfl : k = m := Option.some.inj (e1.symm.trans lk.node)
    have hd : decide (y.state = .retired) = decide (n.state = .retired) := by
      rw [decide_eq_decide]
      exact y4
    have hy3 : (Session.step (env ctx) w (.evaluate i (writtenOut name v hv a.q a.hq) a.b)).2.pubOf y = w.pubOf n := y3
    have hz3 : (Session.step (env ctx) w' (.evaluate i (.query a.q a.hq) a.b)).2.pubOf y' = w'.pubOf m' := z3
    have hz1 : (Session.step (env ctx) w' (.evaluate i (.query a.q a.hq) a.b)).2.nodes[i]? = some y' := z1
    rw [hd, y2, hy3] at f0 f2 f3
    have hok' := f0.trans (e0.symm.trans hok)
    obtain rfl : x = y := Option.some.inj (x1.symm.trans hy1)
    rw [hz1, x2] at d2
    have hrem : y'.remaining = k'.remaining := by
      rw [f4, ← x3]
      exact Option.some.inj d2
    exact ih (fun a ha => hl a (List.mem_cons_of_mem _ ha)) hw₁ hw₁' hok' (m := k') (m' := y')
      ⟨f1, hz1, hrem, by rw [z4, lk.retired, f5, y4, e5],
        fun id => by rw [z2, lk.tables, e2, f2], fun id => by rw [hz3, lk.pub, e3, f3]⟩

/-- **C88** (partial as `C88_view_partial`): any number of queries about a view, one after the other, have the outcomes of the
queries in which the view is written out. -/
theorem C88_program_partial (ops : List (Op Request PubFrame Value)) (w : World Meas Tab PubFrame)
    (hw : w = Session.run (env ctx) (Session.init b₀ (startTables out)) ops) (i : Nat) (v : Expr) (hv : Admissible v)
    (name : String) (hok : (Session.step (env ctx) w (.createView i (.table v hv) name)).1 = .ok .none)
    (hg : NoGroups v ∨ ctx.m ≠ .zCDP) (l : List Ask) (hl : ∀ a ∈ l, Query.FiltersBySpark a.q) :
    outcomes ctx (Session.step (env ctx) w (.createView i (.table v hv) name)).2 (asks i l) =
      outcomes ctx w (asksOut i name v hv l) := by
  have hr : Reachable ctx out b₀ w := ⟨ops, hw⟩
  obtain ⟨n, hn⟩ : ∃ n, w.nodes[i]? = some n := by
    cases hn : w.nodes[i]? with
    | some n => exact ⟨n, rfl⟩
    | none => simp [Session.step, Session.createView, hn] at hok
  have hv' : nameIn (.createView i (.table v hv) name) = some (i, name) := rfl
  obtain ⟨_, m, m1, _⟩ := step_setup (ctx := ctx) hv' hn (hr.heap hn)
  exact asks_out core hst hf h hg l hl hr (hr.step _) hok (LikeAt.refl m1)

/-- **C92**: a table or view `v` is renamed to `u` by making a view of it and deleting it. Afterwards any number of queries with
`u` have the outcomes that they had before with `v`. -/
theorem C92_renamed (ops : List (Op Request PubFrame Value)) (w : World Meas Tab PubFrame)
    (hw : w = Session.run (env ctx) (Session.init b₀ (startTables out)) ops) (i : Nat) (v u : String)
    (hv : Admissible (.source v)) (hok : (Session.step (env ctx) w (.createView i (.table (.source v) hv) u)).1 = .ok .none)
    (l : List Ask) (hl : ∀ a ∈ l, Query.FiltersBySpark a.q)
    (hn : ∀ a ∈ l, v ∉ (child a.q).sources ∧ v ∉ publics (child a.q)) :
    outcomes ctx (Session.step (env ctx) (Session.step (env ctx) w (.createView i (.table (.source v) hv) u)).2
      (.deleteView i v)).2 (asks i l) = outcomes ctx w (asksOut i u (.source v) hv l) := by
  rw [← C88_program_partial core hst hf h ops w hw i (.source v) hv u hok (.inl trivial) l hl]
  have hr : Reachable ctx out b₀ w := ⟨ops, hw⟩
  obtain ⟨n, hn'⟩ : ∃ n, w.nodes[i]? = some n := by
    cases hn : w.nodes[i]? with
    | some n => exact ⟨n, rfl⟩
    | none => simp [Session.step, Session.createView, hn] at hok
  have hv' : nameIn (.createView i (.table (.source v) hv) u) = some (i, u) := rfl
  obtain ⟨_, m, m1, _⟩ := step_setup (ctx := ctx) hv' hn' (hr.heap hn')
  obtain ⟨ops', hw'⟩ := hr.step (.createView i (.table (.source v) hv) u)
  refine C91_unused core hst hf h ops' _ hw' i m m1 v (.deleteView i v) rfl _ fun op hop => ?_
  obtain ⟨a, ha, rfl⟩ := List.mem_map.1 hop
  exact .inl ⟨a.q, a.hq, a.b, rfl, (hn a ha).1, (hn a ha).2⟩

omit core hst hf h in
/-- Queries change neither tables nor the life of the session. -/
theorem asks_frame (i : Nat) (l : List Ask) :
    ∀ {w : World Meas Tab PubFrame} {n : Session.Node Meas Tab}, w.nodes[i]? = some n →
    ∃ m, (Session.run (env ctx) w (asks i l)).nodes[i]? = some m ∧ m.tables = n.tables ∧
      (Session.run (env ctx) w (asks i l)).pubOf m = w.pubOf n ∧ (m.state = .retired ↔ n.state = .retired) := by
  induction l with
  | nil => exact fun hn => ⟨_, hn, rfl, rfl, Iff.rfl⟩
  | cons a l ih =>
    intro w n hn
    obtain ⟨m, h1, h2, h3, h4⟩ := evaluate_frame (env := env ctx) (.query a.q a.hq) a.b hn
    obtain ⟨m', k1, k2, k3, k4⟩ := ih h1
    exact ⟨m', k1, k2.trans h2, k3.trans h3, k4.trans h4⟩

/-- **C90**: creating or deleting a view, or adding a public table, can be moved before or behind any queries that do not mention
its name: it has the same outcome, the queries have the same outcomes, and what follows is the same. -/
theorem C90_queries (ops : List (Op Request PubFrame Value)) (w : World Meas Tab PubFrame)
    (hw : w = Session.run (env ctx) (Session.init b₀ (startTables out)) ops) (i : Nat) (n : Session.Node Meas Tab)
    (hn : w.nodes[i]? = some n) (v : String) (op : Op Request PubFrame Value) (hop : nameIn op = some (i, v)) (l : List Ask)
    (hl : ∀ a ∈ l, v ∉ (child a.q).sources ∧ v ∉ publics (child a.q)) :
    (Session.step (env ctx) (Session.run (env ctx) w (asks i l)) op).1 = (Session.step (env ctx) w op).1 ∧
    outcomes ctx (Session.step (env ctx) w op).2 (asks i l) = outcomes ctx w (asks i l) ∧
    Answers ctx (Session.run (env ctx) (Session.step (env ctx) w op).2 (asks i l))
      (Session.step (env ctx) (Session.run (env ctx) w (asks i l)) op).2 i := by
  have hr : Reachable ctx out b₀ w := ⟨ops, hw⟩
  have hc : ∀ op ∈ asks i l, Unrelated i v op := by
    intro op hop
    obtain ⟨a, ha, rfl⟩ := List.mem_map.1 hop
    exact .inl ⟨a.q, a.hq, a.b, rfl, (hl a ha).1, (hl a ha).2⟩
  obtain ⟨m₀, lk⟩ := likeBut_start hr hn hop
  obtain ⟨ho, x, x', lk'⟩ := likeBut_run core hst hf h (asks i l) hc hr (hr.step op) lk
  obtain ⟨e0, k, e1, e2, e3, e4, e5⟩ := step_setup (ctx := ctx) hop hn (hr.heap hn)
  obtain ⟨y, y1, y2, y3, y4⟩ := asks_frame (ctx := ctx) i l hn
  obtain ⟨z, z1, z2, z3, z4⟩ := asks_frame (ctx := ctx) i l e1
  obtain rfl : x = y := Option.some.inj (lk'.node.symm.trans y1)
  obtain rfl : x' = z := Option.some.inj (lk'.node'.symm.trans z1)
  have hr₁ := hr.run (asks i l)
  obtain ⟨f0, k', f1, f2, f3, f4, f5⟩ := step_setup (ctx := ctx) hop y1 (hr₁.heap y1)
  have hd : decide (x.state = .retired) = decide (n.state = .retired) := by
    rw [decide_eq_decide]
    exact y4
  rw [hd, y2, y3] at f0 f2 f3
  refine ⟨f0.trans e0.symm, ho, like_answers core hst hf h ((hr.step op).run _) (hr₁.step op) (n := x') (n' := k')
    ⟨z1, f1, by rw [f4, lk'.remaining], by rw [f5, lk'.retired], fun id => by rw [f2, z2, e2], fun id => by rw [f3, z3, e3]⟩⟩

end

end Verif.Whole
