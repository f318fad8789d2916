import Verif.Whole.Commute

/-!
# A view that is not used leaves no trace (C91)
-/

namespace Verif.Whole

open Verif Verif.Schema Verif.Constraint Verif.Expr Verif.Query Verif.Stability
open Verif.Budget (XNum PB Rounding)
open Verif.Session (World Op)
open scoped NNReal

/-! ## Specification -/

/-- A call in session `i` that does not mention name `v`: it evaluates a query, creates or deletes a view, or adds a public
table. -/
def Unrelated (i : Nat) (v : String) (op : Op Request PubFrame Value) : Prop :=
  (∃ q hq b, op = .evaluate i (.query q hq) b ∧ v ∉ (child q).sources ∧ v ∉ publics (child q)) ∨
    ∃ name, nameIn op = some (i, name) ∧ name ≠ v ∧ v ∉ usedBy op

/-- What calls return or raise, one after the other. -/
noncomputable def outcomes (ctx : Ctx) :
    World Meas Tab PubFrame → List (Op Request PubFrame Value) → List (Except Session.Err (Session.Out Meas))
  | _, [] => []
  | w, op :: ops => (Session.step (env ctx) w op).1 :: outcomes ctx (Session.step (env ctx) w op).2 ops

/-! ## Proofs -/

/-- The session has the same tables in both worlds, but for name `v`. -/
structure LikeBut (v : String) (w w' : World Meas Tab PubFrame) (n n' : Session.Node Meas Tab) (i : Nat) : Prop where
  node : w.nodes[i]? = some n
  node' : w'.nodes[i]? = some n'
  remaining : n'.remaining = n.remaining
  retired : n'.state = .retired ↔ n.state = .retired
  tables : ∀ id, id ≠ v → Dict.get n'.tables id = Dict.get n.tables id
  pub : ∀ id, id ≠ v → Dict.get (w'.pubOf n') id = Dict.get (w.pubOf n) id

/-- Evaluating a query changes neither tables nor the life of the session. -/
theorem evaluate_frame {w : World Meas Tab PubFrame} {env : Session.Env Request Meas Tab PubFrame Value} {i : Nat}
    {n : Session.Node Meas Tab} (q : Request) (b : PB) (hn : w.nodes[i]? = some n) :
    ∃ m, (Session.evaluate env w i q b).2.nodes[i]? = some m ∧ m.tables = n.tables ∧
      (Session.evaluate env w i q b).2.pubOf m = w.pubOf n ∧ (m.state = .retired ↔ n.state = .retired) := by
  unfold Session.evaluate
  rw [hn]
  dsimp only
  cases Session.compileInfo env w n q b with
  | error x => exact ⟨n, hn, rfl, rfl, Iff.rfl⟩
  | ok p =>
    obtain ⟨m, adj⟩ := p
    dsimp only
    by_cases hr : n.state = .retired
    · rw [activate_retired hn hr]
      exact ⟨n, hn, rfl, rfl, Iff.rfl⟩
    obtain ⟨ns, ha⟩ := Session.activate_ok hn hr
    have hs := Session.activate_self hn ha
    have hlen : i < ns.length := (List.getElem?_eq_some_iff.1 hs).1
    rw [ha]
    dsimp only
    split
    · exact ⟨_, hs, rfl, rfl, by simp [hr]⟩
    split
    · exact ⟨_, hs, rfl, rfl, by simp [hr]⟩
    rw [hs]
    exact ⟨_, List.getElem?_set_self hlen, rfl, rfl, by simp [hr]⟩

section
variable {ctx : Ctx} {sources : Relation.Sources} {out : Relation.Output} {b₀ : PB}

/-- Unrelated calls do not change what the name stands for. -/
theorem unrelated_keeps {w : World Meas Tab PubFrame} (hw : Reachable ctx out b₀ w) {i : Nat} {v : String}
    {n : Session.Node Meas Tab} (hn : w.nodes[i]? = some n) {op : Op Request PubFrame Value} (ho : Unrelated i v op) :
    ∃ m, (Session.step (env ctx) w op).2.nodes[i]? = some m ∧ Dict.get m.tables v = Dict.get n.tables v ∧
      Dict.get ((Session.step (env ctx) w op).2.pubOf m) v = Dict.get (w.pubOf n) v ∧
      (m.state = .retired ↔ n.state = .retired) := by
  rcases ho with ⟨q, hq, b, rfl, _, _⟩ | ⟨name, hname, hne, _⟩
  · obtain ⟨m, h1, h2, h3, h4⟩ := evaluate_frame (env := env ctx) (.query q hq) b hn
    exact ⟨m, h1, by rw [h2], congrArg (Dict.get · v) h3, h4⟩
  · obtain ⟨_, m, h1, h2, h3, _, h4⟩ := step_setup (ctx := ctx) hname hn (hw.heap hn)
    exact ⟨m, h1, by rw [h2]; exact (setup_frame hname _ _ _ (Ne.symm hne)).1,
      by rw [h3]; exact (setup_frame hname _ _ _ (Ne.symm hne)).2, h4⟩

theorem unrelated_keeps_run {i : Nat} {v : String} (ops : List (Op Request PubFrame Value)) (ho : ∀ op ∈ ops, Unrelated i v op) :
    ∀ {w : World Meas Tab PubFrame} {n : Session.Node Meas Tab}, Reachable ctx out b₀ w → w.nodes[i]? = some n →
    ∃ m, (Session.run (env ctx) w ops).nodes[i]? = some m ∧ Dict.get m.tables v = Dict.get n.tables v ∧
      Dict.get ((Session.run (env ctx) w ops).pubOf m) v = Dict.get (w.pubOf n) v ∧
      (m.state = .retired ↔ n.state = .retired) := by
  induction ops with
  | nil => exact fun _ hn => ⟨_, hn, rfl, rfl, Iff.rfl⟩
  | cons a ops ih =>
    intro w n hw hn
    obtain ⟨m, h1, h2, h3, h4⟩ := unrelated_keeps hw hn (ho a List.mem_cons_self)
    obtain ⟨m', k1, k2, k3, k4⟩ := ih (fun op hop => ho op (List.mem_cons_of_mem _ hop)) (hw.step a) h1
    exact ⟨m', k1, k2.trans h2, k3.trans h3, k4.trans h4⟩

/-- A call that creates or deletes the view, or adds a public table of this name. -/
theorem likeBut_start {w : World Meas Tab PubFrame} (hw : Reachable ctx out b₀ w) {i : Nat} {v : String}
    {n : Session.Node Meas Tab} (hn : w.nodes[i]? = some n) {op : Op Request PubFrame Value} (hop : nameIn op = some (i, v)) :
    ∃ m, LikeBut v w (Session.step (env ctx) w op).2 n m i := by
  obtain ⟨_, m, h1, h2, h3, h4, h5⟩ := step_setup (ctx := ctx) hop hn (hw.heap hn)
  exact ⟨m, hn, h1, h4, h5, fun id hid => by rw [h2]; exact (setup_frame hop _ _ _ hid).1,
    fun id hid => by rw [h3]; exact (setup_frame hop _ _ _ hid).2⟩

variable (core : Core) (hst : Relation.Stored ctx.cast sources) (hf : FramesOK sources)
  (h : Relation.initCore ctx.cast (coreMeasure ctx.m) sources = .ok out)

include core hst hf h

/-- An unrelated call in both worlds. -/
theorem likeBut_step {w w' : World Meas Tab PubFrame} (hw : Reachable ctx out b₀ w) (hw' : Reachable ctx out b₀ w') {i : Nat}
    {v : String} {n n' : Session.Node Meas Tab} (l : LikeBut v w w' n n' i) {op : Op Request PubFrame Value}
    (ho : Unrelated i v op) :
    (Session.step (env ctx) w' op).1 = (Session.step (env ctx) w op).1 ∧
      ∃ m m', LikeBut v (Session.step (env ctx) w op).2 (Session.step (env ctx) w' op).2 m m' i := by
  rcases ho with ⟨q, hq, b, rfl, hv1, hv2⟩ | ⟨name, hop, hne, hu⟩
  · have m1 : ∀ id ∈ (child q).sources, id ≠ v := fun id hid e => hv1 (e ▸ hid)
    have m2 : ∀ id ∈ publics (child q), id ≠ v := fun id hid e => hv2 (e ▸ hid)
    have hinfo := info_named (hw.node core hst hf h l.node) (hw'.node core hst hf h l.node') l.remaining q hq
      ⟨fun id hid => l.tables id (m1 id hid), fun id hid => mem_names_get (l.pub id (m1 id hid)),
        fun id hid => l.pub id (m2 id hid)⟩ b
    have hact : (∃ e, Session.activate w.nodes i = .error e ∧ Session.activate w'.nodes i = .error e) ∨
        (n.state ≠ .retired ∧ n'.state ≠ .retired) := by
      by_cases hr : n.state = .retired
      · exact .inl ⟨_, activate_retired l.node hr, activate_retired l.node' (l.retired.2 hr)⟩
      · exact .inr ⟨hr, fun hr' => hr (l.retired.1 hr')⟩
    obtain ⟨r1, r2⟩ := evaluate_like l.node l.node' hact l.remaining hinfo
    obtain ⟨m, a1, a2, a3, a4⟩ := evaluate_frame (env := env ctx) (.query q hq) b l.node
    obtain ⟨m', c1, c2, c3, c4⟩ := evaluate_frame (env := env ctx) (.query q hq) b l.node'
    rw [a1, c1] at r2
    refine ⟨r1, m, m', a1, c1, Option.some.inj r2, by rw [c4, a4, l.retired], fun id hid => by rw [c2, a2, l.tables id hid],
      fun id hid => ?_⟩
    have := l.pub id hid
    rw [← a3, ← c3] at this
    exact this
  · obtain ⟨r, m, a1, a2, a3, a4, a5⟩ := step_setup (ctx := ctx) hop l.node (hw.heap l.node)
    obtain ⟨r', m', c1, c2, c3, c4, c5⟩ := step_setup (ctx := ctx) hop l.node' (hw'.heap l.node')
    obtain ⟨cat, hc⟩ := hw.catalog core hst hf h l.node
    obtain ⟨cat', hc'⟩ := hw'.catalog core hst hf h l.node'
    have hd : decide (n'.state = .retired) = decide (n.state = .retired) := by
      rw [decide_eq_decide]
      exact l.retired
    rw [hd] at r' c2 c3
    have mm : ∀ id ∈ name :: usedBy op, id ≠ v := by
      intro id hid e
      subst e
      rcases List.mem_cons.1 hid with rfl | hid
      · exact hne rfl
      · exact hu hid
    obtain ⟨e1, e2, e3⟩ := setup_local (ctx := ctx) hop (decide (n.state = .retired)) hc hc' (fun id hid => l.tables id (mm id hid))
      (fun id hid => l.pub id (mm id hid))
    refine ⟨by rw [r, r', e1], m, m', a1, c1, by rw [c4, a4, l.remaining], by rw [c5, a5, l.retired],
      fun id hv => ?_, fun id hv => ?_⟩
    · rw [a2, c2]
      by_cases hid : id = name
      · rw [hid, e2]
      · rw [(setup_frame hop _ _ _ hid).1, (setup_frame hop _ _ _ hid).1, l.tables id hv]
    · rw [a3, c3]
      by_cases hid : id = name
      · rw [hid, e3]
      · rw [(setup_frame hop _ _ _ hid).2, (setup_frame hop _ _ _ hid).2, l.pub id hv]

theorem likeBut_run {i : Nat} {v : String} (ops : List (Op Request PubFrame Value)) (ho : ∀ op ∈ ops, Unrelated i v op) :
    ∀ {w w' : World Meas Tab PubFrame} {n n' : Session.Node Meas Tab}, Reachable ctx out b₀ w → Reachable ctx out b₀ w' →
      LikeBut v w w' n n' i → outcomes ctx w' ops = outcomes ctx w ops ∧
        ∃ m m', LikeBut v (Session.run (env ctx) w ops) (Session.run (env ctx) w' ops) m m' i := by
  induction ops with
  | nil => exact fun _ _ l => ⟨rfl, _, _, l⟩
  | cons a ops ih =>
    intro w w' n n' hw hw' l
    obtain ⟨h1, m, m', l'⟩ := likeBut_step core hst hf h hw hw' l (ho a List.mem_cons_self)
    obtain ⟨h2, l''⟩ := ih (fun op hop => ho op (List.mem_cons_of_mem _ hop)) (hw.step a) (hw'.step a) l'
    exact ⟨congrArg₂ List.cons h1 h2, l''⟩

/-- **C91**: a call that creates or deletes a view, or adds a public table, does not change the outcome of any number of calls in
this session that do not mention its name. -/
theorem C91_unused (ops : List (Op Request PubFrame Value)) (w : World Meas Tab PubFrame)
    (hw : w = Session.run (env ctx) (Session.init b₀ (startTables out)) ops) (i : Nat) (n : Session.Node Meas Tab)
    (hn : w.nodes[i]? = some n) (v : String) (op : Op Request PubFrame Value) (hop : nameIn op = some (i, v))
    (calls : List (Op Request PubFrame Value)) (hc : ∀ op ∈ calls, Unrelated i v op) :
    outcomes ctx (Session.step (env ctx) w op).2 calls = outcomes ctx w calls := by
  have hr : Reachable ctx out b₀ w := ⟨ops, hw⟩
  obtain ⟨m, l⟩ := likeBut_start hr hn hop
  exact (likeBut_run core hst hf h calls hc hr (hr.step op) l).1

theorem deleted_like {w : World Meas Tab PubFrame} (hr : Reachable ctx out b₀ w) (i : Nat) (v : String) (r : Request)
    (x : Session.Out Meas) (hx : (Session.step (env ctx) w (.createView i r v)).1 = .ok x)
    (calls : List (Op Request PubFrame Value)) (hc : ∀ op ∈ calls, Unrelated i v op) :
    let w₁ := Session.run (env ctx) (Session.step (env ctx) w (.createView i r v)).2 calls
    (Session.step (env ctx) w₁ (.deleteView i v)).1 = .ok .none ∧
      ∃ m m', LikeAt (Session.run (env ctx) w calls) (Session.step (env ctx) w₁ (.deleteView i v)).2 m m' i := by
  intro w₁
  obtain ⟨n, hn⟩ : ∃ n, w.nodes[i]? = some n := by
    cases hn : w.nodes[i]? with
    | some n => exact ⟨n, rfl⟩
    | none => simp [Session.step, Session.createView, hn] at hx
  have hv : nameIn (.createView i r v) = some (i, v) := rfl
  obtain ⟨r1, m, a1, a2, a3, a4, a5⟩ := step_setup (ctx := ctx) hv hn (hr.heap hn)
  rw [hx] at r1
  -- The view is new, and the session is alive.
  have hnew : n.state ≠ .retired ∧ Dict.get n.tables v = none ∧ Dict.get (w.pubOf n) v = none ∧
      (∃ t, m.tables = (v, t) :: n.tables) ∧ (Session.step (env ctx) w (.createView i r v)).2.pubOf m = w.pubOf n := by
    dsimp only [setup] at r1 a2 a3
    by_cases h1 : (!(env ctx).isIdent v) = true
    · rw [if_pos h1] at r1
      cases r1
    rw [if_neg h1] at r1 a2 a3
    by_cases h2 : decide (n.state = .retired) = true
    · rw [if_pos h2] at r1
      cases r1
    rw [if_neg h2] at r1 a2 a3
    by_cases h3 : ((Session.names n.tables).contains v || (Session.names (w.pubOf n)).contains v) = true
    · rw [if_pos h3] at r1
      cases r1
    rw [if_neg h3] at r1 a2 a3
    simp only [Bool.or_eq_true, List.contains_iff_mem, not_or] at h3
    cases ht : transform ctx n.tables (w.pubOf n) r with
    | error e => rw [ht] at r1; cases r1
    | ok t =>
      rw [ht] at a2 a3
      exact ⟨by simpa using h2, Dict.get_eq_none.2 h3.1, Dict.get_eq_none.2 h3.2, ⟨t, a2⟩, a3⟩
  obtain ⟨hlive, t0, p0, ⟨t, ht⟩, hp⟩ := hnew
  obtain ⟨_, l⟩ := likeBut_start hr hn hv
  obtain ⟨_, k, k', lk⟩ := likeBut_run core hst hf h calls hc hr (hr.step _) l
  -- In the one world the name stands for nothing, in the other for the view.
  obtain ⟨k₁, b1, b2, b3, _⟩ := unrelated_keeps_run calls hc hr hn
  obtain rfl : k₁ = k := Option.some.inj (b1.symm.trans lk.node)
  obtain ⟨k₂, c1, c2, c3, c4⟩ := unrelated_keeps_run calls hc (hr.step (.createView i r v)) a1
  obtain rfl : k₂ = k' := Option.some.inj (c1.symm.trans lk.node')
  rw [t0] at b2
  rw [p0] at b3
  rw [hp, p0] at c3
  rw [ht, Dict.get_cons, if_pos rfl] at c2
  have hlive' : ¬ decide (k₂.state = .retired) = true := by
    rw [decide_eq_true_iff, c4, a5]
    exact hlive
  have hmem : ¬ (!(Session.names k₂.tables).contains v) = true := by
    have : v ∈ Session.names k₂.tables := Dict.get_isSome.1 (by rw [c2]; rfl)
    simpa using this
  have hr₁ : Reachable ctx out b₀ w₁ := (hr.step _).run calls
  have hd : nameIn (.deleteView i v) = some (i, v) := rfl
  obtain ⟨d0, m', d1, d2, d3, d4, d5⟩ := step_setup (ctx := ctx) hd lk.node' (hr₁.heap lk.node')
  dsimp only [setup] at d0 d2 d3
  rw [if_neg hlive', if_neg hmem] at d0 d2 d3
  refine ⟨d0, _, m', lk.node, d1, d4.trans lk.remaining, d5.trans lk.retired, fun id => ?_, fun id => ?_⟩
  · rw [d2]
    by_cases hid : id = v
    · rw [hid, get_filter_self, b2]
    · rw [← lk.tables id hid]
      exact get_filter_ne _ hid
  · rw [d3]
    by_cases hid : id = v
    · rw [hid, b3]
      exact c3
    · exact lk.pub id hid

/-- **C91**: after a view was created and deleted, with any unrelated calls in between, every query is answered as if there had
been these calls only. -/
theorem C91_deleted (ops : List (Op Request PubFrame Value)) (w : World Meas Tab PubFrame)
    (hw : w = Session.run (env ctx) (Session.init b₀ (startTables out)) ops) (i : Nat) (v : String) (r : Request)
    (x : Session.Out Meas) (hx : (Session.step (env ctx) w (.createView i r v)).1 = .ok x)
    (calls : List (Op Request PubFrame Value)) (hc : ∀ op ∈ calls, Unrelated i v op) :
    let w₁ := Session.run (env ctx) (Session.step (env ctx) w (.createView i r v)).2 calls
    (Session.step (env ctx) w₁ (.deleteView i v)).1 = .ok .none ∧
      Answers ctx (Session.run (env ctx) w calls) (Session.step (env ctx) w₁ (.deleteView i v)).2 i := by
  intro w₁
  have hr : Reachable ctx out b₀ w := ⟨ops, hw⟩
  obtain ⟨h1, m, m', l⟩ := deleted_like core hst hf h hr i v r x hx calls hc
  exact ⟨h1, like_answers core hst hf h (hr.run calls) (((hr.step _).run calls).step _) l⟩

/-- **C91**: the name can be used again. A view or public table of this name that is made after the deletion is what it would
have been without the first view. -/
theorem C91_reused (ops : List (Op Request PubFrame Value)) (w : World Meas Tab PubFrame)
    (hw : w = Session.run (env ctx) (Session.init b₀ (startTables out)) ops) (i : Nat) (v : String) (r : Request)
    (x : Session.Out Meas) (hx : (Session.step (env ctx) w (.createView i r v)).1 = .ok x)
    (calls : List (Op Request PubFrame Value)) (hc : ∀ op ∈ calls, Unrelated i v op) (op : Op Request PubFrame Value)
    (hop : nameIn op = some (i, v)) :
    let w₁ := Session.run (env ctx) (Session.step (env ctx) w (.createView i r v)).2 calls
    let w₂ := (Session.step (env ctx) w₁ (.deleteView i v)).2
    (Session.step (env ctx) w₂ op).1 = (Session.step (env ctx) (Session.run (env ctx) w calls) op).1 ∧
      Answers ctx (Session.step (env ctx) (Session.run (env ctx) w calls) op).2 (Session.step (env ctx) w₂ op).2 i := by
  intro w₁ w₂
  have hr : Reachable ctx out b₀ w := ⟨ops, hw⟩
  have hr₂ : Reachable ctx out b₀ w₂ := ((hr.step _).run calls).step _
  obtain ⟨_, m, m', l⟩ := deleted_like core hst hf h hr i v r x hx calls hc
  obtain ⟨h1, k, k', l'⟩ := like_step core hst hf h (hr.run calls) hr₂ l hop
  exact ⟨h1, like_answers core hst hf h ((hr.run calls).step op) (hr₂.step op) l'⟩

end

end Verif.Whole
