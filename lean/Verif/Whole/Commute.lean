import Verif.Whole.Named
import Verif.Session.PropsViews

/-!
# Views and public tables can be set up in any order (C90)
-/

namespace Verif.Whole

open Verif Verif.Schema Verif.Constraint Verif.Expr Verif.Query Verif.Stability
open Verif.Budget (XNum PB Rounding)
open Verif.Session (World Op)
open scoped NNReal

/-! ## Specification -/

/-- The tables and public tables that the expression of a view names. -/
def usedBy : Op Request PubFrame Value → List String
  | .createView _ (.table e _) _ => e.sources ++ publics e
  | _ => []

/-- Two calls create or delete views, or add public tables, in session `i`, with different names, and neither view uses the
name of the other call. -/
def Independent (i : Nat) (a c : Op Request PubFrame Value) : Prop :=
  ∃ x y, nameIn a = some (i, x) ∧ nameIn c = some (i, y) ∧ x ≠ y ∧ y ∉ usedBy a ∧ x ∉ usedBy c

/-- Session `i` gives the same in both worlds, for all queries and budgets: answer or exception, the budget that is left, and
noise. -/
def Answers (ctx : Ctx) (w w' : World Meas Tab PubFrame) (i : Nat) : Prop :=
  ∀ (q : Query) (hq : Admissible (child q)) (b : PB),
    (Session.step (env ctx) w' (.evaluate i (.query q hq) b)).1 = (Session.step (env ctx) w (.evaluate i (.query q hq) b)).1 ∧
    ((Session.step (env ctx) w' (.evaluate i (.query q hq) b)).2.nodes[i]?).map (·.remaining) =
      ((Session.step (env ctx) w (.evaluate i (.query q hq) b)).2.nodes[i]?).map (·.remaining) ∧
    Session.noiseInfo (env ctx) id w' i (.query q hq) b = Session.noiseInfo (env ctx) id w i (.query q hq) b

/-! ## Proofs: one call -/

/-- What a call that creates or deletes a view, or adds a public table, does to the tables and public tables of its session. -/
noncomputable def setup (ctx : Ctx) (op : Op Request PubFrame Value) (retired : Bool) (tables : List (String × Tab))
    (pub : List (String × PubFrame)) : Except Session.Err (Session.Out Meas) × List (String × Tab) × List (String × PubFrame) :=
  match op with
  | .createView _ q name =>
    if !(env ctx).isIdent name then (.error .valueError, tables, pub)
    else if retired then (.error .inactive, tables, pub)
    else if (Session.names tables).contains name || (Session.names pub).contains name then (.error .valueError, tables, pub)
    else
      match transform ctx tables pub q with
      | .error e => (.error e, tables, pub)
      | .ok t => (.ok .none, (name, t) :: tables, pub)
  | .deleteView _ name =>
    if retired then (.error .inactive, tables, pub)
    else if !(Session.names tables).contains name then (.error .keyError, tables, pub)
    else (.ok .none, tables.filter (fun p => p.1 != name), pub)
  | .addPublic _ name df =>
    if !(env ctx).isIdent name then (.error .valueError, tables, pub)
    else if (Session.names pub).contains name || (Session.names tables).contains name then (.error .valueError, tables, pub)
    else
      match (env ctx).coerce df with
      | .error e => (.error e, tables, pub)
      | .ok df' => (.ok .none, tables, pub ++ [(name, df')])
  | _ => (.error .internal, tables, pub)

theorem activate_retired {w : World Meas Tab PubFrame} {i : Nat} {n : Session.Node Meas Tab} (hn : w.nodes[i]? = some n)
    (hr : n.state = .retired) : Session.activate w.nodes i = .error .inactive := by
  unfold Session.activate
  rw [hn]
  simp [hr]

theorem pubOf_set {w : World Meas Tab PubFrame} {n : Session.Node Meas Tab} (hl : n.pub < w.heap.length)
    (p : List (String × PubFrame)) : ({ w with heap := w.heap.set n.pub p } : World Meas Tab PubFrame).pubOf n = p := by
  unfold Session.World.pubOf
  rw [List.getElem?_set_self hl]
  rfl

/-- The call does this, and neither the budget nor the life of the session change. -/
theorem step_setup {ctx : Ctx} {w : World Meas Tab PubFrame} {op : Op Request PubFrame Value} {i : Nat} {name : String}
    (hop : nameIn op = some (i, name)) {n : Session.Node Meas Tab} (hn : w.nodes[i]? = some n) (hl : n.pub < w.heap.length) :
    let s := setup ctx op (decide (n.state = .retired)) n.tables (w.pubOf n)
    (Session.step (env ctx) w op).1 = s.1 ∧ ∃ n', (Session.step (env ctx) w op).2.nodes[i]? = some n' ∧ n'.tables = s.2.1 ∧
      (Session.step (env ctx) w op).2.pubOf n' = s.2.2 ∧ n'.remaining = n.remaining ∧
      (n'.state = .retired ↔ n.state = .retired) := by
  have ht : (env ctx).transform = transform ctx := rfl
  cases op with
  | evaluate => cases hop
  | partition => cases hop
  | stop => cases hop
  | createView j q nm =>
    cases hop
    simp only [Session.step, Session.createView, setup, hn, ht]
    by_cases h1 : (!(env ctx).isIdent name) = true
    · rw [if_pos h1, if_pos h1]
      exact ⟨rfl, n, hn, rfl, rfl, rfl, Iff.rfl⟩
    rw [if_neg h1, if_neg h1]
    by_cases hr : n.state = .retired
    · rw [activate_retired hn hr, if_pos (by simpa using hr)]
      exact ⟨rfl, n, hn, rfl, rfl, rfl, Iff.rfl⟩
    rw [if_neg (by simpa using hr)]
    obtain ⟨ns, ha⟩ := Session.activate_ok hn hr
    have hs := Session.activate_self hn ha
    have hlen : i < ns.length := (List.getElem?_eq_some_iff.1 hs).1
    rw [ha]
    dsimp only
    rw [hs]
    dsimp only
    have hp : w.pubOf { n with state := .active } = w.pubOf n := rfl
    rw [hp]
    by_cases h2 : ((Session.names n.tables).contains name || (Session.names (w.pubOf n)).contains name) = true
    · rw [if_pos h2, if_pos h2]
      exact ⟨rfl, _, hs, rfl, rfl, rfl, by simp [hr]⟩
    rw [if_neg h2, if_neg h2]
    cases transform ctx n.tables (w.pubOf n) q with
    | error e => exact ⟨rfl, _, hs, rfl, rfl, rfl, by simp [hr]⟩
    | ok t => exact ⟨rfl, _, List.getElem?_set_self hlen, rfl, rfl, rfl, by simp [hr]⟩
  | deleteView j nm =>
    cases hop
    simp only [Session.step, Session.deleteView, setup, hn]
    by_cases hr : n.state = .retired
    · rw [activate_retired hn hr, if_pos (by simpa using hr)]
      exact ⟨rfl, n, hn, rfl, rfl, rfl, Iff.rfl⟩
    rw [if_neg (by simpa using hr)]
    obtain ⟨ns, ha⟩ := Session.activate_ok hn hr
    have hs := Session.activate_self hn ha
    have hlen : i < ns.length := (List.getElem?_eq_some_iff.1 hs).1
    rw [ha]
    dsimp only
    rw [hs]
    dsimp only
    by_cases h2 : (!(Session.names n.tables).contains name) = true
    · rw [if_pos h2, if_pos h2]
      exact ⟨rfl, _, hs, rfl, rfl, rfl, by simp [hr]⟩
    rw [if_neg h2, if_neg h2]
    exact ⟨rfl, _, List.getElem?_set_self hlen, rfl, rfl, rfl, by simp [hr]⟩
  | addPublic j nm df =>
    cases hop
    simp only [Session.step, Session.addPublic, setup, hn]
    by_cases h1 : (!(env ctx).isIdent name) = true
    · rw [if_pos h1, if_pos h1]
      exact ⟨rfl, n, hn, rfl, rfl, rfl, Iff.rfl⟩
    rw [if_neg h1, if_neg h1]
    by_cases h2 : ((Session.names (w.pubOf n)).contains name || (Session.names n.tables).contains name) = true
    · rw [if_pos h2, if_pos h2]
      exact ⟨rfl, n, hn, rfl, rfl, rfl, Iff.rfl⟩
    rw [if_neg h2, if_neg h2]
    cases (env ctx).coerce df with
    | error e => exact ⟨rfl, n, hn, rfl, rfl, rfl, Iff.rfl⟩
    | ok df' => exact ⟨rfl, n, hn, rfl, pubOf_set hl _, rfl, Iff.rfl⟩

/-! ## Proofs: two calls -/

/-- Only the table with the name of the call changes. -/
theorem setup_frame {ctx : Ctx} {op : Op Request PubFrame Value} {i : Nat} {name : String} (hop : nameIn op = some (i, name))
    (r : Bool) (tables : List (String × Tab)) (pub : List (String × PubFrame)) {id : String} (hid : id ≠ name) :
    Dict.get (setup ctx op r tables pub).2.1 id = Dict.get tables id ∧
      Dict.get (setup ctx op r tables pub).2.2 id = Dict.get pub id := by
  cases op with
  | evaluate => cases hop
  | partition => cases hop
  | stop => cases hop
  | createView j q nm =>
    cases hop
    dsimp only [setup]
    repeat' split
    all_goals first | exact ⟨rfl, rfl⟩ | exact ⟨get_tail _ _ hid, rfl⟩
  | deleteView j nm =>
    cases hop
    dsimp only [setup]
    repeat' split
    all_goals first | exact ⟨rfl, rfl⟩ | exact ⟨get_filter_ne _ hid, rfl⟩
  | addPublic j nm df =>
    cases hop
    dsimp only [setup]
    repeat' split
    all_goals first | exact ⟨rfl, rfl⟩ | exact ⟨rfl, get_append_ne _ _ hid⟩

theorem mem_names_get {V : Type} {l l' : List (String × V)} {x : String} (h : Dict.get l' x = Dict.get l x) :
    x ∈ Session.names l' ↔ x ∈ Session.names l := by
  have h1 := Dict.get_isSome (d := l) (k := x)
  have h2 := Dict.get_isSome (d := l') (k := x)
  rw [h] at h2
  exact h2.symm.trans h1

theorem contains_get {V : Type} {l l' : List (String × V)} {x : String} (h : Dict.get l' x = Dict.get l x) :
    (Session.names l').contains x = (Session.names l).contains x := by
  have := mem_names_get h
  rw [Bool.eq_iff_iff]
  simpa using this

theorem get_append_new {V : Type} {l l' : List (String × V)} {x : String} (v : V) (h : Dict.get l' x = Dict.get l x) :
    Dict.get (l' ++ [(x, v)]) x = Dict.get (l ++ [(x, v)]) x := by
  have key : ∀ l : List (String × V), Dict.get (l ++ [(x, v)]) x = some ((Dict.get l x).getD v) := by
    intro l
    induction l with
    | nil => simp [Dict.get]
    | cons p l ih =>
      obtain ⟨k, u⟩ := p
      rw [List.cons_append, Dict.get_cons, Dict.get_cons, ih]
      split <;> rfl
  rw [key, key, h]

theorem get_filter_self {V : Type} (l : List (String × V)) (x : String) :
    Dict.get (l.filter (fun p => p.1 != x)) x = none := by
  rw [Dict.get_eq_none]
  intro h
  obtain ⟨v, hv⟩ := Dict.mem_keys.1 h
  have := (List.mem_filter.1 hv).2
  simp at this

/-- What the call gives and makes of its table depends on this table and on those it uses. -/
theorem setup_local {ctx : Ctx} {op : Op Request PubFrame Value} {i : Nat} {name : String} (hop : nameIn op = some (i, name))
    (r : Bool) {tables tables' : List (String × Tab)} {pub pub' : List (String × PubFrame)} {cat cat' : Cat}
    (hc : catalog tables pub = .ok cat) (hc' : catalog tables' pub' = .ok cat')
    (h1 : ∀ id ∈ name :: usedBy op, Dict.get tables' id = Dict.get tables id)
    (h2 : ∀ id ∈ name :: usedBy op, Dict.get pub' id = Dict.get pub id) :
    (setup ctx op r tables' pub').1 = (setup ctx op r tables pub).1 ∧
      Dict.get (setup ctx op r tables' pub').2.1 name = Dict.get (setup ctx op r tables pub).2.1 name ∧
      Dict.get (setup ctx op r tables' pub').2.2 name = Dict.get (setup ctx op r tables pub).2.2 name := by
  have t1 := h1 name List.mem_cons_self
  have t2 := h2 name List.mem_cons_self
  have c1 := contains_get t1
  have c2 := contains_get t2
  cases op with
  | evaluate => cases hop
  | partition => cases hop
  | stop => cases hop
  | createView j q nm =>
    cases hop
    have htr : transform ctx tables' pub' q = transform ctx tables pub q := by
      cases q with
      | query q hq => rfl
      | table e he =>
        have m1 : ∀ id ∈ e.sources, id ∈ name :: usedBy (.createView i (.table e he) name) :=
          fun id hid => List.mem_cons_of_mem _ (List.mem_append_left _ hid)
        have m2 : ∀ id ∈ publics e, id ∈ name :: usedBy (.createView i (.table e he) name) :=
          fun id hid => List.mem_cons_of_mem _ (List.mem_append_right _ hid)
        exact transform_named hc hc' e he (fun id hid => h1 id (m1 id hid)) (fun id hid => mem_names_get (h2 id (m1 id hid)))
          (fun id hid => h2 id (m2 id hid))
    dsimp only [setup]
    rw [c1, c2, htr]
    repeat' split
    all_goals first | exact ⟨rfl, t1, t2⟩ | exact ⟨rfl, by rw [get_head, get_head], t2⟩
  | deleteView j nm =>
    cases hop
    dsimp only [setup]
    rw [c1]
    repeat' split
    all_goals first | exact ⟨rfl, t1, t2⟩ | exact ⟨rfl, by rw [get_filter_self, get_filter_self], t2⟩
  | addPublic j nm df =>
    cases hop
    dsimp only [setup]
    rw [c1, c2]
    repeat' split
    all_goals first | exact ⟨rfl, t1, t2⟩ | exact ⟨rfl, t1, get_append_new _ t2⟩

/-! ## Proofs: sessions -/

/-- The session has the same tables under all names in both worlds. -/
structure LikeAt (w w' : World Meas Tab PubFrame) (n n' : Session.Node Meas Tab) (i : Nat) : Prop where
  node : w.nodes[i]? = some n
  node' : w'.nodes[i]? = some n'
  remaining : n'.remaining = n.remaining
  retired : n'.state = .retired ↔ n.state = .retired
  tables : ∀ id, Dict.get n'.tables id = Dict.get n.tables id
  pub : ∀ id, Dict.get (w'.pubOf n') id = Dict.get (w.pubOf n) id

section
variable {ctx : Ctx} {sources : Relation.Sources} {out : Relation.Output} {b₀ : PB}

/-- Worlds that calls lead to. -/
def Reachable (ctx : Ctx) (out : Relation.Output) (b₀ : PB) (w : World Meas Tab PubFrame) : Prop :=
  ∃ ops, w = Session.run (env ctx) (Session.init b₀ (startTables out)) ops

theorem Reachable.step {w : World Meas Tab PubFrame} (h : Reachable ctx out b₀ w) (op : Op Request PubFrame Value) :
    Reachable ctx out b₀ (Session.step (env ctx) w op).2 := by
  obtain ⟨ops, rfl⟩ := h
  exact ⟨ops ++ [op], by rw [run_snoc]⟩

theorem Reachable.heap {w : World Meas Tab PubFrame} (h : Reachable ctx out b₀ w) {i : Nat} {n : Session.Node Meas Tab}
    (hn : w.nodes[i]? = some n) : n.pub < w.heap.length := by
  obtain ⟨ops, rfl⟩ := h
  have hsh : Session.SharedPub (Session.run (env ctx) (Session.init b₀ (startTables out)) ops) :=
    Session.run_induction Session.SharedPub (fun _ _ _ _ h hs => Session.sharedPub_step h hs) ops _
      (Session.sharedPub_init b₀ (startTables out))
  rw [hsh.2 i n hn, hsh.1]
  exact Nat.zero_lt_one

variable (core : Core) (hst : Relation.Stored ctx.cast sources) (hf : FramesOK sources)
  (h : Relation.initCore ctx.cast (coreMeasure ctx.m) sources = .ok out)

include core hst hf h

theorem Reachable.node {w : World Meas Tab PubFrame} (hw : Reachable ctx out b₀ w) {i : Nat} {n : Session.Node Meas Tab}
    (hn : w.nodes[i]? = some n) : Reached ctx w n := by
  obtain ⟨ops, rfl⟩ := hw
  exact reached core hst hf h b₀ ops i n hn

theorem Reachable.catalog {w : World Meas Tab PubFrame} (hw : Reachable ctx out b₀ w) {i : Nat} {n : Session.Node Meas Tab}
    (hn : w.nodes[i]? = some n) : ∃ cat, Whole.catalog n.tables (w.pubOf n) = .ok cat := by
  have hR := hw.node core hst hf h hn
  obtain ⟨R, tok⟩ := hR.tabs
  exact catalog_total hR.names hR.pubNames tok hR.pub

theorem like_answers {w w' : World Meas Tab PubFrame} (hw : Reachable ctx out b₀ w) (hw' : Reachable ctx out b₀ w') {i : Nat}
    {n n' : Session.Node Meas Tab} (l : LikeAt w w' n n' i) : Answers ctx w w' i := by
  intro q hq b
  have hinfo := info_named (hw.node core hst hf h l.node) (hw'.node core hst hf h l.node') l.remaining q hq
    ⟨fun id _ => l.tables id, fun id _ => mem_names_get (l.pub id), fun id _ => l.pub id⟩ b
  have hact : (∃ e, Session.activate w.nodes i = .error e ∧ Session.activate w'.nodes i = .error e) ∨
      (n.state ≠ .retired ∧ n'.state ≠ .retired) := by
    by_cases hr : n.state = .retired
    · exact .inl ⟨_, activate_retired l.node hr, activate_retired l.node' (l.retired.2 hr)⟩
    · exact .inr ⟨hr, fun hr' => hr (l.retired.1 hr')⟩
  obtain ⟨r1, r2⟩ := evaluate_like l.node l.node' hact l.remaining hinfo
  refine ⟨r1, r2, ?_⟩
  unfold Session.noiseInfo
  rw [l.node, l.node']
  dsimp only
  rw [hinfo]

/-- The same call in both worlds. -/
theorem like_step {w w' : World Meas Tab PubFrame} (hw : Reachable ctx out b₀ w) (hw' : Reachable ctx out b₀ w') {i : Nat}
    {n n' : Session.Node Meas Tab} (l : LikeAt w w' n n' i) {op : Op Request PubFrame Value} {name : String}
    (hop : nameIn op = some (i, name)) :
    (Session.step (env ctx) w' op).1 = (Session.step (env ctx) w op).1 ∧
      ∃ m m', LikeAt (Session.step (env ctx) w op).2 (Session.step (env ctx) w' op).2 m m' i := by
  obtain ⟨r, m, a1, a2, a3, a4, a5⟩ := step_setup (ctx := ctx) hop l.node (hw.heap l.node)
  obtain ⟨r', m', c1, c2, c3, c4, c5⟩ := step_setup (ctx := ctx) hop l.node' (hw'.heap l.node')
  obtain ⟨cat, hc⟩ := hw.catalog core hst hf h l.node
  obtain ⟨cat', hc'⟩ := hw'.catalog core hst hf h l.node'
  have hd : decide (n'.state = .retired) = decide (n.state = .retired) := by
    rw [decide_eq_decide]
    exact l.retired
  rw [hd] at r' c2 c3
  obtain ⟨e1, e2, e3⟩ := setup_local (ctx := ctx) hop (decide (n.state = .retired)) hc hc' (fun id _ => l.tables id)
    (fun id _ => l.pub id)
  refine ⟨by rw [r, r', e1], m, m', a1, c1, by rw [c4, a4, l.remaining], by rw [c5, a5, l.retired], fun id => ?_, fun id => ?_⟩
  · rw [a2, c2]
    by_cases hid : id = name
    · rw [hid, e2]
    · rw [(setup_frame hop _ _ _ hid).1, (setup_frame hop _ _ _ hid).1, l.tables]
  · rw [a3, c3]
    by_cases hid : id = name
    · rw [hid, e3]
    · rw [(setup_frame hop _ _ _ hid).2, (setup_frame hop _ _ _ hid).2, l.pub]

/-- Two independent calls in both orders. -/
theorem like_swap {w : World Meas Tab PubFrame} (hw : Reachable ctx out b₀ w) {i : Nat} {n : Session.Node Meas Tab}
    (hn : w.nodes[i]? = some n) {a c : Op Request PubFrame Value} (hi : Independent i a c) :
    (Session.step (env ctx) (Session.step (env ctx) w a).2 c).1 = (Session.step (env ctx) w c).1 ∧
    (Session.step (env ctx) (Session.step (env ctx) w c).2 a).1 = (Session.step (env ctx) w a).1 ∧
    ∃ m m', LikeAt (Session.step (env ctx) (Session.step (env ctx) w a).2 c).2
      (Session.step (env ctx) (Session.step (env ctx) w c).2 a).2 m m' i := by
  obtain ⟨x, y, ha, hc, hxy, hya, hxc⟩ := hi
  have wa := hw.step a
  have wc := hw.step c
  obtain ⟨ra, na, a1, a2, a3, a4, a5⟩ := step_setup (ctx := ctx) ha hn (hw.heap hn)
  obtain ⟨rc, nc, c1, c2, c3, c4, c5⟩ := step_setup (ctx := ctx) hc hn (hw.heap hn)
  obtain ⟨rac, nac, d1, d2, d3, d4, d5⟩ := step_setup (ctx := ctx) hc a1 (wa.heap a1)
  obtain ⟨rca, nca, e1, e2, e3, e4, e5⟩ := step_setup (ctx := ctx) ha c1 (wc.heap c1)
  obtain ⟨cat, hcat⟩ := hw.catalog core hst hf h hn
  obtain ⟨cata, hcata⟩ := wa.catalog core hst hf h a1
  obtain ⟨catc, hcatc⟩ := wc.catalog core hst hf h c1
  have ea : decide (na.state = .retired) = decide (n.state = .retired) := by
    rw [decide_eq_decide]
    exact a5
  have ec : decide (nc.state = .retired) = decide (n.state = .retired) := by
    rw [decide_eq_decide]
    exact c5
  rw [ea] at rac d2 d3
  rw [ec] at rca e2 e3
  have ma : ∀ id ∈ x :: usedBy a, id ≠ y := by
    intro id hid e
    subst e
    rcases List.mem_cons.1 hid with rfl | hid
    · exact hxy rfl
    · exact hya hid
  have mc : ∀ id ∈ y :: usedBy c, id ≠ x := by
    intro id hid e
    subst e
    rcases List.mem_cons.1 hid with rfl | hid
    · exact hxy rfl
    · exact hxc hid
  generalize decide (n.state = .retired) = r at *
  have ta : ∀ id, id ≠ x → Dict.get na.tables id = Dict.get n.tables id := fun id hid => by
    rw [a2]; exact (setup_frame ha _ _ _ hid).1
  have pa : ∀ id, id ≠ x → Dict.get ((Session.step (env ctx) w a).2.pubOf na) id = Dict.get (w.pubOf n) id := fun id hid => by
    rw [a3]; exact (setup_frame ha _ _ _ hid).2
  have tc : ∀ id, id ≠ y → Dict.get nc.tables id = Dict.get n.tables id := fun id hid => by
    rw [c2]; exact (setup_frame hc _ _ _ hid).1
  have pc : ∀ id, id ≠ y → Dict.get ((Session.step (env ctx) w c).2.pubOf nc) id = Dict.get (w.pubOf n) id := fun id hid => by
    rw [c3]; exact (setup_frame hc _ _ _ hid).2
  obtain ⟨f1, f2, f3⟩ := setup_local (ctx := ctx) hc r hcat hcata (fun id hid => ta id (mc id hid)) (fun id hid => pa id (mc id hid))
  obtain ⟨g1, g2, g3⟩ := setup_local (ctx := ctx) ha r hcat hcatc (fun id hid => tc id (ma id hid)) (fun id hid => pc id (ma id hid))
  refine ⟨by rw [rac, f1, rc], by rw [rca, g1, ra], nac, nca, d1, e1, by rw [e4, d4, c4, a4], by rw [e5, d5, c5, a5],
    fun id => ?_, fun id => ?_⟩
  · rw [d2, e2]
    by_cases hx : id = x
    · rw [hx, g2, (setup_frame hc _ _ _ hxy).1, a2]
    by_cases hy : id = y
    · rw [hy, f2, (setup_frame ha _ _ _ (Ne.symm hxy)).1, c2]
    rw [(setup_frame hc _ _ _ hy).1, (setup_frame ha _ _ _ hx).1, ta id hx, tc id hy]
  · rw [d3, e3]
    by_cases hx : id = x
    · rw [hx, g3, (setup_frame hc _ _ _ hxy).2, a3]
    by_cases hy : id = y
    · rw [hy, f3, (setup_frame ha _ _ _ (Ne.symm hxy)).2, c3]
    rw [(setup_frame hc _ _ _ hy).2, (setup_frame ha _ _ _ hx).2, pa id hx, pc id hy]

/-- **C90**: two calls that create or delete views or add public tables, with different names and not using each other, give
the same results in both orders, and afterwards every query is answered alike. -/
theorem C90_swap (ops : List (Op Request PubFrame Value)) (w : World Meas Tab PubFrame)
    (hw : w = Session.run (env ctx) (Session.init b₀ (startTables out)) ops) (i : Nat) (n : Session.Node Meas Tab)
    (hn : w.nodes[i]? = some n) (a c : Op Request PubFrame Value) (hi : Independent i a c) :
    (Session.step (env ctx) (Session.step (env ctx) w a).2 c).1 = (Session.step (env ctx) w c).1 ∧
    (Session.step (env ctx) (Session.step (env ctx) w c).2 a).1 = (Session.step (env ctx) w a).1 ∧
    Answers ctx (Session.step (env ctx) (Session.step (env ctx) w a).2 c).2
      (Session.step (env ctx) (Session.step (env ctx) w c).2 a).2 i := by
  have hr : Reachable ctx out b₀ w := ⟨ops, hw⟩
  obtain ⟨h1, h2, m, m', l⟩ := like_swap core hst hf h hr hn hi
  exact ⟨h1, h2, like_answers core hst hf h ((hr.step a).step c) ((hr.step c).step a) l⟩

omit core hst hf h in
theorem Reachable.run {w : World Meas Tab PubFrame} (hw : Reachable ctx out b₀ w) (ops : List (Op Request PubFrame Value)) :
    Reachable ctx out b₀ (Session.run (env ctx) w ops) := by
  induction ops generalizing w with
  | nil => exact hw
  | cons a ops ih => exact ih (hw.step a)

/-- The same calls in both worlds. -/
theorem like_run {i : Nat} (ops : List (Op Request PubFrame Value)) (ho : ∀ op ∈ ops, ∃ name, nameIn op = some (i, name)) :
    ∀ {w w' : World Meas Tab PubFrame} {n n' : Session.Node Meas Tab}, Reachable ctx out b₀ w → Reachable ctx out b₀ w' →
      LikeAt w w' n n' i → ∃ m m', LikeAt (Session.run (env ctx) w ops) (Session.run (env ctx) w' ops) m m' i := by
  induction ops with
  | nil => exact fun _ _ l => ⟨_, _, l⟩
  | cons a ops ih =>
    intro w w' n n' hw hw' l
    obtain ⟨name, hname⟩ := ho a List.mem_cons_self
    obtain ⟨_, m, m', l'⟩ := like_step core hst hf h hw hw' l hname
    exact ih (fun op hop => ho op (List.mem_cons_of_mem _ hop)) (hw.step a) (hw'.step a) l'

omit core hst hf h in
theorem LikeAt.refl {w : World Meas Tab PubFrame} {n : Session.Node Meas Tab} {i : Nat} (hn : w.nodes[i]? = some n) :
    LikeAt w w n n i := ⟨hn, hn, rfl, Iff.rfl, fun _ => rfl, fun _ => rfl⟩

omit core hst hf h in
theorem LikeAt.trans {w w' w'' : World Meas Tab PubFrame} {n n' m n'' : Session.Node Meas Tab} {i : Nat} (l : LikeAt w w' n n' i)
    (l' : LikeAt w' w'' m n'' i) : LikeAt w w'' n n'' i := by
  have : m = n' := Option.some.inj (l'.node.symm.trans l.node')
  subst this
  exact ⟨l.node, l'.node', l'.remaining.trans l.remaining, l'.retired.trans l.retired,
    fun id => (l'.tables id).trans (l.tables id), fun id => (l'.pub id).trans (l.pub id)⟩

omit core hst hf h in
theorem Independent.symm {i : Nat} {a c : Op Request PubFrame Value} (hi : Independent i a c) : Independent i c a := by
  obtain ⟨x, y, h1, h2, h3, h4, h5⟩ := hi
  exact ⟨y, x, h2, h1, Ne.symm h3, h5, h4⟩

/-- **C90**: views and public tables that do not use each other can be set up in any order. -/
theorem C90_any_order (ops : List (Op Request PubFrame Value)) (w : World Meas Tab PubFrame)
    (hw : w = Session.run (env ctx) (Session.init b₀ (startTables out)) ops) (i : Nat) (n : Session.Node Meas Tab)
    (hn : w.nodes[i]? = some n) (l₁ l₂ : List (Op Request PubFrame Value)) (hp : l₁.Perm l₂)
    (ho : ∀ op ∈ l₁, ∃ name, nameIn op = some (i, name)) (hi : l₁.Pairwise (Independent i)) :
    Answers ctx (Session.run (env ctx) w l₁) (Session.run (env ctx) w l₂) i := by
  have hr : Reachable ctx out b₀ w := ⟨ops, hw⟩
  clear hw
  have main : ∃ m m', LikeAt (Session.run (env ctx) w l₁) (Session.run (env ctx) w l₂) m m' i := by
    induction hp generalizing w n with
    | nil => exact ⟨n, n, LikeAt.refl hn⟩
    | @cons a l l' hp ih =>
      obtain ⟨name, hname⟩ := ho a List.mem_cons_self
      obtain ⟨_, m, m1, _⟩ := step_setup (ctx := ctx) hname hn (hr.heap hn)
      exact ih _ _ m1 (fun op hop => ho op (List.mem_cons_of_mem _ hop)) (List.pairwise_cons.1 hi).2 (hr.step a)
    | swap a c l =>
      have hac : Independent i c a := (List.pairwise_cons.1 hi).1 a List.mem_cons_self
      obtain ⟨_, _, m, m', lk⟩ := like_swap core hst hf h hr hn hac
      exact like_run core hst hf h l (fun op hop => ho op (List.mem_cons_of_mem _ (List.mem_cons_of_mem _ hop)))
        ((hr.step c).step a) ((hr.step a).step c) lk
    | trans p1 p2 ih1 ih2 =>
      obtain ⟨m, m', k1⟩ := ih1 w n hn ho hi hr
      obtain ⟨_, m'', k2⟩ := ih2 w n hn (fun op hop => ho op (p1.mem_iff.2 hop))
        ((p1.pairwise_iff fun hs => Independent.symm hs).1 hi) hr
      exact ⟨_, _, k1.trans k2⟩
  obtain ⟨m, m', lk⟩ := main
  exact like_answers core hst hf h (hr.run l₁) (hr.run l₂) lk

end

end Verif.Whole
