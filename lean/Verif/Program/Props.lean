import Verif.Program.Steps

/-!
# C74: programs
-/

namespace Verif.Program

open Verif Verif.Schema Verif.Constraint Verif.Expr Verif.Query
open Verif.Builder (Heap Obj Arg Operand AggArg Call Res PyFn PExpr PQuery Sql call run Reads makeOp)
open Verif.Whole (Chain Ctx ColsArg Bins PubFrame)

variable {ctx : Ctx} {sql : Sql} {th : Things} {raises : Heap → Call → Bool}

theorem reads_step {h : Heap} {arg : Arg} {op : Builder.Op} (hr : Reads h arg op) :
    ∃ f, argStep sql th h.objs arg = some f := by
  cases hr with
  | rename hd => exact ⟨_, by simp only [argStep, hd]; rfl⟩
  | filter t => exact ⟨_, rfl⟩
  | select hd => exact ⟨_, by simp only [argStep, hd]; rfl⟩
  | map g a hd hs => exact ⟨_, by simp only [argStep, hd]; rfl⟩
  | flatMap g a n hd hs => exact ⟨_, by simp only [argStep, hd]; rfl⟩
  | grouping g a n hd hs => exact ⟨_, by simp only [argStep, hd]; rfl⟩
  | flatMapByID g hd hs => exact ⟨_, by simp only [argStep, hd]; rfl⟩
  | joinPublic p w => cases p <;> exact ⟨_, rfl⟩
  | joinPublicOn p w hd => cases p <;> exact ⟨_, by simp only [argStep, listed, hd]; rfl⟩
  | replaceNullAll => exact ⟨_, rfl⟩
  | replaceNull hd => exact ⟨_, by simp only [argStep, hd]; rfl⟩
  | replaceInfAll => exact ⟨_, rfl⟩
  | replaceInf hd => exact ⟨_, by simp only [argStep, hd]; rfl⟩
  | dropNullAll => exact ⟨_, rfl⟩
  | dropNull hd => exact ⟨_, by simp only [argStep, listed, hd]; rfl⟩
  | dropInfAll => exact ⟨_, rfl⟩
  | dropInf hd => exact ⟨_, by simp only [argStep, listed, hd]; rfl⟩
  | enforce k => exact ⟨_, rfl⟩
  | binColumn g name desc hs => exact ⟨_, rfl⟩

/-- A builder and its chain. -/
def Shows (ctx : Ctx) (sql : Sql) (c : Chain) (p : PExpr) : Prop := c.build ctx = .ok (p.denote sql)

/-- The objects of a program and the book of the calls. -/
structure Sim (ctx : Ctx) (sql : Sql) (h : Heap) (bk : Book) : Prop where
  ok : h.OK
  objs : h.objs = bk.objs
  bLen : h.builders.length = bk.builders.length
  gLen : h.grouped.length = bk.grouped.length
  qLen : h.queries.length = bk.queries.length
  builders : ∀ b c, bk.builders[b]? = some c → ∃ p, h.builder b = some p ∧ Shows ctx sql c p
  grouped : ∀ g c k, bk.grouped[g]? = some (c, k) → ∃ p, h.groupedBuilder g = some (p, k) ∧ Shows ctx sql c p
  queries : ∀ q a, bk.queries[q]? = some a → ∃ pq, h.query q = some pq ∧ a.Query ctx (pq.denote sql)

theorem Sim.valid {h : Heap} {bk : Book} (s : Sim ctx sql h bk) {b : Nat} {c : Chain} (hb : bk.builders[b]? = some c) :
    c.Valid ctx := by
  obtain ⟨p, _, hp⟩ := s.builders b c hb
  exact (Whole.C72_accepts ctx c).1.1 ⟨_, hp⟩

theorem getElem?_prefix {α : Type*} {l l' : List α} (h : l <+: l') {i : Nat} {a : α} (hi : l[i]? = some a) : l'[i]? = some a := by
  obtain ⟨t, rfl⟩ := h
  rw [List.getElem?_append_left (List.getElem?_eq_some_iff.1 hi).1]
  exact hi

/-- What is not changed by a call still means the same. -/
theorem builder_kept {h : Heap} (ok : h.OK) (c : Call) {b : Nat} (hb : b < h.builders.length) (ht : c.target ≠ some b)
    {p : PExpr} (hp : h.builder b = some p) : (call raises h c).1.builder b = some p := by
  have st := Builder.call_step raises ok c
  have e1 : h.builders[b]? = some h.builders[b] := List.getElem?_eq_getElem hb
  have e2 := (st.kept b hb (fun e => ht e.symm)).trans e1
  obtain ⟨e, h1, h2⟩ := Builder.expr_stable ok st.ext.nodes (ok.builders _ (List.getElem_mem hb))
  have : h.builder b = some e := by simp [Heap.builder, e1, h1]
  rw [this] at hp
  cases hp
  simp [Heap.builder, e2, h2]

theorem grouped_kept {h : Heap} (ok : h.OK) (c : Call) {g : Nat} (hg : g < h.grouped.length) {x : PExpr × Keys}
    (hx : h.groupedBuilder g = some x) : (call raises h c).1.groupedBuilder g = some x := by
  obtain ⟨y, h1, h2⟩ := Builder.grouped_stable ok (Builder.call_step raises ok c).ext hg
  rw [h1] at hx
  cases hx
  exact h2

theorem query_kept {h : Heap} (ok : h.OK) (c : Call) {q : Nat} (hq : q < h.queries.length) {x : PQuery}
    (hx : h.query q = some x) : (call raises h c).1.query q = some x := by
  obtain ⟨y, h1, h2⟩ := Builder.query_stable ok (Builder.call_step raises ok c).ext hq
  rw [h1] at hx
  cases hx
  exact h2

/-- A call that leaves all but some objects as they are. -/
theorem Sim.step {h : Heap} {bk bk' : Book} (s : Sim ctx sql h bk) (c : Call)
    (ho : (call raises h c).1.objs = bk'.objs)
    (hb : (call raises h c).1.builders.length = bk'.builders.length)
    (hg : (call raises h c).1.grouped.length = bk'.grouped.length)
    (hq : (call raises h c).1.queries.length = bk'.queries.length)
    (h1 : ∀ b x, bk'.builders[b]? = some x → (bk.builders[b]? = some x ∧ c.target ≠ some b) ∨
      ∃ p, (call raises h c).1.builder b = some p ∧ Shows ctx sql x p)
    (h2 : ∀ g x k, bk'.grouped[g]? = some (x, k) → bk.grouped[g]? = some (x, k) ∨
      ∃ p, (call raises h c).1.groupedBuilder g = some (p, k) ∧ Shows ctx sql x p)
    (h3 : ∀ q a, bk'.queries[q]? = some a → bk.queries[q]? = some a ∨
      ∃ pq, (call raises h c).1.query q = some pq ∧ a.Query ctx (pq.denote sql)) :
    Sim ctx sql (call raises h c).1 bk' := by
  refine ⟨(Builder.call_step raises s.ok c).ok, ho, hb, hg, hq, ?_, ?_, ?_⟩
  · intro b x hx
    rcases h1 b x hx with ⟨hx, ht⟩ | hx
    · obtain ⟨p, hp, hs⟩ := s.builders b x hx
      exact ⟨p, builder_kept s.ok c (s.bLen ▸ (List.getElem?_eq_some_iff.1 hx).1) ht hp, hs⟩
    · exact hx
  · intro g x k hx
    rcases h2 g x k hx with hx | hx
    · obtain ⟨p, hp, hs⟩ := s.grouped g x k hx
      exact ⟨p, grouped_kept s.ok c (s.gLen ▸ (List.getElem?_eq_some_iff.1 hx).1) hp, hs⟩
    · exact hx
  · intro q a hx
    rcases h3 q a hx with hx | hx
    · obtain ⟨p, hp, hs⟩ := s.queries q a hx
      exact ⟨p, query_kept s.ok c (s.qLen ▸ (List.getElem?_eq_some_iff.1 hx).1) hp, hs⟩
    · exact hx

theorem append_cases {α : Type*} {l : List α} {x a : α} {i : Nat} (h : (l ++ [x])[i]? = some a) :
    l[i]? = some a ∨ (i = l.length ∧ a = x) := by
  rcases lt_trichotomy i l.length with hi | hi | hi
  · rw [List.getElem?_append_left hi] at h; exact .inl h
  · subst hi
    rw [List.getElem?_append_right (Nat.le_refl _), Nat.sub_self] at h
    exact .inr ⟨rfl, (Option.some.inj h).symm⟩
  · rw [List.getElem?_eq_none (by simp; omega)] at h; cases h

theorem set_cases {α : Type*} {l : List α} {x a : α} {i j : Nat} (h : (l.set j x)[i]? = some a) :
    (l[i]? = some a ∧ j ≠ i) ∨ (i = j ∧ a = x) := by
  by_cases hij : j = i
  · subst hij
    rw [List.getElem?_set] at h
    simp only [if_true] at h
    split at h
    · exact .inr ⟨rfl, (Option.some.inj h).symm⟩
    · cases h
  · rw [List.getElem?_set_ne hij] at h
    exact .inl ⟨h, hij⟩

theorem builder_isSome {h : Heap} {bk : Book} (s : Sim ctx sql h bk) {b : Nat} {p : PExpr} (hp : h.builder b = some p) :
    ∃ c, bk.builders[b]? = some c ∧ Shows ctx sql c p := by
  have hb : b < h.builders.length := by
    by_contra hn
    simp [Heap.builder, List.getElem?_eq_none (Nat.le_of_not_lt hn)] at hp
  have hc : bk.builders[b]? = some (bk.builders[b]'(s.bLen ▸ hb)) := List.getElem?_eq_getElem _
  obtain ⟨p', hp', hs⟩ := s.builders b _ hc
  rw [hp] at hp'
  cases hp'
  exact ⟨_, hc, hs⟩

theorem grouped_isSome {h : Heap} {bk : Book} (s : Sim ctx sql h bk) {g : Nat} {p : PExpr} {k : Keys}
    (hp : h.groupedBuilder g = some (p, k)) : ∃ c, bk.grouped[g]? = some (c, k) ∧ Shows ctx sql c p := by
  have hb : g < h.grouped.length := by
    by_contra hn
    simp [Heap.groupedBuilder, List.getElem?_eq_none (Nat.le_of_not_lt hn)] at hp
  have hc : bk.grouped[g]? = some (bk.grouped[g]'(s.gLen ▸ hb)) := List.getElem?_eq_getElem _
  obtain ⟨p', hp', hs⟩ := s.grouped g _ _ hc
  rw [hp] at hp'
  cases hp'
  exact ⟨_, hc, hs⟩

theorem query_isSome {h : Heap} {bk : Book} (s : Sim ctx sql h bk) {q : Nat} {p : PQuery} (hp : h.query q = some p) :
    ∃ a, bk.queries[q]? = some a ∧ a.Query ctx (p.denote sql) := by
  have hb : q < h.queries.length := by
    by_contra hn
    simp [Heap.query, List.getElem?_eq_none (Nat.le_of_not_lt hn)] at hp
  have hc : bk.queries[q]? = some (bk.queries[q]'(s.qLen ▸ hb)) := List.getElem?_eq_getElem _
  obtain ⟨p', hp', hs⟩ := s.queries q _ hc
  rw [hp] at hp'
  cases hp'
  exact ⟨_, hc, hs⟩

theorem bind_ok {α β : Type} {x : Except PyErr α} {f : α → Except PyErr β} {b : β} (h : x.bind f = .ok b) :
    ∃ a, x = .ok a ∧ f a = .ok b := by
  cases x with
  | error e => cases h
  | ok a => exact ⟨a, rfl, h⟩

/-! ## Calls that do not raise -/

theorem not_raises {h : Heap} {c : Call} (hne : (call raises h c).2 ≠ .raised) : raises h c = false :=
  Builder.call_of rfl hne

theorem call_transform {h : Heap} {b : Nat} {arg : Arg} (hne : (call raises h (.transform b arg)).2 ≠ .raised) :
    ∃ o op, h.builders[b]? = some o ∧ makeOp h arg = some op ∧
      call raises h (.transform b arg) = ((h.addNode (.op op o.expr)).setExpr b o h.nodes.length, .builder b) := by
  have hf := not_raises hne
  simp only [call, hf, Bool.false_eq_true, if_false, Builder.transform] at hne ⊢
  split at hne
  · next o op ho hop => exact ⟨o, op, ho, hop, by simp only [ho, hop]⟩
  · exact absurd rfl hne

theorem call_join {h : Heap} {b b' : Nat} {tl tr : Option Trunc} {cols : Option Nat}
    (hne : (call raises h (.joinPrivate b (.builder b') tl tr cols)).2 ≠ .raised) :
    ∃ o o' cs, h.builders[b]? = some o ∧ h.builders[b']? = some o' ∧ Builder.copyOpt h cols = some cs ∧
      call raises h (.joinPrivate b (.builder b') tl tr cols) =
        ((h.addNode (.join o.expr o'.expr tl tr cs)).setExpr b o h.nodes.length, .builder b) := by
  have hf := not_raises hne
  simp only [call, hf, Bool.false_eq_true, if_false] at hne ⊢
  split at hne
  · next o o' cs ho ho' hcs => exact ⟨o, o', cs, ho, ho', hcs, by simp only [ho, ho', hcs]⟩
  · exact absurd rfl hne

theorem call_joinTable {h : Heap} {b : Nat} {id : String} {tl tr : Option Trunc} {cols : Option Nat}
    (hne : (call raises h (.joinPrivate b (.table id) tl tr cols)).2 ≠ .raised) :
    ∃ o cs, h.builders[b]? = some o ∧ Builder.copyOpt h cols = some cs ∧
      call raises h (.joinPrivate b (.table id) tl tr cols) =
        (((h.addNode (.source id)).addNode (.join o.expr h.nodes.length tl tr cs)).setExpr b o (h.nodes.length + 1), .builder b) := by
  have hf := not_raises hne
  simp only [call, hf, Bool.false_eq_true, if_false] at hne ⊢
  split at hne
  · next o cs ho hcs => exact ⟨o, cs, ho, hcs, by simp only [ho, hcs]⟩
  · exact absurd rfl hne

/-- The list of columns that is copied. -/
theorem copyOpt_listed {h : Heap} {cols : Option Nat} {cs : Option (Builder.Held (List String))}
    (hcs : Builder.copyOpt h cols = some cs) :
    ∃ x : Option (List String), (∀ h', Builder.readOpt h' cs = some x) ∧
      ∃ a, listed h.objs cols = some a ∧ Whole.joinTuple a = x := by
  cases cols with
  | none => cases hcs; exact ⟨none, fun _ => rfl, .missing, rfl, rfl⟩
  | some i =>
    simp only [Builder.copyOpt, Option.map_eq_some_iff] at hcs
    obtain ⟨y, hy, rfl⟩ := hcs
    obtain ⟨l, hl, rfl⟩ := Builder.copyOf_names hy
    exact ⟨some l, fun _ => rfl, .list l, by simp only [listed, hl], rfl⟩

theorem columns_listed {h : Heap} {cols : Option Nat} {cs : Builder.Held (List String)}
    (hcs : Builder.copyOrEmpty (α := String) h cols = some cs) :
    ∃ x : List String, (∀ h', cs.read h' = some x) ∧ columnsNow h.objs cols = some x := by
  cases cols with
  | none => cases hcs; exact ⟨[], fun _ => rfl, rfl⟩
  | some i =>
    obtain ⟨l, hl, rfl⟩ := Builder.copyOf_names hcs
    exact ⟨l, fun _ => rfl, by simp only [columnsNow, hl]⟩

theorem build_join {c c' : Chain} {e e' : Expr} {tl tr : Option Trunc} {cs : ColsArg} (he : c.build ctx = .ok e)
    (he' : c'.build ctx = .ok e') (hv : (Chain.joinPrivate c c' tl tr cs).Valid ctx) :
    (Chain.joinPrivate c c' tl tr cs).build ctx = .ok (.joinPrivate e e' tl tr (Whole.joinTuple cs)) := by
  obtain ⟨x, hx⟩ := (Whole.C72_accepts ctx _).1.2 hv
  have hx' := hx
  rw [Chain.build, he, he'] at hx'
  simp only [Except.bind, Whole.callJoinPrivate] at hx'
  split at hx' <;> cases hx'
  exact hx

theorem build_joinTable {c : Chain} {e : Expr} {t : String} {tl tr : Option Trunc} {cs : ColsArg} (he : c.build ctx = .ok e)
    (hv : (Chain.joinTable c t tl tr cs).Valid ctx) :
    (Chain.joinTable c t tl tr cs).build ctx = .ok (.joinPrivate e (.source t) tl tr (Whole.joinTuple cs)) := by
  obtain ⟨x, hx⟩ := (Whole.C72_accepts ctx _).1.2 hv
  have hx' := hx
  rw [Chain.build, he] at hx'
  simp only [Except.bind, Whole.callJoinPrivate, Whole.newBuilder] at hx'
  split at hx'
  · cases hx'
  next e' h1 =>
  split at h1 <;> cases h1
  split at hx' <;> cases hx'
  exact hx

theorem join_valid (t : String) (tl tr : Option Trunc) (cs : ColsArg) :
    ∃ P : Prop, ∀ c, (Chain.joinTable c t tl tr cs).Valid ctx ↔ c.Valid ctx ∧ P := ⟨_, fun _ => Iff.rfl⟩

/-- A transformation that does not raise extends the chain of its builder. -/
theorem shows_transform (F : Faithful ctx sql th raises) {h : Heap} (hr : Builder.Reachable raises h) {bk : Book}
    (s : Sim ctx sql h bk) {b : Nat} {arg : Arg} (hg : GivenArg ctx th arg)
    (hne : (call raises h (.transform b arg)).2 ≠ .raised) :
    ∃ c f p, bk.builders[b]? = some c ∧ argStep sql th bk.objs arg = some f ∧ (f c).Valid ctx ∧
      (call raises h (.transform b arg)).1.builder b = some p ∧ Shows ctx sql (f c) p := by
  obtain ⟨_, e, op, he, hread, hnew⟩ := Builder.C45_transform hr rfl hne
  obtain ⟨c, hc, hs⟩ := builder_isSome s he
  obtain ⟨f, hf⟩ := reads_step (sql := sql) (th := th) hread
  have hnr := not_raises hne
  have hv : (f c).Valid ctx := by
    refine (stands (step_valid hf) (s.valid hc)).1 ?_
    by_contra hcon
    have := (F.transform h b arg f hf).2 (fun id e he => hcon ⟨id, e, he⟩)
    rw [hnr] at this
    cases this
  obtain ⟨e', he'⟩ := (Whole.C72_accepts ctx (f c)).1.2 hv
  refine ⟨c, f, _, hc, s.objs ▸ hf, hv, hnew, ?_⟩
  rw [Shows, he', reads_build hf hg hread hs he']
  rfl

end Verif.Program
