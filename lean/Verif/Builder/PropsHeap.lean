import Verif.Builder.Heap
import Verif.Builder.PropsEqFails

/-!
# C45: queries do not change

Once a `Query` exists, no later call on any builder, and no change of the lists and dictionaries that were passed to
builders, changes what it means. The same holds of `GroupedQueryBuilder`s. A builder changes only by calls on itself.
-/

namespace Verif.Builder

open Verif Verif.Schema Verif.Expr Verif.Constraint Verif.Query

/-! ## Invariant -/

def Held.Owned {α : Type} : Held α → Prop
  | .copied _ => True
  | .shared _ => False

def OptOwned {α : Type} : Option (Held α) → Prop
  | none => True
  | some x => x.Owned

def OpOwned : OpF Held → Prop
  | .rename m => m.Owned
  | .select cs => cs.Owned
  | .joinPublic _ cs _ => OptOwned cs
  | .replaceNull w => w.Owned
  | .replaceInf w => w.Owned
  | .dropNull cs => cs.Owned
  | .dropInf cs => cs.Owned
  | _ => True

def HeldKeys.Owned : HeldKeys → Prop
  | .set _ => True
  | .cols cs => cs.Owned

def HeldKind.Owned : HeldKind → Prop
  | .plain _ => True
  | .distinct cs _ => cs.Owned

/-- A node at address `a` refers to older nodes, and to no object of the caller. -/
def Node.OK (a : Addr) : Node → Prop
  | .source _ => True
  | .op o c => OpOwned o ∧ c < a
  | .join l r _ _ cs => l < a ∧ r < a ∧ OptOwned cs

def ANode.OK (n : Nat) (a : ANode) : Prop := a.child < n ∧ a.keys.Owned ∧ a.kind.Owned

def QNode.OK (n : Nat) : QNode → Prop
  | .agg a => a.OK n
  | .groups c cs => c < n ∧ cs.Owned
  | .suppress a _ _ => a.OK n

structure Heap.OK (h : Heap) : Prop where
  nodes : ∀ (a : Addr) (n : Node), h.nodes[a]? = some n → n.OK a
  builders : ∀ o ∈ h.builders, o.expr < h.nodes.length
  grouped : ∀ o ∈ h.grouped, o.expr < h.nodes.length ∧ o.keys.Owned
  queries : ∀ q ∈ h.queries, q.OK h.nodes.length

/-- Objects other than builders stay as they are. -/
structure Ext (h h' : Heap) : Prop where
  nodes : h.nodes <+: h'.nodes
  grouped : h.grouped <+: h'.grouped
  queries : h.queries <+: h'.queries

theorem Ext.refl (h : Heap) : Ext h h := ⟨List.prefix_rfl, List.prefix_rfl, List.prefix_rfl⟩

theorem Ext.trans {a b c : Heap} (h : Ext a b) (g : Ext b c) : Ext a c :=
  ⟨h.nodes.trans g.nodes, h.grouped.trans g.grouped, h.queries.trans g.queries⟩

/-! ## Reading -/

theorem Held.read_owned {α : Type} [OfObj α] {x : Held α} (hx : x.Owned) (h h' : Heap) :
    ∃ a, x.read h = some a ∧ x.read h' = some a := by
  cases x with
  | copied a => exact ⟨a, rfl, rfl⟩
  | shared i => exact hx.elim

theorem readOpt_owned {α : Type} [OfObj α] {x : Option (Held α)} (hx : OptOwned x) (h h' : Heap) :
    ∃ a, readOpt h x = some a ∧ readOpt h' x = some a := by
  cases x with
  | none => exact ⟨none, rfl, rfl⟩
  | some x =>
    obtain ⟨a, h1, h2⟩ := Held.read_owned hx h h'
    exact ⟨some a, by simp [readOpt, h1], by simp [readOpt, h2]⟩

theorem readOp_owned {o : OpF Held} (ho : OpOwned o) (h h' : Heap) :
    ∃ a, readOp h o = some a ∧ readOp h' o = some a := by
  cases o with
  | rename m =>
    obtain ⟨a, h1, h2⟩ := Held.read_owned (x := m) ho h h'
    exact ⟨_, by simp only [readOp, h1, Option.map_some]; rfl, by simp only [readOp, h2, Option.map_some]⟩
  | select m =>
    obtain ⟨a, h1, h2⟩ := Held.read_owned (x := m) ho h h'
    exact ⟨_, by simp only [readOp, h1, Option.map_some]; rfl, by simp only [readOp, h2, Option.map_some]⟩
  | joinPublic p m w =>
    obtain ⟨a, h1, h2⟩ := readOpt_owned (x := m) ho h h'
    exact ⟨_, by simp only [readOp, h1, Option.map_some]; rfl, by simp only [readOp, h2, Option.map_some]⟩
  | replaceNull m =>
    obtain ⟨a, h1, h2⟩ := Held.read_owned (x := m) ho h h'
    exact ⟨_, by simp only [readOp, h1, Option.map_some]; rfl, by simp only [readOp, h2, Option.map_some]⟩
  | replaceInf m =>
    obtain ⟨a, h1, h2⟩ := Held.read_owned (x := m) ho h h'
    exact ⟨_, by simp only [readOp, h1, Option.map_some]; rfl, by simp only [readOp, h2, Option.map_some]⟩
  | dropNull m =>
    obtain ⟨a, h1, h2⟩ := Held.read_owned (x := m) ho h h'
    exact ⟨_, by simp only [readOp, h1, Option.map_some]; rfl, by simp only [readOp, h2, Option.map_some]⟩
  | dropInf m =>
    obtain ⟨a, h1, h2⟩ := Held.read_owned (x := m) ho h h'
    exact ⟨_, by simp only [readOp, h1, Option.map_some]; rfl, by simp only [readOp, h2, Option.map_some]⟩
  | _ => exact ⟨_, rfl, rfl⟩

theorem unfold_stable {h h' : Heap} (ok : ∀ (a : Addr) (n : Node), h.nodes[a]? = some n → n.OK a) (hp : h.nodes <+: h'.nodes) :
    ∀ a, a < h.nodes.length → ∀ n n', a < n → a < n' → ∃ e, unfold_ h n a = some e ∧ unfold_ h' n' a = some e := by
  intro a
  induction a using Nat.strong_induction_on with
  | _ a ih =>
    intro ha n n' hn hn'
    obtain ⟨n, rfl⟩ : ∃ m, n = m + 1 := ⟨n - 1, by omega⟩
    obtain ⟨n', rfl⟩ : ∃ m, n' = m + 1 := ⟨n' - 1, by omega⟩
    have e1 : h.nodes[a]? = some h.nodes[a] := List.getElem?_eq_getElem ha
    have e2 : h'.nodes[a]? = some h.nodes[a] := List.prefix_iff_getElem?.1 hp a ha
    have hok := ok a _ e1
    generalize h.nodes[a] = x at e1 e2 hok
    cases x with
    | source id => exact ⟨.source id, by simp [unfold_, e1], by simp [unfold_, e2]⟩
    | op o c =>
      obtain ⟨ho, hc⟩ : OpOwned o ∧ (c : Nat) < a := hok
      obtain ⟨e, h1, h2⟩ := ih c hc (Nat.lt_trans hc ha) n n' (Nat.lt_of_lt_of_le hc (Nat.le_of_lt_succ hn))
        (Nat.lt_of_lt_of_le hc (Nat.le_of_lt_succ hn'))
      obtain ⟨o', g1, g2⟩ := readOp_owned ho h h'
      exact ⟨.op o' e, by simp [unfold_, e1, h1, g1], by simp [unfold_, e2, h2, g2]⟩
    | join l r tl tr cs =>
      obtain ⟨hl, hr, hc⟩ : (l : Nat) < a ∧ (r : Nat) < a ∧ OptOwned cs := hok
      obtain ⟨e, h1, h2⟩ := ih l hl (Nat.lt_trans hl ha) n n' (Nat.lt_of_lt_of_le hl (Nat.le_of_lt_succ hn))
        (Nat.lt_of_lt_of_le hl (Nat.le_of_lt_succ hn'))
      obtain ⟨f, g1, g2⟩ := ih r hr (Nat.lt_trans hr ha) n n' (Nat.lt_of_lt_of_le hr (Nat.le_of_lt_succ hn))
        (Nat.lt_of_lt_of_le hr (Nat.le_of_lt_succ hn'))
      obtain ⟨o', k1, k2⟩ := readOpt_owned hc h h'
      exact ⟨.join e f tl tr o', by simp [unfold_, e1, h1, g1, k1], by simp [unfold_, e2, h2, g2, k2]⟩

theorem expr_stable {h h' : Heap} (ok : h.OK) (hp : h.nodes <+: h'.nodes) {a : Addr} (ha : a < h.nodes.length) :
    ∃ e, h.expr a = some e ∧ h'.expr a = some e :=
  unfold_stable ok.nodes hp a ha _ _ ha (ha.trans_le hp.length_le)

theorem keys_stable {k : HeldKeys} (hk : k.Owned) (h h' : Heap) : ∃ a, readKeys h k = some a ∧ readKeys h' k = some a := by
  cases k with
  | set k => exact ⟨_, rfl, rfl⟩
  | cols cs =>
    obtain ⟨a, h1, h2⟩ := Held.read_owned (x := cs) hk h h'
    exact ⟨.cols a, by simp [readKeys, h1], by simp [readKeys, h2]⟩

theorem kind_stable {k : HeldKind} (hk : k.Owned) (h h' : Heap) : ∃ a, readKind h k = some a ∧ readKind h' k = some a := by
  cases k with
  | plain k => exact ⟨_, rfl, rfl⟩
  | distinct cs m =>
    obtain ⟨a, h1, h2⟩ := Held.read_owned (x := cs) hk h h'
    exact ⟨.countDistinct a m, by simp [readKind, h1], by simp [readKind, h2]⟩

theorem agg_stable {h h' : Heap} (ok : h.OK) (hp : h.nodes <+: h'.nodes) {a : ANode} (ha : a.OK h.nodes.length) :
    ∃ x, h.agg a = some x ∧ h'.agg a = some x := by
  obtain ⟨e, h1, h2⟩ := expr_stable ok hp ha.1
  obtain ⟨k, k1, k2⟩ := keys_stable ha.2.1 h h'
  obtain ⟨d, d1, d2⟩ := kind_stable ha.2.2 h h'
  exact ⟨⟨e, k, d, a.out⟩, by simp [Heap.agg, h1, k1, d1], by simp [Heap.agg, h2, k2, d2]⟩

theorem query_stable {h h' : Heap} (ok : h.OK) (ext : Ext h h') {q : Addr} (hq : q < h.queries.length) :
    ∃ x, h.query q = some x ∧ h'.query q = some x := by
  have e1 : h.queries[q]? = some h.queries[q] := List.getElem?_eq_getElem hq
  have e2 : h'.queries[q]? = some h.queries[q] := List.prefix_iff_getElem?.1 ext.queries q hq
  have hok := ok.queries _ (List.getElem_mem hq)
  generalize h.queries[q] = x at e1 e2 hok
  cases x with
  | agg a =>
    obtain ⟨x, h1, h2⟩ := agg_stable ok ext.nodes hok
    exact ⟨.agg x, by simp [Heap.query, e1, h1], by simp [Heap.query, e2, h2]⟩
  | groups c cs =>
    obtain ⟨e, h1, h2⟩ := expr_stable ok ext.nodes hok.1
    obtain ⟨k, k1, k2⟩ := Held.read_owned hok.2 h h'
    exact ⟨.groups e k, by simp [Heap.query, e1, h1, k1], by simp [Heap.query, e2, h2, k2]⟩
  | suppress a c t =>
    obtain ⟨x, h1, h2⟩ := agg_stable ok ext.nodes hok
    exact ⟨.suppress x c t, by simp [Heap.query, e1, h1], by simp [Heap.query, e2, h2]⟩

theorem grouped_stable {h h' : Heap} (ok : h.OK) (ext : Ext h h') {g : Addr} (hg : g < h.grouped.length) :
    ∃ x, h.groupedBuilder g = some x ∧ h'.groupedBuilder g = some x := by
  have e1 : h.grouped[g]? = some h.grouped[g] := List.getElem?_eq_getElem hg
  have e2 : h'.grouped[g]? = some h.grouped[g] := List.prefix_iff_getElem?.1 ext.grouped g hg
  have hok := ok.grouped _ (List.getElem_mem hg)
  generalize h.grouped[g] = x at e1 e2 hok
  obtain ⟨e, h1, h2⟩ := expr_stable ok ext.nodes hok.1
  obtain ⟨k, k1, k2⟩ := keys_stable hok.2 h h'
  exact ⟨(e, k), by simp [Heap.groupedBuilder, e1, h1, k1], by simp [Heap.groupedBuilder, e2, h2, k2]⟩

/-! ## Calls keep the invariant -/

theorem copyOf_owned {α : Type} [OfObj α] {h : Heap} {i : Addr} {x : Held α} (e : copyOf h i = some x) : x.Owned := by
  unfold copyOf at e
  cases hx : (h.objs[i]?.bind OfObj.get : Option α) with
  | none => simp [hx] at e
  | some a =>
    simp only [hx, Option.map_some, Option.some.injEq] at e
    subst e
    trivial

theorem copyOpt_owned {α : Type} [OfObj α] {h : Heap} {i : Option Addr} {x : Option (Held α)}
    (e : copyOpt h i = some x) : OptOwned x := by
  cases i with
  | none =>
    cases e
    trivial
  | some i =>
    simp only [copyOpt, Option.map_eq_some_iff] at e
    obtain ⟨y, hy, rfl⟩ := e
    exact copyOf_owned hy

theorem copyOrEmpty_owned {α : Type} [OfObj (List α)] {h : Heap} {i : Option Addr} {x : Held (List α)}
    (e : copyOrEmpty h i = some x) : x.Owned := by
  cases i with
  | none =>
    cases e
    trivial
  | some i => exact copyOf_owned e

theorem makeOp_owned {h : Heap} {arg : Arg} {o : OpF Held} (e : makeOp h arg = some o) : OpOwned o := by
  cases arg with
  | rename m =>
    simp only [makeOp, Option.map_eq_some_iff] at e
    obtain ⟨y, hy, rfl⟩ := e
    exact copyOf_owned hy
  | filter t => cases e; trivial
  | select m =>
    simp only [makeOp, Option.map_eq_some_iff] at e
    obtain ⟨y, hy, rfl⟩ := e
    exact copyOf_owned hy
  | map f ts a =>
    simp only [makeOp, Option.map_eq_some_iff] at e
    obtain ⟨y, hy, rfl⟩ := e
    trivial
  | flatMap f ts a g n =>
    simp only [makeOp] at e
    split at e
    · split at e
      · simp only [Option.map_eq_some_iff] at e
        obtain ⟨y, hy, rfl⟩ := e
        trivial
      · cases e
    · simp only [Option.map_eq_some_iff] at e
      obtain ⟨y, hy, rfl⟩ := e
      trivial
  | flatMapByID f ts =>
    simp only [makeOp, Option.map_eq_some_iff] at e
    obtain ⟨y, hy, rfl⟩ := e
    trivial
  | joinPublic p m w =>
    simp only [makeOp, Option.map_eq_some_iff] at e
    obtain ⟨y, hy, rfl⟩ := e
    exact copyOpt_owned hy
  | replaceNull m =>
    simp only [makeOp, Option.map_eq_some_iff] at e
    obtain ⟨y, hy, rfl⟩ := e
    exact copyOrEmpty_owned hy
  | replaceInf m =>
    simp only [makeOp, Option.map_eq_some_iff] at e
    obtain ⟨y, hy, rfl⟩ := e
    exact copyOrEmpty_owned hy
  | dropNull m =>
    simp only [makeOp, Option.map_eq_some_iff] at e
    obtain ⟨y, hy, rfl⟩ := e
    exact copyOrEmpty_owned hy
  | dropInf m =>
    simp only [makeOp, Option.map_eq_some_iff] at e
    obtain ⟨y, hy, rfl⟩ := e
    exact copyOrEmpty_owned hy
  | enforce c => cases e; trivial
  | binColumn f name desc =>
    simp only [makeOp] at e
    split at e
    · cases e
    · cases e; trivial

/-- The effect of a call on the builders: those it is not called on stay, new ones are added. -/
def BuildersKept (b : Option Addr) (h h' : Heap) : Prop :=
  ∀ i, i < h.builders.length → some i ≠ b → h'.builders[i]? = h.builders[i]?

/-- A good step. -/
structure Step (b : Option Addr) (h h' : Heap) : Prop where
  ok : h'.OK
  ext : Ext h h'
  kept : BuildersKept b h h'

theorem Step.same {h : Heap} (ok : h.OK) (b : Option Addr) : Step b h h := ⟨ok, .refl h, fun _ _ _ => rfl⟩

theorem QNode.OK.mono {q : QNode} {n m : Nat} (h : q.OK n) (hm : n ≤ m) : q.OK m := by
  cases q with
  | agg a => exact ⟨h.1.trans_le hm, h.2⟩
  | groups c cs => exact ⟨h.1.trans_le hm, h.2⟩
  | suppress a c t => exact ⟨h.1.trans_le hm, h.2⟩

theorem addNode_ok {h : Heap} (ok : h.OK) {n : Node} (hn : n.OK h.nodes.length) : (h.addNode n).OK := by
  refine ⟨?_, ?_, ?_, ?_⟩
  · intro a x hx
    simp only [Heap.addNode, List.getElem?_append] at hx
    split at hx
    · exact ok.nodes a x hx
    · next hlt =>
      have : a - h.nodes.length = 0 := by
        by_contra hne
        rw [List.getElem?_eq_none (by simp; omega)] at hx
        cases hx
      rw [this] at hx
      simp only [List.getElem?_cons_zero, Option.some.injEq] at hx
      subst hx
      have : a = h.nodes.length := by omega
      rw [this]
      exact hn
  · intro o ho
    have := ok.builders o ho
    simp only [Heap.addNode, List.length_append, List.length_singleton]
    omega
  · intro o ho
    have := ok.grouped o ho
    simp only [Heap.addNode, List.length_append, List.length_singleton]
    exact ⟨by omega, this.2⟩
  · intro q hq
    exact (ok.queries q hq).mono (by simp [Heap.addNode])

theorem addNode_step {h : Heap} (ok : h.OK) {n : Node} (hn : n.OK h.nodes.length) (b : Option Addr) :
    Step b h (h.addNode n) :=
  ⟨addNode_ok ok hn, ⟨List.prefix_append _ _, List.prefix_rfl, List.prefix_rfl⟩, fun _ _ _ => rfl⟩

theorem setExpr_step {h h' : Heap} {b : Addr} (s : Step (some b) h h') (o : BObj) {a : Addr} (ha : a < h'.nodes.length) :
    Step (some b) h (h'.setExpr b o a) := by
  refine ⟨⟨s.ok.nodes, ?_, s.ok.grouped, s.ok.queries⟩, ⟨s.ext.nodes, s.ext.grouped, s.ext.queries⟩, ?_⟩
  · intro x hx
    rcases List.mem_or_eq_of_mem_set hx with h1 | rfl
    · exact s.ok.builders x h1
    · exact ha
  · intro i hi hne
    have hib : b ≠ i := fun e => hne (by rw [e])
    simp only [Heap.setExpr, List.getElem?_set, hib, if_false]
    exact s.kept i hi hne

theorem addBuilder_step {h h' : Heap} {b : Option Addr} (s : Step b h h') (hl : h'.builders = h.builders) (o : BObj)
    (ho : o.expr < h'.nodes.length) : Step b h { h' with builders := h.builders ++ [o] } := by
  refine ⟨⟨s.ok.nodes, ?_, s.ok.grouped, s.ok.queries⟩, ⟨s.ext.nodes, s.ext.grouped, s.ext.queries⟩, ?_⟩
  · intro x hx
    rcases List.mem_append.1 hx with h1 | h1
    · exact s.ok.builders x (hl ▸ h1)
    · rw [List.mem_singleton.1 h1]
      exact ho
  · intro i hi _
    exact List.getElem?_append_left hi

theorem addQuery_step {h : Heap} (ok : h.OK) {q : QNode} (hq : q.OK h.nodes.length) (b : Option Addr) :
    Step b h { h with queries := h.queries ++ [q] } := by
  refine ⟨⟨ok.nodes, ok.builders, ok.grouped, ?_⟩, ⟨List.prefix_rfl, List.prefix_rfl, List.prefix_append _ _⟩,
    fun _ _ _ => rfl⟩
  intro x hx
  rcases List.mem_append.1 hx with h1 | h1
  · exact ok.queries x h1
  · rw [List.mem_singleton.1 h1]
    exact hq

theorem addGrouped_step {h : Heap} (ok : h.OK) {o : GObj} (ho : o.expr < h.nodes.length ∧ o.keys.Owned)
    (b : Option Addr) : Step b h { h with grouped := h.grouped ++ [o] } := by
  refine ⟨⟨ok.nodes, ok.builders, ?_, ok.queries⟩, ⟨List.prefix_rfl, List.prefix_append _ _, List.prefix_rfl⟩,
    fun _ _ _ => rfl⟩
  intro x hx
  rcases List.mem_append.1 hx with h1 | h1
  · exact ok.grouped x h1
  · rw [List.mem_singleton.1 h1]
    exact ho

theorem mem_of_getElem? {α : Type} {l : List α} {i : Nat} {a : α} (h : l[i]? = some a) : a ∈ l :=
  List.mem_of_getElem? h

theorem transform_step {h : Heap} (ok : h.OK) (b : Addr) (arg : Arg) : Step (some b) h (transform h b arg).1 := by
  unfold transform
  split
  · next o op ho hop =>
    have hb := ok.builders o (mem_of_getElem? ho)
    refine setExpr_step (addNode_step ok (n := .op op o.expr) ⟨makeOp_owned hop, hb⟩ _) o ?_
    simp [Heap.addNode]
  · exact .same ok _

theorem groupby_step {h : Heap} (ok : h.OK) (b : Addr) (by_ : By) (t : Option Addr) : Step t h (groupby h b by_).1 := by
  unfold groupby
  dsimp only
  split
  · next o k ho hk =>
    refine addGrouped_step ok ⟨ok.builders o (mem_of_getElem? ho), ?_⟩ _
    cases by_ with
    | set k => cases hk; trivial
    | col c => cases hk; trivial
    | list l =>
      simp only [Option.map_eq_some_iff] at hk
      obtain ⟨y, hy, rfl⟩ := hk
      exact copyOf_owned hy
  · exact .same ok _

theorem aggregate_step {h : Heap} (ok : h.OK) (g : Addr) (a : AggArg) (out : String) (t : Option Addr) :
    Step t h (aggregate h g a out).1 := by
  unfold aggregate
  dsimp only
  split
  · next o k ho hk =>
    obtain ⟨h1, h2⟩ := ok.grouped o (mem_of_getElem? ho)
    refine addQuery_step ok (q := .agg _) ⟨h1, h2, ?_⟩ _
    cases a with
    | plain k => cases hk; trivial
    | distinct cs m =>
      simp only [Option.map_eq_some_iff] at hk
      obtain ⟨y, hy, rfl⟩ := hk
      exact copyOrEmpty_owned hy
  · exact .same ok _

theorem Step.trans {b : Option Addr} {h1 h2 h3 : Heap} (s : Step b h1 h2) (t : Step b h2 h3)
    (hl : h1.builders.length ≤ h2.builders.length) : Step b h1 h3 :=
  ⟨t.ok, s.ext.trans t.ext, fun i hi hne => (t.kept i (hi.trans_le hl) hne).trans (s.kept i hi hne)⟩

/-- The builder a call changes. -/
def Call.target : Call → Option Addr
  | .transform b _ => some b
  | .joinPrivate b _ _ _ _ => some b
  | .histogram b _ _ _ _ => some b
  | _ => none

theorem transform_length (h : Heap) (b : Addr) (arg : Arg) : (transform h b arg).1.builders.length = h.builders.length := by
  unfold transform
  split
  · simp [Heap.setExpr, Heap.addNode]
  · rfl

theorem groupby_length (h : Heap) (b : Addr) (k : By) : (groupby h b k).1.builders.length = h.builders.length := by
  unfold groupby
  dsimp only
  split <;> rfl

theorem call_step (raises : Heap → Call → Bool) {h : Heap} (ok : h.OK) (c : Call) :
    Step c.target h (call raises h c).1 := by
  unfold call
  split
  · exact .same ok _
  · cases c with
    | new id =>
      exact addBuilder_step (addNode_step ok (n := .source id) trivial _) rfl _ (by simp [Heap.addNode])
    | clone b =>
      dsimp only
      split
      · exact .same ok _
      · next o ho => exact addBuilder_step (.same ok _) rfl o (ok.builders o (mem_of_getElem? ho))
    | transform b arg => exact transform_step ok b arg
    | joinPrivate b right tl tr cols =>
      cases right with
      | table id =>
        dsimp only
        split
        · next o cs ho hc =>
          have hb := ok.builders o (mem_of_getElem? ho)
          have s1 := addNode_step ok (n := .source id) trivial (some b)
          have s2 := addNode_step s1.ok (n := .join o.expr h.nodes.length tl tr cs)
            ⟨by simp [Heap.addNode]; omega, by simp [Heap.addNode], copyOpt_owned hc⟩ (some b)
          exact setExpr_step (s1.trans s2 (Nat.le_refl _)) o (by simp [Heap.addNode])
        · exact .same ok _
      | builder b' =>
        dsimp only
        split
        · next o o' cs ho ho' hc =>
          have hb := ok.builders o (mem_of_getElem? ho)
          have hb' := ok.builders o' (mem_of_getElem? ho')
          exact setExpr_step (addNode_step ok (n := .join o.expr o'.expr tl tr cs) ⟨hb, hb', copyOpt_owned hc⟩ _) o
            (by simp [Heap.addNode])
        · exact .same ok _
    | groupby b by_ => exact groupby_step ok b by_ _
    | aggregate g a out => exact aggregate_step ok g a out _
    | getGroups b cols =>
      dsimp only
      split
      · next o cs ho hc =>
        exact addQuery_step ok (q := .groups _ _) ⟨ok.builders o (mem_of_getElem? ho), copyOrEmpty_owned hc⟩ _
      · exact .same ok _
    | histogram b f name desc keys =>
      dsimp only
      have s1 := transform_step ok b (.binColumn f name desc)
      have l1 := transform_length h b (.binColumn f name desc)
      split
      · exact .same ok _
      · next h1 r _ e =>
        rw [e] at s1 l1
        have s2 := groupby_step s1.ok b (.set keys) (some b)
        have l2 := groupby_length h1 b (.set keys)
        have s12 := s1.trans s2 (by simp only [l1]; exact Nat.le_refl _)
        split
        · next h2 g e2 =>
          simp only [e2] at s12 l2
          exact s12.trans (aggregate_step s12.ok g _ _ _) (by simp only [l2]; simp only at l1; omega)
        · next h2 r2 _ e2 =>
          simp only [e2] at s12
          exact s12
    | suppress q t =>
      dsimp only
      split
      · next a ha =>
        split
        · have := ok.queries _ (mem_of_getElem? ha)
          exact addQuery_step ok (q := .suppress _ _ _) this _
        · exact .same ok _
      · exact .same ok _
    | allocate o => exact ⟨⟨ok.nodes, ok.builders, ok.grouped, ok.queries⟩, ⟨List.prefix_rfl, List.prefix_rfl, List.prefix_rfl⟩, fun _ _ _ => rfl⟩
    | assign i o => exact ⟨⟨ok.nodes, ok.builders, ok.grouped, ok.queries⟩, ⟨List.prefix_rfl, List.prefix_rfl, List.prefix_rfl⟩, fun _ _ _ => rfl⟩

theorem empty_ok : ({} : Heap).OK :=
  ⟨fun a n h => by simp at h, fun o h => by simp at h, fun o h => by simp at h, fun q h => by simp at h⟩

theorem run_ok (raises : Heap → Call → Bool) : ∀ (cs : List Call) {h : Heap}, h.OK →
    (run raises h cs).OK ∧ Ext h (run raises h cs)
  | [], h, ok => ⟨ok, .refl h⟩
  | c :: cs, h, ok => by
    have s := call_step raises ok c
    obtain ⟨h1, h2⟩ := run_ok raises cs s.ok
    exact ⟨h1, s.ext.trans h2⟩

/-! ## C45 -/

/-- **C45**: whatever the program did before, a `Query` that it holds means something, and means the same after any
sequence of further calls on any builders and changes of any lists and dictionaries. -/
theorem C45_query_fixed (raises : Heap → Call → Bool) (before later : List Call) (q : Addr)
    (hq : q < (run raises {} before).queries.length) :
    ∃ Q, (run raises {} before).query q = some Q ∧ (run raises {} (before ++ later)).query q = some Q := by
  have hr : run raises {} (before ++ later) = run raises (run raises {} before) later := by
    simp [run, List.foldl_append]
  rw [hr]
  have ok := (run_ok raises before empty_ok).1
  exact query_stable ok (run_ok raises later ok).2 hq

/-- **C45** for grouped builders: the expression and the keys are those at the time of `groupby`. -/
theorem C45_grouped_fixed (raises : Heap → Call → Bool) (before later : List Call) (g : Addr)
    (hg : g < (run raises {} before).grouped.length) :
    ∃ x, (run raises {} before).groupedBuilder g = some x ∧
      (run raises {} (before ++ later)).groupedBuilder g = some x := by
  have hr : run raises {} (before ++ later) = run raises (run raises {} before) later := by
    simp [run, List.foldl_append]
  rw [hr]
  have ok := (run_ok raises before empty_ok).1
  exact grouped_stable ok (run_ok raises later ok).2 hg

/-- **C45** for builders: a builder only changes by transformations, joins and histograms called on itself; using it as
the right operand of a join, cloning it, or aggregating does not change it. -/
theorem C45_builder_kept (raises : Heap → Call → Bool) (before : List Call) (c : Call) (b : Addr)
    (hb : b < (run raises {} before).builders.length) (ht : c.target ≠ some b) :
    ∃ e, (run raises {} before).builder b = some e ∧ (run raises {} (before ++ [c])).builder b = some e := by
  have hr : run raises {} (before ++ [c]) = (call raises (run raises {} before) c).1 := by
    simp [run, List.foldl_append]
  rw [hr]
  generalize hh : run raises {} before = h at hb
  have ok : h.OK := hh ▸ (run_ok raises before empty_ok).1
  have s := call_step raises ok c
  have e1 : h.builders[b]? = some h.builders[b] := List.getElem?_eq_getElem hb
  have e2 := (s.kept b hb (fun e => ht e.symm)).trans e1
  obtain ⟨e, h1, h2⟩ := expr_stable ok s.ext.nodes (ok.builders _ (List.getElem_mem hb))
  exact ⟨e, by simp [Heap.builder, e1, h1], by simp [Heap.builder, e2, h2]⟩

theorem groupby_set {h : Heap} {b : Addr} {o : BObj} (ho : h.builders[b]? = some o) (k : KeySetV) :
    groupby h b (.set k) = ({ h with grouped := h.grouped ++ [⟨o.expr, .set k⟩] }, .grouped h.grouped.length) := by
  simp [groupby, ho]

/-- A call that raises changes nothing. -/
theorem C45_raised (raises : Heap → Call → Bool) (h : Heap) (c : Call) (hr : (call raises h c).2 = .raised) :
    (call raises h c).1 = h := by
  unfold call at hr ⊢
  split
  · rfl
  · next hc =>
    rw [if_neg hc] at hr
    cases c with
    | new id => cases hr
    | clone b =>
      dsimp only at hr ⊢
      split
      · rfl
      · next o ho => simp [ho] at hr
    | transform b arg =>
      simp only [transform] at hr ⊢
      split
      · next o op ho hop => simp [ho, hop] at hr
      · rfl
    | joinPrivate b right tl tr cols =>
      cases right with
      | table id =>
        dsimp only at hr ⊢
        split
        · next o cs ho hc => simp [ho, hc] at hr
        · rfl
      | builder b' =>
        dsimp only at hr ⊢
        split
        · next o o' cs ho ho' hc => simp [ho, ho', hc] at hr
        · rfl
    | groupby b by_ =>
      simp only [groupby] at hr ⊢
      split
      · next o k ho hk => simp [ho, hk] at hr
      · rfl
    | aggregate g a out =>
      simp only [aggregate] at hr ⊢
      split
      · next o k ho hk => simp [ho, hk] at hr
      · rfl
    | getGroups b cols =>
      dsimp only at hr ⊢
      split
      · next o cs ho hc => simp [ho, hc] at hr
      · rfl
    | histogram b f name desc keys =>
      dsimp only at hr ⊢
      cases ho : h.builders[b]? with
      | none => simp [transform, ho]
      | some o =>
        cases hop : makeOp h (.binColumn f name desc) with
        | none => simp [transform, ho, hop]
        | some op =>
          exfalso
          have hlt : b < h.builders.length := (List.getElem?_eq_some_iff.1 ho).1
          have hb : ((h.addNode (.op op o.expr)).setExpr b o h.nodes.length).builders[b]? =
              some { o with expr := h.nodes.length } := by
            simp [Heap.setExpr, Heap.addNode, hlt]
          simp only [transform, ho, hop, groupby_set hb] at hr
          simp [aggregate] at hr
    | suppress q t =>
      dsimp only at hr ⊢
      split
      · next a ha =>
        split
        · next m hk => simp [ha, hk] at hr
        · rfl
      · rfl
    | allocate o => cases hr
    | assign i o => cases hr

end Verif.Builder
