import Verif.Builder.PropsHeap

/-!
# C45: what a query means is what was built

A method adds one operation, with the contents that its arguments have at the time of the call, to what its builder
means at that time. Together with `C45_query_fixed`: a query means the operations called on its builder before it was
made, with the arguments as they were then, and nothing that is called later.
-/

namespace Verif.Builder

open Verif Verif.Schema Verif.Expr Verif.Constraint Verif.Query

/-- The operation that a call asks for, with the present contents of its arguments. -/
inductive Reads (h : Heap) : Arg → Op → Prop
  | rename {m d} : h.objs[m]? = some (.mapper d) → Reads h (.rename m) (.rename d)
  | filter (t) : Reads h (.filter t) (.filter t)
  | select {i cs} : h.objs[i]? = some (.names cs) → Reads h (.select i) (.select cs)
  | map {i d s} (f a) : h.objs[i]? = some (.types d) → Schema.init d none none none true true true = .ok s →
      Reads h (.map f i a) (.map f s a)
  | flatMap {i d s} (f a n) : h.objs[i]? = some (.types d) → Schema.init d none none none true true true = .ok s →
      Reads h (.flatMap f i a false n) (.flatMap f s a n)
  | grouping {i c t s} (f a n) : h.objs[i]? = some (.types [(c, t)]) →
      Schema.init [(c, t)] (some c) none none true true true = .ok s →
      Reads h (.flatMap f i a true n) (.flatMap f s a n)
  | flatMapByID {i d s} (f) : h.objs[i]? = some (.types d) → Schema.init d none none none true true true = .ok s →
      Reads h (.flatMapByID f i) (.flatMapByID f s)
  | joinPublic (p w) : Reads h (.joinPublic p none w) (.joinPublic p none w)
  | joinPublicOn {i cs} (p w) : h.objs[i]? = some (.names cs) → Reads h (.joinPublic p (some i) w) (.joinPublic p (some cs) w)
  | replaceNullAll : Reads h (.replaceNull none) (.replaceNull [])
  | replaceNull {i d} : h.objs[i]? = some (.values d) → Reads h (.replaceNull (some i)) (.replaceNull d)
  | replaceInfAll : Reads h (.replaceInf none) (.replaceInf [])
  | replaceInf {i d} : h.objs[i]? = some (.pairs d) → Reads h (.replaceInf (some i)) (.replaceInf d)
  | dropNullAll : Reads h (.dropNull none) (.dropNull [])
  | dropNull {i cs} : h.objs[i]? = some (.names cs) → Reads h (.dropNull (some i)) (.dropNull cs)
  | dropInfAll : Reads h (.dropInf none) (.dropInf [])
  | dropInf {i cs} : h.objs[i]? = some (.names cs) → Reads h (.dropInf (some i)) (.dropInf cs)
  | enforce (c) : Reads h (.enforce c) (.enforce c)
  | binColumn {s} (f name desc) : Schema.init [(name, .desc desc)] none none none true true true = .ok s →
      Reads h (.binColumn f name desc) (.map f s true)

theorem copyOf_names {h : Heap} {i : Addr} {x : Held (List String)} (e : copyOf h i = some x) :
    ∃ cs, h.objs[i]? = some (.names cs) ∧ x = .copied cs := by
  unfold copyOf at e
  cases ho : h.objs[i]? with
  | none => simp [ho] at e
  | some o => cases o <;> simp_all [OfObj.get]

theorem copyOf_mapper {h : Heap} {i : Addr} {x : Held (Dict String String)} (e : copyOf h i = some x) :
    ∃ cs, h.objs[i]? = some (.mapper cs) ∧ x = .copied cs := by
  unfold copyOf at e
  cases ho : h.objs[i]? with
  | none => simp [ho] at e
  | some o => cases o <;> simp_all [OfObj.get]

theorem copyOf_values {h : Heap} {i : Addr} {x : Held (Dict String Value)} (e : copyOf h i = some x) :
    ∃ cs, h.objs[i]? = some (.values cs) ∧ x = .copied cs := by
  unfold copyOf at e
  cases ho : h.objs[i]? with
  | none => simp [ho] at e
  | some o => cases o <;> simp_all [OfObj.get]

theorem copyOf_pairs {h : Heap} {i : Addr} {x : Held (Dict String (Value × Value))} (e : copyOf h i = some x) :
    ∃ cs, h.objs[i]? = some (.pairs cs) ∧ x = .copied cs := by
  unfold copyOf at e
  cases ho : h.objs[i]? with
  | none => simp [ho] at e
  | some o => cases o <;> simp_all [OfObj.get]

theorem get_types {h : Heap} {i : Addr} {d : Dict String ColSpec}
    (e : (h.objs[i]?.bind OfObj.get : Option (Dict String ColSpec)) = some d) : h.objs[i]? = some (.types d) := by
  cases ho : h.objs[i]? with
  | none => simp [ho] at e
  | some o => cases o <;> simp_all [OfObj.get]

theorem newSchema_ok {h : Heap} {i : Addr} {g : Option String} {s : Schema} (e : newSchema h i g = some s) :
    ∃ d, h.objs[i]? = some (.types d) ∧ Schema.init d g none none true true true = .ok s := by
  unfold newSchema at e
  split at e
  · cases e
  · next d hd =>
    split at e
    · cases e
    · next s' hs =>
      cases e
      exact ⟨d, get_types hd, hs⟩

theorem makeOp_reads {h : Heap} {arg : Arg} {o : OpF Held} (e : makeOp h arg = some o) :
    ∃ op, Reads h arg op ∧ ∀ h', readOp h' o = some op := by
  cases arg with
  | rename m =>
    simp only [makeOp, Option.map_eq_some_iff] at e
    obtain ⟨y, hy, rfl⟩ := e
    obtain ⟨d, hd, rfl⟩ := copyOf_mapper hy
    exact ⟨_, .rename hd, fun _ => rfl⟩
  | filter t =>
    cases e
    exact ⟨_, .filter t, fun _ => rfl⟩
  | select m =>
    simp only [makeOp, Option.map_eq_some_iff] at e
    obtain ⟨y, hy, rfl⟩ := e
    obtain ⟨d, hd, rfl⟩ := copyOf_names hy
    exact ⟨_, .select hd, fun _ => rfl⟩
  | map f ts a =>
    simp only [makeOp, Option.map_eq_some_iff] at e
    obtain ⟨y, hy, rfl⟩ := e
    obtain ⟨d, hd, hs⟩ := newSchema_ok hy
    exact ⟨_, .map f a hd hs, fun _ => rfl⟩
  | flatMap f ts a g n =>
    cases g with
    | true =>
      simp only [makeOp, if_true] at e
      split at e
      · next c t hct =>
        simp only [Option.map_eq_some_iff] at e
        obtain ⟨y, hy, rfl⟩ := e
        obtain ⟨d, hd, hs⟩ := newSchema_ok hy
        have hd' := get_types hct
        rw [hd'] at hd
        cases hd
        exact ⟨_, .grouping f a n hd' hs, fun _ => rfl⟩
      · cases e
    | false =>
      simp only [makeOp, Bool.false_eq_true, if_false, Option.map_eq_some_iff] at e
      obtain ⟨y, hy, rfl⟩ := e
      obtain ⟨d, hd, hs⟩ := newSchema_ok hy
      exact ⟨_, .flatMap f a n hd hs, fun _ => rfl⟩
  | flatMapByID f ts =>
    simp only [makeOp, Option.map_eq_some_iff] at e
    obtain ⟨y, hy, rfl⟩ := e
    obtain ⟨d, hd, hs⟩ := newSchema_ok hy
    exact ⟨_, .flatMapByID f hd hs, fun _ => rfl⟩
  | joinPublic p m w =>
    simp only [makeOp, Option.map_eq_some_iff] at e
    obtain ⟨y, hy, rfl⟩ := e
    cases m with
    | none =>
      cases hy
      exact ⟨_, .joinPublic p w, fun _ => rfl⟩
    | some m =>
      simp only [copyOpt, Option.map_eq_some_iff] at hy
      obtain ⟨y, hy, rfl⟩ := hy
      obtain ⟨d, hd, rfl⟩ := copyOf_names hy
      exact ⟨_, .joinPublicOn p w hd, fun _ => rfl⟩
  | replaceNull m =>
    simp only [makeOp, Option.map_eq_some_iff] at e
    obtain ⟨y, hy, rfl⟩ := e
    cases m with
    | none =>
      cases hy
      exact ⟨_, .replaceNullAll, fun _ => rfl⟩
    | some m =>
      obtain ⟨d, hd, rfl⟩ := copyOf_values hy
      exact ⟨_, .replaceNull hd, fun _ => rfl⟩
  | replaceInf m =>
    simp only [makeOp, Option.map_eq_some_iff] at e
    obtain ⟨y, hy, rfl⟩ := e
    cases m with
    | none =>
      cases hy
      exact ⟨_, .replaceInfAll, fun _ => rfl⟩
    | some m =>
      obtain ⟨d, hd, rfl⟩ := copyOf_pairs hy
      exact ⟨_, .replaceInf hd, fun _ => rfl⟩
  | dropNull m =>
    simp only [makeOp, Option.map_eq_some_iff] at e
    obtain ⟨y, hy, rfl⟩ := e
    cases m with
    | none =>
      cases hy
      exact ⟨_, .dropNullAll, fun _ => rfl⟩
    | some m =>
      obtain ⟨d, hd, rfl⟩ := copyOf_names hy
      exact ⟨_, .dropNull hd, fun _ => rfl⟩
  | dropInf m =>
    simp only [makeOp, Option.map_eq_some_iff] at e
    obtain ⟨y, hy, rfl⟩ := e
    cases m with
    | none =>
      cases hy
      exact ⟨_, .dropInfAll, fun _ => rfl⟩
    | some m =>
      obtain ⟨d, hd, rfl⟩ := copyOf_names hy
      exact ⟨_, .dropInf hd, fun _ => rfl⟩
  | enforce c =>
    cases e
    exact ⟨_, .enforce c, fun _ => rfl⟩
  | binColumn f name desc =>
    simp only [makeOp] at e
    split at e
    · cases e
    · next s hs =>
      cases e
      exact ⟨_, .binColumn f name desc hs, fun _ => rfl⟩

/-- The expression at the address where a node is put. -/
theorem expr_op {h : Heap} (ok : h.OK) {o : OpF Held} {op : Op} {c : Addr} {e : PExpr} (hc : c < h.nodes.length)
    (he : h.expr c = some e) (ho : ∀ h', readOp h' o = some op) :
    (h.addNode (.op o c)).expr h.nodes.length = some (.op op e) := by
  have key : unfold_ (h.addNode (.op o c)) h.nodes.length c = some e := by
    obtain ⟨e', h1, h2⟩ := unfold_stable (h' := h.addNode (.op o c)) ok.nodes (List.prefix_append _ _) c hc
      h.nodes.length h.nodes.length hc hc
    rw [h2, ← h1]
    exact he
  have hn : (h.addNode (.op o c)).nodes[h.nodes.length]? = some (.op o c) := by simp [Heap.addNode]
  have hl : (h.addNode (.op o c)).nodes.length = h.nodes.length + 1 := by simp [Heap.addNode]
  unfold Heap.expr
  rw [hl]
  simp only [unfold_, hn, key, ho]

theorem expr_join {h : Heap} (ok : h.OK) {l r : Addr} {tl tr : Option Trunc} {cs : Option (Held (List String))}
    {cs' : Option (List String)} {e f : PExpr} (hl : l < h.nodes.length) (hr : r < h.nodes.length)
    (he : h.expr l = some e) (hf : h.expr r = some f) (hc : ∀ h', readOpt h' cs = some cs') :
    (h.addNode (.join l r tl tr cs)).expr h.nodes.length = some (.join e f tl tr cs') := by
  have key : ∀ {c : Addr} {e : PExpr}, c < h.nodes.length → h.expr c = some e →
      unfold_ (h.addNode (.join l r tl tr cs)) h.nodes.length c = some e := by
    intro c e hc he
    obtain ⟨e', h1, h2⟩ := unfold_stable (h' := h.addNode (.join l r tl tr cs)) ok.nodes (List.prefix_append _ _) c hc
      h.nodes.length h.nodes.length hc hc
    rw [h2, ← h1]
    exact he
  have hn : (h.addNode (.join l r tl tr cs)).nodes[h.nodes.length]? = some (.join l r tl tr cs) := by simp [Heap.addNode]
  have hlen : (h.addNode (.join l r tl tr cs)).nodes.length = h.nodes.length + 1 := by simp [Heap.addNode]
  unfold Heap.expr
  rw [hlen]
  simp only [unfold_, hn, key hl he, key hr hf, hc]

theorem setExpr_builder {h : Heap} {b : Addr} {o : BObj} {a : Addr} {e : PExpr} (hb : b < h.builders.length)
    (he : h.expr a = some e) : (h.setExpr b o a).builder b = some e := by
  have hx : (h.setExpr b o a).expr a = some e := by
    rw [← he]
    have gen : ∀ x n a, unfold_ (h.setExpr b o x) n a = unfold_ h n a := by
      intro x n
      induction n with
      | zero => intro a; rfl
      | succ n ih =>
        intro a
        have r1 : ∀ op, readOp (h.setExpr b o x) op = readOp h op := fun op => by cases op <;> rfl
        have r2 : ∀ cs : Option (Held (List String)), readOpt (h.setExpr b o x) cs = readOpt h cs := fun cs => by
          cases cs <;> rfl
        show _ = _
        simp only [unfold_, ih, r1, r2]
        rfl
    exact gen a _ a
  simp only [Heap.builder, Heap.setExpr, List.getElem?_set, hb, if_true, Option.bind_some]
  exact hx

variable {raises : Heap → Call → Bool}

/-- A state that a program can reach. -/
def Reachable (raises : Heap → Call → Bool) (h : Heap) : Prop := ∃ cs, h = run raises {} cs

theorem Reachable.ok {h : Heap} (hr : Reachable raises h) : h.OK := by
  obtain ⟨cs, rfl⟩ := hr
  exact (run_ok raises cs empty_ok).1

theorem builder_expr {h : Heap} {b : Addr} {o : BObj} (ho : h.builders[b]? = some o) : h.builder b = h.expr o.expr := by
  simp [Heap.builder, ho]

theorem call_of {h : Heap} {c : Call} {r : Res} (hr : (call raises h c).2 = r) (hne : r ≠ .raised) :
    raises h c = false := by
  cases hc : raises h c with
  | false => rfl
  | true =>
    exfalso
    unfold call at hr
    simp only [hc, if_true] at hr
    exact hne hr.symm

/-- **C45**: a transformation that does not raise returns the builder it is called on, which then means one operation
more, with the arguments as they are now. -/
theorem C45_transform {h : Heap} (hr : Reachable raises h) {b : Addr} {arg : Arg} {r : Res}
    (hc : (call raises h (.transform b arg)).2 = r) (hne : r ≠ .raised) :
    r = .builder b ∧ ∃ e op, h.builder b = some e ∧ Reads h arg op ∧
      (call raises h (.transform b arg)).1.builder b = some (.op op e) := by
  have hf := call_of hc hne
  simp only [call, hf, Bool.false_eq_true, if_false, transform] at hc ⊢
  split at hc
  · next o op ho hop =>
    refine ⟨hc.symm, ?_⟩
    obtain ⟨x, hx, hread⟩ := makeOp_reads hop
    have hb := hr.ok.builders o (mem_of_getElem? ho)
    obtain ⟨e, he, _⟩ := expr_stable hr.ok (h' := h) List.prefix_rfl hb
    refine ⟨e, x, (builder_expr ho).trans he, hx, ?_⟩
    simp only [ho, hop]
    exact setExpr_builder (h := h.addNode (.op op o.expr)) (by simp [Heap.addNode]; exact (List.getElem?_eq_some_iff.1 ho).1)
      (expr_op hr.ok hb he hread)
  · exact absurd hc.symm hne

/-- **C45**: a private join with another builder joins with what that builder means now. -/
theorem C45_join {h : Heap} (hr : Reachable raises h) {b b' : Addr} {tl tr : Option Trunc} {cols : Option Addr} {r : Res}
    (hc : (call raises h (.joinPrivate b (.builder b') tl tr cols)).2 = r) (hne : r ≠ .raised) :
    r = .builder b ∧ ∃ e e' cs, h.builder b = some e ∧ h.builder b' = some e' ∧
      ((cols = none ∧ cs = none) ∨ ∃ i l, cols = some i ∧ h.objs[i]? = some (.names l) ∧ cs = some l) ∧
      (call raises h (.joinPrivate b (.builder b') tl tr cols)).1.builder b = some (.join e e' tl tr cs) := by
  have hf := call_of hc hne
  simp only [call, hf, Bool.false_eq_true, if_false] at hc ⊢
  split at hc
  · next o o' cs ho ho' hcs =>
    refine ⟨hc.symm, ?_⟩
    have hb := hr.ok.builders o (mem_of_getElem? ho)
    have hb' := hr.ok.builders o' (mem_of_getElem? ho')
    obtain ⟨e, he, _⟩ := expr_stable hr.ok (h' := h) List.prefix_rfl hb
    obtain ⟨e', he', _⟩ := expr_stable hr.ok (h' := h) List.prefix_rfl hb'
    have hcols : ∃ cs', (∀ h', readOpt h' cs = some cs') ∧
        ((cols = none ∧ cs' = none) ∨ ∃ i l, cols = some i ∧ h.objs[i]? = some (.names l) ∧ cs' = some l) := by
      cases cols with
      | none =>
        cases hcs
        exact ⟨none, fun _ => rfl, .inl ⟨rfl, rfl⟩⟩
      | some i =>
        simp only [copyOpt, Option.map_eq_some_iff] at hcs
        obtain ⟨y, hy, rfl⟩ := hcs
        obtain ⟨l, hl, rfl⟩ := copyOf_names hy
        exact ⟨some l, fun _ => rfl, .inr ⟨i, l, rfl, hl, rfl⟩⟩
    obtain ⟨cs', hread, hspec⟩ := hcols
    refine ⟨e, e', cs', (builder_expr ho).trans he, (builder_expr ho').trans he', hspec, ?_⟩
    simp only [ho, ho', hcs]
    exact setExpr_builder (h := h.addNode (.join o.expr o'.expr tl tr cs))
      (by simp [Heap.addNode]; exact (List.getElem?_eq_some_iff.1 ho).1) (expr_join hr.ok hb hb' he he' hread)
  · exact absurd hc.symm hne

/-- The keys that `groupby` is given, with the present contents of a list. -/
inductive ReadsKeys (h : Heap) : By → Keys → Prop
  | set (k) : ReadsKeys h (.set k) (.set k)
  | col (c) : ReadsKeys h (.col c) (.cols [c])
  | list {i l} : h.objs[i]? = some (.names l) → ReadsKeys h (.list i) (.cols l)

/-- **C45**: a grouped builder means what its builder means at the time of `groupby`. -/
theorem C45_groupby {h : Heap} (hr : Reachable raises h) {b : Addr} {by_ : By} {r : Res}
    (hc : (call raises h (.groupby b by_)).2 = r) (hne : r ≠ .raised) :
    ∃ g e k, r = .grouped g ∧ h.builder b = some e ∧ ReadsKeys h by_ k ∧
      (call raises h (.groupby b by_)).1.groupedBuilder g = some (e, k) := by
  have hf := call_of hc hne
  have ok' := (call_step raises hr.ok (.groupby b by_))
  simp only [call, hf, Bool.false_eq_true, if_false, groupby] at hc ok' ⊢
  split at hc
  · next o k ho hk =>
    have hb := hr.ok.builders o (mem_of_getElem? ho)
    simp only [ho, hk] at ok' ⊢
    obtain ⟨e, he, he'⟩ := expr_stable hr.ok ok'.ext.nodes hb
    have hkeys : ∃ k', ReadsKeys h by_ k' ∧ ∀ h', readKeys h' k = some k' := by
      cases by_ with
      | set k => cases hk; exact ⟨_, .set _, fun _ => rfl⟩
      | col c => cases hk; exact ⟨_, .col _, fun _ => rfl⟩
      | list l =>
        simp only [Option.map_eq_some_iff] at hk
        obtain ⟨y, hy, rfl⟩ := hk
        obtain ⟨l, hl, rfl⟩ := copyOf_names hy
        exact ⟨_, .list hl, fun _ => rfl⟩
    obtain ⟨k', hk', hread⟩ := hkeys
    refine ⟨_, e, k', hc.symm, (builder_expr ho).trans he, hk', ?_⟩
    simp only [Heap.groupedBuilder, List.getElem?_append_right (Nat.le_refl _), Nat.sub_self, List.getElem?_cons_zero, he',
      hread]
  · exact absurd hc.symm hne

/-- The aggregation that is asked for. -/
inductive ReadsKind (h : Heap) : AggArg → Kind → Prop
  | plain (k) : ReadsKind h (.plain k) k
  | distinctAll (m) : ReadsKind h (.distinct none m) (.countDistinct [] m)
  | distinct {i l} (m) : h.objs[i]? = some (.names l) → ReadsKind h (.distinct (some i) m) (.countDistinct l m)

/-- **C45**: a query is the aggregation of what its grouped builder means. -/
theorem C45_aggregate {h : Heap} (hr : Reachable raises h) {g : Addr} {a : AggArg} {out : String} {r : Res}
    (hc : (call raises h (.aggregate g a out)).2 = r) (hne : r ≠ .raised) :
    ∃ q e k kind, r = .query q ∧ h.groupedBuilder g = some (e, k) ∧ ReadsKind h a kind ∧
      (call raises h (.aggregate g a out)).1.query q = some (.agg ⟨e, k, kind, out⟩) := by
  have hf := call_of hc hne
  have ok' := (call_step raises hr.ok (.aggregate g a out))
  simp only [call, hf, Bool.false_eq_true, if_false, aggregate] at hc ok' ⊢
  split at hc
  · next o k ho hk =>
    obtain ⟨h1, h2⟩ := hr.ok.grouped o (mem_of_getElem? ho)
    simp only [ho, hk] at ok' ⊢
    obtain ⟨e, he, he'⟩ := expr_stable hr.ok ok'.ext.nodes h1
    obtain ⟨ks, hks, hks'⟩ := keys_stable h2 h { h with queries := h.queries ++ [.agg ⟨o.expr, o.keys, k, out⟩] }
    have hkind : ∃ k', ReadsKind h a k' ∧ ∀ h', readKind h' k = some k' := by
      cases a with
      | plain k => cases hk; exact ⟨_, .plain _, fun _ => rfl⟩
      | distinct cs m =>
        simp only [Option.map_eq_some_iff] at hk
        obtain ⟨y, hy, rfl⟩ := hk
        cases cs with
        | none => cases hy; exact ⟨_, .distinctAll m, fun _ => rfl⟩
        | some i =>
          obtain ⟨l, hl, rfl⟩ := copyOf_names hy
          exact ⟨_, .distinct m hl, fun _ => rfl⟩
    obtain ⟨k', hk', hread⟩ := hkind
    refine ⟨_, e, ks, k', hc.symm, by simp [Heap.groupedBuilder, ho, he, hks], hk', ?_⟩
    simp only [Heap.query, List.getElem?_append_right (Nat.le_refl _), Nat.sub_self, List.getElem?_cons_zero, Heap.agg,
      he', hks', hread, Option.map_some]
  · exact absurd hc.symm hne

/-- **C45**: `clone` makes another builder with the same meaning, and `C45_builder_kept` keeps them apart. -/
theorem C45_clone {h : Heap} (hr : Reachable raises h) {b : Addr} {r : Res} (hc : (call raises h (.clone b)).2 = r)
    (hne : r ≠ .raised) :
    ∃ b' e, r = .builder b' ∧ b' ≠ b ∧ h.builder b = some e ∧ (call raises h (.clone b)).1.builder b' = some e := by
  have hf := call_of hc hne
  have ok' := (call_step raises hr.ok (.clone b))
  simp only [call, hf, Bool.false_eq_true, if_false] at hc ok' ⊢
  split at hc
  · exact absurd hc.symm hne
  · next o ho =>
    have hb := hr.ok.builders o (mem_of_getElem? ho)
    simp only [ho] at ok' ⊢
    obtain ⟨e, he, he'⟩ := expr_stable hr.ok ok'.ext.nodes hb
    refine ⟨_, e, hc.symm, ?_, (builder_expr ho).trans he, ?_⟩
    · exact Nat.ne_of_gt (List.getElem?_eq_some_iff.1 ho).1
    · simp only [Heap.builder, List.getElem?_append_right (Nat.le_refl _), Nat.sub_self, List.getElem?_cons_zero,
        Option.bind_some]
      exact he'

/-! ## A program -/

namespace Example

def never : Heap → Call → Bool := fun _ _ => false

/-- ```
b = QueryBuilder("t"); cols = ["x"]
b.select(cols); g = b.groupby(cols); q = g.count_distinct(cols)
b.filter("x > 1"); cols[:] = ["y"]; b.join_private(b); q2 = b.get_groups(cols)
``` -/
def program : List Call :=
  [.new "t", .allocate (.names ["x"]), .transform 0 (.select 0), .groupby 0 (.list 0),
    .aggregate 0 (.distinct (some 0) .default) "n"]

def after : List Call :=
  [.transform 0 (.filter "x > 1"), .assign 0 (.names ["y"]), .joinPrivate 0 (.builder 0) none none (some 0),
    .getGroups 0 (some 0)]

theorem program_query : (run never {} program).query 0 =
    some (.agg ⟨.op (.select ["x"]) (.source "t"), .cols ["x"], .countDistinct ["x"] .default, "n"⟩) := rfl

theorem after_queries : (run never {} (program ++ after)).query 0 =
      some (.agg ⟨.op (.select ["x"]) (.source "t"), .cols ["x"], .countDistinct ["x"] .default, "n"⟩) ∧
    (run never {} (program ++ after)).query 1 =
      some (.groups (.join (.op (.filter "x > 1") (.op (.select ["x"]) (.source "t")))
        (.op (.filter "x > 1") (.op (.select ["x"]) (.source "t"))) none none (some ["y"])) ["y"]) := ⟨rfl, rfl⟩

end Example

example : 0 < (run Example.never {} Example.program).queries.length := by decide

/-- A builder method changes the builder it is called on, and returns it: two queries meant to branch off from the same
builder do not. After `b.filter("x > 1")` and `b.filter("x > 2")`, the query made from the second has both filters. -/
theorem C45_no_branching :
    (run Example.never {} [.new "t", .transform 0 (.filter "x > 1"), .getGroups 0 none,
      .transform 0 (.filter "x > 2"), .getGroups 0 none]).query 1 =
    some (.groups (.op (.filter "x > 2") (.op (.filter "x > 1") (.source "t"))) []) := rfl

end Verif.Builder
