import Verif.Program.Props

/-!
# C74: all calls
-/

namespace Verif.Program

open Verif Verif.Schema Verif.Constraint Verif.Expr Verif.Query
open Verif.Builder (Heap Obj Arg Operand AggArg Call Res PyFn PExpr PQuery Sql call run Reads makeOp)
open Verif.Whole (Chain Ctx ColsArg Bins PubFrame)

variable {ctx : Ctx} {sql : Sql} {th : Things} {raises : Heap → Call → Bool}

theorem next_done {bk : Book} {c : Call} {r : Res} (h : r ≠ .raised) : bk.next sql th c r = bk.done sql th c := if_neg h

theorem sim_new (F : Faithful ctx sql th raises) {h : Heap} {bk : Book} (s : Sim ctx sql h bk) {id : String}
    (hne : (call raises h (.new id)).2 ≠ .raised) : Sim ctx sql (call raises h (.new id)).1 (bk.done sql th (.new id)) := by
  have hnr := not_raises hne
  have hb : ∃ e, Whole.newBuilder ctx id = .ok e := by
    by_contra hcon
    have := (F.new h id).2 (fun e he => hcon ⟨e, he⟩)
    rw [hnr] at this
    cases this
  obtain ⟨e, he⟩ := hb
  have hs : Shows ctx sql (.start id) (.source id) := by
    have : e = .source id := by
      unfold Whole.newBuilder at he
      split at he <;> cases he
      rfl
    subst this
    exact he
  have hcall : (call raises h (.new id)).1 =
      { h.addNode (.source id) with builders := h.builders ++ [⟨id, h.nodes.length⟩] } := by
    simp only [call, hnr, Bool.false_eq_true, if_false]
  refine s.step _ ?_ ?_ ?_ ?_ ?_ (fun g x k hx => .inl hx) (fun q a hx => .inl hx)
  · rw [hcall]; exact s.objs
  · rw [hcall]; simp [Book.done, Heap.addNode, s.bLen]
  · rw [hcall]; exact s.gLen
  · rw [hcall]; exact s.qLen
  · intro b x hx
    rcases append_cases hx with hx | ⟨rfl, rfl⟩
    · exact .inl ⟨hx, nofun⟩
    · refine .inr ⟨_, ?_, hs⟩
      rw [hcall, ← s.bLen]
      simp [Heap.builder, Heap.addNode, Heap.expr, Builder.unfold_]

theorem sim_clone {h : Heap} (hr : Builder.Reachable raises h) {bk : Book} (s : Sim ctx sql h bk) {b : Nat}
    (hne : (call raises h (.clone b)).2 ≠ .raised) : Sim ctx sql (call raises h (.clone b)).1 (bk.done sql th (.clone b)) := by
  have hnr := not_raises hne
  obtain ⟨b', e, hres, _, he, he'⟩ := Builder.C45_clone hr rfl hne
  obtain ⟨c, hc, hs⟩ := builder_isSome s he
  have ho : ∃ o, h.builders[b]? = some o := by
    cases ho : h.builders[b]? with
    | none => simp [Heap.builder, ho] at he
    | some o => exact ⟨o, rfl⟩
  obtain ⟨o, ho⟩ := ho
  have hcall : call raises h (.clone b) = ({ h with builders := h.builders ++ [o] }, .builder h.builders.length) := by
    simp only [call, hnr, Bool.false_eq_true, if_false, ho]
  rw [hcall] at hres
  cases hres
  have hdone : bk.done sql th (.clone b) = { bk with builders := bk.builders ++ [c] } := by
    simp only [Book.done, hc, Option.toList_some]
  rw [hdone]
  refine s.step _ ?_ ?_ ?_ ?_ ?_ (fun g x k hx => .inl hx) (fun q a hx => .inl hx)
  · rw [hcall]; exact s.objs
  · rw [hcall]; simp [s.bLen]
  · rw [hcall]; exact s.gLen
  · rw [hcall]; exact s.qLen
  · intro i x hx
    rcases append_cases hx with hx | ⟨rfl, rfl⟩
    · exact .inl ⟨hx, nofun⟩
    · exact .inr ⟨e, s.bLen ▸ he', hs⟩

theorem sim_transform (F : Faithful ctx sql th raises) {h : Heap} (hr : Builder.Reachable raises h) {bk : Book}
    (s : Sim ctx sql h bk) {b : Nat} {arg : Arg} (hg : GivenArg ctx th arg)
    (hne : (call raises h (.transform b arg)).2 ≠ .raised) :
    Sim ctx sql (call raises h (.transform b arg)).1 (bk.done sql th (.transform b arg)) := by
  obtain ⟨c, f, p, hc, hf, _, hp, hs⟩ := shows_transform F hr s hg hne
  obtain ⟨o, op, ho, hop, hcall⟩ := call_transform hne
  have hdone : bk.done sql th (.transform b arg) = { bk with builders := bk.builders.set b (f c) } := by
    simp only [Book.done, hc, hf]
  rw [hdone]
  refine s.step _ ?_ ?_ ?_ ?_ ?_ (fun g x k hx => .inl hx) (fun q a hx => .inl hx)
  · rw [hcall]; exact s.objs
  · rw [hcall]; simp [Heap.setExpr, Heap.addNode, s.bLen]
  · rw [hcall]; exact s.gLen
  · rw [hcall]; exact s.qLen
  · intro i x hx
    rcases set_cases hx with ⟨hx, hi⟩ | ⟨rfl, rfl⟩
    · exact .inl ⟨hx, fun e => hi (Option.some.inj e)⟩
    · exact .inr ⟨p, hp, hs⟩

theorem sim_join (F : Faithful ctx sql th raises) {h : Heap} (hr : Builder.Reachable raises h) {bk : Book}
    (s : Sim ctx sql h bk) {b b' : Nat} {tl tr : Option Trunc} {cols : Option Nat}
    (hne : (call raises h (.joinPrivate b (.builder b') tl tr cols)).2 ≠ .raised) :
    Sim ctx sql (call raises h (.joinPrivate b (.builder b') tl tr cols)).1
      (bk.done sql th (.joinPrivate b (.builder b') tl tr cols)) ∧
    ∃ c c' cs, bk.builders[b]? = some c ∧ bk.builders[b']? = some c' ∧ listed bk.objs cols = some cs ∧
      (Chain.joinPrivate c c' tl tr cs).Valid ctx := by
  have hnr := not_raises hne
  obtain ⟨_, e, e', cs, he, he', hcs, hnew⟩ := Builder.C45_join hr rfl hne
  obtain ⟨o, o', hcols, ho, ho', hcopy, hcall⟩ := call_join hne
  obtain ⟨c, hc, hs⟩ := builder_isSome s he
  obtain ⟨c', hc', hs'⟩ := builder_isSome s he'
  have ha : ∃ a, listed h.objs cols = some a ∧ Whole.joinTuple a = cs := by
    rcases hcs with ⟨rfl, rfl⟩ | ⟨i, l, rfl, hl, rfl⟩
    · exact ⟨.missing, rfl, rfl⟩
    · exact ⟨.list l, by simp only [listed, hl], rfl⟩
  obtain ⟨a, ha, hacs⟩ := ha
  have hv : (Chain.joinPrivate c c' tl tr a).Valid ctx := by
    have hex : ∃ id x, (Chain.joinPrivate (.start id) (.start id) tl tr a).build ctx = .ok x := by
      by_contra hcon
      have := (F.join h b b' tl tr cols a ha).2 (fun id e he => hcon ⟨id, e, he⟩)
      rw [hnr] at this
      cases this
    obtain ⟨id, x, hx⟩ := hex
    exact ⟨s.valid hc, s.valid hc', ((Whole.C72_accepts ctx _).1.1 ⟨x, hx⟩).2.2⟩
  have hdone : bk.done sql th (.joinPrivate b (.builder b') tl tr cols) =
      { bk with builders := bk.builders.set b (.joinPrivate c c' tl tr a) } := by
    simp only [Book.done, hc, ← s.objs, ha, Option.bind_some, joinStep, hc', Option.map_some]
  refine ⟨?_, c, c', a, hc, hc', s.objs ▸ ha, hv⟩
  rw [hdone]
  refine s.step _ ?_ ?_ ?_ ?_ ?_ (fun g x k hx => .inl hx) (fun q a hx => .inl hx)
  · rw [hcall]; exact s.objs
  · rw [hcall]; simp [Heap.setExpr, Heap.addNode, s.bLen]
  · rw [hcall]; exact s.gLen
  · rw [hcall]; exact s.qLen
  · intro i x hx
    rcases set_cases hx with ⟨hx, hi⟩ | ⟨rfl, rfl⟩
    · exact .inl ⟨hx, fun e => hi (Option.some.inj e)⟩
    · exact .inr ⟨_, hnew, (build_join hs hs' hv).trans (by rw [hacs]; rfl)⟩

theorem sim_joinTable (F : Faithful ctx sql th raises) {h : Heap} {bk : Book}
    (s : Sim ctx sql h bk) {b : Nat} {t : String} {tl tr : Option Trunc} {cols : Option Nat}
    (hne : (call raises h (.joinPrivate b (.table t) tl tr cols)).2 ≠ .raised) :
    Sim ctx sql (call raises h (.joinPrivate b (.table t) tl tr cols)).1
      (bk.done sql th (.joinPrivate b (.table t) tl tr cols)) ∧
    ∃ c cs, bk.builders[b]? = some c ∧ listed bk.objs cols = some cs ∧ (Chain.joinTable c t tl tr cs).Valid ctx := by
  have hnr := not_raises hne
  obtain ⟨o, hcols, ho, hcopy, hcall⟩ := call_joinTable hne
  obtain ⟨x, hread, a, ha, hax⟩ := copyOpt_listed hcopy
  have hb := s.ok.builders o (Builder.mem_of_getElem? ho)
  have s1 := Builder.addNode_step s.ok (n := .source t) trivial none
  obtain ⟨e, he, he1⟩ := Builder.expr_stable s.ok s1.ext.nodes hb
  obtain ⟨c, hc, hs⟩ := builder_isSome s ((Builder.builder_expr ho).trans he)
  have hv : (Chain.joinTable c t tl tr a).Valid ctx := by
    refine (stands (join_valid t tl tr a) (s.valid hc)).1 ?_
    by_contra hcon
    have := (F.joinTable h b t tl tr cols a ha).2 (fun id e he => hcon ⟨id, e, he⟩)
    rw [hnr] at this
    cases this
  have hdone : bk.done sql th (.joinPrivate b (.table t) tl tr cols) =
      { bk with builders := bk.builders.set b (.joinTable c t tl tr a) } := by
    simp only [Book.done, hc, ← s.objs, ha, Option.bind_some, joinStep]
  have hsrc : (h.addNode (.source t)).expr h.nodes.length = some (.source t) := by
    simp [Heap.addNode, Heap.expr, Builder.unfold_]
  have hnew : (call raises h (.joinPrivate b (.table t) tl tr cols)).1.builder b = some (.join e (.source t) tl tr x) := by
    rw [hcall]
    have hj := Builder.expr_join (h := h.addNode (.source t)) s1.ok (l := o.expr) (r := h.nodes.length) (tl := tl) (tr := tr)
      (by simp [Heap.addNode]; omega) (by simp [Heap.addNode]) he1 hsrc hread
    refine Builder.setExpr_builder (h := (h.addNode (.source t)).addNode (.join o.expr h.nodes.length tl tr hcols)) ?_ ?_
    · simp [Heap.addNode]; exact (List.getElem?_eq_some_iff.1 ho).1
    · have : (h.addNode (.source t)).nodes.length = h.nodes.length + 1 := by simp [Heap.addNode]
      rw [this] at hj
      exact hj
  refine ⟨?_, c, a, hc, s.objs ▸ ha, hv⟩
  rw [hdone]
  refine s.step _ ?_ ?_ ?_ ?_ ?_ (fun g x k hx => .inl hx) (fun q a hx => .inl hx)
  · rw [hcall]; exact s.objs
  · rw [hcall]; simp [Heap.setExpr, Heap.addNode, s.bLen]
  · rw [hcall]; exact s.gLen
  · rw [hcall]; exact s.qLen
  · intro i y hx
    rcases set_cases hx with ⟨hx, hi⟩ | ⟨rfl, rfl⟩
    · exact .inl ⟨hx, fun e => hi (Option.some.inj e)⟩
    · exact .inr ⟨_, hnew, (build_joinTable hs hv).trans (by rw [hax]; rfl)⟩

theorem sim_groupby {h : Heap} (hr : Builder.Reachable raises h) {bk : Book} (s : Sim ctx sql h bk) {b : Nat}
    {by_ : Builder.By} (hne : (call raises h (.groupby b by_)).2 ≠ .raised) :
    Sim ctx sql (call raises h (.groupby b by_)).1 (bk.done sql th (.groupby b by_)) := by
  have hnr := not_raises hne
  obtain ⟨g, e, k, hres, he, hk, hnew⟩ := Builder.C45_groupby hr rfl hne
  obtain ⟨c, hc, hs⟩ := builder_isSome s he
  have hkeys : keysNow bk.objs by_ = some k := by
    rw [← s.objs]
    cases hk with
    | set k => rfl
    | col c => rfl
    | list hl => simp only [keysNow, hl]
  have hcall : ∃ o hk, call raises h (.groupby b by_) =
      ({ h with grouped := h.grouped ++ [⟨o, hk⟩] }, .grouped h.grouped.length) := by
    simp only [call, hnr, Bool.false_eq_true, if_false, Builder.groupby] at hne ⊢
    split at hne
    · next o k' ho hk' => exact ⟨o.expr, k', by simp only [ho, hk']⟩
    · exact absurd rfl hne
  obtain ⟨o, hk', hcall⟩ := hcall
  rw [hcall] at hres
  cases hres
  have hdone : bk.done sql th (.groupby b by_) = { bk with grouped := bk.grouped ++ [(c, k)] } := by
    simp only [Book.done, hc, hkeys]
  rw [hdone]
  refine s.step _ ?_ ?_ ?_ ?_ (fun i x hx => .inl ⟨hx, nofun⟩) ?_ (fun q a hx => .inl hx)
  · rw [hcall]; exact s.objs
  · rw [hcall]; exact s.bLen
  · rw [hcall]; simp [s.gLen]
  · rw [hcall]; exact s.qLen
  · intro i x k' hx
    rcases append_cases hx with hx | ⟨rfl, hx2⟩
    · exact .inl hx
    · cases hx2
      exact .inr ⟨e, s.gLen ▸ hnew, hs⟩

theorem sim_aggregate {h : Heap} (hr : Builder.Reachable raises h) {bk : Book} (s : Sim ctx sql h bk) {g : Nat} {a : AggArg}
    {out : String} (hne : (call raises h (.aggregate g a out)).2 ≠ .raised) :
    Sim ctx sql (call raises h (.aggregate g a out)).1 (bk.done sql th (.aggregate g a out)) := by
  have hnr := not_raises hne
  obtain ⟨q, e, k, kind, hres, he, hk, hnew⟩ := Builder.C45_aggregate hr rfl hne
  obtain ⟨c, hc, hs⟩ := grouped_isSome s he
  have hkind : kindNow bk.objs a = some kind := by
    rw [← s.objs]
    cases hk with
    | plain k => rfl
    | distinctAll m => rfl
    | distinct m hl => simp only [kindNow, hl]
  have hcall : ∃ x, call raises h (.aggregate g a out) = ({ h with queries := h.queries ++ [x] }, .query h.queries.length) := by
    simp only [call, hnr, Bool.false_eq_true, if_false, Builder.aggregate] at hne ⊢
    split at hne
    · next o k' ho hk' => exact ⟨.agg ⟨o.expr, o.keys, k', out⟩, by simp only [ho, hk']⟩
    · exact absurd rfl hne
  obtain ⟨x, hcall⟩ := hcall
  rw [hcall] at hres
  cases hres
  have hdone : bk.done sql th (.aggregate g a out) = { bk with queries := bk.queries ++ [.agg c k kind out] } := by
    simp only [Book.done, hc, hkind]
  rw [hdone]
  refine s.step _ ?_ ?_ ?_ ?_ (fun i x hx => .inl ⟨hx, nofun⟩) (fun i x k hx => .inl hx) ?_
  · rw [hcall]; exact s.objs
  · rw [hcall]; exact s.bLen
  · rw [hcall]; exact s.gLen
  · rw [hcall]; simp [s.qLen]
  · intro i y hx
    rcases append_cases hx with hx | ⟨rfl, rfl⟩
    · exact .inl hx
    · exact .inr ⟨_, s.qLen ▸ hnew, _, hs, rfl⟩

theorem sim_getGroups {h : Heap} {bk : Book} (s : Sim ctx sql h bk) {b : Nat} {cols : Option Nat}
    (hne : (call raises h (.getGroups b cols)).2 ≠ .raised) :
    Sim ctx sql (call raises h (.getGroups b cols)).1 (bk.done sql th (.getGroups b cols)) := by
  have hnr := not_raises hne
  have hcall : ∃ o cs, h.builders[b]? = some o ∧ Builder.copyOrEmpty (α := String) h cols = some cs ∧
      call raises h (.getGroups b cols) = ({ h with queries := h.queries ++ [.groups o.expr cs] }, .query h.queries.length) := by
    simp only [call, hnr, Bool.false_eq_true, if_false] at hne ⊢
    split at hne
    · next o cs ho hcs => exact ⟨o, cs, ho, hcs, by simp only [ho, hcs]⟩
    · exact absurd rfl hne
  obtain ⟨o, cs, ho, hcs, hcall⟩ := hcall
  have hb := s.ok.builders o (Builder.mem_of_getElem? ho)
  have st := Builder.call_step raises s.ok (.getGroups b cols)
  obtain ⟨e, he, he'⟩ := Builder.expr_stable s.ok st.ext.nodes hb
  obtain ⟨c, hc, hs⟩ := builder_isSome s ((Builder.builder_expr ho).trans he)
  obtain ⟨x, hread, hx⟩ := columns_listed hcs
  have hdone : bk.done sql th (.getGroups b cols) = { bk with queries := bk.queries ++ [.groups c x] } := by
    simp only [Book.done, hc, ← s.objs, hx]
  rw [hdone]
  refine s.step _ ?_ ?_ ?_ ?_ (fun i x hx => .inl ⟨hx, nofun⟩) (fun i x k hx => .inl hx) ?_
  · rw [hcall]; exact s.objs
  · rw [hcall]; exact s.bLen
  · rw [hcall]; exact s.gLen
  · rw [hcall]; simp [s.qLen]
  · intro i y hy
    rcases append_cases hy with hy | ⟨rfl, rfl⟩
    · exact .inl hy
    · refine .inr ⟨.groups e x, ?_, _, hs, rfl⟩
      rw [hcall] at he' ⊢
      rw [← s.qLen]
      simp only [Heap.query, List.getElem?_append_right (Nat.le_refl _), Nat.sub_self, List.getElem?_cons_zero, he', hread]

theorem sim_suppress {h : Heap} {bk : Book} (s : Sim ctx sql h bk) {q : Nat} {t : ℚ}
    (hne : (call raises h (.suppress q t)).2 ≠ .raised) :
    Sim ctx sql (call raises h (.suppress q t)).1 (bk.done sql th (.suppress q t)) := by
  have hnr := not_raises hne
  have hcall : ∃ a, h.queries[q]? = some (.agg a) ∧
      call raises h (.suppress q t) = ({ h with queries := h.queries ++ [.suppress a a.out t] }, .query h.queries.length) := by
    simp only [call, hnr, Bool.false_eq_true, if_false] at hne ⊢
    split at hne
    · next a ha =>
      split at hne
      · next m hk => exact ⟨a, ha, by simp only [ha, hk]⟩
      · exact absurd rfl hne
    · exact absurd rfl hne
  obtain ⟨a, ha, hcall⟩ := hcall
  have st := Builder.call_step raises s.ok (.suppress q t)
  obtain ⟨pa, hpa, hpa'⟩ := Builder.agg_stable s.ok st.ext.nodes (s.ok.queries _ (Builder.mem_of_getElem? ha))
  have hq : h.query q = some (.agg pa) := by simp only [Heap.query, ha, hpa, Option.map_some]
  have hout : pa.out = a.out := by
    unfold Heap.agg at hpa
    split at hpa <;> cases hpa
    rfl
  obtain ⟨x, hx, hs⟩ := query_isSome s hq
  cases x with
  | agg c keys kind out =>
    obtain ⟨e, he, heq⟩ := hs
    simp only [PQuery.denote, Builder.PAgg.denote, Query.agg.injEq, Agg.mk.injEq, and_true] at heq
    obtain ⟨h1, h2, h3, h4⟩ := heq
    have hdone : bk.done sql th (.suppress q t) = { bk with queries := bk.queries ++ [.suppress c keys kind out t] } := by
      simp only [Book.done, hx]
    rw [hdone]
    refine s.step _ ?_ ?_ ?_ ?_ (fun i x hx => .inl ⟨hx, nofun⟩) (fun i x k hx => .inl hx) ?_
    · rw [hcall]; exact s.objs
    · rw [hcall]; exact s.bLen
    · rw [hcall]; exact s.gLen
    · rw [hcall]; simp [s.qLen]
    · intro i y hy
      rcases append_cases hy with hy | ⟨rfl, rfl⟩
      · exact .inl hy
      · refine .inr ⟨.suppress pa a.out t, ?_, e, he, ?_⟩
        · rw [hcall] at hpa' ⊢
          rw [← s.qLen]
          simp only [Heap.query, List.getElem?_append_right (Nat.le_refl _), Nat.sub_self, List.getElem?_cons_zero, hpa',
            Option.map_some]
        · simp only [PQuery.denote, Builder.PAgg.denote, h1, h2, h3, h4, ← hout]
  | groups c cs =>
    obtain ⟨e, _, heq⟩ := hs
    cases heq
  | suppress c keys kind out t' =>
    obtain ⟨e, _, heq⟩ := hs
    cases heq

/-- `histogram` changes the builder, and makes a grouped builder and a query of it. -/
theorem sim_histogram (F : Faithful ctx sql th raises) {h : Heap} {bk : Book} (s : Sim ctx sql h bk) {b : Nat}
    {f : PyFn Row Row} {name : String} {desc : Desc} {keys : KeySetV} (hg : GivenArg ctx th (.binColumn f name desc))
    (hne : (call raises h (.histogram b f name desc keys)).2 ≠ .raised) :
    Sim ctx sql (call raises h (.histogram b f name desc keys)).1 (bk.done sql th (.histogram b f name desc keys)) := by
  have hnr := not_raises hne
  cases ho : h.builders[b]? with
  | none =>
    exfalso
    simp [call, hnr, Builder.transform, ho] at hne
  | some o =>
  cases hop : makeOp h (.binColumn f name desc) with
  | none =>
    exfalso
    simp [call, hnr, Builder.transform, ho, hop] at hne
  | some op =>
  have hlt : b < h.builders.length := (List.getElem?_eq_some_iff.1 ho).1
  have hb : ((h.addNode (.op op o.expr)).setExpr b o h.nodes.length).builders[b]? = some { o with expr := h.nodes.length } := by
    simp [Heap.setExpr, Heap.addNode, hlt]
  have hcall : (call raises h (.histogram b f name desc keys)).1 =
      { (h.addNode (.op op o.expr)).setExpr b o h.nodes.length with
        grouped := h.grouped ++ [⟨h.nodes.length, .set keys⟩]
        queries := h.queries ++ [.agg ⟨h.nodes.length, .set keys, .plain (.count .default), "count"⟩] } := by
    simp only [call, hnr, Bool.false_eq_true, if_false, Builder.transform, ho, hop, Builder.groupby_set hb]
    simp only [Builder.aggregate]
    simp [Heap.setExpr, Heap.addNode]
  have hbo := s.ok.builders o (Builder.mem_of_getElem? ho)
  obtain ⟨e, he, _⟩ := Builder.expr_stable s.ok (h' := h) List.prefix_rfl hbo
  obtain ⟨c, hc, hs⟩ := builder_isSome s ((Builder.builder_expr ho).trans he)
  obtain ⟨x, hx, hread⟩ := Builder.makeOp_reads hop
  have hv : (Chain.binColumn c (th.bins f.obj).1 (th.bins f.obj).2 (some name)).Valid ctx := by
    refine (stands (f := fun c => .binColumn c (th.bins f.obj).1 (th.bins f.obj).2 (some name)) ⟨_, fun c => Iff.rfl⟩
      (s.valid hc)).1 ?_
    by_contra hcon
    have := (F.histogram h b f name desc keys).2 (fun id e he => hcon ⟨id, e, he⟩)
    rw [hnr] at this
    cases this
  obtain ⟨e', he'⟩ := (Whole.C72_accepts ctx _).1.2 hv
  have hshow : Shows ctx sql (.binColumn c (th.bins f.obj).1 (th.bins f.obj).2 (some name)) (.op x e) := by
    rw [Shows, he', reads_build (sql := sql) (th := th) (h := h) rfl hg hx hs he']
    rfl
  have hexpr : (call raises h (.histogram b f name desc keys)).1.expr h.nodes.length = some (.op x e) := by
    have hj := Builder.expr_op s.ok hbo he hread
    have ok1 : (h.addNode (.op op o.expr)).OK := Builder.addNode_ok s.ok ⟨Builder.makeOp_owned hop, hbo⟩
    obtain ⟨y, h1, h2⟩ := Builder.expr_stable (h := h.addNode (.op op o.expr))
      (h' := (call raises h (.histogram b f name desc keys)).1) ok1 (by rw [hcall]; exact List.prefix_rfl)
      (a := h.nodes.length) (by simp [Heap.addNode])
    rw [hj] at h1
    cases h1
    exact h2
  have hdone : bk.done sql th (.histogram b f name desc keys) =
      ⟨bk.builders.set b (.binColumn c (th.bins f.obj).1 (th.bins f.obj).2 (some name)),
        bk.grouped ++ [(.binColumn c (th.bins f.obj).1 (th.bins f.obj).2 (some name), .set keys)],
        bk.queries ++ [.agg (.binColumn c (th.bins f.obj).1 (th.bins f.obj).2 (some name)) (.set keys) (.count .default) "count"],
        bk.objs⟩ := by
    simp only [Book.done, hc]
  rw [hdone]
  refine s.step _ ?_ ?_ ?_ ?_ ?_ ?_ ?_
  · rw [hcall]; exact s.objs
  · rw [hcall]; simp [Heap.setExpr, Heap.addNode, s.bLen]
  · rw [hcall]; simp [s.gLen]
  · rw [hcall]; simp [s.qLen]
  · intro i y hy
    rcases set_cases hy with ⟨hy, hi⟩ | ⟨rfl, rfl⟩
    · exact .inl ⟨hy, fun e => hi (Option.some.inj e)⟩
    · refine .inr ⟨_, ?_, hshow⟩
      rw [← hexpr]
      have : (call raises h (.histogram i f name desc keys)).1.builders[i]? = some { o with expr := h.nodes.length } := by
        rw [hcall]; exact hb
      exact Builder.builder_expr this
  · intro i y k' hy
    rcases append_cases hy with hy | ⟨rfl, hy2⟩
    · exact .inl hy
    · cases hy2
      refine .inr ⟨_, ?_, hshow⟩
      have : (call raises h (.histogram b f name desc keys)).1.grouped[bk.grouped.length]? = some ⟨h.nodes.length, .set keys⟩ := by
        rw [hcall, ← s.gLen]
        simp
      simp only [Heap.groupedBuilder, this, hexpr, Builder.readKeys]
  · intro i y hy
    rcases append_cases hy with hy | ⟨rfl, rfl⟩
    · exact .inl hy
    · refine .inr ⟨.agg ⟨.op x e, .set keys, .count .default, "count"⟩, ?_, _, hshow, rfl⟩
      have : (call raises h (.histogram b f name desc keys)).1.queries[bk.queries.length]? =
          some (.agg ⟨h.nodes.length, .set keys, .plain (.count .default), "count"⟩) := by
        rw [hcall, ← s.qLen]
        simp
      simp only [Heap.query, this, Heap.agg, hexpr, Builder.readKeys, Builder.readKind, Option.map_some]

/-- Every call keeps the book right. -/
theorem sim_call (F : Faithful ctx sql th raises) {h : Heap} (hr : Builder.Reachable raises h) {bk : Book}
    (s : Sim ctx sql h bk) (c : Call) (hg : Given ctx th c) :
    Sim ctx sql (call raises h c).1 (bk.next sql th c (call raises h c).2) := by
  by_cases hne : (call raises h c).2 = .raised
  · rw [Builder.C45_raised raises h c hne, Book.next, if_pos hne]
    exact s
  · rw [next_done hne]
    cases c with
    | new id => exact sim_new F s hne
    | clone b => exact sim_clone hr s hne
    | transform b arg => exact sim_transform F hr s hg hne
    | joinPrivate b right tl tr cols =>
      cases right with
      | table t => exact (sim_joinTable F s hne).1
      | builder b' => exact (sim_join F hr s hne).1
    | groupby b by_ => exact sim_groupby hr s hne
    | aggregate g a out => exact sim_aggregate hr s hne
    | getGroups b cols => exact sim_getGroups s hne
    | histogram b f name desc keys => exact sim_histogram F s hg hne
    | suppress q t => exact sim_suppress s hne
    | allocate o =>
      have hcall : (call raises h (.allocate o)).1 = { h with objs := h.objs ++ [o] } := by
        simp only [call, not_raises hne, Bool.false_eq_true, if_false]
      refine s.step _ ?_ ?_ ?_ ?_ (fun i x hx => .inl ⟨hx, nofun⟩) (fun i x k hx => .inl hx) (fun i x hx => .inl hx)
      · rw [hcall]; simp [Book.done, s.objs]
      · rw [hcall]; exact s.bLen
      · rw [hcall]; exact s.gLen
      · rw [hcall]; exact s.qLen
    | assign i o =>
      have hcall : (call raises h (.assign i o)).1 = { h with objs := h.objs.set i o } := by
        simp only [call, not_raises hne, Bool.false_eq_true, if_false]
      refine s.step _ ?_ ?_ ?_ ?_ (fun i x hx => .inl ⟨hx, nofun⟩) (fun i x k hx => .inl hx) (fun i x hx => .inl hx)
      · rw [hcall]; simp [Book.done, s.objs]
      · rw [hcall]; exact s.bLen
      · rw [hcall]; exact s.gLen
      · rw [hcall]; exact s.qLen

theorem sim_empty : Sim ctx sql {} {} :=
  ⟨Builder.empty_ok, rfl, rfl, rfl, rfl, fun b c h => by simp at h, fun g c k h => by simp at h, fun q a h => by simp at h⟩

theorem sim_from (F : Faithful ctx sql th raises) : ∀ (cs : List Call) {h : Heap} {bk : Book}, Builder.Reachable raises h →
    Sim ctx sql h bk → (∀ c ∈ cs, Given ctx th c) → Sim ctx sql (run raises h cs) (replay sql th raises h bk cs)
  | [], _, _, _, s, _ => s
  | c :: cs, h, bk, hr, s, hg => by
    refine sim_from F cs ?_ (sim_call F hr s c (hg c List.mem_cons_self)) (fun c' hc' => hg c' (List.mem_cons_of_mem _ hc'))
    obtain ⟨l, rfl⟩ := hr
    exact ⟨l ++ [c], by simp [run, List.foldl_append]⟩

/-- A program from its start. -/
theorem sim_run (F : Faithful ctx sql th raises) (cs : List Call) (hg : ∀ c ∈ cs, Given ctx th c) :
    Sim ctx sql (run raises {} cs) (replay sql th raises {} {} cs) := sim_from F cs ⟨[], rfl⟩ sim_empty hg

end Verif.Program
