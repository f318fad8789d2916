import Verif.Program.Sim
import Verif.Whole.Finish

/-!
# C74: what the queries of a program mean and answer
-/

namespace Verif.Program

open Verif Verif.Schema Verif.Constraint Verif.Expr Verif.Query Verif.Stability
open Verif.Budget (PB)
open Verif.Meaning
open Verif.Builder (Heap Obj Arg Operand AggArg Call Res PyFn PExpr PQuery Sql call run Reads makeOp)
open Verif.Whole (Chain Ctx ColsArg Bins PubFrame Request Meas Tab Core NoNoise Py Method WholeCounts AllGroups SomeGroups Shaped)

variable {ctx : Ctx} {sql : Sql} {th : Things} {raises : Heap → Call → Bool}

/-- **C74**: whatever the program did, a builder means the chain of calls that the replay has for it: its own calls and those of
the builder it was cloned from, with lists and dictionaries as they were at the time of the call. -/
theorem C74_builders (F : Faithful ctx sql th raises) (cs : List Call) (hg : ∀ c ∈ cs, Given ctx th c) :
    (run raises {} cs).builders.length = (replay sql th raises {} {} cs).builders.length ∧
    ∀ b c, (replay sql th raises {} {} cs).builders[b]? = some c →
      ∃ p, (run raises {} cs).builder b = some p ∧ c.build ctx = .ok (p.denote sql) :=
  ⟨(sim_run F cs hg).bLen, (sim_run F cs hg).builders⟩

/-- **C74**: a query object means what it was asked for when it was made, also after any later calls. -/
theorem C74_queries (F : Faithful ctx sql th raises) (cs : List Call) (hg : ∀ c ∈ cs, Given ctx th c) :
    (run raises {} cs).queries.length = (replay sql th raises {} {} cs).queries.length ∧
    ∀ q a, (replay sql th raises {} {} cs).queries[q]? = some a →
      ∃ pq, (∀ later, (run raises {} (cs ++ later)).query q = some pq) ∧ a.Query ctx (pq.denote sql) := by
  have s := sim_run F cs hg
  refine ⟨s.qLen, fun q a ha => ?_⟩
  obtain ⟨pq, hpq, hs⟩ := s.queries q a ha
  refine ⟨pq, fun later => ?_, hs⟩
  obtain ⟨x, h1, h2⟩ := Builder.C45_query_fixed raises cs later q (s.qLen ▸ (List.getElem?_eq_some_iff.1 ha).1)
  rw [hpq] at h1
  cases h1
  exact h2

/-- **C74**: a transformation is refused exactly if there is no such builder, an argument is not of its type, or the arguments
are not as documented; then all objects are as before. -/
theorem C74_accepts (F : Faithful ctx sql th raises) (cs : List Call) (hg : ∀ c ∈ cs, Given ctx th c) (b : Nat) (arg : Arg)
    (hga : GivenArg ctx th arg) :
    ((call raises (run raises {} cs) (.transform b arg)).2 ≠ .raised ↔
      ∃ c f, (replay sql th raises {} {} cs).builders[b]? = some c ∧
        argStep sql th (replay sql th raises {} {} cs).objs arg = some f ∧ (f c).Valid ctx) ∧
    ((call raises (run raises {} cs) (.transform b arg)).2 = .raised →
      (call raises (run raises {} cs) (.transform b arg)).1 = run raises {} cs) := by
  have s := sim_run F cs hg
  have hr : Builder.Reachable raises (run raises {} cs) := ⟨cs, rfl⟩
  generalize run raises {} cs = h at s hr ⊢
  generalize replay sql th raises {} {} cs = bk at s ⊢
  refine ⟨⟨fun hne => ?_, ?_⟩, fun hra => Builder.C45_raised raises h _ hra⟩
  · obtain ⟨c, f, _, hc, hf, hv, _⟩ := shows_transform F hr s hga hne
    exact ⟨c, f, hc, hf, hv⟩
  · rintro ⟨c, f, hc, hf, hv⟩
    rw [← s.objs] at hf
    obtain ⟨id, e, he⟩ := (stands (step_valid hf) (s.valid hc)).2 hv
    have hnr : raises h (.transform b arg) = false := by
      by_contra hcon
      exact (F.transform h b arg f hf).1 (by simpa using hcon) id e he
    obtain ⟨p, hp, hs⟩ := s.builders b c hc
    obtain ⟨e', he'⟩ := (Whole.C72_accepts ctx _).1.2 hv
    obtain ⟨o, ho⟩ := makeOp_some hf hga hs he'
    have hbo : ∃ bo, h.builders[b]? = some bo := by
      cases hbo : h.builders[b]? with
      | none => simp [Heap.builder, hbo] at hp
      | some bo => exact ⟨bo, rfl⟩
    obtain ⟨bo, hbo⟩ := hbo
    simp only [call, hnr, Bool.false_eq_true, if_false, Builder.transform, hbo, ho]
    exact nofun

/-- **C74**: the same for joins with a table, and with a builder. -/
theorem C74_accepts_join (F : Faithful ctx sql th raises) (cs : List Call) (hg : ∀ c ∈ cs, Given ctx th c) (b : Nat)
    (right : Operand) (tl tr : Option Trunc) (cols : Option Nat) :
    ((call raises (run raises {} cs) (.joinPrivate b right tl tr cols)).2 ≠ .raised ↔
      ∃ c a f, (replay sql th raises {} {} cs).builders[b]? = some c ∧
        listed (replay sql th raises {} {} cs).objs cols = some a ∧
        joinStep (replay sql th raises {} {} cs) right tl tr a = some f ∧ (f c).Valid ctx) ∧
    ((call raises (run raises {} cs) (.joinPrivate b right tl tr cols)).2 = .raised →
      (call raises (run raises {} cs) (.joinPrivate b right tl tr cols)).1 = run raises {} cs) := by
  have s := sim_run F cs hg
  have hr : Builder.Reachable raises (run raises {} cs) := ⟨cs, rfl⟩
  generalize run raises {} cs = h at s hr ⊢
  generalize replay sql th raises {} {} cs = bk at s ⊢
  have hsome : ∀ {b : Nat} {c : Chain}, bk.builders[b]? = some c → ∃ bo, h.builders[b]? = some bo := by
    intro b c hc
    obtain ⟨p, hp, _⟩ := s.builders b c hc
    cases hbo : h.builders[b]? with
    | none => simp [Heap.builder, hbo] at hp
    | some bo => exact ⟨bo, rfl⟩
  refine ⟨⟨fun hne => ?_, ?_⟩, fun hra => Builder.C45_raised raises h _ hra⟩
  · cases right with
    | table t =>
      obtain ⟨_, c, a, hc, ha, hv⟩ := sim_joinTable (th := th) F s hne
      exact ⟨c, a, _, hc, ha, rfl, hv⟩
    | builder b' =>
      obtain ⟨_, c, c', a, hc, hc', ha, hv⟩ := sim_join (th := th) F hr s hne
      exact ⟨c, a, _, hc, ha, by simp only [joinStep, hc', Option.map_some]; rfl, hv⟩
  · rintro ⟨c, a, f, hc, ha, hf, hv⟩
    rw [← s.objs] at ha
    obtain ⟨⟨x, hx⟩, _⟩ := listed_copy ha
    obtain ⟨bo, hbo⟩ := hsome hc
    cases right with
    | table t =>
      cases hf
      have hnr : raises h (.joinPrivate b (.table t) tl tr cols) = false := by
        by_contra hcon
        obtain ⟨id, e, he⟩ := (stands (join_valid t tl tr a) (s.valid hc)).2 hv
        exact (F.joinTable h b t tl tr cols a ha).1 (by simpa using hcon) id e he
      simp only [call, hnr, Bool.false_eq_true, if_false, hbo, hx]
      exact nofun
    | builder b' =>
      obtain ⟨c', hc', rfl⟩ := Option.map_eq_some_iff.1 hf
      obtain ⟨bo', hbo'⟩ := hsome hc'
      have hnr : raises h (.joinPrivate b (.builder b') tl tr cols) = false := by
        by_contra hcon
        obtain ⟨id, hid⟩ := valid_ident (s.valid hc)
        obtain ⟨e, he⟩ := (Whole.C72_accepts ctx (.joinPrivate (.start id) (.start id) tl tr a)).1.2 ⟨hid, hid, hv.2.2⟩
        exact (F.join h b b' tl tr cols a ha).1 (by simpa using hcon) id e he
      simp only [call, hnr, Bool.false_eq_true, if_false, hbo, hbo', hx]
      exact nofun

/-! ## Answers -/

variable {py : Py} {flag flag' : Bool} {m : Method}

/-- **C74**: a query of a program, evaluated in any session with an infinite budget, answers as documented for the chain of calls
that the replay has for it. Partial as `C72_answer_partial`. -/
theorem C74_answer_partial (F : Faithful ctx sql th raises) (cs later : List Call) (hg : ∀ c ∈ cs, Given ctx th c) {core : Core}
    (hcore : NoNoise core) {sources : Relation.Sources}
    (hst : Relation.Stored ctx.cast sources) (hf : Whole.FramesOK sources) {out : Relation.Output}
    (h : Relation.initCore ctx.cast (Whole.coreMeasure ctx.m) sources = .ok out) (b₀ : PB)
    (ops : List (Session.Op Request PubFrame Value)) (hs : Whole.ViewsSafe ctx (Session.init b₀ (Whole.startTables out)) ops)
    (w : Session.World Meas Tab PubFrame) (hw : w = Session.run (Whole.env ctx) (Session.init b₀ (Whole.startTables out)) ops)
    (data : Nat → Whole.Root × Data)
    (hdata : data = Whole.dataAfter ctx core (Session.init b₀ (Whole.startTables out))
      (fun _ => (Whole.startRoot out, Whole.startData out)) ops)
    (i : Nat) (q : Nat) (c : Chain) (keys' : Keys) (kind : Kind) (col : String)
    (hq : (replay sql th raises {} {} cs).queries[q]? = some (.agg c keys' kind col)) (hk : c.Kept) (hx : m.Exact py)
    (hname : m.Named) (gb : Option Whole.By)
    (ha : ∀ e, c.build ctx = .ok e → Whole.finish py flag flag' e gb m = .ok ⟨e, keys', kind, col, none⟩)
    (b : PB) (hinf : b.isInfinite = true) :
    ∃ pq, (run raises {} (cs ++ later)).query q = some pq ∧ ∃ ok : Whole.Admissible (child (pq.denote sql)),
      ∀ (p : Meas) (amt : PB),
      (Session.step (Whole.env ctx) w (.evaluate i (.query (pq.denote sql) ok) b)).1 = .ok (.answer p amt) →
      ∃ n cat, w.nodes[i]? = some n ∧ Whole.catalog n.tables (w.pubOf n) = .ok cat ∧
        ((∀ e, c.build ctx = .ok e → e.ConsSafe ctx.h cat) →
          ∃ T x keys, c.Faithful cat (Whole.resolve n.tables (data i).2) T ∧
          (m.NoInfinities gb.isSome T → (∀ by', gb = some by' → by'.Keys m T keys) ∧
            Composition.respond (Whole.sem ctx core) data i
              (Session.step (Whole.env ctx) w (.evaluate i (.query (pq.denote sql) ok) b)).1 =
              PMF.pure (.ok (.answer p amt), some (m.answer py x (Whole.names (c.columns cat)) keys T gb)))) := by
  obtain ⟨pq, hpq, e, he, hden⟩ := (C74_queries F cs hg).2 q _ hq
  refine ⟨pq, hpq later, ?_⟩
  rw [hden]
  obtain ⟨ok, hall⟩ := Whole.C72_answer_partial hcore hst hf h b₀ ops hs w hw data hdata i c hk e he hx hname gb _ (ha e he) b hinf
  refine ⟨ok, fun p amt hev => ?_⟩
  obtain ⟨n, cat, hn, hcat, hres⟩ := hall p amt hev
  exact ⟨n, cat, hn, hcat, fun hsafe => hres (hsafe e he)⟩

/-- **C74**: the same for a count that was suppressed: the rows of the count that are large enough. Partial as
`C73_answer_partial`. -/
theorem C74_suppress_partial (F : Faithful ctx sql th raises) (cs later : List Call) (hg : ∀ c ∈ cs, Given ctx th c) {core : Core}
    (hcore : NoNoise core) (hints : WholeCounts core) {sources : Relation.Sources}
    (hst : Relation.Stored ctx.cast sources) (hf : Whole.FramesOK sources) {out : Relation.Output}
    (h : Relation.initCore ctx.cast (Whole.coreMeasure ctx.m) sources = .ok out) (b₀ : PB)
    (ops : List (Session.Op Request PubFrame Value)) (hs : Whole.ViewsSafe ctx (Session.init b₀ (Whole.startTables out)) ops)
    (w : Session.World Meas Tab PubFrame) (hw : w = Session.run (Whole.env ctx) (Session.init b₀ (Whole.startTables out)) ops)
    (data : Nat → Whole.Root × Data)
    (hdata : data = Whole.dataAfter ctx core (Session.init b₀ (Whole.startTables out))
      (fun _ => (Whole.startRoot out, Whole.startData out)) ops)
    (i : Nat) (q : Nat) (c : Chain) (keys' : Keys) (kind : Kind) (col : String) (t : ℚ)
    (hq : (replay sql th raises {} {} cs).queries[q]? = some (.suppress c keys' kind col t)) (hk : c.Kept) (by' : Whole.By)
    (name : Option String) (mech : Whole.MechArg)
    (ha : ∀ e, c.build ctx = .ok e → Whole.finishSuppress py flag flag' e (some by') (.count name mech) t =
      .ok (.suppress ⟨e, keys', kind, col, none⟩ col t))
    (hout : name.getD "count" ∉ by'.columns) (hshape : ∀ k, by' = .keyset k → Shaped (.set k)) (b : PB)
    (hinf : b.isInfinite = true) :
    ∃ pq, (run raises {} (cs ++ later)).query q = some pq ∧ ∃ ok : Whole.Admissible (child (pq.denote sql)),
      ∀ (p : Meas) (amt : PB),
      (Session.step (Whole.env ctx) w (.evaluate i (.query (pq.denote sql) ok) b)).1 = .ok (.answer p amt) →
      ∃ n cat, w.nodes[i]? = some n ∧ Whole.catalog n.tables (w.pubOf n) = .ok cat ∧
        ((∀ e, c.build ctx = .ok e → e.ConsSafe ctx.h cat) →
          ∃ T x keys, c.Faithful cat (Whole.resolve n.tables (data i).2) T ∧ by'.Keys (.count name mech) T keys ∧
            Composition.respond (Whole.sem ctx core) data i
              (Session.step (Whole.env ctx) w (.evaluate i (.query (pq.denote sql) ok) b)).1 =
              PMF.pure (.ok (.answer p amt), some (Whole.largeRows (name.getD "count") t
                ((Method.count name mech).answer py x (Whole.names (c.columns cat)) keys T (some by'))))) := by
  obtain ⟨pq, hpq, e, he, hden⟩ := (C74_queries F cs hg).2 q _ hq
  refine ⟨pq, hpq later, ?_⟩
  rw [hden]
  obtain ⟨ok, hall⟩ := Whole.C73_answer_partial hcore hints hst hf h b₀ ops hs w hw data hdata i c hk e he by' name mech t _
    (ha e he) hout hshape b hinf
  refine ⟨ok, fun p amt hev => ?_⟩
  obtain ⟨n, cat, hn, hcat, hres⟩ := hall p amt hev
  exact ⟨n, cat, hn, hcat, fun hsafe => hres (hsafe e he)⟩

/-- **C74**: the same for `get_groups`, with any budget. Partial as `C73_groups_partial`. -/
theorem C74_groups_partial (F : Faithful ctx sql th raises) (cs later : List Call) (hg : ∀ c ∈ cs, Given ctx th c) {core : Core}
    (hcore : AllGroups core) (hsome : SomeGroups core) {sources : Relation.Sources}
    (hst : Relation.Stored ctx.cast sources) (hf : Whole.FramesOK sources) {out : Relation.Output}
    (h : Relation.initCore ctx.cast (Whole.coreMeasure ctx.m) sources = .ok out) (b₀ : PB)
    (ops : List (Session.Op Request PubFrame Value)) (hs : Whole.ViewsSafe ctx (Session.init b₀ (Whole.startTables out)) ops)
    (w : Session.World Meas Tab PubFrame) (hw : w = Session.run (Whole.env ctx) (Session.init b₀ (Whole.startTables out)) ops)
    (data : Nat → Whole.Root × Data)
    (hdata : data = Whole.dataAfter ctx core (Session.init b₀ (Whole.startTables out))
      (fun _ => (Whole.startRoot out, Whole.startData out)) ops)
    (i : Nat) (q : Nat) (c : Chain) (columns : List String)
    (hq : (replay sql th raises {} {} cs).queries[q]? = some (.groups c columns)) (hk : c.Kept) (b : PB) :
    ∃ pq, (run raises {} (cs ++ later)).query q = some pq ∧ ∃ ok : Whole.Admissible (child (pq.denote sql)),
      ∀ (p : Meas) (amt : PB),
      (Session.step (Whole.env ctx) w (.evaluate i (.query (pq.denote sql) ok) b)).1 = .ok (.answer p amt) →
      ∃ n cat, w.nodes[i]? = some n ∧ Whole.catalog n.tables (w.pubOf n) = .ok cat ∧
        (∀ gs, gs = Whole.groupsOf columns (Whole.names (c.columns cat)) (c.id cat) → gs ≠ [] →
          ∃ T, c.Faithful cat (Whole.resolve n.tables (data i).2) T ∧
          (∀ r ∈ (Composition.respond (Whole.sem ctx core) data i
              (Session.step (Whole.env ctx) w (.evaluate i (.query (pq.denote sql) ok) b)).1).support,
            ∃ keys : List Row, r.2 = some keys ∧ keys.Nodup ∧
              (∀ key ∈ keys, ∃ row ∈ T, key = gs.map (fun c => (c, cell row c))) ∧
              (b.isInfinite = true → (∀ e, c.build ctx = .ok e → e.ConsSafe ctx.h cat) →
                ∀ row ∈ T, gs.map (fun c => (c, cell row c)) ∈ keys))) := by
  obtain ⟨pq, hpq, e, he, hden⟩ := (C74_queries F cs hg).2 q _ hq
  refine ⟨pq, hpq later, ?_⟩
  rw [hden]
  obtain ⟨ok, hall⟩ := Whole.C73_groups_partial hcore hsome hst hf h b₀ ops hs w hw data hdata i c hk e he (.list columns)
    columns rfl b
  refine ⟨ok, fun p amt hev => ?_⟩
  obtain ⟨n, cat, hn, hcat, hres⟩ := hall p amt hev
  refine ⟨n, cat, hn, hcat, fun gs hgs hne => ?_⟩
  obtain ⟨T, hT, hall⟩ := hres gs hgs hne
  refine ⟨T, hT, fun r hr => ?_⟩
  obtain ⟨ks, h1, h2, h3, h4⟩ := hall r hr
  exact ⟨ks, h1, h2, h3, fun hb hsafe => h4 hb (hsafe e he)⟩

end Verif.Program
