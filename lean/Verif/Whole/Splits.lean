import Verif.Whole.Total

/-!
# C63: which partitions are made, and what the new sessions say

Also C05 and C06 for sessions of the whole library.
-/

namespace Verif.Whole

open Verif Verif.Schema Verif.Constraint Verif.Expr Verif.Query Verif.Stability
open Verif.Budget (XNum PB Rounding)
open Verif.Session (World Op Step step_cases)

/-! ## Specification -/

/-- A value for a split is of the type of the column. -/
def Matches : ColumnType → Value → Prop
  | .INTEGER, .int _ => True
  | .VARCHAR, .str _ => True
  | _, _ => False

/-- The constraints that `describe` lists for a private table. -/
def getConstraints := ofPrivate Tab.cons

/-- What a session says about a table allows the partition: it is a private table, the column has the type of the values,
no two splits have the same value, a grouped table is split by its grouping column, and for a table with IDs there is a
bound on the rows of an ID or on its values in the column. -/
structure Splittable (tables : List (String × Tab)) (pub : List (String × PubFrame)) (src col : String) (vals : List Value) :
    Prop where
  column : src ∈ Session.names tables ∧ ∃ ds d, getSchema tables pub src = .ok ds ∧ Dict.get ds col = some d ∧
    ∀ v ∈ vals, Matches d.ty v
  distinct : vals.Nodup
  grouping : ∃ g, getGroupingColumn tables pub src = .ok g ∧ (g = none ∨ g = some col)
  bound : getIdColumn tables pub src = .ok none ∨ ∃ cs, getConstraints tables pub src = .ok cs ∧
    ∃ k, .maxGroupsPerID col k ∈ cs ∨ .maxRowsPerID k ∈ cs

/-- What the getters of a part say: the columns of the table that was split, no grouping column, and IDs if the values of
an ID in the column were bounded. No constraints. -/
structure PartOf (tables : List (String × Tab)) (pub : List (String × PubFrame)) (src col : String)
    (tables' : List (String × Tab)) (pub' : List (String × PubFrame)) (name : String) : Prop where
  only : Session.names tables' = [name]
  schema : getSchema tables' pub' name = getSchema tables pub src
  grouping : getGroupingColumn tables' pub' name = .ok none
  ids : ∀ cs, getConstraints tables pub src = .ok cs → (∃ k, Constraint.maxGroupsPerID col k ∈ cs) →
    getIdColumn tables' pub' name = getIdColumn tables pub src ∧ getIdSpace tables' pub' name = getIdSpace tables pub src
  rows : ∀ cs, getConstraints tables pub src = .ok cs → (∀ k, Constraint.maxGroupsPerID col k ∉ cs) →
    getIdColumn tables' pub' name = .ok none ∧ getIdSpace tables' pub' name = .ok none
  cons : getConstraints tables' pub' name = .ok []

/-! ## Lemmas -/

theorem groupsOn_iff {col : String} : ∀ {cs : List Constraint}, (∃ k, Constraint.maxGroupsPerID col k ∈ cs) ↔
    ∃ k, groupsOn col cs = some k
  | [] => by simp [groupsOn]
  | c :: cs => by
    have ih := groupsOn_iff (col := col) (cs := cs)
    cases c with
    | maxRowsPerID n => simpa [groupsOn] using ih
    | maxRowsPerGroupPerID c n => simpa [groupsOn] using ih
    | maxGroupsPerID c n =>
      unfold groupsOn
      by_cases h : c = col
      · subst h
        simp only [if_true]
        exact ⟨fun _ => ⟨n, rfl⟩, fun _ => ⟨n, List.mem_cons_self⟩⟩
      · rw [if_neg h, ← ih]
        refine ⟨fun ⟨k, hk⟩ => ⟨k, ?_⟩, fun ⟨k, hk⟩ => ⟨k, List.mem_cons_of_mem _ hk⟩⟩
        rcases List.mem_cons.1 hk with e | e
        · cases e; exact absurd rfl h
        · exact e

theorem firstRows_mem : ∀ {cs : List Constraint}, (∃ k, Constraint.maxRowsPerID k ∈ cs) ↔ ∃ k, firstRows cs = some k
  | [] => by simp [firstRows]
  | c :: cs => by
    have ih := firstRows_mem (cs := cs)
    cases c with
    | maxRowsPerID n => exact ⟨fun _ => ⟨n, rfl⟩, fun _ => ⟨n, List.mem_cons_self⟩⟩
    | maxRowsPerGroupPerID c n => simpa [firstRows] using ih
    | maxGroupsPerID c n => simpa [firstRows] using ih

theorem matches_iff (d : SparkDesc) (v : Value) : Matches (ofSparkDesc d).ty v ↔ splitOK d v = true := by
  cases d <;> cases v <;> simp [Matches, splitOK, ofSparkDesc]

theorem cutOf_ok {t : Tab} {col : String} : (∃ cut, cutOf t col = .ok cut) ↔
    idOf t.metric = none ∨ ∃ k, Constraint.maxGroupsPerID col k ∈ t.cons ∨ .maxRowsPerID k ∈ t.cons := by
  have e : (∃ k, Constraint.maxGroupsPerID col k ∈ t.cons ∨ .maxRowsPerID k ∈ t.cons) ↔
      (∃ k, groupsOn col t.cons = some k) ∨ ∃ k, firstRows t.cons = some k := by
    rw [← groupsOn_iff, ← firstRows_mem, ← exists_or]
  rw [e]
  unfold cutOf
  cases t.metric with
  | ids i =>
    simp only [idOf, reduceCtorEq, false_or]
    cases groupsOn col t.cons <;> cases firstRows t.cons <;> simp
  | symDiff => simp [idOf]
  | grouped g => simp [idOf]

theorem partTab_iff {ctx : Ctx} {tables : List (String × Tab)} {pub : List (String × PubFrame)} {src col : String}
    {vals : List Value} (hwf : ∀ t, Dict.get tables src = some t → Dict.WF t.dom) :
    (∃ p, partTab ctx tables pub src col vals = .ok p) ↔ Splittable tables pub src col vals := by
  have hmem : src ∈ Session.names tables ↔ ∃ t, Dict.get tables src = some t := by
    
    refine ⟨fun h => ?_, fun ⟨t, h⟩ => List.mem_map_of_mem (f := Prod.fst) (Dict.mem_of_get h)⟩
    cases hg : Dict.get tables src with
    | some t => exact ⟨t, rfl⟩
    | none => exact absurd h (Dict.get_eq_none.1 hg)
  cases hg : Dict.get tables src with
  | none =>
    refine ⟨fun ⟨p, h⟩ => ?_, fun h => ?_⟩
    · unfold partTab at h
      rw [hg] at h
      dsimp only at h
      split at h <;> cases h
    · obtain ⟨t, ht⟩ := hmem.1 h.column.1
      rw [hg] at ht
      cases ht
  | some t =>
    have hw := hwf t hg
    have hsch : getSchema tables pub src = .ok (sparkDomainToAnalytics t.dom) := by simp only [getSchema, hg]
    have hcol : ∀ d, Dict.get t.dom col = some d → Dict.get (sparkDomainToAnalytics t.dom) col = some (ofSparkDesc d) := by
      intro d hd
      rw [domain_descs hw, get_mapVal _ (fun p => ofSparkDesc p.2), hd]
      rfl
    constructor
    · rintro ⟨p, h⟩
      unfold partTab at h
      rw [hg] at h
      dsimp only at h
      split at h
      · cases h
      next cut hcut =>
      split at h
      · cases h
      next d hd =>
      split at h
      · cases h
      next hv =>
      split at h
      · cases h
      next hnd =>
      split at h
      · cases h
      next hgr =>
      refine ⟨⟨hmem.2 ⟨t, hg⟩, _, _, hsch, hcol d hd, fun v hm => ?_⟩, not_not.1 hnd, ⟨groupOf t.metric, ?_, ?_⟩, ?_⟩
      · rw [matches_iff]
        simp only [List.any_eq_true, not_exists, not_and, Bool.not_eq_true, Bool.not_eq_false', Bool.not_eq_eq_eq_not,
          Bool.not_true, Bool.not_false] at hv
        exact Bool.eq_true_of_not_eq_false (hv v hm)
      · simp only [getGroupingColumn, ofPrivate, hg]
      · cases hgo : groupOf t.metric with
        | none => exact .inl rfl
        | some g =>
          rw [hgo] at hgr
          simp at hgr
          exact .inr (by rw [hgr])
      · rcases cutOf_ok.1 ⟨cut, hcut⟩ with e | ⟨k, e⟩
        · exact .inl (by simp only [getIdColumn, ofPrivate, hg, e])
        · exact .inr ⟨t.cons, by simp only [getConstraints, ofPrivate, hg], k, e⟩
    · intro h
      obtain ⟨_, ds, d, h1, h2, h3⟩ := h.column
      rw [hsch] at h1
      cases h1
      obtain ⟨g, g1, g2⟩ := h.grouping
      simp only [getGroupingColumn, ofPrivate, hg, Except.ok.injEq] at g1
      have hcut : ∃ cut, cutOf t col = .ok cut := by
        rw [cutOf_ok]
        rcases h.bound with e | ⟨cs, e1, e2⟩
        · simp only [getIdColumn, ofPrivate, hg, Except.ok.injEq] at e
          exact .inl e
        · simp only [getConstraints, ofPrivate, hg, Except.ok.injEq] at e1
          subst e1
          exact .inr e2
      obtain ⟨cut, hcut⟩ := hcut
      rw [domain_descs hw, get_mapVal _ (fun p => ofSparkDesc p.2)] at h2
      cases hd : Dict.get t.dom col with
      | none => rw [hd] at h2; cases h2
      | some d' =>
      rw [hd] at h2
      cases h2
      have hv : vals.any (fun v => !splitOK d' v) = false := by
        rw [List.any_eq_false]
        intro v hm
        have := (matches_iff d' v).1 (h3 v hm)
        simp [this]
      have hgr : (groupOf t.metric).any (fun g => decide (g ≠ col)) = false := by
        rw [g1]
        rcases g2 with rfl | rfl <;> simp
      unfold partTab
      rw [hg]
      dsimp only
      rw [hcut]
      dsimp only
      rw [hd]
      dsimp only
      rw [hv, hgr]
      rw [if_neg Bool.false_ne_true, if_neg (not_not.2 h.distinct), if_neg Bool.false_ne_true]
      exact ⟨_, rfl⟩

theorem partTab_part {ctx : Ctx} {tables : List (String × Tab)} {pub : List (String × PubFrame)} {src col : String}
    {vals : List Value} (hp : PlainTabs tables) {p : Tab} (h : partTab ctx tables pub src col vals = .ok p) (name : String)
    (pub' : List (String × PubFrame)) : PartOf tables pub src col [(name, p)] pub' name := by
  unfold partTab at h
  split at h
  · split at h <;> cases h
  next t hg =>
  split at h
  · cases h
  next cut hcut =>
  split at h
  · cases h
  next d hd =>
  split at h
  · cases h
  split at h
  · cases h
  split at h
  · cases h
  cases h
  have hget : ∀ q : Tab, Dict.get [(name, q)] name = some q := fun q => by rw [Dict.get_cons]; exact if_pos rfl
  have hgr : groupOf (partMetric cut) = none := by cases cut <;> rfl
  unfold cutOf at hcut
  refine ⟨rfl, ?_, ?_, fun cs hcs hk => ?_, fun cs hcs hk => ?_, ?_⟩
  · simp only [getSchema, hget, hg]
  · simp only [getGroupingColumn, ofPrivate, hget, hgr]
  · simp only [getConstraints, ofPrivate, hg, Except.ok.injEq] at hcs
    subst hcs
    simp only [getIdColumn, getIdSpace, ofPrivate, hget, hg]
    obtain ⟨k, hk⟩ := groupsOn_iff.1 hk
    cases hm : t.metric with
    | ids i =>
      rw [hm, hk] at hcut
      cases hcut
      exact ⟨rfl, rfl⟩
    | symDiff =>
      rw [hp (src, t) (Dict.mem_of_get hg) (by rw [hm]; nofun)] at hk
      cases hk
    | grouped g =>
      rw [hp (src, t) (Dict.mem_of_get hg) (by rw [hm]; nofun)] at hk
      cases hk
  · simp only [getConstraints, ofPrivate, hg, Except.ok.injEq] at hcs
    subst hcs
    simp only [getIdColumn, getIdSpace, ofPrivate, hget]
    have hno : groupsOn col t.cons = none := by
      cases hgo : groupsOn col t.cons with
      | none => rfl
      | some k =>
        obtain ⟨k, hk'⟩ := groupsOn_iff.2 ⟨k, hgo⟩
        exact absurd hk' (hk k)
    cases hm : t.metric with
    | ids i =>
      rw [hm, hno] at hcut
      dsimp only at hcut
      split at hcut
      · cases hcut
        exact ⟨rfl, rfl⟩
      · cases hcut
    | symDiff =>
      rw [hm] at hcut
      cases hcut
      exact ⟨rfl, rfl⟩
    | grouped g =>
      rw [hm] at hcut
      cases hcut
      exact ⟨rfl, rfl⟩
  · simp only [getConstraints, ofPrivate, hget]

/-- What is no more than the remaining budget can be spent. -/
theorem canSpend_of_le {r : Rounding} (hl : r.Lawful) {rem b adj : PB} (hvr : rem.Valid)
    (hadj : Session.processRequested r rem b = .ok adj) (hle : Session.PBRel (· ≤ ·) b rem) :
    Session.canSpend rem adj = true := by
  have hk : PB.SameKind rem b := by
    cases b <;> cases rem <;> first | trivial | exact False.elim hle
  obtain ⟨adj', h1, hk'⟩ := Session.processRequested_ok r rem b hk
  rw [hadj] at h1
  cases h1
  cases hi : rem.isInfinite with
  | true => exact Session.canSpend_infinite hk' hi
  | false =>
    have hfb : b.isInfinite = false := by
      cases b with
      | pure x =>
        cases rem with
        | pure y =>
          simp only [PB.isInfinite, decide_eq_false_iff_not] at hi ⊢
          rintro rfl
          exact hi (top_le_iff.1 hle)
        | approx y z => exact False.elim hle
        | zcdp y => exact False.elim hle
      | zcdp x =>
        cases rem with
        | zcdp y =>
          simp only [PB.isInfinite, decide_eq_false_iff_not] at hi ⊢
          rintro rfl
          exact hi (top_le_iff.1 hle)
        | approx y z => exact False.elim hle
        | pure y => exact False.elim hle
      | approx x x' =>
        cases rem with
        | approx y y' =>
          simp only [PB.isInfinite, Bool.or_eq_false_iff, decide_eq_false_iff_not] at hi ⊢
          refine ⟨?_, ?_⟩
          · rintro rfl
            exact hi.1 (top_le_iff.1 hle.1)
          · rintro rfl
            exact hi.2 (le_antisymm hvr.2.2 hle.2)
        | pure y => exact False.elim hle
        | zcdp y => exact False.elim hle
    rw [Session.canSpend_iff hl hi hfb hadj]
    exact hle.mono fun x y hxy => .inl hxy

/-! ## The theorems -/

section
variable {ctx : Ctx} {sources : Relation.Sources} {out : Relation.Output}

/-- **C63**: in a session that was made by the builder or by partitions, at any time before it is stopped,
`partition_and_create` with a budget that remains succeeds if and only if the names are identifiers and what the session
says about the table allows the partition. It returns one session for each split, in order, the first one active; their
getters describe the parts, and they have the same public tables. -/
theorem C63_partition (core : Core) (hst : Relation.Stored ctx.cast sources) (hf : FramesOK sources)
    (h : Relation.initCore ctx.cast (coreMeasure ctx.m) sources = .ok out) (hl : ctx.rounding.Lawful) {b₀ : PB}
    (hv₀ : b₀.Valid) (ops : List (Op Request PubFrame Value)) (hops : ∀ op ∈ ops, op.BudgetValid)
    (w : World Meas Tab PubFrame) (hw : w = Session.run (env ctx) (Session.init b₀ (startTables out)) ops) (i : Nat)
    (n : Session.Node Meas Tab) (hn : w.nodes[i]? = some n) (hlive : n.state ≠ .retired) (src : String) (b : PB)
    (col : String) (splits : List (String × Value)) (w' : World Meas Tab PubFrame)
    (hw' : w' = (Session.step (env ctx) w (.partition i src b col splits)).2) :
    ((∃ l, (Session.step (env ctx) w (.partition i src b col splits)).1 = .ok (.sessions l)) →
      (∀ s ∈ Session.names splits, ctx.isIdent s = true) ∧
      Splittable n.tables (w.pubOf n) src col (splits.map Prod.snd)) ∧
    (Session.PBRel (· ≤ ·) (Session.convertBudget n.remaining b) n.remaining →
      (∀ s ∈ Session.names splits, ctx.isIdent s = true) →
      Splittable n.tables (w.pubOf n) src col (splits.map Prod.snd) →
      ∃ l, (Session.step (env ctx) w (.partition i src b col splits)).1 = .ok (.sessions l) ∧
        l.map Prod.fst = splits.map Prod.fst ∧
        ∀ k name v, splits[k]? = some (name, v) → ∃ j n', l[k]? = some (name, j) ∧ w.nodes.length ≤ j ∧
          w'.nodes[j]? = some n' ∧ n'.state = (if k = 0 then .active else .waitSibling) ∧ w'.pubOf n' = w.pubOf n ∧
          PartOf n.tables (w.pubOf n) src col n'.tables (w'.pubOf n') name) := by
  have hre := reached core hst hf h b₀ ops i n (by rw [← hw]; exact hn)
  have hbk := Session.books_run (env := env ctx) hl hv₀ (startTables out) ops hops
  rw [← hw] at hre hbk
  obtain ⟨R, tok⟩ := hre.tabs
  have hwf : ∀ t, Dict.get n.tables src = some t → Dict.WF t.dom := fun t ht => (tok _ (Dict.mem_of_get ht)).wf
  constructor
  · rintro ⟨l, hok⟩
    have hs := step_cases (env ctx) w (.partition i src b col splits)
    rw [hok] at hs
    generalize (Session.step (env ctx) w (.partition i src b col splits)).2 = w2 at hs
    cases hs with
    | partition i src b col splits n2 adj t ns hn2 hk hid hadj ht ha hs =>
      rw [hn] at hn2
      cases hn2
      exact ⟨hid, (partTab_iff hwf).1 ⟨t, ht⟩⟩
  · intro hle hid hsp
    obtain ⟨p, hp⟩ := (partTab_iff (ctx := ctx) hwf).2 hsp
    have hk : PB.SameKind n.remaining (Session.convertBudget n.remaining b) := by
      generalize Session.convertBudget n.remaining b = b' at hle
      generalize n.remaining = rem at hle
      cases b' <;> cases rem <;> first | trivial | exact False.elim hle
    obtain ⟨adj, hadj, _⟩ := Session.processRequested_ok ctx.rounding n.remaining _ hk
    have hcs := canSpend_of_le hl (hbk.valid i n hn).1 hadj hle
    obtain ⟨ns, ha⟩ := Session.activate_ok hn hlive
    have hself := Session.activate_self hn ha
    have hlen := (Session.activate_stateOnly ha).length
    have hall : (Session.names splits).all ctx.isIdent = true := List.all_eq_true.2 hid
    have hstep : Session.step (env ctx) w (.partition i src b col splits) =
        (.ok (.sessions ((Session.names splits).zip ((List.range splits.length).map (· + ns.length)))),
         { w with nodes := ns.set i { n with
                  state := .waitChildren
                  remaining := Session.spend n.remaining adj
                  log := n.log ++ [.split adj ((List.range splits.length).map (· + ns.length))] } ++
                Session.mkChildren i { n with state := .active } adj p true (Session.names splits) }) := by
      simp only [Session.step, Session.partition, hn, (Session.kindMatches_iff _ _).2 hk, Bool.not_true, Bool.false_eq_true,
        if_false, env, hall, hadj, hp, ha, hcs, hself]
    rw [hstep] at hw' ⊢
    have hzl : (Session.names splits).length = ((List.range splits.length).map (· + ns.length)).length := by
      simp [Session.names]
    refine ⟨_, rfl, ?_, ?_⟩
    · rw [List.map_fst_zip (le_of_eq hzl)]
      rfl
    · intro k name v hk'
      have hkl : k < splits.length := (List.getElem?_eq_some_iff.1 hk').1
      have hname : (Session.names splits)[k]? = some name := by
        simp [Session.names, hk']
      have hcl : k < (Session.mkChildren i { n with state := .active } adj p true (Session.names splits)).length := by
        rw [Session.mkChildren_length]
        simpa [Session.names] using hkl
      obtain ⟨s, hs1, hs2⟩ := Session.mkChildren_get i { n with state := .active } adj p true (Session.names splits) k _
        (List.getElem?_eq_getElem hcl)
      rw [hname] at hs1
      cases hs1
      subst hw'
      refine ⟨k + ns.length,
        { parent := some i, anc := i :: n.anc, state := if true && decide (k = 0) then .active else .waitSibling,
          total := adj, remaining := adj, tables := [(name, p)], pub := n.pub, log := [] }, ?_, ?_, ?_, ?_, ?_, ?_⟩
      · rw [List.getElem?_zip_eq_some]
        exact ⟨hname, by simp [hkl]⟩
      · omega
      · dsimp only
        rw [List.getElem?_append_right (by rw [List.length_set]; omega), List.length_set, Nat.add_sub_cancel,
          List.getElem?_eq_getElem hcl, hs2]
      · simp
      · rfl
      · exact partTab_part hre.plain hp name _

end

/-! ## C05 and C06 for the library -/

theorem toErr_budget (e : PyErr) {x : Session.Err} (hx : x.LacksBudget) : toErr e ≠ x := by
  rcases hx with rfl | rfl <;> cases e <;> nofun

/-- Only the accountant complains about insufficient budget. -/
theorem env_budget (ctx : Ctx) : (env ctx).NoBudgetErrors where
  compile := by
    intro ts ps q b x hx h
    have h : compileM ctx ts ps q b = .error x := h
    have hl := hx
    unfold compileM at h
    rcases hx with rfl | rfl
    all_goals
      repeat' split at h
      all_goals first
        | exact toErr_budget _ hl (Except.error.inj h)
        | cases h
  transform := by
    intro ts ps q x hx h
    have h : transform ctx ts ps q = .error x := h
    have hl := hx
    unfold transform at h
    rcases hx with rfl | rfl
    all_goals
      repeat' split at h
      all_goals first
        | exact toErr_budget _ hl (Except.error.inj h)
        | cases h
  partition := by
    intro ts ps s c vs x hx h
    have h : partTab ctx ts ps s c vs = .error x := h
    unfold partTab at h
    rcases hx with rfl | rfl
    all_goals
      split at h
      · split at h <;> cases h
      split at h
      next e hc =>
        cases h
        unfold cutOf at hc
        repeat' split at hc
        all_goals cases hc
      repeat' split at h
      all_goals cases h
  coerce := by
    intro d x hx h
    dsimp only [env] at h
    split at h
    · cases h
    · exact toErr_budget _ hx (Except.error.inj h)

section
variable {ctx : Ctx}

/-- **C06** for the library: whatever the query, `evaluate` with what `remaining_privacy_budget` reports is not refused
for lack of budget. -/
theorem C06_library (hl : ctx.rounding.Lawful) (w : World Meas Tab PubFrame) (i : Nat) (n : Session.Node Meas Tab)
    (q : Request) (hn : w.nodes[i]? = some n) (x : Session.Err) (hx : x.LacksBudget) :
    (Session.step (env ctx) w (.evaluate i q n.remaining)).1 ≠ .error x :=
  Session.C06_spend_all hl (env_budget ctx) w i n q hn x hx

/-- **C05** for the library. -/
theorem C05_library (hl : ctx.rounding.Lawful) {b : PB} (hb : b.Valid) (hinf : b.isInfinite = true)
    (tables : List (String × Tab)) (ops : List (Op Request PubFrame Value)) (hops : ∀ op ∈ ops, op.BudgetValid)
    (op : Op Request PubFrame Value) (ht : op.target = 0) (x : Session.Err) (hx : x.LacksBudget) :
    (Session.step (env ctx) (Session.run (env ctx) (Session.init b tables) ops) op).1 ≠ .error x :=
  (Session.C05_infinite hl (env_budget ctx) hb hinf tables ops hops).2 op ht x hx

end

end Verif.Whole
