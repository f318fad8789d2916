import Verif.Whole.Props
import Verif.Meaning.Props

/-!
# C58: a session computes on the data it was given

C55 and C56 say that a session is private. Here is what it computes with: its tables are those given to the builder, a view
is what its query describes, the sessions of a partition have the rows with their value, and what core aggregates is the
result of the query.
-/

namespace Verif.Whole

open Verif Verif.Schema Verif.Constraint Verif.Expr Verif.Query Verif.Stability
open Verif.Budget (XNum PB Rounding)
open Verif.Meaning (Means NoLeftIDs Faithful)
open scoped NNReal

/-! ## Specification -/

/-- A table of a new session, for a table and a protected change given to the builder. -/
structure StartsAs (m : Measure) (df : Frame) (ch : Relation.Change) (t : Tab) (D : Data) : Prop where
  rows : t.run D = df.rows.map (fun r => List.zip (df.fields.map Field.name) r)
  cons : t.cons = []
  change : match ch with
    | .maxRows n => t.metric = .symDiff ∧ t.space = none ∧ t.dist = n.toNat
    | .maxRowsInMaxGroups c g r => t.metric = .grouped c ∧ t.space = none ∧
        t.dist = if m = .zCDP then r.toNat * NNReal.sqrt g.toNat else r.toNat * g.toNat
    | .rowsWithID c s => t.metric = .ids c ∧ t.space = some s ∧ t.dist = 1
    | .other => False

/-- What is known about the constraints of a table is true. -/
def Known (t : Tab) (D : Data) : Prop :=
  ∀ i, t.metric = .ids i → ∀ c ∈ t.cons, Sat i c (t.run D) ∧ ∀ g, consCol c = some g → g ∈ Dict.keys t.dom

/-! ## New sessions -/

section
variable {cast : SparkType → Value → Value} {sources : Relation.Sources} {m : Measure} {out : Relation.Output}

theorem starts_as (hst : Relation.Stored cast sources) (h : Relation.initCore cast (coreMeasure m) sources = .ok out)
    {n : String} {df : Frame} {ch : Relation.Change} {s : Relation.TableSchema} {t : Tab} (hm : (n, df, ch) ∈ sources)
    (hf : StartFacts m sources out n df ch s) (ht : startTab out n = some t) : StartsAs m df ch t (startData out) := by
  have hok := (Relation.initCore_ok hst _ h).1
  rw [hf.tab] at ht
  cases ht
  refine ⟨hf.data, rfl, ?_⟩
  cases ch with
  | maxRows n => exact ⟨rfl, rfl, rfl⟩
  | maxRowsInMaxGroups c g r => exact ⟨rfl, rfl, rfl⟩
  | rowsWithID c s => exact ⟨rfl, rfl, rfl⟩
  | other => exact absurd hm (hok.known n df)

/-- **C58**: the private tables of a new session are those given to the builder, each under its name, with its rows and
its protected change. -/
theorem C58_start (hst : Relation.Stored cast sources) (h : Relation.initCore cast (coreMeasure m) sources = .ok out) :
    (∀ n t, Dict.get (startTables out) n = some t →
      ∃ df ch, (n, df, ch) ∈ sources ∧ StartsAs m df ch t (startData out)) ∧
    ∀ n df ch, (n, df, ch) ∈ sources →
      ∃ t, Dict.get (startTables out) n = some t ∧ StartsAs m df ch t (startData out) := by
  constructor
  · intro n t hg
    obtain ⟨df, ch, s, h1, h2, h3⟩ := start_mem hst h (Dict.mem_of_get hg)
    exact ⟨df, ch, h1, starts_as hst h h1 h2 h3⟩
  · intro n df ch hm
    obtain ⟨s, hf⟩ := start_facts hst h hm
    have hk : n ∈ Dict.keys (startTables out) := by
      obtain ⟨names, hn, hmem⟩ := Relation.privateSources_ok hst h
      unfold startTables
      rw [hn]
      rw [Dict.mem_keys]
      refine ⟨⟨s, changeMetric ch, changeSpace ch, [], changeDist m ch, fun D => D n⟩,
        List.mem_filterMap.2 ⟨n, (hmem n).2 (Dict.mem_keys.2 ⟨_, hm⟩), ?_⟩⟩
      rw [hf.tab]
      rfl
    obtain ⟨t, hg⟩ := Option.isSome_iff_exists.1 (Dict.get_isSome.2 hk)
    obtain ⟨_, _, _, _, _, h3⟩ := start_mem hst h (Dict.mem_of_get hg)
    exact ⟨t, hg, starts_as hst h hm hf h3⟩

end

/-! ## Views -/

theorem known_cat {ctx : Ctx} {tables : List (String × Tab)} {R : Root} {cat : Cat} (hc : CatFacts ctx.m tables R cat)
    {D : Data} (hk : ∀ p ∈ tables, Known p.2 D) : cat.ConsOK (resolve tables D) := by
  intro n s cs i hg hi c hcs
  obtain ⟨t, h1, h2, h3, rfl⟩ := hc.get n s cs hg
  have hmi : t.metric = .ids i := by
    have := h3.idColumn
    rw [hi] at this
    revert this
    generalize t.metric = k
    cases k <;> simp [idOf]
    exact fun h => h.symm
  obtain ⟨k1, k2⟩ := hk _ (Dict.mem_of_get h1) i hmi c hcs
  simp only [resolve, h1]
  refine ⟨k1, fun g hg => ?_⟩
  have := k2 g hg
  rw [← h3.dom, analytics_dom h3.wf] at this
  unfold Dict.keys at this
  rwa [keys_mapVal] at this

/-- **C58** (partial). A view contains what its query describes, of the rows the tables of the session have; and if what
is known about the constraints of the tables is true, so it is for the view.

Partial: renames that give two columns one name (`Admissible`, see `C19_fails`) are excluded, and left joins of tables with
IDs with public tables are inner joins (see `C57_left_fails`); for the constraints also what `ConsSafe` excludes (see `C16_fails_join`,
`C16_fails_replace`). -/
theorem C58_view_partial {ctx : Ctx} {tables : List (String × Tab)} {pub : List (String × PubFrame)} {R : Root} {e : Expr}
    {ok : Admissible e} {t : Tab} (h : transform ctx tables pub (.table e ok) = .ok t)
    (ht : ∀ p ∈ tables, TabOK ctx.m p.2 R) {D : Data} (hD : Conf R D) :
    ∃ cat, catalog tables pub = .ok cat ∧
      Faithful cat (resolve tables D) e (t.run D) ∧
      ((∀ p ∈ tables, Known p.2 D) → e.ConsSafe ctx.h cat → Known t D) := by
  dsimp only [transform] at h
  split at h
  · cases h
  next cat hc =>
  split at h
  · cases h
  next s o hb =>
  cases h
  have cf := cat_facts hc ht
  refine ⟨cat, hc, ?_, fun hk hsafe => ?_⟩
  · exact Meaning.faithful_of_build cf.ok (cf.data D hD) e ok.wf ok.fns ok.renames hb
  · intro i hi c hcs
    obtain ⟨hs, ho, _⟩ := build_ok hb
    exact cons_hold cf.ok cf.ids (cf.data D hD) (known_cat cf hk) e ok.wf ok.fns ok.renames hsafe hs ho hi c hcs

/-! ## Partitions -/

theorem groupsOn_mem {col : String} {g : Nat} : ∀ {cs : List Constraint}, groupsOn col cs = some g →
    .maxGroupsPerID col g ∈ cs
  | [], h => by cases h
  | c :: cs, h => by
    cases c with
    | maxGroupsPerID k n =>
      dsimp only [groupsOn] at h
      split at h
      · next hk => cases h; exact hk ▸ List.mem_cons_self
      · exact List.mem_cons_of_mem _ (groupsOn_mem h)
    | maxRowsPerID n => exact List.mem_cons_of_mem _ (groupsOn_mem (cs := cs) h)
    | maxRowsPerGroupPerID k n => exact List.mem_cons_of_mem _ (groupsOn_mem (cs := cs) h)

/-- What is enforced before a partition is known about the table. -/
theorem cutRows_known {t : Tab} {h : Hash} {col : String} {cut : Cut} {D : Data} (hc : cutOf t col = .ok cut)
    (hk : Known t D) : (cutRows h col cut (t.run D)).Perm (t.run D) := by
  unfold cutOf at hc
  split at hc
  · next i hi =>
    split at hc
    · next g hg =>
      cases hc
      exact (C15_enforce h i _ _).2.2.2.1 (hk i hi _ (groupsOn_mem hg)).1
    · split at hc
      · next r hr =>
        cases hc
        exact (C15_enforce h i _ _).2.2.2.1 (hk i hi _ (firstRows_mem hr)).1
      · cases hc
  · cases hc
    exact List.Perm.refl _

/-- **C58**: the `k`-th session of a partition has one private table: the rows of the table that is split, as the session
knew them, with the `k`-th value; other rows are in none of the sessions. If what is known about the constraints of the
table is true, no row with the value is missing; and what is known about the constraints of the new table is true. -/
theorem C58_part {ctx : Ctx} {tables : List (String × Tab)} {pub : List (String × PubFrame)} {src col : String}
    {vals : List Value} {t : Tab} (h : partTab ctx tables pub src col vals = .ok t) {x : Root × Data}
    (ht : ∀ p ∈ tables, TabOK ctx.m p.2 x.1) :
    ∃ t0, Dict.get tables src = some t0 ∧ t.dom = t0.dom ∧ ∀ k v, vals[k]? = some v →
      (t.run (partData ctx tables x src col vals k).2).Subperm
        ((t0.run x.2).filter (fun r => decide (cell r col = v))) ∧
      (Known t0 x.2 → (t.run (partData ctx tables x src col vals k).2).Perm
        ((t0.run x.2).filter (fun r => decide (cell r col = v)))) ∧
      Known t (partData ctx tables x src col vals k).2 := by
  obtain ⟨t0, cut, hp⟩ := partTab_ok h
  have tok := ht _ (Dict.mem_of_get hp.get)
  obtain ⟨s, hs, _⟩ := part_schema hp tok
  refine ⟨t0, hp.get, by rw [hp.tab], fun k v hv => ?_⟩
  have hrun : t.run (partData ctx tables x src col vals k).2 =
      (cutRows ctx.h col cut (t0.run x.2)).filter (fun r => decide (cell r col = v)) := by
    rw [partData_eq hp hs, hp.tab]
    simp only [if_true, partRows, hv, Option.some.injEq]
  refine ⟨?_, fun hk => ?_, ?_⟩
  · rw [hrun]
    exact (cutRows_subperm ctx.h col cut _).filter _
  · rw [hrun]
    exact (cutRows_known hp.cutOK hk).filter _
  · intro i hi c hc
    rw [hp.tab] at hc
    cases hc

/-! ## Queries -/

theorem choose_mem {m : Measure} {grouping : List String} {l : List Truncation} {tr : Truncation}
    (h : chooseTruncation m grouping l = some tr) : tr ∈ l := by
  cases l with
  | nil => cases h
  | cons x xs =>
    cases h
    have : ∀ (ys : List Truncation) (b : Truncation), ys.foldl (fun best y =>
        if Constraint.stabilitySq m grouping y < Constraint.stabilitySq m grouping best then y else best) b ∈ b :: ys := by
      intro ys
      induction ys with
      | nil => intro b; exact List.mem_singleton_self _
      | cons y ys ih =>
        intro b
        rw [List.foldl_cons]
        split
        · exact List.mem_cons_of_mem _ (ih y)
        · rcases List.mem_cons.1 (ih b) with h | h
          · rw [h]; exact List.mem_cons_self
          · exact List.mem_cons_of_mem _ (List.mem_cons_of_mem _ h)
    exact this xs x

theorem truncatable_available {order : List String → List String} {cs : List Constraint} {tr : Truncation}
    (h : tr ∈ truncatable order cs) : Available cs tr := by
  unfold truncatable at h
  rcases List.mem_append.1 h with h | h
  · obtain ⟨col, _, h⟩ := List.mem_filterMap.1 h
    split at h
    · next g r hg hr =>
      cases h
      have h1 := (lastGroups_aux col cs none).1 g hg
      have h2 := (lastRpg_aux col cs none).1 r hr
      simp only [reduceCtorEq, false_or] at h1 h2
      exact ⟨h1, h2⟩
    · cases h
  · split at h
    · next n hn =>
      rw [List.mem_singleton] at h
      rw [h]
      exact firstRows_mem hn
    · cases h

theorem truncate_known {h : Hash} {order : List String → List String} {m : Measure} {o : Out} {grouping : List String}
    {c : Option String} {tr : Option Truncation} {f : Data → Table} (ht : truncateOut h order m o grouping = .ok (c, tr, f)) (D : Data) :
    (f D).Subperm (o.run D) ∧ ((∀ i, o.metric = .ids i → ∀ c ∈ o.cons, Sat i c (o.run D)) → (f D).Perm (o.run D)) := by
  unfold truncateOut at ht
  split at ht
  · next i hi =>
    split at ht
    · cases ht
    next tr hc =>
    cases ht
    refine ⟨applyTruncation_subperm _ _ _ _, fun hk => ?_⟩
    have av := truncatable_available (choose_mem hc)
    cases tr with
    | rows n => exact (C15_enforce h i _ _).2.2.2.1 (hk i hi _ av)
    | groups col g r =>
      have h1 := (C15_enforce h i (.maxGroupsPerID col g) (o.run D)).2.2.2.1 (hk i hi _ av.1)
      have h2 := (C15_enforce h i (.maxGroupsPerID col g) (o.run D)).2.2.1 _ (hk i hi _ av.2)
      exact ((C15_enforce h i _ _).2.2.2.1 h2).trans h1
  · cases ht
    exact ⟨List.Subperm.refl _, fun _ => List.Perm.refl _⟩

theorem query_run {ctx : Ctx} {tables : List (String × Tab)} {pub : List (String × PubFrame)} {R : Root} {q : Query}
    {ok : Admissible (child q)} {a : Agg} (hq : q.agg? = some a) (hk : ∀ cols k, a.kind ≠ .countDistinct cols k) {b : PB}
    {m : Meas} (h : compileM ctx tables pub (.query q ok) b = .ok m) (ht : ∀ p ∈ tables, TabOK ctx.m p.2 R) {D : Data}
    (hD : Conf R D) :
    ∃ cat o, catalog tables pub = .ok cat ∧ compile ctx.h cat a.child = .ok o ∧
      Faithful cat (resolve tables D) a.child (o.run (resolve tables D)) ∧
      (m.run D).Subperm ((o.run (resolve tables D)).filterMap
        (fun r => a.kind.measure.elim (some r) (fun c => cleanRow a.kind.clamp c r))) ∧
      ((∀ p ∈ tables, Known p.2 D) → a.child.ConsSafe ctx.h cat → (m.run D).Perm ((o.run (resolve tables D)).filterMap
        (fun r => a.kind.measure.elim (some r) (fun c => cleanRow a.kind.clamp c r)))) ∧
      m.call.keys = a.keys ∧ m.call.task = match a.kind with
        | .count _ => .count a.out
        | .countDistinct _ _ => .countDistinct a.out
        | .quantile c x low high => .quantile c x low high a.out
        | .bounded st c low high _ => .bounded st c low high a.out
        | .bounds c l u => .bounds c l u := by
  have hch : child q = a.child := by cases q <;> cases hq <;> rfl
  obtain ⟨wf, fns, ren, _, _⟩ := hch ▸ ok
  dsimp only [compileM] at h
  split at h
  · cases h
  split at h
  · cases h
  next cat hc =>
  split at h
  · cases h
  next p hp =>
  split at h
  · cases h
  split at h
  · cases h
  cases h
  have cf := cat_facts hc ht
  have hdata := cf.data D hD
  obtain ⟨a₁, a₂, p₁, _, hrw, hfin, hcomp, hpp⟩ := compileQuery_ok hq hp
  obtain ⟨a₀, c₀, h1, _, rfl, hkeys, hkind, hout⟩ := rewriteAgg_ok hrw
  have e1 : p.keys = p₁.keys ∧ p.task = p₁.task ∧ p.prep = p₁.prep ∧ p.child = p₁.child := by
    rcases hpp with ⟨_, rfl⟩ | ⟨_, _, _, _, _, rfl⟩ <;> exact ⟨rfl, rfl, rfl, rfl⟩
  cases hfin with
  | shortcut hs _ _ _ _ => exact absurd (hkind.symm.trans hs) (hk _ _)
  | same =>
    have hkt : p.keys = a.keys ∧ p.task = match a.kind with
        | .count _ => .count a.out
        | .countDistinct _ _ => .countDistinct a.out
        | .quantile c x low high => .quantile c x low high a.out
        | .bounded st c low high _ => .bounded st c low high a.out
        | .bounds c l u => .bounds c l u := by
      refine ⟨e1.1.trans (hcomp.keys.trans hkeys), e1.2.1.trans (hcomp.task.trans ?_)⟩
      replace hkind : a₀.kind = a.kind := hkind
      replace hout : a₀.out = a.out := hout
      rw [← hkind, ← hout]
      dsimp only
      cases a₀.kind <;> rfl
    cases hm : a.kind.measure with
    | none =>
      obtain ⟨o, col, tr, f, hv, htr, _, hf⟩ := hcomp.prep
      rcases specialValues_child h1 with ⟨_, rfl⟩ | ⟨_, _, _, hn, _⟩
      swap
      · rw [hm] at hn; cases hn
      obtain ⟨s, hb⟩ := visitChild_build hv
      replace hb : build ctx.h cat a₀.child = .ok (s, o) := hb
      have hpf : p.prep = f := by
        rcases hf with ⟨hf, _⟩ | ⟨_, _, _, hx, _⟩
        · exact e1.2.2.1.trans hf
        · exact absurd hx (hk _ _)
      obtain ⟨t1, t2⟩ := truncate_known htr (resolve tables D)
      simp only [Option.elim_none, List.filterMap_some]
      refine ⟨cat, o, hc, (build_ok hb).2.1, ?_, ?_, fun hkn hsafe => ?_, hkt⟩
      · exact Meaning.faithful_of_build cf.ok hdata _ wf fns ren hb
      · rw [hpf]; exact t1
      · rw [hpf]
        refine t2 fun i hi c hcs => ?_
        obtain ⟨hs, ho, _⟩ := build_ok hb
        exact (cons_hold cf.ok cf.ids hdata (known_cat cf hkn) _ wf fns ren hsafe hs ho hi c hcs).1
    | some c =>
      obtain ⟨o, o2, d, s2, col, tr, hc0, hpc, hb, _, htr, main⟩ := prep_run cf.ok hq hm wf fns ren hp
      obtain ⟨hs2, hc2, _⟩ := build_ok hb
      obtain ⟨t1, t2⟩ := truncate_known htr (resolve tables D)
      obtain ⟨m1, _⟩ := main _ hdata
      simp only [Option.elim_some]
      refine ⟨cat, o, hc, hc0, ?_, ?_, fun hkn hsafe => ?_, hkt⟩
      · have : ∃ s, schemaOf cat a.child = .ok s := by
          rcases specialValues_child h1 with ⟨hn, _⟩ | ⟨_, s, _, _, hs, _⟩
          · rw [hm] at hn; cases hn
          · exact ⟨s, hs⟩
        obtain ⟨s, hs⟩ := this
        exact Meaning.faithful cf.ok hdata _ wf fns ren hs hc0
      · exact m1 ▸ t1
      · rw [← m1]
        refine t2 fun i hi c' hcs => ?_
        obtain ⟨we, fe, re⟩ := steps_ok (b := a.kind.clamp) (d := d) (c := c) wf fns ren
        rw [hpc] at hs2 hc2
        have hsafe2 : (infStep a.kind.clamp d c (nullStep d c a.child)).ConsSafe ctx.h cat := by
          have : (nullStep d c a.child).ConsSafe ctx.h cat := by
            unfold nullStep
            split
            · exact hsafe
            · exact hsafe
          unfold infStep
          split
          · split
            · exact ⟨this, fun hw => absurd hw (by simp)⟩
            · exact this
          · exact this
        exact (cons_hold cf.ok cf.ids hdata (known_cat cf hkn) _ we fe re hsafe2 hs2 hc2 hi c' hcs).1

/-- **C58** (partial). What core aggregates is the result of the query, of the rows the tables of the session have: for a
count all its rows, for other aggregations those that are left when special values of the aggregated column are treated as
C29 says. Rows are only left out by truncation, and if what is known about the constraints of the tables is true, none is.
(For `count_distinct` see C49.)

Partial: as `C58_view_partial`. -/
theorem C58_query_partial {ctx : Ctx} {tables : List (String × Tab)} {pub : List (String × PubFrame)} {R : Root} {q : Query}
    {ok : Admissible (child q)} {a : Agg} (hq : q.agg? = some a) (hk : ∀ cols k, a.kind ≠ .countDistinct cols k) {b : PB}
    {m : Meas} (h : compileM ctx tables pub (.query q ok) b = .ok m) (ht : ∀ p ∈ tables, TabOK ctx.m p.2 R) {D : Data}
    (hD : Conf R D) :
    ∃ cat T, catalog tables pub = .ok cat ∧
      Faithful cat (resolve tables D) a.child T ∧
      (m.run D).Subperm (T.filterMap (fun r => a.kind.measure.elim (some r) (fun c => cleanRow a.kind.clamp c r))) ∧
      ((∀ p ∈ tables, Known p.2 D) → a.child.ConsSafe ctx.h cat →
        (m.run D).Perm (T.filterMap (fun r => a.kind.measure.elim (some r) (fun c => cleanRow a.kind.clamp c r)))) ∧
      m.call.keys = a.keys ∧ m.call.task = match a.kind with
        | .count _ => .count a.out
        | .countDistinct _ _ => .countDistinct a.out
        | .quantile c x low high => .quantile c x low high a.out
        | .bounded st c low high _ => .bounded st c low high a.out
        | .bounds c l u => .bounds c l u := by
  obtain ⟨cat, o, h1, _, h2⟩ := query_run hq hk h ht hD
  exact ⟨cat, _, h1, h2⟩

end Verif.Whole
