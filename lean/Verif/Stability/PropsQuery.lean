import Verif.Stability.Ids
import Verif.Stability.PropsRows
import Verif.Query.PropsSpecial

/-!
# C54: what reaches the noise
-/

namespace Verif.Stability

open Verif Verif.Schema Verif.Constraint Verif.Expr Verif.Query Verif.Budget

/-! ## Steps added by the compiler -/

/-- `e'` is `e` with steps that only drop or change single rows, or truncate. -/
inductive Extends (e : Expr) : Expr → Prop
  | refl : Extends e e
  | dropNull {e' : Expr} {cols : List String} : Extends e e' → Extends e (.dropNull e' cols)
  | dropInf {e' : Expr} {cols : List String} : Extends e e' → Extends e (.dropInf e' cols)
  | replaceInf {e' : Expr} {w : Dict String (Value × Value)} : Dict.WF w → Extends e e' → Extends e (.replaceInf e' w)
  | enforce {e' : Expr} {k : Constraint} : Extends e e' → Extends e (.enforce e' k)

theorem extends_steps (b : Option (Value × Value)) (d : Desc) (c : String) (e : Expr) :
    Extends e (infStep b d c (nullStep d c e)) := by
  have h1 : Extends e (nullStep d c e) := by
    unfold nullStep
    split
    · exact .dropNull .refl
    · exact .refl
  unfold infStep
  split
  · split
    · exact .replaceInf (by simp [Dict.WF]) h1
    · exact .dropInf h1
  · exact h1

theorem Extends.keeps {e e' : Expr} (h : Extends e e') :
    e'.sources = e.sources ∧ (e.WF → e'.WF) ∧ (e.FnsOK → e'.FnsOK) ∧ (e.RenamesDistinct → e'.RenamesDistinct) ∧
      (OrderFree e → OrderFree e') ∧ (∀ h cat d, stability h cat d e' = stability h cat d e) ∧
      (∀ h cat d d2, stabilitySq h cat d d2 e' = stabilitySq h cat d d2 e) := by
  induction h with
  | refl => exact ⟨rfl, id, id, id, id, fun _ _ _ => rfl, fun _ _ _ _ => rfl⟩
  | dropNull _ ih => exact ih
  | dropInf _ ih => exact ih
  | replaceInf w _ ih => exact ⟨ih.1, fun he => ⟨ih.2.1 he, w⟩, ih.2.2⟩
  | enforce _ ih => exact ih

theorem Extends.metric {h : Hash} {cat : Cat} {e e' : Expr} (hx : Extends e e') {o' : Out}
    (ho : compile h cat e' = .ok o') : ∃ o, compile h cat e = .ok o ∧ o.metric = o'.metric := by
  induction hx generalizing o' with
  | refl => exact ⟨o', ho, rfl⟩
  | dropNull _ ih =>
    obtain ⟨o1, ho1, ho⟩ := bind_ok ho
    obtain ⟨o, h1, h2⟩ := ih ho1
    obtain ⟨_, _, rfl⟩ := visitDropNull_ok ho
    exact ⟨o, h1, h2⟩
  | dropInf _ ih =>
    obtain ⟨o1, ho1, ho⟩ := bind_ok ho
    obtain ⟨o, h1, h2⟩ := ih ho1
    obtain ⟨_, rfl⟩ := visitDropInf_ok ho
    exact ⟨o, h1, h2⟩
  | replaceInf _ _ ih =>
    obtain ⟨o1, ho1, ho⟩ := bind_ok ho
    obtain ⟨o, h1, h2⟩ := ih ho1
    obtain ⟨_, rfl⟩ := visitReplaceInf_ok ho
    exact ⟨o, h1, h2⟩
  | enforce _ ih =>
    obtain ⟨o1, ho1, ho⟩ := bind_ok ho
    obtain ⟨o, h1, h2⟩ := ih ho1
    obtain ⟨i, hi, _, rfl⟩ := visitEnforce_ok ho
    exact ⟨o, h1, h2⟩

/-- The private part of a query, and the columns it groups by when it is truncated. -/
def child : Query → Expr
  | .agg a => a.child
  | .groups e _ => e
  | .suppress a _ _ => a.child

def groupCols : Query → List String
  | .agg a => a.keys.columns
  | .groups _ _ => []
  | .suppress a _ _ => a.keys.columns

/-- What reaches key selection and aggregation: a truncated table, possibly with columns selected. -/
theorem prep_ok {env : Env} {b : PB} {q : Query} {p : Plan} (h : compileQuery env b q = .ok p) :
    ∃ e s o col f, p.child = e ∧ Extends (child q) e ∧ build env.h env.cat e = .ok (s, o) ∧
      truncateOut env.h env.order env.m o (groupCols q) = .ok (col, p.trunc, f) ∧
      (p.prep = f ∨ ∃ cols : List String, (∀ c ∈ groupCols q, c ∈ cols) ∧ (∀ c ∈ cols, c ∈ Dict.keys o.dom) ∧
        p.prep = fun D => (f D).map (fun r => cols.map (fun x => (x, cell r x)))) := by
  have main : ∀ a, q.agg? = some a → child q = a.child → groupCols q = a.keys.columns →
      ∃ e s o col f, p.child = e ∧ Extends (child q) e ∧ build env.h env.cat e = .ok (s, o) ∧
      truncateOut env.h env.order env.m o (groupCols q) = .ok (col, p.trunc, f) ∧
      (p.prep = f ∨ ∃ cols : List String, (∀ c ∈ groupCols q, c ∈ cols) ∧ (∀ c ∈ cols, c ∈ Dict.keys o.dom) ∧
        p.prep = fun D => (f D).map (fun r => cols.map (fun x => (x, cell r x)))) := by
    intro a hq hch hgc
    rw [hch, hgc]
    obtain ⟨a₁, a₂, p₁, _, hrw, hfin, hcomp, hp⟩ := compileQuery_ok hq h
    obtain ⟨a₀, c₀, h1, _, rfl, hkeys, hkind, _⟩ := rewriteAgg_ok hrw
    have hx0 : Extends a.child a₀.child := by
      rcases specialValues_child h1 with ⟨_, rfl⟩ | ⟨c', s, d, _, _, _, rfl⟩
      · exact .refl
      · exact extends_steps _ _ _ _
    have hx : Extends a.child a₂.child := by
      cases hfin with
      | same => exact hx0
      | shortcut => exact .enforce hx0
    obtain ⟨k1, _⟩ := hfin.keys
    obtain ⟨o, col, tr, f, hv, ht, htr, hpf⟩ := hcomp.prep
    obtain ⟨s, hb⟩ := visitChild_build hv
    have hk : a₂.keys = a.keys := by rw [k1]; exact hkeys
    rw [hk] at ht hpf
    have hpp : p.prep = p₁.prep ∧ p.child = p₁.child ∧ p.trunc = p₁.trunc := by
      rcases hp with ⟨_, rfl⟩ | ⟨_, _, _, _, _, rfl⟩ <;> exact ⟨rfl, rfl, rfl⟩
    obtain ⟨hpp, hpc, hpt⟩ := hpp
    refine ⟨a₂.child, s, o, col, f, hpc.trans hcomp.child, hx, hb, by rw [hpt, htr]; exact ht, ?_⟩
    rw [hpp]
    rcases hpf with ⟨hpf, _⟩ | ⟨t, m, cols, _, _, hall, rfl, hpf⟩
    · exact Or.inl hpf
    · refine Or.inr ⟨_, ?_, ?_, hpf⟩
      · intro c hc
        exact List.mem_filter.2 ⟨hall c (List.mem_append_right _ hc), by simpa using Or.inr hc⟩
      · exact fun c hc => (List.mem_filter.1 hc).1
  cases q with
  | agg a => exact main a rfl rfl rfl
  | suppress a col t => exact main a rfl rfl rfl
  | groups e cols =>
    unfold compileQuery at h
    split at h
    · cases h
    · simp only [rewrite, visit, visitGroups] at h
      split at h
      · split at h
        · cases h
        · next s hs =>
          generalize (if cols ≠ [] then cols else (Schema.keys s).filter (fun c => decide (s.idColumn ≠ some c))) = columns at h
          split at h
          · cases h
          · split at h
            · cases h
            · next o hv =>
              split at h
              · cases h
              · next col tr f ht =>
                split at h
                · cases h
                · next hall =>
                  cases h
                  obtain ⟨s', hb⟩ := visitChild_build hv
                  refine ⟨e, s', o, col, f, rfl, .refl, hb, ht, Or.inr ⟨_, by simp [groupCols], ?_, rfl⟩⟩
                  intro c hc
                  by_contra hn
                  exact hall (List.any_eq_true.2 ⟨c, hc, by simpa using hn⟩)
      · cases h

/-! ## C54 -/

section
variable {env : Env} {D D' : Data}

/-- **C54**, tables without IDs. Whatever the query does before it, the table that reaches key selection and
aggregation changes by no more rows than the stability that core computes for the transformations written in the query.
The steps the library adds (special values, columns of `count_distinct` and `get_groups`) add nothing. -/
theorem C54_query_rows (hl : env.h.Lawful) {b : PB} {q : Query} {p : Plan} (h : compileQuery env b q = .ok p) {o : Out}
    (ho : compile env.h env.cat (child q) = .ok o) (hm : ∀ i, o.metric ≠ .ids i) {d : String → ℕ}
    (hd : ∀ id ∈ (child q).sources, rowDist (D id) (D' id) ≤ d id) :
    rowDist (p.prep D) (p.prep D') ≤ stability env.h env.cat d (child q) := by
  obtain ⟨e, s, o', col, f, _, hx, hb, ht, hp⟩ := prep_ok h
  obtain ⟨_, ho', _⟩ := build_ok hb
  generalize p.trunc = tr0 at ht
  obtain ⟨k1, _, _, _, _, k2, _⟩ := hx.keeps
  obtain ⟨o0, h0, hm0⟩ := hx.metric ho'
  rw [ho] at h0
  cases h0
  rw [hm0] at hm
  have hf : f = o'.run := by
    unfold truncateOut at ht
    split at ht
    · next i hi => exact absurd hi (hm i)
    · cases ht; rfl
  subst hf
  rw [← k1] at hd
  have main := rows_stable hl e hd ho' hm
  rw [k2] at main
  rcases hp with hp | ⟨cols, _, _, hp⟩
  · rw [hp]; exact main
  · rw [hp]; exact (rowDist_map _ _ _).trans main

/-- Selecting columns that include the grouping columns does not change the groups. -/
theorem changeSq_select (m : Measure) {grouping cols : List String} (hg : ∀ c ∈ grouping, c ∈ cols) {X : Table}
    (hX : ∀ r ∈ X, ∀ c ∈ cols, Row.get r c = some (cell r c)) :
    changeSq m grouping (X.map (fun r => cols.map (fun x => (x, cell r x)))) = changeSq m grouping X := by
  have key : ∀ r ∈ X, grouping.map (fun c => Row.get (cols.map (fun x => (x, cell r x))) c) =
      grouping.map (fun c => Row.get r c) := by
    intro r hr
    apply List.map_congr_left
    intro c hc
    rw [get_row_select r (hg c hc), hX r hr c (hg c hc)]
  unfold changeSq
  cases m with
  | zCDP =>
    simp only
    rw [List.map_map]
    have e1 : (X.map ((fun r => grouping.map (fun c => Row.get r c)) ∘ (fun r => cols.map (fun x => (x, cell r x))))) =
        X.map (fun r => grouping.map (fun c => Row.get r c)) := List.map_congr_left key
    rw [e1]
    apply Finset.sum_congr rfl
    intro k _
    rw [filter_map_mem (fun r => decide (grouping.map (fun c => Row.get r c) = k)), List.length_map]
    intro r hr
    exact decide_eq_decide.2 (by rw [key r hr])
  | pureDP => simp
  | approxDP => simp

/-- **C54**, tables with IDs. When the databases only differ in the rows of one ID, in any number of tables and by any
number of rows, the tables that reach key selection and aggregation differ only by boundedly many rows, as the constraints
chosen for truncation say.

Partial: renames that give two columns the same new name are excluded (`C19_fails`), and so are floating point IDs. -/
theorem C54_query_ids_partial (hl : env.h.Lawful) (hc : env.cat.OK) (hid : env.cat.IdsNotFloat) (hD : env.cat.DataOK D)
    (hD' : env.cat.DataOK D') {b : PB} {q : Query} {p : Plan} (h : compileQuery env b q = .ok p) (he : (child q).WF)
    (hf : (child q).FnsOK) (hr : (child q).RenamesDistinct) (hof : OrderFree (child q)) {o : Out} {i : String}
    (ho : compile env.h env.cat (child q) = .ok o) (hi : o.metric = .ids i) {v : Option Value}
    (hv : SameIDs env.cat (child q).sources (fun x => decide (x ≠ v)) D D') :
    ∃ e s o' tr C X Y, Extends (child q) e ∧ build env.h env.cat e = .ok (s, o') ∧
      chooseTruncation env.m (groupCols q) (truncatable env.order o'.cons) = some tr ∧
      (p.prep D).Perm (C ++ X) ∧ (p.prep D').Perm (C ++ Y) ∧
      changeSq env.m (groupCols q) X ≤ Verif.Constraint.stabilitySq env.m (groupCols q) tr ∧
      changeSq env.m (groupCols q) Y ≤ Verif.Constraint.stabilitySq env.m (groupCols q) tr := by
  obtain ⟨e, s, o', col, f, _, hx, hb, ht, hp⟩ := prep_ok h
  obtain ⟨hs', ho', _⟩ := build_ok hb
  generalize p.trunc = tr0 at ht
  obtain ⟨k1, we, fe, re, oe, _⟩ := hx.keeps
  obtain ⟨o0, h0, hm0⟩ := hx.metric ho'
  rw [ho] at h0
  cases h0
  rw [hm0] at hi
  unfold truncateOut at ht
  rw [hi] at ht
  simp only at ht
  split at ht
  · cases ht
  · next tr htr =>
    cases ht
    rw [← k1] at hv
    have st := ids_stable hl hc hid hD hD' (we he) (fe hf) (re hr) (oe hof) hs' ho' hi hv
    obtain ⟨C, X, Y, p1, p2, b1, b2, _⟩ := C17_neighbours env.h hl env.m i (groupCols q) tr _ _ v st
    rcases hp with hp | ⟨cols, hg, hsub, hp⟩
    · exact ⟨e, s, o', tr, C, X, Y, hx, hb, htr, by rw [hp]; exact p1, by rw [hp]; exact p2, b1, b2⟩
    · have cf := rows_conform hc hD e (we he) (fe hf) (re hr) hs' ho'
      have cf' := rows_conform hc hD' e (we he) (fe hf) (re hr) hs' ho'
      have sub : ∀ {D : Data} {T : Table}, (∀ r ∈ o'.run D, RowOK o'.dom r) →
          (applyTruncation env.h i tr (o'.run D)).Perm (C ++ T) → ∀ r ∈ T, ∀ c ∈ cols, Row.get r c = some (cell r c) := by
        intro D T cf pT r hrT c hc
        have := (applyTruncation_subperm env.h i tr (o'.run D)).subset (pT.mem_iff.2 (List.mem_append_right _ hrT))
        exact (cf r this).get (hsub c hc)
      refine ⟨e, s, o', tr, C.map (fun r => cols.map (fun x => (x, cell r x))), X.map (fun r => cols.map (fun x => (x, cell r x))),
        Y.map (fun r => cols.map (fun x => (x, cell r x))), hx, hb, htr, ?_, ?_, ?_, ?_⟩
      · rw [hp]
        simp only
        rw [← List.map_append]
        exact p1.map _
      · rw [hp]
        simp only
        rw [← List.map_append]
        exact p2.map _
      · rw [changeSq_select env.m hg (sub cf p1)]
        exact b1
      · rw [changeSq_select env.m hg (sub cf' p2)]
        exact b2

/-- **C54**, IDs before truncation. The rows of every ID that is the same in both databases are the same after the
transformations; an ID without rows gets no rows. So no more IDs change than before. -/
theorem C54_ids_partial {h : Hash} {cat : Cat} (hl : h.Lawful) (hc : cat.OK) (hid : cat.IdsNotFloat) (hD : cat.DataOK D)
    (hD' : cat.DataOK D') {e : Expr} (he : e.WF) (hf : e.FnsOK) (hr : e.RenamesDistinct) (hof : OrderFree e) {s : Schema}
    {o : Out} {i : String} (hb : build h cat e = .ok (s, o)) (hi : s.idColumn = some i) :
    (∀ v, SameIDs cat e.sources (fun x => decide (x = v)) D D' →
      ((o.run D).whereEq i v).Perm ((o.run D').whereEq i v)) ∧
    (∀ v, SameIDs cat e.sources (fun x => decide (x = v)) D (fun _ => []) → (o.run D).whereEq i v = []) := by
  obtain ⟨hs, ho, _, _, hm⟩ := build_ok hb
  have hi' : o.metric = .ids i := by rw [hm, metricOf_ids]; exact hi
  refine ⟨fun v hv => ids_stable hl hc hid hD hD' he hf hr hof hs ho hi' hv, fun v hv => ?_⟩
  unfold Table.whereEq
  rw [run_onlyIDs hc hid hD (fun x => decide (x = v)) e he hf hr hs ho hi']
  apply run_empty e ho
  intro id hid'
  obtain ⟨s', cs, j, hg, hj, _⟩ := sources_ids e ho hi' id hid'
  simp only [onlyIDs, hg, hj]
  exact List.perm_nil.1 (hv id hid' s' cs j hg hj)

end
end Verif.Stability
