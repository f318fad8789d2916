import Verif.Expr.Ids

/-!
# C20: the ID column survives transformations
-/

namespace Verif.Expr

open Verif Verif.Schema Verif.Constraint

/-! ## Specification -/

/-- The private tables a query reads. -/
def Expr.sources : Expr → List String
  | .source id => [id]
  | .rename e _ => e.sources
  | .filter e _ _ => e.sources
  | .select e _ => e.sources
  | .map e _ _ _ => e.sources
  | .flatMap e _ _ _ _ => e.sources
  | .flatMapByID e _ _ => e.sources
  | .joinPrivate l r _ _ _ => l.sources ++ r.sources
  | .joinPublic e _ _ _ => e.sources
  | .replaceNull e _ => e.sources
  | .replaceInf e _ => e.sources
  | .dropNull e _ => e.sources
  | .dropInf e _ => e.sources
  | .enforce e _ => e.sources

/-- The session's data with only the rows of some IDs left in the tables that have an ID column. -/
def onlyIDs (cat : Cat) (q : Option Value → Bool) (D : Data) : Data := fun id =>
  match Dict.get cat.priv id with
  | none => D id
  | some (s, _) =>
    match s.idColumn with
    | none => D id
    | some i => (D id).filter (fun r => q (Row.get r i))

/-! ## Lists -/

theorem filter_flatMap_mem {α β : Type} (q' : α → Bool) (q : β → Bool) (F : α → List β) (ks : List α)
    (hF : ∀ a ∈ ks, ∀ b ∈ F a, q b = q' a) : (ks.flatMap F).filter q = (ks.filter q').flatMap F := by
  induction ks with
  | nil => rfl
  | cons k ks ih =>
    rw [List.flatMap_cons, List.filter_append, ih (fun a ha => hF a (List.mem_cons_of_mem _ ha))]
    have hk' := hF k List.mem_cons_self
    by_cases hk : q' k
    · rw [List.filter_cons_of_pos hk, List.flatMap_cons, List.filter_eq_self.mpr]
      intro b hb
      rw [hk' b hb, hk]
    · rw [List.filter_cons_of_neg hk, List.filter_eq_nil_iff.mpr, List.nil_append]
      intro b hb
      rw [hk' b hb]
      exact hk

theorem filter_map_mem {α β : Type} (q' : α → Bool) (q : β → Bool) (f : α → β) (l : List α)
    (h : ∀ a ∈ l, q (f a) = q' a) : (l.map f).filter q = (l.filter q').map f := by
  rw [List.filter_map]
  congr 1
  exact List.filter_congr h

theorem filter_comm {α : Type} (p q : α → Bool) (l : List α) :
    (l.filter p).filter q = (l.filter q).filter p := by
  rw [List.filter_filter, List.filter_filter]
  apply List.filter_congr
  intro a _
  exact Bool.and_comm _ _

/-! ## Rows -/

/-- Rows of a join of tables with IDs carry the ID of the rows they are made of. -/
theorem innerJoin_filter {lk rk jc : List String} {lt rt : Table} {i : String} (q : Option Value → Bool)
    (hl : ∀ l ∈ lt, ∀ r ∈ rt, matches_ jc l r = true → Row.get (joinRow lk rk jc l r) i = Row.get l i) :
    (innerJoin lk rk jc lt rt).filter (fun r => q (Row.get r i)) =
      innerJoin lk rk jc (lt.filter (fun r => q (Row.get r i))) rt := by
  unfold innerJoin
  apply filter_flatMap_mem
  intro l hl' b hb
  obtain ⟨r, hr, rfl⟩ := List.mem_map.1 hb
  obtain ⟨h1, h2⟩ := List.mem_filter.1 hr
  rw [hl l hl' r h1 h2]

theorem innerJoin_filter_right {lk rk jc : List String} {lt rt : Table} {i : String} (q : Option Value → Bool)
    (hq : ∀ l ∈ lt, q (Row.get l i) = true)
    (hm : ∀ l ∈ lt, ∀ r ∈ rt, matches_ jc l r = true → Row.get l i = Row.get r i) :
    innerJoin lk rk jc lt (rt.filter (fun r => q (Row.get r i))) = innerJoin lk rk jc lt rt := by
  unfold innerJoin
  apply List.flatMap_congr
  intro l hl
  rw [List.filter_filter]
  congr 1
  apply List.filter_congr
  intro r hr
  by_cases h : matches_ jc l r = true
  · rw [h, ← hm l hl r hr h, hq l hl]; rfl
  · simp [h]

theorem get_cons_self (i : String) (v : Value) (x : Row) : Row.get ((i, v) :: x) i = some v := by
  show Dict.get ((i, v) :: x) i = some v
  rw [Dict.get_cons, if_pos rfl]

section
variable {h : Hash} {cat : Cat} {D : Data}

/-- The output for some IDs is the output on the data of those IDs. -/
theorem run_onlyIDs (hc : cat.OK) (hid : cat.IdsNotFloat) (hD : cat.DataOK D) (q : Option Value → Bool)
    (e : Expr) (he : e.WF) (hf : e.FnsOK) (hr : e.RenamesDistinct) {s : Schema} {o : Out}
    (hs : schemaOf cat e = .ok s) (ho : compile h cat e = .ok o) {i : String} (hi : o.metric = .ids i) :
    (o.run D).filter (fun r => q (Row.get r i)) = o.run (onlyIDs cat q D) := by
  have conf := fun {e : Expr} (he : e.WF) (hf : e.FnsOK) (hr : e.RenamesDistinct) {s : Schema} {o : Out}
    (hs : schemaOf cat e = .ok s) (ho : compile h cat e = .ok o) => rows_conform hc hD e he hf hr hs ho
  have idt := fun {e : Expr} (he : e.WF) (hr : e.RenamesDistinct) {s : Schema} {o : Out}
    (hs : schemaOf cat e = .ok s) (ho : compile h cat e = .ok o) => id_typed hc hid e he hr hs ho
  induction e generalizing s o i with
  | source id =>
    simp only [compile, visitSource] at ho
    split at ho
    · cases ho
    next s' cs hg =>
    cases ho
    have hi' : s'.idColumn = some i := (metricOf_ids s' i).1 hi
    simp only [onlyIDs, hg, hi']
  | rename e m ih =>
    obtain ⟨s', hs', hs⟩ := bind_ok hs
    obtain ⟨o', ho', ho⟩ := bind_ok ho
    have cf := conf he.1 hf hr.1 hs' ho'
    have it := idt he.1 hr.1 hs' ho'
    obtain ⟨_, h2, rfl⟩ := visitRename_ok ho
    obtain ⟨j, hj, rfl⟩ := (rename_ids m o'.metric i).1 hi
    show List.filter _ ((o'.run D).map _) = (o'.run _).map _
    rw [← ih he.1 hf hr.1 hs' ho' hj]
    apply filter_map_mem
    intro r hrow
    rw [get_row_rename (cf r hrow) (renamed_inj he.2 hr.2 h2) (it.mem hj)]
  | filter e valid cond ih =>
    obtain ⟨s', hs', hs⟩ := bind_ok hs
    obtain ⟨o', ho', ho⟩ := bind_ok ho
    cases ho
    show List.filter _ ((o'.run D).filter cond) = (o'.run _).filter cond
    rw [← ih he hf hr hs' ho' hi, filter_comm]
  | select e cols ih =>
    obtain ⟨s', hs', hs⟩ := bind_ok hs
    obtain ⟨o', ho', ho⟩ := bind_ok ho
    have cf := conf (e := e) he hf hr hs' ho'
    have it := idt (e := e) he hr hs' ho'
    obtain ⟨sub, hm, rfl⟩ := visitSelect_ok ho
    have hi' : o'.metric = .ids i := hi
    show List.filter _ ((o'.run D).map _) = (o'.run _).map _
    rw [← ih he hf hr hs' ho' hi']
    apply filter_map_mem
    intro r hrow
    rw [get_row_select r (hm i (by rw [hi']; rfl)), (cf r hrow).get (it.mem hi')]
  | map e f new augment ih =>
    obtain ⟨s', hs', hs⟩ := bind_ok hs
    obtain ⟨o', ho', ho⟩ := bind_ok ho
    have cf := conf he.1 hf.1 hr hs' ho'
    have it := idt he.1 hr hs' ho'
    obtain ⟨hm, rfl⟩ := visitMap_ok ho
    have hi' : o'.metric = .ids i := hi
    show List.filter _ ((o'.run D).map _) = (o'.run _).map _
    rw [← ih he.1 hf.1 hr hs' ho' hi']
    apply filter_map_mem
    intro r hrow
    cases augment with
    | false =>
      have := (hm rfl).1
      rw [hi'] at this
      cases this
    | true =>
      simp only [if_true]
      rw [get_row_append (cf r hrow) _ (it.mem hi')]
  | flatMap e f new augment n ih =>
    obtain ⟨s', hs', hs⟩ := bind_ok hs
    obtain ⟨o', ho', ho⟩ := bind_ok ho
    have cf := conf he.1 hf.1 hr hs' ho'
    have it := idt he.1 hr hs' ho'
    obtain ⟨g, hd, _, _, _, hrun, hm⟩ := visitFlatMap_ok ho
    have hi' : o'.metric = .ids i ∧ augment = true := by
      rcases hm with ⟨_, h1, h2, _⟩ | ⟨h0, _, _, ⟨_, h1⟩ | ⟨c, _, _, h1⟩⟩
      · exact ⟨h1 ▸ hi, h2⟩
      · exact absurd (h1 ▸ hi) (h0 i)
      · rw [h1] at hi; cases hi
    rw [hrun, hrun, ← ih he.1 hf.1 hr hs' ho' hi'.1]
    apply filter_flatMap_mem
    intro r hrow x hx
    obtain ⟨y, hy, rfl⟩ := List.mem_map.1 hx
    rw [hi'.2]
    simp only [if_true]
    rw [get_row_append (cf r hrow) _ (it.mem hi'.1)]
  | flatMapByID e f new ih =>
    obtain ⟨s', hs', hs⟩ := bind_ok hs
    obtain ⟨o', ho', ho⟩ := bind_ok ho
    have cf := conf he.1 hf.1 hr hs' ho'
    have it := idt he.1 hr hs' ho'
    obtain ⟨j, d, hm, hd, hn, e1, e2, e3, _, hrun⟩ := visitFlatMapByID_ok ho
    have hi' : o'.metric = .ids i := by rw [← e2]; exact hi
    rw [hm] at hi'
    cases hi'
    rw [hrun, hrun, ← ih he.1 hf.1 hr hs' ho' hm]
    rw [filter_flatMap_mem (fun v => q (some v))]
    · rw [dedup_filter]
      have e1 : ((o'.run D).map (fun r => cell r i)).filter (fun v => q (some v)) =
          ((o'.run D).filter (fun r => q (Row.get r i))).map (fun r => cell r i) := by
        apply filter_map_mem
        intro r hrow
        rw [(cf r hrow).get (it.mem hm)]
      rw [e1]
      apply List.flatMap_congr
      intro v hv
      rw [List.mem_dedup] at hv
      obtain ⟨r0, hr0, rfl⟩ := List.mem_map.1 hv
      obtain ⟨hr1, hr2⟩ := List.mem_filter.1 hr0
      congr 2
      rw [List.filter_filter]
      apply List.filter_congr
      intro r hrow
      by_cases heq : cell r i = cell r0 i
      · rw [(cf r0 hr1).get (it.mem hm)] at hr2
        rw [(cf r hrow).get (it.mem hm), heq, hr2]
        simp
      · simp [heq]
    · intro v _ x hx
      obtain ⟨y, hy, rfl⟩ := List.mem_map.1 hx
      rw [get_cons_self]
  | joinPrivate l r tl tr cols ihl ihr =>
    obtain ⟨sl, hsl, hs⟩ := bind_ok hs
    obtain ⟨sr, hsr, hs⟩ := bind_ok hs
    obtain ⟨ol, hol, ho⟩ := bind_ok ho
    obtain ⟨or, hor, ho'⟩ := bind_ok ho
    have cfl := conf he.1 hf.1 hr.1 hsl hol
    have cfr := conf he.2 hf.2 hr.2 hsr hor
    have itl := idt he.1 hr.1 hsl hol
    have itr := idt he.2 hr.2 hsr hor
    obtain ⟨_, _, hd, _, hm, hmr, hcase⟩ := visitJoinPrivate_ok ho'
    rw [hm] at hi
    rw [hi] at hmr
    rcases hcase with ⟨j, hj, hjc, hrun⟩ | ⟨a, b, _, _, hsym, _⟩
    · rw [hi] at hj
      cases hj
      have hno : i ∉ overlap (Dict.keys ol.dom) (Dict.keys or.dom)
          (joinCols (Dict.keys ol.dom) (Dict.keys or.dom) cols) := fun hx => (overlap_mem hx).2.2 hjc
      rw [hrun, hrun, ← ihl he.1 hf.1 hr.1 hsl hol hi, ← ihr he.2 hf.2 hr.2 hsr hor hmr]
      rw [innerJoin_filter q, innerJoin_filter_right q]
      · exact fun l hl => (List.mem_filter.1 hl).2
      · intro a ha b hb hmab
        rw [(cfl a (List.mem_filter.1 ha).1).get (itl.mem hi), (cfr b hb).get (itr.mem hmr),
          matches_iff.1 hmab i hjc]
      · intro a ha b hb hmab
        have hx := rowOK_join hd (cfl a ha) (Or.inl (cfr b hb)) (fun _ => matches_iff.1 hmab)
        have := get_joinRow_left hd (cfl a ha) hx (itl.mem hi)
        rwa [suffixed_of_notMem hno] at this
    · rw [hi] at hsym; cases hsym
  | joinPublic e pub cols how ih =>
    obtain ⟨s', hs', hs⟩ := bind_ok hs
    obtain ⟨o', ho', ho⟩ := bind_ok ho
    have cf := conf he.1 hf.1 hr hs' ho'
    have it := idt he.1 hr hs' ho'
    obtain ⟨ps, pt, hp, hd, hm, _, hov, _, hrun⟩ := visitJoinPublic_ok ho
    have wp := (resolvePub_ok hc he.2 hp).1
    have hpt := (conforms_iff wp _).1 (resolvePub_conforms hD hf.2 hp)
    rw [hm] at hi
    have hno := hov i (by rw [hi]; rfl)
    have heff : effHow o'.metric how = .inner := by rw [hi]; rfl
    rw [heff] at hd hrun
    simp only at hrun
    rw [hrun, hrun, ← ih he.1 hf.1 hr hs' ho' hi]
    apply innerJoin_filter q
    intro a ha b hb hmab
    have hx := rowOK_join hd (cf a ha) (Or.inl (hpt b hb)) (fun _ => matches_iff.1 hmab)
    have := get_joinRow_left hd (cf a ha) hx (it.mem hi)
    rwa [suffixed_of_notMem hno] at this
  | replaceNull e w ih =>
    obtain ⟨s', hs', hs⟩ := bind_ok hs
    obtain ⟨o', ho', ho⟩ := bind_ok ho
    obtain ⟨rw', hrw, hk, rfl⟩ := visitReplaceNull_ok ho
    have hi' : o'.metric = .ids i := hi
    show List.filter _ ((o'.run D).map _) = (o'.run _).map _
    rw [← ih he.1 hf hr hs' ho' hi']
    apply filter_map_mem
    intro r hrow
    have hni := (replaceWith_keys hrw hk).1 i (by rw [hi']; rfl)
    rw [get_replaceRow_of_notMem _ _ (fun hx => hni (keys_restrict hx).1),
      get_replaceRow_of_notMem _ _ (fun hx => hni (keys_restrict hx).1)]
  | replaceInf e w ih =>
    obtain ⟨s', hs', hs⟩ := bind_ok hs
    obtain ⟨o', ho', ho⟩ := bind_ok ho
    have a := agree hc e he.1 hs' ho'
    have it := idt he.1 hr hs' ho'
    obtain ⟨_, rfl⟩ := visitReplaceInf_ok ho
    have hi' : o'.metric = .ids i := hi
    show List.filter _ ((o'.run D).map _) = (o'.run _).map _
    rw [← ih he.1 hf hr hs' ho' hi']
    apply filter_map_mem
    intro r hrow
    rw [get_replaceInfRow_of_notMem (id_not_replaced a hs it hi')]
  | dropNull e cols ih =>
    obtain ⟨s', hs', hs⟩ := bind_ok hs
    obtain ⟨o', ho', ho⟩ := bind_ok ho
    obtain ⟨_, _, rfl⟩ := visitDropNull_ok ho
    have hi' : o'.metric = .ids i := hi
    show List.filter _ (dropRows _ _ (dropRows _ _ (o'.run D))) = dropRows _ _ (dropRows _ _ (o'.run _))
    rw [← ih he hf hr hs' ho' hi']
    unfold dropRows
    rw [filter_comm, filter_comm (l := o'.run D)]
  | dropInf e cols ih =>
    obtain ⟨s', hs', hs⟩ := bind_ok hs
    obtain ⟨o', ho', ho⟩ := bind_ok ho
    obtain ⟨_, rfl⟩ := visitDropInf_ok ho
    have hi' : o'.metric = .ids i := hi
    show List.filter _ (dropRows (fun v => isPinf v || isNinf v) _ (o'.run D)) =
      dropRows (fun v => isPinf v || isNinf v) _ (o'.run _)
    rw [← ih he hf hr hs' ho' hi']
    unfold dropRows
    rw [filter_comm]
  | enforce e c ih =>
    obtain ⟨s', hs', hs⟩ := bind_ok hs
    obtain ⟨o', ho', ho⟩ := bind_ok ho
    obtain ⟨j, hj, _, rfl⟩ := visitEnforce_ok ho
    have hi' : o'.metric = .ids i := hi
    rw [hj] at hi'
    cases hi'
    show List.filter _ (Constraint.enforce h i c (o'.run D)) = Constraint.enforce h i c (o'.run _)
    rw [← ih he hf hr hs' ho' hj, enforce_filter]

/-- The private tables behind a table with IDs all have an ID column, in the same ID space. -/
theorem sources_ids (e : Expr) {o : Out} (ho : compile h cat e = .ok o) {i : String} (hi : o.metric = .ids i) :
    ∀ id ∈ e.sources, ∃ s cs j, Dict.get cat.priv id = some (s, cs) ∧ s.idColumn = some j ∧
      s.idSpace = o.space := by
  induction e generalizing o i with
  | source id =>
    simp only [compile, visitSource] at ho
    split at ho
    · cases ho
    next s' cs hg =>
    cases ho
    intro id' hid'
    rw [Expr.sources, List.mem_singleton] at hid'
    subst hid'
    exact ⟨s', cs, i, hg, (metricOf_ids s' i).1 hi, rfl⟩
  | rename e m ih =>
    obtain ⟨o', ho', ho⟩ := bind_ok ho
    obtain ⟨_, h2, rfl⟩ := visitRename_ok ho
    obtain ⟨j, hj, rfl⟩ := (rename_ids m o'.metric i).1 hi
    have t := ih ho' hj
    exact t
  | filter e valid cond ih =>
    obtain ⟨o', ho', ho⟩ := bind_ok ho
    cases ho
    have t := ih ho' hi
    exact t
  | select e cols ih =>
    obtain ⟨o', ho', ho⟩ := bind_ok ho
    obtain ⟨sub, hm, rfl⟩ := visitSelect_ok ho
    have t := ih ho' hi
    exact t
  | map e f new augment ih =>
    obtain ⟨o', ho', ho⟩ := bind_ok ho
    obtain ⟨hm, rfl⟩ := visitMap_ok ho
    have t := ih ho' hi
    exact t
  | flatMap e f new augment n ih =>
    obtain ⟨o', ho', ho⟩ := bind_ok ho
    obtain ⟨g, hd, hsp, _, _, hrun, hm⟩ := visitFlatMap_ok ho
    rw [hsp]
    rcases hm with ⟨_, h1, h2, _⟩ | ⟨h0, _, _, ⟨_, h1⟩ | ⟨c, _, _, h1⟩⟩
    · exact ih ho' (h1 ▸ hi)
    · exact absurd (h1 ▸ hi) (h0 i)
    · rw [h1] at hi; cases hi
  | flatMapByID e f new ih =>
    obtain ⟨o', ho', ho⟩ := bind_ok ho
    obtain ⟨j, d, hm, hd, hn, e1, e2, e3, _, hrun⟩ := visitFlatMapByID_ok ho
    rw [e3]
    exact ih ho' hm
  | joinPrivate l r tl tr cols ihl ihr =>
    obtain ⟨ol, hol, ho⟩ := bind_ok ho
    obtain ⟨or, hor, ho'⟩ := bind_ok ho
    obtain ⟨hs1, hs2, hd, _, hm, hmr, hcase⟩ := visitJoinPrivate_ok ho'
    rw [hm] at hi
    rw [hi] at hmr
    intro id hid'
    rw [Expr.sources, List.mem_append] at hid'
    rcases hid' with hx | hx
    · rw [hs2]; exact ihl hol hi id hx
    · rw [hs2, hs1]; exact ihr hor hmr id hx
  | joinPublic e pub cols how ih =>
    obtain ⟨o', ho', ho⟩ := bind_ok ho
    obtain ⟨ps, pt, hp, hd, hm, hsp, hov, _, hrun⟩ := visitJoinPublic_ok ho
    rw [hsp]
    exact ih ho' (hm ▸ hi)
  | replaceNull e w ih =>
    obtain ⟨o', ho', ho⟩ := bind_ok ho
    obtain ⟨rw', hrw, hk, rfl⟩ := visitReplaceNull_ok ho
    have t := ih ho' hi
    exact t
  | replaceInf e w ih =>
    obtain ⟨o', ho', ho⟩ := bind_ok ho
    obtain ⟨_, rfl⟩ := visitReplaceInf_ok ho
    have t := ih ho' hi
    exact t
  | dropNull e cols ih =>
    obtain ⟨o', ho', ho⟩ := bind_ok ho
    obtain ⟨_, _, rfl⟩ := visitDropNull_ok ho
    have t := ih ho' hi
    exact t
  | dropInf e cols ih =>
    obtain ⟨o', ho', ho⟩ := bind_ok ho
    obtain ⟨_, rfl⟩ := visitDropInf_ok ho
    have t := ih ho' hi
    exact t
  | enforce e c ih =>
    obtain ⟨o', ho', ho⟩ := bind_ok ho
    obtain ⟨j, hj, _, rfl⟩ := visitEnforce_ok ho
    have t := ih ho' hi
    exact t

theorem innerJoin_nil (lk rk jc : List String) (rt : Table) : innerJoin lk rk jc [] rt = [] := rfl

theorem truncateBy_nil (h : Hash) (jc : List String) (a : Trunc) : truncateBy h jc a [] = [] := by
  cases a <;> rfl

/-- From empty private tables a query makes an empty table. -/
theorem run_empty (e : Expr) {o : Out} (ho : compile h cat e = .ok o) (D : Data)
    (hD : ∀ id ∈ e.sources, D id = []) : o.run D = [] := by
  induction e generalizing o with
  | source id =>
    simp only [compile, visitSource] at ho
    split at ho
    · cases ho
    next s' cs hg =>
    cases ho
    exact hD id (by simp [Expr.sources])
  | rename e m ih =>
    obtain ⟨o', ho', ho⟩ := bind_ok ho
    obtain ⟨_, h2, rfl⟩ := visitRename_ok ho
    show (o'.run D).map _ = []
    rw [ih ho' hD]; rfl
  | filter e valid cond ih =>
    obtain ⟨o', ho', ho⟩ := bind_ok ho
    cases ho
    show (o'.run D).filter _ = []
    rw [ih ho' hD]; rfl
  | select e cols ih =>
    obtain ⟨o', ho', ho⟩ := bind_ok ho
    obtain ⟨sub, hm, rfl⟩ := visitSelect_ok ho
    show (o'.run D).map _ = []
    rw [ih ho' hD]; rfl
  | map e f new augment ih =>
    obtain ⟨o', ho', ho⟩ := bind_ok ho
    obtain ⟨hm, rfl⟩ := visitMap_ok ho
    show (o'.run D).map _ = []
    rw [ih ho' hD]; rfl
  | flatMap e f new augment n ih =>
    obtain ⟨o', ho', ho⟩ := bind_ok ho
    obtain ⟨g, hd, hsp, _, _, hrun, hm⟩ := visitFlatMap_ok ho
    rw [hrun, ih ho' hD]; rfl
  | flatMapByID e f new ih =>
    obtain ⟨o', ho', ho⟩ := bind_ok ho
    obtain ⟨j, d, hm, hd, hn, e1, e2, e3, _, hrun⟩ := visitFlatMapByID_ok ho
    rw [hrun, ih ho' hD]; rfl
  | joinPrivate l r tl tr cols ihl ihr =>
    obtain ⟨ol, hol, ho⟩ := bind_ok ho
    obtain ⟨or, hor, ho'⟩ := bind_ok ho
    obtain ⟨hs1, hs2, hd, _, hm, hmr, hcase⟩ := visitJoinPrivate_ok ho'
    have e1 := ihl hol (fun id hx => hD id (by rw [Expr.sources, List.mem_append]; exact Or.inl hx))
    rcases hcase with ⟨j, _, _, hrun⟩ | ⟨a, b, _, _, _, hrun⟩
    · rw [hrun, e1]; rfl
    · rw [hrun, e1, truncateBy_nil]; rfl
  | joinPublic e pub cols how ih =>
    obtain ⟨o', ho', ho⟩ := bind_ok ho
    obtain ⟨ps, pt, hp, hd, hm, hsp, hov, _, hrun⟩ := visitJoinPublic_ok ho
    rw [hrun, ih ho' hD]
    split <;> rfl
  | replaceNull e w ih =>
    obtain ⟨o', ho', ho⟩ := bind_ok ho
    obtain ⟨rw', hrw, hk, rfl⟩ := visitReplaceNull_ok ho
    show (o'.run D).map _ = []
    rw [ih ho' hD]; rfl
  | replaceInf e w ih =>
    obtain ⟨o', ho', ho⟩ := bind_ok ho
    obtain ⟨_, rfl⟩ := visitReplaceInf_ok ho
    show (o'.run D).map _ = []
    rw [ih ho' hD]; rfl
  | dropNull e cols ih =>
    obtain ⟨o', ho', ho⟩ := bind_ok ho
    obtain ⟨_, _, rfl⟩ := visitDropNull_ok ho
    show dropRows _ _ (dropRows _ _ (o'.run D)) = []
    rw [ih ho' hD]; rfl
  | dropInf e cols ih =>
    obtain ⟨o', ho', ho⟩ := bind_ok ho
    obtain ⟨_, rfl⟩ := visitDropInf_ok ho
    show dropRows (fun v => isPinf v || isNinf v) _ (o'.run D) = []
    rw [ih ho' hD]; rfl
  | enforce e c ih =>
    obtain ⟨o', ho', ho⟩ := bind_ok ho
    obtain ⟨j, hj, _, rfl⟩ := visitEnforce_ok ho
    show Constraint.enforce h j c (o'.run D) = []
    rw [ih ho' hD]
    cases c <;> rfl

/-- C20. In a table with IDs that a query makes: the ID column is there, every row has a value in it, and that
value is the ID of a row of one of the private tables the query reads; these all have an ID column, in the ID
space of the result; and, for any set of IDs, the rows of those IDs are what the query makes of the input rows
of those IDs alone.

Partial: renames that give two columns the same new name are excluded (`C20_fails`). -/
theorem C20_id_survives_partial {e : Expr} {s : Schema} {o : Out} {i : String}
    (hc : cat.OK) (hid : cat.IdsNotFloat) (hD : cat.DataOK D) (he : e.WF) (hf : e.FnsOK)
    (hr : e.RenamesDistinct) (hb : build h cat e = .ok (s, o)) (hi : s.idColumn = some i) :
    (∀ id ∈ e.sources, ∃ s' cs j, Dict.get cat.priv id = some (s', cs) ∧ s'.idColumn = some j ∧
      s'.idSpace = s.idSpace) ∧
    (∀ r ∈ o.run D, ∃ v, Row.get r i = some v ∧ ∃ id ∈ e.sources, ∃ s' cs j, Dict.get cat.priv id = some (s', cs) ∧
      s'.idColumn = some j ∧ ∃ r' ∈ D id, Row.get r' j = some v) ∧
    ∀ q : Option Value → Bool,
      (o.run D).filter (fun r => q (Row.get r i)) = o.run (onlyIDs cat q D) := by
  obtain ⟨hs, ho, _, heq, _⟩ := build_ok hb
  have a := agree hc e he hs ho
  have hm : o.metric = .ids i := (a.ids i).2 hi
  have src := sources_ids e ho hm
  refine ⟨?_, ?_, fun q => run_onlyIDs hc hid hD q e he hf hr hs ho hm⟩
  · rw [← a.space]; exact src
  · intro r hrow
    have hget := (rows_conform hc hD e he hf hr hs ho r hrow).get ((id_typed hc hid e he hr hs ho).mem hm)
    refine ⟨cell r i, hget, ?_⟩
    by_contra hno
    have hmem : r ∈ (o.run D).filter (fun x => decide (Row.get x i = some (cell r i))) :=
      List.mem_filter.2 ⟨hrow, by simpa using hget⟩
    rw [run_onlyIDs hc hid hD (fun x => decide (x = some (cell r i))) e he hf hr hs ho hm, run_empty e ho] at hmem
    · simp at hmem
    · intro id hx
      obtain ⟨s', cs, j, hg, hj, _⟩ := src id hx
      simp only [onlyIDs, hg, hj]
      rw [List.filter_eq_nil_iff]
      intro r' hr' hv
      exact hno ⟨id, hx, s', cs, j, hg, hj, r', hr', by simpa using hv⟩

/-- C20, rejections. On a table with ID column `i`, an operation that would lose or alter `i` is refused. -/
theorem C20_rejects {e : Expr} {s : Schema} {i : String} (hs : schemaOf cat e = .ok s)
    (hi : s.idColumn = some i) (hk : i ∈ Schema.keys s) :
    (∀ cols, i ∉ cols → schemaOf cat (.select e cols) = .error .value) ∧
    (∀ f new, schemaOf cat (.map e f new false) = .error .value) ∧
    (∀ f new n, schemaOf cat (.flatMap e f new false n) = .error .value) ∧
    (∀ f new, i ∈ Schema.keys new → schemaOf cat (.map e f new true) = .error .value) ∧
    (∀ f new n, i ∈ Schema.keys new → schemaOf cat (.flatMap e f new true n) = .error .value) ∧
    (∀ f new, i ∈ Schema.keys new → ∀ s', schemaOf cat (.flatMapByID e f new) ≠ .ok s') ∧
    (∀ w, i ∈ Dict.keys w → schemaOf cat (.replaceNull e w) = .error .value) ∧
    (∀ w, i ∈ Dict.keys w → schemaOf cat (.replaceInf e w) = .error .value) ∧
    (∀ cols, i ∈ cols → schemaOf cat (.dropNull e cols) = .error .value) ∧
    (∀ cols, i ∈ cols → schemaOf cat (.dropInf e cols) = .error .value) ∧
    (∀ e' s' tl tr cols, schemaOf cat e' = .ok s' → (s'.idColumn ≠ some i ∨ s'.idSpace ≠ s.idSpace) →
      schemaOf cat (.joinPrivate e e' tl tr cols) = .error .value) := by
  have bind_eq : ∀ {f : Schema → Except PyErr Schema}, (schemaOf cat e).bind f = f s := by
    intro f; rw [hs]; rfl
  refine ⟨?_, ?_, ?_, ?_, ?_, ?_, ?_, ?_, ?_, ?_, ?_⟩
  · intro cols hn
    simp only [schemaOf, bind_eq, schSelect, hi, Option.any_some, hn, not_false_eq_true, decide_true, if_true]
    repeat' split
    all_goals rfl
  · intro f new
    simp only [schemaOf, bind_eq, schMap, hi]
    repeat' split
    all_goals simp_all
  · intro f new n
    simp only [schemaOf, bind_eq, schFlatMap, hi]
    repeat' split
    all_goals simp_all
  · intro f new hn
    have : (Schema.keys new).any (fun c => decide (c ∈ Schema.keys s)) = true :=
      List.any_eq_true.2 ⟨i, hn, by simpa using hk⟩
    simp only [schemaOf, bind_eq, schMap, this, if_true]
    repeat' split
    all_goals rfl
  · intro f new n hn
    have : (Schema.keys new).any (fun c => decide (c ∈ Schema.keys s)) = true :=
      List.any_eq_true.2 ⟨i, hn, by simpa using hk⟩
    simp only [schemaOf, bind_eq, schFlatMap, this, if_true]
    repeat' split
    all_goals rfl
  · intro f new hn s'
    simp only [schemaOf, bind_eq, schFlatMapByID, hi, hn, if_true]
    repeat' split
    all_goals simp
  · intro w hn
    simp only [schemaOf, bind_eq, schReplaceNull, hi, Option.any_some, hn, decide_true, if_true]
    repeat' split
    all_goals rfl
  · intro w hn
    simp only [schemaOf, bind_eq, schReplaceInf, hi, Option.any_some, hn, decide_true, if_true]
    repeat' split
    all_goals rfl
  · intro w hn
    simp only [schemaOf, bind_eq, schDropNull, hi, Option.any_some, hn, decide_true, if_true]
    repeat' split
    all_goals rfl
  · intro w hn
    simp only [schemaOf, bind_eq, schDropInf, hi, Option.any_some, hn, decide_true, if_true]
    repeat' split
    all_goals rfl
  · intro e' s' tl tr cols hs' hne
    simp only [schemaOf, hs, hs', Except.bind, schJoinPrivate, hi]
    rcases hne with hne | hne
    · rw [if_pos (Ne.symm hne)]
    · split
      · rfl
      · rw [if_pos (Ne.symm hne)]

end

end Verif.Expr
