import Verif.Stability.Props

/-!
# Tables with IDs: the order of rows, and the rows of one ID
-/

namespace Verif.Stability

open Verif Verif.Schema Verif.Constraint Verif.Expr

/-- The functions given to `flat_map_by_id` do not depend on the order of the rows they are given. Spark gives no order. -/
def OrderFree : Expr → Prop
  | .source _ => True
  | .rename e _ => OrderFree e
  | .filter e _ _ => OrderFree e
  | .select e _ => OrderFree e
  | .map e _ _ _ => OrderFree e
  | .flatMap e _ _ _ _ => OrderFree e
  | .flatMapByID e f _ => OrderFree e ∧ ∀ s t, List.Perm s t → (f s).Perm (f t)
  | .joinPrivate l r _ _ _ => OrderFree l ∧ OrderFree r
  | .joinPublic e _ _ _ => OrderFree e
  | .replaceNull e _ => OrderFree e
  | .replaceInf e _ => OrderFree e
  | .dropNull e _ => OrderFree e
  | .dropInf e _ => OrderFree e
  | .enforce e _ => OrderFree e

theorem flatMap_perm_of {α β : Type} {l : List α} {F G : α → List β} (h : ∀ a ∈ l, (F a).Perm (G a)) :
    (l.flatMap F).Perm (l.flatMap G) := by
  induction l with
  | nil => exact .refl _
  | cons a l ih =>
    rw [List.flatMap_cons, List.flatMap_cons]
    exact (h a List.mem_cons_self).append (ih (fun b hb => h b (List.mem_cons_of_mem _ hb)))

theorem innerJoin_congr (lk rk jc : List String) {lt lt' rt rt' : Table} (hl : lt.Perm lt') (hr : rt.Perm rt') :
    (innerJoin lk rk jc lt rt).Perm (innerJoin lk rk jc lt' rt') := by
  refine (hl.flatMap_right _).trans (flatMap_perm_of ?_)
  intro l _
  exact (hr.filter _).map _

/-- The output does not depend on the order of the rows of the input. -/
theorem run_perm {h : Hash} (hl : h.Lawful) {cat : Cat} {D D' : Data} (e : Expr) (hof : OrderFree e)
    (hd : ∀ id ∈ e.sources, (D id).Perm (D' id)) {o : Out} (ho : compile h cat e = .ok o) :
    (o.run D).Perm (o.run D') := by
  induction e generalizing o with
  | source id =>
    simp only [compile, visitSource] at ho
    split at ho
    · cases ho
    cases ho
    exact hd id (by simp [Expr.sources])
  | rename e m ih =>
    obtain ⟨o', ho', ho⟩ := bind_ok ho
    obtain ⟨_, _, rfl⟩ := visitRename_ok ho
    exact (ih hof hd ho').map _
  | filter e valid cond ih =>
    obtain ⟨o', ho', ho⟩ := bind_ok ho
    cases ho
    exact (ih hof hd ho').filter _
  | select e cols ih =>
    obtain ⟨o', ho', ho⟩ := bind_ok ho
    obtain ⟨_, _, rfl⟩ := visitSelect_ok ho
    exact (ih hof hd ho').map _
  | map e f new augment ih =>
    obtain ⟨o', ho', ho⟩ := bind_ok ho
    obtain ⟨_, rfl⟩ := visitMap_ok ho
    exact (ih hof hd ho').map _
  | flatMap e f new augment n ih =>
    obtain ⟨o', ho', ho⟩ := bind_ok ho
    obtain ⟨g, _, _, _, _, hrun, hmm⟩ := visitFlatMap_ok ho
    rw [hrun, hrun]
    exact (ih hof hd ho').flatMap_right _
  | flatMapByID e f new ih =>
    obtain ⟨o', ho', ho⟩ := bind_ok ho
    obtain ⟨i, _, h1, _, _, _, e2, _, _, hrun⟩ := visitFlatMapByID_ok ho
    have hp := ih hof.1 hd ho'
    rw [hrun, hrun]
    refine (((hp.map _).dedup).flatMap_right _).trans (flatMap_perm_of ?_)
    intro v _
    exact (hof.2 _ _ (hp.filter _)).map _
  | joinPrivate l r tl tr cols ihl ihr =>
    obtain ⟨ol, hol, ho⟩ := bind_ok ho
    obtain ⟨or, hor, ho⟩ := bind_ok ho
    have pl := ihl hof.1 (fun id hid => hd id (List.mem_append_left _ hid)) hol
    have pr := ihr hof.2 (fun id hid => hd id (List.mem_append_right _ hid)) hor
    obtain ⟨_, _, _, _, h1, h2, hcase⟩ := visitJoinPrivate_ok ho
    rcases hcase with ⟨i, hi, hrun⟩ | ⟨a, b, rfl, rfl, hsym, hrun⟩
    · rw [hrun.2, hrun.2]
      exact innerJoin_congr _ _ _ pl pr
    · rw [hrun, hrun]
      exact innerJoin_congr _ _ _ (truncateBy_congr hl _ a pl) (truncateBy_congr hl _ b pr)
  | joinPublic e pub cols how ih =>
    obtain ⟨o', ho', ho⟩ := bind_ok ho
    obtain ⟨ps, pt, hp, _, hmo, _, _, _, hrun⟩ := visitJoinPublic_ok ho
    have hrun' : ∀ D, o.run D = (o'.run D).flatMap (publicRows (effHow o'.metric how) (Dict.keys o'.dom)
        (Dict.keys (analyticsToSparkColumns ps))
        (joinCols (Dict.keys o'.dom) (Dict.keys (analyticsToSparkColumns ps)) cols) pt) := by
      intro D
      rw [hrun]
      cases effHow o'.metric how <;> rfl
    rw [hrun', hrun']
    exact (ih hof hd ho').flatMap_right _
  | replaceNull e w ih =>
    obtain ⟨o', ho', ho⟩ := bind_ok ho
    obtain ⟨_, _, _, rfl⟩ := visitReplaceNull_ok ho
    exact (ih hof hd ho').map _
  | replaceInf e w ih =>
    obtain ⟨o', ho', ho⟩ := bind_ok ho
    obtain ⟨_, rfl⟩ := visitReplaceInf_ok ho
    exact (ih hof hd ho').map _
  | dropNull e cols ih =>
    obtain ⟨o', ho', ho⟩ := bind_ok ho
    obtain ⟨_, _, rfl⟩ := visitDropNull_ok ho
    exact ((ih hof hd ho').filter _).filter _
  | dropInf e cols ih =>
    obtain ⟨o', ho', ho⟩ := bind_ok ho
    obtain ⟨_, rfl⟩ := visitDropInf_ok ho
    exact (ih hof hd ho').filter _
  | enforce e c ih =>
    obtain ⟨o', ho', ho⟩ := bind_ok ho
    obtain ⟨i, hi, _, rfl⟩ := visitEnforce_ok ho
    exact C15_order_independent h hl i c (ih hof hd ho')

/-- In the private tables with IDs that a query uses, the rows of the IDs in `q` are the same in both databases. -/
def SameIDs (cat : Cat) (tables : List String) (q : Option Value → Bool) (D D' : Data) : Prop :=
  ∀ id ∈ tables, ∀ s cs j, Dict.get cat.priv id = some (s, cs) → s.idColumn = some j →
    ((D id).filter (fun r => q (Row.get r j))).Perm ((D' id).filter (fun r => q (Row.get r j)))

/-- IDs whose rows are the same in the input have the same rows in the output. -/
theorem ids_stable {h : Hash} (hl : h.Lawful) {cat : Cat} {D D' : Data} (hc : cat.OK) (hid : cat.IdsNotFloat)
    (hD : cat.DataOK D) (hD' : cat.DataOK D') {e : Expr} (he : e.WF) (hf : e.FnsOK) (hr : e.RenamesDistinct)
    (hof : OrderFree e) {s : Schema} {o : Out} (hs : schemaOf cat e = .ok s) (ho : compile h cat e = .ok o) {i : String}
    (hi : o.metric = .ids i) {q : Option Value → Bool} (hq : SameIDs cat e.sources q D D') :
    ((o.run D).filter (fun r => q (Row.get r i))).Perm ((o.run D').filter (fun r => q (Row.get r i))) := by
  rw [run_onlyIDs hc hid hD q e he hf hr hs ho hi, run_onlyIDs hc hid hD' q e he hf hr hs ho hi]
  refine run_perm hl e hof ?_ ho
  intro id hid
  obtain ⟨s', cs, j, hg, hj, _⟩ := sources_ids e ho hi id hid
  simp only [onlyIDs, hg, hj]
  exact hq id hid s' cs j hg hj

end Verif.Stability
