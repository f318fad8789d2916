import Verif.Whole.Model
import Verif.Constraint.Props
import Verif.Expr.Agree
import Verif.Expr.Conform
import Verif.KeySet.Schemas
import Verif.Composition.Props

/-!
# C80: equivalent ways to write a transformation

Filters may be exchanged, combined, and moved past `select`, `drop_null_and_nan`, `drop_infinity` and maps and flat maps that
keep the old columns; a `select` may be left out before another one. This changes nothing, wherever it is done in a query.
-/

namespace Verif.Whole

open Verif Verif.Schema Verif.Constraint Verif.Expr Verif.Query Verif.Stability
open Verif.Budget (XNum PB Rounding)
open scoped NNReal

/-! ## Specification -/

/-- The condition is valid for the table that an expression makes. -/
def ValidOn (cat : Cat) (valid : Schema → Bool) (e : Expr) : Prop := ∀ s, schemaOf cat e = .ok s → valid s = true

/-- The condition reads only some columns. -/
def Reads (cols : List String) (cond : Row → Bool) : Prop :=
  ∀ r r' : Row, (∀ c ∈ cols, cell r c = cell r' c) → cond r = cond r'

/-- Expressions that are the same but for equivalent ways of writing. -/
inductive Equivalent (h : Hash) (cat : Cat) : Expr → Expr → Prop
  | refl (e) : Equivalent h cat e e
  | symm {e e'} : Equivalent h cat e e' → Equivalent h cat e' e
  | trans {e e' e''} : Equivalent h cat e e' → Equivalent h cat e' e'' → Equivalent h cat e e''
  | swap (e : Expr) (v w) (a b : Row → Bool) : Equivalent h cat ((e.filter v a).filter w b) ((e.filter w b).filter v a)
  | both (e : Expr) (v w) (a b : Row → Bool) :
      Equivalent h cat ((e.filter v a).filter w b) (e.filter (fun s => v s && w s) (fun r => a r && b r))
  | selectTwice (e : Expr) {cols cols' : List String} (hs : ∀ c ∈ cols', c ∈ cols) {so}
      (ha : build h cat (e.select cols) = .ok so) : Equivalent h cat ((e.select cols).select cols') (e.select cols')
  | filterSelect (e : Expr) (v) {a : Row → Bool} {cols} (hr : Reads cols a) (hv : ValidOn cat v e)
      (hv' : ValidOn cat v (e.select cols)) : Equivalent h cat ((e.filter v a).select cols) ((e.select cols).filter v a)
  | filterDrop (e : Expr) (v) (a : Row → Bool) (cols) (hv : ValidOn cat v e) (hv' : ValidOn cat v (e.dropNull cols)) :
      Equivalent h cat ((e.filter v a).dropNull cols) ((e.dropNull cols).filter v a)
  | filterDropInf (e : Expr) (v) (a : Row → Bool) (cols) (hv : ValidOn cat v e) (hv' : ValidOn cat v (e.dropInf cols)) :
      Equivalent h cat ((e.filter v a).dropInf cols) ((e.dropInf cols).filter v a)
  | filterMap (e : Expr) (v) {a : Row → Bool} {f : Row → Row} (new) (hf : ∀ r, a (r ++ f r) = a r) (hv : ValidOn cat v e)
      (hv' : ValidOn cat v (e.map f new true)) : Equivalent h cat ((e.filter v a).map f new true) ((e.map f new true).filter v a)
  | filterFlatMap (e : Expr) (v) {a : Row → Bool} {f : Row → List Row} (new n) (hf : ∀ r, ∀ x ∈ f r, a (r ++ x) = a r)
      (hv : ValidOn cat v e) (hv' : ValidOn cat v (e.flatMap f new true n)) :
      Equivalent h cat ((e.filter v a).flatMap f new true n) ((e.flatMap f new true n).filter v a)
  | rename {e e'} (m) : Equivalent h cat e e' → Equivalent h cat (e.rename m) (e'.rename m)
  | filter {e e'} (v a) : Equivalent h cat e e' → Equivalent h cat (e.filter v a) (e'.filter v a)
  | select {e e'} (cols) : Equivalent h cat e e' → Equivalent h cat (e.select cols) (e'.select cols)
  | map {e e'} (f new aug) : Equivalent h cat e e' → Equivalent h cat (e.map f new aug) (e'.map f new aug)
  | flatMap {e e'} (f new aug n) : Equivalent h cat e e' → Equivalent h cat (e.flatMap f new aug n) (e'.flatMap f new aug n)
  | flatMapByID {e e'} (f new) : Equivalent h cat e e' → Equivalent h cat (e.flatMapByID f new) (e'.flatMapByID f new)
  | joinPrivate {l l' r r'} (tl tr cols) : Equivalent h cat l l' → Equivalent h cat r r' →
      Equivalent h cat (l.joinPrivate r tl tr cols) (l'.joinPrivate r' tl tr cols)
  | joinPublic {e e'} (p cols how) : Equivalent h cat e e' → Equivalent h cat (e.joinPublic p cols how) (e'.joinPublic p cols how)
  | replaceNull {e e'} (w) : Equivalent h cat e e' → Equivalent h cat (e.replaceNull w) (e'.replaceNull w)
  | replaceInf {e e'} (w) : Equivalent h cat e e' → Equivalent h cat (e.replaceInf w) (e'.replaceInf w)
  | dropNull {e e'} (cols) : Equivalent h cat e e' → Equivalent h cat (e.dropNull cols) (e'.dropNull cols)
  | dropInf {e e'} (cols) : Equivalent h cat e e' → Equivalent h cat (e.dropInf cols) (e'.dropInf cols)
  | enforce {e e'} (c) : Equivalent h cat e e' → Equivalent h cat (e.enforce c) (e'.enforce c)

/-- A query on another table. -/
def withChild (e : Expr) : Query → Query
  | .agg a => .agg { a with child := e }
  | .groups _ cols => .groups e cols
  | .suppress a col t => .suppress { a with child := e } col t

/-! ## Proofs -/

theorem insertMin_filter (p : String → Bool) (d : List (String × Nat)) (c : String) (m : Nat) :
    (insertMin d c m).filter (fun x => p x.1) =
      if p c then insertMin (d.filter (fun x => p x.1)) c m else d.filter (fun x => p x.1) := by
  induction d with
  | nil => cases h : p c <;> simp [insertMin, h]
  | cons x d ih =>
    obtain ⟨k, v⟩ := x
    rw [insertMin]
    by_cases hk : k = c
    · subst hk
      rw [if_pos rfl]
      cases h : p k <;> simp [insertMin, h]
    · rw [if_neg hk]
      cases h : p k
      · simp [h, ih]
      · rw [List.filter_cons_of_pos (by simpa using h), ih]
        split <;> simp [h, insertMin, hk]

def keepCons (p : String → Bool) (c : Constraint) : Bool :=
  match consCol c with
  | some g => p g
  | none => true

theorem simplify_filter (p : String → Bool) (cs : List Constraint) :
    (simplify cs).filter (keepCons p) = simplify (cs.filter (keepCons p)) := by
  have key : ∀ (cs : List Constraint) (b : Buckets),
      (cs.filter (keepCons p)).foldl collect ⟨b.rows, b.groups.filter (fun x => p x.1), b.rowsPerGroup.filter (fun x => p x.1)⟩ =
        ⟨(cs.foldl collect b).rows, (cs.foldl collect b).groups.filter (fun x => p x.1),
          (cs.foldl collect b).rowsPerGroup.filter (fun x => p x.1)⟩ := by
    intro cs
    induction cs with
    | nil => intro b; rfl
    | cons c cs ih =>
      intro b
      rw [List.foldl_cons, ← ih]
      cases c with
      | maxRowsPerID m => rfl
      | maxGroupsPerID g m =>
        rw [collect, insertMin_filter]
        cases h : p g <;> simp [keepCons, consCol, h, collect]
      | maxRowsPerGroupPerID g m =>
        rw [collect, insertMin_filter]
        cases h : p g <;> simp [keepCons, consCol, h, collect]
  have := key cs ⟨[], [], []⟩
  simp only [List.filter_nil] at this
  rw [simplify_eq, simplify_eq, this]
  generalize cs.foldl collect ⟨[], [], []⟩ = b
  unfold Buckets.toList
  rw [List.filter_append, List.filter_append, List.filter_map, List.filter_map]
  congr 1
  congr 1
  cases minList b.rows <;> rfl

theorem propagateSelect_eq (cols : List String) (cs : List Constraint) :
    propagateSelect cols cs = cs.filter (keepCons (fun g => decide (g ∈ cols))) := by
  unfold propagateSelect
  refine List.filter_congr fun c _ => ?_
  unfold keepCons
  cases consCol c <;> rfl

/-- What the rest of the library sees of a compiled expression. -/
structure Same (h : Hash) (cat : Cat) (e e' : Expr) : Prop where
  schema : schemaOf cat e = schemaOf cat e'
  comp : compile h cat e = compile h cat e'
  dist : ∀ l2 d, distOf l2 h cat d e = distOf l2 h cat d e'
  sources : e.sources = e'.sources
  own : ownGroups e = ownGroups e'

theorem cell_project (cols : List String) (r : Row) (x : String) :
    cell (cols.map (fun c => (c, cell r c))) x = if x ∈ cols then cell r x else .null := by
  unfold cell Row.get
  induction cols with
  | nil => rfl
  | cons c cols ih =>
    rw [List.map_cons, List.lookup_cons]
    by_cases hx : x = c
    · subst hx
      simp
    · have : (x == c) = false := by simpa using hx
      rw [this]
      simp only [List.mem_cons, hx, false_or]
      exact ih

theorem same_swap (h : Hash) (cat : Cat) (e : Expr) (v w : Schema → Bool) (a b : Row → Bool) :
    Same h cat ((e.filter v a).filter w b) ((e.filter w b).filter v a) := by
  refine ⟨?_, ?_, fun _ _ => rfl, rfl, rfl⟩
  · simp only [schemaOf]
    cases schemaOf cat e with
    | error x => rfl
    | ok s =>
      show (schFilter v s).bind (schFilter w) = (schFilter w s).bind (schFilter v)
      unfold schFilter
      cases hv : v s <;> cases hw : w s <;> simp [Except.bind, hv, hw]
  · simp only [compile]
    cases compile h cat e with
    | error x => rfl
    | ok o =>
      show Except.ok _ = Except.ok _
      simp only [List.filter_filter, Bool.and_comm]

theorem same_both (h : Hash) (cat : Cat) (e : Expr) (v w : Schema → Bool) (a b : Row → Bool) :
    Same h cat ((e.filter v a).filter w b) (e.filter (fun s => v s && w s) (fun r => a r && b r)) := by
  refine ⟨?_, ?_, fun _ _ => rfl, rfl, rfl⟩
  · simp only [schemaOf]
    cases schemaOf cat e with
    | error x => rfl
    | ok s =>
      show (schFilter v s).bind (schFilter w) = schFilter (fun s => v s && w s) s
      unfold schFilter
      cases hv : v s <;> cases hw : w s <;> simp [Except.bind, hv, hw]
  · simp only [compile]
    cases compile h cat e with
    | error x => rfl
    | ok o =>
      show Except.ok _ = Except.ok _
      simp only [List.filter_filter, Bool.and_comm, (C14_simplify _).2.2]

theorem same_filterSelect {h : Hash} {cat : Cat} {e : Expr} {v : Schema → Bool} {a : Row → Bool} {cols : List String}
    (hr : Reads cols a) (hv : ValidOn cat v e) (hv' : ValidOn cat v (e.select cols)) :
    Same h cat ((e.filter v a).select cols) ((e.select cols).filter v a) := by
  refine ⟨?_, ?_, fun _ _ => rfl, rfl, rfl⟩
  · unfold ValidOn at hv hv'
    simp only [schemaOf] at hv hv' ⊢
    cases hs : schemaOf cat e with
    | error x => rfl
    | ok s =>
      rw [hs] at hv hv'
      show (schFilter v s).bind (schSelect cols) = (schSelect cols s).bind (schFilter v)
      have e1 : schFilter v s = .ok s := by
        unfold schFilter
        rw [if_pos (hv s rfl)]
      rw [e1]
      show schSelect cols s = _
      cases hs' : schSelect cols s with
      | error x => rfl
      | ok s' =>
        show _ = schFilter v s'
        unfold schFilter
        rw [if_pos (hv' s' hs')]
  · simp only [compile]
    cases compile h cat e with
    | error x => rfl
    | ok o =>
      show visitSelect cols _ = (visitSelect cols o).bind (visitFilter a)
      unfold visitSelect
      dsimp only
      split
      · rfl
      split
      · rfl
      show Except.ok _ = Except.ok _
      congr 1
      simp only [propagateSelect_eq, simplify_filter, (C14_simplify _).2.2, Out.mk.injEq, true_and]
      funext D
      rw [List.filter_map]
      congr 1
      refine List.filter_congr fun r _ => ?_
      refine hr _ _ fun c hc => ?_
      rw [cell_project, if_pos hc]

theorem same_filterDrop {h : Hash} {cat : Cat} {e : Expr} {v : Schema → Bool} {a : Row → Bool} {cols : List String}
    (hv : ValidOn cat v e) (hv' : ValidOn cat v (e.dropNull cols)) :
    Same h cat ((e.filter v a).dropNull cols) ((e.dropNull cols).filter v a) := by
  refine ⟨?_, ?_, fun _ _ => rfl, rfl, rfl⟩
  · unfold ValidOn at hv hv'
    simp only [schemaOf] at hv hv' ⊢
    cases hs : schemaOf cat e with
    | error x => rfl
    | ok s =>
      rw [hs] at hv hv'
      show (schFilter v s).bind (schDropNull cols) = (schDropNull cols s).bind (schFilter v)
      have e1 : schFilter v s = .ok s := by
        unfold schFilter
        rw [if_pos (hv s rfl)]
      rw [e1]
      show schDropNull cols s = _
      cases hs' : schDropNull cols s with
      | error x => rfl
      | ok s' =>
        show _ = schFilter v s'
        unfold schFilter
        rw [if_pos (hv' s' hs')]
  · simp only [compile]
    cases compile h cat e with
    | error x => rfl
    | ok o =>
      show visitDropNull cols _ = (visitDropNull cols o).bind (visitFilter a)
      unfold visitDropNull
      dsimp only
      split
      · rfl
      split
      · rfl
      show Except.ok _ = Except.ok _
      congr 1
      simp only [Out.mk.injEq, true_and, dropRows]
      funext D
      simp only [List.filter_filter]
      refine List.filter_congr fun r _ => ?_
      simp only [Bool.and_comm, Bool.and_left_comm]

theorem same_selectTwice {h : Hash} {cat : Cat} {e : Expr} {cols cols' : List String} (hsub : ∀ c ∈ cols', c ∈ cols)
    {so : Schema × Out} (ha : build h cat (e.select cols) = .ok so) :
    Same h cat ((e.select cols).select cols') (e.select cols') := by
  obtain ⟨s1, o1, h1, h2⟩ : ∃ s1 o1, schemaOf cat (e.select cols) = .ok s1 ∧ compile h cat (e.select cols) = .ok o1 := by
    unfold build at ha
    cases e1 : schemaOf cat (e.select cols) with
    | error x => rw [e1] at ha; cases ha
    | ok s1 =>
      rw [e1] at ha
      cases e2 : compile h cat (e.select cols) with
      | error x => rw [e2] at ha; cases ha
      | ok o1 => exact ⟨s1, o1, rfl, rfl⟩
  refine ⟨?_, ?_, fun _ _ => rfl, rfl, rfl⟩
  · simp only [schemaOf] at h1 ⊢
    rw [h1]
    obtain ⟨s, hs, h1⟩ := bind_ok h1
    rw [hs]
    show schSelect cols' s1 = schSelect cols' s
    obtain ⟨_, _, _, sub, wf, g1, g2, g3, el, k⟩ := schSelect_ok h1
    have hget : ∀ c ∈ cols', Dict.get s1.descs c = Dict.get s.descs c := by
      intro c hc
      rw [Schema.descs_eq wf, el, KeySet.get_pick, if_pos (hsub c hc)]
    unfold schSelect
    rw [g1, g2, g3, k]
    have e1 : cols'.any (fun c => decide (c ∉ cols)) = false := by
      rw [List.any_eq_false]
      intro c hc
      simpa using hsub c hc
    have e2 : cols'.any (fun c => decide (c ∉ Schema.keys s)) = false := by
      rw [List.any_eq_false]
      intro c hc
      simpa using sub c (hsub c hc)
    rw [e1, e2]
    have e3 : cols'.filterMap (fun c => (Dict.get s1.descs c).map (fun d => (c, d))) =
        cols'.filterMap (fun c => (Dict.get s.descs c).map (fun d => (c, d))) :=
      List.filterMap_congr fun c hc => by rw [hget c hc]
    rw [e3]
  · simp only [compile] at h2 ⊢
    rw [h2]
    obtain ⟨o, ho, h2⟩ := bind_ok h2
    rw [ho]
    show visitSelect cols' o1 = visitSelect cols' o
    unfold visitSelect at h2
    split at h2
    · cases h2
    rename_i c1
    split at h2
    · cases h2
    cases h2
    have sub : ∀ c ∈ cols, c ∈ Dict.keys o.dom := fun c hc => by simpa using any_false c1 c hc
    unfold visitSelect
    have e1 : cols'.any (fun c => decide (c ∉ Dict.keys (pick o.dom cols))) = false := by
      rw [List.any_eq_false]
      intro c hc
      rw [pick_keys sub]
      simpa using hsub c hc
    have e2 : cols'.any (fun c => decide (c ∉ Dict.keys o.dom)) = false := by
      rw [List.any_eq_false]
      intro c hc
      simpa using sub c (hsub c hc)
    dsimp only
    rw [e1, e2]
    have e3 : pick (pick o.dom cols) cols' = pick o.dom cols' := by
      refine List.filterMap_congr fun c hc => ?_
      rw [get_pick, if_pos (hsub c hc)]
    rw [e3]
    have e4 : simplify (propagateSelect cols' (simplify (propagateSelect cols o.cons))) =
        simplify (propagateSelect cols' o.cons) := by
      rw [propagateSelect_eq, propagateSelect_eq, propagateSelect_eq, simplify_filter, (C14_simplify _).2.2,
        List.filter_filter]
      congr 1
      refine List.filter_congr fun c _ => ?_
      unfold keepCons
      cases consCol c with
      | none => rfl
      | some g =>
        by_cases hg : g ∈ cols'
        · simp [hg, hsub g hg]
        · simp [hg]
    rw [e4]
    have e5 : ∀ D, ((o.run D).map (fun r => cols.map (fun c => (c, cell r c)))).map (fun r => cols'.map (fun c => (c, cell r c))) =
        (o.run D).map (fun r => cols'.map (fun c => (c, cell r c))) := by
      intro D
      rw [List.map_map]
      refine List.map_congr_left fun r _ => List.map_congr_left fun c hc => ?_
      rw [cell_project, if_pos (hsub c hc)]
    simp only [e5]

/-- Expressions that are alike are compiled to the same. -/
theorem valid_swap {cat : Cat} {e : Expr} {v : Schema → Bool} {g : Schema → Except PyErr Schema} (hv : ValidOn cat v e)
    (hv' : ∀ s, (schemaOf cat e).bind g = .ok s → v s = true) :
    ((schemaOf cat e).bind (schFilter v)).bind g = ((schemaOf cat e).bind g).bind (schFilter v) := by
  unfold ValidOn at hv
  cases hs : schemaOf cat e with
  | error x => rfl
  | ok s =>
    rw [hs] at hv hv'
    show (schFilter v s).bind g = (g s).bind (schFilter v)
    have e1 : schFilter v s = .ok s := by
      unfold schFilter
      rw [if_pos (hv s rfl)]
    rw [e1]
    show g s = _
    cases hs' : g s with
    | error x => rfl
    | ok s' =>
      show _ = schFilter v s'
      unfold schFilter
      rw [if_pos (hv' s' hs')]

theorem same_filterDropInf {h : Hash} {cat : Cat} {e : Expr} {v : Schema → Bool} {a : Row → Bool} {cols : List String}
    (hv : ValidOn cat v e) (hv' : ValidOn cat v (e.dropInf cols)) :
    Same h cat ((e.filter v a).dropInf cols) ((e.dropInf cols).filter v a) := by
  refine ⟨valid_swap hv hv', ?_, fun _ _ => rfl, rfl, rfl⟩
  simp only [compile]
  cases compile h cat e with
  | error x => rfl
  | ok o =>
    show visitDropInf cols _ = (visitDropInf cols o).bind (visitFilter a)
    unfold visitDropInf
    dsimp only
    split
    · rfl
    split
    · rfl
    show Except.ok _ = Except.ok _
    congr 1
    simp only [Out.mk.injEq, true_and, dropRows]
    funext D
    simp only [List.filter_filter]
    refine List.filter_congr fun r _ => ?_
    simp only [Bool.and_comm]

theorem same_filterMap {h : Hash} {cat : Cat} {e : Expr} {v : Schema → Bool} {a : Row → Bool} {f : Row → Row} {new : Schema}
    (hf : ∀ r, a (r ++ f r) = a r) (hv : ValidOn cat v e) (hv' : ValidOn cat v (e.map f new true)) :
    Same h cat ((e.filter v a).map f new true) ((e.map f new true).filter v a) := by
  refine ⟨valid_swap hv hv', ?_, fun _ _ => rfl, rfl, rfl⟩
  simp only [compile]
  cases compile h cat e with
  | error x => rfl
  | ok o =>
    show Except.ok _ = Except.ok _
    congr 1
    simp only [Out.mk.injEq, true_and, if_true]
    funext D
    rw [List.filter_map]
    congr 1
    exact List.filter_congr fun r _ => (hf r).symm

theorem propagateFlatMap_simplify (cs : List Constraint) :
    propagateFlatMap (simplify cs) = simplify (propagateFlatMap cs) := by
  have key : ∀ (cs : List Constraint) (b : Buckets),
      (propagateFlatMap cs).foldl collect ⟨[], b.groups, []⟩ = ⟨[], (cs.foldl collect b).groups, []⟩ := by
    intro cs
    induction cs with
    | nil => intro b; rfl
    | cons c cs ih =>
      intro b
      rw [List.foldl_cons, ← ih]
      cases c <;> rfl
  have := key cs ⟨[], [], []⟩
  rw [simplify_eq, simplify_eq, this]
  generalize cs.foldl collect ⟨[], [], []⟩ = b
  unfold Buckets.toList propagateFlatMap
  rw [List.filter_append, List.filter_append, List.filter_map, List.filter_map]
  cases minList b.rows <;> simp [minList, Function.comp_def]

theorem flatMap_filter {a : Row → Bool} {g : Row → List Row} (hg : ∀ r, ∀ x ∈ g r, a x = a r) (t : List Row) :
    (t.filter a).flatMap g = (t.flatMap g).filter a := by
  induction t with
  | nil => rfl
  | cons r t ih =>
    rw [List.flatMap_cons, List.filter_append, ← ih]
    cases ha : a r with
    | true =>
      rw [List.filter_cons_of_pos ha, List.flatMap_cons, List.filter_eq_self.2 fun x hx => (hg r x hx).trans ha]
    | false =>
      rw [List.filter_cons_of_neg (by simp [ha]), (List.filter_eq_nil_iff (l := g r)).2 (fun x hx => by simp [hg r x hx, ha]),
        List.nil_append]

theorem same_filterFlatMap {h : Hash} {cat : Cat} {e : Expr} {v : Schema → Bool} {a : Row → Bool} {f : Row → List Row}
    {new : Schema} {n : Option Nat} (hf : ∀ r, ∀ x ∈ f r, a (r ++ x) = a r) (hv : ValidOn cat v e)
    (hv' : ValidOn cat v (e.flatMap f new true n)) :
    Same h cat ((e.filter v a).flatMap f new true n) ((e.flatMap f new true n).filter v a) := by
  refine ⟨valid_swap hv hv', ?_, fun _ _ => rfl, rfl, rfl⟩
  have key : ∀ (k : Row → List Row), (∀ r, ∀ x ∈ k r, x ∈ f r) → ∀ t : List Row,
      (t.filter a).flatMap (fun r => (k r).map (fun x => r ++ x)) = (t.flatMap (fun r => (k r).map (fun x => r ++ x))).filter a := by
    intro k hk t
    refine flatMap_filter (fun r x hx => ?_) t
    obtain ⟨y, hy, rfl⟩ := List.mem_map.1 hx
    exact hf r y (hk r y hy)
  simp only [compile]
  cases compile h cat e with
  | error x => rfl
  | ok o =>
    obtain ⟨dom, metric, space, cons, run⟩ := o
    show visitFlatMap f new true n ⟨dom, metric, space, simplify cons, fun D => (run D).filter a⟩ =
      (visitFlatMap f new true n ⟨dom, metric, space, cons, run⟩).bind (visitFilter a)
    simp only [visitFlatMap, propagateFlatMap_simplify]
    have k1 := key f (fun _ _ h => h)
    have k2 : ∀ n, _ := fun n => key (fun r => (f r).take n) (fun _ _ h => List.mem_of_mem_take h)
    have k3 : ∀ n, _ := fun n => key (fun r => (f r).dedup.take n) (fun _ _ h => List.mem_dedup.1 (List.mem_of_mem_take h))
    cases metric <;> cases n <;> cases new.grouping <;>
      simp [Except.bind, visitFilter, k1, k2, k3, -List.map_take]

theorem equivalent_same {h : Hash} {cat : Cat} {e e' : Expr} (ha : Equivalent h cat e e') : Same h cat e e' := by
  induction ha with
  | refl e => exact ⟨rfl, rfl, fun _ _ => rfl, rfl, rfl⟩
  | symm _ ih => exact ⟨ih.schema.symm, ih.comp.symm, fun l d => (ih.dist l d).symm, ih.sources.symm, ih.own.symm⟩
  | trans _ _ i1 i2 =>
    exact ⟨i1.schema.trans i2.schema, i1.comp.trans i2.comp, fun l d => (i1.dist l d).trans (i2.dist l d),
      i1.sources.trans i2.sources, i1.own.trans i2.own⟩
  | swap e v w a b => exact same_swap h cat e v w a b
  | both e v w a b => exact same_both h cat e v w a b
  | selectTwice e hs ha => exact same_selectTwice hs ha
  | filterSelect e v hr hv hv' => exact same_filterSelect hr hv hv'
  | filterDrop e v a cols hv hv' => exact same_filterDrop hv hv'
  | filterDropInf e v a cols hv hv' => exact same_filterDropInf hv hv'
  | filterMap e v new hf hv hv' => exact same_filterMap hf hv hv'
  | filterFlatMap e v new n hf hv hv' => exact same_filterFlatMap hf hv hv'
  | joinPrivate tl tr cols _ _ i1 i2 =>
    refine ⟨by simp only [schemaOf, i1.schema, i2.schema], by simp only [compile, i1.comp, i2.comp], fun l d => ?_,
      by simp only [Expr.sources, i1.sources, i2.sources], rfl⟩
    simp only [distOf, i1.dist, i2.dist]
  | joinPublic p cols how _ ih =>
    refine ⟨by simp only [schemaOf, ih.schema], by simp only [compile, ih.comp], fun l d => ?_, ih.sources, ih.own⟩
    simp only [distOf, ih.dist, publicStability, ih.comp]
  | flatMap f new aug n _ ih =>
    exact ⟨by simp only [schemaOf, ih.schema], by simp only [compile, ih.comp], fun l d => by simp only [distOf, ih.dist],
      ih.sources, by simp only [ownGroups, ih.own]⟩
  | _ =>
    rename_i ih
    exact ⟨by simp only [schemaOf, ih.schema], by simp only [compile, ih.comp], fun l d => by simp only [distOf, ih.dist],
      ih.sources, ih.own⟩

/-- Plans that differ only in equivalent expressions. -/
def SamePlan (h : Hash) (cat : Cat) : Except PyErr Plan → Except PyErr Plan → Prop
  | .error x, .error y => x = y
  | .ok p, .ok p' => Same h cat p.child p'.child ∧ p' = { p with child := p'.child }
  | _, _ => False

theorem SamePlan.rfl' {h : Hash} {cat : Cat} (r : Except PyErr Plan) : SamePlan h cat r r := by
  cases r with
  | error x => exact rfl
  | ok p => exact ⟨⟨rfl, rfl, fun _ _ => rfl, rfl, rfl⟩, rfl⟩

theorem Same.dropNull {h : Hash} {cat : Cat} {e e' : Expr} (ih : Same h cat e e') (cols : List String) :
    Same h cat (e.dropNull cols) (e'.dropNull cols) :=
  ⟨by simp only [schemaOf, ih.schema], by simp only [compile, ih.comp], fun l d => by simp only [distOf, ih.dist], ih.sources,
    ih.own⟩

theorem Same.dropInf {h : Hash} {cat : Cat} {e e' : Expr} (ih : Same h cat e e') (cols : List String) :
    Same h cat (e.dropInf cols) (e'.dropInf cols) :=
  ⟨by simp only [schemaOf, ih.schema], by simp only [compile, ih.comp], fun l d => by simp only [distOf, ih.dist], ih.sources,
    ih.own⟩

theorem Same.replaceInf {h : Hash} {cat : Cat} {e e' : Expr} (ih : Same h cat e e') (w : Dict String (Value × Value)) :
    Same h cat (e.replaceInf w) (e'.replaceInf w) :=
  ⟨by simp only [schemaOf, ih.schema], by simp only [compile, ih.comp], fun l d => by simp only [distOf, ih.dist], ih.sources,
    ih.own⟩

theorem Same.enforce {h : Hash} {cat : Cat} {e e' : Expr} (ih : Same h cat e e') (c : Constraint) :
    Same h cat (e.enforce c) (e'.enforce c) :=
  ⟨by simp only [schemaOf, ih.schema], by simp only [compile, ih.comp], fun l d => by simp only [distOf, ih.dist], ih.sources,
    ih.own⟩

theorem agg_schema_same {h : Hash} {cat : Cat} {a : Agg} {e : Expr} (hs : Same h cat a.child e) :
    Agg.schema cat { a with child := e } = Agg.schema cat a := by
  unfold Agg.schema
  dsimp only
  rw [hs.schema]
  rfl

theorem start_same {env : Query.Env} {a : Agg} {e : Expr} (hs : Same env.h env.cat a.child e) (b : PB) :
    start env b { a with child := e } = start env b a := by
  unfold start
  rw [agg_schema_same hs]

theorem visitChild_same {h : Hash} {cat : Cat} {e e' : Expr} (hs : Same h cat e e') : visitChild h cat e' = visitChild h cat e := by
  unfold visitChild
  rw [hs.comp, hs.schema]

theorem visitCount_same {env : Query.Env} {a : Agg} {e : Expr} (hs : Same env.h env.cat a.child e) (b : PB) :
    SamePlan env.h env.cat (visitCount env b a) (visitCount env b { a with child := e }) := by
  unfold visitCount
  rw [start_same hs, visitChild_same hs]
  dsimp only
  split
  · exact rfl
  split
  · exact rfl
  split
  · exact rfl
  split
  · exact rfl
  exact ⟨hs, rfl⟩

theorem visitOther_same {env : Query.Env} {a : Agg} {e : Expr} (hs : Same env.h env.cat a.child e) (b : PB)
    (mech : Except PyErr (Option CoreMech)) (l2 : CoreMech → Bool) (task : Task) :
    SamePlan env.h env.cat (visitOther env b a mech l2 task) (visitOther env b { a with child := e } mech l2 task) := by
  unfold visitOther
  rw [start_same hs, visitChild_same hs]
  dsimp only
  split
  · exact rfl
  split
  · exact rfl
  split
  · exact rfl
  split
  · exact rfl
  exact ⟨hs, rfl⟩

theorem visitCountDistinct_same {env : Query.Env} {a : Agg} {e : Expr} (hs : Same env.h env.cat a.child e) (b : PB)
    (toCount : List String) (mech : Mech) :
    SamePlan env.h env.cat (visitCountDistinct env b a toCount mech)
      (visitCountDistinct env b { a with child := e } toCount mech) := by
  unfold visitCountDistinct
  rw [start_same hs, visitChild_same hs, hs.schema]
  dsimp only
  split
  · exact rfl
  split
  · exact rfl
  split
  · exact rfl
  split
  · exact rfl
  split
  · next k _ =>
    exact visitCount_same (a := { a with child := a.child.enforce k, kind := .count mech }) (hs.enforce k) b
  split
  · exact rfl
  split
  · exact ⟨hs, rfl⟩
  split
  · exact rfl
  split
  · exact rfl
  split
  · exact rfl
  exact ⟨hs, rfl⟩

theorem visitAgg_same {env : Query.Env} {a : Agg} {e : Expr} (hs : Same env.h env.cat a.child e) (b : PB) :
    SamePlan env.h env.cat (visitAgg env b a) (visitAgg env b { a with child := e }) := by
  unfold visitAgg
  dsimp only [coreOf]
  split
  · exact visitCount_same hs b
  · exact visitCountDistinct_same hs b _ _
  · exact visitOther_same hs b _ _ _
  · exact visitOther_same hs b _ _ _
  · exact visitOther_same hs b _ _ _

/-- Aggregations that differ only in equivalent expressions. -/
def SameAgg (h : Hash) (cat : Cat) : Except PyErr Agg → Except PyErr Agg → Prop
  | .error x, .error y => x = y
  | .ok a, .ok a' => Same h cat a.child a'.child ∧ a' = { a with child := a'.child }
  | _, _ => False

theorem specialValues_same {h : Hash} {cat : Cat} {a : Agg} {e : Expr} (hs : Same h cat a.child e) :
    SameAgg h cat (specialValues cat a) (specialValues cat { a with child := e }) := by
  have h1 : ∀ (p : Bool) (c : String), Same h cat (if p = true then a.child.dropNull [c] else a.child)
      (if p = true then e.dropNull [c] else e) := by
    intro p c
    cases p
    · exact hs
    · exact hs.dropNull _
  unfold specialValues
  dsimp only
  rw [hs.schema]
  split
  · exact ⟨hs, rfl⟩
  split
  · exact rfl
  split
  · exact rfl
  split
  · split
    · split
      · exact ⟨(h1 _ _).replaceInf _, rfl⟩
      · exact rfl
    · split
      · exact ⟨(h1 _ _).replaceInf _, rfl⟩
      · exact rfl
    · exact ⟨(h1 _ _).dropInf _, rfl⟩
  · exact ⟨h1 _ _, rfl⟩

theorem selectNoise_same {h : Hash} {cat : Cat} (m : Measure) {a : Agg} {e : Expr} (hs : Same h cat a.child e) :
    SameAgg h cat (selectNoise m cat a) (selectNoise m cat { a with child := e }) := by
  unfold selectNoise
  dsimp only
  rw [hs.schema]
  split
  · split
    · exact rfl
    · exact ⟨hs, rfl⟩
  · split
    · exact rfl
    · exact ⟨hs, rfl⟩
  · split
    · exact rfl
    split
    · exact rfl
    split
    · exact rfl
    · exact ⟨hs, rfl⟩
  · exact ⟨hs, rfl⟩

theorem rewriteAgg_same {h : Hash} {cat : Cat} (m : Measure) {a : Agg} {e : Expr} (hs : Same h cat a.child e) :
    SameAgg h cat (rewriteAgg m cat a) (rewriteAgg m cat { a with child := e }) := by
  unfold rewriteAgg
  have := specialValues_same hs
  revert this
  cases specialValues cat a <;> cases specialValues cat { a with child := e } <;> intro this
  · exact this
  · exact this.elim
  · exact this.elim
  · obtain ⟨h1, h2⟩ := this
    show SameAgg h cat (selectNoise m cat _) (selectNoise m cat _)
    rw [h2]
    exact selectNoise_same m h1

theorem withChild_schema {h : Hash} {cat : Cat} {q : Query} {e : Expr} (hs : Same h cat (child q) e) :
    (withChild e q).schema cat = q.schema cat := by
  cases q with
  | agg a => exact agg_schema_same hs
  | groups e' cols =>
    show groupsSchema cat e cols = groupsSchema cat e' cols
    unfold groupsSchema
    rw [show schemaOf cat e = schemaOf cat e' from hs.schema.symm]
  | suppress a col t => exact agg_schema_same hs

theorem compileQuery_same {env : Query.Env} {q : Query} {e : Expr} (hs : Same env.h env.cat (child q) e) (b : PB) :
    SamePlan env.h env.cat (compileQuery env b q) (compileQuery env b (withChild e q)) := by
  unfold compileQuery
  rw [withChild_schema hs]
  split
  · exact rfl
  cases q with
  | agg a =>
    have := rewriteAgg_same env.m hs
    revert this
    simp only [withChild, rewrite, child]
    cases rewriteAgg env.m env.cat a <;> cases rewriteAgg env.m env.cat { a with child := e } <;> intro this
    · exact this
    · exact this.elim
    · exact this.elim
    · obtain ⟨h1, h2⟩ := this
      show SamePlan _ _ (visitAgg env b _) (visitAgg env b _)
      rw [h2]
      exact visitAgg_same h1 b
  | groups e' cols =>
    show SamePlan _ _ (visitGroups env b e' cols) (visitGroups env b e cols)
    have hs : Same env.h env.cat e' e := hs
    unfold visitGroups
    rw [visitChild_same hs, hs.schema]
    split
    · split
      · exact rfl
      rename_i s _
      dsimp only
      generalize (if cols ≠ [] then cols else (Schema.keys s).filter (fun c => decide (s.idColumn ≠ some c))) = columns
      split
      · exact rfl
      split
      · exact rfl
      split
      · exact rfl
      split
      · exact rfl
      exact ⟨hs, rfl⟩
    · exact rfl
  | suppress a col t =>
    have := rewriteAgg_same env.m hs
    revert this
    simp only [withChild, rewrite, child]
    cases rewriteAgg env.m env.cat a <;> cases rewriteAgg env.m env.cat { a with child := e } <;> intro this
    · exact this
    · exact this.elim
    · exact this.elim
    · obtain ⟨h1, h2⟩ := this
      show SamePlan _ _ (visit env b (.suppress _ col t)) (visit env b (.suppress _ col t))
      rw [h2]
      dsimp only [visit]
      split
      · have := visitCount_same h1 b
        revert this
        generalize visitCount env b _ = x, visitCount env b _ = y
        intro this
        cases x <;> cases y
        · exact this
        · exact this.elim
        · exact this.elim
        · obtain ⟨h3, h4⟩ := this
          exact ⟨h3, by rw [h4]⟩
      · exact rfl

theorem compileM_same {ctx : Ctx} {tables : List (String × Tab)} {pub : List (String × PubFrame)} {q : Query} {e : Expr}
    (ok : Admissible (child q)) (ok' : Admissible (child (withChild e q)))
    (hs : ∀ cat, catalog tables pub = .ok cat → Same ctx.h cat (child q) e) (b : PB) :
    compileM ctx tables pub (.query (withChild e q) ok') b = compileM ctx tables pub (.query q ok) b := by
  have hg : Stability.groupCols (withChild e q) = Stability.groupCols q := by cases q <;> rfl
  dsimp only [compileM]
  split
  · rfl
  cases hcat : catalog tables pub with
  | error x => rfl
  | ok cat =>
    dsimp only
    have := compileQuery_same (env := ⟨ctx.h, ctx.order, ctx.m, cat⟩) (hs cat hcat) b
    revert this
    cases compileQuery ⟨ctx.h, ctx.order, ctx.m, cat⟩ b q <;>
      cases compileQuery ⟨ctx.h, ctx.order, ctx.m, cat⟩ b (withChild e q) <;> intro this
    · rw [show _ = _ from this]
    · exact this.elim
    · exact this.elim
    · rename_i p p'
      obtain ⟨h1, h2⟩ := this
      generalize p'.child = e' at h1 h2
      subst h2
      have h1 : Same ctx.h cat p.child e' := h1
      dsimp only
      rw [← h1.comp]
      cases compile ctx.h cat p.child with
      | error x => rfl
      | ok o =>
      dsimp only
      have hr : rootMetric ctx.m (Stability.groupCols q) o { p with child := e' } = rootMetric ctx.m (Stability.groupCols q) o p := by
        unfold rootMetric innerOf visitL2
        dsimp only
        rw [h1.own]
      have ho : outDist (visitL2 p) ctx.h cat tables o e' = outDist (visitL2 p) ctx.h cat tables o p.child := by
        unfold outDist
        rw [h1.sources, h1.dist]
      have hp : planDelta ctx.m ctx.h cat tables (Stability.groupCols q) o { p with child := e' } =
          planDelta ctx.m ctx.h cat tables (Stability.groupCols q) o p := by
        unfold planDelta
        cases ht : p.trunc with
        | none =>
          simp only [ht]
          exact ho
        | some tr =>
          simp only [ht]
          exact congrArg (· * _) ho
      have hc : callDelta ctx.m ctx.h cat tables (Stability.groupCols q) o { p with child := e' } =
          callDelta ctx.m ctx.h cat tables (Stability.groupCols q) o p := by
        unfold callDelta
        rw [hr, hp]
      rw [hg, hr, hc]

theorem transform_same {ctx : Ctx} {tables : List (String × Tab)} {pub : List (String × PubFrame)} {e e' : Expr}
    (ok : Admissible e) (ok' : Admissible e') (hs : ∀ cat, catalog tables pub = .ok cat → Same ctx.h cat e e') :
    transform ctx tables pub (.table e' ok') = transform ctx tables pub (.table e ok) := by
  dsimp only [transform]
  cases hcat : catalog tables pub with
  | error x => rfl
  | ok cat =>
    dsimp only
    have h1 := hs cat hcat
    have hb : build ctx.h cat e' = build ctx.h cat e := by
      unfold build
      rw [h1.schema, h1.comp]
    rw [hb]
    split
    · rfl
    · rename_i o _
      unfold outDist
      rw [h1.sources, h1.dist]

/-! ## C80 -/

/-- Expressions that are alike in the catalog of a session. -/
def EquivalentIn (ctx : Ctx) (w : Session.World Meas Tab PubFrame) (i : Nat) (e e' : Expr) : Prop :=
  ∀ n, w.nodes[i]? = some n → ∀ cat, catalog n.tables (w.pubOf n) = .ok cat → Equivalent ctx.h cat e e'

/-- **C80** for `evaluate`: a query on a table that is written in another way raises the same exception or gives the same
answer, that is, core is asked for the same and answers with the same distribution, and leaves the session in the same
state. -/
theorem C80_evaluate {ctx : Ctx} {w : Session.World Meas Tab PubFrame} {i : Nat} {q : Query} {e : Expr}
    (h : EquivalentIn ctx w i (child q) e) (ok : Admissible (child q)) (ok' : Admissible (child (withChild e q))) (b : PB) :
    Session.step (env ctx) w (.evaluate i (.query (withChild e q) ok') b) =
      Session.step (env ctx) w (.evaluate i (.query q ok) b) := by
  show Session.evaluate _ _ _ _ _ = Session.evaluate _ _ _ _ _
  unfold Session.evaluate
  cases hn : w.nodes[i]? with
  | none => rfl
  | some n =>
    dsimp only
    have hc : Session.compileInfo (env ctx) w n (.query (withChild e q) ok') b =
        Session.compileInfo (env ctx) w n (.query q ok) b := by
      unfold Session.compileInfo
      simp only [show ∀ adj, (env ctx).compile n.tables (w.pubOf n) (.query (withChild e q) ok') adj =
        (env ctx).compile n.tables (w.pubOf n) (.query q ok) adj from
          fun adj => compileM_same ok ok' (fun cat hcat => equivalent_same (h n hn cat hcat)) adj]
    rw [hc]

/-- **C80** for `create_view`: the view of a table that is written in another way is the same. -/
theorem C80_view {ctx : Ctx} {w : Session.World Meas Tab PubFrame} {i : Nat} {e e' : Expr} (h : EquivalentIn ctx w i e e')
    (ok : Admissible e) (ok' : Admissible e') (name : String) :
    Session.step (env ctx) w (.createView i (.table e' ok') name) =
      Session.step (env ctx) w (.createView i (.table e ok) name) := by
  show Session.createView _ _ _ _ _ = Session.createView _ _ _ _ _
  unfold Session.createView
  cases hn : w.nodes[i]? with
  | none => rfl
  | some n =>
    dsimp only
    cases ha : Session.activate w.nodes i with
    | error x => rfl
    | ok ns =>
      dsimp only
      rw [Session.activate_self hn ha]
      dsimp only
      rw [show (env ctx).transform n.tables (w.pubOf { n with state := .active }) (.table e' ok') =
        (env ctx).transform n.tables (w.pubOf { n with state := .active }) (.table e ok) from
          transform_same ok ok' (fun cat hcat => equivalent_same (h n hn cat hcat))]

end Verif.Whole
