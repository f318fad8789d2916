import Verif.Expr.PropsIds
import Verif.Expr.Agree
import Verif.Expr.Alike

/-!
# Tables that are defined by expressions can be written out (C88)
-/

namespace Verif.Expr

open Verif Verif.Schema Verif.Constraint

/-! ## Specification -/

/-- An expression in which table `name` is replaced by the expression `v`. -/
def inline (name : String) (v : Expr) : Expr → Expr
  | .source id => if id = name then v else .source id
  | .rename e m => .rename (inline name v e) m
  | .filter e valid cond => .filter (inline name v e) valid cond
  | .select e cols => .select (inline name v e) cols
  | .map e f new augment => .map (inline name v e) f new augment
  | .flatMap e f new augment n => .flatMap (inline name v e) f new augment n
  | .flatMapByID e f new => .flatMapByID (inline name v e) f new
  | .joinPrivate l r tl tr cols => .joinPrivate (inline name v l) (inline name v r) tl tr cols
  | .joinPublic e pub cols how => .joinPublic (inline name v e) pub cols how
  | .replaceNull e w => .replaceNull (inline name v e) w
  | .replaceInf e w => .replaceInf (inline name v e) w
  | .dropNull e cols => .dropNull (inline name v e) cols
  | .dropInf e cols => .dropInf (inline name v e) cols
  | .enforce e c => .enforce (inline name v e) c

/-- The data with table `name` computed from the others. -/
def withTable (name : String) (f : Data → Table) (D : Data) : Data := fun n => if n = name then f D else D n

/-- In the catalog `cat'`, table `name` is what `v` is in the catalog `cat`, with a schema that is the same to Spark; all else is
the same. -/
structure Defines (h : Hash) (cat cat' : Cat) (name : String) (v : Expr) (s : Schema) (o : Out) : Prop where
  notPublic : name ∉ Dict.keys cat.pub
  pub : cat'.pub = cat.pub
  get : Dict.get cat'.priv name = some (s, o.cons)
  other : ∀ id, id ≠ name → Dict.get cat'.priv id = Dict.get cat.priv id
  schema : ∃ s₀, schemaOf cat v = .ok s₀ ∧ Alike s₀ s
  comp : compile h cat v = .ok o
  dom : o.dom = analyticsToSparkColumns s
  metric : o.metric = metricOf s
  space : o.space = s.idSpace

/-! ## Proofs -/

/-- A compiled expression, of which the data is computed first. -/
def Out.after (f : Data → Data) (o : Out) : Out := { o with run := fun D => o.run (f D) }

variable {h : Hash} {cat cat' : Cat} {name : String} {v : Expr} {s : Schema} {o : Out}

theorem resolvePub_eq (hp : cat'.pub = cat.pub) (pub : PubRef) : resolvePub cat' pub = resolvePub cat pub := by
  cases pub <;> simp only [resolvePub, hp]

theorem schemaOf_inline (d : Defines h cat cat' name v s o) (e : Expr) (hf : FiltersBySpark e) :
    AlikeE (schemaOf cat (inline name v e)) (schemaOf cat' e) := by
  induction e with
  | source id =>
    dsimp only [inline]
    split
    · next hid =>
      subst hid
      obtain ⟨s₀, h1, h2⟩ := d.schema
      rw [h1]
      simp only [schemaOf, schSource, d.pub, d.notPublic, d.get, if_false]
      exact h2
    · next hid =>
      simp only [schemaOf, schSource, d.pub, d.other id hid]
      exact alikeE_refl _
  | rename e m ih => exact bind_alike (ih hf) fun _ _ => rename_alike m
  | filter e valid cond ih => exact bind_alike (ih hf.1) fun _ _ => filter_alike hf.2
  | select e cols ih => exact bind_alike (ih hf) fun _ _ => select_alike cols
  | map e f new augment ih => exact bind_alike (ih hf) fun _ _ => map_alike new augment
  | flatMap e f new augment n ih => exact bind_alike (ih hf) fun _ _ => flatMap_alike new augment
  | flatMapByID e f new ih => exact bind_alike (ih hf) fun _ _ => flatMapByID_alike new
  | joinPrivate l r tl tr cols ihl ihr =>
    exact bind_alike (ihl hf.1) fun _ _ a => bind_alike (ihr hf.2) fun _ _ b => joinPrivate_alike cols a b
  | joinPublic e pub cols how ih => exact bind_alike (ih hf) fun _ _ => joinPublic_alike d.pub pub cols how
  | replaceNull e w ih => exact bind_alike (ih hf) fun _ _ => replaceNull_alike w
  | replaceInf e w ih => exact bind_alike (ih hf) fun _ _ => replaceInf_alike w
  | dropNull e cols ih => exact bind_alike (ih hf) fun _ _ => dropNull_alike cols
  | dropInf e cols ih => exact bind_alike (ih hf) fun _ _ => dropInf_alike cols
  | enforce e c ih => exact bind_alike (ih hf) fun _ _ => enforce_alike c

/-- Every visit passes the table on. -/
theorem bind_after {f : Data → Data} {x y : Except PyErr Out} (hx : x = y.map (Out.after f))
    {g : Out → Except PyErr Out} (hg : ∀ o, g (o.after f) = (g o).map (Out.after f)) :
    x.bind g = (y.bind g).map (Out.after f) := by
  subst hx
  cases y with
  | error e => rfl
  | ok o => exact hg o

theorem compile_inline (d : Defines h cat cat' name v s o) (e : Expr) :
    compile h cat (inline name v e) = (compile h cat' e).map (Out.after (withTable name o.run)) := by
  induction e with
  | source id =>
    simp only [inline, compile]
    split
    · next hid =>
      subst hid
      rw [d.comp]
      simp only [visitSource, d.get, Except.map, Out.after, withTable, if_true, ← d.dom, ← d.metric, ← d.space]
    · next hid =>
      simp only [compile, visitSource, d.other id hid]
      cases Dict.get cat.priv id with
      | none => rfl
      | some x => simp [Except.map, Out.after, withTable, hid]
  | rename e m ih =>
    refine bind_after ih fun o => ?_
    dsimp only [visitRename, Out.after]
    repeat' split
    all_goals rfl
  | filter e valid cond ih => exact bind_after ih fun o => rfl
  | select e cols ih =>
    refine bind_after ih fun o => ?_
    dsimp only [visitSelect, Out.after]
    repeat' split
    all_goals rfl
  | map e f new augment ih =>
    refine bind_after ih fun o => ?_
    dsimp only [visitMap, Out.after]
    repeat' split
    all_goals rfl
  | flatMap e f new augment n ih =>
    refine bind_after ih fun o => ?_
    obtain ⟨dom, metric, space, cons, run⟩ := o
    dsimp only [visitFlatMap, Out.after]
    split
    · rfl
    · cases metric with
      | ids i =>
        dsimp only
        repeat' split
        all_goals rfl
      | symDiff =>
        dsimp only
        cases n with
        | none => rfl
        | some n =>
          dsimp only
          split
          · rfl
          · cases new.grouping <;> rfl
      | grouped g =>
        dsimp only
        cases n with
        | none => rfl
        | some n =>
          dsimp only
          split
          · rfl
          · cases new.grouping <;> rfl
  | flatMapByID e f new ih =>
    refine bind_after ih fun o => ?_
    obtain ⟨dom, metric, space, cons, run⟩ := o
    dsimp only [visitFlatMapByID, Out.after]
    cases metric with
    | ids i =>
      dsimp only
      cases Dict.get dom i with
      | none => rfl
      | some x =>
        dsimp only
        split <;> rfl
    | symDiff => rfl
    | grouped g => rfl
  | joinPrivate l r tl tr cols ihl ihr =>
    simp only [inline, compile]
    rw [ihl, ihr]
    cases compile h cat' l with
    | error e => rfl
    | ok ol =>
      cases compile h cat' r with
      | error e => rfl
      | ok or =>
        obtain ⟨dom, metric, space, cons, run⟩ := ol
        obtain ⟨dom', metric', space', cons', run'⟩ := or
        simp only [Except.map, Except.bind, Out.after, visitJoinPrivate]
        split
        · rfl
        · cases domainAfterJoin .inner dom dom' (joinCols (Dict.keys dom) (Dict.keys dom') cols) with
          | error e => rfl
          | ok dm =>
            cases metric <;> cases metric' <;> dsimp only <;> try rfl
            · cases tl <;> cases tr <;> rfl
            · split
              · rfl
              · split <;> rfl
  | joinPublic e pub cols how ih =>
    have hv : visitJoinPublic cat pub cols how = visitJoinPublic cat' pub cols how := by
      funext x
      simp only [visitJoinPublic, resolvePub_eq d.pub]
    simp only [inline, compile, hv]
    refine bind_after ih fun o => ?_
    obtain ⟨dom, metric, space, cons, run⟩ := o
    simp only [visitJoinPublic, Out.after]
    cases resolvePub cat' pub with
    | error e => rfl
    | ok x =>
      obtain ⟨ps, pt⟩ := x
      dsimp only
      generalize domainAfterJoin _ _ _ _ = y
      cases y with
      | error e => rfl
      | ok dm =>
        dsimp only
        by_cases hc : metric.col.any (fun c => decide (c ∈ overlap (Dict.keys dom)
            (Dict.keys (analyticsToSparkColumns ps))
            (joinCols (Dict.keys dom) (Dict.keys (analyticsToSparkColumns ps)) cols))) = true
        · rw [if_pos hc]
          exact if_pos hc
        · rw [if_neg hc]
          exact if_neg hc
  | replaceNull e w ih =>
    refine bind_after ih fun o => ?_
    obtain ⟨dom, metric, space, cons, run⟩ := o
    dsimp only [visitReplaceNull, Out.after]
    split
    · rfl
    · cases replaceWith w dom metric.col <;> rfl
  | replaceInf e w ih =>
    refine bind_after ih fun o => ?_
    dsimp only [visitReplaceInf, Out.after]
    split <;> rfl
  | dropNull e cols ih =>
    refine bind_after ih fun o => ?_
    dsimp only [visitDropNull, Out.after]
    repeat' split
    all_goals rfl
  | dropInf e cols ih =>
    refine bind_after ih fun o => ?_
    dsimp only [visitDropInf, Out.after]
    repeat' split
    all_goals rfl
  | enforce e c ih =>
    refine bind_after ih fun o => ?_
    obtain ⟨dom, metric, space, cons, run⟩ := o
    dsimp only [visitEnforce, Out.after]
    cases metric with
    | ids i =>
      dsimp only
      split <;> rfl
    | symDiff => rfl
    | grouped g => rfl

theorem dict_ext {V : Type} {a b : Dict String V} (wb : Dict.WF b) (hk : Dict.keys a = Dict.keys b)
    (hg : ∀ p ∈ a, Dict.get b p.1 = some p.2) : a = b := by
  refine List.ext_getElem (by simpa [Dict.keys] using congrArg List.length hk) fun n h1 h2 => ?_
  have hk' : a[n].1 = b[n].1 := by
    have : (Dict.keys a)[n]? = (Dict.keys b)[n]? := by rw [hk]
    simpa [Dict.keys, h1, h2] using this
  have hv := hg a[n] (List.getElem_mem h1)
  have hb : Dict.get b b[n].1 = some b[n].2 := (Dict.get_eq_some wb).2 (List.getElem_mem h2)
  rw [hk', hb] at hv
  exact Prod.ext hk' (Option.some.inj hv).symm

/-- An expression that `build` accepts defines a table with the columns and the metric its schema says. -/
theorem build_exact (hc : cat.OK) (hv : v.WF) (hb : build h cat v = .ok (s, o)) :
    schemaOf cat v = .ok s ∧ compile h cat v = .ok o ∧ o.dom = analyticsToSparkColumns s ∧ o.metric = metricOf s ∧
      o.space = s.idSpace := by
  unfold build at hb
  split at hb
  · cases hb
  next s' hs =>
  split at hb
  · cases hb
  next o' ho =>
  split at hb
  · cases hb
  next hval =>
  cases hb
  have a := agree hc v hv hs ho
  unfold validate at hval
  split at hval
  · cases hval
  split at hval
  · cases hval
  next hd =>
  split at hval
  · cases hval
  next hm =>
  refine ⟨hs, ho, ?_, not_not.1 hm, a.space⟩
  have hd : Dict.pyEq o.dom (analyticsToSparkColumns s) = true := by simpa using hd
  have hk : Dict.keys o.dom = Dict.keys (analyticsToSparkColumns s) := a.keys.trans (keys_analytics a.wfs).symm
  have hsame : ∀ p ∈ o.dom, Dict.get (analyticsToSparkColumns s) p.1 = some p.2 := by
    unfold Dict.pyEq at hd
    simp only [Bool.and_eq_true, List.all_eq_true, decide_eq_true_eq] at hd
    exact hd.2
  exact dict_ext (wf_analytics s) hk hsame

end Verif.Expr
