import Verif.Query.Model
import Verif.Expr.Inline

/-!
# Queries about tables that are defined by expressions (C88)
-/

namespace Verif.Query

open Verif Verif.Schema Verif.Expr Verif.Constraint Verif.Budget

/-! ## Specification -/

/-- An aggregation of an expression in which table `name` is written out. -/
def Agg.inline (name : String) (v : Expr) (a : Agg) : Agg := { a with child := Expr.inline name v a.child }

/-- A query in which table `name` is written out. -/
def Query.inline (name : String) (v : Expr) : Query → Query
  | .agg a => .agg (Agg.inline name v a)
  | .groups e cols => .groups (Expr.inline name v e) cols
  | .suppress a col t => .suppress (Agg.inline name v a) col t

/-- A plan in which table `name` is written out, and computed first. -/
def Plan.inline (name : String) (v : Expr) (run : Data → Table) (p : Plan) : Plan :=
  { p with prep := fun D => p.prep (withTable name run D), child := Expr.inline name v p.child }

/-! ## Proofs -/

variable {env env' : Env} {name : String} {v : Expr} {s : Schema} {o : Out}

/-- The surroundings agree but for the catalog, in which table `name` is defined. -/
structure DefinesIn (env env' : Env) (name : String) (v : Expr) (s : Schema) (o : Out) : Prop where
  h : env'.h = env.h
  order : env'.order = env.order
  m : env'.m = env.m
  cat : Defines env.h env.cat env'.cat name v s o

/-- What the conditions of all filters in a query need: they are checked on the columns that Spark sees. -/
def Query.FiltersBySpark : Query → Prop
  | .agg a => Expr.FiltersBySpark a.child
  | .groups e _ => Expr.FiltersBySpark e
  | .suppress a _ _ => Expr.FiltersBySpark a.child

theorem checkKeySet_alike {s s' : Schema} (a : Alike s s') (k : Dict String Desc) : checkKeySet s k = checkKeySet s' k := by
  induction k with
  | nil => rfl
  | cons p k ih =>
    obtain ⟨c, d⟩ := p
    dsimp only [checkKeySet]
    rcases a.get c with ⟨h1, h2⟩ | ⟨d, d', h1, h2, h3⟩
    · rw [h1, h2]
    · rw [h1, h2, ih]
      dsimp only
      rw [(toSpark_eq h3).1]

theorem validateGroupby_alike {s s' : Schema} (a : Alike s s') (keys : Keys) (m : Option String) :
    validateGroupby keys m s = validateGroupby keys m s' := by
  have h1 : checkKeys s keys = checkKeys s' keys := by
    cases keys with
    | set k => exact checkKeySet_alike a _
    | cols cs => simp only [checkKeys, a.keys]
  have h2 : ∀ c, checkMeasure s c = checkMeasure s' c := by
    intro c
    unfold checkMeasure
    rcases a.get c with ⟨h1, h2⟩ | ⟨d, d', h1, h2, h3⟩
    · rw [h1, h2]
    · rw [h1, h2, a.idColumn]
      dsimp only
      rw [(toSpark_eq h3).1]
  unfold validateGroupby
  simp only [h1, h2, a.grouping]

theorem schemaForGroupby_alike {s s' : Schema} (al : Alike s s') (name : String) (v : Expr) (a : Agg) :
    AlikeE (schemaForGroupby (Agg.inline name v a) s) (schemaForGroupby a s') := by
  have hm : (a.kind.measure.bind fun c => (Dict.get s.descs c).map Desc.ty) =
      a.kind.measure.bind fun c => (Dict.get s'.descs c).map Desc.ty := by
    cases a.kind.measure with
    | none => rfl
    | some c => exact al.getTy c
  unfold schemaForGroupby
  dsimp only [Agg.inline]
  rw [hm]
  refine mk_alike ?_ _ _ _
  rw [sig_union, sig_union, sig_ofPairs, sig_ofPairs, sig_pick, sig_pick, al.sig]

theorem aggSchema_inline (d : DefinesIn env env' name v s o) (a : Agg) (hf : FiltersBySpark a.child) :
    AlikeE ((Agg.inline name v a).schema env.cat) (a.schema env'.cat) := by
  unfold Agg.schema
  dsimp only [Agg.inline]
  rcases alikeE_cases (schemaOf_inline d.cat a.child hf) with ⟨e, h1, h2⟩ | ⟨s, s', h1, h2, al⟩
  · rw [h1, h2]
    rfl
  · rw [h1, h2]
    dsimp only
    rw [validateGroupby_alike al]
    cases validateGroupby a.keys a.kind.measure s' with
    | error e => rfl
    | ok x => exact schemaForGroupby_alike al name v a

theorem groupsSchema_alike {s s' : Schema} (al : Alike s s') (cols : List String) :
    AlikeE (mk (s.descs.filter (fun p => decide (s.idColumn ≠ some p.1))) none none none)
      (mk (s'.descs.filter (fun p => decide (s'.idColumn ≠ some p.1))) none none none) := by
  refine mk_alike ?_ _ _ _
  rw [al.idColumn]
  have : ∀ l : Dict String Desc, sig (l.filter (fun p => decide (s'.idColumn ≠ some p.1))) =
      (sig l).filter (fun p => decide (s'.idColumn ≠ some p.1)) := by
    intro l
    unfold sig
    rw [List.filter_map]
    rfl
  rw [this, this, al.sig]

theorem querySchema_inline (d : DefinesIn env env' name v s o) (q : Query) (hf : Query.FiltersBySpark q) :
    AlikeE ((Query.inline name v q).schema env.cat) (q.schema env'.cat) := by
  cases q with
  | agg a => exact aggSchema_inline d a hf
  | groups e cols =>
    dsimp only [Query.schema, Query.inline, groupsSchema]
    rcases alikeE_cases (schemaOf_inline d.cat e hf) with ⟨e, h1, h2⟩ | ⟨s, s', h1, h2, al⟩
    · rw [h1, h2]
      rfl
    · rw [h1, h2]
      dsimp only
      rw [al.keys]
      split
      · rfl
      split
      · exact mk_alike (by rw [sig_ofPairs, sig_ofPairs, sig_pick, sig_pick, al.sig]) _ _ _
      · exact groupsSchema_alike al cols
  | suppress a col t => exact aggSchema_inline d a hf

theorem specialValues_inline (d : DefinesIn env env' name v s o) (a : Agg) (hf : FiltersBySpark a.child) :
    specialValues env.cat (Agg.inline name v a) = (specialValues env'.cat a).map (Agg.inline name v) := by
  unfold specialValues
  dsimp only [Agg.inline]
  cases a.kind.measure with
  | none => rfl
  | some c =>
    dsimp only
    rcases alikeE_cases (schemaOf_inline d.cat a.child hf) with ⟨e, h1, h2⟩ | ⟨s, s', h1, h2, al⟩
    · rw [h1, h2]
      rfl
    · rw [h1, h2]
      dsimp only
      rcases al.get c with ⟨h1, h2⟩ | ⟨d1, dd, h1, h2, h3⟩
      · rw [h1, h2]
        rfl
      · rw [h1, h2]
        dsimp only
        obtain ⟨e1, e2, e3⟩ := toSpark_eq h3
        have e4 : (d1.allowNull || (decide (d1.ty = .DECIMAL) && d1.allowNan)) =
            (dd.allowNull || (decide (dd.ty = .DECIMAL) && dd.allowNan)) := by
          by_cases ht : d1.ty = .DECIMAL
          · rw [e3 ht]
          · rw [← e1, e2]
            simp [ht]
        have e5 : (decide (d1.ty = .DECIMAL) && d1.allowInf) = (decide (dd.ty = .DECIMAL) && dd.allowInf) := by
          by_cases ht : d1.ty = .DECIMAL
          · rw [e3 ht]
          · rw [← e1]
            simp [ht]
        rw [e4, e5]
        by_cases h1 : (dd.allowNull || (decide (dd.ty = .DECIMAL) && dd.allowNan)) = true
        all_goals
          simp only [h1, if_true]
          by_cases h2 : (decide (dd.ty = .DECIMAL) && dd.allowInf) = true
        all_goals simp only [h2, if_true]
        all_goals first | rfl | skip
        all_goals cases a.kind <;> dsimp only
        all_goals first | rfl | skip
        all_goals split <;> rfl

theorem specialValues_filters {cat : Cat} {a a' : Agg} (h : specialValues cat a = .ok a') (hf : FiltersBySpark a.child) :
    FiltersBySpark a'.child := by
  unfold specialValues at h
  repeat' split at h
  all_goals first | (cases h; done) | skip
  all_goals cases h
  all_goals first | exact hf | skip
  all_goals
    dsimp only
    split <;> exact hf

theorem selectNoise_filters {m : Measure} {cat : Cat} {a a' : Agg} (h : selectNoise m cat a = .ok a')
    (hf : FiltersBySpark a.child) : FiltersBySpark a'.child := by
  unfold selectNoise at h
  repeat' split at h
  all_goals first | (cases h; done) | skip
  all_goals cases h
  all_goals exact hf

theorem rewriteAgg_filters {m : Measure} {cat : Cat} {a a' : Agg} (h : rewriteAgg m cat a = .ok a')
    (hf : FiltersBySpark a.child) : FiltersBySpark a'.child := by
  unfold rewriteAgg at h
  obtain ⟨a1, h1, h2⟩ := bind_ok h
  exact selectNoise_filters h2 (specialValues_filters h1 hf)

theorem selectNoise_inline (d : DefinesIn env env' name v s o) (a : Agg) (hf : FiltersBySpark a.child) :
    selectNoise env.m env.cat (Agg.inline name v a) = (selectNoise env'.m env'.cat a).map (Agg.inline name v) := by
  have key : ∀ col mech, (match schemaOf env.cat (Expr.inline name v a.child) with
      | .error e => Except.error e
      | .ok s =>
        match Dict.get s.descs col with
        | none => .error .key
        | some d => noiseForOther env.m d.ty mech) =
      (match schemaOf env'.cat a.child with
      | .error e => Except.error e
      | .ok s =>
        match Dict.get s.descs col with
        | none => .error .key
        | some d => noiseForOther env.m d.ty mech) := by
    intro col mech
    rcases alikeE_cases (schemaOf_inline d.cat a.child hf) with ⟨e, h1, h2⟩ | ⟨s, s', h1, h2, al⟩
    · rw [h1, h2]
    · rw [h1, h2]
      dsimp only
      rcases al.get col with ⟨h1, h2⟩ | ⟨d1, dd, h1, h2, h3⟩
      · rw [h1, h2]
      · rw [h1, h2]
        dsimp only
        rw [(toSpark_eq h3).1]
  unfold selectNoise
  rw [d.m]
  obtain ⟨e, k, kind, out, core⟩ := a
  dsimp only [Agg.inline]
  cases kind with
  | count m => dsimp only; cases noiseForCount env.m m <;> rfl
  | countDistinct t m => dsimp only; cases noiseForCount env.m m <;> rfl
  | quantile c q l h => rfl
  | bounds c l u => rfl
  | bounded st col l h mech =>
    have := key col mech
    dsimp only at this ⊢
    rcases alikeE_cases (schemaOf_inline d.cat e hf) with ⟨x, h1, h2⟩ | ⟨s, s', h1, h2, al⟩
    · rw [h1, h2]
      rfl
    · rw [h1, h2] at this ⊢
      dsimp only at this ⊢
      rcases al.get col with ⟨h1, h2⟩ | ⟨d1, dd, h1, h2, h3⟩
      · rw [h1, h2]
        rfl
      · rw [h1, h2]
        dsimp only
        rw [(toSpark_eq h3).1]
        cases noiseForOther env.m dd.ty mech <;> rfl

theorem rewriteAgg_inline (d : DefinesIn env env' name v s o) (a : Agg) (hf : FiltersBySpark a.child) :
    rewriteAgg env.m env.cat (Agg.inline name v a) = (rewriteAgg env'.m env'.cat a).map (Agg.inline name v) := by
  unfold rewriteAgg
  rw [specialValues_inline d a hf]
  cases ha : specialValues env'.cat a with
  | error e => rfl
  | ok a' => exact selectNoise_inline d a' (specialValues_filters ha hf)

theorem start_inline (d : DefinesIn env env' name v s o) (b : PB) (a : Agg) (hf : FiltersBySpark a.child) :
    start env b (Agg.inline name v a) = start env' b a := by
  unfold start
  rcases alikeE_cases (aggSchema_inline d a hf) with ⟨x, h1, h2⟩ | ⟨s, s', h1, h2, al⟩
  · rw [h1, h2]
    rfl
  · rw [h1, h2]
    rfl

theorem validate_alike {s s' : Schema} (al : Alike s s') (o : Out) : validate s o = validate s' o := by
  unfold validate
  rw [al.metric, al.columns, al.grouping, al.idColumn]

theorem visitChild_inline (d : DefinesIn env env' name v s o) (e : Expr) (hf : FiltersBySpark e) :
    visitChild env.h env.cat (Expr.inline name v e) =
      (visitChild env'.h env'.cat e).map (Out.after (withTable name o.run)) := by
  unfold visitChild
  rw [compile_inline d.cat, d.h]
  cases compile env.h env'.cat e with
  | error x => rfl
  | ok o' =>
    dsimp only [Except.map]
    rcases alikeE_cases (schemaOf_inline d.cat e hf) with ⟨x, h1, h2⟩ | ⟨s, s', h1, h2, al⟩
    · rw [h1, h2]
    · rw [h1, h2]
      dsimp only
      have : validate s (Out.after (withTable name o.run) o') = validate s' o' := validate_alike al o'
      rw [this]
      cases validate s' o' <;> rfl

theorem truncateOut_inline (h : Hash) (order : List String → List String) (m : Measure) (o' : Out) (grouping : List String)
    (f : Data → Data) : truncateOut h order m (Out.after f o') grouping =
      (truncateOut h order m o' grouping).map (fun x => (x.1, x.2.1, fun D => x.2.2 (f D))) := by
  obtain ⟨dom, metric, space, cons, run⟩ := o'
  dsimp only [truncateOut, Out.after]
  cases metric with
  | ids i =>
    dsimp only
    cases chooseTruncation m grouping (truncatable order cons) <;> rfl
  | symDiff => rfl
  | grouped g => rfl

theorem visitCount_inline (d : DefinesIn env env' name v s o) (b : PB) (a : Agg) (hf : FiltersBySpark a.child) :
    visitCount env b (Agg.inline name v a) = (visitCount env' b a).map (Plan.inline name v o.run) := by
  unfold visitCount
  rw [start_inline d b a hf]
  cases start env' b a with
  | error e => rfl
  | ok x =>
    obtain ⟨adj, kb, qb⟩ := x
    dsimp only [Agg.inline]
    cases a.core with
    | none => rfl
    | some c =>
      dsimp only
      rw [visitChild_inline d a.child hf]
      cases visitChild env'.h env'.cat a.child with
      | error e => rfl
      | ok o' =>
        dsimp only [Except.map]
        rw [truncateOut_inline, d.h, d.order, d.m]
        cases truncateOut env.h env.order env.m o' a.keys.columns <;> rfl

theorem visitCountDistinct_inline (d : DefinesIn env env' name v s o) (b : PB) (a : Agg) (hf : FiltersBySpark a.child)
    (toCount : List String) (mech : Mech) : visitCountDistinct env b (Agg.inline name v a) toCount mech =
      (visitCountDistinct env' b a toCount mech).map (Plan.inline name v o.run) := by
  unfold visitCountDistinct
  rw [start_inline d b a hf]
  cases start env' b a with
  | error e => rfl
  | ok x =>
    obtain ⟨adj, kb, qb⟩ := x
    dsimp only [Agg.inline]
    cases a.core with
    | none => rfl
    | some c =>
      dsimp only
      rw [visitChild_inline d a.child hf]
      cases visitChild env'.h env'.cat a.child with
      | error e => rfl
      | ok o' =>
        dsimp only [Except.map]
        rcases alikeE_cases (schemaOf_inline d.cat a.child hf) with ⟨x, h1, h2⟩ | ⟨s, s', h1, h2, al⟩
        · rw [h1, h2]
        · rw [h1, h2]
          dsimp only
          rw [al.keys, al.idColumn]
          have hcons : (Out.after (withTable name o.run) o').cons = o'.cons := rfl
          rw [hcons]
          split
          · rename_i k _
            exact visitCount_inline d b ⟨a.child.enforce k, a.keys, .count mech, a.out, some c⟩ hf
          · rw [truncateOut_inline, d.h, d.order, d.m]
            cases truncateOut env.h env.order env.m o' a.keys.columns with
            | error e => rfl
            | ok x =>
              obtain ⟨col, tr, prep⟩ := x
              dsimp only [Except.map]
              have hdom : (Out.after (withTable name o.run) o').dom = o'.dom := rfl
              rw [hdom]
              split
              · rfl
              · cases a.keys with
                | cols cs => rfl
                | set k =>
                  dsimp only
                  split
                  · rfl
                  · split <;> rfl

theorem visitOther_inline (d : DefinesIn env env' name v s o) (b : PB) (a : Agg) (hf : FiltersBySpark a.child)
    (mech : Except PyErr (Option CoreMech))
    (l2 : CoreMech → Bool) (task : Task) :
    visitOther env b (Agg.inline name v a) mech l2 task =
      (visitOther env' b a mech l2 task).map (Plan.inline name v o.run) := by
  unfold visitOther
  rw [start_inline d b a hf]
  cases start env' b a with
  | error e => rfl
  | ok x =>
    obtain ⟨adj, kb, qb⟩ := x
    dsimp only [Agg.inline]
    cases mech with
    | error e => rfl
    | ok c =>
      dsimp only
      rw [visitChild_inline d a.child hf]
      cases visitChild env'.h env'.cat a.child with
      | error e => rfl
      | ok o' =>
        dsimp only [Except.map]
        rw [truncateOut_inline, d.h, d.order, d.m]
        cases truncateOut env.h env.order env.m o' a.keys.columns <;> rfl

theorem visitAgg_inline (d : DefinesIn env env' name v s o) (b : PB) (a : Agg) (hf : FiltersBySpark a.child) :
    visitAgg env b (Agg.inline name v a) = (visitAgg env' b a).map (Plan.inline name v o.run) := by
  obtain ⟨e, k, kind, out, core⟩ := a
  cases kind with
  | count m => exact visitCount_inline d b ⟨e, k, .count m, out, core⟩ hf
  | countDistinct t m => exact visitCountDistinct_inline d b ⟨e, k, .countDistinct t m, out, core⟩ hf t m
  | quantile c q l h => exact visitOther_inline d b ⟨e, k, .quantile c q l h, out, core⟩ hf (.ok none) usesL2 (.quantile c q l h out)
  | bounded st c l h m => exact visitOther_inline d b ⟨e, k, .bounded st c l h m, out, core⟩ hf _ _ _
  | bounds c l u => exact visitOther_inline d b ⟨e, k, .bounds c l u, out, core⟩ hf (.ok none) usesL2 (.bounds c l u)

theorem visitGroups_inline (d : DefinesIn env env' name v s o) (b : PB) (e : Expr) (hf : FiltersBySpark e)
    (cols : List String) :
    visitGroups env b (Expr.inline name v e) cols = (visitGroups env' b e cols).map (Plan.inline name v o.run) := by
  cases b with
  | pure ε => rfl
  | zcdp ρ => rfl
  | approx ε δ =>
    dsimp only [visitGroups]
    rcases alikeE_cases (schemaOf_inline d.cat e hf) with ⟨x, h1, h2⟩ | ⟨s, s', h1, h2, al⟩
    · rw [h1, h2]
      rfl
    · rw [h1, h2]
      dsimp only
      rw [al.keys, al.idColumn]
      generalize (if cols ≠ [] then cols else (Schema.keys s').filter (fun c => decide (s'.idColumn ≠ some c))) = columns
      split
      · rfl
      · rw [visitChild_inline d e hf]
        cases visitChild env'.h env'.cat e with
        | error x => rfl
        | ok o' =>
          dsimp only [Except.map]
          rw [truncateOut_inline, d.h, d.order, d.m]
          cases truncateOut env.h env.order env.m o' [] with
          | error x => rfl
          | ok x =>
            obtain ⟨col, tr, prep⟩ := x
            dsimp only [Except.map]
            have hdom : (Out.after (withTable name o.run) o').dom = o'.dom := rfl
            rw [hdom]
            split <;> rfl

/-- **C88**: a query about a table that is defined by an expression is accepted, and compiled, as the query in which the
expression is written out. -/
theorem C88_compile (d : DefinesIn env env' name v s o) (b : PB) (q : Query) (hf : Query.FiltersBySpark q) :
    compileQuery env b (Query.inline name v q) = (compileQuery env' b q).map (Plan.inline name v o.run) := by
  unfold compileQuery
  rcases alikeE_cases (querySchema_inline d q hf) with ⟨x, h1, h2⟩ | ⟨s, s', h1, h2, al⟩
  · rw [h1, h2]
    rfl
  · rw [h1, h2]
    dsimp only
    cases q with
    | groups e cols => exact visitGroups_inline d b e hf cols
    | agg a =>
      dsimp only [Query.inline, rewrite]
      rw [rewriteAgg_inline d a hf]
      cases ha : rewriteAgg env'.m env'.cat a with
      | error e => rfl
      | ok a' => exact visitAgg_inline d b a' (rewriteAgg_filters ha hf)
    | suppress a col t =>
      dsimp only [Query.inline, rewrite]
      rw [rewriteAgg_inline d a hf]
      cases ha : rewriteAgg env'.m env'.cat a with
      | error e => rfl
      | ok a' =>
        have hf' := rewriteAgg_filters ha hf
        obtain ⟨e, k, kind, out, core⟩ := a'
        cases kind <;> try rfl
        rename_i mm
        have := visitCount_inline d b ⟨e, k, .count mm, out, core⟩ hf'
        dsimp only [Except.map, visit, Agg.inline] at this ⊢
        rw [this]
        cases visitCount env' b ⟨e, k, .count mm, out, core⟩ <;> rfl

end Verif.Query
