import Verif.Query.PropsResult
import Verif.Query.Examples

/-!
# C59: concrete cases, and answers that are not as described
-/

namespace Verif.Query

open Verif Verif.Schema Verif.Expr Verif.Constraint Verif.Budget

namespace Example

/-! ## Exact aggregations that satisfy the contract -/

/-- A value of the given type. -/
def zero : ColumnType → Value
  | .INTEGER => .int 0
  | .DECIMAL => .dec (.fin 0)
  | .VARCHAR => .str ""
  | .DATE => .date 0
  | .TIMESTAMP => .ts 0

theorem zero_plain (T : ColumnType) : Plain T (zero T) := by cases T <;> rfl

def someCore (ty : String → Option ColumnType) : Task → Table → Row
  | .count out, t => exactCount out t
  | .countDistinct out, t => exactCount out t.dedup
  | .quantile _ _ _ _ out, _ => [(out, .dec (.fin 0))]
  | .bounded .sum c _ _ out, _ => [(out, zero ((ty c).getD .DECIMAL))]
  | .bounded _ _ _ _ out, _ => [(out, .dec (.fin 0))]
  | .bounds c l u, _ => [(l, zero ((ty c).getD .DECIMAL)), (u, zero ((ty c).getD .DECIMAL))]
  | .groups, _ => []

theorem someCore_ok (ty : String → Option ColumnType) : CoreOK (someCore ty) ty where
  count _ _ := ⟨_, rfl⟩
  countDistinct _ _ := ⟨_, rfl⟩
  quantile _ _ _ _ _ _ := ⟨_, rfl⟩
  sum c T _ _ out t h := ⟨zero T, by simp [someCore, h], zero_plain T⟩
  other st c lo hi out t h := by
    cases st with
    | sum => exact absurd rfl h
    | average => exact ⟨_, rfl⟩
    | variance => exact ⟨_, rfl⟩
    | stdev => exact ⟨_, rfl⟩
  bounds c T l u t h := ⟨zero T, zero T, by simp [someCore, h], zero_plain T, zero_plain T⟩
  groups _ := rfl

/-! ## A case that meets the hypotheses -/

def tys (e : Expr) (cat : Cat) (c : String) : Option ColumnType :=
  match schemaOf cat e with
  | .error _ => none
  | .ok s => (Dict.get s.descs c).map Desc.ty

theorem someCore_for (cat : Cat) (e : Expr) (s : Schema) (h : schemaOf cat e = .ok s) :
    CoreOK (someCore (tys e cat)) (fun c => (Dict.get s.descs c).map Desc.ty) := by
  have : tys e cat = fun c => (Dict.get s.descs c).map Desc.ty := by
    funext c
    simp only [tys, h]
  rw [this]
  exact someCore_ok _

theorem keys_good : keys.OK where
  wf := by simp [Dict.WF, keys]
  rows := by
    intro r hr
    simp only [keys, List.mem_cons, List.not_mem_nil, or_false] at hr
    rcases hr with rfl | rfl <;> exact rowFits_one rfl
  types := by
    intro c d hd
    simp only [keys, List.mem_singleton, Prod.mk.injEq] at hd
    rw [hd.2]
    decide

/-- What can be observed of a query, its schema and its answer with exact counts. -/
def answered (env : Env) (b : PB) (q : Query) (e : Expr) (D : Data) (ks : List Row) :
    Option (List (String × ColumnType × Bool) × List (List (String × Value))) :=
  match compileQuery env b q, q.schema env.cat with
  | .ok p, .ok s =>
    some (s.columnDescs.elements.map (fun x => (x.1, x.2.ty, x.2.allowNull)),
      p.answer (someCore (tys e env.cat)) ks D)
  | _, _ => none

theorem answered_ok {env : Env} {b : PB} {q : Query} {e : Expr} {D : Data} {ks : List Row}
    {x : List (String × ColumnType × Bool) × List (List (String × Value))} (h : answered env b q e D ks = some x) :
    ∃ p s, compileQuery env b q = .ok p ∧ q.schema env.cat = .ok s ∧
      s.columnDescs.elements.map (fun x => (x.1, x.2.ty, x.2.allowNull)) = x.1 ∧
      p.answer (someCore (tys e env.cat)) ks D = x.2 := by
  unfold answered at h
  split at h
  · next p s hp hs =>
    cases h
    exact ⟨p, s, hp, hs, rfl, rfl⟩
  · cases h

/-- Counts by `A` with the keys 7 and 8. -/
theorem count_answered : answered (env .pureDP) (.pure 1) (.agg (countA (.set keys) .default)) two Expr.Example.D
    keys.rows = some ([("A", .INTEGER, true), ("n", .INTEGER, false)],
      [[("A", .int 7), ("n", .int 2)], [("A", .int 8), ("n", .int 0)]]) := by
  decide +kernel

example : ∃ (p : Plan) (s : Schema), (countA (.set keys) .default).keys.OK ∧
    (countA (.set keys) .default).keys.NullsOK s ∧ (outColumns (countA (.set keys) .default)).Nodup ∧
    (∀ c ∈ outColumns (countA (.set keys) .default), c ∉ (countA (.set keys) .default).keys.columns) ∧
    (Query.agg (countA (.set keys) .default)).schema (env .pureDP).cat = .ok s ∧
    compileQuery (env .pureDP) (.pure 1) (.agg (countA (.set keys) .default)) = .ok p ∧
    p.KeysFor Expr.Example.D keys.rows ∧ (env .pureDP).cat.OK ∧ (env .pureDP).cat.DataOK Expr.Example.D := by
  obtain ⟨p, s, hp, hs, _⟩ := answered_ok count_answered
  refine ⟨p, s, keys_good, ?_, by decide, by decide, hs, hp, ?_, Expr.Example.cat_ok, Expr.Example.data_ok⟩
  · intro r hr c hc
    simp only [keys, List.mem_cons, List.not_mem_nil, or_false] at hr
    rcases hr with rfl | rfl <;> simp at hc
  · unfold Plan.KeysFor
    rw [(compileQuery_budget (a := countA (.set keys) .default) rfl hp).2.2]
    rfl

/-- `get_groups` of a column. -/
theorem groups_answered : answered (env .approxDP) (.approx 2 (1/10 : ℚ)) (.groups two ["A"]) two Expr.Example.D
    [[("A", .int 7)]] = some ([("A", .INTEGER, true)], [[("A", .int 7)]]) := by
  decide +kernel

/-! ## Null keys -/

def env2 : Env := ⟨Expr.Example.h, id, .pureDP, Expr.Example.cat2⟩

/-- The keys null and "a" for column `g`, which has no nulls in the table. -/
def nullKeys : KeySetV := ⟨[("g", ⟨.VARCHAR, true, false, false⟩)], [[("g", .null)], [("g", .str "a")]]⟩

theorem nullKeys_good : nullKeys.OK where
  wf := by simp [Dict.WF, nullKeys]
  rows := by
    intro r hr
    simp only [nullKeys, List.mem_cons, List.not_mem_nil, or_false] at hr
    rcases hr with rfl | rfl <;> exact rowFits_one rfl
  types := by
    intro c d hd
    simp only [nullKeys, List.mem_singleton, Prod.mk.injEq] at hd
    rw [hd.2]
    decide

def countG : Agg := ⟨.source "l", .set nullKeys, .count .default, "n", none⟩

theorem null_answered : answered env2 (.pure 1) (.agg countG) (.source "l") Expr.Example.D2 nullKeys.rows =
    some ([("g", .VARCHAR, false), ("n", .INTEGER, false)],
      [[("g", .null), ("n", .int 0)], [("g", .str "a"), ("n", .int 1)]]) := by
  decide +kernel

/-! ## Colliding names -/

def sameName : Agg := ⟨.source "l", .cols ["g"], .count .default, "g", none⟩

def columnsShown (cat : Cat) (q : Query) : Option (List (String × ColumnType)) :=
  match q.schema cat with
  | .ok s => some (s.columnDescs.elements.map (fun x => (x.1, x.2.ty)))
  | .error _ => none

end Example

/-- The full claim C59 fails: a KeySet with a null in a column without nulls is accepted; the schema shown for the
query says there are no nulls, but the answer has one. -/
theorem C59_null_fails : ∃ (env : Env) (b : PB) (a : Agg) (p : Plan) (s : Schema) (D : Data) (keys : List Row)
    (core : Task → Table → Row), env.cat.OK ∧ env.cat.DataOK D ∧ a.keys.OK ∧ (outColumns a).Nodup ∧
      (∀ c ∈ outColumns a, c ∉ a.keys.columns) ∧ a.schema env.cat = .ok s ∧
      compileQuery env b (.agg a) = .ok p ∧ p.KeysFor D keys ∧
      (∀ s₀, schemaOf env.cat a.child = .ok s₀ → CoreOK core (fun c => (Dict.get s₀.descs c).map Desc.ty)) ∧
      ¬ Conforms s (p.answer core keys D) := by
  obtain ⟨p, s, hp, hs, hel, hans⟩ := Example.answered_ok Example.null_answered
  refine ⟨Example.env2, .pure 1, Example.countG, p, s, Verif.Expr.Example.D2, Example.nullKeys.rows,
    Example.someCore (Example.tys (.source "l") Example.env2.cat), Expr.Example.cat2_ok,
    Expr.Example.data2_ok, Example.nullKeys_good, by decide, by decide, hs, hp, ?_, ?_, ?_⟩
  · unfold Plan.KeysFor
    rw [(compileQuery_budget (a := Example.countG) rfl hp).2.2]
    rfl
  · exact Example.someCore_for _ _
  · rw [hans]
    intro hc
    obtain ⟨_, _, hv⟩ := hc [("g", .null), ("n", .int 0)] (by simp)
    have hmem : ("g", ColumnType.VARCHAR, false) ∈
        s.columnDescs.elements.map (fun x => (x.1, x.2.ty, x.2.allowNull)) := by
      rw [hel]
      simp
    obtain ⟨x, hx, e⟩ := List.mem_map.1 hmem
    obtain ⟨c, d⟩ := x
    simp only [Prod.mk.injEq] at e
    obtain ⟨rfl, _, hn⟩ := e
    have := hv "g" .null (by simp) d hx
    rw [DescOK, hn] at this
    cases this

/-- The full claim C59 fails: an output column with the name of a group-by column takes its place in the schema, so
that a count by the string column `g` is shown with a single integer column. -/
theorem C59_collision_fails : ∃ (cat : Cat) (a : Agg) (s : Schema), cat.OK ∧ a.keys.OK ∧ (outColumns a).Nodup ∧
    a.keys.columns = ["g"] ∧ outColumns a = ["g"] ∧ a.schema cat = .ok s ∧ Schema.keys s = ["g"] ∧
    ∀ d, Dict.get s.descs "g" = some d → d.ty = .INTEGER := by
  have h : Example.columnsShown Expr.Example.cat2 (.agg Example.sameName) = some [("g", .INTEGER)] := by
    decide +kernel
  unfold Example.columnsShown at h
  split at h
  · next s hs =>
    have w : s.WF := by
      unfold Query.schema Agg.schema at hs
      dsimp only at hs
      split at hs
      · cases hs
      · split at hs
        · cases hs
        · exact (mk_ok (Dict.wf_union (Dict.wf_ofPairs _) _) hs).1
    simp only [Option.some.injEq] at h
    refine ⟨_, Example.sameName, s, Expr.Example.cat2_ok, by simp [Keys.OK, Example.sameName], by decide, rfl, rfl, hs,
      ?_, ?_⟩
    · rw [keys_eq w]
      have := congrArg (List.map Prod.fst) h
      rw [List.map_map] at this
      exact this
    · intro d hd
      rw [Schema.descs_eq w] at hd
      have := List.mem_map_of_mem (f := fun x : String × Desc => (x.1, x.2.ty)) (Dict.mem_of_get hd)
      rw [h] at this
      simpa using this
  · cases h

end Verif.Query
