import Verif.Builder.PropsEq

/-!
# C46 and C53: counterexamples

Queries that compare equal although they are different computations, and queries that compare equal although their
hashes differ. Also cases that meet the hypotheses of the theorems of `PropsEq`.
-/

namespace Verif.Builder

open Verif Verif.Schema Verif.Expr Verif.Constraint Verif.Query

/-- The function that `bin_column` makes (`query_builder.py` l. 1581-1583): a lambda, whose bytecode is the same at
every call; the column, the name and the `BinningSpec` are closed over. -/
def binFn (obj : Nat) (bin : Value → Value) (column name : String) : PyFn Row Row :=
  ⟨obj, 0, fun r => [(name, bin (cell r column))]⟩

namespace Example

open Verif.Query.Example
open Verif.Expr.Example (sch)

/-- A comparison of KeySets. -/
def cmp : KeyCmp := ⟨fun a b => decide (a = b), fun a b => decide (a = b)⟩

theorem sameKeySet_refl (a : KeySetV) : SameKeySetV a a := ⟨fun _ _ => Iff.rfl, fun _ => Iff.rfl⟩

theorem cmp_sound : cmp.Sound :=
  ⟨fun a b h => by cases of_decide_eq_true h; exact sameKeySet_refl a,
    fun a b h => by cases of_decide_eq_true h; exact sameKeySet_refl a⟩

def sql : Sql := fun _ => (fun _ => true, fun r => decide (cell r "x" = .int 3))

/-- A table with an integer column. -/
def catB : Cat :=
  { priv := [("t", (sch [("x", ⟨.INTEGER, false, false, false⟩)] none none none, []))]
    pub := [] }

def dataB : Data := fun n => if n = "t" then [[("x", .int 3)], [("x", .int 7)]] else []

def envB : Env := ⟨Expr.Example.h, id, .pureDP, catB⟩

/-- Bins named low and high; what a `BinningSpec` over integers does to a cell. -/
def binWith (edges : List ℤ) : Value → Value := fun v =>
  match v with
  | .int z =>
    match (⟨edges, ["low", "high"], true, true, none⟩ : Binning.Spec ℤ String).call (.val z) with
    | some n => .str n
    | none => .null
  | _ => .null

def binned : Schema := sch [("x_binned", ⟨.VARCHAR, true, true, true⟩)] none none none

def binKeys : KeySetV :=
  ⟨[("x_binned", ⟨.VARCHAR, false, false, false⟩)], [[("x_binned", .str "low")], [("x_binned", .str "high")]]⟩

/-- `QueryBuilder("t").bin_column("x", spec).groupby(keys).count()`. -/
def binQuery (obj : Nat) (edges : List ℤ) : PQuery :=
  .agg ⟨.op (.map (binFn obj (binWith edges) "x" "x_binned") binned true) (.source "t"), .set binKeys, .count .default,
    "count"⟩

def q1 : PQuery := binQuery 1 [0, 5, 10]
def q2 : PQuery := binQuery 2 [0, 8, 10]

/-- The two rows, binned in the two ways. -/
def rows1 : Table :=
  [[("x", .int 3), ("x_binned", .str "low")], [("x", .int 7), ("x_binned", .str "high")]]
def rows2 : Table :=
  [[("x", .int 3), ("x_binned", .str "low")], [("x", .int 7), ("x_binned", .str "low")]]

theorem bin1 : (observe envB (.pure 1) (q1.denote sql) dataB).map Obs.rows = some rows1 := by decide +kernel
theorem bin2 : (observe envB (.pure 1) (q2.denote sql) dataB).map Obs.rows = some rows2 := by decide +kernel

theorem rows_ok {env : Env} {b : Budget.PB} {q : Query.Query} {D : Data} {t : Table}
    (h : (observe env b q D).map Obs.rows = some t) : ∃ p, compileQuery env b q = .ok p ∧ p.prep D = t := by
  cases ho : observe env b q D with
  | none => simp [ho] at h
  | some x =>
    simp only [ho, Option.map_some, Option.some.injEq] at h
    obtain ⟨p, hp, _, _, _, _, _, _, _, _, hr⟩ := observe_ok ho
    exact ⟨p, hp, hr.trans h⟩

/-- `QueryBuilder("t").join_public(df, how="left")….count()`. -/
def pubSchema : Schema :=
  sch [("x", ⟨.INTEGER, false, false, false⟩), ("y", ⟨.DECIMAL, true, true, true⟩)] none none none

def joinQuery (obj : Nat) (rows : Table) : PQuery :=
  .agg ⟨.op (.joinPublic (.df obj pubSchema rows) none .inner) (.source "t"), .set ⟨[], [[]]⟩, .count .default, "count"⟩

def emptyJoin : PQuery := joinQuery 1 []
def fullJoin : PQuery := joinQuery 2 [[("x", .int 3), ("y", .dec (.fin 1))]]

theorem join1 : (observe envB (.pure 1) (emptyJoin.denote sql) dataB).map Obs.rows = some [] := by decide +kernel
theorem join2 : (observe envB (.pure 1) (fullJoin.denote sql) dataB).map Obs.rows =
    some [[("x", .int 3), ("y", .dec (.fin 1))]] := by decide +kernel

def nullJoin : PQuery := joinQuery 3 [[("x", .int 3), ("y", .null)]]
def nanJoin : PQuery := joinQuery 4 [[("x", .int 3), ("y", .dec .nan)]]

theorem join3 : (observe envB (.pure 1) (nullJoin.denote sql) dataB).map Obs.rows =
    some [[("x", .int 3), ("y", .null)]] := by decide +kernel
theorem join4 : (observe envB (.pure 1) (nanJoin.denote sql) dataB).map Obs.rows =
    some [[("x", .int 3), ("y", .dec .nan)]] := by decide +kernel

/-- `QueryBuilder("t").replace_null_and_nan({"x": v}).count()`. -/
def replQuery (v : Value) : PQuery :=
  .agg ⟨.op (.replaceNull [("x", v)]) (.source "t"), .set ⟨[], [[]]⟩, .count .default, "count"⟩

theorem repl1 : (observe envB (.pure 1) ((replQuery (.int 1)).denote sql) dataB).map Obs.rows =
    some [[("x", .int 3)], [("x", .int 7)]] := by decide +kernel

end Example

open Example

/-- **C46** fails: two `bin_column` queries with different bins compare equal, because the functions they make have the
same bytecode; one counts 7 as high, the other as low. -/
theorem C46_bytecode_fails :
    ∃ (k : KeyCmp) (q q' : PQuery) (sql : Sql) (env : Env) (b : Budget.PB) (p p' : Plan) (D : Data), k.Sound ∧
      queryEq k q q' = true ∧ Objects q.child q'.child ∧ FramesFaithful q.child q'.child ∧
      replTypes q.child = replTypes q'.child ∧
      compileQuery env b (q.denote sql) = .ok p ∧ compileQuery env b (q'.denote sql) = .ok p' ∧
      (∃ e e', q = Example.binQuery 1 e ∧ q' = Example.binQuery 2 e') ∧
      (p.prep D).countP (fun r => decide (cell r "x_binned" = .str "low")) ≠
        (p'.prep D).countP (fun r => decide (cell r "x_binned" = .str "low")) := by
  obtain ⟨p, hp, h1⟩ := rows_ok bin1
  obtain ⟨p', hp', h2⟩ := rows_ok bin2
  refine ⟨cmp, q1, q2, Example.sql, envB, _, p, p', dataB, cmp_sound, by decide +kernel, ?_, ?_, rfl, hp, hp',
    ⟨_, _, rfl, rfl⟩, ?_⟩
  · refine ⟨?_, ?_, ?_, ?_⟩
    · intro f hf g hg h
      simp only [q1, q2, binQuery, PQuery.child, mapFns, List.mem_singleton] at hf hg
      subst hf hg
      simp [binFn] at h
    · intro f hf
      simp [q1, binQuery, PQuery.child, flatMapFns] at hf
    · intro f hf
      simp [q1, binQuery, PQuery.child, byIDFns] at hf
    · intro o s r s' r' hf
      simp [q1, binQuery, PQuery.child, pubs] at hf
  · intro o s r o' s' r' hf
    simp [q1, binQuery, PQuery.child, pubs] at hf
  · rw [h1, h2]
    decide

/-- **C46** fails: a join with an empty public table compares equal to a join with any table of the same columns; and a
null in a public table compares equal to a NaN. -/
theorem C46_frames_fail :
    (∃ (q q' : PQuery) (env : Env) (b : Budget.PB) (p p' : Plan) (D : Data),
      queryEq cmp q q' = true ∧ compileQuery env b (q.denote Example.sql) = .ok p ∧
      compileQuery env b (q'.denote Example.sql) = .ok p' ∧ p.prep D = [] ∧ p'.prep D ≠ []) ∧
    (∃ (q q' : PQuery) (env : Env) (b : Budget.PB) (p p' : Plan) (D : Data),
      queryEq cmp q q' = true ∧ compileQuery env b (q.denote Example.sql) = .ok p ∧
      compileQuery env b (q'.denote Example.sql) = .ok p' ∧ p.prep D = [[("x", .int 3), ("y", .null)]] ∧
      p'.prep D = [[("x", .int 3), ("y", .dec .nan)]]) := by
  obtain ⟨p, hp, h1⟩ := rows_ok join1
  obtain ⟨p', hp', h2⟩ := rows_ok join2
  obtain ⟨p3, hp3, h3⟩ := rows_ok join3
  obtain ⟨p4, hp4, h4⟩ := rows_ok join4
  exact ⟨⟨_, _, _, _, p, p', _, by decide +kernel, hp, hp', h1, by rw [h2]; simp⟩,
    ⟨_, _, _, _, p3, p4, _, by decide +kernel, hp3, hp4, h3, h4⟩⟩

/-- **C46** fails, also for the quick comparison: replacing nulls by 1 and by 1.0 compares equal; on an integer column
the first is answered, the second refused. -/
theorem C46_types_fail :
    ∃ (q q' : PQuery) (env : Env) (b : Budget.PB) (p : Plan),
      queryEq cmp q q' = true ∧ isEquiv cmp q q' = true ∧ compileQuery env b (q.denote Example.sql) = .ok p ∧
      compileQuery env b (q'.denote Example.sql) = .error .value := by
  obtain ⟨p, hp, _⟩ := rows_ok repl1
  refine ⟨replQuery (.int 1), replQuery (.dec (.fin 1)), envB, _, p, by decide +kernel, by decide +kernel, hp, ?_⟩
  rfl

/-- The hypotheses of `C46_eq_partial` and `C46_is_equivalent_partial` can be met: a query with a function and a public
table, and the same query with another function object of the same bytecode that computes the same. -/
def okQuery (obj : Nat) : PQuery :=
  .agg ⟨.op (.map (binFn obj (binWith [0, 5, 10]) "x" "x_binned") binned true)
      (.op (.joinPublic (.df 7 pubSchema [[("x", .int 3), ("y", .null)]]) none .inner) (.op (.filter "x = 3") (.source "t"))),
    .set binKeys, .count .default, "count"⟩

example : ∃ (k : KeyCmp) (q q' : PQuery), k.Sound ∧ queryEq k q q' = true ∧ isEquiv k q q' = false ∧
    isEquiv k q q = true ∧ Objects q.child q'.child ∧ Objects q.child q.child ∧ CodeDetermines q.child q'.child ∧
    FramesFaithful q.child q'.child ∧ replTypes q.child = replTypes q'.child := by
  refine ⟨cmp, okQuery 1, okQuery 2, cmp_sound, by decide +kernel, by decide +kernel, by decide +kernel, ?_, ?_, ?_,
    ?_, rfl⟩
  · refine ⟨?_, ?_, ?_, ?_⟩
    · intro f hf g hg h
      simp only [okQuery, PQuery.child, mapFns, List.mem_singleton] at hf hg
      subst hf hg
      rfl
    · intro f hf
      simp [okQuery, PQuery.child, flatMapFns] at hf
    · intro f hf
      simp [okQuery, PQuery.child, byIDFns] at hf
    · intro o s r s' r' hf hg
      simp only [okQuery, PQuery.child, pubs, List.mem_singleton, PubArg.df.injEq] at hf hg
      obtain ⟨_, rfl, rfl⟩ := hf
      obtain ⟨_, rfl, rfl⟩ := hg
      exact ⟨rfl, rfl⟩
  · refine ⟨?_, ?_, ?_, ?_⟩
    · intro f hf g hg h
      simp only [okQuery, PQuery.child, mapFns, List.mem_singleton] at hf hg
      subst hf hg
      rfl
    · intro f hf
      simp [okQuery, PQuery.child, flatMapFns] at hf
    · intro f hf
      simp [okQuery, PQuery.child, byIDFns] at hf
    · intro o s r s' r' hf hg
      simp only [okQuery, PQuery.child, pubs, List.mem_singleton, PubArg.df.injEq] at hf hg
      obtain ⟨_, rfl, rfl⟩ := hf
      obtain ⟨_, rfl, rfl⟩ := hg
      exact ⟨rfl, rfl⟩
  · refine ⟨?_, ?_, ?_⟩
    · intro f hf g hg h
      simp only [okQuery, PQuery.child, mapFns, List.mem_singleton] at hf hg
      subst hf hg
      rfl
    · intro f hf
      simp [okQuery, PQuery.child, flatMapFns] at hf
    · intro f hf
      simp [okQuery, PQuery.child, byIDFns] at hf
  · intro o s r o' s' r' hf hg _
    simp only [okQuery, PQuery.child, pubs, List.mem_singleton, PubArg.df.injEq] at hf hg
    obtain ⟨_, rfl, rfl⟩ := hf
    obtain ⟨_, rfl, rfl⟩ := hg
    exact ⟨rfl, rfl⟩

end Verif.Builder
