import Verif.Stability.PropsQuery
import Verif.Query.Examples

/-!
# C54: concrete cases
-/

namespace Verif.Stability.Example

open Verif Verif.Schema Verif.Constraint Verif.Expr Verif.Query Verif.Budget

/-! ## With IDs -/

def env : Env := ⟨codeHash, id, .zCDP, Expr.Example.cat⟩

/-- A row with the number of rows of the person for each person, then at most one row per person and number. -/
def counted : Expr :=
  .enforce
    (.flatMapByID (.source "t") (fun rows => [[("A", .int rows.length)], [("A", .int 7)], [("A", .int 7)]])
      (Expr.Example.sch [("A", ⟨.INTEGER, false, false, false⟩)] none none none))
    (.maxRowsPerID 2)

def query : Query := .agg ⟨counted, .set Query.Example.keys, .count .default, "n", none⟩

/-- The database without Ann. -/
def without : Data := fun n => (Expr.Example.D n).filter (fun r => decide (Row.get r "id" ≠ some (.str "ann")))

/-- The rows that reach the count, with and without Ann. -/
theorem observed : (match compileQuery env (.zcdp 1) query, compile env.h env.cat (child query) with
    | .ok p, .ok o => some (p.prep Expr.Example.D, p.prep without, o.metric)
    | _, _ => none) = some
      ([[("id", .str "ann"), ("A", .int 2)], [("id", .str "ann"), ("A", .int 7)],
        [("id", .str "bob"), ("A", .int 1)], [("id", .str "bob"), ("A", .int 7)]],
       [[("id", .str "bob"), ("A", .int 1)], [("id", .str "bob"), ("A", .int 7)]], .ids "id") := by
  decide +kernel

theorem counted_ok : (child query).WF ∧ (child query).FnsOK ∧ (child query).RenamesDistinct ∧ OrderFree (child query) := by
  refine ⟨⟨trivial, Expr.Example.schemaWF_of (by decide)⟩, ⟨trivial, ?_⟩, trivial, ⟨trivial, ?_⟩⟩
  · intro t x hx
    simp only [List.mem_cons, List.not_mem_nil, or_false] at hx
    rcases hx with rfl | rfl | rfl
    · refine ⟨by simp [Row.cols], fun c => by simp [Row.cols, withNulls, Expr.Example.sch, Dict.keys], ?_⟩
      intro c v hv d hd
      simp only [List.mem_singleton, Prod.mk.injEq] at hv
      simp only [withNulls, Expr.Example.sch, List.map_cons, List.map_nil, List.mem_singleton, Prod.mk.injEq] at hd
      rw [hv.2, hd.2]
      rfl
    · exact Expr.Example.rowFits_of (by decide +kernel)
    · exact Expr.Example.rowFits_of (by decide +kernel)
  · intro s t hp
    simp only [hp.length_eq]
    exact List.Perm.refl _

theorem without_ok : Expr.Example.cat.DataOK without :=
  ⟨fun id s cs hg r hr => Expr.Example.data_ok.1 id s cs hg r (List.mem_filter.1 hr).1, Expr.Example.data_ok.2⟩

theorem same_others : SameIDs env.cat (child query).sources (fun x => decide (x ≠ some (.str "ann"))) Expr.Example.D without := by
  intro id _ s cs j hg hj
  have := Dict.mem_of_get hg
  simp only [env, Expr.Example.cat, List.mem_cons, Prod.mk.injEq, List.not_mem_nil, or_false] at this
  rcases this with ⟨rfl, rfl, rfl⟩ | ⟨rfl, rfl, rfl⟩
  · cases hj
    decide +kernel
  · cases hj

/-- `C54_query_ids_partial` applies, with Ann as the ID that is added or removed. -/
example : ∃ p e s o tr C X Y, compileQuery env (.zcdp 1) query = .ok p ∧ Extends counted e ∧
    build env.h env.cat e = .ok (s, o) ∧ chooseTruncation .zCDP ["A"] (truncatable env.order o.cons) = some tr ∧
    (p.prep Expr.Example.D).Perm (C ++ X) ∧ (p.prep without).Perm (C ++ Y) ∧
    changeSq .zCDP ["A"] X ≤ Verif.Constraint.stabilitySq .zCDP ["A"] tr ∧
    changeSq .zCDP ["A"] Y ≤ Verif.Constraint.stabilitySq .zCDP ["A"] tr := by
  have h := observed
  split at h
  · next p o hp ho =>
    obtain ⟨_, h2⟩ := Prod.mk.inj (Option.some.inj h)
    obtain ⟨_, hm⟩ := Prod.mk.inj h2
    obtain ⟨e, s, o', tr, C, X, Y, h1, h2, h3, h4, h5, h6, h7⟩ :=
      C54_query_ids_partial codeHash_lawful Expr.Example.cat_ok Expr.Example.cat_ids Expr.Example.data_ok
        without_ok hp counted_ok.1 counted_ok.2.1 counted_ok.2.2.1 counted_ok.2.2.2 ho hm same_others
    exact ⟨p, e, s, o', tr, C, X, Y, hp, h1, h2, h3, h4, h5, h6, h7⟩
  · cases h

/-! ## Without IDs -/

def rowsEnv : Env := ⟨codeHash, id, .pureDP, cat⟩

/-- The sum of `X`, clamped to [0, 2], after a flat map and a join. -/
def rowsQuery : Query := .agg ⟨mixed, .set ⟨[], []⟩, .bounded .sum "X" (.int 0) (.int 2) .default, "s", none⟩

theorem rows_observed : (match compileQuery rowsEnv (.pure 1) rowsQuery, compile codeHash cat mixed with
    | .ok p, .ok o => some (rowDist (p.prep D) (p.prep D'), o.metric)
    | _, _ => none) = some (2, .symDiff) := by
  decide +kernel

/-- `C54_query_rows` applies: the bound is 12 rows. -/
example : ∃ p, compileQuery rowsEnv (.pure 1) rowsQuery = .ok p ∧ rowDist (p.prep D) (p.prep D') = 2 ∧
    rowDist (p.prep D) (p.prep D') ≤ 12 := by
  have h := rows_observed
  split at h
  · next p o hp ho =>
    obtain ⟨h2, hm⟩ := Prod.mk.inj (Option.some.inj h)
    refine ⟨p, hp, h2, C54_query_rows codeHash_lawful hp ho ?_ (d := changed) (by decide +kernel)⟩
    intro i hi
    rw [hm] at hi
    cases hi
  · cases h

end Verif.Stability.Example
