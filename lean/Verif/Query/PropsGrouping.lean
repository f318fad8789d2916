import Verif.Query.Clean
import Verif.Query.Examples
import Verif.Expr.PropsGrouping

/-!
# C21: aggregations group by the required column
-/

namespace Verif.Query

open Verif Verif.Schema Verif.Expr Verif.Constraint Verif.Budget

theorem visitChild_build' {h : Hash} {cat : Cat} {e : Expr} {o : Out} (hv : visitChild h cat e = .ok o) :
    ∃ s, build h cat e = .ok (s, o) := by
  unfold visitChild at hv
  split at hv
  · cases hv
  next o' ho =>
  split at hv
  · cases hv
  next s hs =>
  split at hv
  · cases hv
  next hval =>
  cases hv
  refine ⟨s, ?_⟩
  simp only [build, hs, ho, hval]

theorem schema_validated {cat : Cat} {a : Agg} {s : Schema} (h : a.schema cat = .ok s) :
    ∃ s', schemaOf cat a.child = .ok s' ∧ validateGroupby a.keys a.kind.measure s' = .ok () := by
  unfold Agg.schema at h
  split at h
  · cases h
  next s' hs =>
  split at h
  · cases h
  next hv => exact ⟨s', hs, hv⟩

theorem validateGroupby_grouping {keys : Keys} {m : Option String} {s : Schema}
    (h : validateGroupby keys m s = .ok ()) : ∀ g, s.grouping = some g → g ∈ keys.columns := by
  unfold validateGroupby at h
  split at h
  · cases h
  split at h
  · cases h
  next hg =>
  intro g hs
  rw [hs] at hg
  simpa using hg

/-- Handling special values keeps the grouping column. -/
theorem groupTag_special {cat cat' : Cat} {a a' : Agg} (h : specialValues cat a = .ok a') :
    groupTag cat' a'.child = groupTag cat' a.child := by
  unfold specialValues at h
  repeat' split at h
  all_goals first
    | (cases h; done)
    | (cases h; rfl)
    | skip
  all_goals dsimp only at h
  all_goals repeat' split at h
  all_goals first
    | (cases h; done)
    | (cases h; rfl)

/-- **C21**. If a table has a grouping column, every accepted aggregation of it groups by that column (`get_groups`
is not an aggregation in this sense). -/
theorem C21_required (env : Env) (hc : env.cat.OK) (b : PB) (q : Query) (a : Agg)
    (hq : q.agg? = some a) (p : Plan) (h : compileQuery env b q = .ok p) (g : String)
    (hg : groupTag env.cat a.child = some g) : g ∈ a.keys.columns ∧ g ∈ p.keys.columns := by
  obtain ⟨a₁, a₂, p₁, _, hr, hf, hcomp, hp⟩ := compileQuery_ok hq h
  obtain ⟨a₀, _, hsv, _, hcore, hk, _⟩ := rewriteAgg_ok hr
  have hk2 : a₂.keys = a.keys := hf.keys.1.trans hk
  have htag : groupTag env.cat a₂.child = some g := by
    have h1 : groupTag env.cat a₁.child = some g := by
      rw [hcore]
      exact (groupTag_special hsv).trans hg
    cases hf with
    | same => exact h1
    | shortcut _ _ _ _ _ => exact h1
  obtain ⟨s₂, hs₂⟩ := hcomp.schema
  obtain ⟨s', hs', hv⟩ := schema_validated hs₂
  obtain ⟨o, _, _, _, ho, _⟩ := hcomp.prep
  obtain ⟨s'', hb⟩ := visitChild_build' ho
  obtain ⟨hs'', ho'', hid, _, hm⟩ := build_ok hb
  rw [hs'] at hs''
  cases hs''
  have hgr : s'.grouping = some g := by
    have := (metric_groupTag hc a₂.child ho'' g).2 htag
    exact metricOf_grouped (hm.symm.trans this)
  have hmem := validateGroupby_grouping hv g hgr
  rw [hk2] at hmem
  refine ⟨hmem, ?_⟩
  have hpk : p.keys = a.keys := by
    rcases hp with ⟨_, rfl⟩ | ⟨_, _, _, _, _, rfl⟩
    · exact hcomp.keys.trans hk2
    · exact hcomp.keys.trans hk2
  rw [hpk]
  exact hmem

/-- **C21** (rejection). An aggregation that does not group by the required column is refused. -/
theorem C21_refused (env : Env) (hc : env.cat.OK) (b : PB) (q : Query) (a : Agg)
    (hq : q.agg? = some a) (g : String) (hg : groupTag env.cat a.child = some g) (hk : g ∉ a.keys.columns) :
    ∃ e, compileQuery env b q = .error e := by
  cases h : compileQuery env b q with
  | error e => exact ⟨e, rfl⟩
  | ok p => exact absurd (C21_required env hc b q a hq p h g hg).1 hk

namespace Example

/-- A count of the grouped table of `Verif.Expr.PropsGrouping` by its grouping column. -/
def countH : Agg :=
  ⟨Expr.Example.grouped,
    .set ⟨[("H", ⟨.VARCHAR, true, false, false⟩)], [[("H", .str "a")], [("H", .str "b")]]⟩, .count .default, "n", none⟩

example : (observe (env .pureDP) (.pure 1) (.agg countH) Expr.Example.D).isSome = true ∧
    groupTag (env .pureDP).cat countH.child = some "H" ∧
    (observe (env .pureDP) (.pure 1) (.agg { countH with keys := .cols ["Z"] }) Expr.Example.D).isSome = false := by
  decide +kernel

end Example

end Verif.Query
