import Verif.Whole.Finish
import Verif.Whole.ExamplesMethods
import Verif.Whole.ExamplesGrouped

/-!
# C73: concrete cases
-/

namespace Verif.Whole.Example

open Verif Verif.Schema Verif.Constraint Verif.Expr Verif.Query Verif.Stability
open Verif.Budget (XNum PB Rounding)
open Verif.Meaning

theorem get_last {k : Row} {out : String} {v : Value} (h : ∀ p ∈ k, p.1 ≠ out) : Row.get (k ++ [(out, v)]) out = some v := by
  induction k with
  | nil => simp [Row.get]
  | cons p k ih =>
    have hp : (out == p.1) = false := by simpa using (h p List.mem_cons_self).symm
    have := ih fun q hq => h q (List.mem_cons_of_mem _ hq)
    simp only [Row.get, List.cons_append] at this ⊢
    rw [List.lookup_cons, hp]
    exact this

theorem exactCore_counts : WholeCounts exactCore := by
  intro c out ht hout hshape t a ha r hr
  simp only [exactCore, PMF.support_pure, Set.mem_singleton_iff] at ha
  subst ha
  unfold exactTable at hr
  have main : ∀ (cols : List String) (keys : List Row), (∀ k ∈ keys, ∀ p ∈ k, p.1 ∈ cols) → out ∉ cols →
      r ∈ groupedAnswer cols keys (coreRow stats (.count out)) t → ∃ z, Row.get r out = some (.int z) := by
    intro cols keys hk ho hr
    by_cases hc : cols = []
    · rw [groupedAnswer, if_pos hc] at hr
      rw [List.mem_singleton.1 hr]
      exact ⟨t.length, by simp [coreRow, Row.get]⟩
    · rw [groupedAnswer_eq hc] at hr
      obtain ⟨k, hkk, rfl⟩ := List.mem_map.1 hr
      exact ⟨_, get_last fun p hp he => ho (he ▸ hk k hkk p hp)⟩
  cases hk : c.keys with
  | set k =>
    rw [hk] at hr hout hshape
    dsimp only at hr
    rw [ht] at hr
    exact main _ _ hshape hout hr
  | cols cs =>
    rw [hk] at hr hout
    dsimp only at hr
    rw [ht] at hr
    refine main _ _ ?_ hout hr
    intro k hkk p hp
    obtain ⟨r', _, rfl⟩ := List.mem_map.1 (List.mem_dedup.1 hkk)
    obtain ⟨c', hc', rfl⟩ := List.mem_map.1 hp
    exact hc'

theorem exactCore_some : SomeGroups exactCore := by
  intro c cs hk ht hne t a ha
  simp only [exactCore, PMF.support_pure, Set.mem_singleton_iff] at ha
  subst ha
  have : exactTable c t = (t.map (fun r => cs.map (fun c => (c, cell r c)))).dedup := by
    simp only [exactTable, hk, ht, groupedAnswer_eq hne]
    conv_rhs => rw [← List.map_id (List.dedup _)]
    apply List.map_congr_left
    intro k _
    simp [rowFor, coreRow]
  rw [this]
  refine ⟨List.nodup_dedup _, fun k hkk => ?_⟩
  obtain ⟨r, hr, rfl⟩ := List.mem_map.1 (List.mem_dedup.1 hkk)
  exact ⟨r, hr, rfl⟩

/-- `groupby(cities).count()`. -/
def largeAgg : Agg := ⟨.source "t", .set cityKeys, .count .default, "count", none⟩

theorem largeAgg_ok : Admissible (child (.agg largeAgg)) := ⟨trivial, trivial, trivial, trivial, trivial⟩

/-- The answer, as `respond` gives it. -/
noncomputable def shownOf (sources : Relation.Sources) (m : Measure) (b : PB) (q : Query) (ok : Admissible (child q)) : Option Table :=
  match Relation.initCore (fun _ v => v) (coreMeasure m) sources with
  | .error _ => none
  | .ok out =>
    match (Session.step (env (ctx m)) (Session.init b (startTables out)) (.evaluate 0 (.query q ok) b)).1 with
    | .ok (.answer p _) => some (p.post (exactTable p.call (p.run (startData out))))
    | _ => none

/-- **C73**: the theorems apply to `groupby(cities).count().suppress(1)`, which keeps one of three cities; a sum, or a count
without `groupby`, has no method `suppress`. -/
theorem C73_example :
    finishSuppress python true true (.source "t") (some (.keyset cityKeys)) (.count none (.name "default")) 1 =
      .ok (.suppress largeAgg "count" 1) ∧
    callSuppress largeAgg 1 = .ok (.suppress largeAgg "count" 1) ∧
    "count" ∉ By.columns (.keyset cityKeys) ∧ Shaped (.set cityKeys) ∧ NoNoise exactCore ∧ WholeCounts exactCore ∧
    answerOf infDb .pureDP (.pure ⊤) (.agg largeAgg) largeAgg_ok =
      some [[("city", .int 1), ("count", .int 2)], [("city", .int 2), ("count", .int 0)], [("city", .int 3), ("count", .int 0)]] ∧
    shownOf infDb .pureDP (.pure ⊤) (.suppress largeAgg "count" 1) largeAgg_ok = some [[("city", .int 1), ("count", .int 2)]] ∧
    largeRows "count" 1
      [[("city", .int 1), ("count", .int 2)], [("city", .int 2), ("count", .int 0)], [("city", .int 3), ("count", .int 0)]] =
      [[("city", .int 1), ("count", .int 2)]] ∧
    finishSuppress python true true (.source "t") none (.count none (.name "default")) 1 = .error .attribute ∧
    finishSuppress python true true (.source "t") (some (.keyset cityKeys)) infSum 1 = .error .attribute := by
  refine ⟨?_, rfl, by decide, ?_, exactCore_ok, exactCore_counts, by decide +kernel, by decide +kernel, by decide +kernel, ?_, ?_⟩
  · simp only [finishSuppress, finish, groupby, Method.build, mech_default]
    rfl
  · intro r hr p hp
    simp only [cityKeys, List.mem_cons, List.not_mem_nil, or_false] at hr
    rcases hr with rfl | rfl | rfl <;>
      · simp only [List.mem_singleton] at hp
        subst hp
        decide
  · simp only [finishSuppress, finish, groupby, Method.build, mech_default]
    rfl
  · unfold finishSuppress
    rw [infAgg_built]
    rfl

/-- **C73**: the theorem on groups applies to the tables of `C61_groups_example`. -/
theorem C73_groups_example : AllGroups exactCore ∧ SomeGroups exactCore ∧
    callGetGroups (.source "cities") (.one "city") = cityGroups ∧ (ColsArg.one "city").Lists ["city"] ∧
    (Chain.start "cities").build (ctx .approxDP) = .ok (.source "cities") ∧
    exactAnswers .approxDP (.approx 1 (1 : ℚ)) cityGroups cityGroups_ok = some [[("city", .int 1)], [("city", .int 2)]] :=
  ⟨exactCore_groups, exactCore_some, rfl, rfl, rfl, exact_groups⟩

end Verif.Whole.Example
