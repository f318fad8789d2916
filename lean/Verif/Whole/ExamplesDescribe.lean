import Verif.Whole.PropsDescribe
import Verif.Whole.ExamplesGrouped
import Verif.Query.ExamplesResult

/-!
# C77: concrete cases
-/

namespace Verif.Whole.Example

open Verif Verif.Schema Verif.Constraint Verif.Expr Verif.Query Verif.Stability
open Verif.Budget (XNum PB Rounding)
open Verif.Query.Example (someCore someCore_ok)

/-- What is described in the session of `C66_example`, which has a view. -/
noncomputable def describedIn (d : Described) : Option (Except PyErr Description) :=
  match Relation.initCore (fun _ v => v) (coreMeasure .pureDP) Relation.demoA with
  | .error _ => none
  | .ok out =>
    let w := Session.run (env (ctx .pureDP)) (Session.init (.pure ⊤) (startTables out)) (viewCalls.take 1)
    match w.nodes[0]? with
    | none => none
    | some n => some (describeObj (ctx .pureDP) n.tables (w.pubOf n) d)

/-- **C77**: descriptions of a table, of a view of it, of groups by a KeySet, of a count, and of no table. -/
theorem C77_example :
    describedIn (.name "cities") = some (.ok
      ⟨(["Column Name", "Column Type", "Grouping Column", "Nullable"],
        [[.text "city", .type .INTEGER, .text "True", .text "False"], [.text "x", .type .INTEGER, .text "False", .text "False"]]),
        [], none⟩) ∧
    describedIn (.name "v") = some (.ok
      ⟨(["Column Name", "Column Type", "ID Col", "ID Space", "Nullable"],
        [[.text "id", .type .INTEGER, .text "True", .text "persons", .text "False"]]), [.maxRowsPerID 1], none⟩) ∧
    describedIn (.builder (.select (.source "cities") ["city"])) = some (.ok
      ⟨(["Column Name", "Column Type", "Grouping Column", "Nullable"],
        [[.text "city", .type .INTEGER, .text "True", .text "False"]]), [], none⟩) ∧
    describedIn (.grouped (.source "rest") (.set cityView)) = some (.ok
      ⟨(["Column Name", "Column Type", "Nullable"], [[.text "id", .type .INTEGER, .text "False"]]), [], some (["city"], some 2)⟩) ∧
    describedIn (.query cityGrouped) = some (.ok
      ⟨(["Column Name", "Column Type", "Nullable"],
        [[.text "city", .type .INTEGER, .text "False"], [.text "n", .type .INTEGER, .text "False"]]), [], none⟩) ∧
    describedIn (.name "towns") = some (.error .value) := by
  refine ⟨?_, ?_, ?_, ?_, ?_, ?_⟩ <;> decide +kernel

/-- **C77**: for all types of columns there is a core that meets the contract. -/
theorem C77_rows_example (c : Call) (ty : String → Option ColumnType) (t : Table) : RowsOf c ty t
    (match c.keys with
      | .set k => groupedAnswer c.keys.columns k.rows (someCore ty c.task) t
      | .cols cs => groupedAnswer c.keys.columns (t.map (fun r => cs.map (fun c => (c, cell r c)))) (someCore ty c.task) t) := by
  intro r hr
  by_cases hc : c.keys.columns = []
  · refine ⟨someCore ty, t, someCore_ok ty, ?_⟩
    rw [if_pos hc]
    cases hk : c.keys <;> rw [hk] at hr hc <;> dsimp only at hr <;>
      rw [groupedAnswer, if_pos hc, List.mem_singleton] at hr <;> exact hr
  · cases hk : c.keys with
    | set k =>
      rw [hk] at hr hc
      dsimp only at hr
      rw [groupedAnswer_eq hc] at hr
      obtain ⟨key, h1, rfl⟩ := List.mem_map.1 hr
      refine ⟨someCore ty, Query.group (Keys.columns (.set k)) key t, someCore_ok ty, ?_⟩
      rw [if_neg hc]
      exact ⟨key, rfl, h1⟩
    | cols cs =>
      rw [hk] at hr hc
      dsimp only at hr
      rw [groupedAnswer_eq hc] at hr
      obtain ⟨key, h1, rfl⟩ := List.mem_map.1 hr
      obtain ⟨r', h2, rfl⟩ := List.mem_map.1 h1
      refine ⟨someCore ty, Query.group (Keys.columns (.cols cs)) (cs.map (fun c => (c, cell r' c))) t, someCore_ok ty, ?_⟩
      rw [if_neg hc]
      exact ⟨_, rfl, r', h2, rfl⟩

/-- **C77**: the hypotheses on the query are met by the count of `C66_example`. -/
theorem C77_query_example : (∃ a, cityGrouped.agg? = some a ∧ a.keys = .set cityView ∧ (outColumns a).Nodup ∧
    (∀ c ∈ outColumns a, c ∉ a.keys.columns)) ∧ cityView.OK ∧ (∀ r ∈ cityView.rows, ∀ c, (c, Value.null) ∉ r) ∧
    OneRowPerKey exactCore ∧ exactAnswers .pureDP (.pure ⊤) cityGrouped cityGrouped_ok = some
      [[("city", .int 7), ("n", .int 0)], [("city", .int 1), ("n", .int 2)]] := by
  refine ⟨⟨_, rfl, rfl, by decide, by decide⟩, ⟨by simp [Dict.WF, cityView], ?_, by simp [cityView]⟩, ?_, exactCore_rows, exact_grouped⟩
  · intro r hr
    simp only [cityView, List.mem_cons, List.not_mem_nil, or_false] at hr
    rcases hr with rfl | rfl <;> exact rowFits_one rfl
  · intro r hr c hc
    simp only [cityView, List.mem_cons, List.not_mem_nil, or_false] at hr
    rcases hr with rfl | rfl <;> simp at hc

end Verif.Whole.Example
