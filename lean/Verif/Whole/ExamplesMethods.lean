import Verif.Whole.Methods
import Verif.Whole.Grouped
import Verif.Whole.ExamplesExact

/-!
# C71: concrete cases

Methods whose documented and actual answers differ, and cases that the theorems apply to.
-/

namespace Verif.Whole.Example

open Verif Verif.Schema Verif.Constraint Verif.Expr Verif.Query Verif.Stability
open Verif.Budget (XNum PB Rounding)
open Verif.Meaning (Means NoLeftIDs Faithful)

def python : Py := ⟨String.toUpper, fun _ => "q", fun z => z⟩

theorem mech_default : mechOf python (.name "default") = .ok .default :=
  mechOf_iff.2 (show "default".toUpper = "DEFAULT" by decide +kernel)

theorem mech_laplace : mechOf python (.name "Laplace") = .ok .laplace :=
  mechOf_iff.2 (show "Laplace".toUpper = "LAPLACE" by decide +kernel)

/-- `KeySet.from_dict({})` is as the methods of `QueryBuilder` are modelled. -/
theorem noKeys_view (ev : KeySet.Cond → (String → Option Value) → Bool) (hsh : KeySet.Op → Except KeySet.KErr ℤ) :
    ∃ k, KeySet.KS.fromDict hsh [] = .ok k ∧ viewOf ev k = .ok noKeys := by
  refine ⟨_, rfl, rfl⟩

/-- **C71** (negation): `min(…, name="")` gives the default name though a name is given; `sum(…, name="")` does not. -/
theorem C71_name_fails : ∃ a a', finish python true true (.source "t") none (.min "x" (.int 0) (.int 1) (some "")) = .ok a ∧
    a.out = "x_min" ∧
    finish python true true (.source "t") none (.stat .sum "x" (.int 0) (.int 1) (some "") (.name "default")) = .ok a' ∧
    a'.out = "" := by
  refine ⟨_, ⟨.source "t", .set noKeys, .bounded .sum "x" (.int 0) (.int 1) .default, "", none⟩, rfl, rfl, ?_, rfl⟩
  simp only [finish, groupby, Method.build, mech_default]
  rfl

/-- Values 1/2 and infinity. -/
def infRows : List Relation.DataRow := [[.int 1, .dec (.fin (1 / 2))], [.int 1, .dec .pinf]]

def infDb : Relation.Sources :=
  [("t", ⟨[⟨"city", .long, false⟩, ⟨"x", .double, false⟩], infRows⟩, .maxRows 1)]

def infTable : Table := [[("city", .int 1), ("x", .dec (.fin (1 / 2)))], [("city", .int 1), ("x", .dec .pinf)]]

/-- `groupby(cities).sum("x", low=0, high=1)`. -/
def infSum : Method := .stat .sum "x" (.int 0) (.int 1) none (.name "default")

def infAgg : Agg := ⟨.source "t", .set cityKeys, .bounded .sum "x" (.int 0) (.int 1) .default, "x_sum", none⟩

theorem infAgg_ok : Admissible (child (.agg infAgg)) := ⟨trivial, trivial, trivial, trivial, trivial⟩

theorem infAgg_built : finish python true true (.source "t") (some (.keyset cityKeys)) infSum = .ok infAgg := by
  simp only [finish, groupby, infSum, Method.build, mech_default]
  rfl

noncomputable def answerOf (sources : Relation.Sources) (m : Measure) (b : PB) (q : Query) (ok : Admissible (child q)) :
    Option Table :=
  match Relation.initCore (fun _ v => v) (coreMeasure m) sources with
  | .error _ => none
  | .ok out =>
    match (Session.step (env (ctx m)) (Session.init b (startTables out)) (.evaluate 0 (.query q ok) b)).1 with
    | .ok (.answer p _) => some (exactTable p.call (p.run (startData out)))
    | _ => none

/-- **C71** (negation): the documentation of `GroupedQueryBuilder.sum` says that infinite values are dropped; they count as the
upper bound. The sum within 0 and 1 of 1/2 and infinity is 3/2. -/
theorem C71_infinity_fails : answerOf infDb .pureDP (.pure ⊤) (.agg infAgg) infAgg_ok = some
      [[("city", .int 1), ("x_sum", .dec (.fin (3 / 2)))], [("city", .int 2), ("x_sum", .dec (.fin 0))],
        [("city", .int 3), ("x_sum", .dec (.fin 0))]] ∧
    infSum.answer python stats ["city", "x"] cityKeys.rows infTable (some (.keyset cityKeys)) =
      [[("city", .int 1), ("x_sum", .dec (.fin (1 / 2)))], [("city", .int 2), ("x_sum", .dec (.fin 0))],
        [("city", .int 3), ("x_sum", .dec (.fin 0))]] ∧
    Relation.Stored (fun _ v => v) infDb ∧ FramesOK infDb := by
  refine ⟨by decide +kernel, by decide +kernel, ⟨?_, ?_, ?_, ?_⟩, ⟨?_⟩⟩
  · rw [Dict.wf_iff]
    simp [infDb, Dict.keys]
  all_goals
    intro n df ch h
    simp only [infDb, List.mem_cons, List.not_mem_nil, or_false, Prod.mk.injEq] at h
    obtain ⟨rfl, rfl, rfl⟩ := h
  · rfl
  · rfl
  · simp [Relation.columns]
  · intro r hr
    simp only [infRows, List.mem_cons, List.not_mem_nil, or_false] at hr
    have h1 : Holds ⟨"city", .long, false⟩ (.int 1) := ⟨show (_ ∧ _) by norm_num, nofun⟩
    rcases hr with rfl | rfl
    · exact .cons h1 (.cons ⟨⟨1, -1, by norm_num, by norm_num, by norm_num, by norm_num, by norm_num⟩, nofun⟩ .nil)
    · exact .cons h1 (.cons ⟨trivial, nofun⟩ .nil)

/-- `average("x", low=0, high=1.0, mechanism="Laplace")`. -/
def average : Method := .stat .average "x" (.int 0) (.dec (.fin 1)) none (.name "Laplace")

def averageAgg : Agg :=
  ⟨.source "t", .set noKeys, .bounded .average "x" (.dec (.fin 0)) (.dec (.fin 1)) .laplace, "x_average", none⟩

theorem average_ok : Admissible (child (.agg averageAgg)) := ⟨trivial, trivial, trivial, trivial, trivial⟩

/-- **C71**: the theorems apply to an average without `groupby`. The average within 0 and 1 of 1/2 and infinity is 3/4, as
documented for this method. -/
theorem C71_example : finish python false false (.source "t") none average = .ok averageAgg ∧
    answerOf infDb .pureDP (.pure ⊤) (.agg averageAgg) average_ok = some [[("x_average", .dec (.fin (3 / 4)))]] ∧
    average.answer python stats ["city", "x"] [] infTable none = [[("x_average", .dec (.fin (3 / 4)))]] ∧
    average.Exact python ∧ average.Named ∧ average.Valid python ∧ (∀ T, average.NoInfinities false T) ∧
    ¬ (Method.stat .average "x" (.int 0) (.int 1) none (.name "geometric")).Valid python := by
  refine ⟨?_, by decide +kernel, by decide +kernel, ?_, trivial, ⟨?_, ?_, nofun⟩, ?_, ?_⟩
  · simp only [finish, groupby, average, Method.build, mech_laplace]
    rfl
  · intro low high h v hv
    cases h
    rcases hv with rfl | rfl <;> exact ⟨rfl, fun z hz => rfl⟩
  · intro arg h
    cases h
    exact ⟨.laplace, mechOf_iff.1 mech_laplace⟩
  · intro low high h
    cases h
    norm_num [bound, number]
  · intro T c low high _ _ h
    cases h
  · intro h
    obtain ⟨mech, hm⟩ := h.1 _ rfl
    have e : "geometric".toUpper = "GEOMETRIC" := by decide +kernel
    cases mech
    · exact absurd (e.symm.trans (show "geometric".toUpper = "DEFAULT" from hm)) (by decide)
    · exact absurd (e.symm.trans (show "geometric".toUpper = "LAPLACE" from hm)) (by decide)
    · exact absurd (e.symm.trans (show "geometric".toUpper = "GAUSSIAN" from hm)) (by decide)

end Verif.Whole.Example
