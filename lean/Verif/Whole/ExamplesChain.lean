import Verif.Whole.AnswersChain
import Verif.Whole.ExamplesMethods

/-!
# C72: concrete cases
-/

namespace Verif.Whole.Example

open Verif Verif.Schema Verif.Constraint Verif.Expr Verif.Query Verif.Stability
open Verif.Budget (XNum PB Rounding)
open Verif.Meaning

/-- A data frame with integers of 32 bits. -/
def towns : PubFrame where
  frame := ⟨[⟨"city", .integer, false⟩, ⟨"name", .string, false⟩], [[.int 1, .str "A"], [.int 2, .str "B"]]⟩
  names := by decide
  typed := by
    intro r hr
    simp only [List.mem_cons, List.not_mem_nil, or_false] at hr
    rcases hr with rfl | rfl
    · exact .cons ⟨show (_ ∧ _) by norm_num, nofun⟩ (.cons ⟨trivial, nofun⟩ .nil)
    · exact .cons ⟨show (_ ∧ _) by norm_num, nofun⟩ (.cons ⟨trivial, nofun⟩ .nil)

def isBig (r : Row) : Row := [("big", if Expr.cell r "x" = .dec (.fin 5) then .str "yes" else .str "no")]

/-- `QueryBuilder("t").replace_infinity({"x": (0, 5)}).map(..., {"big": "VARCHAR"}, augment=True)`
`.join_public(towns, ["city"], how="left").select(["big", "name"]).rename({"name": "town"}).filter("big = 'yes'")`. -/
def steps : Chain :=
  .filter
    (.rename
      (.select
        (.joinPublic
          (.map (.replaceInf (.start "t") (some [("x", .int 0, .int 5)])) isBig [("big", .name "VARCHAR")] true)
          (.frame towns) (.list ["city"]) "left")
        (.list ["big", "name"]))
      [("name", "town")])
    (fun _ => true) (fun r => decide (Expr.cell r "big" = .str "yes"))

def callsExpr : Expr :=
  .filter
    (.rename
      (.select
        (.joinPublic
          (.map (.replaceInf (.source "t") [("x", .int 0, .int 5)]) isBig ⟨⟨[("big", ⟨.VARCHAR, true, true, true⟩)]⟩, none, none, none⟩ true)
          (.df ⟨⟨[("city", ⟨.INTEGER, false, false, false⟩), ("name", ⟨.VARCHAR, false, false, false⟩)]⟩, none, none, none⟩
            (Frame.named towns.frame)) (some ["city"]) .left)
        ["big", "name"])
      [("name", "town")])
    (fun _ => true) (fun r => decide (Expr.cell r "big" = .str "yes"))

theorem steps_built : steps.build (ctx .pureDP) = .ok callsExpr := rfl

theorem steps_kept : steps.Kept := by
  refine ⟨⟨⟨trivial, fun m hm => ?_⟩, ?_, fun r => ⟨?_, fun c => ?_, ?_⟩⟩, ?_, ?_⟩
  · cases hm
    simp [Dict.WF]
  · simp [Dict.WF]
  · simp [isBig, Row.cols]
  · simp [isBig, Row.cols, Dict.keys]
  · intro c v x hv hx
    simp only [isBig, List.mem_singleton, Prod.mk.injEq] at hv hx
    rw [hv.2, hx.2]
    split <;> exact rfl
  · simp [Dict.WF]
  · simp

def howMany : Method := .count none (.name "default")

def callsAgg : Agg := ⟨callsExpr, .set noKeys, .count .default, "count", none⟩

theorem callsAgg_built : finish python true true callsExpr none howMany = .ok callsAgg := by
  simp only [finish, groupby, howMany, Method.build, mech_default]
  rfl

theorem callsAgg_ok : Admissible (child (.agg callsAgg)) := admissible steps steps_kept steps_built

/-- The catalog of a session with the table of `infDb`. -/
def callsCat : Cat :=
  ⟨[("t", ⟨⟨[("city", ⟨.INTEGER, false, false, false⟩), ("x", ⟨.DECIMAL, false, true, true⟩)]⟩, none, none, none⟩, [])], []⟩

/-- **C72**: the theorems apply to a chain of six calls, and the answer is the number of infinities. -/
theorem C72_example : steps.build (ctx .pureDP) = .ok callsExpr ∧ steps.Kept ∧ steps.Valid (ctx .pureDP) ∧
    finish python true true callsExpr none howMany = .ok callsAgg ∧
    answerOf infDb .pureDP (.pure ⊤) (.agg callsAgg) callsAgg_ok = some [[("count", .int 1)]] ∧
    steps.columns callsCat = [("big", .VARCHAR), ("town", .VARCHAR)] ∧ steps.NoLeft callsCat ∧
    howMany.Exact python ∧ howMany.Named := by
  refine ⟨steps_built, steps_kept, (C72_accepts _ _).1.1 ⟨_, steps_built⟩, callsAgg_built, by decide +kernel, by decide +kernel,
    ⟨trivial, fun _ => rfl⟩, ?_, trivial⟩
  intro low high h
  cases h

/-- `QueryBuilder("t").replace_infinity({"x": (0, 5)}).filter("x = 5")`. -/
def fives : Chain :=
  .filter (.replaceInf (.start "t") (some [("x", .int 0, .int 5)])) (fun _ => true)
    (fun r => decide (Expr.cell r "x" = .dec (.fin 5)))

/-- The documentation allows one table, and not the empty table. -/
theorem C72_documented_example :
    fives.Documented callsCat (fun _ => infTable) [[("city", .int 1), ("x", .dec (.fin 5))]] ∧
    ¬ fives.Documented callsCat (fun _ => infTable) [] := by
  have hrep : ∀ (v v' : Value), (v = .dec .pinf → v' = .dec (.fin 5)) → (v ≠ .dec .pinf → v ≠ .dec .ninf → v' = v) →
      v ≠ .dec .ninf → InfsReplaced (some [("x", .int 0, .int 5)]) "x" v v' := by
    intro v v' h1 h2 h3
    unfold InfsReplaced
    rw [if_neg (by simp)]
    rintro m hm
    cases hm
    refine ⟨fun x hx => ?_, fun h => absurd List.mem_cons_self (h _)⟩
    simp only [List.mem_singleton, Prod.mk.injEq, true_and] at hx
    subst hx
    rw [if_neg h3]
    split
    · next h => rw [h1 h]; simp [asType]
    · next h => exact h2 h h3
  have hcity : ∀ v, InfsReplaced (some [("x", .int 0, .int 5)]) "city" v v := by
    intro v
    unfold InfsReplaced
    rw [if_neg (by simp)]
    rintro m hm
    cases hm
    exact ⟨fun x hx => by simp at hx, fun _ => rfl⟩
  have hrow : ∀ a b b', InfsReplaced (some [("x", .int 0, .int 5)]) "x" b b' →
      Replaced (InfsReplaced (some [("x", .int 0, .int 5)])) [("city", a), ("x", b)] [("city", a), ("x", b')] := by
    intro a b b' h c
    have hget : ∀ y : Value, Row.get [("city", a), ("x", y)] c = if c = "city" then some a else if c = "x" then some y else none := by
      intro y
      show Dict.get [("city", a), ("x", y)] c = _
      rw [Dict.get_cons, Dict.get_cons]
      rfl
    rw [hget, hget]
    by_cases h1 : c = "city"
    · subst h1; exact ⟨a, rfl, hcity a⟩
    by_cases h2 : c = "x"
    · subst h2; exact ⟨b', rfl, h⟩
    · rw [if_neg h1, if_neg h2, if_neg h1, if_neg h2]
  refine ⟨⟨[[("city", .int 1), ("x", .dec (.fin (1 / 2)))], [("city", .int 1), ("x", .dec (.fin 5))]],
    ⟨infTable, .refl _, _, .cons (hrow _ _ _ (hrep _ _ nofun (fun _ _ => rfl) nofun))
      (.cons (hrow _ _ _ (hrep _ _ (fun _ => rfl) (fun h => absurd rfl h) nofun)) .nil), .refl _⟩, by decide +kernel⟩, ?_⟩
  rintro ⟨t, ⟨t₀, hp, u, hu, hpu⟩, ht⟩
  have hm : [("city", .int 1), ("x", .dec .pinf)] ∈ t₀ := hp.mem_iff.2 (by simp [infTable])
  obtain ⟨r', hr', hrep'⟩ : ∃ r' ∈ u, Replaced (InfsReplaced (some [("x", .int 0, .int 5)])) [("city", .int 1), ("x", .dec .pinf)] r' := by
    clear hp hpu
    induction hu with
    | nil => cases hm
    | @cons a b l l' hab _ ih =>
      rcases List.mem_cons.1 hm with rfl | hm
      · exact ⟨b, List.mem_cons_self, hab⟩
      · obtain ⟨r', h1, h2⟩ := ih hm
        exact ⟨r', List.mem_cons_of_mem _ h1, h2⟩
  obtain ⟨v', h1, h2⟩ := hrep' "x"
  have h2 := (h2 _ rfl).1 (.int 0, .int 5) List.mem_cons_self
  have : r' ∈ t.filter (fun r => decide (Expr.cell r "x" = .dec (.fin 5))) := by
    refine List.mem_filter.2 ⟨hpu.mem_iff.2 hr', ?_⟩
    unfold Expr.cell
    rw [h1, h2]
    decide +kernel
  rw [← ht.mem_iff] at this
  cases this

/-- A string given for the join columns is a sequence of its characters: `join_columns="city"` asks for columns `c`, `i`, `t` and
`y`. `select("city")` and `drop_null_and_nan("city")` take it as one column. -/
theorem C72_string_columns :
    (∃ e, (Chain.joinPublic (.start "t") (.frame towns) (.one "city") "inner").build (ctx .pureDP) = .ok e ∧
      schemaOf callsCat e = .error .value) ∧
    (∃ e s, (Chain.joinPublic (.start "t") (.frame towns) (.list ["city"]) "inner").build (ctx .pureDP) = .ok e ∧
      schemaOf callsCat e = .ok s) ∧
    (∃ e s, (Chain.select (.start "t") (.one "city")).build (ctx .pureDP) = .ok e ∧ schemaOf callsCat e = .ok s) := by
  refine ⟨⟨_, rfl, by decide +kernel⟩, ⟨_, _, rfl, rfl⟩, ⟨_, _, rfl, rfl⟩⟩

end Verif.Whole.Example
