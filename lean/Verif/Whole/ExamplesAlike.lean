import Verif.Whole.Alike
import Verif.Whole.Examples

/-!
# Examples for C80
-/

namespace Verif.Whole.Example.Rewrite

open Verif Verif.Schema Verif.Constraint Verif.Expr Verif.Query Verif.Stability
open Verif.Budget (XNum PB Rounding)

def hasCity (s : Schema) : Bool := (Schema.keys s).contains "city"

def notOne (r : Row) : Bool := decide (cell r "city" ≠ .int 1)

def notTwo (r : Row) : Bool := decide (cell r "city" ≠ .int 2)

/-- Two filters, with columns that are not used selected in between, and another `select` at the end. -/
def messy : Expr :=
  (((Expr.select (.source "cities") ["city", "x"]).filter hasCity notOne).filter hasCity notTwo).select ["city"]

/-- The same, tidied: select at once, then one filter. -/
def tidy : Expr :=
  (Expr.select (.source "cities") ["city"]).filter (fun s => hasCity s && hasCity s) (fun r => notTwo r && notOne r)

def countOf (e : Expr) : Query := .agg ⟨e, .set ⟨[("city", ⟨.INTEGER, false, false, false⟩)], [[("city", .int 1)], [("city", .int 3)]]⟩, .count .default, "n", none⟩

theorem messy_ok : Admissible messy := ⟨trivial, trivial, trivial, trivial, trivial⟩

theorem tidy_ok : Admissible tidy := ⟨trivial, trivial, trivial, trivial, trivial⟩

theorem reads_city : Reads ["city"] notOne ∧ Reads ["city"] notTwo := by
  constructor <;> intro r r' h <;> simp only [notOne, notTwo, h "city" (by simp)]

/-- The tables of the session of `Relation.demoA`. -/
noncomputable def tables : List (String × Tab) :=
  match Relation.initCore (fun _ v => v) .pureDP Relation.demoA with
  | .ok out => startTables out
  | .error _ => []

noncomputable def demoCat : Cat :=
  match catalog tables [] with
  | .ok cat => cat
  | .error _ => ⟨[], []⟩

theorem valid_iff {cat : Cat} {v : Schema → Bool} {e : Expr} :
    ValidOn cat v e ↔ (match schemaOf cat e with | .ok s => v s | .error _ => true) = true := by
  unfold ValidOn
  cases schemaOf cat e <;> simp

/-- **C80**: both ways of writing are alike. -/
theorem messy_alike : Equivalent codeHash demoCat messy tidy := by
  have hs : ∃ so, build codeHash demoCat (Expr.select (.source "cities") ["city", "x"]) = .ok so := ⟨_, rfl⟩
  obtain ⟨so, hs⟩ := hs
  refine .trans (.select _ (.both _ _ _ _ _)) ?_
  refine .trans (.filterSelect _ _ (cols := ["city"]) ?_ ?_ ?_) ?_
  · intro r r' h
    show (notOne r && notTwo r) = (notOne r' && notTwo r')
    rw [reads_city.1 r r' h, reads_city.2 r r' h]
  · rw [valid_iff]; decide +kernel
  · rw [valid_iff]; decide +kernel
  refine .trans (.filter _ _ (.selectTwice _ (by simp) hs)) ?_
  refine .trans (.symm (.both _ _ _ _ _)) (.trans (.swap _ _ _ _ _) (.both _ _ _ _ _))

/-- **C80**: counting either way is the same call, and it is answered. -/
theorem C80_example :
    Session.step (env (ctx .pureDP)) (Session.init (.pure (5 : ℚ)) tables)
        (.evaluate 0 (.query (countOf tidy) tidy_ok) (.pure (2 : ℚ))) =
      Session.step (env (ctx .pureDP)) (Session.init (.pure (5 : ℚ)) tables)
        (.evaluate 0 (.query (countOf messy) messy_ok) (.pure (2 : ℚ))) ∧
    (match (Session.step (env (ctx .pureDP)) (Session.init (.pure (5 : ℚ)) tables)
        (.evaluate 0 (.query (countOf tidy) tidy_ok) (.pure (2 : ℚ)))).1 with
      | .ok _ => true
      | .error _ => false) = true := by
  refine ⟨C80_evaluate (q := countOf messy) (e := tidy) ?_ messy_ok tidy_ok _, ?_⟩
  · intro n hn cat hcat
    cases hn
    have : catalog tables [] = .ok demoCat := rfl
    have hcat : catalog tables [] = .ok cat := hcat
    rw [this] at hcat
    cases hcat
    exact messy_alike
  · decide +kernel

def double (r : Row) : Row :=
  match cell r "x" with
  | .int x => [("double", .int (2 * x))]
  | _ => [("double", .null)]

def doubleSchema : Schema := ⟨⟨[("double", ⟨.INTEGER, true, false, false⟩)]⟩, none, none, none⟩

/-- **C80**: a filter on other columns may come before or after a map. -/
theorem C80_map_example : Equivalent codeHash demoCat (((Expr.source "cities").filter hasCity notOne).map double doubleSchema true)
    (((Expr.source "cities").map double doubleSchema true).filter hasCity notOne) := by
  refine .filterMap _ _ _ (fun r => ?_) ?_ ?_
  · unfold notOne cell Row.get
    rw [List.lookup_append]
    have : (double r).lookup "city" = none := by
      unfold double
      split <;> rfl
    rw [this, Option.or_none]
  · rw [valid_iff]; decide +kernel
  · rw [valid_iff]; decide +kernel

/-- The table after the map has the columns named here. -/
example : (match schemaOf demoCat ((Expr.source "cities").map double doubleSchema true) with
    | .ok s => Schema.keys s
    | .error _ => []) = ["city", "x", "double"] := by decide +kernel

def visits : Cat where
  priv := [("t", (⟨⟨[("id", ⟨.VARCHAR, false, false, false⟩), ("g", ⟨.INTEGER, false, false, false⟩)]⟩, none, some "id", some "s"⟩, []))]
  pub := []

def twice : Data := fun _ => [[("id", .str "a"), ("g", .int 1)], [("id", .str "a"), ("g", .int 2)]]

def lengths (e : Expr) (D : Data) : Option Nat :=
  match compile codeHash visits e with
  | .ok o => some (o.run D).length
  | .error _ => none

/-- Keeping one row of each ID before or after a filter is not the same: the row that is kept may be dropped by the filter. -/
theorem C80_enforce_fails : ∃ a : Row → Bool,
    lengths (((Expr.source "t").enforce (.maxRowsPerID 1)).filter (fun _ => true) a) twice = some 0 ∧
      lengths (((Expr.source "t").filter (fun _ => true) a).enforce (.maxRowsPerID 1)) twice = some 1 :=
  ⟨fun r => decide (cell r "g" = .int 2), by decide +kernel, by decide +kernel⟩

end Verif.Whole.Example.Rewrite
