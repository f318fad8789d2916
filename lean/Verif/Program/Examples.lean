import Verif.Program.Main
import Verif.Whole.ExamplesChain
import Verif.Whole.ExamplesHistogram

/-!
# C74: a concrete program
-/

namespace Verif.Program.Example

open Verif Verif.Schema Verif.Constraint Verif.Expr Verif.Query Verif.Stability
open Verif.Budget (PB)
open Verif.Builder (Heap Obj Arg Operand AggArg Call Res PyFn PExpr PQuery Sql call run)
open Verif.Whole (Chain Ctx)
open Verif.Whole (noKeys)
open Verif.Whole.Example (ctx towns infDb intBins spec binDesc python howMany answerOf)

/-- Whether the methods of a chain accept their arguments. -/
def fails (ctx : Ctx) (c : Chain) : Bool :=
  match c.build ctx with
  | .ok _ => false
  | .error _ => true

theorem fails_iff {ctx : Ctx} {c : Chain} : fails ctx c = true ↔ ∀ e, c.build ctx ≠ .ok e := by
  unfold fails
  cases c.build ctx with
  | ok e => simp
  | error x => simp

/-- The checks of `Whole/Chain` as an oracle. The other methods accept what they are given. -/
def checks (ctx : Ctx) (sql : Sql) (th : Things) (h : Heap) : Call → Bool
  | .new id => fails ctx (.start id)
  | .transform _ arg =>
    match argStep sql th h.objs arg with
    | some f => fails ctx (f (.start "t"))
    | none => true
  | .joinPrivate _ (.table t) tl tr cols =>
    match listed h.objs cols with
    | some cs => fails ctx (.joinTable (.start "t") t tl tr cs)
    | none => true
  | .joinPrivate _ (.builder _) tl tr cols =>
    match listed h.objs cols with
    | some cs => fails ctx (.joinPrivate (.start "t") (.start "t") tl tr cs)
    | none => true
  | .histogram _ f name _ _ => fails ctx (.binColumn (.start "t") (th.bins f.obj).1 (th.bins f.obj).2 (some name))
  | _ => false

/-- **C74**: the hypothesis on the oracle can be met in every context where `t` is an identifier. -/
theorem checks_faithful (ctx : Ctx) (sql : Sql) (th : Things) (ht : ctx.isIdent "t" = true) :
    Faithful ctx sql th (checks ctx sql th) := by
  have one : ∀ (f : Chain → Chain), (∃ P : Prop, ∀ c, (f c).Valid ctx ↔ c.Valid ctx ∧ P) →
      (fails ctx (f (.start "t")) = true ↔ ∀ id e, (f (.start id)).build ctx ≠ .ok e) := by
    intro f hf
    rw [fails_iff]
    constructor
    · intro h id e he
      obtain ⟨e', he'⟩ := (Whole.C72_accepts ctx _).1.2 ((stands hf (c := .start "t") ht).1 ⟨id, e, he⟩)
      exact h e' he'
    · exact fun h => h "t"
  constructor
  · intro h id
    exact fails_iff
  · intro h b arg f hf
    simp only [checks, hf]
    exact one f (step_valid hf)
  · intro h b t tl tr cols cs hcs
    simp only [checks, hcs]
    exact one (fun c => .joinTable c t tl tr cs) (join_valid t tl tr cs)
  · intro h b b' tl tr cols cs hcs
    simp only [checks, hcs]
    rw [fails_iff]
    constructor
    · intro hall id e he
      have hv := (Whole.C72_accepts ctx _).1.1 ⟨e, he⟩
      obtain ⟨e', he'⟩ := (Whole.C72_accepts ctx (.joinPrivate (.start "t") (.start "t") tl tr cs)).1.2 ⟨ht, ht, hv.2.2⟩
      exact hall e' he'
    · exact fun h => h "t"
  · intro h b f name desc keys
    exact one (fun c => .binColumn c (th.bins f.obj).1 (th.bins f.obj).2 (some name)) ⟨_, fun c => Iff.rfl⟩

def sql : Sql := fun t => (fun _ => true, fun r => if t = "x = 5" then decide (Expr.cell r "x" = .dec (.fin 5)) else true)

def things : Things where
  frames := fun _ => towns
  bins := fun _ => ("city", ⟨intBins, spec, binDesc⟩)

/-- ```
d = {"x": (0, 5)}
a = QueryBuilder("t").replace_infinity(d)
d["x"] = (0, 7)
b = copy(a)                            # clone
b.filter("x = 5")
a.filter("true")
cs = ["city", "city"]
a.select(cs)                           # ValueError
cs[1:] = []
q = b.groupby(keys).count()
a.join_public(towns, cs)
b.join_private(a, join_columns=cs)
cs[0] = "x"
b.get_groups(cs)
``` -/
def program : List Call :=
  [.allocate (.pairs [("x", .int 0, .int 5)]), .new "t", .transform 0 (.replaceInf (some 0)), .assign 0 (.pairs [("x", .int 0, .int 7)]),
    .clone 0, .transform 1 (.filter "x = 5"), .transform 0 (.filter "true"), .allocate (.names ["city", "city"]),
    .transform 0 (.select 1), .assign 1 (.names ["city"]), .groupby 1 (.set noKeys), .aggregate 0 (.plain (.count .default)) "count",
    .transform 0 (.joinPublic (.df 0 ⟨⟨[("city", ⟨.INTEGER, false, false, false⟩), ("name", ⟨.VARCHAR, false, false, false⟩)]⟩, none, none, none⟩
      (Frame.named towns.frame)) (some 1) .inner),
    .joinPrivate 1 (.builder 0) none none (some 1), .assign 1 (.names ["x"]), .getGroups 1 (some 1)]

def base : Chain := .replaceInf (.start "t") (some [("x", .int 0, .int 5)])
def fives : Chain := .filter base (sql "x = 5").1 (sql "x = 5").2
def named : Chain := .joinPublic (.filter base (sql "true").1 (sql "true").2) (.frame towns) (.list ["city"]) "inner"

abbrev oracle : Heap → Call → Bool := checks (ctx .pureDP) sql things

theorem program_given : ∀ c ∈ program, Given (ctx .pureDP) things c := by
  intro c hc
  simp only [program, List.mem_cons, List.not_mem_nil, or_false] at hc
  rcases hc with rfl | rfl | rfl | rfl | rfl | rfl | rfl | rfl | rfl | rfl | rfl | rfl | rfl | rfl | rfl | rfl
  case inr.inr.inr.inr.inr.inr.inr.inr.inr.inr.inr.inr.inl =>
    intro r hr
    have : Whole.pubRef (ctx .pureDP) (.frame (things.frames 0)) = .ok (.df ⟨⟨[("city", ⟨.INTEGER, false, false, false⟩), ("name", ⟨.VARCHAR, false, false, false⟩)]⟩, none, none, none⟩
      (Frame.named towns.frame)) := rfl
    rw [this] at hr
    cases hr
    rfl
  all_goals trivial

/-- **C74**: what the replay has for the program. -/
theorem program_replayed : (replay sql things oracle {} {} program).builders = [named, .joinPrivate fives named none none (.list ["city"])] ∧
    (replay sql things oracle {} {} program).queries =
      [.agg fives (.set noKeys) (.count .default) "count", .groups (.joinPrivate fives named none none (.list ["city"])) ["x"]] :=
  ⟨rfl, rfl⟩

theorem fives_kept : fives.Kept := by
  refine ⟨trivial, fun m hm => ?_⟩
  cases hm
  simp [Dict.WF]

def fivesExpr : Expr := .filter (.replaceInf (.source "t") [("x", .int 0, .int 5)]) (sql "x = 5").1 (sql "x = 5").2

theorem fives_built : fives.build (ctx .pureDP) = .ok fivesExpr := rfl

theorem fives_agg : ∀ e, fives.build (ctx .pureDP) = .ok e →
    Whole.finish python true true e none howMany = .ok ⟨e, .set noKeys, .count .default, "count", none⟩ := by
  intro e _
  simp only [Whole.finish, Whole.groupby, howMany, Whole.Method.build, Whole.Example.mech_default]
  rfl

theorem fives_ok : Whole.Admissible (child (.agg ⟨fivesExpr, .set noKeys, .count .default, "count", none⟩)) :=
  Whole.admissible fives fives_kept fives_built

/-- **C74**: the hypotheses of the theorems hold for the program. Its first query has what it was made with: the dictionary
and the builders have changed since. -/
theorem C74_example : Faithful (ctx .pureDP) sql things oracle ∧ (∀ c ∈ program, Given (ctx .pureDP) things c) ∧
    (call oracle (run oracle {} (program.take 8)) (.transform 0 (.select 1))).2 = .raised ∧
    ((run oracle {} program).query 0).map (PQuery.denote sql) =
      some (.agg ⟨fivesExpr, .set noKeys, .count .default, "count", none⟩) ∧
    answerOf infDb .pureDP (.pure ⊤) (.agg ⟨fivesExpr, .set noKeys, .count .default, "count", none⟩) fives_ok =
      some [[("count", .int 1)]] ∧ howMany.Exact python ∧ howMany.Named :=
  ⟨checks_faithful _ _ _ rfl, program_given, rfl, rfl, by decide +kernel, fun _ _ h => by (cases h), trivial⟩

end Verif.Program.Example
