import Verif.Program.Model

/-!
# C74: single calls
-/

namespace Verif.Program

open Verif Verif.Schema Verif.Constraint Verif.Expr Verif.Query
open Verif.Builder (Heap Obj Arg Operand AggArg Call Res PyFn PExpr PQuery Sql call run Reads makeOp)
open Verif.Whole (Chain Ctx ColsArg Bins PubFrame)

variable {ctx : Ctx} {sql : Sql} {th : Things}

/-- Whether a call is accepted depends on its arguments alone. -/
theorem step_valid {objs : List Obj} {arg : Arg} {f : Chain → Chain} (hf : argStep sql th objs arg = some f) :
    ∃ P : Prop, ∀ c, (f c).Valid ctx ↔ c.Valid ctx ∧ P := by
  cases arg with
  | rename m =>
    dsimp only [argStep] at hf
    split at hf <;> cases hf
    exact ⟨_, fun c => Iff.rfl⟩
  | filter t => cases hf; exact ⟨True, fun c => ⟨fun h => ⟨h, trivial⟩, And.left⟩⟩
  | select i =>
    dsimp only [argStep] at hf
    split at hf <;> cases hf
    exact ⟨_, fun c => Iff.rfl⟩
  | map g i a =>
    dsimp only [argStep] at hf
    split at hf <;> cases hf
    exact ⟨_, fun c => Iff.rfl⟩
  | flatMap g i a gr n =>
    dsimp only [argStep] at hf
    split at hf <;> cases hf
    exact ⟨_, fun c => Iff.rfl⟩
  | flatMapByID g i =>
    dsimp only [argStep] at hf
    split at hf <;> cases hf
    exact ⟨_, fun c => Iff.rfl⟩
  | joinPublic p cols how =>
    cases p with
    | name s =>
      obtain ⟨cs, _, rfl⟩ := Option.map_eq_some_iff.1 hf
      exact ⟨_, fun c => Iff.rfl⟩
    | df o s rows =>
      obtain ⟨cs, _, rfl⟩ := Option.map_eq_some_iff.1 hf
      exact ⟨_, fun c => Iff.rfl⟩
  | replaceNull w =>
    cases w with
    | none => cases hf; exact ⟨_, fun c => Iff.rfl⟩
    | some i =>
      dsimp only [argStep] at hf
      split at hf <;> cases hf
      exact ⟨_, fun c => Iff.rfl⟩
  | replaceInf w =>
    cases w with
    | none => cases hf; exact ⟨_, fun c => Iff.rfl⟩
    | some i =>
      dsimp only [argStep] at hf
      split at hf <;> cases hf
      exact ⟨_, fun c => Iff.rfl⟩
  | dropNull cols =>
    obtain ⟨cs, _, rfl⟩ := Option.map_eq_some_iff.1 hf
    exact ⟨True, fun c => ⟨fun h => ⟨h, trivial⟩, And.left⟩⟩
  | dropInf cols =>
    obtain ⟨cs, _, rfl⟩ := Option.map_eq_some_iff.1 hf
    exact ⟨True, fun c => ⟨fun h => ⟨h, trivial⟩, And.left⟩⟩
  | enforce k => cases hf; exact ⟨True, fun c => ⟨fun h => ⟨h, trivial⟩, And.left⟩⟩
  | binColumn g name desc => cases hf; exact ⟨_, fun c => Iff.rfl⟩

theorem valid_ident {c : Chain} (h : c.Valid ctx) : ∃ id, ctx.isIdent id = true := by
  induction c with
  | start id => exact ⟨id, h⟩
  | filter c _ _ ih => exact ih h
  | dropNull c _ ih => exact ih h
  | dropInf c _ ih => exact ih h
  | enforce c _ ih => exact ih h
  | joinPrivate c r _ _ _ ih _ => exact ih h.1
  | _ => rename_i ih; exact ih h.1

/-- A builder of a single table can stand for any builder. -/
theorem stands {f : Chain → Chain} (hf : ∃ P : Prop, ∀ c, (f c).Valid ctx ↔ c.Valid ctx ∧ P) {c : Chain} (hc : c.Valid ctx) :
    (∃ id e, (f (.start id)).build ctx = .ok e) ↔ (f c).Valid ctx := by
  obtain ⟨P, hP⟩ := hf
  constructor
  · rintro ⟨id, e, he⟩
    exact (hP c).2 ⟨hc, ((hP _).1 ((Whole.C72_accepts ctx _).1.1 ⟨e, he⟩)).2⟩
  · intro h
    obtain ⟨id, hid⟩ := valid_ident hc
    obtain ⟨e, he⟩ := (Whole.C72_accepts ctx (f (.start id))).1.2 ((hP _).2 ⟨hid, ((hP c).1 h).2⟩)
    exact ⟨id, e, he⟩

theorem listed_copy {h : Heap} {cols : Option Nat} {cs : ColsArg} (hc : listed h.objs cols = some cs) :
    (∃ x : Option (Builder.Held (List String)), Builder.copyOpt h cols = some x) ∧
      (∃ x : Builder.Held (List String), Builder.copyOrEmpty (α := String) h cols = some x) := by
  cases cols with
  | none => exact ⟨⟨_, rfl⟩, ⟨_, rfl⟩⟩
  | some i =>
    dsimp only [listed] at hc
    split at hc <;> cases hc
    next l hl =>
    constructor
    · exact ⟨_, by simp only [Builder.copyOpt, Builder.copyOf, hl]; rfl⟩
    · exact ⟨_, by simp only [Builder.copyOrEmpty, Builder.copyOf, hl]; rfl⟩

theorem newSchema_some {h : Heap} {i : Nat} {d : Dict String ColSpec} (hi : h.objs[i]? = some (.types d)) {g : Option String}
    {s : Schema} (hs : Whole.newSchema d g = .ok s) : Builder.newSchema h i g = some s := by
  unfold Builder.newSchema
  rw [hi]
  have hs' : Schema.init d g none none true true true = .ok s := hs
  simp only [Option.bind_some, Builder.OfObj.get, hs']

/-- The call that the chain accepts can be made. -/
theorem makeOp_some {h : Heap} {arg : Arg} {f : Chain → Chain} (hf : argStep sql th h.objs arg = some f)
    (hg : GivenArg ctx th arg) {c : Chain} {e e' : Expr} (he : c.build ctx = .ok e) (he' : (f c).build ctx = .ok e') :
    ∃ o, makeOp h arg = some o := by
  cases arg with
  | rename m =>
    dsimp only [argStep] at hf
    split at hf <;> cases hf
    next d hd => exact ⟨_, by simp only [makeOp, Builder.copyOf, hd]; rfl⟩
  | filter t => exact ⟨_, rfl⟩
  | select i =>
    dsimp only [argStep] at hf
    split at hf <;> cases hf
    next d hd => exact ⟨_, by simp only [makeOp, Builder.copyOf, hd]; rfl⟩
  | map g i a =>
    dsimp only [argStep] at hf
    split at hf <;> cases hf
    next d hd =>
    rw [Chain.build, he] at he'
    simp only [Except.bind, Whole.callMap] at he'
    split at he'
    · cases he'
    next s hs => exact ⟨_, by simp only [makeOp, newSchema_some hd hs]; rfl⟩
  | flatMap g i a gr n =>
    dsimp only [argStep] at hf
    split at hf <;> cases hf
    next d hd =>
    rw [Chain.build, he] at he'
    simp only [Except.bind, Whole.callFlatMap] at he'
    split at he'
    · cases he'
    next hlen =>
    split at he'
    · cases he'
    next s hs =>
    cases gr with
    | false =>
      simp only [Bool.false_eq_true, if_false] at hs
      exact ⟨_, by simp only [makeOp, Bool.false_eq_true, if_false, newSchema_some hd hs]; rfl⟩
    | true =>
      simp only [if_true] at hs
      have hl : d.length = 1 := by simpa using hlen
      obtain ⟨⟨x, t⟩, rfl⟩ := List.length_eq_one_iff.1 hl
      have hs' : Whole.newSchema [(x, t)] (some x) = .ok s := hs
      exact ⟨_, by simp only [makeOp, if_true, hd, Option.bind_some, Builder.OfObj.get, newSchema_some hd hs']; rfl⟩
  | flatMapByID g i =>
    dsimp only [argStep] at hf
    split at hf <;> cases hf
    next d hd =>
    rw [Chain.build, he] at he'
    simp only [Except.bind, Whole.callFlatMapByID] at he'
    split at he'
    · cases he'
    next s hs => exact ⟨_, by simp only [makeOp, newSchema_some hd hs]; rfl⟩
  | joinPublic p cols how =>
    cases p with
    | name s =>
      obtain ⟨cs, hcs, rfl⟩ := Option.map_eq_some_iff.1 hf
      obtain ⟨⟨x, hx⟩, _⟩ := listed_copy hcs
      exact ⟨_, by simp only [makeOp, hx]; rfl⟩
    | df o s rows =>
      obtain ⟨cs, hcs, rfl⟩ := Option.map_eq_some_iff.1 hf
      obtain ⟨⟨x, hx⟩, _⟩ := listed_copy hcs
      exact ⟨_, by simp only [makeOp, hx]; rfl⟩
  | replaceNull w =>
    cases w with
    | none => exact ⟨_, rfl⟩
    | some i =>
      dsimp only [argStep] at hf
      split at hf <;> cases hf
      next d hd => exact ⟨_, by simp only [makeOp, Builder.copyOrEmpty, Builder.copyOf, hd]; rfl⟩
  | replaceInf w =>
    cases w with
    | none => exact ⟨_, rfl⟩
    | some i =>
      dsimp only [argStep] at hf
      split at hf <;> cases hf
      next d hd => exact ⟨_, by simp only [makeOp, Builder.copyOrEmpty, Builder.copyOf, hd]; rfl⟩
  | dropNull cols =>
    obtain ⟨cs, hcs, rfl⟩ := Option.map_eq_some_iff.1 hf
    obtain ⟨_, ⟨x, hx⟩⟩ := listed_copy hcs
    exact ⟨_, by simp only [makeOp, hx]; rfl⟩
  | dropInf cols =>
    obtain ⟨cs, hcs, rfl⟩ := Option.map_eq_some_iff.1 hf
    obtain ⟨_, ⟨x, hx⟩⟩ := listed_copy hcs
    exact ⟨_, by simp only [makeOp, hx]; rfl⟩
  | enforce k => exact ⟨_, rfl⟩
  | binColumn g name desc =>
    cases hf
    rw [Chain.build, he] at he'
    simp only [Except.bind, Whole.callBin, Whole.callMap] at he'
    split at he'
    · cases he'
    next s hs =>
    have hs' : Schema.init [(name, .desc desc)] none none none true true true = .ok s := by rw [hg.2]; exact hs
    exact ⟨_, by simp only [makeOp, hs']; rfl⟩

theorem howOf_text (w : Expr.How) : Whole.howOf (howText w) = .ok w := by cases w <;> rfl

/-- The call makes the expression that the chain says. -/
theorem reads_build {h : Heap} {arg : Arg} {f : Chain → Chain} (hf : argStep sql th h.objs arg = some f)
    (hg : GivenArg ctx th arg) {op : Builder.Op} (hr : Reads h arg op) {c : Chain} {e e' : Expr} (he : c.build ctx = .ok e)
    (he' : (f c).build ctx = .ok e') : e' = Builder.Op.denote sql op e := by
  cases hr with
  | rename hd =>
    simp only [argStep, hd, Option.some.injEq] at hf
    subst hf
    rw [Chain.build, he] at he'
    simp only [Except.bind] at he'
    split at he' <;> cases he'
    rfl
  | filter t =>
    cases hf
    rw [Chain.build, he] at he'
    cases he'
    rfl
  | select hd =>
    simp only [argStep, hd, Option.some.injEq] at hf
    subst hf
    rw [Chain.build, he] at he'
    simp only [Except.bind] at he'
    split at he'
    · cases he'
    split at he' <;> cases he'
    rfl
  | map g a hd hs =>
    simp only [argStep, hd, Option.some.injEq] at hf
    subst hf
    rw [Chain.build, he] at he'
    simp only [Except.bind, Whole.callMap, Whole.newSchema, hs] at he'
    cases he'
    rfl
  | flatMap g a n hd hs =>
    simp only [argStep, hd, Option.some.injEq] at hf
    subst hf
    rw [Chain.build, he] at he'
    simp only [Except.bind, Whole.callFlatMap, Whole.newSchema, Bool.false_and, Bool.false_eq_true, if_false, hs] at he'
    cases n with
    | none => cases he'; rfl
    | some n =>
      simp only [Option.map_some] at he'
      rw [if_neg (by simp)] at he'
      cases he'
      rfl
  | grouping g a n hd hs =>
    simp only [argStep, hd, Option.some.injEq] at hf
    subst hf
    rw [Chain.build, he] at he'
    simp only [Except.bind, Whole.callFlatMap, Whole.newSchema, List.length_singleton, Dict.keys, List.map_cons, List.map_nil,
      List.head?_cons, if_true, ne_eq, not_true_eq_false, decide_false, Bool.and_false, Bool.false_eq_true, if_false, hs] at he'
    cases n with
    | none => cases he'; rfl
    | some n =>
      simp only [Option.map_some] at he'
      rw [if_neg (by simp)] at he'
      cases he'
      rfl
  | flatMapByID g hd hs =>
    simp only [argStep, hd, Option.some.injEq] at hf
    subst hf
    rw [Chain.build, he] at he'
    simp only [Except.bind, Whole.callFlatMapByID, Whole.newSchema, hs] at he'
    cases he'
    rfl
  | joinPublic p w =>
    cases p with
    | name s =>
      simp only [argStep, listed, Option.map_some, Option.some.injEq] at hf
      subst hf
      rw [Chain.build, he] at he'
      simp only [Except.bind, Whole.callJoinPublic, Whole.joinTuple, Whole.checkJoin, Whole.pubRef, howOf_text] at he'
      cases he'
      rfl
    | df o s rows =>
      simp only [argStep, listed, Option.map_some, Option.some.injEq] at hf
      subst hf
      rw [Chain.build, he] at he'
      simp only [Except.bind, Whole.callJoinPublic, Whole.joinTuple, Whole.checkJoin, howOf_text] at he'
      split at he'
      · cases he'
      next r hr =>
      cases he'
      rw [hg r hr]
      rfl
  | joinPublicOn p w hd =>
    cases p with
    | name s =>
      simp only [argStep, listed, hd, Option.map_some, Option.some.injEq] at hf
      subst hf
      rw [Chain.build, he] at he'
      simp only [Except.bind, Whole.callJoinPublic, Whole.joinTuple, Whole.pubRef, howOf_text] at he'
      split at he' <;> cases he'
      rfl
    | df o s rows =>
      simp only [argStep, listed, hd, Option.map_some, Option.some.injEq] at hf
      subst hf
      rw [Chain.build, he] at he'
      simp only [Except.bind, Whole.callJoinPublic, Whole.joinTuple, howOf_text] at he'
      split at he'
      · cases he'
      split at he'
      · cases he'
      next r hr =>
      cases he'
      rw [hg r hr]
      rfl
  | replaceNullAll =>
    cases hf
    rw [Chain.build, he] at he'
    simp only [Except.bind, Whole.callReplaceNull] at he'
    split at he' <;> cases he'
    rfl
  | replaceNull hd =>
    simp only [argStep, hd, Option.some.injEq] at hf
    subst hf
    rw [Chain.build, he] at he'
    simp only [Except.bind, Whole.callReplaceNull] at he'
    split at he' <;> cases he'
    rfl
  | replaceInfAll =>
    cases hf
    rw [Chain.build, he] at he'
    simp only [Except.bind, Whole.callReplaceInf] at he'
    split at he'
    · cases he'
    split at he' <;> cases he'
    rfl
  | replaceInf hd =>
    simp only [argStep, hd, Option.some.injEq] at hf
    subst hf
    rw [Chain.build, he] at he'
    simp only [Except.bind, Whole.callReplaceInf] at he'
    split at he'
    · cases he'
    split at he' <;> cases he'
    rfl
  | dropNullAll =>
    simp only [argStep, listed, Option.map_some, Option.some.injEq] at hf
    subst hf
    rw [Chain.build, he] at he'
    cases he'
    rfl
  | dropNull hd =>
    simp only [argStep, listed, hd, Option.map_some, Option.some.injEq] at hf
    subst hf
    rw [Chain.build, he] at he'
    cases he'
    rfl
  | dropInfAll =>
    simp only [argStep, listed, Option.map_some, Option.some.injEq] at hf
    subst hf
    rw [Chain.build, he] at he'
    cases he'
    rfl
  | dropInf hd =>
    simp only [argStep, listed, hd, Option.map_some, Option.some.injEq] at hf
    subst hf
    rw [Chain.build, he] at he'
    cases he'
    rfl
  | enforce k =>
    cases hf
    rw [Chain.build, he] at he'
    cases he'
    rfl
  | binColumn g name desc hs =>
    cases hf
    rw [Chain.build, he] at he'
    simp only [GivenArg] at hg
    rw [hg.2] at hs
    simp only [Except.bind, Whole.callBin, Whole.callMap, Whole.newSchema, hs] at he'
    cases he'
    rw [← hg.1]
    rfl

end Verif.Program
