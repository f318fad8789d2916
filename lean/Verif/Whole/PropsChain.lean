import Verif.Whole.Chain

/-!
# C72: chains of transformation methods
-/

namespace Verif.Whole

open Verif Verif.Schema Verif.Constraint Verif.Expr Verif.Query Verif.Stability
open Verif.Meaning
open Verif.Budget (XNum PB Rounding)
open Verif.Binning (Spec)

/-! ## Which arguments are accepted -/

/-- A call succeeds exactly under a condition; otherwise it raises a `ValueError` or a `TypeError`. -/
def Checks {α : Type} (P : Prop) (r : Except PyErr α) : Prop :=
  (∃ a, r = .ok a) ∧ P ∨ (∃ x, r = .error x ∧ (x = .value ∨ x = .type)) ∧ ¬ P

theorem Checks.ok {α : Type} {P : Prop} (h : P) (a : α) : Checks P (.ok a : Except PyErr α) := .inl ⟨⟨a, rfl⟩, h⟩

theorem Checks.value {α : Type} {P : Prop} (h : ¬ P) : Checks P (.error .value : Except PyErr α) :=
  .inr ⟨⟨_, rfl, .inl rfl⟩, h⟩

theorem Checks.type {α : Type} {P : Prop} (h : ¬ P) : Checks P (.error .type : Except PyErr α) :=
  .inr ⟨⟨_, rfl, .inr rfl⟩, h⟩

theorem Checks.bind {α β : Type} {P Q : Prop} {r : Except PyErr α} {f : α → Except PyErr β} (h : Checks P r)
    (hf : ∀ a, r = .ok a → Checks Q (f a)) : Checks (P ∧ Q) (r.bind f) := by
  rcases h with ⟨⟨a, rfl⟩, hp⟩ | ⟨⟨x, rfl, hx⟩, hp⟩
  · rcases hf a rfl with ⟨h, hq⟩ | ⟨h, hq⟩
    · exact .inl ⟨h, hp, hq⟩
    · exact .inr ⟨h, fun h => hq h.2⟩
  · exact .inr ⟨⟨x, rfl, hx⟩, fun h => hp h.1⟩

theorem Checks.congr {α : Type} {P Q : Prop} {r : Except PyErr α} (h : Checks P r) (hpq : P ↔ Q) : Checks Q r := by
  unfold Checks at *
  rwa [← hpq]

theorem resolve_type {x : ColSpec} : (∃ d, Schema.resolve true true true x = some d) ↔ ∃ t, OfType x t := by
  cases x with
  | name s =>
    simp only [Schema.resolve, Option.map_eq_some_iff]
    constructor
    · rintro ⟨_, t, h, _⟩
      exact ⟨t, typeOfName_iff.1 h⟩
    · rintro ⟨t, h⟩
      exact ⟨_, t, typeOfName_iff.2 h, rfl⟩
  | ty t => exact ⟨fun _ => ⟨t, rfl⟩, fun _ => ⟨_, rfl⟩⟩
  | desc d => exact ⟨fun _ => ⟨d.ty, rfl⟩, fun _ => ⟨_, rfl⟩⟩

theorem resolveAll_type : ∀ {types : Dict String ColSpec},
    (∃ ds, resolveAll true true true types = some ds) ↔ ∀ p ∈ types, ∃ t, OfType p.2 t
  | [] => by simp [resolveAll]
  | (c, x) :: rest => by
    have ih := @resolveAll_type rest
    rw [List.forall_mem_cons, ← ih, ← resolve_type, resolveAll]
    constructor
    · rintro ⟨ds, h⟩
      split at h
      · next d ds' h1 h2 => exact ⟨⟨d, h1⟩, ds', h2⟩
      · cases h
    · rintro ⟨⟨d, h1⟩, ds, h2⟩
      dsimp only at h1
      rw [h1, h2]
      exact ⟨_, rfl⟩

theorem newSchema_checks (types : Dict String ColSpec) {g : Option String} (hg : ∀ c, g = some c → c ∈ Dict.keys types) :
    Checks (TypesOK types) (newSchema types g) := by
  unfold newSchema Schema.init
  have hT : TypesOK types ↔ "" ∉ Dict.keys types ∧ ∀ p ∈ types, ∃ t, OfType p.2 t := by
    unfold TypesOK Dict.keys
    constructor
    · intro h
      refine ⟨fun hm => ?_, fun p hp => (h p hp).2⟩
      obtain ⟨p, hp, he⟩ := List.mem_map.1 hm
      exact (h p hp).1 he
    · rintro ⟨h1, h2⟩ p hp
      exact ⟨fun he => h1 (List.mem_map.2 ⟨p, hp, he⟩), h2 p hp⟩
  split
  · next h => exact .value (fun ht => (hT.1 ht).1 h)
  next h1 =>
  rw [if_neg, if_neg (by simp)]
  · split
    · next h =>
      refine .value fun ht => ?_
      obtain ⟨ds, hd⟩ := resolveAll_type.2 (hT.1 ht).2
      rw [h] at hd
      cases hd
    · next ds h => exact .ok (hT.2 ⟨h1, resolveAll_type.1 ⟨ds, h⟩⟩) _
  · exact opt_any_false (fun c hc => by simpa using hg c hc)

theorem callMap_checks (e : Expr) (f : Row → Row) (types : Dict String ColSpec) (augment : Bool) :
    Checks (TypesOK types) (callMap e f types augment) := by
  have := newSchema_checks types (g := none) nofun
  unfold callMap
  rcases this with ⟨⟨s, h⟩, hp⟩ | ⟨⟨x, h, hx⟩, hp⟩
  · rw [h]; exact .ok hp _
  · rw [h]; exact .inr ⟨⟨x, rfl, hx⟩, hp⟩

theorem callFlatMapByID_checks (e : Expr) (f : List Row → List Row) (types : Dict String ColSpec) :
    Checks (TypesOK types) (callFlatMapByID e f types) := by
  have := newSchema_checks types (g := none) nofun
  unfold callFlatMapByID
  rcases this with ⟨⟨s, h⟩, hp⟩ | ⟨⟨x, h, hx⟩, hp⟩
  · rw [h]; exact .ok hp _
  · rw [h]; exact .inr ⟨⟨x, rfl, hx⟩, hp⟩

theorem callFlatMap_checks (e : Expr) (f : Row → List Row) (types : Dict String ColSpec) (augment grouping : Bool)
    (n : Option ℤ) : Checks (TypesOK types ∧ (grouping = true → ∃ p, types = [p]) ∧ ∀ z, n = some z → 0 ≤ z)
      (callFlatMap e f types augment grouping n) := by
  unfold callFlatMap
  split
  · next h =>
    simp only [Bool.and_eq_true, decide_eq_true_eq] at h
    refine .value fun hv => ?_
    obtain ⟨p, rfl⟩ := hv.2.1 h.1
    exact h.2 rfl
  next h =>
  simp only [Bool.and_eq_true, decide_eq_true_eq, not_and, not_not] at h
  have hg : grouping = true → ∃ p, types = [p] := fun hg => List.length_eq_one_iff.1 (h hg)
  have := newSchema_checks types (g := if grouping then (Dict.keys types).head? else none) (by
    intro c hc
    split at hc
    · exact List.mem_of_mem_head? hc
    · cases hc)
  rcases this with ⟨⟨s, h'⟩, hp⟩ | ⟨⟨x, h', hx⟩, hp⟩
  · rw [h']
    dsimp only
    cases n with
    | none => exact .ok ⟨hp, hg, nofun⟩ _
    | some z =>
      dsimp only
      split
      · next hz => exact .value fun hv => absurd (hv.2.2 z rfl) (by omega)
      · next hz => exact .ok ⟨hp, hg, fun z' hz' => by cases hz'; omega⟩ _
  · rw [h']; exact .inr ⟨⟨x, rfl, hx⟩, fun hv => hp hv.1⟩

theorem binned_ne (column : String) : column ++ "_binned" ≠ "" := by
  intro h
  have := congrArg String.length h
  simp at this

theorem callBin_checks (e : Expr) (column : String) (b : Bins) (name : Option String) :
    Checks (name ≠ some "") (callBin e column b name) := by
  refine (callMap_checks e _ _ _).congr ?_
  unfold TypesOK
  rw [List.forall_mem_singleton]
  cases name with
  | none => exact ⟨fun _ => nofun, fun _ => ⟨binned_ne column, _, rfl⟩⟩
  | some n => exact ⟨fun h he => h.1 (Option.some.inj he), fun h => ⟨fun he => h (congrArg some he), _, rfl⟩⟩

theorem singleton_chars : ∀ {cs : List String}, (∀ c ∈ cs, c.length = 1) →
    (cs.flatMap String.toList).map String.singleton = cs
  | [], _ => rfl
  | c :: cs, h => by
    have h1 : c.toList.length = 1 := h c List.mem_cons_self
    obtain ⟨x, hx⟩ := List.length_eq_one_iff.1 h1
    rw [List.flatMap_cons, List.map_append, singleton_chars fun d hd => h d (List.mem_cons_of_mem _ hd), hx]
    have : String.singleton x = c := by
      rw [← String.toList_inj, hx]
      simp
    simp [this]

/-- The tuple made from an argument has the columns that it lists. -/
theorem sequence_iff {a : ColsArg} {cs : List String} : a.Sequence cs ↔ joinTuple a = some cs := by
  cases a with
  | missing => exact ⟨False.elim, nofun⟩
  | list l => exact ⟨fun h => congrArg some (Eq.symm h), fun h => (Option.some.inj h).symm⟩
  | one s =>
    constructor
    · rintro ⟨h1, h2⟩
      show some _ = _
      rw [h1, singleton_chars h2]
    · intro h
      cases h
      refine ⟨?_, ?_⟩
      · generalize s.toList = l
        induction l with
        | nil => rfl
        | cons x l ih => rw [List.map_cons, List.flatMap_cons, ← ih]; simp
      · intro c hc
        obtain ⟨x, _, rfl⟩ := List.mem_map.1 hc
        simp

theorem given_eq (a : ColsArg) : givenCols a = joinTuple a := by
  cases a with
  | one s =>
    show some _ = some _
    congr 1
  | _ => rfl

theorem checkJoin_checks (a : ColsArg) : Checks a.JoinOK (checkJoin (joinTuple a)) := by
  unfold ColsArg.JoinOK
  simp only [sequence_iff]
  cases joinTuple a with
  | none => exact .ok nofun _
  | some cs =>
    unfold checkJoin
    dsimp only
    split
    · next h => exact .value fun hv => (hv cs rfl).1 (List.eq_nil_of_length_eq_zero h)
    next h1 =>
    split
    · next h => exact .ok (fun l hl => by cases hl; exact ⟨fun he => h1 (by rw [he]; rfl), h⟩) _
    · next h => exact .value fun hv => h (hv cs rfl).2

theorem coerce_value {cast : SparkType → Value → Value} {df : Frame} {x : PyErr} (h : coerce cast df = .error x) :
    x = .value := by
  unfold coerce at h
  split at h
  · cases h; rfl
  split at h
  · cases h; rfl
  next h1 h2 =>
  clear h1 h2
  generalize df.fields = fs at h
  induction fs generalizing df with
  | nil => cases h
  | cons f fs ih =>
    unfold coerceLoop at h
    split at h
    · split at h
      · exact ih h
      · next e he =>
        cases h
        unfold withColumn at he
        split at he
        · cases he
        · cases he; rfl
    · exact ih h

/-- The public table of a join with a data frame. -/
theorem pubRef_frame (ctx : Ctx) (f : PubFrame) :
    (∃ s, pubRef ctx (.frame f) = .ok (.df s (Frame.named f.frame)) ∧ s.WF ∧ s.grouping = none ∧ s.idColumn = none ∧
        Conforms s (Frame.named f.frame) ∧ stys s = f.frame.fields.map (fun x => (x.name, frameType x.ty)) ∧
        ∀ x ∈ f.frame.fields, x.name ≠ "" ∧ x.ty ∈ supported) ∨
      pubRef ctx (.frame f) = .error .value ∧ ¬ ∀ x ∈ f.frame.fields, x.name ≠ "" ∧ x.ty ∈ supported := by
  have hacc := C39_coerce_accepts (cast := ctx.cast) f.names
  cases hco : coerceFrame ctx.cast ctx.castOK f with
  | error x =>
    right
    have hx : coerce ctx.cast f.frame = .error x := by
      unfold coerceFrame at hco
      split at hco
      · next e he => cases hco; exact he
      · cases hco
    refine ⟨?_, fun h => ?_⟩
    · unfold pubRef
      dsimp only
      rw [hco, coerce_value hx]
    · obtain ⟨df, hd⟩ := hacc.2 h
      rw [hx] at hd
      cases hd
  | ok f' =>
    left
    have hx : coerce ctx.cast f.frame = .ok f'.frame := by
      unfold coerceFrame at hco
      split at hco
      · cases hco
      · next df he => cases hco; exact he
    obtain ⟨h1, h2, _⟩ := C39_coerce hx
    obtain ⟨hrows, _⟩ := h2 ctx.castOK (fun r hr => (f.typed r hr).imp fun _ _ hv => hv.1)
    have hnames := coerce_names hx
    obtain ⟨ds, e1, e2, e3, e4⟩ := stored_schema (coerceFrame_stored hco)
    have hrow : Frame.named f'.frame = Frame.named f.frame := by
      unfold Frame.named
      rw [hrows, hnames]
    have hmk := stored_mk e2 e3
    refine ⟨⟨⟨ds⟩, none, none, none⟩, ?_, (mk_ok e2 hmk).1, rfl, rfl, ?_, ?_, hacc.1 ⟨_, hx⟩⟩
    · unfold pubRef
      dsimp only
      rw [hco]
      dsimp only
      rw [e1]
      dsimp only
      rw [hmk, hrow]
    · rw [← hrow]; exact e4
    · unfold sparkSchemaToAnalytics at e1
      split at e1
      · cases e1
      · next l hl =>
        cases e1
        have hty : ∀ {a b : List Field}, List.Forall₂ (fun f f' : Field => f'.name = f.name ∧ f'.nullable = f.nullable ∧
            Coerced f'.ty ∧ (f'.ty = f.ty ∨ f.ty = .integer ∧ f'.ty = .long ∨ f.ty = .float ∧ f'.ty = .double)) a b →
            ∀ {l : List (String × Desc)}, fieldDescs b = some l →
            l.map (fun p => (p.1, p.2.ty)) = a.map (fun x => (x.name, frameType x.ty)) := by
          intro a b hab
          induction hab with
          | nil => intro l hl; cases hl; rfl
          | @cons x y a b hxy _ ih =>
            intro l hl
            unfold fieldDescs at hl
            split at hl
            · next d ds' hd hds =>
              cases hl
              rw [List.map_cons, List.map_cons, ih hds]
              congr 1
              obtain ⟨q1, _, _, q2⟩ := hxy
              unfold fieldDesc at hd
              rw [Option.map_eq_some_iff] at hd
              obtain ⟨t, ht, rfl⟩ := hd
              dsimp only
              rw [q1]
              congr 1
              rcases q2 with q2 | ⟨q2, q3⟩ | ⟨q2, q3⟩
              · rw [q2] at ht
                cases hx : x.ty <;> rw [hx] at ht <;> cases ht <;> rfl
              · rw [q3] at ht
                cases ht
                rw [q2]; rfl
              · rw [q3] at ht
                cases ht
                rw [q2]; rfl
            · cases hl
        have hl' := hty h1 hl
        have hwf : Dict.WF l := by
          have : l.map Prod.fst = f.frame.fields.map Field.name := by
            have := congrArg (List.map Prod.fst) hl'
            simpa [Function.comp_def] using this
          unfold Dict.WF
          rw [this]
          exact f.names
        unfold stys
        dsimp only
        rw [Dict.ofPairs_eq hwf, hl']

theorem howOf_checks (how : String) : Checks (how = "inner" ∨ how = "left") (howOf how) := by
  unfold howOf
  split
  · next h => exact .ok (.inl h) _
  split
  · next h => exact .ok (.inr h) _
  · next h1 h2 => exact .value (fun h => h.elim h1 h2)

theorem pubRef_checks (ctx : Ctx) (pub : PubArg) :
    Checks (∀ f, pub = .frame f → ∀ x ∈ f.frame.fields, x.name ≠ "" ∧ x.ty ∈ supported) (pubRef ctx pub) := by
  cases pub with
  | table n => exact .ok nofun _
  | frame f =>
    rcases pubRef_frame ctx f with ⟨s, h, _, _, _, _, _, hv⟩ | ⟨h, hv⟩
    · rw [h]; exact .ok (fun f' hf => by cases hf; exact hv) _
    · rw [h]; exact .value fun h => hv (h f rfl)

theorem callJoinPublic_checks (ctx : Ctx) (e : Expr) (pub : PubArg) (cols : ColsArg) (how : String) :
    Checks (cols.JoinOK ∧ (how = "inner" ∨ how = "left") ∧
      ∀ f, pub = .frame f → ∀ x ∈ f.frame.fields, x.name ≠ "" ∧ x.ty ∈ supported) (callJoinPublic ctx e pub cols how) := by
  unfold callJoinPublic
  rcases checkJoin_checks cols with ⟨⟨_, h1⟩, p1⟩ | ⟨⟨x, h1, hx⟩, p1⟩
  · rw [h1]
    dsimp only
    rcases pubRef_checks ctx pub with ⟨⟨_, h2⟩, p2⟩ | ⟨⟨x, h2, hx⟩, p2⟩
    · rw [h2]
      dsimp only
      rcases howOf_checks how with ⟨⟨_, h3⟩, p3⟩ | ⟨⟨x, h3, hx⟩, p3⟩
      · rw [h3]; exact .ok ⟨p1, p3, p2⟩ _
      · rw [h3]; exact .inr ⟨⟨x, rfl, hx⟩, fun h => p3 h.2.1⟩
    · rw [h2]; exact .inr ⟨⟨x, rfl, hx⟩, fun h => p2 h.2.2⟩
  · rw [h1]; exact .inr ⟨⟨x, rfl, hx⟩, fun h => p1 h.1⟩

theorem callJoinPrivate_checks (e r : Expr) (tl tr : Option Trunc) (cols : ColsArg) :
    Checks cols.JoinOK (callJoinPrivate e r tl tr cols) := by
  unfold callJoinPrivate
  rcases checkJoin_checks cols with ⟨⟨_, h1⟩, p1⟩ | ⟨⟨x, h1, hx⟩, p1⟩
  · rw [h1]; exact .ok p1 _
  · rw [h1]; exact .inr ⟨⟨x, rfl, hx⟩, p1⟩

theorem valid_iff {v : Value} : validReplacement v = true ↔ Ordinary v := by
  unfold Ordinary
  cases v with
  | dec x => cases x <;> simp [validReplacement]
  | _ => simp [validReplacement]

theorem callReplaceNull_checks (e : Expr) (w : Option (Dict String Value)) :
    Checks (∀ m, w = some m → ∀ p ∈ m, Ordinary p.2) (callReplaceNull e w) := by
  unfold callReplaceNull
  cases w with
  | none => exact .ok nofun _
  | some m =>
    dsimp only [Option.getD]
    split
    · next h =>
      obtain ⟨p, hp, h⟩ := List.any_eq_true.1 h
      refine .value fun hv => ?_
      rw [valid_iff.2 (hv m rfl p hp)] at h
      cases h
    · next h =>
      refine .ok (fun m' hm p hp => ?_) _
      cases hm
      exact valid_iff.1 (by simpa using any_false h p hp)

theorem number_iff {v : Value} : (number v).isSome = true ↔ floatOrNone v = true ∧ validReplacement v = true := by
  cases v with
  | dec x => cases x <;> simp [number, floatOrNone, typeOK, validReplacement]
  | _ => simp [number, floatOrNone, typeOK, validReplacement]

theorem callReplaceInf_checks (e : Expr) (w : Option (Dict String (Value × Value))) :
    Checks (∀ m, w = some m → ∀ p ∈ m, (number p.2.1).isSome ∧ (number p.2.2).isSome) (callReplaceInf e w) := by
  unfold callReplaceInf
  cases w with
  | none => exact .ok nofun _
  | some m =>
    dsimp only [Option.getD]
    split
    · next h =>
      obtain ⟨p, hp, h⟩ := List.any_eq_true.1 h
      refine .type fun hv => ?_
      obtain ⟨h1, h2⟩ := hv m rfl p hp
      rw [(number_iff.1 h1).1, (number_iff.1 h2).1] at h
      cases h
    next h1 =>
    split
    · next h =>
      obtain ⟨p, hp, h⟩ := List.any_eq_true.1 h
      refine .value fun hv => ?_
      obtain ⟨h1, h2⟩ := hv m rfl p hp
      rw [(number_iff.1 h1).2, (number_iff.1 h2).2] at h
      cases h
    · next h2 =>
      refine .ok (fun m' hm p hp => ?_) _
      cases hm
      have a := any_false h1 p hp
      have b := any_false h2 p hp
      simp only [Bool.not_eq_false', Bool.and_eq_true] at a b
      exact ⟨number_iff.2 ⟨a.1, b.1⟩, number_iff.2 ⟨a.2, b.2⟩⟩

theorem newBuilder_checks (ctx : Ctx) (id : String) : Checks (ctx.isIdent id = true) (newBuilder ctx id) := by
  unfold newBuilder
  split
  · next h => exact .ok h _
  · next h => exact .value h

theorem lists_iff {a : ColsArg} {cs : List String} : a.Lists cs ↔ columnList a = cs := by
  cases a <;> exact eq_comm

theorem build_checks (ctx : Ctx) (c : Chain) : Checks (c.Valid ctx) (c.build ctx) := by
  induction c with
  | start id => exact newBuilder_checks ctx id
  | rename c m ih =>
    refine ih.bind fun e _ => ?_
    split
    · next h =>
      obtain ⟨p, hp, h⟩ := List.any_eq_true.1 h
      exact .value fun hv => hv p hp (by simpa using h)
    · next h => exact .ok (fun p hp => by simpa using any_false h p hp) _
  | filter c valid cond ih => exact (ih.bind (Q := True) fun e _ => .ok trivial _).congr (by simp [Chain.Valid])
  | select c columns ih =>
    refine ih.bind fun e _ => ?_
    simp only [lists_iff, forall_eq']
    split
    · next h => exact .type fun hv => hv.1 h
    next h1 =>
    split
    · next h => exact .ok ⟨h1, h⟩ _
    · next h => exact .value fun hv => h hv.2
  | map c f types augment ih => exact ih.bind fun e _ => callMap_checks e f types augment
  | flatMap c f types augment grouping n ih => exact ih.bind fun e _ => callFlatMap_checks e f types augment grouping n
  | flatMapByID c f types ih => exact ih.bind fun e _ => callFlatMapByID_checks e f types
  | binColumn c column bins name ih => exact ih.bind fun e _ => callBin_checks e column bins name
  | joinPublic c pub columns how ih => exact ih.bind fun e _ => callJoinPublic_checks ctx e pub columns how
  | joinPrivate c r tl tr columns ih ih' =>
    exact ih.bind fun e _ => ih'.bind fun e' _ => callJoinPrivate_checks e e' tl tr columns
  | joinTable c table tl tr columns ih =>
    exact ih.bind fun e _ => (newBuilder_checks ctx table).bind fun e' _ => callJoinPrivate_checks e e' tl tr columns
  | replaceNull c w ih => exact ih.bind fun e _ => callReplaceNull_checks e w
  | replaceInf c w ih => exact ih.bind fun e _ => callReplaceInf_checks e w
  | dropNull c columns ih => exact (ih.bind (Q := True) fun e _ => .ok trivial _).congr (by simp [Chain.Valid])
  | dropInf c columns ih => exact (ih.bind (Q := True) fun e _ => .ok trivial _).congr (by simp [Chain.Valid])
  | enforce c k ih => exact (ih.bind (Q := True) fun e _ => .ok trivial _).congr (by simp [Chain.Valid])

/-- **C72**: a chain of calls is accepted exactly if the arguments of every call are as documented; otherwise some call raises
a `ValueError` or a `TypeError`. -/
theorem C72_accepts (ctx : Ctx) (c : Chain) :
    ((∃ e, c.build ctx = .ok e) ↔ c.Valid ctx) ∧ ∀ x, c.build ctx = .error x → x = .value ∨ x = .type := by
  rcases build_checks ctx c with ⟨⟨e, h⟩, hv⟩ | ⟨⟨x, h, hx⟩, hv⟩
  · exact ⟨⟨fun _ => hv, fun _ => ⟨e, h⟩⟩, fun x hx => by rw [h] at hx; cases hx⟩
  · refine ⟨⟨fun ⟨e, he⟩ => ?_, fun h => absurd h hv⟩, fun y hy => ?_⟩
    · rw [h] at he; cases he
    · rw [h] at hy
      cases hy
      exact hx

end Verif.Whole
