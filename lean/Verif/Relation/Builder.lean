import Verif.Relation.PropsCover
import Verif.Schema.Props

/-!
# C37: the session builder

`_base_builder.py` and `Session.Builder` (`session.py` l. 251-295). A builder is changed in place by its methods; each
call either returns (the builder itself, or a session for `build`) or raises. Sessions are described by what they hold:
the budget, the private tables as given to core, and the public tables.

`isIdent` stands for `str.isidentifier`, and `β` for privacy budgets. Protected changes check their arguments when they
are made, that is, before the builder is called.
-/

namespace Verif.Relation

open Verif
open Verif.Schema (SparkType Field Frame SparkDesc PyErr)

/-- The state of a builder: `PrivacyBudgetMixin.__budget` (`_base_builder.py` l. 31), and `DataFrameMixin`'s
`__private_dataframes`, `__public_dataframes` and `__id_spaces` (l. 67-69). -/
structure Builder (β : Type) where
  budget : Option β
  priv : Sources
  pub : Dict String Frame
  spaces : List String

/-- `Session.Builder()` (l. 33-39, 71-79). -/
def Builder.new {β : Type} : Builder β := ⟨none, [], [], []⟩

/-- The methods of a builder. -/
inductive Call (β : Type) where
  | budget (b : β)
  | priv (name : String) (df : Frame) (ch : Change)
  | pub (name : String) (df : Frame)
  | space (s : String)
  | build

/-- A session. -/
structure Built (β : Type) where
  budget : β
  out : Output
  pub : Dict String Frame

variable {β : Type}

/-- `with_id_space` (l. 129-142). -/
def withIdSpace (isIdent : String → Bool) (b : Builder β) (s : String) : Except RErr (Builder β) :=
  if isIdent s = false then .error .value
  else if s ∈ b.spaces then .error .value
  else .ok { b with spaces := b.spaces ++ [s] }

/-- `_add_id_space_if_one_private_df` (l. 144-163). -/
def addIdSpace (isIdent : String → Bool) (b : Builder β) : Except RErr (Builder β) :=
  match b.priv with
  | [(_, _, .rowsWithID _ s)] => if s ∈ b.spaces then .ok b else withIdSpace isIdent b s
  | _ => .ok b

/-- The names in `private_sources` (`session.py` l. 476-484); every reference ends in a named table. -/
def namesOf : List Ref → List String
  | [] => []
  | r :: rs =>
    match r.getLast? with
    | some (.named n) => n :: namesOf rs
    | _ => namesOf rs

/-- `private_sources` (l. 476-484). -/
def privateSources (dom : Dom TableSchema) : Except RErr (List String) :=
  match findNamedTables dom with
  | some (.ok rs) => .ok (namesOf rs)
  | some (.error e) => .error e
  | none => .error .index

/-- `add_public_dataframe` (l. 964-968). -/
def addPublic (isIdent : String → Bool) (cast : SparkType → Value → Value) (dom : Dom TableSchema)
    (pub : Dict String Frame) (name : String) (df : Frame) : Except RErr (Dict String Frame) :=
  if isIdent name = false then .error .value
  else
    match privateSources dom with
    | .error e => .error e
    | .ok names =>
      if name ∈ Dict.keys pub ∨ name ∈ names then .error .value
      else
        match Schema.coerce cast df with
        | .error _ => .error .value
        | .ok df' => .ok (Dict.set pub name df')

/-- The loop over public tables in `build` (l. 292-293). -/
def addPublics (isIdent : String → Bool) (cast : SparkType → Value → Value) (dom : Dom TableSchema) :
    Dict String Frame → Dict String Frame → Except RErr (Dict String Frame)
  | [], pub => .ok pub
  | (n, df) :: rest, pub =>
    match addPublic isIdent cast dom pub n df with
    | .error e => .error e
    | .ok pub' => addPublics isIdent cast dom rest pub'

/-- The check of ID spaces in `build` (l. 282-290). -/
def checkSpaces (spaces : List String) : List Relation → Except RErr Unit
  | [] => .ok ()
  | .keys s _ _ :: rest => if s ∈ spaces then checkSpaces spaces rest else .error .value
  | _ :: rest => checkSpaces spaces rest

/-- `build` after the implicit ID space was added (l. 267-295). -/
def buildRest (isIdent : String → Bool) (cast : SparkType → Value → Value) (measOf : β → Measure) (b : Builder β)
    (budget : β) : Except RErr (Built β) :=
  match generateRelation b.priv with
  | .error e => .error e
  | .ok rel =>
    match createCore cast (measOf budget) (frames b.priv) rel with
    | .error e => .error e
    | .ok out =>
      match rel with
      | .conj cs =>
        match checkSpaces b.spaces cs with
        | .error e => .error e
        | .ok () =>
          match addPublics isIdent cast out.domain b.pub [] with
          | .error e => .error e
          | .ok pub => .ok ⟨budget, out, pub⟩
      | _ => .error .value

/-- One call: the builder afterwards, and the session (for `build`) or the exception. `build` keeps the ID space it
adds even if it raises later (l. 265). -/
def step (isIdent : String → Bool) (cast : SparkType → Value → Value) (measOf : β → Measure) (b : Builder β) :
    Call β → Builder β × Except RErr (Option (Built β))
  -- `with_privacy_budget` (l. 41-48)
  | .budget x =>
    match b.budget with
    | some _ => (b, .error .value)
    | none => ({ b with budget := some x }, .ok none)
  -- `with_private_dataframe` (l. 81-113)
  | .priv n df ch =>
    if ch.valid = false then (b, .error .value)
    else if isIdent n = false then (b, .error .value)
    else if n ∈ Dict.keys b.priv ∨ n ∈ Dict.keys b.pub then (b, .error .value)
    else
      match Schema.coerce cast df with
      | .error _ => (b, .error .value)
      | .ok df' => ({ b with priv := Dict.set b.priv n (df', ch) }, .ok none)
  -- `with_public_dataframe` (l. 115-127)
  | .pub n df =>
    if isIdent n = false then (b, .error .value)
    else if n ∈ Dict.keys b.priv ∨ n ∈ Dict.keys b.pub then (b, .error .value)
    else
      match Schema.coerce cast df with
      | .error _ => (b, .error .value)
      | .ok df' => ({ b with pub := Dict.set b.pub n df' }, .ok none)
  | .space s =>
    match withIdSpace isIdent b s with
    | .error e => (b, .error e)
    | .ok b' => (b', .ok none)
  | .build =>
    match b.budget with
    | none => (b, .error .value)
    | some x =>
      if b.priv = [] then (b, .error .value)
      else
        match addIdSpace isIdent b with
        | .error e => (b, .error e)
        | .ok b' => (b', (buildRest isIdent cast measOf b' x).map some)

/-- A sequence of calls; the caller goes on after exceptions. -/
def run (isIdent : String → Bool) (cast : SparkType → Value → Value) (measOf : β → Measure) :
    Builder β → List (Call β) → Builder β
  | b, [] => b
  | b, c :: cs => run isIdent cast measOf (step isIdent cast measOf b c).1 cs

/-! ## Specification -/

/-- Frames given to the builder have distinct column names. -/
def Call.Columns : Call β → Prop
  | .priv _ df _ => (columns df).Nodup
  | .pub _ df => (columns df).Nodup
  | _ => True

/-- ID spaces declared by `with_id_space`. -/
def Declared (isIdent : String → Bool) (calls : List (Call β)) (s : String) : Prop :=
  Call.space s ∈ calls ∧ isIdent s = true

/-- ID spaces in use. -/
def Uses (sources : Sources) (s : String) : Prop := ∃ n df c, (n, df, Change.rowsWithID c s) ∈ sources

/-- Names and ID spaces are valid identifiers, each used once; frames are as coercion leaves them. -/
structure Tidy (isIdent : String → Bool) (cast : SparkType → Value → Value) (b : Builder β) : Prop where
  names : (Dict.keys b.priv ++ Dict.keys b.pub).Nodup
  idents : ∀ n ∈ Dict.keys b.priv ++ Dict.keys b.pub, isIdent n = true
  spaces : b.spaces.Nodup
  spaceIdents : ∀ s ∈ b.spaces, isIdent s = true
  privCoerced : ∀ n df ch, (n, df, ch) ∈ b.priv → ch.valid = true ∧ Schema.coerce cast df = .ok df
  pubCoerced : ∀ n df, (n, df) ∈ b.pub → Schema.coerce cast df = .ok df

/-! ## Proofs -/

variable {isIdent : String → Bool} {cast : SparkType → Value → Value} {measOf : β → Measure}

theorem withIdSpace_ok {b b' : Builder β} {s : String} (h : withIdSpace isIdent b s = .ok b') :
    isIdent s = true ∧ s ∉ b.spaces ∧ b' = { b with spaces := b.spaces ++ [s] } := by
  unfold withIdSpace at h
  split at h
  · cases h
  · split at h
    · cases h
    · cases h
      rename_i h1 h2
      exact ⟨by simpa using h1, h2, rfl⟩

theorem addIdSpace_ok {b b' : Builder β} (h : addIdSpace isIdent b = .ok b') :
    b' = b ∨ ∃ n df c s, b.priv = [(n, df, .rowsWithID c s)] ∧ isIdent s = true ∧ s ∉ b.spaces ∧
      b' = { b with spaces := b.spaces ++ [s] } := by
  unfold addIdSpace at h
  split at h
  · rename_i n df c s hp
    split at h
    · cases h; exact .inl rfl
    · obtain ⟨h1, h2, h3⟩ := withIdSpace_ok h
      exact .inr ⟨n, df, c, s, hp, h1, h2, h3⟩
  · cases h; exact .inl rfl

/-- The possible effects of a call. -/
theorem step_effect (b : Builder β) (c : Call β) :
    (step isIdent cast measOf b c).1 = b ∨
    (∃ x, c = .budget x ∧ b.budget = none ∧ (step isIdent cast measOf b c).1 = { b with budget := some x }) ∨
    (∃ n df df' ch, c = .priv n df ch ∧ ch.valid = true ∧ isIdent n = true ∧ n ∉ Dict.keys b.priv ∧
      n ∉ Dict.keys b.pub ∧ Schema.coerce cast df = .ok df' ∧
      (step isIdent cast measOf b c).1 = { b with priv := b.priv ++ [(n, df', ch)] }) ∨
    (∃ n df df', c = .pub n df ∧ isIdent n = true ∧ n ∉ Dict.keys b.priv ∧
      n ∉ Dict.keys b.pub ∧ Schema.coerce cast df = .ok df' ∧
      (step isIdent cast measOf b c).1 = { b with pub := b.pub ++ [(n, df')] }) ∨
    (∃ s, isIdent s = true ∧ s ∉ b.spaces ∧ (c = .space s ∨ c = .build ∧ ∃ n df k, b.priv = [(n, df, .rowsWithID k s)]) ∧
      (step isIdent cast measOf b c).1 = { b with spaces := b.spaces ++ [s] }) := by
  cases c with
  | budget x =>
    dsimp only [step]
    cases hb : b.budget with
    | some y => exact .inl rfl
    | none => exact .inr (.inl ⟨x, rfl, rfl, rfl⟩)
  | priv n df ch =>
    dsimp only [step]
    split
    · exact .inl rfl
    · split
      · exact .inl rfl
      · split
        · exact .inl rfl
        · rename_i h1 h2 h3
          push Not at h3
          cases hc : Schema.coerce cast df with
          | error e => exact .inl rfl
          | ok df' =>
            refine .inr (.inr (.inl ⟨n, df, df', ch, rfl, by simpa using h1, by simpa using h2, h3.1, h3.2, hc, ?_⟩))
            dsimp only
            rw [Dict.set_new h3.1]
  | pub n df =>
    dsimp only [step]
    split
    · exact .inl rfl
    · split
      · exact .inl rfl
      · rename_i h2 h3
        push Not at h3
        cases hc : Schema.coerce cast df with
        | error e => exact .inl rfl
        | ok df' =>
          refine .inr (.inr (.inr (.inl ⟨n, df, df', rfl, by simpa using h2, h3.1, h3.2, hc, ?_⟩)))
          dsimp only
          rw [Dict.set_new h3.2]
  | space s =>
    dsimp only [step]
    cases hw : withIdSpace isIdent b s with
    | error e => exact .inl rfl
    | ok b' =>
      obtain ⟨h1, h2, rfl⟩ := withIdSpace_ok hw
      exact .inr (.inr (.inr (.inr ⟨s, h1, h2, .inl rfl, rfl⟩)))
  | build =>
    dsimp only [step]
    cases hb : b.budget with
    | none => exact .inl rfl
    | some x =>
      dsimp only
      split
      · exact .inl rfl
      · cases ha : addIdSpace isIdent b with
        | error e => exact .inl rfl
        | ok b' =>
          rcases addIdSpace_ok ha with rfl | ⟨n, df, k, s, hp, h1, h2, rfl⟩
          · exact .inl rfl
          · exact .inr (.inr (.inr (.inr ⟨s, h1, h2, .inr ⟨rfl, n, df, k, hp⟩, by simp [hb]⟩)))

theorem nodup_snoc {α : Type} {l : List α} {a : α} (h : l.Nodup) (ha : a ∉ l) : (l ++ [a]).Nodup := by
  rw [List.nodup_append]
  exact ⟨h, by simp, by rintro x hx y hy rfl; simp at hy; exact ha (hy ▸ hx)⟩

theorem step_tidy {b : Builder β} (h : Tidy isIdent cast b) (c : Call β) :
    Tidy isIdent cast (step isIdent cast measOf b c).1 := by
  rcases step_effect (isIdent := isIdent) (cast := cast) (measOf := measOf) b c with
    e | ⟨x, _, _, e⟩ | ⟨n, df, df', ch, _, hv, hi, h1, h2, hc, e⟩ | ⟨n, df, df', _, hi, h1, h2, hc, e⟩ |
    ⟨s, hi, hs, _, e⟩
  · rw [e]; exact h
  · rw [e]; exact ⟨h.names, h.idents, h.spaces, h.spaceIdents, h.privCoerced, h.pubCoerced⟩
  · rw [e]
    have hperm : (Dict.keys (b.priv ++ [(n, df', ch)]) ++ Dict.keys b.pub).Perm
        (n :: (Dict.keys b.priv ++ Dict.keys b.pub)) := by
      rw [Dict.keys_append, List.append_assoc]
      exact List.perm_middle
    refine ⟨hperm.nodup_iff.2 (List.nodup_cons.2 ⟨by simp [h1, h2], h.names⟩), ?_, h.spaces, h.spaceIdents, ?_,
      h.pubCoerced⟩
    · intro m hm
      rcases List.mem_cons.1 (hperm.mem_iff.1 hm) with rfl | hm'
      · exact hi
      · exact h.idents m hm'
    · intro m d k hm
      rcases List.mem_append.1 hm with hm' | hm'
      · exact h.privCoerced m d k hm'
      · rw [List.mem_singleton] at hm'
        cases hm'
        exact ⟨hv, (Schema.C39_coerce hc).2.2⟩
  · rw [e]
    have hperm : (Dict.keys b.priv ++ Dict.keys (b.pub ++ [(n, df')])).Perm
        (n :: (Dict.keys b.priv ++ Dict.keys b.pub)) := by
      rw [Dict.keys_append, ← List.append_assoc]
      exact List.perm_append_singleton _ _
    refine ⟨hperm.nodup_iff.2 (List.nodup_cons.2 ⟨by simp [h1, h2], h.names⟩), ?_, h.spaces, h.spaceIdents,
      h.privCoerced, ?_⟩
    · intro m hm
      rcases List.mem_cons.1 (hperm.mem_iff.1 hm) with rfl | hm'
      · exact hi
      · exact h.idents m hm'
    · intro m d hm
      rcases List.mem_append.1 hm with hm' | hm'
      · exact h.pubCoerced m d hm'
      · rw [List.mem_singleton] at hm'
        cases hm'
        exact (Schema.C39_coerce hc).2.2
  · rw [e]
    refine ⟨h.names, h.idents, nodup_snoc h.spaces hs, ?_, h.privCoerced, h.pubCoerced⟩
    intro t ht
    rcases List.mem_append.1 ht with ht' | ht'
    · exact h.spaceIdents t ht'
    · rw [List.mem_singleton] at ht'
      exact ht' ▸ hi

theorem run_tidy : ∀ (calls : List (Call β)) {b : Builder β}, Tidy isIdent cast b →
    Tidy isIdent cast (run isIdent cast measOf b calls)
  | [], _, h => h
  | c :: cs, _, h => run_tidy cs (step_tidy h c)

/-- **C37**: after any sequence of calls, table names are distinct valid identifiers, and so are ID spaces. -/
theorem C37_names (calls : List (Call β)) : Tidy isIdent cast (run isIdent cast measOf Builder.new calls) :=
  run_tidy calls ⟨by simp [Builder.new, Dict.keys], by simp [Builder.new, Dict.keys], by simp [Builder.new],
    by simp [Builder.new], by simp [Builder.new], by simp [Builder.new]⟩

/-- **C37**: calls that raise leave the builder as it was; except `build`, which may keep the single table's ID
space. -/
theorem C37_rejected {b : Builder β} {c : Call β} {e : RErr} (h : (step isIdent cast measOf b c).2 = .error e)
    (hc : c ≠ .build) : (step isIdent cast measOf b c).1 = b := by
  cases c with
  | build => exact absurd rfl hc
  | budget x =>
    revert h
    dsimp only [step]
    cases b.budget with
    | some y => exact fun _ => rfl
    | none => intro h; cases h
  | priv n df ch =>
    revert h
    dsimp only [step]
    split
    · exact fun _ => rfl
    · split
      · exact fun _ => rfl
      · split
        · exact fun _ => rfl
        · cases Schema.coerce cast df with
          | error e => exact fun _ => rfl
          | ok df' => intro h; cases h
  | pub n df =>
    revert h
    dsimp only [step]
    split
    · exact fun _ => rfl
    · split
      · exact fun _ => rfl
      · cases Schema.coerce cast df with
        | error e => exact fun _ => rfl
        | ok df' => intro h; cases h
  | space s =>
    revert h
    dsimp only [step]
    cases withIdSpace isIdent b s with
    | error e => exact fun _ => rfl
    | ok b' => intro h; cases h

theorem step_keeps (b : Builder β) (c : Call β) :
    (∀ x, b.budget = some x → (step isIdent cast measOf b c).1.budget = some x) ∧
    (∃ l, (step isIdent cast measOf b c).1.priv = b.priv ++ l) ∧
    (∃ l, (step isIdent cast measOf b c).1.pub = b.pub ++ l) ∧
    (∃ l, (step isIdent cast measOf b c).1.spaces = b.spaces ++ l) := by
  have nil : ∀ {α : Type} (l : List α), l = l ++ [] := by simp
  rcases step_effect (isIdent := isIdent) (cast := cast) (measOf := measOf) b c with
    e | ⟨x, _, hb, e⟩ | ⟨n, df, df', ch, _, hv, hi, h1, h2, hc, e⟩ | ⟨n, df, df', _, hi, h1, h2, hc, e⟩ |
    ⟨s, hi, hs, _, e⟩ <;> rw [e]
  · exact ⟨fun _ h => h, ⟨[], nil _⟩, ⟨[], nil _⟩, ⟨[], nil _⟩⟩
  · exact ⟨fun y h => (by rw [hb] at h; cases h), ⟨[], nil _⟩, ⟨[], nil _⟩, ⟨[], nil _⟩⟩
  · exact ⟨fun _ h => h, ⟨_, rfl⟩, ⟨[], nil _⟩, ⟨[], nil _⟩⟩
  · exact ⟨fun _ h => h, ⟨[], nil _⟩, ⟨_, rfl⟩, ⟨[], nil _⟩⟩
  · exact ⟨fun _ h => h, ⟨[], nil _⟩, ⟨[], nil _⟩, ⟨_, rfl⟩⟩

/-- **C37**: nothing given to a builder is replaced by later calls. -/
theorem C37_keeps : ∀ (calls : List (Call β)) (b : Builder β),
    (∀ x, b.budget = some x → (run isIdent cast measOf b calls).budget = some x) ∧
    (∃ l, (run isIdent cast measOf b calls).priv = b.priv ++ l) ∧
    (∃ l, (run isIdent cast measOf b calls).pub = b.pub ++ l) ∧
    (∃ l, (run isIdent cast measOf b calls).spaces = b.spaces ++ l)
  | [], b => ⟨fun _ h => h, ⟨[], by simp [run]⟩, ⟨[], by simp [run]⟩, ⟨[], by simp [run]⟩⟩
  | c :: cs, b => by
    obtain ⟨h1, ⟨l2, h2⟩, ⟨l3, h3⟩, ⟨l4, h4⟩⟩ := step_keeps (isIdent := isIdent) (cast := cast) (measOf := measOf) b c
    obtain ⟨k1, ⟨m2, k2⟩, ⟨m3, k3⟩, ⟨m4, k4⟩⟩ := C37_keeps cs (step isIdent cast measOf b c).1
    rw [run]
    exact ⟨fun x hx => k1 x (h1 x hx), ⟨l2 ++ m2, by rw [k2, h2, List.append_assoc]⟩,
      ⟨l3 ++ m3, by rw [k3, h3, List.append_assoc]⟩, ⟨l4 ++ m4, by rw [k4, h4, List.append_assoc]⟩⟩

theorem coerce_columns {df df' : Frame} (h : Schema.coerce cast df = .ok df') : columns df' = columns df := by
  have := (Schema.C39_coerce h).1
  unfold columns
  generalize df.fields = l, df'.fields = l' at this
  induction this with
  | nil => rfl
  | cons hx _ ih => rw [List.map_cons, List.map_cons, ih, hx.1]

theorem run_columns : ∀ (calls : List (Call β)) {b : Builder β}, (∀ c ∈ calls, c.Columns) →
    (∀ n df ch, (n, df, ch) ∈ b.priv → (columns df).Nodup) →
    ∀ n df ch, (n, df, ch) ∈ (run isIdent cast measOf b calls).priv → (columns df).Nodup
  | [], _, _, h => h
  | c :: cs, b, hc, h => by
    rw [run]
    refine run_columns cs (fun x hx => hc x (List.mem_cons_of_mem _ hx)) ?_
    rcases step_effect (isIdent := isIdent) (cast := cast) (measOf := measOf) b c with
      e | ⟨x, _, hb, e⟩ | ⟨n, df, df', ch, hcall, hv, hi, h1, h2, hco, e⟩ | ⟨n, df, df', _, hi, h1, h2, hc, e⟩ |
      ⟨s, hi, hs, _, e⟩ <;> rw [e]
    · exact h
    · exact h
    · intro m d k hm
      rcases List.mem_append.1 hm with hm' | hm'
      · exact h m d k hm'
      · rw [List.mem_singleton] at hm'
        cases hm'
        rw [coerce_columns hco]
        have := hc c (by simp)
        rw [hcall] at this
        exact this
    · exact h
    · exact h

/-- The tables of a builder are as C33 expects them. -/
theorem stored_run {calls : List (Call β)} (hc : ∀ c ∈ calls, c.Columns) :
    Stored cast (run isIdent cast measOf Builder.new calls).priv := by
  have ht := C37_names (isIdent := isIdent) (cast := cast) (measOf := measOf) calls
  refine ⟨(Dict.wf_iff _).2 (List.nodup_append.1 ht.names).1, fun n df ch h => (ht.privCoerced n df ch h).1,
    fun n df ch h => (ht.privCoerced n df ch h).2, run_columns calls hc (by simp [Builder.new])⟩

theorem checkSpaces_ok {spaces : List String} : ∀ {cs : List Relation},
    checkSpaces spaces cs = .ok () ↔ ∀ s m k, Relation.keys s m k ∈ cs → s ∈ spaces
  | [] => by simp [checkSpaces]
  | c :: cs => by
    cases c with
    | keys s m k =>
      rw [checkSpaces]
      split
      · rename_i hs
        rw [checkSpaces_ok]
        constructor
        · intro h s' m' k' hm
          rcases List.mem_cons.1 hm with e | hm'
          · cases e; exact hs
          · exact h s' m' k' hm'
        · exact fun h s' m' k' hm => h s' m' k' (List.mem_cons_of_mem _ hm)
      · rename_i hs
        constructor
        · intro h; cases h
        · intro h
          exact absurd (h s m k (by simp)) hs
    | _ =>
      rw [checkSpaces, checkSpaces_ok]
      · constructor
        · intro h s' m' k' hm
          rcases List.mem_cons.1 hm with e | hm'
          · cases e
          · exact h s' m' k' hm'
        · exact fun h s' m' k' hm => h s' m' k' (List.mem_cons_of_mem _ hm)
      · intros; contradiction

theorem mem_namesOf {n : String} : ∀ {rs : List Ref}, n ∈ namesOf rs ↔ ∃ r ∈ rs, EndsWith r n
  | [] => by simp [namesOf]
  | r :: rs => by
    rw [namesOf]
    simp only [EndsWith]
    have ih := mem_namesOf (n := n) (rs := rs)
    simp only [EndsWith] at ih
    split
    · rename_i m hm
      rw [List.mem_cons, ih]
      constructor
      · rintro (rfl | ⟨r', h1, h2⟩)
        · exact ⟨r, by simp, hm⟩
        · exact ⟨r', by simp [h1], h2⟩
      · rintro ⟨r', h1, h2⟩
        rcases List.mem_cons.1 h1 with rfl | h1'
        · rw [hm] at h2; cases h2; exact .inl rfl
        · exact .inr ⟨r', h1', h2⟩
    · rename_i hm
      rw [ih]
      constructor
      · rintro ⟨r', h1, h2⟩
        exact ⟨r', by simp [h1], h2⟩
      · rintro ⟨r', h1, h2⟩
        rcases List.mem_cons.1 h1 with rfl | h1'
        · exact absurd h2 (hm n)
        · exact ⟨r', h1', h2⟩

/-- The private sources of a session are the tables it was given. -/
theorem privateSources_ok {sources : Sources} (hst : Stored cast sources) {meas : Measure} {out : Output}
    (h : initCore cast meas sources = .ok out) :
    ∃ names, privateSources out.domain = .ok names ∧ ∀ n, n ∈ names ↔ n ∈ Dict.keys sources := by
  obtain ⟨hwf, huniq, hnames⟩ := C33_names hst h
  have htab := fun n df ch hm => C33_tables hst h (n := n) (df := df) (ch := ch) hm
  obtain ⟨_, cs, outs, _, _, _, _, _, _, rfl⟩ := initCore_ok hst meas h
  obtain ⟨rs, h1, h2, h3⟩ := C35_all hwf
  refine ⟨namesOf rs, ?_, fun n => ?_⟩
  · unfold privateSources
    dsimp only
    rw [h1]
  · rw [mem_namesOf, ← hnames n]
    constructor
    · rintro ⟨r, hr, he⟩
      obtain ⟨m, l, hp, hm⟩ := (h3 r).1 hr
      exact ⟨r, _, hp, he⟩
    · intro hex
      have hn := (hnames n).1 hex
      obtain ⟨⟨df, ch⟩, hm⟩ := Dict.mem_keys.1 hn
      obtain ⟨k, rest, s, dists, hf, hl, _⟩ := htab n df ch hm
      refine ⟨k :: rest, (h3 _).2 ⟨n, s, (lookupDomain_iff _ _ _ hwf).1 hl, ?_⟩, ?_⟩ <;>
        exact (C35_found hwf hf).1

theorem addPublics_ok {dom : Dom TableSchema} {names : List String} (hp : privateSources dom = .ok names) :
    ∀ (l pub : Dict String Frame), (∀ n ∈ Dict.keys l, isIdent n = true ∧ n ∉ names) →
      (Dict.keys pub ++ Dict.keys l).Nodup → (∀ n df, (n, df) ∈ l → Schema.coerce cast df = .ok df) →
      addPublics isIdent cast dom l pub = .ok (pub ++ l)
  | [], pub, _, _, _ => by simp [addPublics]
  | (n, df) :: l, pub, h, hn, hc => by
    obtain ⟨h1, h2⟩ := h n (by simp [Dict.keys])
    have hnp : n ∉ Dict.keys pub := by
      intro hin
      exact (List.nodup_append.1 hn).2.2 n hin n (by simp [Dict.keys]) rfl
    rw [addPublics, addPublic, if_neg (by simp [h1]), hp]
    dsimp only
    rw [if_neg (by simp [hnp, h2]), hc n df (by simp)]
    dsimp only
    rw [Dict.set_new hnp]
    rw [addPublics_ok hp l (pub ++ [(n, df)]) (fun m hm => h m (by simp [Dict.keys] at hm ⊢; exact .inr hm)) ?_
      (fun m d hm => hc m d (List.mem_cons_of_mem _ hm))]
    · simp
    · have : Dict.keys (pub ++ [(n, df)]) ++ Dict.keys l = Dict.keys pub ++ Dict.keys ((n, df) :: l) := by
        simp [Dict.keys]
      rw [this]
      exact hn

/-- What `build` does once the ID space of a single table was added. -/
theorem buildRest_ok {b : Builder β} (ht : Tidy isIdent cast b) (hst : Stored cast b.priv) (x : β) (s : Built β) :
    buildRest isIdent cast measOf b x = .ok s ↔
      (∃ out, initCore cast (measOf x) b.priv = .ok out ∧ s = ⟨x, out, b.pub⟩) ∧
      ∀ sp, Uses b.priv sp → sp ∈ b.spaces := by
  by_cases ho : ∀ p ∈ b.priv, p.2.2 ≠ .other
  · obtain ⟨cs, h1, h2, h3, h4, h5⟩ := generate_ok hst.wf (fun p hp => hst.valid p.1 p.2.1 p.2.2 hp) ho
    have huse : ∀ sp, Uses b.priv sp ↔ ∃ m k, Relation.keys sp m k ∈ cs := by
      intro sp
      constructor
      · rintro ⟨n, df, c, hm⟩
        have hi : (n, c) ∈ idTables sp b.priv := mem_idTables.2 ⟨df, hm⟩
        refine ⟨_, _, (h5 _).2 (.inr ⟨sp, ?_, rfl⟩)⟩
        intro e
        rw [e] at hi
        simp at hi
      · rintro ⟨m, k, hm⟩
        rcases (h5 _).1 hm with ⟨⟨n, df, ch⟩, hp, hd⟩ | ⟨s', hne, e⟩
        · cases ch <;> cases hd
        · cases e
          obtain ⟨⟨n, c⟩, hi⟩ := List.exists_mem_of_ne_nil _ hne
          obtain ⟨df, hm'⟩ := mem_idTables.1 hi
          exact ⟨n, df, c, hm'⟩
    have hinit : initCore cast (measOf x) b.priv = createCore cast (measOf x) (frames b.priv) (.conj cs) := by
      unfold initCore
      rw [h1]
    unfold buildRest
    rw [h1]
    dsimp only
    rw [hinit]
    cases hcc : createCore cast (measOf x) (frames b.priv) (.conj cs) with
    | error e =>
      dsimp only
      constructor
      · intro h; cases h
      · rintro ⟨⟨out, h, _⟩, _⟩; cases h
    | ok out =>
      dsimp only
      obtain ⟨names, hn1, hn2⟩ := privateSources_ok hst (hinit.trans hcc)
      have hdis : ∀ n ∈ Dict.keys b.pub, isIdent n = true ∧ n ∉ names := by
        intro n hn
        refine ⟨ht.idents n (by simp [hn]), fun hin => ?_⟩
        exact (List.nodup_append.1 ht.names).2.2 n ((hn2 n).1 hin) n hn rfl
      have hpubs := addPublics_ok (cast := cast) hn1 b.pub [] hdis
        (by simpa [Dict.keys] using (List.nodup_append.1 ht.names).2.1) ht.pubCoerced
      rw [List.nil_append] at hpubs
      rw [hpubs]
      cases hck : checkSpaces b.spaces cs with
      | error e =>
        dsimp only
        constructor
        · intro h; cases h
        · rintro ⟨_, h⟩
          have : checkSpaces b.spaces cs = .ok () :=
            checkSpaces_ok.2 (fun sp m k hm => h sp ((huse sp).2 ⟨m, k, hm⟩))
          rw [this] at hck
          cases hck
      | ok u =>
        dsimp only
        constructor
        · intro h
          cases h
          exact ⟨⟨out, rfl, rfl⟩, fun sp hu => by
            obtain ⟨m, k, hm⟩ := (huse sp).1 hu
            exact checkSpaces_ok.1 hck sp m k hm⟩
        · rintro ⟨⟨out', h, rfl⟩, _⟩
          cases h
          rfl
  · push Not at ho
    obtain ⟨p, hp, he⟩ := ho
    have hg : ∃ e, generateRelation b.priv = .error e := by
      unfold generateRelation
      rw [genLoop_other b.priv [] [] ⟨p, hp, he⟩]
      exact ⟨_, rfl⟩
    obtain ⟨e, hg⟩ := hg
    unfold buildRest initCore
    rw [hg]
    dsimp only
    constructor
    · intro h; cases h
    · rintro ⟨⟨out, h, _⟩, _⟩; cases h

/-- **C37**: building succeeds iff a budget is set, there is a private table, the tables fit together, and every ID
space is one of the builder's or, if there is a single table, a valid identifier. The session holds the budget and the
tables of the builder. -/
theorem C37_build {calls : List (Call β)} (hc : ∀ c ∈ calls, c.Columns) (s : Built β) :
    let b := run isIdent cast measOf Builder.new calls
    (step isIdent cast measOf b .build).2 = .ok (some s) ↔
      ∃ x out, b.budget = some x ∧ b.priv ≠ [] ∧ initCore cast (measOf x) b.priv = .ok out ∧ s = ⟨x, out, b.pub⟩ ∧
        ∀ sp, Uses b.priv sp → sp ∈ b.spaces ∨ b.priv.length = 1 ∧ isIdent sp = true := by
  intro b
  have ht : Tidy isIdent cast b := C37_names calls
  have hst : Stored cast b.priv := stored_run hc
  dsimp only [step]
  cases hb : b.budget with
  | none =>
    dsimp only
    constructor
    · intro h; cases h
    · rintro ⟨x, _, h, _⟩; cases h
  | some x =>
    dsimp only
    split
    · rename_i hp
      constructor
      · intro h; cases h
      · rintro ⟨_, _, _, h, _⟩; exact absurd hp h
    rename_i hp
    have hmap : ∀ b' : Builder β, ((buildRest isIdent cast measOf b' x).map some = .ok (some s)) ↔
        buildRest isIdent cast measOf b' x = .ok s := by
      intro b'
      cases buildRest isIdent cast measOf b' x with
      | error e => constructor <;> (intro h; cases h)
      | ok s' =>
        constructor
        · intro h; cases h; rfl
        · intro h; cases h; rfl
    cases ha : addIdSpace isIdent b with
    | error e =>
      dsimp only
      constructor
      · intro h; cases h
      · rintro ⟨y, out, _, _, _, _, hu⟩
        exfalso
        unfold addIdSpace at ha
        split at ha
        · rename_i n df c sp hpr
          split at ha
          · cases ha
          · rename_i hns
            rcases hu sp ⟨n, df, c, by rw [hpr]; simp⟩ with h' | ⟨_, h'⟩
            · exact hns h'
            · unfold withIdSpace at ha
              rw [if_neg (by simp [h']), if_neg hns] at ha
              cases ha
        · cases ha
    | ok b' =>
      dsimp only
      rw [hmap]
      have hsp : b'.priv = b.priv ∧ b'.pub = b.pub ∧ Tidy isIdent cast b' ∧
          ∀ sp, Uses b.priv sp → (sp ∈ b'.spaces ↔ sp ∈ b.spaces ∨ b.priv.length = 1 ∧ isIdent sp = true) := by
        rcases addIdSpace_ok ha with rfl | ⟨n, df, c, sp, hpr, hi, hns, rfl⟩
        · refine ⟨rfl, rfl, ht, fun sp hu => ?_⟩
          constructor
          · exact .inl
          · rintro (h | ⟨h1, h2⟩)
            · exact h
            · obtain ⟨n, df, c, hm⟩ := hu
              obtain ⟨p, hpe⟩ := List.length_eq_one_iff.1 h1
              rw [hpe, List.mem_singleton] at hm
              subst hm
              unfold addIdSpace at ha
              rw [hpe] at ha
              dsimp only at ha
              split at ha
              · assumption
              · obtain ⟨_, _, h3⟩ := withIdSpace_ok ha
                have := congrArg (fun z => z.spaces.length) h3
                simp at this
        · refine ⟨rfl, rfl, ⟨ht.names, ht.idents, nodup_snoc ht.spaces hns, ?_, ht.privCoerced, ht.pubCoerced⟩, ?_⟩
          · intro t htm
            rcases List.mem_append.1 htm with h' | h'
            · exact ht.spaceIdents t h'
            · rw [List.mem_singleton] at h'
              exact h' ▸ hi
          · rintro sp' ⟨n', df', c', hm⟩
            rw [hpr, List.mem_singleton] at hm
            cases hm
            simp [hpr, hi]
      obtain ⟨e1, e2, ht', hsp⟩ := hsp
      rw [buildRest_ok ht' (by rw [e1]; exact hst) x s, e1, e2]
      constructor
      · rintro ⟨⟨out, h1, h2⟩, hu⟩
        exact ⟨x, out, rfl, hp, h1, h2, fun sp h => (hsp sp h).1 (hu sp h)⟩
      · rintro ⟨y, out, hy, _, h1, h2, hu⟩
        cases hy
        exact ⟨⟨out, h1, h2⟩, fun sp h => (hsp sp h).2 (hu sp h)⟩

/-- Where ID spaces come from: declarations, or an earlier `build` with a single table. -/
theorem run_spaces : ∀ (calls : List (Call β)) (b : Builder β) (s : String),
    (s ∈ (run isIdent cast measOf b calls).spaces → s ∈ b.spaces ∨ Declared isIdent calls s ∨ Call.build ∈ calls) ∧
    (s ∈ b.spaces ∨ Declared isIdent calls s → s ∈ (run isIdent cast measOf b calls).spaces)
  | [], b, s => ⟨.inl, by rintro (h | ⟨h, _⟩); exacts [h, by simp at h]⟩
  | c :: cs, b, s => by
    obtain ⟨i1, i2⟩ := run_spaces cs (step isIdent cast measOf b c).1 s
    rw [run]
    constructor
    · intro h
      rcases i1 h with h' | ⟨h1, h2⟩ | h'
      · rcases step_effect (isIdent := isIdent) (cast := cast) (measOf := measOf) b c with
          e | ⟨x, _, hb, e⟩ | ⟨n, df, df', ch, hcall, hv, hi, h1, h2, hco, e⟩ | ⟨n, df, df', _, hi, h1, h2, hc, e⟩ |
          ⟨t, hi, hs, hcall, e⟩ <;> rw [e] at h'
        · exact .inl h'
        · exact .inl h'
        · exact .inl h'
        · exact .inl h'
        · rcases List.mem_append.1 h' with h'' | h''
          · exact .inl h''
          · rw [List.mem_singleton] at h''
            subst h''
            rcases hcall with rfl | ⟨rfl, _⟩
            · exact .inr (.inl ⟨by simp, hi⟩)
            · exact .inr (.inr (by simp))
      · exact .inr (.inl ⟨by simp [h1], h2⟩)
      · exact .inr (.inr (by simp [h']))
    · rintro (h | ⟨h1, h2⟩)
      · obtain ⟨_, _, _, ⟨l, hl⟩⟩ := step_keeps (isIdent := isIdent) (cast := cast) (measOf := measOf) b c
        exact i2 (.inl (by rw [hl]; simp [h]))
      · rcases List.mem_cons.1 h1 with rfl | h1'
        · refine i2 (.inl ?_)
          dsimp only [step, withIdSpace]
          rw [if_neg (by simp [h2])]
          split <;> rename_i hw
          · split at hw
            · assumption
            · cases hw
          · split at hw
            · cases hw
            · cases hw
              simp
        · exact i2 (.inr ⟨h1', h2⟩)

/-- **C37**, building for the first time: it succeeds iff a budget is set, there is a private table, the tables fit
together, and every ID space was declared, or belongs to the only table and is a valid identifier. -/
theorem C37_build_partial {calls : List (Call β)} (hc : ∀ c ∈ calls, c.Columns) (hb : Call.build ∉ calls) :
    let b := run isIdent cast measOf Builder.new calls
    (∃ s, (step isIdent cast measOf b .build).2 = .ok (some s)) ↔
      (∃ x, b.budget = some x) ∧ b.priv ≠ [] ∧ SourcesOK b.priv ∧
        ∀ sp, Uses b.priv sp → Declared isIdent calls sp ∨ b.priv.length = 1 ∧ isIdent sp = true := by
  intro b
  have hst : Stored cast b.priv := stored_run hc
  have hsp : ∀ sp, sp ∈ b.spaces ↔ Declared isIdent calls sp := by
    intro sp
    obtain ⟨i1, i2⟩ := run_spaces (isIdent := isIdent) (cast := cast) (measOf := measOf) calls Builder.new sp
    constructor
    · intro h
      rcases i1 h with h' | h' | h'
      · simp [Builder.new] at h'
      · exact h'
      · exact absurd h' hb
    · exact fun h => i2 (.inr h)
  constructor
  · rintro ⟨s, h⟩
    obtain ⟨x, out, h1, h2, h3, _, h5⟩ := (C37_build hc s).1 h
    refine ⟨⟨x, h1⟩, h2, (C33_session hst (measOf x)).1 ⟨out, h3⟩, fun sp hu => ?_⟩
    rcases h5 sp hu with h' | h'
    · exact .inl ((hsp sp).1 h')
    · exact .inr h'
  · rintro ⟨⟨x, hx⟩, h2, h3, h4⟩
    obtain ⟨out, ho⟩ := (C33_session hst (measOf x)).2 h3
    refine ⟨_, (C37_build hc _).2 ⟨x, out, hx, h2, ho, rfl, fun sp hu => ?_⟩⟩
    rcases h4 sp hu with h' | h'
    · exact .inl ((hsp sp).2 h')
    · exact .inr h'

/-! ## Examples -/

/-- Two tables of the undeclared ID space `persons`; the first one is built on its own. -/
def demoCalls : List (Call Unit) :=
  [.budget (), .priv "people" ⟨[⟨"id", .integer, true⟩], []⟩ (.rowsWithID "id" "persons"), .build,
    .priv "visits" ⟨[⟨"who", .long, false⟩], []⟩ (.rowsWithID "who" "persons"),
    .priv "visits" ⟨[⟨"who", .long, false⟩], []⟩ (.maxRows 1), .pub "visits" ⟨[], []⟩, .pub "codes" ⟨[], []⟩]

/-- Whether a session was built. -/
def isBuilt (r : Except RErr (Option (Built Unit))) : Bool :=
  match r with
  | .ok (some _) => true
  | _ => false

theorem isBuilt_iff {r : Except RErr (Option (Built Unit))} (h : isBuilt r = true) : ∃ s, r = .ok (some s) := by
  unfold isBuilt at h
  split at h
  · exact ⟨_, rfl⟩
  · cases h

/-- A builder after calls, for zCDP, with all names valid. -/
def demoRun (calls : List (Call Unit)) : Builder Unit :=
  run (fun _ => true) (fun _ v => v) (fun _ => .zCDP) Builder.new calls

/-- What `build` then gives. -/
def demoBuild (calls : List (Call Unit)) : Except RErr (Option (Built Unit)) :=
  (step (fun _ => true) (fun _ v => v) (fun _ => .zCDP) (demoRun calls) .build).2

/-- **C37** fails for builders used again: two tables share an ID space that was never declared, and `build` accepts
them. Without the earlier `build`, it does not. -/
theorem C37_fails :
    (∀ c ∈ demoCalls, c.Columns) ∧ ¬ Declared (fun _ => true) demoCalls "persons" ∧
    Dict.keys (demoRun demoCalls).priv = ["people", "visits"] ∧ Dict.keys (demoRun demoCalls).pub = ["codes"] ∧
    Uses (demoRun demoCalls).priv "persons" ∧ (∃ s, demoBuild demoCalls = .ok (some s)) ∧
    ¬ ∃ s, demoBuild (demoCalls.eraseIdx 2) = .ok (some s) := by
  refine ⟨?_, ?_, by decide +kernel, by decide +kernel, ?_, isBuilt_iff (by decide +kernel), ?_⟩
  · intro c hc
    simp only [demoCalls, List.mem_cons, List.not_mem_nil, or_false] at hc
    rcases hc with rfl | rfl | rfl | rfl | rfl | rfl | rfl <;> simp [Call.Columns, columns]
  · rintro ⟨h, _⟩
    simp [demoCalls] at h
  · have : (demoRun demoCalls).priv = [("people", ⟨[⟨"id", .long, true⟩], []⟩, .rowsWithID "id" "persons"),
        ("visits", ⟨[⟨"who", .long, false⟩], []⟩, .rowsWithID "who" "persons")] := by decide +kernel
    rw [this]
    exact ⟨"visits", _, "who", .tail _ (.head _)⟩
  · rintro ⟨s, h⟩
    have : isBuilt (demoBuild (demoCalls.eraseIdx 2)) = false := by decide +kernel
    rw [h] at this
    cases this

/-- **C37**: calls after which building succeeds: two tables of a declared ID space, and a public table. -/
theorem C37_example : Call.build ∉ (Call.space "persons" :: demoCalls).eraseIdx 3 ∧
    ∃ s, demoBuild ((Call.space "persons" :: demoCalls).eraseIdx 3) = .ok (some s) :=
  ⟨by simp [demoCalls], isBuilt_iff (by decide +kernel)⟩

end Verif.Relation
