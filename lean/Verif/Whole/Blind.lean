import Verif.Whole.Props

/-!
# C68: nothing but answers depends on the rows of private tables

Two programs use a builder and then a session. They do the same, except that the private data frames given to the builder
have other rows; not only one row or one ID more or less, all of them may differ. The data frames have the same columns.

Whatever the builder's methods return or raise is the same, and so are the sessions, apart from the data core is given.
Afterwards the data can be seen through the answers of `evaluate` only: with a core whose answers do not depend on its
tables, what an analyst sees has the same distribution for both.

In the model of sessions (`Session.step`), calls other than `evaluate` do not get the private data at all, as
in the code, where a session hands its tables to core's accountant (`session.py` l. 452) and keeps their schemas. What the
model does not have are exceptions raised by Spark while a query is computed, for example by functions given to `map`.
-/

namespace Verif.Relation

open Verif
open Verif.Schema (SparkType Field Frame SparkDesc PyErr)

/-! ## Specification -/

/-- What is known of the tables of a session without looking at rows. -/
def Output.known (o : Output) : Dom TableSchema × Metric × Dist := (o.domain, o.metric, o.distance)

/-- What can be seen of a session returned by `build` without asking for answers. -/
def Built.known {β : Type} (s : Built β) : β × (Dom TableSchema × Metric × Dist) × Dict String Frame :=
  (s.budget, s.out.known, s.pub)

/-- What a program sees of each call: the exception, the builder itself (`none`), or a session. -/
def seen {β : Type} (isIdent : String → Bool) (cast : SparkType → Value → Value) (measOf : β → Measure) :
    Builder β → List (Call β) →
      List (Except RErr (Option (β × (Dom TableSchema × Metric × Dist) × Dict String Frame)))
  | _, [] => []
  | b, c :: cs =>
    (step isIdent cast measOf b c).2.map (Option.map Built.known) :: seen isIdent cast measOf (step isIdent cast measOf b c).1 cs

end Verif.Relation

namespace Verif.Whole

open Verif Verif.Schema Verif.Constraint Verif.Expr Verif.Query Verif.Stability
open Verif.Budget (XNum PB Rounding)
open Verif.Relation (Tables SameFrames Sources frames Dist Output Parts RErr Relation TableSchema sameFrames_get)

/-! ## Proofs: what core is given -/

section
variable {cast : SparkType → Value → Value}

theorem sameFrames_keys {a b : Tables} (h : SameFrames a b) : Dict.keys a = Dict.keys b := by
  unfold Dict.keys
  induction h with
  | nil => rfl
  | cons hp _ ih => rw [List.map_cons, List.map_cons, ih, hp.1]

theorem get_cases {a b : Tables} (h : SameFrames a b) (t : String) :
    (Dict.get a t = none ∧ Dict.get b t = none) ∨
    ∃ x y, Dict.get a t = some x ∧ Dict.get b t = some y ∧ x.fields = y.fields := by
  have hg := sameFrames_get h t
  cases ha : Dict.get a t with
  | none =>
    rw [ha] at hg
    cases hb : Dict.get b t with
    | none => exact .inl ⟨rfl, rfl⟩
    | some y => rw [hb] at hg; cases hg
  | some x =>
    rw [ha] at hg
    cases hb : Dict.get b t with
    | none => rw [hb] at hg; cases hg
    | some y =>
      rw [hb] at hg
      exact .inr ⟨x, y, rfl, rfl, by simpa using hg⟩

theorem keyTables_same {a b : Tables} (h : SameFrames a b) (m : Dict String String) :
    ∀ kt, Relation.keyTables cast m a kt = Relation.keyTables cast m b kt := by
  induction h with
  | nil => exact fun _ => rfl
  | @cons p q as bs hp _ ih =>
    intro kt
    obtain ⟨n, x⟩ := p
    obtain ⟨n', y⟩ := q
    obtain ⟨h1, h2⟩ := hp
    dsimp only at h1 h2
    subst h1
    rw [Relation.keyTables, Relation.keyTables]
    cases Dict.get m n with
    | none => exact ih kt
    | some col =>
      dsimp only
      unfold Relation.columns
      rw [h2]
      split
      · rfl
      · rcases coerce_congr (cast := cast) h2 with ⟨e, e1, e2⟩ | ⟨u, v, e1, e2, e3⟩
        · rw [e1, e2]
          rfl
        · rw [e1, e2]
          dsimp only [Relation.liftErr]
          rw [e3]
          cases Relation.keyFields col v.fields kt with
          | error e => rfl
          | ok kt' => exact ih kt'

theorem validateAny_same {a b : Tables} (h : SameFrames a b) (r : Relation) :
    Relation.validateAny cast r a = Relation.validateAny cast r b := by
  cases r with
  | conj cs => rfl
  | rows t n =>
    rw [Relation.validateAny, Relation.validateAny]
    rcases get_cases h t with ⟨h1, h2⟩ | ⟨x, y, h1, h2, h3⟩ <;> rw [h1, h2]
    dsimp only
    rcases coerce_congr (cast := cast) h3 with ⟨e, e1, e2⟩ | ⟨u, v, e1, e2, e3⟩ <;> rw [e1, e2] <;> rfl
  | groups t c g k =>
    rw [Relation.validateAny, Relation.validateAny]
    rcases get_cases h t with ⟨h1, h2⟩ | ⟨x, y, h1, h2, h3⟩ <;> rw [h1, h2]
    dsimp only
    unfold Relation.columns
    rw [h3]
    split
    · rfl
    · rcases coerce_congr (cast := cast) h3 with ⟨e, e1, e2⟩ | ⟨u, v, e1, e2, e3⟩
      · rw [e1, e2]
      · rw [e1, e2]
        dsimp only [Relation.liftErr]
        rw [e3]
  | keys s m k =>
    rw [Relation.validateAny, Relation.validateAny, sameFrames_keys h, keyTables_same h]

theorem validateChildren_same {a b : Tables} (h : SameFrames a b) : ∀ (cs : List Relation) (covered : List String),
    Relation.validateChildren cast a cs covered = Relation.validateChildren cast b cs covered
  | [], _ => rfl
  | c :: cs, covered => by
    rw [Relation.validateChildren, Relation.validateChildren, validateAny_same h]
    cases Relation.validateAny cast c b with
    | error e => rfl
    | ok names =>
      dsimp only
      split
      · rfl
      · exact validateChildren_same h cs _

theorem validateInput_same {a b : Tables} (h : SameFrames a b) (r : Relation) :
    Relation.validateInput cast r a = Relation.validateInput cast r b := by
  cases r with
  | rows t n => rw [Relation.validateInput, Relation.validateInput, h.length_eq, validateAny_same h]
  | groups t c g k => rw [Relation.validateInput, Relation.validateInput, h.length_eq, validateAny_same h]
  | keys s m k => rw [Relation.validateInput, Relation.validateInput, validateAny_same h]
  | conj cs => rw [Relation.validateInput, Relation.validateInput, validateChildren_same h, sameFrames_keys h]

theorem visitOne_same {a b : Tables} (h : SameFrames a b) (meas : Relation.Measure) (c : Relation) :
    (Relation.visitOne a meas c).map Output.known = (Relation.visitOne b meas c).map Output.known := by
  cases c with
  | conj cs => rfl
  | rows t n =>
    rw [Relation.visitOne, Relation.visitOne]
    rcases get_cases h t with ⟨h1, h2⟩ | ⟨x, y, h1, h2, h3⟩ <;> rw [h1, h2]
    dsimp only
    rw [Relation.fromSparkSchema_congr h3]
    cases Relation.fromSparkSchema y <;> rfl
  | groups t col g r =>
    rw [Relation.visitOne, Relation.visitOne]
    rcases get_cases h t with ⟨h1, h2⟩ | ⟨x, y, h1, h2, h3⟩ <;> rw [h1, h2]
    dsimp only
    rw [Relation.fromSparkSchema_congr h3]
    cases Relation.fromSparkSchema y <;> cases meas <;> rfl
  | keys sp m k =>
    have hl := Relation.keysLoop_congr h m [] [] [] []
    rw [Relation.visitOne, Relation.visitOne]
    cases ea : Relation.keysLoop a m [] [] [] with
    | error e =>
      cases eb : Relation.keysLoop b m [] [] [] with
      | error e' => rw [ea, eb] at hl; cases hl; rfl
      | ok y => rw [ea, eb] at hl; cases hl
    | ok x =>
      cases eb : Relation.keysLoop b m [] [] [] with
      | error e => rw [ea, eb] at hl; cases hl
      | ok y =>
        rw [ea, eb] at hl
        obtain ⟨d, ms, da⟩ := x
        obtain ⟨d', ms', db⟩ := y
        cases hl
        dsimp only
        cases Relation.ensureValid ms d <;> rfl

/-- What `visit_conjunction` collects, without the data. -/
def partsKnown (p : Parts) : Dict Relation.Ident (Relation.Dom TableSchema) × Dict Relation.Ident Relation.Metric ×
    Dict Relation.Ident Dist := (p.domain, p.metric, p.distance)

theorem visitChildren_same {a b : Tables} (h : SameFrames a b) (meas : Relation.Measure) :
    ∀ (cs : List Relation) (p q : Parts), partsKnown p = partsKnown q →
      (Relation.visitChildren a meas cs p).map partsKnown = (Relation.visitChildren b meas cs q).map partsKnown
  | [], p, q, hd => congrArg Except.ok hd
  | c :: cs, p, q, hd => by
    rw [Relation.visitChildren, Relation.visitChildren]
    cases Relation.relationId c with
    | error e => rfl
    | ok i =>
      dsimp only
      have hv := visitOne_same h meas c
      cases ea : Relation.visitOne a meas c with
      | error e =>
        cases eb : Relation.visitOne b meas c with
        | error e' => rw [ea, eb] at hv; cases hv; rfl
        | ok ob => rw [ea, eb] at hv; cases hv
      | ok oa =>
        cases eb : Relation.visitOne b meas c with
        | error e => rw [ea, eb] at hv; cases hv
        | ok ob =>
          rw [ea, eb] at hv
          have hk : oa.known = ob.known := Except.ok.inj hv
          simp only [Output.known, Prod.mk.injEq] at hk
          simp only [partsKnown, Prod.mk.injEq] at hd
          refine visitChildren_same h meas cs _ _ ?_
          simp only [partsKnown, hk, hd]

theorem createCore_same {a b : Tables} (h : SameFrames a b) (meas : Relation.Measure) (rel : Relation) :
    (Relation.createCore cast meas a rel).map Output.known = (Relation.createCore cast meas b rel).map Output.known := by
  unfold Relation.createCore
  rw [validateInput_same h]
  cases Relation.validateInput cast rel b with
  | error e => rfl
  | ok u =>
    have hv := visitChildren_same h meas (Relation.flattens [rel]) ⟨[], [], [], []⟩ ⟨[], [], [], []⟩ rfl
    dsimp only
    unfold Relation.visitConj
    cases ea : Relation.visitChildren a meas (Relation.flattens [rel]) ⟨[], [], [], []⟩ with
    | error e =>
      cases eb : Relation.visitChildren b meas (Relation.flattens [rel]) ⟨[], [], [], []⟩ with
      | error e' => rw [ea, eb] at hv; cases hv; rfl
      | ok y => rw [ea, eb] at hv; cases hv
    | ok x =>
      cases eb : Relation.visitChildren b meas (Relation.flattens [rel]) ⟨[], [], [], []⟩ with
      | error e => rw [ea, eb] at hv; cases hv
      | ok y =>
        rw [ea, eb] at hv
        have hk : partsKnown x = partsKnown y := Except.ok.inj hv
        simp only [partsKnown, Prod.mk.injEq] at hk
        simp only [Except.map, Output.known, hk]

/-! ## Proofs: the builder -/

variable {isIdent : String → Bool} {measOf : PB → Relation.Measure}

theorem frames_same {sA sB : Sources}
    (h : List.Forall₂ (fun p q => p.1 = q.1 ∧ p.2.1.fields = q.2.1.fields ∧ p.2.2 = q.2.2) sA sB) :
    SameFrames (frames sA) (frames sB) := by
  induction h with
  | nil => exact .nil
  | cons hp _ ih => exact .cons ⟨hp.1, hp.2.1⟩ ih

theorem buildRest_same {a b : Relation.Builder PB} (h : TwinBuilders a b) (x : PB) :
    (Relation.buildRest isIdent cast measOf a x).map Relation.Built.known =
      (Relation.buildRest isIdent cast measOf b x).map Relation.Built.known := by
  unfold Relation.buildRest
  have hg : Relation.generateRelation a.priv = Relation.generateRelation b.priv := by
    unfold Relation.generateRelation
    rw [Relation.same_genLoop h.priv]
  rw [hg, h.pub, h.spaces]
  cases Relation.generateRelation b.priv with
  | error e => rfl
  | ok rel =>
    dsimp only
    have hc := createCore_same (cast := cast) (frames_same h.priv) (measOf x) rel
    cases ea : Relation.createCore cast (measOf x) (frames a.priv) rel with
    | error e =>
      cases eb : Relation.createCore cast (measOf x) (frames b.priv) rel with
      | error e' => rw [ea, eb] at hc; cases hc; rfl
      | ok y => rw [ea, eb] at hc; cases hc
    | ok oa =>
      cases eb : Relation.createCore cast (measOf x) (frames b.priv) rel with
      | error e => rw [ea, eb] at hc; cases hc
      | ok ob =>
        rw [ea, eb] at hc
        have hk : oa.known = ob.known := Except.ok.inj hc
        have hd : oa.domain = ob.domain := congrArg Prod.fst hk
        dsimp only
        cases rel with
        | conj cs =>
          dsimp only
          cases Relation.checkSpaces a.spaces cs with
          | error e => rfl
          | ok u =>
            dsimp only
            rw [hd]
            cases Relation.addPublics isIdent cast ob.domain a.pub [] with
            | error e => rfl
            | ok pub => exact congrArg (fun k => Except.ok (x, k, pub)) hk
        | _ => rfl

theorem withIdSpace_twin {a b : Relation.Builder PB} (h : TwinBuilders a b) (s : String) :
    (∃ e, Relation.withIdSpace isIdent a s = .error e ∧ Relation.withIdSpace isIdent b s = .error e) ∨
      ∃ a' b', Relation.withIdSpace isIdent a s = .ok a' ∧ Relation.withIdSpace isIdent b s = .ok b' ∧ TwinBuilders a' b' := by
  unfold Relation.withIdSpace
  rw [h.spaces]
  split
  · exact .inl ⟨_, rfl, rfl⟩
  · split
    · exact .inl ⟨_, rfl, rfl⟩
    · exact .inr ⟨_, _, rfl, rfl, h.budget, h.pub, rfl, h.priv⟩

theorem addIdSpace_twin {a b : Relation.Builder PB} (h : TwinBuilders a b) :
    (∃ e, Relation.addIdSpace isIdent a = .error e ∧ Relation.addIdSpace isIdent b = .error e) ∨
      ∃ a' b', Relation.addIdSpace isIdent a = .ok a' ∧ Relation.addIdSpace isIdent b = .ok b' ∧ TwinBuilders a' b' := by
  have hp := h.priv
  unfold Relation.addIdSpace
  generalize a.priv = l, b.priv = l' at hp
  match l, l', hp with
  | [], [], _ => exact .inr ⟨a, b, rfl, rfl, h⟩
  | [(n, df, ch)], [(n', df', ch')], .cons e .nil =>
    obtain ⟨_, _, e⟩ := e
    dsimp only at e
    subst e
    cases ch with
    | rowsWithID c s =>
      dsimp only
      rw [h.spaces]
      split
      · exact .inr ⟨a, b, rfl, rfl, h⟩
      · exact withIdSpace_twin h s
    | _ => exact .inr ⟨a, b, rfl, rfl, h⟩
  | (_, _, ch) :: _ :: _, (_, _, ch') :: _ :: _, .cons _ (.cons _ _) =>
    cases ch <;> cases ch' <;> exact .inr ⟨a, b, rfl, rfl, h⟩

theorem priv_step_same {a b : Relation.Builder PB} (h : TwinBuilders a b) (n : String) {df df' : Frame} (ch : Relation.Change)
    (hf : df.fields = df'.fields) :
    (Relation.step isIdent cast measOf a (.priv n df ch)).2.map (Option.map Relation.Built.known) =
      (Relation.step isIdent cast measOf b (.priv n df' ch)).2.map (Option.map Relation.Built.known) := by
  dsimp only [Relation.step]
  rw [h.keys, h.pub]
  split
  · rfl
  · split
    · rfl
    · split
      · rfl
      · rcases coerce_congr (cast := cast) hf with ⟨e, h1, h2⟩ | ⟨x, y, h1, h2, h3⟩ <;> rw [h1, h2]

theorem step_same {a b : Relation.Builder PB} (h : TwinBuilders a b) {c c' : Relation.Call PB} (hc : Twin c c') :
    (Relation.step isIdent cast measOf a c).2.map (Option.map Relation.Built.known) =
      (Relation.step isIdent cast measOf b c').2.map (Option.map Relation.Built.known) := by
  cases hc with
  | rows n ch hf => exact priv_step_same h n ch hf
  | same =>
    cases c with
    | budget x =>
      dsimp only [Relation.step]
      rw [h.budget]
      split <;> rfl
    | priv n df ch => exact priv_step_same h n ch rfl
    | pub n df =>
      dsimp only [Relation.step]
      rw [h.keys, h.pub]
      split
      · rfl
      · split
        · rfl
        · split <;> rfl
    | space s =>
      dsimp only [Relation.step]
      rcases withIdSpace_twin (isIdent := isIdent) h s with ⟨e, h1, h2⟩ | ⟨a', b', h1, h2, h3⟩ <;> rw [h1, h2]
    | build =>
      have he : (a.priv = []) ↔ (b.priv = []) := by
        have hp := h.priv
        generalize a.priv = l, b.priv = l' at hp
        cases hp <;> simp
      dsimp only [Relation.step]
      rw [h.budget]
      cases a.budget with
      | none => rfl
      | some x =>
        dsimp only
        by_cases hp : a.priv = []
        · rw [if_pos hp, if_pos (he.1 hp)]
        · rw [if_neg hp, if_neg (fun e => hp (he.2 e))]
          rcases addIdSpace_twin (isIdent := isIdent) h with ⟨e, h1, h2⟩ | ⟨a', b', h1, h2, h3⟩ <;> rw [h1, h2]
          have := buildRest_same (isIdent := isIdent) (cast := cast) (measOf := measOf) h3 x
          dsimp only
          cases ea : Relation.buildRest isIdent cast measOf a' x with
          | error e =>
            cases eb : Relation.buildRest isIdent cast measOf b' x with
            | error e' => rw [ea, eb] at this; cases this; rfl
            | ok y => rw [ea, eb] at this; cases this
          | ok u =>
            cases eb : Relation.buildRest isIdent cast measOf b' x with
            | error e' => rw [ea, eb] at this; cases this
            | ok y =>
              rw [ea, eb] at this
              exact congrArg (fun k => Except.ok (some k)) (Except.ok.inj this)

theorem seen_same {cs cs' : List (Relation.Call PB)} (hcs : List.Forall₂ Twin cs cs') : ∀ {a b : Relation.Builder PB},
    TwinBuilders a b → Relation.seen isIdent cast measOf a cs = Relation.seen isIdent cast measOf b cs' := by
  induction hcs with
  | nil => exact fun _ => rfl
  | cons hc _ ih =>
    intro a b h
    rw [Relation.seen, Relation.seen, step_same h hc, ih (twin_step h hc)]

/-- **C68**: two programs use a builder in the same way, apart from the rows of private data frames. Every call returns or
raises the same, and the sessions that are built have the same budget, schemas, protected changes and public tables. -/
theorem C68_builder {callsA callsB : List (Relation.Call PB)} (htw : List.Forall₂ Twin callsA callsB) :
    Relation.seen isIdent cast measOf .new callsA = Relation.seen isIdent cast measOf .new callsB :=
  seen_same htw ⟨rfl, rfl, rfl, .nil⟩

end

/-! ## Proofs: the session -/

theorem startTab_known {o o' : Output} (h : o.known = o'.known) (n : String) : startTab o n = startTab o' n := by
  simp only [Output.known, Prod.mk.injEq] at h
  unfold startTab distanceOf
  rw [h.1, h.2.1, h.2.2]

theorem startTables_known {o o' : Output} (h : o.known = o'.known) : startTables o = startTables o' := by
  unfold startTables
  simp only [startTab_known h]
  simp only [Output.known, Prod.mk.injEq] at h
  rw [h.1]

/-- Answers that do not depend on the tables core has. -/
def Core.Blind (core : Core) : Prop := ∀ c X Y, core.noise c X = core.noise c Y

theorem blind_mech {ctx : Ctx} {core : Core} (hb : core.Blind) (m : Meas) (x y : Root × Data) :
    (sem ctx core).mech m x = (sem ctx core).mech m y := by
  dsimp only [sem]
  rw [hb m.call (m.run x.2) (m.run y.2)]

theorem blind_transcript {ctx : Ctx} {core : Core} (hb : core.Blind)
    (analyst : Composition.Analyst Request Meas Tab PubFrame Value Table) : ∀ (n : ℕ)
    (w : Session.World Meas Tab PubFrame) (data data' : Nat → Root × Data) (hist),
    Composition.transcript (env ctx) (sem ctx core) analyst n w data hist =
      Composition.transcript (env ctx) (sem ctx core) analyst n w data' hist
  | 0, _, _, _, _ => rfl
  | n + 1, w, data, data', hist => by
    rw [Composition.transcript, Composition.transcript]
    congr 1
    funext op
    have hr : Composition.respond (sem ctx core) data op.target (Session.step (env ctx) w op).1 =
        Composition.respond (sem ctx core) data' op.target (Session.step (env ctx) w op).1 := by
      unfold Composition.respond
      split
      · rw [blind_mech hb]
      · rfl
    rw [hr]
    congr 1
    funext r
    exact blind_transcript hb analyst n _ _ _ _

/-- **C68**: two sessions whose tables have the same schemas and protected changes, whatever their rows. If answers did not
depend on tables, an analyst would see the same of both: results, exceptions, remaining budgets and schemas carry
nothing about private rows. -/
theorem C68_session {ctx : Ctx} {core : Core} (hblind : core.Blind) {outA outB : Output} (hk : outA.known = outB.known)
    (b : PB) (analyst : Composition.Analyst Request Meas Tab PubFrame Value Table) (n : ℕ) :
    Composition.transcript (env ctx) (sem ctx core) analyst n (Session.init b (startTables outA))
        (fun _ => (startRoot outA, startData outA)) [] =
      Composition.transcript (env ctx) (sem ctx core) analyst n (Session.init b (startTables outB))
        (fun _ => (startRoot outB, startData outB)) [] := by
  rw [startTables_known hk]
  exact blind_transcript hblind analyst n _ _ _ _

/-- **C68**, from the builder on. -/
theorem C68_program {ctx : Ctx} {core : Core} (hblind : core.Blind) {callsA callsB : List (Relation.Call PB)}
    (htw : List.Forall₂ Twin callsA callsB) {sess : Relation.Built PB}
    (h : (Relation.step ctx.isIdent ctx.cast sessionMeasure
      (Relation.run ctx.isIdent ctx.cast sessionMeasure .new callsA) .build).2 = .ok (some sess))
    (analyst : Composition.Analyst Request Meas Tab PubFrame Value Table) (n : ℕ) :
    ∃ sess', (Relation.step ctx.isIdent ctx.cast sessionMeasure
        (Relation.run ctx.isIdent ctx.cast sessionMeasure .new callsB) .build).2 = .ok (some sess') ∧
      sess'.known = sess.known ∧
      Composition.transcript (env ctx) (sem ctx core) analyst n (Session.init sess.budget (startTables sess.out))
          (fun _ => (startRoot sess.out, startData sess.out)) [] =
        Composition.transcript (env ctx) (sem ctx core) analyst n (Session.init sess'.budget (startTables sess'.out))
          (fun _ => (startRoot sess'.out, startData sess'.out)) [] := by
  have tw := twin_run (isIdent := ctx.isIdent) (cast := ctx.cast) (measOf := sessionMeasure) htw (a := .new) (b := .new)
    ⟨rfl, rfl, rfl, .nil⟩
  have hs := step_same (isIdent := ctx.isIdent) (cast := ctx.cast) (measOf := sessionMeasure) tw (.same .build)
  rw [h] at hs
  generalize (Relation.step ctx.isIdent ctx.cast sessionMeasure
    (Relation.run ctx.isIdent ctx.cast sessionMeasure .new callsB) .build).2 = res at hs
  match res, hs with
  | .ok (some s'), hs =>
    have hk : sess.known = s'.known := Option.some.inj (Except.ok.inj hs)
    refine ⟨s', rfl, hk.symm, ?_⟩
    have h1 : sess.budget = s'.budget := congrArg (fun k => k.1) hk
    have h2 : sess.out.known = s'.out.known := congrArg (fun k => k.2.1) hk
    rw [h1]
    exact C68_session hblind h2 _ analyst n

/-! ## Examples -/

/-- A program for the tables of `Relation.demoDb`, which forgets the ID space at first and gives a name twice. -/
def blindCalls (people cities others : List Relation.DataRow) : List (Relation.Call PB) :=
  [.priv "people" (Relation.demoPeople people) (.rowsWithID "id" "persons"),
    .priv "cities" (Relation.demoCities cities) (.maxRowsInMaxGroups "city" 2 2),
    .priv "rest" (Relation.demoPeople others) (.maxRows 3), .priv "rest" (Relation.demoPeople people) (.maxRows 1),
    .build, .budget (.pure (1 : ℚ)), .build, .space "persons", .build]

def blindA : List (Relation.Call PB) := blindCalls [[.int 1], [.int 2]] [[.int 1, .int 1]] []

def blindB : List (Relation.Call PB) :=
  blindCalls [] [[.int 5, .int 6], [.int 7, .int 7], [.int 8, .int 9]] [[.int 3], [.int 3], [.int 4], [.int 5]]

/-- **C68**: programs that differ in all rows. The fourth, fifth and seventh call raise, the last returns a session. -/
theorem C68_example :
    List.Forall₂ Twin blindA blindB ∧
      (Relation.seen (fun _ => true) (fun _ v => v) sessionMeasure .new blindA).map
          (fun r => match r with | .error _ => 0 | .ok none => 1 | .ok (some _) => 2) = [1, 1, 1, 0, 0, 1, 0, 1, 2] ∧
      ∃ core : Core, core.Blind := by
  refine ⟨?_, by decide +kernel, ⟨fun _ _ => PMF.pure []⟩, fun _ _ _ => rfl⟩
  exact .cons (.rows _ _ rfl) (.cons (.rows _ _ rfl) (.cons (.rows _ _ rfl) (.cons (.rows _ _ rfl) (.cons (.same _)
    (.cons (.same _) (.cons (.same _) (.cons (.same _) (.cons (.same _) .nil))))))))

end Verif.Whole
