import Verif.Whole.Reports

/-!
# C70: `Session.from_dataframe`

A session made from one data frame in one call (`session.py` l. 334-401).
-/

namespace Verif.Relation

open Verif Verif.Schema

variable {β : Type}

/-- `Session.from_dataframe` (`session.py` l. 392-401): three methods of a new builder, one after the other. -/
def fromDataframe (isIdent : String → Bool) (cast : SparkType → Value → Value) (measOf : β → Measure) (x : β) (n : String)
    (df : Frame) (ch : Change) : Except RErr (Built β) :=
  match step isIdent cast measOf Builder.new (.budget x) with
  | (_, .error e) => .error e
  | (b1, .ok _) =>
    match step isIdent cast measOf b1 (.priv n df ch) with
    | (_, .error e) => .error e
    | (b2, .ok _) =>
      match (step isIdent cast measOf b2 .build).2 with
      | .error e => .error e
      | .ok none => .error .value
      | .ok (some s) => .ok s

/-! ## Specification -/

/-- The column exists, and holds integers, strings or dates. -/
def HasKey (df : Frame) (c : String) : Prop :=
  ∃ f ∈ df.fields, f.name = c ∧ (f.ty = .integer ∨ f.ty = .long ∨ f.ty = .string ∨ f.ty = .date)

/-- The protected change suits the data frame. -/
def Suits (isIdent : String → Bool) (df : Frame) : Change → Prop
  | .maxRows n => 1 ≤ n
  | .maxRowsInMaxGroups c g r => 1 ≤ g ∧ 1 ≤ r ∧ HasKey df c
  | .rowsWithID c s => isIdent s = true ∧ s ≠ "" ∧ c ≠ "" ∧ HasKey df c
  | .other => False

/-! ## Proof -/

variable {isIdent : String → Bool} {cast : SparkType → Value → Value} {measOf : β → Measure} {x : β} {n : String}
  {df : Frame} {ch : Change}

theorem forall2_key {fs gs : List Field} (h : List.Forall₂ (fun f f' => f'.name = f.name ∧ f'.nullable = f.nullable ∧
    Coerced f'.ty ∧ (f'.ty = f.ty ∨ f.ty = .integer ∧ f'.ty = .long ∨ f.ty = .float ∧ f'.ty = .double)) fs gs)
    (hn : (gs.map Field.name).Nodup) (c : String) :
    (c ∈ gs.map Field.name ∧ ∀ g ∈ gs, g.name = c → KeyType g.ty) ↔
      ∃ f ∈ fs, f.name = c ∧ (f.ty = .integer ∨ f.ty = .long ∨ f.ty = .string ∨ f.ty = .date) := by
  have key : ∀ f f' : Field, Coerced f'.ty →
      (f'.ty = f.ty ∨ f.ty = .integer ∧ f'.ty = .long ∨ f.ty = .float ∧ f'.ty = .double) →
      (KeyType f'.ty ↔ (f.ty = .integer ∨ f.ty = .long ∨ f.ty = .string ∨ f.ty = .date)) := by
    intro f f' hc ht
    unfold KeyType
    unfold Coerced at hc
    rcases ht with h | ⟨h1, h2⟩ | ⟨h1, h2⟩
    · rw [h] at hc ⊢
      cases hty : f.ty <;> simp_all
    · simp [h1, h2]
    · simp [h1, h2]
  induction h with
  | nil => simp
  | @cons f g fs gs h h' ih =>
    rw [List.map_cons, List.nodup_cons] at hn
    have ih := ih hn.2
    obtain ⟨h1, _, h3, h4⟩ := h
    have hk := key f g h3 h4
    by_cases hc : g.name = c
    · constructor
      · rintro ⟨_, hh⟩
        exact ⟨f, by simp, h1 ▸ hc, hk.1 (hh g (by simp) hc)⟩
      · rintro ⟨f', hf', hn', ht⟩
        refine ⟨by simp [hc], fun g' hg' hgn => ?_⟩
        have hout : c ∉ gs.map Field.name := hc ▸ hn.1
        rcases List.mem_cons.1 hf' with rfl | hf'
        · rcases List.mem_cons.1 hg' with rfl | hg'
          · exact hk.2 ht
          · exact absurd (List.mem_map.2 ⟨g', hg', hgn⟩) hout
        · exact absurd (ih.2 ⟨f', hf', hn', ht⟩).1 hout
    · have hf : f.name ≠ c := fun hh => hc (h1.trans hh)
      constructor
      · rintro ⟨hm, hh⟩
        have hm : c ∈ gs.map Field.name := by
          rcases List.mem_cons.1 hm with rfl | hm
          · exact absurd rfl hc
          · exact hm
        obtain ⟨f', a, b⟩ := ih.1 ⟨hm, fun g' hg' => hh g' (by simp [hg'])⟩
        exact ⟨f', by simp [a], b⟩
      · rintro ⟨f', hf', hn', ht⟩
        rcases List.mem_cons.1 hf' with rfl | hf'
        · exact absurd hn' hf
        · obtain ⟨a, b⟩ := ih.2 ⟨f', hf', hn', ht⟩
          refine ⟨by simp [a], fun g' hg' hgn => ?_⟩
          rcases List.mem_cons.1 hg' with rfl | hg'
          · exact absurd hgn hc
          · exact b g' hg' hgn

theorem coerced_names {df df' : Frame} (h : Schema.coerce cast df = .ok df') : columns df' = columns df := by
  have := (C39_coerce h).1
  unfold columns
  generalize df.fields = fs, df'.fields = gs at this
  induction this with
  | nil => rfl
  | cons h _ ih => rw [List.map_cons, List.map_cons, ih, h.1]

theorem columns_eq (df : Frame) : columns df = df.fields.map Field.name := rfl

theorem hasKey_iff {df df' : Frame} (h : Schema.coerce cast df = .ok df') (hn : (columns df).Nodup) (c : String) :
    (c ∈ columns df' ∧ ∀ g ∈ df'.fields, g.name = c → KeyType g.ty) ↔ HasKey df c :=
  forall2_key (C39_coerce h).1 (by rw [← columns_eq, coerced_names h]; exact hn) c

/-- The tables of a session made from one data frame. -/
theorem sourcesOK_single {df df' : Frame} (h : Schema.coerce cast df = .ok df') (hn : (columns df).Nodup) :
    SourcesOK [(n, df', ch)] ↔ match ch with
      | .maxRows _ => True
      | .maxRowsInMaxGroups c _ _ => HasKey df c
      | .rowsWithID c _ => HasKey df c
      | .other => False := by
  cases ch with
  | maxRows k =>
    refine ⟨fun _ => trivial, fun _ => ⟨?_, ?_, fun s => ⟨.long, .inl rfl, ?_⟩⟩⟩ <;> simp
  | maxRowsInMaxGroups c g r =>
    constructor
    · intro ok
      exact (hasKey_iff h hn c).1 (ok.groups n df' c g r (by simp))
    · intro hk
      refine ⟨by simp, ?_, fun s => ⟨.long, .inl rfl, by simp⟩⟩
      intro n' d' c' g' r' hm
      rw [List.mem_singleton] at hm
      cases hm
      exact (hasKey_iff h hn c).2 hk
  | rowsWithID c s =>
    constructor
    · intro ok
      obtain ⟨ty, h1, h2⟩ := ok.ids s
      obtain ⟨h3, h4⟩ := h2 n df' c (by simp)
      exact (hasKey_iff h hn c).1 ⟨h3, fun g hg hc => by rw [h4 g hg hc]; exact h1⟩
    · intro hk
      obtain ⟨h3, h4⟩ := (hasKey_iff h hn c).2 hk
      obtain ⟨g, hg, hgn⟩ := List.mem_map.1 h3
      refine ⟨by simp, by simp, fun s' => ⟨g.ty, h4 g hg hgn, ?_⟩⟩
      intro n' d' c' hm
      rw [List.mem_singleton] at hm
      cases hm
      refine ⟨h3, fun f hf hfn => ?_⟩
      have hnd : (columns df').Nodup := by rw [coerced_names h]; exact hn
      have := List.inj_on_of_nodup_map hnd hf hg (hfn.trans hgn.symm)
      rw [this]
  | other =>
    constructor
    · intro ok
      exact ok.known n df' (by simp)
    · intro h
      cases h

/-- The session is the one of the builder. -/
theorem fromDataframe_ok (hn : (columns df).Nodup) (s : Built β) :
    fromDataframe isIdent cast measOf x n df ch = .ok s ↔
      ∃ df' out, ch.valid = true ∧ isIdent n = true ∧ Schema.coerce cast df = .ok df' ∧
        initCore cast (measOf x) [(n, df', ch)] = .ok out ∧ s = ⟨x, out, []⟩ ∧
        ∀ c sp, ch = .rowsWithID c sp → isIdent sp = true := by
  have hcalls : ∀ c ∈ [Call.budget x, Call.priv n df ch], c.Columns := by
    intro c hc
    simp only [List.mem_cons, List.not_mem_nil, or_false] at hc
    rcases hc with rfl | rfl
    · trivial
    · exact hn
  have hb := C37_build (isIdent := isIdent) (cast := cast) (measOf := measOf) hcalls s
  dsimp only [run] at hb
  unfold fromDataframe
  have h1 : step isIdent cast measOf Builder.new (.budget x) = (⟨some x, [], [], []⟩, .ok none) := rfl
  rw [h1] at hb ⊢
  dsimp only at hb ⊢
  by_cases hv : ch.valid = true
  case neg =>
    have h2 : step isIdent cast measOf ⟨some x, [], [], []⟩ (.priv n df ch) = (⟨some x, [], [], []⟩, .error .value) := by
      dsimp only [step]
      rw [if_pos (by simpa using hv)]
    rw [h2]
    dsimp only
    constructor
    · intro h; cases h
    · rintro ⟨_, _, h, _⟩; exact absurd h hv
  by_cases hi : isIdent n = true
  case neg =>
    have h2 : step isIdent cast measOf ⟨some x, [], [], []⟩ (.priv n df ch) = (⟨some x, [], [], []⟩, .error .value) := by
      dsimp only [step]
      rw [if_neg (by simpa using hv), if_pos (by simpa using hi)]
    rw [h2]
    dsimp only
    constructor
    · intro h; cases h
    · rintro ⟨_, _, _, h, _⟩; exact absurd h hi
  cases hc : Schema.coerce cast df with
  | error e =>
    have h2 : step isIdent cast measOf ⟨some x, [], [], []⟩ (.priv n df ch) = (⟨some x, [], [], []⟩, .error .value) := by
      dsimp only [step]
      rw [if_neg (by simpa using hv), if_neg (by simpa using hi), if_neg (by simp [Dict.keys]), hc]
    rw [h2]
    dsimp only
    constructor
    · intro h; cases h
    · rintro ⟨_, _, _, _, h, _⟩; cases h
  | ok df' =>
    have h2 : step isIdent cast measOf ⟨some x, [], [], []⟩ (.priv n df ch) =
        (⟨some x, [(n, df', ch)], [], []⟩, .ok none) := by
      dsimp only [step]
      rw [if_neg (by simpa using hv), if_neg (by simpa using hi), if_neg (by simp [Dict.keys]), hc]
      rfl
    rw [h2] at hb ⊢
    dsimp only at hb ⊢
    have hm : ∀ r : Except RErr (Option (Built β)),
        (match r with
          | .error e => Except.error e
          | .ok none => .error RErr.value
          | .ok (some s) => .ok s) = .ok s ↔ r = .ok (some s) := by
      intro r
      rcases r with e | (_ | s')
      · constructor <;> (intro h; cases h)
      · constructor <;> (intro h; cases h)
      · constructor <;> (intro h; cases h; rfl)
    rw [hm, hb]
    constructor
    · rintro ⟨y, out, hy, _, h3, h4, h5⟩
      cases hy
      refine ⟨df', out, hv, hi, rfl, h3, h4, fun c sp he => ?_⟩
      rcases h5 sp ⟨n, df', c, by simp [he]⟩ with h | ⟨_, h⟩
      · cases h
      · exact h
    · rintro ⟨d, out, _, _, hd, h3, h4, h5⟩
      cases hd
      refine ⟨x, out, rfl, by simp, h3, h4, ?_⟩
      rintro sp ⟨n', d', c, hmem⟩
      rw [List.mem_singleton] at hmem
      cases hmem
      exact .inr ⟨rfl, h5 c sp rfl⟩

theorem stored_single {df df' : Frame} (h : Schema.coerce cast df = .ok df') (hn : (columns df).Nodup)
    (hv : ch.valid = true) : Stored cast [(n, df', ch)] where
  wf := (Dict.wf_iff _).2 (by simp [Dict.keys])
  valid := by
    intro n' d' c' hm
    rw [List.mem_singleton] at hm
    cases hm
    exact hv
  coerced := by
    intro n' d' c' hm
    rw [List.mem_singleton] at hm
    cases hm
    exact (C39_coerce h).2.2
  columns := by
    intro n' d' c' hm
    rw [List.mem_singleton] at hm
    cases hm
    rw [coerced_names h]
    exact hn

/-- **C70**: a session is made exactly if the name of the table is an identifier, the columns have names and supported
types, and the protected change is one of the documented ones and suits the data frame. -/
theorem C70_accepts (hn : (columns df).Nodup) :
    (∃ s, fromDataframe isIdent cast measOf x n df ch = .ok s) ↔
      isIdent n = true ∧ (∀ f ∈ df.fields, f.name ≠ "" ∧ f.ty ∈ supported) ∧ Suits isIdent df ch := by
  rw [← C39_coerce_accepts (cast := cast) hn]
  constructor
  · rintro ⟨s, h⟩
    obtain ⟨df', out, hv, hi, hc, ho, _, hsp⟩ := (fromDataframe_ok hn s).1 h
    refine ⟨hi, ⟨df', hc⟩, ?_⟩
    have ok := (sourcesOK_single hc hn).1 ((C33_session (stored_single hc hn hv) (measOf x)).1 ⟨out, ho⟩)
    cases ch with
    | maxRows k => exact of_decide_eq_true (p := 1 ≤ k) hv
    | maxRowsInMaxGroups c g r =>
      simp only [Change.valid, Bool.and_eq_true, decide_eq_true_eq] at hv
      exact ⟨hv.1, hv.2, ok⟩
    | rowsWithID c sp =>
      simp only [Change.valid, Bool.and_eq_true, decide_eq_true_eq] at hv
      exact ⟨hsp c sp rfl, hv.1, hv.2, ok⟩
    | other => exact ok
  · rintro ⟨hi, ⟨df', hc⟩, hs⟩
    have hv : ch.valid = true := by
      cases ch with
      | maxRows k => exact decide_eq_true (show 1 ≤ k from hs)
      | maxRowsInMaxGroups c g r => simp [Change.valid, hs.1, hs.2.1]
      | rowsWithID c sp => simp [Change.valid, hs.2.1, hs.2.2.1]
      | other => rfl
    have ok : SourcesOK [(n, df', ch)] := by
      refine (sourcesOK_single hc hn).2 ?_
      cases ch with
      | maxRows k => trivial
      | maxRowsInMaxGroups c g r => exact hs.2.2
      | rowsWithID c sp => exact hs.2.2.2
      | other => exact hs
    obtain ⟨out, ho⟩ := (C33_session (stored_single hc hn hv) (measOf x)).2 ok
    refine ⟨_, (fromDataframe_ok hn _).2 ⟨df', out, hv, hi, hc, ho, rfl, fun c sp he => ?_⟩⟩
    subst he
    exact hs.1

end Verif.Relation

namespace Verif.Whole

open Verif Verif.Schema Verif.Relation

/-- **C70**: the session has the budget, no public tables, and one private table, of the given name: with the rows of
the data frame and its columns, and the protected change. -/
theorem C70_session {β : Type} {isIdent : String → Bool} {ctx : Ctx} {measOf : β → Relation.Measure} {x : β}
    (hx : measOf x = coreMeasure ctx.m) {n : String} {df : Frame} {ch : Change} (hn : (columns df).Nodup) {s : Built β}
    (h : Relation.fromDataframe isIdent ctx.cast measOf x n df ch = .ok s) (hcast : CastOK ctx.cast) (ht : df.Typed) :
    s.budget = x ∧ s.pub = [] ∧
    (∃ names, privateSources s.out.domain = .ok names ∧ ∀ m, m ∈ names ↔ m = n) ∧
    (∀ m t, Dict.get (startTables s.out) m = some t → m = n) ∧
    (∃ df' t, Dict.get (startTables s.out) n = some t ∧ StartsAs ctx.m df' ch t (startData s.out) ∧
      t.run (startData s.out) = df.rows.map (fun r => List.zip (columns df) r)) ∧
    (∃ descs, getSchema (startTables s.out) [] n = .ok descs ∧ (∀ c, c ∈ Dict.keys descs ↔ c ∈ columns df) ∧
      ∀ f ∈ df.fields, ∃ d, Dict.get descs f.name = some d ∧ sparkToAnalytics f.ty = some d.ty ∧
        (f.nullable = true → d.allowNull = true)) ∧
    getIdColumn (startTables s.out) [] n = .ok (match ch with | .rowsWithID c _ => some c | _ => none) ∧
    getIdSpace (startTables s.out) [] n = .ok (match ch with | .rowsWithID _ sp => some sp | _ => none) ∧
    getGroupingColumn (startTables s.out) [] n = .ok (match ch with | .maxRowsInMaxGroups c _ _ => some c | _ => none) := by
  obtain ⟨df', out, hv, hi, hc, ho, rfl, _⟩ := (fromDataframe_ok hn s).1 h
  rw [hx] at ho
  have hst : Stored ctx.cast [(n, df', ch)] := stored_single hc hn hv
  obtain ⟨names, hn1, hn2⟩ := privateSources_ok hst ho
  obtain ⟨s1, s2⟩ := C58_start hst ho
  obtain ⟨t, hg, hs⟩ := s2 n df' ch (by simp)
  obtain ⟨⟨descs, d1, d2, d3⟩, r1, r2, r3⟩ := C60_start hst ho (n := n) (df := df') (ch := ch) (by simp) []
  obtain ⟨c1, c2, _⟩ := C39_coerce hc
  have hnames : df'.fields.map Field.name = columns df := coerced_names hc
  refine ⟨rfl, rfl, ⟨names, hn1, fun m => (hn2 m).trans (by simp [Dict.keys])⟩, ?_, ⟨df', t, hg, hs, ?_⟩,
    ⟨descs, d1, fun c => by rw [d2 c, hnames], ?_⟩, by rw [r1]; cases ch <;> rfl, by rw [r2]; cases ch <;> rfl, by rw [r3]; cases ch <;> rfl⟩
  · intro m t' hg'
    obtain ⟨d, c, hm, _⟩ := s1 m t' hg'
    rw [List.mem_singleton] at hm
    cases hm
    rfl
  · rw [hs.rows, hnames, (c2 hcast ht).1]
  · intro f hf
    obtain ⟨f', hf', e1, e2, e3, e4⟩ : ∃ f' ∈ df'.fields, f'.name = f.name ∧ f'.nullable = f.nullable ∧ Coerced f'.ty ∧
        (f'.ty = f.ty ∨ f.ty = .integer ∧ f'.ty = .long ∨ f.ty = .float ∧ f'.ty = .double) := by
      generalize df.fields = fs, df'.fields = gs at c1 hf
      induction c1 with
      | nil => cases hf
      | cons h _ ih =>
        rcases List.mem_cons.1 hf with rfl | hf
        · exact ⟨_, by simp, h⟩
        · obtain ⟨f', a, b⟩ := ih hf
          exact ⟨f', by simp [a], b⟩
    obtain ⟨d, g1, g2, g3⟩ := d3 f' hf'
    refine ⟨d, e1 ▸ g1, ?_, fun hh => g3 (e2.trans hh)⟩
    rcases e4 with h | ⟨h1, h2⟩ | ⟨h1, h2⟩
    · rw [← h]; exact g2
    · rw [h2] at g2
      rw [h1]
      exact g2
    · rw [h2] at g2
      rw [h1]
      exact g2

/-- **C70**: such a session. -/
theorem C70_example : ∃ s, Relation.fromDataframe (fun _ => true) (fun _ v => v) (fun _ : Unit => Relation.Measure.pureDP) ()
    "people" ⟨[⟨"id", .integer, true⟩, ⟨"x", .float, false⟩], [[.int 1, .int 2]]⟩ (.rowsWithID "id" "persons") = .ok s :=
  (C70_accepts (by decide)).2 ⟨rfl, by decide, rfl, by decide, by decide, _, .head _, rfl, .inl rfl⟩

end Verif.Whole
