import Verif.Whole.PropsDescribe
import Verif.Whole.FromFrame
import Verif.Whole.Methods
import Verif.Whole.Total

/-!
# C86: `check_installation`

`utils.py` l. 38-171: a session of two rows, one grouped count, and four checks of the table it is answered with.
-/

namespace Verif.Whole

open Verif Verif.Schema Verif.Constraint Verif.Expr Verif.Query Verif.Stability Verif.KeySet
open Verif.Budget (XNum PB Rounding)
open Verif.Session (World Op)

/-! ## Model -/

/-- What goes wrong in the `try` block (l. 54-151); setting up Spark and pandas (l. 59-88) is not modelled. -/
inductive CheckErr where
  /-- an exception of `Session.from_dataframe` -/
  | session (e : Relation.RErr)
  /-- an exception of `KeySet.from_dict`, or of reading the KeySet -/
  | keys (e : KErr)
  /-- an exception of `groupby` or `count` -/
  | query (e : PyErr)
  /-- an exception of `evaluate` -/
  | evaluate (e : Session.Err)
  /-- l. 111-122 -/
  | noRows
  /-- l. 123-131 -/
  | columns
  /-- l. 132-135 -/
  | count
  /-- l. 136-147 -/
  | rows
  deriving DecidableEq

/-- The data frame (l. 84, 88): pandas' strings and integers become nullable strings and long integers in Spark
(assumed). -/
def checkFrame : Schema.Frame :=
  ⟨[⟨"A", .string, true⟩, ⟨"B", .long, true⟩], [[.str "a1", .int 1], [.str "a2", .int 2]]⟩

/-- The dictionary of the KeySet (l. 103). -/
def checkDict : List (String × List Value) := [("A", [.str "a0", .str "a1", .str "a2"])]

/-- `result.columns`. All rows of a data frame have the same columns; those of the first row are taken. -/
def resultColumns : Table → List String
  | [] => []
  | r :: _ => r.cols

/-- `result.filter(result["A"] == v).count()`. -/
def countA (v : String) (rows : Table) : Nat := (rows.filter (fun r => decide (cell r "A" = .str v))).length

/-- The checks (l. 111-147). -/
def checkTable (rows : Table) : Except CheckErr Unit :=
  if rows.length = 0 then .error .noRows
  else if (resultColumns rows).length ≠ 2 ∨ "A" ∉ resultColumns rows ∨ "count" ∉ resultColumns rows then .error .columns
  else if rows.length ≠ 3 then .error .count
  else if countA "a0" rows ≠ 1 ∨ countA "a1" rows ≠ 1 ∨ countA "a2" rows ≠ 1 then .error .rows
  else .ok ()

/-- The query (l. 101-105). -/
def checkQuery (py : Py) (flag : Bool) (hsh : KeySet.Op → Except KErr ℤ) (ev : Cond → (String → Option Value) → Bool) :
    Except CheckErr Agg :=
  match KS.fromDict hsh checkDict with
  | .error e => .error (.keys e)
  | .ok k =>
    match viewOf ev k with
    | .error e => .error (.keys e)
    | .ok v =>
      match groupby flag (.keyset v) with
      | .error e => .error (.query e)
      | .ok keys =>
        match Method.build py flag (.source "private_data") keys (.count (some "count") (.member .default)) with
        | .error e => .error (.query e)
        | .ok a => .ok a

open Classical in
/-- The `try` block (l. 91-147): what it may end with, and how likely. -/
noncomputable def tryBlock (ctx : Ctx) (core : Core) (py : Py) (flag : Bool) (hsh : KeySet.Op → Except KErr ℤ)
    (ev : Cond → (String → Option Value) → Bool) : PMF (Except CheckErr Unit) :=
  match Relation.fromDataframe ctx.isIdent ctx.cast (fun b => coreMeasure (measureOf b)) (.pure (1 : ℚ)) "private_data"
      checkFrame (.maxRows 1) with
  | .error e => PMF.pure (.error (.session e))
  | .ok s =>
    match checkQuery py flag hsh ev with
    | .error e => PMF.pure (.error e)
    | .ok a =>
      if ok : Admissible (child (.agg a)) then
        (Composition.respond (sem ctx core) (fun _ => (startRoot s.out, startData s.out)) 0
            (Session.step (env ctx) (Session.init s.budget (startTables s.out)) (.evaluate 0 (.query (.agg a) ok) (.pure (1 : ℚ)))).1).bind
          (fun r => match r with
            | (.error e, _) => PMF.pure (.error (.evaluate e))
            | (.ok _, some t) => PMF.pure (checkTable t)
            | (.ok _, none) => PMF.pure (.error (.evaluate .internal)))
      else PMF.pure (.error (.evaluate .internal))

/-- The handler (l. 154-171), for an exception whose text is `str`: is an exception raised, with the message about the
installation? Otherwise it is swallowed. -/
def handled (str : String) : Bool := !"It looks like the analytics session".toList.isPrefixOf str.toList

/-- The whole function: does it raise `RuntimeError`? `str` says the text of exceptions. -/
noncomputable def raises (str : CheckErr → String) : Except CheckErr Unit → Bool
  | .ok _ => false
  | .error e => handled (str e)

/-- How the texts of the function's own exceptions begin (l. 113-115, 128, 133, 142). -/
def OwnTexts (str : CheckErr → String) : Prop :=
  (∃ s, str .noRows = "\n                It looks like Tumult Analytics has not been configured properly." ++ s) ∧
  (∃ s, str .columns = "Expected output to have columns 'A' and 'count', but instead it had these columns: " ++ s) ∧
  (∃ s, str .count = "Expected output to have 3 rows, but instead it had " ++ s) ∧
  ∃ s, str .rows = "Expected output to have 1 row where column A was 'a0', one row where" ++ s

/-! ## Specification -/

/-- Assumed of core: grouped by a KeySet, a count has a row for each key, which is the key and an integer. -/
def CountsByKey (core : Core) : Prop :=
  ∀ c k t out name, c.keys = .set k → Dict.keys k.schema ≠ [] → c.task = .count name → out ∈ (core.noise c t).support →
    ∃ f : Row → ℤ, out = k.rows.map (fun key => key ++ [(name, .int (f key))])

/-- The table is as it should be: two columns, and the three keys once each. -/
def AsExpected (rows : Table) : Prop :=
  (resultColumns rows).Perm ["A", "count"] ∧
    (rows.map (fun r => cell r "A")).Perm [.str "a0", .str "a1", .str "a2"]

/-! ## Proof -/

theorem perm_two {l : List String} {a b : String} (hab : a ≠ b) : l.Perm [a, b] ↔ l.length = 2 ∧ a ∈ l ∧ b ∈ l := by
  constructor
  · intro h
    exact ⟨h.length_eq, h.mem_iff.2 (by simp), h.mem_iff.2 (by simp)⟩
  · rintro ⟨h1, h2, h3⟩
    match l, h1 with
    | [x, y], _ =>
      simp only [List.mem_cons, List.not_mem_nil, or_false] at h2 h3
      rcases h2 with rfl | rfl <;> rcases h3 with rfl | rfl
      · exact absurd rfl hab
      · exact .refl _
      · exact .swap _ _ _
      · exact absurd rfl hab

theorem countA_eq (v : String) (rows : Table) : countA v rows = (rows.map (fun r => cell r "A")).count (.str v) := by
  unfold countA
  rw [List.count_eq_countP, List.countP_map, List.countP_eq_length_filter]
  congr 1

theorem perm_three {l : List Value} {a b c : Value} (hab : a ≠ b) (hac : a ≠ c) (hbc : b ≠ c) :
    l.Perm [a, b, c] ↔ l.length = 3 ∧ l.count a = 1 ∧ l.count b = 1 ∧ l.count c = 1 := by
  constructor
  · intro h
    refine ⟨h.length_eq, ?_, ?_, ?_⟩ <;> rw [h.count_eq] <;>
      simp [List.count_cons, hab, hac, hbc, hab.symm, hac.symm, hbc.symm]
  · rintro ⟨h1, h2, h3, h4⟩
    have hsub : [a, b, c].Subperm l := by
      refine List.subperm_of_subset (by simp [hab, hac, hbc]) fun x hx => ?_
      simp only [List.mem_cons, List.not_mem_nil, or_false] at hx
      rcases hx with rfl | rfl | rfl <;> exact List.count_pos_iff.1 (by omega)
    exact (hsub.perm_of_length_le (by simp [h1])).symm

/-- **C86**: the checks pass exactly for tables as they should be. -/
theorem C86_checks (rows : Table) : checkTable rows = .ok () ↔ AsExpected rows := by
  unfold AsExpected
  rw [perm_two (by decide), perm_three (by decide) (by decide) (by decide), ← countA_eq, ← countA_eq, ← countA_eq,
    List.length_map]
  unfold checkTable
  by_cases h0 : rows.length = 0
  · rw [if_pos h0]
    simp [h0]
  rw [if_neg h0]
  by_cases h1 : (resultColumns rows).length ≠ 2 ∨ "A" ∉ resultColumns rows ∨ "count" ∉ resultColumns rows
  · rw [if_pos h1]
    simp only [reduceCtorEq, false_iff]
    tauto
  rw [if_neg h1]
  by_cases h2 : rows.length ≠ 3
  · rw [if_pos h2]
    simp only [reduceCtorEq, false_iff]
    tauto
  rw [if_neg h2]
  by_cases h3 : countA "a0" rows ≠ 1 ∨ countA "a1" rows ≠ 1 ∨ countA "a2" rows ≠ 1
  · rw [if_pos h3]
    simp only [reduceCtorEq, false_iff]
    tauto
  rw [if_neg h3]
  simp only [true_iff]
  tauto

/-- The KeySet as aggregations see it. -/
def checkView : KeySetV :=
  ⟨[("A", ⟨.VARCHAR, false, false, false⟩)], [[("A", .str "a0")], [("A", .str "a1")], [("A", .str "a2")]]⟩

def checkAgg : Agg := ⟨.source "private_data", .set checkView, .count .default, "count", none⟩

theorem checkQuery_eq (py : Py) (flag : Bool) (hsh : KeySet.Op → Except KErr ℤ)
    (ev : Cond → (String → Option Value) → Bool) : checkQuery py flag hsh ev = .ok checkAgg := rfl

/-- The session is made, and the query has a schema in it. -/
theorem check_session (isIdent : String → Bool) (hid : isIdent "private_data" = true) (cast : SparkType → Value → Value) :
    ∃ out cat s sch, Relation.fromDataframe isIdent cast (fun b => coreMeasure (measureOf b)) (.pure (1 : ℚ)) "private_data"
        checkFrame (.maxRows 1) = .ok ⟨.pure (1 : ℚ), out, []⟩ ∧
      Relation.initCore cast .pureDP [("private_data", checkFrame, .maxRows 1)] = .ok out ∧
      catalog (startTables out) [] = .ok cat ∧ schemaOf cat (.source "private_data") = .ok s ∧ s.idColumn = none ∧
      s.grouping = none ∧ Agg.schema cat checkAgg = .ok sch := by
  refine ⟨_, _, _, _, ?_, rfl, rfl, rfl, rfl, rfl, rfl⟩
  simp only [Relation.fromDataframe, Relation.step, hid]
  rfl

theorem count_task {env : Query.Env} {b : PB} {p : Plan} (h : compileQuery env b (.agg checkAgg) = .ok p) :
    p.task = .count "count" := by
  obtain ⟨a₁, a₂, p₁, _, hr, hf, hc, hp⟩ := compileQuery_ok (a := checkAgg) rfl h
  obtain ⟨_, _, _, _, _, _, hkind, hout'⟩ := rewriteAgg_ok hr
  rcases hp with ⟨_, rfl⟩ | ⟨_, _, _, hx, _⟩
  · cases hf with
    | same => rw [hc.task, hkind, hout']; rfl
    | shortcut hx _ _ _ _ => rw [hkind] at hx; cases hx
  · cases hx

/-- **C86** (partial: for core by the contract `CountsByKey`; Spark and pandas are not modelled). In an installation in
which core counts as it should, the check succeeds, whatever the noise, the hashes and the rounding. -/
theorem C86_succeeds_partial (ctx : Ctx) (core : Core) (py : Py) (flag : Bool) (hsh : KeySet.Op → Except KErr ℤ)
    (ev : Cond → (String → Option Value) → Bool) (hm : ctx.m = .pureDP) (hid : ctx.isIdent "private_data" = true)
    (hl : ctx.rounding.Lawful) (hord : ∀ l, (ctx.order l).Perm l) (hcore : CountsByKey core) :
    ∀ r ∈ (tryBlock ctx core py flag hsh ev).support, r = .ok () := by
  obtain ⟨out, cat, s, sch, h1, h2, h3, h4, h5, h6, h7⟩ := check_session ctx.isIdent hid ctx.cast
  have ok : Admissible (child (.agg checkAgg)) := ⟨trivial, trivial, trivial, trivial, trivial⟩
  have hst : Relation.Stored ctx.cast [("private_data", checkFrame, .maxRows 1)] :=
    Relation.stored_single (df := checkFrame) rfl (by decide) rfl
  have hf : FramesOK [("private_data", checkFrame, .maxRows 1)] := by
    constructor
    intro n df ch hmem
    rw [List.mem_singleton] at hmem
    cases hmem
    intro r hr
    simp only [checkFrame, List.mem_cons, List.not_mem_nil, or_false] at hr
    rcases hr with rfl | rfl <;> simp [checkFrame, Holds, Schema.Fits]
  have hinit : Relation.initCore ctx.cast (coreMeasure ctx.m) [("private_data", checkFrame, .maxRows 1)] = .ok out := by
    rw [hm]; exact h2
  obtain ⟨cat', hcat', hans⟩ := C62_evaluate_partial core hst hf hinit hl hord (b₀ := .pure (1 : ℚ)) (by rw [hm]; rfl)
    (by simp only [PB.Valid]; decide +kernel) [] (by simp) _ rfl 0 _ rfl (by simp)
  have hcc : cat' = cat := by
    have : catalog (startTables out) [] = .ok cat' := hcat'
    rw [h3] at this
    exact (Except.ok.inj this).symm
  subst hcc
  have ready : QueryReady ⟨ctx.h, ctx.order, ctx.m, cat'⟩ (.pure (1 : ℚ)) (.agg checkAgg) := by
    refine ⟨trivial, fun s' o hs' _ => ?_, fun hz => ?_⟩
    · have hs' : schemaOf cat' (.source "private_data") = .ok s' := hs'
      rw [h4] at hs'
      cases hs'
      refine ⟨nofun, nofun, nofun, fun i hi => ?_, nofun, nofun⟩
      rw [h5] at hi
      exact absurd hi nofun
    · have : ctx.m = .zCDP := hz
      rw [hm] at this
      exact absurd this nofun
  obtain ⟨m, amt, hev⟩ := hans (.agg checkAgg) ok (.pure (1 : ℚ)) sch h7 (by simp only [PB.Valid]; decide +kernel) ready
    (by simp [Session.PB.IsZero]) (le_refl ((1 : ℚ) : XNum))
  intro r hr
  unfold tryBlock at hr
  rw [h1, checkQuery_eq] at hr
  dsimp only at hr
  rw [dif_pos ok] at hr
  obtain ⟨n, cat₁, pl, s₁, hn, hcat, hpl, hsch, hkeys, htask, hrun, hpost⟩ := answered_plan hev
  change r ∈ ((Composition.respond (sem ctx core) (fun _ => (startRoot out, startData out)) 0
    (Session.step (env ctx) (Session.run (env ctx) (Session.init (.pure (1 : ℚ)) (startTables out)) [])
      (.evaluate 0 (.query (.agg checkAgg) ok) (.pure (1 : ℚ)))).1).bind _).support at hr
  rw [hev] at hr
  simp only [PMF.support_bind, Set.mem_iUnion] at hr
  obtain ⟨x, hx, hr⟩ := hr
  obtain ⟨ans, hans', rfl⟩ := respond_support hx
  obtain ⟨f, rfl⟩ := hcore _ checkView _ ans "count" (by rw [hkeys, (compileQuery_budget (a := checkAgg) rfl hpl).2.2]; rfl)
    (by decide) (by rw [htask, count_task hpl]) hans'
  rw [hpost, compiled_post (a := checkAgg) rfl hpl] at hr
  have hr : r = checkTable (checkView.rows.map (fun key => key ++ [("count", .int (f key))])) := by
    simpa only [PMF.support_pure, Set.mem_singleton_iff, shown] using hr
  rw [hr, C86_checks]
  exact ⟨.refl _, .refl _⟩

/-- **C86**: for any core, if the check may succeed then the session is made, and `evaluate` may return the expected
table. -/
theorem C86_means (ctx : Ctx) (core : Core) (py : Py) (flag : Bool) (hsh : KeySet.Op → Except KErr ℤ)
    (ev : Cond → (String → Option Value) → Bool) (h : .ok () ∈ (tryBlock ctx core py flag hsh ev).support) :
    ∃ s a ok rep rows, Relation.fromDataframe ctx.isIdent ctx.cast (fun b => coreMeasure (measureOf b)) (.pure (1 : ℚ))
        "private_data" checkFrame (.maxRows 1) = .ok s ∧ checkQuery py flag hsh ev = .ok a ∧
      (.ok rep, some rows) ∈ (Composition.respond (sem ctx core) (fun _ => (startRoot s.out, startData s.out)) 0
        (Session.step (env ctx) (Session.init s.budget (startTables s.out))
          (.evaluate 0 (.query (.agg a) ok) (.pure (1 : ℚ)))).1).support ∧ AsExpected rows := by
  unfold tryBlock at h
  split at h
  · simp at h
  next s hs =>
  split at h
  · simp at h
  next a ha =>
  split at h
  next ok =>
    simp only [PMF.support_bind, Set.mem_iUnion] at h
    obtain ⟨x, hx, h⟩ := h
    split at h
    · simp at h
    · next rep t =>
      have h : Except.ok () = checkTable t := by simpa only [PMF.support_pure, Set.mem_singleton_iff] using h
      exact ⟨s, a, ok, rep, t, hs, ha, hx, (C86_checks t).1 h.symm⟩
    · simp at h
  · simp at h

/-- The function's own exceptions are not swallowed. -/
theorem handled_own {str : CheckErr → String} (h : OwnTexts str) (e : CheckErr)
    (he : e = .noRows ∨ e = .columns ∨ e = .count ∨ e = .rows) : handled (str e) = true := by
  obtain ⟨⟨s1, h1⟩, ⟨s2, h2⟩, ⟨s3, h3⟩, s4, h4⟩ := h
  rcases he with rfl | rfl | rfl | rfl <;> simp [handled, *, String.toList_append, List.isPrefixOf]

/-- **C86 fails** for the hint about the Spark warehouse (l. 111-122): the handler looks for another text, and replaces
the hint by the message about the installation. -/
theorem C86_hint_fails (str : CheckErr → String) (h : OwnTexts str) :
    checkTable [] = .error .noRows ∧ handled (str .noRows) = true := ⟨rfl, handled_own h _ (.inl rfl)⟩

/-- **C86**: the function's own checks raise `RuntimeError` exactly if the table is not as it should be. -/
theorem C86_raises (str : CheckErr → String) (h : OwnTexts str) (rows : Table) :
    raises str (checkTable rows) = true ↔ ¬ AsExpected rows := by
  rw [← C86_checks]
  have : ∀ e, checkTable rows = .error e → e = .noRows ∨ e = .columns ∨ e = .count ∨ e = .rows := by
    intro e he
    unfold checkTable at he
    split at he
    · cases he; simp
    split at he
    · cases he; simp
    split at he
    · cases he; simp
    split at he
    · cases he; simp
    · cases he
  cases hc : checkTable rows with
  | ok u => simp [raises]
  | error e => simp [raises, handled_own h e (this e hc)]

end Verif.Whole
