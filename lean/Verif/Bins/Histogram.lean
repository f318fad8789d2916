import Verif.Bins.Names
import Verif.Whole.Histogram
import Verif.Whole.AnswersChain
import Verif.Whole.Grouped

/-!
# C75: histograms, from the arguments of the call to the answer
-/

namespace Verif.Bins

open Verif Verif.Schema Verif.Expr Verif.Query Verif.Stability Verif.Whole
open Verif.Budget (XNum PB Rounding)
open Verif.Binning (Spec Cell Err InBin Valid)
open Verif.KeySet (KS KErr vtype Cond)

/-! ## Model -/

/-- `BinningSpec.bins()` (`binning_spec.py` l. 290-305). -/
def Made.bins (m : Made) : List Value := (m.spec.bins false).map binner.cell

/-- The specification as an argument of `bin_column`. -/
def Made.toBins (m : Made) : Bins := ⟨binner, m.spec, m.desc⟩

/-- The argument `bin_edges`. -/
inductive BinArg where
  | edges (l : List Obj)
  | spec (m : Made)

/-- An exception, with the part of the library that raises it. -/
inductive HErr where
  | spec (x : Err)
  | keys (x : KErr)
  | builder (x : PyErr)

/-- `if not isinstance(bin_edges, BinningSpec): spec = BinningSpec(bin_edges)` (`query_builder.py` l. 1655-1658), with the
default arguments of `binning_spec.py` l. 165-168. -/
def specOf (fm : Format) : BinArg → Except Err Made
  | .edges l => init fm l none true true (.value .null)
  | .spec m => .ok m

/-- `QueryBuilder.histogram` (`query_builder.py` l. 1655-1663). -/
def callHistogram (fm : Format) (hsh : KeySet.Op → Except KErr ℤ) (ev : Cond → (String → Option Value) → Bool) (py : Py)
    (flag flag' : Bool) (e : Expr) (column : String) (arg : BinArg) (name : Option String) : Except HErr Agg :=
  match specOf fm arg with
  | .error x => .error (.spec x)
  | .ok m =>
    let n := orEmpty name (column ++ "_binned")
    match (KS.fromDict hsh [(n, m.bins)]).bind (viewOf ev) with
    | .error x => .error (.keys x)
    | .ok keys =>
      match callBin e column m.toBins (some n) with
      | .error x => .error (.builder x)
      | .ok e' =>
        match finish py flag flag' e' (some (.keyset keys)) (.count none (.member .default)) with
        | .error x => .error (.builder x)
        | .ok a => .ok a

/-! ## Specification -/

/-- A specification that the constructor makes from some arguments. -/
structure MadeFrom (fm : Format) (m : Made) (edges : List Obj) (right both : Bool) (nanBin : Obj) : Prop where
  made : ∃ given, init fm edges given right both nanBin = .ok m

/-- The type of the names. -/
def NamesOf (m : Made) (t : ColumnType) : Prop := ∀ u ∈ m.names, vtype u = some t

open Classical in
/-- The rows whose value in the column belongs to the bin with a name. -/
noncomputable def rowsIn (right both : Bool) (edges names : List Value) (nanBin : Obj) (column : String) (T : Table) (u : Value) :
    Table := T.filter (fun r => decide (Belongs right both edges names nanBin (cell r column) u))

/-! ## Proof -/

variable {fm : Format} {hsh : KeySet.Op → Except KErr ℤ} {ev : Cond → (String → Option Value) → Bool} {py : Py}
  {flag flag' : Bool} {m : Made} {edges : List Obj} {given : Option (List Obj)} {right both : Bool} {nanBin : Obj}

theorem orEmpty_ne (name : Option String) (column : String) : orEmpty name (column ++ "_binned") ≠ "" := by
  have hne : column ++ "_binned" ≠ "" := by
    intro h
    have := congrArg String.length h
    rw [String.length_append] at this
    have h2 : "_binned".length = 7 := by decide
    have h3 : "".length = 0 := by decide
    omega
  unfold orEmpty
  cases name with
  | none => exact hne
  | some s =>
    dsimp only
    split
    · exact hne
    · assumption

theorem cell_injective : Function.Injective (binner.cell) := by
  intro a b h
  cases a with
  | none =>
    cases b with
    | none => rfl
    | some b => exact absurd h.symm b.2
  | some a =>
    cases b with
    | none => exact absurd h a.2
    | some b => exact congrArg some (Subtype.ext h)

/-- **C75.** `bins()` lists the names of the bins, in order, then the name for NaNs, each once. -/
theorem C75_bins (h : init fm edges given right both nanBin = .ok m) :
    m.bins.Nodup ∧ (∀ u, u ∈ m.bins ↔ u ∈ m.names ∨ (nanBin = .value u ∧ u ≠ .null)) ∧
      m.bins.Sublist (m.names ++ values [nanBin]) := by
  obtain ⟨t, t', ns, h⟩ := init_iff.1 h
  have hn := h.nan_iff
  have h13 := Binning.C13_bins_exact h.valid
  refine ⟨(h13.1 false).map cell_injective, fun u => ?_, ?_⟩
  · unfold Made.bins
    rw [List.mem_map]
    constructor
    · rintro ⟨o, ho, rfl⟩
      rcases (Binning.mem_bins _ _ _).1 ho with ⟨a, ha, rfl⟩ | ⟨_, ha⟩ | ⟨hc, _⟩
      · exact .inl (List.mem_map.2 ⟨a, ha, rfl⟩)
      · cases o with
        | none => cases ((h13.2.2.1 false).1 ho)
        | some a =>
          refine .inr ⟨(hn a).1 ?_, a.2⟩
          exact ha.symm
      · cases hc
    · rintro (hu | ⟨hu, hne⟩)
      · obtain ⟨a, ha, rfl⟩ := List.mem_map.1 hu
        exact ⟨some a, (Binning.mem_bins _ _ _).2 (.inl ⟨a, ha, rfl⟩), rfl⟩
      · refine ⟨some ⟨u, hne⟩, (Binning.mem_bins _ _ _).2 (.inr (.inl ?_)), rfl⟩
        have := (hn ⟨u, hne⟩).2 hu
        simp [this]
  · have hsub := (h13.2.2.2.2.2 false).map binner.cell
    refine hsub.trans ?_
    rw [List.map_append, List.map_append, List.map_map]
    simp only [Bool.false_eq_true, if_false, List.map_nil, List.append_nil]
    refine List.Sublist.append ?_ ?_
    · have : m.spec.names.map (binner.cell ∘ some) = m.names := rfl
      rw [this]
    · cases hs : m.spec.nanBin with
      | none => exact List.nil_sublist _
      | some a =>
        rw [(hn a).1 hs]
        exact List.Sublist.refl _

theorem bins_types {t' : ColumnType} (h : init fm edges given right both nanBin = .ok m) (ht : NamesOf m t') :
    (∀ u ∈ m.bins, vtype u = some t') ∧ m.bins ≠ [] ∧ m.desc.ty = t' := by
  obtain ⟨_, hmem, _⟩ := C75_bins h
  obtain ⟨t, t₂, ns, h⟩ := init_iff.1 h
  have hnames := h.names_eq
  obtain ⟨hne, hty⟩ := h.named
  obtain ⟨o, os, rfl⟩ := List.exists_cons_of_ne_nil hne
  have hu : ∃ u, u ∈ m.names := by
    rw [hnames]
    have := values_length hty
    cases hv : values (o :: os) with
    | nil => rw [hv] at this; simp at this
    | cons u us => exact ⟨u, List.mem_cons_self⟩
  obtain ⟨u, hu⟩ := hu
  have ht2 : t₂ = t' := by
    have h1 := ht u hu
    rw [hnames] at hu
    rw [values_type hty u hu] at h1
    exact Option.some.inj h1
  subst ht2
  refine ⟨fun v hv => ?_, ?_, ?_⟩
  · rcases (hmem v).1 hv with hv | ⟨hv, hvn⟩
    · exact ht v hv
    · subst hv
      exact h.nan.resolve_left (fun e => hvn (Obj.value.inj e))
  · exact List.ne_nil_of_mem ((hmem u).2 (.inl hu))
  · have := h.eq
    subst this
    rfl

theorem names_typed (h : init fm edges given right both nanBin = .ok m) : ∃ t', NamesOf m t' := by
  obtain ⟨t, t₂, ns, h⟩ := init_iff.1 h
  refine ⟨t₂, ?_⟩
  unfold NamesOf
  rw [h.names_eq]
  exact values_type h.named.2

theorem infer_one {t' : ColumnType} {l : List Value} (h : ∀ u ∈ l, vtype u = some t') (hne : l ≠ []) :
    KeySet.inferDesc (l.map vtype) = .ok ⟨t', false, false, false⟩ := by
  have he : l.map vtype = l.map (fun _ => some t') := List.map_congr_left h
  unfold KeySet.inferDesc
  rw [he, if_neg (by simpa using hne)]
  have : (l.map (fun _ => some t')).filterMap id = l.map (fun _ => t') := by
    rw [List.filterMap_map]
    clear h hne he
    induction l with
    | nil => rfl
    | cons a l ih => simpa using ih
  rw [this]
  have hd : (l.map (fun _ => t')).dedup = [t'] := by
    clear h he this
    induction l with
    | nil => exact absurd rfl hne
    | cons a l ih =>
      rw [List.map_cons]
      cases l with
      | nil => simp
      | cons b l =>
        rw [List.dedup_cons_of_mem (by simp)]
        exact ih (by simp)
  rw [hd]
  simp

theorem fromDict_one {t' : ColumnType} {l : List Value} (h : ∀ u ∈ l, vtype u = some t') (hne : l ≠ []) (hnd : l.Nodup)
    {n : String} (hn : n ≠ "") :
    (KS.fromDict hsh [(n, l)]).bind (viewOf ev) =
      if t' ∈ KeySet.keysetTypes then .ok ⟨[(n, ⟨t', false, false, false⟩)], l.map (fun u => [(n, u)])⟩ else .error .value := by
  have hts : (l.map (fun v => [v])).dedup = l.map (fun v => [v]) := by
    rw [List.dedup_eq_self]
    exact hnd.map (fun a b h => by cases h; rfl)
  have hat : KeySet.typesAt (l.map (fun v => [v])) [n] n = l.map vtype := by
    unfold KeySet.typesAt
    rw [List.flatMap_map]
    clear h hne hnd hts
    induction l with
    | nil => rfl
    | cons a l ih =>
      rw [List.flatMap_cons, ih]
      simp
  have hall : KeySet.inferAll (l.map (fun v => [v])) [n] [n].eraseDups = .ok [(n, ⟨t', false, false, false⟩)] := by
    rw [show [n].eraseDups = [n] from rfl]
    dsimp only [KeySet.inferAll]
    rw [hat, infer_one h hne]
    rfl
  have hF : KS.fromTuples hsh (l.map (fun v => [v])) [n] =
      if t' ∈ KeySet.keysetTypes then .ok ⟨.tuples (l.map (fun v => [v])) [(n, ⟨t', false, false, false⟩)], [n]⟩
        else .error .value := by
    unfold KS.fromTuples
    rw [hts]
    dsimp only
    rw [if_pos (by simp), hall]
    dsimp only [bind, Except.bind]
    have hv : KeySet.validSchema [(n, (⟨t', false, false, false⟩ : Desc))] = decide (t' ∈ KeySet.keysetTypes) := by
      simp [KeySet.validSchema, hn]
    unfold KeySet.build
    dsimp only [KeySet.check]
    rw [hv]
    by_cases ht : t' ∈ KeySet.keysetTypes
    · rw [if_pos ht]
      simp only [ht, decide_true, Bool.not_true, Bool.false_eq_true, if_false, List.isEmpty_cons, Bool.false_and]
      unfold KS.init
      rw [if_neg (by simp [KeySet.Op.isPlan]), if_neg (by simp), if_neg (by simp [KeySet.Op.columns, KeySet.setEq])]
      rfl
    · rw [if_neg ht]
      simp only [ht, decide_false, Bool.not_false, if_true]
  show Except.bind (Except.bind (KS.fromTuples hsh (l.map (fun v => [v])) [n]) (fun k => KeySet.fromDictGo hsh k [])) (viewOf ev) = _
  rw [hF]
  by_cases ht : t' ∈ KeySet.keysetTypes
  · rw [if_pos ht, if_pos ht]
    simp only [Except.bind, KeySet.fromDictGo]
    have hd : KS.dataframe (KeySet.world ev)
        ⟨.tuples (l.map (fun v => [v])) [(n, (⟨t', false, false, false⟩ : Desc))], [n]⟩ = .ok ⟨[n], l.map (fun v => [v])⟩ := by
      unfold KS.dataframe
      dsimp only [KeySet.Op.dataframe, bind, Except.bind]
      rw [if_pos (by simp [KeySet.setEq])]
      unfold KeySet.selectDF
      dsimp only [pure, Except.pure]
      rw [List.map_map]
      congr 2
      refine List.map_congr_left fun v _ => ?_
      simp [KeySet.cell]
    have hs : KS.schema ⟨.tuples (l.map (fun v => [v])) [(n, (⟨t', false, false, false⟩ : Desc))], [n]⟩ =
        .ok [(n, ⟨t', false, false, false⟩)] := by
      unfold KS.schema
      dsimp only [KeySet.Op.schema, bind, Except.bind, pure, Except.pure]
      simp [Dict.get]
    unfold viewOf
    rw [hs, hd]
    dsimp only [bind, Except.bind, pure, Except.pure]
    rw [List.map_map]
    rfl
  · rw [if_neg ht, if_neg ht]
    rfl

/-- The query of a histogram. -/
theorem histogram_eq (h : init fm edges given right both nanBin = .ok m) {t' : ColumnType} (ht : NamesOf m t') {arg : BinArg}
    (harg : specOf fm arg = .ok m) (e : Expr) (column : String) (name : Option String) :
    callHistogram fm hsh ev py flag flag' e column arg name =
      if t' ∈ KeySet.keysetTypes then
        .ok (histogram binner m.spec column (orEmpty name (column ++ "_binned"))
          (oneColumn (orEmpty name (column ++ "_binned")) m.desc) ⟨t', false, false, false⟩ e)
      else .error (.keys .value) := by
  obtain ⟨h1, h2, _⟩ := bins_types h ht
  have hne := orEmpty_ne name column
  unfold callHistogram
  rw [harg]
  dsimp only
  rw [fromDict_one h1 h2 (C75_bins h).1 hne]
  by_cases hk : t' ∈ KeySet.keysetTypes
  · rw [if_pos hk, if_pos hk]
    dsimp only
    obtain ⟨e', he'⟩ : ∃ e', callBin e column m.toBins (some (orEmpty name (column ++ "_binned"))) = .ok e' := by
      rcases callBin_checks e column m.toBins (some (orEmpty name (column ++ "_binned"))) with ⟨h, _⟩ | ⟨_, h⟩
      · exact h
      · exact absurd (fun hc => hne (Option.some.inj hc)) h
    obtain ⟨n, hn, _, rfl⟩ := callBin_ok he'
    rw [he']
    subst hn
    dsimp only [Option.getD]
    unfold histogram binColumn binKeys
    dsimp only [finish, groupby, Method.build, mechOf, construct, orNone, Keys.isAuto, Kind.constructible]
    simp only [Bool.false_and, Bool.false_eq_true, if_false]
    unfold Made.bins
    rw [List.map_map]
    rfl
  · rw [if_neg hk, if_neg hk]

/-- **C75.** A histogram can be made from edges exactly if they are edges of a binning specification without names, and from
a binning specification exactly if its names are integers, strings or dates. -/
theorem C75_histogram_accepts (fm : Format) (hsh : KeySet.Op → Except KErr ℤ) (ev : Cond → (String → Option Value) → Bool)
    (py : Py) (flag flag' : Bool) (e : Expr) (column : String) (name : Option String) :
    (∀ l, (∃ a, callHistogram fm hsh ev py flag flag' e column (.edges l) name = .ok a) ↔ Accepted l none (.value .null)) ∧
    ∀ m edges right both nanBin, MadeFrom fm m edges right both nanBin →
      ((∃ a, callHistogram fm hsh ev py flag flag' e column (.spec m) name = .ok a) ↔
        NamesOf m .INTEGER ∨ NamesOf m .VARCHAR ∨ NamesOf m .DATE) := by
  have hkt : ∀ t, t ∈ KeySet.keysetTypes ↔ t = .INTEGER ∨ t = .VARCHAR ∨ t = .DATE := by
    intro t
    cases t <;> decide
  constructor
  · intro l
    rw [← C75_accepts fm l none true true (.value .null)]
    constructor
    · rintro ⟨a, ha⟩
      unfold callHistogram at ha
      cases hs : specOf fm (.edges l) with
      | error x => rw [hs] at ha; cases ha
      | ok m => exact ⟨m, hs⟩
    · rintro ⟨m, hm⟩
      have ht : NamesOf m .VARCHAR := by
        obtain ⟨t, t', ns, h⟩ := init_iff.1 hm
        intro u hu
        have hn := h.names
        unfold namesOf at hn
        dsimp only at hn
        rw [h.names_eq] at hu
        cases hd : defaultNames fm (values l) true true with
        | error x => rw [hd] at hn; cases hn
        | ok strs =>
          rw [hd] at hn
          have hn : strs.map (fun s => Obj.value (.str s)) = ns := Except.ok.inj hn
          rw [← hn, show strs.map (fun s => Obj.value (.str s)) = (strs.map Value.str).map Obj.value by
            rw [List.map_map]; rfl, values_values] at hu
          obtain ⟨s, _, rfl⟩ := List.mem_map.1 hu
          rfl
      rw [histogram_eq (arg := .edges l) hm ht hm, if_pos (by decide)]
      exact ⟨_, rfl⟩
  · rintro m edges right both nanBin ⟨given, hm⟩
    obtain ⟨t', ht⟩ := names_typed hm
    rw [histogram_eq hm ht rfl]
    have huniq : ∀ t, NamesOf m t → t = t' := by
      intro t h
      have hb := (bins_types hm ht).2.2
      rw [← hb]
      exact ((bins_types hm h).2.2).symm
    by_cases hk : t' ∈ KeySet.keysetTypes
    · rw [if_pos hk]
      refine ⟨fun _ => ?_, fun _ => ⟨_, rfl⟩⟩
      rcases (hkt t').1 hk with rfl | rfl | rfl
      · exact .inl ht
      · exact .inr (.inl ht)
      · exact .inr (.inr ht)
    · rw [if_neg hk]
      constructor
      · rintro ⟨a, ha⟩
        cases ha
      · intro h
        refine absurd ((hkt t').2 ?_) hk
        rcases h with h | h | h
        · exact .inl (huniq _ h).symm
        · exact .inr (.inl (huniq _ h).symm)
        · exact .inr (.inr (huniq _ h).symm)

theorem mk_of_valid {α N : Type} [LinearOrder α] {s : Spec α N} (hv : Valid s) :
    Binning.mk (fun _ _ _ => .error .valueError) s.edges (some s.names) s.right s.both s.nanBin = .ok s := by
  unfold Binning.mk
  have h2 := hv.two
  have hl := hv.len
  have hs : Binning.sorted s.edges = true := by
    unfold Binning.sorted
    rw [List.all_eq_true]
    intro i hi
    have hi := List.mem_range.1 hi
    have h1 : i < s.edges.length := by omega
    have h3 : i + 1 < s.edges.length := by omega
    rw [List.getElem?_eq_getElem h1, List.getElem?_eq_getElem h3]
    exact decide_eq_true (hv.mono i (i + 1) _ _ (Nat.lt_succ_self i) (List.getElem?_eq_getElem h1) (List.getElem?_eq_getElem h3))
  rw [if_neg (by omega), hs, if_neg (by simp)]
  dsimp only
  rw [if_neg (by omega)]

theorem binned_iff (h : init fm edges given right both nanBin = .ok m) (v : Value) (a : Name) :
    Binned binner m.spec v a ↔ Belongs right both (values edges) m.names nanBin v a.1 := by
  have hc := (C75_call h v).1 a.1 a.2
  obtain ⟨t, t', ns, h⟩ := init_iff.1 h
  rw [← hc, ← call_iff h.valid]
  exact cell_inj.symm

/-- **C75** (partial). In any session, after any calls, a histogram of a table that is made by any chain of methods,
evaluated with an infinite budget, has one row for each name of a bin, in the order of the bins, with the number of rows of
the table whose value belongs to a bin of that name.

Partial: the exceptions of `C72_answer_partial`. -/
theorem C75_histogram_partial {ctx : Ctx} {core : Core} (hcore : NoNoise core) {sources : Relation.Sources}
    (hst : Relation.Stored ctx.cast sources) (hf : FramesOK sources) {out : Relation.Output}
    (h : Relation.initCore ctx.cast (coreMeasure ctx.m) sources = .ok out) (b₀ : PB)
    (ops : List (Session.Op Request PubFrame Value)) (hs : ViewsSafe ctx (Session.init b₀ (startTables out)) ops)
    (w : Session.World Meas Tab PubFrame) (hw : w = Session.run (env ctx) (Session.init b₀ (startTables out)) ops)
    (data : Nat → Root × Data)
    (hdata : data = dataAfter ctx core (Session.init b₀ (startTables out)) (fun _ => (startRoot out, startData out)) ops)
    (i : Nat) (c : Chain) (hk : c.Kept) (e : Expr) (he : c.build ctx = .ok e) (arg : BinArg) (m : Made)
    (harg : specOf fm arg = .ok m) (edges : List Obj) (right both : Bool) (nanBin : Obj)
    (hm : MadeFrom fm m edges right both nanBin) (column : String) (name : Option String) (a : Agg)
    (ha : callHistogram fm hsh ev py flag flag' e column arg name = .ok a) (b : PB) (hinf : b.isInfinite = true) :
    ∃ ok : Admissible (child (.agg a)), ∀ (p : Meas) (amt : PB),
      (Session.step (env ctx) w (.evaluate i (.query (.agg a) ok) b)).1 = .ok (.answer p amt) →
      ∃ n cat, w.nodes[i]? = some n ∧ catalog n.tables (w.pubOf n) = .ok cat ∧
        (e.ConsSafe ctx.h cat → ∃ T, c.Faithful cat (resolve n.tables (data i).2) T ∧
          Composition.respond (sem ctx core) data i (Session.step (env ctx) w (.evaluate i (.query (.agg a) ok) b)).1 =
            PMF.pure (.ok (.answer p amt), some (m.bins.map (fun u =>
              [(if name = none ∨ name = some "" then column ++ "_binned" else name.getD "", u),
                ("count", Value.int (rowsIn right both (values edges) m.names nanBin column T u).length)])))) := by
  obtain ⟨given, hm⟩ := hm
  obtain ⟨t', ht⟩ := names_typed hm
  rw [histogram_eq hm ht harg] at ha
  split at ha
  swap
  · cases ha
  have ha := Except.ok.inj ha
  subst ha
  have hname : orEmpty name (column ++ "_binned") =
      if name = none ∨ name = some "" then column ++ "_binned" else name.getD "" := by
    unfold orEmpty
    cases name with
    | none => simp
    | some s => simp
  have hne := orEmpty_ne name column
  generalize orEmpty name (column ++ "_binned") = nm at hname hne
  rw [← hname]
  clear hname
  obtain ⟨t, t₂, ns, hi⟩ := init_iff.1 hm
  have hv := hi.valid
  have ok : Admissible (child (.agg (histogram binner m.spec column nm (oneColumn nm m.desc) ⟨t', false, false, false⟩ e))) := by
    refine binColumn_ok binner m.spec column hne (fun a ha => ?_) (admissible c hk he)
    have hnull : { m.desc with allowNull := true } = m.desc := by
      have := hi.eq
      subst this
      rfl
    rw [hnull]
    refine (C75_descriptor hm).2 a.1 ?_
    rcases ha with ha | ha
    · exact .inl (List.mem_map.2 ⟨a, ha, rfl⟩)
    · exact .inr ((hi.nan_iff a).1 ha)
  refine ⟨ok, fun p amt hev => ?_⟩
  obtain ⟨n, cat, hn, hcat, hall⟩ := C64_histogram_partial binner hcore hst hf h b₀ ops hs w hw data hdata i
    (fun _ _ _ _ h => by cases h) (mk_of_valid hv) column nm (oneColumn nm m.desc) ⟨t', false, false, false⟩ e ok b hinf p amt hev
  have hc := session_cat core hst hf h b₀ ops w hw hn hcat
  refine ⟨n, cat, hn, hcat, fun hsafe => ?_⟩
  obtain ⟨T, hT, hresp⟩ := hall hsafe
  have hsch : ∃ s, schemaOf cat e = .ok s := by
    obtain ⟨n', cat', s, _, _, _, hn', hcat', hsch, _⟩ := C61_session_partial hcore hst hf h b₀ ops hs w hw data hdata i
      (.agg (histogram binner m.spec column nm (oneColumn nm m.desc) ⟨t', false, false, false⟩ e)) ok _ rfl
      (by intro b h; cases h) b hinf p amt hev
    rw [hn] at hn'
    cases hn'
    rw [hcat] at hcat'
    cases hcat'
    obtain ⟨s', hs', _⟩ := bind_ok (x := schemaOf cat e) hsch
    exact ⟨s', hs'⟩
  obtain ⟨s, hsch⟩ := hsch
  refine ⟨T, faithful hc c hk he hsch hT, ?_⟩
  rw [hresp]
  congr 3
  unfold Made.bins
  rw [List.map_map]
  refine List.map_congr_left fun o ho => ?_
  cases o with
  | none => cases ((Binning.C13_bins_exact hv).2.2.1 false).1 ho
  | some a =>
    show [(nm, a.1), ("count", _)] = _
    have : binRows binner m.spec column T a = rowsIn right both (values edges) m.names nanBin column T a.1 := by
      unfold binRows rowsIn
      refine List.filter_congr fun r _ => ?_
      rw [decide_eq_decide]
      exact binned_iff hm _ _
    rw [this]
    rfl

end Verif.Bins
