import Verif.Whole.Exact
import Verif.Whole.Total
import Verif.Binning.Props

/-!
# C64: histograms

`QueryBuilder.histogram`, from the bin edges to the answer of a session.
-/

namespace Verif.Whole

open Verif Verif.Schema Verif.Constraint Verif.Expr Verif.Query Verif.Stability
open Verif.Budget (XNum PB Rounding)
open Verif.Meaning (Means NoLeftIDs Faithful)
open Verif.Binning (Spec InBin)
open Verif.Session (World Op)

/-- How the cells of a column are binned, and how bin names are written in a column: the values of one type as a linear
order, the names of bins as values of one type that are not null. -/
structure Binner (α N : Type) where
  read : Value → Binning.Cell α
  write : N → Value
  inj : ∀ a b, write a = write b → a = b
  notNull : ∀ a, write a ≠ .null

section
variable {α N : Type} [LinearOrder α] [DecidableEq N] (β : Binner α N)

/-- A bin name in a column; no bin is null. -/
def Binner.cell (o : Option N) : Value :=
  match o with
  | none => .null
  | some a => β.write a

/-- `bin_column` (`query_builder.py` l. 1581-1588): `lambda row: {name: spec(row[column])}`, with `augment=True`. -/
def binColumn (s : Spec α N) (col name : String) (new : Schema) (e : Expr) : Expr :=
  .map e (fun r => [(name, β.cell (s.call (β.read (Expr.cell r col))))]) new true

/-- `KeySet.from_dict({name: spec.bins()})` (l. 1662). `desc` is the type of the names. -/
def binKeys (s : Spec α N) (name : String) (desc : Desc) : KeySetV :=
  ⟨[(name, desc)], (s.bins false).map (fun o => [(name, β.cell o)])⟩

/-- `histogram` (l. 1655-1663). `new` is the schema with the column `name: spec.column_descriptor`. -/
def histogram (s : Spec α N) (col name : String) (new : Schema) (desc : Desc) (e : Expr) : Agg :=
  ⟨binColumn β s col name new e, .set (binKeys β s name desc), .count .default, "count", none⟩

/-! ## Specification -/

/-- A value belongs to the bin of a name: it lies between the edges of a bin of this name, or it is NaN and this is the
name for NaNs. Nulls belong to no bin. -/
def Binned (s : Spec α N) (v : Value) (a : N) : Prop :=
  match β.read v with
  | .null => False
  | .nan => s.nanBin = some a
  | .val x => ∃ i, InBin s i x ∧ s.names[i]? = some a

/-! ## Lemmas -/

variable {β}

theorem call_iff {s : Spec α N} (hv : Binning.Valid s) (v : Value) (a : N) :
    s.call (β.read v) = some a ↔ Binned β s v a := by
  unfold Binned
  cases β.read v with
  | null => simp [Spec.call]
  | nan => simp [Spec.call]
  | val x =>
    dsimp only
    rcases Binning.call_spec hv x with ⟨i, n, h1, h2, h3⟩ | ⟨h1, h2⟩
    · rw [h3]
      constructor
      · intro h
        cases h
        exact ⟨i, h1, h2⟩
      · rintro ⟨j, j1, j2⟩
        rw [Binning.InBin.unique hv j1 h1, h2] at j2
        exact j2
    · rw [h2]
      constructor
      · intro h; cases h
      · rintro ⟨j, j1, _⟩
        exact absurd j1 (h1 j)

theorem cell_inj {o : Option N} {a : N} : β.cell o = β.write a ↔ o = some a := by
  cases o with
  | none => exact ⟨fun h => absurd h.symm (β.notNull a), nofun⟩
  | some b => exact ⟨fun h => by rw [β.inj b a h], fun h => by cases h; rfl⟩

open Classical in
/-- The rows of a table in a bin. -/
noncomputable def binRows (β : Binner α N) (s : Spec α N) (col : String) (T : Table) (a : N) : Table :=
  T.filter (fun r => decide (Binned β s (Expr.cell r col) a))

theorem group_length {s : Spec α N} (hv : Binning.Valid s) {col name : String} {T T' : Table}
    (h : Meaning.Each (fun r r' => Meaning.Made true r [(name, β.cell (s.call (β.read (Expr.cell r col))))] r') T T') (a : N) :
    (Query.group [name] [(name, β.write a)] T').length = (binRows β s col T a).length := by
  obtain ⟨u, hu, hp⟩ := h
  rw [(group_perm hp).length_eq]
  unfold binRows Query.group
  clear hp
  induction hu with
  | nil => rfl
  | @cons r r' T u hm _ ih =>
    have hc : Expr.cell r' name = β.cell (s.call (β.read (Expr.cell r col))) := by
      have := hm name
      rw [show Row.get [(name, β.cell (s.call (β.read (Expr.cell r col))))] name = some (β.cell (s.call (β.read (Expr.cell r col)))) by
        simp [Row.get]] at this
      unfold Expr.cell at this ⊢
      rw [this]
      rfl
    have hk : Expr.cell [(name, β.write a)] name = β.write a := by simp [Expr.cell, Row.get]
    have hd : ([name].all fun c => decide (Expr.cell r' c = Expr.cell [(name, β.write a)] c)) = true ↔
        Binned β s (Expr.cell r col) a := by
      simp only [List.all_cons, List.all_nil, Bool.and_true, decide_eq_true_eq]
      rw [hc, hk, cell_inj, call_iff hv]
    rw [List.filter_cons, List.filter_cons]
    by_cases hb : Binned β s (Expr.cell r col) a
    · rw [if_pos (hd.2 hb), if_pos (by simpa using hb), List.length_cons, List.length_cons, ih]
    · rw [if_neg (mt hd.1 hb), if_neg (by simpa using hb), ih]

end

/-- **C64** (partial). In any session, after any calls, a histogram evaluated with an infinite budget has one row for each
bin name, in the order of the bins, with the number of rows of the table whose value belongs to a bin of that name.

Partial: the rows of the table are what the documentation says with the exceptions of C57 and C16. -/
theorem C64_histogram_partial {α N : Type} [LinearOrder α] [DecidableEq N] (β : Binner α N) {ctx : Ctx} {core : Core}
    (hcore : NoNoise core) {sources : Relation.Sources} (hst : Relation.Stored ctx.cast sources) (hf : FramesOK sources)
    {out : Relation.Output} (h : Relation.initCore ctx.cast (coreMeasure ctx.m) sources = .ok out) (b₀ : PB)
    (ops : List (Session.Op Request PubFrame Value)) (hs : ViewsSafe ctx (Session.init b₀ (startTables out)) ops)
    (w : Session.World Meas Tab PubFrame) (hw : w = Session.run (env ctx) (Session.init b₀ (startTables out)) ops)
    (data : Nat → Root × Data)
    (hdata : data = dataAfter ctx core (Session.init b₀ (startTables out)) (fun _ => (startRoot out, startData out)) ops)
    (i : Nat) {dflt : List α → Bool → Bool → Except Binning.Err (List N)}
    (hd : ∀ e r b ns, dflt e r b = .ok ns → ns.length = e.length - 1) {edges : List α} {names : Option (List N)}
    {right both : Bool} {nanBin : Option N} {spec : Spec α N} (hspec : Binning.mk dflt edges names right both nanBin = .ok spec)
    (col name : String) (new : Schema) (desc : Desc) (e : Expr)
    (ok : Admissible (child (.agg (histogram β spec col name new desc e)))) (b : PB) (hinf : b.isInfinite = true) (m : Meas)
    (amt : PB)
    (hev : (Session.step (env ctx) w (.evaluate i (.query (.agg (histogram β spec col name new desc e)) ok) b)).1 =
      .ok (.answer m amt)) :
    ∃ n cat, w.nodes[i]? = some n ∧ catalog n.tables (w.pubOf n) = .ok cat ∧
      (e.ConsSafe ctx.h cat → ∃ T, Faithful cat (resolve n.tables (data i).2) e T ∧
        Composition.respond (sem ctx core) data i
            (Session.step (env ctx) w (.evaluate i (.query (.agg (histogram β spec col name new desc e)) ok) b)).1 =
          PMF.pure (.ok (.answer m amt), some ((spec.bins false).map (fun o => (name, β.cell o) ::
            o.toList.map (fun a => ("count", Value.int (binRows β spec col T a).length)))))) := by
  obtain ⟨hv, _⟩ := Binning.valid_of_mk hd hspec
  obtain ⟨n, cat, s, T', x, keys, hn, hc, _, hmeans, hex⟩ := C61_session_partial hcore hst hf h b₀ ops hs w hw data hdata i
    (.agg (histogram β spec col name new desc e)) ok _ rfl (by intro b h; cases h) b hinf m amt hev
  refine ⟨n, cat, hn, hc, fun hsafe => ?_⟩
  obtain ⟨T, hT, hE⟩ := hmeans.1
  refine ⟨T, ⟨hT, fun hl => Meaning.means_of_by hl hT⟩, ?_⟩
  obtain ⟨hk, hr⟩ := hex hsafe
  rw [hr]
  have hk : keys = (spec.bins false).map (fun o => [(name, β.cell o)]) := hk
  subst hk
  congr 3
  show shown _ _ = _
  unfold shown answerFor
  have hcols : (histogram β spec col name new desc e).keys.columns = [name] := rfl
  rw [hcols, if_neg (by simp), List.map_map]
  refine List.map_congr_left fun o ho => ?_
  cases o with
  | none =>
    have := ((Binning.C13_bins_exact hv).2.2.1 false).1 ho
    cases this
  | some a =>
    show [(name, β.write a)] ++ aggregate x _ _ (Query.group [name] [(name, β.write a)] T') = _
    unfold aggregate histogram
    dsimp only
    rw [group_length hv hE a]
    rfl

/-! ## Histograms are answered -/

theorem mk_exists {l : Dict String Desc} {g i sp : Option String} (ne : "" ∉ Dict.keys l)
    (hg : ∀ c, g = some c → c ∈ Dict.keys l) (hi : ∀ c, i = some c → c ∈ Dict.keys l) :
    ∃ s, Expr.mk l g i sp = .ok s := by
  have hk : Dict.keys (l.map (fun p => (p.1, ColSpec.desc p.2))) = Dict.keys l := by
    simp [Dict.keys, Function.comp_def]
  have hr : ∀ l : Dict String Desc,
      resolveAll false false false (l.map (fun p => (p.1, ColSpec.desc p.2))) = some l := by
    intro l
    induction l with
    | nil => rfl
    | cons p l ih => simp [resolveAll, Schema.resolve, ih]
  unfold Expr.mk Schema.init
  rw [hk, if_neg ne, if_neg, if_neg, hr]
  · exact ⟨_, rfl⟩
  · exact opt_any_false (fun c hc => by simpa using hi c hc)
  · exact opt_any_false (fun c hc => by simpa using hg c hc)

/-- `{name: spec.column_descriptor}` as a schema. -/
def oneColumn (name : String) (d : Desc) : Schema := ⟨⟨[(name, d)]⟩, none, none, none⟩

theorem oneColumn_wf {name : String} {d : Desc} (hne : name ≠ "") : (oneColumn name d).WF :=
  ⟨by simp [oneColumn], by simpa [oneColumn] using hne, nofun, nofun⟩

theorem call_mem {α N : Type} [LinearOrder α] {s : Spec α N} {c : Binning.Cell α} {a : N} (h : s.call c = some a) :
    a ∈ s.names ∨ s.nanBin = some a := by
  cases c with
  | null => cases h
  | nan => exact .inr h
  | val v =>
    refine .inl ?_
    dsimp only [Spec.call] at h
    split at h
    · split at h
      · split at h
        · exact List.mem_of_getElem? h
        · split at h
          · cases h
          · exact List.mem_of_getElem? h
      · split at h
        · exact List.mem_of_getElem? h
        · split at h
          · cases h
          · exact List.mem_of_getElem? h
    · cases h

/-- A query with bins is admissible if the one without is, and the bin names fit the type of the new column. -/
theorem binColumn_ok {α N : Type} [LinearOrder α] (β : Binner α N) (spec : Spec α N) (col : String) {name : String}
    {d : Desc} (hne : name ≠ "")
    (hw : ∀ a, a ∈ spec.names ∨ spec.nanBin = some a → DescOK { d with allowNull := true } (β.write a)) {e : Expr}
    (ok : Admissible e) :
    Admissible (binColumn β spec col name (oneColumn name d) e) := by
  refine ⟨⟨ok.wf, oneColumn_wf hne⟩, ⟨ok.fns, fun r => ?_⟩, ok.renames, ok.orderFree, ok.groups⟩
  refine ⟨by simp [Row.cols], fun c => by simp [Row.cols, withNulls, oneColumn, Dict.keys], ?_⟩
  intro c v hv d' hd'
  simp only [List.mem_singleton, Prod.mk.injEq] at hv
  simp only [withNulls, oneColumn, List.map_cons, List.map_nil, List.mem_singleton, Prod.mk.injEq] at hd'
  rw [hv.2, hd'.2]
  cases ha : spec.call (β.read (Expr.cell r col)) with
  | none => exact rfl
  | some a => exact hw a (call_mem ha)

theorem histogram_schema {α N : Type} [LinearOrder α] [DecidableEq N] (β : Binner α N) (spec : Spec α N) (col : String)
    {name : String} {d desc : Desc} (hd : d.ty = desc.ty) (hne : name ≠ "") {e : Expr} {cat : Cat} {s : Schema} (w : s.WF)
    (hs : schemaOf cat e = .ok s) (hg : s.grouping = none) (hn : name ∉ Schema.keys s) :
    ∃ s₁ out, schemaOf cat (binColumn β spec col name (oneColumn name d) e) = .ok s₁ ∧ s₁.idColumn = s.idColumn ∧
      (histogram β spec col name (oneColumn name d) desc e).schema cat = .ok out := by
  have wn := oneColumn_wf (d := d) hne
  have hnew : Schema.descs (oneColumn name d) = [(name, d)] := Schema.descs_eq wn
  have hu : Dict.union s.descs (nullable (oneColumn name d)) = s.descs ++ [(name, { d with allowNull := true })] := by
    unfold nullable
    rw [hnew]
    refine Dict.union_disjoint _ _ (by simp [Dict.WF]) ?_
    intro k hk
    simp only [Dict.keys, List.map_cons, List.map_nil, List.mem_singleton] at hk
    subst hk
    exact hn
  have hdesc := Schema.descs_eq w
  obtain ⟨s₁, h1⟩ := mk_exists (l := s.descs ++ [(name, { d with allowNull := true })]) (g := none) (i := s.idColumn)
    (sp := s.idSpace) (by
      simp only [Dict.keys, List.map_append, List.mem_append, List.map_cons, List.map_nil, List.mem_singleton, not_or]
      exact ⟨by rw [hdesc]; exact w.nonempty, fun h => hne h.symm⟩) nofun
    (fun c hc => by
      simp only [Dict.keys, List.map_append, List.mem_append]
      exact .inl (by rw [hdesc]; exact w.idColumn c hc))
  have hm : schMap (oneColumn name d) true s = .ok s₁ := by
    unfold schMap
    rw [if_neg (by simp [oneColumn]), if_pos rfl, if_neg, hu, hg]
    · exact h1
    · unfold Schema.keys at hn ⊢
      rw [hnew]
      intro h
      simp only [Dict.keys, List.map_cons, List.map_nil, List.any_cons, List.any_nil, Bool.or_false, decide_eq_true_eq] at h
      exact hn (of_decide_eq_true h)
  have hs1 : schemaOf cat (binColumn β spec col name (oneColumn name d) e) = .ok s₁ := by
    dsimp only [binColumn, schemaOf]
    rw [hs]
    exact hm
  obtain ⟨w1, ⟨_, _, e1, e2, e3, e4⟩ | ⟨h, _⟩⟩ := schMap_ok wn w hm
  swap
  · cases h
  have hget : Dict.get s₁.descs name = some { d with allowNull := true } := by
    rw [Schema.descs_eq w1, e4]
    refine (Dict.get_eq_some ?_).2 ?_
    · have := w1.nodup
      rw [e4] at this
      exact this
    · unfold nullable
      rw [hnew]
      simp
  have hval : validateGroupby (.set (binKeys β spec name desc)) none s₁ = .ok () := by
    unfold validateGroupby
    have : checkKeys s₁ (.set (binKeys β spec name desc)) = .ok () := by
      show checkKeySet s₁ [(name, desc)] = _
      unfold checkKeySet
      rw [hget]
      dsimp only
      rw [if_neg (by simp [hd])]
      rfl
    rw [this, e1, hg]
    rfl
  obtain ⟨out, hout⟩ := mk_exists
    (l := Dict.union (Dict.ofPairs [(name, { d with allowNull := true })])
      [("count", ⟨.INTEGER, false, false, false⟩)]) (g := none) (i := none) (sp := none) (by
      rw [Dict.keys_union _ _ (by simp [Dict.WF])]
      simp only [Dict.keys, Dict.ofPairs, Dict.union, Dict.set, List.foldl, List.map_nil, List.not_mem_nil, if_false,
        List.nil_append, List.map_cons, List.mem_append, List.mem_singleton, not_or]
      refine ⟨fun h => hne h.symm, fun h => ?_⟩
      have := List.mem_of_mem_filter h
      simp at this) nofun nofun
  refine ⟨s₁, out, hs1, e2, ?_⟩
  show Agg.schema cat _ = _
  unfold Agg.schema
  have : schemaOf cat (histogram β spec col name (oneColumn name d) desc e).child = .ok s₁ := hs1
  rw [this]
  dsimp only
  have : validateGroupby (histogram β spec col name (oneColumn name d) desc e).keys
    (histogram β spec col name (oneColumn name d) desc e).kind.measure s₁ = .ok () := hval
  rw [this]
  dsimp only
  unfold schemaForGroupby
  have hc : (histogram β spec col name (oneColumn name d) desc e).keys.columns = [name] := rfl
  rw [hc]
  simp only [List.filterMap_cons, List.filterMap_nil, hget, Option.map_some]
  exact hout

/-- **C64** (partial): a histogram of a table without grouping column is answered, in any session after any calls, with a
budget that remains, if the name of the new column is not taken.

Partial: `Ready` (see C62). -/
theorem C64_answered_partial {α N : Type} [LinearOrder α] [DecidableEq N] (β : Binner α N) {ctx : Ctx} (core : Core)
    {sources : Relation.Sources} (hst : Relation.Stored ctx.cast sources) (hf : FramesOK sources)
    {out : Relation.Output} (h : Relation.initCore ctx.cast (coreMeasure ctx.m) sources = .ok out)
    (hl : ctx.rounding.Lawful) (hord : ∀ l, (ctx.order l).Perm l) {b₀ : PB} (hm₀ : measureOf b₀ = ctx.m) (hv₀ : b₀.Valid)
    (ops : List (Op Request PubFrame Value)) (hops : ∀ op ∈ ops, op.BudgetValid) (w : World Meas Tab PubFrame)
    (hw : w = Session.run (env ctx) (Session.init b₀ (startTables out)) ops) (i : Nat) (n : Session.Node Meas Tab)
    (hn : w.nodes[i]? = some n) (hlive : n.state ≠ .retired) :
    ∃ cat, catalog n.tables (w.pubOf n) = .ok cat ∧
      ∀ e s, schemaOf cat e = .ok s → Ready cat e → s.grouping = none →
        (∀ o, compile ctx.h cat e = .ok o → s.idColumn ≠ none → Limits none o.cons) →
        ∀ (spec : Spec α N) col name d desc, d.ty = desc.ty → name ≠ "" → name ∉ Schema.keys s →
        ∀ (ok : Admissible (child (.agg (histogram β spec col name (oneColumn name d) desc e)))) b, b.Valid →
          ¬ Session.PB.IsZero b → Session.PBRel (· ≤ ·) b n.remaining →
          ∃ m amt, (Session.step (env ctx) w
            (.evaluate i (.query (.agg (histogram β spec col name (oneColumn name d) desc e)) ok) b)).1 =
              .ok (.answer m amt) := by
  obtain ⟨cat, hcat, hall⟩ := C62_evaluate_partial core hst hf h hl hord hm₀ hv₀ ops hops w hw i n hn hlive
  have hre := reached core hst hf h b₀ ops i n (by rw [← hw]; exact hn)
  obtain ⟨R, tok⟩ := hre.tabs
  have hc := (cat_facts hcat tok).ok
  refine ⟨cat, hcat, fun e s hs hr hg hlim spec col name d desc hd hne hfree ok b hbv hz hle => ?_⟩
  have he : e.WF := ok.wf.1
  obtain ⟨s₁, o₁, h1, h2, h3⟩ := histogram_schema β spec col hd hne (schemaOf_wf hc e he hs) hs hg hfree
  refine hall _ ok b o₁ h3 hbv ⟨hr, fun s' o hs' ho => ?_, nofun⟩ hz hle
  have : s' = s₁ := by
    have : schemaOf cat (binColumn β spec col name (oneColumn name d) e) = .ok s' := hs'
    rw [h1] at this
    exact (Except.ok.inj this).symm
  subst this
  refine ⟨nofun, nofun, nofun, fun j hj => .inl ?_, fun _ _ _ _ => nofun, fun _ _ => nofun⟩
  obtain ⟨x, hx, hv⟩ := bind_ok (x := compile ctx.h cat e) ho
  obtain ⟨_, rfl⟩ := visitMap_ok hv
  exact (hlim x hx (by rw [← h2, hj]; nofun)).simplify

end Verif.Whole
