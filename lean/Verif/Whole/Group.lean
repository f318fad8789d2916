import Verif.Composition.Derived
import Verif.Whole.Props

/-!
# C78, C79: results derived from answers, and several changes

What is computed from the answers of a session is as private as the answers. Databases that are several protected changes
apart are protected by a multiple of the budget.
-/

namespace Verif.Whole

open Verif Verif.Schema Verif.Constraint Verif.Expr Verif.Query Verif.Stability
open Verif.Budget (XNum PB Rounding)
open Verif.Composition (Within PureClose ApproxClose ZCDPClose num)
open scoped ENNReal NNReal

/-- What an analyst learns in `n` calls of a new session on tables `out`. -/
noncomputable def learned (ctx : Ctx) (core : Core) (analyst : Composition.Analyst Request Meas Tab PubFrame Value Table)
    (n : ℕ) (b : PB) (out : Relation.Output) : PMF (Composition.History Request Meas PubFrame Value Table) :=
  Composition.transcript (env ctx) (sem ctx core) analyst n (Session.init b (startTables out))
    (fun _ => (startRoot out, startData out)) []

/-! ## Derived results -/

/-- **C78**: whatever is computed from the answers of a session, with or without further randomness, protects the tables as
the budget of the session says. -/
theorem C78_derived {ctx : Ctx} (hr : ctx.rounding.Lawful) {core : Core} (hcore : core.Private ctx.m)
    {sA sB : Relation.Sources} (hA : Relation.Stored ctx.cast sA) (hB : Relation.Stored ctx.cast sB)
    (hfA : FramesOK sA) (hfB : FramesOK sB) (hn : Relation.Neighbors sA sB) {outA : Relation.Output}
    (h : Relation.initCore ctx.cast (coreMeasure ctx.m) sA = .ok outA) {b : PB} (hb : b.Valid)
    (analyst : Composition.Analyst Request Meas Tab PubFrame Value Table)
    (ha : ∀ hist w, ∀ op ∈ (analyst hist w).support, op.BudgetValid) (n : ℕ) {B : Type}
    (derive : Composition.History Request Meas PubFrame Value Table → PMF B) :
    ∃ outB, Relation.initCore ctx.cast (coreMeasure ctx.m) sB = .ok outB ∧
      Within b 1 ((learned ctx core analyst n b outA).bind derive) ((learned ctx core analyst n b outB).bind derive) := by
  obtain ⟨outB, h1, _, h3⟩ := C56_session hr hcore hA hB hfA hfB hn h hb analyst ha n
  exact ⟨outB, h1, Composition.within_bind h3 derive hb⟩

/-! ## Several changes -/

/-- Databases that are `k` protected changes apart. -/
inductive Apart (cast : SparkType → Value → Value) : ℕ → Relation.Sources → Relation.Sources → Prop
  | refl (s) : Apart cast 0 s s
  | step {k s s' s''} : Apart cast k s s' → Relation.Stored cast s'' → FramesOK s'' → Relation.Neighbors s' s'' →
      Apart cast (k + 1) s s''

/-- **C79**: databases that are `k` protected changes apart: with a pure budget of ε nothing that is learned becomes more
likely by more than `exp (k ε)`; with ε and δ no event by more, up to `δ (1 + exp ε + … + exp ((k - 1) ε))`; with ρ what is
learned is as with a budget of `k² ρ`. -/
theorem C79_group {ctx : Ctx} (hr : ctx.rounding.Lawful) {core : Core} (hcore : core.Private ctx.m)
    {sA sB : Relation.Sources} (hA : Relation.Stored ctx.cast sA) (hfA : FramesOK sA) {k : ℕ} (hk : Apart ctx.cast k sA sB)
    {outA : Relation.Output} (h : Relation.initCore ctx.cast (coreMeasure ctx.m) sA = .ok outA) {b : PB} (hb : b.Valid)
    (analyst : Composition.Analyst Request Meas Tab PubFrame Value Table)
    (ha : ∀ hist w, ∀ op ∈ (analyst hist w).support, op.BudgetValid) (n : ℕ) :
    ∃ outB, Relation.initCore ctx.cast (coreMeasure ctx.m) sB = .ok outB ∧ startTables outB = startTables outA ∧
      (∀ ε : ℚ, b = .pure ε →
        PureClose (k * ε) (learned ctx core analyst n b outA) (learned ctx core analyst n b outB)) ∧
      (∀ ε δ : ℚ, b = .approx ε δ → δ < 1 →
        ApproxClose (k * ε) (δ * ∑ i ∈ Finset.range k, Real.exp (i * ε))
          (learned ctx core analyst n b outA) (learned ctx core analyst n b outB)) ∧
      (∀ ρ : ℚ, b = .zcdp ρ →
        ZCDPClose (k ^ 2 * ρ) (learned ctx core analyst n b outA) (learned ctx core analyst n b outB)) := by
  have main : ∃ outB, Relation.initCore ctx.cast (coreMeasure ctx.m) sB = .ok outB ∧ startTables outB = startTables outA ∧
      Relation.Stored ctx.cast sB ∧ FramesOK sB ∧
      Composition.Promise b k (learned ctx core analyst n b outA) (learned ctx core analyst n b outB) := by
    induction hk with
    | refl => exact ⟨outA, h, rfl, hA, hfA, .zero _ _⟩
    | step _ hs hf hn ih =>
      obtain ⟨out', h', t', hs', hf', hp⟩ := ih hA hfA h
      obtain ⟨outB, h1, h2, h3⟩ := C56_session hr hcore hs' hs hf' hf hn h' hb analyst ha n
      exact ⟨outB, h1, h2.trans t', hs, hf, hp.succ hb h3⟩
  obtain ⟨outB, h1, h2, _, _, hp⟩ := main
  refine ⟨outB, h1, h2, ?_, ?_, ?_⟩
  · rintro ε rfl
    exact hp rfl
  · rintro ε δ rfl hδ
    have := hp (by
      simp [PB.isInfinite, hδ.ne])
    exact this.mono le_rfl (le_of_eq (mul_comm _ _))
  · rintro ρ rfl
    exact hp rfl

/-! ## Databases of one table -/

theorem Apart.cons {cast : SparkType → Value → Value} {k : ℕ} {s s' s'' : Relation.Sources}
    (h : Relation.Neighbors s s') (hs : Relation.Stored cast s') (hf : FramesOK s') (h' : Apart cast k s' s'') :
    Apart cast (k + 1) s s'' := by
  induction h' with
  | refl s' => exact .step (.refl _) hs hf h
  | step _ hs' hf' hn ih => exact .step (ih h hs hf) hs' hf' hn

/-- A database of one table. -/
def oneTable (name : String) (fields : List Field) (change : Relation.Change) (rows : List Relation.DataRow) :
    Relation.Sources :=
  [(name, ⟨fields, rows⟩, change)]

/-- A table the builder keeps, with rows that fit its columns. -/
def KeptTable (cast : SparkType → Value → Value) (name : String) (fields : List Field) (change : Relation.Change)
    (rows : List Relation.DataRow) : Prop :=
  Relation.Stored cast (oneTable name fields change rows) ∧ FramesOK (oneTable name fields change rows)

theorem KeptTable.rows {cast : SparkType → Value → Value} {name : String} {fields : List Field} {change : Relation.Change}
    {a b c : List Relation.DataRow} (ha : KeptTable cast name fields change a) (hb : KeptTable cast name fields change b)
    (hc : ∀ r ∈ c, r ∈ a ∨ r ∈ b) : KeptTable cast name fields change c := by
  obtain ⟨⟨wf, va, co, cl⟩, ⟨ta⟩⟩ := ha
  obtain ⟨_, ⟨tb⟩⟩ := hb
  refine ⟨⟨?_, ?_, ?_, ?_⟩, ⟨?_⟩⟩
  · rw [Dict.wf_iff] at wf ⊢
    exact wf
  all_goals
    intro n df ch h
    simp only [oneTable, List.mem_singleton, Prod.mk.injEq] at h
    obtain ⟨rfl, rfl, rfl⟩ := h
  · exact va n _ ch (List.mem_singleton.2 rfl)
  · have h0 := co n _ ch (List.mem_singleton.2 rfl)
    have hco : ∀ f ∈ fields, Coerced f.ty := by
      obtain ⟨h1, _⟩ := C39_coerce h0
      dsimp only at h1
      intro f hf
      obtain ⟨i, hi, rfl⟩ := List.getElem_of_mem hf
      exact ((List.forall₂_iff_get.1 h1).2 i hi hi).2.2.1
    unfold Schema.coerce at h0 ⊢
    dsimp only at h0 ⊢
    split at h0
    · cases h0
    split at h0
    · cases h0
    rename_i h1 h2
    rw [if_neg h1, if_neg h2]
    exact coerceLoop_coerced _ _ hco
  · exact cl n ⟨fields, a⟩ ch (List.mem_singleton.2 rfl)
  · intro r hr
    rcases hc r hr with h | h
    · exact ta n _ ch (List.mem_singleton.2 rfl) r h
    · exact tb n _ ch (List.mem_singleton.2 rfl) r h

theorem rows_neighbors {name : String} {fields : List Field} {m : ℤ} {a b : List Relation.DataRow}
    (h : Relation.Differ m a b) :
    Relation.Neighbors (oneTable name fields (.maxRows m) a) (oneTable name fields (.maxRows m) b) := by
  refine ⟨.cons ⟨rfl, rfl, rfl⟩ .nil, ?_, ?_, ?_⟩
  · intro n a' b' k ha hb
    simp only [oneTable, List.mem_singleton, Prod.mk.injEq, Relation.Change.maxRows.injEq] at ha hb
    obtain ⟨rfl, rfl, rfl⟩ := ha
    obtain ⟨_, rfl, _⟩ := hb
    exact h
  · intro n a' b' c g r ha
    simp [oneTable] at ha
  · intro s
    refine ⟨∅, by simp, ?_, by simp⟩
    intro v _ n a' b' c ha
    simp [oneTable] at ha

/-- Tables that differ by `k m` rows are `k` changes of `m` rows apart. -/
theorem rows_apart {cast : SparkType → Value → Value} {name : String} {fields : List Field} {m : ℕ} {k : ℕ}
    {a b : List Relation.DataRow} (ha : KeptTable cast name fields (.maxRows m) a) (hb : KeptTable cast name fields (.maxRows m) b)
    (h : Relation.Differ ((k + 1 : ℕ) * m : ℤ) a b) :
    Apart cast (k + 1) (oneTable name fields (.maxRows m) a) (oneTable name fields (.maxRows m) b) := by
  induction k generalizing a with
  | zero => exact .step (.refl _) hb.1 hb.2 (rows_neighbors (by simpa using h))
  | succ k ih =>
    obtain ⟨common, removed, added, h1, h2, h3⟩ := h
    set j := m - (removed.take m).length with hj
    have hsub : ∀ r ∈ common ++ removed.drop m ++ added.take j, r ∈ a ∨ r ∈ b := by
      intro r hr
      simp only [List.mem_append] at hr
      rcases hr with (hr | hr) | hr
      · exact .inl (h1.mem_iff.2 (List.mem_append_left _ hr))
      · exact .inl (h1.mem_iff.2 (List.mem_append_right _ (List.mem_of_mem_drop hr)))
      · exact .inr (h2.mem_iff.2 (List.mem_append_right _ (List.mem_of_mem_take hr)))
    have hmid := ha.rows hb hsub
    refine Apart.cons (rows_neighbors (b := common ++ removed.drop m ++ added.take j) ?_) hmid.1 hmid.2 (ih hmid ?_)
    · refine ⟨common ++ removed.drop m, removed.take m, added.take j, ?_, .refl _, ?_⟩
      · refine h1.trans ?_
        rw [List.append_assoc]
        refine List.Perm.append_left _ ?_
        conv_lhs => rw [← List.take_append_drop m removed]
        exact List.perm_append_comm
      · have : (removed.take m).length ≤ m := by simp
        have : (added.take j).length ≤ j := by simp
        push_cast [hj] at *
        omega
    · refine ⟨common ++ added.take j, removed.drop m, added.drop j, ?_, ?_, ?_⟩
      · rw [List.append_assoc, List.append_assoc]
        exact List.Perm.append_left _ List.perm_append_comm
      · rw [List.append_assoc, List.take_append_drop]
        exact h2
      · rw [List.length_drop, List.length_drop, hj, List.length_take]
        have e : (((k + 1 + 1 : ℕ) : ℤ) * m) = ((k + 1 : ℕ) : ℤ) * m + m := by push_cast; ring
        rw [e] at h3
        have : (0 : ℤ) ≤ ((k + 1 : ℕ) : ℤ) * m := by positivity
        generalize ((k + 1 : ℕ) : ℤ) * m = q at *
        omega

theorem id_neighbors {name : String} {fields : List Field} {c space : String} {a b : List Relation.DataRow}
    (v : Option Value)
    (h : ∀ w, w ≠ v → (Relation.rowsWith ⟨fields, a⟩ c w).Perm (Relation.rowsWith ⟨fields, b⟩ c w))
    (h' : Relation.rowsWith ⟨fields, a⟩ c v = [] ∨ Relation.rowsWith ⟨fields, b⟩ c v = []) :
    Relation.Neighbors (oneTable name fields (.rowsWithID c space) a) (oneTable name fields (.rowsWithID c space) b) := by
  refine ⟨.cons ⟨rfl, rfl, rfl⟩ .nil, ?_, ?_, ?_⟩
  · intro n a' b' k ha
    simp [oneTable] at ha
  · intro n a' b' c g r ha
    simp [oneTable] at ha
  · intro s
    refine ⟨{v}, by simp, ?_, ?_⟩
    · intro w hw n a' b' c' ha hb
      simp only [oneTable, List.mem_singleton, Prod.mk.injEq, Relation.Change.rowsWithID.injEq] at ha hb
      obtain ⟨rfl, rfl, rfl, rfl⟩ := ha
      obtain ⟨_, rfl, _⟩ := hb
      exact h w (by simpa using hw)
    · intro w hw
      rw [Finset.mem_singleton] at hw
      subst hw
      refine h'.imp (fun h n a' c' ha => ?_) (fun h n a' c' ha => ?_)
      all_goals
        simp only [oneTable, List.mem_singleton, Prod.mk.injEq, Relation.Change.rowsWithID.injEq] at ha
        obtain ⟨rfl, rfl, rfl, rfl⟩ := ha
        exact h

/-- Tables in which up to `k` IDs have different rows are `2 k` changes of the rows of one ID apart. -/
theorem ids_apart {cast : SparkType → Value → Value} {name : String} {fields : List Field} {c space : String}
    (v : Option Value) (vs : List (Option Value)) {a b : List Relation.DataRow}
    (ha : KeptTable cast name fields (.rowsWithID c space) a) (hb : KeptTable cast name fields (.rowsWithID c space) b)
    (h : ∀ w ∉ v :: vs, (Relation.rowsWith ⟨fields, a⟩ c w).Perm (Relation.rowsWith ⟨fields, b⟩ c w)) :
    Apart cast (2 * (v :: vs).length) (oneTable name fields (.rowsWithID c space) a)
      (oneTable name fields (.rowsWithID c space) b) := by
  have with_eq : ∀ (x : List Relation.DataRow) w, Relation.rowsWith ⟨fields, x⟩ c w =
      x.filter (fun r => decide (Relation.cell ⟨fields, []⟩ c r = w)) := fun _ _ => rfl
  have key : ∀ (v : Option Value) (a : List Relation.DataRow), KeptTable cast name fields (.rowsWithID c space) a →
      ∃ a', KeptTable cast name fields (.rowsWithID c space) a' ∧ (∀ r ∈ a', r ∈ a) ∧
        Relation.Neighbors (oneTable name fields (.rowsWithID c space) a) (oneTable name fields (.rowsWithID c space) a') ∧
        Relation.rowsWith ⟨fields, a'⟩ c v = [] ∧
        ∀ w, w ≠ v → Relation.rowsWith ⟨fields, a'⟩ c w = Relation.rowsWith ⟨fields, a⟩ c w := by
    intro v a ha
    have h1 : Relation.rowsWith ⟨fields, a.filter (fun r => decide (Relation.cell ⟨fields, []⟩ c r ≠ v))⟩ c v = [] := by
      rw [with_eq, List.filter_eq_nil_iff]
      intro r hr
      simpa using (List.mem_filter.1 hr).2
    have h2 : ∀ w, w ≠ v → Relation.rowsWith ⟨fields, a.filter (fun r => decide (Relation.cell ⟨fields, []⟩ c r ≠ v))⟩ c w =
        Relation.rowsWith ⟨fields, a⟩ c w := by
      intro w hw
      rw [with_eq, with_eq, List.filter_filter]
      refine List.filter_congr fun r _ => ?_
      by_cases e : Relation.cell ⟨fields, []⟩ c r = w
      · simp [e, hw]
      · simp [e]
    refine ⟨_, ha.rows ha fun r hr => .inl (List.mem_of_mem_filter hr), fun r hr => List.mem_of_mem_filter hr, ?_, h1, h2⟩
    exact id_neighbors v (fun w hw => by rw [h2 w hw]) (.inr h1)
  induction vs generalizing v a with
  | nil =>
    obtain ⟨a', k1, _, k2, k3, k4⟩ := key v a ha
    refine .step (.step (.refl _) k1.1 k1.2 k2) hb.1 hb.2 (id_neighbors v (fun w hw => ?_) (.inl k3))
    rw [k4 w hw]
    exact h w (by simpa using hw)
  | cons v' vs ih =>
    obtain ⟨a', k1, k5, k2, k3, k4⟩ := key v a ha
    have app : ∀ (x y : List Relation.DataRow) w, Relation.rowsWith ⟨fields, x ++ y⟩ c w =
        Relation.rowsWith ⟨fields, x⟩ c w ++ Relation.rowsWith ⟨fields, y⟩ c w := by
      intro x y w
      rw [with_eq, with_eq, with_eq, List.filter_append]
    have twice : ∀ w, Relation.rowsWith ⟨fields, Relation.rowsWith ⟨fields, b⟩ c v⟩ c w =
        if w = v then Relation.rowsWith ⟨fields, b⟩ c v else [] := by
      intro w
      split
      · rename_i e
        subst e
        refine List.filter_eq_self.2 fun r hr => (List.mem_filter.1 hr).2
      · rename_i e
        refine List.filter_eq_nil_iff.2 fun r hr => ?_
        have : Relation.cell ⟨fields, b⟩ c r = v := by simpa using (List.mem_filter.1 hr).2
        have : Relation.cell ⟨fields, Relation.rowsWith ⟨fields, b⟩ c v⟩ c r = v := this
        rw [this]
        simpa using fun e' => e e'.symm
    have hk : KeptTable cast name fields (.rowsWithID c space) (a' ++ Relation.rowsWith ⟨fields, b⟩ c v) := by
      refine ha.rows hb fun r hr => ?_
      rcases List.mem_append.1 hr with hr | hr
      · exact .inl (k5 r hr)
      · exact .inr (List.mem_of_mem_filter hr)
    have := ih v' hk fun w hw => by
      rw [app, twice]
      by_cases e : w = v
      · subst e
        rw [k3, if_pos rfl]
        exact .refl _
      · rw [if_neg e, List.append_nil, k4 w e]
        refine h w ?_
        simp only [List.mem_cons, not_or] at hw ⊢
        exact ⟨e, hw⟩
    refine Apart.cons k2 k1.1 k1.2 (Apart.cons (id_neighbors v (fun w hw => ?_) (.inl k3)) hk.1 hk.2 this)
    rw [app, twice, if_neg hw, List.append_nil]

/-- **C79**: a session on one table, with a pure budget of ε, that protects the addition or removal of `m` rows: if two
tables differ by at most `k m` rows, nothing that is learned becomes more likely by more than `exp (k ε)`. -/
theorem C79_rows {ctx : Ctx} (hr : ctx.rounding.Lawful) {core : Core} (hcore : core.Private ctx.m) {name : String}
    {fields : List Field} {m k : ℕ} {a b : List Relation.DataRow} (hk : 1 ≤ k)
    (ha : KeptTable ctx.cast name fields (.maxRows m) a) (hb : KeptTable ctx.cast name fields (.maxRows m) b)
    (h : Relation.Differ (k * m) a b) {outA : Relation.Output}
    (hA : Relation.initCore ctx.cast (coreMeasure ctx.m) (oneTable name fields (.maxRows m) a) = .ok outA) {ε : ℚ} (hε : 0 ≤ ε)
    (analyst : Composition.Analyst Request Meas Tab PubFrame Value Table)
    (hv : ∀ hist w, ∀ op ∈ (analyst hist w).support, op.BudgetValid) (n : ℕ) :
    ∃ outB, Relation.initCore ctx.cast (coreMeasure ctx.m) (oneTable name fields (.maxRows m) b) = .ok outB ∧
      PureClose (k * ε) (learned ctx core analyst n (.pure ε) outA) (learned ctx core analyst n (.pure ε) outB) := by
  obtain ⟨k, rfl⟩ : ∃ j, k = j + 1 := ⟨k - 1, by omega⟩
  obtain ⟨outB, h1, _, h2, _⟩ := C79_group hr hcore ha.1 ha.2 (rows_apart ha hb h) hA (b := .pure ε)
    (WithTop.coe_nonneg.2 hε) analyst hv n
  exact ⟨outB, h1, h2 ε rfl⟩

/-- **C79**: a session on one table, with a pure budget of ε, that protects the rows of an ID: if `k` IDs have other rows in
two tables, nothing that is learned becomes more likely by more than `exp (2 k ε)`: the rows of an ID are replaced in two
changes. -/
theorem C79_ids {ctx : Ctx} (hr : ctx.rounding.Lawful) {core : Core} (hcore : core.Private ctx.m) {name c space : String}
    {fields : List Field} {changed : Finset (Option Value)} {a b : List Relation.DataRow} (hk : changed.Nonempty)
    (ha : KeptTable ctx.cast name fields (.rowsWithID c space) a) (hb : KeptTable ctx.cast name fields (.rowsWithID c space) b)
    (h : ∀ w ∉ changed, (Relation.rowsWith ⟨fields, a⟩ c w).Perm (Relation.rowsWith ⟨fields, b⟩ c w))
    {outA : Relation.Output}
    (hA : Relation.initCore ctx.cast (coreMeasure ctx.m) (oneTable name fields (.rowsWithID c space) a) = .ok outA) {ε : ℚ}
    (hε : 0 ≤ ε) (analyst : Composition.Analyst Request Meas Tab PubFrame Value Table)
    (hv : ∀ hist w, ∀ op ∈ (analyst hist w).support, op.BudgetValid) (n : ℕ) :
    ∃ outB, Relation.initCore ctx.cast (coreMeasure ctx.m) (oneTable name fields (.rowsWithID c space) b) = .ok outB ∧
      PureClose (2 * changed.card * ε) (learned ctx core analyst n (.pure ε) outA)
        (learned ctx core analyst n (.pure ε) outB) := by
  have hl : ∃ v vs, v :: vs = changed.toList := by
    cases e : changed.toList with
    | nil => simp [hk.ne_empty] at e
    | cons v vs => exact ⟨v, vs, rfl⟩
  obtain ⟨v, vs, e⟩ := hl
  have hap := ids_apart v vs ha hb (by simpa [e] using h)
  rw [e, Finset.length_toList] at hap
  obtain ⟨outB, h1, _, h2, _⟩ := C79_group hr hcore ha.1 ha.2 hap hA (b := .pure ε)
    (WithTop.coe_nonneg.2 hε) analyst hv n
  refine ⟨outB, h1, ?_⟩
  have := h2 ε rfl
  push_cast at this
  exact this

end Verif.Whole
