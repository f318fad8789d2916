import Verif.KeySet.Model

/-!
# What KeySets mean

The specification: when an assignment of values to column names is one of the keys described by an operation tree.
It is written from the documentation of the operators (`_keyset.py` l. 206-438) and does not use the functions that
build, validate or rewrite trees; only the columns of a tree are shared.

A KeySet without columns stands for a total aggregation, one group that contains everything (`_cross_join.py`
l. 91-95, `_from_tuples.py` l. 85-89); every assignment belongs to it.
-/

namespace Verif.KeySet

open Verif Verif.Schema

/-- An assignment of values to column names. -/
abbrev Assign := String → Value

/-- The part of an assignment a table with the given columns has. -/
def restrict (cols : List String) (ρ : Assign) : String → Option Value :=
  fun c => if c ∈ cols then some (ρ c) else none

/-- What is not decided by the code: which rows Spark keeps under a condition, and which keys partition selection
will detect. Assumed: a condition looks at the row only; detected keys depend on the set of columns asked for, and
are keys for those columns. The last two fields are not part of the world, they set the scope of a statement: which
leaves trees may have, and whether trees are meant that subtract a KeySet without columns. -/
structure Env where
  ev : Cond → (String → Option Value) → Bool
  det : List String → Assign → Prop
  det_congr : ∀ cs cs' ρ ρ', (∀ c, c ∈ cs ↔ c ∈ cs') → (∀ c ∈ cs, ρ c = ρ' c) → (det cs ρ ↔ det cs' ρ')
  leaf : Op → Prop
  zeroSub : Prop

mutual
/-- Is the assignment one of the keys? -/
def Op.Matches (E : Env) : Op → Assign → Prop
  | .detect cs, ρ => E.det cs ρ
  | .tuples ts ds, ρ => ds = [] ∨ (ds.map Prod.fst).map ρ ∈ ts
  | .frame df, ρ => df.fields = [] ∨ (df.fields.map Field.name).map ρ ∈ df.rows
  | .cross _ fs, ρ => matchesL E fs ρ
  | .join l r, ρ => l.Matches E ρ ∧ r.Matches E ρ
  | .project c cs, ρ => ∃ ρ' : Assign, (∀ x ∈ cs, ρ' x = ρ x) ∧ c.Matches E ρ'
  | .filter c k, ρ => c.Matches E ρ ∧ (c.columns = [] ∨ E.ev k (restrict c.columns ρ) = true)
  | .subtract l r, ρ => l.Matches E ρ ∧ (r.columns = [] ∨ ¬ r.Matches E ρ)
  | .union l r, ρ => l.Matches E ρ ∨ r.Matches E ρ
/-- Is the assignment a key of every factor? -/
def matchesL (E : Env) : List Op → Assign → Prop
  | [], _ => True
  | f :: fs, ρ => f.Matches E ρ ∧ matchesL E fs ρ
end

mutual
/-- Trees that can exist: every node passed its validation, and the data in the leaves is rectangular, with distinct
column names (`KeySet.from_tuples` and the check on distinct columns in `KeySet.__init__` see to that) and without
repeated tuples. -/
def Op.WF : Op → Prop
  | .detect cs => check (.detect cs) = .ok () ∧ cs.Nodup
  | .tuples ts ds =>
    check (.tuples ts ds) = .ok () ∧ ts.Nodup ∧ (ds.map Prod.fst).Nodup ∧ ∀ t ∈ ts, t.length = ds.length
  | .frame df =>
    check (.frame df) = .ok () ∧ (df.fields.map Field.name).Nodup ∧ ∀ t ∈ df.rows, t.length = df.fields.length
  | .cross m fs => check (.cross m fs) = .ok () ∧ wfL fs
  | .join l r => check (.join l r) = .ok () ∧ l.WF ∧ r.WF
  | .project c cs => check (.project c cs) = .ok () ∧ cs.Nodup ∧ c.WF
  | .filter c k => check (.filter c k) = .ok () ∧ c.WF
  | .subtract l r => check (.subtract l r) = .ok () ∧ l.WF ∧ r.WF
  | .union l r => check (.union l r) = .ok () ∧ l.WF ∧ r.WF
/-- Every factor is such a tree. -/
def wfL : List Op → Prop
  | [] => True
  | f :: fs => f.WF ∧ wfL fs
end

/-- Some assignment is a key: the KeySet is not empty. -/
def Op.Sat (E : Env) (op : Op) : Prop := ∃ ρ, op.Matches E ρ

/-- Is an operation a `FromTuples`? -/
def isTuples : Op → Bool
  | .tuples _ _ => true
  | _ => false

mutual
/-- The trees that are treated: nothing empty is projected anywhere, in-memory cross-joins are made of tuples
only, and the scope of `E` is respected. -/
def Op.Fine (E : Env) : Op → Prop
  | .detect cs => E.leaf (.detect cs)
  | .tuples ts ds => E.leaf (.tuples ts ds)
  | .frame df => E.leaf (.frame df)
  | .cross m fs => fineL E fs ∧ (m = true → ∀ f ∈ fs, isTuples f = true)
  | .join l r => l.Fine E ∧ r.Fine E
  | .project c _ => c.Sat E ∧ c.Fine E
  | .filter c _ => c.Fine E
  | .subtract l r => l.Fine E ∧ r.Fine E ∧ (r.columns = [] → E.zeroSub)
  | .union l r => l.Fine E ∧ r.Fine E
/-- Every factor is such a tree. -/
def fineL (E : Env) : List Op → Prop
  | [] => True
  | f :: fs => f.Fine E ∧ fineL E fs
end

/-- Two trees describe the same keys: same columns, same assignments. -/
def Equiv (E : Env) (a b : Op) : Prop :=
  (∀ c, c ∈ a.columns ↔ c ∈ b.columns) ∧ ∀ ρ, a.Matches E ρ ↔ b.Matches E ρ

/-- A tree that can exist and is treated. -/
def Good (E : Env) (op : Op) : Prop := op.WF ∧ op.Fine E

/-! ## Induction -/

/-- Structural induction on trees, with the hypothesis for every factor of a cross-join. -/
theorem Op.ind {P : Op → Prop} (hd : ∀ cs, P (.detect cs)) (ht : ∀ ts ds, P (.tuples ts ds))
    (hf : ∀ df, P (.frame df)) (hc : ∀ m fs, (∀ f ∈ fs, P f) → P (.cross m fs))
    (hj : ∀ l r, P l → P r → P (.join l r)) (hp : ∀ c cs, P c → P (.project c cs))
    (hfi : ∀ c k, P c → P (.filter c k)) (hs : ∀ l r, P l → P r → P (.subtract l r))
    (hu : ∀ l r, P l → P r → P (.union l r)) (op : Op) : P op :=
  Op.rec (motive_1 := P) (motive_2 := fun fs => ∀ f ∈ fs, P f) hd ht hf hc hj hp hfi hs hu
    (by simp) (by intro f fs h1 h2; simpa using ⟨h1, h2⟩) op

/-! ## List forms -/

theorem mem_columnsL {fs : List Op} {c : String} : c ∈ columnsL fs ↔ ∃ f ∈ fs, c ∈ f.columns := by
  induction fs with
  | nil => simp [columnsL]
  | cons f fs ih => simp [columnsL, ih]

theorem columnsL_eq (fs : List Op) : columnsL fs = fs.flatMap Op.columns := by
  induction fs with
  | nil => rfl
  | cons f fs ih => simp [columnsL, ih]

theorem matchesL_iff {E : Env} {fs : List Op} {ρ : Assign} : matchesL E fs ρ ↔ ∀ f ∈ fs, f.Matches E ρ := by
  induction fs with
  | nil => simp [matchesL]
  | cons f fs ih => simp [matchesL, ih]

theorem wfL_iff {fs : List Op} : wfL fs ↔ ∀ f ∈ fs, f.WF := by
  induction fs with
  | nil => simp [wfL]
  | cons f fs ih => simp [wfL, ih]

theorem fineL_iff {E : Env} {fs : List Op} : fineL E fs ↔ ∀ f ∈ fs, f.Fine E := by
  induction fs with
  | nil => simp [fineL]
  | cons f fs ih => simp [fineL, ih]

theorem isPlanL_iff {fs : List Op} : isPlanL fs = true ↔ ∃ f ∈ fs, f.isPlan = true := by
  induction fs with
  | nil => simp [isPlanL]
  | cons f fs ih => simp [isPlanL, ih]

/-! ## Sets of columns -/

theorem setEq_iff {a b : List String} : setEq a b = true ↔ ∀ c, c ∈ a ↔ c ∈ b := by
  simp only [setEq, Bool.and_eq_true, List.all_eq_true, decide_eq_true_eq]
  constructor
  · rintro ⟨h1, h2⟩ c; exact ⟨h1 c, h2 c⟩
  · intro h; exact ⟨fun c hc => (h c).1 hc, fun c hc => (h c).2 hc⟩

theorem mem_inter {a b : List String} {c : String} : c ∈ inter a b ↔ c ∈ a ∧ c ∈ b := by
  simp [inter]

theorem inter_isEmpty {a b : List String} : (inter a b).isEmpty = true ↔ ∀ c ∈ a, c ∉ b := by
  rw [List.isEmpty_iff, List.eq_nil_iff_forall_not_mem]
  simp only [mem_inter, not_and]

theorem mem_join_columns {l r : Op} {c : String} : c ∈ (Op.join l r).columns ↔ c ∈ l.columns ∨ c ∈ r.columns := by
  simp only [Op.columns, List.mem_append, List.mem_filter, decide_eq_true_eq]
  by_cases h : c ∈ l.columns <;> simp [h]

/-! ## Validation -/

theorem build_ok {op o : Op} (h : build op = .ok o) : o = op ∧ check op = .ok () := by
  unfold build at h
  cases hc : check op with
  | error e => rw [hc] at h; simp at h
  | ok u => rw [hc] at h; simp at h; exact ⟨h.symm, rfl⟩

theorem build_of_check {op : Op} (h : check op = .ok ()) : build op = .ok op := by
  unfold build; rw [h]

theorem check_cross {m : Bool} {fs : List Op} (h : check (.cross m fs) = .ok ()) :
    fs ≠ [] ∧ (columnsL fs).Nodup ∧ (m = true → ∀ f ∈ fs, memFactor f = true) := by
  dsimp only [check] at h
  split at h
  · cases h
  split at h
  · cases h
  split at h
  · cases h
  rename_i h1 h2 h3
  refine ⟨by simpa [List.isEmpty_iff] using h1, by simpa using h2, ?_⟩
  intro hm
  subst hm
  simpa using h3

theorem check_cross_intro {m : Bool} {fs : List Op} (h1 : fs ≠ []) (h2 : (columnsL fs).Nodup)
    (h3 : m = true → ∀ f ∈ fs, memFactor f = true) : check (.cross m fs) = .ok () := by
  dsimp only [check]
  rw [if_neg (by simpa [List.isEmpty_iff] using h1), if_neg (by simpa using h2), if_neg]
  cases m with
  | false => simp
  | true => simpa using h3 rfl

theorem check_join {l r : Op} (h : check (.join l r) = .ok ()) : ∃ c, c ∈ l.columns ∧ c ∈ r.columns := by
  dsimp only [check] at h
  split at h
  · cases h
  rename_i h1
  by_contra hn
  push Not at hn
  exact h1 (inter_isEmpty.2 hn)

theorem check_project {c : Op} {cs : List String} (h : check (.project c cs) = .ok ()) :
    cs ≠ [] ∧ ∀ x ∈ cs, x ∈ c.columns := by
  dsimp only [check] at h
  split at h
  · cases h
  split at h
  · cases h
  split at h
  · rename_i h1 h2 h3
    exact ⟨by simpa [List.isEmpty_iff] using h2, by simpa using h3⟩
  · cases h

theorem check_subtract {l r : Op} (h : check (.subtract l r) = .ok ()) :
    r.isPlan = false ∧ ∀ x ∈ r.columns, x ∈ l.columns := by
  dsimp only [check] at h
  split at h
  · cases h
  split at h
  · rename_i h1 h2
    exact ⟨by simpa using h1, by simpa using h2⟩
  · cases h

theorem check_union {l r : Op} (h : check (.union l r) = .ok ()) : ∀ x, x ∈ l.columns ↔ x ∈ r.columns := by
  dsimp only [check] at h
  split at h
  · cases h
  rename_i h1
  exact setEq_iff.1 (by simpa using h1)

theorem check_tuples {ts : List (List Value)} {ds : List (String × Desc)} (h : check (.tuples ts ds) = .ok ()) :
    validSchema ds = true ∧ (ds = [] → ts = []) := by
  dsimp only [check] at h
  split at h
  · cases h
  split at h
  · cases h
  rename_i h1 h2
  refine ⟨by simpa using h1, ?_⟩
  rintro rfl
  simpa using h2

theorem check_frame {df : Frame} (h : check (.frame df) = .ok ()) :
    ∃ d, sparkSchemaToAnalytics df.fields = .ok d ∧ validSchema d = true ∧ (df.fields = [] → df.rows = []) := by
  dsimp only [check] at h
  split at h
  · cases h
  rename_i d hd
  split at h
  · cases h
  split at h
  · cases h
  rename_i h1 h2
  refine ⟨d, hd, by simpa using h1, ?_⟩
  intro h3
  rw [h3] at h2
  simpa using h2

/-! ## Columns of well-formed trees -/

theorem columns_nodup {op : Op} (w : op.WF) : op.columns.Nodup := by
  induction op using Op.ind with
  | hd cs => exact w.2
  | ht ts ds => exact w.2.2.1
  | hf df => exact w.2.1
  | hc m fs ih => exact (check_cross w.1).2.1
  | hj l r hl hr =>
    obtain ⟨_, wl, wr⟩ := w
    dsimp only [Op.columns]
    refine List.Nodup.append (hl wl) ((hr wr).filter _) ?_
    intro c hc hc'
    simp at hc'
    exact hc'.2 hc
  | hp c cs ih => exact w.2.1
  | hfi c k ih => exact ih w.2
  | hs l r hl hr => exact hl w.2.1
  | hu l r hl hr => exact hl w.2.1

/-- The keys of a tree constrain its columns only. -/
theorem matches_congr {E : Env} {op : Op} (w : op.WF) {ρ ρ' : Assign} (h : ∀ c ∈ op.columns, ρ c = ρ' c) :
    op.Matches E ρ ↔ op.Matches E ρ' := by
  induction op using Op.ind generalizing ρ ρ' with
  | hd cs => exact E.det_congr cs cs ρ ρ' (fun _ => Iff.rfl) h
  | ht ts ds =>
    dsimp only [Op.Matches]
    have : (ds.map Prod.fst).map ρ = (ds.map Prod.fst).map ρ' := List.map_congr_left h
    rw [this]
  | hf df =>
    dsimp only [Op.Matches]
    have : (df.fields.map Field.name).map ρ = (df.fields.map Field.name).map ρ' := List.map_congr_left h
    rw [this]
  | hc m fs ih =>
    dsimp only [Op.Matches]
    rw [matchesL_iff, matchesL_iff]
    have hw := wfL_iff.1 w.2
    refine forall₂_congr (fun f hf => ih f hf (hw f hf) ?_)
    intro c hc
    exact h c (mem_columnsL.2 ⟨f, hf, hc⟩)
  | hj l r hl hr =>
    dsimp only [Op.Matches]
    rw [hl w.2.1 (fun c hc => h c (mem_join_columns.2 (.inl hc))),
      hr w.2.2 (fun c hc => h c (mem_join_columns.2 (.inr hc)))]
  | hp c cs ih =>
    dsimp only [Op.Matches]
    refine exists_congr (fun σ => and_congr_left (fun _ => ?_))
    refine forall₂_congr (fun x hx => ?_)
    rw [h x hx]
  | hfi c k ih =>
    dsimp only [Op.Matches]
    have hr : restrict c.columns ρ = restrict c.columns ρ' := by
      funext x
      unfold restrict
      by_cases hx : x ∈ c.columns
      · simp [hx, h x hx]
      · simp [hx]
    rw [ih w.2 h, hr]
  | hs l r hl hr =>
    dsimp only [Op.Matches]
    rw [hl w.2.1 h, hr w.2.2 (fun c hc => h c ((check_subtract w.1).2 c hc))]
  | hu l r hl hr =>
    dsimp only [Op.Matches]
    rw [hl w.2.1 h, hr w.2.2 (fun c hc => h c ((check_union w.1 c).2 hc))]

/-- Every assignment is a key of a tree without columns. -/
theorem matches_of_no_columns {E : Env} {op : Op} (w : op.WF) (h : op.columns = []) (ρ : Assign) : op.Matches E ρ := by
  induction op using Op.ind with
  | hd cs =>
    have hw := w.1
    dsimp only [Op.columns] at h
    subst h
    simp [check] at hw
  | ht ts ds => left; simpa [Op.columns] using h
  | hf df => left; simpa [Op.columns] using h
  | hc m fs ih =>
    dsimp only [Op.Matches]
    rw [matchesL_iff]
    intro f hf
    refine ih f hf (wfL_iff.1 w.2 f hf) ?_
    rw [List.eq_nil_iff_forall_not_mem] at h ⊢
    intro c hc
    exact h c (mem_columnsL.2 ⟨f, hf, hc⟩)
  | hj l r hl hr =>
    obtain ⟨c, hc, _⟩ := check_join w.1
    have : c ∈ (Op.join l r).columns := mem_join_columns.2 (.inl hc)
    rw [h] at this
    cases this
  | hp c cs ih => exact absurd h (check_project w.1).1
  | hfi c k ih => exact ⟨ih w.2 h, .inl h⟩
  | hs l r hl hr =>
    refine ⟨hl w.2.1 h, .inl ?_⟩
    dsimp only [Op.columns] at h
    rw [List.eq_nil_iff_forall_not_mem]
    intro c hc
    have := (check_subtract w.1).2 c hc
    rw [h] at this
    cases this
  | hu l r hl hr => exact .inl (hl w.2.1 h)

end Verif.KeySet
