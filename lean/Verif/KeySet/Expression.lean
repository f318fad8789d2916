import Verif.KeySet.PropsSize

/-!
# C66: what an expression of KeySets means

Expressions made of the constructors and operators of `KeySet`, with what they mean according to the documentation
(`_keyset.py` l. 92-438), and what the class makes of them.
-/

namespace Verif.KeySet

open Verif Verif.Schema

/-- A Python expression for a KeySet. -/
inductive KExpr where
  /-- `KeySet.from_tuples(ts, columns=cols)` -/
  | tuples (ts : List (List Value)) (cols : List String)
  /-- `KeySet.from_dict(ds)` -/
  | dict (ds : List (String × List Value))
  /-- `KeySet.from_dataframe(df)` -/
  | frame (df : Frame)
  /-- `a * b` -/
  | mul (a b : KExpr)
  /-- `a - b` -/
  | sub (a b : KExpr)
  /-- `a[cs]` -/
  | getitem (a : KExpr) (cs : List String)
  /-- `a.join(b)` -/
  | join (a b : KExpr)
  /-- `a.filter(c)` -/
  | filter (a : KExpr) (c : Cond)
  /-- `a.union(b)` -/
  | union (a b : KExpr)

/-- The value of the expression: the methods of the class one after the other (`_keyset.py` l. 76-442). -/
def KExpr.eval (hsh : Op → Except KErr ℤ) : KExpr → Except KErr KS
  | .tuples ts cols => KS.fromTuples hsh ts cols
  | .dict ds => KS.fromDict hsh ds
  | .frame df => KS.fromDataframe hsh df
  | .mul a b => do
    let x ← a.eval hsh
    let y ← b.eval hsh
    KS.mul hsh x y
  | .sub a b => do
    let x ← a.eval hsh
    let y ← b.eval hsh
    KS.sub hsh x y
  | .getitem a cs => do
    let x ← a.eval hsh
    KS.getitem hsh x cs
  | .join a b => do
    let x ← a.eval hsh
    let y ← b.eval hsh
    KS.join hsh x y
  | .filter a c => do
    let x ← a.eval hsh
    KS.filter hsh x c
  | .union a b => do
    let x ← a.eval hsh
    let y ← b.eval hsh
    KS.union hsh x y

/-! ## Specification -/

/-- The columns that the documentation says the KeySet has. -/
def KExpr.columns : KExpr → List String
  | .tuples _ cols => cols
  | .dict ds => ds.map Prod.fst
  | .frame df => df.fields.map Field.name
  | .mul a b => a.columns ++ b.columns
  | .sub a _ => a.columns
  | .getitem _ cs => cs
  | .join a b => a.columns ++ b.columns.filter (fun c => decide (c ∉ a.columns))
  | .filter a _ => a.columns
  | .union a _ => a.columns

/-- Is the assignment one of the keys that the documentation says the KeySet has? `ev` says which rows Spark keeps under
a condition. -/
def KExpr.Den (ev : Cond → (String → Option Value) → Bool) : KExpr → Assign → Prop
  | .tuples ts cols, ρ => cols = [] ∨ cols.map ρ ∈ ts
  | .dict ds, ρ => ∀ d ∈ ds, ρ d.1 ∈ d.2
  | .frame df, ρ => df.fields = [] ∨ (df.fields.map Field.name).map ρ ∈ df.rows
  | .mul a b, ρ => a.Den ev ρ ∧ b.Den ev ρ
  | .sub a b, ρ => a.Den ev ρ ∧ ¬ b.Den ev ρ
  | .getitem a cs, ρ => ∃ ρ' : Assign, (∀ c ∈ cs, ρ' c = ρ c) ∧ a.Den ev ρ'
  | .join a b, ρ => a.Den ev ρ ∧ b.Den ev ρ
  | .filter a c, ρ => a.Den ev ρ ∧ ev c (restrict a.columns ρ) = true
  | .union a b, ρ => a.Den ev ρ ∨ b.Den ev ρ

/-- The expressions that are treated: nothing empty is projected (`C23_getitem_empty_fails`), KeySets without columns are
not subtracted or filtered, and Spark data frames are as their schema says. -/
def KExpr.Treated (ev : Cond → (String → Option Value) → Bool) : KExpr → Prop
  | .tuples _ _ => True
  | .dict _ => True
  | .frame df => Leaf (.frame df) ∧ ∀ r ∈ df.rows, r.length = df.fields.length
  | .mul a b => a.Treated ev ∧ b.Treated ev
  | .sub a b => a.Treated ev ∧ b.Treated ev ∧ b.columns ≠ []
  | .getitem a _ => a.Treated ev ∧ ∃ ρ, a.Den ev ρ
  | .join a b => a.Treated ev ∧ b.Treated ev
  | .filter a _ => a.Treated ev ∧ a.columns ≠ []
  | .union a b => a.Treated ev ∧ b.Treated ev

/-! ## Proof -/

/-- The world in which Spark keeps rows as given, and there are no plans. -/
def world (ev : Cond → (String → Option Value) → Bool) : Env := ⟨ev, fun _ _ => False, by simp, Leaf, False⟩

theorem world_real (ev : Cond → (String → Option Value) → Bool) : Real (world ev) := ⟨rfl, id⟩

/-- The KeySet has the documented columns and keys. -/
theorem KExpr.eval_good (ev : Cond → (String → Option Value) → Bool) {hsh : Op → Except KErr ℤ} (e : KExpr) {k : KS}
    (h : e.eval hsh = .ok k) (t : e.Treated ev) :
    k.Good (world ev) ∧ k.cols = e.columns ∧ ∀ ρ, k.op.Matches (world ev) ρ ↔ e.Den ev ρ := by
  induction e generalizing k with
  | tuples ts cols =>
    obtain ⟨g, hc, _, hm⟩ := fromTuples_good (E := world ev) rfl h
    exact ⟨g, hc, hm⟩
  | dict ds => exact fromDict_good (E := world ev) rfl h
  | frame df => exact fromDataframe_good (E := world ev) rfl t.1 t.2 h
  | mul a b iha ihb =>
    obtain ⟨x, hx, h⟩ := bind_ok h
    obtain ⟨y, hy, h⟩ := bind_ok h
    obtain ⟨ga, ca, ma⟩ := iha hx t.1
    obtain ⟨gb, cb, mb⟩ := ihb hy t.2
    obtain ⟨g, c, m⟩ := mul_good ga gb h
    exact ⟨g, by rw [c, ca, cb]; rfl, fun ρ => by rw [m, ma, mb]; rfl⟩
  | sub a b iha ihb =>
    obtain ⟨x, hx, h⟩ := bind_ok h
    obtain ⟨y, hy, h⟩ := bind_ok h
    obtain ⟨ga, ca, ma⟩ := iha hx t.1
    obtain ⟨gb, cb, mb⟩ := ihb hy t.2.1
    obtain ⟨g, c, m⟩ := sub_good ga gb (cb ▸ t.2.2) h
    exact ⟨g, by rw [c, ca]; rfl, fun ρ => by rw [m, ma, mb]; rfl⟩
  | getitem a cs iha =>
    obtain ⟨x, hx, h⟩ := bind_ok h
    obtain ⟨ga, ca, ma⟩ := iha hx t.1
    obtain ⟨ρ₀, h₀⟩ := t.2
    obtain ⟨g, c, m⟩ := getitem_good ga ⟨ρ₀, (ma ρ₀).2 h₀⟩ h
    exact ⟨g, c, fun ρ => (m ρ).trans (exists_congr fun ρ' => by rw [ma])⟩
  | join a b iha ihb =>
    obtain ⟨x, hx, h⟩ := bind_ok h
    obtain ⟨y, hy, h⟩ := bind_ok h
    obtain ⟨ga, ca, ma⟩ := iha hx t.1
    obtain ⟨gb, cb, mb⟩ := ihb hy t.2
    obtain ⟨g, c, m⟩ := join_good ga gb h
    exact ⟨g, by rw [c, ca, cb]; rfl, fun ρ => by rw [m, ma, mb]; rfl⟩
  | filter a c iha =>
    obtain ⟨x, hx, h⟩ := bind_ok h
    obtain ⟨ga, ca, ma⟩ := iha hx t.1
    obtain ⟨g, hc, m⟩ := filter_good ga h
    refine ⟨g, by rw [hc, ca]; rfl, fun ρ => ?_⟩
    rw [m, ma, ca]
    simp only [t.2, false_or]
    rfl
  | union a b iha ihb =>
    obtain ⟨x, hx, h⟩ := bind_ok h
    obtain ⟨y, hy, h⟩ := bind_ok h
    obtain ⟨ga, ca, ma⟩ := iha hx t.1
    obtain ⟨gb, cb, mb⟩ := ihb hy t.2
    obtain ⟨g, c, _, m⟩ := union_good ga gb h
    exact ⟨g, by rw [c, ca]; rfl, fun ρ => by rw [m, ma, mb]; rfl⟩

theorem mem_dset {K V : Type} [DecidableEq K] {d : Dict K V} {k : K} {v : V} {p : K × V} (h : p ∈ Dict.set d k v) :
    p ∈ d ∨ p = (k, v) := by
  unfold Dict.set at h
  split at h
  · obtain ⟨q, hq, rfl⟩ := List.mem_map.1 h
    split
    · next hk => right; rw [hk]
    · exact .inl hq
  · simpa using h

theorem mem_dunion {K V : Type} [DecidableEq K] {a b : Dict K V} {p : K × V} (h : p ∈ Dict.union a b) : p ∈ a ∨ p ∈ b := by
  unfold Dict.union at h
  induction b generalizing a with
  | nil => exact .inl h
  | cons q b ih =>
    rcases ih h with h | h
    · rcases mem_dset h with h | h
      · exact .inl h
      · exact .inr (by rw [h]; simp)
    · exact .inr (by simp [h])

theorem validSchema_types {d : Dict String Desc} (h : validSchema d = true) : ∀ p ∈ d, p.2.ty ∈ keysetTypes := by
  simp only [validSchema, Bool.and_eq_true, List.all_eq_true, decide_eq_true_eq] at h
  exact h.2

/-- KeySets have columns of strings, integers and dates only. -/
theorem schema_types {op : Op} (w : op.WF) {s : Dict String Desc} (h : op.schema = .ok s) : ∀ p ∈ s, p.2.ty ∈ keysetTypes := by
  induction op using Op.ind generalizing s with
  | hd cs => cases h
  | ht ts ds => cases h; exact validSchema_types (check_tuples w.1).1
  | hf df =>
    obtain ⟨d, hd, hv, _⟩ := check_frame w.1
    dsimp only [Op.schema] at h
    rw [hd] at h
    cases h
    exact validSchema_types hv
  | hc m fs ih =>
    have hw := wfL_iff.1 w.2
    have : ∀ gs : List Op, (∀ f ∈ gs, f ∈ fs) → ∀ t, schemaL gs = .ok t → ∀ p ∈ t, p.2.ty ∈ keysetTypes := by
      intro gs
      induction gs with
      | nil =>
        intro _ t ht p hp
        cases ht
        cases hp
      | cons f gs ih2 =>
        intro hsub t ht p hp
        dsimp only [schemaL] at ht
        split at ht
        · next a b ha hb =>
          cases ht
          have hfm := hsub f (by simp)
          rcases mem_dunion hp with hp | hp
          · exact ih f hfm (hw f hfm) ha p hp
          · exact ih2 (fun x hx => hsub x (by simp [hx])) b hb p hp
        · cases ht
        · cases ht
    exact this fs (fun _ h => h) s h
  | hj l r hl hr =>
    dsimp only [Op.schema] at h
    split at h
    · next a b ha hb =>
      cases h
      intro p hp
      rcases mem_dunion hp with hp | hp
      · exact hl w.2.1 ha p hp
      · obtain ⟨q, hq, rfl⟩ := List.mem_map.1 hp
        show (joinDesc a q).ty ∈ keysetTypes
        unfold joinDesc
        split
        · next d hd => exact hl w.2.1 ha _ (Dict.mem_of_get hd)
        · exact hr w.2.2 hb q hq
    · cases h
    · cases h
  | hp c cs ih =>
    dsimp only [Op.schema] at h
    split at h
    · next a ha =>
      cases h
      intro p hp
      obtain ⟨x, _, hx⟩ := List.mem_filterMap.1 hp
      obtain ⟨d, hd, rfl⟩ := Option.map_eq_some_iff.1 hx
      exact ih w.2.2 ha _ (Dict.mem_of_get hd)
    · cases h
  | hfi c k ih => exact ih w.2 h
  | hs l r hl hr => exact hl w.2.1 h
  | hu l r hl hr =>
    dsimp only [Op.schema] at h
    split at h
    · next a b ha hb =>
      cases h
      intro p hp
      obtain ⟨q, hq, rfl⟩ := List.mem_map.1 hp
      show (unionDesc b q).ty ∈ keysetTypes
      unfold unionDesc
      split
      · exact hl w.2.1 ha q hq
      · exact hl w.2.1 ha q hq
    · cases h
    · cases h

end Verif.KeySet
