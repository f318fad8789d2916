import Verif.KeySet.Expression

/-!
# C69: plans of keys

Expressions that also ask for keys to be detected (`KeySet._detect`, `KeySetPlan`): what they mean once keys have been
detected, and what the classes make of them.
-/

namespace Verif.KeySet

open Verif Verif.Schema

/-- A Python expression for a KeySet or a plan. -/
inductive PExpr where
  /-- an expression without detected keys -/
  | keyset (e : KExpr)
  /-- `KeySet._detect(cols)` -/
  | detect (cols : List String)
  /-- `a * b` -/
  | mul (a b : PExpr)
  /-- `a - b` -/
  | sub (a b : PExpr)
  /-- `a[cs]` -/
  | getitem (a : PExpr) (cs : List String)
  /-- `a.join(b)` -/
  | join (a b : PExpr)
  /-- `a.filter(c)` -/
  | filter (a : PExpr) (c : Cond)
  /-- `a.union(b)` -/
  | union (a b : PExpr)

/-- The tree and the columns, of a KeySet or a plan. -/
def PlanOrKS.ks : PlanOrKS → KS
  | .plan k => k
  | .keyset k => k

/-- Wrap a KeySet. -/
def asK (x : Except KErr KS) : Except KErr PlanOrKS := do
  let k ← x
  pure (.keyset k)

/-- Wrap a plan. -/
def asP (x : Except KErr KS) : Except KErr PlanOrKS := do
  let k ← x
  pure (.plan k)

/-- `KeySet.__mul__` (`_keyset.py` l. 212-244) and `KeySetPlan.__mul__` (l. 663-681). -/
def PlanOrKS.mul (hsh : Op → Except KErr ℤ) : PlanOrKS → PlanOrKS → Except KErr PlanOrKS
  | .keyset a, .keyset b => asK (KS.mul hsh a b)
  | a, b => asP (KS.planMul hsh a.ks b.ks)

/-- `KeySet.__sub__` (l. 246-263) and `KeySetPlan.__sub__` (l. 683-699). -/
def PlanOrKS.sub (hsh : Op → Except KErr ℤ) : PlanOrKS → PlanOrKS → Except KErr PlanOrKS
  | .keyset a, b => asK (KS.sub hsh a b.ks)
  | .plan a, b => asP (KS.planSub hsh a b.ks)

/-- `KeySet.__getitem__` (l. 265-313) and `KeySetPlan.__getitem__` (l. 701-735). -/
def PlanOrKS.getitem (hsh : Op → Except KErr ℤ) (cs : List String) : PlanOrKS → Except KErr PlanOrKS
  | .keyset a => asK (KS.getitem hsh a cs)
  | .plan a => KS.planGetitem hsh a cs

/-- `KeySet.join` (l. 321-353) and `KeySetPlan.join` (l. 737-759). -/
def PlanOrKS.join (hsh : Op → Except KErr ℤ) : PlanOrKS → PlanOrKS → Except KErr PlanOrKS
  | .keyset a, .keyset b => asK (KS.join hsh a b)
  | a, b => asP (KS.planJoin hsh a.ks b.ks)

/-- `KeySet.filter` (l. 355-397) and `KeySetPlan.filter` (l. 761-782). -/
def PlanOrKS.filter (hsh : Op → Except KErr ℤ) (c : Cond) : PlanOrKS → Except KErr PlanOrKS
  | .keyset a => asK (KS.filter hsh a c)
  | .plan a => asP (KS.planFilter hsh a c)

/-- `KeySet.union` (l. 405-438) and `KeySetPlan.union` (l. 784-807). -/
def PlanOrKS.union (hsh : Op → Except KErr ℤ) : PlanOrKS → PlanOrKS → Except KErr PlanOrKS
  | .keyset a, .keyset b => asK (KS.union hsh a b)
  | a, b => asP (KS.planUnion hsh a.ks b.ks)

/-- The value of the expression: the methods of the classes one after the other. -/
def PExpr.eval (hsh : Op → Except KErr ℤ) : PExpr → Except KErr PlanOrKS
  | .keyset e => asK (e.eval hsh)
  | .detect cs => asP (KS.detect hsh cs)
  | .mul a b => do
    let x ← a.eval hsh
    let y ← b.eval hsh
    PlanOrKS.mul hsh x y
  | .sub a b => do
    let x ← a.eval hsh
    let y ← b.eval hsh
    PlanOrKS.sub hsh x y
  | .getitem a cs => do
    let x ← a.eval hsh
    PlanOrKS.getitem hsh cs x
  | .join a b => do
    let x ← a.eval hsh
    let y ← b.eval hsh
    PlanOrKS.join hsh x y
  | .filter a c => do
    let x ← a.eval hsh
    PlanOrKS.filter hsh c x
  | .union a b => do
    let x ← a.eval hsh
    let y ← b.eval hsh
    PlanOrKS.union hsh x y

/-! ## Specification -/

/-- What will be detected: for a list of columns, which assignments are keys. It does not matter in which order the
columns are listed, or what is assigned to other columns. -/
structure Detected where
  key : List String → Assign → Prop
  congr : ∀ cs cs' ρ ρ', (∀ c, c ∈ cs ↔ c ∈ cs') → (∀ c ∈ cs, ρ c = ρ' c) → (key cs ρ ↔ key cs' ρ')

/-- The columns that the documentation says the KeySet or plan has. -/
def PExpr.columns : PExpr → List String
  | .keyset e => e.columns
  | .detect cs => cs
  | .mul a b => a.columns ++ b.columns
  | .sub a _ => a.columns
  | .getitem _ cs => cs
  | .join a b => a.columns ++ b.columns.filter (fun c => decide (c ∉ a.columns))
  | .filter a _ => a.columns
  | .union a _ => a.columns

/-- Is the assignment one of the keys that the documentation says there are, once keys have been detected? -/
def PExpr.Den (ev : Cond → (String → Option Value) → Bool) (D : Detected) : PExpr → Assign → Prop
  | .keyset e, ρ => e.Den ev ρ
  | .detect cs, ρ => D.key cs ρ
  | .mul a b, ρ => a.Den ev D ρ ∧ b.Den ev D ρ
  | .sub a b, ρ => a.Den ev D ρ ∧ ¬ b.Den ev D ρ
  | .getitem a cs, ρ => ∃ ρ' : Assign, (∀ c ∈ cs, ρ' c = ρ c) ∧ a.Den ev D ρ'
  | .join a b, ρ => a.Den ev D ρ ∧ b.Den ev D ρ
  | .filter a c, ρ => a.Den ev D ρ ∧ ev c (restrict a.columns ρ) = true
  | .union a b, ρ => a.Den ev D ρ ∨ b.Den ev D ρ

/-- The expressions that are treated: as for `KExpr.Treated`, and no column is asked for twice
(`C69_repeated_columns`). -/
def PExpr.Treated (ev : Cond → (String → Option Value) → Bool) (D : Detected) : PExpr → Prop
  | .keyset e => e.Treated ev
  | .detect cs => cs.Nodup
  | .mul a b => a.Treated ev D ∧ b.Treated ev D
  | .sub a b => a.Treated ev D ∧ b.Treated ev D ∧ b.columns ≠ []
  | .getitem a _ => a.Treated ev D ∧ ∃ ρ, a.Den ev D ρ
  | .join a b => a.Treated ev D ∧ b.Treated ev D
  | .filter a _ => a.Treated ev D ∧ a.columns ≠ []
  | .union a b => a.Treated ev D ∧ b.Treated ev D

/-! ## Proof -/

/-- Is this a request for detected keys? -/
def isDetect : Op → Prop
  | .detect _ => True
  | _ => False

/-- The world in which these keys will be detected. -/
def planWorld (ev : Cond → (String → Option Value) → Bool) (D : Detected) : Env :=
  ⟨ev, D.key, D.congr, fun o => Leaf o ∨ isDetect o, False⟩

theorem matches_noPlan {E E' : Env} (he : E.ev = E'.ev) {op : Op} (w : op.WF) (h : op.isPlan = false) (ρ : Assign) :
    op.Matches E ρ ↔ op.Matches E' ρ := by
  induction op using Op.ind generalizing ρ with
  | hd cs => cases h
  | ht ts ds => exact Iff.rfl
  | hf df => exact Iff.rfl
  | hc m fs ih =>
    have hw := wfL_iff.1 w.2
    have hp : ∀ f ∈ fs, f.isPlan = false := by
      intro f hf
      rw [← Bool.not_eq_true]
      intro hh
      have : isPlanL fs = true := isPlanL_iff.2 ⟨f, hf, hh⟩
      rw [show isPlanL fs = false from h] at this
      cases this
    have : ∀ gs : List Op, (∀ f ∈ gs, f ∈ fs) → (matchesL E gs ρ ↔ matchesL E' gs ρ) := by
      intro gs
      induction gs with
      | nil => exact fun _ => Iff.rfl
      | cons f gs ih2 =>
        intro hsub
        have hfm := hsub f (by simp)
        exact and_congr (ih f hfm (hw f hfm) (hp f hfm) ρ) (ih2 (fun x hx => hsub x (by simp [hx])))
    exact this fs (fun _ h => h)
  | hj l r hl hr =>
    dsimp only [Op.isPlan] at h
    rw [Bool.or_eq_false_iff] at h
    exact and_congr (hl w.2.1 h.1 ρ) (hr w.2.2 h.2 ρ)
  | hp c cs ih => exact exists_congr fun ρ' => and_congr_right fun _ => ih w.2.2 h ρ'
  | hfi c k ih =>
    dsimp only [Op.Matches]
    rw [he]
    exact and_congr_left fun _ => ih w.2 h ρ
  | hs l r hl hr =>
    have hrp : r.isPlan = false := by
      have := w.1
      dsimp only [check] at this
      split at this
      · cases this
      · next h => simpa using h
    exact and_congr (hl w.2.1 h ρ) (or_congr Iff.rfl (not_congr (hr w.2.2 hrp ρ)))
  | hu l r hl hr =>
    dsimp only [Op.isPlan] at h
    rw [Bool.or_eq_false_iff] at h
    exact or_congr (hl w.2.1 h.1 ρ) (hr w.2.2 h.2 ρ)

theorem fine_noPlan_move {E E' : Env} (he : E.ev = E'.ev) (hl : ∀ o, ¬ isDetect o → E.leaf o → E'.leaf o)
    (hz : E.zeroSub → E'.zeroSub) {op : Op} (w : op.WF) (h : op.isPlan = false) (g : op.Fine E) : op.Fine E' := by
  induction op using Op.ind with
  | hd cs => cases h
  | ht ts ds => exact hl _ id g
  | hf df => exact hl _ id g
  | hc m fs ih =>
    have hw := wfL_iff.1 w.2
    have hg := fineL_iff.1 g.1
    refine ⟨fineL_iff.2 fun f hf => ih f hf (hw f hf) ?_ (hg f hf), g.2⟩
    rw [← Bool.not_eq_true]
    intro hh
    have : isPlanL fs = true := isPlanL_iff.2 ⟨f, hf, hh⟩
    rw [show isPlanL fs = false from h] at this
    cases this
  | hj l r hl' hr =>
    dsimp only [Op.isPlan] at h
    rw [Bool.or_eq_false_iff] at h
    exact ⟨hl' w.2.1 h.1 g.1, hr w.2.2 h.2 g.2⟩
  | hp c cs ih =>
    obtain ⟨ρ, hρ⟩ := g.1
    exact ⟨⟨ρ, (matches_noPlan he w.2.2 h ρ).1 hρ⟩, ih w.2.2 h g.2⟩
  | hfi c k ih => exact ih w.2 h g
  | hs l r hl' hr =>
    have hrp : r.isPlan = false := by
      have := w.1
      dsimp only [check] at this
      split at this
      · cases this
      · next h => simpa using h
    exact ⟨hl' w.2.1 h g.1, hr w.2.2 hrp g.2.1, fun hh => hz (g.2.2 hh)⟩
  | hu l r hl' hr =>
    dsimp only [Op.isPlan] at h
    rw [Bool.or_eq_false_iff] at h
    exact ⟨hl' w.2.1 h.1 g.1, hr w.2.2 h.2 g.2⟩

theorem initPlan_ok {hsh : Op → Except KErr ℤ} {op : Op} {cols : List String} {k : KS}
    (h : KS.initPlan hsh op cols = .ok k) :
    op.isPlan = true ∧ (∀ c, c ∈ op.columns ↔ c ∈ cols) ∧ rewrite hsh op = .ok k.op ∧ k.cols = cols ∧
      k.op.isPlan = true := by
  unfold KS.initPlan at h
  split at h
  · cases h
  split at h
  · cases h
  rename_i h1 h2
  obtain ⟨o, ho, h⟩ := bind_ok h
  split at h
  · next h3 =>
    cases pure_ok h
    exact ⟨by simpa using h1, setEq_iff.1 (by simpa using h2), ho, rfl, h3⟩
  · cases h

/-- The constructor of plans keeps the keys of the tree it is given. -/
theorem initPlan_good {E : Env} {hsh : Op → Except KErr ℤ} {op : Op} {cols : List String} {k : KS}
    (h : KS.initPlan hsh op cols = .ok k) (g : Good E op) (hn : cols.Nodup) :
    k.Good E ∧ k.cols = cols ∧ ∀ ρ, k.op.Matches E ρ ↔ op.Matches E ρ := by
  obtain ⟨_, h3, h4, h5, _⟩ := initPlan_ok h
  obtain ⟨g', e⟩ := rewrite_pres E hsh op k.op g h4
  refine ⟨⟨g', h5 ▸ hn, fun c => ?_⟩, h5, fun ρ => (e.2 ρ).symm⟩
  rw [h5, ← h3, e.1]

theorem planMul_good {E : Env} {hsh : Op → Except KErr ℤ} {a b k : KS} (ga : a.Good E) (gb : b.Good E)
    (h : KS.planMul hsh a b = .ok k) :
    k.Good E ∧ k.cols = a.cols ++ b.cols ∧ ∀ ρ, k.op.Matches E ρ ↔ a.op.Matches E ρ ∧ b.op.Matches E ρ := by
  obtain ⟨o, ho, h⟩ := bind_ok h
  obtain ⟨rfl, hc⟩ := build_ok ho
  have hn : (a.cols ++ b.cols).Nodup := by
    have := hc
    dsimp only [check] at this
    split at this
    · cases this
    split at this
    · cases this
    · next h2 =>
      have h2 : (columnsL [a.op, b.op]).Nodup := by simpa using h2
      simp only [columnsL, List.append_nil] at h2
      obtain ⟨_, _, hd⟩ := List.nodup_append.1 h2
      exact List.nodup_append.2 ⟨ga.nodup, gb.nodup, fun x hx y hy => hd x ((ga.cols x).1 hx) y ((gb.cols y).1 hy)⟩
  obtain ⟨g, hc', hm⟩ := initPlan_good h (good_cross (E := E) hc (by
    intro f hf
    rcases List.mem_cons.1 hf with rfl | hf
    · exact ga.op
    · rw [List.mem_singleton.1 hf]
      exact gb.op) (by simp)) hn
  refine ⟨g, hc', fun ρ => (hm ρ).trans ?_⟩
  show matchesL E [a.op, b.op] ρ ↔ _
  simp [matchesL]

theorem planSub_good {E : Env} {hsh : Op → Except KErr ℤ} {a b k : KS} (ga : a.Good E) (gb : b.Good E) (hb : b.cols ≠ [])
    (h : KS.planSub hsh a b = .ok k) :
    k.Good E ∧ k.cols = a.cols ∧ ∀ ρ, k.op.Matches E ρ ↔ a.op.Matches E ρ ∧ ¬ b.op.Matches E ρ := by
  obtain ⟨o, ho, h⟩ := bind_ok h
  obtain ⟨rfl, hc⟩ := build_ok ho
  have hne : b.op.columns ≠ [] := fun hh => hb ((nil_congr gb.cols).2 hh)
  obtain ⟨g, hc', hm⟩ := initPlan_good (E := E) h ⟨⟨hc, ga.op.1, gb.op.1⟩, ga.op.2, gb.op.2, fun hh => absurd hh hne⟩ ga.nodup
  refine ⟨g, hc', fun ρ => (hm ρ).trans ?_⟩
  dsimp only [Op.Matches]
  simp [hne]

theorem planJoin_good {E : Env} {hsh : Op → Except KErr ℤ} {a b k : KS} (ga : a.Good E) (gb : b.Good E)
    (h : KS.planJoin hsh a b = .ok k) :
    k.Good E ∧ k.cols = mergeCols a.cols b.cols ∧
      ∀ ρ, k.op.Matches E ρ ↔ a.op.Matches E ρ ∧ b.op.Matches E ρ := by
  obtain ⟨o, ho, h⟩ := bind_ok h
  obtain ⟨rfl, hc⟩ := build_ok ho
  refine initPlan_good (E := E) h ⟨⟨hc, ga.op.1, gb.op.1⟩, ga.op.2, gb.op.2⟩ ?_
  refine List.nodup_append.2 ⟨ga.nodup, gb.nodup.filter _, fun x hx y hy he => ?_⟩
  subst he
  simpa [hx] using (List.mem_filter.1 hy).2

theorem planFilter_good {E : Env} {hsh : Op → Except KErr ℤ} {a k : KS} {cond : Cond} (ga : a.Good E)
    (h : KS.planFilter hsh a cond = .ok k) :
    k.Good E ∧ k.cols = a.cols ∧
      ∀ ρ, k.op.Matches E ρ ↔ a.op.Matches E ρ ∧ (a.cols = [] ∨ E.ev cond (restrict a.cols ρ) = true) := by
  obtain ⟨o, ho, h⟩ := bind_ok h
  obtain ⟨rfl, hc⟩ := build_ok ho
  obtain ⟨g, hc', hm⟩ := initPlan_good (E := E) h ⟨⟨hc, ga.op.1⟩, ga.op.2⟩ ga.nodup
  refine ⟨g, hc', fun ρ => (hm ρ).trans ?_⟩
  dsimp only [Op.Matches]
  rw [restrict_congr ga.cols, nil_congr ga.cols]

theorem planUnion_good {E : Env} {hsh : Op → Except KErr ℤ} {a b k : KS} (ga : a.Good E) (gb : b.Good E)
    (h : KS.planUnion hsh a b = .ok k) :
    k.Good E ∧ k.cols = a.cols ∧ ∀ ρ, k.op.Matches E ρ ↔ a.op.Matches E ρ ∨ b.op.Matches E ρ := by
  obtain ⟨o, ho, h⟩ := bind_ok h
  obtain ⟨rfl, hc⟩ := build_ok ho
  exact initPlan_good (E := E) h ⟨⟨hc, ga.op.1, gb.op.1⟩, ga.op.2, gb.op.2⟩ ga.nodup

/-- A KeySet has no detected keys left in it, a plan has some. -/
def PlanOrKS.Kind : PlanOrKS → Prop
  | .plan k => k.op.isPlan = true
  | .keyset k => k.op.isPlan = false

theorem planGetitem_good {E : Env} {hsh : Op → Except KErr ℤ} {a : KS} {k : PlanOrKS} {cs : List String} (ga : a.Good E)
    (hs : a.op.Sat E) (h : KS.planGetitem hsh a cs = .ok k) :
    k.ks.Good E ∧ k.ks.cols = cs ∧
      (∀ ρ, k.ks.op.Matches E ρ ↔ ∃ ρ' : Assign, (∀ c ∈ cs, ρ' c = ρ c) ∧ a.op.Matches E ρ') := by
  unfold KS.planGetitem at h
  split at h
  · cases h
  rename_i hn
  obtain ⟨o, ho, h⟩ := bind_ok h
  obtain ⟨rfl, hc⟩ := build_ok ho
  obtain ⟨o', ho', h⟩ := bind_ok h
  have hg : Good E (.project a.op cs) := ⟨⟨hc, by simpa using hn, ga.op.1⟩, hs, ga.op.2⟩
  obtain ⟨g', e⟩ := rewrite_pres E hsh _ _ hg ho'
  split at h
  · obtain ⟨k', hk, h⟩ := bind_ok h
    cases pure_ok h
    obtain ⟨g, hc', hm⟩ := initPlan_good (E := E) hk g' (by simpa using hn)
    exact ⟨g, hc', fun ρ => (hm ρ).trans (e.2 ρ).symm⟩
  · obtain ⟨k', hk, h⟩ := bind_ok h
    cases pure_ok h
    obtain ⟨g, hc', hm⟩ := init_good (E := E) hk g'
    exact ⟨g, hc', fun ρ => (hm ρ).trans (e.2 ρ).symm⟩

theorem asK_ok {x : Except KErr KS} {r : PlanOrKS} (h : asK x = .ok r) : ∃ k, x = .ok k ∧ r = .keyset k := by
  obtain ⟨k, hk, h⟩ := bind_ok h
  exact ⟨k, hk, (pure_ok h).symm⟩

theorem asP_ok {x : Except KErr KS} {r : PlanOrKS} (h : asP x = .ok r) : ∃ k, x = .ok k ∧ r = .plan k := by
  obtain ⟨k, hk, h⟩ := bind_ok h
  exact ⟨k, hk, (pure_ok h).symm⟩

/-- The world seen from KeySets: the same, without plans. -/
def bareWorld (ev : Cond → (String → Option Value) → Bool) (D : Detected) : Env := ⟨ev, D.key, D.congr, Leaf, False⟩

theorem bare_real (ev : Cond → (String → Option Value) → Bool) (D : Detected) : Real (bareWorld ev D) := ⟨rfl, id⟩

theorem good_bare {ev : Cond → (String → Option Value) → Bool} {D : Detected} {op : Op} (g : Good (planWorld ev D) op)
    (h : op.isPlan = false) : Good (bareWorld ev D) op :=
  ⟨g.1, fine_noPlan_move (E := planWorld ev D) (E' := bareWorld ev D) rfl
    (fun o hd hl => hl.elim id (fun hh => absurd hh hd)) id g.1 h g.2⟩

theorem init_kind {ev : Cond → (String → Option Value) → Bool} {D : Detected} {hsh : Op → Except KErr ℤ} {op : Op}
    {cols : List String} {k : KS} (h : KS.init hsh op cols = .ok k) (g : Good (planWorld ev D) op) :
    k.op.isPlan = false := by
  obtain ⟨hp, _, _, h4, _⟩ := init_ok h
  obtain ⟨g', _⟩ := rewrite_pres (bareWorld ev D) hsh op k.op (good_bare g hp) h4
  exact fine_noPlan (bare_real ev D).noPlans g'.2

/-- What is shown of a KeySet or plan. -/
structure Meant (ev : Cond → (String → Option Value) → Bool) (D : Detected) (e : PExpr) (r : PlanOrKS) : Prop where
  good : r.ks.Good (planWorld ev D)
  kind : r.Kind
  cols : r.ks.cols = e.columns
  mem : ∀ ρ, r.ks.op.Matches (planWorld ev D) ρ ↔ e.Den ev D ρ

theorem PExpr.eval_meant (ev : Cond → (String → Option Value) → Bool) (D : Detected) {hsh : Op → Except KErr ℤ}
    (e : PExpr) {r : PlanOrKS} (h : e.eval hsh = .ok r) (t : e.Treated ev D) : Meant ev D e r := by
  induction e generalizing r with
  | keyset e =>
    obtain ⟨k, hk, rfl⟩ := asK_ok h
    obtain ⟨g, hc, hm⟩ := e.eval_good ev hk t
    have hp : k.op.isPlan = false := fine_noPlan (world_real ev).noPlans g.op.2
    refine ⟨⟨⟨g.op.1, fine_noPlan_move (E := world ev) (E' := planWorld ev D) rfl (fun o _ hl => .inl hl) id g.op.1 hp g.op.2⟩,
      g.nodup, g.cols⟩, hp, hc, fun ρ => ?_⟩
    exact (matches_noPlan (E := planWorld ev D) (E' := world ev) rfl g.op.1 hp ρ).trans (hm ρ)
  | detect cs =>
    obtain ⟨k, hk, rfl⟩ := asP_ok h
    obtain ⟨o, ho, hk⟩ := bind_ok hk
    obtain ⟨rfl, hc⟩ := build_ok ho
    obtain ⟨g, hc', hm⟩ := initPlan_good (E := planWorld ev D) hk ⟨⟨hc, List.nodup_dedup _⟩, .inr trivial⟩ t
    refine ⟨g, (initPlan_ok hk).2.2.2.2, hc', fun ρ => (hm ρ).trans ?_⟩
    exact D.congr _ _ ρ ρ (fun c => List.mem_dedup) (fun _ _ => rfl)
  | mul a b iha ihb =>
    obtain ⟨x, hx, h⟩ := bind_ok h
    obtain ⟨y, hy, h⟩ := bind_ok h
    have ma := iha hx t.1
    have mb := ihb hy t.2
    have plan : ∀ r, asP (KS.planMul hsh x.ks y.ks) = .ok r → Meant ev D (.mul a b) r := by
      intro r h
      obtain ⟨k, hk, rfl⟩ := asP_ok h
      obtain ⟨g, c, m⟩ := planMul_good ma.good mb.good hk
      obtain ⟨o, _, hk⟩ := bind_ok hk
      exact ⟨g, (initPlan_ok hk).2.2.2.2, by rw [show (PlanOrKS.plan k).ks.cols = _ from c, ma.cols, mb.cols]; rfl,
        fun ρ => (m ρ).trans (and_congr (ma.mem ρ) (mb.mem ρ))⟩
    cases x <;> cases y
    · exact plan _ h
    · exact plan _ h
    · exact plan _ h
    · obtain ⟨k, hk, rfl⟩ := asK_ok h
      obtain ⟨g, c, m⟩ := mul_good ma.good mb.good hk
      obtain ⟨o, ho, hk⟩ := bind_ok hk
      obtain ⟨rfl, hc⟩ := build_ok ho
      refine ⟨g, init_kind hk (good_cross (E := planWorld ev D) hc (by
        intro f hf
        rcases List.mem_cons.1 hf with rfl | hf
        · exact ma.good.op
        · rw [List.mem_singleton.1 hf]
          exact mb.good.op) (by simp)), ?_, fun ρ => (m ρ).trans (and_congr (ma.mem ρ) (mb.mem ρ))⟩
      exact c.trans (congrArg₂ (· ++ ·) ma.cols mb.cols)
  | sub a b iha ihb =>
    obtain ⟨x, hx, h⟩ := bind_ok h
    obtain ⟨y, hy, h⟩ := bind_ok h
    have ma := iha hx t.1
    have mb := ihb hy t.2.1
    have hne : y.ks.cols ≠ [] := mb.cols ▸ t.2.2
    cases x with
    | plan x =>
      obtain ⟨k, hk, rfl⟩ := asP_ok h
      obtain ⟨g, c, m⟩ := planSub_good ma.good mb.good hne hk
      obtain ⟨o, _, hk⟩ := bind_ok hk
      exact ⟨g, (initPlan_ok hk).2.2.2.2, c.trans ma.cols, fun ρ => (m ρ).trans (and_congr (ma.mem ρ) (not_congr (mb.mem ρ)))⟩
    | keyset x =>
      obtain ⟨k, hk, rfl⟩ := asK_ok h
      obtain ⟨g, c, m⟩ := sub_good ma.good mb.good hne hk
      obtain ⟨o, ho, hk⟩ := bind_ok hk
      obtain ⟨rfl, hc⟩ := build_ok ho
      refine ⟨g, init_kind (ev := ev) (D := D) hk ⟨⟨hc, ma.good.op.1, mb.good.op.1⟩, ma.good.op.2, mb.good.op.2,
        fun hh => absurd ((nil_congr mb.good.cols).2 hh) hne⟩, c.trans ma.cols,
        fun ρ => (m ρ).trans (and_congr (ma.mem ρ) (not_congr (mb.mem ρ)))⟩
  | getitem a cs iha =>
    obtain ⟨x, hx, h⟩ := bind_ok h
    have ma := iha hx t.1
    obtain ⟨ρ₀, h₀⟩ := t.2
    have hs : x.ks.op.Sat (planWorld ev D) := ⟨ρ₀, (ma.mem ρ₀).2 h₀⟩
    cases x with
    | plan x =>
      obtain ⟨g, c, m⟩ := planGetitem_good ma.good hs h
      refine ⟨g, ?_, c, fun ρ => (m ρ).trans (exists_congr fun ρ' => and_congr_right fun _ => ma.mem ρ')⟩
      dsimp only [PlanOrKS.getitem] at h
      unfold KS.planGetitem at h
      split at h
      · cases h
      rename_i hn
      obtain ⟨o, ho, h⟩ := bind_ok h
      obtain ⟨rfl, hc⟩ := build_ok ho
      obtain ⟨o', ho', h⟩ := bind_ok h
      have hg : Good (planWorld ev D) (.project x.op cs) :=
        ⟨⟨hc, by simpa using hn, ma.good.op.1⟩, hs, ma.good.op.2⟩
      obtain ⟨g', e⟩ := rewrite_pres (planWorld ev D) hsh _ _ hg ho'
      split at h
      · obtain ⟨k', hk, h⟩ := bind_ok h
        cases pure_ok h
        exact (initPlan_ok hk).2.2.2.2
      · obtain ⟨k', hk, h⟩ := bind_ok h
        cases pure_ok h
        exact init_kind hk g'
    | keyset x =>
      obtain ⟨k, hk, rfl⟩ := asK_ok h
      obtain ⟨g, c, m⟩ := getitem_good ma.good hs hk
      refine ⟨g, ?_, c, fun ρ => (m ρ).trans (exists_congr fun ρ' => and_congr_right fun _ => ma.mem ρ')⟩
      unfold KS.getitem at hk
      split at hk
      · cases hk
      rename_i hn
      obtain ⟨o, ho, hk⟩ := bind_ok hk
      obtain ⟨rfl, hc⟩ := build_ok ho
      exact init_kind (ev := ev) (D := D) hk ⟨⟨hc, by simpa using hn, ma.good.op.1⟩, hs, ma.good.op.2⟩
  | join a b iha ihb =>
    obtain ⟨x, hx, h⟩ := bind_ok h
    obtain ⟨y, hy, h⟩ := bind_ok h
    have ma := iha hx t.1
    have mb := ihb hy t.2
    have hcols : mergeCols x.ks.cols y.ks.cols = (PExpr.join a b).columns := by rw [ma.cols, mb.cols]; rfl
    have plan : ∀ r, asP (KS.planJoin hsh x.ks y.ks) = .ok r → Meant ev D (.join a b) r := by
      intro r h
      obtain ⟨k, hk, rfl⟩ := asP_ok h
      obtain ⟨g, c, m⟩ := planJoin_good ma.good mb.good hk
      obtain ⟨o, _, hk⟩ := bind_ok hk
      exact ⟨g, (initPlan_ok hk).2.2.2.2, c.trans hcols, fun ρ => (m ρ).trans (and_congr (ma.mem ρ) (mb.mem ρ))⟩
    cases x <;> cases y
    · exact plan _ h
    · exact plan _ h
    · exact plan _ h
    · obtain ⟨k, hk, rfl⟩ := asK_ok h
      obtain ⟨g, c, m⟩ := join_good ma.good mb.good hk
      obtain ⟨o, ho, hk⟩ := bind_ok hk
      obtain ⟨rfl, hc⟩ := build_ok ho
      exact ⟨g, init_kind (ev := ev) (D := D) hk ⟨⟨hc, ma.good.op.1, mb.good.op.1⟩, ma.good.op.2, mb.good.op.2⟩, c.trans hcols,
        fun ρ => (m ρ).trans (and_congr (ma.mem ρ) (mb.mem ρ))⟩
  | filter a c iha =>
    obtain ⟨x, hx, h⟩ := bind_ok h
    have ma := iha hx t.1
    have hne : x.ks.cols ≠ [] := ma.cols ▸ t.2
    have hmem : ∀ ρ, (x.ks.op.Matches (planWorld ev D) ρ ∧ (x.ks.cols = [] ∨ ev c (restrict x.ks.cols ρ) = true)) ↔
        (PExpr.filter a c).Den ev D ρ := by
      intro ρ
      simp only [hne, false_or]
      rw [ma.cols]
      exact and_congr_left fun _ => ma.mem ρ
    cases x with
    | plan x =>
      obtain ⟨k, hk, rfl⟩ := asP_ok h
      obtain ⟨g, hc, m⟩ := planFilter_good ma.good hk
      obtain ⟨o, _, hk⟩ := bind_ok hk
      exact ⟨g, (initPlan_ok hk).2.2.2.2, hc.trans ma.cols, fun ρ => (m ρ).trans (hmem ρ)⟩
    | keyset x =>
      obtain ⟨k, hk, rfl⟩ := asK_ok h
      obtain ⟨g, hcs, m⟩ := filter_good ma.good hk
      obtain ⟨o, ho, hk⟩ := bind_ok hk
      obtain ⟨rfl, hc⟩ := build_ok ho
      exact ⟨g, init_kind (ev := ev) (D := D) hk ⟨⟨hc, ma.good.op.1⟩, ma.good.op.2⟩, hcs.trans ma.cols,
        fun ρ => (m ρ).trans (hmem ρ)⟩
  | union a b iha ihb =>
    obtain ⟨x, hx, h⟩ := bind_ok h
    obtain ⟨y, hy, h⟩ := bind_ok h
    have ma := iha hx t.1
    have mb := ihb hy t.2
    have plan : ∀ r, asP (KS.planUnion hsh x.ks y.ks) = .ok r → Meant ev D (.union a b) r := by
      intro r h
      obtain ⟨k, hk, rfl⟩ := asP_ok h
      obtain ⟨g, c, m⟩ := planUnion_good ma.good mb.good hk
      obtain ⟨o, _, hk⟩ := bind_ok hk
      exact ⟨g, (initPlan_ok hk).2.2.2.2, c.trans ma.cols, fun ρ => (m ρ).trans (or_congr (ma.mem ρ) (mb.mem ρ))⟩
    cases x <;> cases y
    · exact plan _ h
    · exact plan _ h
    · exact plan _ h
    · obtain ⟨k, hk, rfl⟩ := asK_ok h
      obtain ⟨g, c, _, m⟩ := union_good ma.good mb.good hk
      obtain ⟨o, ho, hk⟩ := bind_ok hk
      obtain ⟨rfl, hc⟩ := build_ok ho
      exact ⟨g, init_kind (ev := ev) (D := D) hk ⟨⟨hc, ma.good.op.1, mb.good.op.1⟩, ma.good.op.2, mb.good.op.2⟩, c.trans ma.cols,
        fun ρ => (m ρ).trans (or_congr (ma.mem ρ) (mb.mem ρ))⟩

/-! ## Theorems -/

/-- C69, plans: whatever will be detected, the plan has the documented columns, stands for the documented keys, and
still has keys to detect. -/
theorem C69_plan_partial (ev : Cond → (String → Option Value) → Bool) (D : Detected) {hsh : Op → Except KErr ℤ}
    (e : PExpr) {k : KS} (h : e.eval hsh = .ok (.plan k)) (t : e.Treated ev D) :
    k.cols = e.columns ∧ k.op.isPlan = true ∧ (∀ ρ, k.op.Matches (planWorld ev D) ρ ↔ e.Den ev D ρ) :=
  let m := e.eval_meant ev D h t
  ⟨m.cols, m.kind, m.mem⟩

/-- C69, KeySets: if nothing is left to detect, the expression is a KeySet, with the documented columns in its data
frame, and the documented keys as its rows, each once; whatever would have been detected. -/
theorem C69_keyset_partial (ev : Cond → (String → Option Value) → Bool) (D : Detected) {hsh : Op → Except KErr ℤ}
    (e : PExpr) {k : KS} (h : e.eval hsh = .ok (.keyset k)) (t : e.Treated ev D) :
    ∃ d, Shows (bareWorld ev D) k d ∧ d.cols = e.columns ∧ ∀ ρ, d.Key ρ ↔ e.Den ev D ρ := by
  have m := e.eval_meant ev D h t
  have hp : k.op.isPlan = false := m.kind
  have g : k.Good (bareWorld ev D) := ⟨good_bare m.good.op hp, m.good.nodup, m.good.cols⟩
  obtain ⟨d, hd, hk⟩ := g.shows (bare_real ev D).noPlans (bare_real ev D).2
  refine ⟨d, hd, hd.cols.trans m.cols, fun ρ => (hk ρ).trans ?_⟩
  exact (matches_noPlan (E := bareWorld ev D) (E' := planWorld ev D) rfl m.good.op.1 hp ρ).trans (m.mem ρ)

/-- C69: a KeySet stands for the same keys whatever is detected. -/
theorem C69_nothing_detected (ev : Cond → (String → Option Value) → Bool) (D D' : Detected) {hsh : Op → Except KErr ℤ}
    (e : PExpr) {k : KS} (h : e.eval hsh = .ok (.keyset k)) (t : e.Treated ev D) (t' : e.Treated ev D') (ρ : Assign) :
    e.Den ev D ρ ↔ e.Den ev D' ρ := by
  have m := e.eval_meant ev D h t
  have m' := e.eval_meant ev D' h t'
  rw [← m.mem, ← m'.mem]
  exact matches_noPlan (E := planWorld ev D) (E' := planWorld ev D') rfl m.good.op.1 m.kind ρ

/-- The class and the columns of a result. -/
def kindCols : Except KErr PlanOrKS → Option (Bool × List String)
  | .ok (.plan k) => some (true, k.cols)
  | .ok (.keyset k) => some (false, k.cols)
  | .error _ => none

/-- C69: a KeySet may be asked for the same column only once, a plan that detects it may not: `KeySet._detect(["A", "A"])`
has two columns of the same name. -/
theorem C69_repeated_columns :
    kindCols (PExpr.eval Wit.h0 (.detect ["A", "A"])) = some (true, ["A", "A"]) ∧
      kindCols (PExpr.eval Wit.h0 (.keyset (.tuples [[.int 1, .int 1]] ["A", "A"]))) = none := by
  constructor <;> decide +kernel

/-- Both kinds of result exist: a KeySet times detected keys is a plan; its own columns are a KeySet again, the others a
plan. -/
def exMul : PExpr := .mul (.keyset (.tuples [[.int 1], [.int 2]] ["A"])) (.detect ["B", "C"])

example : kindCols (exMul.eval Wit.h0) = some (true, ["A", "B", "C"]) ∧
    kindCols ((PExpr.getitem exMul ["A"]).eval Wit.h0) = some (false, ["A"]) ∧
    kindCols ((PExpr.getitem exMul ["C", "A"]).eval Wit.h0) = some (true, ["C", "A"]) ∧
    kindCols ((PExpr.sub exMul (.keyset (.tuples [[.int 1]] ["A"]))).eval Wit.h0) = some (true, ["A", "B", "C"]) ∧
    kindCols ((PExpr.sub exMul (.detect ["B"])).eval Wit.h0) = none := by
  refine ⟨?_, ?_, ?_, ?_, ?_⟩ <;> decide +kernel

/-- The hypotheses are met: the value 3 will be detected in every column. -/
def exDetected : Detected where
  key cs ρ := ∀ c ∈ cs, ρ c = .int 3
  congr cs cs' ρ ρ' h h' := by
    constructor
    · intro hh c hc
      rw [← h' c ((h c).2 hc)]
      exact hh c ((h c).2 hc)
    · intro hh c hc
      rw [h' c hc]
      exact hh c ((h c).1 hc)

example (ev : Cond → (String → Option Value) → Bool) : (PExpr.getitem exMul ["A"]).Treated ev exDetected := by
  refine ⟨⟨trivial, show List.Nodup ["B", "C"] by decide⟩, fun c => if c = "A" then .int 1 else .int 3, ?_⟩
  refine ⟨?_, ?_⟩
  · show _ ∨ _
    right
    simp
  · intro c hc
    rcases List.mem_cons.1 hc with rfl | hc
    · simp
    · rw [List.mem_singleton.1 hc]
      simp

end Verif.KeySet
