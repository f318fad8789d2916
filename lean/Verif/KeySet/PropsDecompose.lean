import Verif.KeySet.PropsSize

/-!
# C26: decomposing a KeySet
-/

namespace Verif.KeySet

open Verif Verif.Schema

/-- What a decomposition of a tree into factors and subtracted values has to be. -/
structure IsDecomp (E : Env) (split : List String) (op : Op) (fs svs : List Op) : Prop where
  good : (∀ f ∈ fs, Good E f) ∧ ∀ s ∈ svs, Good E s
  keys : ∀ ρ, op.Matches E ρ ↔ (∀ f ∈ fs, f.Matches E ρ) ∧ ∀ s ∈ svs, ¬ s.Matches E ρ
  cols : ∀ c, c ∈ op.columns ↔ ∃ f ∈ fs, c ∈ f.columns
  overlap : fs.Pairwise (fun f g => ∀ c ∈ f.columns, c ∈ g.columns → c ∈ split)
  sub : ∀ s ∈ svs, s.columns ≠ [] ∧ ∀ c ∈ s.columns, c ∈ op.columns

theorem IsDecomp.single {E : Env} {split : List String} {op : Op} (g : Good E op) : IsDecomp E split op [op] [] where
  good := by simpa using g
  keys := by simp
  cols := by simp
  overlap := by simp
  sub := by simp

theorem absorb_ok {E : Env} (hz : ¬ E.zeroSub) {r : Op} (hr : Good E r) (hne : r.columns ≠ []) (hp : r.isPlan = false) {fs : List Op}
    {q : List Op × Bool} (h : absorb r fs = .ok q) (g : ∀ f ∈ fs, Good E f) :
    (∀ f ∈ q.1, Good E f) ∧ List.Forall₂ (fun f g => f.columns = g.columns) fs q.1 ∧
      (∀ ρ, (∀ f ∈ q.1, f.Matches E ρ) ↔ (∀ f ∈ fs, f.Matches E ρ) ∧ (q.2 = true → ¬ r.Matches E ρ)) := by
  induction fs generalizing q with
  | nil =>
    cases h
    exact ⟨by simp, .nil, by simp⟩
  | cons f fs ih =>
    dsimp only [absorb] at h
    split at h
    · rename_i hc
      obtain ⟨s, hs, h⟩ := bind_ok h
      obtain ⟨p, hpq, h⟩ := bind_ok h
      cases pure_ok h
      obtain ⟨rfl, hcs⟩ := build_ok hs
      obtain ⟨h1, h2, h3⟩ := ih hpq (fun x hx => g x (by simp [hx]))
      have gf := g f (by simp)
      refine ⟨?_, .cons rfl h2, fun ρ => ?_⟩
      · intro x hx
        rcases List.mem_cons.1 hx with rfl | hx
        · exact ⟨⟨hcs, gf.1, hr.1⟩, gf.2, hr.2, fun hh => absurd hh hne⟩
        · exact h1 x hx
      · simp only [List.forall_mem_cons, h3]
        dsimp only [Op.Matches]
        simp only [hne, false_or, forall_const]
        tauto
    · obtain ⟨p, hpq, h⟩ := bind_ok h
      cases pure_ok h
      obtain ⟨h1, h2, h3⟩ := ih hpq (fun x hx => g x (by simp [hx]))
      refine ⟨?_, .cons rfl h2, fun ρ => ?_⟩
      · intro x hx
        rcases List.mem_cons.1 hx with rfl | hx
        · exact g x (by simp)
        · exact h1 x hx
      · simp only [List.forall_mem_cons, h3]
        tauto

theorem forall2_cols {fs gs : List Op} (h : List.Forall₂ (fun f g => f.columns = g.columns) fs gs) (c : String) :
    (∃ f ∈ fs, c ∈ f.columns) ↔ ∃ g ∈ gs, c ∈ g.columns := by
  induction h with
  | nil => simp
  | cons h _ ih => simp [h, ih]

theorem forall2_pairwise {split : List String} {fs gs : List Op}
    (h : List.Forall₂ (fun f g => f.columns = g.columns) fs gs)
    (p : fs.Pairwise (fun f g => ∀ c ∈ f.columns, c ∈ g.columns → c ∈ split)) :
    gs.Pairwise (fun f g => ∀ c ∈ f.columns, c ∈ g.columns → c ∈ split) := by
  induction h with
  | nil => exact .nil
  | @cons f g fs gs hfg hh ih =>
    obtain ⟨p1, p2⟩ := List.pairwise_cons.1 p
    refine List.pairwise_cons.2 ⟨fun x hx c hc hcx => ?_, ih p2⟩
    obtain ⟨y, hy, hcy⟩ := (forall2_cols hh c).2 ⟨x, hx, hcx⟩
    rw [← hfg] at hc
    exact p1 y hy c hc hcy

/-- Two decompositions side by side. -/
theorem IsDecomp.append {E : Env} {split : List String} {l r op : Op} {fs fs' svs svs' : List Op}
    (h : IsDecomp E split l fs svs) (h' : IsDecomp E split r fs' svs')
    (hm : ∀ ρ, op.Matches E ρ ↔ l.Matches E ρ ∧ r.Matches E ρ)
    (hc : ∀ c, c ∈ op.columns ↔ c ∈ l.columns ∨ c ∈ r.columns)
    (ho : ∀ c ∈ l.columns, c ∈ r.columns → c ∈ split) : IsDecomp E split op (fs ++ fs') (svs ++ svs') where
  good := by
    constructor
    · intro f hf
      rcases List.mem_append.1 hf with hf | hf
      · exact h.good.1 f hf
      · exact h'.good.1 f hf
    · intro f hf
      rcases List.mem_append.1 hf with hf | hf
      · exact h.good.2 f hf
      · exact h'.good.2 f hf
  keys ρ := by
    rw [hm, h.keys, h'.keys]
    simp only [List.forall_mem_append]
    tauto
  cols c := by
    rw [hc, h.cols, h'.cols]
    simp only [List.mem_append]
    constructor
    · rintro (⟨f, hf, hcf⟩ | ⟨f, hf, hcf⟩)
      · exact ⟨f, .inl hf, hcf⟩
      · exact ⟨f, .inr hf, hcf⟩
    · rintro ⟨f, hf | hf, hcf⟩
      · exact .inl ⟨f, hf, hcf⟩
      · exact .inr ⟨f, hf, hcf⟩
  overlap := by
    rw [List.pairwise_append]
    refine ⟨h.overlap, h'.overlap, fun f hf g hg c hcf hcg => ?_⟩
    exact ho c ((h.cols c).2 ⟨f, hf, hcf⟩) ((h'.cols c).2 ⟨g, hg, hcg⟩)
  sub := by
    intro s hs
    rcases List.mem_append.1 hs with hs | hs
    · exact ⟨(h.sub s hs).1, fun c hcs => (hc c).2 (.inl ((h.sub s hs).2 c hcs))⟩
    · exact ⟨(h'.sub s hs).1, fun c hcs => (hc c).2 (.inr ((h'.sub s hs).2 c hcs))⟩

/-- The decomposition of a tree is one. -/
theorem decompose_ok {E : Env} (hz : ¬ E.zeroSub) {split : List String} {op : Op} {q : List Op × List Op}
    (g : Good E op) (h : op.decompose split = .ok q) : IsDecomp E split op q.1 q.2 := by
  induction op using Op.ind generalizing q with
  | hd cs => cases h
  | ht ts ds => cases h; exact .single g
  | hf df => cases h; exact .single g
  | hc m fs ih =>
    have hw := wfL_iff.1 g.1.2
    have hf := fineL_iff.1 g.2.1
    have nd := (check_cross g.1.1).2.1
    have key : ∀ (gs : List Op), (∀ x ∈ gs, x ∈ fs) → (columnsL gs).Nodup → ∀ p, decomposeL split gs = .ok p →
        IsDecomp E split (.cross m gs) p.1 p.2 := by
      intro gs
      induction gs with
      | nil =>
        intro _ _ p hp
        cases hp
        exact ⟨by simp, by simp [Op.Matches, matchesL], by simp [Op.columns, columnsL], .nil, by simp⟩
      | cons x gs ih2 =>
        intro hx nd p hp
        dsimp only [decomposeL] at hp
        obtain ⟨a, ha, hp⟩ := bind_ok hp
        obtain ⟨b, hb, hp⟩ := bind_ok hp
        cases pure_ok hp
        have hxf := hx x (by simp)
        simp only [columnsL] at nd
        obtain ⟨_, nd2, dj⟩ := List.nodup_append.1 nd
        refine IsDecomp.append (ih x hxf ⟨hw x hxf, hf x hxf⟩ ha) (ih2 (fun y hy => hx y (by simp [hy])) nd2 b hb) ?_ ?_ ?_
        · intro ρ
          exact Iff.rfl
        · intro c
          simp [Op.columns, columnsL]
        · intro c hc hc'
          exact absurd rfl (dj c hc c hc')
    exact key fs (fun _ h => h) nd q h
  | hj l r hl hr =>
    dsimp only [Op.decompose] at h
    split at h
    · rename_i hs
      obtain ⟨a, ha, h⟩ := bind_ok h
      obtain ⟨b, hb, h⟩ := bind_ok h
      cases pure_ok h
      refine IsDecomp.append (hl ⟨g.1.2.1, g.2.1⟩ ha) (hr ⟨g.1.2.2, g.2.2⟩ hb) (fun _ => Iff.rfl)
        (fun c => mem_join_columns) ?_
      intro c hc hc'
      simp only [List.all_eq_true, decide_eq_true_eq] at hs
      exact hs c (mem_inter.2 ⟨hc, hc'⟩)
    · cases pure_ok h
      exact .single g
  | hp c cs _ => cases h; exact .single g
  | hfi c k _ => cases h; exact .single g
  | hs l r hl hr =>
    dsimp only [Op.decompose] at h
    obtain ⟨a, ha, h⟩ := bind_ok h
    obtain ⟨p, hp, h⟩ := bind_ok h
    have d := hl ⟨g.1.2.1, g.2.1⟩ ha
    have gr : Good E r := ⟨g.1.2.2, g.2.2.1⟩
    have hne : r.columns ≠ [] := fun hh => hz (g.2.2.2 hh)
    obtain ⟨hpl, hsub⟩ := check_subtract g.1.1
    obtain ⟨h1, h2, h3⟩ := absorb_ok hz gr hne hpl hp d.good.1
    have hkeys : ∀ ρ, (Op.subtract l r).Matches E ρ ↔ l.Matches E ρ ∧ ¬ r.Matches E ρ := by
      intro ρ
      dsimp only [Op.Matches]
      simp [hne]
    have hcols : ∀ c, c ∈ (Op.subtract l r).columns ↔ ∃ f ∈ p.1, c ∈ f.columns := by
      intro c
      rw [← forall2_cols h2, ← d.cols]
      rfl
    split at h
    · rename_i ht
      cases pure_ok h
      refine ⟨⟨h1, d.good.2⟩, fun ρ => ?_, hcols, forall2_pairwise h2 d.overlap, d.sub⟩
      rw [hkeys, d.keys, h3]
      tauto
    · rename_i ht
      cases pure_ok h
      refine ⟨⟨h1, ?_⟩, fun ρ => ?_, hcols, forall2_pairwise h2 d.overlap, ?_⟩
      · intro s hs
        rcases List.mem_append.1 hs with hs | hs
        · exact d.good.2 s hs
        · rw [List.mem_singleton.1 hs]
          exact gr
      · rw [hkeys, d.keys, h3]
        simp only [List.forall_mem_append, List.forall_mem_singleton, ht, false_imp_iff, and_true]
        tauto
      · intro s hs
        rcases List.mem_append.1 hs with hs | hs
        · exact d.sub s hs
        · rw [List.mem_singleton.1 hs]
          exact ⟨hne, hsub⟩
  | hu l r _ _ => cases h; exact .single g

/-! ## KeySets -/

theorem asKeysets_ok {E : Env} {hsh : Op → Except KErr ℤ} {cols : List String} {os : List Op} {ks : List KS}
    (h : asKeysets hsh cols os = .ok ks) (g : ∀ o ∈ os, Good E o) :
    List.Forall₂ (fun o k => k.Good E ∧ k.cols = cols.filter (fun c => decide (c ∈ o.columns)) ∧
      (∀ c, c ∈ k.cols ↔ c ∈ o.columns) ∧ ∀ ρ, k.op.Matches E ρ ↔ o.Matches E ρ) os ks := by
  induction os generalizing ks with
  | nil => cases h; exact .nil
  | cons o os ih =>
    obtain ⟨k, hk, h⟩ := bind_ok h
    obtain ⟨ks', hks, h⟩ := bind_ok h
    cases pure_ok h
    obtain ⟨g1, g2, g3⟩ := init_good hk (g o (by simp))
    obtain ⟨_, _, h3, _, _⟩ := init_ok hk
    refine .cons ⟨g1, g2, fun c => ?_, g3⟩ (ih hks (fun x hx => g x (by simp [hx])))
    rw [g2, ← h3]

/-- What a decomposition of a KeySet has to be, on the rows of the KeySets. -/
structure KS.IsDecomp (E : Env) (split : List String) (k : KS) (x : DF) (fs svs : List KS) (ys zs : List DF) : Prop where
  factors : List.Forall₂ (Shows E) fs ys
  subtracted : List.Forall₂ (Shows E) svs zs
  /-- A row is in the KeySet iff its parts are in all factors and in no subtracted value. -/
  rows : ∀ ρ, x.Key ρ ↔ (∀ y ∈ ys, y.Key ρ) ∧ ∀ z ∈ zs, ¬ z.Key ρ
  /-- The columns of the factors are together those of the KeySet, in the same order within each. -/
  cols : ∀ c, c ∈ k.cols ↔ ∃ f ∈ fs, c ∈ f.cols
  order : ∀ f ∈ fs ++ svs, f.cols.Sublist k.cols
  /-- Factors have split columns in common only. -/
  overlap : fs.Pairwise (fun f g => ∀ c ∈ f.cols, c ∈ g.cols → c ∈ split)
  sub : ∀ s ∈ svs, s.cols ≠ []

theorem forall2_shows {E : Env} (hE : Real E) {ks : List KS} (g : ∀ k ∈ ks, k.Good E) :
    ∃ ds, List.Forall₂ (Shows E) ks ds ∧ ∀ ρ,
      ((∀ d ∈ ds, d.Key ρ) ↔ ∀ k ∈ ks, k.op.Matches E ρ) ∧ ((∀ d ∈ ds, ¬ d.Key ρ) ↔ ∀ k ∈ ks, ¬ k.op.Matches E ρ) := by
  induction ks with
  | nil => exact ⟨[], .nil, by simp⟩
  | cons k ks ih =>
    obtain ⟨ds, h1, h2⟩ := ih (fun x hx => g x (by simp [hx]))
    obtain ⟨d, hd, hk⟩ := (g k (by simp)).shows hE.noPlans hE.2
    refine ⟨d :: ds, .cons hd h1, fun ρ => ?_⟩
    simp only [List.forall_mem_cons]
    rw [(h2 ρ).1, (h2 ρ).2, hk]
    simp

/-- C26: what `_decompose` returns is a decomposition. -/
theorem C26_decompose {E : Env} (hE : Real E) {hsh : Op → Except KErr ℤ} {k : KS} (m : Made E hsh k)
    {split : List String} {fs svs : List KS} (h : k.decompose hsh split = .ok (fs, svs)) :
    ∃ x ys zs, Shows E k x ∧ KS.IsDecomp E split k x fs svs ys zs := by
  have g := m.good hE
  unfold KS.decompose at h
  obtain ⟨q, hq, h⟩ := bind_ok h
  obtain ⟨fs', hf, h⟩ := bind_ok h
  obtain ⟨svs', hs, h⟩ := bind_ok h
  cases pure_ok h
  have d := decompose_ok hE.2 g.op hq
  have af := asKeysets_ok hf d.good.1
  have as := asKeysets_ok hs d.good.2
  -- facts about elements
  have conv : ∀ {os : List Op} {ks : List KS}, List.Forall₂ (fun o k' => k'.Good E ∧
      k'.cols = k.cols.filter (fun c => decide (c ∈ o.columns)) ∧ (∀ c, c ∈ k'.cols ↔ c ∈ o.columns) ∧
      ∀ ρ, k'.op.Matches E ρ ↔ o.Matches E ρ) os ks →
      (∀ k' ∈ ks, k'.Good E ∧ k'.cols.Sublist k.cols) ∧
      (∀ ρ, (∀ k' ∈ ks, k'.op.Matches E ρ) ↔ ∀ o ∈ os, o.Matches E ρ) ∧
      (∀ ρ, (∀ k' ∈ ks, ¬ k'.op.Matches E ρ) ↔ ∀ o ∈ os, ¬ o.Matches E ρ) ∧
      (∀ c, (∃ k' ∈ ks, c ∈ k'.cols) ↔ ∃ o ∈ os, c ∈ o.columns) ∧
      (∀ split : List String, os.Pairwise (fun f g => ∀ c ∈ f.columns, c ∈ g.columns → c ∈ split) →
        ks.Pairwise (fun f g => ∀ c ∈ f.cols, c ∈ g.cols → c ∈ split)) ∧
      ((∀ o ∈ os, o.columns ≠ []) → ∀ k' ∈ ks, k'.cols ≠ []) := by
    intro os ks hh
    induction hh with
    | nil => simp
    | @cons o k' os ks h1 h2 ih =>
      obtain ⟨i1, i2, i3, i4, i5, i6⟩ := ih
      obtain ⟨a1, a2, a3, a4⟩ := h1
      refine ⟨?_, ?_, ?_, ?_, ?_, ?_⟩
      · intro y hy
        rcases List.mem_cons.1 hy with rfl | hy
        · exact ⟨a1, by rw [a2]; exact List.filter_sublist⟩
        · exact i1 y hy
      · intro ρ
        simp only [List.forall_mem_cons, i2, a4]
      · intro ρ
        simp only [List.forall_mem_cons, i3, a4]
      · intro c
        simp only [List.mem_cons, exists_eq_or_imp, i4, a3]
      · intro split p
        obtain ⟨p1, p2⟩ := List.pairwise_cons.1 p
        refine List.pairwise_cons.2 ⟨fun y hy c hc hcy => ?_, i5 split p2⟩
        obtain ⟨o', ho', hco'⟩ := (i4 c).1 ⟨y, hy, hcy⟩
        exact p1 o' ho' c ((a3 c).1 hc) hco'
      · intro hne y hy
        rcases List.mem_cons.1 hy with rfl | hy
        · exact fun hh => hne o (by simp) ((nil_congr a3).1 hh)
        · exact i6 (fun x hx => hne x (by simp [hx])) y hy
  obtain ⟨f1, f2, _, f4, f5, _⟩ := conv af
  obtain ⟨s1, _, s3, _, _, s6⟩ := conv as
  obtain ⟨x, hx⟩ := C23_dataframe hE m
  obtain ⟨ys, hys, ky⟩ := forall2_shows hE (fun k' hk' => (f1 k' hk').1)
  obtain ⟨zs, hzs, kz⟩ := forall2_shows hE (fun k' hk' => (s1 k' hk').1)
  refine ⟨x, ys, zs, hx, hys, hzs, fun ρ => ?_, fun c => ?_, ?_, f5 split d.overlap, s6 (fun o ho => (d.sub o ho).1)⟩
  · rw [m.key hE hx.run, d.keys, (ky ρ).1, (kz ρ).2, f2, s3]
  · rw [g.cols, d.cols, f4]
  · intro f hf
    rcases List.mem_append.1 hf with hf | hf
    · exact (f1 f hf).2
    · exact (s1 f hf).2

/-- `l * r`, or `l.join(r)` if they have overlapping columns. -/
def mulOrJoin (hsh : Op → Except KErr ℤ) (a b : KS) : Except KErr KS :=
  if a.cols.all (fun c => decide (c ∉ b.cols)) then KS.mul hsh a b else KS.join hsh a b

/-- `reduce(combine, ks, initial=acc)`. -/
def reduceKS (f : KS → KS → Except KErr KS) : KS → List KS → Except KErr KS
  | acc, [] => .ok acc
  | acc, k :: ks => do
    let a ← f acc k
    reduceKS f a ks

/-- The expression in the documentation of `_decompose` (l. 599-612). -/
def recombine (hsh : Op → Except KErr ℤ) : List KS → List KS → Except KErr KS
  | [], _ => .error .type
  | f :: fs, svs => do
    let p ← reduceKS (mulOrJoin hsh) f fs
    reduceKS (KS.sub hsh) p svs

theorem mulOrJoin_good {E : Env} {hsh : Op → Except KErr ℤ} {a b k : KS} (ga : a.Good E) (gb : b.Good E)
    (h : mulOrJoin hsh a b = .ok k) :
    k.Good E ∧ (∀ c, c ∈ k.cols ↔ c ∈ a.cols ∨ c ∈ b.cols) ∧
      ∀ ρ, k.op.Matches E ρ ↔ a.op.Matches E ρ ∧ b.op.Matches E ρ := by
  unfold mulOrJoin at h
  split at h
  · obtain ⟨h1, h2, h3⟩ := mul_good ga gb h
    exact ⟨h1, fun c => by rw [h2]; simp, h3⟩
  · obtain ⟨h1, h2, h3⟩ := join_good ga gb h
    refine ⟨h1, fun c => ?_, h3⟩
    rw [h2]
    unfold mergeCols
    by_cases hc : c ∈ a.cols <;> simp [hc]

theorem reduce_mul_good {E : Env} {hsh : Op → Except KErr ℤ} {acc k : KS} {ks : List KS} (ga : acc.Good E)
    (gk : ∀ x ∈ ks, x.Good E) (h : reduceKS (mulOrJoin hsh) acc ks = .ok k) :
    k.Good E ∧ (∀ c, c ∈ k.cols ↔ ∃ x ∈ acc :: ks, c ∈ x.cols) ∧
      ∀ ρ, k.op.Matches E ρ ↔ ∀ x ∈ acc :: ks, x.op.Matches E ρ := by
  induction ks generalizing acc with
  | nil => cases h; exact ⟨ga, by simp, by simp⟩
  | cons x ks ih =>
    obtain ⟨a, ha, h⟩ := bind_ok h
    obtain ⟨h1, h2, h3⟩ := mulOrJoin_good ga (gk x (by simp)) ha
    obtain ⟨h4, h5, h6⟩ := ih h1 (fun y hy => gk y (by simp [hy])) h
    refine ⟨h4, fun c => ?_, fun ρ => ?_⟩
    · rw [h5]
      simp only [List.mem_cons, exists_eq_or_imp, h2, or_assoc]
    · rw [h6]
      simp only [List.forall_mem_cons, h3, and_assoc]

theorem reduce_sub_good {E : Env} {hsh : Op → Except KErr ℤ} {acc k : KS} {ks : List KS} (ga : acc.Good E)
    (gk : ∀ x ∈ ks, x.Good E ∧ x.cols ≠ []) (h : reduceKS (KS.sub hsh) acc ks = .ok k) :
    k.Good E ∧ k.cols = acc.cols ∧ ∀ ρ, k.op.Matches E ρ ↔ acc.op.Matches E ρ ∧ ∀ x ∈ ks, ¬ x.op.Matches E ρ := by
  induction ks generalizing acc with
  | nil => cases h; exact ⟨ga, rfl, by simp⟩
  | cons x ks ih =>
    obtain ⟨a, ha, h⟩ := bind_ok h
    obtain ⟨h1, h2, h3⟩ := sub_good ga (gk x (by simp)).1 (gk x (by simp)).2 ha
    obtain ⟨h4, h5, h6⟩ := ih h1 (fun y hy => gk y (by simp [hy])) h
    refine ⟨h4, h5.trans h2, fun ρ => ?_⟩
    rw [h6, h3]
    simp only [List.forall_mem_cons, and_assoc]

/-- C26: recombining what `_decompose` returns, as its documentation says, gives a KeySet with the same columns and the
same rows. -/
theorem C26_recombine {E : Env} (hE : Real E) {hsh : Op → Except KErr ℤ} {k k' : KS} (m : Made E hsh k)
    {split : List String} {fs svs : List KS} (h : k.decompose hsh split = .ok (fs, svs))
    (hr : recombine hsh fs svs = .ok k') :
    ∃ x x', Shows E k x ∧ Shows E k' x' ∧ (∀ c, c ∈ k'.cols ↔ c ∈ k.cols) ∧ ∀ ρ, x'.Key ρ ↔ x.Key ρ := by
  have g := m.good hE
  obtain ⟨x, hx⟩ := C23_dataframe hE m
  unfold KS.decompose at h
  obtain ⟨q, hq, h⟩ := bind_ok h
  obtain ⟨fs', hf, h⟩ := bind_ok h
  obtain ⟨svs', hs, h⟩ := bind_ok h
  cases pure_ok h
  have d := decompose_ok hE.2 g.op hq
  have af := asKeysets_ok hf d.good.1
  have as := asKeysets_ok hs d.good.2
  have el : ∀ {os : List Op} {ks : List KS}, List.Forall₂ (fun o k' => k'.Good E ∧
      k'.cols = k.cols.filter (fun c => decide (c ∈ o.columns)) ∧ (∀ c, c ∈ k'.cols ↔ c ∈ o.columns) ∧
      ∀ ρ, k'.op.Matches E ρ ↔ o.Matches E ρ) os ks →
      (∀ k' ∈ ks, k'.Good E) ∧ (∀ ρ, (∀ k' ∈ ks, k'.op.Matches E ρ) ↔ ∀ o ∈ os, o.Matches E ρ) ∧
      (∀ ρ, (∀ k' ∈ ks, ¬ k'.op.Matches E ρ) ↔ ∀ o ∈ os, ¬ o.Matches E ρ) ∧
      (∀ c, (∃ k' ∈ ks, c ∈ k'.cols) ↔ ∃ o ∈ os, c ∈ o.columns) ∧
      ((∀ o ∈ os, o.columns ≠ []) → ∀ k' ∈ ks, k'.cols ≠ []) := by
    intro os ks hh
    induction hh with
    | nil => simp
    | @cons o k' os ks h1 h2 ih =>
      obtain ⟨i1, i2, i3, i4, i6⟩ := ih
      obtain ⟨a1, a2, a3, a4⟩ := h1
      refine ⟨by simpa using ⟨a1, i1⟩, fun ρ => by simp only [List.forall_mem_cons, i2, a4],
        fun ρ => by simp only [List.forall_mem_cons, i3, a4], fun c => by simp only [List.mem_cons, exists_eq_or_imp, i4, a3], ?_⟩
      intro hne y hy
      rcases List.mem_cons.1 hy with rfl | hy
      · exact fun hh => hne o (by simp) ((nil_congr a3).1 hh)
      · exact i6 (fun x hx => hne x (by simp [hx])) y hy
  obtain ⟨f1, f2, _, f4, _⟩ := el af
  obtain ⟨s1, _, s3, _, s6⟩ := el as
  have sne := s6 (fun o ho => (d.sub o ho).1)
  cases hfs : fs with
  | nil => rw [hfs] at hr; cases hr
  | cons f rest =>
    rw [hfs] at hr
    obtain ⟨p, hp, hr⟩ := bind_ok hr
    obtain ⟨p1, p2, p3⟩ := reduce_mul_good (f1 f (by simp [hfs])) (fun y hy => f1 y (by simp [hfs, hy])) hp
    obtain ⟨r1, r2, r3⟩ := reduce_sub_good p1 (fun y hy => ⟨s1 y hy, sne y hy⟩) hr
    rw [← hfs] at p2 p3
    obtain ⟨x', hx', kx'⟩ := r1.shows hE.noPlans hE.2
    refine ⟨x, x', hx, hx', fun c => ?_, fun ρ => ?_⟩
    · rw [r2, p2, f4, ← d.cols, g.cols]
    · rw [kx', r3, p3, f2, s3, m.key hE hx.run, d.keys]

namespace Wit

/-- `AB.join(BC) - B`, of the documentation, with a subtraction that has to stay apart. -/
def ksJoin : Except KErr KS := do
  let ab ← KS.fromTuples h0 [[.int 1, .int 2], [.int 3, .int 4]] ["A", "B"]
  let bc ← KS.fromTuples h0 [[.int 2, .int 5], [.int 2, .int 6], [.int 4, .int 5]] ["B", "C"]
  let j ← KS.join h0 ab bc
  let s ← KS.fromTuples h0 [[.int 1, .int 6]] ["A", "C"]
  KS.sub h0 j s

def partsOf (x : Except KErr KS) (split : List String) : Option (List (List String) × List (List String)) :=
  match (do let k ← x; k.decompose h0 split : Except KErr (List KS × List KS)) with
  | .ok q => some (q.1.map KS.cols, q.2.map KS.cols)
  | .error _ => none

def recombined (x : Except KErr KS) (split : List String) : Except KErr KS := do
  let k ← x
  let q ← k.decompose h0 split
  recombine h0 q.1 q.2

end Wit

open Wit

/-- The hypotheses are met: splitting on `B` takes the join apart and keeps the subtracted values, not splitting keeps
it together and merges them; both recombine to the same rows. -/
example : partsOf ksJoin ["B"] = some ([["A", "B"], ["B", "C"]], [["A", "C"]]) ∧
    partsOf ksJoin [] = some ([["A", "B", "C"]], []) ∧
    ksRows ksJoin = some [[.int 1, .int 2, .int 5], [.int 3, .int 4, .int 5]] ∧
    ksRows (recombined ksJoin ["B"]) = some [[.int 1, .int 2, .int 5], [.int 3, .int 4, .int 5]] ∧
    partsOf ksAB [] = some ([["B"], ["A"]], []) := by
  refine ⟨?_, ?_, ?_, ?_, ?_⟩ <;> decide +kernel

end Verif.KeySet
