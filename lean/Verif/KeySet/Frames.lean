import Verif.KeySet.Class
import Verif.KeySet.Traverse

/-!
# Data frames hold the keys
-/

namespace Verif.KeySet

open Verif Verif.Schema

/-- A data frame with distinct column names, rectangular, without repeated rows. -/
structure DF.OK (d : DF) : Prop where
  nodup : d.cols.Nodup
  len : ∀ r ∈ d.rows, r.length = d.cols.length
  rows : d.rows.Nodup

/-- The assignment is a row of the data frame. -/
def DF.Has (d : DF) (ρ : Assign) : Prop := d.cols.map ρ ∈ d.rows

/-- A data frame holds exactly the keys of a tree, one row each. -/
structure Denotes (E : Env) (op : Op) (d : DF) : Prop where
  ok : d.OK
  cols : ∀ c, c ∈ d.cols ↔ c ∈ op.columns
  keys : d.cols ≠ [] → ∀ ρ, op.Matches E ρ ↔ d.Has ρ
  empty : d.cols = [] → d.rows = []

/-! ## Cells -/

theorem cell_map {cols : List String} (ρ : Assign) {c : String} (h : c ∈ cols) : cell cols (cols.map ρ) c = ρ c := by
  induction cols with
  | nil => cases h
  | cons a as ih =>
    unfold cell at ih ⊢
    simp only [List.map_cons, List.zip_cons_cons, List.lookup_cons]
    by_cases hc : c = a
    · subst hc; simp
    · have : (c == a) = false := by simpa using hc
      rw [this]
      exact ih (by simpa [hc] using h)

theorem map_cell {cols : List String} {r : List Value} (nd : cols.Nodup) (h : r.length = cols.length) :
    cols.map (cell cols r) = r := by
  induction cols generalizing r with
  | nil =>
    have : r = [] := by simpa using h
    simp [this]
  | cons a as ih =>
    cases r with
    | nil => simp at h
    | cons v vs =>
      obtain ⟨ha, nd⟩ := List.nodup_cons.1 nd
      have h1 : cell (a :: as) (v :: vs) a = v := by simp [cell]
      have h2 : as.map (cell (a :: as) (v :: vs)) = as.map (cell as vs) := by
        refine List.map_congr_left (fun c hc => ?_)
        have : (c == a) = false := by
          simp only [beq_eq_false_iff_ne, ne_eq]
          rintro rfl
          exact ha hc
        simp [cell, List.lookup_cons, this]
      rw [List.map_cons, h1, h2, ih nd (by simpa using h)]

theorem eq_map_iff {cols : List String} {r : List Value} (nd : cols.Nodup) (h : r.length = cols.length) (ρ : Assign) :
    r = cols.map ρ ↔ ∀ c ∈ cols, cell cols r c = ρ c := by
  constructor
  · rintro rfl c hc
    exact cell_map ρ hc
  · intro hh
    rw [← map_cell nd h]
    exact List.map_congr_left hh

theorem has_iff {d : DF} (ok : d.OK) (ρ : Assign) : d.Has ρ ↔ ∃ r ∈ d.rows, ∀ c ∈ d.cols, cell d.cols r c = ρ c := by
  unfold DF.Has
  constructor
  · intro h
    exact ⟨_, h, fun c hc => cell_map ρ hc⟩
  · rintro ⟨r, hr, hh⟩
    rwa [← (eq_map_iff ok.nodup (ok.len r hr) ρ).2 hh]

/-! ## Operators on data frames -/

theorem crossDF_ok {a b : DF} (ha : a.OK) (hb : b.OK) (dj : ∀ c ∈ a.cols, c ∉ b.cols) :
    (crossDF a b).OK ∧ ∀ ρ, (crossDF a b).Has ρ ↔ a.Has ρ ∧ b.Has ρ := by
  refine ⟨⟨?_, ?_, ?_⟩, ?_⟩
  · exact List.Nodup.append ha.nodup hb.nodup (fun c h1 h2 => dj c h1 h2)
  · intro r hr
    obtain ⟨x, hx, hr⟩ := List.mem_flatMap.1 hr
    obtain ⟨y, hy, rfl⟩ := List.mem_map.1 hr
    simp [crossDF, ha.len x hx, hb.len y hy]
  · show (a.rows.flatMap _).Nodup
    rw [List.nodup_flatMap]
    refine ⟨fun x hx => hb.rows.map (fun y y' h => List.append_cancel_left h), ?_⟩
    refine List.Pairwise.imp_of_mem ?_ ha.rows
    intro x x' hx hx' hne r h1 h2
    obtain ⟨y, hy, rfl⟩ := List.mem_map.1 h1
    obtain ⟨y', hy', he⟩ := List.mem_map.1 h2
    have := (List.append_inj he (by rw [ha.len x hx, ha.len x' hx'])).1
    exact hne this.symm
  · intro ρ
    unfold DF.Has crossDF
    dsimp only
    rw [List.mem_flatMap]
    constructor
    · rintro ⟨x, hx, h⟩
      obtain ⟨y, hy, he⟩ := List.mem_map.1 h
      rw [List.map_append] at he
      obtain ⟨rfl, rfl⟩ := List.append_inj he (by simp [ha.len x hx])
      exact ⟨hx, hy⟩
    · rintro ⟨h1, h2⟩
      exact ⟨_, h1, List.mem_map.2 ⟨_, h2, by simp⟩⟩

theorem selectDF_has {d : DF} (ok : d.OK) {cs : List String} (sub : ∀ c ∈ cs, c ∈ d.cols) (ρ : Assign) :
    (selectDF cs d).Has ρ ↔ ∃ ρ' : Assign, (∀ c ∈ cs, ρ' c = ρ c) ∧ d.Has ρ' := by
  unfold DF.Has selectDF
  dsimp only
  rw [List.mem_map]
  constructor
  · rintro ⟨r, hr, he⟩
    refine ⟨cell d.cols r, ?_, by rwa [map_cell ok.nodup (ok.len r hr)]⟩
    exact fun c hc => List.map_inj_left.1 he c hc
  · rintro ⟨ρ', h1, h2⟩
    refine ⟨_, h2, List.map_congr_left (fun c hc => ?_)⟩
    rw [cell_map ρ' (sub c hc), h1 c hc]

/-- Selecting all columns, in another order. -/
theorem selectDF_all {d : DF} (ok : d.OK) {cs : List String} (nd : cs.Nodup) (he : ∀ c, c ∈ cs ↔ c ∈ d.cols) :
    (selectDF cs d).OK ∧ ∀ ρ, (selectDF cs d).Has ρ ↔ d.Has ρ := by
  refine ⟨⟨nd, ?_, ?_⟩, fun ρ => ?_⟩
  · intro r hr
    obtain ⟨x, _, rfl⟩ := List.mem_map.1 hr
    simp [selectDF]
  · show (d.rows.map _).Nodup
    refine List.Nodup.map_on ?_ ok.rows
    intro x hx y hy h
    rw [← map_cell ok.nodup (ok.len x hx), ← map_cell ok.nodup (ok.len y hy)]
    exact List.map_congr_left (fun c hc => List.map_inj_left.1 h c ((he c).2 hc))
  · rw [selectDF_has ok (fun c hc => (he c).1 hc)]
    constructor
    · rintro ⟨ρ', h1, h2⟩
      unfold DF.Has at h2 ⊢
      rwa [← List.map_congr_left (fun c hc => h1 c ((he c).2 hc))]
    · intro h
      exact ⟨ρ, fun _ _ => rfl, h⟩

theorem joinDF_ok {a b : DF} (ha : a.OK) (hb : b.OK) {on : List String}
    (hon : ∀ c, c ∈ on ↔ c ∈ a.cols ∧ c ∈ b.cols) :
    (joinDF on a b).OK ∧ (∀ c, c ∈ (joinDF on a b).cols ↔ c ∈ a.cols ∨ c ∈ b.cols) ∧
      ∀ ρ, (joinDF on a b).Has ρ ↔ a.Has ρ ∧ b.Has ρ := by
  unfold joinDF
  dsimp only
  generalize hrest : b.cols.filter (fun c => decide (c ∉ on)) = rest
  have hr : ∀ c, c ∈ rest ↔ c ∈ b.cols ∧ c ∉ a.cols := by
    intro c
    rw [← hrest, List.mem_filter, decide_eq_true_eq, hon]
    tauto
  have hrn : rest.Nodup := by rw [← hrest]; exact hb.nodup.filter _
  -- a row of `b` is determined by the common columns and the rest
  have hdet : ∀ x ∈ a.rows, ∀ y ∈ b.rows, ∀ y' ∈ b.rows,
      (∀ c ∈ on, cell a.cols x c = cell b.cols y c) → (∀ c ∈ on, cell a.cols x c = cell b.cols y' c) →
      rest.map (cell b.cols y) = rest.map (cell b.cols y') → y = y' := by
    intro x hx y hy y' hy' h1 h2 h3
    rw [← map_cell hb.nodup (hb.len y hy), ← map_cell hb.nodup (hb.len y' hy')]
    refine List.map_congr_left (fun c hc => ?_)
    by_cases hca : c ∈ a.cols
    · have := (hon c).2 ⟨hca, hc⟩
      rw [← h1 c this, h2 c this]
    · exact List.map_inj_left.1 h3 c ((hr c).2 ⟨hc, hca⟩)
  refine ⟨⟨?_, ?_, ?_⟩, ?_, ?_⟩
  · exact List.Nodup.append ha.nodup hrn (fun c h1 h2 => ((hr c).1 h2).2 h1)
  · intro r h
    obtain ⟨x, hx, h⟩ := List.mem_flatMap.1 h
    obtain ⟨y, hy, rfl⟩ := List.mem_map.1 h
    simp [ha.len x hx]
  · rw [List.nodup_flatMap]
    refine ⟨fun x hx => ?_, ?_⟩
    · refine List.Nodup.map_on ?_ (hb.rows.filter _)
      intro y hy y' hy' h
      rw [List.mem_filter] at hy hy'
      refine hdet x hx y hy.1 y' hy'.1 ?_ ?_ (List.append_cancel_left h)
      · simpa using hy.2
      · simpa using hy'.2
    · refine List.Pairwise.imp_of_mem ?_ ha.rows
      intro x x' hx hx' hne r h1 h2
      obtain ⟨y, hy, rfl⟩ := List.mem_map.1 h1
      obtain ⟨y', hy', he⟩ := List.mem_map.1 h2
      have := (List.append_inj he (by rw [ha.len x hx, ha.len x' hx'])).1
      exact hne this.symm
  · intro c
    rw [List.mem_append, hr]
    tauto
  · intro ρ
    unfold DF.Has
    dsimp only
    rw [List.mem_flatMap]
    constructor
    · rintro ⟨x, hx, h⟩
      obtain ⟨y, hy, he⟩ := List.mem_map.1 h
      rw [List.mem_filter] at hy
      rw [List.map_append] at he
      obtain ⟨rfl, h2⟩ := List.append_inj he (by simp [ha.len x hx])
      refine ⟨hx, ?_⟩
      rw [← (eq_map_iff hb.nodup (hb.len y hy.1) ρ).2 ?_]
      · exact hy.1
      · intro c hc
        by_cases hca : c ∈ a.cols
        · have hco := (hon c).2 ⟨hca, hc⟩
          have := hy.2
          simp only [List.all_eq_true, decide_eq_true_eq] at this
          rw [← this c hco, cell_map ρ hca]
        · exact List.map_inj_left.1 h2 c ((hr c).2 ⟨hc, hca⟩)
    · rintro ⟨h1, h2⟩
      refine ⟨_, h1, List.mem_map.2 ⟨_, List.mem_filter.2 ⟨h2, ?_⟩, ?_⟩⟩
      · simp only [List.all_eq_true, decide_eq_true_eq]
        intro c hc
        rw [cell_map ρ ((hon c).1 hc).1, cell_map ρ ((hon c).1 hc).2]
      · rw [List.map_append]
        congr 1
        exact List.map_congr_left (fun c hc => cell_map ρ ((hr c).1 hc).1)

theorem antiDF_ok {a b d : DF} (ha : a.OK) (hb : b.OK) {on : List String}
    (hsub : ∀ c ∈ on, c ∈ a.cols) (hon : ∀ c, c ∈ on ↔ c ∈ b.cols) (h : antiDF on a b = .ok d) :
    on ≠ [] ∧ d.cols = a.cols ∧ d.OK ∧ ∀ ρ, d.Has ρ ↔ a.Has ρ ∧ ¬ b.Has ρ := by
  unfold antiDF at h
  split at h
  · cases h
  rename_i hne
  cases h
  refine ⟨by simpa using hne, rfl, ⟨ha.nodup, fun r hr => ha.len r (List.mem_filter.1 hr).1, ha.rows.filter _⟩, ?_⟩
  intro ρ
  unfold DF.Has
  dsimp only
  rw [List.mem_filter]
  refine and_congr_right (fun h1 => ?_)
  simp only [Bool.not_eq_true', List.any_eq_false, List.all_eq_true, decide_eq_true_eq, not_forall]
  constructor
  · intro hh hb'
    obtain ⟨c, hc, hne⟩ := hh _ hb'
    apply hne
    rw [cell_map ρ (hsub c hc), cell_map ρ ((hon c).1 hc)]
  · intro hh y hy
    by_contra hn
    push Not at hn
    apply hh
    rw [← (eq_map_iff hb.nodup (hb.len y hy) ρ).2 ?_]
    · exact hy
    · intro c hc
      have hco := (hon c).2 hc
      rw [← hn c hco, cell_map ρ (hsub c hco)]

theorem unionDF_ok {a b : DF} (ha : a.OK) (hb : b.OK) (he : ∀ c, c ∈ a.cols ↔ c ∈ b.cols) :
    (unionDF a b).OK ∧ ∀ ρ, (unionDF a b).Has ρ ↔ a.Has ρ ∨ b.Has ρ := by
  obtain ⟨hs1, hs2⟩ := selectDF_all hb ha.nodup he
  refine ⟨⟨ha.nodup, ?_, List.nodup_dedup _⟩, fun ρ => ?_⟩
  · intro r hr
    have hr : r ∈ a.rows ++ (selectDF a.cols b).rows := List.mem_dedup.1 hr
    rcases List.mem_append.1 hr with hr | hr
    · exact ha.len r hr
    · exact hs1.len r hr
  · rw [← hs2 ρ]
    unfold DF.Has unionDF
    dsimp only
    rw [List.mem_dedup, List.mem_append]
    rfl

/-! ## Cross-joins of many -/

theorem crossAll_ok {d : DF} {ds : List DF} (hd : d.OK) (hds : ∀ e ∈ ds, e.OK)
    (nd : ((d :: ds).flatMap DF.cols).Nodup) :
    (crossAll d ds).OK ∧ (crossAll d ds).cols = (d :: ds).flatMap DF.cols ∧
      ∀ ρ, (crossAll d ds).Has ρ ↔ ∀ e ∈ d :: ds, e.Has ρ := by
  induction ds generalizing d with
  | nil => exact ⟨hd, by simp [crossAll], by simp [crossAll]⟩
  | cons e es ih =>
    have he := hds e (by simp)
    have dj : ∀ c ∈ d.cols, c ∉ e.cols := by
      intro c h1 h2
      simp only [List.flatMap_cons, List.nodup_append] at nd
      exact nd.2.2 c h1 c (by simp [h2]) rfl
    obtain ⟨h1, h2⟩ := crossDF_ok hd he dj
    obtain ⟨h3, h4, h5⟩ := ih (d := crossDF d e) h1 (fun x hx => hds x (by simp [hx])) (by
      simpa [crossDF] using nd)
    refine ⟨h3, ?_, fun ρ => ?_⟩
    · show (crossAll (crossDF d e) es).cols = _
      rw [h4]
      simp [crossDF]
    · show (crossAll (crossDF d e) es).Has ρ ↔ _
      rw [h5]
      simp [h2, and_assoc]

theorem dataframeL_ok {E : Env} {fs : List Op} {ds : List DF} (h : dataframeL E fs = .ok ds) :
    List.Forall₂ (fun f d => f.dataframe E = .ok d) (fs.filter hasCols) ds := by
  induction fs generalizing ds with
  | nil => dsimp only [dataframeL] at h; cases h; exact .nil
  | cons f fs ih =>
    dsimp only [dataframeL] at h
    split at h
    · rename_i hc
      rw [List.filter_cons_of_neg (by simp [hasCols, hc])]
      exact ih h
    · rename_i hc
      rw [List.filter_cons_of_pos (by simpa [hasCols] using hc)]
      obtain ⟨d, hd, h⟩ := bind_ok h
      obtain ⟨es, hes, h⟩ := bind_ok h
      cases pure_ok h
      exact .cons hd (ih hes)

theorem nodup_flatMap_congr {E : Env} {fs : List Op} {ds : List DF} (h : List.Forall₂ (Denotes E) fs ds)
    (nd : (fs.flatMap Op.columns).Nodup) : (ds.flatMap DF.cols).Nodup ∧
      ∀ c, c ∈ ds.flatMap DF.cols ↔ c ∈ fs.flatMap Op.columns := by
  induction h with
  | nil => simp
  | @cons f d fs ds h1 _ ih =>
    simp only [List.flatMap_cons] at nd ⊢
    obtain ⟨n1, n2, dj⟩ := List.nodup_append.1 nd
    obtain ⟨h3, h4⟩ := ih n2
    refine ⟨List.Nodup.append h1.ok.nodup h3 ?_, ?_⟩
    · intro c hc hc'
      exact dj c ((h1.cols c).1 hc) c ((h4 c).1 hc') rfl
    · intro c
      rw [List.mem_append, List.mem_append, h1.cols, h4]

theorem flatMap_filter_hasCols (fs : List Op) : (fs.filter hasCols).flatMap Op.columns = columnsL fs := by
  induction fs with
  | nil => rfl
  | cons f fs ih =>
    by_cases hc : f.columns = []
    · rw [List.filter_cons_of_neg (by simp [hasCols, hc]), ih]
      simp [columnsL, hc]
    · rw [List.filter_cons_of_pos (by simpa [hasCols] using hc), List.flatMap_cons, ih]
      rfl

/-- A cross-join's data frame holds its keys. -/
theorem cross_denotes {E : Env} {m : Bool} {fs : List Op} {ds : List DF} {d : DF} (w : (Op.cross m fs).WF)
    (h : List.Forall₂ (Denotes E) (fs.filter hasCols) (d :: ds)) : Denotes E (.cross m fs) (crossAll d ds) := by
  have nd := (check_cross w.1).2.1
  rw [← flatMap_filter_hasCols] at nd
  obtain ⟨h1, h2⟩ := nodup_flatMap_congr h nd
  have hok : ∀ (fs : List Op) (es : List DF), List.Forall₂ (Denotes E) fs es → ∀ e ∈ es, e.OK := by
    intro fs es hh
    induction hh with
    | nil => simp
    | cons a _ ih =>
      intro e he
      rcases List.mem_cons.1 he with rfl | he
      · exact a.ok
      · exact ih e he
  have hok' := hok _ _ h
  obtain ⟨h3, h4, h5⟩ := crossAll_ok (hok' d (by simp)) (fun e he => hok' e (by simp [he])) h1
  have hcne : ∀ f ∈ fs.filter hasCols, f.columns ≠ [] := by
    intro f hf
    simpa [hasCols] using (List.mem_filter.1 hf).2
  have hall : ∀ (fs : List Op) (es : List DF) (ρ : Assign), List.Forall₂ (Denotes E) fs es →
      (∀ f ∈ fs, f.columns ≠ []) → ((∀ f ∈ fs, f.Matches E ρ) ↔ ∀ e ∈ es, e.Has ρ) := by
    intro fs es ρ hh hne
    induction hh with
    | nil => simp
    | @cons f e fs es a _ ih =>
      have hcol : e.cols ≠ [] := by
        rw [Ne, nil_congr a.cols]
        exact hne f (by simp)
      simp only [List.mem_cons, forall_eq_or_imp]
      rw [ih (fun x hx => hne x (by simp [hx])), a.keys hcol ρ]
  refine ⟨h3, ?_, ?_, ?_⟩
  · intro c
    rw [h4, h2, flatMap_filter_hasCols]
    rfl
  · intro _ ρ
    rw [h5, ← hall _ _ ρ h hcne]
    show matchesL E fs ρ ↔ _
    rw [matchesL_iff]
    constructor
    · intro hh f hf
      exact hh f (List.mem_filter.1 hf).1
    · intro hh f hf
      by_cases hc : hasCols f = true
      · exact hh f (List.mem_filter.2 ⟨hf, hc⟩)
      · exact matches_of_no_columns (wfL_iff.1 w.2 f hf) (by simpa [hasCols] using hc) ρ
  · intro hemp
    exfalso
    rw [h4] at hemp
    generalize fs.filter hasCols = gs at h hcne
    cases h with
    | @cons f _ _ _ a _ =>
      have hf : f.columns ≠ [] := hcne f (by simp)
      apply hf
      rw [← nil_congr a.cols]
      simp only [List.flatMap_cons, List.append_eq_nil_iff] at hemp
      exact hemp.1

/-! ## All operations -/

/-- The data frame of a tree holds exactly its keys. -/
theorem dataframe_denotes {E : Env} {op : Op} {d : DF} (w : op.WF) (h : op.dataframe E = .ok d) : Denotes E op d := by
  induction op using Op.ind generalizing d with
  | hd cs => dsimp only [Op.dataframe] at h; cases h
  | ht ts ds =>
    dsimp only [Op.dataframe] at h
    cases h
    obtain ⟨hc, hn, hk, hl⟩ := w
    refine ⟨⟨hk, by simpa using hl, hn⟩, fun _ => Iff.rfl, ?_, ?_⟩
    · intro hne ρ
      dsimp only at hne
      have : ds ≠ [] := by simpa using hne
      simp [Op.Matches, DF.Has, this]
    · intro he
      have : ds = [] := by simpa using he
      exact (check_tuples hc).2 this
  | hf df =>
    dsimp only [Op.dataframe] at h
    cases h
    obtain ⟨hc, hn, hl⟩ := w
    refine ⟨⟨hn, by simpa using hl, List.nodup_dedup _⟩, fun _ => Iff.rfl, ?_, ?_⟩
    · intro hne ρ
      dsimp only at hne
      have : df.fields ≠ [] := by simpa using hne
      simp [Op.Matches, DF.Has, this]
    · intro he
      have : df.fields = [] := by simpa using he
      obtain ⟨_, _, _, hr⟩ := check_frame hc
      simp [hr this]
  | hc m fs ih =>
    dsimp only [Op.dataframe] at h
    split at h
    · cases h
    obtain ⟨ds, hds, h⟩ := bind_ok h
    have h2 := dataframeL_ok hds
    have hw := wfL_iff.1 w.2
    have h3 : List.Forall₂ (Denotes E) (fs.filter hasCols) ds := by
      have : ∀ (xs : List Op) (es : List DF), (∀ x ∈ xs, x ∈ fs) →
          List.Forall₂ (fun f d => f.dataframe E = .ok d) xs es → List.Forall₂ (Denotes E) xs es := by
        intro xs es hsub hh
        induction hh with
        | nil => exact .nil
        | @cons x e xs es a _ ih2 =>
          have hx := hsub x (by simp)
          exact .cons (ih x hx (hw x hx) a) (ih2 (fun y hy => hsub y (by simp [hy])))
      exact this _ _ (fun x hx => (List.mem_filter.1 hx).1) h2
    split at h
    · cases pure_ok h
      exact cross_denotes w h3
    · have hnil : fs.filter hasCols = [] := by
        generalize fs.filter hasCols = gs at h3
        cases h3; rfl
      have hcols : columnsL fs = [] := by rw [← flatMap_filter_hasCols, hnil]; rfl
      cases fs with
      | nil => dsimp only [firstDF] at h; cases h
      | cons f rest =>
        dsimp only [firstDF] at h
        have df := ih f (by simp) (hw f (by simp)) h
        have hfc : f.columns = [] := by
          dsimp only [columnsL] at hcols
          exact (List.append_eq_nil_iff.1 hcols).1
        have hdc : d.cols = [] := (nil_congr df.cols).2 hfc
        refine ⟨df.ok, ?_, fun hne => absurd hdc hne, df.empty⟩
        intro c
        show c ∈ d.cols ↔ c ∈ columnsL (f :: rest)
        rw [hcols, hdc]
  | hj l r hl hr =>
    dsimp only [Op.dataframe] at h
    obtain ⟨a, ha, h⟩ := bind_ok h
    obtain ⟨b, hb, h⟩ := bind_ok h
    cases pure_ok h
    have da := hl w.2.1 ha
    have db := hr w.2.2 hb
    obtain ⟨h1, h2, h3⟩ := joinDF_ok da.ok db.ok (on := inter l.columns r.columns) (by
      intro c; rw [mem_inter, da.cols, db.cols])
    obtain ⟨x, hx, hx'⟩ := check_join w.1
    have hane : a.cols ≠ [] := List.ne_nil_of_mem ((da.cols x).2 hx)
    have hbne : b.cols ≠ [] := List.ne_nil_of_mem ((db.cols x).2 hx')
    refine ⟨h1, ?_, ?_, ?_⟩
    · intro c
      rw [h2, mem_join_columns, da.cols, db.cols]
    · intro _ ρ
      rw [h3, ← da.keys hane, ← db.keys hbne]
      rfl
    · intro he
      exfalso
      have := (h2 x).2 (.inl ((da.cols x).2 hx))
      rw [he] at this
      cases this
  | hp c cs ih =>
    dsimp only [Op.dataframe] at h
    obtain ⟨a, ha, h⟩ := bind_ok h
    cases pure_ok h
    have da := ih w.2.2 ha
    obtain ⟨hne, hsub⟩ := check_project w.1
    have hsub' : ∀ x ∈ cs, x ∈ a.cols := fun x hx => (da.cols x).2 (hsub x hx)
    obtain ⟨x, hx⟩ := List.exists_mem_of_ne_nil cs hne
    have hane : a.cols ≠ [] := List.ne_nil_of_mem (hsub' x hx)
    refine ⟨⟨w.2.1, ?_, List.nodup_dedup _⟩, fun _ => Iff.rfl, ?_, fun he => absurd he hne⟩
    · intro r hr
      obtain ⟨y, _, rfl⟩ := List.mem_map.1 (List.mem_dedup.1 hr)
      simp [selectDF]
    · intro _ ρ
      have : DF.Has ⟨(selectDF cs a).cols, (selectDF cs a).rows.dedup⟩ ρ ↔ (selectDF cs a).Has ρ := by
        unfold DF.Has
        dsimp only
        rw [List.mem_dedup]
      rw [this, selectDF_has da.ok hsub']
      dsimp only [Op.Matches]
      exact exists_congr (fun ρ' => by rw [da.keys hane])
  | hfi c k ih =>
    dsimp only [Op.dataframe] at h
    obtain ⟨a, ha, h⟩ := bind_ok h
    cases pure_ok h
    have da := ih w.2 ha
    refine ⟨⟨da.ok.nodup, fun r hr => da.ok.len r (List.mem_filter.1 hr).1, da.ok.rows.filter _⟩, da.cols, ?_, ?_⟩
    · intro hne ρ
      dsimp only at hne
      have hcne : c.columns ≠ [] := by rwa [Ne, ← nil_congr da.cols]
      dsimp only [Op.Matches]
      rw [da.keys hne]
      unfold DF.Has
      dsimp only
      rw [List.mem_filter]
      refine and_congr_right (fun _ => ?_)
      have : restrict a.cols (cell a.cols (a.cols.map ρ)) = restrict c.columns ρ := by
        rw [← restrict_congr da.cols]
        funext x
        unfold restrict
        by_cases hx : x ∈ a.cols
        · simp [hx, cell_map ρ hx]
        · simp [hx]
      rw [this]
      simp [hcne]
    · intro he
      dsimp only at he ⊢
      rw [da.empty he]
      rfl
  | hs l r hl hr =>
    dsimp only [Op.dataframe] at h
    obtain ⟨a, ha, h⟩ := bind_ok h
    obtain ⟨b, hb, h⟩ := bind_ok h
    have da := hl w.2.1 ha
    have db := hr w.2.2 hb
    obtain ⟨hne, hcols, hok, hh⟩ := antiDF_ok da.ok db.ok
      (fun c hc => (da.cols c).2 ((check_subtract w.1).2 c hc)) (fun c => (db.cols c).symm) h
    have hbne : b.cols ≠ [] := by rwa [Ne, nil_congr db.cols]
    have hane : a.cols ≠ [] := by
      obtain ⟨x, hx⟩ := List.exists_mem_of_ne_nil _ hne
      exact List.ne_nil_of_mem ((da.cols x).2 ((check_subtract w.1).2 x hx))
    refine ⟨hok, fun c => ?_, fun _ ρ => ?_, fun he => ?_⟩
    · rw [hcols]; exact da.cols c
    · rw [hh, ← da.keys hane, ← db.keys hbne]
      dsimp only [Op.Matches]
      simp [hne]
    · rw [hcols] at he
      exact absurd he hane
  | hu l r hl hr =>
    dsimp only [Op.dataframe] at h
    obtain ⟨a, ha, h⟩ := bind_ok h
    obtain ⟨b, hb, h⟩ := bind_ok h
    cases pure_ok h
    have da := hl w.2.1 ha
    have db := hr w.2.2 hb
    have he : ∀ c, c ∈ a.cols ↔ c ∈ b.cols := by
      intro c
      rw [da.cols, db.cols]
      exact check_union w.1 c
    obtain ⟨h1, h2⟩ := unionDF_ok da.ok db.ok he
    refine ⟨h1, da.cols, fun hne ρ => ?_, fun hemp => ?_⟩
    · have hane : a.cols ≠ [] := hne
      have hbne : b.cols ≠ [] := by rwa [Ne, ← nil_congr he]
      rw [h2, ← da.keys hane, ← db.keys hbne]
      rfl
    · have hae : a.cols = [] := hemp
      have hbe : b.cols = [] := (nil_congr he).1 hae
      show (a.rows ++ (selectDF a.cols b).rows).dedup = []
      simp [selectDF, da.empty hae, db.empty hbe]

end Verif.KeySet
