import Verif.KeySet.Spec

/-!
# Traversals keep the keys

If a rule keeps the keys of the trees it is applied to, so does the traversal that applies it everywhere.
-/

namespace Verif.KeySet

open Verif Verif.Schema

theorem bind_ok {α β : Type} {x : Except KErr α} {f : α → Except KErr β} {b : β} (h : x >>= f = .ok b) :
    ∃ a, x = .ok a ∧ f a = .ok b := by
  cases x with
  | error e => cases h
  | ok a => exact ⟨a, rfl, h⟩

theorem pure_ok {α : Type} {a b : α} (h : (pure a : Except KErr α) = .ok b) : a = b := by
  cases h; rfl

/-- A rule keeps the keys, and leaves a tree that can exist and projects nothing empty. -/
def Pres (E : Env) (f : Op → Except KErr Op) : Prop :=
  ∀ op op', Good E op → f op = .ok op' → Good E op' ∧ Equiv E op op'

theorem Equiv.refl (E : Env) (a : Op) : Equiv E a a := ⟨fun _ => Iff.rfl, fun _ => Iff.rfl⟩

theorem Equiv.symm {E : Env} {a b : Op} (h : Equiv E a b) : Equiv E b a :=
  ⟨fun c => (h.1 c).symm, fun ρ => (h.2 ρ).symm⟩

theorem Equiv.trans {E : Env} {a b c : Op} (h : Equiv E a b) (h' : Equiv E b c) : Equiv E a c :=
  ⟨fun x => (h.1 x).trans (h'.1 x), fun ρ => (h.2 ρ).trans (h'.2 ρ)⟩

theorem Equiv.sat {E : Env} {a b : Op} (h : Equiv E a b) (s : a.Sat E) : b.Sat E := by
  obtain ⟨ρ, hρ⟩ := s
  exact ⟨ρ, (h.2 ρ).1 hρ⟩

theorem nil_congr {a b : List String} (h : ∀ c, c ∈ a ↔ c ∈ b) : a = [] ↔ b = [] := by
  rw [List.eq_nil_iff_forall_not_mem, List.eq_nil_iff_forall_not_mem]
  exact forall_congr' (fun c => not_congr (h c))

/-! ## Congruence -/

theorem equiv_join {E : Env} {l r l' r' : Op} (hl : Equiv E l l') (hr : Equiv E r r') :
    Equiv E (.join l r) (.join l' r') := by
  refine ⟨fun c => ?_, fun ρ => ?_⟩
  · rw [mem_join_columns, mem_join_columns, hl.1, hr.1]
  · dsimp only [Op.Matches]; rw [hl.2, hr.2]

theorem equiv_union {E : Env} {l r l' r' : Op} (hl : Equiv E l l') (hr : Equiv E r r') :
    Equiv E (.union l r) (.union l' r') := by
  refine ⟨hl.1, fun ρ => ?_⟩
  dsimp only [Op.Matches]; rw [hl.2, hr.2]

theorem equiv_subtract {E : Env} {l r l' r' : Op} (hl : Equiv E l l') (hr : Equiv E r r') :
    Equiv E (.subtract l r) (.subtract l' r') := by
  refine ⟨hl.1, fun ρ => ?_⟩
  dsimp only [Op.Matches]; rw [hl.2, hr.2, nil_congr hr.1]

theorem equiv_project {E : Env} {c c' : Op} (h : Equiv E c c') (cs : List String) :
    Equiv E (.project c cs) (.project c' cs) := by
  refine ⟨fun _ => Iff.rfl, fun ρ => ?_⟩
  dsimp only [Op.Matches]
  exact exists_congr (fun σ => by rw [h.2])

theorem restrict_congr {a b : List String} (h : ∀ c, c ∈ a ↔ c ∈ b) (ρ : Assign) : restrict a ρ = restrict b ρ := by
  funext x
  unfold restrict
  simp only [h x]

theorem equiv_filter {E : Env} {c c' : Op} (h : Equiv E c c') (k : Cond) :
    Equiv E (.filter c k) (.filter c' k) := by
  refine ⟨h.1, fun ρ => ?_⟩
  dsimp only [Op.Matches]
  rw [h.2, nil_congr h.1, restrict_congr h.1]

theorem equiv_cross {E : Env} {m m' : Bool} {fs gs : List Op} (h : List.Forall₂ (Equiv E) fs gs) :
    Equiv E (.cross m fs) (.cross m' gs) := by
  refine ⟨fun c => ?_, fun ρ => ?_⟩
  · show c ∈ columnsL fs ↔ c ∈ columnsL gs
    induction h with
    | nil => rfl
    | cons h _ ih => simp [columnsL, h.1, ih]
  · show matchesL E fs ρ ↔ matchesL E gs ρ
    induction h with
    | nil => rfl
    | cons h _ ih => simp [matchesL, h.2, ih]

/-! ## Depth first -/

theorem dfsL_ok {f : Op → Except KErr Op} {fs gs : List Op} (h : dfsL f fs = .ok gs) :
    List.Forall₂ (fun a b => dfs f a = .ok b) fs gs := by
  induction fs generalizing gs with
  | nil =>
    dsimp only [dfsL] at h
    cases h
    exact .nil
  | cons o os ih =>
    dsimp only [dfsL] at h
    obtain ⟨a, ha, h⟩ := bind_ok h
    obtain ⟨as, has, h⟩ := bind_ok h
    cases pure_ok h
    exact .cons ha (ih has)

theorem forall2_imp_mem {R S : Op → Op → Prop} {fs gs : List Op} (h : List.Forall₂ R fs gs)
    (hi : ∀ a ∈ fs, ∀ b ∈ gs, R a b → S a b) : List.Forall₂ S fs gs := by
  induction h with
  | nil => exact .nil
  | cons h1 _ ih =>
    refine .cons (hi _ (by simp) _ (by simp) h1) (ih ?_)
    intro a ha b hb
    exact hi a (by simp [ha]) b (by simp [hb])

theorem forall2_right {P : Op → Prop} {R : Op → Op → Prop} {fs gs : List Op} (h : List.Forall₂ R fs gs)
    (hi : ∀ a ∈ fs, ∀ b, R a b → P b) : ∀ b ∈ gs, P b := by
  induction h with
  | nil => simp
  | cons h1 _ ih =>
    intro b hb
    rcases List.mem_cons.1 hb with rfl | hb
    · exact hi _ (by simp) _ h1
    · exact ih (fun a ha b => hi a (by simp [ha]) b) b hb

/-- The traversal keeps the keys if the rule does. -/
theorem dfs_pres {E : Env} {f : Op → Except KErr Op} (hf : Pres E f)
    (ht : ∀ ts ds, f (.tuples ts ds) = .ok (.tuples ts ds)) : Pres E (dfs f) := by
  intro op
  induction op using Op.ind with
  | hd cs => exact fun op' g h => hf _ _ g h
  | ht ts ds => exact fun op' g h => hf _ _ g h
  | hf df => exact fun op' g h => hf _ _ g h
  | hc m fs ih =>
    intro op' g h
    dsimp only [dfs] at h
    obtain ⟨gs, hgs, h⟩ := bind_ok h
    obtain ⟨o, ho, h⟩ := bind_ok h
    obtain ⟨rfl, hc⟩ := build_ok ho
    have h2 := dfsL_ok hgs
    have gw := wfL_iff.1 g.1.2
    have gp := fineL_iff.1 g.2.1
    have key : ∀ a ∈ fs, ∀ b, dfs f a = .ok b → Good E b ∧ Equiv E a b :=
      fun a ha b hb => ih a ha b ⟨gw a ha, gp a ha⟩ hb
    have e : Equiv E (.cross m fs) (.cross m gs) :=
      equiv_cross (forall2_imp_mem h2 (fun a ha b _ hb => (key a ha b hb).2))
    have g' : Good E (.cross m gs) := by
      have := forall2_right h2 (fun a ha b hb => (key a ha b hb).1)
      refine ⟨⟨hc, wfL_iff.2 (fun b hb => (this b hb).1)⟩, fineL_iff.2 (fun b hb => (this b hb).2), fun hm => ?_⟩
      refine forall2_right h2 (fun a ha b hb => ?_)
      have := g.2.2 hm a ha
      cases a <;> simp [isTuples] at this
      dsimp only [dfs] at hb
      rw [ht] at hb
      cases hb
      rfl
    obtain ⟨g1, e1⟩ := hf _ _ g' h
    exact ⟨g1, e.trans e1⟩
  | hj l r hl hr =>
    intro op' g h
    dsimp only [dfs] at h
    obtain ⟨l', hl', h⟩ := bind_ok h
    obtain ⟨r', hr', h⟩ := bind_ok h
    obtain ⟨o, ho, h⟩ := bind_ok h
    obtain ⟨rfl, hc⟩ := build_ok ho
    obtain ⟨⟨_, wl, wr⟩, pl, pr⟩ := g
    obtain ⟨gl, el⟩ := hl l' ⟨wl, pl⟩ hl'
    obtain ⟨gr, er⟩ := hr r' ⟨wr, pr⟩ hr'
    obtain ⟨g1, e1⟩ := hf _ _ (⟨⟨hc, gl.1, gr.1⟩, gl.2, gr.2⟩ : Good E (.join l' r')) h
    exact ⟨g1, (equiv_join el er).trans e1⟩
  | hp c cs ih =>
    intro op' g h
    dsimp only [dfs] at h
    obtain ⟨c', hc', h⟩ := bind_ok h
    obtain ⟨o, ho, h⟩ := bind_ok h
    obtain ⟨rfl, hc⟩ := build_ok ho
    obtain ⟨⟨_, nd, wc⟩, ps, pc⟩ := g
    obtain ⟨gc, ec⟩ := ih c' ⟨wc, pc⟩ hc'
    obtain ⟨g1, e1⟩ := hf _ _ (⟨⟨hc, nd, gc.1⟩, ec.sat ps, gc.2⟩ : Good E (.project c' cs)) h
    exact ⟨g1, (equiv_project ec cs).trans e1⟩
  | hfi c k ih =>
    intro op' g h
    dsimp only [dfs] at h
    obtain ⟨c', hc', h⟩ := bind_ok h
    obtain ⟨o, ho, h⟩ := bind_ok h
    obtain ⟨rfl, hc⟩ := build_ok ho
    obtain ⟨⟨_, wc⟩, pc⟩ := g
    obtain ⟨gc, ec⟩ := ih c' ⟨wc, pc⟩ hc'
    obtain ⟨g1, e1⟩ := hf _ _ (⟨⟨hc, gc.1⟩, gc.2⟩ : Good E (.filter c' k)) h
    exact ⟨g1, (equiv_filter ec k).trans e1⟩
  | hs l r hl hr =>
    intro op' g h
    dsimp only [dfs] at h
    obtain ⟨l', hl', h⟩ := bind_ok h
    obtain ⟨r', hr', h⟩ := bind_ok h
    obtain ⟨o, ho, h⟩ := bind_ok h
    obtain ⟨rfl, hc⟩ := build_ok ho
    obtain ⟨⟨_, wl, wr⟩, pl, pr, pz⟩ := g
    obtain ⟨gl, el⟩ := hl l' ⟨wl, pl⟩ hl'
    obtain ⟨gr, er⟩ := hr r' ⟨wr, pr⟩ hr'
    obtain ⟨g1, e1⟩ := hf _ _ (⟨⟨hc, gl.1, gr.1⟩, gl.2, gr.2, fun h => pz ((nil_congr er.1).2 h)⟩ : Good E (.subtract l' r')) h
    exact ⟨g1, (equiv_subtract el er).trans e1⟩
  | hu l r hl hr =>
    intro op' g h
    dsimp only [dfs] at h
    obtain ⟨l', hl', h⟩ := bind_ok h
    obtain ⟨r', hr', h⟩ := bind_ok h
    obtain ⟨o, ho, h⟩ := bind_ok h
    obtain ⟨rfl, hc⟩ := build_ok ho
    obtain ⟨⟨_, wl, wr⟩, pl, pr⟩ := g
    obtain ⟨gl, el⟩ := hl l' ⟨wl, pl⟩ hl'
    obtain ⟨gr, er⟩ := hr r' ⟨wr, pr⟩ hr'
    obtain ⟨g1, e1⟩ := hf _ _ (⟨⟨hc, gl.1, gr.1⟩, gl.2, gr.2⟩ : Good E (.union l' r')) h
    exact ⟨g1, (equiv_union el er).trans e1⟩

/-! ## Projections across cross-joins -/

theorem buildAll_ok {os rs : List Op} (h : buildAll os = .ok rs) : rs = os ∧ ∀ o ∈ os, check o = .ok () := by
  induction os generalizing rs with
  | nil => cases h; simp
  | cons o os ih =>
    dsimp only [buildAll] at h
    obtain ⟨a, ha, h⟩ := bind_ok h
    obtain ⟨as, has, h⟩ := bind_ok h
    cases pure_ok h
    obtain ⟨rfl, hc⟩ := build_ok ha
    obtain ⟨rfl, hcs⟩ := ih has
    refine ⟨rfl, ?_⟩
    intro x hx
    rcases List.mem_cons.1 hx with rfl | hx
    · exact hc
    · exact hcs x hx

theorem pacL_ok {fs gs : List Op} (h : pacL fs = .ok gs) : List.Forall₂ (fun a b => pac a = .ok b) fs gs := by
  induction fs generalizing gs with
  | nil => dsimp only [pacL] at h; cases h; exact .nil
  | cons o os ih =>
    dsimp only [pacL] at h
    obtain ⟨a, ha, h⟩ := bind_ok h
    obtain ⟨as, has, h⟩ := bind_ok h
    cases pure_ok h
    exact .cons ha (ih has)

/-- The factors kept, with the columns they are projected on. -/
def kept (fs : List Op) (cs : List String) : List Op := fs.filter (fun f => !(inter f.columns cs).isEmpty)

theorem pacPL_ok {fs gs : List Op} {cs : List String} (h : pacPL fs cs = .ok gs) :
    List.Forall₂ (fun a b => pacP a (inter a.columns cs) = .ok b) (kept fs cs) gs := by
  induction fs generalizing gs with
  | nil => dsimp only [pacPL] at h; cases h; exact .nil
  | cons o os ih =>
    dsimp only [pacPL] at h
    split at h
    · rename_i he
      have : kept (o :: os) cs = kept os cs := by simp [kept, he]
      rw [this]
      exact ih h
    · rename_i he
      have : kept (o :: os) cs = o :: kept os cs := by
        simp only [Bool.not_eq_true] at he
        simp [kept, he]
      rw [this]
      obtain ⟨a, ha, h⟩ := bind_ok h
      obtain ⟨as, has, h⟩ := bind_ok h
      cases pure_ok h
      exact .cons ha (ih has)

theorem included_eq (fs : List Op) (cs : List String) :
    included fs cs = (kept fs cs).map (fun f => .project f (inter f.columns cs)) := by
  induction fs with
  | nil => rfl
  | cons f fs ih =>
    unfold included kept at ih ⊢
    rw [List.filterMap_cons, ih]
    by_cases h : (inter f.columns cs).isEmpty = true
    · rw [if_pos h, List.filter_cons_of_neg (by simp [h])]
    · rw [if_neg h, List.filter_cons_of_pos (by simpa using h)]
      rfl

/-- Combine one assignment per factor: factors do not share columns. -/
theorem glue {E : Env} {fs : List Op} (w : ∀ f ∈ fs, f.WF) (nd : (columnsL fs).Nodup) {σ : Op → Assign}
    (h : ∀ f ∈ fs, f.Matches E (σ f)) (base : Assign) :
    ∃ ρ : Assign, (∀ f ∈ fs, f.Matches E ρ) ∧ (∀ f ∈ fs, ∀ c ∈ f.columns, ρ c = σ f c) ∧
      ∀ c, c ∉ columnsL fs → ρ c = base c := by
  induction fs with
  | nil => exact ⟨base, by simp, by simp, by simp⟩
  | cons f fs ih =>
    dsimp only [columnsL] at nd
    obtain ⟨nd1, nd2, dj⟩ := List.nodup_append.1 nd
    obtain ⟨ρ, h1, h2, h3⟩ := ih (fun g hg => w g (by simp [hg])) nd2 (fun g hg => h g (by simp [hg]))
    refine ⟨fun c => if c ∈ f.columns then σ f c else ρ c, ?_, ?_, ?_⟩
    · intro g hg
      rcases List.mem_cons.1 hg with rfl | hg
      · refine (matches_congr (w g (by simp)) ?_).1 (h g (by simp))
        intro c hc
        simp [hc]
      · refine (matches_congr (w g (by simp [hg])) ?_).1 (h1 g hg)
        intro c hc
        have : c ∉ f.columns := fun hf => dj c hf c (mem_columnsL.2 ⟨g, hg, hc⟩) rfl
        simp [this]
    · intro g hg c hc
      rcases List.mem_cons.1 hg with rfl | hg
      · simp [hc]
      · have : c ∉ f.columns := fun hf => dj c hf c (mem_columnsL.2 ⟨g, hg, hc⟩) rfl
        simp [this, h2 g hg c hc]
    · intro c hc
      simp only [columnsL, List.mem_append, not_or] at hc
      simp [hc.1, h3 c hc.2]

/-- Projecting a cross-join is cross-joining the projections of the factors that keep a column, provided the factors
that are dropped are not empty. -/
theorem equiv_project_cross {E : Env} {m m' : Bool} {fs : List Op} {cs : List String} (w : (Op.cross m fs).WF)
    (hs : ∀ x ∈ cs, x ∈ columnsL fs) (sat : (Op.cross m fs).Sat E) :
    Equiv E (.project (.cross m fs) cs)
      (.cross m' ((kept fs cs).map (fun f => .project f (inter f.columns cs)))) := by
  have nd := (check_cross w.1).2.1
  have wf := wfL_iff.1 w.2
  refine ⟨fun c => ?_, fun ρ => ?_⟩
  · show c ∈ cs ↔ c ∈ columnsL _
    rw [mem_columnsL]
    constructor
    · intro hc
      obtain ⟨f, hf, hfc⟩ := mem_columnsL.1 (hs c hc)
      have hi : c ∈ inter f.columns cs := mem_inter.2 ⟨hfc, hc⟩
      refine ⟨.project f (inter f.columns cs), ?_, hi⟩
      refine List.mem_map.2 ⟨f, List.mem_filter.2 ⟨hf, ?_⟩, rfl⟩
      simpa using List.ne_nil_of_mem hi
    · rintro ⟨o, ho, hc⟩
      obtain ⟨f, _, rfl⟩ := List.mem_map.1 ho
      exact (mem_inter.1 hc).2
  · show (∃ ρ' : Assign, (∀ x ∈ cs, ρ' x = ρ x) ∧ matchesL E fs ρ') ↔ matchesL E _ ρ
    rw [matchesL_iff]
    constructor
    · rintro ⟨ρ', h1, h2⟩ o ho
      obtain ⟨f, hf, rfl⟩ := List.mem_map.1 ho
      rw [matchesL_iff] at h2
      exact ⟨ρ', fun x hx => h1 x (mem_inter.1 hx).2, h2 f (List.mem_filter.1 hf).1⟩
    · intro h
      obtain ⟨τ, hτ⟩ := sat
      have hτ' := matchesL_iff.1 (show matchesL E fs τ from hτ)
      have ex : ∀ f : Op, ∃ σ : Assign, f ∈ fs → f.Matches E σ ∧ ∀ x ∈ inter f.columns cs, σ x = ρ x := by
        intro f
        by_cases hf : f ∈ fs
        · by_cases hk : f ∈ kept fs cs
          · obtain ⟨σ, h1, h2⟩ := h (.project f (inter f.columns cs)) (List.mem_map.2 ⟨f, hk, rfl⟩)
            exact ⟨σ, fun _ => ⟨h2, h1⟩⟩
          · refine ⟨τ, fun _ => ⟨hτ' f hf, ?_⟩⟩
            intro x hx
            exfalso
            apply hk
            refine List.mem_filter.2 ⟨hf, ?_⟩
            simpa using List.ne_nil_of_mem hx
        · exact ⟨ρ, fun hf' => absurd hf' hf⟩
      choose σ hσ using ex
      obtain ⟨ρ', h1, h2, _⟩ := glue (E := E) wf nd (fun f hf => (hσ f hf).1) ρ
      refine ⟨ρ', ?_, matchesL_iff.2 h1⟩
      intro x hx
      obtain ⟨f, hf, hfx⟩ := mem_columnsL.1 (hs x hx)
      rw [h2 f hf x hfx]
      exact (hσ f hf).2 x (mem_inter.2 ⟨hfx, hx⟩)

theorem equiv_cross_single {E : Env} {m : Bool} (f : Op) : Equiv E (.cross m [f]) f := by
  refine ⟨fun c => ?_, fun ρ => ?_⟩
  · show c ∈ columnsL [f] ↔ _
    simp [columnsL]
  · show matchesL E [f] ρ ↔ _
    simp [matchesL]

/-- `pac` and `pacP` together, by induction on the tree. -/
theorem pac_pres_aux (E : Env) (op : Op) :
    (∀ op', Good E op → pac op = .ok op' → Good E op' ∧ Equiv E op op') ∧
    (∀ cs op', Good E (.project op cs) → pacP op cs = .ok op' →
      Good E op' ∧ Equiv E (.project op cs) op') := by
  -- the case of a projection of something that is not a cross-join
  have hproj : ∀ (o o' : Op) cs op', Good E (.project o cs) → Good E o' ∧ Equiv E o o' →
      build (.project o' cs) = .ok op' → Good E op' ∧ Equiv E (.project o cs) op' := by
    intro o o' cs op' g hg h
    obtain ⟨rfl, hc⟩ := build_ok h
    obtain ⟨⟨_, nd, _⟩, ps, _⟩ := g
    exact ⟨⟨⟨hc, nd, hg.1.1⟩, hg.2.sat ps, hg.1.2⟩, equiv_project hg.2 cs⟩
  have down : ∀ (o : Op) cs, Good E (.project o cs) → Good E o := fun o cs g => ⟨g.1.2.2, g.2.2⟩
  induction op using Op.ind with
  | hd ds =>
    refine ⟨fun op' g h => ?_, fun cs op' g h => ?_⟩
    · dsimp only [pac] at h; cases h; exact ⟨g, Equiv.refl _ _⟩
    · dsimp only [pacP] at h; exact hproj _ _ cs op' g ⟨down _ _ g, Equiv.refl _ _⟩ h
  | ht ts ds =>
    refine ⟨fun op' g h => ?_, fun cs op' g h => ?_⟩
    · dsimp only [pac] at h; cases h; exact ⟨g, Equiv.refl _ _⟩
    · dsimp only [pacP] at h; exact hproj _ _ cs op' g ⟨down _ _ g, Equiv.refl _ _⟩ h
  | hf df =>
    refine ⟨fun op' g h => ?_, fun cs op' g h => ?_⟩
    · dsimp only [pac] at h; cases h; exact ⟨g, Equiv.refl _ _⟩
    · dsimp only [pacP] at h; exact hproj _ _ cs op' g ⟨down _ _ g, Equiv.refl _ _⟩ h
  | hc m fs ih =>
    refine ⟨fun op' g h => ?_, fun cs op' g h => ?_⟩
    · dsimp only [pac] at h
      obtain ⟨gs, hgs, h⟩ := bind_ok h
      obtain ⟨rfl, hc⟩ := build_ok h
      have h2 := pacL_ok hgs
      have gw := wfL_iff.1 g.1.2
      have gp := fineL_iff.1 g.2.1
      have key : ∀ a ∈ fs, ∀ b, pac a = .ok b → Good E b ∧ Equiv E a b :=
        fun a ha b hb => (ih a ha).1 b ⟨gw a ha, gp a ha⟩ hb
      have := forall2_right h2 (fun a ha b hb => (key a ha b hb).1)
      refine ⟨⟨⟨hc, wfL_iff.2 (fun b hb => (this b hb).1)⟩, fineL_iff.2 (fun b hb => (this b hb).2), fun hm => ?_⟩,
        equiv_cross (forall2_imp_mem h2 (fun a ha b _ hb => (key a ha b hb).2))⟩
      refine forall2_right h2 (fun a ha b hb => ?_)
      have := g.2.2 hm a ha
      cases a <;> simp [isTuples] at this
      dsimp only [pac] at hb
      cases hb
      rfl
    · obtain ⟨⟨hcp, _, wc⟩, sat, pc⟩ := g
      have gw := wfL_iff.1 wc.2
      have gp := fineL_iff.1 pc.1
      have sub : ∀ x ∈ cs, x ∈ columnsL fs := (check_project hcp).2
      obtain ⟨τ, hτ⟩ := sat
      have hτ' := matchesL_iff.1 (show matchesL E fs τ from hτ)
      dsimp only [pacP] at h
      obtain ⟨inc, hinc, h⟩ := bind_ok h
      obtain ⟨rfl, hchk⟩ := buildAll_ok hinc
      rw [included_eq] at hchk
      have hkg : ∀ f ∈ kept fs cs, Good E (.project f (inter f.columns cs)) := by
        intro f hf
        have hfm : f ∈ fs := (List.mem_filter.1 hf).1
        refine ⟨⟨hchk _ (List.mem_map.2 ⟨f, hf, rfl⟩), (columns_nodup (gw f hfm)).filter _, gw f hfm⟩,
          ⟨τ, hτ' f hfm⟩, gp f hfm⟩
      have key : ∀ f ∈ kept fs cs, ∀ b, pacP f (inter f.columns cs) = .ok b →
          Good E b ∧ Equiv E (.project f (inter f.columns cs)) b := by
        intro f hf b hb
        exact (ih f (List.mem_filter.1 hf).1).2 _ b (hkg f hf) hb
      have e0 := equiv_project_cross (m' := false) wc sub ⟨τ, hτ⟩
      split at h
      · obtain ⟨rs, hrs, h⟩ := bind_ok h
        have h2 := pacPL_ok hrs
        split at h
        · rename_i r
          cases pure_ok h
          generalize hk : kept fs cs = ks at h2
          cases h2 with
          | cons h1 hnil =>
            cases hnil
            rename_i f
            have hfk : f ∈ kept fs cs := by rw [hk]; simp
            obtain ⟨gr, er⟩ := key f hfk _ h1
            refine ⟨gr, ?_⟩
            rw [hk] at e0
            exact e0.trans ((equiv_cross_single _).trans er)
        · cases h
      · obtain ⟨o, ho, h⟩ := bind_ok h
        obtain ⟨rs, hrs, h⟩ := bind_ok h
        obtain ⟨rfl, hc⟩ := build_ok h
        have h2 := pacPL_ok hrs
        have := forall2_right h2 (fun a ha b hb => (key a ha b hb).1)
        refine ⟨⟨⟨hc, wfL_iff.2 (fun b hb => (this b hb).1)⟩, fineL_iff.2 (fun b hb => (this b hb).2), by simp⟩, ?_⟩
        refine e0.trans (equiv_cross ?_)
        rw [List.forall₂_map_left_iff]
        exact forall2_imp_mem h2 (fun a ha b _ hb => (key a ha b hb).2)
  | hj l r hl hr =>
    have base : ∀ op' , Good E (.join l r) → pac (.join l r) = .ok op' → Good E op' ∧ Equiv E (.join l r) op' := by
      intro op' g h
      dsimp only [pac] at h
      obtain ⟨l', hl', h⟩ := bind_ok h
      obtain ⟨r', hr', h⟩ := bind_ok h
      obtain ⟨rfl, hc⟩ := build_ok h
      obtain ⟨⟨_, wl, wr⟩, pl, pr⟩ := g
      obtain ⟨gl, el⟩ := hl.1 l' ⟨wl, pl⟩ hl'
      obtain ⟨gr, er⟩ := hr.1 r' ⟨wr, pr⟩ hr'
      exact ⟨⟨⟨hc, gl.1, gr.1⟩, gl.2, gr.2⟩, equiv_join el er⟩
    refine ⟨base, fun cs op' g h => ?_⟩
    dsimp only [pacP] at h
    obtain ⟨l', hl', h⟩ := bind_ok h
    obtain ⟨r', hr', h⟩ := bind_ok h
    obtain ⟨c', hc', h⟩ := bind_ok h
    refine hproj _ _ cs op' g (base c' (down _ _ g) ?_) h
    dsimp only [pac]
    rw [hl', hr']
    exact hc'
  | hp c ds ih =>
    refine ⟨fun op' g h => ?_, fun cs op' g h => ?_⟩
    · dsimp only [pac] at h
      exact ih.2 ds op' g h
    · dsimp only [pacP] at h
      obtain ⟨c', hc', h⟩ := bind_ok h
      exact hproj _ _ cs op' g (ih.2 ds c' (down _ _ g) hc') h
  | hfi c k ih =>
    have base : ∀ op' , Good E (.filter c k) → pac (.filter c k) = .ok op' → Good E op' ∧ Equiv E (.filter c k) op' := by
      intro op' g h
      dsimp only [pac] at h
      obtain ⟨c', hc', h⟩ := bind_ok h
      obtain ⟨rfl, hc⟩ := build_ok h
      obtain ⟨⟨_, wc⟩, pc⟩ := g
      obtain ⟨gc, ec⟩ := ih.1 c' ⟨wc, pc⟩ hc'
      exact ⟨⟨⟨hc, gc.1⟩, gc.2⟩, equiv_filter ec k⟩
    refine ⟨base, fun cs op' g h => ?_⟩
    dsimp only [pacP] at h
    obtain ⟨c', hc', h⟩ := bind_ok h
    obtain ⟨d', hd', h⟩ := bind_ok h
    refine hproj _ _ cs op' g (base d' (down _ _ g) ?_) h
    dsimp only [pac]
    rw [hc']
    exact hd'
  | hs l r hl hr =>
    have base : ∀ op' , Good E (.subtract l r) → pac (.subtract l r) = .ok op' →
        Good E op' ∧ Equiv E (.subtract l r) op' := by
      intro op' g h
      dsimp only [pac] at h
      obtain ⟨l', hl', h⟩ := bind_ok h
      obtain ⟨r', hr', h⟩ := bind_ok h
      obtain ⟨rfl, hc⟩ := build_ok h
      obtain ⟨⟨_, wl, wr⟩, pl, pr, pz⟩ := g
      obtain ⟨gl, el⟩ := hl.1 l' ⟨wl, pl⟩ hl'
      obtain ⟨gr, er⟩ := hr.1 r' ⟨wr, pr⟩ hr'
      exact ⟨⟨⟨hc, gl.1, gr.1⟩, gl.2, gr.2, fun h => pz ((nil_congr er.1).2 h)⟩, equiv_subtract el er⟩
    refine ⟨base, fun cs op' g h => ?_⟩
    dsimp only [pacP] at h
    obtain ⟨l', hl', h⟩ := bind_ok h
    obtain ⟨r', hr', h⟩ := bind_ok h
    obtain ⟨c', hc', h⟩ := bind_ok h
    refine hproj _ _ cs op' g (base c' (down _ _ g) ?_) h
    dsimp only [pac]
    rw [hl', hr']
    exact hc'
  | hu l r hl hr =>
    have base : ∀ op' , Good E (.union l r) → pac (.union l r) = .ok op' → Good E op' ∧ Equiv E (.union l r) op' := by
      intro op' g h
      dsimp only [pac] at h
      obtain ⟨l', hl', h⟩ := bind_ok h
      obtain ⟨r', hr', h⟩ := bind_ok h
      obtain ⟨rfl, hc⟩ := build_ok h
      obtain ⟨⟨_, wl, wr⟩, pl, pr⟩ := g
      obtain ⟨gl, el⟩ := hl.1 l' ⟨wl, pl⟩ hl'
      obtain ⟨gr, er⟩ := hr.1 r' ⟨wr, pr⟩ hr'
      exact ⟨⟨⟨hc, gl.1, gr.1⟩, gl.2, gr.2⟩, equiv_union el er⟩
    refine ⟨base, fun cs op' g h => ?_⟩
    dsimp only [pacP] at h
    obtain ⟨l', hl', h⟩ := bind_ok h
    obtain ⟨r', hr', h⟩ := bind_ok h
    obtain ⟨c', hc', h⟩ := bind_ok h
    refine hproj _ _ cs op' g (base c' (down _ _ g) ?_) h
    dsimp only [pac]
    rw [hl', hr']
    exact hc'

theorem pac_pres (E : Env) : Pres E pac := fun op op' => (pac_pres_aux E op).1 op'

end Verif.KeySet
