import Verif.KeySet.PropsSize

/-!
# C25: equality of KeySets
-/

namespace Verif.KeySet

open Verif Verif.Schema

/-- What is assumed of Spark's `sameSemantics`: when it says that two plans are the same, they give the same rows. -/
def SameOK (same : Frame → Frame → Bool) : Prop :=
  ∀ a b, same a b = true → a.fields = b.fields → ∀ r, r ∈ a.rows ↔ r ∈ b.rows

/-! ## Equal trees mean the same -/

theorem tuplesEq_iff {a b : List (List Value)} (h : tuplesEq a b = true) : ∀ t, t ∈ a ↔ t ∈ b := by
  simp only [tuplesEq, Bool.and_eq_true, List.all_eq_true, decide_eq_true_eq] at h
  exact fun t => ⟨h.1 t, h.2 t⟩

theorem condEq_true {k k' : Cond} (h : condEq k k' = .ok true) : k = k' := by
  cases k <;> cases k' <;> simp only [condEq] at h
  · simpa using h
  · cases h
  · cases h
  · split at h
    · rename_i e; rw [e]
    · cases h

theorem opEqL_true {same : Frame → Frame → Bool} {fs gs : List Op} (h : opEqL same fs gs = .ok true) :
    List.Forall₂ (fun f g => opEq same f g = .ok true) fs gs := by
  induction fs generalizing gs with
  | nil =>
    cases gs with
    | nil => exact .nil
    | cons g gs => simp [opEqL] at h
  | cons f fs ih =>
    cases gs with
    | nil => simp [opEqL] at h
    | cons g gs =>
      dsimp only [opEqL] at h
      obtain ⟨e, he, h⟩ := bind_ok h
      split at h
      · rename_i ht
        subst ht
        exact .cons he (ih h)
      · cases pure_ok h

/-- The two halves of a comparison. -/
theorem both_true {x : Except KErr Bool} {y : Except KErr Bool}
    (h : (do let e ← x; if e then y else pure false : Except KErr Bool) = .ok true) : x = .ok true ∧ y = .ok true := by
  obtain ⟨e, he, h⟩ := bind_ok h
  split at h
  · rename_i ht
    subst ht
    exact ⟨he, h⟩
  · cases pure_ok h

theorem opEq_equiv {E : Env} {same : Frame → Frame → Bool} (hs : SameOK same) {a b : Op}
    (h : opEq same a b = .ok true) : Equiv E a b := by
  induction a using Op.ind generalizing b with
  | hd cs =>
    cases b <;> simp only [opEq] at h <;> try cases h
    rename_i cs'
    have he := setEq_iff.1 (Except.ok.inj h)
    exact ⟨he, fun ρ => E.det_congr _ _ _ _ he (fun _ _ => rfl)⟩
  | ht ts ds =>
    cases b <;> simp only [opEq] at h <;> try cases h
    rename_i ts' ds'
    have h := Except.ok.inj h
    simp only [Bool.and_eq_true, decide_eq_true_eq] at h
    obtain ⟨h1, rfl⟩ := h
    refine ⟨fun _ => Iff.rfl, fun ρ => ?_⟩
    dsimp only [Op.Matches]
    rw [tuplesEq_iff h1]
  | hf df =>
    cases b <;> simp only [opEq] at h <;> try cases h
    rename_i df'
    have h := Except.ok.inj h
    simp only [Bool.and_eq_true, decide_eq_true_eq] at h
    have hr := hs _ _ h.2 h.1
    refine ⟨fun c => ?_, fun ρ => ?_⟩
    · dsimp only [Op.columns]
      rw [h.1]
    · dsimp only [Op.Matches]
      rw [hr, h.1]
  | hc m fs ih =>
    cases b <;> simp only [opEq] at h <;> try cases h
    rename_i m' gs
    split at h
    · have hL := opEqL_true h
      refine equiv_cross (forall2_imp_mem hL ?_)
      intro f hf g _ hh
      exact ih f hf hh
    · cases h
  | hj l r hl hr =>
    cases b <;> simp only [opEq] at h <;> try cases h
    obtain ⟨h1, h2⟩ := both_true h
    exact equiv_join (hl h1) (hr h2)
  | hp c cs ih =>
    cases b <;> simp only [opEq] at h <;> try cases h
    rename_i c' cs'
    obtain ⟨h1, h2⟩ := both_true h
    have he := setEq_iff.1 (Except.ok.inj h2)
    have := ih h1
    refine ⟨he, fun ρ => ?_⟩
    dsimp only [Op.Matches]
    refine exists_congr (fun ρ' => and_congr ?_ (this.2 ρ'))
    exact forall_congr' (fun x => by rw [he])
  | hfi c k ih =>
    cases b <;> simp only [opEq] at h <;> try cases h
    obtain ⟨h1, h2⟩ := both_true h
    cases condEq_true h2
    exact equiv_filter (ih h1) _
  | hs l r hl hr =>
    cases b <;> simp only [opEq] at h <;> try cases h
    obtain ⟨h1, h2⟩ := both_true h
    exact equiv_subtract (hl h1) (hr h2)
  | hu l r hl hr =>
    cases b <;> simp only [opEq] at h <;> try cases h
    obtain ⟨h1, h2⟩ := both_true h
    exact equiv_union (hl h1) (hr h2)

theorem schemaL_total {gs : List Op} (h : ∀ f ∈ gs, ∃ s, HasSchema f s) : ∃ s, schemaL gs = .ok s ∧ Dict.WF s := by
  induction gs with
  | nil => exact ⟨[], rfl, Dict.wf_nil⟩
  | cons f gs ih =>
    obtain ⟨b, hb, wb⟩ := ih (fun x hx => h x (by simp [hx]))
    obtain ⟨a, ha, wa, _⟩ := h f (by simp)
    refine ⟨Dict.union a b, ?_, Dict.wf_union wa _⟩
    dsimp only [schemaL]
    rw [ha, hb]

theorem noPlan_factors {m : Bool} {fs : List Op} (h : (Op.cross m fs).isPlan = false) : ∀ f ∈ fs, f.isPlan = false := by
  intro f hf
  by_contra hn
  have : isPlanL fs = true := isPlanL_iff.2 ⟨f, hf, by simpa using hn⟩
  have h' : isPlanL fs = false := h
  rw [h'] at this
  cases this

/-- Equal trees have equal schemas, up to the order of columns. -/
theorem opEq_schema {same : Frame → Frame → Bool} {a b : Op} (h : opEq same a b = .ok true) (wa : a.WF) (wb : b.WF)
    (pa : a.isPlan = false) (pb : b.isPlan = false) {s t : Dict String Desc} (hs : HasSchema a s)
    (ht : HasSchema b t) : ∀ c, Dict.get s c = Dict.get t c := by
  induction a using Op.ind generalizing b s t with
  | hd cs => cases pa
  | ht ts ds =>
    cases b <;> simp only [opEq] at h <;> try cases h
    rename_i ts' ds'
    have h := Except.ok.inj h
    simp only [Bool.and_eq_true, decide_eq_true_eq] at h
    obtain ⟨h1, rfl⟩ := h
    cases hs.1
    cases ht.1
    exact fun _ => rfl
  | hf df =>
    cases b <;> simp only [opEq] at h <;> try cases h
    rename_i df'
    have h := Except.ok.inj h
    simp only [Bool.and_eq_true, decide_eq_true_eq] at h
    have h1 := hs.1
    have h2 := ht.1
    dsimp only [Op.schema] at h1 h2
    rw [h.1, h2] at h1
    cases h1
    exact fun _ => rfl
  | hc m fs ih =>
    cases b <;> simp only [opEq] at h <;> try cases h
    rename_i m' gs
    split at h
    · have hL := opEqL_true h
      have hwa := wfL_iff.1 wa.2
      have hwb := wfL_iff.1 wb.2
      have hpa := noPlan_factors pa
      have hpb := noPlan_factors pb
      have key : ∀ (xs ys : List Op), (∀ x ∈ xs, x ∈ fs) → (∀ y ∈ ys, y ∈ gs) →
          List.Forall₂ (fun f g => opEq same f g = .ok true) xs ys → ∀ s t, schemaL xs = .ok s → schemaL ys = .ok t →
          ∀ c, Dict.get s c = Dict.get t c := by
        intro xs ys hx hy hh
        induction hh with
        | nil =>
          intro s t h1 h2 c
          cases h1
          cases h2
          rfl
        | @cons x y xs ys hxy _ ih2 =>
          intro s t h1 h2 c
          obtain ⟨u, hu⟩ := schema_total (hwa x (hx x (by simp))) (hpa x (hx x (by simp)))
          obtain ⟨v, hv⟩ := schema_total (hwb y (hy y (by simp))) (hpb y (hy y (by simp)))
          obtain ⟨u', hu', wu'⟩ := schemaL_total (gs := xs) (fun f hf =>
            schema_total (hwa f (hx f (by simp [hf]))) (hpa f (hx f (by simp [hf]))))
          obtain ⟨v', hv', wv'⟩ := schemaL_total (gs := ys) (fun f hf =>
            schema_total (hwb f (hy f (by simp [hf]))) (hpb f (hy f (by simp [hf]))))
          dsimp only [schemaL] at h1 h2
          rw [hu.1, hu'] at h1
          rw [hv.1, hv'] at h2
          cases h1
          cases h2
          rw [Dict.get_union _ _ wu', Dict.get_union _ _ wv',
            ih x (hx x (by simp)) hxy (hwa x (hx x (by simp))) (hwb y (hy y (by simp))) (hpa x (hx x (by simp)))
              (hpb y (hy y (by simp))) hu hv,
            ih2 (fun z hz => hx z (by simp [hz])) (fun z hz => hy z (by simp [hz])) _ _ hu' hv']
      exact key fs gs (fun _ h => h) (fun _ h => h) hL s t hs.1 ht.1
    · cases h
  | hj l r hl hr =>
    cases b <;> simp only [opEq] at h <;> try cases h
    rename_i l' r'
    obtain ⟨h1, h2⟩ := both_true h
    simp only [Op.isPlan, Bool.or_eq_false_iff] at pa pb
    obtain ⟨u, hu⟩ := schema_total wa.2.1 pa.1
    obtain ⟨u', hu'⟩ := schema_total wa.2.2 pa.2
    obtain ⟨v, hv⟩ := schema_total wb.2.1 pb.1
    obtain ⟨v', hv'⟩ := schema_total wb.2.2 pb.2
    have e1 := hl h1 wa.2.1 wb.2.1 pa.1 pb.1 hu hv
    have e2 := hr h2 wa.2.2 wb.2.2 pa.2 pb.2 hu' hv'
    have g1 := hs.1
    have g2 := ht.1
    dsimp only [Op.schema] at g1 g2
    rw [hu.1, hu'.1] at g1
    rw [hv.1, hv'.1] at g2
    cases g1
    cases g2
    intro c
    rw [Dict.get_union _ _ (wf_map _ hu'.2.1), Dict.get_union _ _ (wf_map _ hv'.2.1), get_map, get_map, e1, e2]
    congr 2
    funext d
    unfold joinDesc
    rw [e1]
  | hp c cs ih =>
    cases b <;> simp only [opEq] at h <;> try cases h
    rename_i c' cs'
    obtain ⟨h1, h2⟩ := both_true h
    have he := setEq_iff.1 (Except.ok.inj h2)
    obtain ⟨u, hu⟩ := schema_total wa.2.2 pa
    obtain ⟨v, hv⟩ := schema_total wb.2.2 pb
    have e1 := ih h1 wa.2.2 wb.2.2 pa pb hu hv
    have g1 := hs.1
    have g2 := ht.1
    dsimp only [Op.schema] at g1 g2
    rw [hu.1] at g1
    rw [hv.1] at g2
    cases g1
    cases g2
    intro x
    rw [get_pick, get_pick, e1]
    simp only [he]
  | hfi c k ih =>
    cases b <;> simp only [opEq] at h <;> try cases h
    obtain ⟨h1, h2⟩ := both_true h
    exact ih h1 wa.2 wb.2 pa pb hs ht
  | hs l r hl hr =>
    cases b <;> simp only [opEq] at h <;> try cases h
    obtain ⟨h1, h2⟩ := both_true h
    exact hl h1 wa.2.1 wb.2.1 pa pb hs ht
  | hu l r hl hr =>
    cases b <;> simp only [opEq] at h <;> try cases h
    rename_i l' r'
    obtain ⟨h1, h2⟩ := both_true h
    simp only [Op.isPlan, Bool.or_eq_false_iff] at pa pb
    obtain ⟨u, hu⟩ := schema_total wa.2.1 pa.1
    obtain ⟨u', hu'⟩ := schema_total wa.2.2 pa.2
    obtain ⟨v, hv⟩ := schema_total wb.2.1 pb.1
    obtain ⟨v', hv'⟩ := schema_total wb.2.2 pb.2
    have e1 := hl h1 wa.2.1 wb.2.1 pa.1 pb.1 hu hv
    have e2 := hr h2 wa.2.2 wb.2.2 pa.2 pb.2 hu' hv'
    have g1 := hs.1
    have g2 := ht.1
    dsimp only [Op.schema] at g1 g2
    rw [hu.1, hu'.1] at g1
    rw [hv.1, hv'.1] at g2
    cases g1
    cases g2
    intro c
    rw [get_map, get_map, e1]
    congr 1
    funext d
    unfold unionDesc
    rw [e2]

/-! ## The specification -/

/-- Two KeySets are the same: they have the same columns with the same types, and the same rows, up to order. -/
def SameKeySet (E : Env) (a b : KS) : Prop :=
  ∃ x y s t, Shows E a x ∧ Shows E b y ∧ a.schema = .ok s ∧ b.schema = .ok t ∧
    (∀ c ty, (∃ d, (c, d) ∈ s ∧ d.ty = ty) ↔ ∃ d, (c, d) ∈ t ∧ d.ty = ty) ∧ ∀ ρ, x.Key ρ ↔ y.Key ρ

/-- The pieces for one KeySet. -/
structure Parts (E : Env) (k : KS) (x : DF) (s : Dict String Desc) : Prop where
  shows : Shows E k x
  run : k.schema = .ok s
  wf : Dict.WF s
  keys : Dict.keys s = k.cols
  key : ∀ ρ, x.Key ρ ↔ k.op.Matches E ρ
  tree : ∃ t, HasSchema k.op t ∧ ∀ c, Dict.get s c = Dict.get t c

theorem Made.parts {E : Env} (hE : Real E) {hsh : Op → Except KErr ℤ} {k : KS} (m : Made E hsh k) :
    ∃ x s, Parts E k x s := by
  have g := m.good hE
  obtain ⟨s, t, _, hts, hs, hk, hg⟩ := g.schema hE
  obtain ⟨x, hx⟩ := C23_dataframe hE m
  refine ⟨x, s, hx, hs, ?_, hk, fun ρ => m.key hE hx.run ρ, t, hts, hg⟩
  rw [Dict.wf_iff, hk]
  exact g.nodup

theorem Parts.same {E : Env} {a b : KS} {x y : DF} {s t : Dict String Desc} (pa : Parts E a x s) (pb : Parts E b y t) :
    SameKeySet E a b ↔ (∀ c, (Dict.get s c).map Desc.ty = (Dict.get t c).map Desc.ty) ∧ ∀ ρ, x.Key ρ ↔ y.Key ρ := by
  have hmem : ∀ (u : Dict String Desc), Dict.WF u → ∀ c ty, (∃ d, (c, d) ∈ u ∧ d.ty = ty) ↔
      (Dict.get u c).map Desc.ty = some ty := by
    intro u wu c ty
    rw [Option.map_eq_some_iff]
    exact exists_congr (fun d => by rw [Dict.get_eq_some wu])
  constructor
  · rintro ⟨x', y', s', t', h1, h2, h3, h4, h5, h6⟩
    cases h1.unique pa.shows.run
    cases h2.unique pb.shows.run
    rw [pa.run] at h3
    rw [pb.run] at h4
    cases h3
    cases h4
    refine ⟨fun c => ?_, h6⟩
    refine Option.ext (fun ty => ?_)
    rw [← hmem s pa.wf, ← hmem t pb.wf]
    exact h5 c ty
  · rintro ⟨h5, h6⟩
    refine ⟨x, y, s, t, pa.shows, pb.shows, pa.run, pb.run, fun c ty => ?_, h6⟩
    rw [hmem s pa.wf, hmem t pb.wf, h5]

theorem typesOf_same {s t : Dict String Desc} (ws : Dict.WF s) (wt : Dict.WF t) :
    Dict.pyEq (typesOf s) (typesOf t) = true ↔ ∀ c, (Dict.get s c).map Desc.ty = (Dict.get t c).map Desc.ty := by
  have hget : ∀ (u : Dict String Desc) (c : String), Dict.get (typesOf u) c = (Dict.get u c).map Desc.ty := by
    intro u c
    induction u with
    | nil => rfl
    | cons p u ih =>
      show Dict.get ((p.1, p.2.ty) :: typesOf u) c = _
      rw [Dict.get_cons, Dict.get_cons, ih]
      by_cases h : c = p.1 <;> simp [h]
  have hw : ∀ (u : Dict String Desc), Dict.WF u → Dict.WF (typesOf u) := by
    intro u wu
    unfold Dict.WF typesOf at *
    rwa [List.map_map]
  rw [Dict.pyEq_iff (hw s ws) (hw t wt)]
  constructor
  · intro h c
    rw [← hget, ← hget]
    refine Option.ext (fun ty => ?_)
    rw [Dict.get_eq_some (hw s ws), Dict.get_eq_some (hw t wt)]
    exact h c ty
  · intro h c ty
    rw [← Dict.get_eq_some (hw s ws), ← Dict.get_eq_some (hw t wt), hget, hget, h]

section
variable {E : Env} (hE : Real E) {hsh : Op → Except KErr ℤ} {same : Frame → Frame → Bool} (hs : SameOK same)
include hE hs

theorem isEquivalent_cases {a b : KS} (ma : Made E hsh a) (mb : Made E hsh b) {x y : DF} {s t : Dict String Desc}
    (pa : Parts E a x s) (pb : Parts E b y t) {v : Option Bool} (h : a.isEquivalent same b = .ok v) :
    (v = some true → SameKeySet E a b) ∧ (v = some false → ¬ SameKeySet E a b) ∧
      (v = none → ∀ c, (Dict.get s c).map Desc.ty = (Dict.get t c).map Desc.ty) := by
  unfold KS.isEquivalent at h
  obtain ⟨e, he, h⟩ := bind_ok h
  split at h
  · rename_i ht
    subst ht
    cases pure_ok h
    refine ⟨fun _ => ?_, by simp, by simp⟩
    have ga := ma.good hE
    have gb := mb.good hE
    obtain ⟨u, hu, hu'⟩ := pa.tree
    obtain ⟨w, hw, hw'⟩ := pb.tree
    have h1 := opEq_schema he ga.op.1 gb.op.1 (fine_noPlan hE.noPlans ga.op.2) (fine_noPlan hE.noPlans gb.op.2) hu hw
    have h2 := opEq_equiv (E := E) hs he
    refine (pa.same pb).2 ⟨fun c => ?_, fun ρ => ?_⟩
    · rw [hu', hw', h1]
    · rw [pa.key, pb.key, h2.2]
  · rw [pa.run, pb.run] at h
    change (if Dict.pyEq (typesOf s) (typesOf t) = true then _ else _) = _ at h
    split at h
    · rename_i hp
      cases pure_ok h
      exact ⟨by simp, by simp, fun _ => (typesOf_same pa.wf pb.wf).1 hp⟩
    · rename_i hp
      cases pure_ok h
      refine ⟨by simp, fun _ hsame => hp ?_, by simp⟩
      exact (typesOf_same pa.wf pb.wf).2 ((pa.same pb).1 hsame).1

/-- C25: `is_equivalent` never says True of KeySets that differ, and never False of KeySets that are the same. -/
theorem C25_is_equivalent {a b : KS} (ma : Made E hsh a) (mb : Made E hsh b) {v : Bool}
    (h : a.isEquivalent same b = .ok (some v)) : v = true ↔ SameKeySet E a b := by
  obtain ⟨x, s, pa⟩ := ma.parts hE
  obtain ⟨y, t, pb⟩ := mb.parts hE
  obtain ⟨h1, h2, _⟩ := isEquivalent_cases hE hs ma mb pa pb h
  cases v with
  | true => simpa using h1 rfl
  | false => simpa using h2 rfl

omit hE hs in
theorem exceptAll_nil {a b : List (List Value)} (na : a.Nodup) : (exceptAll a b).length = 0 ↔ ∀ r ∈ a, r ∈ b := by
  unfold exceptAll
  rw [List.length_eq_zero_iff, List.eq_nil_iff_forall_not_mem]
  refine forall_congr' (fun r => ?_)
  rw [na.mem_diff_iff]
  tauto

/-- C25: whenever `==` answers, it says whether the KeySets have the same columns with the same types and the same
rows. -/
theorem C25_eq {a b : KS} (ma : Made E hsh a) (mb : Made E hsh b) {v : Bool} (h : a.eq E same b = .ok v) :
    v = true ↔ SameKeySet E a b := by
  obtain ⟨x, s, pa⟩ := ma.parts hE
  obtain ⟨y, t, pb⟩ := mb.parts hE
  unfold KS.eq at h
  obtain ⟨e, he, h⟩ := bind_ok h
  split at h
  · cases pure_ok h
    exact C25_is_equivalent hE hs ma mb he
  · have hty := (isEquivalent_cases hE hs ma mb pa pb he).2.2 rfl
    rw [pa.shows.run, pb.shows.run] at h
    change (if (exceptAll (selectDF a.cols x).rows (selectDF a.cols y).rows).length ≠ 0 then _ else _) = _ at h
    -- the columns are the same
    have hcols : ∀ c, c ∈ a.cols ↔ c ∈ b.cols := by
      intro c
      rw [← pa.keys, ← pb.keys, ← Dict.get_isSome, ← Dict.get_isSome, ← Option.isSome_map (f := Desc.ty), hty,
        Option.isSome_map]
    have okx : x.OK := ⟨pa.shows.nodup, pa.shows.len, pa.shows.rows⟩
    have oky : y.OK := ⟨pb.shows.nodup, pb.shows.len, pb.shows.rows⟩
    have na : a.cols.Nodup := pa.shows.cols ▸ pa.shows.nodup
    obtain ⟨o1, k1⟩ := selectDF_all okx na (fun c => by rw [pa.shows.cols])
    obtain ⟨o2, k2⟩ := selectDF_all oky na (fun c => by rw [pb.shows.cols, hcols])
    have hkey : (∀ ρ, x.Key ρ ↔ y.Key ρ) ↔ ∀ r, r ∈ (selectDF a.cols x).rows ↔ r ∈ (selectDF a.cols y).rows := by
      by_cases hz : a.cols = []
      · have hzb : b.cols = [] := (nil_congr hcols).1 hz
        have hx : x.cols = [] := pa.shows.cols.trans hz
        have hy : y.cols = [] := pb.shows.cols.trans hzb
        simp [DF.Key, hx, hy, selectDF, pa.shows.empty hx, pb.shows.empty hy]
      · have hzb : b.cols ≠ [] := fun h => hz ((nil_congr hcols).2 h)
        have hx : x.cols ≠ [] := by rwa [pa.shows.cols]
        have hy : y.cols ≠ [] := by rwa [pb.shows.cols]
        have e1 : ∀ ρ, x.Key ρ ↔ a.cols.map ρ ∈ (selectDF a.cols x).rows := fun ρ => by
          have := k1 ρ
          unfold DF.Has at this
          unfold DF.Key
          simp only [hx, false_or]
          exact this.symm
        have e2 : ∀ ρ, y.Key ρ ↔ a.cols.map ρ ∈ (selectDF a.cols y).rows := fun ρ => by
          have := k2 ρ
          unfold DF.Has at this
          unfold DF.Key
          simp only [hy, false_or]
          exact this.symm
        constructor
        · intro h r
          have hl : r.length = a.cols.length → (r ∈ (selectDF a.cols x).rows ↔ r ∈ (selectDF a.cols y).rows) := by
            intro hl
            rw [← map_cell na hl, ← e1, ← e2, h]
          constructor
          · intro hr
            exact (hl (o1.len r hr)).1 hr
          · intro hr
            exact (hl (o2.len r hr)).2 hr
        · intro h ρ
          rw [e1, e2, h]
    have hspec : SameKeySet E a b ↔ ∀ r, r ∈ (selectDF a.cols x).rows ↔ r ∈ (selectDF a.cols y).rows := by
      rw [pa.same pb, hkey]
      exact and_iff_right hty
    rw [hspec]
    have n1 := exceptAll_nil (b := (selectDF a.cols y).rows) o1.rows
    have n2 := exceptAll_nil (b := (selectDF a.cols x).rows) o2.rows
    split at h
    · rename_i hne
      cases pure_ok h
      simp only [Bool.false_eq_true, false_iff]
      exact fun hh => hne (n1.2 (fun r hr => (hh r).1 hr))
    rename_i hz1
    split at h
    · rename_i hne
      cases pure_ok h
      simp only [Bool.false_eq_true, false_iff]
      exact fun hh => hne (n2.2 (fun r hr => (hh r).2 hr))
    rename_i hz2
    cases pure_ok h
    simp only [true_iff]
    exact fun r => ⟨n1.1 (not_not.1 hz1) r, n2.1 (not_not.1 hz2) r⟩

theorem SameKeySet.symm' {a b : KS} (h : SameKeySet E a b) : SameKeySet E b a := by
  obtain ⟨x, y, s, t, h1, h2, h3, h4, h5, h6⟩ := h
  exact ⟨y, x, t, s, h2, h1, h4, h3, fun c ty => (h5 c ty).symm, fun ρ => (h6 ρ).symm⟩

/-- C25: `==` is an equivalence wherever it answers. -/
theorem C25_equivalence :
    (∀ {a : KS} {v : Bool}, Made E hsh a → a.eq E same a = .ok v → v = true) ∧
    (∀ {a b : KS} {v w : Bool}, Made E hsh a → Made E hsh b → a.eq E same b = .ok v → b.eq E same a = .ok w → v = w) ∧
    (∀ {a b c : KS} {v : Bool}, Made E hsh a → Made E hsh b → Made E hsh c → a.eq E same b = .ok true →
      b.eq E same c = .ok true → a.eq E same c = .ok v → v = true) := by
  refine ⟨?_, ?_, ?_⟩
  · intro a v ma h
    rw [C25_eq hE hs ma ma h]
    obtain ⟨x, s, pa⟩ := ma.parts hE
    exact (pa.same pa).2 ⟨fun _ => rfl, fun _ => Iff.rfl⟩
  · intro a b v w ma mb h h'
    have h1 := C25_eq hE hs ma mb h
    have h2 := C25_eq hE hs mb ma h'
    have : v = true ↔ w = true :=
      h1.trans (Iff.trans ⟨fun q => q.symm' hE hs, fun q => q.symm' hE hs⟩ h2.symm)
    cases v <;> cases w <;> simp_all
  · intro a b c v ma mb mc h1 h2 h3
    rw [C25_eq hE hs ma mc h3]
    obtain ⟨x, s, pa⟩ := ma.parts hE
    obtain ⟨y, t, pb⟩ := mb.parts hE
    obtain ⟨z, u, pc⟩ := mc.parts hE
    have e1 := (pa.same pb).1 ((C25_eq hE hs ma mb h1).1 rfl)
    have e2 := (pb.same pc).1 ((C25_eq hE hs mb mc h2).1 rfl)
    exact (pa.same pc).2 ⟨fun c => (e1.1 c).trans (e2.1 c), fun ρ => (e1.2 ρ).trans (e2.2 ρ)⟩

/-- C25, hashes: equal KeySets with their columns in the same order and with the same flags for nulls, NaNs and
infinities have the same hash. Missing: equal KeySets that differ in these, for which it fails (`C25_hash_fails`). -/
theorem C25_hash_partial {β : Type} (H : List (String × Desc) → β) {a b : KS} (ma : Made E hsh a) (mb : Made E hsh b)
    (h : a.eq E same b = .ok true) (ho : a.cols = b.cols)
    (hn : ∀ s t c d e, a.schema = .ok s → b.schema = .ok t → (c, d) ∈ s → (c, e) ∈ t →
      d.allowNull = e.allowNull ∧ d.allowNan = e.allowNan ∧ d.allowInf = e.allowInf) :
    ∃ v, a.hash H = .ok v ∧ b.hash H = .ok v := by
  obtain ⟨x, s, pa⟩ := ma.parts hE
  obtain ⟨y, t, pb⟩ := mb.parts hE
  have e := ((pa.same pb).1 ((C25_eq hE hs ma mb h).1 rfl)).1
  have hst : s = t := by
    refine Dict.ext_get pa.wf pb.wf (by rw [pa.keys, pb.keys, ho]) (fun c => ?_)
    have hc := e c
    cases hd : Dict.get s c with
    | none =>
      rw [hd] at hc
      cases hd' : Dict.get t c with
      | none => rfl
      | some d' => rw [hd'] at hc; cases hc
    | some d =>
      rw [hd] at hc
      cases hd' : Dict.get t c with
      | none => rw [hd'] at hc; cases hc
      | some d' =>
        rw [hd'] at hc
        have hty : d.ty = d'.ty := by simpa using hc
        obtain ⟨f1, f2, f3⟩ := hn s t c d d' pa.run pb.run (Dict.mem_of_get hd) (Dict.mem_of_get hd')
        cases d
        cases d'
        simp_all
  subst hst
  refine ⟨FrozenDict.pyHash H (FrozenDict.fromDict s), ?_, ?_⟩
  · unfold KS.hash
    rw [pa.run]
    rfl
  · unfold KS.hash
    rw [pb.run]
    rfl

end

/-- The two halves of a comparison. -/
theorem both_error {x : Except KErr Bool} {y : Except KErr Bool} {e : KErr} (hx : ∀ e, x = .error e → e = .value)
    (hy : ∀ e, y = .error e → e = .value)
    (h : (do let e ← x; if e then y else pure false : Except KErr Bool) = .error e) : e = .value := by
  cases x with
  | error e' =>
    cases h
    exact hx _ rfl
  | ok v =>
    cases v with
    | true => exact hy e h
    | false => cases h

theorem condEq_error {k k' : Cond} {e : KErr} (h : condEq k k' = .error e) : e = .value := by
  cases k <;> cases k' <;> simp only [condEq] at h
  · cases h
  · cases h; rfl
  · cases h; rfl
  · split at h
    · cases h
    · cases h; rfl

theorem opEq_error {same : Frame → Frame → Bool} {a b : Op} {e : KErr} (h : opEq same a b = .error e) :
    e = .value := by
  induction a using Op.ind generalizing b e with
  | hd cs => cases b <;> simp only [opEq] at h <;> cases h
  | ht ts ds => cases b <;> simp only [opEq] at h <;> cases h
  | hf df => cases b <;> simp only [opEq] at h <;> cases h
  | hc m fs ih =>
    cases b <;> simp only [opEq] at h <;> try cases h
    rename_i m' gs
    split at h
    · have key : ∀ (xs ys : List Op), (∀ x ∈ xs, x ∈ fs) → ∀ e, opEqL same xs ys = .error e → e = .value := by
        intro xs
        induction xs with
        | nil =>
          intro ys _ e h
          cases ys <;> simp only [opEqL] at h <;> cases h
        | cons x xs ih2 =>
          intro ys hx e h
          cases ys with
          | nil => simp only [opEqL] at h; cases h
          | cons y ys =>
            simp only [opEqL] at h
            exact both_error (fun e he => ih x (hx x (by simp)) he) (fun e he => ih2 ys (fun z hz => hx z (by simp [hz])) e he) h
      exact key fs gs (fun _ h => h) e h
    · cases h
  | hj l r hl hr =>
    cases b <;> simp only [opEq] at h <;> try cases h
    exact both_error (fun _ h => hl h) (fun _ h => hr h) h
  | hp c cs ih =>
    cases b <;> simp only [opEq] at h <;> try cases h
    exact both_error (fun _ h => ih h) (fun _ h => by cases h) h
  | hfi c k ih =>
    cases b <;> simp only [opEq] at h <;> try cases h
    exact both_error (fun _ h => ih h) (fun _ h => condEq_error h) h
  | hs l r hl hr =>
    cases b <;> simp only [opEq] at h <;> try cases h
    exact both_error (fun _ h => hl h) (fun _ h => hr h) h
  | hu l r hl hr =>
    cases b <;> simp only [opEq] at h <;> try cases h
    exact both_error (fun _ h => hl h) (fun _ h => hr h) h

/-- C25: `==` answers, or raises the `ValueError` of `C25_column_conditions_raise`; nothing else goes wrong. -/
theorem C25_eq_answers {E : Env} (hE : Real E) {hsh : Op → Except KErr ℤ} (same : Frame → Frame → Bool) {a b : KS}
    (ma : Made E hsh a) (mb : Made E hsh b) : (∃ v, a.eq E same b = .ok v) ∨ a.eq E same b = .error .value := by
  obtain ⟨x, s, pa⟩ := ma.parts hE
  obtain ⟨y, t, pb⟩ := mb.parts hE
  unfold KS.eq KS.isEquivalent
  cases h : opEq same a.op b.op with
  | error e =>
    right
    rw [opEq_error h]
    rfl
  | ok v =>
    left
    cases v with
    | true => exact ⟨true, rfl⟩
    | false =>
      rw [pa.run, pb.run, pa.shows.run, pb.shows.run]
      show ∃ v, ((if Dict.pyEq (typesOf s) (typesOf t) = true then pure none else pure (some false) :
        Except KErr (Option Bool)) >>= _) = Except.ok v
      split
      · change ∃ v, (if (exceptAll (selectDF a.cols x).rows (selectDF a.cols y).rows).length ≠ 0 then
            (pure false : Except KErr Bool)
          else if (exceptAll (selectDF a.cols y).rows (selectDF a.cols x).rows).length ≠ 0 then pure false
          else pure true) = Except.ok v
        split
        · exact ⟨_, rfl⟩
        · split <;> exact ⟨_, rfl⟩
      · exact ⟨_, rfl⟩

/-- C25 for plans: when `is_equivalent` or `==` says True, the plans have the same columns and will have the same keys,
whatever is detected. -/
theorem C25_plan_equivalent {E : Env} {same : Frame → Frame → Bool} (hs : SameOK same) {a b : KS}
    (h : a.planIsEquivalent same b = .ok (some true) ∨ a.planEq same b = .ok true) : Equiv E a.op b.op := by
  have key : a.planIsEquivalent same b = .ok (some true) → Equiv E a.op b.op := by
    intro h
    unfold KS.planIsEquivalent at h
    obtain ⟨e, he, h⟩ := bind_ok h
    split at h
    · rename_i ht
      subst ht
      exact opEq_equiv hs he
    · split at h <;> cases pure_ok h
  rcases h with h | h
  · exact key h
  · unfold KS.planEq at h
    obtain ⟨e, he, h⟩ := bind_ok h
    cases e with
    | none => cases pure_ok h
    | some v =>
      cases pure_ok h
      exact key he

theorem opEqL_self {same : Frame → Frame → Bool} : ∀ (fs : List Op), (∀ f ∈ fs, opEq same f f = .ok true) →
    opEqL same fs fs = .ok true
  | [], _ => rfl
  | f :: fs, h => by
    rw [opEqL, h f (by simp)]
    exact opEqL_self fs (fun g hg => h g (by simp [hg]))

theorem setEq_self (a : List String) : setEq a a = true := setEq_iff.2 (fun _ => Iff.rfl)

/-- A tree equals itself, also with `Column`s in conditions, which are the same objects. -/
theorem opEq_self {same : Frame → Frame → Bool} (hr : ∀ f, same f f = true) (a : Op) : opEq same a a = .ok true := by
  induction a using Op.ind with
  | hd cs => rw [opEq, setEq_self]
  | ht ts ds =>
    rw [opEq]
    simp [tuplesEq]
  | hf df =>
    rw [opEq]
    simp [hr]
  | hc m fs ih =>
    rw [opEq, if_pos rfl]
    exact opEqL_self fs ih
  | hj l r h1 h2 =>
    rw [opEq, h1]
    exact h2
  | hp c cs h1 =>
    rw [opEq, h1]
    exact congrArg Except.ok (setEq_self cs)
  | hfi c k h1 =>
    rw [opEq, h1]
    cases k <;> simp [condEq, bind, Except.bind]
  | hs l r h1 h2 =>
    rw [opEq, h1]
    exact h2
  | hu l r h1 h2 =>
    rw [opEq, h1]
    exact h2

/-- C25: a KeySet equals itself, without being evaluated. -/
theorem C25_self {E : Env} {same : Frame → Frame → Bool} (hr : ∀ f, same f f = true) (a : KS) :
    a.isEquivalent same a = .ok (some true) ∧ a.eq E same a = .ok true := by
  have h : a.isEquivalent same a = .ok (some true) := by
    unfold KS.isEquivalent
    rw [opEq_self hr]
    rfl
  refine ⟨h, ?_⟩
  unfold KS.eq
  rw [h]
  rfl

/-- C25 for plans: a plan equals itself, and `is_equivalent` says False only if columns differ. -/
theorem C25_plan_self {same : Frame → Frame → Bool} (hr : ∀ f, same f f = true) (a b : KS) :
    a.planIsEquivalent same a = .ok (some true) ∧ a.planEq same a = .ok true ∧
      (a.planIsEquivalent same b = .ok (some false) → a.cols ≠ b.cols) := by
  have h : a.planIsEquivalent same a = .ok (some true) := by
    unfold KS.planIsEquivalent
    rw [opEq_self hr]
    rfl
  refine ⟨h, ?_, fun hf => ?_⟩
  · unfold KS.planEq
    rw [h]
    rfl
  · unfold KS.planIsEquivalent at hf
    obtain ⟨e, he, hf⟩ := bind_ok hf
    split at hf
    · cases pure_ok hf
    · split at hf
      · rename_i hne
        exact of_decide_eq_true hne
      · cases pure_ok hf

/-! ## Witnesses -/

namespace Wit

/-- `sameSemantics` that only knows identical data. -/
def sameId (a b : Frame) : Bool := decide (a = b)

def eqOf (x y : Except KErr KS) : Except KErr Bool := do
  let a ← x
  let b ← y
  a.eq envL sameId b

/-- The hash under a hash function without collisions. -/
def hashOf (x : Except KErr KS) : Except KErr (List (String × Desc)) := do
  let a ← x
  a.hash id

def ksXY : Except KErr KS := KS.fromDict h0 [("A", [.int 1, .int 2]), ("B", [.int 3, .int 4])]
def ksYX : Except KErr KS := KS.fromDict h0 [("B", [.int 3, .int 4]), ("A", [.int 1, .int 2])]
/-- One row, from a column declared nullable. -/
def ksNullable : Except KErr KS := KS.fromDataframe h0 ⟨[⟨"A", .long, true⟩], [[.int 1], [.int 2]]⟩
def ksNotNull : Except KErr KS := KS.fromTuples h0 [[.int 1], [.int 2]] ["A"]

end Wit

open Wit

theorem sameId_ok : SameOK sameId := by
  intro a b h _ r
  rw [of_decide_eq_true (show decide (a = b) = true from h)]

/-- C25 fails for hashes: the KeySets `ks1` and `ks2` of the documentation of `==` are equal and hash differently, and
so do KeySets that differ in whether a column might contain nulls. -/
theorem C25_hash_fails :
    (eqOf ksXY ksYX = .ok true ∧ hashOf ksXY ≠ hashOf ksYX ∧ (hashOf ksXY).isOk = true ∧ (hashOf ksYX).isOk = true) ∧
    (eqOf ksNullable ksNotNull = .ok true ∧ hashOf ksNullable ≠ hashOf ksNotNull ∧ (hashOf ksNullable).isOk = true ∧
      (hashOf ksNotNull).isOk = true) := by
  refine ⟨⟨?_, ?_, ?_, ?_⟩, ⟨?_, ?_, ?_, ?_⟩⟩ <;> decide +kernel

/-- C25: comparing KeySets filtered with different Spark `Column` conditions raises `ValueError`. -/
theorem C25_column_conditions_raise :
    eqOf (do let a ← ksA; KS.filter h0 a (.col 0)) (do let a ← ksA; KS.filter h0 a (.col 1)) = .error .value ∧
    eqOf (do let a ← ksA; KS.filter h0 a (.sql "A > 0")) (do let a ← ksA; KS.filter h0 a (.sql "A > 1")) =
      .ok true := by
  constructor <;> decide +kernel

/-- C25 for plans: `is_equivalent` says False, though it only should when the plans are shown to differ, of plans that
have the same keys with their columns in another order. -/
theorem C25_plan_column_order_fails :
    ∃ a b : KS, (do let d ← KS.detect h0 ["A"]
                    let x ← KS.fromTuples h0 [[.int 1]] ["B"]
                    let y ← KS.fromTuples h0 [[.int 2]] ["B"]
                    let u ← KS.union h0 x y
                    KS.planMul h0 d u) = .ok a ∧
      (do let d ← KS.detect h0 ["A"]
          let x ← KS.fromTuples h0 [[.int 1], [.int 2]] ["B"]
          KS.planMul h0 x d) = .ok b ∧
      a.planIsEquivalent sameId b = .ok (some false) ∧ ∀ E, Equiv E a.op b.op := by
  refine ⟨_, _, rfl, rfl, by decide +kernel, fun E => ⟨fun c => ?_, fun ρ => ?_⟩⟩
  · simp [Op.columns, columnsL]
  · simp only [Op.Matches, matchesL, List.mem_dedup]
    simp

/-- The hypotheses are met: equal KeySets of different construction, and different ones. -/
example : Real envL ∧ SameOK sameId ∧ eqOf ksXY ksYX = .ok true ∧ eqOf ksXY ksAB = .ok false ∧
    eqOf ksA ksNotNull = .ok true ∧ eqOf ksA (KS.fromTuples h0 [[.int 1]] ["A"]) = .ok false := by
  refine ⟨⟨rfl, id⟩, sameId_ok, ?_, ?_, ?_, ?_⟩ <;> decide +kernel

end Verif.KeySet
