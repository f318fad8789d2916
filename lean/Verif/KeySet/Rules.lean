import Verif.KeySet.Traverse

/-!
# Every rule keeps the keys
-/

namespace Verif.KeySet

open Verif Verif.Schema

/-! ## Trees as conjunctions -/

/-- The keys of a tree are those of all the given trees at once. -/
def Rep (E : Env) (o : Op) (fs : List Op) : Prop :=
  (∀ c, c ∈ o.columns ↔ ∃ f ∈ fs, c ∈ f.columns) ∧ ∀ ρ, o.Matches E ρ ↔ ∀ f ∈ fs, f.Matches E ρ

theorem rep_self (E : Env) (o : Op) : Rep E o [o] := by
  constructor <;> simp

theorem rep_cross (E : Env) (m : Bool) (fs : List Op) : Rep E (.cross m fs) fs :=
  ⟨fun _ => mem_columnsL, fun _ => matchesL_iff⟩

theorem rep_join (E : Env) (l r : Op) : Rep E (.join l r) [l, r] := by
  refine ⟨fun c => ?_, fun ρ => ?_⟩
  · rw [mem_join_columns]; simp
  · simp [Op.Matches]

theorem rep_factorsOf (E : Env) (o : Op) : Rep E o (factorsOf o) := by
  cases o with
  | cross m fs => exact rep_cross E m fs
  | detect _ => exact rep_self E _
  | tuples _ _ => exact rep_self E _
  | frame _ => exact rep_self E _
  | join _ _ => exact rep_self E _
  | project _ _ => exact rep_self E _
  | filter _ _ => exact rep_self E _
  | subtract _ _ => exact rep_self E _
  | union _ _ => exact rep_self E _

theorem Rep.mem_congr {E : Env} {o : Op} {fs gs : List Op} (h : Rep E o fs) (hm : ∀ f, f ∈ fs ↔ f ∈ gs) :
    Rep E o gs := by
  refine ⟨fun c => (h.1 c).trans ?_, fun ρ => (h.2 ρ).trans ?_⟩
  · exact exists_congr (fun f => by rw [hm])
  · exact forall_congr' (fun f => by rw [hm])

theorem Rep.append {E : Env} {o a : Op} {fs gs as : List Op} (h : Rep E o (fs ++ a :: gs)) (ha : Rep E a as) :
    Rep E o (fs ++ (as ++ gs)) := by
  refine ⟨fun c => (h.1 c).trans ?_, fun ρ => (h.2 ρ).trans ?_⟩
  · constructor
    · rintro ⟨f, hf, hc⟩
      rcases List.mem_append.1 hf with hf | hf
      · exact ⟨f, by simp [hf], hc⟩
      · rcases List.mem_cons.1 hf with rfl | hf
        · obtain ⟨g, hg, hgc⟩ := (ha.1 c).1 hc
          exact ⟨g, by simp [hg], hgc⟩
        · exact ⟨f, by simp [hf], hc⟩
    · rintro ⟨f, hf, hc⟩
      rcases List.mem_append.1 hf with hf | hf
      · exact ⟨f, by simp [hf], hc⟩
      · rcases List.mem_append.1 hf with hf | hf
        · exact ⟨a, by simp, (ha.1 c).2 ⟨f, hf, hc⟩⟩
        · exact ⟨f, by simp [hf], hc⟩
  · constructor
    · intro hh f hf
      rcases List.mem_append.1 hf with hf | hf
      · exact hh f (by simp [hf])
      · rcases List.mem_append.1 hf with hf | hf
        · exact (ha.2 ρ).1 (hh a (by simp)) f hf
        · exact hh f (by simp [hf])
    · intro hh f hf
      rcases List.mem_append.1 hf with hf | hf
      · exact hh f (by simp [hf])
      · rcases List.mem_cons.1 hf with rfl | hf
        · exact (ha.2 ρ).2 (fun g hg => hh g (by simp [hg]))
        · exact hh f (by simp [hf])

theorem Rep.equiv {E : Env} {a b : Op} {fs : List Op} (ha : Rep E a fs) (hb : Rep E b fs) : Equiv E a b :=
  ⟨fun c => (ha.1 c).trans (hb.1 c).symm, fun ρ => (ha.2 ρ).trans (hb.2 ρ).symm⟩

/-- Replace every conjunct by what represents it. -/
theorem Rep.flatMap {E : Env} {o : Op} {fs : List Op} (h : Rep E o fs) {g : Op → List Op}
    (hg : ∀ f ∈ fs, Rep E f (g f)) : Rep E o (fs.flatMap g) := by
  refine ⟨fun c => (h.1 c).trans ?_, fun ρ => (h.2 ρ).trans ?_⟩
  · constructor
    · rintro ⟨f, hf, hc⟩
      obtain ⟨x, hx, hxc⟩ := ((hg f hf).1 c).1 hc
      exact ⟨x, List.mem_flatMap.2 ⟨f, hf, hx⟩, hxc⟩
    · rintro ⟨x, hx, hxc⟩
      obtain ⟨f, hf, hx⟩ := List.mem_flatMap.1 hx
      exact ⟨f, hf, ((hg f hf).1 c).2 ⟨x, hx, hxc⟩⟩
  · constructor
    · intro hh x hx
      obtain ⟨f, hf, hx⟩ := List.mem_flatMap.1 hx
      exact ((hg f hf).2 ρ).1 (hh f hf) x hx
    · intro hh f hf
      exact ((hg f hf).2 ρ).2 (fun x hx => hh x (List.mem_flatMap.2 ⟨f, hf, hx⟩))

/-- Conjuncts without columns do not matter. -/
theorem Rep.drop {E : Env} {o : Op} {fs : List Op} (h : Rep E o fs) (w : ∀ f ∈ fs, f.WF) :
    Rep E o (fs.filter hasCols) := by
  refine ⟨fun c => (h.1 c).trans ?_, fun ρ => (h.2 ρ).trans ?_⟩
  · refine exists_congr (fun f => ?_)
    rw [List.mem_filter]
    constructor
    · rintro ⟨hf, hc⟩
      exact ⟨⟨hf, by simpa [hasCols] using List.ne_nil_of_mem hc⟩, hc⟩
    · rintro ⟨⟨hf, _⟩, hc⟩
      exact ⟨hf, hc⟩
  · constructor
    · intro hh f hf
      exact hh f (List.mem_filter.1 hf).1
    · intro hh f hf
      by_cases hc : hasCols f = true
      · exact hh f (List.mem_filter.2 ⟨hf, hc⟩)
      · refine matches_of_no_columns (w f hf) ?_ ρ
        simpa [hasCols] using hc

/-! ## Good trees -/

theorem good_cross {E : Env} {m : Bool} {fs : List Op} (hc : check (.cross m fs) = .ok ()) (h : ∀ f ∈ fs, Good E f)
    (ht : m = true → ∀ f ∈ fs, isTuples f = true) : Good E (.cross m fs) :=
  ⟨⟨hc, wfL_iff.2 (fun f hf => (h f hf).1)⟩, fineL_iff.2 (fun f hf => (h f hf).2), ht⟩

theorem good_factors {E : Env} {m : Bool} {fs : List Op} (g : Good E (.cross m fs)) : ∀ f ∈ fs, Good E f :=
  fun f hf => ⟨wfL_iff.1 g.1.2 f hf, fineL_iff.1 g.2.1 f hf⟩

theorem good_factorsOf {E : Env} {o : Op} (g : Good E o) : ∀ f ∈ factorsOf o, Good E f := by
  cases o with
  | cross m fs => exact good_factors g
  | _ =>
    intro f hf
    simp only [factorsOf, List.mem_singleton] at hf
    subst hf
    exact g

theorem crossOrFirst_ok {E : Env} {fs : List Op} {o : Op} (h : crossOrFirst fs = .ok o) (g : ∀ f ∈ fs, Good E f) :
    Good E o ∧ Rep E o fs := by
  match fs with
  | [] => cases h
  | [f] =>
    cases h
    exact ⟨g _ (by simp), rep_self E _⟩
  | a :: b :: cs =>
    obtain ⟨rfl, hc⟩ := build_ok h
    exact ⟨good_cross hc g (by simp), rep_cross E _ _⟩

/-! ## Projections -/

theorem collapse_pres (E : Env) : Pres E collapse := by
  intro op op' g h
  unfold collapse at h
  split at h
  · rename_i c ds cs
    obtain ⟨rfl, hc⟩ := build_ok h
    obtain ⟨⟨hco, nd, hci, _, wc⟩, _, ps, pc⟩ := g
    refine ⟨⟨⟨hc, nd, wc⟩, ps, pc⟩, fun _ => Iff.rfl, fun ρ => ?_⟩
    dsimp only [Op.Matches]
    constructor
    · rintro ⟨ρ', h1, ρ'', h2, h3⟩
      refine ⟨ρ'', fun x hx => ?_, h3⟩
      rw [h2 x ((check_project hco).2 x hx), h1 x hx]
    · rintro ⟨ρ', h1, h2⟩
      exact ⟨ρ', h1, ρ', fun _ _ => rfl, h2⟩
  · cases h
    exact ⟨g, Equiv.refl _ _⟩

theorem removeNoop_pres (E : Env) : Pres E removeNoop := by
  intro op op' g h
  unfold removeNoop at h
  split at h
  · rename_i c cs
    split at h
    · rename_i he
      cases h
      have he := setEq_iff.1 he
      obtain ⟨⟨hco, nd, wc⟩, ps, pc⟩ := g
      refine ⟨⟨wc, pc⟩, he, fun ρ => ?_⟩
      dsimp only [Op.Matches]
      constructor
      · rintro ⟨ρ', h1, h2⟩
        exact (matches_congr wc (fun x hx => h1 x ((he x).2 hx))).1 h2
      · intro h2
        exact ⟨ρ, fun _ _ => rfl, h2⟩
    · cases h
      exact ⟨g, Equiv.refl _ _⟩
  · cases h
    exact ⟨g, Equiv.refl _ _⟩

/-! ## Cross-joins -/

theorem mergeCross_pres (E : Env) : Pres E mergeCross := by
  intro op op' g h
  unfold mergeCross at h
  split at h
  · rename_i m fs
    have gf := good_factors g
    have r0 : Rep E (.cross m fs) (fs.flatMap factorsOf) :=
      (rep_cross E m fs).flatMap (fun f _ => rep_factorsOf E f)
    have ga : ∀ f ∈ fs.flatMap factorsOf, Good E f := by
      intro f hf
      obtain ⟨x, hx, hf⟩ := List.mem_flatMap.1 hf
      exact good_factorsOf (gf x hx) f hf
    have r1 := r0.drop (fun f hf => (ga f hf).1)
    have ga' : ∀ f ∈ (fs.flatMap factorsOf).filter hasCols, Good E f := fun f hf => ga f (List.mem_filter.1 hf).1
    split at h
    · rename_i he
      rw [he] at r1
      split at h
      · cases h
      · rename_i f rest hfr
        cases h
        have gf' := ga op' (by rw [hfr]; simp)
        refine ⟨gf', ?_⟩
        have hz : op'.columns = [] := by
          by_contra hne
          have : op' ∈ (fs.flatMap factorsOf).filter hasCols :=
            List.mem_filter.2 ⟨by rw [hfr]; simp, by simpa [hasCols] using hne⟩
          rw [he] at this
          cases this
        refine r1.equiv ⟨fun c => by simp [hz], fun ρ => ?_⟩
        simp [matches_of_no_columns gf'.1 hz ρ]
    · rename_i f he
      cases h
      rw [he] at r1 ga'
      exact ⟨ga' _ (by simp), r1.equiv (rep_self E _)⟩
    · obtain ⟨rfl, hc⟩ := build_ok h
      exact ⟨good_cross hc ga' (by simp), r1.equiv (rep_cross E _ _)⟩
  · cases h
    exact ⟨g, Equiv.refl _ _⟩

theorem mem_split (p : Op → Bool) (fs : List Op) (f : Op) :
    f ∈ fs ↔ f ∈ fs.filter p ∨ f ∈ fs.filter (fun x => !p x) := by
  simp only [List.mem_filter]
  cases p f <;> simp

theorem extractJoin_pres (E : Env) : Pres E extractJoin := by
  intro op op' g h
  unfold extractJoin at h
  split at h
  · rename_i l r
    obtain ⟨⟨hc0, wl, wr⟩, pl, pr⟩ := g
    have gl : ∀ f ∈ factorsOf l, Good E f := good_factorsOf ⟨wl, pl⟩
    have gr : ∀ f ∈ factorsOf r, Good E f := good_factorsOf ⟨wr, pr⟩
    dsimp only at h
    generalize hjc : inter l.columns r.columns = jc at h
    split at h
    · cases h
      exact ⟨⟨⟨hc0, wl, wr⟩, pl, pr⟩, Equiv.refl _ _⟩
    · obtain ⟨l', hl', h⟩ := bind_ok h
      obtain ⟨r', hr', h⟩ := bind_ok h
      obtain ⟨j, hj, h⟩ := bind_ok h
      obtain ⟨rfl, hcj⟩ := build_ok hj
      obtain ⟨rfl, hc⟩ := build_ok h
      obtain ⟨gl', rl⟩ := crossOrFirst_ok (E := E) hl' (fun f hf => gl f (List.mem_filter.1 hf).1)
      obtain ⟨gr', rr⟩ := crossOrFirst_ok (E := E) hr' (fun f hf => gr f (List.mem_filter.1 hf).1)
      have gj : Good E (.join l' r') := ⟨⟨hcj, gl'.1, gr'.1⟩, gl'.2, gr'.2⟩
      refine ⟨good_cross hc ?_ (by simp), ?_⟩
      · intro f hf
        rcases List.mem_append.1 hf with hf | hf
        · rcases List.mem_append.1 hf with hf | hf
          · exact gl f (List.mem_filter.1 hf).1
          · exact gr f (List.mem_filter.1 hf).1
        · rw [List.mem_singleton.1 hf]
          exact gj
      · have e1 : Rep E (.join l r) (factorsOf l ++ (factorsOf r ++ [])) := by
          have := (rep_join E l r)
          have h2 := Rep.append (fs := []) this (rep_factorsOf E l)
          have h3 := Rep.append (fs := factorsOf l) (gs := []) (a := r) (by simpa using h2) (rep_factorsOf E r)
          exact h3
        have e2 : Rep E (.join l' r') _ := Rep.append (fs := []) (rep_join E l' r') rl
        have e3 := Rep.append (fs := (factorsOf l).filter (touches jc)) (gs := []) (a := r') (by simpa using e2) rr
        have e4 := Rep.append (gs := []) (rep_cross E false
          ((factorsOf l).filter (fun f => !touches jc f) ++ (factorsOf r).filter (fun f => !touches jc f)
            ++ [Op.join l' r'])) e3
        refine e1.equiv (e4.mem_congr ?_)
        intro f
        have h1 := mem_split (touches jc) (factorsOf l) f
        have h2 := mem_split (touches jc) (factorsOf r) f
        simp only [List.mem_append, List.append_nil] at h1 h2 ⊢
        rw [h1, h2]
        tauto
  · cases h
    exact ⟨g, Equiv.refl _ _⟩

theorem extractSub_pres (E : Env) : Pres E extractSub := by
  intro op op' g h
  unfold extractSub at h
  split at h
  · rename_i m fs r
    have g0 := g
    obtain ⟨⟨hc0, wl, wr⟩, pl, pr, pz⟩ := g
    have gf : ∀ f ∈ fs, Good E f := good_factors ⟨wl, pl⟩
    dsimp only at h
    split at h
    · cases h
      exact ⟨g0, Equiv.refl _ _⟩
    · obtain ⟨l', hl', h⟩ := bind_ok h
      obtain ⟨s, hs, h⟩ := bind_ok h
      obtain ⟨rfl, hcs⟩ := build_ok hs
      obtain ⟨rfl, hc⟩ := build_ok h
      obtain ⟨gl', rl⟩ := crossOrFirst_ok (E := E) hl' (fun f hf => gf f (List.mem_filter.1 hf).1)
      have gs : Good E (.subtract l' r) := ⟨⟨hcs, gl'.1, wr⟩, gl'.2, pr, pz⟩
      refine ⟨good_cross hc ?_ (by simp), fun c => ?_, fun ρ => ?_⟩
      · intro f hf
        rcases List.mem_append.1 hf with hf | hf
        · exact gf f (List.mem_filter.1 hf).1
        · rw [List.mem_singleton.1 hf]
          exact gs
      · show c ∈ columnsL fs ↔ c ∈ columnsL _
        rw [mem_columnsL, mem_columnsL]
        constructor
        · rintro ⟨f, hf, hfc⟩
          rcases (mem_split (touches r.columns) fs f).1 hf with hf | hf
          · exact ⟨.subtract l' r, by simp, (rl.1 c).2 ⟨f, hf, hfc⟩⟩
          · exact ⟨f, List.mem_append.2 (.inl hf), hfc⟩
        · rintro ⟨f, hf, hfc⟩
          rcases List.mem_append.1 hf with hf | hf
          · exact ⟨f, (List.mem_filter.1 hf).1, hfc⟩
          · rw [List.mem_singleton.1 hf] at hfc
            obtain ⟨x, hx, hxc⟩ := (rl.1 c).1 hfc
            exact ⟨x, (List.mem_filter.1 hx).1, hxc⟩
      · show (matchesL E fs ρ ∧ (r.columns = [] ∨ ¬ r.Matches E ρ)) ↔ matchesL E _ ρ
        rw [matchesL_iff, matchesL_iff]
        constructor
        · rintro ⟨h1, h2⟩ f hf
          rcases List.mem_append.1 hf with hf | hf
          · exact h1 f (List.mem_filter.1 hf).1
          · rw [List.mem_singleton.1 hf]
            exact ⟨(rl.2 ρ).2 (fun x hx => h1 x (List.mem_filter.1 hx).1), h2⟩
        · intro hh
          have hsub : (Op.subtract l' r).Matches E ρ := hh _ (by simp)
          refine ⟨fun f hf => ?_, hsub.2⟩
          rcases (mem_split (touches r.columns) fs f).1 hf with hf | hf
          · exact (rl.2 ρ).1 hsub.1 f hf
          · exact hh f (List.mem_append.2 (.inl hf))
  · cases h
    exact ⟨g, Equiv.refl _ _⟩

theorem extract_pres (E : Env) : Pres E extract := by
  intro op op' g h
  unfold extract at h
  obtain ⟨o, ho, h⟩ := bind_ok h
  obtain ⟨g1, e1⟩ := extractJoin_pres E op o g ho
  obtain ⟨g2, e2⟩ := extractSub_pres E o op' g1 h
  exact ⟨g2, e1.trans e2⟩

theorem orderCross_pres (E : Env) : Pres E orderCross := by
  intro op op' g h
  unfold orderCross at h
  split at h
  · rename_i m fs
    obtain ⟨rfl, hc⟩ := build_ok h
    have hm : ∀ f, f ∈ fs ↔ f ∈ fs.insertionSort (fun a b => decide (sortedCols a ≤ sortedCols b) = true) :=
      fun f => ((List.perm_insertionSort _ fs).mem_iff).symm
    refine ⟨good_cross hc (fun f hf => good_factors g f ((hm f).2 hf)) (fun h f hf => g.2.2 h f ((hm f).2 hf)), ?_⟩
    exact ((rep_cross E m fs).mem_congr hm).equiv (rep_cross E _ _)
  · cases h
    exact ⟨g, Equiv.refl _ _⟩

/-! ## In-memory cross-joins -/

theorem grab_perm (n : Nat) (q : List (Nat × Op)) :
    ((grab n q).1 ++ (grab n q).2.map Prod.snd).Perm (q.map Prod.snd) ∧ (grab n q).2.length ≤ q.length := by
  induction q generalizing n with
  | nil => simp [grab]
  | cons p ps ih =>
    unfold grab
    split
    · obtain ⟨h1, h2⟩ := ih (n * p.1)
      refine ⟨?_, ?_⟩
      · simpa using h1
      · simp only [List.length_cons]; omega
    · simp

theorem groups_perm (n : Nat) (q : List (Nat × Op)) (h : q.length ≤ n) :
    (groups n q).flatten.Perm (q.map Prod.snd) := by
  induction n generalizing q with
  | zero =>
    have : q = [] := by simpa using h
    subst this
    simp [groups]
  | succ n ih =>
    unfold groups
    split
    · rename_i hl
      have : q = [] := by simpa using hl
      subst this
      simp
    · rename_i last hl
      obtain ⟨h1, h2⟩ := grab_perm last.1 q.dropLast
      have hq : q = q.dropLast ++ [last] := by
        rw [List.getLast?_eq_some_iff] at hl
        obtain ⟨ys, rfl⟩ := hl
        simp
      have hlen : (grab last.1 q.dropLast).2.length ≤ n := by
        have : q.dropLast.length = q.length - 1 := by simp
        omega
      have h3 := ih (grab last.1 q.dropLast).2 hlen
      dsimp only
      rw [List.flatten_cons, List.cons_append]
      conv => rhs; rw [hq]
      rw [List.map_append]
      refine List.Perm.trans ?_ (List.perm_append_comm (l₁ := [last].map Prod.snd))
      simp only [List.map_cons, List.map_nil, List.cons_append, List.nil_append, List.perm_cons]
      exact (List.Perm.append_left _ h3).trans h1

theorem groupFactor_ok {E : Env} {fs : List Op} {o : Op} (h : groupFactor fs = .ok o) (g : ∀ f ∈ fs, Good E f)
    (ht : ∀ f ∈ fs, isTuples f = true) : Good E o ∧ Rep E o fs := by
  unfold groupFactor at h
  split at h
  · cases h
    exact ⟨g _ (by simp), rep_self E _⟩
  · obtain ⟨rfl, hc⟩ := build_ok h
    exact ⟨good_cross hc g (fun _ => ht), rep_cross E _ _⟩

/-- The groups of factors together mean the same as the factors. -/
theorem groupFactors_ok {E : Env} {gs : List (List Op)} {os : List Op} (h : groupFactors gs = .ok os)
    (g : ∀ f ∈ gs.flatten, Good E f) (ht : ∀ f ∈ gs.flatten, isTuples f = true) :
    (∀ o ∈ os, Good E o) ∧ ∀ o, (∀ before : List Op, Rep E o (before ++ os) → Rep E o (before ++ gs.flatten)) := by
  induction gs generalizing os with
  | nil =>
    cases h
    exact ⟨by simp, fun o b hb => by simpa using hb⟩
  | cons x xs ih =>
    dsimp only [groupFactors] at h
    obtain ⟨f, hf, h⟩ := bind_ok h
    obtain ⟨fs, hfs, h⟩ := bind_ok h
    cases pure_ok h
    obtain ⟨gf, rf⟩ := groupFactor_ok (E := E) hf (fun y hy => g y (by simp [hy])) (fun y hy => ht y (by simp [hy]))
    obtain ⟨g2, r2⟩ := ih hfs (fun y hy => g y (by
      rw [List.flatten_cons]; exact List.mem_append.2 (.inr hy))) (fun y hy => ht y (by
      rw [List.flatten_cons]; exact List.mem_append.2 (.inr hy)))
    refine ⟨?_, ?_⟩
    · intro o ho
      rcases List.mem_cons.1 ho with rfl | ho
      · exact gf
      · exact g2 o ho
    · intro o b hb
      have h1 := Rep.append hb rf
      have h2 := r2 o (b ++ x) (by simpa using h1)
      simpa using h2

theorem inMemory_pres (E : Env) : Pres E inMemory := by
  intro op op' g h
  unfold inMemory at h
  split at h
  · rename_i fs
    have gf := good_factors g
    split at h
    · cases h
      exact ⟨g, Equiv.refl _ _⟩
    dsimp only at h
    split at h
    · cases h
      exact ⟨g, Equiv.refl _ _⟩
    obtain ⟨os, hos, h⟩ := bind_ok h
    generalize hq : ((fs.filter isSmall).map (fun f => (f.sizeFast.getD 0, f))).insertionSort
      (fun a b => decide (a.1 ≤ b.1) = true) = q at hos
    have hqp : (q.map Prod.snd).Perm (fs.filter isSmall) := by
      rw [← hq]
      refine ((List.perm_insertionSort _ _).map _).trans ?_
      rw [List.map_map]
      have : (Prod.snd ∘ fun f : Op => (f.sizeFast.getD 0, f)) = id := rfl
      rw [this, List.map_id]
    have hgp : (groups q.length q).flatten.Perm (fs.filter isSmall) := (groups_perm _ q le_rfl).trans hqp
    obtain ⟨go, ro⟩ := groupFactors_ok (E := E) hos
      (fun f hf => gf f (List.mem_filter.1 (hgp.mem_iff.1 hf)).1) (fun f hf => by
        have := (List.mem_filter.1 (hgp.mem_iff.1 hf)).2
        cases f <;> simp [isSmall] at this
        rfl)
    have gall : ∀ f ∈ fs.filter (fun f => !isSmall f) ++ os, Good E f := by
      intro f hf
      rcases List.mem_append.1 hf with hf | hf
      · exact gf f (List.mem_filter.1 hf).1
      · exact go f hf
    have hmem : ∀ f, f ∈ fs.filter (fun f => !isSmall f) ++ (groups q.length q).flatten ↔ f ∈ fs := by
      intro f
      rw [List.mem_append, hgp.mem_iff, mem_split isSmall fs f]
      tauto
    have fin : ∀ o, Rep E o (fs.filter (fun f => !isSmall f) ++ os) → Equiv E (.cross false fs) o := by
      intro o h1
      exact (rep_cross E false fs).equiv ((ro o _ h1).mem_congr hmem)
    split at h
    · rename_i f he
      cases pure_ok h
      rw [he] at gall fin
      exact ⟨gall _ (by simp), fin _ (rep_self E _)⟩
    · obtain ⟨rfl, hc⟩ := build_ok h
      exact ⟨good_cross hc gall (by simp), fin _ (rep_cross E _ _)⟩
  · cases h
    exact ⟨g, Equiv.refl _ _⟩

/-! ## Normalisation -/

theorem withHash_ok {hsh : Op → Except KErr ℤ} {os : List Op} {hs : List (ℤ × Op)} (h : withHash hsh os = .ok hs) :
    hs.map Prod.snd = os := by
  induction os generalizing hs with
  | nil => cases h; rfl
  | cons o os ih =>
    dsimp only [withHash] at h
    obtain ⟨a, _, h⟩ := bind_ok h
    obtain ⟨as, has, h⟩ := bind_ok h
    cases pure_ok h
    simp [ih has]

theorem sorted_perm {hsh : Op → Except KErr ℤ} {os : List Op} {hs : List (ℤ × Op)} (h : withHash hsh os = .ok hs)
    (le : ℤ × Op → ℤ × Op → Prop) [DecidableRel le] : ((hs.insertionSort le).map Prod.snd).Perm os := by
  have := (List.perm_insertionSort le hs).map Prod.snd
  rwa [withHash_ok h] at this

theorem foldJoin_ok {E : Env} {acc o : Op} {os : List Op} (h : foldJoin acc os = .ok o) (ga : Good E acc)
    (g : ∀ x ∈ os, Good E x) : Good E o ∧ Rep E o (acc :: os) := by
  induction os generalizing acc with
  | nil => cases h; exact ⟨ga, rep_self E _⟩
  | cons x xs ih =>
    dsimp only [foldJoin] at h
    obtain ⟨a, ha, h⟩ := bind_ok h
    obtain ⟨rfl, hc⟩ := build_ok ha
    have gx := g x (by simp)
    obtain ⟨g1, r1⟩ := ih h ⟨⟨hc, gx.1, ga.1⟩, gx.2, ga.2⟩ (fun y hy => g y (by simp [hy]))
    refine ⟨g1, ?_⟩
    have := Rep.append (fs := []) r1 (rep_join E x acc)
    refine this.mem_congr ?_
    intro f
    simp
    tauto

theorem joinLeaf_leaves (E : Env) (o : Op) : Rep E o (joinLeaf o ++ joinLeaves o) := by
  induction o using Op.ind with
  | hj l r hl hr =>
    have h1 := Rep.append (fs := []) (rep_join E l r) hl
    have h2 := Rep.append (fs := joinLeaf l ++ joinLeaves l) (gs := []) (a := r) (by simpa using h1) hr
    refine h2.mem_congr ?_
    intro f
    simp only [joinLeaf, joinLeaves, List.mem_append, List.nil_append, List.append_nil]
    tauto
  | hd _ => exact rep_self E _
  | ht _ _ => exact rep_self E _
  | hf _ => exact rep_self E _
  | hc _ _ _ => exact rep_self E _
  | hp _ _ _ => exact rep_self E _
  | hfi _ _ _ => exact rep_self E _
  | hs _ _ _ _ => exact rep_self E _
  | hu _ _ _ _ => exact rep_self E _

theorem good_joinLeaf {E : Env} {o : Op} (g : Good E o) : ∀ f ∈ joinLeaf o ++ joinLeaves o, Good E f := by
  induction o using Op.ind with
  | hj l r hl hr =>
    obtain ⟨⟨_, wl, wr⟩, pl, pr⟩ := g
    have h1 := hl ⟨wl, pl⟩
    have h2 := hr ⟨wr, pr⟩
    intro f hf
    simp only [joinLeaf, joinLeaves, List.mem_append, List.nil_append] at hf h1 h2
    rcases hf with ((hf | hf) | hf) | hf
    · exact h1 f (.inl hf)
    · exact h2 f (.inl hf)
    · exact h2 f (.inr hf)
    · exact h1 f (.inr hf)
  | hd _ => intro f hf; simp [joinLeaf, joinLeaves] at hf; subst hf; exact g
  | ht _ _ => intro f hf; simp [joinLeaf, joinLeaves] at hf; subst hf; exact g
  | hf _ => intro f hf; simp [joinLeaf, joinLeaves] at hf; subst hf; exact g
  | hc _ _ _ => intro f hf; simp [joinLeaf, joinLeaves] at hf; subst hf; exact g
  | hp _ _ _ => intro f hf; simp [joinLeaf, joinLeaves] at hf; subst hf; exact g
  | hfi _ _ _ => intro f hf; simp [joinLeaf, joinLeaves] at hf; subst hf; exact g
  | hs _ _ _ _ => intro f hf; simp [joinLeaf, joinLeaves] at hf; subst hf; exact g
  | hu _ _ _ _ => intro f hf; simp [joinLeaf, joinLeaves] at hf; subst hf; exact g

theorem normJoins_pres (E : Env) (hsh : Op → Except KErr ℤ) : Pres E (normJoins hsh) := by
  intro op op' g h
  unfold normJoins at h
  split at h
  · rename_i l r
    obtain ⟨hs, hhs, h⟩ := bind_ok h
    have hp := sorted_perm hhs (fun a b => keyLE b a = true)
    have r0 := joinLeaf_leaves E (.join l r)
    have gl := good_joinLeaf g
    simp only [joinLeaf, List.nil_append] at r0 gl
    split at h
    · cases h
    · rename_i o os he
      rw [he] at hp
      obtain ⟨g1, r1⟩ := foldJoin_ok (E := E) h (gl o (hp.mem_iff.1 (by simp)))
        (fun x hx => gl x (hp.mem_iff.1 (by simp [hx])))
      exact ⟨g1, r0.equiv (r1.mem_congr (fun f => hp.mem_iff))⟩
  · cases h
    exact ⟨g, Equiv.refl _ _⟩

/-- The keys of a tree are those of any of the given trees, which all have its columns. -/
def RepU (E : Env) (o : Op) (fs : List Op) : Prop :=
  (∀ f ∈ fs, ∀ c, c ∈ o.columns ↔ c ∈ f.columns) ∧ ∀ ρ, o.Matches E ρ ↔ ∃ f ∈ fs, f.Matches E ρ

theorem repU_self (E : Env) (o : Op) : RepU E o [o] := by
  constructor <;> simp

theorem RepU.mem_congr {E : Env} {o : Op} {fs gs : List Op} (h : RepU E o fs) (hm : ∀ f, f ∈ fs ↔ f ∈ gs) :
    RepU E o gs :=
  ⟨fun f hf => h.1 f ((hm f).2 hf), fun ρ => (h.2 ρ).trans (exists_congr (fun f => by rw [hm]))⟩

theorem repU_union {E : Env} {l r : Op} {ls rs : List Op} (hc : check (.union l r) = .ok ()) (hl : RepU E l ls)
    (hr : RepU E r rs) : RepU E (.union l r) (ls ++ rs) := by
  refine ⟨fun f hf c => ?_, fun ρ => ?_⟩
  · rcases List.mem_append.1 hf with hf | hf
    · exact hl.1 f hf c
    · exact (check_union hc c).trans (hr.1 f hf c)
  · dsimp only [Op.Matches]
    rw [hl.2, hr.2]
    constructor
    · rintro (⟨f, hf, h⟩ | ⟨f, hf, h⟩)
      · exact ⟨f, by simp [hf], h⟩
      · exact ⟨f, by simp [hf], h⟩
    · rintro ⟨f, hf, h⟩
      rcases List.mem_append.1 hf with hf | hf
      · exact .inl ⟨f, hf, h⟩
      · exact .inr ⟨f, hf, h⟩

theorem foldUnion_ok {E : Env} {acc o : Op} {os : List Op} (h : foldUnion acc os = .ok o) {as : List Op}
    (ra : RepU E acc as) (ga : Good E acc) (g : ∀ x ∈ os, Good E x) : Good E o ∧ RepU E o (as ++ os) := by
  induction os generalizing acc as with
  | nil => cases h; exact ⟨ga, by simpa using ra⟩
  | cons x xs ih =>
    dsimp only [foldUnion] at h
    obtain ⟨a, ha, h⟩ := bind_ok h
    obtain ⟨rfl, hc⟩ := build_ok ha
    have gx := g x (by simp)
    obtain ⟨g1, r1⟩ := ih h (repU_union hc (repU_self E x) ra) ⟨⟨hc, gx.1, ga.1⟩, gx.2, ga.2⟩
      (fun y hy => g y (by simp [hy]))
    refine ⟨g1, r1.mem_congr ?_⟩
    intro f
    simp
    tauto

theorem unionLeaf_leaves {E : Env} {o : Op} (g : Good E o) :
    RepU E o (unionLeaf o ++ unionLeaves o) ∧ ∀ f ∈ unionLeaf o ++ unionLeaves o, Good E f := by
  induction o using Op.ind with
  | hu l r hl hr =>
    obtain ⟨⟨hc, wl, wr⟩, pl, pr⟩ := g
    obtain ⟨h1, h3⟩ := hl ⟨wl, pl⟩
    obtain ⟨h2, h4⟩ := hr ⟨wr, pr⟩
    refine ⟨(repU_union hc h1 h2).mem_congr ?_, ?_⟩
    · intro f
      simp only [unionLeaf, unionLeaves, List.mem_append, List.nil_append]
      tauto
    · intro f hf
      simp only [unionLeaf, unionLeaves, List.mem_append, List.nil_append] at hf h3 h4
      rcases hf with ((hf | hf) | hf) | hf
      · exact h3 f (.inl hf)
      · exact h4 f (.inl hf)
      · exact h4 f (.inr hf)
      · exact h3 f (.inr hf)
  | hd _ => exact ⟨repU_self E _, by intro f hf; simp [unionLeaf, unionLeaves] at hf; subst hf; exact g⟩
  | ht _ _ => exact ⟨repU_self E _, by intro f hf; simp [unionLeaf, unionLeaves] at hf; subst hf; exact g⟩
  | hf _ => exact ⟨repU_self E _, by intro f hf; simp [unionLeaf, unionLeaves] at hf; subst hf; exact g⟩
  | hc _ _ _ => exact ⟨repU_self E _, by intro f hf; simp [unionLeaf, unionLeaves] at hf; subst hf; exact g⟩
  | hp _ _ _ => exact ⟨repU_self E _, by intro f hf; simp [unionLeaf, unionLeaves] at hf; subst hf; exact g⟩
  | hfi _ _ _ => exact ⟨repU_self E _, by intro f hf; simp [unionLeaf, unionLeaves] at hf; subst hf; exact g⟩
  | hj _ _ _ _ => exact ⟨repU_self E _, by intro f hf; simp [unionLeaf, unionLeaves] at hf; subst hf; exact g⟩
  | hs _ _ _ _ => exact ⟨repU_self E _, by intro f hf; simp [unionLeaf, unionLeaves] at hf; subst hf; exact g⟩

theorem normUnions_pres (E : Env) (hsh : Op → Except KErr ℤ) : Pres E (normUnions hsh) := by
  intro op op' g h
  unfold normUnions at h
  split at h
  · rename_i l r
    obtain ⟨hs, hhs, h⟩ := bind_ok h
    have hp := sorted_perm hhs (fun a b => decide (a.1 ≤ b.1) = true)
    obtain ⟨r0, gl⟩ := unionLeaf_leaves g
    simp only [unionLeaf, List.nil_append] at r0 gl
    split at h
    · cases h
    · rename_i o os he
      rw [he] at hp
      obtain ⟨g1, r1⟩ := foldUnion_ok (E := E) h (repU_self E o) (gl o (hp.mem_iff.1 (by simp)))
        (fun x hx => gl x (hp.mem_iff.1 (by simp [hx])))
      have r2 := r1.mem_congr (gs := unionLeaves (.union l r)) (fun f => hp.mem_iff)
      refine ⟨g1, fun c => ?_, fun ρ => (r0.2 ρ).trans (r2.2 ρ).symm⟩
      have ho : o ∈ unionLeaves (.union l r) := hp.mem_iff.1 (by simp)
      exact (r0.1 o ho c).trans (r2.1 o ho c).symm
  · cases h
    exact ⟨g, Equiv.refl _ _⟩

theorem foldSub_ok {E : Env} {acc o : Op} {os : List Op} (h : foldSub acc os = .ok o) (ga : Good E acc)
    (g : ∀ x ∈ os, Good E x ∧ (x.columns = [] → E.zeroSub)) :
    Good E o ∧ (∀ c, c ∈ o.columns ↔ c ∈ acc.columns) ∧
      ∀ ρ, o.Matches E ρ ↔ acc.Matches E ρ ∧ ∀ v ∈ os, v.columns = [] ∨ ¬ v.Matches E ρ := by
  induction os generalizing acc with
  | nil => cases h; exact ⟨ga, fun _ => Iff.rfl, by simp⟩
  | cons x xs ih =>
    dsimp only [foldSub] at h
    obtain ⟨a, ha, h⟩ := bind_ok h
    obtain ⟨rfl, hc⟩ := build_ok ha
    obtain ⟨gx, gz⟩ := g x (by simp)
    obtain ⟨g1, c1, r1⟩ := ih h ⟨⟨hc, ga.1, gx.1⟩, ga.2, gx.2, gz⟩ (fun y hy => g y (by simp [hy]))
    refine ⟨g1, c1, fun ρ => (r1 ρ).trans ?_⟩
    dsimp only [Op.Matches]
    simp [and_assoc]

theorem sub_spine {E : Env} {o : Op} (g : Good E o) :
    Good E (subBase o) ∧ (∀ v ∈ subValues o, Good E v ∧ (v.columns = [] → E.zeroSub)) ∧ (∀ c, c ∈ o.columns ↔ c ∈ (subBase o).columns) ∧
      ∀ ρ, o.Matches E ρ ↔ (subBase o).Matches E ρ ∧ ∀ v ∈ subValues o, v.columns = [] ∨ ¬ v.Matches E ρ := by
  induction o using Op.ind with
  | hs l r hl hr =>
    obtain ⟨⟨hc, wl, wr⟩, pl, pr, pz⟩ := g
    obtain ⟨h1, h2, h3, h4⟩ := hl ⟨wl, pl⟩
    refine ⟨h1, ?_, h3, fun ρ => ?_⟩
    · intro v hv
      rcases List.mem_cons.1 hv with rfl | hv
      · exact ⟨⟨wr, pr⟩, pz⟩
      · exact h2 v hv
    · dsimp only [Op.Matches, subBase, subValues]
      rw [h4 ρ]
      simp only [List.mem_cons, forall_eq_or_imp]
      tauto
  | hd _ => exact ⟨g, by simp [subValues], fun _ => Iff.rfl, by simp [subValues, subBase]⟩
  | ht _ _ => exact ⟨g, by simp [subValues], fun _ => Iff.rfl, by simp [subValues, subBase]⟩
  | hf _ => exact ⟨g, by simp [subValues], fun _ => Iff.rfl, by simp [subValues, subBase]⟩
  | hc _ _ _ => exact ⟨g, by simp [subValues], fun _ => Iff.rfl, by simp [subValues, subBase]⟩
  | hp _ _ _ => exact ⟨g, by simp [subValues], fun _ => Iff.rfl, by simp [subValues, subBase]⟩
  | hfi _ _ _ => exact ⟨g, by simp [subValues], fun _ => Iff.rfl, by simp [subValues, subBase]⟩
  | hj _ _ _ _ => exact ⟨g, by simp [subValues], fun _ => Iff.rfl, by simp [subValues, subBase]⟩
  | hu _ _ _ _ => exact ⟨g, by simp [subValues], fun _ => Iff.rfl, by simp [subValues, subBase]⟩

theorem normSubs_pres (E : Env) (hsh : Op → Except KErr ℤ) : Pres E (normSubs hsh) := by
  intro op op' g h
  unfold normSubs at h
  split at h
  · rename_i l r
    obtain ⟨hs, hhs, h⟩ := bind_ok h
    have hp := sorted_perm hhs (fun a b => keyLE a b = true)
    obtain ⟨h1, h2, h3, h4⟩ := sub_spine g
    obtain ⟨g1, c1, r1⟩ := foldSub_ok (E := E) h h1 (fun x hx => h2 x (hp.mem_iff.1 hx))
    refine ⟨g1, fun c => (h3 c).trans (c1 c).symm, fun ρ => (h4 ρ).trans ?_⟩
    refine Iff.trans ?_ (r1 ρ).symm
    exact and_congr_right (fun _ => forall_congr' (fun v => by rw [hp.mem_iff]))
  · cases h
    exact ⟨g, Equiv.refl _ _⟩

/-! ## All rules -/

theorem pres_comp {E : Env} {f g : Op → Except KErr Op} (hf : Pres E f) (hg : Pres E g) :
    Pres E (fun op => f op >>= g) := by
  intro op op' h0 h
  obtain ⟨o, ho, h⟩ := bind_ok h
  obtain ⟨g1, e1⟩ := hf op o h0 ho
  obtain ⟨g2, e2⟩ := hg o op' g1 h
  exact ⟨g2, e1.trans e2⟩

theorem rewrite_pres (E : Env) (hsh : Op → Except KErr ℤ) : Pres E (rewrite hsh) := by
  intro op op' g h
  unfold rewrite at h
  obtain ⟨o1, h1, h⟩ := bind_ok h
  obtain ⟨o2, h2, h⟩ := bind_ok h
  obtain ⟨o3, h3, h⟩ := bind_ok h
  obtain ⟨o4, h4, h⟩ := bind_ok h
  obtain ⟨o5, h5, h⟩ := bind_ok h
  obtain ⟨o6, h6, h⟩ := bind_ok h
  obtain ⟨o7, h7, h⟩ := bind_ok h
  obtain ⟨o8, h8, h⟩ := bind_ok h
  obtain ⟨o9, h9, h⟩ := bind_ok h
  obtain ⟨o10, h10, h⟩ := bind_ok h
  obtain ⟨g1, e1⟩ := pac_pres E _ _ g h1
  obtain ⟨g2, e2⟩ := dfs_pres (collapse_pres E) (fun _ _ => rfl) _ _ g1 h2
  obtain ⟨g3, e3⟩ := dfs_pres (removeNoop_pres E) (fun _ _ => rfl) _ _ g2 h3
  obtain ⟨g4, e4⟩ := dfs_pres (mergeCross_pres E) (fun _ _ => rfl) _ _ g3 h4
  obtain ⟨g5, e5⟩ := dfs_pres (extract_pres E) (fun _ _ => rfl) _ _ g4 h5
  obtain ⟨g6, e6⟩ := dfs_pres (mergeCross_pres E) (fun _ _ => rfl) _ _ g5 h6
  obtain ⟨g7, e7⟩ := dfs_pres (orderCross_pres E) (fun _ _ => rfl) _ _ g6 h7
  obtain ⟨g8, e8⟩ := dfs_pres (inMemory_pres E) (fun _ _ => rfl) _ _ g7 h8
  obtain ⟨g9, e9⟩ := dfs_pres (normJoins_pres E hsh) (fun _ _ => rfl) _ _ g8 h9
  obtain ⟨g10, e10⟩ := dfs_pres (normSubs_pres E hsh) (fun _ _ => rfl) _ _ g9 h10
  obtain ⟨g11, e11⟩ := dfs_pres (normUnions_pres E hsh) (fun _ _ => rfl) _ _ g10 h
  exact ⟨g11, e1.trans (e2.trans (e3.trans (e4.trans (e5.trans (e6.trans (e7.trans (e8.trans (e9.trans
    (e10.trans e11)))))))))⟩

end Verif.KeySet
