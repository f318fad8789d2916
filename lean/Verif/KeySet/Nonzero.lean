import Verif.KeySet.Rules

/-!
# After rewriting, no factor of a cross-join lacks columns
-/

namespace Verif.KeySet

open Verif Verif.Schema

mutual
/-- Every factor of every cross-join in the tree has columns. -/
def Op.NZ : Op → Prop
  | .detect _ => True
  | .tuples _ _ => True
  | .frame _ => True
  | .cross _ fs => nzL fs
  | .join l r => l.NZ ∧ r.NZ
  | .project c _ => c.NZ
  | .filter c _ => c.NZ
  | .subtract l r => l.NZ ∧ r.NZ
  | .union l r => l.NZ ∧ r.NZ
/-- Every factor has columns, and likewise inside. -/
def nzL : List Op → Prop
  | [] => True
  | f :: fs => (f.columns ≠ [] ∧ f.NZ) ∧ nzL fs
end

theorem nzL_iff {fs : List Op} : nzL fs ↔ ∀ f ∈ fs, f.columns ≠ [] ∧ f.NZ := by
  induction fs with
  | nil => simp [nzL]
  | cons f fs ih => simp [nzL, ih]

/-- The parts of a tree are such. -/
def Op.NZc : Op → Prop
  | .detect _ => True
  | .tuples _ _ => True
  | .frame _ => True
  | .cross _ fs => ∀ f ∈ fs, f.NZ
  | .join l r => l.NZ ∧ r.NZ
  | .project c _ => c.NZ
  | .filter c _ => c.NZ
  | .subtract l r => l.NZ ∧ r.NZ
  | .union l r => l.NZ ∧ r.NZ

/-- The traversal of a rule: `b` tells whether the rule keeps such trees or makes them. -/
theorem dfs_nz {E : Env} {f : Op → Except KErr Op} (b : Prop) (hf : Pres E f)
    (ht : ∀ ts ds, f (.tuples ts ds) = .ok (.tuples ts ds))
    (step : ∀ o o', Good E o → o.NZc → (b → o.NZ) → f o = .ok o' → o'.NZ) {op op' : Op} (g : Good E op)
    (hb : b → op.NZ) (h : dfs f op = .ok op') : op'.NZ := by
  have hd := dfs_pres hf ht
  induction op using Op.ind generalizing op' with
  | hd cs => exact step _ _ g trivial hb h
  | ht ts ds => exact step _ _ g trivial hb h
  | hf df => exact step _ _ g trivial hb h
  | hc m fs ih =>
    dsimp only [dfs] at h
    obtain ⟨gs, hgs, h⟩ := bind_ok h
    obtain ⟨o, ho, h⟩ := bind_ok h
    obtain ⟨rfl, hc⟩ := build_ok ho
    have h2 := dfsL_ok hgs
    have gf := good_factors g
    have g2 := forall2_right h2 (fun a ha b hb => (hd a b (gf a ha) hb).1)
    have hb' : b → ∀ f ∈ fs, f.columns ≠ [] ∧ f.NZ := fun hh => nzL_iff.1 (hb hh)
    have n2 := forall2_right h2 (fun a ha x hx => ih a ha (gf a ha) (fun hh => (hb' hh a ha).2) hx)
    have g' : Good E (.cross m gs) := good_cross hc g2 (fun hm => by
      refine forall2_right h2 (fun a ha b hb => ?_)
      have := g.2.2 hm a ha
      cases a <;> simp [isTuples] at this
      dsimp only [dfs] at hb
      rw [ht] at hb
      cases hb
      rfl)
    refine step _ _ g' n2 (fun hh => nzL_iff.2 (fun x hx => ⟨?_, n2 x hx⟩)) h
    exact forall2_right h2 (fun a ha x hx hn => (hb' hh a ha).1 ((nil_congr (hd a x (gf a ha) hx).2.1).2 hn)) x hx
  | hj l r hl hr =>
    dsimp only [dfs] at h
    obtain ⟨l', hl', h⟩ := bind_ok h
    obtain ⟨r', hr', h⟩ := bind_ok h
    obtain ⟨o, ho, h⟩ := bind_ok h
    obtain ⟨rfl, hc⟩ := build_ok ho
    obtain ⟨⟨_, wl, wr⟩, pl, pr⟩ := g
    have gl := (hd l l' ⟨wl, pl⟩ hl').1
    have gr := (hd r r' ⟨wr, pr⟩ hr').1
    have g' : Good E (.join l' r') := ⟨⟨hc, gl.1, gr.1⟩, gl.2, gr.2⟩
    have n1 := hl ⟨wl, pl⟩ (fun hh => (hb hh).1) hl'
    have n2 := hr ⟨wr, pr⟩ (fun hh => (hb hh).2) hr'
    exact step _ _ g' ⟨n1, n2⟩ (fun _ => ⟨n1, n2⟩) h
  | hp c cs ih =>
    dsimp only [dfs] at h
    obtain ⟨c', hc', h⟩ := bind_ok h
    obtain ⟨o, ho, h⟩ := bind_ok h
    obtain ⟨rfl, hc⟩ := build_ok ho
    obtain ⟨⟨_, nd, wc⟩, ps, pc⟩ := g
    obtain ⟨gc, ec⟩ := hd c c' ⟨wc, pc⟩ hc'
    have g' : Good E (.project c' cs) := ⟨⟨hc, nd, gc.1⟩, ec.sat ps, gc.2⟩
    have n1 := ih ⟨wc, pc⟩ hb hc'
    exact step _ _ g' n1 (fun _ => n1) h
  | hfi c k ih =>
    dsimp only [dfs] at h
    obtain ⟨c', hc', h⟩ := bind_ok h
    obtain ⟨o, ho, h⟩ := bind_ok h
    obtain ⟨rfl, hc⟩ := build_ok ho
    obtain ⟨⟨_, wc⟩, pc⟩ := g
    have gc := (hd c c' ⟨wc, pc⟩ hc').1
    have g' : Good E (.filter c' k) := ⟨⟨hc, gc.1⟩, gc.2⟩
    have n1 := ih ⟨wc, pc⟩ hb hc'
    exact step _ _ g' n1 (fun _ => n1) h
  | hs l r hl hr =>
    dsimp only [dfs] at h
    obtain ⟨l', hl', h⟩ := bind_ok h
    obtain ⟨r', hr', h⟩ := bind_ok h
    obtain ⟨o, ho, h⟩ := bind_ok h
    obtain ⟨rfl, hc⟩ := build_ok ho
    obtain ⟨⟨_, wl, wr⟩, pl, pr, pz⟩ := g
    have gl := (hd l l' ⟨wl, pl⟩ hl').1
    obtain ⟨gr, er⟩ := hd r r' ⟨wr, pr⟩ hr'
    have g' : Good E (.subtract l' r') := ⟨⟨hc, gl.1, gr.1⟩, gl.2, gr.2, fun h => pz ((nil_congr er.1).2 h)⟩
    have n1 := hl ⟨wl, pl⟩ (fun hh => (hb hh).1) hl'
    have n2 := hr ⟨wr, pr⟩ (fun hh => (hb hh).2) hr'
    exact step _ _ g' ⟨n1, n2⟩ (fun _ => ⟨n1, n2⟩) h
  | hu l r hl hr =>
    dsimp only [dfs] at h
    obtain ⟨l', hl', h⟩ := bind_ok h
    obtain ⟨r', hr', h⟩ := bind_ok h
    obtain ⟨o, ho, h⟩ := bind_ok h
    obtain ⟨rfl, hc⟩ := build_ok ho
    obtain ⟨⟨_, wl, wr⟩, pl, pr⟩ := g
    have gl := (hd l l' ⟨wl, pl⟩ hl').1
    have gr := (hd r r' ⟨wr, pr⟩ hr').1
    have g' : Good E (.union l' r') := ⟨⟨hc, gl.1, gr.1⟩, gl.2, gr.2⟩
    have n1 := hl ⟨wl, pl⟩ (fun hh => (hb hh).1) hl'
    have n2 := hr ⟨wr, pr⟩ (fun hh => (hb hh).2) hr'
    exact step _ _ g' ⟨n1, n2⟩ (fun _ => ⟨n1, n2⟩) h

/-! ## The rules -/

theorem nz_factorsOf {o : Op} (h : o.NZ) : ∀ f ∈ factorsOf o, f.NZ := by
  cases o with
  | cross m fs => exact fun f hf => (nzL_iff.1 h f hf).2
  | _ =>
    intro f hf
    simp only [factorsOf, List.mem_singleton] at hf
    subst hf
    exact h

/-- Outside cross-joins the two conditions are the same. -/
theorem nz_of_parts {o : Op} (h : o.NZc) (hc : ∀ m fs, o ≠ .cross m fs) : o.NZ := by
  cases o with
  | cross m fs => exact absurd rfl (hc m fs)
  | detect _ => trivial
  | tuples _ _ => trivial
  | frame _ => trivial
  | join _ _ => exact h
  | project _ _ => exact h
  | filter _ _ => exact h
  | subtract _ _ => exact h
  | union _ _ => exact h

theorem mergeCross_nz {op op' : Op} (hp : op.NZc) (h : mergeCross op = .ok op') : op'.NZ := by
  unfold mergeCross at h
  split at h
  · rename_i m fs
    have ha : ∀ f ∈ fs.flatMap factorsOf, f.NZ := by
      intro f hf
      obtain ⟨x, hx, hf⟩ := List.mem_flatMap.1 hf
      exact nz_factorsOf (hp x hx) f hf
    split at h
    · split at h
      · cases h
      · rename_i f rest hfr
        cases h
        exact ha _ (by rw [hfr]; simp)
    · rename_i f he
      cases h
      have : op' ∈ (fs.flatMap factorsOf).filter hasCols := by rw [he]; simp
      exact ha _ (List.mem_filter.1 this).1
    · obtain ⟨rfl, hc⟩ := build_ok h
      refine nzL_iff.2 (fun f hf => ?_)
      have := List.mem_filter.1 hf
      exact ⟨by simpa [hasCols] using this.2, ha f this.1⟩
  · rename_i hne
    cases h
    exact nz_of_parts hp (fun m fs => hne m fs)

theorem orderCross_nz {op op' : Op} (hp : op.NZ) (h : orderCross op = .ok op') : op'.NZ := by
  unfold orderCross at h
  split at h
  · obtain ⟨rfl, _⟩ := build_ok h
    refine nzL_iff.2 (fun f hf => nzL_iff.1 hp f ?_)
    exact (List.perm_insertionSort _ _).mem_iff.1 hf
  · cases h
    exact hp

theorem groups_ne (n : Nat) (q : List (Nat × Op)) : ∀ g ∈ groups n q, g ≠ [] := by
  induction n generalizing q with
  | zero => simp [groups]
  | succ n ih =>
    intro g hg
    dsimp only [groups] at hg
    split at hg
    · cases hg
    · rcases List.mem_cons.1 hg with rfl | hg
      · simp
      · exact ih _ g hg

theorem groupFactors_nz {gs : List (List Op)} {os : List Op} (h : groupFactors gs = .ok os) (hne : ∀ g ∈ gs, g ≠ [])
    (hn : ∀ f ∈ gs.flatten, f.columns ≠ [] ∧ f.NZ) : ∀ o ∈ os, o.columns ≠ [] ∧ o.NZ := by
  induction gs generalizing os with
  | nil => cases h; simp
  | cons x xs ih =>
    dsimp only [groupFactors] at h
    obtain ⟨f, hf, h⟩ := bind_ok h
    obtain ⟨fs, hfs, h⟩ := bind_ok h
    cases pure_ok h
    have hx : ∀ y ∈ x, y.columns ≠ [] ∧ y.NZ := fun y hy => hn y (by
      rw [List.flatten_cons]; exact List.mem_append.2 (.inl hy))
    have hxs := ih hfs (fun g hg => hne g (by simp [hg])) (fun y hy => hn y (by
      rw [List.flatten_cons]; exact List.mem_append.2 (.inr hy)))
    intro o ho
    rcases List.mem_cons.1 ho with rfl | ho
    · unfold groupFactor at hf
      split at hf
      · cases hf
        exact hx _ (by simp)
      · obtain ⟨rfl, _⟩ := build_ok hf
        refine ⟨?_, nzL_iff.2 hx⟩
        obtain ⟨y, hy⟩ := List.exists_mem_of_ne_nil _ (hne x (by simp))
        obtain ⟨c, hc⟩ := List.exists_mem_of_ne_nil _ (hx y hy).1
        exact List.ne_nil_of_mem (mem_columnsL.2 ⟨y, hy, hc⟩)
    · exact hxs o ho

theorem inMemory_nz {op op' : Op} (hp : op.NZ) (h : inMemory op = .ok op') : op'.NZ := by
  unfold inMemory at h
  split at h
  · rename_i fs
    have gf := nzL_iff.1 hp
    split at h
    · cases h
      exact hp
    dsimp only at h
    split at h
    · cases h
      exact hp
    obtain ⟨os, hos, h⟩ := bind_ok h
    generalize hq : ((fs.filter isSmall).map (fun f => (f.sizeFast.getD 0, f))).insertionSort
      (fun a b => decide (a.1 ≤ b.1) = true) = q at hos
    have hqp : (q.map Prod.snd).Perm (fs.filter isSmall) := by
      rw [← hq]
      refine ((List.perm_insertionSort _ _).map _).trans ?_
      rw [List.map_map]
      have : (Prod.snd ∘ fun f : Op => (f.sizeFast.getD 0, f)) = id := rfl
      rw [this, List.map_id]
    have hgp : (groups q.length q).flatten.Perm (fs.filter isSmall) := (groups_perm _ q le_rfl).trans hqp
    have ho := groupFactors_nz hos (groups_ne _ _) (fun f hf => gf f (List.mem_filter.1 (hgp.mem_iff.1 hf)).1)
    have hall : ∀ f ∈ fs.filter (fun f => !isSmall f) ++ os, f.columns ≠ [] ∧ f.NZ := by
      intro f hf
      rcases List.mem_append.1 hf with hf | hf
      · exact gf f (List.mem_filter.1 hf).1
      · exact ho f hf
    split at h
    · rename_i f he
      cases pure_ok h
      rw [he] at hall
      exact (hall _ (by simp)).2
    · obtain ⟨rfl, _⟩ := build_ok h
      exact nzL_iff.2 hall
  · cases h
    exact hp

theorem foldJoin_nz {acc o : Op} {os : List Op} (h : foldJoin acc os = .ok o) (ha : acc.NZ) (hn : ∀ x ∈ os, x.NZ) :
    o.NZ := by
  induction os generalizing acc with
  | nil => cases h; exact ha
  | cons x xs ih =>
    obtain ⟨a, ha', h⟩ := bind_ok h
    obtain ⟨rfl, _⟩ := build_ok ha'
    exact ih h ⟨hn x (by simp), ha⟩ (fun y hy => hn y (by simp [hy]))

theorem foldUnion_nz {acc o : Op} {os : List Op} (h : foldUnion acc os = .ok o) (ha : acc.NZ) (hn : ∀ x ∈ os, x.NZ) :
    o.NZ := by
  induction os generalizing acc with
  | nil => cases h; exact ha
  | cons x xs ih =>
    obtain ⟨a, ha', h⟩ := bind_ok h
    obtain ⟨rfl, _⟩ := build_ok ha'
    exact ih h ⟨hn x (by simp), ha⟩ (fun y hy => hn y (by simp [hy]))

theorem foldSub_nz {acc o : Op} {os : List Op} (h : foldSub acc os = .ok o) (ha : acc.NZ) (hn : ∀ x ∈ os, x.NZ) :
    o.NZ := by
  induction os generalizing acc with
  | nil => cases h; exact ha
  | cons x xs ih =>
    obtain ⟨a, ha', h⟩ := bind_ok h
    obtain ⟨rfl, _⟩ := build_ok ha'
    exact ih h ⟨ha, hn x (by simp)⟩ (fun y hy => hn y (by simp [hy]))

theorem joinLeaves_nz (o : Op) (h : o.NZ) : (∀ x ∈ joinLeaf o, x.NZ) ∧ ∀ x ∈ joinLeaves o, x.NZ := by
  induction o using Op.ind with
  | hj l r hl hr =>
    obtain ⟨l1, l2⟩ := hl h.1
    obtain ⟨r1, r2⟩ := hr h.2
    refine ⟨by simp [joinLeaf], fun x hx => ?_⟩
    simp only [joinLeaves, List.mem_append] at hx
    rcases hx with ((hx | hx) | hx) | hx
    · exact l1 x hx
    · exact r1 x hx
    · exact r2 x hx
    · exact l2 x hx
  | _ => exact ⟨by simpa [joinLeaf] using h, by simp [joinLeaves]⟩

theorem unionLeaves_nz (o : Op) (h : o.NZ) : (∀ x ∈ unionLeaf o, x.NZ) ∧ ∀ x ∈ unionLeaves o, x.NZ := by
  induction o using Op.ind with
  | hu l r hl hr =>
    obtain ⟨l1, l2⟩ := hl h.1
    obtain ⟨r1, r2⟩ := hr h.2
    refine ⟨by simp [unionLeaf], fun x hx => ?_⟩
    simp only [unionLeaves, List.mem_append] at hx
    rcases hx with ((hx | hx) | hx) | hx
    · exact l1 x hx
    · exact r1 x hx
    · exact r2 x hx
    · exact l2 x hx
  | _ => exact ⟨by simpa [unionLeaf] using h, by simp [unionLeaves]⟩

theorem subSpine_nz (o : Op) (h : o.NZ) : (subBase o).NZ ∧ ∀ x ∈ subValues o, x.NZ := by
  induction o using Op.ind with
  | hs l r hl hr =>
    obtain ⟨l1, l2⟩ := hl h.1
    refine ⟨l1, fun x hx => ?_⟩
    rcases List.mem_cons.1 hx with rfl | hx
    · exact h.2
    · exact l2 x hx
  | _ => exact ⟨h, by simp [subValues]⟩

theorem normJoins_nz {hsh : Op → Except KErr ℤ} {op op' : Op} (hp : op.NZ) (h : normJoins hsh op = .ok op') :
    op'.NZ := by
  unfold normJoins at h
  split at h
  · rename_i l r
    obtain ⟨hs, hhs, h⟩ := bind_ok h
    have hperm := sorted_perm hhs (fun a b => keyLE b a = true)
    have hl := (joinLeaves_nz _ hp).2
    split at h
    · cases h
    · rename_i o os he
      rw [he] at hperm
      exact foldJoin_nz h (hl o (hperm.mem_iff.1 (by simp))) (fun x hx => hl x (hperm.mem_iff.1 (by simp [hx])))
  · cases h
    exact hp

theorem normUnions_nz {hsh : Op → Except KErr ℤ} {op op' : Op} (hp : op.NZ) (h : normUnions hsh op = .ok op') :
    op'.NZ := by
  unfold normUnions at h
  split at h
  · rename_i l r
    obtain ⟨hs, hhs, h⟩ := bind_ok h
    have hperm := sorted_perm hhs (fun a b => decide (a.1 ≤ b.1) = true)
    have hl := (unionLeaves_nz _ hp).2
    split at h
    · cases h
    · rename_i o os he
      rw [he] at hperm
      exact foldUnion_nz h (hl o (hperm.mem_iff.1 (by simp))) (fun x hx => hl x (hperm.mem_iff.1 (by simp [hx])))
  · cases h
    exact hp

theorem normSubs_nz {hsh : Op → Except KErr ℤ} {op op' : Op} (hp : op.NZ) (h : normSubs hsh op = .ok op') :
    op'.NZ := by
  unfold normSubs at h
  split at h
  · rename_i l r
    obtain ⟨hs, hhs, h⟩ := bind_ok h
    have hperm := sorted_perm hhs (fun a b => keyLE a b = true)
    obtain ⟨h1, h2⟩ := subSpine_nz _ hp
    exact foldSub_nz h h1 (fun x hx => h2 x (hperm.mem_iff.1 hx))
  · cases h
    exact hp

/-- After rewriting, every factor of every cross-join has columns. -/
theorem rewrite_nz {E : Env} {hsh : Op → Except KErr ℤ} {op op' : Op} (g : Good E op) (h : rewrite hsh op = .ok op') :
    op'.NZ := by
  unfold rewrite at h
  obtain ⟨o1, h1, h⟩ := bind_ok h
  obtain ⟨o2, h2, h⟩ := bind_ok h
  obtain ⟨o3, h3, h⟩ := bind_ok h
  obtain ⟨o4, h4, h⟩ := bind_ok h
  obtain ⟨o5, h5, h⟩ := bind_ok h
  obtain ⟨o6, h6, h⟩ := bind_ok h
  obtain ⟨o7, h7, h⟩ := bind_ok h
  obtain ⟨o8, h8, h⟩ := bind_ok h
  obtain ⟨o9, h9, h⟩ := bind_ok h
  obtain ⟨o10, h10, h⟩ := bind_ok h
  obtain ⟨g1, _⟩ := pac_pres E _ _ g h1
  obtain ⟨g2, _⟩ := dfs_pres (collapse_pres E) (fun _ _ => rfl) _ _ g1 h2
  obtain ⟨g3, _⟩ := dfs_pres (removeNoop_pres E) (fun _ _ => rfl) _ _ g2 h3
  obtain ⟨g4, _⟩ := dfs_pres (mergeCross_pres E) (fun _ _ => rfl) _ _ g3 h4
  obtain ⟨g5, _⟩ := dfs_pres (extract_pres E) (fun _ _ => rfl) _ _ g4 h5
  obtain ⟨g6, _⟩ := dfs_pres (mergeCross_pres E) (fun _ _ => rfl) _ _ g5 h6
  obtain ⟨g7, _⟩ := dfs_pres (orderCross_pres E) (fun _ _ => rfl) _ _ g6 h7
  obtain ⟨g8, _⟩ := dfs_pres (inMemory_pres E) (fun _ _ => rfl) _ _ g7 h8
  obtain ⟨g9, _⟩ := dfs_pres (normJoins_pres E hsh) (fun _ _ => rfl) _ _ g8 h9
  obtain ⟨g10, _⟩ := dfs_pres (normSubs_pres E hsh) (fun _ _ => rfl) _ _ g9 h10
  have n6 := dfs_nz False (mergeCross_pres E) (fun _ _ => rfl) (fun _ _ _ hp _ h => mergeCross_nz hp h) g5 nofun h6
  have n7 := dfs_nz True (orderCross_pres E) (fun _ _ => rfl) (fun _ _ _ _ hp h => orderCross_nz (hp trivial) h) g6
    (fun _ => n6) h7
  have n8 := dfs_nz True (inMemory_pres E) (fun _ _ => rfl) (fun _ _ _ _ hp h => inMemory_nz (hp trivial) h) g7
    (fun _ => n7) h8
  have n9 := dfs_nz True (normJoins_pres E hsh) (fun _ _ => rfl) (fun _ _ _ _ hp h => normJoins_nz (hp trivial) h) g8
    (fun _ => n8) h9
  have n10 := dfs_nz True (normSubs_pres E hsh) (fun _ _ => rfl) (fun _ _ _ _ hp h => normSubs_nz (hp trivial) h) g9
    (fun _ => n9) h10
  exact dfs_nz True (normUnions_pres E hsh) (fun _ _ => rfl) (fun _ _ _ _ hp h => normUnions_nz (hp trivial) h) g10
    (fun _ => n10) h

end Verif.KeySet
