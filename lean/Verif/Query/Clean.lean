import Verif.Query.Steps
import Verif.Expr.PropsIds

/-!
# The child of a rewritten aggregation
-/

namespace Verif.Query

open Verif Verif.Schema Verif.Expr Verif.Constraint Verif.Budget

/-- Accepted expressions have well-formed schemas. -/
theorem schemaOf_wf {cat : Cat} (hc : cat.OK) (e : Expr) (he : e.WF) {s : Schema} (hs : schemaOf cat e = .ok s) :
    s.WF := by
  induction e generalizing s with
  | source id =>
    simp only [schemaOf, schSource] at hs
    split at hs
    · cases hs
    split at hs
    · next s' cs hg =>
      cases hs
      exact (hc.priv _ _ _ hg).1
    · cases hs
  | rename e m ih =>
    obtain ⟨s', hs', hs⟩ := bind_ok hs
    exact (schRename_ok hs).2.2.2.1
  | filter e valid cond ih =>
    obtain ⟨s', hs', hs⟩ := bind_ok hs
    unfold schFilter at hs
    split at hs
    · cases hs; exact ih he hs'
    · cases hs
  | select e cols ih =>
    obtain ⟨s', hs', hs⟩ := bind_ok hs
    exact (schSelect_ok hs).2.2.2.2.1
  | map e f new augment ih =>
    obtain ⟨s', hs', hs⟩ := bind_ok hs
    exact (schMap_ok he.2 (ih he.1 hs') hs).1
  | flatMap e f new augment n ih =>
    obtain ⟨s', hs', hs⟩ := bind_ok hs
    exact (schFlatMap_ok he.2 (ih he.1 hs') hs).1
  | flatMapByID e f new ih =>
    obtain ⟨s', hs', hs⟩ := bind_ok hs
    obtain ⟨_, _, _, _, _, _, w, _⟩ := schFlatMapByID_ok he.2 hs
    exact w
  | joinPrivate l r tl tr cols ihl ihr =>
    obtain ⟨s1, hs1, hs⟩ := bind_ok hs
    obtain ⟨s2, hs2, hs⟩ := bind_ok hs
    exact (schJoinPrivate_ok (ihl he.1 hs1) (ihr he.2 hs2) hs).2.2.2.1
  | joinPublic e pub cols how ih =>
    obtain ⟨s', hs', hs⟩ := bind_ok hs
    obtain ⟨_, _, _, _, _, w, _⟩ := schJoinPublic_ok hc he.2 (ih he.1 hs') hs
    exact w
  | replaceNull e w ih =>
    obtain ⟨s', hs', hs⟩ := bind_ok hs
    exact (schReplaceNull_ok (ih he.1 hs') hs).1.wf
  | replaceInf e w ih =>
    obtain ⟨s', hs', hs⟩ := bind_ok hs
    exact (schReplaceInf_ok (ih he.1 hs') hs).1.wf
  | dropNull e cols ih =>
    obtain ⟨s', hs', hs⟩ := bind_ok hs
    exact (schDropNull_ok (ih he hs') hs).1.wf
  | dropInf e cols ih =>
    obtain ⟨s', hs', hs⟩ := bind_ok hs
    exact (schDropInf_ok (ih he hs') hs).1.wf
  | enforce e c ih =>
    obtain ⟨s', hs', hs⟩ := bind_ok hs
    rw [(schEnforce_ok hs).1]
    exact ih he hs'

/-- The bounds that replace infinities. -/
def Kind.clamp : Kind → Option (Value × Value)
  | .bounded _ _ low high _ => some (low, high)
  | .quantile _ _ low high => some (low, high)
  | _ => none

def nullStep (d : Desc) (c : String) (e : Expr) : Expr :=
  if d.allowNull || (decide (d.ty = .DECIMAL) && d.allowNan) then e.dropNull [c] else e

def infStep (b : Option (Value × Value)) (d : Desc) (c : String) (e : Expr) : Expr :=
  if decide (d.ty = .DECIMAL) && d.allowInf then
    match b with
    | some x => e.replaceInf [(c, x)]
    | none => e.dropInf [c]
  else e

theorem specialValues_child {cat : Cat} {a a' : Agg} (h : specialValues cat a = .ok a') :
    (a.kind.measure = none ∧ a' = a) ∨
      ∃ c s d, a.kind.measure = some c ∧ schemaOf cat a.child = .ok s ∧ Dict.get s.descs c = some d ∧
        a' = { a with child := infStep a.kind.clamp d c (nullStep d c a.child) } := by
  unfold specialValues at h
  split at h
  · next hm => cases h; exact Or.inl ⟨hm, rfl⟩
  · next c hm =>
    split at h
    · cases h
    · next s hs =>
      split at h
      · cases h
      · next d hd =>
        refine Or.inr ⟨c, s, d, hm, hs, hd, ?_⟩
        dsimp only at h
        unfold infStep nullStep
        split at h
        · next hi =>
          rw [if_pos hi]
          split at h
          · next hk =>
            split at h
            · cases h; rw [hk]; rfl
            · cases h
          · next hk =>
            split at h
            · cases h; rw [hk]; rfl
            · cases h
          · next h1 h2 =>
            cases h
            have : a.kind.clamp = none := by
              unfold Kind.clamp
              split
              · next hk => exact absurd hk (h1 _ _ _ _ _)
              · next hk => exact absurd hk (h2 _ _ _ _)
              · rfl
            rw [this]
        · next hi => cases h; rw [if_neg hi]

/-! ## Types -/

theorem nullStep_types {cat : Cat} {d : Desc} {c : String} {e : Expr} {s s' : Schema} (w : s.WF)
    (hs : schemaOf cat e = .ok s) (hs' : schemaOf cat (nullStep d c e) = .ok s') : stys s' = stys s ∧ s'.WF := by
  unfold nullStep at hs'
  split at hs'
  · obtain ⟨s1, h1, h2⟩ := bind_ok hs'
    rw [hs] at h1
    cases h1
    obtain ⟨ks, _⟩ := schDropNull_ok w h2
    exact ⟨stys_keeps ks (fun _ => rfl), ks.wf⟩
  · rw [hs] at hs'
    cases hs'
    exact ⟨rfl, w⟩

theorem infStep_types {cat : Cat} {b : Option (Value × Value)} {d : Desc} {c : String} {e : Expr} {s s' : Schema}
    (w : s.WF) (hs : schemaOf cat e = .ok s) (hs' : schemaOf cat (infStep b d c e) = .ok s') :
    stys s' = stys s ∧ s'.WF := by
  unfold infStep at hs'
  split at hs'
  · split at hs'
    · obtain ⟨s1, h1, h2⟩ := bind_ok hs'
      rw [hs] at h1
      cases h1
      obtain ⟨ks, _⟩ := schReplaceInf_ok w h2
      exact ⟨stys_keeps ks (fun _ => rfl), ks.wf⟩
    · obtain ⟨s1, h1, h2⟩ := bind_ok hs'
      rw [hs] at h1
      cases h1
      obtain ⟨ks, _⟩ := schDropInf_ok w h2
      exact ⟨stys_keeps ks (fun _ => rfl), ks.wf⟩
  · rw [hs] at hs'
    cases hs'
    exact ⟨rfl, w⟩

theorem schemaOf_infStep {cat : Cat} {b : Option (Value × Value)} {d : Desc} {c : String} {e : Expr} {s : Schema}
    (h : schemaOf cat (infStep b d c e) = .ok s) : ∃ s', schemaOf cat e = .ok s' := by
  unfold infStep at h
  split at h
  · split at h <;> exact ⟨_, (bind_ok h).choose_spec.1⟩
  · exact ⟨s, h⟩

theorem schemaOf_nullStep {cat : Cat} {d : Desc} {c : String} {e : Expr} {s : Schema}
    (h : schemaOf cat (nullStep d c e) = .ok s) : ∃ s', schemaOf cat e = .ok s' := by
  unfold nullStep at h
  split at h
  · exact ⟨_, (bind_ok h).choose_spec.1⟩
  · exact ⟨s, h⟩

/-- Rewriting does not change the type of any column. -/
theorem specialValues_types {cat : Cat} (hc : cat.OK) {a a' : Agg} (ha : a.child.WF)
    (h : specialValues cat a = .ok a') {s' : Schema} (hs' : schemaOf cat a'.child = .ok s') :
    ∃ s, schemaOf cat a.child = .ok s ∧
      ∀ c, (Dict.get s'.descs c).map Desc.ty = (Dict.get s.descs c).map Desc.ty := by
  rcases specialValues_child h with ⟨_, rfl⟩ | ⟨c, s, d, _, hs, _, rfl⟩
  · exact ⟨s', hs', fun _ => rfl⟩
  · refine ⟨s, hs, ?_⟩
    have w := schemaOf_wf hc a.child ha hs
    obtain ⟨s1, h1⟩ := schemaOf_infStep hs'
    obtain ⟨t1, w1⟩ := nullStep_types w hs h1
    obtain ⟨t2, w2⟩ := infStep_types w1 h1 hs'
    intro c'
    rw [← get_stys w2, ← get_stys w, t2, t1]

end Verif.Query
