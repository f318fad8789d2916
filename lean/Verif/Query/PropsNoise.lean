import Verif.Query.Clean

/-!
# C28: selection of the noise mechanism
-/

namespace Verif.Query

open Verif Verif.Schema Verif.Expr Verif.Constraint Verif.Budget

/-! ## Specification -/

/-- Mechanisms of the Gaussian family; the others are Laplace-like. -/
def CoreMech.Gaussian (c : CoreMech) : Prop := c = .gaussian ∨ c = .discreteGaussian

/-- Mechanisms that add integer noise. -/
def CoreMech.Integer (c : CoreMech) : Prop := c = .geometric ∨ c = .discreteGaussian

/-- The aggregate of integers: counts, and aggregations of an integer column. -/
def Agg.OfIntegers (cat : Cat) (a : Agg) : Prop :=
  match a.kind with
  | .count _ => True
  | .countDistinct _ _ => True
  | .bounded _ col _ _ _ => ∃ s d, schemaOf cat a.child = .ok s ∧ Dict.get s.descs col = some d ∧ d.ty = .INTEGER
  | _ => False

/-- Mechanism `c` is a right choice for request `k` under privacy notion `m`. -/
structure RightChoice (m : Measure) (integers : Prop) (k : Mech) (c : CoreMech) : Prop where
  /-- Gaussian noise only under zCDP -/
  zcdp : c.Gaussian → m = .zCDP
  /-- the requested family -/
  laplace : k = .laplace → ¬ c.Gaussian
  gaussian : k = .gaussian → c.Gaussian
  default : k = .default → (c.Gaussian ↔ m = .zCDP)
  /-- integer noise exactly for integers -/
  integers : c.Integer ↔ integers

/-! ## Proof -/

theorem noiseForCount_right {m : Measure} {k : Mech} {c : CoreMech} (h : noiseForCount m k = .ok c) :
    RightChoice m True k c := by
  cases k <;> cases m <;> simp [noiseForCount] at h <;> subst h <;>
    constructor <;> simp [CoreMech.Gaussian, CoreMech.Integer]

theorem noiseForOther_right {m : Measure} {ty : ColumnType} {k : Mech} {c : CoreMech}
    (h : noiseForOther m ty k = .ok c) : RightChoice m (ty = .INTEGER) k c := by
  cases k <;> cases m <;> cases ty <;> simp [noiseForOther] at h <;> subst h <;>
    constructor <;> simp [CoreMech.Gaussian, CoreMech.Integer]

theorem selectNoise_right {m : Measure} {cat : Cat} {a a' : Agg} {k : Mech} (hk : a.kind.mech = some k)
    (h : selectNoise m cat a = .ok a') : ∃ c, a'.core = some c ∧ RightChoice m (a.OfIntegers cat) k c := by
  unfold selectNoise at h
  split at h
  · next mech hm =>
    rw [hm] at hk
    cases hk
    split at h
    · cases h
    · next c hc =>
      cases h
      refine ⟨c, rfl, ?_⟩
      rw [show a.OfIntegers cat = True by simp only [Agg.OfIntegers, hm]]
      exact noiseForCount_right hc
  · next l mech hm =>
    rw [hm] at hk
    cases hk
    split at h
    · cases h
    · next c hc =>
      cases h
      refine ⟨c, rfl, ?_⟩
      rw [show a.OfIntegers cat = True by simp only [Agg.OfIntegers, hm]]
      exact noiseForCount_right hc
  · next st col low high mech hm =>
    rw [hm] at hk
    cases hk
    split at h
    · cases h
    · next s hs =>
      split at h
      · cases h
      · next d hd =>
        split at h
        · cases h
        · next c hc =>
          cases h
          refine ⟨c, rfl, ?_⟩
          rw [show a.OfIntegers cat = (d.ty = .INTEGER) by
            simp only [Agg.OfIntegers, hm]
            refine propext ⟨?_, fun h => ⟨s, d, hs, hd, h⟩⟩
            rintro ⟨s', d', h1, h2, h3⟩
            rw [hs] at h1
            cases h1
            rw [hd] at h2
            cases h2
            exact h3]
          exact noiseForOther_right hc
  · next h1 h2 h3 =>
    cases hkind : a.kind with
    | count m => exact absurd hkind (h1 _)
    | countDistinct t m => exact absurd hkind (h2 _ _)
    | bounded st c l u m => exact absurd hkind (h3 _ _ _ _ _)
    | quantile c q l u => rw [hkind] at hk; cases hk
    | bounds c l u => rw [hkind] at hk; cases hk

theorem ofIntegers_special {cat : Cat} (hc : cat.OK) {a a₁ : Agg} (ha : a.child.WF)
    (h : specialValues cat a = .ok a₁) (hs : ∃ s', schemaOf cat a₁.child = .ok s') :
    a₁.OfIntegers cat ↔ a.OfIntegers cat := by
  obtain ⟨_, hk, _, _⟩ := specialValues_ok h
  obtain ⟨s', hs'⟩ := hs
  obtain ⟨s, hs, ht⟩ := specialValues_types hc ha h hs'
  unfold Agg.OfIntegers
  rw [hk]
  split
  · rfl
  · rfl
  · next col _ _ _ _ =>
    rw [hs, hs']
    constructor
    · rintro ⟨_, d', h1, h2, h3⟩
      cases h1
      have := ht col
      rw [h2] at this
      cases hd : Dict.get s.descs col with
      | none => rw [hd] at this; cases this
      | some d =>
        rw [hd] at this
        exact ⟨s, d, rfl, hd, by rw [← h3]; exact (Option.some.inj this).symm⟩
    · rintro ⟨_, d, h1, h2, h3⟩
      cases h1
      have := ht col
      rw [h2] at this
      cases hd : Dict.get s'.descs col with
      | none => rw [hd] at this; cases this
      | some d' =>
        rw [hd] at this
        exact ⟨s', d', rfl, hd, by rw [← h3]; exact Option.some.inj this⟩
  · rfl

/-- **C28**. In a compiled query, every aggregation for which a mechanism can be chosen has one, and it is a right
choice: Gaussian noise only under zCDP, the requested family, integer noise exactly for integers. The norm in which
groups are combined is that of the mechanism. -/
theorem C28_right_noise (env : Env) (hc : env.cat.OK) (b : PB) (q : Query) (a : Agg) (ha : a.child.WF)
    (hq : q.agg? = some a) (p : Plan) (h : compileQuery env b q = .ok p) (k : Mech) (hk : a.kind.mech = some k) :
    ∃ c, p.mech = some c ∧ RightChoice env.m (a.OfIntegers env.cat) k c ∧ (p.useL2 = true ↔ c.Gaussian) := by
  obtain ⟨a₁, a₂, p₁, _, hr, hf, hcomp, hp⟩ := compileQuery_ok hq h
  obtain ⟨a₀, c₀, h1, h2, rfl, _, hkind, _⟩ := rewriteAgg_ok hr
  obtain ⟨fk, fm, fc, _⟩ := hf.keys
  have hk0 : a₀.kind.mech = some k := by
    rw [show a₀.kind = a.kind from hkind]; exact hk
  obtain ⟨c, e1, e2⟩ := selectNoise_right hk0 h2
  obtain ⟨c', e3, e4, e5⟩ := hcomp.mech.1 k (by rw [fm]; exact hk0)
  rw [fc, e1] at e3
  cases e3
  obtain ⟨s, hs⟩ := hcomp.schema
  have hsch : ∃ s', schemaOf env.cat a₀.child = .ok s' := by
    unfold Agg.schema at hs
    split at hs
    · cases hs
    · next s' hs' =>
      cases hf with
      | same => exact ⟨s', hs'⟩
      | shortcut _ _ hs'' _ _ => exact ⟨_, hs''⟩
  refine ⟨c, ?_, ?_, ?_⟩
  · rcases hp with ⟨_, rfl⟩ | ⟨_, _, _, _, _, rfl⟩ <;> exact e4
  · rw [← propext (ofIntegers_special hc ha h1 hsch)]
    exact e2
  · have : p.useL2 = usesL2 c := by
      rcases hp with ⟨_, rfl⟩ | ⟨_, _, _, _, _, rfl⟩ <;> exact e5
    rw [this]
    simp [usesL2, CoreMech.Gaussian]

/-- **C28** (rejection). Gaussian noise outside zCDP is refused. -/
theorem C28_refused (env : Env) (hc : env.cat.OK) (b : PB) (q : Query) (a : Agg) (ha : a.child.WF)
    (hq : q.agg? = some a) (hk : a.kind.mech = some .gaussian) (hm : env.m ≠ .zCDP) :
    ∃ e, compileQuery env b q = .error e := by
  cases h : compileQuery env b q with
  | error e => exact ⟨e, rfl⟩
  | ok p =>
    obtain ⟨c, _, r, _⟩ := C28_right_noise env hc b q a ha hq p h _ hk
    exact absurd (r.zcdp (r.gaussian rfl)) hm

/-- **C28** (totality). Unless Gaussian noise is asked for outside zCDP, a mechanism is found for every aggregation
with a valid schema. -/
theorem C28_total (m : Measure) (cat : Cat) (a : Agg) (hs : ∃ s, a.schema cat = .ok s)
    (hk : a.kind.mech = some .gaussian → m = .zCDP) : ∃ a', selectNoise m cat a = .ok a' := by
  have count : ∀ k, (k = Mech.gaussian → m = .zCDP) → ∃ c, noiseForCount m k = .ok c := by
    intro k h
    cases k with
    | default => exact ⟨_, rfl⟩
    | laplace => exact ⟨_, rfl⟩
    | gaussian => exact ⟨.discreteGaussian, by simp [noiseForCount, h rfl]⟩
  unfold selectNoise
  split
  · next mech hm =>
    obtain ⟨c, hc⟩ := count mech (by rintro rfl; exact hk (by rw [hm]; rfl))
    rw [hc]
    exact ⟨_, rfl⟩
  · next l mech hm =>
    obtain ⟨c, hc⟩ := count mech (by rintro rfl; exact hk (by rw [hm]; rfl))
    rw [hc]
    exact ⟨_, rfl⟩
  · next st col low high mech hm =>
    obtain ⟨s, hs⟩ := hs
    unfold Agg.schema at hs
    split at hs
    · cases hs
    · next s' hs' =>
      split at hs
      · cases hs
      · next hv =>
        unfold validateGroupby at hv
        split at hv
        · cases hv
        · split at hv
          · cases hv
          · rw [hm] at hv
            simp only [Kind.measure] at hv
            split at hv
            · cases hv
            · unfold checkMeasure at hv
              split at hv
              · cases hv
              · next d hd =>
                obtain ⟨c, hc⟩ : ∃ c, noiseForOther m d.ty mech = .ok c := by
                  unfold noiseForOther
                  cases mech with
                  | default => dsimp only; split <;> exact ⟨_, rfl⟩
                  | laplace => dsimp only; split <;> exact ⟨_, rfl⟩
                  | gaussian =>
                    have hz : m = .zCDP := hk (by rw [hm]; rfl)
                    subst hz
                    simp only [ne_eq, not_true_eq_false, if_false]
                    split <;> exact ⟨_, rfl⟩
                rw [hc]
                exact ⟨_, rfl⟩
  · exact ⟨_, rfl⟩

/-- **C28** (nothing else). Rewriting changes neither keys, nor the requested aggregation, nor the output column;
selecting the noise does not touch the child; doing it again changes nothing. -/
theorem C28_nothing_else (m : Measure) (cat : Cat) (a a' : Agg) (h : selectNoise m cat a = .ok a') :
    a'.child = a.child ∧ a'.keys = a.keys ∧ a'.kind = a.kind ∧ a'.out = a.out ∧
      selectNoise m cat a' = .ok a' := by
  obtain ⟨c, rfl⟩ := selectNoise_ok h
  refine ⟨rfl, rfl, rfl, rfl, ?_⟩
  unfold selectNoise at h ⊢
  cases hk : a.kind <;> simp only [hk] at h ⊢
  · split at h
    · cases h
    · next hc =>
      simp only [Except.ok.injEq, Agg.mk.injEq, true_and] at h
      simp [hc, h]
  · split at h
    · cases h
    · next hc =>
      simp only [Except.ok.injEq, Agg.mk.injEq, true_and] at h
      simp [hc, h]
  · split at h
    · cases h
    · next hs =>
      split at h
      · cases h
      · next hd =>
        split at h
        · cases h
        · next hc =>
          simp only [Except.ok.injEq, Agg.mk.injEq, true_and] at h
          simp [hs, hd, hc, h]

end Verif.Query
