import Verif.Binning.Model
import Mathlib.Tactic.Linarith
import Mathlib.Tactic.Positivity
import Mathlib.Algebra.BigOperators.Group.List.Basic

/-!
# Binning: C12, C13, C51
-/

namespace Verif.Binning

variable {α N : Type} [LinearOrder α]

/-! ## Specification -/

/-- The value `v` lies in the bin with index `i` of the spec: between edge `i` and edge `i + 1`, closed on
the right (or left), and with both ends of the whole range closed when requested. -/
def InBin (s : Spec α N) (i : Nat) (v : α) : Prop :=
  ∃ a b, s.edges[i]? = some a ∧ s.edges[i + 1]? = some b ∧
    (if s.right then (a < v ∧ v ≤ b) ∨ (s.both = true ∧ i = 0 ∧ v = a)
     else (a ≤ v ∧ v < b) ∨ (s.both = true ∧ i + 2 = s.edges.length ∧ v = b))

/-- What `__init__` guarantees. -/
structure Valid (s : Spec α N) : Prop where
  two : 2 ≤ s.edges.length
  len : s.names.length + 1 = s.edges.length
  mono : ∀ (i j : Nat) (a b : α), i < j → s.edges[i]? = some a → s.edges[j]? = some b → a < b

/-! ## Construction -/

theorem mono_of_sorted {e : List α} (h : sorted e = true) (i j : Nat) (a b : α) (hij : i < j)
    (ha : e[i]? = some a) (hb : e[j]? = some b) : a < b := by
  have step : ∀ (k : Nat) (x y : α), e[k]? = some x → e[k + 1]? = some y → x < y := by
    intro k x y hx hy
    unfold sorted at h
    rw [List.all_eq_true] at h
    have hk : k + 1 < e.length := (List.getElem?_eq_some_iff.mp hy).1
    have := h k (List.mem_range.mpr (by omega))
    rw [hx, hy] at this
    simpa using this
  induction j, hij using Nat.le_induction generalizing b with
  | base => exact step i a b ha hb
  | succ k hk ih =>
    have hk' : k + 1 < e.length := (List.getElem?_eq_some_iff.mp hb).1
    have hx : e[k]? = some e[k] := List.getElem?_eq_getElem (by omega)
    exact lt_trans (ih _ hx) (step k _ b hx hb)

theorem valid_of_mk {dflt : List α → Bool → Bool → Except Err (List N)}
    (hd : ∀ e r b ns, dflt e r b = .ok ns → ns.length = e.length - 1)
    {edges : List α} {names : Option (List N)} {right both : Bool} {nanBin : Option N}
    {s : Spec α N} (h : mk dflt edges names right both nanBin = .ok s) :
    Valid s ∧ s.edges = edges ∧ s.right = right ∧ s.both = both ∧ s.nanBin = nanBin := by
  unfold mk at h
  split at h
  · simp at h
  split at h
  · simp at h
  rename_i h2 hs
  have hs : sorted edges = true := by simpa using hs
  have fin : ∀ ns : List N, ns.length = edges.length - 1 → s = ⟨edges, ns, right, both, nanBin⟩ →
      Valid s ∧ s.edges = edges ∧ s.right = right ∧ s.both = both ∧ s.nanBin = nanBin := by
    rintro ns hl rfl
    refine ⟨⟨by simp only; omega, by simp only; omega, ?_⟩, rfl, rfl, rfl, rfl⟩
    intro i j a b hij ha hb
    exact mono_of_sorted hs i j a b hij ha hb
  split at h
  · split at h
    · simp at h
    · rename_i hh
      simp only [Except.ok.injEq] at h
      exact fin _ (hd _ _ _ _ hh) h.symm
  · split at h
    · simp at h
    · rename_i hh
      simp only [Except.ok.injEq] at h
      exact fin _ (by omega) h.symm

/-! ## bisect -/

/-- `bisect_left` returns the number of elements below `x`: everything before is `< x`, everything from
there on is `≥ x`. -/
theorem bisectLeft_spec {a : List α} {x : α}
    (hmono : ∀ (i j : Nat) (u v : α), i < j → a[i]? = some u → a[j]? = some v → u < v)
    (lo hi : Nat) (hlo : lo ≤ hi) (hhi : hi ≤ a.length)
    (h1 : ∀ (i : Nat) (u : α), i < lo → a[i]? = some u → u < x)
    (h2 : ∀ (i : Nat) (u : α), hi ≤ i → a[i]? = some u → x ≤ u) :
    bisectLeft a x lo hi ≤ a.length ∧
    (∀ (i : Nat) (u : α), i < bisectLeft a x lo hi → a[i]? = some u → u < x) ∧
    (∀ (i : Nat) (u : α), bisectLeft a x lo hi ≤ i → a[i]? = some u → x ≤ u) := by
  induction hn : hi - lo using Nat.strong_induction_on generalizing lo hi with
  | _ n ih =>
  rw [bisectLeft]
  split
  · rename_i hlt
    have hmid : (lo + hi) / 2 < a.length := by omega
    have hget : a[(lo + hi) / 2]? = some a[(lo + hi) / 2] := List.getElem?_eq_getElem hmid
    simp only [hget]
    split
    · rename_i hy
      refine ih (hi - ((lo + hi) / 2 + 1)) (by omega) _ _ (by omega) hhi ?_ h2 rfl
      intro i u hi' hu
      rcases Nat.lt_or_ge i ((lo + hi) / 2) with h | h
      · exact lt_trans (hmono _ _ _ _ h hu hget) hy
      · have : i = (lo + hi) / 2 := by omega
        subst this
        rw [hget] at hu
        cases hu
        exact hy
    · rename_i hy
      have hy := not_lt.mp hy
      refine ih ((lo + hi) / 2 - lo) (by omega) _ _ (by omega) (by omega) h1 ?_ rfl
      intro i u hi' hu
      rcases Nat.lt_or_ge ((lo + hi) / 2) i with h | h
      · exact le_of_lt (lt_of_le_of_lt hy (hmono _ _ _ _ h hget hu))
      · have : i = (lo + hi) / 2 := by omega
        subst this
        rw [hget] at hu
        cases hu
        exact hy
  · rename_i hlt
    have : lo = hi := by omega
    subst this
    exact ⟨hhi, h1, h2⟩

/-- `bisect_right`: everything before is `≤ x`, everything from there on is `> x`. -/
theorem bisectRight_spec {a : List α} {x : α}
    (hmono : ∀ (i j : Nat) (u v : α), i < j → a[i]? = some u → a[j]? = some v → u < v)
    (lo hi : Nat) (hlo : lo ≤ hi) (hhi : hi ≤ a.length)
    (h1 : ∀ (i : Nat) (u : α), i < lo → a[i]? = some u → u ≤ x)
    (h2 : ∀ (i : Nat) (u : α), hi ≤ i → a[i]? = some u → x < u) :
    bisectRight a x lo hi ≤ a.length ∧
    (∀ (i : Nat) (u : α), i < bisectRight a x lo hi → a[i]? = some u → u ≤ x) ∧
    (∀ (i : Nat) (u : α), bisectRight a x lo hi ≤ i → a[i]? = some u → x < u) := by
  induction hn : hi - lo using Nat.strong_induction_on generalizing lo hi with
  | _ n ih =>
  rw [bisectRight]
  split
  · rename_i hlt
    have hmid : (lo + hi) / 2 < a.length := by omega
    have hget : a[(lo + hi) / 2]? = some a[(lo + hi) / 2] := List.getElem?_eq_getElem hmid
    simp only [hget]
    split
    · rename_i hy
      refine ih ((lo + hi) / 2 - lo) (by omega) _ _ (by omega) (by omega) h1 ?_ rfl
      intro i u hi' hu
      rcases Nat.lt_or_ge ((lo + hi) / 2) i with h | h
      · exact lt_trans hy (hmono _ _ _ _ h hget hu)
      · have : i = (lo + hi) / 2 := by omega
        subst this
        rw [hget] at hu
        cases hu
        exact hy
    · rename_i hy
      have hy := not_lt.mp hy
      refine ih (hi - ((lo + hi) / 2 + 1)) (by omega) _ _ (by omega) hhi ?_ h2 rfl
      intro i u hi' hu
      rcases Nat.lt_or_ge i ((lo + hi) / 2) with h | h
      · exact le_of_lt (lt_of_lt_of_le (hmono _ _ _ _ h hu hget) hy)
      · have : i = (lo + hi) / 2 := by omega
        subst this
        rw [hget] at hu
        cases hu
        exact hy
  · rename_i hlt
    have : lo = hi := by omega
    subst this
    exact ⟨hhi, h1, h2⟩

/-! ## C12 -/

/-- A value lies in at most one bin. -/
theorem InBin.unique {s : Spec α N} (hv : Valid s) {i j : Nat} {v : α} (hi : InBin s i v)
    (hj : InBin s j v) : i = j := by
  wlog h : i < j generalizing i j
  · rcases Nat.lt_or_ge j i with h' | h'
    · exact (this hj hi h').symm
    · omega
  exfalso
  obtain ⟨a, b, ha, hb, hr⟩ := hi
  obtain ⟨c, d, hc, hd, hr'⟩ := hj
  have hac := hv.mono i j a c h ha hc
  have hab := hv.mono i (i + 1) a b (by omega) ha hb
  have hbc : b ≤ c := by
    rcases Nat.lt_or_ge (i + 1) j with h' | h'
    · exact le_of_lt (hv.mono _ _ _ _ h' hb hc)
    · have : j = i + 1 := by omega
      subst this
      rw [hb] at hc
      cases hc
      exact le_refl _
  cases hrt : s.right
  · simp only [hrt, Bool.false_eq_true, if_false] at hr hr'
    have hvb : v < b := by
      rcases hr with h1 | ⟨_, h1, _⟩
      · exact h1.2
      · have := (List.getElem?_eq_some_iff.mp hd).1
        omega
    have hcd := hv.mono j (j + 1) c d (by omega) hc hd
    rcases hr' with h1 | ⟨_, _, rfl⟩
    · exact absurd (lt_of_lt_of_le hvb hbc) (not_lt.mpr h1.1)
    · exact absurd (lt_of_lt_of_le hvb hbc) (not_lt.mpr (le_of_lt hcd))
  · simp only [hrt, if_true] at hr hr'
    have hvb : v ≤ b := by
      rcases hr with h1 | ⟨_, _, rfl⟩
      · exact h1.2
      · exact le_of_lt hab
    rcases hr' with h1 | ⟨_, h1, _⟩
    · exact absurd h1.1 (not_lt.mpr (le_trans hvb hbc))
    · omega

theorem call_spec {s : Spec α N} (hv : Valid s) (v : α) :
    (∃ i n, InBin s i v ∧ s.names[i]? = some n ∧ s.call (.val v) = some n) ∨
    ((∀ i, ¬ InBin s i v) ∧ s.call (.val v) = none) := by
  have h0 : 0 < s.edges.length := by have := hv.two; omega
  have hl : s.edges.length - 1 < s.edges.length := by omega
  have g0 : s.edges[0]? = some s.edges[0] := List.getElem?_eq_getElem h0
  have gl : s.edges[s.edges.length - 1]? = some s.edges[s.edges.length - 1] :=
    List.getElem?_eq_getElem hl
  generalize hfirst : s.edges[0] = first at g0
  generalize hlast : s.edges[s.edges.length - 1] = last at gl
  have hle : ∀ (i : Nat) (a : α), s.edges[i]? = some a → first ≤ a ∧ a ≤ last := by
    intro i a ha
    have hlt := (List.getElem?_eq_some_iff.mp ha).1
    constructor
    · rcases Nat.eq_zero_or_pos i with rfl | h
      · rw [g0] at ha; cases ha; exact le_refl _
      · exact le_of_lt (hv.mono _ _ _ _ h g0 ha)
    · rcases Nat.lt_or_ge i (s.edges.length - 1) with h | h
      · exact le_of_lt (hv.mono _ _ _ _ h ha gl)
      · have : i = s.edges.length - 1 := by omega
        subst this
        rw [gl] at ha
        cases ha
        exact le_refl _
  have hname : ∀ i, i + 1 < s.edges.length → ∃ n, s.names[i]? = some n := by
    intro i hi
    exact ⟨_, List.getElem?_eq_getElem (by have := hv.len; omega)⟩
  unfold Spec.call
  simp only [g0, gl]
  cases hr : s.right
  · simp only [Bool.false_eq_true, if_false]
    by_cases hb : s.both = true ∧ v = last
    · simp only [hb, decide_true, Bool.and_true, if_true]
      obtain ⟨n, hn⟩ := hname (s.edges.length - 2) (by have := hv.two; omega)
      left
      refine ⟨s.edges.length - 2, n, ?_, hn, ?_⟩
      · have h2 := hv.two
        refine ⟨_, last, List.getElem?_eq_getElem (i := s.edges.length - 2) (by omega), ?_, ?_⟩
        · have : s.edges.length - 2 + 1 = s.edges.length - 1 := by omega
          rw [this]; exact gl
        · simp only [hr, Bool.false_eq_true, if_false]
          exact Or.inr ⟨hb.1, by omega, trivial⟩
      · have : s.names.length - 1 = s.edges.length - 2 := by have := hv.len; omega
        rw [this]; exact hn
    · have : (s.both && decide (v = last)) = false := by
        cases hbb : s.both
        · rfl
        · simp only [hbb, true_and] at hb
          simp [hb]
      simp only [this, Bool.false_eq_true, if_false]
      split
      · rename_i hout
        right
        refine ⟨?_, rfl⟩
        rintro i ⟨a, b, ha, hbb, hin⟩
        simp only [hr, Bool.false_eq_true, if_false] at hin
        rcases hin with h | ⟨h1, h2, rfl⟩
        · rcases hout with h' | h'
          · exact absurd (le_trans (hle i a ha).1 h.1) (not_le.mpr h')
          · exact absurd (lt_of_lt_of_le h.2 (hle _ b hbb).2) (not_lt.mpr h')
        · apply hb
          refine ⟨h1, ?_⟩
          have : i + 1 = s.edges.length - 1 := by omega
          rw [this, gl] at hbb
          cases hbb
          rfl
      · rename_i hin
        simp only [not_or, not_lt, not_le] at hin
        obtain ⟨hB1, hB2, hB3⟩ := bisectRight_spec (x := v) hv.mono 0 s.edges.length (by omega)
          (le_refl _) (by intro i u h; omega)
          (by intro i u h hu; have := (List.getElem?_eq_some_iff.mp hu).1; omega)
        generalize hB : bisectRight s.edges v 0 s.edges.length = p at hB1 hB2 hB3 ⊢
        have hp0 : p ≠ 0 := by
          rintro rfl
          exact absurd (hB3 0 first (by omega) g0) (not_lt.mpr hin.1)
        have hpl : p < s.edges.length := by
          rcases Nat.lt_or_ge p s.edges.length with h | h
          · exact h
          · exact absurd (hB2 (s.edges.length - 1) last (by omega) gl) (not_le.mpr hin.2)
        obtain ⟨n, hn⟩ := hname (p - 1) (by omega)
        left
        refine ⟨p - 1, n, ?_, hn, hn⟩
        refine ⟨_, _, List.getElem?_eq_getElem (i := p - 1) (by omega),
          List.getElem?_eq_getElem (i := p - 1 + 1) (by omega), ?_⟩
        simp only [hr, Bool.false_eq_true, if_false]
        left
        exact ⟨hB2 (p - 1) _ (by omega) (List.getElem?_eq_getElem (by omega)),
          hB3 (p - 1 + 1) _ (by omega) (List.getElem?_eq_getElem (by omega))⟩
  · simp only [if_true]
    by_cases hb : s.both = true ∧ v = first
    · simp only [hb, decide_true, Bool.and_true, if_true]
      obtain ⟨n, hn⟩ := hname 0 (by have := hv.two; omega)
      left
      refine ⟨0, n, ?_, hn, hn⟩
      have h2 := hv.two
      refine ⟨first, _, g0, List.getElem?_eq_getElem (i := 0 + 1) (by omega), ?_⟩
      simp only [hr, if_true]
      exact Or.inr ⟨hb.1, trivial, trivial⟩
    · have : (s.both && decide (v = first)) = false := by
        cases hbb : s.both
        · rfl
        · simp only [hbb, true_and] at hb
          simp [hb]
      simp only [this, Bool.false_eq_true, if_false]
      split
      · rename_i hout
        right
        refine ⟨?_, rfl⟩
        rintro i ⟨a, b, ha, hbb, hin⟩
        simp only [hr, if_true] at hin
        rcases hin with h | ⟨h1, rfl, rfl⟩
        · rcases hout with h' | h'
          · exact absurd (lt_of_le_of_lt (hle i a ha).1 h.1) (not_lt.mpr h')
          · exact absurd (le_trans h.2 (hle _ b hbb).2) (not_le.mpr h')
        · apply hb
          refine ⟨h1, ?_⟩
          rw [g0] at ha
          cases ha
          rfl
      · rename_i hin
        simp only [not_or, not_lt, not_le] at hin
        obtain ⟨hB1, hB2, hB3⟩ := bisectLeft_spec (x := v) hv.mono 0 s.edges.length (by omega)
          (le_refl _) (by intro i u h; omega)
          (by intro i u h hu; have := (List.getElem?_eq_some_iff.mp hu).1; omega)
        generalize hB : bisectLeft s.edges v 0 s.edges.length = p at hB1 hB2 hB3 ⊢
        have hp0 : p ≠ 0 := by
          rintro rfl
          exact absurd (hB3 0 first (by omega) g0) (not_le.mpr hin.1)
        have hpl : p < s.edges.length := by
          rcases Nat.lt_or_ge p s.edges.length with h | h
          · exact h
          · exact absurd (hB2 (s.edges.length - 1) last (by omega) gl) (not_lt.mpr hin.2)
        obtain ⟨n, hn⟩ := hname (p - 1) (by omega)
        left
        refine ⟨p - 1, n, ?_, hn, hn⟩
        refine ⟨_, _, List.getElem?_eq_getElem (i := p - 1) (by omega),
          List.getElem?_eq_getElem (i := p - 1 + 1) (by omega), ?_⟩
        simp only [hr, if_true]
        left
        exact ⟨hB2 (p - 1) _ (by omega) (List.getElem?_eq_getElem (by omega)),
          hB3 (p - 1 + 1) _ (by omega) (List.getElem?_eq_getElem (by omega))⟩

/-- **C12.** For every spec that `BinningSpec(...)` accepts: a value lies in at most one bin; if it lies in
bin `i` the call returns the name of bin `i`; if it lies in no bin, or is null, the call returns `None`;
NaN goes to the NaN bin. -/
theorem C12_unique_bin {dflt : List α → Bool → Bool → Except Err (List N)}
    (hd : ∀ e r b ns, dflt e r b = .ok ns → ns.length = e.length - 1)
    {edges : List α} {names : Option (List N)} {right both : Bool} {nanBin : Option N}
    {s : Spec α N} (h : mk dflt edges names right both nanBin = .ok s) :
    (∀ v i j, InBin s i v → InBin s j v → i = j) ∧
    (∀ v i, InBin s i v → s.call (.val v) = s.names[i]? ∧ s.names[i]? ≠ none) ∧
    (∀ v, (∀ i, ¬ InBin s i v) → s.call (.val v) = none) ∧
    s.call .null = none ∧ s.call .nan = nanBin ∧ s.edges = edges := by
  obtain ⟨hv, he, _, _, hn⟩ := valid_of_mk hd h
  refine ⟨fun v i j => InBin.unique hv, ?_, ?_, rfl, hn, he⟩
  · intro v i hi
    rcases call_spec hv v with ⟨j, n, hj, hjn, hc⟩ | ⟨hno, _⟩
    · rw [InBin.unique hv hi hj, hc, hjn]
      simp
    · exact absurd hi (hno i)
  · intro v hno
    rcases call_spec hv v with ⟨j, n, hj, _, _⟩ | ⟨_, hc⟩
    · exact absurd hj (hno j)
    · exact hc

/-- **C12**, the bins cover the range: with `include_both_endpoints` every value between the first and the
last edge lies in a bin (and without, every value except the one open end). -/
theorem C12_covers {s : Spec α N} (hv : Valid s) (v first last : α) (h0 : s.edges[0]? = some first)
    (hl : s.edges[s.edges.length - 1]? = some last) :
    (∃ i, InBin s i v) ↔
      if s.both then first ≤ v ∧ v ≤ last
      else if s.right then first < v ∧ v ≤ last else first ≤ v ∧ v < last := by
  have hle : ∀ (i : Nat) (a : α), s.edges[i]? = some a → first ≤ a ∧ a ≤ last := by
    intro i a ha
    have hlt := (List.getElem?_eq_some_iff.mp ha).1
    constructor
    · rcases Nat.eq_zero_or_pos i with rfl | h
      · rw [h0] at ha; cases ha; exact le_refl _
      · exact le_of_lt (hv.mono _ _ _ _ h h0 ha)
    · rcases Nat.lt_or_ge i (s.edges.length - 1) with h | h
      · exact le_of_lt (hv.mono _ _ _ _ h ha hl)
      · have : i = s.edges.length - 1 := by omega
        subst this
        rw [hl] at ha
        cases ha
        exact le_refl _
  have hname : ∀ (i : Nat), i + 1 < s.edges.length → ∃ n, s.names[i]? = some n := by
    intro i hi
    exact ⟨_, List.getElem?_eq_getElem (by have := hv.len; omega)⟩
  constructor
  · rintro ⟨i, a, b, ha, hb, hin⟩
    have hA := hle i a ha
    have hB := hle _ b hb
    have hab := hv.mono i (i + 1) a b (by omega) ha hb
    cases hr : s.right <;> cases hbo : s.both <;>
      simp only [hr, hbo, Bool.false_eq_true, if_false, if_true, false_and, or_false, true_and]
        at hin ⊢
    · exact ⟨le_trans hA.1 hin.1, lt_of_lt_of_le hin.2 hB.2⟩
    · rcases hin with h | ⟨_, rfl⟩
      · exact ⟨le_trans hA.1 h.1, le_trans (le_of_lt h.2) hB.2⟩
      · exact ⟨le_trans hA.1 (le_of_lt hab), hB.2⟩
    · exact ⟨lt_of_le_of_lt hA.1 hin.1, le_trans hin.2 hB.2⟩
    · rcases hin with h | ⟨_, rfl⟩
      · exact ⟨le_trans hA.1 (le_of_lt h.1), le_trans h.2 hB.2⟩
      · exact ⟨hA.1, le_trans (le_of_lt hab) hB.2⟩
  · intro hin
    rcases call_spec hv v with ⟨j, n, hj, _, _⟩ | ⟨_, hc⟩
    · exact ⟨j, hj⟩
    · exfalso
      revert hc
      unfold Spec.call
      simp only [h0, hl]
      have hfl : first < last :=
        hv.mono 0 (s.edges.length - 1) _ _ (by have := hv.two; omega) h0 hl
      have nsome : ∀ i, i + 1 < s.edges.length → s.names[i]? ≠ none := by
        intro i hi
        obtain ⟨n, hn⟩ := hname i hi
        rw [hn]; simp
      have h2 := hv.two
      have hlen := hv.len
      cases hr : s.right <;> cases hbo : s.both <;>
        simp only [hr, hbo, Bool.false_eq_true, if_false, if_true, Bool.false_and, Bool.true_and,
          decide_eq_true_eq] at hin ⊢
      all_goals
        (first
          | rw [if_neg (by simp only [not_or, not_lt, not_le]; exact hin)]
            apply nsome
            first
              | obtain ⟨hB1, hB2, hB3⟩ := bisectRight_spec (x := v) hv.mono 0 s.edges.length (by omega)
                  (le_refl _) (by intro i u h; omega)
                  (by intro i u h hu; have := (List.getElem?_eq_some_iff.mp hu).1; omega)
                rcases Nat.lt_or_ge (bisectRight s.edges v 0 s.edges.length) s.edges.length with h | h
                · omega
                · exact absurd (hB2 (s.edges.length - 1) last (by omega) hl) (not_le.mpr hin.2)
              | obtain ⟨hB1, hB2, hB3⟩ := bisectLeft_spec (x := v) hv.mono 0 s.edges.length (by omega)
                  (le_refl _) (by intro i u h; omega)
                  (by intro i u h hu; have := (List.getElem?_eq_some_iff.mp hu).1; omega)
                rcases Nat.lt_or_ge (bisectLeft s.edges v 0 s.edges.length) s.edges.length with h | h
                · omega
                · exact absurd (hB2 (s.edges.length - 1) last (by omega) hl) (not_lt.mpr hin.2)
          | skip)
      · split
        · apply nsome; omega
        · rename_i hne
          have hlt := lt_of_le_of_ne hin.2 hne
          rw [if_neg (by simp only [not_or, not_lt, not_le]; exact ⟨hin.1, hlt⟩)]
          apply nsome
          obtain ⟨hB1, hB2, hB3⟩ := bisectRight_spec (x := v) hv.mono 0 s.edges.length (by omega)
            (le_refl _) (by intro i u h; omega)
            (by intro i u h hu; have := (List.getElem?_eq_some_iff.mp hu).1; omega)
          rcases Nat.lt_or_ge (bisectRight s.edges v 0 s.edges.length) s.edges.length with h | h
          · omega
          · exact absurd (hB2 (s.edges.length - 1) last (by omega) hl) (not_le.mpr hlt)
      · split
        · apply nsome; omega
        · rename_i hne
          have hlt := lt_of_le_of_ne hin.1 (fun h => hne h.symm)
          rw [if_neg (by simp only [not_or, not_lt, not_le]; exact ⟨hlt, hin.2⟩)]
          apply nsome
          obtain ⟨hB1, hB2, hB3⟩ := bisectLeft_spec (x := v) hv.mono 0 s.edges.length (by omega)
            (le_refl _) (by intro i u h; omega)
            (by intro i u h hu; have := (List.getElem?_eq_some_iff.mp hu).1; omega)
          rcases Nat.lt_or_ge (bisectLeft s.edges v 0 s.edges.length) s.edges.length with h | h
          · omega
          · exact absurd (hB2 (s.edges.length - 1) last (by omega) hl) (not_lt.mpr hin.2)

/-! ## C13 -/

section Bins

theorem mem_firstOccurrences {β : Type} [DecidableEq β] (l : List β) (x : β) :
    x ∈ firstOccurrences l ↔ x ∈ l := by
  induction l with
  | nil => simp [firstOccurrences]
  | cons y ys ih =>
    simp only [firstOccurrences, List.mem_cons, List.mem_filter, ih, decide_eq_true_eq]
    by_cases h : x = y <;> simp [h]

theorem nodup_firstOccurrences {β : Type} [DecidableEq β] (l : List β) :
    (firstOccurrences l).Nodup := by
  induction l with
  | nil => simp [firstOccurrences]
  | cons y ys ih =>
    simp only [firstOccurrences, List.nodup_cons, List.mem_filter]
    exact ⟨by simp, ih.filter _⟩

theorem firstOccurrences_sublist {β : Type} [DecidableEq β] (l : List β) :
    (firstOccurrences l).Sublist l := by
  induction l with
  | nil => exact List.Sublist.slnil
  | cons y ys ih =>
    exact List.Sublist.cons_cons _ (List.filter_sublist.trans ih)

variable [DecidableEq N]

theorem mem_bins (s : Spec α N) (b : Bool) (o : Option N) :
    o ∈ s.bins b ↔ (∃ n ∈ s.names, o = some n) ∨ (s.nanBin ≠ none ∧ o = s.nanBin) ∨
      (b = true ∧ o = none) := by
  unfold Spec.bins
  rw [mem_firstOccurrences, List.mem_append, List.mem_append, List.mem_map]
  cases hn : s.nanBin <;> cases b <;> simp [eq_comm, or_assoc]

/-- Each bin contains a value: its closed edge. -/
theorem inBin_nonempty {s : Spec α N} (hv : Valid s) (i : Nat) (hi : i + 1 < s.edges.length) :
    ∃ v, InBin s i v := by
  have ha : s.edges[i]? = some s.edges[i] := List.getElem?_eq_getElem (by omega)
  have hb : s.edges[i + 1]? = some s.edges[i + 1] := List.getElem?_eq_getElem hi
  have hab := hv.mono i (i + 1) _ _ (by omega) ha hb
  cases hr : s.right
  · exact ⟨s.edges[i], _, _, ha, hb, by
      simp only [hr, Bool.false_eq_true, if_false]; exact Or.inl ⟨le_refl _, hab⟩⟩
  · exact ⟨s.edges[i + 1], _, _, ha, hb, by
      simp only [hr, if_true]; exact Or.inl ⟨hab, le_refl _⟩⟩

/-- **C13.** `bins()` lists, without duplicates and in the order of the bins, exactly the non-null results
the spec can give; `bins(include_null=True)` lists exactly the results the spec can give. -/
theorem C13_bins_exact {s : Spec α N} (hv : Valid s) :
    (∀ b, (s.bins b).Nodup) ∧
    (∀ n, some n ∈ s.bins false ↔ ∃ c, s.call c = some n) ∧
    (∀ b, none ∈ s.bins b ↔ b = true) ∧
    (∀ n, some n ∈ s.bins true ↔ some n ∈ s.bins false) ∧
    (∃ c, s.call c = none) ∧
    (∀ b, (s.bins b).Sublist
      (s.names.map some ++ s.nanBin.toList.map some ++ if b then [none] else [])) := by
  refine ⟨fun b => nodup_firstOccurrences _, ?_, ?_, ?_, ⟨.null, rfl⟩, ?_⟩
  · intro n
    rw [mem_bins]
    constructor
    · rintro (⟨m, hm, he⟩ | ⟨_, h⟩ | ⟨h, _⟩)
      · cases he
        obtain ⟨i, hi, hin⟩ := List.getElem_of_mem hm
        obtain ⟨v, hvv⟩ := inBin_nonempty hv i (by have := hv.len; omega)
        refine ⟨.val v, ?_⟩
        rcases call_spec hv v with ⟨j, m, hj, hjm, hc⟩ | ⟨hno, _⟩
        · rw [hc, ← hjm, InBin.unique hv hj hvv, List.getElem?_eq_getElem hi, hin]
        · exact absurd hvv (hno i)
      · exact ⟨.nan, h.symm⟩
      · simp at h
    · rintro ⟨c, hc⟩
      cases c with
      | null => simp [Spec.call] at hc
      | nan =>
        have hc : s.nanBin = some n := hc
        exact Or.inr (Or.inl ⟨by rw [hc]; simp, hc.symm⟩)
      | val v =>
        rcases call_spec hv v with ⟨j, m, hj, hjm, hc'⟩ | ⟨_, hc'⟩
        · rw [hc] at hc'
          cases hc'
          exact Or.inl ⟨n, List.mem_of_getElem? hjm, rfl⟩
        · rw [hc] at hc'
          simp at hc'
  · intro b
    rw [mem_bins]
    constructor
    · rintro (⟨m, _, he⟩ | ⟨h, h'⟩ | ⟨h, _⟩)
      · simp at he
      · exact absurd h'.symm h
      · exact h
    · intro h
      exact Or.inr (Or.inr ⟨h, rfl⟩)
  · intro n
    simp only [mem_bins, Bool.false_eq_true, false_and, or_false, true_and]
    simp
  · intro b
    have := firstOccurrences_sublist
      (s.names.map some ++ (match s.nanBin with | none => [] | some n => [some n])
        ++ (if b then [none] else []))
    unfold Spec.bins
    cases hn : s.nanBin <;> simpa [hn] using this

/-- The count of a histogram bin (`QueryBuilder.histogram`, query_builder.py l. 1655-1663, before noise):
the rows whose binned value is the key. -/
def binCount (s : Spec α N) (rows : List (Cell α)) (key : Option N) : Nat :=
  (rows.filter (fun c => decide (s.call c = key))).length

/-- **C13**, histograms: over the keys `spec.bins()` every row that is assigned a bin name is counted
exactly once, and no other row is counted. -/
theorem C13_histogram {s : Spec α N} (hv : Valid s) (rows : List (Cell α)) :
    ((s.bins false).map (binCount s rows)).sum =
      (rows.filter (fun c => (s.call c).isSome)).length := by
  have hnd := (C13_bins_exact hv).1 false
  induction rows with
  | nil =>
    have : (s.bins false).map (binCount s []) = (s.bins false).map (fun _ => 0) := by
      apply List.map_congr_left
      intro k _
      rfl
    rw [this]
    simp
  | cons c cs ih =>
    have hsplit : (s.bins false).map (binCount s (c :: cs)) =
        (s.bins false).map (fun k => binCount s [c] k + binCount s cs k) := by
      apply List.map_congr_left
      intro k _
      unfold binCount
      simp only [List.filter_cons, List.filter_nil]
      split <;> simp [Nat.add_comm]
    rw [hsplit, List.sum_map_add, ih]
    have hone : ((s.bins false).map (binCount s [c])).sum = if (s.call c).isSome then 1 else 0 := by
      have hform : ∀ k, binCount s [c] k = if s.call c = k then 1 else 0 := by
        intro k
        unfold binCount
        by_cases h : s.call c = k <;> simp [h]
      have hgen : ∀ l : List (Option N), l.Nodup →
          (l.map (binCount s [c])).sum = if s.call c ∈ l then 1 else 0 := by
        intro l hl
        induction l with
        | nil => simp
        | cons k ks ihk =>
          rw [List.nodup_cons] at hl
          simp only [List.map_cons, List.sum_cons, ihk hl.2, hform]
          by_cases h : s.call c = k
          · subst h
            simp [hl.1]
          · simp [h]
      rw [hgen _ hnd]
      have := (C13_bins_exact hv).2.1
      have hnone := (C13_bins_exact hv).2.2.1 false
      cases hc : s.call c with
      | none =>
        have : ¬ (none ∈ s.bins false) := by rw [hnone]; simp
        simp [this]
      | some n =>
        have : some n ∈ s.bins false := (this n).mpr ⟨c, hc⟩
        simp [this]
    rw [hone, List.filter_cons]
    split <;> simp [Nat.add_comm]

end Bins

/-! ## C51: default names -/

theorem roundHalfEven_near (q : ℚ) : |(roundHalfEven q : ℚ) - q| ≤ 1 / 2 := by
  have h1 := Rat.floor_le q
  have h2 := Rat.lt_floor_add_one q
  push_cast at h2
  unfold roundHalfEven
  simp only
  rw [abs_le]
  split
  · constructor <;> linarith
  · split
    · push_cast
      constructor <;> linarith
    · split <;> push_cast <;> constructor <;> linarith

/-- Two floats that differ by more than one unit of the precision are formatted differently. -/
theorem fmt_ne {p : Nat} {a b : ℚ} (h : 1 < (b - a) * 10 ^ p) : fmt p a ≠ fmt p b := by
  intro heq
  have h1 : roundHalfEven (a * 10 ^ p) = roundHalfEven (b * 10 ^ p) := congrArg Prod.snd heq
  have ha := abs_le.mp (roundHalfEven_near (a * 10 ^ p))
  have hb := abs_le.mp (roundHalfEven_near (b * 10 ^ p))
  rw [h1] at ha
  have : (b - a) * 10 ^ p = b * 10 ^ p - a * 10 ^ p := by ring
  linarith [ha.1, ha.2, hb.1, hb.2]

/-- **C51** (partial): when neighbouring float edges are more than 1e-16 apart, default names exist, there
is one per bin, and they are pairwise different. Missing: strictly increasing edges that are closer, see
`C51_tiny_edges_fail`. -/
theorem C51_default_names_partial (edges : List ℚ) (right both : Bool)
    (hgap : ∀ (i j : Nat) (a b : ℚ), i < j → edges[i]? = some a → edges[j]? = some b →
      1 < (b - a) * 10 ^ 16) :
    ∃ ns, dfltFloat edges right both = .ok ns ∧ ns.length = edges.length - 1 ∧ ns.Nodup := by
  have h16 : (edges.map (fmt 16)).Nodup := by
    rw [List.nodup_iff_getElem?_ne_getElem?]
    intro i j hij hj
    rw [List.length_map] at hj
    rw [List.getElem?_map, List.getElem?_map, List.getElem?_eq_getElem (by omega),
      List.getElem?_eq_getElem hj]
    simp only [Option.map_some, ne_eq, Option.some.injEq]
    exact fmt_ne (hgap i j _ _ hij (List.getElem?_eq_getElem (by omega)) (List.getElem?_eq_getElem hj))
  have hsome : (findPrecision edges).isSome := by
    unfold findPrecision
    rw [List.find?_isSome]
    exact ⟨16, by decide, by simpa using h16⟩
  obtain ⟨p, hp⟩ := Option.isSome_iff_exists.mp hsome
  have hnd : (edges.map (fmt p)).Nodup := by
    unfold findPrecision at hp
    have := List.find?_some hp
    simpa using this
  unfold dfltFloat
  rw [hp]
  refine ⟨_, rfl, ?_, ?_⟩
  · simp only [List.length_mapIdx, List.length_zip, List.length_tail, List.length_map]
    omega
  · rw [List.nodup_iff_getElem?_ne_getElem?]
    intro i j hij hj
    rw [List.length_mapIdx] at hj
    simp only [List.getElem?_mapIdx, List.getElem?_eq_getElem hj,
      List.getElem?_eq_getElem (Nat.lt_trans hij hj), Option.map_some, ne_eq, Option.some.injEq]
    have hlo : ∀ (k : Nat) (hk : k < ((edges.map (fmt p)).zip (edges.map (fmt p)).tail).length),
        (((edges.map (fmt p)).zip (edges.map (fmt p)).tail)[k]).1 =
          (edges.map (fmt p))[k]'(by simp only [List.length_zip] at hk; omega) := by
      intro k hk
      rw [List.getElem_zip]
    have hne : (((edges.map (fmt p)).zip (edges.map (fmt p)).tail)[i]).1 ≠
        (((edges.map (fmt p)).zip (edges.map (fmt p)).tail)[j]).1 := by
      rw [hlo, hlo]
      intro h
      have := (List.Nodup.getElem_inj_iff hnd).mp h
      omega
    intro h
    apply hne
    cases right <;> simp only [Bool.false_eq_true, if_false, if_true, FloatName.mk.injEq] at h
    · exact h.2.2.1
    · exact h.2.2.1

/-- **C51, the claim is false in general.** Two valid, strictly increasing float edges for which no default
names can be made: the constructor raises `RuntimeError`. -/
theorem C51_tiny_edges_fail :
    mk dfltFloat [0, 1 / 10 ^ 17] none true true none = .error .runtimeError ∧
    sorted ([0, 1 / 10 ^ 17] : List ℚ) = true := by
  constructor <;> decide +kernel

/-! ## Examples -/

/-- Edges 0, 5, 10 with three-way names. -/
def demo : Spec ℚ String := ⟨[0, 5, 10], ["low", "high"], true, true, some "nan"⟩

example : mk (fun _ _ _ => .error .valueError) [(0 : ℚ), 5, 10] (some ["low", "high"]) true true
    (some "nan") = .ok demo := by
  rfl

theorem demo_valid : Valid demo :=
  (valid_of_mk (dflt := fun _ _ _ => .error .valueError) (by intro e r b ns h; cases h)
    (show mk _ [(0 : ℚ), 5, 10] (some ["low", "high"]) true true (some "nan") = .ok demo from rfl)).1

example : demo.call (.val 0) = some "low" ∧ demo.call (.val 5) = some "low" ∧
    demo.call (.val 6) = some "high" ∧ demo.call (.val 11) = none ∧ demo.call .nan = some "nan" := by
  decide +kernel

example : InBin demo 0 5 := ⟨0, 5, rfl, rfl, by decide +kernel⟩

example : demo.bins false = [some "low", some "high", some "nan"] := by decide +kernel

example : ∀ (i j : Nat) (a b : ℚ), i < j → ([0, 1/2] : List ℚ)[i]? = some a →
    ([0, 1/2] : List ℚ)[j]? = some b → 1 < (b - a) * 10 ^ 16 := by
  intro i j a b hij ha hb
  have h1 := (List.getElem?_eq_some_iff.mp ha).1
  have h2 := (List.getElem?_eq_some_iff.mp hb).1
  simp only [List.length_cons, List.length_nil] at h1 h2
  have : i = 0 ∧ j = 1 := by omega
  obtain ⟨rfl, rfl⟩ := this
  cases ha
  cases hb
  norm_num

end Verif.Binning
