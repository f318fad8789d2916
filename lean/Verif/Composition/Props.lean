import Verif.Composition.Model
import Mathlib.Tactic.Module

/-!
# C50: adaptive querying keeps the total privacy guarantee
-/

namespace Verif.Composition

open Verif.Budget (XNum PB Rounding)
open Verif.Session
open scoped ENNReal NNReal

variable {Q M T D V X A B : Type}

/-! ## The three definitions together -/

/-- Closeness of the kind of budget `k`. -/
def CloseAt (k : PB) (e : ℝ × ℝ) (P Q : PMF A) : Prop :=
  match k with
  | .pure _ => PureClose e.1 P Q
  | .approx _ _ => ApproxClose e.1 e.2 P Q
  | .zcdp _ => ZCDPClose e.1 P Q

theorem CloseAt.refl (k : PB) (P : PMF A) : CloseAt k 0 P P := by
  cases k
  · exact PureClose.refl P
  · exact ApproxClose.refl P
  · exact ZCDPClose.refl P

theorem CloseAt.mono {k : PB} {e e' : ℝ × ℝ} {P Q : PMF A} (h : CloseAt k e P Q) (he : e ≤ e') : CloseAt k e' P Q := by
  cases k
  · exact PureClose.mono h he.1
  · exact ApproxClose.mono h he.1 he.2
  · exact ZCDPClose.mono h he.1

theorem CloseAt.bind {k : PB} {e e' : ℝ × ℝ} (h0 : 0 ≤ e) (h0' : 0 ≤ e') {P Q : PMF A} {f g : A → PMF B}
    (h : CloseAt k e P Q) (hf : ∀ a, CloseAt k e' (f a) (g a)) : CloseAt k (e + e') (P.bind f) (Q.bind g) := by
  cases k
  · exact PureClose.bind h hf
  · exact ApproxClose.bind h0.2 h0'.2 h hf
  · exact ZCDPClose.bind h hf

/-- The same when only the second distribution differs, and only in outcomes that are possible. -/
theorem CloseAt.bind_same {k : PB} {e : ℝ × ℝ} (h0 : 0 ≤ e) {P : PMF A} {f g : A → PMF B}
    (hf : ∀ a ∈ P.support, CloseAt k e (f a) (g a)) : CloseAt k e (P.bind f) (P.bind g) := by
  classical
  have hg : P.bind g = P.bind (fun a => if a ∈ P.support then g a else f a) := by
    ext b
    rw [PMF.bind_apply, PMF.bind_apply]
    refine tsum_congr fun a => ?_
    by_cases ha : a ∈ P.support
    · rw [if_pos ha]
    · rw [(P.apply_eq_zero_iff a).2 ha, zero_mul, zero_mul]
  rw [hg, ← zero_add e]
  refine CloseAt.bind le_rfl h0 (CloseAt.refl k P) fun a => ?_
  by_cases ha : a ∈ P.support
  · rw [if_pos ha]; exact hf a ha
  · rw [if_neg ha]; exact (CloseAt.refl k _).mono h0

/-- A budget as two real numbers. -/
def real (b : PB) : ℝ × ℝ := (num (vec b).1, num (vec b).2)

theorem num_nonneg {x : XNum} (h : 0 ≤ x) : 0 ≤ num x := by
  cases x using WithTop.recTopCoe with
  | top => exact le_rfl
  | coe q =>
    change (0 : ℝ) ≤ (q : ℝ)
    exact_mod_cast (WithTop.coe_nonneg.1 h)

theorem num_zero : num 0 = 0 := by
  change ((0 : ℚ) : ℝ) = 0
  simp

theorem real_nonneg {b : PB} (h : b.Valid) : 0 ≤ real b := by
  cases b with
  | pure ε => exact ⟨num_nonneg h, num_nonneg le_rfl⟩
  | approx ε δ => exact ⟨num_nonneg h.1, num_nonneg h.2.1⟩
  | zcdp ρ => exact ⟨num_nonneg h, num_nonneg le_rfl⟩

theorem num_add {a b : XNum} (ha : a ≠ ⊤) (hb : b ≠ ⊤) : num (a + b) = num a + num b := by
  cases a using WithTop.recTopCoe with
  | top => exact absurd rfl ha
  | coe a =>
    cases b using WithTop.recTopCoe with
    | top => exact absurd rfl hb
    | coe b =>
      change (((a + b : ℚ)) : ℝ) = (a : ℝ) + (b : ℝ)
      push_cast
      rfl

theorem vec_ne_top {b : PB} (hv : b.Valid) (h : b.isInfinite = false) : (vec b).1 ≠ ⊤ ∧ (vec b).2 ≠ ⊤ := by
  cases b with
  | pure ε => exact ⟨by simpa [PB.isInfinite, vec] using h, WithTop.coe_ne_top⟩
  | approx ε δ =>
    simp only [PB.isInfinite, Bool.or_eq_false_iff, decide_eq_false_iff_not] at h
    refine ⟨h.1, fun h' => ?_⟩
    have := hv.2.2
    simp only [vec] at h'
    rw [h'] at this
    exact absurd this (by simp)
  | zcdp ρ => exact ⟨by simpa [PB.isInfinite, vec] using h, WithTop.coe_ne_top⟩

theorem real_spend {r b : PB} (hv : r.Valid) (hb : b.Valid) (hf : r.isInfinite = false) (h : canSpend r b = true) :
    real (spend r b) + real b = real r := by
  obtain ⟨h1, h2, h3, h4, _, _⟩ := spend_finite hv hb hf h
  obtain ⟨a1, a2⟩ := vec_ne_top h2 h3
  obtain ⟨b1, b2⟩ := vec_ne_top hb h4
  unfold real
  rw [← h1]
  exact Prod.ext (num_add a1 b1).symm (num_add a2 b2).symm

theorem within_closeAt {k b : PB} (hk : PB.SameKind k b) (hb : b.isInfinite = false) {s : ℝ≥0} {P Q : PMF A}
    (h : Within b s P Q) : CloseAt k ((s : ℝ) • real b) P Q := by
  have := h hb
  cases k <;> cases b <;> first | exact this | exact hk.elim

theorem within_of_closeAt {b : PB} {P Q : PMF A} (h : b.isInfinite = false → CloseAt b (real b) P Q) : Within b 1 P Q := by
  intro hb
  have := h hb
  cases b <;> simpa [CloseAt, real, vec] using this

/-! ## What is left -/

/-- What session `i` has left. -/
def left (ns : List (Node M T)) (i : Nat) : ℝ × ℝ :=
  match ns[i]? with
  | some n => real n.remaining
  | none => 0

/-- All that is left, each session counted with the share of the change that is in its data. -/
noncomputable def potential (ns : List (Node M T)) (share : Nat → ℝ≥0) : ℝ × ℝ :=
  ∑ i ∈ Finset.range ns.length, (share i : ℝ) • left ns i

/-- All sessions have finite budgets of kind `k`. -/
def AllFinite (k : PB) (ns : List (Node M T)) : Prop :=
  ∀ (i : Nat) (n : Node M T), ns[i]? = some n →
    n.remaining.Valid ∧ n.remaining.isInfinite = false ∧ PB.SameKind k n.remaining

theorem left_nonneg {k : PB} {ns : List (Node M T)} (h : AllFinite k ns) (i : Nat) : 0 ≤ left ns i := by
  unfold left
  split
  · next n hn => exact real_nonneg (h i n hn).1
  · exact le_rfl

theorem potential_nonneg {k : PB} {ns : List (Node M T)} (h : AllFinite k ns) (share : Nat → ℝ≥0) :
    0 ≤ potential ns share :=
  Finset.sum_nonneg fun i _ => smul_nonneg (share i).2 (left_nonneg h i)

theorem left_stateOnly {ns ns' : List (Node M T)} (h : StateOnly ns ns') (i : Nat) : left ns' i = left ns i := by
  unfold left
  cases hn : ns[i]? with
  | none => rw [h.getNone hn]
  | some n =>
    obtain ⟨s, hs⟩ := h.get hn
    rw [hs]

theorem AllFinite.stateOnly {k : PB} {ns ns' : List (Node M T)} (hf : AllFinite k ns) (h : StateOnly ns ns') :
    AllFinite k ns' := by
  intro i n hn
  obtain ⟨s, hs⟩ := h.get' hn
  have := hf i _ hs
  exact this

theorem lt_of_get {ns : List (Node M T)} {i : Nat} {n : Node M T} (hn : ns[i]? = some n) : i < ns.length := by
  by_contra h
  rw [List.getElem?_eq_none (by omega)] at hn
  cases hn

/-- What a call does to what is left. -/
inductive Effect (env : Env Q M T D V) (k : PB) (ns : List (Node M T)) :
    Op Q D V → Except Err (Out M) → List (Node M T) → Prop
  | quiet (op : Op Q D V) (res : Except Err (Out M)) (ns' : List (Node M T))
      (h1 : ∀ m b, res ≠ .ok (.answer m b))
      (h2 : ∀ i src b col splits x, op = .partition i src b col splits → res ≠ .ok x)
      (hl : ns'.length = ns.length) (h : ∀ i, left ns' i = left ns i) : Effect env k ns op res ns'
  | answer (op : Op Q D V) (m : M) (b : PB) (ns' : List (Node M T)) (hi : op.target < ns.length)
      (hk : PB.SameKind k b) (hv : b.Valid) (hf : b.isInfinite = false) (hp : env.privRel m b = true)
      (hop : ∀ i src b col splits, op ≠ .partition i src b col splits)
      (hcm : ∃ n pub q, ns[op.target]? = some n ∧ env.compile n.tables pub q b = .ok m)
      (hl : ns'.length = ns.length) (h : left ns' op.target + real b = left ns op.target)
      (ho : ∀ i, i ≠ op.target → left ns' i = left ns i) : Effect env k ns op (.ok (.answer m b)) ns'
  | split (i : Nat) (src : String) (b0 : PB) (col : String) (splits : List (String × V)) (b : PB)
      (ids : List (String × Nat)) (ns' : List (Node M T)) (hi : i < ns.length) (hv : b.Valid)
      (hp : ∃ n pub t, ns[i]? = some n ∧ env.partition n.tables pub src col (splits.map Prod.snd) = .ok t ∧
        ∀ j m, ns.length ≤ j → ns'[j]? = some m → ∀ p ∈ m.tables, p.2 = t)
      (hl : ns'.length = ns.length + splits.length) (h : left ns' i + real b = left ns i)
      (ho : ∀ j, j < ns.length → j ≠ i → left ns' j = left ns j)
      (hc : ∀ j, j < splits.length → left ns' (ns.length + j) = real b) :
      Effect env k ns (.partition i src b0 col splits) (.ok (.sessions ids)) ns'

theorem left_set {ns : List (Node M T)} {i : Nat} {n : Node M T} (hn : ns[i]? = some n) (n' : Node M T) (j : Nat) :
    left (ns.set i n') j = if j = i then real n'.remaining else left ns j := by
  unfold left
  rw [get_set hn n' j]
  by_cases hij : i = j
  · simp [hij]
  · rw [if_neg hij, if_neg (Ne.symm hij)]

theorem AllFinite.set {k : PB} {ns : List (Node M T)} (hf : AllFinite k ns) {i : Nat} {n : Node M T} (hn : ns[i]? = some n)
    {n' : Node M T} (h : n'.remaining.Valid ∧ n'.remaining.isInfinite = false ∧ PB.SameKind k n'.remaining) :
    AllFinite k (ns.set i n') := by
  intro j m hm
  rw [get_set hn n' j] at hm
  split at hm
  · cases hm; exact h
  · exact hf j m hm

theorem left_of_get {ns : List (Node M T)} {i : Nat} {n : Node M T} (hn : ns[i]? = some n) : left ns i = real n.remaining := by
  unfold left
  rw [hn]

/-- Every call has one of these effects. -/
theorem effect_step {env : Env Q M T D V} (hr : env.rounding.Lawful) {k : PB} {w w' : World M T D} {op : Op Q D V}
    {res : Except Err (Out M)} (hop : op.BudgetValid) (hf : AllFinite k w.nodes) (h : Step env w op res w') :
    AllFinite k w'.nodes ∧ Effect env k w.nodes op res w'.nodes := by
  cases h with
  | reject _ e => exact ⟨hf, .quiet _ _ _ nofun nofun rfl fun _ => rfl⟩
  | late _ e ns h =>
    have so := activate_stateOnly h
    exact ⟨hf.stateOnly so, .quiet _ _ _ nofun nofun so.length (left_stateOnly so)⟩
  | evaluate i q b n m adj ns hn hc ha hp hs =>
    have so := activate_stateOnly ha
    obtain ⟨hv, hfin, hk⟩ := hf i n hn
    obtain ⟨_, _, hadj, hcm⟩ := compileInfo_ok hc
    have hav := processRequested_valid hr hv (convertBudget_valid hop) hadj
    obtain ⟨_, g2, g3, g4, g5, _⟩ := spend_finite hv hav hfin hs
    have hn' := activate_self hn ha
    refine ⟨(hf.stateOnly so).set hn' ⟨g2, g3, SameKind.trans hk g5⟩, .answer _ m adj _ (lt_of_get hn)
      (SameKind.trans hk (canSpend_sameKind hs)) hav g4 hp nofun ⟨n, _, _, hn, hcm⟩
      (by rw [List.length_set, so.length]) ?_ ?_⟩
    · simp only [Op.target]
      rw [left_set hn', if_pos rfl, left_of_get hn]
      exact real_spend hv hav hfin hs
    · intro j hj
      simp only [Op.target] at hj
      rw [left_set hn', if_neg hj, left_stateOnly so]
  | createView i q name n t ns hn hi ha h1 h2 ht =>
    have so := activate_stateOnly ha
    have hn' := activate_self hn ha
    refine ⟨(hf.stateOnly so).set hn' (hf i n hn), .quiet _ _ _ nofun nofun (by rw [List.length_set, so.length]) ?_⟩
    intro j
    rw [left_set hn']
    split
    · next hj => rw [hj, left_of_get hn]
    · exact left_stateOnly so j
  | deleteView i name n ns hn ha h1 =>
    have so := activate_stateOnly ha
    have hn' := activate_self hn ha
    refine ⟨(hf.stateOnly so).set hn' (hf i n hn), .quiet _ _ _ nofun nofun (by rw [List.length_set, so.length]) ?_⟩
    intro j
    rw [left_set hn']
    split
    · next hj => rw [hj, left_of_get hn]
    · exact left_stateOnly so j
  | addPublic => exact ⟨hf, .quiet _ _ _ nofun nofun rfl fun _ => rfl⟩
  | partition i src b col splits n adj t ns hn hkm hid hadj ht ha hs =>
    have so := activate_stateOnly ha
    obtain ⟨hv, hfin, hk⟩ := hf i n hn
    have hav := processRequested_valid hr hv (convertBudget_valid hop) hadj
    obtain ⟨_, g2, g3, g4, g5, _⟩ := spend_finite hv hav hfin hs
    have hn' := activate_self hn ha
    have hi := lt_of_get hn
    have hlen := so.length
    have hks : PB.SameKind k adj := SameKind.trans hk (canSpend_sameKind hs)
    set n' : Node M T := { n with
      state := .waitChildren, remaining := spend n.remaining adj
      log := n.log ++ [.split adj ((List.range splits.length).map (· + w.nodes.length))] } with hn'def
    set cs := mkChildren i { n with state := .active } adj t true (names splits) with hcs
    have hfs : AllFinite k (ns.set i n') := (hf.stateOnly so).set hn' ⟨g2, g3, SameKind.trans hk g5⟩
    have old : ∀ j, j < w.nodes.length → left (ns.set i n' ++ cs) j = left (ns.set i n') j := by
      intro j hj
      unfold left
      rw [List.getElem?_append_left (by rw [List.length_set]; omega)]
    have hcl : cs.length = splits.length := by
      rw [hcs, mkChildren_length]; simp [names]
    refine ⟨?_, .split i src b col splits adj _ _ hi hav ⟨n, _, t, hn, ht, ?_⟩ ?_ ?_ ?_ ?_⟩
    · intro j m hm
      simp only at hm
      rw [List.getElem?_append] at hm
      split at hm
      · exact hfs j m hm
      · obtain ⟨s, _, rfl⟩ := mkChildren_get _ _ _ _ _ _ _ _ hm
        exact ⟨hav, g4, hks⟩
    · intro j m hj hm p hp
      simp only at hm
      rw [List.getElem?_append_right (by rw [List.length_set]; omega)] at hm
      obtain ⟨s, _, rfl⟩ := mkChildren_get _ _ _ _ _ _ _ _ hm
      simp only [List.mem_singleton] at hp
      rw [hp]
    · simp only
      rw [List.length_append, List.length_set, hcl, hlen]
    · rw [old i hi, left_set hn', if_pos rfl, left_of_get hn]
      exact real_spend hv hav hfin hs
    · intro j hj hji
      rw [old j hj, left_set hn', if_neg hji, left_stateOnly so]
    · intro j hj
      have hj' : j < cs.length := by omega
      have : (ns.set i n' ++ cs)[w.nodes.length + j]? = some cs[j] := by
        rw [List.getElem?_append_right (by rw [List.length_set]; omega), List.length_set, hlen, Nat.add_sub_cancel_left,
          List.getElem?_eq_getElem hj']
      simp only
      rw [left_of_get this]
      obtain ⟨s, _, hcc⟩ := mkChildren_get _ _ _ _ _ _ _ _ (List.getElem?_eq_getElem hj')
      rw [hcc]
  | stop i n hn =>
    have so := retire_stateOnly w.nodes i
    refine ⟨hf.stateOnly so, .quiet _ _ _ nofun nofun so.length (left_stateOnly so)⟩

/-- The private tables of an old session are those it had, or a view of them. -/
theorem tables_step {env : Env Q M T D V} {w w' : World M T D} {op : Op Q D V} {res : Except Err (Out M)}
    (h : Step env w op res w') {j : Nat} {n' : Node M T} (hj : j < w.nodes.length) (hn' : w'.nodes[j]? = some n') :
    ∃ n, w.nodes[j]? = some n ∧ ∀ p ∈ n'.tables, p ∈ n.tables ∨ ∃ pub q, env.transform n.tables pub q = .ok p.2 := by
  have so : ∀ {ns : List (Node M T)}, StateOnly w.nodes ns → ∀ {m : Node M T}, ns[j]? = some m →
      ∃ n, w.nodes[j]? = some n ∧ ∀ p ∈ m.tables, p ∈ n.tables ∨ ∃ pub q, env.transform n.tables pub q = .ok p.2 := by
    intro ns so m hm
    obtain ⟨s, hs⟩ := so.get' hm
    exact ⟨_, hs, fun p hp => .inl hp⟩
  have upd : ∀ {i : Nat} {n m : Node M T} {ns : List (Node M T)}, w.nodes[i]? = some n → activate w.nodes i = .ok ns →
      (∀ p ∈ m.tables, p ∈ n.tables ∨ ∃ pub q, env.transform n.tables pub q = .ok p.2) → ∀ {m' : Node M T},
      (ns.set i m)[j]? = some m' →
      ∃ n, w.nodes[j]? = some n ∧ ∀ p ∈ m'.tables, p ∈ n.tables ∨ ∃ pub q, env.transform n.tables pub q = .ok p.2 := by
    intro i n m ns hn ha hp m' hm'
    rw [get_set (activate_self hn ha) m j] at hm'
    split at hm'
    · next e =>
      subst e
      cases hm'
      exact ⟨n, hn, hp⟩
    · exact so (activate_stateOnly ha) hm'
  cases h with
  | reject => exact ⟨_, hn', fun p hp => .inl hp⟩
  | late _ e ns h => exact so (activate_stateOnly h) hn'
  | evaluate i q b n m adj ns hn hc ha hp hs => exact upd hn ha (by exact fun p hp => .inl hp) hn'
  | createView i q name n t ns hn hi ha h1 h2 ht =>
    refine upd hn ha (fun p hp => ?_) hn'
    simp only [List.mem_cons] at hp
    rcases hp with rfl | hp
    · exact .inr ⟨_, _, ht⟩
    · exact .inl hp
  | deleteView i name n ns hn ha h1 => exact upd hn ha (fun p hp => .inl (List.mem_of_mem_filter hp)) hn'
  | addPublic => exact ⟨_, hn', fun p hp => .inl hp⟩
  | partition i src b col splits n adj t ns hn hkm hid hadj ht ha hs =>
    simp only at hn'
    rw [List.getElem?_append_left (by rw [List.length_set, (activate_stateOnly ha).length]; exact hj)] at hn'
    exact upd hn ha (by exact fun p hp => .inl hp) hn'
  | stop i n hn => exact so (retire_stateOnly w.nodes i) hn'

theorem potential_congr {ns ns' : List (Node M T)} (hl : ns'.length = ns.length) (h : ∀ i, left ns' i = left ns i)
    (share : Nat → ℝ≥0) : potential ns' share = potential ns share := by
  unfold potential
  rw [hl]
  exact Finset.sum_congr rfl fun i _ => by rw [h i]

theorem potential_spend {ns ns' : List (Node M T)} {i : Nat} {e : ℝ × ℝ} (hi : i < ns.length)
    (hl : ns'.length = ns.length) (h : left ns' i + e = left ns i) (ho : ∀ j, j < ns.length → j ≠ i → left ns' j = left ns j)
    (share : Nat → ℝ≥0) : (share i : ℝ) • e + potential ns' share = potential ns share := by
  unfold potential
  rw [hl]
  have hm : i ∈ Finset.range ns.length := Finset.mem_range.2 hi
  rw [← Finset.add_sum_erase _ _ hm, ← Finset.add_sum_erase (a := i) _ _ hm, ← h]
  rw [smul_add, ← add_assoc, add_comm ((share i : ℝ) • e)]
  congr 1
  refine Finset.sum_congr rfl fun j hj => ?_
  rw [Finset.mem_erase, Finset.mem_range] at hj
  rw [ho j hj.2 hj.1]

/-! ## The theorem -/

theorem transcript_close {env : Env Q M T D V} (hr : env.rounding.Lawful) {sem : Sem M T V X A} {near : ℝ≥0 → X → X → Prop}
    {fits : T → X → Prop} (hs : Sound env sem near fits) (analyst : Analyst Q M T D V A)
    (ha : ∀ hist w, ∀ op ∈ (analyst hist w).support, op.BudgetValid) (k : PB) :
    ∀ (n : Nat) (w : World M T D) (data data' : Nat → X) (share : Nat → ℝ≥0) (hist : History Q M D V A),
      AllFinite k w.nodes → (∀ i < w.nodes.length, share i ≤ 1 ∧ near (share i) (data i) (data' i)) →
      (∀ i n, w.nodes[i]? = some n → ∀ p ∈ n.tables, fits p.2 (data i) ∧ fits p.2 (data' i)) →
      CloseAt k (potential w.nodes share) (transcript env sem analyst n w data hist)
        (transcript env sem analyst n w data' hist)
  | 0, w, data, data', share, hist, hf, _, _ => (CloseAt.refl k _).mono (potential_nonneg hf share)
  | n + 1, w, data, data', share, hist, hf, hnear, hfit => by
    have ih := transcript_close hr hs analyst ha k n
    simp only [transcript]
    refine CloseAt.bind_same (potential_nonneg hf share) fun op hop => ?_
    obtain ⟨hf', eff⟩ := effect_step hr (ha hist w op hop) hf (step_cases env w op)
    have hold : ∀ j n', j < w.nodes.length → (step env w op).2.nodes[j]? = some n' → ∀ p ∈ n'.tables,
        fits p.2 (data j) ∧ fits p.2 (data' j) := by
      intro j n' hj hn' p hp
      obtain ⟨n, hn, hc⟩ := tables_step (step_cases env w op) hj hn'
      rcases hc p hp with hp' | ⟨pub, q, ht⟩
      · exact hfit j n hn p hp'
      · exact ⟨hs.view (fun p hp => (hfit j n hn p hp).1) ht, hs.view (fun p hp => (hfit j n hn p hp).2) ht⟩
    generalize (step env w op).1 = res at eff ⊢
    generalize (step env w op).2 = w' at eff hf' hold ⊢
    have quiet : ∀ {data : Nat → X}, (∀ m b, res ≠ .ok (.answer m b)) →
        respond sem data op.target res = PMF.pure (res, none) := by
      intro data h
      unfold respond
      split
      · next m b => exact absurd rfl (h m b)
      · rfl
    generalize hw : w'.nodes = ns' at eff hf'
    cases eff with
    | quiet _ _ _ h1 h2 hl h =>
      have nd : ∀ {data : Nat → X}, nextData sem w data op res = data := by
        intro data
        unfold nextData
        split
        · next i src b col splits x => exact absurd rfl (h2 _ _ _ _ _ _ rfl)
        · rfl
      rw [quiet h1, quiet h1, PMF.pure_bind, PMF.pure_bind, nd, nd, ← potential_congr hl h, ← hw]
      refine ih _ _ _ _ _ (hw ▸ hf') (fun i hi => hnear i ?_) fun i n hn => hold i n ?_ hn
      · rw [hw, hl] at hi
        exact hi
      · have := lt_of_get hn
        rw [hw, hl] at this
        exact this
    | answer _ m b _ hi hk hv hfin hp hnop hcm hl h ho =>
      obtain ⟨n0, pub, q, hn0, hcm⟩ := hcm
      have nd : ∀ {data : Nat → X}, nextData sem w data op (.ok (.answer m b)) = data := by
        intro data
        unfold nextData
        split
        · next i src b col splits x => exact absurd rfl (hnop _ _ _ _ _)
        · rfl
      rw [nd, nd, ← potential_spend hi hl h (fun j _ => ho j) share]
      have cl := within_closeAt hk hfin (hs.mech (hnear _ hi).1 (hnear _ hi).2
        (fun p hp => (hfit _ n0 hn0 p hp).1) (fun p hp => (hfit _ n0 hn0 p hp).2) hv hcm hp)
      have nn : 0 ≤ (share op.target : ℝ) • real b := smul_nonneg (share _).2 (real_nonneg hv)
      refine CloseAt.bind nn (potential_nonneg hf' share) ?_ fun r => ?_
      · unfold respond
        simp only
        rw [← add_zero ((share op.target : ℝ) • real b)]
        exact CloseAt.bind nn le_rfl cl fun a => CloseAt.refl k _
      · rw [← hw]
        refine ih _ _ _ _ _ (hw ▸ hf') (fun i hi => hnear i ?_) fun i n hn => hold i n ?_ hn
        · rw [hw, hl] at hi
          exact hi
        · have := lt_of_get hn
          rw [hw, hl] at this
          exact this
    | split i src b0 col splits b ids _ hi hv hp hl h ho hc =>
      rw [quiet nofun, quiet nofun, PMF.pure_bind, PMF.pure_bind]
      obtain ⟨n0, pub, tb, hn0, hp, hch⟩ := hp
      have htab : tablesOf w i = n0.tables := by
        unfold tablesOf
        rw [hn0]
      obtain ⟨t, ht, htn⟩ := hs.part src col (splits.map Prod.snd) (hnear i hi).1 (hnear i hi).2
        (fun p hp => (hfit _ n0 hn0 p hp).1) (fun p hp => (hfit _ n0 hn0 p hp).2) hp
      rw [List.length_map] at ht htn
      have ht1 : ∀ k < splits.length, t k ≤ 1 := fun k hk =>
        le_trans (Finset.single_le_sum (f := t) (fun _ _ => zero_le) (Finset.mem_range.2 hk)) (ht.trans (hnear i hi).1)
      have main := ih w' (nextData sem w data (.partition i src b0 col splits : Op Q D V) (.ok (.sessions ids)))
        (nextData sem w data' (.partition i src b0 col splits : Op Q D V) (.ok (.sessions ids)))
        (fun j => if j < w.nodes.length then share j else t (j - w.nodes.length))
        ((.partition i src b0 col splits, .ok (.sessions ids), none) :: hist) (hw ▸ hf') ?_ ?_
      · refine main.mono ?_
        rw [hw]
        unfold potential
        rw [hl, Finset.sum_range_add]
        have e1 : ∑ j ∈ Finset.range splits.length,
            ((if w.nodes.length + j < w.nodes.length then share (w.nodes.length + j)
              else t (w.nodes.length + j - w.nodes.length) : ℝ≥0) : ℝ) • left ns' (w.nodes.length + j) =
            ((∑ j ∈ Finset.range splits.length, t j : ℝ≥0) : ℝ) • real b := by
          rw [NNReal.coe_sum, Finset.sum_smul]
          refine Finset.sum_congr rfl fun j hj => ?_
          rw [if_neg (by omega), Nat.add_sub_cancel_left, hc j (Finset.mem_range.1 hj)]
        have e2 : ∑ j ∈ Finset.range w.nodes.length,
            ((if j < w.nodes.length then share j else t (j - w.nodes.length) : ℝ≥0) : ℝ) • left ns' j =
            ∑ j ∈ Finset.range w.nodes.length, (share j : ℝ) • left ns' j :=
          Finset.sum_congr rfl fun j hj => by rw [if_pos (Finset.mem_range.1 hj)]
        rw [e1, e2]
        have hm : i ∈ Finset.range w.nodes.length := Finset.mem_range.2 hi
        rw [← Finset.add_sum_erase _ _ hm, ← Finset.add_sum_erase (a := i) _ _ hm, ← h]
        have e3 : ∑ j ∈ (Finset.range w.nodes.length).erase i, (share j : ℝ) • left ns' j =
            ∑ j ∈ (Finset.range w.nodes.length).erase i, (share j : ℝ) • left w.nodes j := by
          refine Finset.sum_congr rfl fun j hj => ?_
          rw [Finset.mem_erase, Finset.mem_range] at hj
          rw [ho j hj.2 hj.1]
        rw [e3, smul_add, add_right_comm]
        refine add_le_add (add_le_add le_rfl ?_) le_rfl
        exact smul_le_smul_of_nonneg_right (by exact_mod_cast ht) (real_nonneg hv)
      · intro j hj
        simp only [nextData]
        split
        · next hlt => exact hnear j hlt
        · rw [hw, hl] at hj
          rw [htab]
          exact ⟨ht1 _ (by omega), (htn _ (by omega)).1⟩
      · intro j n' hn' p hp
        simp only [nextData]
        split
        · next hlt => exact hold j n' hlt hn' p hp
        · next hlt =>
          have hj := lt_of_get hn'
          rw [hw, hl] at hj
          rw [htab, hch j n' (by omega) (hw ▸ hn') p hp]
          exact (htn _ (by omega)).2

/-- **C50**: whatever the analyst asks next depending on what was answered, on whichever sessions, whether it is answered or
refused: what they see is private for the budget the session was built with. -/
theorem C50_adaptive {env : Env Q M T D V} (hr : env.rounding.Lawful) {sem : Sem M T V X A} {near : ℝ≥0 → X → X → Prop}
    {fits : T → X → Prop} (hs : Sound env sem near fits) (analyst : Analyst Q M T D V A)
    (ha : ∀ hist w, ∀ op ∈ (analyst hist w).support, op.BudgetValid) {b : PB} (hb : b.Valid) (tables : List (String × T))
    {x x' : X} (hx : near 1 x x') (ht : ∀ p ∈ tables, fits p.2 x ∧ fits p.2 x') (n : Nat) :
    Within b 1 (transcript env sem analyst n (init b tables) (fun _ => x) [])
      (transcript env sem analyst n (init b tables) (fun _ => x') []) := by
  refine within_of_closeAt fun hfin => ?_
  have hib := initialBudget_finite hfin
  have hall : AllFinite b (init b tables : World M T D).nodes := by
    intro i m hm
    cases i with
    | zero =>
      cases hm
      simp only [hib]
      exact ⟨hb, hfin, by cases b <;> trivial⟩
    | succ i => cases hm
  have := transcript_close hr hs analyst ha b n (init b tables) (fun _ => x) (fun _ => x') (fun _ => 1) [] hall
    (fun i _ => ⟨le_rfl, hx⟩) (by
      intro i m hm p hp
      cases i with
      | zero => cases hm; exact ht p hp
      | succ i => cases hm)
  have e : potential (init b tables : World M T D).nodes (fun _ => 1) = real b := by
    simp [potential, init, left, hib]
  rw [e] at this
  exact this

end Verif.Composition
