import Verif.Relation.PropsCover
import Mathlib.Data.Multiset.Basic
import Mathlib.Data.Multiset.AddSub
import Mathlib.Algebra.BigOperators.Group.Finset.Basic
import Mathlib.Algebra.Order.BigOperators.Group.Finset
import Mathlib.Data.Real.Sqrt
import Mathlib.Tactic.Linarith
import Mathlib.Tactic.Positivity

/-!
# C34: protected changes and distances

The metrics are core's (assumed, from their documentation): the symmetric difference counts the rows to add and remove;
the grouped metrics sum it, or its square, over the groups; `AddRemoveKeys` counts the IDs to add and remove, where an
ID whose rows change is removed and added.
-/

namespace Verif.Relation

open Verif
open Verif.Schema (SparkType Field Frame SparkDesc PyErr)

/-! ## Core's metrics (assumed) -/

abbrev DataRow := List Value

/-- The value of a column in a row. -/
def cell (df : Frame) (col : String) (row : DataRow) : Option Value := Dict.get ((columns df).zip row) col

/-- The rows of a group. -/
def rowsWith (df : Frame) (col : String) (v : Option Value) : List DataRow :=
  df.rows.filter (fun r => decide (cell df col r = v))

/-- `SymmetricDifference`. -/
def symDist (a b : List DataRow) : ℕ :=
  ((a : Multiset DataRow) - b).card + ((b : Multiset DataRow) - a).card

/-- The groups in either table. -/
def groupValues (a b : Frame) (col : String) : Finset (Option Value) :=
  (a.rows.map (cell a col) ++ b.rows.map (cell b col)).toFinset

/-- `SumOf(SymmetricDifference())` over the groups. -/
def sumDist (col : String) (a b : Frame) : ℕ :=
  ∑ v ∈ groupValues a b col, symDist (rowsWith a col v) (rowsWith b col v)

/-- The square of `RootSumOfSquared(SymmetricDifference())` over the groups. -/
def sqDist (col : String) (a b : Frame) : ℕ :=
  ∑ v ∈ groupValues a b col, symDist (rowsWith a col v) (rowsWith b col v) ^ 2

/-- The rows of an ID in one of the tables of an ID space. -/
def keyRows (tables : List (Ident × Dom Frame)) (v : Option Value) (p : Ident × String) : List DataRow :=
  match Dict.get tables p.1 with
  | some (.table df) => rowsWith df p.2 v
  | _ => []

/-- The IDs in a table. -/
def keyIds (tables : List (Ident × Dom Frame)) (p : Ident × String) : List (Option Value) :=
  match Dict.get tables p.1 with
  | some (.table df) => df.rows.map (cell df p.2)
  | _ => []

/-- What an ID adds to the distance: nothing if its rows are the same, one if it is added or removed, two if it is
removed and added with other rows. -/
def keyWeight (m : Dict Ident String) (as bs : List (Ident × Dom Frame)) (v : Option Value) : ℕ :=
  if ∀ p ∈ m, (keyRows as v p : Multiset DataRow) = keyRows bs v p then 0
  else if (∀ p ∈ m, keyRows as v p = []) ∨ (∀ p ∈ m, keyRows bs v p = []) then 1
  else 2

/-- `AddRemoveKeys`. -/
def keyDist (m : Dict Ident String) (as bs : List (Ident × Dom Frame)) : ℕ :=
  ∑ v ∈ (m.flatMap (fun p => keyIds as p ++ keyIds bs p)).toFinset, keyWeight m as bs v

/-- Two tables, or two collections of tables in an ID space, are at most a distance apart. -/
def WithinPart : Metric → Dom Frame → Dom Frame → Dist → Prop
  | .symDiff, .table a, .table b, .num n => (symDist a.rows b.rows : ℤ) ≤ n
  | .groupedSum c, .table a, .table b, .num n => (sumDist c a b : ℤ) ≤ n
  | .groupedRoot c, .table a, .table b, .timesRoot r g => Real.sqrt (sqDist c a b) ≤ r * Real.sqrt g
  | .addRemoveKeys m, .dict as, .dict bs, .num n => (keyDist m as bs : ℤ) ≤ n
  | _, _, _, _ => False

/-- `DictMetric`: each entry is within its distance. -/
def Within (m : Metric) (a b : Dom Frame) (d : Dist) : Prop :=
  ∃ ms as bs ds, m = .dict ms ∧ a = .dict as ∧ b = .dict bs ∧ d = .dict ds ∧
    (∀ k, k ∈ Dict.keys as → k ∈ Dict.keys ms) ∧ (∀ k, k ∈ Dict.keys bs → k ∈ Dict.keys ms) ∧
    ∀ k m', (k, m') ∈ ms → ∃ a' b' d', Dict.get as k = some a' ∧ Dict.get bs k = some b' ∧
      Dict.get ds k = some d' ∧ WithinPart m' a' b' d'

/-! ## Specification: neighboring databases -/

/-- Up to `n` rows were added or removed. -/
def Differ (n : ℤ) (a b : List DataRow) : Prop :=
  ∃ common removed added : List DataRow, a.Perm (common ++ removed) ∧ b.Perm (common ++ added) ∧
    (removed.length + added.length : ℤ) ≤ n

/-- Databases with the same tables, that differ as the protected changes say: by up to `n` rows; in up to `g` groups,
by up to `r` rows in each; by all rows of one ID of an ID space. -/
structure Neighbors (sA sB : Sources) : Prop where
  same : List.Forall₂ (fun p q => p.1 = q.1 ∧ p.2.1.fields = q.2.1.fields ∧ p.2.2 = q.2.2) sA sB
  rows : ∀ n a b k, (n, a, Change.maxRows k) ∈ sA → (n, b, Change.maxRows k) ∈ sB → Differ k a.rows b.rows
  groups : ∀ n a b c g r, (n, a, Change.maxRowsInMaxGroups c g r) ∈ sA →
    (n, b, Change.maxRowsInMaxGroups c g r) ∈ sB → ∃ changed : Finset (Option Value), (changed.card : ℤ) ≤ g ∧
      (∀ v ∉ changed, (rowsWith a c v).Perm (rowsWith b c v)) ∧
      ∀ v ∈ changed, Differ r (rowsWith a c v) (rowsWith b c v)
  ids : ∀ s, ∃ changed : Finset (Option Value), changed.card ≤ 1 ∧
    (∀ v ∉ changed, ∀ n a b c, (n, a, Change.rowsWithID c s) ∈ sA → (n, b, Change.rowsWithID c s) ∈ sB →
      (rowsWith a c v).Perm (rowsWith b c v)) ∧
    ∀ v ∈ changed, (∀ n a c, (n, a, Change.rowsWithID c s) ∈ sA → rowsWith a c v = []) ∨
      (∀ n b c, (n, b, Change.rowsWithID c s) ∈ sB → rowsWith b c v = [])

/-! ## Proofs -/

theorem symDist_le {a b : List DataRow} {n : ℤ} (h : Differ n a b) : (symDist a b : ℤ) ≤ n := by
  obtain ⟨c, r, d, ha, hb, hn⟩ := h
  have ea : (a : Multiset DataRow) = (c : Multiset DataRow) + r := by
    rw [Multiset.coe_add]
    exact Multiset.coe_eq_coe.2 ha
  have eb : (b : Multiset DataRow) = (c : Multiset DataRow) + d := by
    rw [Multiset.coe_add]
    exact Multiset.coe_eq_coe.2 hb
  unfold symDist
  rw [ea, eb, add_tsub_add_eq_tsub_left, add_tsub_add_eq_tsub_left]
  have h1 : ((r : Multiset DataRow) - d).card ≤ r.length := by
    have := Multiset.card_le_card (Multiset.sub_le_self (r : Multiset DataRow) d)
    simpa using this
  have h2 : ((d : Multiset DataRow) - r).card ≤ d.length := by
    have := Multiset.card_le_card (Multiset.sub_le_self (d : Multiset DataRow) r)
    simpa using this
  push_cast
  have h1' : (((r : Multiset DataRow) - d).card : ℤ) ≤ r.length := by exact_mod_cast h1
  have h2' : (((d : Multiset DataRow) - r).card : ℤ) ≤ d.length := by exact_mod_cast h2
  linarith

theorem symDist_perm {a b : List DataRow} (h : a.Perm b) : symDist a b = 0 := by
  have : (a : Multiset DataRow) = b := Multiset.coe_eq_coe.2 h
  unfold symDist
  rw [this]
  simp

/-- A sum with few terms that count. -/
theorem sum_few {α : Type} [DecidableEq α] (S changed : Finset α) (f : α → ℕ) (r : ℕ) (h0 : ∀ v ∉ changed, f v = 0)
    (h1 : ∀ v ∈ changed, f v ≤ r) : ∑ v ∈ S, f v ≤ changed.card * r := by
  calc ∑ v ∈ S, f v = ∑ v ∈ S ∩ changed, f v := by
        symm
        refine Finset.sum_subset Finset.inter_subset_left ?_
        intro x hx hn
        refine h0 x (fun hc => hn (Finset.mem_inter.2 ⟨hx, hc⟩))
    _ ≤ (S ∩ changed).card * r := by
        rw [← smul_eq_mul]
        exact Finset.sum_le_card_nsmul _ _ _ (fun x hx => h1 x (Finset.mem_inter.1 hx).2)
    _ ≤ changed.card * r := Nat.mul_le_mul_right _ (Finset.card_le_card Finset.inter_subset_right)

theorem sumDist_le {a b : Frame} {c : String} {g r : ℤ} (hr : 0 ≤ r) {changed : Finset (Option Value)}
    (hg : (changed.card : ℤ) ≤ g) (h0 : ∀ v ∉ changed, (rowsWith a c v).Perm (rowsWith b c v))
    (h1 : ∀ v ∈ changed, Differ r (rowsWith a c v) (rowsWith b c v)) : (sumDist c a b : ℤ) ≤ r * g := by
  obtain ⟨n, rfl⟩ := Int.eq_ofNat_of_zero_le hr
  have := sum_few (groupValues a b c) changed (fun v => symDist (rowsWith a c v) (rowsWith b c v)) n
    (fun v hv => symDist_perm (h0 v hv)) (fun v hv => by exact_mod_cast symDist_le (h1 v hv))
  have h2 : (sumDist c a b : ℤ) ≤ changed.card * n := by
    unfold sumDist
    exact_mod_cast this
  nlinarith

theorem sqDist_le {a b : Frame} {c : String} {g r : ℤ} (hr : 0 ≤ r) {changed : Finset (Option Value)}
    (hg : (changed.card : ℤ) ≤ g) (h0 : ∀ v ∉ changed, (rowsWith a c v).Perm (rowsWith b c v))
    (h1 : ∀ v ∈ changed, Differ r (rowsWith a c v) (rowsWith b c v)) :
    Real.sqrt (sqDist c a b) ≤ r * Real.sqrt g := by
  obtain ⟨n, rfl⟩ := Int.eq_ofNat_of_zero_le hr
  have := sum_few (groupValues a b c) changed (fun v => symDist (rowsWith a c v) (rowsWith b c v) ^ 2) (n ^ 2)
    (fun v hv => by simp [symDist_perm (h0 v hv)])
    (fun v hv => Nat.pow_le_pow_left (by exact_mod_cast symDist_le (h1 v hv)) 2)
  have h2 : (sqDist c a b : ℝ) ≤ changed.card * (n : ℝ) ^ 2 := by
    unfold sqDist
    exact_mod_cast this
  have hg' : (changed.card : ℝ) ≤ (g : ℝ) := by exact_mod_cast hg
  have hn : (0 : ℝ) ≤ (n : ℝ) := Nat.cast_nonneg n
  calc Real.sqrt (sqDist c a b) ≤ Real.sqrt ((n : ℝ) ^ 2 * g) := Real.sqrt_le_sqrt (by nlinarith [sq_nonneg (n : ℝ)])
    _ = n * Real.sqrt g := by rw [Real.sqrt_mul (sq_nonneg _), Real.sqrt_sq hn]
    _ = ((n : ℤ) : ℝ) * Real.sqrt g := by norm_cast

theorem keyDist_le {m : Dict Ident String} {as bs : List (Ident × Dom Frame)} {k : ℕ}
    {changed : Finset (Option Value)} (hk : changed.card ≤ k)
    (h0 : ∀ v ∉ changed, ∀ p ∈ m, (keyRows as v p).Perm (keyRows bs v p))
    (h1 : ∀ v ∈ changed, (∀ p ∈ m, keyRows as v p = []) ∨ (∀ p ∈ m, keyRows bs v p = [])) :
    keyDist m as bs ≤ k := by
  refine le_trans (sum_few _ changed (keyWeight m as bs) 1 ?_ ?_) (by simpa using hk)
  · intro v hv
    unfold keyWeight
    rw [if_pos (fun p hp => Multiset.coe_eq_coe.2 (h0 v hv p hp))]
  · intro v hv
    unfold keyWeight
    split
    · exact Nat.zero_le _
    · rw [if_pos (h1 v hv)]

theorem same_parts {sA sB : Sources}
    (h : List.Forall₂ (fun p q => p.1 = q.1 ∧ p.2.1.fields = q.2.1.fields ∧ p.2.2 = q.2.2) sA sB) :
    (∀ s, idTables s sA = idTables s sB) ∧ Dict.keys sA = Dict.keys sB ∧
      (∀ c, (∃ p ∈ sA, direct p = some c) ↔ ∃ p ∈ sB, direct p = some c) ∧
      (∀ n a ch, (n, a, ch) ∈ sA → ∃ b, (n, b, ch) ∈ sB ∧ a.fields = b.fields) := by
  induction h with
  | nil => exact ⟨fun _ => rfl, rfl, fun _ => Iff.rfl, by simp⟩
  | @cons p q as bs hpq _ ih =>
    obtain ⟨h1, h2, h3⟩ := hpq
    obtain ⟨i1, i2, i3, i4⟩ := ih
    have hd : direct p = direct q := by
      unfold direct
      rw [h1, h3]
    refine ⟨fun s => ?_, ?_, fun c => ?_, ?_⟩
    · have := i1 s
      unfold idTables at this ⊢
      rw [List.filterMap_cons, List.filterMap_cons, this, h1, h3]
    · unfold Dict.keys at i2 ⊢
      rw [List.map_cons, List.map_cons, i2, h1]
    · simp only [List.mem_cons, exists_eq_or_imp, i3 c, hd]
    · intro n a ch hm
      rcases List.mem_cons.1 hm with e | hm'
      · subst e
        obtain ⟨n', b, ch'⟩ := q
        dsimp only at h1 h2 h3
        subst h1 h3
        exact ⟨b, by simp, h2⟩
      · obtain ⟨b, hb, hf⟩ := i4 n a ch hm'
        exact ⟨b, List.mem_cons_of_mem _ hb, hf⟩

theorem same_genLoop {sA sB : Sources}
    (h : List.Forall₂ (fun p q => p.1 = q.1 ∧ p.2.1.fields = q.2.1.fields ∧ p.2.2 = q.2.2) sA sB) :
    ∀ rels ids, genLoop sA rels ids = genLoop sB rels ids := by
  induction h with
  | nil => exact fun _ _ => rfl
  | @cons p q as bs hpq _ ih =>
    obtain ⟨n, a, ch⟩ := p
    obtain ⟨n', b, ch'⟩ := q
    obtain ⟨h1, _, h3⟩ := hpq
    dsimp only at h1 h3
    subst h1 h3
    intro rels ids
    cases ch with
    | maxRows k => rw [genLoop, genLoop, ih]
    | maxRowsInMaxGroups c g r => rw [genLoop, genLoop, ih]
    | rowsWithID c s => rw [genLoop, genLoop, ih]
    | other => rw [genLoop, genLoop]

theorem same_ok {sA sB : Sources} (h : Neighbors sA sB) (hk : SourcesOK sA) : SourcesOK sB := by
  have hflip : List.Forall₂ (fun p q => p.1 = q.1 ∧ p.2.1.fields = q.2.1.fields ∧ p.2.2 = q.2.2) sB sA := by
    have := h.same.flip
    refine this.imp ?_
    rintro p q ⟨h1, h2, h3⟩
    exact ⟨h1.symm, h2.symm, h3.symm⟩
  obtain ⟨_, _, _, hm⟩ := same_parts hflip
  refine ⟨?_, ?_, ?_⟩
  · intro n df hin
    obtain ⟨b, hb, _⟩ := hm _ _ _ hin
    exact hk.known n b hb
  · intro n df c g r hin
    obtain ⟨b, hb, hf⟩ := hm _ _ _ hin
    have := hk.groups n b c g r hb
    unfold columns at this ⊢
    rw [hf]
    exact this
  · intro s
    obtain ⟨ty, hty, hall⟩ := hk.ids s
    refine ⟨ty, hty, fun n df c hin => ?_⟩
    obtain ⟨b, hb, hf⟩ := hm _ _ _ hin
    have := hall n b c hb
    unfold ColumnHas columns at this ⊢
    rw [hf]
    exact this

theorem outs_ext {β : Type} (f : Output → β) : ∀ {la lb : List (Ident × Output)}, la.map Prod.fst = lb.map Prod.fst →
    (la.map Prod.fst).Nodup → (∀ i a b, (i, a) ∈ la → (i, b) ∈ lb → f a = f b) →
    la.map (fun x => (x.1, f x.2)) = lb.map (fun x => (x.1, f x.2))
  | [], [], _, _, _ => rfl
  | [], _ :: _, h, _, _ => by simp at h
  | _ :: _, [], h, _, _ => by simp at h
  | (i, a) :: la, (j, b) :: lb, h, hn, hf => by
    rw [List.map_cons, List.map_cons, List.cons.injEq] at h
    obtain ⟨h1, h2⟩ := h
    dsimp only at h1
    subst h1
    rw [List.map_cons, List.map_cons, hf i a b (by simp) (by simp),
      outs_ext f h2 (List.nodup_cons.1 hn).2 (fun k x y hx hy => hf k x y (by simp [hx]) (by simp [hy]))]

theorem get_tableDom {L : Type} (d : Dict Ident L) (i : Ident) :
    Dict.get (d.map (fun p => (p.1, Dom.table p.2))) i = (Dict.get d i).map Dom.table := by
  induction d with
  | nil => rfl
  | cons x d ih =>
    obtain ⟨k, v⟩ := x
    rw [List.map_cons, Dict.get_cons, Dict.get_cons, ih]
    split <;> rfl

/-- **C34**: the distance a session is initialised with bounds how far neighboring databases are apart. If one of two
neighboring databases is accepted, so is the other, with the same metric and distance. -/
theorem C34_distance {cast : SparkType → Value → Value} {sA sB : Sources} (hA : Stored cast sA) (hB : Stored cast sB)
    (hn : Neighbors sA sB) {meas : Measure} {outA : Output} (h : initCore cast meas sA = .ok outA) :
    ∃ outB, initCore cast meas sB = .ok outB ∧ outB.metric = outA.metric ∧ outB.distance = outA.distance ∧
      Within outA.metric outA.data outB.data outA.distance := by
  obtain ⟨hok, cs, outs, hcs, hids, hcov, ho1, ho2, hg, rfl⟩ := initCore_ok hA meas h
  obtain ⟨outB, hoB⟩ := (C33_session hB meas).2 (same_ok hn hok)
  obtain ⟨_, cs', outs', hcs', hids', hcov', ho1', ho2', hg', rfl⟩ := initCore_ok hB meas hoB
  have hcc : cs' = cs := by
    have : generateRelation sA = generateRelation sB := by
      unfold generateRelation
      rw [same_genLoop hn.same]
    rw [hg, hg'] at this
    cases this
    rfl
  subst hcc
  obtain ⟨hidt, _, _, hmatch⟩ := same_parts hn.same
  have hnod : (outs.map Prod.fst).Nodup := ho1 ▸ hids
  have hnod' : (outs'.map Prod.fst).Nodup := ho1' ▸ hids
  have hpair : ∀ i a b, (i, a) ∈ outs → (i, b) ∈ outs' → ∃ c ∈ cs', i = idOf c ∧ GoodOut (frames sA) meas c a ∧
      GoodOut (frames sB) meas c b := by
    intro i a b ha hb
    obtain ⟨c, hc, rfl, hga⟩ := outs_part hids ho1 ho2 ha
    obtain ⟨c', hc', he, hgb⟩ := outs_part hids ho1' ho2' hb
    have : c = c' := List.inj_on_of_nodup_map hids hc hc' he
    subst this
    exact ⟨c, hc, rfl, hga, hgb⟩
  have hsame : ∀ i a b, (i, a) ∈ outs → (i, b) ∈ outs' → a.metric = b.metric ∧ a.distance = b.distance := by
    intro i a b ha hb
    obtain ⟨c, _, _, hga, hgb⟩ := hpair i a b ha hb
    cases c with
    | conj => exact absurd hga id
    | rows t n =>
      obtain ⟨_, _, _, rfl, _⟩ := hga
      obtain ⟨_, _, _, rfl, _⟩ := hgb
      exact ⟨rfl, rfl⟩
    | groups t c g r =>
      obtain ⟨_, _, _, rfl, _⟩ := hga
      obtain ⟨_, _, _, rfl, _⟩ := hgb
      constructor <;> split <;> rfl
    | keys s m k =>
      obtain ⟨_, _, rfl, _⟩ := hga
      obtain ⟨_, _, rfl, _⟩ := hgb
      exact ⟨rfl, rfl⟩
  refine ⟨_, hoB, ?_, ?_, _, _, _, _, rfl, rfl, rfl, rfl, ?_, ?_, ?_⟩
  · exact congrArg Metric.dict (outs_ext Output.metric (ho1.trans ho1'.symm) hnod
      (fun i a b ha hb => (hsame i a b ha hb).1)).symm
  · exact congrArg Dist.dict (outs_ext Output.distance (ho1.trans ho1'.symm) hnod
      (fun i a b ha hb => (hsame i a b ha hb).2)).symm
  · intro k hk
    unfold Dict.keys at hk ⊢
    rw [outs_nodup (f := Output.data)] at hk
    rw [outs_nodup (f := Output.metric)]
    exact hk
  · intro k hk
    unfold Dict.keys at hk ⊢
    rw [outs_nodup (f := Output.data), ho1', ← ho1] at hk
    rw [outs_nodup (f := Output.metric)]
    exact hk
  · intro i m' hm
    obtain ⟨⟨i', a⟩, ha, he⟩ := List.mem_map.1 hm
    cases he
    have hi : i' ∈ outs'.map Prod.fst := by
      rw [ho1', ← ho1]
      exact List.mem_map_of_mem ha
    obtain ⟨⟨i'', b⟩, hb, e⟩ := List.mem_map.1 hi
    dsimp only at e
    subst e
    refine ⟨a.data, b.data, a.distance, outs_get hnod Output.data ha, outs_get hnod' Output.data hb,
      outs_get hnod Output.distance ha, ?_⟩
    obtain ⟨c, hc, rfl, hga, hgb⟩ := hpair _ a b ha hb
    dsimp only
    have huA : ∀ {n df ch df' ch'}, (n, df, ch) ∈ sA → (n, df', ch') ∈ sA → df = df' ∧ ch = ch' := by
      intro n df ch df' ch' h1 h2
      have e1 := (Dict.get_eq_some hA.wf).2 h1
      rw [(Dict.get_eq_some hA.wf).2 h2] at e1
      cases e1
      exact ⟨rfl, rfl⟩
    have huB : ∀ {n df ch df' ch'}, (n, df, ch) ∈ sB → (n, df', ch') ∈ sB → df = df' ∧ ch = ch' := by
      intro n df ch df' ch' h1 h2
      have e1 := (Dict.get_eq_some hB.wf).2 h1
      rw [(Dict.get_eq_some hB.wf).2 h2] at e1
      cases e1
      exact ⟨rfl, rfl⟩
    rcases (hcs c).1 hc with ⟨⟨n, df, ch⟩, hp, hd⟩ | ⟨s, hne, rfl⟩
    · obtain ⟨df', hp', _⟩ := hmatch _ _ _ hp
      cases ch with
      | maxRows k =>
        cases hd
        obtain ⟨fa, _, hfa, rfl, _⟩ := hga
        obtain ⟨fb, _, hfb, rfl, _⟩ := hgb
        obtain ⟨_, hfa'⟩ := mem_frames.1 hfa
        obtain ⟨_, hfb'⟩ := mem_frames.1 hfb
        cases (huA hp hfa').1
        cases (huB hp' hfb').1
        exact symDist_le (hn.rows _ _ _ _ hp hp')
      | maxRowsInMaxGroups col g r =>
        cases hd
        obtain ⟨fa, _, hfa, rfl, _⟩ := hga
        obtain ⟨fb, _, hfb, rfl, _⟩ := hgb
        obtain ⟨_, hfa'⟩ := mem_frames.1 hfa
        obtain ⟨_, hfb'⟩ := mem_frames.1 hfb
        cases (huA hp hfa').1
        cases (huB hp' hfb').1
        have hv := hA.valid _ _ _ hp
        simp only [Change.valid, Bool.and_eq_true, decide_eq_true_eq] at hv
        obtain ⟨changed, k1, k2, k3⟩ := hn.groups _ _ _ _ _ _ hp hp'
        split
        · exact sqDist_le (by linarith [hv.2]) k1 k2 k3
        · exact sumDist_le (by linarith [hv.2]) k1 k2 k3
      | rowsWithID => cases hd
      | other => cases hd
    · obtain ⟨changed, k1, k2, k3⟩ := hn.ids s
      obtain ⟨_, dsA, rfl, _, _, q1⟩ := hga
      obtain ⟨_, dsB, rfl, _, _, q2⟩ := hgb
      have part : ∀ n c, (n, c) ∈ idTables s sA → ∃ fa fb, (n, fa, Change.rowsWithID c s) ∈ sA ∧
          (n, fb, Change.rowsWithID c s) ∈ sB ∧
          (∀ v, keyRows (dsA.map (fun p => (p.1, Dom.table p.2))) v (.named n, c) = rowsWith fa c v) ∧
          ∀ v, keyRows (dsB.map (fun p => (p.1, Dom.table p.2))) v (.named n, c) = rowsWith fb c v := by
        intro n c hi
        obtain ⟨fa, hfa⟩ := mem_idTables.1 hi
        obtain ⟨fb, hfb, _⟩ := hmatch _ _ _ hfa
        obtain ⟨g1, _⟩ := q1 n c hi fa (mem_frames.2 ⟨_, hfa⟩)
        obtain ⟨g2, _⟩ := q2 n c hi fb (mem_frames.2 ⟨_, hfb⟩)
        refine ⟨fa, fb, hfa, hfb, fun v => ?_, fun v => ?_⟩
        · unfold keyRows
          rw [get_tableDom, g1]
          rfl
        · unfold keyRows
          rw [get_tableDom, g2]
          rfl
      show (keyDist _ _ _ : ℤ) ≤ 1
      have := keyDist_le (m := (idTables s sA).map (fun p => (Ident.named p.1, p.2)))
        (as := dsA.map (fun p => (p.1, Dom.table p.2))) (bs := dsB.map (fun p => (p.1, Dom.table p.2))) k1 ?_ ?_
      · exact_mod_cast this
      · intro v hv p hp
        obtain ⟨⟨n, c⟩, hi, rfl⟩ := List.mem_map.1 hp
        obtain ⟨fa, fb, hfa, hfb, e1, e2⟩ := part n c hi
        dsimp only
        rw [e1, e2]
        exact k2 v hv n fa fb c hfa hfb
      · intro v hv
        rcases k3 v hv with k | k
        · left
          intro p hp
          obtain ⟨⟨n, c⟩, hi, rfl⟩ := List.mem_map.1 hp
          obtain ⟨fa, fb, hfa, hfb, e1, e2⟩ := part n c hi
          dsimp only
          rw [e1]
          exact k n fa c hfa
        · right
          intro p hp
          obtain ⟨⟨n, c⟩, hi, rfl⟩ := List.mem_map.1 hp
          obtain ⟨fa, fb, hfa, hfb, e1, e2⟩ := part n c hi
          dsimp only
          rw [e2]
          exact k n fb c hfb

/-! ## Examples -/

def demoPeople (rows : List DataRow) : Frame := ⟨[⟨"id", .long, false⟩], rows⟩

def demoCities (rows : List DataRow) : Frame := ⟨[⟨"city", .long, false⟩, ⟨"x", .long, false⟩], rows⟩

def demoDb (people cities others : List DataRow) : Sources :=
  [("people", demoPeople people, .rowsWithID "id" "persons"),
    ("cities", demoCities cities, .maxRowsInMaxGroups "city" 2 2), ("rest", demoPeople others, .maxRows 3)]

def demoA : Sources := demoDb [[.int 1], [.int 2], [.int 2]] [[.int 1, .int 1], [.int 1, .int 2], [.int 2, .int 1]]
  [[.int 7], [.int 7]]

def demoB : Sources := demoDb [[.int 1]] [[.int 2, .int 1], [.int 2, .int 2], [.int 2, .int 3]] [[.int 8]]

theorem demo_stored (cast : SparkType → Value → Value) (p c o : List DataRow) : Stored cast (demoDb p c o) := by
  refine ⟨by rw [Dict.wf_iff]; simp [demoDb, Dict.keys], ?_, ?_, ?_⟩ <;> intro n df ch h <;>
    simp only [demoDb, List.mem_cons, List.not_mem_nil, or_false, Prod.mk.injEq] at h <;>
    rcases h with ⟨rfl, rfl, rfl⟩ | ⟨rfl, rfl, rfl⟩ | ⟨rfl, rfl, rfl⟩
  · rfl
  · rfl
  · rfl
  · rfl
  · rfl
  · rfl
  · simp [columns, demoPeople]
  · simp [columns, demoCities]
  · simp [columns, demoPeople]

/-- **C34**: neighboring databases: all rows of one ID removed, rows changed in two groups, three rows added or removed;
they are exactly as far apart as the session allows for, except for the groups. -/
theorem C34_example (cast : SparkType → Value → Value) (meas : Measure) :
    Stored cast demoA ∧ Stored cast demoB ∧ Neighbors demoA demoB ∧ (∃ out, initCore cast meas demoA = .ok out) ∧
      symDist [[.int 7], [.int 7]] [[.int 8]] = 3 ∧
      sumDist "city" (demoCities [[.int 1, .int 1], [.int 1, .int 2], [.int 2, .int 1]])
        (demoCities [[.int 2, .int 1], [.int 2, .int 2], [.int 2, .int 3]]) = 4 ∧
      keyDist [(.named "people", "id")] [(.named "people", .table (demoPeople [[.int 1], [.int 2], [.int 2]]))]
        [(.named "people", .table (demoPeople [[.int 1]]))] = 1 := by
  have hA := demo_stored cast [[.int 1], [.int 2], [.int 2]] [[.int 1, .int 1], [.int 1, .int 2], [.int 2, .int 1]]
    [[.int 7], [.int 7]]
  refine ⟨hA, demo_stored cast _ _ _, ?_, ?_, by decide +kernel, by decide +kernel, by decide +kernel⟩
  · refine ⟨?_, ?_, ?_, ?_⟩
    · exact .cons ⟨rfl, rfl, rfl⟩ (.cons ⟨rfl, rfl, rfl⟩ (.cons ⟨rfl, rfl, rfl⟩ .nil))
    · intro n a b k ha hb
      simp [demoA, demoB, demoDb] at ha hb
      obtain ⟨rfl, rfl, rfl⟩ := ha
      obtain ⟨_, rfl, _⟩ := hb
      exact ⟨[], [[.int 7], [.int 7]], [[.int 8]], .refl _, .refl _, by decide⟩
    · intro n a b c g r ha hb
      simp [demoA, demoB, demoDb] at ha hb
      obtain ⟨rfl, rfl, rfl, rfl, rfl⟩ := ha
      obtain ⟨_, rfl, _⟩ := hb
      refine ⟨{some (.int 1), some (.int 2)}, by decide, ?_, ?_⟩
      · intro v hv
        simp only [Finset.mem_insert, Finset.mem_singleton, not_or] at hv
        have h1 : ∀ rows : List DataRow, (∀ row ∈ rows, ∃ x y, row = [.int x, .int y] ∧ (x = 1 ∨ x = 2)) →
            rowsWith (demoCities rows) "city" v = [] := by
          intro rows hrows
          unfold rowsWith
          rw [List.filter_eq_nil_iff]
          intro row hrow
          obtain ⟨x, y, rfl, hx⟩ := hrows row hrow
          have : cell (demoCities rows) "city" [.int x, .int y] = some (.int x) := rfl
          rw [this, decide_eq_true_eq]
          rintro rfl
          rcases hx with rfl | rfl
          · exact hv.1 rfl
          · exact hv.2 rfl
        rw [h1, h1] <;> simp
      · intro v hv
        simp only [Finset.mem_insert, Finset.mem_singleton] at hv
        rcases hv with rfl | rfl
        · exact ⟨[], [[.int 1, .int 1], [.int 1, .int 2]], [], .refl _, .refl _, by decide⟩
        · exact ⟨[[.int 2, .int 1]], [], [[.int 2, .int 2], [.int 2, .int 3]], .refl _, .refl _, by decide⟩
    · intro s
      refine ⟨{some (.int 2)}, by simp, ?_, ?_⟩
      · intro v hv n a b c ha hb
        simp [demoA, demoB, demoDb] at ha hb
        obtain ⟨rfl, rfl, rfl, rfl⟩ := ha
        obtain ⟨_, rfl, _⟩ := hb
        rw [Finset.mem_singleton] at hv
        unfold rowsWith
        have c1 : ∀ rows x, cell (demoPeople rows) "id" [.int x] = some (.int x) := fun _ _ => rfl
        by_cases h1 : v = some (.int 1)
        · subst h1
          decide
        · have e1 : ¬ some (Value.int 1) = v := fun e => h1 e.symm
          have e2 : ¬ some (Value.int 2) = v := fun e => hv e.symm
          simp [demoPeople] at c1 ⊢
          simp [c1, e1, e2]
      · intro v hv
        rw [Finset.mem_singleton] at hv
        subst hv
        right
        intro n b c hb
        simp [demoB, demoDb] at hb
        obtain ⟨rfl, rfl, rfl, rfl⟩ := hb
        decide
  · refine (C33_session hA meas).2 ⟨?_, ?_, ?_⟩
    · intro n df h
      simp [demoDb] at h
    · intro n df c g r h
      simp [demoDb] at h
      obtain ⟨rfl, rfl, rfl, rfl, rfl⟩ := h
      refine ⟨by simp [columns, demoCities], ?_⟩
      intro f hf _
      simp [demoCities] at hf
      rcases hf with rfl | rfl <;> exact .inl rfl
    · intro s
      refine ⟨.long, .inl rfl, ?_⟩
      intro n df c h
      simp [demoDb] at h
      obtain ⟨rfl, rfl, rfl, rfl⟩ := h
      refine ⟨by simp [columns, demoPeople], ?_⟩
      intro f hf _
      simp [demoPeople] at hf
      rw [hf]

end Verif.Relation
