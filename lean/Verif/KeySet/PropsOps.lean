import Verif.KeySet.PropsRewrite
import Verif.KeySet.Schemas

/-!
# C23: KeySet operators are the relational operators

Stated on the data frames the KeySets have: which columns, in which order, and which rows, each once. `DF.Key` reads a
data frame without columns as one group that contains everything.
-/

namespace Verif.KeySet

open Verif Verif.Schema

/-- What `KeySet.dataframe()` returns for a KeySet, if it is as documented: its columns in order, rectangular, no row
twice. -/
structure Shows (E : Env) (k : KS) (d : DF) : Prop where
  run : k.dataframe E = .ok d
  cols : d.cols = k.cols
  nodup : d.cols.Nodup
  len : ∀ r ∈ d.rows, r.length = d.cols.length
  rows : d.rows.Nodup
  empty : d.cols = [] → d.rows = []

/-- The KeySets that are treated: see `Good`. -/
structure KS.Good (E : Env) (k : KS) : Prop where
  op : Verif.KeySet.Good E k.op
  nodup : k.cols.Nodup
  cols : ∀ c, c ∈ k.cols ↔ c ∈ k.op.columns

theorem KS.Good.shows {E : Env} (hp : ∀ cs, ¬ E.leaf (.detect cs)) (hz : ¬ E.zeroSub) {k : KS} (g : k.Good E) :
    ∃ d, Shows E k d ∧ ∀ ρ, d.Key ρ ↔ k.op.Matches E ρ := by
  obtain ⟨d, hd⟩ := dataframe_total hp hz g.op
  have s := dataframe_denotes g.op.1 hd
  have he : ∀ c, c ∈ k.cols ↔ c ∈ d.cols := fun c => by rw [g.cols, s.cols]
  obtain ⟨h1, h2⟩ := selectDF_all s.ok g.nodup he
  refine ⟨selectDF k.cols d, ⟨?_, rfl, h1.nodup, h1.len, h1.rows, ?_⟩, fun ρ => ?_⟩
  · unfold KS.dataframe
    rw [hd]
    show (if setEq d.cols k.cols = true then _ else _) = _
    rw [if_pos (setEq_iff.2 (fun c => (he c).symm))]
    rfl
  · intro hc
    have : d.cols = [] := (nil_congr he).1 hc
    simp [selectDF, s.empty this]
  · rw [← s.key g.op.1 ρ]
    unfold DF.Key
    refine or_congr ?_ (h2 ρ)
    exact nil_congr he

theorem init_ok {hsh : Op → Except KErr ℤ} {op : Op} {cols : List String} {k : KS} (h : KS.init hsh op cols = .ok k) :
    op.isPlan = false ∧ cols.Nodup ∧ (∀ c, c ∈ op.columns ↔ c ∈ cols) ∧ rewrite hsh op = .ok k.op ∧ k.cols = cols := by
  unfold KS.init at h
  split at h
  · cases h
  split at h
  · cases h
  split at h
  · cases h
  rename_i h1 h2 h3
  obtain ⟨o, ho, h⟩ := bind_ok h
  cases pure_ok h
  exact ⟨by simpa using h1, by simpa using h2, setEq_iff.1 (by simpa using h3), ho, rfl⟩

/-- The constructor keeps the keys of the tree it is given. -/
theorem init_good {E : Env} {hsh : Op → Except KErr ℤ} {op : Op} {cols : List String} {k : KS}
    (h : KS.init hsh op cols = .ok k) (g : Good E op) :
    k.Good E ∧ k.cols = cols ∧ ∀ ρ, k.op.Matches E ρ ↔ op.Matches E ρ := by
  obtain ⟨_, h2, h3, h4, h5⟩ := init_ok h
  obtain ⟨g', e⟩ := rewrite_pres E hsh op k.op g h4
  refine ⟨⟨g', h5 ▸ h2, fun c => ?_⟩, h5, fun ρ => (e.2 ρ).symm⟩
  rw [h5, ← h3, e.1]

theorem good_ops {E : Env} {a b : KS} (ga : a.Good E) (gb : b.Good E) : Good E a.op ∧ Good E b.op := ⟨ga.op, gb.op⟩

/-! ## The operators on KeySets, semantically -/

theorem mul_good {E : Env} {hsh : Op → Except KErr ℤ} {a b k : KS} (ga : a.Good E) (gb : b.Good E)
    (h : KS.mul hsh a b = .ok k) :
    k.Good E ∧ k.cols = a.cols ++ b.cols ∧ ∀ ρ, k.op.Matches E ρ ↔ a.op.Matches E ρ ∧ b.op.Matches E ρ := by
  obtain ⟨o, ho, h⟩ := bind_ok h
  obtain ⟨rfl, hc⟩ := build_ok ho
  obtain ⟨g, hc', hm⟩ := init_good h (good_cross (E := E) hc (by
    intro f hf
    rcases List.mem_cons.1 hf with rfl | hf
    · exact ga.op
    · rw [List.mem_singleton.1 hf]
      exact gb.op) (by simp))
  refine ⟨g, hc', fun ρ => (hm ρ).trans ?_⟩
  show matchesL E [a.op, b.op] ρ ↔ _
  simp [matchesL]

theorem sub_good {E : Env} {hsh : Op → Except KErr ℤ} {a b k : KS} (ga : a.Good E) (gb : b.Good E) (hb : b.cols ≠ [])
    (h : KS.sub hsh a b = .ok k) :
    k.Good E ∧ k.cols = a.cols ∧ ∀ ρ, k.op.Matches E ρ ↔ a.op.Matches E ρ ∧ ¬ b.op.Matches E ρ := by
  obtain ⟨o, ho, h⟩ := bind_ok h
  obtain ⟨rfl, hc⟩ := build_ok ho
  have hne : b.op.columns ≠ [] := fun hh => hb ((nil_congr gb.cols).2 hh)
  obtain ⟨g, hc', hm⟩ := init_good (E := E) h ⟨⟨hc, ga.op.1, gb.op.1⟩, ga.op.2, gb.op.2, fun hh => absurd hh hne⟩
  refine ⟨g, hc', fun ρ => (hm ρ).trans ?_⟩
  dsimp only [Op.Matches]
  simp [hne]

theorem getitem_good {E : Env} {hsh : Op → Except KErr ℤ} {a k : KS} {cs : List String} (ga : a.Good E)
    (hs : a.op.Sat E) (h : KS.getitem hsh a cs = .ok k) :
    k.Good E ∧ k.cols = cs ∧ ∀ ρ, k.op.Matches E ρ ↔ ∃ ρ' : Assign, (∀ c ∈ cs, ρ' c = ρ c) ∧ a.op.Matches E ρ' := by
  unfold KS.getitem at h
  split at h
  · cases h
  rename_i hn
  obtain ⟨o, ho, h⟩ := bind_ok h
  obtain ⟨rfl, hc⟩ := build_ok ho
  obtain ⟨g, hc', hm⟩ := init_good (E := E) h ⟨⟨hc, by simpa using hn, ga.op.1⟩, hs, ga.op.2⟩
  exact ⟨g, hc', hm⟩

theorem join_good {E : Env} {hsh : Op → Except KErr ℤ} {a b k : KS} (ga : a.Good E) (gb : b.Good E)
    (h : KS.join hsh a b = .ok k) :
    k.Good E ∧ k.cols = mergeCols a.cols b.cols ∧
      ∀ ρ, k.op.Matches E ρ ↔ a.op.Matches E ρ ∧ b.op.Matches E ρ := by
  obtain ⟨o, ho, h⟩ := bind_ok h
  obtain ⟨rfl, hc⟩ := build_ok ho
  exact init_good (E := E) h ⟨⟨hc, ga.op.1, gb.op.1⟩, ga.op.2, gb.op.2⟩

theorem filter_good {E : Env} {hsh : Op → Except KErr ℤ} {a k : KS} {cond : Cond} (ga : a.Good E)
    (h : KS.filter hsh a cond = .ok k) :
    k.Good E ∧ k.cols = a.cols ∧
      ∀ ρ, k.op.Matches E ρ ↔ a.op.Matches E ρ ∧ (a.cols = [] ∨ E.ev cond (restrict a.cols ρ) = true) := by
  obtain ⟨o, ho, h⟩ := bind_ok h
  obtain ⟨rfl, hc⟩ := build_ok ho
  obtain ⟨g, hc', hm⟩ := init_good (E := E) h ⟨⟨hc, ga.op.1⟩, ga.op.2⟩
  refine ⟨g, hc', fun ρ => (hm ρ).trans ?_⟩
  dsimp only [Op.Matches]
  rw [restrict_congr ga.cols, nil_congr ga.cols]

theorem union_good {E : Env} {hsh : Op → Except KErr ℤ} {a b k : KS} (ga : a.Good E) (gb : b.Good E)
    (h : KS.union hsh a b = .ok k) :
    k.Good E ∧ k.cols = a.cols ∧ (∀ c, c ∈ a.cols ↔ c ∈ b.cols) ∧
      ∀ ρ, k.op.Matches E ρ ↔ a.op.Matches E ρ ∨ b.op.Matches E ρ := by
  obtain ⟨o, ho, h⟩ := bind_ok h
  obtain ⟨rfl, hc⟩ := build_ok ho
  obtain ⟨g, hc', hm⟩ := init_good (E := E) h ⟨⟨hc, ga.op.1, gb.op.1⟩, ga.op.2, gb.op.2⟩
  exact ⟨g, hc', fun c => by rw [ga.cols, gb.cols, check_union hc], hm⟩

/-! ## Constructors -/

theorem fromDataframe_good {E : Env} (hE : E.leaf = Leaf) {hsh : Op → Except KErr ℤ} {df : Frame} {k : KS}
    (hl : Leaf (.frame df)) (hr : ∀ r ∈ df.rows, r.length = df.fields.length) (h : KS.fromDataframe hsh df = .ok k) :
    k.Good E ∧ k.cols = df.fields.map Field.name ∧
      ∀ ρ, k.op.Matches E ρ ↔ df.fields = [] ∨ (df.fields.map Field.name).map ρ ∈ df.rows := by
  obtain ⟨o, ho, h⟩ := bind_ok h
  obtain ⟨rfl, hc⟩ := build_ok ho
  obtain ⟨_, hn, _⟩ := init_ok h
  exact init_good (E := E) h ⟨⟨hc, hn, hr⟩, by show E.leaf _; rwa [hE]⟩

theorem inferAll_keys {ts : List (List Value)} {cols cs : List String} {ds : Dict String Desc}
    (h : inferAll ts cols cs = .ok ds) : ds.map Prod.fst = cs := by
  induction cs generalizing ds with
  | nil => cases h; rfl
  | cons c cs ih =>
    obtain ⟨d, _, h⟩ := bind_ok h
    obtain ⟨es, hes, h⟩ := bind_ok h
    cases pure_ok h
    simp [ih hes]

theorem eraseDups_self {l : List String} (h : l.Nodup) : l.eraseDups = l := by
  induction l with
  | nil => rfl
  | cons a as ih =>
    obtain ⟨h1, h2⟩ := List.nodup_cons.1 h
    rw [List.eraseDups_cons, List.filter_eq_self.2, ih h2]
    intro b hb
    have : b ≠ a := fun e => h1 (e ▸ hb)
    simp [this]

theorem inferDesc_fits {tys : List (Option ColumnType)} {d : Desc} (h : inferDesc tys = .ok d) :
    ∀ v : Value, vtype v ∈ tys → Fits d v := by
  intro v hv
  unfold inferDesc at h
  split at h
  · cases h
  split at h
  · cases h
  · rename_i t ht
    cases h
    cases hn : vtype v with
    | none =>
      left
      rw [hn] at hv
      refine ⟨?_, by simpa using hv⟩
      cases v <;> first | rfl | cases hn
    | some t' =>
      right
      rw [hn] at hv ⊢
      have : t' ∈ (tys.filterMap id).dedup := List.mem_dedup.2 (List.mem_filterMap.2 ⟨some t', hv, rfl⟩)
      rw [ht] at this
      simp only [List.mem_singleton] at this
      rw [this]
  · cases h

theorem inferAll_mem {ts : List (List Value)} {cols cs : List String} {ds : Dict String Desc}
    (h : inferAll ts cols cs = .ok ds) : ∀ p ∈ ds, inferDesc (typesAt ts cols p.1) = .ok p.2 := by
  induction cs generalizing ds with
  | nil => cases h; simp
  | cons c cs ih =>
    obtain ⟨d, hd, h⟩ := bind_ok h
    obtain ⟨es, hes, h⟩ := bind_ok h
    cases pure_ok h
    intro p hp
    rcases List.mem_cons.1 hp with rfl | hp
    · exact hd
    · exact ih hes p hp

theorem vtype_cell_mem {ts : List (List Value)} {cols : List String} {t : List Value} (ht : t ∈ ts)
    (hl : t.length = cols.length) {c : String} (hc : c ∈ cols) : vtype (cell cols t c) ∈ typesAt ts cols c := by
  unfold typesAt
  refine List.mem_flatMap.2 ⟨t, ht, ?_⟩
  clear ht
  induction cols generalizing t with
  | nil => cases hc
  | cons x xs ih =>
    cases t with
    | nil => simp at hl
    | cons v vs =>
      by_cases hx : c = x
      · subst hx
        simp [cell]
      · have hc' : c ∈ xs := by simpa [hx] using hc
        have := ih (t := vs) (by simpa using hl) hc'
        have he : cell (x :: xs) (v :: vs) c = cell xs vs c := by
          have : (c == x) = false := by simpa using hx
          simp [cell, List.lookup_cons, this]
        rw [he, List.zip_cons_cons, List.filter_cons_of_neg (by simpa using fun h => hx h.symm)]
        exact this

theorem fromTuples_good {E : Env} (hE : E.leaf = Leaf) {hsh : Op → Except KErr ℤ} {ts : List (List Value)} {cols : List String} {k : KS}
    (h : KS.fromTuples hsh ts cols = .ok k) :
    k.Good E ∧ k.cols = cols ∧ (∀ t ∈ ts, t.length = cols.length) ∧
      ∀ ρ, k.op.Matches E ρ ↔ cols = [] ∨ cols.map ρ ∈ ts := by
  unfold KS.fromTuples at h
  dsimp only at h
  split at h
  · rename_i hl
    obtain ⟨ds, hds, h⟩ := bind_ok h
    obtain ⟨o, ho, h⟩ := bind_ok h
    obtain ⟨rfl, hc⟩ := build_ok ho
    obtain ⟨_, hn, hset, _⟩ := init_ok h
    have hk := inferAll_keys hds
    have hee : cols.eraseDups = cols := eraseDups_self hn
    rw [hee] at hk
    have hlen : ∀ t ∈ ts, t.length = cols.length := by
      intro t ht
      simp only [List.all_eq_true, decide_eq_true_eq] at hl
      exact hl t (List.mem_dedup.2 ht)
    have hdl : ds.length = cols.length := by rw [← hk]; simp
    obtain ⟨g, hc', hm⟩ := init_good (E := E) h ⟨⟨hc, List.nodup_dedup _, hk ▸ hn, fun t ht => by
      rw [hlen t (List.mem_dedup.1 ht), hdl]⟩, by
        show E.leaf _
        rw [hE]
        intro t ht p hp
        rw [hk]
        have hpc : p.1 ∈ cols := by rw [← hk]; exact List.mem_map_of_mem hp
        exact inferDesc_fits (inferAll_mem hds p hp) _ (vtype_cell_mem ht (hlen t (List.mem_dedup.1 ht)) hpc)⟩
    refine ⟨g, hc', hlen, fun ρ => (hm ρ).trans ?_⟩
    dsimp only [Op.Matches]
    rw [hk, List.mem_dedup]
    refine or_congr_left ?_
    rw [← hk]
    simp
  · cases h

theorem fromDictGo_good {E : Env} (hE : E.leaf = Leaf) {hsh : Op → Except KErr ℤ} {ds : List (String × List Value)} {acc k : KS}
    (ga : acc.Good E) (h : fromDictGo hsh acc ds = .ok k) :
    k.Good E ∧ k.cols = acc.cols ++ ds.map Prod.fst ∧
      ∀ ρ, k.op.Matches E ρ ↔ acc.op.Matches E ρ ∧ ∀ d ∈ ds, ρ d.1 ∈ d.2 := by
  induction ds generalizing acc with
  | nil => cases h; exact ⟨ga, by simp, by simp⟩
  | cons d ds ih =>
    obtain ⟨b, hb, h⟩ := bind_ok h
    obtain ⟨a, ha, h⟩ := bind_ok h
    obtain ⟨gb, cb, _, mb⟩ := fromTuples_good hE hb
    obtain ⟨g1, c1, m1⟩ := mul_good ga gb ha
    obtain ⟨g2, c2, m2⟩ := ih g1 h
    refine ⟨g2, by rw [c2, c1, cb]; simp, fun ρ => ?_⟩
    rw [m2, m1, mb]
    simp [and_assoc]

theorem fromDict_good {E : Env} (hE : E.leaf = Leaf) {hsh : Op → Except KErr ℤ} {ds : List (String × List Value)} {k : KS}
    (h : KS.fromDict hsh ds = .ok k) :
    k.Good E ∧ k.cols = ds.map Prod.fst ∧ ∀ ρ, k.op.Matches E ρ ↔ ∀ d ∈ ds, ρ d.1 ∈ d.2 := by
  cases ds with
  | nil =>
    obtain ⟨g, c, _, m⟩ := fromTuples_good hE (show KS.fromTuples hsh [] [] = .ok k from h)
    exact ⟨g, c, fun ρ => by rw [m]; simp⟩
  | cons d ds =>
    obtain ⟨b, hb, h⟩ := bind_ok h
    obtain ⟨gb, cb, _, mb⟩ := fromTuples_good hE hb
    obtain ⟨g, c, m⟩ := fromDictGo_good hE gb h
    refine ⟨g, by rw [c, cb]; simp, fun ρ => ?_⟩
    rw [m, mb]
    simp

/-! ## What can be built -/

/-- KeySets made with the public constructors and operators, as long as nothing empty is projected and no KeySet
without columns is subtracted. The rows of a Spark data frame are as long as its schema and of the types in it. -/
inductive Made (E : Env) (hsh : Op → Except KErr ℤ) : KS → Prop where
  | frame (df : Frame) (k : KS) : Leaf (.frame df) → (∀ r ∈ df.rows, r.length = df.fields.length) → KS.fromDataframe hsh df = .ok k →
      Made E hsh k
  | tuples (ts : List (List Value)) (cols : List String) (k : KS) : KS.fromTuples hsh ts cols = .ok k → Made E hsh k
  | dict (ds : List (String × List Value)) (k : KS) : KS.fromDict hsh ds = .ok k → Made E hsh k
  | mul (a b k : KS) : Made E hsh a → Made E hsh b → KS.mul hsh a b = .ok k → Made E hsh k
  | sub (a b k : KS) : Made E hsh a → Made E hsh b → b.cols ≠ [] → KS.sub hsh a b = .ok k → Made E hsh k
  | getitem (a k : KS) (cs : List String) (d : DF) : Made E hsh a → a.dataframe E = .ok d → d.rows ≠ [] →
      KS.getitem hsh a cs = .ok k → Made E hsh k
  | join (a b k : KS) : Made E hsh a → Made E hsh b → KS.join hsh a b = .ok k → Made E hsh k
  | filter (a k : KS) (c : Cond) : Made E hsh a → KS.filter hsh a c = .ok k → Made E hsh k
  | union (a b k : KS) : Made E hsh a → Made E hsh b → KS.union hsh a b = .ok k → Made E hsh k

/-- A KeySet with a row in its data frame has a key. -/
theorem sat_of_row {E : Env} {a : KS} {d : DF} (ga : a.Good E) (h : a.dataframe E = .ok d) (hne : d.rows ≠ []) :
    a.op.Sat E := by
  unfold KS.dataframe at h
  obtain ⟨x, hx, h⟩ := bind_ok h
  have s := dataframe_denotes ga.op.1 hx
  split at h
  · cases pure_ok h
    have hxr : x.rows ≠ [] := fun hh => hne (by simp [selectDF, hh])
    obtain ⟨r, hr⟩ := List.exists_mem_of_ne_nil _ hxr
    refine ⟨cell x.cols r, (s.key ga.op.1 _).1 (.inr ?_)⟩
    rwa [map_cell s.ok.nodup (s.ok.len r hr)]
  · cases h

/-- A world, seen from KeySets that are not plans. -/
structure Real (E : Env) : Prop where
  leaf : E.leaf = Leaf
  noZeroSub : ¬ E.zeroSub

theorem Real.noPlans {E : Env} (hE : Real E) : ∀ cs, ¬ E.leaf (.detect cs) := by
  intro cs
  rw [hE.leaf]
  exact id

theorem Made.good {E : Env} (hE : Real E) {hsh : Op → Except KErr ℤ} {k : KS} (m : Made E hsh k) : k.Good E := by
  induction m with
  | frame df k hl hr h => exact (fromDataframe_good hE.leaf hl hr h).1
  | tuples ts cols k h => exact (fromTuples_good hE.leaf h).1
  | dict ds k h => exact (fromDict_good hE.leaf h).1
  | mul a b k _ _ h ga gb => exact (mul_good ga gb h).1
  | sub a b k _ _ hne h ga gb => exact (sub_good ga gb hne h).1
  | getitem a k cs d _ hd hne h ga => exact (getitem_good ga (sat_of_row ga hd hne) h).1
  | join a b k _ _ h ga gb => exact (join_good ga gb h).1
  | filter a k c _ h ga => exact (filter_good ga h).1
  | union a b k _ _ h ga gb => exact (union_good ga gb h).1

/-- C23: every KeySet has a data frame, with its columns in order and no row twice. -/
theorem C23_dataframe {E : Env} (hE : Real E) {hsh : Op → Except KErr ℤ} {k : KS} (m : Made E hsh k) :
    ∃ d, Shows E k d := by
  obtain ⟨d, hd, _⟩ := (m.good hE).shows hE.noPlans hE.2
  exact ⟨d, hd⟩

theorem Shows.unique {E : Env} {k : KS} {d e : DF} (h : Shows E k d) (h' : k.dataframe E = .ok e) : d = e := by
  have := h.run
  rw [h'] at this
  cases this
  rfl

theorem Made.key {E : Env} (hE : Real E) {hsh : Op → Except KErr ℤ} {k : KS} (m : Made E hsh k) {d : DF}
    (h : k.dataframe E = .ok d) (ρ : Assign) : d.Key ρ ↔ k.op.Matches E ρ := by
  obtain ⟨e, he, hk⟩ := (m.good hE).shows hE.noPlans hE.2
  cases he.unique h
  exact hk ρ

section
variable {E : Env} (hE : Real E) {hsh : Op → Except KErr ℤ}
include hE

/-- C23, `from_tuples`: the rows are the tuples given. -/
theorem C23_from_tuples {ts : List (List Value)} {cols : List String} {k : KS} (h : KS.fromTuples hsh ts cols = .ok k) :
    ∃ z, Shows E k z ∧ k.cols = cols ∧ (cols ≠ [] → ∀ r, r ∈ z.rows ↔ r ∈ ts) := by
  have m : Made E hsh k := .tuples ts cols k h
  obtain ⟨z, hz⟩ := C23_dataframe hE m
  obtain ⟨g, hc, hl, hm⟩ := fromTuples_good hE.leaf h
  refine ⟨z, hz, hc, fun hne r => ?_⟩
  have hzc : z.cols = cols := hz.cols.trans hc
  have key : ∀ r : List Value, r.length = cols.length → (r ∈ z.rows ↔ r ∈ ts) := by
    intro r hr
    have hmc : cols.map (cell cols r) = r := map_cell (hzc ▸ hz.nodup) hr
    have := (m.key hE hz.run (cell cols r)).trans (hm _)
    unfold DF.Key at this
    rw [hzc, hmc] at this
    simpa [hne] using this
  constructor
  · intro hr
    exact (key r (by rw [hz.len r hr, hzc])).1 hr
  · intro hr
    exact (key r (hl r hr)).2 hr

/-- C23, `from_dataframe`: the rows are those of the data frame. -/
theorem C23_from_dataframe {df : Frame} {k : KS} (hl : Leaf (.frame df))
    (hr : ∀ r ∈ df.rows, r.length = df.fields.length) (h : KS.fromDataframe hsh df = .ok k) :
    ∃ z, Shows E k z ∧ k.cols = df.fields.map Field.name ∧ (df.fields ≠ [] → ∀ r, r ∈ z.rows ↔ r ∈ df.rows) := by
  have m : Made E hsh k := .frame df k hl hr h
  obtain ⟨z, hz⟩ := C23_dataframe hE m
  obtain ⟨g, hc, hm⟩ := fromDataframe_good hE.leaf hl hr h
  refine ⟨z, hz, hc, fun hne r => ?_⟩
  have hzc : z.cols = df.fields.map Field.name := hz.cols.trans hc
  have key : ∀ r : List Value, r.length = df.fields.length → (r ∈ z.rows ↔ r ∈ df.rows) := by
    intro r hr
    have hmc : (df.fields.map Field.name).map (cell (df.fields.map Field.name) r) = r :=
      map_cell (hzc ▸ hz.nodup) (by simpa using hr)
    have := (m.key hE hz.run (cell (df.fields.map Field.name) r)).trans (hm _)
    unfold DF.Key at this
    rw [hzc, hmc] at this
    simpa [hne] using this
  constructor
  · intro hr'
    exact (key r (by rw [hz.len r hr', hzc]; simp)).1 hr'
  · intro hr'
    exact (key r (hr r hr')).2 hr'

/-- C23, `from_dict`: all combinations of the values given for each column. -/
theorem C23_from_dict {ds : List (String × List Value)} {k : KS} (h : KS.fromDict hsh ds = .ok k) :
    ∃ z, Shows E k z ∧ k.cols = ds.map Prod.fst ∧ ∀ ρ, z.Key ρ ↔ ∀ d ∈ ds, ρ d.1 ∈ d.2 := by
  have m : Made E hsh k := .dict ds k h
  obtain ⟨z, hz⟩ := C23_dataframe hE m
  obtain ⟨g, hc, hm⟩ := fromDict_good hE.leaf h
  exact ⟨z, hz, hc, fun ρ => (m.key hE hz.run ρ).trans (hm ρ)⟩

/-- C23, `*`: the combinations of a row of the one with a row of the other. -/
theorem C23_mul {a b k : KS} (ma : Made E hsh a) (mb : Made E hsh b) (h : KS.mul hsh a b = .ok k) :
    ∃ x y z, Shows E a x ∧ Shows E b y ∧ Shows E k z ∧ k.cols = a.cols ++ b.cols ∧
      ∀ ρ, z.Key ρ ↔ x.Key ρ ∧ y.Key ρ := by
  have m : Made E hsh k := .mul a b k ma mb h
  obtain ⟨x, hx⟩ := C23_dataframe hE ma
  obtain ⟨y, hy⟩ := C23_dataframe hE mb
  obtain ⟨z, hz⟩ := C23_dataframe hE m
  obtain ⟨_, hc, hm⟩ := mul_good (ma.good hE) (mb.good hE) h
  refine ⟨x, y, z, hx, hy, hz, hc, fun ρ => ?_⟩
  rw [m.key hE hz.run, ma.key hE hx.run, mb.key hE hy.run, hm]

/-- C23, `-`: the rows of the left KeySet that match no row of the right one on the right one's columns. Missing: right
operands without columns, which are rejected (`C22_rewrite_rejects_zero_subtract`) or make `dataframe()` fail. -/
theorem C23_sub_partial {a b k : KS} (ma : Made E hsh a) (mb : Made E hsh b) (hb : b.cols ≠ [])
    (h : KS.sub hsh a b = .ok k) :
    ∃ x y z, Shows E a x ∧ Shows E b y ∧ Shows E k z ∧ k.cols = a.cols ∧ ∀ ρ, z.Key ρ ↔ x.Key ρ ∧ ¬ y.Key ρ := by
  have m : Made E hsh k := .sub a b k ma mb hb h
  obtain ⟨x, hx⟩ := C23_dataframe hE ma
  obtain ⟨y, hy⟩ := C23_dataframe hE mb
  obtain ⟨z, hz⟩ := C23_dataframe hE m
  obtain ⟨_, hc, hm⟩ := sub_good (ma.good hE) (mb.good hE) hb h
  refine ⟨x, y, z, hx, hy, hz, hc, fun ρ => ?_⟩
  rw [m.key hE hz.run, ma.key hE hx.run, mb.key hE hy.run, hm]

/-- C23, `[...]`: the combinations of values in the given columns that occur. Missing: KeySets without rows, for which
it fails (`C23_getitem_empty_fails`). -/
theorem C23_getitem_partial {a k : KS} {cs : List String} {x : DF} (ma : Made E hsh a) (hx : a.dataframe E = .ok x)
    (hne : x.rows ≠ []) (h : KS.getitem hsh a cs = .ok k) :
    ∃ z, Shows E k z ∧ k.cols = cs ∧ ∀ ρ, z.Key ρ ↔ ∃ ρ' : Assign, (∀ c ∈ cs, ρ' c = ρ c) ∧ x.Key ρ' := by
  have m : Made E hsh k := .getitem a k cs x ma hx hne h
  obtain ⟨z, hz⟩ := C23_dataframe hE m
  obtain ⟨_, hc, hm⟩ := getitem_good (ma.good hE) (sat_of_row (ma.good hE) hx hne) h
  refine ⟨z, hz, hc, fun ρ => ?_⟩
  rw [m.key hE hz.run, hm]
  exact exists_congr (fun ρ' => by rw [ma.key hE hx])

/-- C23, `join`: the combinations of rows that agree on the common columns. -/
theorem C23_join {a b k : KS} (ma : Made E hsh a) (mb : Made E hsh b) (h : KS.join hsh a b = .ok k) :
    ∃ x y z, Shows E a x ∧ Shows E b y ∧ Shows E k z ∧ k.cols = mergeCols a.cols b.cols ∧
      ∀ ρ, z.Key ρ ↔ x.Key ρ ∧ y.Key ρ := by
  have m : Made E hsh k := .join a b k ma mb h
  obtain ⟨x, hx⟩ := C23_dataframe hE ma
  obtain ⟨y, hy⟩ := C23_dataframe hE mb
  obtain ⟨z, hz⟩ := C23_dataframe hE m
  obtain ⟨_, hc, hm⟩ := join_good (ma.good hE) (mb.good hE) h
  refine ⟨x, y, z, hx, hy, hz, hc, fun ρ => ?_⟩
  rw [m.key hE hz.run, ma.key hE hx.run, mb.key hE hy.run, hm]

/-- C23, `filter`: the rows for which Spark says so. -/
theorem C23_filter {a k : KS} {c : Cond} (ma : Made E hsh a) (h : KS.filter hsh a c = .ok k) :
    ∃ x z, Shows E a x ∧ Shows E k z ∧ k.cols = a.cols ∧
      (a.cols ≠ [] → ∀ ρ, z.Key ρ ↔ x.Key ρ ∧ E.ev c (restrict a.cols ρ) = true) := by
  have m : Made E hsh k := .filter a k c ma h
  obtain ⟨x, hx⟩ := C23_dataframe hE ma
  obtain ⟨z, hz⟩ := C23_dataframe hE m
  obtain ⟨_, hc, hm⟩ := filter_good (ma.good hE) h
  refine ⟨x, z, hx, hz, hc, fun hne ρ => ?_⟩
  rw [m.key hE hz.run, ma.key hE hx.run, hm]
  simp [hne]

/-- C23, `union`: the rows of either. -/
theorem C23_union {a b k : KS} (ma : Made E hsh a) (mb : Made E hsh b) (h : KS.union hsh a b = .ok k) :
    ∃ x y z, Shows E a x ∧ Shows E b y ∧ Shows E k z ∧ k.cols = a.cols ∧ (∀ c, c ∈ a.cols ↔ c ∈ b.cols) ∧
      ∀ ρ, z.Key ρ ↔ x.Key ρ ∨ y.Key ρ := by
  have m : Made E hsh k := .union a b k ma mb h
  obtain ⟨x, hx⟩ := C23_dataframe hE ma
  obtain ⟨y, hy⟩ := C23_dataframe hE mb
  obtain ⟨z, hz⟩ := C23_dataframe hE m
  obtain ⟨_, hc, hs, hm⟩ := union_good (ma.good hE) (mb.good hE) h
  refine ⟨x, y, z, hx, hy, hz, hc, hs, fun ρ => ?_⟩
  rw [m.key hE hz.run, ma.key hE hx.run, mb.key hE hy.run, hm]

end

/-! ## Witnesses -/

namespace Wit

/-- Spark keeps everything, nothing is detected. -/
def envL : Env := ⟨fun _ _ => true, fun _ _ => False, by simp, Leaf, False⟩

/-- The rows of a KeySet's data frame. -/
def ksRows (x : Except KErr KS) : Option (List (List Value)) :=
  match x with
  | .ok k =>
    match k.dataframe envL with
    | .ok d => some d.rows
    | .error _ => none
  | .error _ => none

def ksA : Except KErr KS := KS.fromTuples h0 [[.int 1], [.int 2], [.int 1]] ["A"]
def ksB : Except KErr KS := KS.fromTuples h0 [[.str "x"], [.null]] ["B"]
def ksNone : Except KErr KS := KS.fromDataframe h0 ⟨[⟨"B", .string, true⟩], []⟩
def ksAB : Except KErr KS := do let a ← ksA; let b ← ksB; KS.mul h0 a b

end Wit

open Wit

/-- C23 fails for projections of empty KeySets: `(A * ∅)` has no rows, but `(A * ∅)["A"]` has all of `A`; the
documentation of `__getitem__` says it has the combinations of values that are present. -/
theorem C23_getitem_empty_fails :
    ksRows (do let a ← ksA; let n ← ksNone; KS.mul h0 a n) = some [] ∧
      ksRows (do let a ← ksA; let n ← ksNone; let k ← KS.mul h0 a n; KS.getitem h0 k ["A"]) =
        some [[.int 2], [.int 1]] := by
  constructor <;> decide +kernel

/-- The hypotheses are met: `env` is such a world, and the operators accept these KeySets. -/
example : Real envL ∧ ksRows ksAB = some [[.int 2, .str "x"], [.int 1, .str "x"], [.int 2, .null], [.int 1, .null]] ∧
    ksRows (do let k ← ksAB; let b ← ksB; KS.sub h0 k b) = some [] ∧
    ksRows (do let k ← ksAB; let a ← KS.fromTuples h0 [[.int 1]] ["A"]; KS.sub h0 k a) =
      some [[.int 2, .str "x"], [.int 2, .null]] ∧
    ksRows (do let k ← ksAB; KS.getitem h0 k ["B"]) = some [[.str "x"], [.null]] ∧
    ksRows (do let k ← ksAB; let a ← KS.fromTuples h0 [[.int 5, .null], [.int 6, .str "y"]] ["C", "B"]; KS.join h0 k a) =
      some [[.int 2, .null, .int 5], [.int 1, .null, .int 5]] := by
  refine ⟨⟨rfl, id⟩, ?_, ?_, ?_, ?_, ?_⟩ <;> decide +kernel

end Verif.KeySet
