import Verif.KeySet.PropsOps
import Verif.KeySet.Nonzero

/-!
# C24: `size()` is the number of rows; C52: `schema()` describes the rows
-/

namespace Verif.KeySet

open Verif Verif.Schema

/-! ## Every KeySet's tree has been rewritten -/

theorem init_nz {E : Env} {hsh : Op → Except KErr ℤ} {op : Op} {cols : List String} {k : KS}
    (h : KS.init hsh op cols = .ok k) (g : Good E op) : k.op.NZ := rewrite_nz g (init_ok h).2.2.2.1

theorem fromTuples_nz {E : Env} (hE : E.leaf = Leaf) {hsh : Op → Except KErr ℤ} {ts : List (List Value)}
    {cols : List String} {k : KS} (h : KS.fromTuples hsh ts cols = .ok k) : k.op.NZ := by
  have h0 := h
  unfold KS.fromTuples at h
  dsimp only at h
  split at h
  · rename_i hl
    obtain ⟨ds, hds, h⟩ := bind_ok h
    obtain ⟨o, ho, h⟩ := bind_ok h
    obtain ⟨rfl, hc⟩ := build_ok ho
    have hr := (init_ok h).2.2.2.1
    have : rewrite hsh (.tuples ts.dedup ds) = .ok (.tuples ts.dedup ds) := rfl
    rw [this] at hr
    rw [← Except.ok.inj hr]
    trivial
  · cases h

theorem fromDictGo_nz {E : Env} (hE : E.leaf = Leaf) {hsh : Op → Except KErr ℤ} {ds : List (String × List Value)}
    {acc k : KS} (ga : acc.Good E) (na : acc.op.NZ) (h : fromDictGo hsh acc ds = .ok k) : k.op.NZ := by
  induction ds generalizing acc with
  | nil => cases h; exact na
  | cons d ds ih =>
    obtain ⟨b, hb, h⟩ := bind_ok h
    obtain ⟨a, ha, h⟩ := bind_ok h
    have gb := (fromTuples_good hE hb).1
    have g1 := (mul_good ga gb ha).1
    refine ih g1 ?_ h
    obtain ⟨o, ho, ha⟩ := bind_ok ha
    obtain ⟨rfl, hc⟩ := build_ok ho
    refine init_nz ha (good_cross (E := E) hc ?_ (by simp))
    intro f hf
    rcases List.mem_cons.1 hf with rfl | hf
    · exact ga.op
    · rw [List.mem_singleton.1 hf]
      exact gb.op

theorem Made.nz {E : Env} (hE : Real E) {hsh : Op → Except KErr ℤ} {k : KS} (m : Made E hsh k) : k.op.NZ := by
  cases m with
  | frame df _ hl hr h =>
    obtain ⟨o, ho, h⟩ := bind_ok h
    obtain ⟨rfl, hc⟩ := build_ok ho
    have hr := (init_ok h).2.2.2.1
    have : rewrite hsh (.frame df) = .ok (.frame df) := rfl
    rw [this] at hr
    rw [← Except.ok.inj hr]
    trivial
  | tuples ts cols _ h => exact fromTuples_nz hE.leaf h
  | dict ds _ h =>
    cases ds with
    | nil => exact fromTuples_nz hE.leaf (show KS.fromTuples hsh [] [] = .ok k from h)
    | cons d ds =>
      obtain ⟨b, hb, h⟩ := bind_ok h
      exact fromDictGo_nz hE.leaf (fromTuples_good hE.leaf hb).1 (fromTuples_nz hE.leaf hb) h
  | mul a b _ ma mb h =>
    have ga := ma.good hE
    have gb := mb.good hE
    obtain ⟨o, ho, h⟩ := bind_ok h
    obtain ⟨rfl, hc⟩ := build_ok ho
    refine init_nz h (good_cross (E := E) hc ?_ (by simp))
    intro f hf
    rcases List.mem_cons.1 hf with rfl | hf
    · exact ga.op
    · rw [List.mem_singleton.1 hf]
      exact gb.op
  | sub a b _ ma mb hne h =>
    have ga := ma.good hE
    have gb := mb.good hE
    obtain ⟨o, ho, h⟩ := bind_ok h
    obtain ⟨rfl, hc⟩ := build_ok ho
    have hne' : b.op.columns ≠ [] := fun hh => hne ((nil_congr gb.cols).2 hh)
    exact init_nz (E := E) h ⟨⟨hc, ga.op.1, gb.op.1⟩, ga.op.2, gb.op.2, fun hh => absurd hh hne'⟩
  | getitem a _ cs d ma hd hne h =>
    have ga := ma.good hE
    unfold KS.getitem at h
    split at h
    · cases h
    rename_i hn
    obtain ⟨o, ho, h⟩ := bind_ok h
    obtain ⟨rfl, hc⟩ := build_ok ho
    exact init_nz (E := E) h ⟨⟨hc, by simpa using hn, ga.op.1⟩, sat_of_row ga hd hne, ga.op.2⟩
  | join a b _ ma mb h =>
    have ga := ma.good hE
    have gb := mb.good hE
    obtain ⟨o, ho, h⟩ := bind_ok h
    obtain ⟨rfl, hc⟩ := build_ok ho
    exact init_nz (E := E) h ⟨⟨hc, ga.op.1, gb.op.1⟩, ga.op.2, gb.op.2⟩
  | filter a _ c ma h =>
    have ga := ma.good hE
    obtain ⟨o, ho, h⟩ := bind_ok h
    obtain ⟨rfl, hc⟩ := build_ok ho
    exact init_nz (E := E) h ⟨⟨hc, ga.op.1⟩, ga.op.2⟩
  | union a b _ ma mb h =>
    have ga := ma.good hE
    have gb := mb.good hE
    obtain ⟨o, ho, h⟩ := bind_ok h
    obtain ⟨rfl, hc⟩ := build_ok ho
    exact init_nz (E := E) h ⟨⟨hc, ga.op.1, gb.op.1⟩, ga.op.2, gb.op.2⟩

/-! ## Sizes -/

theorem crossDF_length (a b : DF) : (crossDF a b).rows.length = a.rows.length * b.rows.length := by
  unfold crossDF
  dsimp only
  rw [List.length_flatMap]
  simp

theorem crossAll_length (d : DF) (ds : List DF) :
    (crossAll d ds).rows.length = ((d :: ds).map (fun e => e.rows.length)).prod := by
  induction ds generalizing d with
  | nil => simp [crossAll]
  | cons e es ih =>
    show (crossAll (crossDF d e) es).rows.length = _
    rw [ih]
    simp [crossDF_length, Nat.mul_assoc]

/-- The size of a rewritten tree with columns is the number of rows. -/
theorem size_eq {E : Env} {op : Op} {d : DF} (nz : op.NZ) (hne : op.columns ≠ []) (h : op.dataframe E = .ok d) :
    op.size E = .ok d.rows.length := by
  have hcount : ∀ o : Op, o.dataframe E = .ok d → o.count E = .ok d.rows.length := by
    intro o ho
    unfold Op.count
    rw [ho]
    rfl
  induction op using Op.ind generalizing d with
  | hd cs => cases h
  | ht ts ds =>
    cases h
    have : ds ≠ [] := by simpa [Op.columns] using hne
    dsimp only [Op.size]
    rw [if_neg (by simpa [List.isEmpty_iff] using this)]
  | hf df =>
    have : df.fields ≠ [] := by simpa [Op.columns] using hne
    dsimp only [Op.size]
    rw [if_neg (by simpa [List.isEmpty_iff] using this)]
    exact hcount _ h
  | hc m fs ih =>
    have hf := nzL_iff.1 nz
    dsimp only [Op.dataframe] at h
    split at h
    · cases h
    obtain ⟨ds, hds, h⟩ := bind_ok h
    have h2 := dataframeL_ok hds
    rw [List.filter_eq_self.2 (fun f hfm => by simpa [hasCols] using (hf f hfm).1)] at h2
    have key : ∀ (gs : List Op) (es : List DF), (∀ g ∈ gs, g ∈ fs) →
        List.Forall₂ (fun f d => f.dataframe E = .ok d) gs es →
        sizeL E gs = .ok ((es.map (fun e => e.rows.length)).prod) := by
      intro gs es hsub hh
      induction hh with
      | nil => rfl
      | @cons g e gs es hge _ ih2 =>
        have hg := hsub g (by simp)
        have h3 := ih g hg (hf g hg).2 (hf g hg).1 hge (fun o ho => by unfold Op.count; rw [ho]; rfl)
        have h4 := ih2 (fun x hx => hsub x (by simp [hx]))
        dsimp only [sizeL]
        rw [h3, h4]
        simp only [List.map_cons, List.prod_cons]
        rfl
    have hs := key fs ds (fun _ h => h) h2
    show sizeL E fs = _
    rw [hs]
    split at h
    · cases pure_ok h
      rw [crossAll_length]
    · exfalso
      cases h2
      exact hne rfl
  | hj l r _ _ => exact hcount _ h
  | hp c cs _ => exact hcount _ h
  | hfi c k _ => exact hcount _ h
  | hs l r _ _ => exact hcount _ h
  | hu l r _ _ => exact hcount _ h

/-- C24 for KeySets with columns: `size()` is the number of rows of `dataframe()`, which are all different. Missing:
KeySets without columns, for which it fails (`C24_total_union_fails`). -/
theorem C24_size_partial {E : Env} (hE : Real E) {hsh : Op → Except KErr ℤ} {k : KS} (m : Made E hsh k)
    (hne : k.cols ≠ []) : ∃ d, Shows E k d ∧ k.size E = .ok d.rows.length := by
  have g := m.good hE
  obtain ⟨d, hd⟩ := C23_dataframe hE m
  refine ⟨d, hd, ?_⟩
  have hr := hd.run
  unfold KS.dataframe at hr
  obtain ⟨x, hx, hr⟩ := bind_ok hr
  split at hr
  · cases pure_ok hr
    have := size_eq (m.nz hE) (fun hh => hne ((nil_congr g.cols).2 hh)) hx
    unfold KS.size
    rw [this]
    simp [selectDF]
  · cases hr

mutual
/-- Where the fast size is known, it is the size. -/
theorem sizeFast_size {E : Env} : (op : Op) → {n : Nat} → op.sizeFast = some n → op.size E = .ok n
  | .detect _, _, h => by cases h
  | .tuples ts ds, n, h => by
    dsimp only [Op.sizeFast] at h
    dsimp only [Op.size]
    split at h
    · rename_i hd; cases h; rw [if_pos hd]
    · rename_i hd; cases h; rw [if_neg hd]
  | .frame df, n, h => by
    dsimp only [Op.sizeFast] at h
    dsimp only [Op.size]
    split at h
    · rename_i hd; cases h; rw [if_pos hd]
    · cases h
  | .cross _ fs, n, h => by
    dsimp only [Op.sizeFast] at h
    dsimp only [Op.size]
    exact sizeFastL_sizeL fs h
  | .join _ _, _, h => by cases h
  | .project _ _, _, h => by cases h
  | .filter _ _, _, h => by cases h
  | .subtract _ _, _, h => by cases h
  | .union _ _, _, h => by cases h
/-- The same for lists of factors. -/
theorem sizeFastL_sizeL {E : Env} : (fs : List Op) → {n : Nat} → sizeFastL fs = some n → sizeL E fs = .ok n
  | [], n, h => by cases h; rfl
  | f :: fs, n, h => by
    dsimp only [sizeFastL] at h
    split at h
    · rename_i a b ha hb
      cases h
      dsimp only [sizeL]
      rw [sizeFast_size f ha, sizeFastL_sizeL fs hb]
      rfl
    · cases h
end

/-- C24, the fast path: where the size is known without evaluating anything, it is the size. -/
theorem C24_fast_size {E : Env} (k : KS) {n : Nat} (h : k.op.sizeFast = some n) : k.size E = .ok n :=
  sizeFast_size k.op h

/-- C24 for a KeySet without columns made by a constructor: one group. -/
theorem C24_total {E : Env} {hsh : Op → Except KErr ℤ} {k : KS}
    (h : KS.fromTuples hsh [] [] = .ok k ∨ KS.fromDict hsh [] = .ok k ∨ KS.fromDataframe hsh ⟨[], []⟩ = .ok k) :
    k.size E = .ok 1 := by
  rcases h with h | h | h
  · cases h; rfl
  · cases h; rfl
  · cases h; rfl

namespace Wit

/-- A KeySet without columns. -/
def ksTotal : Except KErr KS := KS.fromTuples h0 [] []

def ksSize (x : Except KErr KS) : Option Nat :=
  match x with
  | .ok k =>
    match k.size envL with
    | .ok n => some n
    | .error _ => none
  | .error _ => none

end Wit

open Wit

/-- C24 fails for KeySets without columns: one has size 1, but its union with itself, or what a filter leaves of it, has
size 0, and so has the product of such a union with anything, if it is not rewritten. -/
theorem C24_total_union_fails :
    ksSize ksTotal = some 1 ∧ ksSize (do let t ← ksTotal; KS.union h0 t t) = some 0 ∧
      ksSize (do let t ← ksTotal; KS.filter h0 t (.sql "1 = 1")) = some 0 := by
  refine ⟨?_, ?_, ?_⟩ <;> decide +kernel

/-- The hypotheses are met by a product of two KeySets, with 4 rows. -/
example : ∃ k, ksAB = .ok k ∧ Made envL h0 k ∧ k.cols = ["A", "B"] ∧ ksSize ksAB = some 4 := by
  have h : ∃ a b k, ksA = .ok a ∧ ksB = .ok b ∧ KS.mul h0 a b = .ok k ∧ k.cols = ["A", "B"] := ⟨_, _, _, rfl, rfl, rfl, rfl⟩
  obtain ⟨a, b, k, ha, hb, hk, hc⟩ := h
  refine ⟨k, ?_, .mul a b k (.tuples _ _ a ha) (.tuples _ _ b hb) hk, hc, by decide +kernel⟩
  unfold ksAB
  rw [ha, hb]
  exact hk

/-! ## Schemas -/

theorem KS.Good.schema {E : Env} (hE : Real E) {k : KS} (g : k.Good E) :
    ∃ s t, k.op.schema = .ok t ∧ HasSchema k.op t ∧ k.schema = .ok s ∧ Dict.keys s = k.cols ∧
      ∀ c, Dict.get s c = Dict.get t c := by
  obtain ⟨t, ht⟩ := schema_total g.op.1 (fine_noPlan hE.noPlans g.op.2)
  refine ⟨k.cols.filterMap (fun c => (Dict.get t c).map (fun d => (c, d))), t, ht.1, ht, ?_, ?_, ?_⟩
  · unfold KS.schema
    rw [ht.1]
    rfl
  · rw [keys_pick, List.filter_eq_self.2]
    intro c hc
    simpa [ht.2.2, ← g.cols] using hc
  · intro c
    rw [get_pick]
    split
    · rfl
    · rename_i hc
      rw [g.cols, ← ht.2.2] at hc
      exact (Dict.get_eq_none.2 hc).symm

/-- C52: `schema()` has the columns in order, and describes every row: the values have the types it says, with nulls
only where it allows them. -/
theorem C52_schema_describes_rows {E : Env} (hE : Real E) {hsh : Op → Except KErr ℤ} {k : KS} (m : Made E hsh k) :
    ∃ s d, k.schema = .ok s ∧ Shows E k d ∧ Dict.keys s = k.cols ∧
      ∀ r ∈ d.rows, ∀ c desc, (c, desc) ∈ s → Fits desc (cell d.cols r c) := by
  have g := m.good hE
  obtain ⟨s, t, ht, hts, hs, hk, hg⟩ := g.schema hE
  obtain ⟨d, hd⟩ := C23_dataframe hE m
  refine ⟨s, d, hs, hd, hk, fun r hr c desc hc => ?_⟩
  have hm : k.op.Matches E (cell d.cols r) := by
    rw [← m.key hE hd.run]
    right
    rwa [map_cell hd.nodup (hd.len r hr)]
  have hws : Dict.WF s := by
    rw [Dict.wf_iff, hk]
    exact g.nodup
  refine schema_describes g.op.1 g.op.2 hE.leaf ht hm (c := c) (d := desc) ?_
  rw [← hg]
  exact (Dict.get_eq_some hws).2 hc

end Verif.KeySet
