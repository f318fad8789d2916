import Verif.Bins.Main

/-!
# C75: default names of bins
-/

namespace Verif.Bins

open Verif Verif.Schema Verif.Expr
open Verif.Binning (Spec Cell Err fmt InBin Valid)
open Verif.Whole (Binner number)
open Verif.KeySet (vtype)

variable {fm : Format} {edges : List Obj} {given : Option (List Obj)} {right both : Bool} {nanBin : Obj} {m : Made}

theorem same_refl (v : Value) : Same v v := .inl rfl

/-- The lower edge belongs to its bin if the bracket says so. -/
theorem lower_in {t : ColumnType} {l : List Value} (e : Edges t l) {i : Nat} {a b : Value} (ha : l[i]? = some a)
    (hb : l[i + 1]? = some b) : opening right both i = "[" ↔ Between right both l i a := by
  have hab := e.sorted i a b ha hb
  have hne : ¬ Less a a := less_irrefl
  have hE : Between right both l i a ↔
      (if right then (Less a a ∧ (Less a b ∨ Same a b)) ∨ (both = true ∧ i = 0 ∧ Same a a)
        else ((Less a a ∨ Same a a) ∧ Less a b) ∨ (both = true ∧ i + 2 = l.length ∧ Same a b)) := by
    unfold Between
    constructor
    · rintro ⟨a', b', ha', hb', h⟩
      rw [ha] at ha'
      rw [hb] at hb'
      cases ha'
      cases hb'
      exact h
    · intro h
      exact ⟨a, b, ha, hb, h⟩
  rw [hE]
  unfold opening
  cases right with
  | false => simpa using Or.inl ⟨.inr (same_refl a), hab⟩
  | true =>
    simp only [if_true, hne, false_and, false_or, same_refl, and_true]
    cases both with
    | false => simp
    | true =>
      cases i with
      | zero => simp
      | succ i => simp

/-- The upper edge belongs to its bin if the bracket says so. -/
theorem upper_in {t : ColumnType} {l : List Value} (e : Edges t l) {i : Nat} {a b : Value} (ha : l[i]? = some a)
    (hb : l[i + 1]? = some b) : closing right both l.length i = "]" ↔ Between right both l i b := by
  have hab := e.sorted i a b ha hb
  have hne : ¬ Less b b := less_irrefl
  have hns : ¬ Same b a := by
    obtain ⟨x, y, hx, hy⟩ := less_keys hab
    rw [same_iff hy hx]
    exact ne_of_gt ((less_iff hx hy).1 hab).1
  have hE : Between right both l i b ↔
      (if right then (Less a b ∧ (Less b b ∨ Same b b)) ∨ (both = true ∧ i = 0 ∧ Same b a)
        else ((Less a b ∨ Same a b) ∧ Less b b) ∨ (both = true ∧ i + 2 = l.length ∧ Same b b)) := by
    unfold Between
    constructor
    · rintro ⟨a', b', ha', hb', h⟩
      rw [ha] at ha'
      rw [hb] at hb'
      cases ha'
      cases hb'
      exact h
    · intro h
      exact ⟨a, b, ha, hb, h⟩
  rw [hE]
  unfold closing
  cases right with
  | true => simpa using Or.inl ⟨hab, .inr (same_refl b)⟩
  | false =>
    simp only [Bool.false_eq_true, if_false, hne, and_false, false_or, same_refl, and_true]
    cases both with
    | false => simp
    | true =>
      by_cases hi : i + 2 = l.length
      · simp [hi]
      · simp [hi]

/-- **C75.** Default names: there is one for each bin, no two are equal, and the name of a bin has the texts of its two edges,
with a square bracket on the side of an edge that belongs to the bin and a round one on the other. Different edges have
different texts. -/
theorem C75_names (h : init fm edges none right both nanBin = .ok m) :
    m.names.Nodup ∧ ∃ text : Nat → String,
      (∀ i j, i < edges.length → j < edges.length → text i = text j → i = j) ∧
      ∀ (i : Nat) (a b : Value), edges[i]? = some (.value a) → edges[i + 1]? = some (.value b) →
        ∃ l r, m.names[i]? = some (.str (l ++ text i ++ ", " ++ text (i + 1) ++ r)) ∧
          ((l = "[" ∧ Between right both (values edges) i a) ∨ (l = "(" ∧ ¬ Between right both (values edges) i a)) ∧
          ((r = "]" ∧ Between right both (values edges) i b) ∨ (r = ")" ∧ ¬ Between right both (values edges) i b)) := by
  obtain ⟨t, t', ns, h⟩ := init_iff.1 h
  have hnames := h.names_eq
  have e := h.sorted
  have hn := h.names
  unfold namesOf at hn
  dsimp only at hn
  cases hd : defaultNames fm (values edges) right both with
  | error x => rw [hd] at hn; cases hn
  | ok strs =>
    rw [hd] at hn
    have hn : strs.map (fun s => Obj.value (.str s)) = ns := Except.ok.inj hn
    have hv : m.names = strs.map Value.str := by
      rw [hnames, ← hn, show strs.map (fun s => Obj.value (.str s)) = (strs.map Value.str).map Obj.value by
        rw [List.map_map]; rfl, values_values]
    obtain ⟨hlen, hnd⟩ := defaultNames_length e hd
    rw [defaultNames_eq e.two] at hd
    cases hs : edgesAsStr fm (values edges) with
    | error x => rw [hs] at hd; cases hd
    | ok ss =>
      rw [hs] at hd
      have hd := Except.ok.inj hd
      obtain ⟨h1, h2⟩ := edgesAsStr_ok e hs
      have hl := values_length h.typed
      refine ⟨?_, fun i => ss.getD i "", ?_, ?_⟩
      · rw [hv]
        exact hnd.map (fun a b hab => Value.str.inj hab)
      · intro i j hi hj hij
        have gi : ss.getD i "" = ss[i] := by rw [List.getD_eq_getElem?_getD, List.getElem?_eq_getElem (by omega)]; rfl
        have gj : ss.getD j "" = ss[j] := by rw [List.getD_eq_getElem?_getD, List.getElem?_eq_getElem (by omega)]; rfl
        dsimp only at hij
        rw [gi, gj] at hij
        rcases Nat.lt_trichotomy i j with hlt | heq | hlt
        · exact absurd (congrArg (fun s => s.toList ++ ',' :: []) hij) (List.pairwise_iff_getElem.1 h2 i j (by omega) (by omega) hlt [] [])
        · exact heq
        · exact absurd (congrArg (fun s => s.toList ++ ',' :: []) hij.symm) (List.pairwise_iff_getElem.1 h2 j i (by omega) (by omega) hlt [] [])
      · intro i a b ha hb
        have hi : i + 1 < edges.length := (List.getElem?_eq_some_iff.1 hb).1
        have ha := (values_get h.typed).2 ha
        have hb := (values_get h.typed).2 hb
        refine ⟨opening right both i, closing right both (values edges).length i, ?_, ?_, ?_⟩
        · rw [hv, List.getElem?_map, ← hd, List.getElem?_map, List.getElem?_range (by omega)]
          rfl
        · rw [← lower_in e ha hb]
          unfold opening
          split
          · split <;> simp
          · simp
        · rw [← upper_in e ha hb]
          unfold closing
          split
          · simp
          · split <;> simp

/-- The text of a name of `Verif.Binning.dfltFloat`. -/
def unitStr (p : Nat) (x : Bool × ℤ) : String :=
  String.ofList ((if x.1 then ['-'] else []) ++ natStr (x.2.natAbs / 10 ^ p) ++ '.' :: lastDigits p x.2.natAbs)

def render (n : Binning.FloatName) : String :=
  (if n.leftClosed then "[" else "(") ++ unitStr n.precision n.lo ++ ", " ++ unitStr n.precision n.hi ++
    (if n.rightClosed then "]" else ")")

/-- **C51**, with strings: the names that the abstract model of default names gives for finite float edges are the strings
that the code makes. -/
theorem C51_rendered (fm : Format) (edges : List ℚ) (h2 : 2 ≤ edges.length) (right both : Bool) :
    defaultNames fm (edges.map (fun q => Value.dec (.fin q))) right both =
      (Binning.dfltFloat edges right both).map (fun l => l.map render) := by
  rw [defaultNames_eq (by rw [List.length_map]; exact h2), List.length_map]
  have hfl : floats (edges.map (fun q => Value.dec (.fin q))) = edges.map Flt.fin := by
    clear h2
    induction edges with
    | nil => rfl
    | cons q l ih =>
      show Flt.fin q :: floats (l.map fun q => Value.dec (.fin q)) = _
      rw [ih]
      rfl
  have hdec : ∀ p, decide ((edges.map Flt.fin).map (fltStr p)).Nodup = decide (edges.map (fmt p)).Nodup := by
    intro p
    rw [decide_eq_decide, List.map_map]
    clear h2 hfl
    unfold List.Nodup
    rw [List.pairwise_map, List.pairwise_map]
    refine ⟨fun h => h.imp ?_, fun h => h.imp ?_⟩
    · intro a b hab hc
      exact hab (fltStr_fin.2 hc)
    · intro a b hab hc
      exact hab (fltStr_fin.1 hc)
  unfold Binning.dfltFloat
  have hstr : edgesAsStr fm (edges.map (fun q => Value.dec (.fin q))) =
      match Binning.findPrecision edges with
      | none => .error .runtimeError
      | some p => .ok (edges.map (fun q => unitStr p (fmt p q))) := by
    obtain ⟨q, qs, rfl⟩ := List.exists_cons_of_ne_nil (l := edges) (by rintro rfl; simp at h2)
    unfold edgesAsStr Binning.findPrecision
    rw [hfl]
    rw [List.map_cons]
    dsimp only
    rw [funext hdec]
    cases ((List.range 15).map (· + 2)).find? (fun p => decide ((q :: qs).map (fmt p)).Nodup) with
    | none => rfl
    | some p =>
      dsimp only
      rw [List.map_map]
      rfl
  rw [hstr]
  cases Binning.findPrecision edges with
  | none => rfl
  | some p =>
    dsimp only [Except.map]
    congr 1
    have hz : ((edges.map (fmt p)).zip (edges.map (fmt p)).tail).length = edges.length - 1 := by
      simp only [List.length_zip, List.length_tail, List.length_map]
      omega
    refine List.ext_getElem? fun i => ?_
    rw [List.getElem?_map, List.getElem?_map, List.getElem?_mapIdx]
    by_cases hi : i < edges.length - 1
    · rw [List.getElem?_range hi, List.getElem?_eq_getElem (by rw [hz]; exact hi), List.getElem_zip]
      simp only [Option.map_some, Option.some.injEq, List.getElem_tail, List.getElem_map]
      have g : ∀ (k : Nat) (hk : k < edges.length), (edges.map (fun q => unitStr p (fmt p q))).getD k "" = unitStr p (fmt p edges[k]) := by
        intro k hk
        rw [List.getD_eq_getElem?_getD, List.getElem?_map, List.getElem?_eq_getElem hk]
        rfl
      unfold interval render opening closing
      rw [g i (by omega), g (i + 1) (by omega)]
      cases right with
      | true =>
        cases both with
        | true => cases i <;> simp
        | false => simp
      | false =>
        have : (i + 2 == edges.length) = (i + 1 == ((edges.map (fmt p)).zip (edges.map (fmt p)).tail).length) := by
          rw [hz, Bool.eq_iff_iff, beq_iff_eq, beq_iff_eq]
          omega
        rw [this]
        cases both with
        | true => simp
        | false => simp
    · rw [List.getElem?_eq_none (by rw [List.length_range]; omega), List.getElem?_eq_none (by rw [hz]; omega)]
      rfl

end Verif.Bins
