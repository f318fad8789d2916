import Verif.Bins.Props

/-!
# C75: what is accepted, names, and bins of values
-/

namespace Verif.Bins

open Verif Verif.Schema Verif.Expr
open Verif.Binning (Spec Cell Err fmt InBin Valid)
open Verif.Whole (Binner number)
open Verif.KeySet (vtype)

variable {fm : Format} {edges : List Obj} {given : Option (List Obj)} {right both : Bool} {nanBin : Obj} {m : Made}

/-- The name of the bin of a value, or null. -/
def Made.call (m : Made) (v : Value) : Value := binner.cell (m.spec.call (read v))

/-- The names of the bins. -/
def Made.names (m : Made) : List Value := m.spec.names.map Subtype.val

/-! ## The constructor -/

/-- What the constructor does if it succeeds. -/
structure Init (fm : Format) (edges : List Obj) (given : Option (List Obj)) (right both : Bool) (nanBin : Obj) (m : Made)
    (t t' : ColumnType) (ns : List Obj) : Prop where
  typed : ∀ o ∈ edges, o.type = some t
  sorted : Edges t (values edges)
  names : namesOf fm (values edges) given right both = .ok ns
  named : ns ≠ [] ∧ ∀ o ∈ ns, o.type = some t'
  nan : nanBin = .value .null ∨ nanBin.type = some t'
  eq : m = ⟨values edges, t, ⟨(values edges).filterMap key, (values ns).filterMap asName, right, both,
      (values [nanBin]).head?.bind asName⟩,
      ⟨t', true, (values ns ++ (if nanBin = .value .null then [] else values [nanBin])).any isNaN,
        (values ns ++ (if nanBin = .value .null then [] else values [nanBin])).any isInf⟩⟩

theorem edges_iff {t : ColumnType} (ht : ∀ o ∈ edges, o.type = some t) :
    Edges t (values edges) ↔ 2 ≤ edges.length ∧ increasing (values edges) = true := by
  constructor
  · intro e
    refine ⟨?_, (increasing_iff e.typed).2 e.sorted⟩
    rw [← values_length ht]
    exact e.two
  · rintro ⟨h1, h2⟩
    exact ⟨by rw [values_length ht]; exact h1, values_type ht, (increasing_iff (values_type ht)).1 h2⟩

theorem init_iff : init fm edges given right both nanBin = .ok m ↔ ∃ t t' ns, Init fm edges given right both nanBin m t t' ns := by
  constructor
  · intro h
    unfold init at h
    split at h
    · cases h
    rename_i hlen
    cases he : elementType edges with
    | error x => rw [he] at h; cases h
    | ok t =>
      rw [he] at h
      dsimp only at h
      split at h
      · cases h
      rename_i hs
      have hs : increasing (values edges) = true := by simpa using hs
      cases hn : namesOf fm (values edges) given right both with
      | error x => rw [hn] at h; cases h
      | ok ns =>
        rw [hn] at h
        dsimp only at h
        cases hd : elementType ns with
        | error x => rw [hd] at h; cases h
        | ok t' =>
          rw [hd] at h
          dsimp only at h
          split at h
          · cases h
          rename_i hnan
          have ht := (elementType_iff.1 he).2
          refine ⟨t, t', ns, ht, (edges_iff ht).2 ⟨by omega, hs⟩, hn, elementType_iff.1 hd, ?_, (Except.ok.inj h).symm⟩
          by_contra hc
          exact hnan ⟨fun h => hc (.inl h), fun h => hc (.inr h)⟩
  · rintro ⟨t, t', ns, h⟩
    unfold init
    obtain ⟨h2, hs⟩ := (edges_iff h.typed).1 h.sorted
    have he : elementType edges = .ok t := elementType_iff.2 ⟨by rintro rfl; simp at h2, h.typed⟩
    rw [if_neg (by omega), he]
    dsimp only
    rw [hs, if_neg (by simp), h.names]
    dsimp only
    rw [elementType_iff.2 h.named]
    dsimp only
    rw [if_neg, h.eq]
    rintro ⟨h1, h2⟩
    exact h.nan.elim h1 h2

theorem defaultNames_length {t : ColumnType} {l : List Value} (e : Edges t l) {ns : List String}
    (h : defaultNames fm l right both = .ok ns) : ns.length + 1 = l.length ∧ ns.Nodup := by
  have two := e.two
  rw [defaultNames_eq two] at h
  cases hs : edgesAsStr fm l with
  | error x => rw [hs] at h; cases h
  | ok strs =>
    rw [hs] at h
    cases h
    obtain ⟨h1, h2⟩ := edgesAsStr_ok e hs
    refine ⟨by rw [List.length_map, List.length_range]; omega, ?_⟩
    exact names_nodup h2 h1 right both

theorem namesOf_length {t : ColumnType} {l : List Value} (e : Edges t l) {ns : List Obj}
    (h : namesOf fm l given right both = .ok ns) : ns.length + 1 = l.length := by
  unfold namesOf at h
  have two := e.two
  cases given with
  | none =>
    dsimp only at h
    cases hd : defaultNames fm l right both with
    | error x => rw [hd] at h; cases h
    | ok strs =>
      rw [hd] at h
      cases h
      rw [List.length_map]
      exact (defaultNames_length e hd).1
  | some ns' =>
    dsimp only at h
    split at h
    · cases h
    · cases h
      omega

theorem asName_some {v : Value} {t : ColumnType} (h : vtype v = some t) : ∃ n : Name, asName v = some n ∧ n.1 = v := by
  unfold asName
  have : v ≠ .null := by rintro rfl; cases h
  rw [dif_pos this]
  exact ⟨_, rfl, rfl⟩

theorem asName_map {l : List Value} {t : ColumnType} (h : ∀ v ∈ l, vtype v = some t) :
    (l.filterMap asName).map Subtype.val = l := by
  induction l with
  | nil => rfl
  | cons v l ih =>
    obtain ⟨n, hn, hv⟩ := asName_some (h v List.mem_cons_self)
    rw [List.filterMap_cons_some hn, List.map_cons, hv, ih (fun v hv => h v (List.mem_cons_of_mem _ hv))]

namespace Init

variable {t t' : ColumnType} {ns : List Obj}

theorem names_eq (h : Init fm edges given right both nanBin m t t' ns) : m.names = values ns := by
  have := h.eq
  subst this
  exact asName_map (values_type h.named.2)

theorem valid (h : Init fm edges given right both nanBin m t t' ns) : Valid m.spec := by
  have := h.eq
  subst this
  refine h.sorted.valid ?_ _ _ _
  have h1 := congrArg List.length (asName_map (values_type h.named.2))
  rw [List.length_map] at h1
  rw [h1, values_length h.named.2]
  exact namesOf_length h.sorted h.names

theorem nan_iff (h : Init fm edges given right both nanBin m t t' ns) (n : Name) :
    m.spec.nanBin = some n ↔ nanBin = .value n.1 := by
  have := h.eq
  subst this
  have hnan := h.nan
  cases nanBin with
  | other =>
    rcases hnan with hc | hc
    · cases hc
    · cases hc
  | value v =>
    show (some v).bind asName = some n ↔ _
    rw [Option.bind_some]
    unfold asName
    constructor
    · intro e
      split at e
      · cases e
        rfl
      · cases e
    · intro e
      cases e
      rw [dif_pos n.2]

end Init

/-- **C75.** A binning specification can be made exactly from at least two edges of one supported type, each below the next
one, and names: either one for each bin, of one supported type, and a name of that type for NaNs if there is one; or no
names, if the name for NaNs is a string and float edges differ when rounded to some number of decimals from 2 to 16. -/
theorem C75_accepts (fm : Format) (edges : List Obj) (given : Option (List Obj)) (right both : Bool) (nanBin : Obj) :
    (∃ m, init fm edges given right both nanBin = .ok m) ↔ Accepted edges given nanBin := by
  constructor
  · rintro ⟨m, h⟩
    obtain ⟨t, t', ns, h⟩ := init_iff.1 h
    have hl := values_length h.typed
    refine ⟨by rw [← hl]; exact h.sorted.two, ⟨t, h.typed⟩, fun i a b ha hb => ?_, fun ns' hns => ?_, fun hg => ?_⟩
    · exact h.sorted.sorted i a b ((values_get h.typed).2 ha) ((values_get h.typed).2 hb)
    · have hn := h.names
      have hlen := namesOf_length h.sorted hn
      subst hns
      unfold namesOf at hn
      dsimp only at hn
      split at hn
      · cases hn
      · cases hn
        exact ⟨by omega, t', h.named.2, h.nan⟩
    · subst hg
      have hn := h.names
      unfold namesOf at hn
      dsimp only at hn
      cases hd : defaultNames fm (values edges) right both with
      | error x => rw [hd] at hn; cases hn
      | ok strs =>
        rw [hd] at hn
        cases hn
        have hd' := hd
        rw [defaultNames_eq h.sorted.two] at hd'
        cases hs : edgesAsStr fm (values edges) with
        | error x => rw [hs] at hd'; cases hd'
        | ok ss =>
          have hp := (edgesAsStr_exists h.sorted).1 ⟨ss, hs⟩
          constructor
          · have ht' : t' = .VARCHAR := by
              obtain ⟨hne, hty⟩ := h.named
              obtain ⟨o, os, ho⟩ := List.exists_cons_of_ne_nil hne
              have h1 := hty o (by rw [ho]; exact List.mem_cons_self)
              have h2 : o ∈ strs.map (fun s => Obj.value (.str s)) := by
                have : strs.map (fun s => Obj.value (.str s)) = o :: os := ho
                rw [this]
                exact List.mem_cons_self
              obtain ⟨s, _, rfl⟩ := List.mem_map.1 h2
              exact (Option.some.inj h1).symm
            rw [← ht']
            exact h.nan
          · rintro ⟨f, hf⟩
            have ht : t = .DECIMAL := (Option.some.inj (h.typed _ hf)).symm
            obtain ⟨p, p1, p2, p3⟩ := hp ht
            subst ht
            exact ⟨p, p1, p2, (floats_apart h.typed h.sorted p).1 p3⟩
  · rintro ⟨h2, ⟨t, ht⟩, hs, hn, hd⟩
    have e : Edges t (values edges) := ⟨by rw [values_length ht]; exact h2, values_type ht,
      fun i a b ha hb => hs i a b ((values_get ht).1 ha) ((values_get ht).1 hb)⟩
    cases given with
    | some ns =>
      obtain ⟨h1, t', h3, h4⟩ := hn ns rfl
      refine ⟨_, init_iff.2 ⟨t, t', ns, ht, e, ?_, ⟨?_, h3⟩, h4, rfl⟩⟩
      · unfold namesOf
        dsimp only
        rw [values_length ht, if_neg (by omega)]
      · rintro rfl
        simp only [List.length_nil] at h1
        omega
    | none =>
      obtain ⟨h1, h3⟩ := hd rfl
      have hex : ∃ strs, edgesAsStr fm (values edges) = .ok strs := by
        refine (edgesAsStr_exists e).2 fun ht' => ?_
        subst ht'
        have : ∃ f, Obj.value (.dec f) ∈ edges := by
          obtain ⟨o, os, ho⟩ := List.exists_cons_of_ne_nil (l := edges) (by rintro rfl; simp at h2)
          have hty := ht o (by rw [ho]; exact List.mem_cons_self)
          cases o with
          | other => cases hty
          | value v =>
            cases v <;> simp only [Obj.type, vtype, Option.some.injEq, reduceCtorEq] at hty
            exact ⟨_, by rw [ho]; exact List.mem_cons_self⟩
        obtain ⟨p, p1, p2, p3⟩ := h3 this
        exact ⟨p, p1, p2, (floats_apart ht e p).2 p3⟩
      obtain ⟨strs, hstrs⟩ := hex
      obtain ⟨ns, hns⟩ : ∃ ns, defaultNames fm (values edges) right both = .ok ns := by
        rw [defaultNames_eq e.two, hstrs]
        exact ⟨_, rfl⟩
      have hlen := (defaultNames_length e hns).1
      refine ⟨_, init_iff.2 ⟨t, .VARCHAR, ns.map (fun s => Obj.value (.str s)), ht, e, ?_, ⟨?_, ?_⟩, h1, rfl⟩⟩
      · unfold namesOf
        dsimp only
        rw [hns]
        rfl
      · intro hc
        have := congrArg List.length hc
        have h2' := e.two
        simp only [List.length_map, List.length_nil] at this
        omega
      · intro o ho
        obtain ⟨s, _, rfl⟩ := List.mem_map.1 ho
        rfl

/-- **C75.** The exception is a `ValueError`, except for float edges without names, where it may be a `RuntimeError`. -/
theorem C75_errors {x : Err} (h : init fm edges given right both nanBin = .error x) :
    x = .valueError ∨ (x = .runtimeError ∧ given = none ∧ ∀ o ∈ edges, o.type = some .DECIMAL) := by
  unfold init at h
  split at h
  · cases h
    exact .inl rfl
  rename_i hlen
  cases he : elementType edges with
  | error y =>
    rw [he] at h
    cases h
    exact .inl (elementType_error he)
  | ok t =>
    rw [he] at h
    dsimp only at h
    split at h
    · cases h
      exact .inl rfl
    rename_i hs
    have hs : increasing (values edges) = true := by simpa using hs
    have ht := (elementType_iff.1 he).2
    have e := (edges_iff ht).2 ⟨by omega, hs⟩
    cases hn : namesOf fm (values edges) given right both with
    | error y =>
      rw [hn] at h
      cases h
      unfold namesOf at hn
      cases given with
      | some ns =>
        dsimp only at hn
        split at hn <;> cases hn
        exact .inl rfl
      | none =>
        dsimp only at hn
        rw [defaultNames_eq e.two] at hn
        cases hstr : edgesAsStr fm (values edges) with
        | ok strs => rw [hstr] at hn; cases hn
        | error z =>
          rw [hstr] at hn
          cases hn
          refine .inr ⟨edgesAsStr_error hstr, rfl, ?_⟩
          by_contra hc
          obtain ⟨strs, h'⟩ := (edgesAsStr_exists (fm := fm) e).2 (fun hdec => absurd (hdec ▸ ht) hc)
          rw [hstr] at h'
          cases h'
    | ok ns =>
      rw [hn] at h
      dsimp only at h
      cases hd : elementType ns with
      | error y =>
        rw [hd] at h
        cases h
        exact .inl (elementType_error hd)
      | ok t' =>
        rw [hd] at h
        dsimp only at h
        split at h
        · cases h
          exact .inl rfl
        · cases h

/-! ## Values -/

/-- **C75.** The bin of a value: the name that is returned is that of the bin with the value, and null if there is none. A
name belongs to a value through one bin only, and each bin has the name that was given for it. -/
theorem C75_call (h : init fm edges given right both nanBin = .ok m) (v : Value) :
    (∀ u, u ≠ .null → (m.call v = u ↔ Belongs right both (values edges) m.names nanBin v u)) ∧
    (m.call v = .null ↔ ∀ u, ¬ Belongs right both (values edges) m.names nanBin v u) ∧
    (∀ i j, Between right both (values edges) i v → Between right both (values edges) j v → i = j) ∧
    (∀ ns, given = some ns → ns = m.names.map Obj.value) ∧ m.names.length + 1 = edges.length := by
  obtain ⟨t, t', ns, h⟩ := init_iff.1 h
  have hnames := h.names_eq
  have hv := h.valid
  have hnan := h.nan_iff
  have hspec : m.spec = ⟨(values edges).filterMap key, m.spec.names, right, both, m.spec.nanBin⟩ := by
    have := h.eq
    subst this
    rfl
  have hbetween : ∀ {x : Key}, key v = some x → ∀ i, InBin m.spec i x ↔ Between right both (values edges) i v := by
    intro x hx i
    rw [hspec]
    exact h.sorted.between hx i
  have hnotnull : ∀ (i : Nat) (u : Value), m.names[i]? = some u → u ≠ .null := by
    intro i u hu
    unfold Made.names at hu
    rw [List.getElem?_map, Option.map_eq_some_iff] at hu
    obtain ⟨n, _, rfl⟩ := hu
    exact n.2
  have main : ∀ u, u ≠ .null → (m.call v = u ↔ Belongs right both (values edges) m.names nanBin v u) := by
    intro u hu
    unfold Made.call Belongs
    have hcell : ∀ o : Option Name, binner.cell o = u ↔ o = some ⟨u, hu⟩ := by
      intro o
      cases o with
      | none => exact ⟨fun h => absurd h.symm hu, nofun⟩
      | some n =>
        show n.1 = u ↔ _
        rw [Option.some.injEq]
        exact ⟨fun h => Subtype.ext h, fun h => by rw [h]⟩
    rw [hcell]
    unfold read
    cases hk : key v with
    | none =>
      have hc : v = .null ∨ v = .dec .nan := by
        rcases v with _ | z | (q | _ | _ | _) | s | d | tt <;> simp [key] at hk ⊢
      rcases hc with rfl | rfl
      · simp [Spec.call]
      · simp only [if_true]
        rw [Spec.call, hnan]
        simp [hu]
    | some x =>
      have h1 : v ≠ .null := by rintro rfl; cases hk
      have h2 : v ≠ .dec .nan := by rintro rfl; cases hk
      dsimp only
      rw [if_neg h2]
      have hname : ∀ i : Nat, m.spec.names[i]? = some (⟨u, hu⟩ : Name) ↔ m.names[i]? = some u := by
        intro i
        unfold Made.names
        rw [List.getElem?_map, Option.map_eq_some_iff]
        constructor
        · intro h
          exact ⟨_, h, rfl⟩
        · rintro ⟨n, hn, rfl⟩
          exact hn
      rcases Binning.call_spec hv x with ⟨i, n, i1, i2, i3⟩ | ⟨i1, i2⟩
      · rw [i3]
        constructor
        · intro e
          cases e
          exact ⟨h1, i, (hbetween hk i).1 i1, (hname i).1 i2⟩
        · rintro ⟨_, j, j1, j2⟩
          have := Binning.InBin.unique hv ((hbetween hk j).2 j1) i1
          subst this
          rw [← (hname j).2 j2, i2]
      · rw [i2]
        constructor
        · intro e; cases e
        · rintro ⟨_, j, j1, _⟩
          exact absurd ((hbetween hk j).2 j1) (i1 j)
  have hne : ∀ u, Belongs right both (values edges) m.names nanBin v u → u ≠ .null := by
    rintro u ⟨_, hb⟩
    split at hb
    · exact hb.2
    · obtain ⟨i, _, hi⟩ := hb
      exact hnotnull i u hi
  refine ⟨main, ⟨fun hc u hb => ?_, fun hall => ?_⟩, fun i j hi hj => ?_, fun ns' hg => ?_, ?_⟩
  · have := (main u (hne u hb)).2 hb
    exact hne u hb (this.symm.trans hc)
  · by_contra hc
    exact hall _ ((main _ hc).1 rfl)
  · have hx : ∃ x, key v = some x := by
      have two : ∀ {a b}, Less a b → (∃ x, key a = some x) ∧ ∃ x, key b = some x := by
        intro a b hl
        obtain ⟨x, y, hx, hy⟩ := less_keys hl
        exact ⟨⟨x, hx⟩, ⟨y, hy⟩⟩
      have same : ∀ {a b}, Same a b → (∃ x, key b = some x) → ∃ x, key a = some x := by
        rintro a b (rfl | ⟨q, hq, _⟩) hb
        · exact hb
        · rcases a with _ | z | (q | _ | _ | _) | s | d | tt <;> simp [number] at hq <;> exact ⟨_, rfl⟩
      obtain ⟨a, b, ha, hb, hor⟩ := hi
      split at hor
      · rcases hor with ⟨h1, _⟩ | ⟨_, _, h1⟩
        · exact (two h1).2
        · exact same h1 (h.sorted.hasKey ha)
      · rcases hor with ⟨_, h1⟩ | ⟨_, _, h1⟩
        · exact (two h1).1
        · exact same h1 (h.sorted.hasKey hb)
    obtain ⟨x, hx⟩ := hx
    exact Binning.InBin.unique hv ((hbetween hx i).2 hi) ((hbetween hx j).2 hj)
  · have hn := h.names
    subst hg
    unfold namesOf at hn
    dsimp only at hn
    split at hn
    · cases hn
    · cases hn
      rw [hnames, values_map h.named.2]
  · rw [hnames, values_length h.named.2, namesOf_length h.sorted h.names, values_length h.typed]

/-- **C75.** The column descriptor allows every name that the binning gives, and null. -/
theorem C75_descriptor (h : init fm edges given right both nanBin = .ok m) :
    (∀ v, DescOK m.desc (m.call v)) ∧ ∀ u, u ∈ m.names ∨ nanBin = .value u → DescOK m.desc u := by
  obtain ⟨t, t', ns, h⟩ := init_iff.1 h
  have hnames := h.names_eq
  have hall : ∀ u, u ∈ m.names ∨ nanBin = .value u → DescOK m.desc u := by
    intro u hu
    have hd : m.desc = ⟨t', true, (values ns ++ (if nanBin = .value .null then [] else values [nanBin])).any isNaN,
        (values ns ++ (if nanBin = .value .null then [] else values [nanBin])).any isInf⟩ := by
      have := h.eq
      subst this
      rfl
    rw [hd]
    by_cases hnull : u = .null
    · rw [hnull]
      exact rfl
    have hmem : u ∈ values ns ++ (if nanBin = .value .null then [] else values [nanBin]) := by
      rcases hu with hu | hu
      · rw [hnames] at hu
        exact List.mem_append_left _ hu
      · subst hu
        refine List.mem_append_right _ ?_
        rw [if_neg (fun e => hnull (Obj.value.inj e))]
        exact List.mem_singleton.2 rfl
    have hty : vtype u = some t' := by
      rcases hu with hu | hu
      · rw [hnames] at hu
        exact values_type h.named.2 u hu
      · subst hu
        exact h.nan.resolve_left (fun e => hnull (Obj.value.inj e))
    have hn : isNaN u = true → (values ns ++ (if nanBin = .value .null then [] else values [nanBin])).any isNaN = true :=
      fun hu => List.any_eq_true.2 ⟨u, hmem, hu⟩
    have hi : isInf u = true → (values ns ++ (if nanBin = .value .null then [] else values [nanBin])).any isInf = true :=
      fun hu => List.any_eq_true.2 ⟨u, hmem, hu⟩
    rcases u with _ | z | (q | _ | _ | _) | s | d | tt <;>
      simp only [vtype, Option.some.injEq, reduceCtorEq] at hty <;> subst hty
    · exact rfl
    · exact rfl
    · exact ⟨rfl, hn rfl⟩
    · exact ⟨rfl, hi rfl⟩
    · exact ⟨rfl, hi rfl⟩
    · exact rfl
    · exact rfl
    · exact rfl
  refine ⟨fun v => ?_, hall⟩
  by_cases hc : m.call v = .null
  · rw [hc]
    have := h.eq
    subst this
    exact rfl
  · obtain ⟨_, hb⟩ := ((C75_call (init_iff.2 ⟨t, t', ns, h⟩) v).1 _ hc).1 rfl
    split at hb
    · exact hall _ (.inr hb.1)
    · obtain ⟨i, _, hi⟩ := hb
      exact hall _ (.inl (List.mem_of_getElem? hi))

end Verif.Bins
