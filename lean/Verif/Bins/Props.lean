import Verif.Bins.Strings

/-!
# C75: binning specifications from Python values
-/

namespace Verif.Bins

open Verif Verif.Schema Verif.Expr
open Verif.Binning (Spec Cell Err fmt InBin Valid)
open Verif.Whole (Binner number)
open Verif.KeySet (vtype)

/-! ## Specification -/

/-- One value is below another one: numbers (also infinite ones) as numbers, strings, dates and timestamps in their order. -/
def Less : Value → Value → Prop
  | .str a, .str b => a < b
  | .date a, .date b => a < b
  | .ts a, .ts b => a < b
  | v, w => (∃ a b, number v = some a ∧ number w = some b ∧ a < b) ∨
      (v = .dec .ninf ∧ ((number w).isSome ∨ w = .dec .pinf)) ∨ (w = .dec .pinf ∧ (number v).isSome)

/-- The same value, or the same number. -/
def Same (v w : Value) : Prop := v = w ∨ ∃ q, number v = some q ∧ number w = some q

/-- The value lies in bin `i`: between two edges, with the right (or left) edge, and with the ends if both are included. -/
def Between (right both : Bool) (edges : List Value) (i : Nat) (v : Value) : Prop :=
  ∃ a b, edges[i]? = some a ∧ edges[i + 1]? = some b ∧
    (if right then (Less a v ∧ (Less v b ∨ Same v b)) ∨ (both = true ∧ i = 0 ∧ Same v a)
     else ((Less a v ∨ Same a v) ∧ Less v b) ∨ (both = true ∧ i + 2 = edges.length ∧ Same v b))

/-- The name is that of a bin with the value. -/
def Belongs (right both : Bool) (edges names : List Value) (nanBin : Obj) (v u : Value) : Prop :=
  v ≠ .null ∧ (if v = .dec .nan then nanBin = .value u ∧ u ≠ .null
    else ∃ i, Between right both edges i v ∧ names[i]? = some u)

/-- The finite floats of a list differ when they are rounded to `p` decimals. -/
def RoundedApart (p : Nat) (edges : List Obj) : Prop :=
  ∀ (i j : Nat) (q q' : ℚ), i ≠ j → edges[i]? = some (.value (.dec (.fin q))) → edges[j]? = some (.value (.dec (.fin q'))) →
    fmt p q ≠ fmt p q'

/-- The arguments that a binning specification can be made from. -/
structure Accepted (edges : List Obj) (given : Option (List Obj)) (nanBin : Obj) : Prop where
  two : 2 ≤ edges.length
  typed : ∃ t, ∀ o ∈ edges, o.type = some t
  sorted : ∀ (i : Nat) (a b : Value), edges[i]? = some (.value a) → edges[i + 1]? = some (.value b) → Less a b
  names : ∀ ns, given = some ns → ns.length + 1 = edges.length ∧
    ∃ t, (∀ o ∈ ns, o.type = some t) ∧ (nanBin = .value .null ∨ nanBin.type = some t)
  default : given = none → (nanBin = .value .null ∨ nanBin.type = some .VARCHAR) ∧
    ((∃ f, .value (.dec f) ∈ edges) → ∃ p, 2 ≤ p ∧ p ≤ 16 ∧ RoundedApart p edges)

/-! ## Types -/

theorem elementType_iff {l : List Obj} {t : ColumnType} :
    elementType l = .ok t ↔ l ≠ [] ∧ ∀ o ∈ l, o.type = some t := by
  unfold elementType
  cases l with
  | nil => simp
  | cons o l =>
    rw [List.map_cons]
    cases ho : o.type with
    | none => simp [ho]
    | some t' =>
      dsimp only
      split
      · rename_i h
        rw [List.all_map, List.all_eq_true] at h
        constructor
        · intro e
          cases e
          refine ⟨by simp, fun o' ho' => ?_⟩
          rcases List.mem_cons.1 ho' with rfl | ho'
          · exact ho
          · simpa using h o' ho'
        · rintro ⟨_, h'⟩
          have := h' o List.mem_cons_self
          rw [ho] at this
          rw [Option.some.inj this]
      · rename_i h
        constructor
        · intro e; cases e
        · rintro ⟨_, h'⟩
          refine absurd ?_ h
          rw [List.all_map, List.all_eq_true]
          intro o' ho'
          have h1 := h' o List.mem_cons_self
          have h2 := h' o' (List.mem_cons_of_mem _ ho')
          rw [ho] at h1
          simp [h2, Option.some.inj h1]

theorem elementType_error {l : List Obj} {x : Err} (h : elementType l = .error x) : x = .valueError := by
  unfold elementType at h
  split at h
  · split at h <;> cases h
    rfl
  · cases h
    rfl

theorem values_map {l : List Obj} {t : ColumnType} (h : ∀ o ∈ l, o.type = some t) : (values l).map Obj.value = l := by
  induction l with
  | nil => rfl
  | cons o l ih =>
    have := ih (fun o ho => h o (List.mem_cons_of_mem _ ho))
    cases o with
    | value v =>
      show Obj.value v :: (values l).map Obj.value = _
      rw [this]
    | other => exact absurd (h _ List.mem_cons_self) (by simp [Obj.type])

theorem values_length {l : List Obj} {t : ColumnType} (h : ∀ o ∈ l, o.type = some t) : (values l).length = l.length := by
  conv_rhs => rw [← values_map h]
  simp

theorem values_get {l : List Obj} {t : ColumnType} (h : ∀ o ∈ l, o.type = some t) {i : Nat} {v : Value} :
    (values l)[i]? = some v ↔ l[i]? = some (.value v) := by
  conv_rhs => rw [← values_map h]
  rw [List.getElem?_map]
  simp

theorem values_type {l : List Obj} {t : ColumnType} (h : ∀ o ∈ l, o.type = some t) : ∀ v ∈ values l, vtype v = some t := by
  intro v hv
  refine h (.value v) ?_
  rw [← values_map h]
  exact List.mem_map_of_mem hv

theorem values_values (l : List Value) : values (l.map Obj.value) = l := by
  induction l with
  | nil => rfl
  | cons v l ih =>
    show v :: values (l.map Obj.value) = _
    rw [ih]

/-! ## Order -/

/-- Numbers, strings, dates and timestamps. -/
def cls : Value → Nat
  | .str _ => 1
  | .date _ => 2
  | .ts _ => 3
  | _ => 0

theorem cls_mono {a b : Value} {x y : Key} (ha : key a = some x) (hb : key b = some y) (h : x ≤ y) : cls a ≤ cls b := by
  rcases a with _ | z | (q | _ | _ | _) | s | d | t <;> rcases b with _ | z' | (q' | _ | _ | _) | s' | d' | t' <;>
    simp only [key, Option.some.injEq, reduceCtorEq] at ha hb <;> subst ha <;> subst hb <;>
    simp [-Sum.Lex.inl_bot, -Sum.Lex.inr_top, cls, Sum.Lex.toLex_le_toLex] at h ⊢

theorem less_iff {a b : Value} {x y : Key} (ha : key a = some x) (hb : key b = some y) :
    Less a b ↔ x < y ∧ cls a = cls b := by
  rcases a with _ | z | (q | _ | _ | _) | s | d | t <;> rcases b with _ | z' | (q' | _ | _ | _) | s' | d' | t' <;>
    simp only [key, Option.some.injEq, reduceCtorEq] at ha hb <;> subst ha <;> subst hb <;>
    simp [-Sum.Lex.inl_bot, -Sum.Lex.inr_top, cls, Less, number, Sum.Lex.toLex_lt_toLex, WithBot.bot_lt_coe] <;>
    exact WithBot.coe_lt_coe.2 (WithTop.coe_lt_top _)

theorem same_iff {a b : Value} {x y : Key} (ha : key a = some x) (hb : key b = some y) : Same a b ↔ x = y := by
  rcases a with _ | z | (q | _ | _ | _) | s | d | t <;> rcases b with _ | z' | (q' | _ | _ | _) | s' | d' | t' <;>
    simp only [key, Option.some.injEq, reduceCtorEq] at ha hb <;> subst ha <;> subst hb <;>
    simp [-Sum.Lex.inl_bot, -Sum.Lex.inr_top, Same, number] <;> first | exact fun h => h.symm | exact ⟨fun h => h.symm, fun h => h.symm⟩

theorem less_keys {a b : Value} (h : Less a b) : ∃ x y, key a = some x ∧ key b = some y := by
  rcases a with _ | z | (q | _ | _ | _) | s | d | t <;> rcases b with _ | z' | (q' | _ | _ | _) | s' | d' | t' <;>
    simp [Less, number, key] at h ⊢

theorem pyLt_iff {a b : Value} {t : ColumnType} (ha : vtype a = some t) (hb : vtype b = some t) : pyLt a b = true ↔ Less a b := by
  rcases a with _ | z | (q | _ | _ | _) | s | d | t <;> rcases b with _ | z' | (q' | _ | _ | _) | s' | d' | t' <;>
    simp only [vtype, Option.some.injEq, reduceCtorEq] at ha hb <;> subst ha <;> simp only [reduceCtorEq] at hb <;>
    simp [pyLt, fltLt, Less, number]

theorem cls_type {a b : Value} {t : ColumnType} (ha : vtype a = some t) (hb : vtype b = some t) : cls a = cls b := by
  cases a <;> cases b <;> simp only [vtype, Option.some.injEq, reduceCtorEq] at ha hb <;> subst ha <;>
    simp only [reduceCtorEq] at hb <;> rfl

theorem increasing_iff {l : List Value} {t : ColumnType} (h : ∀ v ∈ l, vtype v = some t) :
    increasing l = true ↔ ∀ (i : Nat) (a b : Value), l[i]? = some a → l[i + 1]? = some b → Less a b := by
  induction l with
  | nil => simp [increasing]
  | cons v l ih =>
    cases l with
    | nil => simp [increasing]
    | cons w l =>
      have ih := ih (fun u hu => h u (List.mem_cons_of_mem _ hu))
      rw [increasing, Bool.and_eq_true, pyLt_iff (h v (by simp)) (h w (by simp)), ih]
      constructor
      · rintro ⟨h1, h2⟩ i a b ha hb
        cases i with
        | zero =>
          cases ha
          cases hb
          exact h1
        | succ i => exact h2 i a b ha hb
      · intro h'
        exact ⟨h' 0 v w rfl rfl, fun i a b ha hb => h' (i + 1) a b ha hb⟩

/-! ## Edges -/

/-- What the checks on edges say. -/
structure Edges (t : ColumnType) (l : List Value) : Prop where
  two : 2 ≤ l.length
  typed : ∀ v ∈ l, vtype v = some t
  sorted : ∀ (i : Nat) (a b : Value), l[i]? = some a → l[i + 1]? = some b → Less a b

variable {t : ColumnType} {l : List Value}

theorem Edges.hasKey (e : Edges t l) {i : Nat} {v : Value} (h : l[i]? = some v) : ∃ x, key v = some x := by
  have hi := (List.getElem?_eq_some_iff.1 h).1
  have two := e.two
  by_cases h1 : i + 1 < l.length
  · obtain ⟨x, _, hx, _⟩ := less_keys (e.sorted i v _ h (List.getElem?_eq_getElem h1))
    exact ⟨x, hx⟩
  · obtain ⟨k, rfl⟩ : ∃ k, i = k + 1 := ⟨i - 1, by omega⟩
    obtain ⟨_, x, _, hx⟩ := less_keys (e.sorted k _ v (List.getElem?_eq_getElem (by omega)) h)
    exact ⟨x, hx⟩

theorem keys_get {l : List Value} (h : ∀ v ∈ l, ∃ x, key v = some x) (i : Nat) :
    (l.filterMap key)[i]? = l[i]?.bind key := by
  induction l generalizing i with
  | nil => rfl
  | cons v l ih =>
    obtain ⟨x, hx⟩ := h v List.mem_cons_self
    rw [List.filterMap_cons_some hx]
    cases i with
    | zero => simp [hx]
    | succ i =>
      rw [List.getElem?_cons_succ, List.getElem?_cons_succ]
      exact ih (fun v hv => h v (List.mem_cons_of_mem _ hv)) i

theorem Edges.key_mem (e : Edges t l) : ∀ v ∈ l, ∃ x, key v = some x := by
  intro v hv
  obtain ⟨i, hi⟩ := List.mem_iff_getElem?.1 hv
  exact e.hasKey hi

theorem Edges.keys_length (e : Edges t l) : (l.filterMap key).length = l.length := by
  have h := e.key_mem
  clear e
  induction l with
  | nil => rfl
  | cons v l ih =>
    obtain ⟨x, hx⟩ := h v List.mem_cons_self
    rw [List.filterMap_cons_some hx, List.length_cons, List.length_cons, ih (fun v hv => h v (List.mem_cons_of_mem _ hv))]

theorem Edges.keys_iff (e : Edges t l) {i : Nat} {x : Key} :
    (l.filterMap key)[i]? = some x ↔ ∃ v, l[i]? = some v ∧ key v = some x := by
  rw [keys_get e.key_mem, Option.bind_eq_some_iff]

theorem Edges.mono (e : Edges t l) (i j : Nat) (x y : Key) (hij : i < j) (hx : (l.filterMap key)[i]? = some x)
    (hy : (l.filterMap key)[j]? = some y) : x < y := by
  refine Binning.mono_of_sorted ?_ i j x y hij hx hy
  unfold Binning.sorted
  rw [List.all_eq_true]
  intro k hk
  have hk : k < (l.filterMap key).length - 1 := List.mem_range.1 hk
  rw [List.getElem?_eq_getElem (by omega), List.getElem?_eq_getElem (by omega)]
  dsimp only
  rw [decide_eq_true_eq]
  obtain ⟨a, ha, ka⟩ := e.keys_iff.1 (List.getElem?_eq_getElem (show k < (l.filterMap key).length by omega))
  obtain ⟨b, hb, kb⟩ := e.keys_iff.1 (List.getElem?_eq_getElem (show k + 1 < (l.filterMap key).length by omega))
  exact ((less_iff ka kb).1 (e.sorted k a b ha hb)).1

theorem Edges.valid (e : Edges t l) {names : List Name} (hn : names.length + 1 = l.length) (right both : Bool) (nan : Option Name) :
    Valid (⟨l.filterMap key, names, right, both, nan⟩ : Spec Key Name) :=
  ⟨by rw [e.keys_length]; exact e.two, by rw [e.keys_length]; exact hn, e.mono⟩

theorem Edges.between (e : Edges t l) {names : List Name} {right both : Bool} {nan : Option Name} {v : Value} {x : Key}
    (hx : key v = some x) (i : Nat) :
    InBin (⟨l.filterMap key, names, right, both, nan⟩ : Spec Key Name) i x ↔ Between right both l i v := by
  unfold InBin Between
  dsimp only
  rw [e.keys_length]
  have one : ∀ a b ka kb, l[i]? = some a → l[i + 1]? = some b → key a = some ka → key b = some kb →
      ((if right = true then (ka < x ∧ x ≤ kb) ∨ (both = true ∧ i = 0 ∧ x = ka)
          else (ka ≤ x ∧ x < kb) ∨ (both = true ∧ i + 2 = l.length ∧ x = kb)) ↔
        if right = true then (Less a v ∧ (Less v b ∨ Same v b)) ∨ (both = true ∧ i = 0 ∧ Same v a)
          else ((Less a v ∨ Same a v) ∧ Less v b) ∨ (both = true ∧ i + 2 = l.length ∧ Same v b)) := by
    intro a b ka kb ha hb hka hkb
    have hab : cls a = cls b := cls_type (e.typed a (List.mem_of_getElem? ha)) (e.typed b (List.mem_of_getElem? hb))
    rw [less_iff hka hx, less_iff hx hkb, same_iff hx hkb, same_iff hka hx, same_iff hx hka]
    have c1 : ka ≤ x → x ≤ kb → cls a = cls v ∧ cls v = cls b := by
      intro h1 h2
      have := cls_mono hka hx h1
      have := cls_mono hx hkb h2
      omega
    have eqcls : ∀ {u w : Value} {y : Key}, key u = some y → key w = some y → cls u = cls w := by
      intro u w y hu hw
      exact Nat.le_antisymm (cls_mono hu hw (le_refl _)) (cls_mono hw hu (le_refl _))
    split
    · refine or_congr ⟨?_, ?_⟩ Iff.rfl
      · rintro ⟨h1, h2⟩
        obtain ⟨d1, d2⟩ := c1 h1.le h2
        refine ⟨⟨h1, d1⟩, ?_⟩
        rcases h2.lt_or_eq with h2 | h2
        · exact .inl ⟨h2, d2⟩
        · exact .inr h2
      · rintro ⟨⟨h1, _⟩, ⟨h2, _⟩ | h2⟩
        · exact ⟨h1, h2.le⟩
        · exact ⟨h1, h2.le⟩
    · refine or_congr ⟨?_, ?_⟩ Iff.rfl
      · rintro ⟨h1, h2⟩
        obtain ⟨d1, d2⟩ := c1 h1 h2.le
        refine ⟨?_, h2, d2⟩
        rcases h1.lt_or_eq with h1 | h1
        · exact .inl ⟨h1, d1⟩
        · exact .inr h1
      · rintro ⟨⟨h1, _⟩ | h1, h2, _⟩
        · exact ⟨h1.le, h2⟩
        · exact ⟨h1.le, h2⟩
  constructor
  · rintro ⟨ka, kb, ha, hb, h⟩
    obtain ⟨a, ha, hka⟩ := e.keys_iff.1 ha
    obtain ⟨b, hb, hkb⟩ := e.keys_iff.1 hb
    exact ⟨a, b, ha, hb, (one a b ka kb ha hb hka hkb).1 h⟩
  · rintro ⟨a, b, ha, hb, h⟩
    obtain ⟨ka, hka⟩ := e.hasKey ha
    obtain ⟨kb, hkb⟩ := e.hasKey hb
    exact ⟨ka, kb, e.keys_iff.2 ⟨a, ha, hka⟩, e.keys_iff.2 ⟨b, hb, hkb⟩, (one a b ka kb ha hb hka hkb).2 h⟩

theorem less_irrefl {v : Value} : ¬ Less v v := by
  intro h
  obtain ⟨x, _, hx, _⟩ := less_keys h
  exact lt_irrefl _ ((less_iff hx hx).1 h).1

theorem Edges.nodup (e : Edges t l) : l.Nodup := by
  rw [List.nodup_iff_getElem?_ne_getElem?]
  intro i j hij hj h
  obtain ⟨x, hx⟩ := e.hasKey (List.getElem?_eq_getElem hj)
  rw [List.getElem?_eq_getElem hj] at h
  exact lt_irrefl _ (e.mono i j x x hij (e.keys_iff.2 ⟨_, h, hx⟩) (e.keys_iff.2 ⟨_, List.getElem?_eq_getElem hj, hx⟩))

/-! ## Default names -/

theorem floats_eq (h : ∀ v ∈ l, vtype v = some .DECIMAL) : (floats l).map Value.dec = l := by
  induction l with
  | nil => rfl
  | cons v l ih =>
    have ih := ih (fun u hu => h u (List.mem_cons_of_mem _ hu))
    have := h v List.mem_cons_self
    cases v <;> simp only [vtype, Option.some.injEq, reduceCtorEq] at this
    show _ :: (floats l).map Value.dec = _
    rw [ih]

theorem times_eq (h : ∀ v ∈ l, vtype v = some .TIMESTAMP) : (times l).map Value.ts = l := by
  induction l with
  | nil => rfl
  | cons v l ih =>
    have ih := ih (fun u hu => h u (List.mem_cons_of_mem _ hu))
    have := h v List.mem_cons_self
    cases v <;> simp only [vtype, Option.some.injEq, reduceCtorEq] at this
    show _ :: (times l).map Value.ts = _
    rw [ih]

theorem strings_eq (h : ∀ v ∈ l, vtype v = some .VARCHAR) : (strings l).map Value.str = l := by
  induction l with
  | nil => rfl
  | cons v l ih =>
    have ih := ih (fun u hu => h u (List.mem_cons_of_mem _ hu))
    have := h v List.mem_cons_self
    cases v <;> simp only [vtype, Option.some.injEq, reduceCtorEq] at this
    show _ :: (strings l).map Value.str = _
    rw [ih]

theorem nodup_of_map {α β : Type} {f : α → β} {l : List α} (h : (l.map f).Nodup) : l.Nodup := List.Nodup.of_map f h

/-- The strings for the edges can be told apart, also when more text follows. -/
theorem edgesAsStr_ok {fm : Format} (e : Edges t l) {strs : List String} (h : edgesAsStr fm l = .ok strs) :
    strs.length = l.length ∧ Delim strs := by
  have hn := e.nodup
  have ht := e.typed
  unfold edgesAsStr at h
  split at h
  · rename_i f l' 
    have ht' : t = .DECIMAL := by
      have := ht _ List.mem_cons_self
      simpa [vtype] using this.symm
    subst ht'
    split at h
    · cases h
    · rename_i p hp
      cases h
      have hnd := List.find?_some hp
      rw [decide_eq_true_eq] at hnd
      refine ⟨?_, delim_of_nodup hnd (fun s hs => ?_)⟩
      · rw [List.length_map]
        have := congrArg List.length (floats_eq ht)
        rwa [List.length_map] at this
      · obtain ⟨f, _, rfl⟩ := List.mem_map.1 hs
        exact fltStr_comma p f
  · rename_i f l' 
    have ht' : t = .TIMESTAMP := by
      have := ht _ List.mem_cons_self
      simpa [vtype] using this.symm
    subst ht'
    cases h
    have heq := times_eq ht
    refine ⟨?_, delim_of_nodup ?_ (fun s hs => ?_)⟩
    · rw [List.length_map]
      have := congrArg List.length heq
      rwa [List.length_map] at this
    · rw [← heq] at hn
      refine List.Nodup.map_on ?_ (nodup_of_map hn)
      intro a ha b hb hab
      exact times_div ha hb (fm.iso_inj _ _ _ hab)
    · obtain ⟨f, _, rfl⟩ := List.mem_map.1 hs
      exact fm.iso_comma _ _
  · rename_i f l' 
    have ht' : t = .VARCHAR := by
      have := ht _ List.mem_cons_self
      simpa [vtype] using this.symm
    subst ht'
    cases h
    have heq := strings_eq ht
    refine ⟨?_, ?_⟩
    · rw [List.length_map]
      have := congrArg List.length heq
      rwa [List.length_map] at this
    · rw [← heq] at hn
      unfold Delim
      rw [List.pairwise_map]
      refine List.Pairwise.imp ?_ (nodup_of_map hn)
      intro a b hab x y hxy
      exact hab (fm.repr_delim a b _ _ hxy)
  · rename_i h1 h2 h3
    cases h
    refine ⟨by simp, ?_⟩
    cases l with
    | nil => exact List.Pairwise.nil
    | cons v l =>
      have hv := ht v List.mem_cons_self
      refine delim_of_nodup ?_ (fun s hs => ?_)
      · refine List.Nodup.map_on ?_ hn
        intro a ha b hb hab
        have ta := ht a ha
        have tb := ht b hb
        cases v with
        | null => cases hv
        | dec f => exact absurd rfl (h1 f l)
        | str f => exact absurd rfl (h3 f l)
        | ts f => exact absurd rfl (h2 f l)
        | int z =>
          cases hv
          cases a <;> simp only [vtype, Option.some.injEq, reduceCtorEq] at ta
          cases b <;> simp only [vtype, Option.some.injEq, reduceCtorEq] at tb
          rw [intStr_inj hab]
        | date z =>
          cases hv
          cases a <;> simp only [vtype, Option.some.injEq, reduceCtorEq] at ta
          cases b <;> simp only [vtype, Option.some.injEq, reduceCtorEq] at tb
          rw [fm.date_inj _ _ hab]
      · obtain ⟨a, _, rfl⟩ := List.mem_map.1 hs
        have hempty : ',' ∉ "".toList := by decide
        cases a with
        | int z => exact intStr_comma z
        | date d => exact fm.date_comma d
        | null => exact hempty
        | dec _ => exact hempty
        | str _ => exact hempty
        | ts _ => exact hempty

/-- Edges have strings, unless they are floats that are too close. -/
theorem edgesAsStr_exists {fm : Format} (e : Edges t l) :
    (∃ strs, edgesAsStr fm l = .ok strs) ↔ (t = .DECIMAL → ∃ p, 2 ≤ p ∧ p ≤ 16 ∧ ((floats l).map (fltStr p)).Nodup) := by
  have ht := e.typed
  unfold edgesAsStr
  split
  · rename_i f l'
    have ht' : t = .DECIMAL := by
      have := ht _ List.mem_cons_self
      simpa [vtype] using this.symm
    have hr : ∀ p, p ∈ (List.range 15).map (· + 2) ↔ 2 ≤ p ∧ p ≤ 16 := by
      intro p
      simp only [List.mem_map, List.mem_range]
      constructor
      · rintro ⟨a, ha, rfl⟩
        omega
      · rintro ⟨h1, h2⟩
        exact ⟨p - 2, by omega, by omega⟩
    split
    · rename_i hp
      constructor
      · rintro ⟨_, h⟩
        cases h
      · intro h
        obtain ⟨p, h1, h2, h3⟩ := h ht'
        have := List.find?_eq_none.1 hp p ((hr p).2 ⟨h1, h2⟩)
        exact absurd (decide_eq_true h3) this
    · rename_i p hp
      refine ⟨fun _ _ => ?_, fun _ => ⟨_, rfl⟩⟩
      have h1 := List.find?_some hp
      have h2 := (hr p).1 (List.mem_of_find?_eq_some hp)
      rw [decide_eq_true_eq] at h1
      exact ⟨p, h2.1, h2.2, h1⟩
  · refine ⟨fun _ h => ?_, fun _ => ⟨_, rfl⟩⟩
    have := ht _ List.mem_cons_self
    rw [h] at this
    simp [vtype] at this
  · refine ⟨fun _ h => ?_, fun _ => ⟨_, rfl⟩⟩
    have := ht _ List.mem_cons_self
    rw [h] at this
    simp [vtype] at this
  · rename_i h1 h2 h3
    refine ⟨fun _ h => ?_, fun _ => ⟨_, rfl⟩⟩
    have two := e.two
    cases l with
    | nil => simp at two
    | cons v l =>
      have := ht v List.mem_cons_self
      rw [h] at this
      cases v with
      | dec f => exact absurd rfl (h1 f l)
      | null => simp [vtype] at this
      | int _ => simp [vtype] at this
      | str _ => simp [vtype] at this
      | date _ => simp [vtype] at this
      | ts _ => simp [vtype] at this

theorem edgesAsStr_error {fm : Format} {x : Err} (h : edgesAsStr fm l = .error x) : x = .runtimeError := by
  unfold edgesAsStr at h
  split at h
  · split at h <;> cases h
    rfl
  all_goals cases h

theorem fltStr_inj {p : Nat} {a b : Flt} (ha : a ≠ .nan) (hb : b ≠ .nan) (h : fltStr p a = fltStr p b) :
    a = b ∨ ∃ q q', a = .fin q ∧ b = .fin q' ∧ fmt p q = fmt p q' := by
  have i1 : '.' ∉ "inf".toList := by decide
  have i2 : '.' ∉ "-inf".toList := by decide
  have i3 : "inf" ≠ "-inf" := by decide
  cases a with
  | nan => exact absurd rfl ha
  | fin q =>
    have hd := fltStr_dot p q
    rw [h] at hd
    cases b with
    | nan => exact absurd rfl hb
    | fin q' => exact .inr ⟨q, q', rfl, rfl, fltStr_fin.1 h⟩
    | pinf => exact absurd hd i1
    | ninf => exact absurd hd i2
  | pinf =>
    cases b with
    | nan => exact absurd rfl hb
    | fin q' =>
      have hd := fltStr_dot p q'
      rw [← h] at hd
      exact absurd hd i1
    | pinf => exact .inl rfl
    | ninf => exact absurd h i3
  | ninf =>
    cases b with
    | nan => exact absurd rfl hb
    | fin q' =>
      have hd := fltStr_dot p q'
      rw [← h] at hd
      exact absurd hd i2
    | pinf => exact absurd h.symm i3
    | ninf => exact .inl rfl

/-- Strings of floats differ when the floats differ after rounding. -/
theorem floats_apart {edges : List Obj} (h : ∀ o ∈ edges, o.type = some .DECIMAL) (e : Edges .DECIMAL (values edges)) (p : Nat) :
    ((floats (values edges)).map (fltStr p)).Nodup ↔ RoundedApart p edges := by
  have hf := floats_eq e.typed
  have hget : ∀ (i : Nat) (f : Flt), (floats (values edges))[i]? = some f ↔ edges[i]? = some (.value (.dec f)) := by
    intro i f
    rw [← values_get h]
    conv_rhs => rw [← hf]
    rw [List.getElem?_map]
    simp
  constructor
  · intro hn i j q q' hij hi hj hfmt
    have hi := (hget i _).2 hi
    have hj := (hget j _).2 hj
    have hs : fltStr p (.fin q) = fltStr p (.fin q') := fltStr_fin.2 hfmt
    have h1 : ((floats (values edges)).map (fltStr p))[i]? = some (fltStr p (.fin q)) := by rw [List.getElem?_map, hi]; rfl
    have h2 : ((floats (values edges)).map (fltStr p))[j]? = some (fltStr p (.fin q)) := by rw [List.getElem?_map, hj, hs]; rfl
    obtain ⟨li, e1⟩ := List.getElem?_eq_some_iff.1 h1
    obtain ⟨lj, e2⟩ := List.getElem?_eq_some_iff.1 h2
    exact hij ((List.Nodup.getElem_inj_iff hn).1 (e1.trans e2.symm))
  · intro hr
    rw [List.nodup_iff_getElem?_ne_getElem?]
    intro i j hij hj hEq
    rw [List.length_map] at hj
    have li : i < (floats (values edges)).length := by omega
    rw [List.getElem?_map, List.getElem?_map, List.getElem?_eq_getElem li, List.getElem?_eq_getElem hj] at hEq
    have hEq := Option.some.inj hEq
    have gi := List.getElem?_eq_getElem li
    have gj := List.getElem?_eq_getElem hj
    have notnan : ∀ (k : Nat) (f : Flt), (floats (values edges))[k]? = some f → f ≠ .nan := by
      rintro k f hk rfl
      obtain ⟨x, hx⟩ := e.hasKey ((values_get h).2 ((hget k _).1 hk))
      cases hx
    rcases fltStr_inj (notnan _ _ gi) (notnan _ _ gj) hEq with hab | ⟨q, q', ha, hb, hfmt⟩
    · have hn := e.nodup
      rw [← hf] at hn
      have hn := nodup_of_map hn
      exact absurd ((hn.getElem_inj_iff).1 hab) (by omega)
    · rw [ha] at gi
      rw [hb] at gj
      exact hr i j q q' (by omega) ((hget i _).1 gi) ((hget j _).1 gj) hfmt

end Verif.Bins
