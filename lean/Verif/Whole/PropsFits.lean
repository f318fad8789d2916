import Verif.Whole.FitsChain

/-!
# C76: a chain of calls has a schema exactly if it fits the tables
-/

namespace Verif.Whole

open Verif Verif.Schema Verif.Constraint Verif.Expr Verif.Query Verif.Stability
open Verif.Meaning

/-! ## Checks that raise `ValueError` or `KeyError` -/

/-- A result that is a schema exactly if `P`, and a `ValueError` or `KeyError` otherwise. -/
def Needs (P : Prop) (r : Except PyErr Schema) : Prop :=
  ((∃ s, r = .ok s) ∧ P) ∨ ((∃ x, r = .error x ∧ (x = .value ∨ x = .key)) ∧ ¬ P)

theorem Needs.congr {P Q : Prop} {r : Except PyErr Schema} (h : Needs P r) (hpq : P ↔ Q) : Needs Q r := by
  rw [← hpq]; exact h

theorem Needs.unless {P : Prop} {r : Except PyErr Schema} (b : Prop) [Decidable b] (h : ¬ b → Needs P r) :
    Needs (¬ b ∧ P) (if b then .error .value else r) := by
  by_cases hb : b
  · rw [if_pos hb]; exact .inr ⟨⟨_, rfl, .inl rfl⟩, fun h => h.1 hb⟩
  · rw [if_neg hb]
    rcases h hb with ⟨h1, h2⟩ | ⟨h1, h2⟩
    · exact .inl ⟨h1, hb, h2⟩
    · exact .inr ⟨h1, fun h => h2 h.2⟩

theorem Needs.bind {P Q : Prop} {x : Except PyErr Schema} {f : Schema → Except PyErr Schema} (h : Needs P x)
    (hf : ∀ s, x = .ok s → Needs Q (f s)) : Needs (P ∧ Q) (x.bind f) := by
  rcases h with ⟨⟨s, rfl⟩, hp⟩ | ⟨⟨x, rfl, hx⟩, hp⟩
  · rcases hf s rfl with ⟨h1, h2⟩ | ⟨h1, h2⟩
    · exact .inl ⟨h1, hp, h2⟩
    · exact .inr ⟨h1, fun h => h2 h.2⟩
  · exact .inr ⟨⟨x, rfl, hx⟩, fun h => hp h.1⟩

theorem needs_mk {l : Dict String Desc} {g i sp : Option String} (ne : "" ∉ Dict.keys l) :
    Needs ((∀ c, g = some c → c ∈ Dict.keys l) ∧ ∀ c, i = some c → c ∈ Dict.keys l) (Expr.mk l g i sp) := by
  by_cases h : (∀ c, g = some c → c ∈ Dict.keys l) ∧ ∀ c, i = some c → c ∈ Dict.keys l
  · exact .inl ⟨mk_exists ne h.1 h.2, h⟩
  · refine .inr ⟨⟨.key, ?_, .inr rfl⟩, h⟩
    have hk : Dict.keys (l.map (fun p => (p.1, ColSpec.desc p.2))) = Dict.keys l := by
      simp [Dict.keys, Function.comp_def]
    unfold Expr.mk Schema.init
    rw [hk, if_neg ne]
    split
    · rfl
    next h1 =>
    split
    · rfl
    next h2 =>
    refine absurd ⟨?_, ?_⟩ h
    · rintro c rfl
      simpa using h1
    · rintro c rfl
      simpa using h2

theorem needs_mk_ok {l : Dict String Desc} {g i sp : Option String} (ne : "" ∉ Dict.keys l)
    (hg : ∀ c, g = some c → c ∈ Dict.keys l) (hi : ∀ c, i = some c → c ∈ Dict.keys l) : Needs True (Expr.mk l g i sp) :=
  .inl ⟨mk_exists ne hg hi, trivial⟩

theorem not_any {α : Type} {l : List α} {p : α → Bool} : ¬ l.any p = true ↔ ∀ a ∈ l, p a = false := by
  rw [Bool.not_eq_true, List.any_eq_false]
  simp

theorem not_opt_any {o : Option String} {p : String → Bool} : ¬ o.any p = true ↔ ∀ c, o = some c → p c = false := by
  cases o <;> simp

theorem mem_keys_union {V : Type} (a b : Dict String V) (k : String) :
    k ∈ Dict.keys (Dict.union a b) ↔ k ∈ Dict.keys a ∨ k ∈ Dict.keys b := by
  unfold Dict.union
  induction b generalizing a with
  | nil => simp [Dict.keys]
  | cons p b ih =>
    rw [List.foldl_cons, ih, Dict.keys_set]
    have hb : k ∈ Dict.keys (p :: b) ↔ k = p.1 ∨ k ∈ Dict.keys b := by simp [Dict.keys]
    rw [hb]
    split
    · next h =>
      constructor
      · rintro (h' | h')
        · exact .inl h'
        · exact .inr (.inr h')
      · rintro (h' | rfl | h')
        · exact .inl h'
        · exact .inl h
        · exact .inr h'
    · rw [List.mem_append, List.mem_singleton, or_assoc]

theorem mem_keys_ofPairs {V : Type} (l : Dict String V) (k : String) : k ∈ Dict.keys (Dict.ofPairs l) ↔ k ∈ Dict.keys l := by
  unfold Dict.ofPairs
  rw [mem_keys_union]
  simp [Dict.keys]

theorem keys_descs {s : Schema} : Dict.keys s.descs = Schema.keys s := rfl

theorem no_empty {s : Schema} (w : s.WF) : "" ∉ Schema.keys s := by rw [keys_eq w]; exact w.nonempty

theorem group_mem {s : Schema} (w : s.WF) : ∀ c, s.grouping = some c → c ∈ Schema.keys s := by rw [keys_eq w]; exact w.grouping

theorem id_mem {s : Schema} (w : s.WF) : ∀ c, s.idColumn = some c → c ∈ Schema.keys s := by rw [keys_eq w]; exact w.idColumn

/-! ## The checks of every method -/

theorem needs_source (cat : Cat) (id : String) : Needs (IsPrivate cat id) (schSource cat id) := by
  unfold schSource IsPrivate
  by_cases h : id ∈ Dict.keys cat.pub
  · rw [if_pos h]
    obtain ⟨p, hp⟩ := Option.isSome_iff_exists.1 (Dict.get_isSome.2 h)
    exact .inr ⟨⟨_, rfl, .inl rfl⟩, fun hn => hn.2 p hp⟩
  · rw [if_neg h]
    cases hg : Dict.get cat.priv id with
    | none => exact .inr ⟨⟨_, rfl, .inl rfl⟩, fun hn => by obtain ⟨p, hp⟩ := hn.1; cases hp⟩
    | some p =>
      refine .inl ⟨⟨p.1, rfl⟩, ⟨p, rfl⟩, fun q hq => h (Dict.get_isSome.1 (by rw [hq]; rfl))⟩

theorem needs_rename {m : Dict String String} {s : Schema} (w : s.WF) (hm : ∀ p ∈ m, p.2 ≠ "") :
    Needs (∀ p ∈ m, p.1 ∈ Schema.keys s ∧ (p.2 ∈ Schema.keys s → p.2 = p.1)) (schRename m s) := by
  have key : ∀ c, c ∈ Dict.keys (Dict.ofPairs (s.descs.map (fun p => (renamed m p.1, p.2)))) ↔
      ∃ n ∈ Schema.keys s, renamed m n = c := by
    intro c
    rw [mem_keys_ofPairs]
    simp only [Schema.keys, Dict.keys, List.mem_map]
    constructor
    · rintro ⟨_, ⟨q, hq, rfl⟩, rfl⟩
      exact ⟨q.1, ⟨q, hq, rfl⟩, rfl⟩
    · rintro ⟨_, ⟨q, hq, rfl⟩, rfl⟩
      exact ⟨_, ⟨q, hq, rfl⟩, rfl⟩
  unfold schRename
  refine Needs.congr (Needs.unless _ fun h1 => Needs.unless _ fun h2 => Needs.unless _ fun h3 => needs_mk_ok ?_ ?_ ?_) ?_
  · rw [key]
    rintro ⟨n, hn, he⟩
    unfold renamed at he
    cases hg : Dict.get m n with
    | none =>
      rw [hg] at he
      change n = "" at he
      exact no_empty w (he ▸ hn)
    | some v =>
      rw [hg] at he
      exact hm _ (Dict.mem_of_get hg) he
  · intro c hc
    obtain ⟨g, hg, rfl⟩ := Option.map_eq_some_iff.1 hc
    exact (key _).2 ⟨g, group_mem w g hg, rfl⟩
  · intro c hc
    obtain ⟨g, hg, rfl⟩ := Option.map_eq_some_iff.1 hc
    exact (key _).2 ⟨g, id_mem w g hg, rfl⟩
  · rw [not_any, not_any, not_any]
    constructor
    · rintro ⟨_, h2, h3, _⟩ p hp
      refine ⟨by simpa using h2 p.1 (List.mem_map.2 ⟨p, hp, rfl⟩), fun hk => ?_⟩
      simpa [hk] using h3 p hp
    · intro h
      refine ⟨fun p hp => by simpa using hm p hp, fun c hc => ?_, fun p hp => ?_, trivial⟩
      · obtain ⟨p, hp, rfl⟩ := List.mem_map.1 hc
        simpa using (h p hp).1
      · by_cases hk : p.2 ∈ Schema.keys s
        · simp [(h p hp).2 hk]
        · simp [hk]

theorem needs_filter (valid : Schema → Bool) (s : Schema) : Needs (valid s = true) (schFilter valid s) := by
  unfold schFilter
  split
  · next h => exact .inl ⟨⟨s, rfl⟩, h⟩
  · next h => exact .inr ⟨⟨_, rfl, .inl rfl⟩, h⟩

theorem needs_select {cols : List String} {s : Schema} (w : s.WF) (hd : cols.Nodup) :
    Needs ((∀ n ∈ cols, n ∈ Schema.keys s) ∧ ∀ n, s.idColumn = some n ∨ s.grouping = some n → n ∈ cols) (schSelect cols s) := by
  have sub : ¬ cols.any (fun c => decide (c ∉ Schema.keys s)) = true → ∀ c ∈ cols, c ∈ Dict.keys s.descs := fun h4 c hc => by
    have : c ∈ Schema.keys s := by simpa using any_false h4 c hc
    exact this
  unfold schSelect
  refine Needs.congr (Needs.unless _ fun h1 => Needs.unless _ fun h2 => Needs.unless _ fun h3 => Needs.unless _ fun h4 =>
    needs_mk_ok ?_ ?_ ?_) ?_
  · rw [pickD_keys (sub h4)]
    exact fun h => no_empty w (by simpa using any_false h4 _ h)
  · rw [pickD_keys (sub h4)]
    exact fun c hc => by simpa using not_opt_any.1 h2 c hc
  · rw [pickD_keys (sub h4)]
    exact fun c hc => by simpa using not_opt_any.1 h3 c hc
  · rw [not_opt_any, not_opt_any, not_any]
    constructor
    · rintro ⟨_, h2, h3, h4, _⟩
      refine ⟨fun n hn => by simpa using h4 n hn, ?_⟩
      rintro n (hn | hn)
      · simpa using h3 n hn
      · simpa using h2 n hn
    · rintro ⟨h1, h2⟩
      exact ⟨by simpa using hd, fun c hc => by simpa using h2 c (.inr hc), fun c hc => by simpa using h2 c (.inl hc),
        fun c hc => by simpa using h1 c hc, trivial⟩

theorem needs_new {new s : Schema} (w : s.WF) (wn : new.WF) (g : Option String)
    (hg : ∀ c, g = some c → c ∈ Schema.keys s ∨ c ∈ Schema.keys new) :
    Needs (∀ n ∈ Schema.keys new, n ∉ Schema.keys s)
      (if (Schema.keys new).any (fun c => decide (c ∈ Schema.keys s)) then .error .value
        else Expr.mk (Dict.union s.descs (nullable new)) g s.idColumn s.idSpace) := by
  refine Needs.congr (Needs.unless _ fun h1 => needs_mk_ok ?_ ?_ ?_) ?_
  · rw [mem_keys_union, keys_nullable]
    rintro (h | h)
    · exact no_empty w h
    · exact no_empty wn h
  · intro c hc
    rw [mem_keys_union, keys_nullable]
    exact hg c hc
  · intro c hc
    rw [mem_keys_union]
    exact .inl (id_mem w c hc)
  · rw [not_any]
    exact ⟨fun h n hn => by simpa using h.1 n hn, fun h => ⟨fun n hn => by simpa using h n hn, trivial⟩⟩

theorem needs_only {new s : Schema} (wn : new.WF) :
    Needs (s.idColumn = none ∧ s.grouping = none)
      (if s.grouping.isSome then .error .value else if s.idColumn.isSome then .error .value
        else Expr.mk (nullable new) none none none) := by
  refine Needs.congr (Needs.unless _ fun h1 => Needs.unless _ fun h2 => needs_mk_ok ?_ nofun nofun) ?_
  · rw [keys_nullable]; exact no_empty wn
  · simp [and_comm]

/-- `NewOK` for the columns of a schema. -/
def NewFor (s new : Schema) (augment : Bool) : Prop :=
  if augment then ∀ n ∈ Schema.keys new, n ∉ Schema.keys s else s.idColumn = none ∧ s.grouping = none

theorem needs_map {new s : Schema} {augment : Bool} (w : s.WF) (wn : new.WF) (hg : new.grouping = none) :
    Needs (NewFor s new augment) (schMap new augment s) := by
  unfold schMap
  rw [hg, if_neg (by simp)]
  cases augment with
  | true => exact needs_new w wn _ fun c hc => .inl (group_mem w c hc)
  | false => exact needs_only wn

theorem needs_flatMap {new s : Schema} {augment : Bool} (w : s.WF) (wn : new.WF)
    (hg : new.grouping.isSome → (Schema.keys new).length = 1) :
    Needs (NewFor s new augment ∧
      (new.grouping.isSome → s.idColumn = none ∧ s.grouping = none)) (schFlatMap new augment s) := by
  unfold schFlatMap
  rw [if_neg (fun h => h.2 (hg h.1))]
  refine Needs.congr (P := _ ∧ _ ∧ NewFor s new augment) (Needs.unless _ fun h1 => Needs.unless _ fun h2 => ?_) ?_
  · cases augment with
    | true =>
      refine needs_new w wn _ fun c hc => ?_
      split at hc
      · exact .inr (group_mem wn c hc)
      · exact .inl (group_mem w c hc)
    | false => exact needs_only wn
  · constructor
    · rintro ⟨h1, h2, h3⟩
      refine ⟨h3, fun h => ⟨?_, ?_⟩⟩
      · by_contra hn
        exact h2 ⟨h, Option.isSome_iff_ne_none.2 hn⟩
      · by_contra hn
        exact h1 ⟨h, Option.isSome_iff_ne_none.2 hn⟩
    · rintro ⟨h3, h⟩
      exact ⟨fun h1 => by simp [(h h1.1).2] at h1, fun h1 => by simp [(h h1.1).1] at h1, h3⟩

theorem needs_flatMapByID {new s : Schema} (w : s.WF) (wn : new.WF) (hg : new.grouping = none) (hi : new.idColumn = none)
    (hs : s.idColumn.isSome → s.grouping = none) :
    Needs (∃ i, s.idColumn = some i ∧ i ∉ Schema.keys new) (schFlatMapByID new s) := by
  unfold schFlatMapByID
  rw [hg, hi, if_neg (by simp)]
  cases hid : s.idColumn with
  | none => exact .inr ⟨⟨_, rfl, .inl rfl⟩, by simp⟩
  | some i =>
    dsimp only
    rw [hs (by rw [hid]; rfl), if_neg (by simp)]
    refine Needs.congr (P := _ ∧ True) (Needs.unless _ fun h1 => ?_) (by simp)
    obtain ⟨d, hd⟩ := Option.isSome_iff_exists.1 (Dict.get_isSome.2 (id_mem w i hid))
    rw [hd]
    dsimp only
    have hk : ∀ c, c ∈ Dict.keys (Dict.union [(i, d)] (nullable new)) ↔ c = i ∨ c ∈ Schema.keys new := by
      intro c
      rw [mem_keys_union, keys_nullable]
      simp [Dict.keys]
    refine needs_mk_ok ?_ nofun ?_
    · rw [hk]
      rintro (h | h)
      · exact no_empty w (h ▸ id_mem w i hid)
      · exact no_empty wn h
    · intro c hc
      cases hc
      exact (hk _).2 (.inl rfl)

theorem needs_enforce (k : Constraint) (s : Schema) :
    Needs (∃ i, s.idColumn = some i ∧ ∀ g, (∃ n, k = .maxGroupsPerID g n ∨ k = .maxRowsPerGroupPerID g n) →
      g ∈ Schema.keys s ∧ g ≠ i) (schEnforce k s) := by
  have hc : ∀ g, consCol k = some g ↔ ∃ n, k = .maxGroupsPerID g n ∨ k = .maxRowsPerGroupPerID g n := by
    intro g
    cases k <;> simp [consCol]
  unfold schEnforce
  cases s.idColumn with
  | none => exact .inr ⟨⟨_, rfl, .inl rfl⟩, by simp⟩
  | some i =>
    dsimp only
    refine Needs.congr (P := _ ∧ _ ∧ True) (Needs.unless _ fun h1 => Needs.unless _ fun h2 => .inl ⟨⟨_, rfl⟩, trivial⟩) ?_
    rw [not_opt_any]
    constructor
    · rintro ⟨h1, h2, _⟩
      refine ⟨i, rfl, fun g hg => ?_⟩
      rw [← hc] at hg
      exact ⟨by simpa using h1 g hg, fun he => h2 (he ▸ hg)⟩
    · rintro ⟨j, hj, h⟩
      cases hj
      refine ⟨fun g hg => by simpa using (h g ((hc g).1 hg)).1, fun he => (h i ((hc i).1 he)).2 rfl, trivial⟩

/-! ## Replacing and dropping -/

theorem mem_stys {s : Schema} (w : s.WF) {c : String} {t : ColumnType} :
    (c, t) ∈ stys s ↔ ∃ d, Dict.get s.descs c = some d ∧ d.ty = t := by
  rw [← Dict.get_eq_some (stys_wf w), get_stys w, Option.map_eq_some_iff]

theorem suits_iff {t : ColumnType} {v : Value} : typeOK t v = true ↔ Suits t v := by
  cases t <;> cases v <;> simp [typeOK, Suits]

theorem needs_keep {s : Schema} (w : s.WF) (g : String × Desc → Desc) :
    Needs True (Expr.mk (s.descs.map (fun p => (p.1, g p))) s.grouping s.idColumn s.idSpace) := by
  have hk : Dict.keys (s.descs.map (fun p => (p.1, g p))) = Schema.keys s := keys_mapVal' s.descs g
  refine needs_mk_ok ?_ ?_ ?_
  · rw [hk]; exact no_empty w
  · rw [hk]; exact group_mem w
  · rw [hk]; exact id_mem w

theorem needs_replaceNull {m : Dict String Value} {s : Schema} (w : s.WF) (hv : ∀ p ∈ m, validReplacement p.2 = true) :
    Needs (∀ p ∈ m, s.idColumn ≠ some p.1 ∧ s.grouping ≠ some p.1 ∧ ∃ t, (p.1, t) ∈ stys s ∧ Suits t p.2)
      (schReplaceNull m s) := by
  unfold schReplaceNull
  refine Needs.congr (Needs.unless _ fun h1 => Needs.unless _ fun h2 => Needs.unless _ fun h3 => Needs.unless _ fun h4 =>
    needs_keep w _) ?_
  rw [not_any, not_opt_any, not_opt_any, not_any]
  constructor
  · rintro ⟨_, h2, h3, h4, _⟩ p hp
    have hk : p.1 ∈ Dict.keys m := List.mem_map.2 ⟨p, hp, rfl⟩
    refine ⟨fun hi => ?_, fun hg => ?_, ?_⟩
    · have := h3 _ hi; simp [hk] at this
    · have := h2 _ hg; simp [hk] at this
    · have := h4 p hp
      split at this
      · cases this
      · next d hd => exact ⟨d.ty, (mem_stys w).2 ⟨d, hd, rfl⟩, suits_iff.1 (by simpa using this)⟩
  · intro h
    refine ⟨fun p hp => by simp [hv p hp], fun c hc => ?_, fun c hc => ?_, fun p hp => ?_, trivial⟩
    · rw [decide_eq_false_iff_not]
      intro hk
      obtain ⟨p, hp, rfl⟩ := List.mem_map.1 hk
      exact (h p hp).2.1 hc
    · rw [decide_eq_false_iff_not]
      intro hk
      obtain ⟨p, hp, rfl⟩ := List.mem_map.1 hk
      exact (h p hp).1 hc
    · obtain ⟨_, _, t, ht, hs⟩ := h p hp
      obtain ⟨d, hd, rfl⟩ := (mem_stys w).1 ht
      rw [hd]
      simp [suits_iff.2 hs]

theorem needs_replaceInf {m : Dict String (Value × Value)} {s : Schema} (w : s.WF)
    (hv : ∀ p ∈ m, (floatOrNone p.2.1 && floatOrNone p.2.2) = true ∧ (validReplacement p.2.1 && validReplacement p.2.2) = true) :
    Needs (∀ p ∈ m, s.idColumn ≠ some p.1 ∧ s.grouping ≠ some p.1 ∧ (p.1, .DECIMAL) ∈ stys s) (schReplaceInf m s) := by
  have hty : ∀ v, floatOrNone v = true → validReplacement v = true → typeOK .DECIMAL v = true := by
    intro v h1 h2
    unfold floatOrNone at h1
    rw [Bool.or_eq_true, decide_eq_true_eq] at h1
    rcases h1 with h1 | rfl
    · exact h1
    · cases h2
  unfold schReplaceInf
  refine Needs.congr (Needs.unless _ fun h1 => Needs.unless _ fun h2 => Needs.unless _ fun h3 => Needs.unless _ fun h4 =>
    needs_keep w _) ?_
  rw [not_any, not_opt_any, not_opt_any, not_any]
  constructor
  · rintro ⟨_, h2, h3, h4, _⟩ p hp
    have hk : p.1 ∈ Dict.keys m := List.mem_map.2 ⟨p, hp, rfl⟩
    refine ⟨fun hi => ?_, fun hg => ?_, ?_⟩
    · have := h3 _ hi; simp [hk] at this
    · have := h2 _ hg; simp [hk] at this
    · have := h4 p hp
      split at this
      · cases this
      · next d hd => exact (mem_stys w).2 ⟨d, hd, by simpa using this⟩
  · intro h
    refine ⟨fun p hp => ?_, fun c hc => ?_, fun c hc => ?_, fun p hp => ?_, trivial⟩
    · obtain ⟨h1, h2⟩ := hv p hp
      rw [Bool.and_eq_true] at h1 h2
      simp [h2.1, h2.2, hty _ h1.1 h2.1, hty _ h1.2 h2.2]
    · rw [decide_eq_false_iff_not]
      intro hk
      obtain ⟨p, hp, rfl⟩ := List.mem_map.1 hk
      exact (h p hp).2.1 hc
    · rw [decide_eq_false_iff_not]
      intro hk
      obtain ⟨p, hp, rfl⟩ := List.mem_map.1 hk
      exact (h p hp).1 hc
    · obtain ⟨d, hd, ht⟩ := (mem_stys w).1 (h p hp).2.2
      rw [hd]
      simp [ht]

theorem needs_dropNull {cols : List String} {s : Schema} (w : s.WF) :
    Needs (∀ n ∈ cols, s.idColumn ≠ some n ∧ s.grouping ≠ some n ∧ n ∈ Schema.keys s) (schDropNull cols s) := by
  unfold schDropNull
  refine Needs.congr (Needs.unless _ fun h1 => Needs.unless _ fun h2 => Needs.unless _ fun h3 => needs_keep w _) ?_
  rw [not_opt_any, not_opt_any, not_any]
  constructor
  · rintro ⟨h2, h3, h4, _⟩ n hn
    refine ⟨fun hi => ?_, fun hg => ?_, by simpa using h4 n hn⟩
    · have := h3 _ hi; simp [hn] at this
    · have := h2 _ hg; simp [hn] at this
  · intro h
    refine ⟨fun c hc => ?_, fun c hc => ?_, fun n hn => by simpa using (h n hn).2.2, trivial⟩
    · rw [decide_eq_false_iff_not]
      exact fun hk => (h c hk).2.1 hc
    · rw [decide_eq_false_iff_not]
      exact fun hk => (h c hk).1 hc

theorem needs_dropInf {cols : List String} {s : Schema} (w : s.WF) :
    Needs (∀ n ∈ cols, s.idColumn ≠ some n ∧ s.grouping ≠ some n ∧ (n, .DECIMAL) ∈ stys s) (schDropInf cols s) := by
  unfold schDropInf
  refine Needs.congr (Needs.unless _ fun h1 => Needs.unless _ fun h2 => Needs.unless _ fun h3 => needs_keep w _) ?_
  rw [not_opt_any, not_opt_any, not_any]
  constructor
  · rintro ⟨h2, h3, h4, _⟩ n hn
    refine ⟨fun hi => ?_, fun hg => ?_, ?_⟩
    · have := h3 _ hi; simp [hn] at this
    · have := h2 _ hg; simp [hn] at this
    · have := h4 n hn
      split at this
      · cases this
      · next d hd => exact (mem_stys w).2 ⟨d, hd, by simpa using this⟩
  · intro h
    refine ⟨fun c hc => ?_, fun c hc => ?_, fun n hn => ?_, trivial⟩
    · rw [decide_eq_false_iff_not]
      exact fun hk => (h c hk).2.1 hc
    · rw [decide_eq_false_iff_not]
      exact fun hk => (h c hk).1 hc
    · obtain ⟨d, hd, ht⟩ := (mem_stys w).1 (h n hn).2.2
      rw [hd]
      simp [ht]

/-! ## Joins -/

theorem meet_same {a b : Desc} (h : a.ty = b.ty) : ∃ d, meet (toSparkDesc a) (toSparkDesc b) = some d := by
  obtain ⟨ta, _, _, _⟩ := a
  obtain ⟨tb, _, _, _⟩ := b
  cases h
  cases ta <;> exact ⟨_, rfl⟩

theorem joinColDescs_some {how : How} {l r : Schema} (wl : l.WF) (wr : r.WF) {jc : List String}
    (h : ∀ n ∈ jc, ∃ t, (n, t) ∈ stys l ∧ (n, t) ∈ stys r) :
    ∃ js, joinColDescs how (analyticsToSparkColumns l) (analyticsToSparkColumns r) jc = some js := by
  induction jc with
  | nil => exact ⟨_, rfl⟩
  | cons c cs ih =>
    obtain ⟨js, hj⟩ := ih fun n hn => h n (List.mem_cons_of_mem _ hn)
    obtain ⟨t, h1, h2⟩ := h c List.mem_cons_self
    obtain ⟨a, ha, hta⟩ := (mem_stys wl).1 h1
    obtain ⟨b, hb, htb⟩ := (mem_stys wr).1 h2
    obtain ⟨d, hd⟩ := meet_same (hta.trans htb.symm)
    have : ∃ d, joinColDesc how (analyticsToSparkColumns l) (analyticsToSparkColumns r) c = some d := by
      unfold joinColDesc
      rw [get_analytics wl, get_analytics wr, ha, hb]
      dsimp only [Option.map_some]
      cases how with
      | inner => exact ⟨d, hd⟩
      | left => dsimp only; rw [hd]; exact ⟨_, rfl⟩
    obtain ⟨x, hx⟩ := this
    rw [joinColDescs, hx, hj]
    exact ⟨_, rfl⟩

theorem names_tyJoin {l r : Dict String ColumnType} {jc : List String} (h : ∀ n ∈ jc, n ∈ Dict.keys l) :
    names (tyJoin l r jc) = joinKeys (Dict.keys l) (Dict.keys r) jc := by
  have pk : ∀ (d : Dict String ColumnType) (cs : List String), (∀ c ∈ cs, c ∈ Dict.keys d) →
      (cs.filterMap (fun c => (Dict.get d c).map (fun x => (c, x)))).map Prod.fst = cs := by
    intro d cs hcs
    induction cs with
    | nil => rfl
    | cons c cs ih =>
      obtain ⟨x, hx⟩ := Option.isSome_iff_exists.1 (Dict.get_isSome.2 (hcs c List.mem_cons_self))
      rw [List.filterMap_cons, hx]
      dsimp only [Option.map_some]
      rw [List.map_cons, ih fun c hc => hcs c (List.mem_cons_of_mem _ hc)]
  have ov : ∀ cs : List String, (∀ c ∈ cs, c ∈ Dict.keys l ∧ c ∈ Dict.keys r) →
      (cs.flatMap (fun c => match Dict.get l c, Dict.get r c with
        | some a, some b => [(c ++ "_left", a), (c ++ "_right", b)]
        | _, _ => [])).map Prod.fst = cs.flatMap (fun c => [c ++ "_left", c ++ "_right"]) := by
    intro cs hcs
    induction cs with
    | nil => rfl
    | cons c cs ih =>
      obtain ⟨h1, h2⟩ := hcs c List.mem_cons_self
      obtain ⟨x, hx⟩ := Option.isSome_iff_exists.1 (Dict.get_isSome.2 h1)
      obtain ⟨y, hy⟩ := Option.isSome_iff_exists.1 (Dict.get_isSome.2 h2)
      rw [List.flatMap_cons, List.flatMap_cons, List.map_append, ih fun c hc => hcs c (List.mem_cons_of_mem _ hc), hx, hy]
      rfl
  unfold names tyJoin joinKeys
  dsimp only
  rw [List.map_append, List.map_append, List.map_append, pk l jc h, pk l _ fun c hc => (List.mem_filter.1 hc).1,
    pk r _ fun c hc => (List.mem_filter.1 hc).1]
  congr 1
  exact ov _ fun c hc => ⟨(overlap_mem hc).1, (overlap_mem hc).2.1⟩

theorem needs_join {how : How} {given : ColsArg} {l r : Schema} (wl : l.WF) (wr : r.WF)
    (hj : checkJoin (joinTuple given) = .ok ()) :
    Needs (Joinable (stys l) (stys r) l.idColumn l.grouping r.grouping given)
      (match validateJoin (joinTuple given) l r with
        | .error e => .error e
        | .ok () => schemaForJoin how (joinTuple given) l r) := by
  have hon : onCols (givenCols given) (names (stys l)) (names (stys r))
      = joinCols (Schema.keys l) (Schema.keys r) (joinTuple given) := by
    rw [given_eq, onCols_eq]
    show joinCols (Dict.keys (stys l)) (Dict.keys (stys r)) _ = _
    rw [keys_stys wl, keys_stys wr]
  have hne : joinTuple given ≠ some [] ∧ ((joinTuple given).getD []).Nodup := by
    unfold checkJoin at hj
    split at hj
    · next h => rw [h]; exact ⟨nofun, List.nodup_nil⟩
    · next cs h =>
      rw [h]
      split at hj
      · cases hj
      next h1 =>
      split at hj
      · next h2 => exact ⟨fun he => h1 (by cases he; rfl), h2⟩
      · cases hj
  have hcom : ∀ n, n ∈ common (Schema.keys l) (Schema.keys r) ↔ n ∈ Schema.keys l ∧ n ∈ Schema.keys r := by
    intro n
    unfold common
    rw [List.mem_filter, decide_eq_true_eq]
  have hcols : joinedColumns (stys l) (stys r) given
      = tyJoin (stys l) (stys r) (joinCols (Schema.keys l) (Schema.keys r) (joinTuple given)) := by
    rw [joined_eq (stys_wf wl) (stys_wf wr), keys_stys wl, keys_stys wr]
  unfold Joinable
  rw [hon, hcols]
  have hempty : joinTuple given = none ∧ common (Schema.keys l) (Schema.keys r) = [] ↔
      joinCols (Schema.keys l) (Schema.keys r) (joinTuple given) = [] := by
    cases hj' : joinTuple given with
    | none => simp [joinCols]
    | some cs =>
      have : cs ≠ [] := fun he => hne.1 (by rw [hj', he])
      simp [joinCols, this]
  unfold validateJoin
  rw [if_neg hne.1, if_neg (not_not.2 hne.2)]
  generalize hjc : joinCols (Schema.keys l) (Schema.keys r) (joinTuple given) = jc at *
  by_cases h1 : l.grouping.isSome ∧ r.grouping.isSome ∧ l.grouping ≠ r.grouping
  · rw [if_pos h1]
    refine .inr ⟨⟨_, rfl, .inl rfl⟩, fun h => ?_⟩
    obtain ⟨a, ha⟩ := Option.isSome_iff_exists.1 h1.1
    obtain ⟨b, hb⟩ := Option.isSome_iff_exists.1 h1.2.1
    exact h1.2.2 (by rw [ha, hb, h.2.2.2.1 a b ha hb])
  rw [if_neg h1]
  by_cases h2 : jc = []
  · rw [if_pos (hempty.2 h2)]
    exact .inr ⟨⟨_, rfl, .inl rfl⟩, fun h => h.1 h2⟩
  rw [if_neg (fun h => h2 (hempty.1 h))]
  by_cases h3 : ∀ n ∈ jc, ∃ t, (n, t) ∈ stys l ∧ (n, t) ∈ stys r
  swap
  · have : ∀ x : Except PyErr Unit, (if jc.any (fun c => decide (c ∉ common (Schema.keys l) (Schema.keys r))) then .error .value
        else if jc.any (fun c => decide ((Dict.get l.descs c).map Desc.ty ≠ (Dict.get r.descs c).map Desc.ty)) then .error .value
        else x) = .error .value := by
      intro x
      split
      · rfl
      next hc =>
      split
      · rfl
      next ht =>
      refine absurd (fun n hn => ?_) h3
      have h4 := (hcom n).1 (by simpa using any_false hc n hn)
      obtain ⟨a, ha⟩ := Option.isSome_iff_exists.1 (Dict.get_isSome.2 h4.1)
      obtain ⟨b, hb⟩ := Option.isSome_iff_exists.1 (Dict.get_isSome.2 h4.2)
      have h5 := any_false ht n hn
      rw [ha, hb, decide_eq_false_iff_not, not_not] at h5
      refine ⟨a.ty, (mem_stys wl).2 ⟨a, ha, rfl⟩, (mem_stys wr).2 ⟨b, hb, ?_⟩⟩
      exact (Option.some.inj h5).symm
    rw [this]
    exact .inr ⟨⟨_, rfl, .inl rfl⟩, fun h => h3 h.2.1⟩
  have hin : ∀ n ∈ jc, n ∈ Schema.keys l ∧ n ∈ Schema.keys r := by
    intro n hn
    obtain ⟨t, ha, hb⟩ := h3 n hn
    rw [← keys_stys wl, ← keys_stys wr]
    exact ⟨Dict.mem_keys.2 ⟨t, ha⟩, Dict.mem_keys.2 ⟨t, hb⟩⟩
  rw [if_neg (any_eq_false fun n hn => by simpa using (hcom n).2 (hin n hn)), if_neg (any_eq_false fun n hn => ?_)]
  swap
  · obtain ⟨t, ha, hb⟩ := h3 n hn
    obtain ⟨a, ha, hta⟩ := (mem_stys wl).1 ha
    obtain ⟨b, hb, htb⟩ := (mem_stys wr).1 hb
    rw [ha, hb, decide_eq_false_iff_not, not_not]
    show some a.ty = some b.ty
    rw [hta, htb]
  dsimp only
  have hnames : names (tyJoin (stys l) (stys r) jc) = joinKeys (Schema.keys l) (Schema.keys r) jc := by
    rw [names_tyJoin fun n hn => by rw [keys_stys wl]; exact (hin n hn).1, keys_stys wl, keys_stys wr]
  rw [hnames]
  unfold schemaForJoin
  obtain ⟨js, hjs⟩ := joinColDescs_some (how := how) wl wr h3
  rw [hjc]
  by_cases h4 : (joinKeys (Schema.keys l) (Schema.keys r) jc).Nodup
  swap
  · have : domainAfterJoin how (analyticsToSparkColumns l) (analyticsToSparkColumns r) jc = .error .value := by
      unfold domainAfterJoin
      rw [keys_analytics wl, keys_analytics wr, if_neg h4]
    rw [this]
    exact .inr ⟨⟨_, rfl, .inl rfl⟩, fun h => h4 h.2.2.1⟩
  have : ∃ d, domainAfterJoin how (analyticsToSparkColumns l) (analyticsToSparkColumns r) jc = .ok d := by
    unfold domainAfterJoin
    rw [keys_analytics wl, keys_analytics wr, if_pos h4, hjs]
    exact ⟨_, rfl⟩
  obtain ⟨d, hd⟩ := this
  rw [hd]
  dsimp only
  obtain ⟨k, w⟩ := domainAfterJoin_keys hd
  rw [keys_analytics wl, keys_analytics wr] at k
  have hk : Dict.keys (sparkDomainToAnalytics d) = joinKeys (Schema.keys l) (Schema.keys r) jc := by
    rw [keys_ofSpark w, ← k]
    exact keys_mapVal' d (fun p => ofSparkDesc p.2)
  refine Needs.congr (needs_mk ?_) ?_
  · rw [hk]
    unfold joinKeys
    simp only [List.mem_append, List.mem_flatMap, List.mem_filter]
    rintro (((h | h) | h) | h)
    · exact no_empty wl (hin _ h).1
    · exact no_empty wl h.1
    · exact no_empty wr h.1
    · obtain ⟨c, _, hc⟩ := h
      have hlen : ∀ a b : String, b ≠ "" → "" ≠ a ++ b := by
        intro a b hb he
        have := congrArg String.toList he
        rw [String.toList_append] at this
        have h2 := (List.append_eq_nil_iff.1 this.symm).2
        exact hb (String.toList_inj.1 h2)
      simp only [List.mem_cons, List.not_mem_nil, or_false] at hc
      rcases hc with hc | hc
      · exact hlen _ _ (by decide) hc
      · exact hlen _ _ (by decide) hc
  · rw [hk]
    constructor
    · rintro ⟨hg, hi⟩
      refine ⟨h2, h3, h4, fun a b ha hb => ?_, ?_⟩
      · by_contra hab
        exact h1 ⟨by rw [ha]; rfl, by rw [hb]; rfl, by rw [ha, hb]; simpa using hab⟩
      · rintro n (hn | hn | hn)
        · exact hi n hn
        · exact hg n (by rw [if_pos (by rw [hn]; rfl)]; exact hn)
        · cases hl : l.grouping with
          | none => exact hg n (by rw [hl]; exact hn)
          | some a =>
            have hab : a = n := by
              by_contra hab
              exact h1 ⟨by rw [hl]; rfl, by rw [hn]; rfl, by rw [hl, hn]; simpa using hab⟩
            exact hg n (by rw [hl, hab]; rfl)
    · rintro ⟨_, _, _, hab, hm⟩
      refine ⟨fun c hc => ?_, fun c hc => hm c (.inl hc)⟩
      split at hc
      · exact hm c (.inr (.inl hc))
      · exact hm c (.inr (.inr hc))

theorem needs_joinPrivate {given : ColsArg} {l r : Schema} (wl : l.WF) (wr : r.WF)
    (hj : checkJoin (joinTuple given) = .ok ()) :
    Needs (l.idColumn = r.idColumn ∧ l.idSpace = r.idSpace ∧
      Joinable (stys l) (stys r) l.idColumn l.grouping r.grouping given) (schJoinPrivate (joinTuple given) l r) := by
  unfold schJoinPrivate
  refine Needs.congr (Needs.unless _ fun h1 => Needs.unless _ fun h2 => needs_join wl wr hj) ?_
  rw [not_not, not_not]

/-! ## The grouping column and the ID space -/

theorem source_group {cat : Cat} (hc : cat.OK) {id : String} {s : Schema} (h : schSource cat id = .ok s) :
    s.grouping = (Chain.start id).group cat ∧ s.idSpace = (Chain.start id).space cat ∧
      (s.idColumn = none → s.idSpace = none) ∧ (s.idColumn.isSome → s.grouping = none) := by
  obtain ⟨cs, hg⟩ := schSource_ok h
  obtain ⟨_, h1, h2⟩ := hc.priv _ _ _ hg
  refine ⟨?_, ?_, h1, h2⟩
  · unfold Chain.group; rw [hg]; rfl
  · unfold Chain.space; rw [hg]; rfl

theorem or_eq (a b : Option String) : (if a.isSome then a else b) = a.or b := by cases a <;> rfl

/-- The schema has the grouping column and the ID space of the specification. -/
theorem group_space {ctx : Ctx} {cat : Cat} (hc : cat.OK) (c : Chain) (hk : c.Kept) {e : Expr} (h : c.build ctx = .ok e)
    {s : Schema} (hs : schemaOf cat e = .ok s) :
    s.grouping = c.group cat ∧ s.idSpace = c.space cat ∧ (s.idColumn = none → s.idSpace = none) ∧
      (s.idColumn.isSome → s.grouping = none) := by
  induction c generalizing e s with
  | start id =>
    cases newBuilder_ok h
    exact source_group hc hs
  | rename c m ih =>
    obtain ⟨e', h', h⟩ := bind_ok h
    split at h
    · cases h
    cases h
    obtain ⟨s', hs', hs⟩ := bind_ok hs
    obtain ⟨i1, i2, i3, i4⟩ := ih hk.1 h' hs'
    obtain ⟨_, _, _, _, g1, g2, g3, _⟩ := schRename_ok hs
    refine ⟨?_, g3.trans i2, ?_, ?_⟩
    · rw [g1, i1]
      rw [Chain.group]
      congr 1
      funext x
      rw [newName_eq]
    · rw [g2, g3]; intro hn; exact i3 (by simpa using hn)
    · rw [g2, g1]; intro hn; rw [i4 (by simpa using hn)]; rfl
  | filter c valid cond ih =>
    obtain ⟨e', h', h⟩ := bind_ok h
    cases h
    obtain ⟨s', hs', hs⟩ := bind_ok hs
    unfold schFilter at hs
    split at hs
    · cases hs; exact ih hk h' hs'
    · cases hs
  | select c columns ih =>
    obtain ⟨e', h', h⟩ := bind_ok h
    split at h
    · cases h
    split at h
    swap
    · cases h
    cases h
    obtain ⟨s', hs', hs⟩ := bind_ok hs
    obtain ⟨i1, i2, i3, i4⟩ := ih hk h' hs'
    obtain ⟨_, _, _, _, _, g1, g2, g3, _⟩ := schSelect_ok hs
    rw [g1, g2, g3]
    exact ⟨i1, i2, i3, i4⟩
  | map c f types augment ih =>
    obtain ⟨e', h', h⟩ := bind_ok h
    obtain ⟨new, hn, rfl⟩ := callMap_ok h
    obtain ⟨s', hs', hs⟩ := bind_ok hs
    obtain ⟨i1, i2, i3, i4⟩ := ih hk.1 h' hs'
    have w' := schemaOf_wf hc e' (admissible c hk.1 h').wf hs'
    obtain ⟨wn, _, _, _⟩ := newSchema_ok hk.2.1 hn
    obtain ⟨_, ⟨rfl, _, g1, g2, g3, _⟩ | ⟨rfl, g0, g0', g1, g2, g3, _⟩⟩ := schMap_ok wn w' hs
    · rw [g1, g2, g3]; exact ⟨i1, i2, i3, i4⟩
    · rw [g1, g2, g3]
      exact ⟨g0.symm.trans i1, (i3 g0').symm.trans i2, fun _ => rfl, fun _ => rfl⟩
  | flatMap c f types augment grouping n ih =>
    obtain ⟨e', h', h⟩ := bind_ok h
    obtain ⟨new, hn, hg, _, rfl⟩ := callFlatMap_ok h
    obtain ⟨s', hs', hs⟩ := bind_ok hs
    obtain ⟨i1, i2, i3, i4⟩ := ih hk.1 h' hs'
    have w' := schemaOf_wf hc e' (admissible c hk.1 h').wf hs'
    obtain ⟨wn, gn, _, _⟩ := newSchema_ok hk.2.1 hn
    obtain ⟨_, hgr, ⟨rfl, _, g1, g2, g3, _⟩ | ⟨rfl, g0, g0', g1, g2, g3, _⟩⟩ := schFlatMap_ok wn w' hs
    · rw [g1, g2, g3, gn]
      cases grouping with
      | false => exact ⟨i1, i2, i3, i4⟩
      | true =>
        obtain ⟨p, rfl⟩ := hg rfl
        refine ⟨rfl, i2, i3, fun hsome => ?_⟩
        rw [(hgr (by rw [gn]; rfl)).2] at hsome
        cases hsome
    · rw [g1, g2, g3]
      refine ⟨?_, (i3 g0').symm.trans i2, fun _ => rfl, fun _ => rfl⟩
      unfold Chain.group
      cases grouping with
      | false => exact g0.symm.trans i1
      | true => rfl
  | flatMapByID c f types ih =>
    obtain ⟨e', h', h⟩ := bind_ok h
    obtain ⟨new, hn, rfl⟩ := callFlatMapByID_ok h
    obtain ⟨s', hs', hs⟩ := bind_ok hs
    obtain ⟨i1, i2, i3, i4⟩ := ih hk.1 h' hs'
    obtain ⟨wn, _, _, _⟩ := newSchema_ok hk.2.1 hn
    obtain ⟨i, d, hi, hg, _, _, _, g1, g2, g3, _⟩ := schFlatMapByID_ok wn hs
    rw [g1, g2, g3]
    exact ⟨hg.symm.trans i1, i2, nofun, fun _ => rfl⟩
  | binColumn c column bins name ih =>
    obtain ⟨e', h', h⟩ := bind_ok h
    obtain ⟨n, hn, hne, rfl⟩ := callBin_ok h
    obtain ⟨s', hs', hs⟩ := bind_ok hs
    obtain ⟨i1, i2, i3, i4⟩ := ih hk.1 h' hs'
    have w' := schemaOf_wf hc e' (admissible c hk.1 h').wf hs'
    have wn := oneColumn_wf (d := bins.desc) hne
    obtain ⟨_, ⟨_, _, g1, g2, g3, _⟩ | ⟨hf, _⟩⟩ := schMap_ok wn w' hs
    · rw [g1, g2, g3]; exact ⟨i1, i2, i3, i4⟩
    · cases hf
  | joinPublic c pub columns how ih =>
    obtain ⟨e', h', h⟩ := bind_ok h
    have ok := admissible (Chain.joinPublic c pub columns how) hk
      (show (Chain.joinPublic c pub columns how).build ctx = .ok e by unfold Chain.build; rw [h']; exact h)
    obtain ⟨p, k, hp, _, rfl⟩ := callJoinPublic_ok h
    obtain ⟨s', hs', hs⟩ := bind_ok hs
    obtain ⟨i1, i2, i3, i4⟩ := ih hk h' hs'
    have w' := schemaOf_wf hc e' (admissible c hk h').wf hs'
    obtain ⟨_, _, _, _, _, _, g1, g2, g3, _⟩ := schJoinPublic_ok hc ok.wf.2 w' hs
    rw [g1, g2, g3]
    exact ⟨i1, i2, i3, i4⟩
  | joinPrivate c r tl tr columns ih ih' =>
    obtain ⟨e', h', h⟩ := bind_ok h
    obtain ⟨e'', h'', h⟩ := bind_ok h
    cases callJoinPrivate_ok h
    obtain ⟨sl, hsl, hs⟩ := bind_ok hs
    obtain ⟨sr, hsr, hs⟩ := bind_ok hs
    obtain ⟨i1, i2, i3, i4⟩ := ih hk.1 h' hsl
    obtain ⟨j1, _, _, j4⟩ := ih' hk.2 h'' hsr
    have wl := schemaOf_wf hc e' (admissible c hk.1 h').wf hsl
    have wr := schemaOf_wf hc e'' (admissible r hk.2 h'').wf hsr
    obtain ⟨hid, _, _, _, g1, g2, g3, _⟩ := schJoinPrivate_ok wl wr hs
    rw [or_eq] at g1
    rw [g1, g2, g3]
    refine ⟨by rw [i1, j1]; rfl, i2, i3, fun hsome => ?_⟩
    rw [i4 hsome, j4 (hid ▸ hsome)]
    rfl
  | joinTable c table tl tr columns ih =>
    obtain ⟨e', h', h⟩ := bind_ok h
    obtain ⟨e'', h'', h⟩ := bind_ok h
    cases newBuilder_ok h''
    cases callJoinPrivate_ok h
    obtain ⟨sl, hsl, hs⟩ := bind_ok hs
    obtain ⟨sr, hsr, hs⟩ := bind_ok hs
    obtain ⟨i1, i2, i3, i4⟩ := ih hk h' hsl
    obtain ⟨j1, _, _, j4⟩ := source_group hc hsr
    have wl := schemaOf_wf hc e' (admissible c hk h').wf hsl
    have wr := schemaOf_wf hc (.source table) trivial hsr
    obtain ⟨hid, _, _, _, g1, g2, g3, _⟩ := schJoinPrivate_ok wl wr hs
    rw [or_eq] at g1
    rw [g1, g2, g3]
    refine ⟨by rw [i1, j1]; rfl, i2, i3, fun hsome => ?_⟩
    rw [i4 hsome, j4 (hid ▸ hsome)]
    rfl
  | replaceNull c w ih =>
    obtain ⟨e', h', h⟩ := bind_ok h
    cases callReplaceNull_ok h
    obtain ⟨s', hs', hs⟩ := bind_ok hs
    have ks := (schReplaceNull_ok (schemaOf_wf hc e' (admissible c hk.1 h').wf hs') hs).1
    rw [ks.grouping, ks.idColumn, ks.idSpace]
    exact ih hk.1 h' hs'
  | replaceInf c w ih =>
    obtain ⟨e', h', h⟩ := bind_ok h
    cases callReplaceInf_ok h
    obtain ⟨s', hs', hs⟩ := bind_ok hs
    have ks := (schReplaceInf_ok (schemaOf_wf hc e' (admissible c hk.1 h').wf hs') hs).1
    rw [ks.grouping, ks.idColumn, ks.idSpace]
    exact ih hk.1 h' hs'
  | dropNull c columns ih =>
    obtain ⟨e', h', h⟩ := bind_ok h
    cases h
    obtain ⟨s', hs', hs⟩ := bind_ok hs
    have ks := (schDropNull_ok (schemaOf_wf hc e' (admissible c hk h').wf hs') hs).1
    rw [ks.grouping, ks.idColumn, ks.idSpace]
    exact ih hk h' hs'
  | dropInf c columns ih =>
    obtain ⟨e', h', h⟩ := bind_ok h
    cases h
    obtain ⟨s', hs', hs⟩ := bind_ok hs
    have ks := (schDropInf_ok (schemaOf_wf hc e' (admissible c hk h').wf hs') hs).1
    rw [ks.grouping, ks.idColumn, ks.idSpace]
    exact ih hk h' hs'
  | enforce c k ih =>
    obtain ⟨e', h', h⟩ := bind_ok h
    cases h
    obtain ⟨s', hs', hs⟩ := bind_ok hs
    obtain ⟨rfl, _⟩ := schEnforce_ok hs
    exact ih hk h' hs'

/-! ## Chains -/

/-- What is known of the schema of a chain. -/
structure HasCols (cat : Cat) (c : Chain) (s : Schema) : Prop where
  wf : s.WF
  cols : stys s = c.columns cat
  keys : Schema.keys s = names (c.columns cat)
  id : s.idColumn = c.id cat
  group : s.grouping = c.group cat
  space : s.idSpace = c.space cat
  alone : s.idColumn.isSome → s.grouping = none

theorem known {ctx : Ctx} {cat : Cat} (hc : cat.OK) (c : Chain) (hk : c.Kept) {e : Expr} (h : c.build ctx = .ok e)
    {s : Schema} (hs : schemaOf cat e = .ok s) : HasCols cat c s := by
  have w := schemaOf_wf hc e (admissible c hk h).wf hs
  obtain ⟨h1, h2, _⟩ := C72_columns hc c hk h hs
  obtain ⟨h3, h4, _, h5⟩ := group_space hc c hk h hs
  exact ⟨w, h1, by rw [← show stys s = _ from h1]; exact (keys_stys w).symm, h2, h3, h4, h5⟩

theorem lists_list {a : ColsArg} {cs : List String} : a.Lists cs ↔ cs = columnList a := by cases a <;> exact Iff.rfl

theorem needs_chain {ctx : Ctx} {cat : Cat} (hc : cat.OK) (c : Chain) (hk : c.Kept) (hb : c.ByTypes) {e : Expr}
    (h : c.build ctx = .ok e) : Needs (c.Fits cat) (schemaOf cat e) := by
  induction c generalizing e with
  | start id =>
    cases newBuilder_ok h
    exact needs_source cat id
  | rename c m ih =>
    obtain ⟨e', h', h⟩ := bind_ok h
    split at h
    · cases h
    next hm =>
    cases h
    refine (ih hk.1 hb h').bind fun s hs => ?_
    have kn := known hc c hk.1 h' hs
    rw [← kn.keys]
    exact needs_rename kn.wf fun p hp => by simpa using any_false hm p hp
  | filter c valid cond ih =>
    obtain ⟨e', h', h⟩ := bind_ok h
    cases h
    refine (ih hk hb.1 h').bind fun s hs => ?_
    have kn := known hc c hk h' hs
    refine (needs_filter valid s).congr ⟨fun hv => ⟨s, kn.cols, hv⟩, ?_⟩
    rintro ⟨s', hs', hv⟩
    rw [hb.2 s s' (kn.cols.trans hs'.symm)]
    exact hv
  | select c columns ih =>
    obtain ⟨e', h', h⟩ := bind_ok h
    split at h
    · cases h
    split at h
    swap
    · cases h
    next hd =>
    cases h
    refine (ih hk hb h').bind fun s hs => ?_
    have kn := known hc c hk h' hs
    simp only [lists_list, forall_eq]
    rw [← kn.keys, ← kn.id, ← kn.group]
    exact needs_select kn.wf hd
  | map c f types augment ih =>
    obtain ⟨e', h', h⟩ := bind_ok h
    obtain ⟨new, hn, rfl⟩ := callMap_ok h
    refine (ih hk.1 hb h').bind fun s hs => ?_
    have kn := known hc c hk.1 h' hs
    obtain ⟨wn, gn, st, _⟩ := newSchema_ok hk.2.1 hn
    refine (needs_map kn.wf wn gn).congr ?_
    unfold NewFor NewOK
    rw [← kn.keys, kn.id, kn.group, ← keys_stys wn, st]
    unfold specTypes
    rw [keys_mapVal' types (fun p => specType p.2)]
  | flatMap c f types augment grouping n ih =>
    obtain ⟨e', h', h⟩ := bind_ok h
    obtain ⟨new, hn, hg, _, rfl⟩ := callFlatMap_ok h
    refine (ih hk.1 hb h').bind fun s hs => ?_
    have kn := known hc c hk.1 h' hs
    obtain ⟨wn, gn, st, _⟩ := newSchema_ok hk.2.1 hn
    have hks : Schema.keys new = Dict.keys types := by
      rw [← keys_stys wn, st]
      unfold specTypes
      rw [keys_mapVal' types (fun p => specType p.2)]
    have hgs : new.grouping.isSome = true ↔ grouping = true := by
      rw [gn]
      cases grouping with
      | false => simp
      | true => obtain ⟨p, rfl⟩ := hg rfl; simp
    refine (needs_flatMap kn.wf wn fun hsome => ?_).congr ?_
    · obtain ⟨p, rfl⟩ := hg (hgs.1 hsome)
      rw [hks]; rfl
    · unfold NewFor NewOK
      rw [← kn.keys, kn.id, kn.group, hks, hgs]
  | flatMapByID c f types ih =>
    obtain ⟨e', h', h⟩ := bind_ok h
    obtain ⟨new, hn, rfl⟩ := callFlatMapByID_ok h
    refine (ih hk.1 hb h').bind fun s hs => ?_
    have kn := known hc c hk.1 h' hs
    obtain ⟨wn, gn, st, _⟩ := newSchema_ok hk.2.1 hn
    have hi : new.idColumn = none := (Schema.init_ok hk.2.1 hn).2.2.1
    refine (needs_flatMapByID kn.wf wn gn hi kn.alone).congr ?_
    rw [kn.id, ← keys_stys wn, st]
    unfold specTypes
    rw [keys_mapVal' types (fun p => specType p.2)]
  | binColumn c column bins name ih =>
    obtain ⟨e', h', h⟩ := bind_ok h
    obtain ⟨n, hn, hne, rfl⟩ := callBin_ok h
    refine (ih hk.1 hb h').bind fun s hs => ?_
    have kn := known hc c hk.1 h' hs
    refine (needs_map kn.wf (oneColumn_wf hne) rfl).congr ?_
    unfold NewFor
    rw [kn.keys, ← hn]
    have : Schema.keys (oneColumn n bins.desc) = [n] := by rw [keys_eq (oneColumn_wf hne)]; rfl
    simp [this]
  | joinPublic c pub columns how ih =>
    obtain ⟨e', h', h⟩ := bind_ok h
    have hj : checkJoin (joinTuple columns) = .ok () := by
      unfold callJoinPublic at h
      split at h
      · cases h
      · next hj => exact hj
    have ok := admissible (Chain.joinPublic c pub columns how) hk
      (show (Chain.joinPublic c pub columns how).build ctx = .ok e by unfold Chain.build; rw [h']; exact h)
    obtain ⟨p, k, hp, _, rfl⟩ := callJoinPublic_ok h
    refine (ih hk hb h').bind fun s hs => ?_
    have kn := known hc c hk h' hs
    unfold schJoinPublic
    cases hr : resolvePub cat p with
    | error x =>
      refine .inr ⟨⟨x, rfl, ?_⟩, fun hn => ?_⟩
      · cases pub with
        | table n =>
          cases hp
          simp only [resolvePub] at hr
          split at hr
          · cases hr
          · cases hr; exact .inl rfl
        | frame f =>
          rcases pubRef_frame ctx f with ⟨s', h1, _⟩ | ⟨h1, _⟩
          · rw [h1] at hp; cases hp; cases hr
          · rw [h1] at hp; cases hp
      · cases pub with
        | table n =>
          cases hp
          simp only [resolvePub] at hr
          obtain ⟨q, hq⟩ := hn.1 n rfl
          rw [hq] at hr
          cases hr
        | frame f =>
          rcases pubRef_frame ctx f with ⟨s', h1, _⟩ | ⟨h1, _⟩
          · rw [h1] at hp; cases hp; cases hr
          · rw [h1] at hp; cases hp
    | ok q =>
      obtain ⟨r, t⟩ := q
      dsimp only
      obtain ⟨wr, hcols, _⟩ := pub_facts hc hp hr
      obtain ⟨_, hg, _⟩ := resolvePub_ok hc ok.wf.2 hr
      refine (needs_join (how := k) kn.wf wr hj).congr ?_
      rw [hcols, kn.cols, kn.id, kn.group, hg]
      refine ⟨fun hjn => ⟨fun n hn => ?_, hjn⟩, fun hjn => hjn.2⟩
      subst hn
      cases hp
      simp only [resolvePub] at hr
      split at hr
      · next q hq => exact ⟨q, hq⟩
      · cases hr
  | joinPrivate c r tl tr columns ih ih' =>
    obtain ⟨e', h', h⟩ := bind_ok h
    obtain ⟨e'', h'', h⟩ := bind_ok h
    have hj : checkJoin (joinTuple columns) = .ok () := by
      unfold callJoinPrivate at h
      split at h
      · cases h
      · next hj => exact hj
    cases callJoinPrivate_ok h
    refine (ih hk.1 hb.1 h').bind fun s hs => (ih' hk.2 hb.2 h'').bind fun s' hs' => ?_
    have kn := known hc c hk.1 h' hs
    have kn' := known hc r hk.2 h'' hs'
    rw [← kn.id, ← kn'.id, ← kn.space, ← kn'.space, ← kn.cols, ← kn'.cols, ← kn.group, ← kn'.group]
    exact needs_joinPrivate kn.wf kn'.wf hj
  | joinTable c table tl tr columns ih =>
    obtain ⟨e', h', h⟩ := bind_ok h
    obtain ⟨e'', h'', h⟩ := bind_ok h
    have hj : checkJoin (joinTuple columns) = .ok () := by
      unfold callJoinPrivate at h
      split at h
      · cases h
      · next hj => exact hj
    cases callJoinPrivate_ok h
    have ht := newBuilder_ok h''
    subst ht
    refine (ih hk hb h').bind fun s hs => (needs_source cat table).bind fun s' hs' => ?_
    have kn := known hc c hk h' hs
    have kn' := known hc (.start table) trivial h'' hs'
    have hcol : tableColumns cat table = stys s' := kn'.cols.symm
    rw [← kn.id, ← kn'.id, ← kn.space, ← kn'.space, ← kn.cols, hcol, ← kn.group, ← kn'.group]
    exact needs_joinPrivate kn.wf kn'.wf hj
  | replaceNull c w ih =>
    obtain ⟨e', h', h⟩ := bind_ok h
    have hv : ∀ p ∈ w.getD [], validReplacement p.2 = true := by
      unfold callReplaceNull at h
      dsimp only at h
      split at h
      · cases h
      · next hn => exact fun p hp => by simpa using any_false hn p hp
    cases callReplaceNull_ok h
    refine (ih hk.1 hb h').bind fun s hs => ?_
    have kn := known hc c hk.1 h' hs
    refine (needs_replaceNull kn.wf hv).congr ?_
    rw [kn.id, kn.group, kn.cols]
    cases w with
    | none => simp
    | some m => simp
  | replaceInf c w ih =>
    obtain ⟨e', h', h⟩ := bind_ok h
    have hv : ∀ p ∈ w.getD [], (floatOrNone p.2.1 && floatOrNone p.2.2) = true ∧
        (validReplacement p.2.1 && validReplacement p.2.2) = true := by
      unfold callReplaceInf at h
      dsimp only at h
      split at h
      · cases h
      next h1 =>
      split at h
      · cases h
      next h2 =>
      intro p hp
      have a1 := any_false h1 p hp
      have a2 := any_false h2 p hp
      rw [Bool.not_eq_false'] at a1 a2
      exact ⟨a1, a2⟩
    cases callReplaceInf_ok h
    refine (ih hk.1 hb h').bind fun s hs => ?_
    have kn := known hc c hk.1 h' hs
    refine (needs_replaceInf kn.wf hv).congr ?_
    rw [kn.id, kn.group, kn.cols]
    cases w with
    | none => simp
    | some m => simp
  | dropNull c columns ih =>
    obtain ⟨e', h', h⟩ := bind_ok h
    cases h
    refine (ih hk hb h').bind fun s hs => ?_
    have kn := known hc c hk h' hs
    simp only [lists_list, forall_eq]
    rw [← kn.keys, ← kn.id, ← kn.group]
    exact needs_dropNull kn.wf
  | dropInf c columns ih =>
    obtain ⟨e', h', h⟩ := bind_ok h
    cases h
    refine (ih hk hb h').bind fun s hs => ?_
    have kn := known hc c hk h' hs
    simp only [lists_list, forall_eq]
    rw [← kn.cols, ← kn.id, ← kn.group]
    exact needs_dropInf kn.wf
  | enforce c k ih =>
    obtain ⟨e', h', h⟩ := bind_ok h
    cases h
    refine (ih hk hb h').bind fun s hs => ?_
    have kn := known hc c hk h' hs
    rw [← kn.keys, ← kn.id]
    exact needs_enforce k s

/-- **C76**: the columns of a query can be found exactly if its calls fit the tables. Otherwise the error is a `ValueError` or a
`KeyError`. -/
theorem C76_fits {ctx : Ctx} {cat : Cat} (hc : cat.OK) (c : Chain) (hk : c.Kept) (hb : c.ByTypes) {e : Expr}
    (h : c.build ctx = .ok e) :
    ((∃ s, schemaOf cat e = .ok s) ↔ c.Fits cat) ∧ ∀ x, schemaOf cat e = .error x → x = .value ∨ x = .key := by
  rcases needs_chain hc c hk hb h with ⟨⟨s, hs⟩, hf⟩ | ⟨⟨x, hx, hv⟩, hf⟩
  · exact ⟨⟨fun _ => hf, fun _ => ⟨s, hs⟩⟩, fun x hx => by rw [hs] at hx; cases hx⟩
  · refine ⟨⟨fun ⟨s, hs⟩ => ?_, fun h => absurd h hf⟩, fun y hy => ?_⟩
    · rw [hx] at hs; cases hs
    · rw [hx] at hy; cases hy; exact hv

end Verif.Whole
