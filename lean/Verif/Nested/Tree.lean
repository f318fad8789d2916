import Verif.Nested.Model

/-!
# Adding and dropping entries of nested dictionaries
-/

namespace Verif.Nested

open Verif
open Verif.Relation (Ident Dom Ref RErr lookupDomain findReference findNamedTables Path UniqueNames EndsWith wfs_mem lookupDomain_iff)

variable {L : Type}

/-- What is at a place: a table, or a dictionary. -/
def skel : Dom L → Option L
  | .table l => some l
  | .dict _ => none

/-- At the reference there is a table (`some`) or a dictionary (`none`). -/
def At (t : Dom L) (r : Ref) (x : Option L) : Prop := ∃ d, Path t r d ∧ skel d = x

theorem skel_table {d : Dom L} {l : L} (h : skel d = some l) : d = .table l := by
  cases d with
  | table _ => cases h; rfl
  | dict _ => cases h

theorem skel_dict {d : Dom L} (h : skel d = none) : ∃ kvs, d = .dict kvs := by
  cases d with
  | table _ => cases h
  | dict kvs => exact ⟨kvs, rfl⟩

theorem path_nil {t d : Dom L} : Path t [] d ↔ d = t := by
  constructor
  · intro h; cases h; rfl
  · rintro rfl; exact .here _

theorem path_cons {kvs : List (Ident × Dom L)} {k : Ident} {p : Ref} {d : Dom L} :
    Path (.dict kvs) (k :: p) d ↔ ∃ d', (k, d') ∈ kvs ∧ Path d' p d := by
  constructor
  · intro h
    cases h with
    | down hm hp => exact ⟨_, hm, hp⟩
  · rintro ⟨d', hm, hp⟩
    exact .down hm hp

theorem path_table {l : L} {k : Ident} {p : Ref} {d : Dom L} : ¬ Path (.table l) (k :: p) d := nofun

theorem path_append {q : Ref} : ∀ {p : Ref} {t d : Dom L}, Path t (p ++ q) d ↔ ∃ d', Path t p d' ∧ Path d' q d
  | [], t, d => by simp [path_nil]
  | k :: p, .table l, d => by
    rw [List.cons_append]
    constructor
    · intro h; cases h
    · rintro ⟨d', h, _⟩; cases h
  | k :: p, .dict kvs, d => by
    rw [List.cons_append, path_cons]
    constructor
    · rintro ⟨d1, hm, hp⟩
      obtain ⟨d', h1, h2⟩ := path_append.1 hp
      exact ⟨d', .down hm h1, h2⟩
    · rintro ⟨d', h1, h2⟩
      obtain ⟨d1, hm, hp⟩ := path_cons.1 h1
      exact ⟨d1, hm, path_append.2 ⟨d', hp, h2⟩⟩

theorem path_unique {t : Dom L} (hw : t.WF) {r : Ref} {d d' : Dom L} (h : Path t r d) (h' : Path t r d') : d = d' := by
  have h1 := (lookupDomain_iff r t d hw).2 h
  rw [(lookupDomain_iff r t d' hw).2 h'] at h1
  cases h1; rfl

theorem at_unique {t : Dom L} (hw : t.WF) {r : Ref} {x x' : Option L} (h : At t r x) (h' : At t r x') : x = x' := by
  obtain ⟨d, h1, h2⟩ := h
  obtain ⟨d', h3, h4⟩ := h'
  rw [← h2, ← h4, path_unique hw h1 h3]

theorem at_append {t : Dom L} (hw : t.WF) {p q : Ref} {d : Dom L} (hp : Path t p d) {x : Option L} :
    At t (p ++ q) x ↔ At d q x := by
  constructor
  · rintro ⟨d1, h1, h2⟩
    obtain ⟨d', h3, h4⟩ := path_append.1 h1
    rw [path_unique hw hp h3]
    exact ⟨d1, h4, h2⟩
  · rintro ⟨d1, h1, h2⟩
    exact ⟨d1, path_append.2 ⟨d, hp, h1⟩, h2⟩

theorem mem_unique {kvs : List (Ident × Dom L)} (hn : (kvs.map Prod.fst).Nodup) {k : Ident} {d d' : Dom L}
    (h : (k, d) ∈ kvs) (h' : (k, d') ∈ kvs) : d = d' := by
  have h1 := (Dict.get_eq_some hn).2 h
  rw [(Dict.get_eq_some hn).2 h'] at h1
  cases h1; rfl

/-- Replacing a dictionary changes what is below it, and nothing else. -/
theorem at_setAt {new : Dom L} (hnew : skel new = none) {x : Option L} : ∀ {p : Ref} {t : Dom L} {kvs : List (Ident × Dom L)},
    t.WF → Path t p (.dict kvs) → ∀ {r : Ref},
    (At (setAt p new t) r x ↔ (∃ q, r = p ++ q ∧ At new q x) ∨ (¬ p <+: r ∧ At t r x))
  | [], t, kvs, _, _, r => by
    simp [setAt]
  | k :: p, .table l, kvs, _, h, r => by cases h
  | k :: p, .dict K, kvs, hw, h, r => by
    rw [Dom.WF] at hw
    obtain ⟨d, hm, hp⟩ := path_cons.1 h
    have ih := fun r => at_setAt hnew (x := x) (wfs_mem hw.2 hm) hp (r := r)
    rw [setAt]
    cases r with
    | nil =>
      constructor
      · rintro ⟨d', h1, h2⟩
        rw [path_nil] at h1
        subst h1
        exact .inr ⟨by simp, .dict K, .here _, h2⟩
      · rintro (⟨q, h1, _⟩ | ⟨_, d', h1, h2⟩)
        · cases h1
        · rw [path_nil] at h1
          subst h1
          exact ⟨_, .here _, h2⟩
    | cons k' r =>
      by_cases hk : k' = k
      · subst hk
        have : At (Dom.dict (K.map (fun q => if q.1 = k' then (q.1, setAt p new q.2) else q))) (k' :: r) x ↔
            At (setAt p new d) r x := by
          constructor
          · rintro ⟨d1, h1, h2⟩
            obtain ⟨d2, h3, h4⟩ := path_cons.1 h1
            obtain ⟨⟨k1, d3⟩, h5, h6⟩ := List.mem_map.1 h3
            dsimp only at h6
            split at h6
            · next he =>
              cases h6
              rw [mem_unique hw.1 hm h5]
              exact ⟨d1, h4, h2⟩
            · next he =>
              cases h6
              exact absurd rfl he
          · rintro ⟨d1, h1, h2⟩
            exact ⟨d1, path_cons.2 ⟨_, List.mem_map.2 ⟨(k', d), hm, by simp⟩, h1⟩, h2⟩
        rw [this, ih]
        have h3 : At (Dom.dict K) (k' :: r) x ↔ At d r x :=
          at_append (t := .dict K) (by rw [Dom.WF]; exact hw) (p := [k']) (.down hm (.here _))
        rw [h3]
        simp [List.cons_prefix_cons]
      · have : At (Dom.dict (K.map (fun q => if q.1 = k then (q.1, setAt p new q.2) else q))) (k' :: r) x ↔
            At (Dom.dict K) (k' :: r) x := by
          constructor
          · rintro ⟨d1, h1, h2⟩
            obtain ⟨d2, h3, h4⟩ := path_cons.1 h1
            obtain ⟨⟨k1, d3⟩, h5, h6⟩ := List.mem_map.1 h3
            dsimp only at h6
            split at h6
            · next he =>
              cases h6
              exact absurd he hk
            · next he =>
              cases h6
              exact ⟨d1, .down h5 h4, h2⟩
          · rintro ⟨d1, h1, h2⟩
            obtain ⟨d2, h3, h4⟩ := path_cons.1 h1
            exact ⟨d1, path_cons.2 ⟨d2, List.mem_map.2 ⟨(k', d2), h3, by simp [hk]⟩, h4⟩, h2⟩
        rw [this]
        constructor
        · intro h1
          exact .inr ⟨fun h2 => hk (List.cons_prefix_cons.1 h2).1.symm, h1⟩
        · rintro (⟨q, h1, _⟩ | ⟨_, h1⟩)
          · cases h1; exact absurd rfl hk
          · exact h1

theorem wfs_iff {kvs : List (Ident × Dom L)} : Relation.wfs kvs ↔ ∀ k d, (k, d) ∈ kvs → d.WF := by
  induction kvs with
  | nil => simp [Relation.wfs]
  | cons x kvs ih =>
    obtain ⟨k, d⟩ := x
    rw [Relation.wfs, ih]
    constructor
    · rintro ⟨h1, h2⟩ k' d' hm
      rcases List.mem_cons.1 hm with he | hm
      · cases he; exact h1
      · exact h2 k' d' hm
    · intro h
      exact ⟨h k d (by simp), fun k' d' hm => h k' d' (List.mem_cons_of_mem _ hm)⟩

theorem wf_setAt {new : Dom L} (hnew : new.WF) : ∀ {p : Ref} {t : Dom L}, t.WF → (setAt p new t).WF
  | [], t, _ => hnew
  | k :: p, .table l, _ => by rw [setAt, Dom.WF]; trivial
  | k :: p, .dict K, hw => by
    rw [setAt]
    rw [Dom.WF] at hw ⊢
    refine ⟨?_, wfs_iff.2 ?_⟩
    · have : (K.map (fun q => if q.1 = k then (q.1, setAt p new q.2) else q)).map Prod.fst = K.map Prod.fst := by
        rw [List.map_map]
        refine List.map_congr_left fun q _ => ?_
        dsimp only [Function.comp]
        split <;> rfl
      rw [this]; exact hw.1
    · intro k' d' hm
      obtain ⟨⟨k1, d1⟩, h1, h2⟩ := List.mem_map.1 hm
      dsimp only at h2
      split at h2
      · cases h2
        exact wf_setAt hnew (wfs_mem hw.2 h1)
      · cases h2
        exact wfs_mem hw.2 h1

theorem path_wf {t d : Dom L} {r : Ref} (hw : t.WF) (h : Path t r d) : d.WF := Relation.path_wf h hw

/-- Adding tables to a dictionary. -/
theorem at_add {t : Dom L} (hw : t.WF) {p : Ref} {kvs : List (Ident × Dom L)} (hp : Path t p (.dict kvs))
    (new : List (Ident × L)) {r : Ref} {x : Option L} :
    At (setAt p (.dict (kvs ++ new.map (fun q => (q.1, .table q.2)))) t) r x ↔
      At t r x ∨ ∃ k l, (k, l) ∈ new ∧ r = p ++ [k] ∧ x = some l := by
  rw [at_setAt rfl hw hp]
  have key : ∀ q, At (Dom.dict (kvs ++ new.map (fun q => (q.1, Dom.table q.2)))) q x ↔
      At (.dict kvs) q x ∨ ∃ k l, (k, l) ∈ new ∧ q = [k] ∧ x = some l := by
    intro q
    cases q with
    | nil =>
      constructor
      · rintro ⟨d, h1, h2⟩
        rw [path_nil] at h1; subst h1
        exact .inl ⟨_, .here _, h2⟩
      · rintro (⟨d, h1, h2⟩ | ⟨k, l, _, h2, _⟩)
        · rw [path_nil] at h1; subst h1
          exact ⟨_, .here _, h2⟩
        · cases h2
    | cons k q =>
      constructor
      · rintro ⟨d, h1, h2⟩
        obtain ⟨d1, h3, h4⟩ := path_cons.1 h1
        rcases List.mem_append.1 h3 with h3 | h3
        · exact .inl ⟨d, .down h3 h4, h2⟩
        · obtain ⟨⟨k1, l1⟩, h5, h6⟩ := List.mem_map.1 h3
          cases h6
          cases q with
          | nil =>
            rw [path_nil] at h4; subst h4
            cases h2
            exact .inr ⟨_, l1, h5, rfl, rfl⟩
          | cons _ _ => cases h4
      · rintro (⟨d, h1, h2⟩ | ⟨k1, l, h1, h2, h3⟩)
        · obtain ⟨d1, h3, h4⟩ := path_cons.1 h1
          exact ⟨d, .down (List.mem_append_left _ h3) h4, h2⟩
        · cases h2
          subst h3
          exact ⟨.table l, .down (List.mem_append_right _ (List.mem_map.2 ⟨_, h1, rfl⟩)) (.here _), rfl⟩
  constructor
  · rintro (⟨q, rfl, h1⟩ | ⟨_, h1⟩)
    · rcases (key q).1 h1 with h1 | ⟨k, l, h1, rfl, h2⟩
      · exact .inl ((at_append hw hp).2 h1)
      · exact .inr ⟨k, l, by assumption, rfl, h2⟩
    · exact .inl h1
  · rintro (h1 | ⟨k, l, h1, rfl, h2⟩)
    · by_cases hpr : p <+: r
      · obtain ⟨q, rfl⟩ := hpr
        exact .inl ⟨q, rfl, (key q).2 (.inl ((at_append hw hp).1 h1))⟩
      · exact .inr ⟨hpr, h1⟩
    · exact .inl ⟨[k], rfl, (key _).2 (.inr ⟨k, l, h1, rfl, h2⟩)⟩

/-- Dropping entries of a dictionary. -/
theorem at_filter {t : Dom L} (hw : t.WF) {p : Ref} {kvs : List (Ident × Dom L)} (hp : Path t p (.dict kvs))
    (keep : Ident → Bool) {r : Ref} {x : Option L} :
    At (setAt p (.dict (kvs.filter (fun q => keep q.1))) t) r x ↔
      At t r x ∧ ∀ k q, r = p ++ k :: q → keep k = true := by
  rw [at_setAt rfl hw hp]
  constructor
  · rintro (⟨q, rfl, d, h1, h2⟩ | ⟨h0, h1⟩)
    · cases q with
      | nil =>
        rw [path_nil] at h1; subst h1
        exact ⟨⟨.dict kvs, by simpa using hp, h2⟩, fun k q he => by simp at he⟩
      | cons k q =>
        obtain ⟨d1, h3, h4⟩ := path_cons.1 h1
        rw [List.mem_filter] at h3
        refine ⟨⟨d, path_append.2 ⟨_, hp, .down h3.1 h4⟩, h2⟩, fun k' q' he => ?_⟩
        have := List.append_cancel_left he
        cases this
        exact h3.2
    · exact ⟨h1, fun k q he => absurd ⟨k :: q, he.symm⟩ h0⟩
  · rintro ⟨h1, h2⟩
    by_cases hpr : p <+: r
    · obtain ⟨q, rfl⟩ := hpr
      refine .inl ⟨q, rfl, ?_⟩
      obtain ⟨d, h3, h4⟩ := (at_append hw hp).1 h1
      cases q with
      | nil =>
        rw [path_nil] at h3; subst h3
        exact ⟨_, .here _, h4⟩
      | cons k q =>
        obtain ⟨d1, h5, h6⟩ := path_cons.1 h3
        exact ⟨d, .down (List.mem_filter.2 ⟨h5, h2 k q rfl⟩) h6, h4⟩
    · exact .inr ⟨hpr, h1⟩

/-! ## Temporary tables -/

theorem tempss_mem {kvs : List (Ident × Dom L)} {k : Ident} {d : Dom L} (h : (k, d) ∈ kvs) :
    (∀ n, k = .temporary n → n ∈ tempss kvs) ∧ ∀ n ∈ temps d, n ∈ tempss kvs := by
  induction kvs with
  | nil => cases h
  | cons x kvs ih =>
    obtain ⟨k1, d1⟩ := x
    rw [tempss]
    rcases List.mem_cons.1 h with he | hm
    · cases he
      refine ⟨?_, fun n hn => by simp [hn]⟩
      rintro n rfl
      simp [tempOf]
    · obtain ⟨h1, h2⟩ := ih hm
      exact ⟨fun n hn => by simp [h1 n hn], fun n hn => by simp [h2 n hn]⟩

theorem temps_path {t d : Dom L} {p : Ref} (h : Path t p d) : ∀ n ∈ temps d, n ∈ temps t := by
  induction h with
  | here => exact fun _ h => h
  | down hm _ ih =>
    intro n hn
    rw [temps]
    exact (tempss_mem hm).2 n (ih n hn)

theorem temps_at {t : Dom L} {p : Ref} {n : Nat} {x : Option L} (h : At t (p ++ [.temporary n]) x) : n ∈ temps t := by
  obtain ⟨d, h1, _⟩ := h
  obtain ⟨d', h2, h3⟩ := path_append.1 h1
  refine temps_path h2 n ?_
  cases d' with
  | table _ => cases h3
  | dict kvs =>
    obtain ⟨d2, h4, _⟩ := path_cons.1 h3
    rw [temps]
    exact (tempss_mem h4).1 n rfl

end Verif.Nested
