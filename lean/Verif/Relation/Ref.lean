import Verif.Schema.Dict
import Mathlib.Data.List.Nodup
import Mathlib.Data.List.TakeWhile

/-!
# Table references

Source: `/repo/src/tmlt/analytics/_table_reference.py`, identifiers from `_table_identifier.py`. A `TableReference` is
its path. Domains are nested dictionaries with tables at the leaves.
-/

namespace Verif.Relation

open Verif

/-- Identifiers (`_table_identifier.py` l. 9-60). A `TemporaryTable` is given by its number. -/
inductive Ident where
  | named (name : String)
  | collection (name : String)
  | temporary (id : Nat)
  deriving DecidableEq, Repr

/-- Exceptions. -/
inductive RErr where
  | value
  | key
  | index
  | type
  deriving DecidableEq, Repr

/-- Core domains: `DictDomain` or the domain of a single table, described by `L`. -/
inductive Dom (L : Type) where
  | table (l : L)
  | dict (kvs : List (Ident × Dom L))

abbrev Ref := List Ident

variable {L : Type}

/-- `lookup_domain` (l. 55-65). -/
def lookupDomain : Dom L → Ref → Except RErr (Dom L)
  | d, [] => .ok d
  | .dict kvs, k :: p =>
    match Dict.get kvs k with
    | none => .error .key
    | some d => lookupDomain d p
  | .table _, _ :: _ => .error .value

/-- `find_children` (l. 85-92). -/
def findChildren (dom : Dom L) (ref : Ref) : Except RErr (Option (List Ref)) :=
  match lookupDomain dom ref with
  | .error e => .error e
  | .ok (.dict kvs) => .ok (some (kvs.map (fun p => ref ++ [p.1])))
  | .ok (.table _) => .ok none

/-- The loop of `find_named_tables` (l. 99-105). The head of `pending` is the end of Python's list. The first argument
bounds the number of iterations; the result is `none` when it is exceeded. -/
def findLoop (dom : Dom L) : Nat → List Ref → List Ref → Option (Except RErr (List Ref))
  | _, [], tables => some (.ok tables)
  | 0, _ :: _, _ => none
  | n + 1, ref :: pending, tables =>
    match findChildren dom ref with
    | .error e => some (.error e)
    | .ok none => findLoop dom n pending (tables ++ [ref])
    | .ok (some children) => findLoop dom n (children.reverse ++ pending) tables

/-- `isinstance(t.path[-1], NamedTable)` (l. 106). -/
def lastNamed (p : Ref) : Except RErr Bool :=
  match p.getLast? with
  | none => .error .index
  | some (.named _) => .ok true
  | some _ => .ok false

/-- The list comprehension in l. 106. -/
def keepNamed : List Ref → Except RErr (List Ref)
  | [] => .ok []
  | p :: ps =>
    match lastNamed p with
    | .error e => .error e
    | .ok b => (keepNamed ps).map (fun qs => if b then p :: qs else qs)

/-! The number of nodes of a domain. -/
mutual
def Dom.size : Dom L → Nat
  | .table _ => 1
  | .dict kvs => 1 + sizes kvs
def sizes : List (Ident × Dom L) → Nat
  | [] => 0
  | (_, d) :: rest => d.size + sizes rest
end

/-- `find_named_tables` (l. 95-106). -/
def findNamedTables (dom : Dom L) : Option (Except RErr (List Ref)) :=
  (findLoop dom dom.size [[]] []).map (fun r => r.bind keepNamed)

mutual
/-- `find_reference` (l. 109-118). -/
def findReference (name : String) : Dom L → Option Ref
  | .table _ => none
  | .dict kvs => findReferences name kvs
def findReferences (name : String) : List (Ident × Dom L) → Option Ref
  | [] => none
  | (k, d) :: rest =>
    if k = .named name then some [k]
    else
      match findReference name d with
      | some r => some (k :: r)
      | none => findReferences name rest
end

/-! ## Specification -/

/-- `p` leads from `d` to `d'`. -/
inductive Path : Dom L → Ref → Dom L → Prop
  | here (d : Dom L) : Path d [] d
  | down {kvs : List (Ident × Dom L)} {k : Ident} {d d' : Dom L} {p : Ref} :
    (k, d) ∈ kvs → Path d p d' → Path (.dict kvs) (k :: p) d'

/-! Dictionaries have no repeated keys. -/
mutual
def Dom.WF : Dom L → Prop
  | .table _ => True
  | .dict kvs => (kvs.map Prod.fst).Nodup ∧ wfs kvs
def wfs : List (Ident × Dom L) → Prop
  | [] => True
  | (_, d) :: rest => d.WF ∧ wfs rest
end

/-- The reference ends with the name of a table. -/
def EndsWith (p : Ref) (name : String) : Prop := p.getLast? = some (.named name)

/-- No name is used twice. -/
def UniqueNames (dom : Dom L) : Prop :=
  ∀ name p q d d', Path dom p d → Path dom q d' → EndsWith p name → EndsWith q name → p = q

/-! ## Proofs -/

theorem wfs_mem {kvs : List (Ident × Dom L)} (h : wfs kvs) {k d} (hm : (k, d) ∈ kvs) : d.WF := by
  induction kvs with
  | nil => simp at hm
  | cons x kvs ih =>
    obtain ⟨k', d'⟩ := x
    rw [wfs] at h
    rcases List.mem_cons.1 hm with he | hm'
    · cases he
      exact h.1
    · exact ih h.2 hm'

/-- Looking up a reference gives the domain it leads to. -/
theorem lookupDomain_iff : ∀ (p : Ref) (d d' : Dom L), d.WF → (lookupDomain d p = .ok d' ↔ Path d p d')
  | [], d, d', _ => by
    rw [lookupDomain]
    constructor
    · intro h
      cases h
      exact .here _
    · intro h
      cases h
      rfl
  | k :: p, .table l, d', _ => by
    rw [lookupDomain]
    constructor <;> intro h <;> cases h
  | k :: p, .dict kvs, d', hw => by
    rw [Dom.WF] at hw
    rw [lookupDomain]
    cases hg : Dict.get kvs k with
    | none =>
      constructor
      · intro h
        cases h
      · intro h
        cases h with
        | down hm _ => exact absurd (Dict.mem_keys.2 ⟨_, hm⟩) (Dict.get_eq_none.1 hg)
    | some d =>
      have hm := Dict.mem_of_get hg
      dsimp only
      rw [lookupDomain_iff p d d' (wfs_mem hw.2 hm)]
      constructor
      · intro h
        exact .down hm h
      · intro h
        cases h with
        | down hm' hp =>
          have := (Dict.get_eq_some hw.1).2 hm'
          rw [hg] at this
          cases this
          exact hp

theorem lookupDomain_append : ∀ (p q : Ref) (d d' : Dom L), lookupDomain d p = .ok d' →
    lookupDomain d (p ++ q) = lookupDomain d' q
  | [], q, d, d', h => by
    rw [lookupDomain] at h
    cases h
    rfl
  | k :: p, q, .table l, d', h => by rw [lookupDomain] at h; cases h
  | k :: p, q, .dict kvs, d', h => by
    rw [lookupDomain] at h
    rw [List.cons_append, lookupDomain]
    cases hg : Dict.get kvs k with
    | none => rw [hg] at h; cases h
    | some d =>
      rw [hg] at h
      exact lookupDomain_append p q d d' h

mutual
theorem findReference_some (name : String) : ∀ (d : Dom L) (r : Ref), findReference name d = some r →
    EndsWith r name ∧ ∃ d', Path d r d'
  | .table l, r, h => by rw [findReference] at h; cases h
  | .dict kvs, r, h => by
    rw [findReference] at h
    obtain ⟨h1, k, d, p, d', hm, hr, hp⟩ := findReferences_some name kvs r h
    exact ⟨h1, d', hr ▸ .down hm hp⟩
theorem findReferences_some (name : String) : ∀ (kvs : List (Ident × Dom L)) (r : Ref),
    findReferences name kvs = some r →
    EndsWith r name ∧ ∃ k d p d', (k, d) ∈ kvs ∧ r = k :: p ∧ Path d p d'
  | [], r, h => by rw [findReferences] at h; cases h
  | (k, d) :: rest, r, h => by
    rw [findReferences] at h
    by_cases hk : k = .named name
    · rw [if_pos hk] at h
      cases h
      refine ⟨by simp [EndsWith, hk], k, d, [], d, by simp, rfl, .here _⟩
    · rw [if_neg hk] at h
      cases hf : findReference name d with
      | some r' =>
        rw [hf] at h
        cases h
        obtain ⟨h1, d', hp⟩ := findReference_some name d r' hf
        refine ⟨?_, k, d, r', d', by simp, rfl, hp⟩
        unfold EndsWith at h1 ⊢
        rw [List.getLast?_cons, h1]
        rfl
      | none =>
        rw [hf] at h
        obtain ⟨h1, k', d1, p, d', hm, hr, hp⟩ := findReferences_some name rest r h
        exact ⟨h1, k', d1, p, d', List.mem_cons_of_mem _ hm, hr, hp⟩
end

mutual
theorem findReference_none (name : String) : ∀ (d : Dom L), findReference name d = none →
    ∀ p d', Path d p d' → ¬ EndsWith p name
  | .table l, _, p, d', hp => by
    cases hp
    simp [EndsWith]
  | .dict kvs, h, p, d', hp => by
    rw [findReference] at h
    cases hp with
    | here => simp [EndsWith]
    | down hm hp' => exact findReferences_none name kvs h _ _ hm _ _ hp'
theorem findReferences_none (name : String) : ∀ (kvs : List (Ident × Dom L)), findReferences name kvs = none →
    ∀ k d, (k, d) ∈ kvs → ∀ p d', Path d p d' → ¬ EndsWith (k :: p) name
  | [], _, k, d, hm, _, _, _ => by simp at hm
  | (k, d) :: rest, h, k', d1, hm, p, d', hp => by
    rw [findReferences] at h
    by_cases hk : k = .named name
    · rw [if_pos hk] at h
      cases h
    · rw [if_neg hk] at h
      cases hf : findReference name d with
      | some r' => rw [hf] at h; cases h
      | none =>
        rw [hf] at h
        rcases List.mem_cons.1 hm with he | hm'
        · cases he
          have hn := findReference_none name d hf p d' hp
          unfold EndsWith at hn ⊢
          rw [List.getLast?_cons]
          intro he
          cases hl : p.getLast? with
          | none => rw [hl] at he; simp at he; exact hk he
          | some x =>
            rw [hl] at he hn
            simp at he hn
            exact hn he
        · exact findReferences_none name rest h k' d1 hm' p d' hp
end

/-- **C35**: the reference found for a name leads to a table or collection of that name, and looking it up gives what
is there. -/
theorem C35_found {dom : Dom L} (hw : dom.WF) {name : String} {r : Ref} (h : findReference name dom = some r) :
    EndsWith r name ∧ ∃ d, lookupDomain dom r = .ok d ∧ Path dom r d := by
  obtain ⟨h1, d, hp⟩ := findReference_some name dom r h
  exact ⟨h1, d, (lookupDomain_iff r dom d hw).2 hp, hp⟩

/-- **C35**: nothing is found iff there is no such table. -/
theorem C35_missing (dom : Dom L) (name : String) :
    findReference name dom = none ↔ ¬ ∃ p d, Path dom p d ∧ EndsWith p name := by
  constructor
  · rintro h ⟨p, d, hp, he⟩
    exact findReference_none name dom h p d hp he
  · intro h
    cases hf : findReference name dom with
    | none => rfl
    | some r =>
      obtain ⟨h1, d, hp⟩ := findReference_some name dom r hf
      exact absurd ⟨r, d, hp, h1⟩ h

/-- **C35**: where names are unique, a table is found under its name at the place it is at. -/
theorem C35_exact {dom : Dom L} (hw : dom.WF) (hu : UniqueNames dom) {name : String} {p : Ref} {d : Dom L}
    (hp : Path dom p d) (he : EndsWith p name) :
    findReference name dom = some p ∧ lookupDomain dom p = .ok d := by
  refine ⟨?_, (lookupDomain_iff p dom d hw).2 hp⟩
  cases hf : findReference name dom with
  | none => exact absurd he (findReference_none name dom hf p d hp)
  | some r =>
    obtain ⟨h1, d', hp'⟩ := findReference_some name dom r hf
    rw [hu name p r d d' hp hp' he h1]

/-- **C35**: different names never lead to the same reference. -/
theorem C35_injective {dom : Dom L} {n n' : String} {r : Ref} (h : findReference n dom = some r)
    (h' : findReference n' dom = some r) : n = n' := by
  have h1 := (findReference_some n dom r h).1
  have h2 := (findReference_some n' dom r h').1
  unfold EndsWith at h1 h2
  rw [h1] at h2
  cases h2
  rfl

/-! ### All tables -/

/-! The references to the tables below a reference, in the order in which they are found. -/
mutual
def leaves : Ref → Dom L → List Ref
  | pre, .table _ => [pre]
  | pre, .dict kvs => leavess pre kvs
def leavess : Ref → List (Ident × Dom L) → List Ref
  | _, [] => []
  | pre, (k, d) :: rest => leavess pre rest ++ leaves (pre ++ [k]) d
end

mutual
theorem mem_leaves : ∀ (d : Dom L) (pre r : Ref), r ∈ leaves pre d ↔ ∃ p l, r = pre ++ p ∧ Path d p (.table l)
  | .table l, pre, r => by
    rw [leaves]
    constructor
    · intro h
      exact ⟨[], l, by simpa using h, .here _⟩
    · rintro ⟨p, l', rfl, hp⟩
      cases hp
      simp
  | .dict kvs, pre, r => by
    rw [leaves, mem_leavess]
    constructor
    · rintro ⟨k, d, p, l, hm, hr, hp⟩
      exact ⟨k :: p, l, hr, .down hm hp⟩
    · rintro ⟨p, l, hr, hp⟩
      cases hp with
      | down hm hp' => exact ⟨_, _, _, l, hm, hr, hp'⟩
theorem mem_leavess : ∀ (kvs : List (Ident × Dom L)) (pre r : Ref), r ∈ leavess pre kvs ↔
    ∃ k d p l, (k, d) ∈ kvs ∧ r = pre ++ k :: p ∧ Path d p (.table l)
  | [], pre, r => by simp [leavess]
  | (k, d) :: rest, pre, r => by
    rw [leavess, List.mem_append, mem_leavess rest, mem_leaves d]
    constructor
    · rintro (⟨k', d', p, l, hm, hr, hp⟩ | ⟨p, l, hr, hp⟩)
      · exact ⟨k', d', p, l, List.mem_cons_of_mem _ hm, hr, hp⟩
      · exact ⟨k, d, p, l, by simp, by simpa using hr, hp⟩
    · rintro ⟨k', d', p, l, hm, hr, hp⟩
      rcases List.mem_cons.1 hm with he | hm'
      · cases he
        exact .inr ⟨p, l, by simpa using hr, hp⟩
      · exact .inl ⟨k', d', p, l, hm', hr, hp⟩
end

mutual
theorem nodup_leaves : ∀ (d : Dom L) (pre : Ref), d.WF → (leaves pre d).Nodup
  | .table l, pre, _ => by simp [leaves]
  | .dict kvs, pre, h => by
    rw [Dom.WF] at h
    rw [leaves]
    exact nodup_leavess kvs pre h.1 h.2
theorem nodup_leavess : ∀ (kvs : List (Ident × Dom L)) (pre : Ref), (kvs.map Prod.fst).Nodup → wfs kvs →
    (leavess pre kvs).Nodup
  | [], pre, _, _ => by simp [leavess]
  | (k, d) :: rest, pre, hn, hw => by
    rw [leavess]
    rw [wfs] at hw
    rw [List.map_cons, List.nodup_cons] at hn
    refine List.Nodup.append (nodup_leavess rest pre hn.2 hw.2) (nodup_leaves d _ hw.1) ?_
    intro r h1 h2
    obtain ⟨k', d', p, l, hm, hr, _⟩ := (mem_leavess rest pre r).1 h1
    obtain ⟨p', l', hr', _⟩ := (mem_leaves d _ r).1 h2
    rw [hr] at hr'
    simp at hr'
    have hk : k' ∈ List.map Prod.fst rest := List.mem_map.2 ⟨(k', d'), hm, rfl⟩
    exact hn.1 (hr'.1 ▸ hk)
end

/-- What is at a reference. -/
def at_ (dom : Dom L) (r : Ref) : Option (Dom L) := (lookupDomain dom r).toOption

/-- The tables still to be found from a stack of references. -/
def rest (dom : Dom L) (pending : List Ref) : List Ref :=
  pending.flatMap (fun r => match at_ dom r with | some d => leaves r d | none => [])

/-- The work left in a stack of references. -/
def work (dom : Dom L) (pending : List Ref) : Nat :=
  (pending.map (fun r => match at_ dom r with | some d => d.size | none => 0)).sum

theorem at_child {dom : Dom L} {ref : Ref} {kvs : List (Ident × Dom L)} (hn : (kvs.map Prod.fst).Nodup)
    (h : lookupDomain dom ref = .ok (.dict kvs)) {k d} (hm : (k, d) ∈ kvs) : at_ dom (ref ++ [k]) = some d := by
  unfold at_
  rw [lookupDomain_append _ _ _ _ h, lookupDomain, (Dict.get_eq_some hn).2 hm]
  rfl

theorem rest_children {dom : Dom L} {ref : Ref} {kvs : List (Ident × Dom L)} (hn : (kvs.map Prod.fst).Nodup)
    (h : lookupDomain dom ref = .ok (.dict kvs)) :
    ∀ sub : List (Ident × Dom L), (∀ x ∈ sub, x ∈ kvs) →
      rest dom (sub.map (fun p => ref ++ [p.1])).reverse = leavess ref sub ∧
      work dom (sub.map (fun p => ref ++ [p.1])).reverse = sizes sub
  | [], _ => by simp [rest, work, leavess, sizes]
  | (k, d) :: sub, hs => by
    obtain ⟨h1, h2⟩ := rest_children hn h sub (fun x hx => hs x (List.mem_cons_of_mem _ hx))
    have ha := at_child hn h (hs (k, d) (by simp))
    constructor
    · rw [List.map_cons, List.reverse_cons, rest, List.flatMap_append]
      unfold rest at h1
      rw [h1, leavess]
      simp [ha]
    · rw [List.map_cons, List.reverse_cons, work, List.map_append, List.sum_append]
      unfold work at h2
      rw [h2, sizes]
      simp [ha]
      omega

theorem path_wf {d d' : Dom L} {p : Ref} (hp : Path d p d') : d.WF → d'.WF := by
  induction hp with
  | here => exact id
  | down hm _ ih =>
    intro h
    rw [Dom.WF] at h
    exact ih (wfs_mem h.2 hm)

theorem size_pos : ∀ d : Dom L, 0 < d.size
  | .table _ => by rw [Dom.size]; omega
  | .dict _ => by rw [Dom.size]; omega

theorem findLoop_ok {dom : Dom L} (hw : dom.WF) : ∀ (n : Nat) (pending tables : List Ref),
    (∀ r ∈ pending, ∃ d, lookupDomain dom r = .ok d) → work dom pending ≤ n →
    findLoop dom n pending tables = some (.ok (tables ++ rest dom pending))
  | n, [], tables, _, _ => by
    cases n <;> simp [findLoop, rest]
  | 0, r :: pending, tables, hp, hn => by
    obtain ⟨d, hd⟩ := hp r (by simp)
    have := size_pos d
    have ha : at_ dom r = some d := by unfold at_; rw [hd]; rfl
    unfold work at hn
    rw [List.map_cons, List.sum_cons, ha] at hn
    dsimp only at hn
    omega
  | n + 1, r :: pending, tables, hp, hn => by
    obtain ⟨d, hd⟩ := hp r (by simp)
    have hp' : ∀ r ∈ pending, ∃ d, lookupDomain dom r = .ok d := fun x hx => hp x (List.mem_cons_of_mem _ hx)
    have ha : at_ dom r = some d := by unfold at_; rw [hd]; rfl
    have hwd : d.WF := path_wf ((lookupDomain_iff r dom d hw).1 hd) hw
    unfold work at hn
    rw [List.map_cons, List.sum_cons, ha] at hn
    dsimp only at hn
    have hr : rest dom (r :: pending) = leaves r d ++ rest dom pending := by
      unfold rest
      rw [List.flatMap_cons, ha]
    rw [findLoop, findChildren, hd, hr]
    cases d with
    | table l =>
      dsimp only
      rw [Dom.size] at hn
      rw [findLoop_ok hw n pending _ hp' (by unfold work; omega), leaves]
      simp
    | dict kvs =>
      dsimp only
      rw [Dom.WF] at hwd
      rw [Dom.size] at hn
      obtain ⟨h1, h2⟩ := rest_children hwd.1 hd kvs (fun x hx => hx)
      have h3 : rest dom ((kvs.map (fun p => r ++ [p.1])).reverse ++ pending) =
          leavess r kvs ++ rest dom pending := by
        rw [← h1]
        simp [rest]
      have h4 : work dom ((kvs.map (fun p => r ++ [p.1])).reverse ++ pending) =
          sizes kvs + work dom pending := by
        rw [← h2]
        simp [work]
      rw [findLoop_ok hw n _ _ ?_ ?_, h3, leaves]
      · intro x hx
        rcases List.mem_append.1 hx with hx | hx
        · rw [List.mem_reverse, List.mem_map] at hx
          obtain ⟨⟨k, d⟩, hm, rfl⟩ := hx
          have := at_child hwd.1 hd hm
          unfold at_ at this
          cases hl : lookupDomain dom (r ++ [k]) with
          | error e => rw [hl] at this; cases this
          | ok d' => exact ⟨d', rfl⟩
        · exact hp' x hx
      · rw [h4]
        unfold work
        omega

theorem keepNamed_ok : ∀ {ps : List Ref}, (∀ p ∈ ps, p ≠ []) →
    keepNamed ps = .ok (ps.filter (fun p => match p.getLast? with | some (.named _) => true | _ => false))
  | [], _ => rfl
  | p :: ps, h => by
    rw [keepNamed, keepNamed_ok (fun x hx => h x (List.mem_cons_of_mem _ hx)), lastNamed]
    cases hl : p.getLast? with
    | none => exact absurd (List.getLast?_eq_none_iff.1 hl) (h p (by simp))
    | some k =>
      cases k <;> simp [hl, Except.map, List.filter_cons]

/-- **C35**: `find_named_tables` lists every named table exactly once, and nothing else. -/
theorem C35_all {kvs : List (Ident × Dom L)} (hw : (Dom.dict kvs).WF) :
    ∃ rs, findNamedTables (.dict kvs) = some (.ok rs) ∧ rs.Nodup ∧
      ∀ r, r ∈ rs ↔ ∃ name l, Path (.dict kvs) r (.table l) ∧ EndsWith r name := by
  have hrest : rest (Dom.dict kvs) [[]] = leaves [] (.dict kvs) := by
    simp [rest, at_, lookupDomain, Except.toOption]
  have hl := findLoop_ok hw (Dom.dict kvs).size [[]] []
    (fun r hr => by
      rw [List.mem_singleton] at hr
      subst hr
      exact ⟨_, by rw [lookupDomain]⟩)
    (by simp [work, at_, lookupDomain, Except.toOption])
  rw [List.nil_append, hrest] at hl
  have hne : ∀ p ∈ leaves [] (Dom.dict kvs), p ≠ [] := by
    intro p hp he
    obtain ⟨q, l, hq, hpath⟩ := (mem_leaves _ _ _).1 hp
    rw [he] at hq
    simp at hq
    subst hq
    cases hpath
  refine ⟨_, by rw [findNamedTables, hl]; exact congrArg some (keepNamed_ok hne), ?_, ?_⟩
  · exact (nodup_leaves _ _ hw).filter _
  · intro r
    rw [List.mem_filter, mem_leaves]
    constructor
    · rintro ⟨⟨p, l, hr, hp⟩, hn⟩
      rw [List.nil_append] at hr
      subst hr
      cases hg : r.getLast? with
      | none => rw [hg] at hn; cases hn
      | some k =>
        rw [hg] at hn
        cases k with
        | named name => exact ⟨name, l, hp, hg⟩
        | collection _ => cases hn
        | temporary _ => cases hn
    · rintro ⟨name, l, hp, he⟩
      unfold EndsWith at he
      exact ⟨⟨r, l, by simp, hp⟩, by rw [he]⟩

/-- A table beside a collection of two tables. -/
def demoDom : Dom Nat :=
  .dict [(.named "a", .table 0), (.collection "ids", .dict [(.named "b", .table 1), (.named "c", .table 2)])]

/-- The hypotheses are met, and the result is as expected. -/
theorem C35_example : demoDom.WF ∧ UniqueNames demoDom ∧
    findReference "c" demoDom = some [.collection "ids", .named "c"] ∧
    findNamedTables demoDom =
      some (.ok [[.collection "ids", .named "c"], [.collection "ids", .named "b"], [.named "a"]]) := by
  refine ⟨by simp [demoDom, Dom.WF, wfs], ?_, by decide +kernel, by rfl⟩
  have all : ∀ p d, Path demoDom p d → p = [] ∨ p = [.named "a"] ∨ p = [.collection "ids"] ∨
      p = [.collection "ids", .named "b"] ∨ p = [.collection "ids", .named "c"] := by
    intro p d hp
    unfold demoDom at hp
    cases hp with
    | here => simp
    | down hm hp =>
      simp only [List.mem_cons, Prod.mk.injEq, List.not_mem_nil, or_false] at hm
      rcases hm with ⟨rfl, rfl⟩ | ⟨rfl, rfl⟩
      · cases hp
        simp
      · cases hp with
        | here => simp
        | down hm hp =>
          simp only [List.mem_cons, Prod.mk.injEq, List.not_mem_nil, or_false] at hm
          rcases hm with ⟨rfl, rfl⟩ | ⟨rfl, rfl⟩ <;> cases hp <;> simp
  intro name p q d d' hp hq h1 h2
  have h3 : p.getLast? = q.getLast? := h1.trans h2.symm
  unfold EndsWith at h1 h2
  rcases all p d hp with rfl | rfl | rfl | rfl | rfl <;> rcases all q d' hq with rfl | rfl | rfl | rfl | rfl <;>
    simp at h1 h2 h3 ⊢

end Verif.Relation
