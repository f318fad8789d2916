import Verif.Nested.Compile
import Verif.Whole.Views

/-!
# C65: views are made and deleted in the nested dictionaries as in the list of tables
-/

namespace Verif.Nested

open Verif Verif.Schema Verif.Constraint Verif.Expr Verif.Query
open Verif.Relation (Ident Dom Ref RErr lookupDomain findReference findNamedTables Path UniqueNames EndsWith wfs_mem lookupDomain_iff namesOf)
open Verif.Whole (Tab PubFrame)

/-! ## Specification -/

/-- The nested dictionaries hold the given tables, each under its name and in its ID space, with the columns, metric, rows
and constraints it should have, and no other named tables. -/
structure Rep (tables : List (String × Tab)) (st : Store) : Prop where
  good : Good st.state
  tabs : ∀ n t, Dict.get tables n = some t →
    At st.state.tree (place t.space ++ [.named n]) (some ⟨t.dom, t.metric, t.run⟩) ∧ Dict.get st.cons (.named n) = some t.cons
  only : ∀ n, Dict.get tables n = none → ∀ r x, At st.state.tree r x → ¬ EndsWith r n

/-! ## Proofs -/

/-! ### Catalogs -/

/-- What a catalog says about a table. -/
def entry (t : Tab) : Option (Schema × List Constraint) :=
  match t.schema with
  | .ok s => some (s, t.cons)
  | .error _ => none

theorem privCat_entry : ∀ {tables : List (String × Tab)} {d : Dict String (Schema × List Constraint)},
    Whole.privCat tables = .ok d → ∀ n, Dict.get d n = (Dict.get tables n).bind entry
  | [], d, h, n => by cases h; rfl
  | (n', t) :: rest, d, h, n => by
    dsimp only [Whole.privCat] at h
    split at h
    · next s' d' h1 h2 =>
      split at h
      · cases h
      cases h
      rw [Dict.get_cons, Dict.get_cons]
      split
      · simp [entry, h1]
      · exact privCat_entry h2 n
    · cases h
    · cases h

theorem privCat_keys : ∀ {tables : List (String × Tab)} {d : Dict String (Schema × List Constraint)},
    Whole.privCat tables = .ok d → Dict.keys d = tables.map Prod.fst ∧ ∀ p ∈ tables, ∃ s, p.2.schema = .ok s
  | [], d, h => by cases h; exact ⟨rfl, nofun⟩
  | (n', t) :: rest, d, h => by
    dsimp only [Whole.privCat] at h
    split at h
    · next s' d' h1 h2 =>
      split at h
      · cases h
      cases h
      obtain ⟨a, b⟩ := privCat_keys h2
      refine ⟨by simp [Dict.keys] at a ⊢; exact a, ?_⟩
      intro p hp
      rcases List.mem_cons.1 hp with rfl | hp
      · exact ⟨s', h1⟩
      · exact b p hp
    · cases h
    · cases h

theorem privCat_exists : ∀ {tables : List (String × Tab)}, (tables.map Prod.fst).Nodup →
    (∀ p ∈ tables, ∃ s, p.2.schema = .ok s) → ∃ d, Whole.privCat tables = .ok d
  | [], _, _ => ⟨[], rfl⟩
  | (n, t) :: rest, hn, hs => by
    rw [List.map_cons, List.nodup_cons] at hn
    obtain ⟨s, h1⟩ := hs (n, t) (by simp)
    obtain ⟨d, h2⟩ := privCat_exists hn.2 (fun p hp => hs p (List.mem_cons_of_mem _ hp))
    dsimp only [Whole.privCat]
    dsimp only at h1
    rw [h1, h2]
    refine ⟨_, if_neg ?_⟩
    rw [(privCat_keys h2).1]
    exact hn.1

theorem sch_congr {a b : Cat} (h : ∀ id, Dict.get a.priv id = Dict.get b.priv id) (hp : a.pub = b.pub) :
    ∀ e, schemaOf a e = schemaOf b e := by
  obtain ⟨ap, aq⟩ := a
  obtain ⟨bp, bq⟩ := b
  dsimp only at h hp
  subst hp
  intro e
  induction e with
  | source id => simp only [schemaOf, schSource, h]
  | joinPrivate l r _ _ _ ihl ihr => simp only [schemaOf, ihl, ihr]
  | joinPublic e p c how ih => simp only [schemaOf, ih]; rfl
  | _ => simp only [schemaOf, *]

theorem comp_congr {hh : Hash} {a b : Cat} (h : ∀ id, Dict.get a.priv id = Dict.get b.priv id) (hp : a.pub = b.pub) :
    ∀ e, compile hh a e = compile hh b e := by
  obtain ⟨ap, aq⟩ := a
  obtain ⟨bp, bq⟩ := b
  dsimp only at h hp
  subst hp
  intro e
  induction e with
  | source id => simp only [compile, visitSource, h]
  | joinPrivate l r _ _ _ ihl ihr => simp only [compile, ihl, ihr]
  | joinPublic e p c how ih => simp only [compile, ih]; rfl
  | _ => simp only [compile, *]

/-! ### What a session knows about its tables -/

theorem mem_namesOf {n : String} : ∀ {rs : List Ref}, n ∈ namesOf rs ↔ ∃ r ∈ rs, EndsWith r n
  | [] => by simp [namesOf]
  | r :: rs => by
    rw [namesOf]
    split
    · next n' h => simp [mem_namesOf (rs := rs), EndsWith, h, eq_comm]
    · next h =>
      rw [mem_namesOf (rs := rs)]
      constructor
      · rintro ⟨r', h1, h2⟩; exact ⟨r', List.mem_cons_of_mem _ h1, h2⟩
      · rintro ⟨r', h1, h2⟩
        rcases List.mem_cons.1 h1 with rfl | h1
        · exact absurd h2 (h n)
        · exact ⟨r', h1, h2⟩

theorem nodup_namesOf : ∀ {rs : List Ref}, rs.Nodup → (∀ n r r', r ∈ rs → r' ∈ rs → EndsWith r n → EndsWith r' n → r = r') →
    (namesOf rs).Nodup
  | [], _, _ => by simp [namesOf]
  | r :: rs, hn, hu => by
    have ih := nodup_namesOf (List.nodup_cons.1 hn).2
      (fun n a b ha hb => hu n a b (List.mem_cons_of_mem _ ha) (List.mem_cons_of_mem _ hb))
    rw [namesOf]
    split
    · next n h =>
      refine List.nodup_cons.2 ⟨fun hm => ?_, ih⟩
      obtain ⟨r', h1, h2⟩ := mem_namesOf.1 hm
      have := hu n r r' (by simp) (List.mem_cons_of_mem _ h1) h h2
      subst this
      exact (List.nodup_cons.1 hn).1 h1
    · exact ih

section
variable {tables : List (String × Tab)} {st : Store}

theorem Rep.at_name (hr : Rep tables st) {r : Ref} {x : Option Leaf} {n : String} (h : At st.state.tree r x)
    (he : EndsWith r n) : ∃ t, Dict.get tables n = some t ∧ r = place t.space ++ [.named n] ∧ x = some ⟨t.dom, t.metric, t.run⟩ := by
  cases hg : Dict.get tables n with
  | none => exact absurd he (hr.only n hg r x h)
  | some t =>
    have h1 := (hr.tabs n t hg).1
    have := hr.good.names n r _ x _ h h1 he (endsWith_named.2 rfl)
    subst this
    exact ⟨t, rfl, rfl, at_unique hr.good.wf h h1⟩

/-- **C65**: `private_sources` are the names of the tables. -/
theorem C65_sources (hr : Rep tables st) :
    ∃ names, sources st.state = .ok names ∧ names.Nodup ∧ ∀ n, n ∈ names ↔ n ∈ tables.map Prod.fst := by
  obtain ⟨d, h1, h2⟩ := hr.good.root
  rw [path_nil] at h1
  subst h1
  obtain ⟨kvs, hk⟩ := skel_dict h2
  have hw := hr.good.wf
  rw [hk] at hw
  obtain ⟨rs, h3, h4, h5⟩ := Relation.C35_all hw
  rw [← hk] at h3 h5
  refine ⟨namesOf rs, by unfold sources; rw [h3], nodup_namesOf h4 ?_, fun n => ?_⟩
  · intro n r r' hr1 hr2 e1 e2
    obtain ⟨_, l, p1, _⟩ := (h5 r).1 hr1
    obtain ⟨_, l', p2, _⟩ := (h5 r').1 hr2
    exact hr.good.names n r r' _ _ ⟨_, p1, rfl⟩ ⟨_, p2, rfl⟩ e1 e2
  · rw [mem_namesOf]
    constructor
    · rintro ⟨r, h6, h7⟩
      obtain ⟨_, l, p1, _⟩ := (h5 r).1 h6
      obtain ⟨t, g1, _⟩ := hr.at_name ⟨_, p1, rfl⟩ h7
      exact Dict.mem_keys.2 ⟨t, Dict.mem_of_get g1⟩
    · intro h
      obtain ⟨t, ht⟩ := Option.isSome_iff_exists.1 (Dict.get_isSome.2 h)
      obtain ⟨d, p1, p2⟩ := (hr.tabs n t ht).1
      rw [skel_table p2] at p1
      exact ⟨_, (h5 _).2 ⟨n, _, p1, endsWith_named.2 rfl⟩, endsWith_named.2 rfl⟩

/-- **C65**: what `get_schema`, `get_column_types`, `get_grouping_column`, `get_id_column` and `get_id_space` are made from, and
the constraints. -/
theorem C65_table (hr : Rep tables st) (n : String) :
    tabOf st n = match Dict.get tables n with
      | none => .error .key
      | some t => .ok { t with dist := 0 } := by
  unfold tabOf
  cases hg : Dict.get tables n with
  | none => rw [find_none.2 (hr.only n hg)]
  | some t =>
    obtain ⟨h1, h2⟩ := hr.tabs n t hg
    rw [find_ok hr.good h1 (endsWith_named.2 rfl)]
    dsimp only
    rw [(leafAt_ok hr.good.wf).2 h1, h2]
    simp only [List.dropLast_concat, spaceOf_place]

theorem tabsOf_ok (hr : Rep tables st) : ∀ {names : List String}, (∀ n ∈ names, n ∈ tables.map Prod.fst) →
    ∃ ts, tabsOf st names = .ok ts ∧ ts.map Prod.fst = names ∧
      ∀ p ∈ ts, ∃ t, Dict.get tables p.1 = some t ∧ p.2 = { t with dist := 0 }
  | [], _ => ⟨[], rfl, rfl, nofun⟩
  | n :: ns, h => by
    obtain ⟨ts, h1, h2, h3⟩ := tabsOf_ok hr (names := ns) (fun m hm => h m (List.mem_cons_of_mem _ hm))
    obtain ⟨t, ht⟩ := Option.isSome_iff_exists.1 (Dict.get_isSome.2 (h n (by simp)))
    have h4 := C65_table hr n
    rw [ht] at h4
    refine ⟨(n, { t with dist := 0 }) :: ts, ?_, by simp [h2], ?_⟩
    · rw [tabsOf, h4, h1]
    · intro p hp
      rcases List.mem_cons.1 hp with rfl | hp
      · exact ⟨t, ht, rfl⟩
      · exact h3 p hp

theorem entry_dist (t : Tab) : entry { t with dist := 0 } = entry t := rfl

/-- The catalog made from the nested dictionaries. -/
theorem catalog_rep (hr : Rep tables st) {pub : List (String × PubFrame)} {cat : Cat} (hc : Whole.catalog tables pub = .ok cat) :
    ∃ cat', catalogOf st pub = .ok cat' ∧ (∀ id, Dict.get cat'.priv id = Dict.get cat.priv id) ∧ cat'.pub = cat.pub := by
  obtain ⟨c1, c2⟩ := Whole.catalog_ok hc
  obtain ⟨names, h1, h2, h3⟩ := C65_sources hr
  obtain ⟨ts, h4, h5, h6⟩ := tabsOf_ok hr (fun n hn => (h3 n).1 hn)
  have hs := (privCat_keys c1).2
  obtain ⟨d, h7⟩ := privCat_exists (tables := ts) (h5 ▸ h2) (fun p hp => by
    obtain ⟨t, g1, g2⟩ := h6 p hp
    obtain ⟨s, g3⟩ := hs _ (Dict.mem_of_get g1)
    exact ⟨s, by rw [g2]; exact g3⟩)
  refine ⟨⟨d, cat.pub⟩, ?_, fun id => ?_, rfl⟩
  · unfold catalogOf
    rw [h1]
    dsimp only
    rw [h4]
    dsimp only
    unfold Whole.catalog
    rw [h7, c2]
  · dsimp only
    rw [privCat_entry h7, privCat_entry c1]
    cases hg : Dict.get tables id with
    | none =>
      have : Dict.get ts id = none := by
        by_contra hne
        have : id ∈ Dict.keys ts := Dict.get_isSome.1 (Option.isSome_iff_ne_none.2 hne)
        have : id ∈ tables.map Prod.fst := (h3 id).1 (h5 ▸ this)
        have := Dict.get_isSome.2 (show id ∈ Dict.keys tables from this)
        rw [hg] at this
        cases this
      rw [this]
    | some t =>
      have hin : id ∈ Dict.keys ts := by
        show id ∈ ts.map Prod.fst
        rw [h5, h3]
        exact Dict.mem_keys.2 ⟨t, Dict.mem_of_get hg⟩
      obtain ⟨t', ht'⟩ := Option.isSome_iff_exists.1 (Dict.get_isSome.2 hin)
      obtain ⟨t2, g1, g2⟩ := h6 _ (Dict.mem_of_get ht')
      dsimp only at g1 g2
      rw [hg] at g1
      cases g1
      rw [ht', g2]
      exact entry_dist t

theorem srcs_rep (hr : Rep tables st) {pub : List (String × PubFrame)} {cat : Cat} (hc : Whole.catalog tables pub = .ok cat)
    (hw : ∀ n t, Dict.get tables n = some t → Dict.WF t.dom) : Srcs st.state cat (Whole.resolve tables) := by
  obtain ⟨c1, c2⟩ := Whole.catalog_ok hc
  intro id
  have he := privCat_entry c1 id
  cases hg : Dict.get tables id with
  | none =>
    rw [he, hg]
    exact hr.only id hg
  | some t =>
    obtain ⟨s, hs⟩ := (privCat_keys c1).2 _ (Dict.mem_of_get hg)
    dsimp only at hs
    have : Dict.get cat.priv id = some (s, t.cons) := by rw [he, hg]; simp [entry, hs]
    rw [this]
    dsimp only
    have sf := t.schema_for (hw id t hg) hs
    rw [sf.dom, sf.metric, sf.idSpace]
    have hrun : (fun D => Whole.resolve tables D id) = t.run := by
      funext D
      simp only [Whole.resolve, hg]
    rw [hrun]
    exact (hr.tabs id t hg).1

end

/-! ### Copies -/

theorem copy_ok {s : State} (hg : Good s) {sp : Option String} {k : Ident} {l : Leaf}
    (hl : At s.tree (place sp ++ [k]) (some l)) {target : Ident} (hnew : ∀ x, ¬ At s.tree (place sp ++ [target]) x)
    (hcoll : NotColl target) (hname : ∀ n, target = .named n → ∀ r x, At s.tree r x → ¬ EndsWith r n) :
    ∃ s', copyTable s (place sp ++ [k]) target = .ok (s', place sp ++ [target]) ∧ Good s' ∧
      ∀ r x, At s'.tree r x ↔ At s.tree r x ∨ (r = place sp ++ [target] ∧ x = some l) := by
  obtain ⟨sp1, k1, kvs, e1, hp, hget, -, -, hkind⟩ := loc hg hl
  have a1 : place sp = place sp1 := by simpa using congrArg List.dropLast e1
  have := place_inj a1; subst this
  have := List.append_cancel_left e1; cases this
  have hk : target ∉ Dict.keys kvs := by
    intro h1
    obtain ⟨d, h2⟩ := Dict.mem_keys.1 h1
    exact hnew (skel d) ⟨d, path_append.2 ⟨_, hp, .down h2 (.here _)⟩, rfl⟩
  have hat := fun r x => at_add hg.wf hp [(target, l)] (r := r) (x := x)
  refine ⟨⟨setAt (place sp) (.dict (kvs ++ [(target, .table l)])) s.tree, s.arks⟩, ?_, ?_, fun r x => ?_⟩
  · unfold copyTable
    simp only [List.getLast?_append, List.getLast?_singleton, Option.some_or, List.dropLast_concat]
    rw [nested_both hg hp]
    unfold copyGen
    rw [hget]
    dsimp only
    rw [addEntry_ok hk]
    rfl
  · refine good_add hg hp [(target, l)] (by simp) ?_
    intro k' x hx
    simp only [List.mem_singleton, Prod.mk.injEq] at hx
    obtain ⟨rfl, rfl⟩ := hx
    exact ⟨hk, hcoll, hkind, hname⟩
  · refine (hat r x).trans (or_congr_right ?_)
    simp

theorem not_temp {core : Core} (hc : core.Lawful) (s : State) (p : Ref) (x : Option Leaf) :
    ¬ At s.tree (p ++ [newTemp core s]) x := fun h => hc _ (temps_at h)

/-- Persisting a table, or not. -/
theorem persist_ok {core : Core} (hc : core.Lawful) {s : State} (hg : Good s) {sp : Option String} {k : Ident} {l : Leaf}
    (hl : At s.tree (place sp ++ [k]) (some l)) (cache : Bool) :
    ∃ s' k', (if cache then persistTable core s (place sp ++ [k]) else .ok (s, place sp ++ [k])) = .ok (s', place sp ++ [k']) ∧
      Good s' ∧ Ext s s' ∧ At s'.tree (place sp ++ [k']) (some l) := by
  cases cache with
  | false => exact ⟨s, k, rfl, hg, .refl s, hl⟩
  | true =>
    obtain ⟨s', h1, h2, h3⟩ := copy_ok hg hl (not_temp hc s (place sp)) (notColl_temp _) nofun
    refine ⟨s', newTemp core s, h1, h2, ⟨fun r x h => (h3 r x).2 (.inl h), fun r x h => ?_⟩, (h3 _ _).2 (.inr ⟨rfl, rfl⟩)⟩
    rcases (h3 r x).1 h with h | ⟨h, _⟩
    · exact .inl h
    · exact .inr ⟨_, _, h⟩

/-- Temporary tables are not seen. -/
theorem rep_ext {tables : List (String × Tab)} {st : Store} (hr : Rep tables st) {s' : State} (hg : Good s') (he : Ext st.state s') :
    Rep tables ⟨s', st.cons⟩ := by
  refine ⟨hg, fun n t h => ⟨he.old _ _ (hr.tabs n t h).1, (hr.tabs n t h).2⟩, fun n h r x hx hend => ?_⟩
  rcases he.new r x hx with h1 | ⟨p, m, rfl⟩
  · exact hr.only n h r x h1 hend
  · exact endsWith_temp hend

theorem rep_add {tables : List (String × Tab)} {st : Store} (hr : Rep tables st) {name : String} (hn : Dict.get tables name = none)
    {t : Tab} {s' : State} (hg : Good s') (hat : ∀ r x, At s'.tree r x ↔ At st.state.tree r x ∨
      (r = place t.space ++ [.named name] ∧ x = some ⟨t.dom, t.metric, t.run⟩)) :
    Rep ((name, t) :: tables) ⟨s', Dict.set st.cons (.named name) t.cons⟩ := by
  refine ⟨hg, fun n u h => ?_, fun n h r x hx hend => ?_⟩
  · rw [Dict.get_cons] at h
    split at h
    · next heq =>
      cases h
      subst heq
      exact ⟨(hat _ _).2 (.inr ⟨rfl, rfl⟩), by rw [Dict.get_set]; simp⟩
    · next hne =>
      obtain ⟨h1, h2⟩ := hr.tabs n u h
      refine ⟨(hat _ _).2 (.inl h1), ?_⟩
      rw [Dict.get_set]
      rw [if_neg (fun h => hne (by cases h; rfl))]
      exact h2
  · rw [Dict.get_cons] at h
    split at h
    · cases h
    · next hne =>
      rcases (hat r x).1 hx with h1 | ⟨rfl, _⟩
      · exact hr.only n h r x h1 hend
      · exact hne (endsWith_named.1 hend).symm

end Verif.Nested
