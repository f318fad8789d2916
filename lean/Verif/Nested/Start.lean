import Verif.Nested.Views
import Verif.Whole.Answers

/-!
# C65: the nested dictionaries of a new session
-/

namespace Verif.Nested

open Verif Verif.Schema Verif.Constraint Verif.Expr Verif.Query
open Verif.Relation (Ident Dom Ref RErr lookupDomain findReference findNamedTables Path UniqueNames EndsWith wfs_mem lookupDomain_iff
  namesOf TableSchema GoodOut tableDom Output)
open Verif.Whole (Tab PubFrame startTables startTab tableMetric coreMeasure)

/-! The tables of a domain, with what else is known about them. -/
mutual
def annotate (f : Ref → TableSchema → Leaf) : Ref → Dom TableSchema → Tree
  | p, .table s => .table (f p s)
  | p, .dict kvs => .dict (annotates f p kvs)
def annotates (f : Ref → TableSchema → Leaf) : Ref → List (Ident × Dom TableSchema) → Entries
  | _, [] => []
  | p, (k, d) :: rest => (k, annotate f (p ++ [k]) d) :: annotates f p rest
end

/-- A table of a new session: the metric is the one at its place, the rows are those given under its name. -/
def startLeaf (out : Output) (p : Ref) (s : TableSchema) : Leaf :=
  ⟨s, match Relation.lookupMetric out.metric p with
      | .ok m => tableMetric m
      | .error _ => .symDiff,
    fun D => match p.getLast? with
      | some (.named n) => D n
      | _ => []⟩

/-- The dictionaries with an `AddRemoveKeys` metric. -/
def startArks (out : Output) : List Ref :=
  match out.metric with
  | .dict kvs => kvs.filterMap (fun q => match q.2 with
    | .addRemoveKeys _ => some [q.1]
    | _ => none)
  | _ => []

/-- A new session (`_from_neighboring_relation`, `session.py` l. 455-474): the accountant's input (l. 403-453) and
`_table_constraints` (l. 328-332). -/
def startStore (out : Output) : Store :=
  ⟨⟨annotate (startLeaf out) [] out.domain, startArks out⟩,
   match Relation.privateSources out.domain with
   | .ok names => names.map (fun n => (.named n, []))
   | .error _ => []⟩

/-! ## Proofs -/

theorem annotates_mem (f : Ref → TableSchema → Leaf) (p : Ref) : ∀ {kvs : List (Ident × Dom TableSchema)} {k : Ident} {d : Tree},
    (k, d) ∈ annotates f p kvs ↔ ∃ d0, (k, d0) ∈ kvs ∧ d = annotate f (p ++ [k]) d0
  | [], k, d => by simp [annotates]
  | (k', d') :: rest, k, d => by
    rw [annotates, List.mem_cons, annotates_mem f p]
    constructor
    · rintro (h | ⟨d0, h1, h2⟩)
      · cases h; exact ⟨d', by simp, rfl⟩
      · exact ⟨d0, List.mem_cons_of_mem _ h1, h2⟩
    · rintro ⟨d0, h1, h2⟩
      rcases List.mem_cons.1 h1 with h1 | h1
      · cases h1; exact .inl (by rw [h2])
      · exact .inr ⟨d0, h1, h2⟩

theorem annotates_keys (f : Ref → TableSchema → Leaf) (p : Ref) : ∀ (kvs : List (Ident × Dom TableSchema)),
    (annotates f p kvs).map Prod.fst = kvs.map Prod.fst
  | [] => by simp [annotates]
  | (k, d) :: rest => by rw [annotates, List.map_cons, List.map_cons, annotates_keys f p rest]

theorem annotate_path (f : Ref → TableSchema → Leaf) : ∀ {q : Ref} {p : Ref} {t : Dom TableSchema} {d : Tree},
    Path (annotate f p t) q d ↔ ∃ d0, Path t q d0 ∧ d = annotate f (p ++ q) d0
  | [], p, t, d => by
    rw [path_nil]
    constructor
    · rintro rfl; exact ⟨t, .here _, by simp⟩
    · rintro ⟨d0, h1, h2⟩
      rw [path_nil] at h1
      subst h1
      rw [h2]; simp
  | k :: q, p, .table s, d => by
    rw [annotate]
    constructor
    · intro h; cases h
    · rintro ⟨d0, h1, _⟩; cases h1
  | k :: q, p, .dict kvs, d => by
    rw [annotate, path_cons]
    constructor
    · rintro ⟨d1, h1, h2⟩
      obtain ⟨d0, h3, rfl⟩ := (annotates_mem f p).1 h1
      obtain ⟨d2, h4, rfl⟩ := (annotate_path f).1 h2
      exact ⟨d2, .down h3 h4, by simp⟩
    · rintro ⟨d0, h1, rfl⟩
      obtain ⟨d1, h2, h3⟩ := path_cons.1 h1
      exact ⟨_, (annotates_mem f p).2 ⟨d1, h2, rfl⟩, (annotate_path f).2 ⟨d0, h3, by simp⟩⟩

mutual
theorem annotate_wf (f : Ref → TableSchema → Leaf) : ∀ (p : Ref) (t : Dom TableSchema), t.WF → (annotate f p t).WF
  | p, .table s, _ => by rw [annotate, Dom.WF]; trivial
  | p, .dict kvs, h => by
    rw [Dom.WF] at h
    rw [annotate, Dom.WF, annotates_keys]
    exact ⟨h.1, annotates_wf f p kvs h.2⟩
theorem annotates_wf (f : Ref → TableSchema → Leaf) : ∀ (p : Ref) (kvs : List (Ident × Dom TableSchema)), Relation.wfs kvs →
    Relation.wfs (annotates f p kvs)
  | p, [], _ => by rw [annotates, Relation.wfs]; trivial
  | p, (k, d) :: rest, h => by
    rw [Relation.wfs] at h
    rw [annotates, Relation.wfs]
    exact ⟨annotate_wf f (p ++ [k]) d h.1, annotates_wf f p rest h.2⟩
end

theorem annotate_at (f : Ref → TableSchema → Leaf) {t : Dom TableSchema} {r : Ref} {x : Option Leaf} :
    At (annotate f [] t) r x ↔ ∃ d, Path t r d ∧ x = (match d with | .table s => some (f r s) | .dict _ => none) := by
  constructor
  · rintro ⟨d, h1, h2⟩
    obtain ⟨d0, h3, rfl⟩ := (annotate_path f).1 h1
    refine ⟨d0, h3, ?_⟩
    rw [← h2]
    cases d0 <;> simp [annotate, skel]
  · rintro ⟨d, h1, rfl⟩
    refine ⟨_, (annotate_path f).2 ⟨d, h1, rfl⟩, ?_⟩
    cases d <;> simp [annotate, skel]

section
variable {cast : SparkType → Value → Value} {sources : Relation.Sources} {out : Output} {m : Measure}

/-- What is at each place of a new session. -/
theorem start_shape (hst : Relation.Stored cast sources) {meas : Relation.Measure}
    (h : Relation.initCore cast meas sources = .ok out) :
    (∀ r d, Path out.domain r d → ((∃ kvs, d = .dict kvs) ∧ ∃ sp, r = place sp) ∨
      ∃ sp n s, d = .table s ∧ r = place sp ++ [.named n] ∧ KindOK sp (startLeaf out r s).metric) ∧
    ∀ r, r ∈ startArks out ↔ ∃ n kvs, r = [.collection n] ∧ Path out.domain r (.dict kvs) := by
  obtain ⟨hok, cs, outs, hcs, hids, hcov, ho1, ho2, _, rfl⟩ := Relation.initCore_ok hst meas h
  have honod : (outs.map Prod.fst).Nodup := ho1 ▸ hids
  constructor
  · intro r d hp
    cases hp with
    | here => exact .inl ⟨⟨_, rfl⟩, none, rfl⟩
    | down hm hp' =>
      obtain ⟨⟨i, o⟩, hmo, e⟩ := List.mem_map.1 hm
      cases e
      obtain ⟨c, hc, rfl, hg⟩ := Relation.outs_part hids ho1 ho2 hmo
      have hget := Relation.outs_get honod (fun o : Output => o.metric) hmo
      cases c with
      | conj => exact absurd hg id
      | rows t k =>
        obtain ⟨df, s, _, rfl, _⟩ := hg
        cases hp'
        refine .inr ⟨none, t, s, rfl, rfl, ?_⟩
        simp only [startLeaf, Relation.lookupMetric, Relation.idOf] at hget ⊢
        rw [hget]
        simp [Relation.lookupMetric, tableMetric, KindOK, IsIDs]
      | groups t col g q =>
        obtain ⟨df, s, _, rfl, _⟩ := hg
        have hx : ‹Ref› = [] ∧ d = .table s := by
          split at hp' <;> cases hp' <;> exact ⟨rfl, rfl⟩
        obtain ⟨rfl, rfl⟩ := hx
        refine .inr ⟨none, t, s, rfl, rfl, ?_⟩
        simp only [startLeaf, Relation.lookupMetric, Relation.idOf] at hget ⊢
        rw [hget]
        by_cases hz : meas = .zCDP <;> simp [hz, Relation.lookupMetric, tableMetric, KindOK, IsIDs]
      | keys sp m k =>
        obtain ⟨doms, ds, rfl, h1, _, _⟩ := hg
        rcases Relation.tableDom_path hp' with rfl | ⟨i, l, rfl, hm, rfl⟩
        · cases hp'
          exact .inl ⟨⟨_, rfl⟩, some sp, rfl⟩
        · have : i ∈ Dict.keys doms := Dict.mem_keys.2 ⟨l, hm⟩
          rw [h1] at this
          obtain ⟨n, hn, rfl⟩ := List.mem_map.1 this
          refine .inr ⟨some sp, n, l, rfl, rfl, ?_⟩
          simp only [startLeaf, Relation.lookupMetric, Relation.idOf] at hget ⊢
          rw [hget]
          simp only [Relation.lookupMetric]
          have hsome : (Dict.get (m.map (fun p => (Ident.named p.1, p.2))) (.named n)).isSome = true := by
            rw [Dict.get_isSome]
            obtain ⟨v, hv⟩ := Dict.mem_keys.1 hn
            exact Dict.mem_keys.2 ⟨v, List.mem_map.2 ⟨_, hv, rfl⟩⟩
          obtain ⟨v, hv⟩ := Option.isSome_iff_exists.1 hsome
          rw [hv]
          simp [Relation.lookupMetric, tableMetric, KindOK, IsIDs]
  · intro r
    simp only [startArks, List.mem_filterMap]
    constructor
    · rintro ⟨⟨i, mt⟩, h1, h2⟩
      obtain ⟨⟨i', o⟩, hmo, e⟩ := List.mem_map.1 h1
      cases e
      obtain ⟨c, hc, rfl, hg⟩ := Relation.outs_part hids ho1 ho2 hmo
      cases c with
      | conj => exact absurd hg id
      | rows t k => obtain ⟨df, s, _, rfl, _⟩ := hg; cases h2
      | groups t col g q =>
        obtain ⟨df, s, _, rfl, _⟩ := hg
        dsimp only at h2
        split at h2
        · next heq => split at heq <;> cases heq
        · cases h2
      | keys sp m k =>
        obtain ⟨doms, ds, rfl, _⟩ := hg
        cases h2
        exact ⟨sp, _, rfl, .down (List.mem_map.2 ⟨_, hmo, rfl⟩) (.here _)⟩
    · rintro ⟨n, kvs, rfl, hp⟩
      obtain ⟨d, h1, h2⟩ := path_cons.1 hp
      obtain ⟨⟨i, o⟩, hmo, e⟩ := List.mem_map.1 h1
      cases e
      obtain ⟨c, hc, hi, hg⟩ := Relation.outs_part hids ho1 ho2 hmo
      cases c with
      | conj => exact absurd hg id
      | rows t k => cases hi
      | groups t col g q => cases hi
      | keys sp m k =>
        cases hi
        obtain ⟨doms, ds, rfl, _⟩ := hg
        exact ⟨_, List.mem_map.2 ⟨_, hmo, rfl⟩, rfl⟩

/-- **C65**: a new session has the tables it was given, each in its place. -/
theorem C65_start (hst : Relation.Stored cast sources) (h : Relation.initCore cast (coreMeasure m) sources = .ok out) :
    Rep (startTables out) (startStore out) := by
  obtain ⟨hwf, huniq, hnames⟩ := Relation.C33_names hst h
  obtain ⟨hshape, harks⟩ := start_shape hst h
  obtain ⟨names, hn, hmem⟩ := Relation.privateSources_ok hst h
  have hat := fun r x => annotate_at (startLeaf out) (t := out.domain) (r := r) (x := x)
  refine ⟨⟨annotate_wf _ _ _ hwf, ?_, ?_, ?_, ?_⟩, ?_, ?_⟩
  · refine (hat _ _).2 ⟨_, .here _, ?_⟩
    rcases hshape _ _ (.here _) with ⟨⟨kvs, h1⟩, _⟩ | ⟨sp, n, s, _, h2, _⟩
    · rw [h1]
    · simp at h2
  · intro r x hx
    obtain ⟨d, h1, rfl⟩ := (hat r x).1 hx
    rcases hshape r d h1 with ⟨⟨kvs, rfl⟩, sp, rfl⟩ | ⟨sp, n, s, rfl, h2, h3⟩
    · exact .inl ⟨rfl, sp, rfl⟩
    · exact .inr ⟨sp, .named n, _, rfl, h2, nofun, h3⟩
  · intro r
    show r ∈ startArks out ↔ _
    rw [harks]
    refine exists_congr fun n => ?_
    constructor
    · rintro ⟨kvs, h1, h2⟩
      exact ⟨h1, (hat _ _).2 ⟨_, h2, rfl⟩⟩
    · rintro ⟨h1, h2⟩
      obtain ⟨d, h3, h4⟩ := (hat _ _).1 h2
      cases d with
      | table s => cases h4
      | dict kvs => exact ⟨kvs, h1, h3⟩
  · intro n r r' x x' h1 h2 e1 e2
    obtain ⟨d, h3, _⟩ := (hat _ _).1 h1
    obtain ⟨d', h4, _⟩ := (hat _ _).1 h2
    exact huniq n r r' d d' h3 h4 e1 e2
  · intro n t hg
    obtain ⟨df, ch, s, h1, h2, h3⟩ := Whole.start_mem hst h (Dict.mem_of_get hg)
    dsimp only at h1 h2 h3
    unfold startTab at h3
    split at h3
    · next k rest hf =>
      split at h3
      · next s' mt hl hmt =>
        cases h3
        obtain ⟨he, d, hd1, hd2⟩ := Relation.C35_found hwf hf
        rw [hl] at hd1
        cases hd1
        rcases hshape _ _ hd2 with ⟨⟨kvs, h4⟩, _⟩ | ⟨sp, n', s2, h4, h5, _⟩
        · cases h4
        · cases h4
          have hn' : n' = n := by rw [h5] at he; exact endsWith_named.1 he
          subst hn'
          have hsp : Whole.spaceOf (k :: rest) = sp := by
            rw [h5]
            simp only [Whole.spaceOf, List.dropLast_concat]
            exact spaceOf_place sp
          dsimp only
          rw [hsp, ← h5]
          refine ⟨(hat _ _).2 ⟨_, hd2, ?_⟩, ?_⟩
          · have hlast : (k :: rest).getLast? = some (.named n') := he
            simp only [startLeaf, hmt, hlast]
          · show Dict.get (startStore out).cons (.named n') = some []
            unfold startStore
            rw [hn]
            dsimp only
            have hin : n' ∈ names := (hmem n').2 (Dict.mem_keys.2 ⟨_, h1⟩)
            have hin2 : Ident.named n' ∈ Dict.keys (names.map (fun n => (Ident.named n, ([] : List Constraint)))) :=
              Dict.mem_keys.2 ⟨[], List.mem_map.2 ⟨_, hin, rfl⟩⟩
            obtain ⟨v, hv⟩ := Option.isSome_iff_exists.1 (Dict.get_isSome.2 hin2)
            obtain ⟨_, _, hv2⟩ := List.mem_map.1 (Dict.mem_of_get hv)
            cases hv2
            exact hv
      · cases h3
    · cases h3
  · intro n hg r x hx he
    obtain ⟨d, h3, _⟩ := (hat _ _).1 hx
    obtain ⟨⟨df, ch⟩, hs⟩ := Dict.mem_keys.1 ((hnames n).1 ⟨r, d, h3, he⟩)
    obtain ⟨t, ht, _⟩ := (Whole.C58_start hst h).2 n df ch hs
    rw [hg] at ht
    cases ht

end

end Verif.Nested
