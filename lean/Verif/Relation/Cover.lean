import Verif.Relation.Model
import Mathlib.Data.List.Perm.Basic

/-!
# C33: which relations are accepted

Frames are as the builder stores them, that is, coercing them again changes nothing (`Coerced`); `C39_coerce` shows
that this is so.
-/

namespace Verif.Relation

open Verif
open Verif.Schema (SparkType Field Frame SparkDesc PyErr)

/-! ## Specification -/

/-- The tables a relation talks about. -/
def Relation.covers : Relation → List String
  | .rows t _ => [t]
  | .groups t _ _ _ => [t]
  | .keys _ m _ => Dict.keys m
  | .conj _ => []

/-- Not a conjunction; dictionaries have no repeated keys. -/
def Relation.Simple : Relation → Prop
  | .rows _ _ => True
  | .groups _ _ _ _ => True
  | .keys _ m _ => Dict.WF m
  | .conj _ => False

/-- Column `col` of `df` exists and has type `ty`. -/
def ColumnHas (df : Frame) (col : String) (ty : SparkType) : Prop :=
  col ∈ columns df ∧ ∀ f ∈ df.fields, f.name = col → f.ty = ty

/-- What a relation requires of the columns of its tables: a grouping column of a type that can be grouped by; key
columns that all have the same such type. -/
def Relation.ColumnsOK (dfs : Tables) : Relation → Prop
  | .rows _ _ => True
  | .groups t col _ _ => ∀ df, (t, df) ∈ dfs →
    col ∈ columns df ∧ ∀ f ∈ df.fields, f.name = col → f.ty = .long ∨ f.ty = .string ∨ f.ty = .date
  | .keys _ m _ => ∃ ty : SparkType, (ty = .long ∨ ty = .string ∨ ty = .date) ∧
    ∀ t col, (t, col) ∈ m → ∀ df, (t, df) ∈ dfs → ColumnHas df col ty
  | .conj _ => False

/-- As stored by the builder. -/
def CoercedAll (cast : SparkType → Value → Value) (dfs : Tables) : Prop :=
  ∀ t df, (t, df) ∈ dfs → Schema.coerce cast df = .ok df

/-! ## Proofs -/

variable {cast : SparkType → Value → Value}

theorem mem_allowed {ty : SparkType} : ty ∈ allowedTypes ↔ ty = .long ∨ ty = .string ∨ ty = .date := by
  simp [allowedTypes]

/-- The checks on a sequence of key column types. -/
def chk : List SparkType → Option SparkType → Except RErr (Option SparkType)
  | [], kt => .ok kt
  | t :: ts, kt =>
    if t ∉ allowedTypes then .error .value
    else
      match kt with
      | none => chk ts (some t)
      | some t' => if t = t' then chk ts kt else .error .value

def typesOf (col : String) (fs : List Field) : List SparkType :=
  (fs.filter (fun f => decide (f.name = col))).map Field.ty

theorem keyFields_chk (col : String) : ∀ fs kt, keyFields col fs kt = chk (typesOf col fs) kt
  | [], kt => by cases kt <;> simp [keyFields, typesOf, chk]
  | f :: fs, kt => by
    by_cases h : f.name = col
    · unfold typesOf
      rw [List.filter_cons_of_pos (by simpa using h), List.map_cons]
      have ih := keyFields_chk col fs
      unfold typesOf at ih
      cases kt with
      | none => rw [keyFields, chk, if_neg (by simpa using h), ih]
      | some t => rw [keyFields, chk, if_neg (by simpa using h), ih]
    · unfold typesOf
      rw [List.filter_cons_of_neg (by simpa using h)]
      have ih := keyFields_chk col fs
      unfold typesOf at ih
      cases kt with
      | none => rw [keyFields, if_pos h, ih]
      | some t => rw [keyFields, if_pos h, ih]

theorem chk_append : ∀ a b kt, chk (a ++ b) kt = (chk a kt).bind (chk b)
  | [], b, kt => by rw [List.nil_append, chk]; rfl
  | t :: a, b, kt => by
    rw [List.cons_append]
    by_cases h : t ∉ allowedTypes
    · cases kt with
      | none => rw [chk, chk, if_pos h, if_pos h]; rfl
      | some t' => rw [chk, chk, if_pos h, if_pos h]; rfl
    · cases kt with
      | none => rw [chk, chk, if_neg h, if_neg h]; exact chk_append a b (some t)
      | some t' =>
        rw [chk, chk, if_neg h, if_neg h]
        by_cases he : t = t'
        · rw [if_pos he, if_pos he]; exact chk_append a b _
        · rw [if_neg he, if_neg he]; rfl

theorem chk_some {t : SparkType} (ht : t ∈ allowedTypes) : ∀ ts,
    (∃ kt, chk ts (some t) = .ok kt) ↔ ∀ x ∈ ts, x = t
  | [] => by simp [chk]
  | x :: ts => by
    rw [chk]
    by_cases h : x = t
    · subst h
      rw [if_neg (by simpa using ht), if_pos rfl, chk_some ht ts]
      simp
    · constructor
      · rintro ⟨kt, hk⟩
        split at hk
        · cases hk
        · cases hk
      · intro hx
        exact absurd (hx x (by simp)) h

theorem chk_none (ts : List SparkType) :
    (∃ kt, chk ts none = .ok kt) ↔ ∃ ty, (ty = .long ∨ ty = .string ∨ ty = .date) ∧ ∀ x ∈ ts, x = ty := by
  cases ts with
  | nil => simp [chk]
  | cons x ts =>
    rw [chk]
    by_cases h : x ∈ allowedTypes
    · rw [if_neg (by simpa using h), chk_some h]
      constructor
      · intro hx
        exact ⟨x, mem_allowed.1 h, by simpa using hx⟩
      · rintro ⟨ty, _, hx⟩ y hy
        rw [hx y (List.mem_cons_of_mem _ hy), hx x (by simp)]
    · rw [if_pos h]
      constructor
      · rintro ⟨kt, hk⟩; cases hk
      · rintro ⟨ty, h1, h2⟩
        rw [h2 x (by simp)] at h
        exact absurd (mem_allowed.2 h1) h

def allTypes (m : Dict String String) (dfs : Tables) : List SparkType :=
  dfs.flatMap (fun p => match Dict.get m p.1 with | none => [] | some col => typesOf col p.2.fields)

theorem keyTables_ok (m : Dict String String) : ∀ (dfs : Tables) (kt), CoercedAll cast dfs →
    ((∃ kt', keyTables cast m dfs kt = .ok kt') ↔
      (∀ t df, (t, df) ∈ dfs → ∀ col, Dict.get m t = some col → col ∈ columns df) ∧
        ∃ kt', chk (allTypes m dfs) kt = .ok kt')
  | [], kt, _ => by simp [keyTables, allTypes, chk]
  | (name, df) :: rest, kt, hc => by
    have hc' : CoercedAll cast rest := fun t d h => hc t d (List.mem_cons_of_mem _ h)
    rw [keyTables]
    unfold allTypes
    rw [List.flatMap_cons]
    cases hg : Dict.get m name with
    | none =>
      dsimp only
      rw [keyTables_ok m rest kt hc', List.nil_append]
      unfold allTypes
      refine and_congr_left' ?_
      constructor
      · intro h t d ht col hcol
        rcases List.mem_cons.1 ht with he | ht'
        · cases he
          rw [hg] at hcol
          cases hcol
        · exact h t d ht' col hcol
      · intro h t d ht
        exact h t d (List.mem_cons_of_mem _ ht)
    | some col =>
      dsimp only
      by_cases hcol : col ∈ columns df
      · rw [if_neg (by simpa using hcol), hc name df (by simp)]
        dsimp only [liftErr]
        rw [keyFields_chk, chk_append]
        cases hk : chk (typesOf col df.fields) kt with
        | error e =>
          constructor
          · rintro ⟨_, h⟩; cases h
          · rintro ⟨_, _, h⟩; cases h
        | ok kt1 =>
          dsimp only [Except.bind]
          rw [keyTables_ok m rest kt1 hc']
          unfold allTypes
          refine and_congr_left' ?_
          constructor
          · intro h t d ht c hcc
            rcases List.mem_cons.1 ht with he | ht'
            · cases he
              rw [hg] at hcc
              cases hcc
              exact hcol
            · exact h t d ht' c hcc
          · intro h t d ht
            exact h t d (List.mem_cons_of_mem _ ht)
      · rw [if_pos hcol]
        constructor
        · rintro ⟨_, h⟩; cases h
        · rintro ⟨h, _⟩
          exact absurd (h name df (by simp) col hg) hcol

theorem validateAny_ok {c : Relation} {dfs : Tables} {names : List String} (hs : c.Simple) (hw : Dict.WF dfs)
    (hc : CoercedAll cast dfs) :
    validateAny cast c dfs = .ok names ↔
      names = c.covers ∧ (∀ t ∈ c.covers, t ∈ Dict.keys dfs) ∧ c.ColumnsOK dfs := by
  cases c with
  | conj cs => exact absurd hs id
  | rows t n =>
    rw [validateAny]
    cases hg : Dict.get dfs t with
    | none =>
      have hn := Dict.get_eq_none.1 hg
      constructor
      · intro h; cases h
      · rintro ⟨_, h, _⟩
        exact absurd (h t (by simp [Relation.covers])) hn
    | some df =>
      have hm := Dict.mem_of_get hg
      dsimp only
      rw [hc t df hm]
      simp only [liftErr, Relation.covers, Relation.ColumnsOK, Except.ok.injEq]
      constructor
      · rintro rfl
        refine ⟨rfl, ?_, trivial⟩
        intro x hx
        rw [List.mem_singleton.1 hx]
        exact Dict.mem_keys.2 ⟨_, hm⟩
      · rintro ⟨rfl, _⟩
        rfl
  | groups t col g r =>
    rw [validateAny]
    cases hg : Dict.get dfs t with
    | none =>
      have hn := Dict.get_eq_none.1 hg
      constructor
      · intro h; cases h
      · rintro ⟨_, h, _⟩
        exact absurd (h t (by simp [Relation.covers])) hn
    | some df =>
      have hm := Dict.mem_of_get hg
      have hcols : Relation.ColumnsOK dfs (.groups t col g r) ↔ col ∈ columns df ∧
          ∀ f ∈ df.fields, f.name = col → f.ty = .long ∨ f.ty = .string ∨ f.ty = .date := by
        rw [Relation.ColumnsOK]
        constructor
        · intro h
          exact h df hm
        · intro h df' hm'
          have := (Dict.get_eq_some hw).2 hm'
          rw [hg] at this
          cases this
          exact h
      dsimp only
      by_cases hcol : col ∈ columns df
      · rw [if_neg (by simpa using hcol), hc t df hm]
        dsimp only [liftErr]
        have hb : df.fields.any (fun f => decide (f.name = col) && decide (f.ty ∉ allowedTypes)) = true ↔
            ¬ ∀ f ∈ df.fields, f.name = col → f.ty = .long ∨ f.ty = .string ∨ f.ty = .date := by
          simp only [List.any_eq_true, Bool.and_eq_true, decide_eq_true_eq, mem_allowed]
          push Not
          rfl
        by_cases ha : df.fields.any (fun f => decide (f.name = col) && decide (f.ty ∉ allowedTypes)) = true
        · rw [if_pos ha]
          constructor
          · intro h; cases h
          · rintro ⟨_, _, h⟩
            exact absurd (hcols.1 h).2 (hb.1 ha)
        · rw [if_neg ha]
          have hall := not_not.1 (fun h => ha (hb.2 h))
          constructor
          · intro h
            cases h
            refine ⟨rfl, ?_, hcols.2 ⟨hcol, hall⟩⟩
            intro x hx
            rw [List.mem_singleton.1 hx]
            exact Dict.mem_keys.2 ⟨_, hm⟩
          · rintro ⟨rfl, _⟩
            rfl
      · rw [if_pos hcol]
        constructor
        · intro h; cases h
        · rintro ⟨_, _, h⟩
          exact absurd (hcols.1 h).1 hcol
  | keys s m k =>
    rw [Relation.Simple] at hs
    rw [validateAny]
    have hb : (Dict.keys m).any (fun t => decide (t ∉ Dict.keys dfs)) = true ↔
        ¬ ∀ t ∈ Dict.keys m, t ∈ Dict.keys dfs := by
      simp only [List.any_eq_true, decide_eq_true_eq]
      push Not
      rfl
    by_cases hd : ∀ t ∈ Dict.keys m, t ∈ Dict.keys dfs
    · rw [if_neg (fun h => hb.1 h hd)]
      have hkt := keyTables_ok m dfs none hc
      rw [chk_none] at hkt
      have hcols : Relation.ColumnsOK dfs (.keys s m k) ↔
          (∀ t df, (t, df) ∈ dfs → ∀ col, Dict.get m t = some col → col ∈ columns df) ∧
          ∃ ty, (ty = .long ∨ ty = .string ∨ ty = .date) ∧ ∀ x ∈ allTypes m dfs, x = ty := by
        rw [Relation.ColumnsOK]
        constructor
        · rintro ⟨ty, hty, h⟩
          refine ⟨fun t df ht col hcol => (h t col (Dict.mem_of_get hcol) df ht).1, ty, hty, ?_⟩
          intro x hx
          unfold allTypes at hx
          obtain ⟨⟨t, df⟩, hm, hx⟩ := List.mem_flatMap.1 hx
          dsimp only at hx
          cases hg : Dict.get m t with
          | none => rw [hg] at hx; simp at hx
          | some col =>
            rw [hg] at hx
            dsimp only at hx
            obtain ⟨f, hf, rfl⟩ := List.mem_map.1 hx
            rw [List.mem_filter, decide_eq_true_eq] at hf
            exact (h t col (Dict.mem_of_get hg) df hm).2 f hf.1 hf.2
        · rintro ⟨h1, ty, hty, h2⟩
          refine ⟨ty, hty, fun t col htc df hdf => ⟨h1 t df hdf col ((Dict.get_eq_some hs).2 htc), ?_⟩⟩
          intro f hf hn
          apply h2
          unfold allTypes
          refine List.mem_flatMap.2 ⟨(t, df), hdf, ?_⟩
          rw [(Dict.get_eq_some hs).2 htc]
          exact List.mem_map.2 ⟨f, List.mem_filter.2 ⟨hf, by simpa using hn⟩, rfl⟩
      cases hk : keyTables cast m dfs none with
      | error e =>
        constructor
        · intro h; cases h
        · rintro ⟨_, _, h⟩
          obtain ⟨kt', h'⟩ := hkt.2 (hcols.1 h)
          rw [hk] at h'
          cases h'
      | ok kt' =>
        simp only [Except.ok.injEq]
        constructor
        · rintro rfl
          exact ⟨rfl, hd, hcols.2 (hkt.1 ⟨kt', hk⟩)⟩
        · rintro ⟨rfl, _⟩
          rfl
    · rw [if_pos (hb.2 hd)]
      constructor
      · intro h; cases h
      · rintro ⟨_, h, _⟩
        exact absurd h hd

theorem covers_nodup {c : Relation} (hs : c.Simple) : c.covers.Nodup := by
  cases c with
  | rows => simp [Relation.covers]
  | groups => simp [Relation.covers]
  | keys s m k => exact hs
  | conj => simp [Relation.covers]

theorem validateChildren_ok {dfs : Tables} (hw : Dict.WF dfs) (hc : CoercedAll cast dfs) :
    ∀ (cs : List Relation) (covered names : List String), (∀ c ∈ cs, c.Simple) → covered.Nodup →
      (validateChildren cast dfs cs covered = .ok names ↔
        names = covered ++ cs.flatMap Relation.covers ∧ names.Nodup ∧
          ∀ c ∈ cs, (∀ t ∈ c.covers, t ∈ Dict.keys dfs) ∧ c.ColumnsOK dfs)
  | [], covered, names, _, hn => by
    rw [validateChildren]
    simp only [Except.ok.injEq, List.flatMap_nil, List.append_nil, List.not_mem_nil, false_imp_iff, implies_true,
      and_true]
    constructor
    · rintro rfl
      exact ⟨rfl, hn⟩
    · rintro ⟨rfl, _⟩
      rfl
  | c :: cs, covered, names, hs, hn => by
    have hs' : ∀ c ∈ cs, c.Simple := fun x hx => hs x (List.mem_cons_of_mem _ hx)
    have hc1 := hs c (by simp)
    rw [validateChildren, List.flatMap_cons]
    cases hv : validateAny cast c dfs with
    | error e =>
      constructor
      · intro h; cases h
      · rintro ⟨_, _, h⟩
        have := (validateAny_ok (names := c.covers) hc1 hw hc).2 ⟨rfl, h c (by simp)⟩
        rw [hv] at this
        cases this
    | ok ns =>
      obtain ⟨rfl, h1, h2⟩ := (validateAny_ok hc1 hw hc).1 hv
      dsimp only
      by_cases hd : covered.any (fun t => decide (t ∈ c.covers)) = true
      · rw [if_pos hd]
        constructor
        · intro h; cases h
        · rintro ⟨rfl, hnn, _⟩
          obtain ⟨t, ht, htc⟩ := List.any_eq_true.1 hd
          rw [decide_eq_true_eq] at htc
          exact absurd rfl ((List.nodup_append.1 hnn).2.2 t ht t (List.mem_append.2 (.inl htc)))
      · rw [if_neg hd]
        have hdis : List.Disjoint covered c.covers := by
          intro t ht htc
          exact hd (List.any_eq_true.2 ⟨t, ht, by simpa using htc⟩)
        rw [validateChildren_ok hw hc cs _ names hs' (hn.append (covers_nodup hc1) hdis), List.append_assoc]
        refine and_congr_right fun _ => and_congr_right fun _ => ?_
        constructor
        · intro h x hx
          rcases List.mem_cons.1 hx with rfl | hx'
          · exact ⟨h1, h2⟩
          · exact h x hx'
        · intro h x hx
          exact h x (List.mem_cons_of_mem _ hx)

/-- **C33**: a conjunction is accepted for a dictionary of tables iff each of the tables is covered exactly once, no
other table is mentioned, and grouping and key columns are as required. -/
theorem C33_accepts {dfs : Tables} (hw : Dict.WF dfs) (hc : CoercedAll cast dfs) {cs : List Relation}
    (hs : ∀ c ∈ cs, c.Simple) :
    validateInput cast (.conj cs) dfs = .ok () ↔
      (cs.flatMap Relation.covers).Perm (Dict.keys dfs) ∧ ∀ c ∈ cs, c.ColumnsOK dfs := by
  rw [validateInput]
  have hv := fun names => validateChildren_ok (names := names) hw hc cs [] hs List.nodup_nil
  simp only [List.nil_append] at hv
  cases hr : validateChildren cast dfs cs [] with
  | error e =>
    constructor
    · intro h; cases h
    · rintro ⟨h1, h2⟩
      have := (hv _).2 ⟨rfl, h1.nodup_iff.2 hw, fun c hcm => ⟨fun t ht =>
        h1.mem_iff.1 (List.mem_flatMap.2 ⟨c, hcm, ht⟩), h2 c hcm⟩⟩
      rw [hr] at this
      cases this
  | ok names =>
    obtain ⟨rfl, hn, hch⟩ := (hv _).1 hr
    dsimp only
    constructor
    · intro h
      split at h
      · cases h
      · rename_i hb
        rw [Bool.not_eq_true, Bool.or_eq_false_iff, List.any_eq_false, List.any_eq_false] at hb
        refine ⟨(List.perm_ext_iff_of_nodup hn hw).2 fun t => ⟨?_, ?_⟩, fun c hcm => (hch c hcm).2⟩
        · intro ht
          have := hb.2 t ht
          rw [decide_eq_true_eq, not_not] at this
          exact this
        · intro ht
          have := hb.1 t ht
          simpa using this
    · rintro ⟨h1, _⟩
      rw [if_neg]
      rw [Bool.not_eq_true, Bool.or_eq_false_iff, List.any_eq_false, List.any_eq_false]
      constructor
      · intro t ht
        simpa using h1.mem_iff.2 ht
      · intro t ht
        simpa using h1.mem_iff.1 ht

end Verif.Relation
