import Verif.Expr.Conform

/-!
# C39: what a schema made by the constructor, or read off a data frame, says about the columns
-/

namespace Verif.Expr

open Verif Verif.Schema

/-! ## Specification -/

/-- How column types are written in a column specification. -/
def Written (t : ColumnType) (s : String) : Prop :=
  s = match t with
    | .INTEGER => "INTEGER"
    | .DECIMAL => "DECIMAL"
    | .VARCHAR => "VARCHAR"
    | .DATE => "DATE"
    | .TIMESTAMP => "TIMESTAMP"

/-- The descriptor a column specification asks for: itself, or the type with the default flags. -/
inductive Describes (nul nan inf : Bool) : ColSpec → Desc → Prop
  | desc (d : Desc) : Describes nul nan inf (.desc d) d
  | ty (d : Desc) (h1 : d.allowNull = nul) (h2 : d.allowNan = nan) (h3 : d.allowInf = inf) :
    Describes nul nan inf (.ty d.ty) d
  | name (s : String) (d : Desc) (h : Written d.ty s) (h1 : d.allowNull = nul) (h2 : d.allowNan = nan)
    (h3 : d.allowInf = inf) : Describes nul nan inf (.name s) d

/-- The values a Spark column with this field can hold. -/
def Holds (f : Field) (v : Value) : Prop := Fits f.ty v ∧ (v = .null → f.nullable = true)

/-- A row of a data frame as a row with named columns. -/
def Frame.named (df : Frame) : Table := df.rows.map (fun r => (df.fields.map Field.name).zip r)

/-! ## The constructor -/

theorem typeOfName_iff {s : String} {t : ColumnType} : typeOfName s = some t ↔ Written t s := by
  constructor
  · intro h
    unfold typeOfName at h
    split at h <;> first | (cases h; rfl) | cases h
  · rintro rfl
    cases t <;> rfl

theorem resolve_iff {nul nan inf : Bool} {s : ColSpec} {d : Desc} :
    resolve nul nan inf s = some d ↔ Describes nul nan inf s d := by
  constructor
  · intro h
    cases s with
    | desc e =>
      cases h
      exact .desc _
    | ty t =>
      cases h
      exact Describes.ty (⟨t, nul, nan, inf⟩ : Desc) rfl rfl rfl
    | name s =>
      simp only [resolve, Option.map_eq_some_iff] at h
      obtain ⟨t, ht, rfl⟩ := h
      exact Describes.name s ⟨t, nul, nan, inf⟩ (typeOfName_iff.1 ht) rfl rfl rfl
  · intro h
    cases h with
    | desc => rfl
    | ty d h1 h2 h3 =>
      subst h1 h2 h3
      rfl
    | name s d h h1 h2 h3 =>
      subst h1 h2 h3
      simp only [resolve, typeOfName_iff.2 h, Option.map_some]

theorem resolveAll_iff {nul nan inf : Bool} {cols : Dict String ColSpec} {ds : Dict String Desc} :
    resolveAll nul nan inf cols = some ds ↔
      List.Forall₂ (fun p q => q.1 = p.1 ∧ Describes nul nan inf p.2 q.2) cols ds := by
  constructor
  · intro h
    exact (resolveAll_some h).imp fun p q hp => ⟨hp.1, resolve_iff.1 hp.2⟩
  · intro h
    induction h with
    | nil => rfl
    | @cons p q l l' hp _ ih =>
      obtain ⟨c, s⟩ := p
      obtain ⟨c', d⟩ := q
      obtain ⟨h1, h2⟩ := hp
      dsimp only at h1 h2
      subst h1
      rw [resolveAll, resolve_iff.2 h2, ih]

/-- C39, the constructor: it succeeds exactly when no column is named "", the grouping and ID columns exist and
every type is supported; the schema then has the given columns in the given order, with descriptors given by the
caller unchanged, and bare types with the caller's defaults for nulls, NaNs and infinities. -/
theorem C39_init (cols : Dict String ColSpec) (g i sp : Option String) (nul nan inf : Bool) (s : Schema) :
    Schema.init cols g i sp nul nan inf = .ok s ↔
      ("" ∉ cols.map Prod.fst ∧ (∀ c, g = some c → c ∈ cols.map Prod.fst) ∧
        (∀ c, i = some c → c ∈ cols.map Prod.fst)) ∧
      s.grouping = g ∧ s.idColumn = i ∧ s.idSpace = sp ∧
      List.Forall₂ (fun p q => q.1 = p.1 ∧ Describes nul nan inf p.2 q.2) cols s.columnDescs.elements := by
  have any : ∀ o : Option String, o.any (fun g => decide (g ∉ Dict.keys cols)) = true ↔
      ¬ ∀ c, o = some c → c ∈ cols.map Prod.fst := by
    intro o
    cases o with
    | none => simp
    | some c =>
      rw [Option.any_some, decide_eq_true_eq]
      simp only [Option.some.injEq, forall_eq', Dict.keys]
  constructor
  · intro h
    unfold Schema.init at h
    split at h
    · cases h
    next h1 =>
    split at h
    · cases h
    next h2 =>
    split at h
    · cases h
    next h3 =>
    split at h
    · cases h
    next ds h4 =>
    cases h
    rw [any, not_not] at h2 h3
    exact ⟨⟨h1, h2, h3⟩, rfl, rfl, rfl, resolveAll_iff.1 h4⟩
  · rintro ⟨⟨h1, h2, h3⟩, rfl, rfl, rfl, h4⟩
    unfold Schema.init
    rw [if_neg (by exact h1), if_neg (by rw [any, not_not]; exact h2), if_neg (by rw [any, not_not]; exact h3),
      resolveAll_iff.2 h4]
    rfl

/-- The constructor at work: a bare type and a type name take the defaults, a descriptor keeps its own flags. -/
example : Schema.init [("A", .ty .DECIMAL), ("B", .desc ⟨.DECIMAL, false, false, true⟩), ("C", .name "DATE")]
      (nul := true) (nan := true) =
    .ok ⟨⟨[("A", ⟨.DECIMAL, true, true, false⟩), ("B", ⟨.DECIMAL, false, false, true⟩),
      ("C", ⟨.DATE, true, true, false⟩)]⟩, none, none, none⟩ := by decide

/-! ## Data frames -/

theorem fieldDesc_spec {f : Field} {d : Desc} (h : fieldDesc f = some d) :
    (∀ v, Holds f v → DescOK d v) ∧ (d.allowNull = true → f.nullable = true) ∧
      (∃ v, v ≠ .null ∧ Holds f v ∧ DescOK d v) := by
  obtain ⟨n, t, nu⟩ := f
  unfold fieldDesc at h
  rw [Option.map_eq_some_iff] at h
  obtain ⟨c, hc, rfl⟩ := h
  refine ⟨fun v hv => ?_, fun h => h, ?_⟩
  · obtain ⟨h1, h2⟩ := hv
    dsimp only at h1 h2
    cases v with
    | null => exact h2 rfl
    | int z => cases t <;> simp [sparkToAnalytics, Fits, DescOK] at hc h1 ⊢ <;> exact hc.symm
    | dec x =>
      cases t <;> cases x <;> simp [sparkToAnalytics, Fits, DescOK] at hc h1 ⊢ <;> first | exact hc.symm | simp [← hc]
    | str z => cases t <;> simp [sparkToAnalytics, Fits, DescOK] at hc h1 ⊢ <;> exact hc.symm
    | date z => cases t <;> simp [sparkToAnalytics, Fits, DescOK] at hc h1 ⊢ <;> exact hc.symm
    | ts z => cases t <;> simp [sparkToAnalytics, Fits, DescOK] at hc h1 ⊢ <;> exact hc.symm
  · cases t with
    | integer => cases hc; exact ⟨.int 0, nofun, ⟨by simp [Fits], nofun⟩, rfl⟩
    | long => cases hc; exact ⟨.int 0, nofun, ⟨by simp [Fits], nofun⟩, rfl⟩
    | float => cases hc; exact ⟨.dec .nan, nofun, ⟨trivial, nofun⟩, rfl, rfl⟩
    | double => cases hc; exact ⟨.dec .nan, nofun, ⟨trivial, nofun⟩, rfl, rfl⟩
    | string => cases hc; exact ⟨.str "", nofun, ⟨trivial, nofun⟩, rfl⟩
    | date => cases hc; exact ⟨.date 0, nofun, ⟨trivial, nofun⟩, rfl⟩
    | timestamp => cases hc; exact ⟨.ts 0, nofun, ⟨trivial, nofun⟩, rfl⟩
    | other n => cases hc

theorem named_fits {fs : List Field} {ds : List (String × Desc)}
    (h : List.Forall₂ (fun f q => q.1 = f.name ∧ fieldDesc f = some q.2) fs ds) (nd : (fs.map Field.name).Nodup)
    {r : List Value} (hr : List.Forall₂ (fun f v => Holds f v) fs r) :
    RowFits ds ((fs.map Field.name).zip r) := by
  have hlen : (fs.map Field.name).length = r.length := by rw [List.length_map, hr.length_eq]
  have hcols : ((fs.map Field.name).zip r).map Prod.fst = fs.map Field.name := List.map_fst_zip hlen.le
  have hk := forall₂_names (R := fun f d => fieldDesc f = some d) h
  refine ⟨?_, fun c => ?_, ?_⟩
  · show (((fs.map Field.name).zip r).map Prod.fst).Nodup
    rw [hcols]; exact nd
  · show c ∈ ((fs.map Field.name).zip r).map Prod.fst ↔ c ∈ ds.map Prod.fst
    rw [hcols, hk]
  · clear hcols hlen hk
    induction h generalizing r with
    | nil => intro c v hv; simp at hv
    | @cons f q fs ds hp hrest ih =>
      cases hr with
      | @cons _ w _ r' hw hr' =>
        obtain ⟨c0, d0⟩ := q
        obtain ⟨hn, hd⟩ := hp
        dsimp only at hn hd
        subst hn
        rw [List.map_cons, List.nodup_cons] at nd
        have hk := forall₂_names (R := fun f d => fieldDesc f = some d) hrest
        intro c v hv d hmem
        rw [List.map_cons, List.zip_cons_cons, List.mem_cons] at hv
        rw [List.mem_cons] at hmem
        rcases hv with hv | hv
        · cases hv
          rcases hmem with hmem | hmem
          · cases hmem
            exact (fieldDesc_spec hd).1 _ hw
          · exact absurd (hk ▸ List.mem_map_of_mem hmem) nd.1
        · rcases hmem with hmem | hmem
          · cases hmem
            exact absurd (List.of_mem_zip hv).1 nd.1
          · exact ih nd.2 hr' c v hv d hmem

/-- C39, reading a schema off a data frame: whenever all column types are supported, the schema made from the
frame's columns describes every row the frame can hold, and allows nulls only where the frame does. -/
theorem C39_frame {df : Frame} (nd : (df.fields.map Field.name).Nodup) (sup : ∀ f ∈ df.fields, f.ty ∈ supported) :
    ∃ ds, sparkSchemaToAnalytics df.fields = .ok ds ∧ ds.map Prod.fst = df.fields.map Field.name ∧
      List.Forall₂ (fun f q => ∀ v, Holds f v → DescOK q.2 v) df.fields ds ∧
      List.Forall₂ (fun f q => (DescOK q.2 .null → f.nullable = true) ∧ ∃ v, v ≠ .null ∧ Holds f v ∧ DescOK q.2 v)
        df.fields ds ∧
      ((∀ r ∈ df.rows, List.Forall₂ (fun f v => Holds f v) df.fields r) →
        ∀ r ∈ Frame.named df, RowFits ds r) := by
  obtain ⟨ds, e, hf⟩ := fieldDescs_ok df.fields sup
  have hk := forall₂_names (R := fun f d => fieldDesc f = some d) hf
  refine ⟨ds, ?_, hk, ?_, ?_, fun h r hr => ?_⟩
  · unfold sparkSchemaToAnalytics
    rw [e]
    dsimp only
    rw [Dict.ofPairs_eq]
    exact hk ▸ nd
  · exact hf.imp fun f q hq => (fieldDesc_spec hq.2).1
  · exact hf.imp fun f q hq => ⟨(fieldDesc_spec hq.2).2.1, (fieldDesc_spec hq.2).2.2⟩
  · simp only [Frame.named, List.mem_map] at hr
    obtain ⟨r', hr', rfl⟩ := hr
    exact named_fits hf nd (h r' hr')

/-- A frame with a nullable float column and an integer column. -/
example : ∃ ds, sparkSchemaToAnalytics [⟨"x", .float, true⟩, ⟨"n", .integer, false⟩] = .ok ds ∧
    ds = [("x", ⟨.DECIMAL, true, true, true⟩), ("n", ⟨.INTEGER, false, false, false⟩)] := ⟨_, rfl, by decide⟩

end Verif.Expr
