import Verif.Expr.PropsSchema

/-!
# C19 and C41: a concrete case, and what goes wrong with colliding renames

C41 is stated here as well.
-/

namespace Verif.Expr

open Verif Verif.Schema Verif.Constraint

/-- C41. An accepted rename keeps the columns in order, each with its descriptor; each column is renamed as
the mapper says, and no two columns get the same name.

Partial: mappers that give two columns the same new name are accepted by the code (`C41_fails`) and
excluded here. -/
theorem C41_rename_partial {m : Dict String String} {s' s : Schema} (ws : s'.WF) (wm : Dict.WF m)
    (hv : (m.map Prod.snd).Nodup) (h : schRename m s' = .ok s) :
    List.Forall₂ (fun old new : String × Desc => new.2 = old.2 ∧
        ((old.1, new.1) ∈ m ∨ ((∀ y, (old.1, y) ∉ m) ∧ new.1 = old.1)))
      s'.columnDescs.elements s.columnDescs.elements ∧
    (s.columnDescs.elements.map Prod.fst).Nodup ∧
    s.grouping.isSome = s'.grouping.isSome ∧ s.idColumn.isSome = s'.idColumn.isSome ∧ s.idSpace = s'.idSpace := by
  obtain ⟨_, _, h3, w, hg, hi, hsp, el⟩ := schRename_ok h
  have inj := renamed_inj wm hv h3
  rw [Dict.ofPairs_eq (wf_rename inj (wf_descs ws)), Schema.descs_eq ws] at el
  refine ⟨?_, w.nodup, by rw [hg, Option.isSome_map], by rw [hi, Option.isSome_map], hsp⟩
  rw [el, List.forall₂_map_right_iff, List.forall₂_same]
  intro p _
  refine ⟨rfl, ?_⟩
  unfold renamed
  cases hm : Dict.get m p.1 with
  | none =>
    refine Or.inr ⟨fun y hy => ?_, rfl⟩
    rw [(Dict.get_eq_some wm).2 hy] at hm
    cases hm
  | some y => exact Or.inl (Dict.mem_of_get hm)

/-- C41, rejections: a rename of a column that is not there, to an empty name, or to the name of another
column is an error. -/
theorem C41_rejects {m : Dict String String} {s' : Schema} (ws : s'.WF)
    (h : ∃ p ∈ m, p.2 = "" ∨ p.1 ∉ s'.columnDescs.elements.map Prod.fst ∨
      (p.2 ∈ s'.columnDescs.elements.map Prod.fst ∧ p.2 ≠ p.1)) :
    schRename m s' = .error .value := by
  obtain ⟨p, hp, hbad⟩ := h
  cases hr : schRename m s' with
  | ok s =>
    obtain ⟨h1, h2, h3, _⟩ := schRename_ok hr
    rw [← keys_eq ws] at hbad
    rcases hbad with hb | hb | ⟨hb, hne⟩
    · exact absurd hb (h1 p hp)
    · exact absurd (h2 p.1 (List.mem_map.2 ⟨p, hp, rfl⟩)) hb
    · exact absurd (h3 p hp hb) hne
  | error x =>
    unfold schRename at hr
    have key : ¬ (¬ (m.any (fun p => decide (p.2 = ""))) ∧
        ¬ ((Dict.keys m).any (fun c => decide (c ∉ Schema.keys s'))) ∧
        ¬ (m.any (fun p => decide (p.2 ∈ Schema.keys s') && decide (p.2 ≠ p.1)))) := by
      rintro ⟨a, b, c⟩
      rw [← keys_eq ws] at hbad
      rcases hbad with hb | hb | ⟨hb, hne⟩
      · have := any_false a p hp; simp [hb] at this
      · have := any_false b p.1 (List.mem_map.2 ⟨p, hp, rfl⟩); simp [hb] at this
      · have := any_false c p hp; simp [hb, hne] at this
    split at hr
    · cases hr; rfl
    next h1 =>
    split at hr
    · cases hr; rfl
    next h2 =>
    split at hr
    · cases hr; rfl
    next h3 => exact absurd ⟨h1, h2, h3⟩ key

namespace Example

def h : Hash := ⟨fun _ _ => true, fun _ _ => true⟩

/-- A schema from a list of columns. -/
def sch (cols : List (String × Desc)) (g i sp : Option String) : Schema := ⟨⟨cols⟩, g, i, sp⟩

def idTable : Schema :=
  sch [("id", ⟨.VARCHAR, false, false, false⟩), ("A", ⟨.INTEGER, true, false, false⟩),
    ("X", ⟨.DECIMAL, true, true, true⟩)] none (some "id") (some "people")

def plain : Schema :=
  sch [("A", ⟨.INTEGER, false, false, false⟩), ("B", ⟨.INTEGER, false, false, false⟩)] none none none

def pub : Schema := sch [("A", ⟨.INTEGER, false, false, false⟩), ("C", ⟨.VARCHAR, true, false, false⟩)] none none none

def cat : Cat :=
  { priv := [("t", (idTable, [])), ("u", (plain, []))]
    pub := [("p", (pub, [[("A", .int 0), ("C", .str "zero")], [("A", .int 7), ("C", .null)]]))] }

def D : Data := fun n =>
  if n = "t" then
    [[("id", .str "ann"), ("A", .int 7), ("X", .dec .nan)], [("id", .str "ann"), ("A", .null), ("X", .dec .pinf)],
     [("id", .str "bob"), ("A", .int 7), ("X", .dec (.fin 2))]]
  else if n = "u" then [[("A", .int 1), ("B", .int 2)]]
  else []

def new : Schema := sch [("N", ⟨.INTEGER, false, false, false⟩)] none none none

/-- Replace nulls, rename a column, flat-map to two rows, join a public table, drop infinities, limit to two
rows per ID. -/
def e : Expr :=
  .enforce
    (.dropInf
      (.joinPublic
        (.flatMap
          (.rename (.replaceNull (.source "t") [("A", .int 0)]) [("X", "Y"), ("id", "who")])
          (fun _ => [[("N", .int 1)], [("N", .null)]]) new true none)
        (.name "p") none .inner)
      [])
    (.maxRowsPerID 2)

/-- What can be observed of a compiled query. -/
structure Obs where
  schema : Schema
  dom : List (String × SparkDesc)
  metric : Metric
  cons : List Constraint
  rows : List (List (String × Value))
  deriving DecidableEq

def observe (cat : Cat) (e : Expr) (D : Data) : Option Obs :=
  match build h cat e with
  | .error _ => none
  | .ok (s, o) => some ⟨s, o.dom, o.metric, o.cons, o.run D⟩

theorem observe_ok {cat : Cat} {e : Expr} {D : Data} {x : Obs} (h1 : observe cat e D = some x) :
    ∃ o, build h cat e = .ok (x.schema, o) ∧ o.dom = x.dom ∧ o.metric = x.metric ∧ o.cons = x.cons ∧
      o.run D = x.rows := by
  unfold observe at h1
  split at h1
  · cases h1
  · next s' o hb =>
    cases h1
    exact ⟨o, hb, rfl, rfl, rfl, rfl⟩

/-- A decision procedure for conforming. -/
def descOKb (d : Desc) : Value → Bool
  | .null => d.allowNull
  | .int _ => decide (d.ty = .INTEGER)
  | .dec (.fin _) => decide (d.ty = .DECIMAL)
  | .dec .nan => decide (d.ty = .DECIMAL) && d.allowNan
  | .dec _ => decide (d.ty = .DECIMAL) && d.allowInf
  | .str _ => decide (d.ty = .VARCHAR)
  | .date _ => decide (d.ty = .DATE)
  | .ts _ => decide (d.ty = .TIMESTAMP)

instance (d : Desc) (v : Value) : Decidable (DescOK d v) :=
  decidable_of_iff (descOKb d v = true) (by
    cases v with
    | dec f => cases f <;> simp [descOKb, DescOK]
    | _ => simp [descOKb, DescOK])

def rowFitsb (descs : Dict String Desc) (r : Row) : Bool :=
  decide (r.cols.Nodup) && decide (∀ c ∈ r.cols, c ∈ Dict.keys descs) &&
    decide (∀ c ∈ Dict.keys descs, c ∈ r.cols) &&
    decide (∀ p ∈ r, ∀ q ∈ descs, q.1 = p.1 → DescOK q.2 p.2)

theorem rowFits_of {descs : Dict String Desc} {r : Row} (h : rowFitsb descs r = true) : RowFits descs r := by
  simp only [rowFitsb, Bool.and_eq_true, decide_eq_true_eq] at h
  exact ⟨h.1.1.1, fun c => ⟨h.1.1.2 c, h.1.2 c⟩, fun c v hv d hd => h.2 _ hv _ hd rfl⟩

theorem conforms_of {s : Schema} {t : Table} (h : t.all (rowFitsb s.columnDescs.elements) = true) :
    Conforms s t := fun r hr => rowFits_of (List.all_eq_true.1 h r hr)

def schemaWFb (s : Schema) : Bool :=
  decide ((s.columnDescs.elements.map Prod.fst).Nodup) && decide ("" ∉ s.columnDescs.elements.map Prod.fst) &&
    s.grouping.all (fun g => decide (g ∈ s.columnDescs.elements.map Prod.fst)) &&
    s.idColumn.all (fun g => decide (g ∈ s.columnDescs.elements.map Prod.fst))

theorem schemaWF_of {s : Schema} (h : schemaWFb s = true) : s.WF := by
  simp only [schemaWFb, Bool.and_eq_true, decide_eq_true_eq] at h
  refine ⟨h.1.1.1, h.1.1.2, ?_, ?_⟩
  · intro g hg; have := h.1.2; rw [hg] at this; simpa using this
  · intro g hg; have := h.2; rw [hg] at this; simpa using this

theorem cat_ok : cat.OK := by
  constructor
  · intro id s cs h
    have := Dict.mem_of_get h
    simp only [cat, List.mem_cons, Prod.mk.injEq, List.not_mem_nil, or_false] at this
    rcases this with ⟨_, rfl, _⟩ | ⟨_, rfl, _⟩ <;>
      exact ⟨schemaWF_of (by decide), by decide, by decide⟩
  · intro id s t h
    have := Dict.mem_of_get h
    simp only [cat, List.mem_cons, Prod.mk.injEq, List.not_mem_nil, or_false] at this
    obtain ⟨_, rfl, _⟩ := this
    exact ⟨schemaWF_of (by decide), by decide, by decide⟩

theorem data_ok : cat.DataOK D := by
  constructor
  · intro id s cs h
    have := Dict.mem_of_get h
    simp only [cat, List.mem_cons, Prod.mk.injEq, List.not_mem_nil, or_false] at this
    rcases this with ⟨rfl, rfl, _⟩ | ⟨rfl, rfl, _⟩ <;> exact conforms_of (by decide +kernel)
  · intro id s t h
    have := Dict.mem_of_get h
    simp only [cat, List.mem_cons, Prod.mk.injEq, List.not_mem_nil, or_false] at this
    obtain ⟨_, rfl, rfl⟩ := this
    exact conforms_of (by decide +kernel)

/-- The example compiles to a table with nulls and NaNs left in it. -/
theorem observed : observe cat e D = some
    ⟨sch [("A", ⟨.INTEGER, false, false, false⟩), ("who", ⟨.VARCHAR, false, false, false⟩),
        ("Y", ⟨.DECIMAL, true, true, false⟩), ("N", ⟨.INTEGER, true, false, false⟩),
        ("C", ⟨.VARCHAR, true, false, false⟩)] none (some "who") (some "people"),
      [("A", .integer false), ("who", .string false), ("Y", .float true false true), ("N", .integer true),
        ("C", .string true)],
      .ids "who", [.maxRowsPerID 2],
      [[("A", .int 7), ("who", .str "ann"), ("Y", .dec .nan), ("N", .int 1), ("C", .null)],
       [("A", .int 7), ("who", .str "ann"), ("Y", .dec .nan), ("N", .null), ("C", .null)],
       [("A", .int 7), ("who", .str "bob"), ("Y", .dec (.fin 2)), ("N", .int 1), ("C", .null)],
       [("A", .int 7), ("who", .str "bob"), ("Y", .dec (.fin 2)), ("N", .null), ("C", .null)]]⟩ := by
  decide +kernel

/-- The hypotheses of C19 hold for it. -/
theorem e_ok : e.WF ∧ e.FnsOK ∧ e.RenamesDistinct := by
  refine ⟨?_, ?_, ?_⟩
  · refine ⟨⟨⟨⟨trivial, ?_⟩, ?_⟩, ?_⟩, trivial⟩
    · simp [Dict.WF]
    · simp [Dict.WF]
    · exact schemaWF_of (by decide)
  · refine ⟨⟨trivial, ?_⟩, trivial⟩
    intro r x hx
    simp only [List.mem_cons, List.not_mem_nil, or_false] at hx
    rcases hx with rfl | rfl <;> exact rowFits_of (by decide +kernel)
  · exact ⟨trivial, by decide⟩

example : ∃ s o, build h cat e = .ok (s, o) ∧ Conforms s (o.run D) ∧ (o.run D).length = 4 := by
  obtain ⟨o, hb, _, _, _, hrun⟩ := observe_ok observed
  refine ⟨_, o, hb, C19_schema_describes_data_partial cat_ok data_ok e_ok.1 e_ok.2.1 e_ok.2.2 hb, ?_⟩
  rw [hrun]
  rfl

/-- Two columns get the same name. -/
def collide : Expr := .rename (.source "u") [("A", "Z"), ("B", "Z")]

theorem collide_observed : observe cat collide D = some
    ⟨sch [("Z", ⟨.INTEGER, false, false, false⟩)] none none none, [("Z", .integer false)], .symDiff, [],
      [[("Z", .int 1), ("Z", .int 2)]]⟩ := by decide +kernel

end Example

/-- C19 fails for renames that give two columns the same name: they are accepted, the schema reports one
column, and the rows have two of that name. (What core's `Rename` and Spark make of it is assumed.) -/
theorem C19_fails : ∃ h cat D e s o, Cat.OK cat ∧ cat.DataOK D ∧ Expr.WF e ∧ e.FnsOK ∧
    build h cat e = .ok (s, o) ∧ ¬ Conforms s (o.run D) := by
  obtain ⟨o, hb, _, _, _, hrun⟩ := Example.observe_ok Example.collide_observed
  refine ⟨_, _, Example.D, Example.collide, _, o, Example.cat_ok, Example.data_ok, ⟨trivial, by simp [Dict.WF]⟩,
    trivial, hb, ?_⟩
  intro hcon
  have := (hcon [("Z", .int 1), ("Z", .int 2)] (by rw [hrun]; simp)).1
  simp [Row.cols] at this

/-- C41 fails for such renames: two columns collapse into one. -/
theorem C41_fails : ∃ m s' s, Schema.WF s' ∧ Dict.WF m ∧ schRename m s' = .ok s ∧
    s'.columnDescs.elements.length = 2 ∧ s.columnDescs.elements.length = 1 :=
  ⟨[("A", "Z"), ("B", "Z")], Example.plain, Example.sch [("Z", ⟨.INTEGER, false, false, false⟩)] none none none,
    Example.schemaWF_of (by decide), by simp [Dict.WF], by
      have : (schRename [("A", "Z"), ("B", "Z")] Example.plain).toOption
          = some (Example.sch [("Z", ⟨.INTEGER, false, false, false⟩)] none none none) := by decide +kernel
      cases hx : schRename [("A", "Z"), ("B", "Z")] Example.plain with
      | error x => rw [hx] at this; cases this
      | ok s => rw [hx] at this; cases this; rfl, rfl, rfl⟩

example : ∃ m s, Dict.WF m ∧ (m.map Prod.snd).Nodup ∧ schRename m Example.plain = .ok s :=
  ⟨[("A", "Z")], Example.sch [("Z", ⟨.INTEGER, false, false, false⟩), ("B", ⟨.INTEGER, false, false, false⟩)]
    none none none, by simp [Dict.WF], by decide, by
      have : (schRename [("A", "Z")] Example.plain).toOption
          = some (Example.sch [("Z", ⟨.INTEGER, false, false, false⟩), ("B", ⟨.INTEGER, false, false, false⟩)]
            none none none) := by decide +kernel
      cases hx : schRename [("A", "Z")] Example.plain with
      | error x => rw [hx] at this; cases this
      | ok s => rw [hx] at this; cases this; rfl⟩

end Verif.Expr
