import Verif.Whole.Total
import Verif.Whole.Grouped
import Verif.Whole.Chain

/-!
# Describing tables and queries

Source: `Session.describe` with an argument (`session.py` l. 540-638), `_describe_query_obj` (l. 702-742) and
`_describe_schema` (l. 1754-1815).

Simplifications
* `tabulate` (l. 1815) shows its arguments; the text of constraints is left out.
* The data frame of a KeySet is as in `Whole/Grouped`; `size()` is the number of its rows (C24).
-/

namespace Verif.Whole

open Verif Verif.Schema Verif.Constraint Verif.Expr Verif.Query Verif.Stability
open Verif.Budget (XNum PB Rounding)

/-! ## Model -/

/-- What is put into the cells of the table that is printed. -/
inductive Entry where
  | text (s : String)
  | type (t : ColumnType)
  | none
  deriving DecidableEq

def Entry.ofBool (b : Bool) : Entry := .text (if b then "True" else "False")

def Entry.ofOption : Option String → Entry
  | some s => .text s
  | Option.none => .none

/-- `bool(name)` (l. 1763-1764). -/
def truthy (o : Option String) : Bool := o.any (fun c => decide (c ≠ ""))

/-- `decimal_cols` (l. 1766-1768). -/
def anyDecimal (s : Schema) : Bool := s.columnDescs.elements.any (fun p => decide (p.2.ty = .DECIMAL))

/-- The headers (l. 1759-1783). -/
def headers (s : Schema) : List String :=
  ["Column Name", "Column Type"] ++ (if truthy s.idColumn then ["ID Col", "ID Space"] else []) ++
    (if truthy s.grouping then ["Grouping Column"] else []) ++ ["Nullable"] ++
    (if anyDecimal s then ["NaN Allowed", "Infinity Allowed"] else [])

/-- The row of a column (l. 1786-1813). -/
def entries (s : Schema) (p : String × Desc) : List Entry :=
  [.text p.1, .type p.2.ty] ++
    (if truthy s.idColumn && decide (some p.1 = s.idColumn) then [.text "True", .ofOption s.idSpace]
      else if truthy s.idColumn then [.text "False", .text ""] else []) ++
    (if truthy s.grouping && decide (some p.1 = s.grouping) then [.text "True"]
      else if truthy s.grouping then [.text "False"] else []) ++
    [.ofBool p.2.allowNull] ++
    (if anyDecimal s && decide (p.2.ty = .DECIMAL) then [.ofBool p.2.allowNan, .ofBool p.2.allowInf]
      else if anyDecimal s then [.text "", .text ""] else [])

/-- `_describe_schema` (l. 1754-1815). -/
def describeSchema (s : Schema) : List String × List (List Entry) :=
  (headers s, s.columnDescs.elements.map (entries s))

/-- What is printed: the table, the constraints, and what is grouped by, with the number of groups. -/
structure Description where
  table : List String × List (List Entry)
  constraints : List Constraint
  groups : Option (List String × Option Nat)
  deriving DecidableEq

/-- What `describe` is given: the name of a table, a builder, a grouped builder, a query. -/
inductive Described where
  | name (id : String)
  | builder (e : Expr)
  | grouped (e : Expr) (keys : Keys)
  | query (q : Query)

/-- The groups (l. 732-741). -/
def groupsShown : Keys → Option (List String × Option Nat)
  | .cols cs => some (cs, none)
  | .set k => if (Dict.keys k.schema).length > 0 then some (Dict.keys k.schema, some k.rows.length) else none

/-- `_describe_query_obj` (l. 702-742) of a transformation: its schema, and the constraints of what
`build_transformation` makes. -/
def describeExpr (ctx : Ctx) (tables : List (String × Tab)) (pub : List (String × PubFrame)) (e : Expr)
    (groups : Option (List String × Option Nat)) : Except PyErr Description :=
  match catalog tables pub with
  | .error x => .error x
  | .ok cat =>
    match build ctx.h cat e with
    | .error x => .error x
    | .ok (s, o) => .ok ⟨describeSchema s, o.cons, groups⟩

/-- `describe` (l. 616-638). The visitor of transformations raises `NotImplementedError` for all aggregations
(`_base_transformation_visitor.py` l. 1538-1577), and only the schema is shown. -/
def describeObj (ctx : Ctx) (tables : List (String × Tab)) (pub : List (String × PubFrame)) :
    Described → Except PyErr Description
  | .name id =>
    match newBuilder ctx id with
    | .error x => .error x
    | .ok e => describeExpr ctx tables pub e none
  | .builder e => describeExpr ctx tables pub e none
  | .grouped e keys => describeExpr ctx tables pub e (groupsShown keys)
  | .query q =>
    match catalog tables pub with
    | .error x => .error x
    | .ok cat =>
      match q.schema cat with
      | .error x => .error x
      | .ok s => .ok ⟨describeSchema s, [], none⟩

/-! ## Specification -/

/-- Schemas that differ at most in what only floating point columns have. -/
structure SameTable (s s' : Schema) : Prop where
  columns : List.Forall₂ (fun p p' => p.1 = p'.1 ∧ p.2.ty = p'.2.ty ∧ p.2.allowNull = p'.2.allowNull ∧
    (p.2.ty = .DECIMAL → p.2 = p'.2)) s.columnDescs.elements s'.columnDescs.elements
  id : s.idColumn = s'.idColumn
  grouping : s.grouping = s'.grouping
  space : s.idColumn ≠ none → s.idSpace = s'.idSpace

/-! ## The printed table -/

theorem truthy_wf {s : Schema} (w : s.WF) : truthy s.idColumn = s.idColumn.isSome ∧ truthy s.grouping = s.grouping.isSome := by
  have key : ∀ o : Option String, (∀ c, o = some c → c ∈ s.columnDescs.elements.map Prod.fst) → truthy o = o.isSome := by
    intro o ho
    cases o with
    | none => rfl
    | some c =>
      have : c ≠ "" := by
        rintro rfl
        exact w.nonempty (ho _ rfl)
      simp [truthy, this]
  exact ⟨key _ w.idColumn, key _ w.grouping⟩

theorem headers_inj {a b c a' b' c' : Bool}
    (h : ["Column Name", "Column Type"] ++ (if a then ["ID Col", "ID Space"] else []) ++
      (if b then ["Grouping Column"] else []) ++ ["Nullable"] ++ (if c then ["NaN Allowed", "Infinity Allowed"] else []) =
      ["Column Name", "Column Type"] ++ (if a' then ["ID Col", "ID Space"] else []) ++
      (if b' then ["Grouping Column"] else []) ++ ["Nullable"] ++ (if c' then ["NaN Allowed", "Infinity Allowed"] else [])) :
    a = a' ∧ b = b' ∧ c = c' := by
  cases a <;> cases b <;> cases c <;> cases a' <;> cases b' <;> cases c' <;> first | exact ⟨rfl, rfl, rfl⟩ | (simp at h)

theorem map_eq_forall₂ {α β γ : Type} {f : α → γ} {g : β → γ} {l : List α} {l' : List β} :
    l.map f = l'.map g ↔ List.Forall₂ (fun a b => f a = g b) l l' := by
  induction l generalizing l' with
  | nil => cases l' <;> simp
  | cons a l ih => cases l' <;> simp [ih]

theorem ofBool_inj {a b : Bool} (h : Entry.ofBool a = Entry.ofBool b) : a = b := by
  cases a <;> cases b <;> first | rfl | (simp [Entry.ofBool] at h)

theorem ofOption_inj {a b : Option String} (h : Entry.ofOption a = Entry.ofOption b) : a = b := by
  cases a <;> cases b <;> simp_all [Entry.ofOption]

theorem five_inj {α : Type} {a b c d e a' b' c' d' e' : List α} (h : a ++ b ++ c ++ d ++ e = a' ++ b' ++ c' ++ d' ++ e')
    (ha : a.length = a'.length) (hb : b.length = b'.length) (hc : c.length = c'.length) (hd : d.length = d'.length) :
    a = a' ∧ b = b' ∧ c = c' ∧ d = d' ∧ e = e' := by
  simp only [List.append_assoc] at h
  obtain ⟨h1, h⟩ := List.append_inj h ha
  obtain ⟨h2, h⟩ := List.append_inj h hb
  obtain ⟨h3, h⟩ := List.append_inj h hc
  obtain ⟨h4, h⟩ := List.append_inj h hd
  exact ⟨h1, h2, h3, h4, h⟩

theorem part_len {α : Type} (a x y : Bool) (k : Nat) {t t' f : List α} (h1 : t.length = k) (h2 : t'.length = k) (h3 : f.length = k) :
    (if a && x then t else if a then f else []).length = (if a && y then t' else if a then f else []).length := by
  cases a <;> cases x <;> cases y <;> simp [h1, h2, h3]

/-- What a row says. -/
theorem entries_inj {s s' : Schema} {p p' : String × Desc} (h1 : truthy s.idColumn = truthy s'.idColumn)
    (h2 : truthy s.grouping = truthy s'.grouping) (h3 : anyDecimal s = anyDecimal s')
    (hd : p.2.ty = .DECIMAL → anyDecimal s = true) (h : entries s p = entries s' p') :
    p.1 = p'.1 ∧ p.2.ty = p'.2.ty ∧ p.2.allowNull = p'.2.allowNull ∧ (p.2.ty = .DECIMAL → p.2 = p'.2) ∧
      (truthy s.idColumn = true → ((some p.1 = s.idColumn ↔ some p'.1 = s'.idColumn) ∧
        (some p.1 = s.idColumn → s.idSpace = s'.idSpace))) ∧
      (truthy s.grouping = true → (some p.1 = s.grouping ↔ some p'.1 = s'.grouping)) := by
  unfold entries at h
  rw [← h1, ← h2, ← h3] at h
  obtain ⟨a1, a2, a3, a4, a5⟩ := five_inj h rfl (part_len _ _ _ 2 rfl rfl rfl) (part_len _ _ _ 1 rfl rfl rfl) rfl
  simp only [List.cons.injEq, Entry.text.injEq, Entry.type.injEq, and_true] at a1 a4
  obtain ⟨e1, e2⟩ := a1
  have e4 := ofBool_inj a4
  refine ⟨e1, e2, e4, ?_, ?_, ?_⟩
  · intro ht
    have ht' : p'.2.ty = .DECIMAL := e2 ▸ ht
    rw [hd ht] at a5
    simp only [ht, ht', decide_true, Bool.and_self, if_true, List.cons.injEq, and_true] at a5
    have e5 := ofBool_inj a5.1
    have e6 := ofBool_inj a5.2
    obtain ⟨n, ⟨t, x, y, z⟩⟩ := p
    obtain ⟨n', ⟨t', x', y', z'⟩⟩ := p'
    dsimp only at *
    subst e2 e4 e5 e6
    rfl
  · intro ht
    rw [ht] at a2
    by_cases b : some p.1 = s.idColumn <;> by_cases b' : some p'.1 = s'.idColumn <;> simp [b, b'] at a2 ⊢
    exact ofOption_inj a2
  · intro ht
    rw [ht] at a3
    by_cases b : some p.1 = s.grouping <;> by_cases b' : some p'.1 = s'.grouping <;> simp [b, b'] at a3 ⊢

theorem anyDecimal_same {s s' : Schema} (h : SameTable s s') : anyDecimal s = anyDecimal s' := by
  unfold anyDecimal
  have := h.columns
  generalize s.columnDescs.elements = l at this
  generalize s'.columnDescs.elements = l' at this
  induction this with
  | nil => rfl
  | cons hp _ ih => simp [ih, hp.2.1]

/-- **C77**: what is printed of a schema says everything about it: names, order, types and nullability of the columns, whether
columns of floating point numbers may have NaNs and infinities, the ID column with its space, and the grouping column. -/
theorem C77_table {s s' : Schema} (w : s.WF) (w' : s'.WF) : describeSchema s = describeSchema s' ↔ SameTable s s' := by
  obtain ⟨t1, t2⟩ := truthy_wf w
  obtain ⟨t1', t2'⟩ := truthy_wf w'
  unfold describeSchema
  rw [Prod.mk.injEq]
  constructor
  · rintro ⟨hh, hr⟩
    obtain ⟨f1, f2, f3⟩ := headers_inj hh
    rw [map_eq_forall₂] at hr
    have dec : ∀ p ∈ s.columnDescs.elements, p.2.ty = .DECIMAL → anyDecimal s = true :=
      fun p hp ht => List.any_eq_true.2 ⟨p, hp, by simp [ht]⟩
    have all := (List.forall₂_iff_zip.1 hr)
    have each : ∀ p p', (p, p') ∈ s.columnDescs.elements.zip s'.columnDescs.elements → _ := fun p p' hm =>
      entries_inj f1 f2 f3 (dec p (List.of_mem_zip hm).1) (all.2 hm)
    have find : ∀ c, c ∈ s.columnDescs.elements.map Prod.fst → ∃ p p', (p, p') ∈ s.columnDescs.elements.zip s'.columnDescs.elements ∧ p.1 = c := by
      intro c hc
      obtain ⟨p, hp, rfl⟩ := List.mem_map.1 hc
      obtain ⟨i, hi, rfl⟩ := List.mem_iff_getElem.1 hp
      have hl := all.1
      refine ⟨_, s'.columnDescs.elements[i]'(hl ▸ hi), ?_, rfl⟩
      rw [List.mem_iff_getElem]
      exact ⟨i, by simp; omega, by simp⟩
    have same : ∀ o o' : Option String, o.isSome = o'.isSome → (∀ c, o = some c → o' = some c) → o = o' := by
      intro o o' h1 h2
      cases o with
      | none => cases o' <;> simp_all
      | some c => exact (h2 c rfl).symm
    refine ⟨List.forall₂_iff_zip.2 ⟨all.1, fun hm => ?_⟩, ?_, ?_, ?_⟩
    · obtain ⟨a, b, c, d, _⟩ := each _ _ hm
      exact ⟨a, b, c, d⟩
    · refine same _ _ (by rw [← t1, ← t1']; exact f1) fun c hc => ?_
      obtain ⟨p, p', hm, rfl⟩ := find c (w.idColumn c hc)
      obtain ⟨a, _, _, _, b, _⟩ := each p p' hm
      exact a ▸ (((b (by rw [t1, hc]; rfl)).1.1 hc.symm).symm)
    · refine same _ _ (by rw [← t2, ← t2']; exact f2) fun c hc => ?_
      obtain ⟨p, p', hm, rfl⟩ := find c (w.grouping c hc)
      obtain ⟨a, _, _, _, _, b⟩ := each p p' hm
      exact a ▸ (((b (by rw [t2, hc]; rfl)).1 hc.symm).symm)
    · intro hne
      obtain ⟨c, hc⟩ := Option.ne_none_iff_exists'.1 hne
      obtain ⟨p, p', hm, rfl⟩ := find c (w.idColumn c hc)
      obtain ⟨_, _, _, _, b, _⟩ := each p p' hm
      exact (b (by rw [t1, hc]; rfl)).2 hc.symm
  · intro h
    have hdec := anyDecimal_same h
    refine ⟨by unfold headers; rw [h.id, h.grouping, hdec], ?_⟩
    rw [map_eq_forall₂]
    refine h.columns.imp ?_
    rintro p p' ⟨e1, e2, e3, e4⟩
    have hsp : (if truthy s.idColumn && decide (some p.1 = s.idColumn) then [Entry.text "True", .ofOption s.idSpace]
        else if truthy s.idColumn then [.text "False", .text ""] else []) =
        (if truthy s'.idColumn && decide (some p'.1 = s'.idColumn) then [Entry.text "True", .ofOption s'.idSpace]
        else if truthy s'.idColumn then [.text "False", .text ""] else []) := by
      rw [← h.id, ← e1]
      by_cases hn : s.idColumn = none
      · simp [hn, truthy]
      · rw [h.space hn]
    have hdd : (if anyDecimal s && decide (p.2.ty = .DECIMAL) then [Entry.ofBool p.2.allowNan, .ofBool p.2.allowInf]
        else if anyDecimal s then [.text "", .text ""] else []) =
        (if anyDecimal s' && decide (p'.2.ty = .DECIMAL) then [Entry.ofBool p'.2.allowNan, .ofBool p'.2.allowInf]
        else if anyDecimal s' then [.text "", .text ""] else []) := by
      rw [← hdec, ← e2]
      by_cases ht : p.2.ty = .DECIMAL
      · rw [e4 ht]
      · simp [ht]
    unfold entries
    rw [hsp, hdd, e1, e2, e3, h.grouping]

end Verif.Whole
