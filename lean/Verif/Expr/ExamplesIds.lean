import Verif.Expr.PropsConstraint
import Verif.Expr.ExamplesSchema

/-!
# C16 and C20: examples and counterexamples
-/

namespace Verif.Expr

open Verif Verif.Schema Verif.Constraint

namespace Example

/-! ## C20 -/

theorem cat_ids : cat.IdsNotFloat := by
  intro id s cs i hg hi d hd
  have := Dict.mem_of_get hg
  simp only [cat, List.mem_cons, Prod.mk.injEq, List.not_mem_nil, or_false] at this
  rcases this with ⟨_, rfl, _⟩ | ⟨_, rfl, _⟩
  · cases hi
    simp only [idTable, sch, List.mem_cons, Prod.mk.injEq, List.not_mem_nil, or_false] at hd
    rcases hd with ⟨_, rfl⟩ | ⟨h, _⟩ | ⟨h, _⟩
    · decide
    · simp at h
    · simp at h
  · cases hi

/-- The query of `ExamplesSchema` on the rows of Bob alone. -/
example : ∃ s o, build h cat e = .ok (s, o) ∧ s.idColumn = some "who" ∧
    o.run (onlyIDs cat (fun v => decide (v = some (.str "bob"))) D) =
      [[("A", .int 7), ("who", .str "bob"), ("Y", .dec (.fin 2)), ("N", .int 1), ("C", .null)],
       [("A", .int 7), ("who", .str "bob"), ("Y", .dec (.fin 2)), ("N", .null), ("C", .null)]] := by
  obtain ⟨o, hb, _, _, _, hrun⟩ := observe_ok observed
  refine ⟨_, o, hb, rfl, ?_⟩
  rw [← (C20_id_survives_partial cat_ok cat_ids data_ok e_ok.1 e_ok.2.1 e_ok.2.2 hb rfl).2.2
    (fun v => decide (v = some (.str "bob"))), hrun]
  decide +kernel

/-! ## Tables with constraints -/

def str (n : Bool) : Desc := ⟨.VARCHAR, n, false, false⟩

def left : Schema := sch [("g", str false), ("id", str false)] none (some "id") (some "s")
def right : Schema := sch [("id", str false), ("g", str false)] none (some "id") (some "s")
def nullableG : Schema := sch [("id", str false), ("g", str true)] none (some "id") (some "s")

def cat2 : Cat :=
  { priv := [("l", (left, [.maxRowsPerID 1])), ("r", (right, [.maxGroupsPerID "g" 1])),
      ("n", (nullableG, [.maxRowsPerGroupPerID "g" 1]))]
    pub := [("p", (sch [("g", str false)] none none none, [[("g", .str "a")], [("g", .str "a")]]))] }

def D2 : Data := fun n =>
  if n = "l" then [[("g", .str "a"), ("id", .str "ann")]]
  else if n = "r" then List.replicate 3 [("id", .str "ann"), ("g", .str "a")]
  else if n = "n" then [[("id", .str "ann"), ("g", .null)], [("id", .str "ann"), ("g", .str "")]]
  else []

theorem cat2_ok : cat2.OK := by
  constructor
  · intro id s cs h
    have := Dict.mem_of_get h
    simp only [cat2, List.mem_cons, Prod.mk.injEq, List.not_mem_nil, or_false] at this
    rcases this with ⟨_, rfl, _⟩ | ⟨_, rfl, _⟩ | ⟨_, rfl, _⟩ <;>
      exact ⟨schemaWF_of (by decide), by decide, by decide⟩
  · intro id s t h
    have := Dict.mem_of_get h
    simp only [cat2, List.mem_cons, Prod.mk.injEq, List.not_mem_nil, or_false] at this
    obtain ⟨_, rfl, _⟩ := this
    exact ⟨schemaWF_of (by decide), by decide, by decide⟩

theorem data2_ok : cat2.DataOK D2 := by
  constructor
  · intro id s cs h
    have := Dict.mem_of_get h
    simp only [cat2, List.mem_cons, Prod.mk.injEq, List.not_mem_nil, or_false] at this
    rcases this with ⟨rfl, rfl, _⟩ | ⟨rfl, rfl, _⟩ | ⟨rfl, rfl, _⟩ <;> exact conforms_of (by decide +kernel)
  · intro id s t h
    have := Dict.mem_of_get h
    simp only [cat2, List.mem_cons, Prod.mk.injEq, List.not_mem_nil, or_false] at this
    obtain ⟨_, rfl, rfl⟩ := this
    exact conforms_of (by decide +kernel)

theorem cat2_ids : cat2.IdsNotFloat := by
  intro id s cs i hg hi d hd
  have := Dict.mem_of_get hg
  simp only [cat2, List.mem_cons, Prod.mk.injEq, List.not_mem_nil, or_false] at this
  rcases this with ⟨_, rfl, _⟩ | ⟨_, rfl, _⟩ | ⟨_, rfl, _⟩ <;>
  · cases hi
    simp only [left, right, nullableG, sch, List.mem_cons, Prod.mk.injEq, List.not_mem_nil, or_false] at hd
    rcases hd with ⟨_, rfl⟩ | ⟨_, rfl⟩ <;> decide

/-- Deciding a constraint: only IDs and groups that occur matter. -/
def satb (id : String) : Constraint → Table → Bool
  | .maxRowsPerID n, t => t.all (fun r => decide ((t.whereEq id (Row.get r id)).length ≤ n))
  | .maxGroupsPerID c n, t => t.all (fun r =>
      decide (((t.whereEq id (Row.get r id)).map (fun x => Row.get x c)).dedup.length ≤ n))
  | .maxRowsPerGroupPerID c n, t => t.all (fun r =>
      decide (((t.whereEq id (Row.get r id)).whereEq c (Row.get r c)).length ≤ n))

theorem sat_of {id : String} {c : Constraint} {t : Table} (h : satb id c t = true) : Sat id c t := by
  have empty : ∀ v, (∀ r ∈ t, Row.get r id ≠ v) → t.whereEq id v = [] := by
    intro v hv
    unfold Table.whereEq
    rw [List.filter_eq_nil_iff]
    intro r hr
    simpa using hv r hr
  cases c with
  | maxRowsPerID n =>
    intro v
    by_cases hv : ∃ r ∈ t, Row.get r id = v
    · obtain ⟨r, hr, rfl⟩ := hv
      simpa using List.all_eq_true.1 h r hr
    · rw [empty v (fun r hr he => hv ⟨r, hr, he⟩)]; simp
  | maxGroupsPerID c n =>
    intro v
    by_cases hv : ∃ r ∈ t, Row.get r id = v
    · obtain ⟨r, hr, rfl⟩ := hv
      simpa using List.all_eq_true.1 h r hr
    · rw [empty v (fun r hr he => hv ⟨r, hr, he⟩)]; simp
  | maxRowsPerGroupPerID c n =>
    intro v w
    by_cases hv : ∃ r ∈ t, Row.get r id = v ∧ Row.get r c = w
    · obtain ⟨r, hr, rfl, rfl⟩ := hv
      simpa using List.all_eq_true.1 h r hr
    · have : (t.whereEq id v).whereEq c w = [] := by
        unfold Table.whereEq
        rw [List.filter_eq_nil_iff]
        intro r hr
        obtain ⟨h1, h2⟩ := List.mem_filter.1 hr
        simp only [decide_eq_true_eq] at h2 ⊢
        exact fun h3 => hv ⟨r, h1, h2, h3⟩
      rw [this]; simp

theorem cons2_ok : cat2.ConsOK D2 := by
  intro id s cs i hg hi c hc
  have := Dict.mem_of_get hg
  simp only [cat2, List.mem_cons, Prod.mk.injEq, List.not_mem_nil, or_false] at this
  rcases this with ⟨rfl, rfl, rfl⟩ | ⟨rfl, rfl, rfl⟩ | ⟨rfl, rfl, rfl⟩ <;>
  · cases hi
    rw [List.mem_singleton] at hc
    subst hc
    refine ⟨sat_of (by decide +kernel), ?_⟩
    intro g hg
    simp only [consCol, Option.some.injEq, reduceCtorEq] at hg
    try (subst hg; decide)

/-- Limit one side to three rows per ID, join the other, which is limited to one, and a public table. -/
def ok2 : Expr :=
  .joinPublic (.joinPrivate (.source "l") (.enforce (.source "r") (.maxRowsPerID 1)) none none none) (.name "p")
    none .inner

theorem ok2_observed : observe cat2 ok2 D2 = some
    ⟨sch [("g", str false), ("id", str false)] none (some "id") (some "s"),
      [("g", .string false), ("id", .string false)], .ids "id", [.maxRowsPerID 2, .maxGroupsPerID "g" 1],
      List.replicate 2 [("g", .str "a"), ("id", .str "ann")]⟩ := by decide +kernel

theorem ok2_wf : ok2.WF ∧ ok2.FnsOK ∧ ok2.RenamesDistinct := by
  simp [ok2, Expr.WF, Expr.FnsOK, Expr.RenamesDistinct]

/-- The constraints of a compiled query. -/
def consOf (e : Expr) : Option (List Constraint) :=
  match compile h cat2 e with
  | .ok o => some o.cons
  | .error _ => none

theorem consOf_ok {e : Expr} {o : Out} (ho : compile h cat2 e = .ok o) {cs : List Constraint}
    (hc : consOf e = some cs) : o.cons = cs := by
  unfold consOf at hc
  rw [ho] at hc
  cases hc
  rfl

theorem ok2_safe : ok2.ConsSafe h cat2 := by
  refine ⟨trivial, trivial, ?_⟩
  intro ol or hol hor
  have e1 := consOf_ok hol (cs := [.maxRowsPerID 1]) (by decide +kernel)
  have e2 := consOf_ok hor (cs := [.maxRowsPerID 1, .maxGroupsPerID "g" 1]) (by decide +kernel)
  rw [e1, e2]
  constructor
  · intro g n hgn _
    simp at hgn
  · intro g n hgn _
    simp only [List.mem_cons, reduceCtorEq, Constraint.maxGroupsPerID.injEq, false_or, List.not_mem_nil,
      or_false] at hgn
    obtain ⟨_, rfl⟩ := hgn
    exact ⟨1, le_refl 1, by simp⟩

example : ∃ s o, build h cat2 ok2 = .ok (s, o) ∧ o.cons = [.maxRowsPerID 2, .maxGroupsPerID "g" 1] ∧
    (o.run D2).length = 2 ∧ ∀ c ∈ o.cons, Sat "id" c (o.run D2) := by
  obtain ⟨o, hb, _, _, hcons, hrun⟩ := observe_ok ok2_observed
  refine ⟨_, o, hb, hcons, by rw [hrun]; rfl, fun c hc => ?_⟩
  exact (C16_constraints_hold_partial cat2_ok cat2_ids data2_ok cons2_ok ok2_wf.1 ok2_wf.2.1
    ok2_wf.2.2 ok2_safe hb rfl c hc).1

def badJoin : Expr := .joinPrivate (.source "l") (.source "r") none none none
def badReplace : Expr := .replaceNull (.source "n") []
def badRename : Expr := .rename (.source "l") [("g", "x"), ("id", "x")]

theorem join_observed : observe cat2 badJoin D2 = some
    ⟨sch [("g", str false), ("id", str false)] none (some "id") (some "s"),
      [("g", .string false), ("id", .string false)], .ids "id", [.maxRowsPerID 1, .maxGroupsPerID "g" 1],
      List.replicate 3 [("g", .str "a"), ("id", .str "ann")]⟩ := by decide +kernel

theorem replace_observed : observe cat2 badReplace D2 = some
    ⟨sch [("id", str false), ("g", str false)] none (some "id") (some "s"),
      [("id", .string false), ("g", .string false)], .ids "id", [.maxRowsPerGroupPerID "g" 1],
      List.replicate 2 [("id", .str "ann"), ("g", .str "")]⟩ := by decide +kernel

theorem rename_observed : observe cat2 badRename D2 = some
    ⟨sch [("x", str false)] none (some "x") (some "s"), [("x", .string false)], .ids "x", [.maxRowsPerID 1],
      [[("x", .str "a"), ("x", .str "ann")]]⟩ := by decide +kernel

end Example

/-- C16 fails for a private join on a column with a bound on groups but none on rows: the bound on groups is
taken for a bound on the number of matching rows. (Truncation is enforced again before every query, so this
costs accuracy, not privacy.) -/
theorem C16_fails_join : ∃ h cat D e s o i, Cat.OK cat ∧ cat.IdsNotFloat ∧ cat.DataOK D ∧ cat.ConsOK D ∧
    Expr.WF e ∧ e.FnsOK ∧ e.RenamesDistinct ∧ build h cat e = .ok (s, o) ∧ s.idColumn = some i ∧
    ∃ c ∈ o.cons, ¬ Sat i c (o.run D) := by
  obtain ⟨o, hb, _, _, hcons, hrun⟩ := Example.observe_ok Example.join_observed
  refine ⟨_, _, Example.D2, Example.badJoin, _, o, "id", Example.cat2_ok, Example.cat2_ids, Example.data2_ok,
    Example.cons2_ok, by simp [Example.badJoin, Expr.WF], by simp [Example.badJoin, Expr.FnsOK],
    by simp [Example.badJoin, Expr.RenamesDistinct], hb, rfl, .maxRowsPerID 1, by rw [hcons]; simp, ?_⟩
  intro hs
  have := hs (some (.str "ann"))
  rw [hrun] at this
  revert this
  decide +kernel

/-- C16 fails for default replacement of nulls: groups are merged, yet the bound on rows per group is kept. -/
theorem C16_fails_replace : ∃ h cat D e s o i, Cat.OK cat ∧ cat.IdsNotFloat ∧ cat.DataOK D ∧ cat.ConsOK D ∧
    Expr.WF e ∧ e.FnsOK ∧ e.RenamesDistinct ∧ build h cat e = .ok (s, o) ∧ s.idColumn = some i ∧
    ∃ c ∈ o.cons, ¬ Sat i c (o.run D) := by
  obtain ⟨o, hb, _, _, hcons, hrun⟩ := Example.observe_ok Example.replace_observed
  refine ⟨_, _, Example.D2, Example.badReplace, _, o, "id", Example.cat2_ok, Example.cat2_ids, Example.data2_ok,
    Example.cons2_ok, by simp [Example.badReplace, Expr.WF, Dict.WF, Dict.keys],
    by simp [Example.badReplace, Expr.FnsOK], by simp [Example.badReplace, Expr.RenamesDistinct], hb, rfl, .maxRowsPerGroupPerID "g" 1, by rw [hcons]; simp, ?_⟩
  intro hs
  have := hs (some (.str "ann")) (some (.str ""))
  rw [hrun] at this
  revert this
  decide +kernel

/-- C20 fails for a rename that gives the ID column and another column the same name: the value found under the
ID column's name is no one's ID. (What core's `Rename` and Spark make of it is assumed.) -/
theorem C20_fails : ∃ h cat D e s o i, Cat.OK cat ∧ cat.IdsNotFloat ∧ cat.DataOK D ∧ Expr.WF e ∧ e.FnsOK ∧
    build h cat e = .ok (s, o) ∧ s.idColumn = some i ∧
    ∃ r ∈ o.run D, ∀ id ∈ e.sources, ∀ s' cs j, Dict.get cat.priv id = some (s', cs) → s'.idColumn = some j →
      ∀ r' ∈ D id, Row.get r' j ≠ Row.get r i := by
  obtain ⟨o, hb, _, _, hcons, hrun⟩ := Example.observe_ok Example.rename_observed
  refine ⟨_, _, Example.D2, Example.badRename, _, o, "x", Example.cat2_ok, Example.cat2_ids, Example.data2_ok,
    by simp [Example.badRename, Expr.WF, Dict.WF, Dict.keys], by simp [Example.badRename, Expr.FnsOK], hb, rfl, [("x", .str "a"), ("x", .str "ann")], by rw [hrun]; simp, ?_⟩
  intro id hid s' cs j hg hj r' hr'
  rw [Example.badRename, Expr.sources, Expr.sources, List.mem_singleton] at hid
  subst hid
  have e1 : Dict.get Example.cat2.priv "l" = some (Example.left, [.maxRowsPerID 1]) := rfl
  rw [e1] at hg
  cases hg
  cases hj
  have e2 : Example.D2 "l" = [[("g", .str "a"), ("id", .str "ann")]] := rfl
  rw [e2, List.mem_singleton] at hr'
  subst hr'
  decide

end Verif.Expr
