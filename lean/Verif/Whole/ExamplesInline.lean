import Verif.Whole.Inline
import Verif.Whole.ExamplesTotal

/-!
# Examples for C88
-/

namespace Verif.Whole.Example

open Verif Verif.Schema Verif.Constraint Verif.Expr Verif.Query Verif.Stability
open Verif.Budget (XNum PB Rounding)

/-- The number of rows of table `v`. -/
def rowsOfV : Query := .agg ⟨.source "v", .set ⟨[], [[]]⟩, .count .default, "n", none⟩

theorem rowsOfV_ok : Admissible (child rowsOfV) := ⟨trivial, trivial, trivial, trivial, trivial⟩

/-- Written out, this is the number of people with at most two rows for each. -/
example : Query.inline "v" peopleCount.child rowsOfV = .agg peopleCount := rfl

/-- **C88**: the theorem applies to the people with at most two rows each. The rows of the view are counted at the cost of the
query in which it is written out, which is answered (`C62_example`). -/
theorem C88_example : ∃ out m amt, Relation.initCore (fun _ v => v) .pureDP Relation.demoA = .ok out ∧
    (Session.step (env (ctx .pureDP)) (Session.step (env (ctx .pureDP)) (Session.init (.pure (2 : ℚ)) (startTables out))
        (.createView 0 (.table peopleCount.child peopleCount_ok) "v")).2
      (.evaluate 0 (.query rowsOfV rowsOfV_ok) (.pure (2 : ℚ)))).1 = .ok (.answer m amt) := by
  obtain ⟨out, ho, hv⟩ := C62_view_example
  obtain ⟨out', m, amt, ho', hm⟩ := C62_example
  rw [ho] at ho'
  cases ho'
  refine ⟨out, m, amt, ho, ?_⟩
  rw [← hm]
  exact (C88_view_partial (ctx := ctx .pureDP) noNoise
    (Relation.C34_example (fun _ v => v) .pureDP).1 (frames_ok (by simp [Long]) (by simp [Long]) (by simp [Long])) ho
    (.pure (2 : ℚ)) [] _ rfl 0 peopleCount.child peopleCount_ok "v" hv (.inl trivial) rowsOfV rowsOfV_ok trivial
    (.pure (2 : ℚ))).1

/-- Filters that ask for a column of a type are accepted by what Spark knows. -/
example (e : Expr) (he : FiltersBySpark e) (c : String) (t : ColumnType) (cond : Row → Bool) :
    FiltersBySpark (.filter e (fun s => decide ((Dict.get s.descs c).map Desc.ty = some t)) cond) :=
  ⟨he, fun s s' a => by dsimp only; rw [a.getTy c]⟩

/-- The rows of `rest`, in groups. -/
def grouped : Expr :=
  .flatMap (.source "rest") (fun _ => [[("g", .int 1)]]) ⟨⟨[("g", long)]⟩, some "g", none, none⟩ true (some 1)

theorem grouped_ok : Admissible grouped := by
  refine ⟨⟨trivial, ?_⟩, ⟨trivial, ?_⟩, trivial, trivial, ⟨trivial, ?_⟩⟩
  · exact ⟨by simp, by simp, by simp, by simp⟩
  · intro r x hx
    obtain rfl : x = [("g", .int 1)] := by simpa using hx
    refine ⟨by decide, by intro c; exact Iff.rfl, ?_⟩
    intro c v hv d hd
    obtain ⟨rfl, rfl⟩ : c = "g" ∧ v = .int 1 := by simpa using hv
    obtain rfl : d = ⟨.INTEGER, true, false, false⟩ := by
      have : (("g" : String), d) ∈ [(("g" : String), (⟨.INTEGER, true, false, false⟩ : Desc))] := hd
      simpa using this
    decide
  · intro g hg d hd
    obtain ⟨rfl, rfl⟩ : g = "g" ∧ d = long := by simpa using hd
    simp [long]

def groupKeys : KeySetV := ⟨[("g", long)], [[("g", .int 1)]]⟩

/-- The number of rows by group, with Laplace noise. -/
def groupLaplace : Query := .agg ⟨.source "v", .set groupKeys, .count .laplace, "n", none⟩

theorem groupLaplace_ok : Admissible (child groupLaplace) := ⟨trivial, trivial, trivial, trivial, trivial⟩

/-- What happens in a new zCDP session: whether the view is created, and the outcome of the query about it and of the query in
which it is written out. -/
noncomputable def both : Option (Bool × Option Session.Err × Option Session.Err) :=
  match Relation.initCore (fun _ v => v) (coreMeasure .zCDP) Relation.demoA with
  | .error _ => none
  | .ok out =>
    let w := Session.init (.zcdp (2 : ℚ)) (startTables out)
    let made := Session.step (env (ctx .zCDP)) w (.createView 0 (.table grouped grouped_ok) "v")
    let err := fun w r => match (Session.step (env (ctx .zCDP)) w (.evaluate 0 r (.zcdp (1 : ℚ)))).1 with
      | .ok _ => none
      | .error e => some e
    some (match made.1 with | .ok _ => true | .error _ => false, err made.2 (.query groupLaplace groupLaplace_ok),
      err w (writtenOut "v" grouped grouped_ok groupLaplace groupLaplace_ok))

/-- **C88 fails** for flat maps that group, in zCDP sessions: with Laplace noise the query is answered if the table is written
out, and raises `ValueError` if it is a view. -/
theorem C88_fails : both = some (true, some .valueError, none) := by decide +kernel

end Verif.Whole.Example
