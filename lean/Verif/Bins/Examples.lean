import Verif.Bins.Histogram
import Verif.Whole.ExamplesHistogram

/-!
# C75: concrete cases
-/

namespace Verif.Bins.Example

open Verif Verif.Schema Verif.Expr Verif.Query Verif.Stability Verif.Whole
open Verif.Budget (XNum PB)
open Verif.Whole.Example
open Verif.KeySet (KErr Cond)

/-- Characters with marks, up to an end mark. -/
def marked : List Char → List Char
  | [] => ['\'']
  | c :: cs => '-' :: c :: marked cs

theorem marked_delim {s s' : List Char} {x y : List Char} (h : marked s ++ x = marked s' ++ y) : s = s' := by
  induction s generalizing s' with
  | nil =>
    cases s' with
    | nil => rfl
    | cons c s' => simp [marked] at h
  | cons c s ih =>
    cases s' with
    | nil => simp [marked] at h
    | cons c' s' =>
      simp only [marked, List.cons_append, List.cons.injEq, true_and] at h
      rw [h.1, ih h.2]

/-- A way to write strings, dates and timestamps that meets the contract. -/
def fm : Format where
  repr := fun s => String.ofList (marked s.toList)
  repr_delim := by
    intro s s' x y h
    rw [String.toList_ofList, String.toList_ofList] at h
    exact String.toList_inj.1 (marked_delim h)
  date := intStr
  date_inj := fun _ _ h => intStr_inj h
  date_comma := intStr_comma
  iso := fun u t => intStr (t / u.size)
  iso_inj := fun _ _ _ h => intStr_inj h
  iso_comma := fun _ _ => intStr_comma _

def ints (l : List ℤ) : List Obj := l.map (fun z => .value (.int z))

def flts (l : List ℚ) : List Obj := l.map (fun q => .value (.dec (.fin q)))

/-- The names of the bins of a specification, as text. -/
def shownNames (edges : List Obj) (right both : Bool) : Option (List Value) :=
  match init fm edges none right both (.value .null) with
  | .ok m => some m.names
  | .error _ => none

def errOf (edges : List Obj) (given : Option (List Obj)) (nanBin : Obj) : Option Binning.Err :=
  match init fm edges given true true nanBin with
  | .ok _ => none
  | .error x => some x

/-- `f"{e:.{p}f}"`: signs are written, ties go to the even digit. -/
theorem text_example : fltStr 2 (.fin (-1/2)) = "-0.50" ∧ fltStr 2 (.fin (1/8)) = "0.12" ∧ fltStr 3 (.fin (12345/10)) = "1234.500" ∧
    intStr (-120) = "-120" := by
  decide +kernel

/-- **C75**: names of edges, and arguments that are refused. -/
theorem C75_names_example :
    shownNames (ints [0, 5, 10]) true true = some [.str "[0, 5]", .str "(5, 10]"] ∧
    shownNames (flts [-1/2, 0, 1/1000]) false true = some [.str "[-0.500, 0.000)", .str "[0.000, 0.001]"] ∧
    errOf (ints [0, 5, 5]) none (.value .null) = some .valueError ∧
    errOf (flts [0, 1/10^20]) none (.value .null) = some .runtimeError ∧
    errOf (flts [0, 1/10^20]) (some (ints [1])) (.value .null) = none ∧
    errOf [.value (.int 0), .value (.dec (.fin 1))] none (.value .null) = some .valueError ∧
    errOf [.value (.dec .ninf), .value (.dec .pinf)] none (.value .null) = none ∧
    errOf [.value (.dec (.fin 0)), .value (.dec .nan)] none (.value .null) = some .valueError ∧
    errOf (ints [0, 5]) none (.value (.int 3)) = some .valueError ∧
    errOf (ints [0, 5]) (some []) (.value .null) = some .valueError ∧
    errOf (ints [0]) (some []) (.value .null) = some .valueError := by
  decide +kernel

/-- `BinningSpec([0, 5, 10])`. -/
def made : Made :=
  ⟨[.int 0, .int 5, .int 10], .INTEGER,
    ⟨[toLex (.inl ((0 : ℚ) : WithTop ℚ)), toLex (.inl ((5 : ℚ) : WithTop ℚ)), toLex (.inl ((10 : ℚ) : WithTop ℚ))],
      [⟨.str "[0, 5]", nofun⟩, ⟨.str "(5, 10]", nofun⟩], true, true, none⟩, ⟨.VARCHAR, true, false, false⟩⟩

theorem made_ok : init fm (ints [0, 5, 10]) none true true (.value .null) = .ok made := by
  have h : shownNames (ints [0, 5, 10]) true true = some made.names := C75_names_example.1
  unfold shownNames at h
  cases hm : init fm (ints [0, 5, 10]) none true true (.value .null) with
  | error x => rw [hm] at h; cases h
  | ok m =>
    rw [hm] at h
    have h : m.names = made.names := Option.some.inj h
    obtain ⟨t, t', ns, hi⟩ := init_iff.1 hm
    have h1 : t = .INTEGER := (Option.some.inj (hi.typed (.value (.int 0)) List.mem_cons_self)).symm
    have h2 : values ns = made.names := by rw [← hi.names_eq, h]
    have h3 : t' = .VARCHAR := by
      have := values_type hi.named.2 (.str "[0, 5]") (by rw [h2]; exact List.mem_cons_self)
      exact (Option.some.inj this).symm
    have h4 := hi.eq
    rw [h1, h2, h3] at h4
    rw [h4]
    congr 1

variable (hsh : KeySet.Op → Except KErr ℤ) (ev : Cond → (String → Option Value) → Bool)

/-- `QueryBuilder("rest").histogram("id", [0, 5, 10])`. -/
def agg : Agg := histogram binner made.spec "id" "id_binned" (oneColumn "id_binned" made.desc) ⟨.VARCHAR, false, false, false⟩ (.source "rest")

theorem agg_ok : Admissible (child (.agg agg)) := by
  refine binColumn_ok binner made.spec "id" (by decide) (fun a ha => ?_) ⟨trivial, trivial, trivial, trivial, trivial⟩
  refine (C75_descriptor made_ok).2 a.1 (.inl ?_)
  rcases ha with ha | ha
  · exact List.mem_map.2 ⟨a, ha, rfl⟩
  · cases ha

theorem agg_answer : exactAnswers .pureDP (.pure ⊤) (.agg agg) agg_ok = some
    [[("id_binned", .str "[0, 5]"), ("count", .int 0)], [("id_binned", .str "(5, 10]"), ("count", .int 2)]] := by
  decide +kernel

/-- **C75**: a histogram is made from edges, and has the counts of two bins. Which value belongs to which bin. -/
theorem C75_example (py : Py) (flag flag' : Bool) :
    callHistogram fm hsh ev py flag flag' (.source "rest") "id" (.edges (ints [0, 5, 10])) none = .ok agg ∧
    (Chain.start "rest").build (ctx .pureDP) = .ok (.source "rest") ∧
    (∃ out p amt, Relation.initCore (fun _ v => v) .pureDP Relation.demoA = .ok out ∧
      Relation.Stored (fun _ v => v) Relation.demoA ∧ FramesOK Relation.demoA ∧
      ViewsSafe (ctx .pureDP) (Session.init (.pure ⊤) (startTables out)) (viewCalls.take 1) ∧
      (Session.step (env (ctx .pureDP))
        (Session.run (env (ctx .pureDP)) (Session.init (.pure ⊤) (startTables out)) (viewCalls.take 1))
        (.evaluate 0 (.query (.agg agg) agg_ok) (.pure ⊤))).1 = .ok (.answer p amt) ∧
      exactTable p.call (p.run (startData out)) =
        [[("id_binned", .str "[0, 5]"), ("count", .int 0)], [("id_binned", .str "(5, 10]"), ("count", .int 2)]]) ∧
    Accepted (ints [0, 5, 10]) none (.value .null) ∧ MadeFrom fm made (ints [0, 5, 10]) true true (.value .null) ∧
    Belongs true true [.int 0, .int 5, .int 10] made.names (.value .null) (.int 0) (.str "[0, 5]") ∧
    Belongs true true [.int 0, .int 5, .int 10] made.names (.value .null) (.dec (.fin (11/2))) (.str "(5, 10]") ∧
    ¬ Belongs true true [.int 0, .int 5, .int 10] made.names (.value .null) (.int 5) (.str "(5, 10]") := by
  refine ⟨?_, rfl, exact_hyps agg_answer, (C75_accepts fm _ _ true true _).1 ⟨_, made_ok⟩, ⟨_, made_ok⟩, ?_, ?_, ?_⟩
  · have ht : NamesOf made .VARCHAR := by
      intro u hu
      have : u = .str "[0, 5]" ∨ u = .str "(5, 10]" := by simpa [made, Made.names] using hu
      rcases this with rfl | rfl <;> rfl
    rw [histogram_eq (arg := .edges (ints [0, 5, 10])) made_ok ht made_ok, if_pos (by decide)]
    rfl
  · exact ((C75_call made_ok (.int 0)).1 (.str "[0, 5]") nofun).1 (by decide +kernel)
  · exact ((C75_call made_ok (.dec (.fin (11/2)))).1 (.str "(5, 10]") nofun).1 (by decide +kernel)
  · exact mt ((C75_call made_ok (.int 5)).1 (.str "(5, 10]") nofun).2 (by decide +kernel)

end Verif.Bins.Example
