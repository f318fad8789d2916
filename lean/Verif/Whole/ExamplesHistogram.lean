import Verif.Whole.Histogram
import Verif.Whole.ExamplesTotal

/-!
# C64: a concrete case

A histogram of a table of `Relation.demoA` in a session with an infinite budget.
-/

namespace Verif.Whole.Example

open Verif Verif.Schema Verif.Constraint Verif.Expr Verif.Query Verif.Stability
open Verif.Budget (XNum PB Rounding)
open Verif.Meaning (Means NoLeftIDs Faithful)
open Verif.Binning (Spec)

theorem str_inj (a b : String) (h : Value.str a = Value.str b) : a = b := by cases h; rfl

/-- Integers in bins named by strings. -/
def intBins : Binner ℤ String where
  read := fun v => match v with | .int z => .val z | _ => .null
  write := .str
  inj := str_inj
  notNull := nofun

/-- Floats, with infinities, in bins named by strings. -/
def fltBins : Binner (WithBot (WithTop ℚ)) String where
  read := fun v => match v with
    | .dec (.fin q) => .val ((q : WithTop ℚ) : WithBot (WithTop ℚ))
    | .dec .pinf => .val ((⊤ : WithTop ℚ) : WithBot (WithTop ℚ))
    | .dec .ninf => .val ⊥
    | .dec .nan => .nan
    | _ => .null
  write := .str
  inj := str_inj
  notNull := nofun

def spec : Spec ℤ String := ⟨[0, 5, 10], ["low", "high"], true, false, none⟩

theorem spec_mk : Binning.mk (fun _ _ _ => .error .valueError) [0, 5, 10] (some ["low", "high"]) true false none =
    .ok spec := by decide +kernel

def binDesc : Desc := ⟨.VARCHAR, false, false, false⟩

/-- `QueryBuilder("rest").histogram("id", spec, "bin")`. -/
def hist : Agg := histogram intBins spec "id" "bin" (oneColumn "bin" binDesc) binDesc (.source "rest")

theorem hist_ok : Admissible (child (.agg hist)) :=
  binColumn_ok intBins spec "id" (d := binDesc) (by decide) (fun _ _ => rfl) ⟨trivial, trivial, trivial, trivial, trivial⟩

/-- What is returned. -/
theorem hist_answer : exactAnswers .pureDP (.pure ⊤) (.agg hist) hist_ok = some
    [[("bin", .str "low"), ("count", .int 0)], [("bin", .str "high"), ("count", .int 2)]] := by
  decide +kernel

/-- **C64**: both theorems apply to the histogram: no row is in the first bin, two are in the second. -/
theorem C64_example : (∃ out p amt, Relation.initCore (fun _ v => v) .pureDP Relation.demoA = .ok out ∧
      Relation.Stored (fun _ v => v) Relation.demoA ∧ FramesOK Relation.demoA ∧
      ViewsSafe (ctx .pureDP) (Session.init (.pure ⊤) (startTables out)) (viewCalls.take 1) ∧
      (Session.step (env (ctx .pureDP))
        (Session.run (env (ctx .pureDP)) (Session.init (.pure ⊤) (startTables out)) (viewCalls.take 1))
        (.evaluate 0 (.query (.agg hist) hist_ok) (.pure ⊤))).1 = .ok (.answer p amt) ∧
      exactTable p.call (p.run (startData out)) =
        [[("bin", .str "low"), ("count", .int 0)], [("bin", .str "high"), ("count", .int 2)]]) ∧
    NoNoise exactCore ∧ (∀ h cat, (Expr.source "rest").ConsSafe h cat ∧ NoLeftIDs cat (.source "rest")) ∧
    Binned intBins spec (.int 7) "high" ∧ ¬ Binned intBins spec (.int 7) "low" ∧ ¬ Binned intBins spec .null "low" ∧
    Binned fltBins ⟨[((0 : ℚ) : WithTop ℚ), (⊤ : WithTop ℚ)], ["rest"], true, true, some "nan"⟩ (.dec .nan) "nan" ∧
    Binned fltBins ⟨[((0 : ℚ) : WithTop ℚ), (⊤ : WithTop ℚ)], ["rest"], true, true, some "nan"⟩ (.dec .pinf) "rest" := by
  have hv := (Binning.valid_of_mk (fun _ _ _ _ h => by cases h) spec_mk).1
  refine ⟨exact_hyps hist_answer, exactCore_ok, fun _ _ => ⟨trivial, trivial⟩, ?_, ?_, id, rfl, ?_⟩
  · exact (call_iff hv _ _).1 (by decide +kernel)
  · exact mt (call_iff hv _ _).2 (by decide +kernel)
  · exact ⟨0, ⟨_, _, rfl, rfl, by decide +kernel⟩, rfl⟩

/-- **C64**: the theorem that histograms are answered applies to a new session with a finite budget. -/
theorem C64_answered_example : ∃ out m amt, Relation.initCore (fun _ v => v) .pureDP Relation.demoA = .ok out ∧
    (Session.step (env (ctx .pureDP)) (Session.init (.pure (2 : ℚ)) (startTables out))
      (.evaluate 0 (.query (.agg hist) hist_ok) (.pure (2 : ℚ)))).1 = .ok (.answer m amt) := by
  obtain ⟨out, ho, hcat⟩ := start_out start_cat
  obtain ⟨cat, hc, hall⟩ := C64_answered_partial intBins (ctx := ctx .pureDP) noNoise
    (Relation.C34_example (fun _ v => v) .pureDP).1 (frames_ok (by simp [Long]) (by simp [Long]) (by simp [Long])) ho
    (lawful .pureDP) (fun l => List.Perm.refl l) (b₀ := .pure (2 : ℚ)) rfl q2_nonneg [] (by simp) _ rfl 0 _ rfl nofun
  have he : cat = ⟨demoCat, []⟩ := by
    have h2 : catalog (startTables out) [] = .ok cat := hc
    rw [hcat] at h2
    exact (Except.ok.inj h2).symm
  subst he
  obtain ⟨m, amt, h⟩ := hall (.source "rest") _ rfl trivial rfl (fun _ _ h => absurd rfl h) spec "id" "bin" binDesc binDesc
    rfl (by decide) (by decide +kernel) hist_ok (.pure (2 : ℚ)) q2_nonneg
    (by simp only [Session.PB.IsZero]; intro h; cases h) (le_refl _)
  exact ⟨out, m, amt, ho, h⟩

end Verif.Whole.Example
