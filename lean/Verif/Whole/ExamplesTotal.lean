import Verif.Whole.Total
import Verif.Whole.ExamplesExact

/-!
# C62: a concrete case, and a query that a session refuses

Sessions with the tables of `Relation.demoA`: `people` with IDs, `cities` with bounded groups, `rest` with bounded rows.
-/

namespace Verif.Whole.Example

open Verif Verif.Schema Verif.Constraint Verif.Expr Verif.Query Verif.Stability
open Verif.Budget (XNum PB Rounding)

/-- The private tables of the catalog of a new session. -/
noncomputable def startCat (m : Measure) : Option (Dict String (Schema × List Constraint)) :=
  match Relation.initCore (fun _ v => v) (coreMeasure m) Relation.demoA with
  | .error _ => none
  | .ok out =>
    match privCat (startTables out) with
    | .error _ => none
    | .ok d => some d

def long : Desc := ⟨.INTEGER, false, false, false⟩

def demoCat : Dict String (Schema × List Constraint) :=
  [("people", (⟨⟨[("id", long)]⟩, none, some "id", some "persons"⟩, [])),
   ("rest", (⟨⟨[("id", long)]⟩, none, none, none⟩, [])),
   ("cities", (⟨⟨[("city", long), ("x", long)]⟩, some "city", none, none⟩, []))]

theorem start_cat : startCat .pureDP = some demoCat := by decide +kernel
theorem start_cat_zcdp : startCat .zCDP = some demoCat := by decide +kernel

/-- The names of the tables of a new session. -/
noncomputable def startNames : Option (List String) :=
  match Relation.initCore (fun _ v => v) .pureDP Relation.demoA with
  | .error _ => none
  | .ok out => some (Session.names (startTables out))

theorem start_names_eq : startNames = some ["people", "rest", "cities"] := by decide +kernel

theorem start_out {m : Measure} (h : startCat m = some demoCat) :
    ∃ out, Relation.initCore (fun _ v => v) (coreMeasure m) Relation.demoA = .ok out ∧
      catalog (startTables out) [] = .ok ⟨demoCat, []⟩ := by
  unfold startCat at h
  split at h
  · cases h
  next out ho =>
  split at h
  · cases h
  next d hd =>
  cases h
  exact ⟨out, ho, by unfold catalog; rw [hd]; rfl⟩

/-- The number of people, with at most two rows for each. -/
def peopleCount : Agg := ⟨.enforce (.source "people") (.maxRowsPerID 2), .set ⟨[], [[]]⟩, .count .default, "n", none⟩

theorem peopleCount_ok : Admissible (child (.agg peopleCount)) := ⟨trivial, trivial, trivial, trivial, trivial⟩

theorem peopleCount_ready : QueryReady ⟨codeHash, id, .pureDP, ⟨demoCat, []⟩⟩ (.pure (2 : ℚ)) (.agg peopleCount) := by
  refine ⟨trivial, ?_, nofun⟩
  intro s o hs ho
  cases hs
  cases ho
  constructor
  · intro h; cases h
  · intro ks h; cases h
  · intro x h; cases h
  · intro i _
    exact .inl (.inl ⟨2, by decide⟩)
  · intro i tc k _ h; cases h
  · intro tc k h; cases h

theorem q2_nonneg : (0 : XNum) ≤ ((2 : ℚ) : XNum) := WithTop.coe_nonneg.2 (by norm_num)

/-- **C62**: the theorem applies to counting the people of a new session with its whole budget. -/
theorem C62_example : ∃ out m amt, Relation.initCore (fun _ v => v) .pureDP Relation.demoA = .ok out ∧
    (Session.step (env (ctx .pureDP)) (Session.init (.pure (2 : ℚ)) (startTables out))
      (.evaluate 0 (.query (.agg peopleCount) peopleCount_ok) (.pure (2 : ℚ)))).1 = .ok (.answer m amt) := by
  obtain ⟨out, ho, hcat⟩ := start_out start_cat
  obtain ⟨cat, hc, hall⟩ := C62_evaluate_partial (ctx := ctx .pureDP) noNoise
    (Relation.C34_example (fun _ v => v) .pureDP).1 (frames_ok (by simp [Long]) (by simp [Long]) (by simp [Long])) ho
    (lawful .pureDP) (fun l => List.Perm.refl l) (b₀ := .pure (2 : ℚ)) rfl q2_nonneg [] (by simp) _ rfl 0 _ rfl nofun
  have he : cat = ⟨demoCat, []⟩ := by
    have h2 : catalog (startTables out) [] = .ok cat := hc
    rw [hcat] at h2
    exact (Except.ok.inj h2).symm
  subst he
  obtain ⟨m, amt, h⟩ := hall (.agg peopleCount) peopleCount_ok (.pure (2 : ℚ)) _ rfl q2_nonneg peopleCount_ready
    (by simp only [Session.PB.IsZero]; intro h; cases h) (le_refl _)
  exact ⟨out, m, amt, ho, h⟩

/-- **C62**: the theorem on views applies to the people with at most two rows each. -/
theorem C62_view_example : ∃ out, Relation.initCore (fun _ v => v) .pureDP Relation.demoA = .ok out ∧
    (Session.step (env (ctx .pureDP)) (Session.init (.pure (2 : ℚ)) (startTables out))
      (.createView 0 (.table peopleCount.child peopleCount_ok) "v")).1 = .ok .none := by
  obtain ⟨out, ho, hcat⟩ := start_out start_cat
  obtain ⟨cat, hc, hall⟩ := C62_view_partial (ctx := ctx .pureDP) noNoise
    (Relation.C34_example (fun _ v => v) .pureDP).1 (frames_ok (by simp [Long]) (by simp [Long]) (by simp [Long])) ho
    (.pure (2 : ℚ)) [] _ rfl 0 _ rfl nofun
  have he : cat = ⟨demoCat, []⟩ := by
    have h2 : catalog (startTables out) [] = .ok cat := hc
    rw [hcat] at h2
    exact (Except.ok.inj h2).symm
  subst he
  refine ⟨out, ho, (hall peopleCount.child peopleCount_ok "v" _ rfl ?_ nofun rfl trivial).1⟩
  have hn := start_names_eq
  have ho' : Relation.initCore (fun _ v => v) .pureDP Relation.demoA = .ok out := ho
  unfold startNames at hn
  rw [ho'] at hn
  have hn : Session.names (startTables out) = ["people", "rest", "cities"] := Option.some.inj hn
  show "v" ∉ Session.names (startTables out)
  rw [hn]
  decide

/-- The number of rows by city, with Laplace noise. -/
def cityLaplace : Query := .agg ⟨.source "cities", .set cityKeys, .count .laplace, "n", none⟩

theorem cityLaplace_ok : Admissible (child cityLaplace) := ⟨trivial, trivial, trivial, trivial, trivial⟩

/-- The outcome of a query in a new session. -/
noncomputable def outcome (m : Measure) (b : PB) (q : Query) (ok : Admissible (child q)) : Option (Option Session.Err) :=
  match Relation.initCore (fun _ v => v) (coreMeasure m) Relation.demoA with
  | .error _ => none
  | .ok out =>
    match (Session.step (env (ctx m)) (Session.init b (startTables out)) (.evaluate 0 (.query q ok) b)).1 with
    | .ok _ => some none
    | .error e => some (some e)

/-- **C62 fails** for Laplace noise on a grouped table in a zCDP session: the query type-checks, and `evaluate` raises
`ValueError`. With the default noise the query is answered. -/
theorem C62_laplace_fails : (∃ s, cityLaplace.schema ⟨demoCat, []⟩ = .ok s) ∧ startCat .zCDP = some demoCat ∧
    outcome .zCDP (.zcdp (2 : ℚ)) cityLaplace cityLaplace_ok = some (some .valueError) ∧
    outcome .zCDP (.zcdp (2 : ℚ)) citySum citySum_ok = some none ∧
    outcome .pureDP (.pure (2 : ℚ)) cityLaplace cityLaplace_ok = some none :=
  ⟨⟨_, rfl⟩, start_cat_zcdp, by decide +kernel, by decide +kernel, by decide +kernel⟩

end Verif.Whole.Example
