import Verif.KeySet.Rules
import Verif.KeySet.Frames

/-!
# C22: rewriting a KeySet does not change its rows

`Good E op` says that `op` is a tree the code can build, and that nothing empty is projected in it. Without the second
condition the claim is false: see `C22_rewrite_changes_rows`.
-/

namespace Verif.KeySet

open Verif Verif.Schema

/-- An assignment is a key of a data frame: one of its rows, or any if the frame has no columns (one group that
contains everything). -/
def DF.Key (d : DF) (ρ : Assign) : Prop := d.cols = [] ∨ d.cols.map ρ ∈ d.rows

theorem Denotes.key {E : Env} {op : Op} {d : DF} (w : op.WF) (h : Denotes E op d) (ρ : Assign) :
    d.Key ρ ↔ op.Matches E ρ := by
  unfold DF.Key
  by_cases hc : d.cols = []
  · simp only [hc, true_or, true_iff]
    exact matches_of_no_columns w ((nil_congr h.cols).1 hc) ρ
  · simp only [hc, false_or]
    exact (h.keys hc ρ).symm

/-- C22, for trees in which nothing empty is projected: whatever the hashes, the rewritten tree has the same columns
and the same keys. Rewriting it once more changes nothing either. Missing: projections of empty KeySets. -/
theorem C22_rewrite_keeps_keys_partial {E : Env} {hsh : Op → Except KErr ℤ} {op op' : Op} (g : Good E op)
    (h : rewrite hsh op = .ok op') :
    (∀ c, c ∈ op'.columns ↔ c ∈ op.columns) ∧ (∀ ρ, op'.Matches E ρ ↔ op.Matches E ρ) ∧
      ∀ hsh' op'', rewrite hsh' op' = .ok op'' → ∀ ρ, op''.Matches E ρ ↔ op.Matches E ρ := by
  obtain ⟨g', e⟩ := rewrite_pres E hsh op op' g h
  refine ⟨fun c => (e.1 c).symm, fun ρ => (e.2 ρ).symm, fun hsh' op'' h' ρ => ?_⟩
  obtain ⟨_, e'⟩ := rewrite_pres E hsh' op' op'' g' h'
  exact ((e.trans e').2 ρ).symm

/-- C22 for what a user sees: the data frames before and after rewriting have the same columns, and the same rows up
to the order of columns and rows, each once. Missing: projections of empty KeySets. -/
theorem C22_rewrite_keeps_rows_partial {E : Env} {hsh : Op → Except KErr ℤ} {op op' : Op} {d d' : DF} (g : Good E op)
    (h : rewrite hsh op = .ok op') (hd : op.dataframe E = .ok d) (hd' : op'.dataframe E = .ok d') :
    (∀ c, c ∈ d'.cols ↔ c ∈ d.cols) ∧ (selectDF d.cols d').rows.Perm d.rows := by
  obtain ⟨g', e⟩ := rewrite_pres E hsh op op' g h
  have s := dataframe_denotes g.1 hd
  have s' := dataframe_denotes g'.1 hd'
  have hc : ∀ c, c ∈ d'.cols ↔ c ∈ d.cols := fun c => by rw [s'.cols, s.cols, e.1]
  refine ⟨hc, ?_⟩
  obtain ⟨h1, h2⟩ := selectDF_all s'.ok s.ok.nodup (fun c => (hc c).symm)
  rw [List.perm_ext_iff_of_nodup h1.rows s.ok.rows]
  by_cases hz : d.cols = []
  · have hz' : d'.cols = [] := (nil_congr hc).2 hz
    simp [s.empty hz, selectDF, s'.empty hz']
  · have hz' : d'.cols ≠ [] := fun hh => hz ((nil_congr hc).1 hh)
    -- the rows of either are the keys
    have key : ∀ ρ, (selectDF d.cols d').Has ρ ↔ d.Has ρ := fun ρ => by
      rw [h2, ← s'.keys hz', ← s.keys hz, e.2]
    intro r
    constructor
    · intro hr
      have hl := h1.len r hr
      have := key (cell d.cols r)
      unfold DF.Has at this
      have hm : d.cols.map (cell d.cols r) = r := map_cell s.ok.nodup hl
      rw [show (selectDF d.cols d').cols = d.cols from rfl, hm] at this
      exact this.1 hr
    · intro hr
      have hl := s.ok.len r hr
      have := key (cell d.cols r)
      unfold DF.Has at this
      have hm : d.cols.map (cell d.cols r) = r := map_cell s.ok.nodup hl
      rw [show (selectDF d.cols d').cols = d.cols from rfl, hm] at this
      exact this.2 hr

/-- Data frames exist for all trees without detected keys that do not subtract a KeySet without columns. -/
theorem dataframe_total {E : Env} {op : Op} (hp : ∀ cs, ¬ E.leaf (.detect cs)) (hz : ¬ E.zeroSub) (g : Good E op) :
    ∃ d, op.dataframe E = .ok d := by
  induction op using Op.ind with
  | hd cs => exact absurd g.2 (hp cs)
  | ht ts ds => exact ⟨_, rfl⟩
  | hf df => exact ⟨_, rfl⟩
  | hc m fs ih =>
    have ih' : ∀ f ∈ fs, ∃ d, f.dataframe E = .ok d := fun f hf => ih f hf (good_factors g f hf)
    have hL : ∀ gs : List Op, (∀ f ∈ gs, ∃ d, f.dataframe E = .ok d) → ∃ ds, dataframeL E gs = .ok ds := by
      intro gs
      induction gs with
      | nil => exact fun _ => ⟨_, rfl⟩
      | cons f gs ih2 =>
        intro hh
        obtain ⟨ds, hds⟩ := ih2 (fun x hx => hh x (by simp [hx]))
        dsimp only [dataframeL]
        split
        · exact ⟨ds, hds⟩
        · obtain ⟨d, hd⟩ := hh f (by simp)
          rw [hd, hds]
          exact ⟨_, rfl⟩
    obtain ⟨ds, hds⟩ := hL fs ih'
    dsimp only [Op.dataframe]
    have hm : (m && !fs.all isTuples) = false := by
      cases m with
      | false => rfl
      | true => simpa using g.2.2 rfl
    rw [hm, hds]
    have hne := (check_cross g.1.1).1
    cases fs with
    | nil => exact absurd rfl hne
    | cons f rest =>
      cases ds with
      | cons d es => exact ⟨_, rfl⟩
      | nil => exact ih' f (by simp)
  | hj l r hl hr =>
    obtain ⟨a, ha⟩ := hl ⟨g.1.2.1, g.2.1⟩
    obtain ⟨b, hb⟩ := hr ⟨g.1.2.2, g.2.2⟩
    dsimp only [Op.dataframe]
    rw [ha, hb]
    exact ⟨_, rfl⟩
  | hp c cs ih =>
    obtain ⟨a, ha⟩ := ih ⟨g.1.2.2, g.2.2⟩
    dsimp only [Op.dataframe]
    rw [ha]
    exact ⟨_, rfl⟩
  | hfi c k ih =>
    obtain ⟨a, ha⟩ := ih ⟨g.1.2, g.2⟩
    dsimp only [Op.dataframe]
    rw [ha]
    exact ⟨_, rfl⟩
  | hs l r hl hr =>
    obtain ⟨a, ha⟩ := hl ⟨g.1.2.1, g.2.1⟩
    obtain ⟨b, hb⟩ := hr ⟨g.1.2.2, g.2.2.1⟩
    have hne : r.columns ≠ [] := fun h => hz (g.2.2.2 h)
    refine ⟨⟨a.cols, a.rows.filter (fun x => !b.rows.any (fun y =>
      r.columns.all (fun c => decide (cell a.cols x c = cell b.cols y c))))⟩, ?_⟩
    dsimp only [Op.dataframe]
    rw [ha, hb]
    show antiDF r.columns a b = _
    unfold antiDF
    rw [if_neg (by simpa using hne)]
  | hu l r hl hr =>
    obtain ⟨a, ha⟩ := hl ⟨g.1.2.1, g.2.1⟩
    obtain ⟨b, hb⟩ := hr ⟨g.1.2.2, g.2.2⟩
    dsimp only [Op.dataframe]
    rw [ha, hb]
    exact ⟨_, rfl⟩

/-! ## Witnesses -/

namespace Wit

/-- A hash function. -/
def h0 : Op → Except KErr ℤ := fun _ => .ok 0

def int : Desc := ⟨.INTEGER, false, false, false⟩

/-- `KeySet.from_tuples([(1,), (2,)], columns=["A"])` -/
def a12 : Op := .tuples [[.int 1], [.int 2]] [("A", int)]

/-- `KeySet.from_tuples([(1, 3), (2, 4)], columns=["A", "B"])` -/
def ab : Op := .tuples [[.int 1, .int 3], [.int 2, .int 4]] [("A", int), ("B", int)]

/-- `KeySet.from_tuples([(1, 5)], columns=["A", "C"])` -/
def ac : Op := .tuples [[.int 1, .int 5]] [("A", int), ("C", int)]

/-- `KeySet.from_tuples([(3,)], columns=["B"])` -/
def b3 : Op := .tuples [[.int 3]] [("B", int)]

/-- `KeySet.from_tuples([("x",)], columns=["D"])` -/
def dx : Op := .tuples [[.str "x"]] [("D", ⟨.VARCHAR, false, false, false⟩)]

/-- `KeySet.from_dataframe(df)` of a data frame with the column `B` and no rows. -/
def bNone : Op := .frame ⟨[⟨"B", .long, true⟩], []⟩

/-- A KeySet without columns. -/
def total : Op := .tuples [] []

/-- Spark keeps everything; nothing is detected; only trees with a data frame are meant. -/
def env : Env := ⟨fun _ _ => true, fun _ _ => False, by simp, fun o => o.isPlan = false, False⟩

/-- The rows of the data frame, as the tests below need them. -/
def rowsOf (x : Except KErr Op) : Option (List (List Value)) :=
  match x with
  | .ok op =>
    match op.dataframe env with
    | .ok d => some d.rows
    | .error _ => none
  | .error _ => none

/-- The exception. -/
def errOf {α : Type} (x : Except KErr α) : Option KErr :=
  match x with
  | .ok _ => none
  | .error e => some e

end Wit

open Wit

/-- C22 fails for a projection of an empty KeySet: `(A × ∅)["A"]` has no rows, since no combination of an `A` with
anything is in the original, but the rewritten tree has all of `A`. -/
theorem C22_rewrite_changes_rows :
    rowsOf (.ok (.project (.cross false [a12, bNone]) ["A"])) = some [] ∧
      rowsOf (rewrite h0 (.project (.cross false [a12, bNone]) ["A"])) = some [[.int 1], [.int 2]] := by
  constructor <;> decide +kernel

/-- Rewriting is not idempotent, and what a KeySet means can change when it is used in another one: rewriting
`((A × ∅) ⋈ BC)["A"]` gives a tree with no rows; its union with another KeySet has the rows of `A` in addition. -/
theorem C22_rewrite_not_stable :
    rowsOf (rewrite h0 (.project (.join (.cross false [a12, bNone]) (.tuples [[.int 3, .int 5]] [("B", int), ("C", int)]))
      ["A"])) = some [] ∧
    rowsOf (do
      let o ← rewrite h0 (.project (.join (.cross false [a12, bNone])
        (.tuples [[.int 3, .int 5]] [("B", int), ("C", int)])) ["A"])
      rewrite h0 (.union o (.tuples [[.int 7]] [("A", int)]))) ≠ some [[.int 7]] := by
  constructor <;> decide +kernel

/-- Rewriting can fail though nothing is wrong with the KeySet: `ac.join(ab).join(b)` has rows, but sorting the
joined KeySets by their columns puts `ac` next to `b`, and joining those two is a `ValueError`. -/
theorem C22_rewrite_rejects_joins :
    rowsOf (.ok (.join (.join ac ab) b3)) = some [[.int 1, .int 5, .int 3]] ∧
      (rewrite h0 (.join ac ab)).isOk = true ∧
      errOf (do let o ← rewrite h0 (.join ac ab); rewrite h0 (.join o b3)) = some .value := by
  refine ⟨?_, ?_, ?_⟩ <;> decide +kernel

/-- Subtracting a KeySet without columns from a cross-join is an `IndexError`, although it passes validation. -/
theorem C22_rewrite_rejects_zero_subtract :
    check (.subtract (.cross false [a12, b3]) total) = .ok () ∧
      errOf (rewrite h0 (.subtract (.cross false [a12, b3]) total)) = some .index := by
  constructor
  · rfl
  · decide +kernel

/-- A tree with every kind of operation that rewriting treats in an interesting way: `((A × B) ⋈ AC × D - A)["A", "D"]`. -/
def exTree : Op :=
  .project (.subtract (.cross false [.join (.cross false [a12, b3]) ac, dx]) (.tuples [[.int 2]] [("A", int)]))
    ["A", "D"]

/-- The theorems apply to it, and rewriting changes it. -/
example : Good env exTree ∧ rowsOf (rewrite h0 exTree) = some [[.int 1, .str "x"]] ∧
    rowsOf (.ok exTree) = some [[.int 1, .str "x"]] := by
  refine ⟨⟨?_, ?_⟩, ?_, ?_⟩
  · refine ⟨rfl, by decide, rfl, ⟨rfl, ⟨rfl, ⟨rfl, ?_, ?_, trivial⟩, ?_⟩, ?_, trivial⟩, ?_⟩ <;>
      exact ⟨rfl, by decide, by decide, by decide⟩
  · refine ⟨⟨fun c => if c = "A" then .int 1 else if c = "B" then .int 3 else if c = "C" then .int 5 else .str "x",
      ?_⟩, ?_⟩
    · refine ⟨⟨⟨⟨.inr (by decide), .inr (by decide), trivial⟩, .inr (by decide)⟩, .inr (by decide), trivial⟩, .inr ?_⟩
      rintro (h | h)
      · cases h
      · revert h; decide
    · exact ⟨⟨⟨⟨⟨⟨rfl, rfl, trivial⟩, nofun⟩, rfl⟩, rfl, trivial⟩, nofun⟩, rfl, nofun⟩
  · decide +kernel
  · decide +kernel

end Verif.KeySet
