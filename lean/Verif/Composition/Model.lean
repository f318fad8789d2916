import Verif.Composition.Close
import Verif.Session.PropsBudget
import Mathlib.Algebra.BigOperators.Intervals

/-!
# C50: everything an analyst sees of a session

`Verif.Session` models the book keeping of sessions. Here the sessions get private data and the measurements get
distributions of answers; an analyst chooses one call after the other, knowing all answers so far.
-/

namespace Verif.Composition

open Verif.Budget (XNum PB Rounding)
open Verif.Session
open scoped ENNReal NNReal

/-- The parts of a program that touch private data. `X` is what the private tables of a session contain, `A` an answer. -/
structure Sem (M T V X A : Type) where
  /-- the distribution of the answer of a measurement (`self._accountant.measure(measurement)`, `session.py` l. 1132) -/
  mech : M → X → PMF A
  /-- the tables of the `k`-th session of a partition (`self._accountant.split`, `session.py` l. 1595) of a session with
  these tables -/
  part : List (String × T) → X → String → String → List V → Nat → X

variable {Q M T D V X A : Type}

/-- What a call shows: its result, and the answer if there is one. -/
abbrev Reply (M A : Type) := Except Err (Out M) × Option A

/-- What is shown by a call on session `i` with result `res`. -/
noncomputable def respond (sem : Sem M T V X A) (data : Nat → X) (i : Nat) (res : Except Err (Out M)) : PMF (Reply M A) :=
  match res with
  | .ok (.answer m amt) => (sem.mech m (data i)).bind (fun a => PMF.pure (.ok (.answer m amt), some a))
  | r => PMF.pure (r, none)

/-- The private tables of session `i`. -/
def tablesOf (w : World M T D) (i : Nat) : List (String × T) :=
  match w.nodes[i]? with
  | some n => n.tables
  | none => []

/-- The data of the sessions after a call: a successful partition adds the parts, nothing else changes. -/
def nextData (sem : Sem M T V X A) (w : World M T D) (data : Nat → X) (op : Op Q D V) (res : Except Err (Out M)) : Nat → X :=
  match op, res with
  | .partition i src _ col splits, .ok _ => fun j =>
    if j < w.nodes.length then data j
    else sem.part (tablesOf w i) (data i) src col (splits.map Prod.snd) (j - w.nodes.length)
  | _, _ => data

/-- What has been seen so far, latest call first. -/
abbrev History (Q M D V A : Type) := List (Op Q D V × Reply M A)

/-- An analyst: the distribution of the next call, given everything seen so far and everything that can be asked of the
sessions without touching private data (remaining budgets, tables, schemas, public tables). -/
abbrev Analyst (Q M T D V A : Type) := History Q M D V A → World M T D → PMF (Op Q D V)

/-- The distribution of what the analyst sees in `n` calls. -/
noncomputable def transcript (env : Env Q M T D V) (sem : Sem M T V X A) (analyst : Analyst Q M T D V A) :
    Nat → World M T D → (Nat → X) → History Q M D V A → PMF (History Q M D V A)
  | 0, _, _, hist => PMF.pure hist
  | n + 1, w, data, hist =>
    (analyst hist w).bind (fun op =>
      (respond sem data op.target (step env w op).1).bind (fun r =>
        transcript env sem analyst n (step env w op).2 (nextData sem w data op (step env w op).1) ((op, r) :: hist)))

/-! ## Specification -/

/-- A number of a finite budget. -/
def num : XNum → ℝ
  | none => 0
  | some q => (q : ℝ)

/-- Two distributions are as close as the share `s` of budget `b` promises. An infinite budget promises nothing. -/
def Within (b : PB) (s : ℝ≥0) (P Q : PMF A) : Prop :=
  b.isInfinite = false →
    match b with
    | .pure ε => PureClose (s * num ε) P Q
    | .approx ε δ => ApproxClose (s * num ε) (s * num δ) P Q
    | .zcdp ρ => ZCDPClose (s * num ρ) P Q

/-- What is assumed of measurements, views and partitions. `near s x x'`: the data of a session differs by the share `s` of
what the budget of the session protects; `near 1` are neighbours, `near 0` can only be data that is the same for all
measurements. `fits t x`: what the session knows about a table is right for the data.
* `mech`: measurements compiled for the tables of a session, whose privacy relation holds (`session.py` l. 1124), are
  private for that budget (for a share of the distance, for the share of the budget);
* `view`: what is known about a view (`create_view`) is right if it is for the tables of the session;
* `part`: when the data of a session changes, the parts of a partition that is accepted change by shares that add up to no
  more, and what is known about the table of a part is right. -/
structure Sound (env : Env Q M T D V) (sem : Sem M T V X A) (near : ℝ≥0 → X → X → Prop) (fits : T → X → Prop) : Prop where
  mech : ∀ {s x x' tables pub q m b}, s ≤ 1 → near s x x' → (∀ p ∈ tables, fits p.2 x) → (∀ p ∈ tables, fits p.2 x') →
    b.Valid → env.compile tables pub q b = .ok m → env.privRel m b = true → Within b s (sem.mech m x) (sem.mech m x')
  view : ∀ {x tables pub q t}, (∀ p ∈ tables, fits p.2 x) → env.transform tables pub q = .ok t → fits t x
  part : ∀ {s x x' tables pub t} (src col : String) (vals : List V), s ≤ 1 → near s x x' →
    (∀ p ∈ tables, fits p.2 x) → (∀ p ∈ tables, fits p.2 x') → env.partition tables pub src col vals = .ok t →
    ∃ sh : Nat → ℝ≥0, ∑ k ∈ Finset.range vals.length, sh k ≤ s ∧
      ∀ k < vals.length, near (sh k) (sem.part tables x src col vals k) (sem.part tables x' src col vals k) ∧
        fits t (sem.part tables x src col vals k) ∧ fits t (sem.part tables x' src col vals k)

end Verif.Composition
