import Verif.Common
import Verif.Budget.Model

/-!
# Model of `session.py`: a session, its partition descendants, views, public tables

Source: `/repo/src/tmlt/analytics/session.py`.

The state of a program is a `World`: an arena of sessions (a session is addressed by its index; new
sessions are only ever appended, by `partition_and_create`) and a heap of public-source dictionaries
(`Session._public_sources` is a Python dict that `partition_and_create` passes *by reference* to the
children, l. 1652, so sessions hold an address).

The privacy accountant (`tmlt.core`'s `PrivacyAccountant`, not in /repo) is modelled by its contract:
* it is ACTIVE, RETIRED, WAITING_FOR_SIBLING or WAITING_FOR_CHILDREN;
* `measure`/`split` need it to be ACTIVE, check the budget exactly and subtract exactly (nothing is
  subtracted from an infinite budget);
* `split` creates one child per part with the given budget, the first one ACTIVE, the others
  WAITING_FOR_SIBLING, and the parent becomes WAITING_FOR_CHILDREN;
* `force_activate` of a WAITING_FOR_CHILDREN accountant retires all its descendants; of a
  WAITING_FOR_SIBLING accountant retires the preceding siblings and their descendants;
* `retire` retires the accountant and its descendants, and hands over to the next sibling or, if there
  is none, to the parent.

Query compilation, schema handling and the data itself are parameters (`Env`).
-/

namespace Verif.Session

open Verif.Budget (XNum PB Rounding adjustBudget)

/-- Exceptions raised by session methods. -/
inductive Err where
  | valueError
  | keyError
  | typeError
  /-- `RuntimeError("Cannot answer query without exceeding the Session privacy budget")` -/
  | insufficientBudget
  /-- `AnalyticsInternalError`, raised instead while the message of that exception is put together (l. 189-204) -/
  | insufficientInternal
  /-- `RuntimeError("This session is no longer active ...")` -/
  | inactive
  | internal
  /-- the session does not exist (not a Python behaviour: index outside of the arena) -/
  | noSession
  deriving DecidableEq, Repr

/-- `PrivacyAccountantState` of tmlt.core, as used in l. 1729-1747. -/
inductive AState where
  | active
  | retired
  | waitSibling
  | waitChildren
  deriving DecidableEq, Repr

/-- Ghost log of what an accountant released: measurements with the amount charged, and splits with the
amount charged and the sessions created. -/
inductive Event (M : Type) where
  | measured (m : M) (amt : PB)
  | split (amt : PB) (children : List Nat)
  deriving DecidableEq

/-- A `Session` object with its accountant. `T` is everything known about a private table (schema,
metric, constraints). `anc` (all proper ancestors, nearest first), `total` and `log` are ghost. -/
structure Node (M T : Type) where
  parent : Option Nat
  anc : List Nat
  state : AState
  total : PB
  remaining : PB
  tables : List (String × T)
  pub : Nat
  log : List (Event M)
  deriving DecidableEq

/-- The whole program state. -/
structure World (M T D : Type) where
  nodes : List (Node M T)
  heap : List (List (String × D))
  deriving DecidableEq

/-- The parts of the library that this file does not model. -/
structure Env (Q M T D V : Type) where
  /-- `str.isidentifier` -/
  isIdent : String → Bool
  /-- float rounding -/
  rounding : Rounding
  /-- `QueryExprCompiler.__call__` on the session's catalog (l. 991-998) -/
  compile : List (String × T) → List (String × D) → Q → PB → Except Err M
  /-- `measurement.privacy_relation(d_in, budget)` (l. 1124) -/
  privRel : M → PB → Bool
  /-- `QueryExprCompiler.build_transformation` (l. 1227-1244) -/
  transform : List (String × T) → List (String × D) → Q → Except Err T
  /-- `_create_partition_transformation` (l. 1315-1463): the table of one part -/
  partition : List (String × T) → List (String × D) → String → String → List V → Except Err T
  /-- `coerce_spark_schema_or_fail` (l. 967) -/
  coerce : D → Except Err D

variable {Q M T D V : Type}

/-! ## Core accountant -/

/-- Core's check in `measure`/`split`: infinite budgets can spend anything, finite ones only what is
left, in every component. -/
def canSpend : PB → PB → Bool
  | .pure a, .pure b => (PB.pure a).isInfinite || decide (b ≤ a)
  | .zcdp a, .zcdp b => (PB.zcdp a).isInfinite || decide (b ≤ a)
  | .approx a b, .approx c d => (PB.approx a b).isInfinite || (decide (c ≤ a) && decide (d ≤ b))
  | _, _ => false

/-- Exact subtraction of finite numbers. -/
def subX : XNum → XNum → XNum
  | some a, some b => ((a - b : ℚ) : XNum)
  | a, _ => a

/-- Core's exact subtraction; infinite budgets are unchanged. -/
def spend : PB → PB → PB
  | .pure a, .pure b => if (PB.pure a).isInfinite then .pure a else .pure (subX a b)
  | .zcdp a, .zcdp b => if (PB.zcdp a).isInfinite then .zcdp a else .zcdp (subX a b)
  | .approx a b, .approx c d =>
    if (PB.approx a b).isInfinite then .approx a b else .approx (subX a c) (subX b d)
  | r, _ => r

/-- Set the state of those nodes that satisfy `p` (given index and node) to RETIRED. -/
def retireWhere (p : Nat → Node M T → Bool) (ns : List (Node M T)) : List (Node M T) :=
  ns.mapIdx (fun j n => if p j n then { n with state := .retired } else n)

/-- `force_activate` of the accountant `i` (Core), called by l. 1747. -/
def forceActivate (ns : List (Node M T)) (i : Nat) : List (Node M T) :=
  match ns[i]? with
  | none => ns
  | some n =>
    match n.state with
    | .active => ns
    | .retired => ns
    | .waitChildren =>
      (retireWhere (fun _ m => m.anc.contains i) ns).set i { n with state := .active }
    | .waitSibling =>
      (retireWhere (fun j m =>
          -- `m` or one of its ancestors is a preceding sibling of `i`
          (j :: m.anc).any (fun k => decide (k < i) &&
            (match ns[k]? with | some s => decide (s.parent = n.parent) | none => false))) ns).set i
        { n with state := .active }

/-- The next sibling of `i` that is waiting for its turn. -/
def nextSibling (ns : List (Node M T)) (i : Nat) (par : Option Nat) : Option Nat :=
  (List.range ns.length).find? (fun j => decide (i < j) &&
    (match ns[j]? with
     | some s => decide (s.parent = par) && decide (s.state = .waitSibling)
     | none => false))

/-- Set the state of one node. -/
def setState (ns : List (Node M T)) (i : Nat) (s : AState) : List (Node M T) :=
  match ns[i]? with
  | some n => ns.set i { n with state := s }
  | none => ns

/-- `retire` of the accountant `i` (Core), called by `Session.stop` (l. 1749-1751). -/
def retire (ns : List (Node M T)) (i : Nat) : List (Node M T) :=
  match ns[i]? with
  | none => ns
  | some n =>
    match n.state with
    | .retired => ns
    | .waitSibling => setState ns i .retired
    | _ =>
      let ns' := retireWhere (fun j m => decide (j = i) || m.anc.contains i) ns
      match n.parent with
      | none => ns'
      | some p =>
        match nextSibling ns' i (some p) with
        | some j => setState ns' j .active
        | none => setState ns' p .active

/-! ## Session methods -/

/-- `_activate_accountant` (l. 1729-1747). -/
def activate (ns : List (Node M T)) (i : Nat) : Except Err (List (Node M T)) :=
  match ns[i]? with
  | none => .error .noSession
  | some n =>
    if n.state = .active then .ok ns
    else if n.state = .retired then .error .inactive
    else .ok (forceActivate ns i)

/-- l. 982-983 / 1570-1571: in an approximate session a pure budget is read as delta = 0. -/
def convertBudget (remaining requested : PB) : PB :=
  match remaining, requested with
  | .approx _ _, .pure ε => .approx ε (0 : ℚ)
  | _, b => b

/-- `_validate_budget_type_matches_session` (l. 1705-1727). The kind of the session is the kind of the
accountant's remaining budget. -/
def kindMatches : PB → PB → Bool
  | .pure _, .pure _ => true
  | .approx _ _, .approx _ _ => true
  | .zcdp _, .zcdp _ => true
  | _, _ => false

/-- l. 986: is the budget in `[PureDPBudget(0), ApproxDPBudget(0, 0), RhoZCDPBudget(0)]`? -/
def isZeroBudget (b : PB) : Bool :=
  b.pyEq (.pure (0 : ℚ)) || b.pyEq (.approx (0 : ℚ) (0 : ℚ)) || b.pyEq (.zcdp (0 : ℚ))

/-- `ExactNumber.to_float(round_up=False)` followed by `ExactNumber.from_float`. -/
def downX (r : Rounding) : XNum → XNum
  | some q => ((r.down q : ℚ) : XNum)
  | none => ⊤

/-- `_process_requested_budget` (l. 1655-1703). -/
def processRequested (r : Rounding) (remaining requested : PB) : Except Err PB :=
  let lift : Except Verif.Budget.Err PB → Except Err PB := fun
    | .ok b => .ok b
    | .error _ => .error .valueError
  match requested, remaining with
  | .pure ε, .pure rem => lift (adjustBudget (.pure ε) (.pure (downX r rem)))
  | .approx ε δ, .approx rε rδ =>
    if (PB.approx ε δ).isInfinite then .ok (.approx ⊤ (1 : ℚ))
    else lift (adjustBudget (.approx ε δ) (.approx (downX r rε) (downX r rδ)))
  | .approx ε δ, _ =>
    if (PB.approx ε δ).isInfinite then .ok (.approx ⊤ (1 : ℚ)) else .error .internal
  | .zcdp ρ, .zcdp rem => lift (adjustBudget (.zcdp ρ) (.zcdp (downX r rem)))
  | _, _ => .error .internal

/-- `public_sources` of a session (l. 486-489): the dict its `_public_sources` points to. -/
def World.pubOf (w : World M T D) (n : Node M T) : List (String × D) := (w.heap[n.pub]?).getD []

/-- `_compile_and_get_info` (l. 970-999). -/
def compileInfo (env : Env Q M T D V) (w : World M T D) (n : Node M T) (q : Q) (b : PB) :
    Except Err (M × PB) :=
  let b := convertBudget n.remaining b
  if !kindMatches n.remaining b then .error .valueError
  else if isZeroBudget b then .error .valueError
  else
    match processRequested env.rounding n.remaining b with
    | .error e => .error e
    | .ok adj =>
      match env.compile n.tables (w.pubOf n) q adj with
      | .error e => .error e
      | .ok m => .ok (m, adj)

/-- Does `_format_insufficient_budget_msg` (l. 146-238) return a message? It looks at the kind of the budget the user asked
for, and at whether the requested and the remaining budget are tuples. The message is in `Verif.Session.Refusal`. -/
def canFormat (asked requested remaining : PB) : Bool :=
  match asked, requested, remaining with
  | .approx _ _, .approx _ _, .approx _ _ => true
  | .approx _ _, _, _ => false
  | _, .approx _ _, _ => false
  | _, _, .approx _ _ => false
  | _, _, _ => true

/-- The exception for a request that exceeds the remaining budget (l. 1135-1144, 1605-1613). -/
def refusal (asked requested remaining : PB) : Err :=
  if canFormat asked requested remaining then .insufficientBudget else .insufficientInternal

/-- What a successful call returns. -/
inductive Out (M : Type) where
  | answer (m : M) (amt : PB)
  | sessions (ids : List (String × Nat))
  | none
  deriving DecidableEq

/-- `evaluate` (l. 1050-1151). The message of the exception is made with the budget as it was given (l. 1139), not as
`_compile_and_get_info` converted it. -/
def evaluate (env : Env Q M T D V) (w : World M T D) (i : Nat) (q : Q) (b : PB) :
    Except Err (Out M) × World M T D :=
  match w.nodes[i]? with
  | none => (.error .noSession, w)
  | some n =>
    match compileInfo env w n q b with
    | .error e => (.error e, w)
    | .ok (m, adj) =>
      match activate w.nodes i with
      | .error e => (.error e, w)
      | .ok ns =>
        if !env.privRel m adj then (.error .internal, { w with nodes := ns })
        else if !canSpend n.remaining adj then (.error (refusal b adj n.remaining), { w with nodes := ns })
        else
          match ns[i]? with
          | none => (.error .noSession, w)
          | some n' =>
            (.ok (.answer m adj),
             { w with nodes := ns.set i { n' with
                remaining := spend n'.remaining adj
                log := n'.log ++ [.measured m adj] } })

/-- Names of a list of named things. -/
def names {α : Type} (l : List (String × α)) : List String := l.map Prod.fst

/-- `create_view` (l. 1153-1246). The accountant is activated *before* the name check. -/
def createView (env : Env Q M T D V) (w : World M T D) (i : Nat) (q : Q) (name : String) :
    Except Err (Out M) × World M T D :=
  match w.nodes[i]? with
  | none => (.error .noSession, w)
  | some _ =>
    if !env.isIdent name then (.error .valueError, w)
    else
      match activate w.nodes i with
      | .error e => (.error e, w)
      | .ok ns =>
        match ns[i]? with
        | none => (.error .noSession, w)
        | some n =>
          if (names n.tables).contains name || (names (w.pubOf n)).contains name then
            (.error .valueError, { w with nodes := ns })
          else
            match env.transform n.tables (w.pubOf n) q with
            | .error e => (.error e, { w with nodes := ns })
            | .ok t => (.ok .none, { w with nodes := ns.set i { n with tables := (name, t) :: n.tables } })

/-- `delete_view` (l. 1248-1282). The accountant is activated *before* the existence check. -/
def deleteView (w : World M T D) (i : Nat) (name : String) :
    Except Err (Out M) × World M T D :=
  match w.nodes[i]? with
  | none => (.error .noSession, w)
  | some _ =>
    match activate w.nodes i with
    | .error e => (.error e, w)
    | .ok ns =>
      match ns[i]? with
      | none => (.error .noSession, w)
      | some n =>
        if !(names n.tables).contains name then (.error .keyError, { w with nodes := ns })
        else
          let n' := { n with tables := n.tables.filter (fun p => p.1 != name) }
          (.ok .none, { w with nodes := ns.set i n' })

/-- `add_public_dataframe` (l. 916-968). It mutates the dict the session points to. -/
def addPublic (env : Env Q M T D V) (w : World M T D) (i : Nat) (name : String) (df : D) :
    Except Err (Out M) × World M T D :=
  match w.nodes[i]? with
  | none => (.error .noSession, w)
  | some n =>
    if !env.isIdent name then (.error .valueError, w)
    else if (names (w.pubOf n)).contains name || (names n.tables).contains name then
      (.error .valueError, w)
    else
      match env.coerce df with
      | .error e => (.error e, w)
      | .ok df' => (.ok .none, { w with heap := w.heap.set n.pub (w.pubOf n ++ [(name, df')]) })

/-- The sessions made by `partition_and_create` from the split accountants (l. 1618-1653): same
public-source dict, one private table named after the split. The first accountant is active. -/
def mkChildren (parentId : Nat) (parent : Node M T) (amt : PB) (t : T) :
    Bool → List String → List (Node M T)
  | _, [] => []
  | isFirst, s :: rest =>
    { parent := some parentId
      anc := parentId :: parent.anc
      state := if isFirst then .active else .waitSibling
      total := amt
      remaining := amt
      tables := [(s, t)]
      pub := parent.pub
      log := [] } :: mkChildren parentId parent amt t false rest

/-- `partition_and_create` (l. 1466-1653). -/
def partition (env : Env Q M T D V) (w : World M T D) (i : Nat) (src : String) (b : PB) (col : String)
    (splits : List (String × V)) : Except Err (Out M) × World M T D :=
  match w.nodes[i]? with
  | none => (.error .noSession, w)
  | some n =>
    let b := convertBudget n.remaining b
    if !kindMatches n.remaining b then (.error .valueError, w)
    else if !(names splits).all env.isIdent then (.error .valueError, w)
    else
      match processRequested env.rounding n.remaining b with
      | .error e => (.error e, w)
      | .ok adj =>
        match env.partition n.tables (w.pubOf n) src col (splits.map Prod.snd) with
        | .error e => (.error e, w)
        | .ok t =>
          match activate w.nodes i with
          | .error e => (.error e, w)
          | .ok ns =>
            if !canSpend n.remaining adj then (.error (refusal b adj n.remaining), { w with nodes := ns })
            else
              match ns[i]? with
              | none => (.error .noSession, w)
              | some n' =>
                let ids := (List.range splits.length).map (· + ns.length)
                let n'' := { n' with
                  state := .waitChildren
                  remaining := spend n'.remaining adj
                  log := n'.log ++ [.split adj ids] }
                (.ok (.sessions ((names splits).zip ids)),
                 { w with nodes := ns.set i n'' ++ mkChildren i n' adj t true (names splits) })

/-- `stop` (l. 1749-1751). -/
def stop (w : World M T D) (i : Nat) : Except Err (Out M) × World M T D :=
  match w.nodes[i]? with
  | none => (.error .noSession, w)
  | some _ => (.ok .none, { w with nodes := retire w.nodes i })

/-- A method call on session `i`. -/
inductive Op (Q D V : Type) where
  | evaluate (i : Nat) (q : Q) (b : PB)
  | createView (i : Nat) (q : Q) (name : String)
  | deleteView (i : Nat) (name : String)
  | addPublic (i : Nat) (name : String) (df : D)
  | partition (i : Nat) (src : String) (b : PB) (col : String) (splits : List (String × V))
  | stop (i : Nat)

/-- The session an operation is called on. -/
def Op.target : Op Q D V → Nat
  | .evaluate i _ _ => i
  | .createView i _ _ => i
  | .deleteView i _ => i
  | .addPublic i _ _ => i
  | .partition i _ _ _ _ => i
  | .stop i => i

/-- One call. -/
def step (env : Env Q M T D V) (w : World M T D) : Op Q D V → Except Err (Out M) × World M T D
  | .evaluate i q b => evaluate env w i q b
  | .createView i q name => createView env w i q name
  | .deleteView i name => deleteView w i name
  | .addPublic i name df => addPublic env w i name df
  | .partition i src b col splits => partition env w i src b col splits
  | .stop i => stop w i

/-- A history of calls. -/
def run (env : Env Q M T D V) (w : World M T D) : List (Op Q D V) → World M T D
  | [] => w
  | op :: ops => run env (step env w op).2 ops

/-- The budget a fresh accountant gets (l. 413-434): infinite approximate budgets become (inf, 1). -/
def initialBudget : PB → PB
  | .approx ε δ => if (PB.approx ε δ).isInfinite then .approx ⊤ (1 : ℚ) else .approx ε δ
  | b => b

/-- A freshly built session (`_from_neighboring_relation`, l. 455-474): active, no ancestors, own empty
public-source dict (the builder then calls `add_public_dataframe`, l. 291-293). -/
def init (b : PB) (tables : List (String × T)) : World M T D :=
  { nodes := [{ parent := none, anc := [], state := .active, total := initialBudget b,
                remaining := initialBudget b, tables := tables, pub := 0, log := [] }]
    heap := [[]] }

end Verif.Session
