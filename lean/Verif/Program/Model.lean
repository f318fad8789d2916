import Verif.Builder.PropsMeaning
import Verif.Whole.AnswersChain

/-!
# C74: programs with builders that are used again

`Builder/Heap` has builders as mutable objects, and says what a call does to the objects. `Whole/Chain` has the calls of
methods from their arguments to the answers, for builders used once. Here a program of calls on mutable builders is
replayed: every builder is given the chain of the calls that were made on it.
-/

namespace Verif.Program

open Verif Verif.Schema Verif.Constraint Verif.Expr Verif.Query
open Verif.Builder (Heap Obj Arg Operand AggArg Call Res PyFn PExpr PQuery Sql call run)
open Verif.Whole (Chain Ctx ColsArg Bins PubFrame)

/-- What the objects that a program passes by identity are: the data frames, and the columns and `BinningSpec`s that
functions made by `bin_column` refer to (`query_builder.py` l. 1583). -/
structure Things where
  frames : Nat → PubFrame
  bins : Nat → String × Bins

/-- The objects in a call are the ones listed in `Things`. A data frame has the schema and the rows that a join sees once it
has been coerced (`_query_expr.py` l. 958-963). -/
def GivenArg (ctx : Ctx) (th : Things) : Arg → Prop
  | .joinPublic (.df o s rows) _ _ => ∀ r, Whole.pubRef ctx (.frame (th.frames o)) = .ok r → r = .df s rows
  | .binColumn f name desc => f.run = (th.bins f.obj).2.fn (th.bins f.obj).1 name ∧ desc = (th.bins f.obj).2.desc
  | _ => True

def Given (ctx : Ctx) (th : Things) : Call → Prop
  | .transform _ arg => GivenArg ctx th arg
  | .histogram _ f name desc _ => GivenArg ctx th (.binColumn f name desc)
  | _ => True

/-! ## Specification: the replay -/

/-- The present contents of a list of columns; `None` is no list. -/
def listed (objs : List Obj) : Option Nat → Option ColsArg
  | none => some .missing
  | some i =>
    match objs[i]? with
    | some (.names l) => some (.list l)
    | _ => none

/-- The name of a kind of join. -/
def howText : Expr.How → String
  | .inner => "inner"
  | .left => "left"

/-- The call of a transformation with arguments as they are now. `none`: an argument is not of the type it should be. -/
def argStep (sql : Sql) (th : Things) (objs : List Obj) : Arg → Option (Chain → Chain)
  | .rename m =>
    match objs[m]? with
    | some (.mapper d) => some (fun c => .rename c d)
    | _ => none
  | .filter t => some (fun c => .filter c (sql t).1 (sql t).2)
  | .select i =>
    match objs[i]? with
    | some (.names l) => some (fun c => .select c (.list l))
    | _ => none
  | .map f i augment =>
    match objs[i]? with
    | some (.types d) => some (fun c => .map c f.run d augment)
    | _ => none
  | .flatMap f i augment grouping n =>
    match objs[i]? with
    | some (.types d) => some (fun c => .flatMap c f.run d augment grouping (n.map Int.ofNat))
    | _ => none
  | .flatMapByID f i =>
    match objs[i]? with
    | some (.types d) => some (fun c => .flatMapByID c f.run d)
    | _ => none
  | .joinPublic (.name s) cols how => (listed objs cols).map (fun cs c => .joinPublic c (.table s) cs (howText how))
  | .joinPublic (.df o _ _) cols how =>
    (listed objs cols).map (fun cs c => .joinPublic c (.frame (th.frames o)) cs (howText how))
  | .replaceNull none => some (fun c => .replaceNull c none)
  | .replaceNull (some i) =>
    match objs[i]? with
    | some (.values d) => some (fun c => .replaceNull c (some d))
    | _ => none
  | .replaceInf none => some (fun c => .replaceInf c none)
  | .replaceInf (some i) =>
    match objs[i]? with
    | some (.pairs d) => some (fun c => .replaceInf c (some d))
    | _ => none
  | .dropNull cols => (listed objs cols).map (fun cs c => .dropNull c cs)
  | .dropInf cols => (listed objs cols).map (fun cs c => .dropInf c cs)
  | .enforce k => some (fun c => .enforce c k)
  | .binColumn f name _ => some (fun c => .binColumn c (th.bins f.obj).1 (th.bins f.obj).2 (some name))

/-- What a query object asks for. -/
inductive Asked : Type 1 where
  | agg (c : Chain) (keys : Keys) (kind : Kind) (out : String)
  | groups (c : Chain) (columns : List String)
  | suppress (c : Chain) (keys : Keys) (kind : Kind) (out : String) (threshold : ℚ)

/-- What a program holds, without sharing: every builder has its own chain of calls. -/
structure Book : Type 1 where
  builders : List Chain := []
  grouped : List (Chain × Keys) := []
  queries : List Asked := []
  objs : List Obj := []

/-- The keys that `groupby` is given. -/
def keysNow (objs : List Obj) : Builder.By → Option Keys
  | .set k => some (.set k)
  | .col c => some (.cols [c])
  | .list i =>
    match objs[i]? with
    | some (.names l) => some (.cols l)
    | _ => none

/-- The aggregation that is asked for. -/
def kindNow (objs : List Obj) : AggArg → Option Kind
  | .plain k => some k
  | .distinct none m => some (.countDistinct [] m)
  | .distinct (some i) m =>
    match objs[i]? with
    | some (.names l) => some (.countDistinct l m)
    | _ => none

/-- Columns of `get_groups`; `None` is no column. -/
def columnsNow (objs : List Obj) : Option Nat → Option (List String)
  | none => some []
  | some i =>
    match objs[i]? with
    | some (.names l) => some l
    | _ => none

/-- The chain of the right operand of a join. -/
def joinStep (bk : Book) (right : Operand) (tl tr : Option Trunc) (cs : ColsArg) : Option (Chain → Chain) :=
  match right with
  | .table id => some (fun c => .joinTable c id tl tr cs)
  | .builder b => (bk.builders[b]?).map (fun r c => .joinPrivate c r tl tr cs)

/-- A call that did not raise. -/
def Book.done (sql : Sql) (th : Things) (bk : Book) : Call → Book
  | .new id => { bk with builders := bk.builders ++ [.start id] }
  | .clone b => { bk with builders := bk.builders ++ (bk.builders[b]?).toList }
  | .transform b arg =>
    match bk.builders[b]?, argStep sql th bk.objs arg with
    | some c, some f => { bk with builders := bk.builders.set b (f c) }
    | _, _ => bk
  | .joinPrivate b right tl tr cols =>
    match bk.builders[b]?, (listed bk.objs cols).bind (joinStep bk right tl tr) with
    | some c, some f => { bk with builders := bk.builders.set b (f c) }
    | _, _ => bk
  | .groupby b by_ =>
    match bk.builders[b]?, keysNow bk.objs by_ with
    | some c, some k => { bk with grouped := bk.grouped ++ [(c, k)] }
    | _, _ => bk
  | .aggregate g a out =>
    match bk.grouped[g]?, kindNow bk.objs a with
    | some (c, keys), some kind => { bk with queries := bk.queries ++ [.agg c keys kind out] }
    | _, _ => bk
  | .getGroups b cols =>
    match bk.builders[b]?, columnsNow bk.objs cols with
    | some c, some cs => { bk with queries := bk.queries ++ [.groups c cs] }
    | _, _ => bk
  | .histogram b f name _ keys =>
    match bk.builders[b]? with
    | some c =>
      let c' := .binColumn c (th.bins f.obj).1 (th.bins f.obj).2 (some name)
      ⟨bk.builders.set b c', bk.grouped ++ [(c', .set keys)], bk.queries ++ [.agg c' (.set keys) (.count .default) "count"],
        bk.objs⟩
    | none => bk
  | .suppress q t =>
    match bk.queries[q]? with
    | some (.agg c keys kind out) => { bk with queries := bk.queries ++ [.suppress c keys kind out t] }
    | _ => bk
  | .allocate o => { bk with objs := bk.objs ++ [o] }
  | .assign i o => { bk with objs := bk.objs.set i o }

/-- A call, given what it returned: one that raised is as if it had not been made. -/
def Book.next (sql : Sql) (th : Things) (bk : Book) (c : Call) (r : Res) : Book := if r = .raised then bk else bk.done sql th c

/-- A program, given what its calls return. -/
def replay (sql : Sql) (th : Things) (raises : Heap → Call → Bool) : Heap → Book → List Call → Book
  | _, bk, [] => bk
  | h, bk, c :: cs => replay sql th raises (call raises h c).1 (bk.next sql th c (call raises h c).2) cs

/-- The query that is asked for, for the expressions that the methods of the chain make. -/
def Asked.Query (ctx : Ctx) (q : Query.Query) : Asked → Prop
  | .agg c keys kind out => ∃ e, c.build ctx = .ok e ∧ q = .agg ⟨e, keys, kind, out, none⟩
  | .groups c cs => ∃ e, c.build ctx = .ok e ∧ q = .groups e cs
  | .suppress c keys kind out t => ∃ e, c.build ctx = .ok e ∧ q = .suppress ⟨e, keys, kind, out, none⟩ out t

/-! ## When a call is refused -/

/-- The checks of the constructors are those of `Whole/Chain`. Whether the arguments pass them does not depend on the
builder, so that a builder of a single table can stand for it. -/
structure Faithful (ctx : Ctx) (sql : Sql) (th : Things) (raises : Heap → Call → Bool) : Prop where
  new : ∀ h id, raises h (.new id) = true ↔ ∀ e, Whole.newBuilder ctx id ≠ .ok e
  transform : ∀ h b arg f, argStep sql th h.objs arg = some f →
    (raises h (.transform b arg) = true ↔ ∀ id e, (f (.start id)).build ctx ≠ .ok e)
  joinTable : ∀ h b t tl tr cols cs, listed h.objs cols = some cs →
    (raises h (.joinPrivate b (.table t) tl tr cols) = true ↔ ∀ id e, (Chain.joinTable (.start id) t tl tr cs).build ctx ≠ .ok e)
  join : ∀ h b b' tl tr cols cs, listed h.objs cols = some cs →
    (raises h (.joinPrivate b (.builder b') tl tr cols) = true ↔
      ∀ id e, (Chain.joinPrivate (.start id) (.start id) tl tr cs).build ctx ≠ .ok e)
  histogram : ∀ h b f name desc keys, raises h (.histogram b f name desc keys) = true ↔
    ∀ id e, (Chain.binColumn (.start id) (th.bins f.obj).1 (th.bins f.obj).2 (some name)).build ctx ≠ .ok e

end Verif.Program
