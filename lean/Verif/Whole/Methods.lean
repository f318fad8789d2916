import Verif.Whole.Exact

/-!
# C71: the methods that finish a query

`groupby` and the aggregation methods of `QueryBuilder` and `GroupedQueryBuilder` (`query_builder.py` l. 1788-3804), from
the arguments a user gives to the answer of a session.
-/

namespace Verif.Whole

open Verif Verif.Schema Verif.Constraint Verif.Expr Verif.Query Verif.Stability
open Verif.Budget (XNum PB Rounding)
open Verif.Meaning (Means NoLeftIDs Faithful)
open Verif.Session (World Op)

/-! ## Model -/

/-- What Python does with strings and numbers: `s.upper()`, `str(q)`, and the float next to an integer (integers that no
float is near to raise `OverflowError`; this is not modelled). -/
structure Py where
  upper : String → String
  showNum : ℚ → String
  toFloat : ℤ → ℚ

/-- The argument `mechanism`: a member of the enumeration or a string. Members of another enumeration are refused by
`check_type`; this is not modelled. -/
inductive MechArg where
  | member (m : Mech)
  | name (s : String)
  deriving DecidableEq

/-- The argument `columns` of `count_distinct`. -/
inductive ColsArg where
  | missing
  | one (c : String)
  | list (cs : List String)
  deriving DecidableEq

/-- A call of an aggregation method. Names are `None` or a string. -/
inductive Method where
  | count (name : Option String) (mech : MechArg)
  | countDistinct (columns : ColsArg) (name : Option String) (mech : MechArg)
  | quantile (column : String) (q : ℚ) (low high : Value) (name : Option String)
  | min (column : String) (low high : Value) (name : Option String)
  | max (column : String) (low high : Value) (name : Option String)
  | median (column : String) (low high : Value) (name : Option String)
  | stat (st : Stat) (column : String) (low high : Value) (name : Option String) (mech : MechArg)
  | bounds (column : String) (lower upper : Option String)
  deriving DecidableEq

/-- The argument of `groupby`. -/
inductive By where
  | keyset (k : KeySetV)
  | list (cs : List String)
  | str (c : String)

/-- `groupby` (l. 1989-2004). `flag` is `config.features.auto_partition_selection`. -/
def groupby (flag : Bool) : By → Except PyErr Keys
  | .keyset k => .ok (.set k)
  | .list cs => if flag then .ok (.cols cs) else .error .value
  | .str c => if flag then .ok (.cols [c]) else .error .value

/-- `CountMechanism[mechanism.upper()]` and its exception (e.g. l. 2879-2886). -/
def mechOf (py : Py) : MechArg → Except PyErr Mech
  | .member m => .ok m
  | .name s =>
    if py.upper s = "DEFAULT" then .ok .default
    else if py.upper s = "LAPLACE" then .ok .laplace
    else if py.upper s = "GAUSSIAN" then .ok .gaussian
    else .error .value

/-- `if name is None: name = dflt`. -/
def orNone (name : Option String) (dflt : String) : String :=
  match name with
  | none => dflt
  | some s => s

/-- `if not name: name = dflt`. -/
def orEmpty (name : Option String) (dflt : String) : String :=
  match name with
  | none => dflt
  | some s => if s = "" then dflt else s

/-- `float(x)` of a number. -/
def asFloat (py : Py) : Value → Value
  | .int z => .dec (.fin (py.toFloat z))
  | v => v

def isInt : Value → Bool
  | .int _ => true
  | _ => false

/-- The constructors of the aggregations (`_query_expr.py` l. 297-307, 1668-1675, 1706-1715, 1757-1782, 1822-1843, 1883-1904,
1944-1965, 2005-2027): the flag is checked if keys are automatic, bounds of different types become floats, then the
checks of `Kind.constructible`. -/
def construct (py : Py) (flag : Bool) (a : Agg) : Except PyErr Agg :=
  if a.keys.isAuto && !flag then .error .runtime
  else
    let k : Kind := match a.kind with
      | .bounded st c low high mech =>
        if isInt low != isInt high then .bounded st c (asFloat py low) (asFloat py high) mech else .bounded st c low high mech
      | .quantile c q low high =>
        if isInt low != isInt high then .quantile c q (asFloat py low) (asFloat py high) else .quantile c q low high
      | k => k
    match k.constructible with
    | .error e => .error e
    | .ok () => .ok { a with kind := k }

/-- `GroupedQueryBuilder.quantile` (l. 3059-3072). -/
def buildQuantile (py : Py) (flag : Bool) (e : Expr) (keys : Keys) (c : String) (q : ℚ) (low high : Value)
    (name : Option String) : Except PyErr Agg :=
  construct py flag ⟨e, keys, .quantile c q (asFloat py low) (asFloat py high),
    orNone name (c ++ "_quantile(" ++ py.showNum q ++ ")"), none⟩

def statName : Stat → String
  | .sum => "sum"
  | .average => "average"
  | .variance => "variance"
  | .stdev => "stdev"

/-- The methods of `GroupedQueryBuilder`. -/
def Method.build (py : Py) (flag : Bool) (e : Expr) (keys : Keys) : Method → Except PyErr Agg
  -- l. 2877-2893
  | .count name mech =>
    match mechOf py mech with
    | .error x => .error x
    | .ok m => construct py flag ⟨e, keys, .count m, orNone name "count", none⟩
  -- l. 2961-2985
  | .countDistinct columns name mech =>
    let cs := match columns with
      | .missing => []
      | .one c => [c]
      | .list cs => cs
    let out := orEmpty name (if cs ≠ [] then "count_distinct(" ++ ", ".intercalate cs ++ ")" else "count_distinct")
    match mechOf py mech with
    | .error x => .error x
    | .ok m => construct py flag ⟨e, keys, .countDistinct cs m, out, none⟩
  -- l. 3059-3072
  | .quantile c q low high name => buildQuantile py flag e keys c q low high name
  -- l. 3144-3146
  | .min c low high name => buildQuantile py flag e keys c 0 low high (some (orEmpty name (c ++ "_min")))
  -- l. 3218-3220
  | .max c low high name => buildQuantile py flag e keys c 1 low high (some (orEmpty name (c ++ "_max")))
  -- l. 3289-3291
  | .median c low high name => buildQuantile py flag e keys c (1 / 2) low high (some (orEmpty name (c ++ "_median")))
  -- l. 3379-3398, 3486-3505, 3594-3613, 3701-3720
  | .stat st c low high name mech =>
    match mechOf py mech with
    | .error x => .error x
    | .ok m => construct py flag ⟨e, keys, .bounded st c low high m, orNone name (c ++ "_" ++ statName st), none⟩
  -- l. 3793-3804; `out` is not used
  | .bounds c lower upper =>
    construct py flag ⟨e, keys, .bounds c (orNone lower (c ++ "_lower_bound")) (orNone upper (c ++ "_upper_bound")), "", none⟩

/-- `KeySet.from_dict({})`, as aggregations see it. -/
def noKeys : KeySetV := ⟨[], []⟩

/-- A method of `QueryBuilder` (`none`, l. 1857-1861, 2078-2795), or `groupby` and a method of `GroupedQueryBuilder`. The two
flags are those at the time of the two calls. -/
def finish (py : Py) (flag flag' : Bool) (e : Expr) : Option By → Method → Except PyErr Agg
  | none, m =>
    match groupby flag (.keyset noKeys) with
    | .error x => .error x
    | .ok keys => m.build py flag' e keys
  | some by', m =>
    match groupby flag by' with
    | .error x => .error x
    | .ok keys => m.build py flag' e keys

/-! ## Specification -/

/-- A finite number. -/
def number : Value → Option ℚ
  | .int z => some z
  | .dec (.fin q) => some q
  | _ => none

/-- What the documentation says of infinite values in the measured column: "these values will be clamped between `low` and
`high`", or "a `drop_infinity` query will be performed first". It differs between the two classes. -/
inductive Treat where
  | clamped
  | dropped
  deriving DecidableEq

def Method.infinities (grouped : Bool) : Method → Treat
  | .stat .. => if grouped then .dropped else .clamped
  | .quantile .. => if grouped then .clamped else .dropped
  | _ => .dropped

/-- The value of a cell that is measured, if any: nulls and NaNs are not. -/
def measured (t : Treat) (low high : ℚ) : Value → Option ℚ
  | .int z => some (max low (min high z))
  | .dec (.fin q) => some (max low (min high q))
  | .dec .pinf => if t = .clamped then some high else none
  | .dec .ninf => if t = .clamped then some low else none
  | _ => none

/-- The number that is given as a bound. -/
def bound (v : Value) : ℚ := (number v).getD 0

/-- The columns and values that a method is documented to compute from the rows of a group. `cols` are the columns of the
table. -/
def Method.documented (py : Py) (x : Stats) (grouped : Bool) (cols : List String) (g : Table) (m : Method) : Row :=
  let within := fun (c : String) (low high : Value) =>
    (g.filterMap (fun r => measured (m.infinities grouped) (bound low) (bound high) (cell r c)) : Multiset ℚ)
  match m with
  | .count name _ => [(name.getD "count", .int g.length)]
  | .countDistinct .missing name _ => [(name.getD "count_distinct", .int (g.map (fun r => cols.map (cell r))).dedup.length)]
  | .countDistinct (.list []) name _ =>
    [(name.getD "count_distinct", .int (g.map (fun r => cols.map (cell r))).dedup.length)]
  | .countDistinct (.one c) name _ =>
    [(name.getD ("count_distinct(" ++ c ++ ")"), .int (g.map (fun r => cell r c)).dedup.length)]
  | .countDistinct (.list cs) name _ => [(name.getD ("count_distinct(" ++ ", ".intercalate cs ++ ")"),
      .int (g.map (fun r => cs.map (cell r))).dedup.length)]
  | .quantile c q low high name =>
    [(name.getD (c ++ "_quantile(" ++ py.showNum q ++ ")"), x.quantile q (bound low) (bound high) (within c low high))]
  | .min c low high name => [(name.getD (c ++ "_min"), x.quantile 0 (bound low) (bound high) (within c low high))]
  | .max c low high name => [(name.getD (c ++ "_max"), x.quantile 1 (bound low) (bound high) (within c low high))]
  | .median c low high name =>
    [(name.getD (c ++ "_median"), x.quantile (1 / 2) (bound low) (bound high) (within c low high))]
  | .stat .sum c low high name _ =>
    [(name.getD (c ++ "_sum"), x.bounded .sum (bound low) (bound high) (within c low high))]
  | .stat .average c low high name _ =>
    [(name.getD (c ++ "_average"), x.bounded .average (bound low) (bound high) (within c low high))]
  | .stat .variance c low high name _ =>
    [(name.getD (c ++ "_variance"), x.bounded .variance (bound low) (bound high) (within c low high))]
  | .stat .stdev c low high name _ =>
    [(name.getD (c ++ "_stdev"), x.bounded .stdev (bound low) (bound high) (within c low high))]
  | .bounds c lower upper =>
    let s := (g.filterMap (fun r => number (cell r c)) : Multiset ℚ)
    [(lower.getD (c ++ "_lower_bound"), (x.bounds s).1), (upper.getD (c ++ "_upper_bound"), (x.bounds s).2)]

/-- The measured column. -/
def Method.column : Method → Option String
  | .quantile c .. => some c
  | .min c .. => some c
  | .max c .. => some c
  | .median c .. => some c
  | .stat _ c .. => some c
  | .bounds c .. => some c
  | _ => none

/-- A row is looked at: its measured value is not null, NaN, or infinite and dropped. -/
def Method.uses (grouped : Bool) (m : Method) (r : Row) : Prop :=
  ∀ c, m.column = some c → (measured (m.infinities grouped) 0 0 (cell r c)).isSome

/-- The columns that are grouped by. -/
def By.columns : By → List String
  | .keyset k => Dict.keys k.schema
  | .list cs => cs
  | .str c => [c]

/-- The keys of the answer: those of the KeySet in their order, or all keys of rows that are looked at. -/
def By.Keys (m : Method) (T : Table) (keys : List Row) : By → Prop
  | .keyset k => keys = k.rows
  | b => keys.Nodup ∧ ∀ key, key ∈ keys ↔ ∃ r ∈ T, m.uses true r ∧ key = b.columns.map (fun c => (c, cell r c))

/-- The documented answer: the aggregate of the table if there is no `groupby` or nothing to group by, otherwise a row for each
key. -/
def Method.answer (py : Py) (x : Stats) (cols : List String) (keys : List Row) (T : Table) (m : Method) : Option By → Table
  | none => [m.documented py x false cols T]
  | some b =>
    if b.columns = [] then [m.documented py x true cols T]
    else keys.map (fun key =>
      key ++ m.documented py x true cols (T.filter (fun r => b.columns.all (fun c => decide (cell r c = cell key c)))))

/-- The bounds given to a method. -/
def Method.limits : Method → Option (Value × Value)
  | .quantile _ _ low high _ => some (low, high)
  | .min _ low high _ => some (low, high)
  | .max _ low high _ => some (low, high)
  | .median _ low high _ => some (low, high)
  | .stat _ _ low high _ _ => some (low, high)
  | _ => none

/-- The bounds are finite numbers, and floats if they are integers. -/
def Method.Exact (py : Py) (m : Method) : Prop :=
  ∀ low high, m.limits = some (low, high) → (∀ v, v = low ∨ v = high → (number v).isSome ∧ ∀ z, v = .int z → py.toFloat z = z)

/-- The name is not the empty string, for methods that take it for no name. -/
def Method.Named : Method → Prop
  | .countDistinct _ name _ => name ≠ some ""
  | .min _ _ _ name => name ≠ some ""
  | .max _ _ _ name => name ≠ some ""
  | .median _ _ _ name => name ≠ some ""
  | _ => True

/-- The mechanism a user asks for. -/
def MechArg.Asks (py : Py) (m : Mech) : MechArg → Prop
  | .member m' => m' = m
  | .name s => py.upper s = (match m with | .default => "DEFAULT" | .laplace => "LAPLACE" | .gaussian => "GAUSSIAN")

/-- The argument `mechanism`. -/
def Method.mechArg : Method → Option MechArg
  | .count _ mech => some mech
  | .countDistinct _ _ mech => some mech
  | .stat _ _ _ _ _ mech => some mech
  | _ => none

/-- The arguments are as documented: a known mechanism, `low` less than `high`, a quantile from 0 to 1. -/
def Method.Valid (py : Py) (m : Method) : Prop :=
  (∀ arg, m.mechArg = some arg → ∃ mech : Mech, arg.Asks py mech) ∧
  (∀ low high, m.limits = some (low, high) → bound low < bound high) ∧
  (∀ c q low high name, m = .quantile c q low high name → 0 ≤ q ∧ q ≤ 1)

/-- Automatic keys are allowed when `groupby` is called and when the method is called. -/
def By.Allowed (flag flag' : Bool) : Option By → Prop
  | none => True
  | some (.keyset _) => True
  | _ => flag = true ∧ flag' = true

/-- Where the documentation says that infinite values are dropped but the code clamps them, there are none. -/
def Method.NoInfinities (grouped : Bool) (m : Method) (T : Table) : Prop :=
  ∀ c low high, m.column = some c → m.limits = some (low, high) → m.infinities grouped = .dropped →
    ∀ r ∈ T, cell r c ≠ .dec .pinf ∧ cell r c ≠ .dec .ninf

/-! ## Proof -/

variable {py : Py} {flag flag' : Bool} {e : Expr} {keys : Keys} {a : Agg} {m : Method}

theorem mechOf_iff {arg : MechArg} {mech : Mech} : mechOf py arg = .ok mech ↔ arg.Asks py mech := by
  cases arg with
  | member m' => simp [mechOf, MechArg.Asks]
  | name s =>
    unfold mechOf MechArg.Asks
    dsimp only
    by_cases h1 : py.upper s = "DEFAULT"
    · rw [if_pos h1, h1]
      cases mech <;> simp
    by_cases h2 : py.upper s = "LAPLACE"
    · rw [if_neg h1, if_pos h2, h2]
      cases mech <;> simp
    by_cases h3 : py.upper s = "GAUSSIAN"
    · rw [if_neg h1, if_neg h2, if_pos h3, h3]
      cases mech <;> simp
    rw [if_neg h1, if_neg h2, if_neg h3]
    cases mech <;> simp [h1, h2, h3]

theorem ratOf_number {v : Value} (h : (number v).isSome) : ratOf v = bound v := by
  unfold number at h
  unfold bound ratOf number
  split at h <;> simp_all

theorem asFloat_bound {v : Value} (h : ∀ z, v = .int z → py.toFloat z = z) : bound (asFloat py v) = bound v := by
  cases v <;> try rfl
  simp [asFloat, bound, number, h]

theorem asFloat_number {v : Value} (h : (number v).isSome) : (number (asFloat py v)).isSome := by
  cases v <;> first | rfl | exact h

theorem numGe_iff {low high : Value} (hl : (number low).isSome) (hh : (number high).isSome) :
    numGe low high = true ↔ bound high ≤ bound low := by
  cases low with
  | int a =>
    cases high with
    | int b => simp [numGe, bound, number]
    | dec f => cases f <;> simp_all [numGe, bound, number]
    | _ => simp_all [number]
  | dec f =>
    cases f <;> first | (simp [number] at hl; done) | skip
    cases high with
    | int b => simp [numGe, bound, number]
    | dec f => cases f <;> simp_all [numGe, bound, number]
    | _ => simp_all [number]
  | _ => simp_all [number]

/-- Bounds as the constructors keep them. -/
structure Kept (py : Py) (low high l h : Value) : Prop where
  low : (number l).isSome ∧ bound l = bound low
  high : (number h).isSome ∧ bound h = bound high

theorem kept_same {low high : Value} (hl : (number low).isSome) (hh : (number high).isSome) : Kept py low high low high :=
  ⟨⟨hl, rfl⟩, ⟨hh, rfl⟩⟩

theorem Kept.float {low high l h : Value} (k : Kept py low high l h) (hl : ∀ z, l = .int z → py.toFloat z = z)
    (hh : ∀ z, h = .int z → py.toFloat z = z) : Kept py low high (asFloat py l) (asFloat py h) :=
  ⟨⟨asFloat_number k.low.1, (asFloat_bound hl).trans k.low.2⟩, ⟨asFloat_number k.high.1, (asFloat_bound hh).trans k.high.2⟩⟩

theorem asFloat_int {v : Value} {z : ℤ} (h : asFloat py v = .int z) : False := by
  cases v <;> cases h

theorem Kept.numGe {low high l h : Value} (k : Kept py low high l h) : numGe l h = true ↔ bound high ≤ bound low := by
  rw [numGe_iff k.low.1 k.high.1, k.low.2, k.high.2]

/-- The flag is on if keys are automatic. -/
def FlagOK (flag : Bool) (keys : Keys) : Prop := keys.isAuto = true → flag = true

theorem flag_iff : (keys.isAuto && !flag) = true ↔ ¬ FlagOK flag keys := by
  unfold FlagOK
  cases keys.isAuto <;> cases flag <;> simp

theorem construct_bounded {st : Stat} {c out : String} {low high : Value} {mech : Mech} (hl : (number low).isSome)
    (hh : (number high).isSome) (el : ∀ z, low = .int z → py.toFloat z = z) (eh : ∀ z, high = .int z → py.toFloat z = z) :
    ∃ l h, Kept py low high l h ∧ ∀ a, construct py flag ⟨e, keys, .bounded st c low high mech, out, none⟩ = .ok a ↔
      (FlagOK flag keys ∧ bound low < bound high) ∧ a = ⟨e, keys, .bounded st c l h mech, out, none⟩ := by
  have key : ∀ l h, Kept py low high l h → ∀ a,
      (if (keys.isAuto && !flag) = true then (.error .runtime : Except PyErr Agg)
        else match (Kind.bounded st c l h mech).constructible with
          | .error e => .error e
          | .ok () => .ok ⟨e, keys, .bounded st c l h mech, out, none⟩) = .ok a ↔
      (FlagOK flag keys ∧ bound low < bound high) ∧ a = ⟨e, keys, .bounded st c l h mech, out, none⟩ := by
    intro l h k a
    by_cases hf : FlagOK flag keys
    · rw [if_neg (by rw [flag_iff]; exact not_not.2 hf)]
      dsimp only [Kind.constructible]
      by_cases hg : bound high ≤ bound low
      · rw [if_pos (k.numGe.2 hg)]
        simp [hg]
      · rw [if_neg (mt k.numGe.1 hg)]
        simp [hf, lt_of_not_ge hg, eq_comm]
    · rw [if_pos (flag_iff.2 hf)]
      simp [hf]
  by_cases ht : isInt low != isInt high
  · refine ⟨_, _, (kept_same hl hh).float el eh, fun a => ?_⟩
    rw [← key _ _ ((kept_same (py := py) hl hh).float el eh) a]
    unfold construct
    dsimp only
    rw [if_pos ht]
  · refine ⟨_, _, kept_same hl hh, fun a => ?_⟩
    rw [← key _ _ (kept_same (py := py) hl hh) a]
    unfold construct
    dsimp only
    rw [if_neg ht]

theorem construct_quantile {c out : String} {q : ℚ} {low high : Value} (hl : (number low).isSome)
    (hh : (number high).isSome) (el : ∀ z, low = .int z → py.toFloat z = z) (eh : ∀ z, high = .int z → py.toFloat z = z) :
    ∃ l h, Kept py low high l h ∧
      ∀ a, construct py flag ⟨e, keys, .quantile c q (asFloat py low) (asFloat py high), out, none⟩ = .ok a ↔
        (FlagOK flag keys ∧ bound low < bound high ∧ 0 ≤ q ∧ q ≤ 1) ∧ a = ⟨e, keys, .quantile c q l h, out, none⟩ := by
  have k : Kept py low high (asFloat py low) (asFloat py high) := (kept_same hl hh).float el eh
  have n : ∀ v, isInt (asFloat py v) = false := fun v => by cases v <;> rfl
  refine ⟨_, _, k, fun a => ?_⟩
  unfold construct
  dsimp only
  by_cases hf : FlagOK flag keys
  · rw [if_neg (by rw [flag_iff]; exact not_not.2 hf), n, n, if_neg (by simp)]
    dsimp only [Kind.constructible]
    by_cases hq : 0 ≤ q ∧ q ≤ 1
    · rw [if_neg (not_not.2 hq)]
      by_cases hg : bound high ≤ bound low
      · rw [if_pos (k.numGe.2 hg)]
        simp [hg]
      · rw [if_neg (mt k.numGe.1 hg)]
        simp [hf, lt_of_not_ge hg, hq, eq_comm]
    · rw [if_pos hq]
      simp only [reduceCtorEq, false_iff]
      tauto
  · rw [if_pos (flag_iff.2 hf)]
    simp [hf]

theorem construct_plain {k : Kind} {out : String} (hk : k.clamp = none) :
    construct py flag ⟨e, keys, k, out, none⟩ = .ok a ↔ FlagOK flag keys ∧ a = ⟨e, keys, k, out, none⟩ := by
  unfold construct
  by_cases hf : FlagOK flag keys
  · rw [if_neg (by rw [flag_iff]; exact not_not.2 hf)]
    cases k <;> simp [Kind.clamp] at hk <;> simp [Kind.constructible, hf, eq_comm]
  · rw [if_pos (flag_iff.2 hf)]
    simp [hf]

theorem measured_eq {t : Treat} {low high : ℚ} {v : Value} (h : t = .dropped → v ≠ .dec .pinf ∧ v ≠ .dec .ninf) :
    countsAs low high v = measured t low high v := by
  cases v with
  | dec f => cases f <;> cases t <;> simp_all [countsAs, measured]
  | _ => rfl

theorem values_eq {t : Treat} {low high : ℚ} {c : String} {g : Table}
    (h : t = .dropped → ∀ r ∈ g, cell r c ≠ .dec .pinf ∧ cell r c ≠ .dec .ninf) :
    g.filterMap (fun r => countsAs low high (cell r c)) = g.filterMap (fun r => measured t low high (cell r c)) :=
  List.filterMap_congr fun r hr => measured_eq fun ht => h ht r hr

theorem counts_eq {t : Treat} {v : Value} (h : t = .dropped → v ≠ .dec .pinf ∧ v ≠ .dec .ninf) :
    (countsAs 0 0 v).isSome = (measured t 0 0 v).isSome := by rw [measured_eq h]

theorem finite_number : finite = number := by
  funext v
  unfold finite number
  rfl

theorem orNone_getD {n : Option String} {d : String} : orNone n d = n.getD d := by cases n <;> rfl

theorem orEmpty_getD {n : Option String} {d : String} (h : n ≠ some "") : orEmpty n d = n.getD d := by
  cases n with
  | none => rfl
  | some s =>
    have : s ≠ "" := fun e => h (by rw [e])
    simp [orEmpty, this]

/-- What a built aggregation is. -/
structure Built (py : Py) (flag : Bool) (e : Expr) (keys : Keys) (m : Method) (a : Agg) : Prop where
  flagOK : FlagOK flag keys
  child : a.child = e
  sameKeys : a.keys = keys
  valid : m.Valid py
  bounds : BoundsOK a.kind
  mech : ∀ arg, m.mechArg = some arg → ∃ mech, a.kind.mech = some mech ∧ arg.Asks py mech
  row : m.Named → ∀ x grouped cols g, m.NoInfinities grouped g →
    aggregate x a cols g = m.documented py x grouped cols g ∧ ∀ r ∈ g, Counts a r ↔ m.uses grouped r

theorem built_quantile {c : String} {q : ℚ} {low high : Value} {name : Option String} (hx : m.Exact py)
    (hlim : m.limits = some (low, high)) (hcol : m.column = some c) (hm : m.mechArg = none)
    (h : buildQuantile py flag e keys c q low high name = .ok a)
    (hq : ∀ c q' low high name, m = .quantile c q' low high name → q' = q)
    (hrow : m.Named → ∀ x grouped cols g, m.documented py x grouped cols g =
      [(orNone name (c ++ "_quantile(" ++ py.showNum q ++ ")"), x.quantile q (bound low) (bound high)
        (g.filterMap (fun r => measured (m.infinities grouped) (bound low) (bound high) (cell r c)) : Multiset ℚ))]) :
    Built py flag e keys m a := by
  have hl := hx low high hlim low (.inl rfl)
  have hh := hx low high hlim high (.inr rfl)
  obtain ⟨l, hi, hk, hiff⟩ := construct_quantile (flag := flag) (e := e) (keys := keys) (c := c) (q := q)
    (out := orNone name (c ++ "_quantile(" ++ py.showNum q ++ ")")) hl.1 hh.1 hl.2 hh.2
  obtain ⟨⟨h1, h2, h3⟩, rfl⟩ := (hiff a).1 h
  have el := ratOf_number hk.low.1
  have eh := ratOf_number hk.high.1
  refine ⟨h1, rfl, rfl, ⟨?_, ?_, ?_⟩, ?_, ?_, ?_⟩
  · intro arg harg
    rw [hm] at harg
    cases harg
  · intro low' high' hlim'
    rw [hlim] at hlim'
    cases hlim'
    exact h2
  · intro c q' low high name he
    rw [hq c q' low high name he]
    exact h3
  · intro b hb
    cases hb
    dsimp only
    rw [el, eh, hk.low.2, hk.high.2]
    exact h2.le
  · intro arg harg
    rw [hm] at harg
    cases harg
  · intro hn x grouped cols g hinf
    have hinf' := fun ht => hinf c low high hcol hlim ht
    refine ⟨?_, fun r hr => ?_⟩
    · rw [hrow hn]
      unfold aggregate
      dsimp only
      rw [el, eh, hk.low.2, hk.high.2, values_eq hinf']
    · unfold Counts Method.uses
      dsimp only
      rw [hcol, counts_eq (fun ht => hinf' ht r hr)]
      simp

theorem built_stat {st : Stat} {c : String} {low high : Value} {name : Option String} {mech : MechArg}
    (hx : (Method.stat st c low high name mech).Exact py)
    (h : (Method.stat st c low high name mech).build py flag e keys = .ok a) :
    Built py flag e keys (.stat st c low high name mech) a := by
  unfold Method.build at h
  dsimp only at h
  split at h
  · cases h
  next mm hmm =>
  have hl := hx low high rfl low (.inl rfl)
  have hh := hx low high rfl high (.inr rfl)
  obtain ⟨l, hi, hk, hiff⟩ := construct_bounded (flag := flag) (e := e) (keys := keys) (st := st) (c := c) (mech := mm)
    (out := orNone name (c ++ "_" ++ statName st)) hl.1 hh.1 hl.2 hh.2
  obtain ⟨⟨h1, h2⟩, rfl⟩ := (hiff a).1 h
  have el := ratOf_number hk.low.1
  have eh := ratOf_number hk.high.1
  refine ⟨h1, rfl, rfl, ⟨?_, ?_, ?_⟩, ?_, ?_, ?_⟩
  · intro arg harg
    cases harg
    exact ⟨mm, mechOf_iff.1 hmm⟩
  · intro low' high' hlim'
    cases hlim'
    exact h2
  · intro c q' low high name he
    cases he
  · intro b hb
    cases hb
    dsimp only
    rw [el, eh, hk.low.2, hk.high.2]
    exact h2.le
  · intro arg harg
    cases harg
    exact ⟨mm, rfl, mechOf_iff.1 hmm⟩
  · intro hn x grouped cols g hinf
    have hinf' := fun ht => hinf c low high rfl rfl ht
    refine ⟨?_, fun r hr => ?_⟩
    · unfold aggregate
      dsimp only
      rw [el, eh, hk.low.2, hk.high.2, values_eq hinf', orNone_getD]
      cases st <;> simp only [Method.documented, statName, String.append_assoc] <;> rfl
    · unfold Counts Method.uses
      dsimp only
      rw [counts_eq (fun ht => hinf' ht r hr)]
      simp [Method.column]

theorem dedup_single (g : Table) (c : String) :
    (g.map (fun r => [c].map (cell r))).dedup.length = (g.map (fun r => cell r c)).dedup.length := by
  have : g.map (fun r => [c].map (cell r)) = (g.map (fun r => cell r c)).map (fun v => [v]) := by simp
  rw [this, List.dedup_map_of_injective (fun a b h => by simpa using h), List.length_map]

theorem built (hx : m.Exact py) (h : m.build py flag e keys = .ok a) : Built py flag e keys m a := by
  cases m with
  | count name mech =>
    unfold Method.build at h
    dsimp only at h
    split at h
    · cases h
    next mm hmm =>
    obtain ⟨h1, rfl⟩ := (construct_plain rfl).1 h
    refine ⟨h1, rfl, rfl, ⟨?_, nofun, nofun⟩, nofun, ?_, ?_⟩
    · intro arg harg
      cases harg
      exact ⟨mm, mechOf_iff.1 hmm⟩
    · intro arg harg
      cases harg
      exact ⟨mm, rfl, mechOf_iff.1 hmm⟩
    · intro _ x grouped cols g _
      refine ⟨?_, fun r _ => ?_⟩
      · simp only [aggregate, Method.documented, orNone_getD]
      · simp [Counts, Method.uses, Method.column]
  | countDistinct columns name mech =>
    unfold Method.build at h
    dsimp only at h
    split at h
    · cases h
    next mm hmm =>
    obtain ⟨h1, rfl⟩ := (construct_plain rfl).1 h
    refine ⟨h1, rfl, rfl, ⟨?_, nofun, nofun⟩, nofun, ?_, ?_⟩
    · intro arg harg
      cases harg
      exact ⟨mm, mechOf_iff.1 hmm⟩
    · intro arg harg
      cases harg
      exact ⟨mm, rfl, mechOf_iff.1 hmm⟩
    · intro hn x grouped cols g _
      refine ⟨?_, fun r _ => ?_⟩
      · have hn' : name ≠ some "" := hn
        simp only [aggregate, orEmpty_getD hn']
        cases columns with
        | missing => simp [Method.documented]
        | one c =>
          have := dedup_single g c
          simp only [Method.documented, ne_eq, List.cons_ne_self, not_false_eq_true, if_true, reduceCtorEq, if_false, this]
          rfl
        | list cs =>
          cases cs with
          | nil => simp [Method.documented]
          | cons c cs => simp [Method.documented]
      · simp [Counts, Method.uses, Method.column]
  | quantile c q low high name =>
    refine built_quantile hx rfl rfl rfl h ?_ ?_
    · intro c' q' low' high' name' he
      cases he
      rfl
    · intro _ x grouped cols g
      simp only [Method.documented, orNone_getD]
  | min c low high name =>
    refine built_quantile hx rfl rfl rfl h nofun ?_
    intro hn x grouped cols g
    have hn' : name ≠ some "" := hn
    simp only [Method.documented, orNone, orEmpty_getD hn']
  | max c low high name =>
    refine built_quantile hx rfl rfl rfl h nofun ?_
    intro hn x grouped cols g
    have hn' : name ≠ some "" := hn
    simp only [Method.documented, orNone, orEmpty_getD hn']
  | median c low high name =>
    refine built_quantile hx rfl rfl rfl h nofun ?_
    intro hn x grouped cols g
    have hn' : name ≠ some "" := hn
    simp only [Method.documented, orNone, orEmpty_getD hn']
  | stat st c low high name mech => exact built_stat hx h
  | bounds c lower upper =>
    obtain ⟨h1, rfl⟩ := (construct_plain (py := py) rfl).1 h
    refine ⟨h1, rfl, rfl, ⟨nofun, nofun, nofun⟩, nofun, nofun, ?_⟩
    intro _ x grouped cols g _
    refine ⟨?_, fun r _ => ?_⟩
    · simp only [aggregate, Method.documented, orNone_getD, finite_number]
    · have : ∀ v, (finite v).isSome = (measured .dropped 0 0 v).isSome := fun v => by
        cases v with
        | dec f => cases f <;> rfl
        | _ => rfl
      simp [Counts, Method.uses, Method.column, Method.infinities, this]

theorem build_valid (hx : m.Exact py) (hv : m.Valid py) (hf : FlagOK flag keys) : ∃ a, m.build py flag e keys = .ok a := by
  obtain ⟨v1, v2, v3⟩ := hv
  have quant : ∀ c q low high name, m.limits = some (low, high) → 0 ≤ q → q ≤ 1 →
      ∃ a, buildQuantile py flag e keys c q low high name = .ok a := by
    intro c q low high name hlim h0 h1
    have hl := hx low high hlim low (.inl rfl)
    have hh := hx low high hlim high (.inr rfl)
    obtain ⟨l, hi, _, hiff⟩ := construct_quantile (flag := flag) (e := e) (keys := keys) (c := c) (q := q)
      (out := orNone name (c ++ "_quantile(" ++ py.showNum q ++ ")")) hl.1 hh.1 hl.2 hh.2
    exact ⟨_, (hiff _).2 ⟨⟨hf, v2 low high hlim, h0, h1⟩, rfl⟩⟩
  cases m with
  | count name mech =>
    obtain ⟨mm, hmm⟩ := v1 mech rfl
    exact ⟨_, by
      unfold Method.build
      dsimp only
      rw [mechOf_iff.2 hmm]
      exact (construct_plain rfl).2 ⟨hf, rfl⟩⟩
  | countDistinct columns name mech =>
    obtain ⟨mm, hmm⟩ := v1 mech rfl
    exact ⟨_, by
      unfold Method.build
      dsimp only
      rw [mechOf_iff.2 hmm]
      exact (construct_plain rfl).2 ⟨hf, rfl⟩⟩
  | quantile c q low high name =>
    obtain ⟨h0, h1⟩ := v3 _ _ _ _ _ rfl
    exact quant _ _ _ _ _ rfl h0 h1
  | min c low high name => exact quant _ _ _ _ _ rfl (by norm_num) (by norm_num)
  | max c low high name => exact quant _ _ _ _ _ rfl (by norm_num) (by norm_num)
  | median c low high name => exact quant _ _ _ _ _ rfl (by norm_num) (by norm_num)
  | stat st c low high name mech =>
    obtain ⟨mm, hmm⟩ := v1 mech rfl
    have hl := hx low high rfl low (.inl rfl)
    have hh := hx low high rfl high (.inr rfl)
    obtain ⟨l, hi, _, hiff⟩ := construct_bounded (flag := flag) (e := e) (keys := keys) (st := st) (c := c) (mech := mm)
      (out := orNone name (c ++ "_" ++ statName st)) hl.1 hh.1 hl.2 hh.2
    exact ⟨_, by
      unfold Method.build
      dsimp only
      rw [mechOf_iff.2 hmm]
      exact (hiff _).2 ⟨⟨hf, v2 low high rfl⟩, rfl⟩⟩
  | bounds c lower upper => exact ⟨_, (construct_plain (py := py) rfl).2 ⟨hf, rfl⟩⟩

/-- The keys that `groupby` passes on. -/
def byKeys : Option By → Keys
  | none => .set noKeys
  | some (.keyset k) => .set k
  | some (.list cs) => .cols cs
  | some (.str c) => .cols [c]

theorem finish_ok {b : Option By} (h : finish py flag flag' e b m = .ok a) :
    m.build py flag' e (byKeys b) = .ok a ∧ (FlagOK flag' (byKeys b) → By.Allowed flag flag' b) := by
  cases b with
  | none => exact ⟨h, fun _ => trivial⟩
  | some b =>
    cases b with
    | keyset k => exact ⟨h, fun _ => trivial⟩
    | list cs =>
      cases flag
      · cases h
      · exact ⟨h, fun hf => ⟨rfl, hf rfl⟩⟩
    | str c =>
      cases flag
      · cases h
      · exact ⟨h, fun hf => ⟨rfl, hf rfl⟩⟩

/-- **C71**: exactly the documented arguments are accepted, and the query uses the mechanism that is asked for. Bounds are finite
numbers, and integers that floats can represent. -/
theorem C71_accepts (hx : m.Exact py) (b : Option By) :
    ((∃ a, finish py flag flag' e b m = .ok a) ↔ m.Valid py ∧ By.Allowed flag flag' b) ∧
    ∀ a, finish py flag flag' e b m = .ok a → a.child = e ∧
      ∀ arg, m.mechArg = some arg → ∃ mech, a.kind.mech = some mech ∧ arg.Asks py mech := by
  refine ⟨⟨?_, ?_⟩, ?_⟩
  · rintro ⟨a, h⟩
    obtain ⟨h1, h2⟩ := finish_ok h
    have B := built hx h1
    exact ⟨B.valid, h2 B.flagOK⟩
  · rintro ⟨hv, hf⟩
    have hflag : FlagOK flag' (byKeys b) := by
      intro hauto
      cases b with
      | none => cases hauto
      | some b => cases b <;> first | (cases hauto; done) | exact hf.2
    obtain ⟨a, ha⟩ := build_valid (e := e) hx hv hflag
    refine ⟨a, ?_⟩
    cases b with
    | none => exact ha
    | some b =>
      cases b with
      | keyset k => exact ha
      | list cs => rw [show flag = true from hf.1]; exact ha
      | str c => rw [show flag = true from hf.1]; exact ha
  · intro a h
    have B := built hx (finish_ok h).1
    exact ⟨B.child, B.mech⟩

/-- **C71** (partial). In any session that was made by the builder or by partitions, after any calls, a query that is finished
with a method of `QueryBuilder`, or with `groupby` and a method of `GroupedQueryBuilder`, and evaluated with an infinite
budget, gives the columns and values that the method is documented to compute, in one row without `groupby`, otherwise in
one row for each key.

Partial: names of `count_distinct`, `min`, `max` and `median` are not empty (`C71_name_fails`); where the documentation
says that infinite values are dropped there are none (`C71_infinity_fails`), except for `get_bounds`; otherwise as
`C61_session_partial`. -/
theorem C71_answer_partial {ctx : Ctx} {core : Core} (hcore : NoNoise core) {sources : Relation.Sources}
    (hst : Relation.Stored ctx.cast sources) (hf : FramesOK sources) {out : Relation.Output}
    (h : Relation.initCore ctx.cast (coreMeasure ctx.m) sources = .ok out) (b₀ : PB)
    (ops : List (Session.Op Request PubFrame Value)) (hs : ViewsSafe ctx (Session.init b₀ (startTables out)) ops)
    (w : Session.World Meas Tab PubFrame) (hw : w = Session.run (env ctx) (Session.init b₀ (startTables out)) ops)
    (data : Nat → Root × Data)
    (hdata : data = dataAfter ctx core (Session.init b₀ (startTables out)) (fun _ => (startRoot out, startData out)) ops)
    (i : Nat) (hx : m.Exact py) (hname : m.Named) (gb : Option By) (a : Agg) (ha : finish py flag flag' e gb m = .ok a)
    (ok : Admissible (child (.agg a))) (b : PB) (hinf : b.isInfinite = true) (p : Meas) (amt : PB)
    (hev : (Session.step (env ctx) w (.evaluate i (.query (.agg a) ok) b)).1 = .ok (.answer p amt)) :
    ∃ n cat s, w.nodes[i]? = some n ∧ catalog n.tables (w.pubOf n) = .ok cat ∧ schemaOf cat e = .ok s ∧
      (e.ConsSafe ctx.h cat → ∃ T x keys, Faithful cat (resolve n.tables (data i).2) e T ∧
        (m.NoInfinities gb.isSome T → (∀ by', gb = some by' → by'.Keys m T keys) ∧
          Composition.respond (sem ctx core) data i (Session.step (env ctx) w (.evaluate i (.query (.agg a) ok) b)).1 =
            PMF.pure (.ok (.answer p amt), some (m.answer py x (Schema.keys s) keys T gb)))) := by
  obtain ⟨h1, h2⟩ := finish_ok ha
  have B := built hx h1
  obtain ⟨n, cat, s, T, x, keys, hn, hc, hsch, hmeans, hex⟩ := C61_session_partial hcore hst hf h b₀ ops hs w hw data hdata i
    (.agg a) ok a rfl B.bounds b hinf p amt hev
  rw [B.child] at hsch hmeans hex
  refine ⟨n, cat, s, hn, hc, hsch, fun hsafe => ⟨T, x, keys, hmeans, fun hni => ?_⟩⟩
  obtain ⟨hk, hr⟩ := hex hsafe
  have row := fun g (hg : ∀ r ∈ g, r ∈ T) => B.row hname x gb.isSome (Schema.keys s) g
    (fun c low high h1 h2 h3 r hr => hni c low high h1 h2 h3 r (hg r hr))
  refine ⟨?_, ?_⟩
  · rintro by' rfl
    unfold KeysOf at hk
    rw [B.sameKeys] at hk
    cases by' with
    | keyset k => exact hk
    | list cs =>
      refine ⟨hk.1, fun key => (hk.2 key).trans (exists_congr fun r => and_congr_right fun hr => ?_)⟩
      rw [(row T (fun _ h => h)).2 r hr]
      rfl
    | str c =>
      refine ⟨hk.1, fun key => (hk.2 key).trans (exists_congr fun r => and_congr_right fun hr => ?_)⟩
      rw [(row T (fun _ h => h)).2 r hr]
      rfl
  · rw [hr]
    congr 3
    show answerFor x a (Schema.keys s) keys T = _
    unfold answerFor
    rw [B.sameKeys]
    cases gb with
    | none =>
      rw [if_pos (show (byKeys none).columns = [] from rfl), (row T (fun _ h => h)).1]
      rfl
    | some by' =>
      have hcols : (byKeys (some by')).columns = by'.columns := by cases by' <;> rfl
      rw [hcols]
      unfold Method.answer
      dsimp only
      split
      · rw [(row T (fun _ h => h)).1]
        rfl
      · refine List.map_congr_left fun key _ => ?_
        rw [(row (Query.group by'.columns key T) (fun r hr => List.mem_of_mem_filter hr)).1]
        rfl

end Verif.Whole
