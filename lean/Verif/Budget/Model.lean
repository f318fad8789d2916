import Mathlib.Algebra.Order.Ring.Rat
import Mathlib.Algebra.Order.Monoid.WithTop

/-!
# Model of `privacy_budget.py`

Source: `/repo/src/tmlt/analytics/privacy_budget.py`.

* Exact numbers (`tmlt.core` `ExactNumber`) that occur in budgets are non-negative rationals or
  `+oo`; they are modelled by `WithTop ℚ` (`⊤` is `float("inf")`).
* Python `float` arithmetic is modelled by `PyNum`, which also has `nan` and `-inf`, with an explicit
  rounding function (`Rounding`) applied to the result of every finite floating point operation.
  Overflow to infinity is not modelled.
-/

namespace Verif.Budget

/-- The exceptions the budget code raises. -/
inductive Err where
  | valueError
  | typeError
  deriving DecidableEq, Repr

instance instDecidableEqExcept {ε α : Type} [DecidableEq ε] [DecidableEq α] :
    DecidableEq (Except ε α)
  | .ok a, .ok b =>
    if h : a = b then isTrue (by rw [h]) else isFalse (fun h' => h (Except.ok.inj h'))
  | .error a, .error b =>
    if h : a = b then isTrue (by rw [h]) else isFalse (fun h' => h (Except.error.inj h'))
  | .ok _, .error _ => isFalse (by simp)
  | .error _, .ok _ => isFalse (by simp)

/-- An `ExactNumber` as it occurs in a budget: a rational number or infinity. -/
abbrev XNum := WithTop ℚ

/-- A Python `int`/`float` value: finite, NaN or one of the infinities. -/
inductive PyNum where
  | nan
  | ninf
  | fin (q : ℚ)
  | pinf
  deriving DecidableEq, Repr

/-- How finite `float` results are rounded.  `rnd` is rounding to nearest, `down` is
`ExactNumber.to_float(round_up=False)`. The laws used by theorems are stated as explicit hypotheses
(`Rounding.Lawful`). -/
structure Rounding where
  rnd : ℚ → ℚ
  down : ℚ → ℚ

/-- IEEE rounding facts that are assumed about Python floats. -/
structure Rounding.Lawful (r : Rounding) : Prop where
  rnd_mono : ∀ a b, a ≤ b → r.rnd a ≤ r.rnd b
  rnd_zero : r.rnd 0 = 0
  rnd_one : r.rnd 1 = 1
  down_le : ∀ a, r.down a ≤ a
  down_nonneg : ∀ a, 0 ≤ a → 0 ≤ r.down a
  down_mono : ∀ a b, a ≤ b → r.down a ≤ r.down b

/-- Exact arithmetic: no rounding at all. -/
def Rounding.exact : Rounding := ⟨id, id⟩

/-- A valid or invalid budget *value* of one of the three kinds.

Models the fields of `PureDPBudget` (l. 105-114), `ApproxDPBudget` (l. 227-237) and
`RhoZCDPBudget` (l. 394-402). -/
inductive PB where
  | pure (ε : XNum)
  | approx (ε δ : XNum)
  | zcdp (ρ : XNum)
  deriving DecidableEq

/-- `_to_exact_number` on a Python number that is known not to be NaN or negative
(`privacy_budget.py` l. 33-44). The NaN and `-inf` branches are never reached by the constructors. -/
def toExact : PyNum → XNum
  | .fin q => (q : XNum)
  | .pinf => ⊤
  | .nan => ⊤
  | .ninf => ((-1 : ℚ) : XNum)

/-- `PureDPBudget.__init__` (l. 117-133): NaN and negative values are rejected. -/
def mkPure : PyNum → Except Err PB
  | .nan => .error .valueError
  | .ninf => .error .valueError
  | .fin q => if q < 0 then .error .valueError else .ok (.pure (q : XNum))
  | .pinf => .ok (.pure ⊤)

/-- The `delta < 0 or delta > 1` test of `ApproxDPBudget.__init__` (l. 262). -/
def deltaOutOfRange : PyNum → Bool
  | .nan => false
  | .ninf => true
  | .fin q => decide (q < 0) || decide (1 < q)
  | .pinf => true

/-- The `epsilon < 0` test of the constructors (l. 127, 257, 415). -/
def negative : PyNum → Bool
  | .nan => false
  | .ninf => true
  | .fin q => decide (q < 0)
  | .pinf => false

/-- `ApproxDPBudget.__init__` (l. 240-270). -/
def mkApprox (ε δ : PyNum) : Except Err PB :=
  if ε = .nan then .error .valueError
  else if δ = .nan then .error .valueError
  else if negative ε then .error .valueError
  else if deltaOutOfRange δ then .error .valueError
  else .ok (.approx (toExact ε) (toExact δ))

/-- `RhoZCDPBudget.__init__` (l. 405-421). -/
def mkZCDP : PyNum → Except Err PB
  | .nan => .error .valueError
  | .ninf => .error .valueError
  | .fin q => if q < 0 then .error .valueError else .ok (.zcdp (q : XNum))
  | .pinf => .ok (.zcdp ⊤)

/-- `_to_int_or_float` (l. 25-30): integers stay exact, other exact numbers become floats.
Used by the `epsilon`/`delta`/`rho` properties. -/
def toPy (r : Rounding) : XNum → PyNum
  | none => .pinf
  | some q => if q.den = 1 then .fin q else .fin (r.rnd q)

/-- Python `+` on numbers; `int + int` is exact, everything else is rounded. -/
def pyAdd (r : Rounding) : PyNum → PyNum → PyNum
  | .nan, _ => .nan
  | _, .nan => .nan
  | .fin a, .fin b => if a.den = 1 ∧ b.den = 1 then .fin (a + b) else .fin (r.rnd (a + b))
  | .pinf, .ninf => .nan
  | .ninf, .pinf => .nan
  | .pinf, _ => .pinf
  | _, .pinf => .pinf
  | .ninf, _ => .ninf
  | _, .ninf => .ninf

/-- Python unary minus. -/
def pyNeg : PyNum → PyNum
  | .nan => .nan
  | .ninf => .pinf
  | .fin q => .fin (-q)
  | .pinf => .ninf

/-- Python `-` on numbers. -/
def pySub (r : Rounding) (a b : PyNum) : PyNum := pyAdd r a (pyNeg b)

/-- Python `*` by a finite number `k ≥ 0` (`inf * 0` is NaN). -/
def pyMul (r : Rounding) : PyNum → ℚ → PyNum
  | .nan, _ => .nan
  | .fin a, k => if a.den = 1 ∧ k.den = 1 then .fin (a * k) else .fin (r.rnd (a * k))
  | .pinf, k => if k = 0 then .nan else .pinf
  | .ninf, k => if k = 0 then .nan else .ninf

/-- Python `/` by a finite number `k > 0` (always a float). -/
def pyDiv (r : Rounding) : PyNum → ℚ → PyNum
  | .nan, _ => .nan
  | .fin a, k => .fin (r.rnd (a / k))
  | .pinf, _ => .pinf
  | .ninf, _ => .ninf

/-- Python `min(x, 1.0)`: returns its first argument unless `1.0 < x`
(so a NaN first argument is returned). -/
def pyMin1 : PyNum → PyNum
  | .fin q => if 1 < q then .fin 1 else .fin q
  | .pinf => .fin 1
  | x => x

/-- `is_infinite` (l. 154-156, 300-302, 442-444). -/
def PB.isInfinite : PB → Bool
  | .pure ε => decide (ε = ⊤)
  | .approx ε δ => decide (ε = ⊤) || decide (δ = (1 : ℚ))
  | .zcdp ρ => decide (ρ = ⊤)

/-- `==` on budgets: dataclass equality for pure and zCDP budgets (l. 105, 394), the explicit
`__eq__` for approximate ones (l. 308-315). -/
def PB.pyEq : PB → PB → Bool
  | .pure a, .pure b => decide (a = b)
  | .zcdp a, .zcdp b => decide (a = b)
  | .approx a b, .approx c d =>
    if (PB.approx a b).isInfinite && (PB.approx c d).isInfinite then true
    else decide (a = c) && decide (b = d)
  | _, _ => false

/-- What `__hash__` feeds to Python's `hash` (l. 162-164, 317-321, 450-452). -/
inductive HashKey where
  | pureT (v : PyNum)
  | zcdpT (v : PyNum)
  | pair (a b : XNum)
  deriving DecidableEq

/-- `__hash__` (l. 162-164, 317-321, 450-452), up to Python's own `hash` function. -/
def PB.hashKey (r : Rounding) : PB → HashKey
  | .pure ε => .pureT (toPy r ε)
  | .zcdp ρ => .zcdpT (toPy r ρ)
  | .approx ε δ => if (PB.approx ε δ).isInfinite then .pair ⊤ ⊤ else .pair ε δ

/-- `_requested_budget_is_slightly_higher_than_remaining` (l. 512-530). -/
def slightlyHigher (requested remaining : XNum) : Bool :=
  match remaining, requested with
  | none, _ => false
  | some _, none => false         -- diff = -oo and |diff| = oo is not <= remaining / 10^9
  | some rem, some req =>
    let diff := rem - req
    if 0 ≤ diff then false else decide (|diff| ≤ rem / 10 ^ 9)

/-- `_get_adjusted_budget_number` (l. 534-554). -/
def adjustNumber (requested remaining : XNum) : XNum :=
  if slightlyHigher requested remaining then remaining else requested

/-- `_get_adjusted_budget` (l. 558-602). -/
def adjustBudget (requested remaining : PB) : Except Err PB :=
  match requested, remaining with
  | .pure a, .pure b => .ok (.pure (adjustNumber a b))
  | .approx a b, .approx c d => .ok (.approx (adjustNumber a c) (adjustNumber b d))
  | .zcdp a, .zcdp b => .ok (.zcdp (adjustNumber a b))
  | _, _ => .error .valueError

/-- The `/` argument check (l. 168-174, 325-331, 456-462): finite numbers > 0 only.
Non-numeric operands (TypeError) are not representable here. -/
def divArg : PyNum → Except Err ℚ
  | .fin k => if k ≤ 0 then .error .valueError else .ok k
  | _ => .error .valueError

/-- The `*` argument check (l. 179-185, 336-342, 467-473): finite numbers >= 0 only. -/
def mulArg : PyNum → Except Err ℚ
  | .fin k => if k < 0 then .error .valueError else .ok k
  | _ => .error .valueError

/-- `__truediv__` (l. 166-175, 323-332, 454-463). -/
def PB.div (r : Rounding) (b : PB) (k : PyNum) : Except Err PB :=
  match divArg k with
  | .error e => .error e
  | .ok q =>
    match b with
    | .pure ε => mkPure (pyDiv r (toPy r ε) q)
    | .approx ε δ => mkApprox (pyDiv r (toPy r ε) q) (pyDiv r (toPy r δ) q)
    | .zcdp ρ => mkZCDP (pyDiv r (toPy r ρ) q)

/-- `__mul__` (l. 177-186, 334-343, 465-474). -/
def PB.mul (r : Rounding) (b : PB) (k : PyNum) : Except Err PB :=
  match mulArg k with
  | .error e => .error e
  | .ok q =>
    match b with
    | .pure ε => mkPure (pyMul r (toPy r ε) q)
    | .approx ε δ => mkApprox (pyMul r (toPy r ε) q) (pyMin1 (pyMul r (toPy r δ) q))
    | .zcdp ρ => mkZCDP (pyMul r (toPy r ρ) q)

/-- `ApproxDPBudget.__add__` on two approximate budgets (l. 358-364). -/
def addApprox (r : Rounding) (a b c d : XNum) : Except Err PB :=
  if (PB.approx a b).isInfinite then .ok (.approx a b)
  else if (PB.approx c d).isInfinite then .ok (.approx c d)
  else mkApprox (pyAdd r (toPy r a) (toPy r c)) (pyMin1 (pyAdd r (toPy r b) (toPy r d)))

/-- `PureDPBudget(x.epsilon)` re-wrapped as `ApproxDPBudget(x.epsilon, 0)` (l. 195, 355, 377). -/
def pureAsApprox (r : Rounding) (ε : XNum) : XNum := toExact (toPy r ε)

/-- `__add__` (l. 188-202, 345-364, 476-487). -/
def PB.add (r : Rounding) (x y : PB) : Except Err PB :=
  match x, y with
  | .pure a, .approx c d => addApprox r (pureAsApprox r a) (0 : ℚ) c d
  | .pure a, .pure b =>
    if (PB.pure a).isInfinite then .ok (.pure a)
    else if (PB.pure b).isInfinite then .ok (.pure b)
    else mkPure (pyAdd r (toPy r a) (toPy r b))
  | .approx a b, .pure c => addApprox r a b (pureAsApprox r c) (0 : ℚ)
  | .approx a b, .approx c d => addApprox r a b c d
  | .zcdp a, .zcdp b =>
    if (PB.zcdp a).isInfinite then .ok (.zcdp a)
    else if (PB.zcdp b).isInfinite then .ok (.zcdp b)
    else mkZCDP (pyAdd r (toPy r a) (toPy r b))
  | _, _ => .error .typeError

/-- `ApproxDPBudget.__sub__` on two approximate budgets (l. 380-386). -/
def subApprox (r : Rounding) (a b c d : XNum) : Except Err PB :=
  if (PB.approx a b).isInfinite then .ok (.approx a b)
  else
    let c' := adjustNumber c a
    let d' := adjustNumber d b
    mkApprox (pySub r (toPy r a) (toPy r c')) (pySub r (toPy r b) (toPy r d'))

/-- `__sub__` (l. 204-219, 366-386, 489-501). -/
def PB.sub (r : Rounding) (x y : PB) : Except Err PB :=
  match x, y with
  | .pure a, .pure b =>
    if (PB.pure a).isInfinite then .ok (.pure a)
    else mkPure (pySub r (toPy r a) (toPy r (adjustNumber b a)))
  | .approx a b, .pure c => subApprox r a b (pureAsApprox r c) (0 : ℚ)
  | .approx a b, .approx c d => subApprox r a b c d
  | .zcdp a, .zcdp b =>
    if (PB.zcdp a).isInfinite then .ok (.zcdp a)
    else mkZCDP (pySub r (toPy r a) (toPy r (adjustNumber b a)))
  | _, _ => .error .typeError

/-- What a budget object must look like: what the class documentation promises
(non-negative, delta in [0, 1]). Specification, not code. -/
def PB.Valid : PB → Prop
  | .pure ε => 0 ≤ ε
  | .approx ε δ => 0 ≤ ε ∧ 0 ≤ δ ∧ δ ≤ ((1 : ℚ) : XNum)
  | .zcdp ρ => 0 ≤ ρ

end Verif.Budget
