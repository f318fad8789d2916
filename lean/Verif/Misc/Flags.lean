import Verif.Common

/-!
# C43: feature flags

Source: `/repo/src/tmlt/analytics/config.py` l. 10-109. A program is any sequence of operations on flags, conditionals
on flags, exceptions, handlers and `with` blocks; anything else a program does has no effect on flags.
-/

namespace Verif.Misc

/-- A flag: its default and `_enabled` (l. 19-25). -/
structure Flag where
  default : Bool
  enabled : Option Bool
  deriving DecidableEq, Repr

/-- `__bool__` (l. 27-29). -/
def Flag.on (f : Flag) : Bool := f.enabled.getD f.default

/-- All flags, by name. -/
abbrev Flags := String → Flag

/-- Assigning `_enabled` of one flag. -/
def Flags.put (s : Flags) (n : String) (v : Option Bool) : Flags :=
  fun m => if m = n then { s m with enabled := v } else s m

/-- Programs. -/
inductive Prog where
  | skip
  /-- `enable`, `disable` (l. 35-41) -/
  | set (n : String) (v : Bool)
  /-- `reset` (l. 43-47) -/
  | reset (n : String)
  | raise
  /-- `raise_if_disabled` (l. 80-109) -/
  | raiseIfDisabled (n : String)
  | seq (p q : Prog)
  | ite (n : String) (p q : Prog)
  /-- `try: p except: q` -/
  | attempt (p q : Prog)
  /-- `with flag.enabled(): p` and `with flag.disabled(): p` (l. 49-78) -/
  | within (n : String) (v : Bool) (p : Prog)

/-- The state after a program, and whether it raised. `contextmanager` runs the code before `yield` on entry and the
`finally` block on exit, whether or not the body raised; the exception is passed on. -/
def exec : Prog → Flags → Flags × Bool
  | .skip, s => (s, false)
  | .set n v, s => (s.put n (some v), false)
  | .reset n, s => (s.put n none, false)
  | .raise, s => (s, true)
  | .raiseIfDisabled n, s => (s, !(s n).on)
  | .seq p q, s =>
    match exec p s with
    | (s', true) => (s', true)
    | (s', false) => exec q s'
  | .ite n p q, s => if (s n).on then exec p s else exec q s
  | .attempt p q, s =>
    match exec p s with
    | (s', true) => exec q s'
    | (s', false) => (s', false)
  | .within n v p, s =>
    let original := (s n).enabled
    match exec p (s.put n (some v)) with
    | (s', raised) => (s'.put n original, raised)

/-- A program that changes flags only by `with` blocks. -/
def Prog.contextsOnly : Prog → Prop
  | .skip => True
  | .set _ _ => False
  | .reset _ => False
  | .raise => True
  | .raiseIfDisabled _ => True
  | .seq p q => p.contextsOnly ∧ q.contextsOnly
  | .ite _ p q => p.contextsOnly ∧ q.contextsOnly
  | .attempt p q => p.contextsOnly ∧ q.contextsOnly
  | .within _ _ p => p.contextsOnly

theorem put_self (s : Flags) (n : String) (v : Option Bool) : (s.put n v n).enabled = v ∧
    (s.put n v n).default = (s n).default := by simp [Flags.put]

theorem put_other (s : Flags) {n m : String} (h : m ≠ n) (v : Option Bool) : s.put n v m = s m := by
  simp [Flags.put, h]

/-- Defaults never change. -/
theorem exec_default (p : Prog) (s : Flags) (n : String) : ((exec p s).1 n).default = (s n).default := by
  have hput : ∀ (s : Flags) (m : String) v, (s.put m v n).default = (s n).default := by
    intro s m v
    unfold Flags.put
    split <;> rfl
  induction p generalizing s with
  | skip => rfl
  | set m v => exact hput s m _
  | reset m => exact hput s m _
  | raise => rfl
  | raiseIfDisabled m => rfl
  | seq p q ihp ihq =>
    have h1 := ihp s
    simp only [exec]
    split
    · next s' he => rw [he] at h1; exact h1
    · next s' he => rw [he] at h1; exact (ihq s').trans h1
  | ite m p q ihp ihq =>
    simp only [exec]
    split
    · exact ihp s
    · exact ihq s
  | attempt p q ihp ihq =>
    have h1 := ihp s
    simp only [exec]
    split
    · next s' he => rw [he] at h1; exact (ihq s').trans h1
    · next s' he => rw [he] at h1; exact h1
  | within m v p ih =>
    have h1 := ih (s.put m (some v))
    simp only [exec]
    rw [hput, h1, hput]

/-- **C43** (one flag). After a `with` block the flag is exactly as before, whatever the body does — including changing
that flag — and whether or not it raises; an exception of the body is passed on. -/
theorem C43_restored (n : String) (v : Bool) (p : Prog) (s : Flags) :
    (exec (.within n v p) s).1 n = s n ∧
      (exec (.within n v p) s).2 = (exec p (s.put n (some v))).2 := by
  constructor
  · have hd : ((exec (.within n v p) s).1 n).default = (s n).default := exec_default _ s n
    have he : ((exec (.within n v p) s).1 n).enabled = (s n).enabled := (put_self _ n _).1
    cases h : (exec (.within n v p) s).1 n
    cases h' : s n
    rw [h, h'] at hd he
    simp_all
  · rfl

/-- **C43** (all flags). Any nesting of `with` blocks, on any flags, leaves all flags as before. -/
theorem C43_nested (p : Prog) (h : p.contextsOnly) (s : Flags) : (exec p s).1 = s := by
  induction p generalizing s with
  | skip => rfl
  | set m v => exact absurd h (by simp [Prog.contextsOnly])
  | reset m => exact absurd h (by simp [Prog.contextsOnly])
  | raise => rfl
  | raiseIfDisabled m => rfl
  | seq p q ihp ihq =>
    have h1 := ihp h.1 s
    simp only [exec]
    split
    · next s' he => rw [he] at h1; exact h1
    · next s' he => rw [he] at h1; exact (ihq h.2 s').trans h1
  | ite m p q ihp ihq =>
    simp only [exec]
    split
    · exact ihp h.1 s
    · exact ihq h.2 s
  | attempt p q ihp ihq =>
    have h1 := ihp h.1 s
    simp only [exec]
    split
    · next s' he => rw [he] at h1; exact (ihq h.2 s').trans h1
    · next s' he => rw [he] at h1; exact h1
  | within m v p ih =>
    have h1 := ih h (s.put m (some v))
    simp only [exec]
    rw [h1]
    funext k
    unfold Flags.put
    by_cases hk : k = m
    · subst hk; simp
    · simp [hk]

/-- **C43** (inside). In the body the flag has the requested value and the other flags are as outside. -/
theorem C43_inside (n : String) (v : Bool) (s : Flags) :
    (s.put n (some v) n).on = v ∧ (∀ m, m ≠ n → s.put n (some v) m = s m) ∧
      ((exec (.within n v (.raiseIfDisabled n)) s).2 = true ↔ v = false) := by
  refine ⟨by simp [Flags.put, Flag.on], fun m hm => put_other s hm _, ?_⟩
  cases v <;> simp [exec, Flags.put, Flag.on]

/-- **C43** (other flags). What the body does to other flags stays: a `with` block acts on them as its body does. -/
theorem C43_others (n : String) (v : Bool) (p : Prog) (s : Flags) (m : String) (h : m ≠ n) :
    (exec (.within n v p) s).1 m = (exec p (s.put n (some v))).1 m := put_other _ h _

/-- A nested program that raises. -/
example : (Prog.within "a" true (.seq (.within "b" false (.within "a" false .raise)) .skip)).contextsOnly ∧
    ∀ s, (exec (Prog.within "a" true (.seq (.within "b" false (.within "a" false .raise)) .skip)) s).2 = true :=
  ⟨by simp [Prog.contextsOnly], fun _ => rfl⟩

end Verif.Misc
