import Verif.Common
import Mathlib.Data.List.Nodup
import Mathlib.Data.List.Dedup
import Mathlib.Data.List.Perm.Subperm

/-!
# Python dictionaries

A Python `dict` is an association list without repeated keys, in insertion order. Assigning to a present key
keeps its position; assigning to a new key appends it. This is the language's own semantics
(https://docs.python.org/3/library/stdtypes.html#dict), assumed and not taken from /repo.
-/

namespace Verif

abbrev Dict (K V : Type) := List (K × V)

namespace Dict

variable {K V W : Type} [DecidableEq K]

/-- What makes an association list a dictionary: no repeated keys. -/
def WF (d : Dict K V) : Prop := (d.map Prod.fst).Nodup

def keys (d : Dict K V) : List K := d.map Prod.fst

/-- `d.get(k)`. -/
def get (d : Dict K V) (k : K) : Option V := List.lookup k d

/-- `d[k] = v`. -/
def set (d : Dict K V) (k : K) (v : V) : Dict K V :=
  if k ∈ keys d then d.map (fun p => if p.1 = k then (p.1, v) else p) else d ++ [(k, v)]

/-- `a | b`, `{**a, **b}`: assign the entries of `b` one after the other. -/
def union (a b : Dict K V) : Dict K V := b.foldl (fun d p => set d p.1 p.2) a

/-- `dict(pairs)`, and what a dict comprehension builds. -/
def ofPairs (l : List (K × V)) : Dict K V := union [] l

omit [DecidableEq K] in
@[simp] theorem keys_nil : keys ([] : Dict K V) = [] := rfl

omit [DecidableEq K] in
theorem wf_iff (d : Dict K V) : WF d ↔ (keys d).Nodup := Iff.rfl

omit [DecidableEq K] in
@[simp] theorem keys_append (a b : Dict K V) : keys (a ++ b) = keys a ++ keys b := by simp [keys]

theorem get_cons (p : K × V) (d : Dict K V) (k : K) :
    get (p :: d) k = if k = p.1 then some p.2 else get d k := by
  obtain ⟨a, b⟩ := p
  unfold get
  by_cases h : k = a
  · subst h; simp
  · have : (k == a) = false := by simpa using h
    simp [List.lookup_cons, this, h]

@[simp] theorem get_nil (k : K) : get ([] : Dict K V) k = none := rfl

theorem get_append (a b : Dict K V) (k : K) : get (a ++ b) k = (get a k).or (get b k) := by
  induction a with
  | nil => simp
  | cons p a ih =>
    rw [List.cons_append, get_cons, get_cons, ih]
    by_cases h : k = p.1 <;> simp [h]

theorem get_eq_none {d : Dict K V} {k : K} : get d k = none ↔ k ∉ keys d := by
  induction d with
  | nil => simp [keys]
  | cons p d ih =>
    rw [get_cons]
    by_cases h : k = p.1 <;> simp_all [keys]

theorem get_isSome {d : Dict K V} {k : K} : (get d k).isSome ↔ k ∈ keys d := by
  rw [← not_iff_not, ← get_eq_none]
  cases get d k <;> simp

theorem mem_of_get {d : Dict K V} {k : K} {v : V} (h : get d k = some v) : (k, v) ∈ d := by
  induction d with
  | nil => simp at h
  | cons p d ih =>
    rw [get_cons] at h
    by_cases e : k = p.1
    · rw [if_pos e] at h
      have : p = (k, v) := by ext <;> simp_all
      simp [this]
    · rw [if_neg e] at h
      exact List.mem_cons_of_mem _ (ih h)

/-- In a dictionary, looking up a key gives the value it is paired with. -/
theorem get_eq_some {d : Dict K V} (w : WF d) {k : K} {v : V} : get d k = some v ↔ (k, v) ∈ d := by
  refine ⟨mem_of_get, fun h => ?_⟩
  induction d with
  | nil => simp at h
  | cons p d ih =>
    rw [get_cons]
    simp only [WF, List.map_cons, List.nodup_cons] at w
    rcases List.mem_cons.1 h with e | e
    · subst e; simp
    · have : k ≠ p.1 := fun e' => w.1 (e' ▸ List.mem_map_of_mem e)
      rw [if_neg this, ih w.2 e]

omit [DecidableEq K] in
theorem mem_keys {d : Dict K V} {k : K} : k ∈ keys d ↔ ∃ v, (k, v) ∈ d := by
  simp [keys]

theorem keys_set (d : Dict K V) (k : K) (v : V) :
    keys (set d k v) = if k ∈ keys d then keys d else keys d ++ [k] := by
  unfold set
  by_cases h : k ∈ keys d
  · rw [if_pos h, if_pos h]
    simp only [keys, List.map_map]
    apply List.map_congr_left
    intro p _
    simp only [Function.comp]
    split <;> rfl
  · rw [if_neg h, if_neg h]
    simp [keys]

theorem wf_set {d : Dict K V} (w : WF d) (k : K) (v : V) : WF (set d k v) := by
  rw [wf_iff] at *
  rw [keys_set]
  split
  · exact w
  · next h =>
    rw [List.nodup_append]
    refine ⟨w, by simp, ?_⟩
    intro a ha b hb
    simp only [List.mem_singleton] at hb
    subst hb
    exact fun e => h (e ▸ ha)

theorem get_map_set (d : Dict K V) (k : K) (v : V) (k' : K) :
    get (d.map (fun p => if p.1 = k then (p.1, v) else p)) k'
      = if k' = k ∧ k ∈ keys d then some v else get d k' := by
  induction d with
  | nil => simp [keys]
  | cons p d ih =>
    rw [List.map_cons, get_cons, get_cons, ih]
    by_cases h1 : p.1 = k
    · subst h1
      by_cases h2 : k' = p.1
      · subst h2; simp [keys]
      · simp [h2]
    · rw [if_neg h1]
      by_cases h2 : k' = p.1
      · subst h2; simp [h1]
      · have : (k ∈ keys (p :: d)) ↔ k ∈ keys d := by
          simp only [keys, List.map_cons, List.mem_cons, or_iff_right_iff_imp]
          exact fun e => absurd e.symm h1
        simp [h2, this]

theorem get_set (d : Dict K V) (k : K) (v : V) (k' : K) :
    get (set d k v) k' = if k' = k then some v else get d k' := by
  unfold set
  by_cases h : k ∈ keys d
  · rw [if_pos h, get_map_set]
    by_cases e : k' = k <;> simp [e, h]
  · rw [if_neg h, get_append, get_cons, get_nil]
    by_cases e : k' = k
    · subst e
      rw [get_eq_none.2 h]; simp
    · simp [e]

theorem wf_union {a : Dict K V} (w : WF a) (b : Dict K V) : WF (union a b) := by
  unfold union
  induction b generalizing a with
  | nil => exact w
  | cons p b ih => exact ih (wf_set w _ _)

theorem get_union (a b : Dict K V) (wb : WF b) (k : K) :
    get (union a b) k = (get b k).or (get a k) := by
  unfold union
  induction b generalizing a with
  | nil => simp
  | cons p b ih =>
    simp only [WF, List.map_cons, List.nodup_cons] at wb
    rw [List.foldl_cons, ih _ wb.2, get_set, get_cons]
    by_cases h : k = p.1
    · subst h
      rw [get_eq_none.2 wb.1]; simp
    · simp [h]

theorem keys_union (a b : Dict K V) (wb : WF b) :
    keys (union a b) = keys a ++ (keys b).filter (fun k => decide (k ∉ keys a)) := by
  unfold union
  induction b generalizing a with
  | nil => simp
  | cons p b ih =>
    simp only [WF, List.map_cons, List.nodup_cons] at wb
    rw [List.foldl_cons, ih _ wb.2, keys_set]
    have kc : keys (p :: b) = p.1 :: keys b := rfl
    rw [kc, List.filter_cons]
    by_cases h : p.1 ∈ keys a
    · simp [h]
    · rw [if_neg h]
      simp only [h, not_false_eq_true, decide_true, if_true, List.append_assoc, List.singleton_append]
      congr 2
      apply List.filter_congr
      intro x hx
      have : x ≠ p.1 := fun e => wb.1 (e ▸ hx)
      simp [this]

theorem set_new {d : Dict K V} {k : K} (h : k ∉ keys d) (v : V) : set d k v = d ++ [(k, v)] := by
  unfold set; rw [if_neg h]

theorem union_disjoint (a b : Dict K V) (wb : WF b) (h : ∀ k ∈ keys b, k ∉ keys a) : union a b = a ++ b := by
  unfold union
  induction b generalizing a with
  | nil => simp
  | cons p b ih =>
    simp only [WF, List.map_cons, List.nodup_cons] at wb
    have h1 : p.1 ∉ keys a := h _ (by simp [keys])
    rw [List.foldl_cons, set_new h1, ih _ wb.2]
    · simp
    · intro k hk hk'
      rw [keys_append, List.mem_append] at hk'
      rcases hk' with hk' | hk'
      · exact h k (by simp only [keys, List.map_cons, List.mem_cons] at *; exact Or.inr hk) hk'
      · simp only [keys, List.map_cons, List.map_nil, List.mem_singleton] at hk'
        exact wb.1 (hk' ▸ hk)

/-- Building a dictionary from entries with distinct keys gives exactly those entries in that order. -/
theorem ofPairs_eq {l : List (K × V)} (h : (l.map Prod.fst).Nodup) : ofPairs l = l := by
  unfold ofPairs
  rw [union_disjoint _ _ h (by simp)]
  simp

theorem wf_ofPairs (l : List (K × V)) : WF (ofPairs l) := wf_union (by simp [WF]) _

omit [DecidableEq K] in
theorem wf_nil : WF ([] : Dict K V) := by simp [WF]

theorem ext_get {a b : Dict K V} (wa : WF a) (wb : WF b) (hk : keys a = keys b)
    (h : ∀ k, get a k = get b k) : a = b := by
  induction a generalizing b with
  | nil =>
    cases b with
    | nil => rfl
    | cons p b => simp [keys] at hk
  | cons p a ih =>
    cases b with
    | nil => simp [keys] at hk
    | cons q b =>
      simp only [keys, List.map_cons, List.cons.injEq] at hk
      simp only [WF, List.map_cons, List.nodup_cons] at wa wb
      have hp := h p.1
      rw [get_cons, get_cons, if_pos rfl, if_pos hk.1] at hp
      have e : p = q := Prod.ext hk.1 (by simpa using hp)
      subst e
      congr 1
      apply ih wa.2 wb.2 hk.2
      intro k
      have := h k
      rw [get_cons, get_cons] at this
      by_cases hkp : k = p.1
      · subst hkp
        rw [get_eq_none.2 wa.1, get_eq_none.2 wb.1]
      · simpa [hkp] using this

/-- Equality of Python dictionaries: the same entries, in any order. -/
def Same (a b : Dict K V) : Prop := ∀ k v, (k, v) ∈ a ↔ (k, v) ∈ b

/-- `a == b` on dictionaries: the same length and every entry of `a` is in `b`. -/
def pyEq [DecidableEq V] (a b : Dict K V) : Bool :=
  a.length == b.length && a.all (fun p => decide (get b p.1 = some p.2))

theorem pyEq_iff [DecidableEq V] {a b : Dict K V} (wa : WF a) (wb : WF b) : pyEq a b = true ↔ Same a b := by
  unfold pyEq Same
  simp only [Bool.and_eq_true, beq_iff_eq, List.all_eq_true, decide_eq_true_eq]
  have na : a.Nodup := List.Nodup.of_map _ wa
  have nb : b.Nodup := List.Nodup.of_map _ wb
  constructor
  · rintro ⟨hl, h⟩ k v
    have sub : a ⊆ b := by
      rintro ⟨k, v⟩ hp
      exact (get_eq_some wb).1 (h _ hp)
    constructor
    · exact fun hp => sub hp
    · intro hp
      have : a.Perm b := (List.subperm_of_subset na sub).perm_of_length_le (by omega)
      exact this.mem_iff.2 hp
  · intro h
    have : a.Perm b := (List.perm_ext_iff_of_nodup na nb).2 (fun p => h p.1 p.2)
    refine ⟨this.length_eq, ?_⟩
    rintro ⟨k, v⟩ hp
    exact (get_eq_some wb).2 (this.mem_iff.1 hp)

end Dict

end Verif
