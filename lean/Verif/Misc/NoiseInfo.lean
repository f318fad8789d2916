import Mathlib.Data.Rat.Defs
import Mathlib.Data.Rat.Init
import Verif.Schema.Dict

/-!
# C44: noise information

Source: `/repo/src/tmlt/analytics/_noise_info.py`. Measurements are trees of Python objects. The tree itself comes from
core; which of its classes add noise is taken from `_NoiseMechanism.to_cls` (l. 56-68).
-/

namespace Verif.Misc

open Verif

/-- Python objects, as `_get_info` tells them apart (l. 71-128). Keys of dictionaries that are not strings are given
by `none`. -/
inductive Obj where
  /-- `ExactNumber` (floats are treated as exact) -/
  | num (q : ℚ)
  | str (s : String)
  /-- anything without `__dict__` -/
  | atom
  | dataframe
  | list (xs : List Obj)
  | tuple (xs : List Obj)
  | set (xs : List Obj)
  | dict (kvs : List (Option String × Obj))
  /-- a `Measurement` or `Transformation` with its `__dict__` -/
  | component (cls : String) (attrs : List (String × Obj))
  /-- another object with a `__dict__` -/
  | object (attrs : List (String × Obj))

/-- The result of `_get_info`. -/
inductive Info where
  | num (q : ℚ)
  | str (s : String)
  | atom
  | list (xs : List Info)
  | tuple (xs : List Info)
  | set (xs : List Info)
  | dict (kvs : List (Option String × Info))

inductive NoiseErr where
  | type
  | key
  deriving DecidableEq, Repr

/-! Lists, sets and dictionaries are unhashable; tuples are hashable if their elements are. -/
mutual
def Info.hashable : Info → Bool
  | .list _ => false
  | .set _ => false
  | .dict _ => false
  | .tuple xs => hashables xs
  | _ => true
def hashables : List Info → Bool
  | [] => true
  | x :: xs => x.hashable && hashables xs
end

/-- `d["name"] = …` (l. 93): a new key goes to the end, an old one keeps its place. -/
def setName (cls : String) : List (Option String × Info) → List (Option String × Info)
  | [] => [(some "name", .str cls)]
  | (k, v) :: rest => if k = some "name" then (k, .str cls) :: rest else (k, v) :: setName cls rest

mutual
/-- `_get_info` (l. 71-128). -/
def getInfo : Obj → Except NoiseErr Info
  | .num q => .ok (.num q)
  | .str s => .ok (.str s)
  | .atom => .ok .atom
  | .dataframe => .ok (.str "<a Spark DataFrame>")
  | .list xs => (getInfos xs).map .list
  | .tuple xs => (getInfos xs).map .tuple
  | .set xs => (getInfos xs).bind (fun ys => if hashables ys then .ok (.set ys) else .error .type)
  | .dict kvs => (getFields kvs).map .dict
  | .component cls attrs => (getAttrs attrs).map (fun d => .dict (setName cls d))
  | .object attrs => (getAttrs attrs).map .dict
def getInfos : List Obj → Except NoiseErr (List Info)
  | [] => .ok []
  | x :: xs => (getInfo x).bind (fun y => (getInfos xs).map (fun ys => y :: ys))
def getFields : List (Option String × Obj) → Except NoiseErr (List (Option String × Info))
  | [] => .ok []
  | (k, x) :: xs => (getInfo x).bind (fun y => (getFields xs).map (fun ys => (k, y) :: ys))
def getAttrs : List (String × Obj) → Except NoiseErr (List (Option String × Info))
  | [] => .ok []
  | (k, x) :: xs => (getInfo x).bind (fun y => (getAttrs xs).map (fun ys => (some k, y) :: ys))
end

/-- `_NoiseMechanism` (l. 49-54). -/
inductive NoiseKind where
  | laplace
  | geometric
  | discreteGaussian
  | exponential
  | gaussian
  deriving DecidableEq, Repr

/-- The mechanism and its parameter. `Info` rather than a number: the code does not look at it. -/
abbrev Entry := NoiseKind × Info

/-- The class names the code knows and the attribute that holds the parameter (l. 165-200). -/
def byName : List (String × NoiseKind × String) :=
  [("AddLaplaceNoise", .laplace, "_scale"), ("AddDiscreteGaussianNoise", .discreteGaussian, "_sigma_squared"),
    ("AddGaussianNoise", .gaussian, "_sigma_squared"), ("AddGeometricNoise", .geometric, "_alpha"),
    ("NoisyQuantile", .exponential, "_epsilon")]

/-- `info.get("name")`. -/
def nameOf (kvs : List (Option String × Info)) : Option String :=
  match Dict.get kvs (some "name") with
  | some (.str s) => some s
  | _ => none

mutual
/-- `_noise_from_info` (l. 151-214). -/
def noiseFrom : Info → Except NoiseErr (List Entry)
  | .dict kvs =>
    match (nameOf kvs).bind (fun n => Dict.get byName n) with
    | some (kind, attr) =>
      match Dict.get kvs (some attr) with
      | some v => .ok [(kind, v)]
      | none => .error .key
    | none => noiseFields kvs
  | .list xs => noises xs
  | .tuple xs => noises xs
  | .set xs => noises xs
  | _ => .ok []
def noises : List Info → Except NoiseErr (List Entry)
  | [] => .ok []
  | x :: xs => (noiseFrom x).bind (fun a => (noises xs).map (fun b => a ++ b))
def noiseFields : List (Option String × Info) → Except NoiseErr (List Entry)
  | [] => .ok []
  | (_, x) :: xs => (noiseFrom x).bind (fun a => (noiseFields xs).map (fun b => a ++ b))
end

/-- `_noise_from_measurement` (l. 131-137). -/
def noiseOf (m : Obj) : Except NoiseErr (List Entry) := (getInfo m).bind noiseFrom

/-! ## Specification -/

/-- The noise-adding classes. -/
def noiseClass (cls : String) : Option (NoiseKind × String) :=
  if cls = "AddLaplaceNoise" then some (.laplace, "_scale")
  else if cls = "AddGeometricNoise" then some (.geometric, "_alpha")
  else if cls = "AddGaussianNoise" then some (.gaussian, "_sigma_squared")
  else if cls = "AddDiscreteGaussianNoise" then some (.discreteGaussian, "_sigma_squared")
  else if cls = "NoisyQuantile" then some (.exponential, "_epsilon")
  else none

/-- The value of an attribute, if it is a number. -/
def paramOf (attrs : List (String × Obj)) (a : String) : Option ℚ :=
  match Dict.get attrs a with
  | some (.num q) => some q
  | _ => none

mutual
/-- All noise-adding components of a tree, from left to right, wherever they are. -/
def sources : Obj → List (NoiseKind × ℚ)
  | .list xs => sourcesL xs
  | .tuple xs => sourcesL xs
  | .set xs => sourcesL xs
  | .dict kvs => sourcesD kvs
  | .object attrs => sourcesA attrs
  | .component cls attrs =>
    (match (noiseClass cls).bind (fun p => (paramOf attrs p.2).map (fun q => (p.1, q))) with
      | some e => [e]
      | none => []) ++ sourcesA attrs
  | _ => []
def sourcesL : List Obj → List (NoiseKind × ℚ)
  | [] => []
  | x :: xs => sources x ++ sourcesL xs
def sourcesD : List (Option String × Obj) → List (NoiseKind × ℚ)
  | [] => []
  | (_, x) :: xs => sources x ++ sourcesD xs
def sourcesA : List (String × Obj) → List (NoiseKind × ℚ)
  | [] => []
  | (_, x) :: xs => sources x ++ sourcesA xs
end

mutual
/-- What is required of a measurement tree: noise-adding components hold their parameter as a number and contain no
further components that add noise; no component keeps other components under the attribute `name`; nothing but a
component has an entry `name` that is the name of a noise-adding class; sets hold only numbers, strings and the like. -/
def Obj.Regular : Obj → Prop
  | .list xs => regularL xs
  | .tuple xs => regularL xs
  | .set xs => plainL xs
  | .dict kvs => regularD kvs ∧ ∀ s, (some "name", Obj.str s) ∈ kvs → noiseClass s = none
  | .object attrs => regularA attrs ∧ ∀ s, ("name", Obj.str s) ∈ attrs → noiseClass s = none
  | .component cls attrs => regularA attrs ∧ (∀ x, ("name", x) ∈ attrs → sources x = []) ∧
    (∀ p, noiseClass cls = some p → (∃ q, paramOf attrs p.2 = some q) ∧ sourcesA attrs = [])
  | _ => True
def regularL : List Obj → Prop
  | [] => True
  | x :: xs => x.Regular ∧ regularL xs
def regularD : List (Option String × Obj) → Prop
  | [] => True
  | (_, x) :: xs => x.Regular ∧ regularD xs
def regularA : List (String × Obj) → Prop
  | [] => True
  | (_, x) :: xs => x.Regular ∧ regularA xs
/-- Elements a set can have. -/
def plainL : List Obj → Prop
  | [] => True
  | x :: xs => (x = .atom ∨ (∃ q, x = .num q) ∨ ∃ s, x = .str s) ∧ plainL xs
end

/-! ## Proofs -/

/-- How a source is reported. -/
def report (l : List (NoiseKind × ℚ)) : List Entry := l.map (fun p => (p.1, Info.num p.2))

theorem report_append (a b : List (NoiseKind × ℚ)) : report (a ++ b) = report a ++ report b := by
  simp [report]

theorem byName_eq (n : String) : Dict.get byName n = noiseClass n := by
  unfold Dict.get byName noiseClass
  simp only [List.lookup]
  by_cases h1 : n = "AddLaplaceNoise"
  · subst h1; simp
  by_cases h2 : n = "AddGeometricNoise"
  · subst h2; simp
  by_cases h3 : n = "AddGaussianNoise"
  · subst h3; simp
  by_cases h4 : n = "AddDiscreteGaussianNoise"
  · subst h4; simp
  by_cases h5 : n = "NoisyQuantile"
  · subst h5; simp
  simp [h1, h2, h3, h4, h5, beq_eq_false_iff_ne.2 h1, beq_eq_false_iff_ne.2 h2, beq_eq_false_iff_ne.2 h3,
    beq_eq_false_iff_ne.2 h4, beq_eq_false_iff_ne.2 h5]

theorem get_nil' {K V : Type} [DecidableEq K] (k : K) : Dict.get ([] : Dict K V) k = none := rfl

theorem get_cons' {K V : Type} [DecidableEq K] (k k' : K) (v : V) (l : Dict K V) :
    Dict.get ((k', v) :: l) k = if k = k' then some v else Dict.get l k := by
  unfold Dict.get
  rw [List.lookup]
  by_cases h : k = k'
  · rw [if_pos h, beq_iff_eq.2 h]
  · rw [if_neg h, beq_eq_false_iff_ne.2 h]

theorem lookup_mem {K V : Type} [DecidableEq K] {k : K} {v : V} :
    ∀ {l : Dict K V}, Dict.get l k = some v → (k, v) ∈ l
  | [], h => by rw [get_nil'] at h; cases h
  | (k', v') :: l, h => by
    rw [get_cons'] at h
    by_cases hk : k = k'
    · subst hk
      simp at h
      simp [h]
    · rw [if_neg hk] at h
      exact List.mem_cons_of_mem _ (lookup_mem h)

theorem setName_name (cls : String) : ∀ d, Dict.get (setName cls d) (some "name") = some (.str cls)
  | [] => by rw [setName, get_cons', if_pos rfl]
  | (k, v) :: d => by
    unfold setName
    by_cases hk : k = some "name"
    · rw [if_pos hk, get_cons', if_pos hk.symm]
    · rw [if_neg hk, get_cons', if_neg (Ne.symm hk)]
      exact setName_name cls d

theorem setName_other (cls : String) {a : Option String} (ha : a ≠ some "name") :
    ∀ d, Dict.get (setName cls d) a = Dict.get d a
  | [] => by rw [setName, get_cons', if_neg ha]
  | (k, v) :: d => by
    unfold setName
    by_cases hk : k = some "name"
    · subst hk
      rw [if_pos rfl, get_cons', get_cons', if_neg ha, if_neg ha]
    · rw [if_neg hk, get_cons', get_cons', setName_other cls ha d]

theorem setName_noise (cls : String) : ∀ d, (∀ i, (some "name", i) ∈ d → noiseFrom i = .ok []) →
    noiseFields (setName cls d) = noiseFields d
  | [], _ => by simp [setName, noiseFields, noiseFrom, Except.bind, Except.map]
  | (k, v) :: d, h => by
    unfold setName
    by_cases hk : k = some "name"
    · subst hk
      rw [if_pos rfl, noiseFields, noiseFields, h v (by simp), noiseFrom]
      all_goals simp
    · rw [if_neg hk, noiseFields, noiseFields, setName_noise cls d (fun i hi => h i (List.mem_cons_of_mem _ hi))]

theorem noiseFrom_plain {kvs : List (Option String × Info)}
    (h : ∀ s, (some "name", Info.str s) ∈ kvs → noiseClass s = none) :
    noiseFrom (.dict kvs) = noiseFields kvs := by
  rw [noiseFrom]
  have hn : (nameOf kvs).bind (fun n => Dict.get byName n) = none := by
    cases hk : nameOf kvs with
    | none => rfl
    | some s =>
      show Dict.get byName s = none
      rw [byName_eq]
      apply h
      unfold nameOf at hk
      split at hk
      · rename_i t ht
        cases hk
        exact lookup_mem ht
      · cases hk
  rw [hn]

theorem plain_set : ∀ {xs : List Obj}, plainL xs →
    ∃ ys, getInfos xs = .ok ys ∧ hashables ys = true ∧ noises ys = .ok [] ∧ sourcesL xs = []
  | [], _ => ⟨[], by simp [getInfos], by simp [hashables], by simp [noises], by simp [sourcesL]⟩
  | x :: xs, h => by
    rw [plainL] at h
    obtain ⟨ys, h1, h2, h3, h4⟩ := plain_set h.2
    rcases h.1 with rfl | ⟨q, rfl⟩ | ⟨s, rfl⟩
    · exact ⟨.atom :: ys, by simp [getInfos, getInfo, h1, Except.bind, Except.map],
        by simp [hashables, Info.hashable, h2], by simp [noises, noiseFrom, h3, Except.bind, Except.map],
        by simp [sourcesL, sources, h4]⟩
    · exact ⟨.num q :: ys, by simp [getInfos, getInfo, h1, Except.bind, Except.map],
        by simp [hashables, Info.hashable, h2], by simp [noises, noiseFrom, h3, Except.bind, Except.map],
        by simp [sourcesL, sources, h4]⟩
    · exact ⟨.str s :: ys, by simp [getInfos, getInfo, h1, Except.bind, Except.map],
        by simp [hashables, Info.hashable, h2], by simp [noises, noiseFrom, h3, Except.bind, Except.map],
        by simp [sourcesL, sources, h4]⟩

theorem info_str {x : Obj} {s : String} (h : getInfo x = .ok (.str s)) : x = .str s ∨ noiseClass s = none := by
  cases x with
  | str t => rw [getInfo] at h; cases h; exact .inl rfl
  | dataframe => rw [getInfo] at h; cases h; exact .inr (by decide +kernel)
  | num q => rw [getInfo] at h; cases h
  | atom => rw [getInfo] at h; cases h
  | list xs => rw [getInfo] at h; cases h' : getInfos xs <;> rw [h'] at h <;> cases h
  | tuple xs => rw [getInfo] at h; cases h' : getInfos xs <;> rw [h'] at h <;> cases h
  | set xs =>
    rw [getInfo] at h
    cases h' : getInfos xs with
    | error e => rw [h'] at h; cases h
    | ok ys =>
      rw [h'] at h
      dsimp only [Except.bind] at h
      split at h <;> cases h
  | dict kvs => rw [getInfo] at h; cases h' : getFields kvs <;> rw [h'] at h <;> cases h
  | component c attrs => rw [getInfo] at h; cases h' : getAttrs attrs <;> rw [h'] at h <;> cases h
  | object attrs => rw [getInfo] at h; cases h' : getAttrs attrs <;> rw [h'] at h <;> cases h

theorem noiseClass_attr {cls : String} {p : NoiseKind × String} (h : noiseClass cls = some p) :
    p.2 ≠ "name" := by
  unfold noiseClass at h
  split_ifs at h <;> cases h <;> decide +kernel

/-- The attributes of a component are looked up in its information. -/
theorem getAttrs_lookup {a : String} {q : ℚ} : ∀ {attrs : List (String × Obj)} {d}, getAttrs attrs = .ok d →
    paramOf attrs a = some q → Dict.get d (some a) = some (.num q)
  | [], d, _, hp => by simp [paramOf, Dict.get] at hp
  | (k, x) :: attrs, d, h, hp => by
    rw [getAttrs] at h
    cases hx : getInfo x with
    | error e => rw [hx] at h; cases h
    | ok i =>
      cases hd : getAttrs attrs with
      | error e => rw [hx, hd] at h; cases h
      | ok d' =>
        rw [hx, hd] at h
        dsimp only [Except.bind, Except.map] at h
        cases h
        rw [get_cons']
        unfold paramOf at hp
        rw [get_cons'] at hp
        by_cases hk : a = k
        · subst hk
          rw [if_pos rfl] at hp ⊢
          cases x with
          | num q' =>
            rw [getInfo] at hx
            cases hx
            cases hp
            rfl
          | _ => cases hp
        · rw [if_neg hk] at hp
          rw [if_neg (by simpa using hk)]
          exact getAttrs_lookup hd hp

mutual
theorem info_ok : ∀ x : Obj, x.Regular →
    ∃ i, getInfo x = .ok i ∧ noiseFrom i = .ok (report (sources x))
  | .num q, _ => ⟨_, by rw [getInfo], by simp [noiseFrom, sources, report]⟩
  | .str s, _ => ⟨_, by rw [getInfo], by simp [noiseFrom, sources, report]⟩
  | .atom, _ => ⟨_, by rw [getInfo], by simp [noiseFrom, sources, report]⟩
  | .dataframe, _ => ⟨_, by rw [getInfo], by simp [noiseFrom, sources, report]⟩
  | .list xs, h => by
    rw [Obj.Regular] at h
    obtain ⟨ys, h1, h2⟩ := infos_ok xs h
    exact ⟨.list ys, by rw [getInfo, h1]; rfl, by rw [noiseFrom, h2, sources]⟩
  | .tuple xs, h => by
    rw [Obj.Regular] at h
    obtain ⟨ys, h1, h2⟩ := infos_ok xs h
    exact ⟨.tuple ys, by rw [getInfo, h1]; rfl, by rw [noiseFrom, h2, sources]⟩
  | .set xs, h => by
    rw [Obj.Regular] at h
    obtain ⟨ys, h1, h2, h3, h4⟩ := plain_set h
    exact ⟨.set ys, by rw [getInfo, h1]; simp [Except.bind, h2], by rw [noiseFrom, h3, sources, h4]; rfl⟩
  | .dict kvs, h => by
    rw [Obj.Regular] at h
    obtain ⟨d, h1, h2, h3⟩ := fields_ok kvs h.1
    refine ⟨.dict d, by rw [getInfo, h1]; rfl, ?_⟩
    rw [noiseFrom_plain, h2, sources]
    intro s hs
    obtain ⟨x, hx, hi⟩ := h3 _ _ hs
    rcases info_str hi with rfl | hn
    · exact h.2 s hx
    · exact hn
  | .object attrs, h => by
    rw [Obj.Regular] at h
    obtain ⟨d, h1, h2, h3⟩ := attrs_ok attrs h.1
    refine ⟨.dict d, by rw [getInfo, h1]; rfl, ?_⟩
    rw [noiseFrom_plain, h2, sources]
    intro s hs
    obtain ⟨x, hx, hi, _⟩ := h3 _ _ hs
    rcases info_str hi with rfl | hn
    · exact h.2 s hx
    · exact hn
  | .component cls attrs, h => by
    rw [Obj.Regular] at h
    obtain ⟨d, h1, h2, h3⟩ := attrs_ok attrs h.1
    refine ⟨.dict (setName cls d), by rw [getInfo, h1]; rfl, ?_⟩
    have hname : nameOf (setName cls d) = some cls := by
      unfold nameOf
      rw [setName_name]
    rw [noiseFrom, hname]
    show (match Dict.get byName cls with | some (kind, attr) => _ | none => _) = _
    rw [byName_eq, sources]
    cases hc : noiseClass cls with
    | none =>
      dsimp only [Option.bind]
      rw [setName_noise, h2]
      · rfl
      · intro i hi
        obtain ⟨x, hx, _, hn⟩ := h3 _ _ hi
        rw [hn, h.2.1 x hx]
        rfl
    | some p =>
      obtain ⟨⟨q, hq⟩, hs⟩ := h.2.2 p hc
      obtain ⟨kind, attr⟩ := p
      dsimp only [Option.bind] at hq ⊢
      have hl : Dict.get (setName cls d) (some attr) = some (.num q) := by
        rw [setName_other cls (by simpa using noiseClass_attr hc)]
        exact getAttrs_lookup h1 hq
      rw [hl, hq, hs]
      rfl
theorem infos_ok : ∀ xs : List Obj, regularL xs →
    ∃ ys, getInfos xs = .ok ys ∧ noises ys = .ok (report (sourcesL xs))
  | [], _ => ⟨[], by rw [getInfos], by simp [noises, sourcesL, report]⟩
  | x :: xs, h => by
    rw [regularL] at h
    obtain ⟨i, h1, h2⟩ := info_ok x h.1
    obtain ⟨ys, h3, h4⟩ := infos_ok xs h.2
    exact ⟨i :: ys, by rw [getInfos, h1, h3]; rfl, by rw [noises, h2, h4, sourcesL, report_append]; rfl⟩
theorem fields_ok : ∀ kvs : List (Option String × Obj), regularD kvs →
    ∃ d, getFields kvs = .ok d ∧ noiseFields d = .ok (report (sourcesD kvs)) ∧
      ∀ k i, (k, i) ∈ d → ∃ x, (k, x) ∈ kvs ∧ getInfo x = .ok i
  | [], _ => ⟨[], by rw [getFields], by simp [noiseFields, sourcesD, report], by simp⟩
  | (k, x) :: xs, h => by
    rw [regularD] at h
    obtain ⟨i, h1, h2⟩ := info_ok x h.1
    obtain ⟨ys, h3, h4, h5⟩ := fields_ok xs h.2
    refine ⟨(k, i) :: ys, by rw [getFields, h1, h3]; rfl,
      by rw [noiseFields, h2, h4, sourcesD, report_append]; rfl, ?_⟩
    intro k' i' hm
    rcases List.mem_cons.1 hm with he | hm'
    · cases he
      exact ⟨x, by simp, h1⟩
    · obtain ⟨x', hx', hi'⟩ := h5 _ _ hm'
      exact ⟨x', List.mem_cons_of_mem _ hx', hi'⟩
theorem attrs_ok : ∀ attrs : List (String × Obj), regularA attrs →
    ∃ d, getAttrs attrs = .ok d ∧ noiseFields d = .ok (report (sourcesA attrs)) ∧
      ∀ k i, (some k, i) ∈ d → ∃ x, (k, x) ∈ attrs ∧ getInfo x = .ok i ∧
        noiseFrom i = .ok (report (sources x))
  | [], _ => ⟨[], by rw [getAttrs], by simp [noiseFields, sourcesA, report], by simp⟩
  | (k, x) :: xs, h => by
    rw [regularA] at h
    obtain ⟨i, h1, h2⟩ := info_ok x h.1
    obtain ⟨ys, h3, h4, h5⟩ := attrs_ok xs h.2
    refine ⟨(some k, i) :: ys, by rw [getAttrs, h1, h3]; rfl,
      by rw [noiseFields, h2, h4, sourcesA, report_append]; rfl, ?_⟩
    intro k' i' hm
    rcases List.mem_cons.1 hm with he | hm'
    · cases he
      exact ⟨x, by simp, h1, h2⟩
    · obtain ⟨x', hx', hi', hn'⟩ := h5 _ _ hm'
      exact ⟨x', List.mem_cons_of_mem _ hx', hi', hn'⟩
end

/-- **C44**, for regular measurements: the noise reported is that of the noise-adding components, all of them, in order
and with their parameters. Missing: trees that hold data under misleading names (`C44_fails`). -/
theorem C44_noise_partial (m : Obj) (h : m.Regular) : noiseOf m = .ok (report (sources m)) := by
  obtain ⟨i, h1, h2⟩ := info_ok m h
  unfold noiseOf
  rw [h1]
  exact h2

/-- A postprocessed composition of a Laplace and a geometric mechanism below a transformation. -/
def exampleTree : Obj :=
  .component "PostProcess"
    [("_measurement", .component "Composition"
      [("_measurements", .list
        [.component "ChainTM" [("_transformation", .component "Filter" [("_expr", .str "A > 1")]),
          ("_measurement", .component "AddLaplaceNoise" [("_scale", .num 3), ("_input_domain", .object [])])],
         .component "AddGeometricNoise" [("_alpha", .num 2)]])]),
     ("_f", .atom)]

/-- Two entries, in order. -/
theorem C44_example : exampleTree.Regular ∧
    noiseOf exampleTree = .ok [(.laplace, .num 3), (.geometric, .num 2)] := by
  have h : exampleTree.Regular := by
    simp [exampleTree, Obj.Regular, regularA, regularL, noiseClass, paramOf, Dict.get, List.lookup, sources,
      sourcesA, sourcesL]
  refine ⟨h, ?_⟩
  rw [C44_noise_partial _ h]
  simp [exampleTree, sources, sourcesA, sourcesL, noiseClass, paramOf, Dict.get, List.lookup, report]

/-- A measurement that holds a dictionary with the entry `name: NoisyQuantile`. -/
def misleading : Obj :=
  .component "ChainTM"
    [("_public", .dict [(some "name", .str "NoisyQuantile"), (some "_epsilon", .num 7)])]

/-- **C44 is false in general**: noise is reported for a measurement that adds none. -/
theorem C44_fails : sources misleading = [] ∧ noiseOf misleading = .ok [(.exponential, .num 7)] := by
  constructor
  · simp [misleading, sources, sourcesA, sourcesD, noiseClass]
  · rfl

end Verif.Misc
