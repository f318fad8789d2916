import Verif.Expr.Model
import Verif.Schema.Props
import Verif.Constraint.Props

/-!
# Tables conform to domains and schemas: definitions and the lemmas used for C19
-/

namespace Verif.Expr

open Verif Verif.Schema Verif.Constraint

/-! ## Specification -/

/-- What a column descriptor says about a value: nulls, NaNs and infinities only where allowed, and otherwise a
value of the column's type. -/
def DescOK (d : Desc) : Value → Prop
  | .null => d.allowNull = true
  | .int _ => d.ty = .INTEGER
  | .dec (.fin _) => d.ty = .DECIMAL
  | .dec .nan => d.ty = .DECIMAL ∧ d.allowNan = true
  | .dec .pinf => d.ty = .DECIMAL ∧ d.allowInf = true
  | .dec .ninf => d.ty = .DECIMAL ∧ d.allowInf = true
  | .str _ => d.ty = .VARCHAR
  | .date _ => d.ty = .DATE
  | .ts _ => d.ty = .TIMESTAMP

/-- The row has exactly the described columns, each once, and its values are as described. -/
def RowFits (descs : Dict String Desc) (r : Row) : Prop :=
  r.cols.Nodup ∧ (∀ c, c ∈ r.cols ↔ c ∈ Dict.keys descs) ∧
    ∀ c v, (c, v) ∈ r → ∀ d, (c, d) ∈ descs → DescOK d v

/-- The table conforms to the schema. -/
def Conforms (s : Schema) (t : Table) : Prop := ∀ r ∈ t, RowFits s.columnDescs.elements r

/-! ## Domains -/

def ValOK (d : SparkDesc) (v : Value) : Prop := DescOK (ofSparkDesc d) v

def Rel : Option SparkDesc → Option Value → Prop
  | none, none => True
  | some d, some v => ValOK d v
  | _, _ => False

def RowOK (dom : Dict String SparkDesc) (r : Row) : Prop :=
  Dict.WF r ∧ ∀ c, Rel (Dict.get dom c) (Dict.get r c)

theorem valOK_toSpark (d : Desc) (v : Value) : ValOK (toSparkDesc d) v ↔ DescOK d v := by
  obtain ⟨t, a, b, c⟩ := d
  cases t <;> cases v with
  | dec f => cases f <;> simp [ValOK, DescOK, toSparkDesc, ofSparkDesc]
  | _ => simp [ValOK, DescOK, toSparkDesc, ofSparkDesc]

theorem rel_some_left {d : SparkDesc} {o : Option Value} (h : Rel (some d) o) : ∃ v, o = some v ∧ ValOK d v := by
  cases o with
  | none => exact h.elim
  | some v => exact ⟨v, rfl, h⟩

theorem rel_some_right {d : Option SparkDesc} {v : Value} (h : Rel d (some v)) : ∃ x, d = some x ∧ ValOK x v := by
  cases d with
  | none => exact h.elim
  | some x => exact ⟨x, rfl, h⟩

theorem rel_mono {f : SparkDesc → SparkDesc} {g : Value → Value} {d : Option SparkDesc} {v : Option Value}
    (h : Rel d v) (hf : ∀ d v, ValOK d v → ValOK (f d) (g v)) : Rel (d.map f) (v.map g) := by
  cases d <;> cases v <;> simp_all [Rel]

/-- Rows of a conforming table have a value in every column of the domain. -/
theorem RowOK.cell {dom : Dict String SparkDesc} {r : Row} (h : RowOK dom r) {c : String} {d : SparkDesc}
    (hd : Dict.get dom c = some d) : Dict.get r c = some (cell r c) ∧ ValOK d (cell r c) := by
  have := h.2 c
  rw [hd] at this
  obtain ⟨v, hv, ok⟩ := rel_some_left this
  have e : Expr.cell r c = v := by
    show (Dict.get r c).getD .null = v
    rw [hv]; rfl
  rw [e]
  exact ⟨hv, ok⟩

theorem RowOK.mem_cols {dom : Dict String SparkDesc} {r : Row} (h : RowOK dom r) (c : String) :
    c ∈ Dict.keys r ↔ c ∈ Dict.keys dom := by
  rw [← Dict.get_isSome, ← Dict.get_isSome]
  have := h.2 c
  cases h1 : Dict.get dom c <;> cases h2 : Dict.get r c <;> simp_all [Rel]

/-- Rows that list the columns of the domain in its order conform if each value does. -/
theorem rowOK_of_forall₂ {dom : Dict String SparkDesc} {r : Row} (w : Dict.WF dom)
    (h : List.Forall₂ (fun p q => p.1 = q.1 ∧ ValOK p.2 q.2) dom r) : RowOK dom r := by
  have hk : Dict.keys r = Dict.keys dom := by
    clear w
    induction h with
    | nil => rfl
    | cons hp _ ih =>
      simp only [Dict.keys, List.map_cons] at *
      rw [hp.1, ih]
  refine ⟨?_, ?_⟩
  · rw [Dict.wf_iff, hk]; exact w
  · intro c
    clear hk w
    induction h with
    | nil => simp [Rel]
    | @cons p q l₁ l₂ hp _ ih =>
      rw [Dict.get_cons, Dict.get_cons, ← hp.1]
      split
      · exact hp.2
      · exact ih

theorem wf_mapVal {V W : Type} {d : Dict String V} (w : Dict.WF d) (f : String × V → W) :
    Dict.WF (d.map (fun p => (p.1, f p))) := by
  unfold Dict.WF at *
  simpa [Function.comp_def] using w

theorem keys_mapVal' {V W : Type} (d : Dict String V) (f : String × V → W) :
    Dict.keys (d.map (fun p => (p.1, f p))) = Dict.keys d := by simp [Dict.keys, Function.comp_def]

theorem get_mapVal {V W : Type} (d : Dict String V) (f : String × V → W) (c : String) :
    Dict.get (d.map (fun p => (p.1, f p))) c = (Dict.get d c).map (fun v => f (c, v)) := by
  induction d with
  | nil => simp
  | cons p d ih =>
    rw [List.map_cons, Dict.get_cons, Dict.get_cons, ih]
    split
    · next h => subst h; rfl
    · rfl

theorem analytics_dom {s : Schema} (w : s.WF) :
    analyticsToSparkColumns s = s.columnDescs.elements.map (fun p => (p.1, toSparkDesc p.2)) := by
  unfold analyticsToSparkColumns
  rw [Schema.descs_eq w, Dict.ofPairs_eq]
  rw [keys_mapVal]; exact w.nodup

theorem wf_analytics (s : Schema) : Dict.WF (analyticsToSparkColumns s) := Dict.wf_ofPairs _

/-- Conforming to a domain is conforming to the descriptors it stands for. -/
theorem rowOK_iff {ds : Dict String Desc} (w : Dict.WF ds) (r : Row) :
    RowOK (ds.map (fun p => (p.1, toSparkDesc p.2))) r ↔ RowFits ds r := by
  have g : ∀ c, Dict.get (ds.map (fun p => (p.1, toSparkDesc p.2))) c = (Dict.get ds c).map toSparkDesc :=
    fun c => get_mapVal ds (fun p => toSparkDesc p.2) c
  constructor
  · intro h
    refine ⟨h.1, ?_, ?_⟩
    · intro c
      have := h.mem_cols c
      rw [keys_mapVal' ds (fun p => toSparkDesc p.2)] at this
      exact this
    · intro c v hv d hd
      have := h.2 c
      rw [g, (Dict.get_eq_some w).2 hd, (Dict.get_eq_some h.1).2 hv] at this
      exact (valOK_toSpark _ _).1 this
  · rintro ⟨h1, h2, h3⟩
    refine ⟨h1, fun c => ?_⟩
    rw [g]
    have k := h2 c
    change c ∈ Dict.keys r ↔ c ∈ Dict.keys ds at k
    rw [← Dict.get_isSome, ← Dict.get_isSome] at k
    cases e1 : Dict.get ds c with
    | none =>
      cases e2 : Dict.get r c with
      | none => trivial
      | some v => simp [e1, e2] at k
    | some d =>
      cases e2 : Dict.get r c with
      | none => simp [e1, e2] at k
      | some v =>
        exact (valOK_toSpark _ _).2 (h3 c v (Dict.mem_of_get e2) d (Dict.mem_of_get e1))

theorem conforms_iff {s : Schema} (w : s.WF) (t : Table) :
    Conforms s t ↔ ∀ r ∈ t, RowOK (analyticsToSparkColumns s) r := by
  rw [analytics_dom w]
  exact forall₂_congr fun r _ => (rowOK_iff w.nodup r).symm

/-- Domains with the same entries have the same conforming rows. -/
theorem rowOK_same {a b : Dict String SparkDesc} (wa : Dict.WF a) (wb : Dict.WF b) (h : Dict.Same a b) {r : Row}
    (hr : RowOK a r) : RowOK b r := by
  refine ⟨hr.1, fun c => ?_⟩
  have e : Dict.get b c = Dict.get a c := by
    apply Option.ext
    intro d
    rw [Dict.get_eq_some wa, Dict.get_eq_some wb]
    exact (h c d).symm
  rw [e]
  exact hr.2 c

/-! ## Renaming -/

section rename
variable {V : Type} {f : String → String}

theorem get_rename {d : Dict String V} (inj : ∀ a ∈ Dict.keys d, ∀ b ∈ Dict.keys d, f a = f b → a = b)
    {c : String} (hc : c ∈ Dict.keys d) :
    Dict.get (d.map (fun p => (f p.1, p.2))) (f c) = Dict.get d c := by
  induction d with
  | nil => simp [Dict.keys] at hc
  | cons p d ih =>
    rw [List.map_cons, Dict.get_cons, Dict.get_cons]
    have e : f c = f p.1 ↔ c = p.1 := ⟨inj c hc p.1 (by simp [Dict.keys]), fun h => by rw [h]⟩
    by_cases h : c = p.1
    · rw [if_pos (e.2 h), if_pos h]
    · rw [if_neg (fun h' => h (e.1 h')), if_neg h]
      apply ih
      · intro a ha b hb
        exact inj a (by simp only [Dict.keys, List.map_cons, List.mem_cons] at *; exact Or.inr ha) b
          (by simp only [Dict.keys, List.map_cons, List.mem_cons] at *; exact Or.inr hb)
      · simp only [Dict.keys, List.map_cons, List.mem_cons] at hc
        exact hc.resolve_left h

theorem keys_rename (d : Dict String V) : Dict.keys (d.map (fun p => (f p.1, p.2))) = (Dict.keys d).map f := by
  simp [Dict.keys, Function.comp_def]

theorem wf_rename {d : Dict String V} (inj : ∀ a ∈ Dict.keys d, ∀ b ∈ Dict.keys d, f a = f b → a = b)
    (w : Dict.WF d) : Dict.WF (d.map (fun p => (f p.1, p.2))) := by
  rw [Dict.wf_iff, keys_rename]
  exact List.Nodup.map_on (fun a ha b hb => inj a ha b hb) w

end rename

/-- An accepted renaming whose new names are distinct does not identify columns. -/
theorem renamed_inj {m : Dict String String} {ks : List String} (wm : Dict.WF m)
    (hv : (m.map Prod.snd).Nodup) (h : ∀ p ∈ m, p.2 ∈ ks → p.2 = p.1) :
    ∀ a ∈ ks, ∀ b ∈ ks, renamed m a = renamed m b → a = b := by
  intro a ha b hb e
  unfold renamed at e
  have key : ∀ x y, Dict.get m x = some y → y ∈ ks → y = x := fun x y hx hy => h _ (Dict.mem_of_get hx) hy
  cases h1 : Dict.get m a with
  | none =>
    cases h2 : Dict.get m b with
    | none => simpa [h1, h2] using e
    | some y =>
      simp only [h1, h2, Option.getD_none, Option.getD_some] at e
      subst e
      exact key _ _ h2 ha
  | some x =>
    cases h2 : Dict.get m b with
    | none =>
      simp only [h1, h2, Option.getD_none, Option.getD_some] at e
      subst e
      exact (key _ _ h1 hb).symm
    | some y =>
      simp only [h1, h2, Option.getD_some] at e
      subst e
      have := List.inj_on_of_nodup_map hv (Dict.mem_of_get h1) (Dict.mem_of_get h2) rfl
      exact congrArg Prod.fst this

/-! ## Selecting columns -/

theorem get_pick (d : Dict String SparkDesc) (cs : List String) (c : String) :
    Dict.get (pick d cs) c = if c ∈ cs then Dict.get d c else none := by
  induction cs with
  | nil => simp [pick]
  | cons x xs ih =>
    unfold pick at *
    rw [List.filterMap_cons]
    cases hx : Dict.get d x with
    | none =>
      simp only [Option.map_none]
      rw [ih]
      by_cases e : c = x
      · subst e; simp [hx]
      · simp [e]
    | some v =>
      simp only [Option.map_some]
      rw [Dict.get_cons, ih]
      by_cases e : c = x
      · subst e; simp [hx]
      · simp [e]

theorem pick_keys {d : Dict String SparkDesc} {cs : List String} (h : ∀ c ∈ cs, c ∈ Dict.keys d) :
    Dict.keys (pick d cs) = cs := by
  induction cs with
  | nil => rfl
  | cons x xs ih =>
    obtain ⟨v, hv⟩ := Option.isSome_iff_exists.1 (Dict.get_isSome.2 (h x (by simp)))
    have := ih (fun c hc => h c (by simp [hc]))
    unfold pick Dict.keys at *
    simp [hv, this]

theorem forall₂_pick {dom : Dict String SparkDesc} {r : Row} (hr : RowOK dom r) {cs : List String}
    (h : ∀ c ∈ cs, c ∈ Dict.keys dom) :
    List.Forall₂ (fun p q => p.1 = q.1 ∧ ValOK p.2 q.2) (pick dom cs) (cs.map (fun c => (c, cell r c))) := by
  induction cs with
  | nil => exact .nil
  | cons x xs ih =>
    obtain ⟨v, hv⟩ := Option.isSome_iff_exists.1 (Dict.get_isSome.2 (h x (by simp)))
    have t := ih (fun c hc => h c (by simp [hc]))
    have e : pick dom (x :: xs) = (x, v) :: pick dom xs := by simp [pick, hv]
    rw [e, List.map_cons]
    exact .cons ⟨rfl, (hr.cell hv).2⟩ t

/-! ## Joins -/

theorem valOK_meet {a b m : SparkDesc} {v : Value} (h : meet a b = some m) (ha : ValOK a v) (hb : ValOK b v) :
    ValOK m v := by
  cases a <;> cases b <;> simp only [meet, Option.some.injEq, reduceCtorEq] at h <;> subst h <;>
    cases v with
    | dec f => cases f <;> simp_all [ValOK, DescOK, ofSparkDesc]
    | _ => simp_all [ValOK, DescOK, ofSparkDesc]

theorem valOK_setNull {d : SparkDesc} {v : Value} (h : ValOK d v) : ValOK (setNull true d) v := by
  cases d <;> cases v with
  | dec f => cases f <;> simp_all [ValOK, DescOK, ofSparkDesc, setNull]
  | _ => simp_all [ValOK, DescOK, ofSparkDesc, setNull]

theorem valOK_null (d : SparkDesc) : ValOK (setNull true d) .null := by
  cases d <;> simp [ValOK, DescOK, ofSparkDesc, setNull]

theorem valOK_right {how : How} {d : SparkDesc} {v : Value} (h : ValOK d v) : ValOK (rightDesc how d) v := by
  cases how
  · exact h
  · exact valOK_setNull h

theorem matches_iff {jc : List String} {l r : Row} :
    matches_ jc l r = true ↔ ∀ c ∈ jc, cell l c = cell r c := by simp [matches_]

/-- The right row of a join: a row of the right table or, in a left join, no row at all. -/
def RightOK (how : How) (rd : Dict String SparkDesc) (r : Row) : Prop :=
  RowOK rd r ∨ (how = .left ∧ r = [])

theorem RightOK.cell {how : How} {rd : Dict String SparkDesc} {r : Row} (h : RightOK how rd r) {c : String}
    {d : SparkDesc} (hd : Dict.get rd c = some d) : ValOK (rightDesc how d) (cell r c) := by
  rcases h with h | ⟨rfl, rfl⟩
  · exact valOK_right (h.cell hd).2
  · exact valOK_null d

theorem forall₂_joinCols {how : How} {ld rd js : Dict String SparkDesc} {jc : List String} {l r : Row}
    (h : joinColDescs how ld rd jc = some js) (hl : RowOK ld l) (hr : RightOK how rd r)
    (hm : RowOK rd r → ∀ c ∈ jc, cell l c = cell r c) :
    List.Forall₂ (fun p q => p.1 = q.1 ∧ ValOK p.2 q.2) js (jc.map (fun c => (c, cell l c))) := by
  induction jc generalizing js with
  | nil => simp [joinColDescs] at h; subst h; exact .nil
  | cons c cs ih =>
    rw [joinColDescs] at h
    split at h
    · next d ds h1 h2 =>
      cases h
      refine .cons ⟨rfl, ?_⟩ (ih h2 (fun hk c hc => hm hk c (by simp [hc])))
      unfold joinColDesc at h1
      split at h1
      · next a b ha hb =>
        split at h1
        · rcases hr with hr | ⟨e, _⟩
          · refine valOK_meet h1 (hl.cell ha).2 ?_
            show ValOK b (Expr.cell l c)
            rw [hm hr c (by simp)]
            exact (hr.cell hb).2
          · cases e
        · rw [Option.map_eq_some_iff] at h1
          obtain ⟨_, _, rfl⟩ := h1
          exact (hl.cell ha).2
      · cases h1
    · cases h

theorem joinCols_keys {how : How} {ld rd js : Dict String SparkDesc} {jc : List String}
    (h : joinColDescs how ld rd jc = some js) : Dict.keys js = jc := by
  induction jc generalizing js with
  | nil => simp [joinColDescs] at h; subst h; rfl
  | cons c cs ih =>
    rw [joinColDescs] at h
    split at h
    · next d ds h1 h2 =>
      cases h
      have := ih h2
      simp only [Dict.keys, List.map_cons] at *
      rw [this]
    · cases h

theorem joinCols_mem {how : How} {ld rd js : Dict String SparkDesc} {jc : List String}
    (h : joinColDescs how ld rd jc = some js) : ∀ c ∈ jc, c ∈ Dict.keys rd := by
  induction jc generalizing js with
  | nil => simp
  | cons c cs ih =>
    rw [joinColDescs] at h
    split at h
    · next d ds h1 h2 =>
      intro x hx
      rcases List.mem_cons.1 hx with rfl | hx
      · unfold joinColDesc at h1
        split at h1
        · next a b ha hb => exact Dict.get_isSome.1 (by simp [hb])
        · cases h1
      · exact ih h2 x hx
    · cases h

theorem forall₂_overlap {how : How} {ld rd : Dict String SparkDesc} {l r : Row} (hl : RowOK ld l)
    (hr : RightOK how rd r) {cs : List String} (h : ∀ c ∈ cs, c ∈ Dict.keys ld ∧ c ∈ Dict.keys rd) :
    List.Forall₂ (fun p q => p.1 = q.1 ∧ ValOK p.2 q.2) (overlapDescs how ld rd cs)
      (cs.flatMap (fun c => [(c ++ "_left", cell l c), (c ++ "_right", cell r c)])) := by
  induction cs with
  | nil => exact .nil
  | cons x xs ih =>
    obtain ⟨a, ha⟩ := Option.isSome_iff_exists.1 (Dict.get_isSome.2 (h x (by simp)).1)
    obtain ⟨b, hb⟩ := Option.isSome_iff_exists.1 (Dict.get_isSome.2 (h x (by simp)).2)
    have t := ih (fun c hc => h c (by simp [hc]))
    have e : overlapDescs how ld rd (x :: xs)
        = (x ++ "_left", a) :: (x ++ "_right", rightDesc how b) :: overlapDescs how ld rd xs := by
      simp [overlapDescs, ha, hb]
    rw [e, List.flatMap_cons]
    exact .cons ⟨rfl, (hl.cell ha).2⟩ (.cons ⟨rfl, hr.cell hb⟩ t)

theorem overlap_mem {lk rk jc : List String} {c : String} (h : c ∈ overlap lk rk jc) :
    c ∈ lk ∧ c ∈ rk ∧ c ∉ jc := by
  simp only [overlap, common, List.mem_filter, decide_eq_true_eq] at h
  exact ⟨h.1.1, h.1.2, h.2⟩

theorem overlapDescs_keys {how : How} {ld rd : Dict String SparkDesc} {cs : List String}
    (h : ∀ c ∈ cs, c ∈ Dict.keys ld ∧ c ∈ Dict.keys rd) :
    Dict.keys (overlapDescs how ld rd cs) = cs.flatMap (fun c => [c ++ "_left", c ++ "_right"]) := by
  induction cs with
  | nil => rfl
  | cons x xs ih =>
    obtain ⟨a, ha⟩ := Option.isSome_iff_exists.1 (Dict.get_isSome.2 (h x (by simp)).1)
    obtain ⟨b, hb⟩ := Option.isSome_iff_exists.1 (Dict.get_isSome.2 (h x (by simp)).2)
    have := ih (fun c hc => h c (by simp [hc]))
    unfold overlapDescs Dict.keys at *
    simp [ha, hb, this]

/-- The domain of a join has the join's columns. -/
theorem domainAfterJoin_keys {how : How} {ld rd dom : Dict String SparkDesc} {jc : List String}
    (h : domainAfterJoin how ld rd jc = .ok dom) :
    Dict.keys dom = joinKeys (Dict.keys ld) (Dict.keys rd) jc ∧ Dict.WF dom := by
  unfold domainAfterJoin at h
  split at h
  · next nd =>
    split at h
    · next js hj =>
      cases h
      have e : Dict.keys (js ++ pick ld ((Dict.keys ld).filter (fun c => decide (c ∉ Dict.keys rd))) ++
          (pick rd ((Dict.keys rd).filter (fun c => decide (c ∉ Dict.keys ld)))).map
            (fun p => (p.1, rightDesc how p.2)) ++
          overlapDescs how ld rd (overlap (Dict.keys ld) (Dict.keys rd) jc))
          = joinKeys (Dict.keys ld) (Dict.keys rd) jc := by
        rw [Dict.keys_append, Dict.keys_append, Dict.keys_append, joinCols_keys hj,
          keys_mapVal' _ (fun p => rightDesc how p.2), pick_keys, pick_keys, overlapDescs_keys]
        · rfl
        · exact fun c hc => ⟨(overlap_mem hc).1, (overlap_mem hc).2.1⟩
        · exact fun c hc => (List.mem_filter.1 hc).1
        · exact fun c hc => (List.mem_filter.1 hc).1
      refine ⟨e, ?_⟩
      rw [Dict.wf_iff, e]
      exact nd
    · cases h
  · cases h

/-- Rows of a join conform to its domain. -/
theorem rowOK_join {how : How} {ld rd dom : Dict String SparkDesc} {jc : List String} {l r : Row}
    (h : domainAfterJoin how ld rd jc = .ok dom) (hl : RowOK ld l) (hr : RightOK how rd r)
    (hm : RowOK rd r → ∀ c ∈ jc, cell l c = cell r c) :
    RowOK dom (joinRow (Dict.keys ld) (Dict.keys rd) jc l r) := by
  refine rowOK_of_forall₂ (domainAfterJoin_keys h).2 ?_
  unfold domainAfterJoin at h
  split at h
  · split at h
    · next js hj =>
      cases h
      unfold joinRow
      refine List.rel_append (List.rel_append (List.rel_append ?_ ?_) ?_) ?_
      · exact forall₂_joinCols hj hl hr hm
      · exact forall₂_pick hl (fun c hc => (List.mem_filter.1 hc).1)
      · rw [List.forall₂_map_left_iff]
        generalize hcs : (Dict.keys rd).filter (fun c => decide (c ∉ Dict.keys ld)) = cs
        have hsub : ∀ c ∈ cs, c ∈ Dict.keys rd := by
          subst hcs; exact fun c hc => (List.mem_filter.1 hc).1
        clear hcs
        induction cs with
        | nil => exact .nil
        | cons x xs ih =>
          obtain ⟨v, hv⟩ := Option.isSome_iff_exists.1 (Dict.get_isSome.2 (hsub x (by simp)))
          have e : pick rd (x :: xs) = (x, v) :: pick rd xs := by simp [pick, hv]
          rw [e, List.map_cons]
          exact .cons ⟨rfl, hr.cell hv⟩ (ih (fun c hc => hsub c (by simp [hc])))
      · exact forall₂_overlap hl hr (fun c hc => ⟨(overlap_mem hc).1, (overlap_mem hc).2.1⟩)
    · cases h
  · cases h

end Verif.Expr
