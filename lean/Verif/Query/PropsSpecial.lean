import Verif.Query.Clean
import Verif.Expr.PropsSchema
import Verif.Constraint.Truncate

/-!
# C29: special values are handled before aggregation
-/

namespace Verif.Query

open Verif Verif.Schema Verif.Expr Verif.Constraint Verif.Budget

/-! ## Specification -/

/-- An ordinary number. -/
def Number : Value → Prop
  | .int _ => True
  | .dec (.fin _) => True
  | _ => False

def setCell (r : Row) (c : String) (v : Value) : Row := r.map (fun p => if p.1 = c then (c, v) else p)

/-- What becomes of a row when column `c` is aggregated: it is dropped if the value is null or NaN; infinities are
replaced by the bounds, as floats, if there are any, and otherwise dropped. -/
def cleanRow (bounds : Option (Value × Value)) (c : String) (r : Row) : Option Row :=
  match cell r c with
  | .null => none
  | .dec .nan => none
  | .dec .ninf => bounds.map (fun b => setCell r c (toFloat b.1))
  | .dec .pinf => bounds.map (fun b => setCell r c (toFloat b.2))
  | _ => some r

/-! ## Lemmas -/

theorem filter_filter_drop (t : Table) {c : String} {dom : Dict String SparkDesc} {ds : SparkDesc}
    (hd : Dict.get dom c = some ds) (ht : ∀ r ∈ t, RowOK dom r) :
    dropRows isNan (having allowsNan dom [c]) (dropRows isNull (having SparkDesc.allowNull dom [c]) t)
      = t.filter (fun r => !isNull (cell r c) && !isNan (cell r c)) := by
  unfold dropRows
  rw [List.filter_filter]
  apply List.filter_congr
  intro r hr
  have hv := ((ht r hr).cell hd).2
  have h1 : (having allowsNan dom [c]).all (fun c => !isNan (cell r c)) = !isNan (cell r c) := by
    unfold having
    rw [List.filter_cons, hd]
    simp only [Option.any_some]
    split
    · simp
    · next hn =>
      have : isNan (cell r c) = false := by
        cases hx : isNan (cell r c) with
        | false => rfl
        | true =>
          have e : cell r c = .dec .nan := by simpa [isNan] using hx
          rw [e] at hv
          cases ds <;> simp [ValOK, DescOK, ofSparkDesc, allowsNan] at hv hn
          simp [hv] at hn
      rw [this]
      simp
  have h2 : (having SparkDesc.allowNull dom [c]).all (fun c => !isNull (cell r c)) = !isNull (cell r c) := by
    unfold having
    rw [List.filter_cons, hd]
    simp only [Option.any_some]
    split
    · simp
    · next hn =>
      have : isNull (cell r c) = false := by
        cases hx : isNull (cell r c) with
        | false => rfl
        | true =>
          have e : cell r c = .null := by simpa [isNull] using hx
          rw [e] at hv
          cases ds <;> simp [ValOK, DescOK, ofSparkDesc, SparkDesc.allowNull] at hv hn <;> simp [hv] at hn
      rw [this]
      simp
  rw [h1, h2, Bool.and_comm]

theorem cell_of_mem {r : Row} (w : Dict.WF r) {p : String × Value} (hp : p ∈ r) : cell r p.1 = p.2 := by
  have : Dict.get r p.1 = some p.2 := (Dict.get_eq_some w).2 hp
  show (Dict.get r p.1).getD .null = p.2
  rw [this]
  rfl

theorem replaceRow_one {p : Value → Bool} {c : String} {x : Value} {r : Row} (w : Dict.WF r) :
    replaceRow p [(c, x)] r = if p (cell r c) then setCell r c x else r := by
  unfold replaceRow setCell
  split
  · next hp =>
    apply List.map_congr_left
    intro q hq
    by_cases hc : q.1 = c
    · have e := cell_of_mem w hq
      rw [hc] at e
      rw [if_pos hc, ← e, if_pos hp]
      simp [Dict.get_cons, hc]
    · rw [if_neg hc]
      split
      · simp [Dict.get_cons, hc]
      · rfl
  · next hp =>
    conv_rhs => rw [← List.map_id r]
    apply List.map_congr_left
    intro q hq
    split
    · next hq' =>
      by_cases hc : q.1 = c
      · have e := cell_of_mem w hq
        rw [hc] at e
        rw [← e] at hq'
        exact absurd hq' hp
      · simp [Dict.get_cons, hc]
    · rfl

theorem keys_setCell (r : Row) (c : String) (v : Value) : Dict.keys (setCell r c v) = Dict.keys r := by
  unfold Dict.keys setCell
  rw [List.map_map]
  apply List.map_congr_left
  intro q _
  simp only [Function.comp]
  split
  · next h => exact h.symm
  · rfl

theorem wf_setCell {r : Row} (w : Dict.WF r) (c : String) (v : Value) : Dict.WF (setCell r c v) := by
  rw [Dict.wf_iff, keys_setCell]
  exact w

theorem cell_setCell {r : Row} {c : String} (hc : c ∈ Dict.keys r) (v : Value) : cell (setCell r c v) c = v := by
  have : Dict.get (setCell r c v) c = some v := by
    unfold setCell
    induction r with
    | nil => simp [Dict.keys] at hc
    | cons p r ih =>
      rw [List.map_cons]
      by_cases h : p.1 = c
      · rw [if_pos h]
        simp [Dict.get_cons]
      · rw [if_neg h, Dict.get_cons, if_neg (Ne.symm h)]
        apply ih
        simp only [Dict.keys, List.map_cons, List.mem_cons] at hc ⊢
        rcases hc with rfl | hc
        · exact absurd rfl h
        · exact hc
  show (Dict.get _ c).getD .null = v
  rw [this]
  rfl

theorem replaceInf_one {c : String} {b : Value × Value} {r : Row} (w : Dict.WF r) (hc : c ∈ Dict.keys r)
    (hb : toFloat b.1 ≠ .dec .pinf) :
    replaceInfRow [(c, (toFloat b.1, toFloat b.2))] r =
      if isNinf (cell r c) then setCell r c (toFloat b.1)
      else if isPinf (cell r c) then setCell r c (toFloat b.2) else r := by
  unfold replaceInfRow
  simp only [List.map_cons, List.map_nil]
  rw [replaceRow_one (p := isNinf) w]
  by_cases h1 : isNinf (cell r c) = true
  · rw [if_pos h1, if_pos h1, replaceRow_one (wf_setCell w _ _), cell_setCell hc]
    rw [if_neg (by simpa [isPinf] using hb)]
  · rw [if_neg h1, if_neg h1, replaceRow_one w]

theorem cleanRow_number {b : Option (Value × Value)} {c : String} {r : Row} (h : Number (cell r c)) :
    cleanRow b c r = some r := by
  unfold cleanRow
  split
  · next e => rw [e] at h; exact h.elim
  · next e => rw [e] at h; exact h.elim
  · next e => rw [e] at h; exact h.elim
  · next e => rw [e] at h; exact h.elim
  · rfl

theorem compile_nullStep {h : Hash} {cat : Cat} {d : Desc} {c : String} {e : Expr} {o1 : Out}
    (h1 : compile h cat (nullStep d c e) = .ok o1) :
    ∃ o, compile h cat e = .ok o ∧
      ∀ D, (∀ r ∈ o.run D, RowOK o.dom r) → c ∈ Dict.keys o.dom →
        o1.run D = if d.allowNull || (decide (d.ty = .DECIMAL) && d.allowNan) then
          (o.run D).filter (fun r => !isNull (cell r c) && !isNan (cell r c)) else o.run D := by
  unfold nullStep at h1
  split at h1
  · next hd =>
    obtain ⟨o, ho, h2⟩ := bind_ok h1
    refine ⟨o, ho, fun D hr hk => ?_⟩
    rw [if_pos hd]
    obtain ⟨_, _, rfl⟩ := visitDropNull_ok h2
    obtain ⟨ds, hds⟩ := Option.isSome_iff_exists.1 (Dict.get_isSome.2 hk)
    exact filter_filter_drop _ hds hr
  · next hd => exact ⟨o1, h1, fun D _ _ => by rw [if_neg hd]⟩

def infTable (b : Option (Value × Value)) (c : String) (t : Table) : Table :=
  match b with
  | some x => t.map (replaceInfRow [(c, (toFloat x.1, toFloat x.2))])
  | none => t.filter (fun r => !(isPinf (cell r c) || isNinf (cell r c)))

theorem compile_infStep {h : Hash} {cat : Cat} {b : Option (Value × Value)} {d : Desc} {c : String} {e : Expr}
    {o2 : Out} (h2 : compile h cat (infStep b d c e) = .ok o2) :
    ∃ o1, compile h cat e = .ok o1 ∧
      ∀ D, o2.run D = if decide (d.ty = .DECIMAL) && d.allowInf then
          infTable b c (o1.run D) else o1.run D := by
  unfold infStep at h2
  split at h2
  · next hd =>
    split at h2
    · obtain ⟨o, ho, h3⟩ := bind_ok h2
      refine ⟨o, ho, fun D => ?_⟩
      rw [if_pos hd]
      obtain ⟨_, rfl⟩ := visitReplaceInf_ok h3
      rfl
    · obtain ⟨o, ho, h3⟩ := bind_ok h2
      refine ⟨o, ho, fun D => ?_⟩
      rw [if_pos hd]
      obtain ⟨_, rfl⟩ := visitDropInf_ok h3
      show dropRows (fun v => isPinf v || isNinf v) (dropInfCols [c] o.dom) (o.run D) = infTable none c (o.run D)
      unfold dropRows dropInfCols infTable
      simp
  · next hd => exact ⟨o2, h2, fun D => by rw [if_neg hd]⟩

theorem toFloat_valid {v : Value} (h1 : typeOK .DECIMAL v = true) (h2 : validReplacement v = true) :
    Number (toFloat v) := by
  cases v with
  | dec x => cases x <;> simp_all [validReplacement, toFloat, Number]
  | int z => trivial
  | _ => simp [typeOK] at h1

theorem Number.ne {v : Value} (h : Number v) :
    isNull v = false ∧ isNan v = false ∧ isPinf v = false ∧ isNinf v = false := by
  cases v with
  | dec x => cases x <;> simp_all [Number, isNull, isNan, isPinf, isNinf]
  | int z => simp [isNull, isNan, isPinf, isNinf]
  | _ => exact h.elim

/-- The rows that reach the aggregation, given that they hold numbers only. -/
theorem clean_run {b : Option (Value × Value)} {nul inf : Bool} {c : String} {t t1 t2 : Table}
    (hrow : ∀ r ∈ t, Dict.WF r ∧ c ∈ Dict.keys r)
    (hb : inf = true → ∀ x, b = some x → Number (toFloat x.1) ∧ Number (toFloat x.2))
    (h1 : t1 = if nul then t.filter (fun r => !isNull (cell r c) && !isNan (cell r c)) else t)
    (h2 : t2 = if inf then infTable b c t1 else t1)
    (hn : ∀ r ∈ t2, Number (cell r c)) : t2 = t.filterMap (cleanRow b c) := by
  -- without a step for nulls there are none
  have n1 : nul = false → ∀ r ∈ t, isNull (cell r c) = false ∧ isNan (cell r c) = false := by
    intro hf r hr
    have hr1 : r ∈ t1 := by rw [h1, hf]; exact hr
    by_cases hi : isPinf (cell r c) = true ∨ isNinf (cell r c) = true
    · rcases hi with hi | hi
      · have e : cell r c = .dec .pinf := by simpa [isPinf] using hi
        rw [e]; decide
      · have e : cell r c = .dec .ninf := by simpa [isNinf] using hi
        rw [e]; decide
    · rw [not_or, Bool.not_eq_true, Bool.not_eq_true] at hi
      have hr2 : r ∈ t2 := by
        rw [h2]
        cases inf with
        | false => exact hr1
        | true =>
          rw [if_pos rfl]
          cases b with
          | none =>
            unfold infTable
            rw [List.mem_filter]
            exact ⟨hr1, by simp [hi.1, hi.2]⟩
          | some x =>
            unfold infTable
            rw [List.mem_map]
            refine ⟨r, hr1, ?_⟩
            obtain ⟨w, hc⟩ := hrow r hr
            rw [replaceInf_one w hc, hi.1, hi.2]
            · simp
            · have := (hb rfl x rfl).1.ne.2.2.1
              simpa [isPinf] using this
      exact ⟨(hn r hr2).ne.1, (hn r hr2).ne.2.1⟩
  have e1 : t1 = t.filter (fun r => !isNull (cell r c) && !isNan (cell r c)) := by
    cases nul with
    | true => rw [h1, if_pos rfl]
    | false =>
      rw [h1, if_neg (by simp)]
      symm
      rw [List.filter_eq_self]
      intro r hr
      obtain ⟨a, b⟩ := n1 rfl r hr
      simp [a, b]
  have n2 : inf = false → ∀ r ∈ t1, isPinf (cell r c) = false ∧ isNinf (cell r c) = false := by
    intro hf r hr
    have hr2 : r ∈ t2 := by rw [h2, hf]; exact hr
    exact ⟨(hn r hr2).ne.2.2.1, (hn r hr2).ne.2.2.2⟩
  have hsub : ∀ r ∈ t1, r ∈ t := fun r hr => by
    rw [e1] at hr
    exact (List.mem_filter.1 hr).1
  have e2 : t2 = t1.filterMap (cleanRow b c) := by
    have key : ∀ r ∈ t1, isNull (cell r c) = false ∧ isNan (cell r c) = false := by
      intro r hr
      rw [e1] at hr
      simpa using (List.mem_filter.1 hr).2
    have plain : ∀ r ∈ t1, isPinf (cell r c) = false → isNinf (cell r c) = false → cleanRow b c r = some r := by
      intro r hr a1 a2
      obtain ⟨a3, a4⟩ := key r hr
      unfold cleanRow
      split
      · next e => rw [e] at a3; cases a3
      · next e => rw [e] at a4; cases a4
      · next e => rw [e] at a2; cases a2
      · next e => rw [e] at a1; cases a1
      · rfl
    cases inf with
    | false =>
      rw [h2, if_neg (by simp)]
      symm
      conv_rhs => rw [← List.filterMap_some (l := t1)]
      apply List.filterMap_congr
      intro r hr
      obtain ⟨a, b⟩ := n2 rfl r hr
      exact plain r hr a b
    | true =>
      rw [h2, if_pos rfl]
      unfold infTable
      cases b with
      | none =>
        rw [← List.filterMap_eq_filter]
        apply List.filterMap_congr
        intro r hr
        unfold Option.guard
        by_cases hi : isPinf (cell r c) = true
        · have e : cell r c = .dec .pinf := by simpa [isPinf] using hi
          simp [cleanRow, e, isPinf, isNinf]
        · by_cases hj : isNinf (cell r c) = true
          · have e : cell r c = .dec .ninf := by simpa [isNinf] using hj
            simp [cleanRow, e, isPinf, isNinf]
          · rw [Bool.not_eq_true] at hi hj
            rw [plain r hr hi hj]
            simp [hi, hj]
      | some x =>
        show t1.map (replaceInfRow [(c, (toFloat x.1, toFloat x.2))]) = _
        rw [← List.filterMap_eq_map]
        apply List.filterMap_congr
        intro r hr
        obtain ⟨w, hc⟩ := hrow r (hsub r hr)
        have hx := (hb rfl x rfl).1.ne.2.2.1
        simp only [Function.comp]
        rw [replaceInf_one w hc (by simpa [isPinf] using hx)]
        by_cases hj : isNinf (cell r c) = true
        · have e : cell r c = .dec .ninf := by simpa [isNinf] using hj
          rw [if_pos hj]
          simp [cleanRow, e]
        · rw [if_neg hj]
          by_cases hi : isPinf (cell r c) = true
          · have e : cell r c = .dec .pinf := by simpa [isPinf] using hi
            rw [if_pos hi]
            simp [cleanRow, e]
          · rw [if_neg hi]
            rw [Bool.not_eq_true] at hi hj
            rw [plain r hr hi hj]
  rw [e2, e1, List.filterMap_filter]
  apply List.filterMap_congr
  intro r _
  split
  · rfl
  · next hx =>
    rw [Bool.and_eq_true, not_and_or] at hx
    rcases hx with hx | hx
    · have e : cell r c = .null := by simpa [isNull] using hx
      simp [cleanRow, e]
    · have e : cell r c = .dec .nan := by simpa [isNan] using hx
      simp [cleanRow, e]

theorem visitChild_build {h : Hash} {cat : Cat} {e : Expr} {o : Out} (ho : visitChild h cat e = .ok o) :
    ∃ s, build h cat e = .ok (s, o) := by
  unfold visitChild at ho
  split at ho
  · cases ho
  · next o' h1 =>
    split at ho
    · cases ho
    · next s h2 =>
      split at ho
      · cases ho
      · next h3 =>
        cases ho
        exact ⟨s, by simp only [build, h1, h2, h3]⟩

theorem get_keeps {s s' : Schema} {g : String × Desc → Desc} (ks : Keeps s' s g) (w : s'.WF) {c : String} {d : Desc}
    (hd : Dict.get s'.descs c = some d) : Dict.get s.descs c = some (g (c, d)) := by
  rw [Schema.descs_eq ks.wf, ks.elems, get_mapVal, ← Schema.descs_eq w, hd]
  rfl

theorem nullStep_desc {cat : Cat} {d : Desc} {c : String} {e : Expr} {s s1 : Schema} (w : s.WF)
    (hs : schemaOf cat e = .ok s) (hd : Dict.get s.descs c = some d)
    (h1 : schemaOf cat (nullStep d c e) = .ok s1) :
    ∃ d1, Dict.get s1.descs c = some d1 ∧ d1.ty = d.ty ∧ d1.allowNull = false ∧
      (d.ty = .DECIMAL → d1.allowNan = false) ∧ d1.allowInf = d.allowInf := by
  unfold nullStep at h1
  split at h1
  · obtain ⟨s0, h0, h2⟩ := bind_ok h1
    rw [hs] at h0
    cases h0
    obtain ⟨ks, _⟩ := schDropNull_ok w h2
    refine ⟨_, get_keeps ks w hd, rfl, ?_, fun _ => ?_, rfl⟩
    · simp [noNull, nullCols]
    · simp [noNull, nullCols]
  · next hn =>
    rw [hs] at h1
    cases h1
    rw [Bool.or_eq_true, not_or, Bool.and_eq_true, not_and] at hn
    refine ⟨d, hd, rfl, by simpa using hn.1, fun ht => ?_, rfl⟩
    simpa using hn.2 (by simpa using ht)

theorem infStep_desc {cat : Cat} {b : Option (Value × Value)} {d d1 : Desc} {c : String} {e : Expr} {s1 s2 : Schema}
    (w : s1.WF) (hs : schemaOf cat e = .ok s1) (hd : Dict.get s1.descs c = some d1) (hi : d1.allowInf = d.allowInf)
    (h2 : schemaOf cat (infStep b d c e) = .ok s2) :
    ∃ d2, Dict.get s2.descs c = some d2 ∧ d2.ty = d1.ty ∧ d2.allowNull = d1.allowNull ∧
      d2.allowNan = d1.allowNan ∧ (d.ty = .DECIMAL → d2.allowInf = false) ∧
      ((decide (d.ty = .DECIMAL) && d.allowInf) = true → ∀ x, b = some x →
        Number (toFloat x.1) ∧ Number (toFloat x.2)) := by
  unfold infStep at h2
  split at h2
  · next hyes =>
    split at h2
    · next x =>
      obtain ⟨s0, h0, h2⟩ := bind_ok h2
      rw [hs] at h0
      cases h0
      obtain ⟨ks, hv, _⟩ := schReplaceInf_ok w h2
      refine ⟨_, get_keeps ks w hd, rfl, rfl, rfl, fun _ => by simp [noInf, infCols, Dict.keys], fun _ y hy => ?_⟩
      cases hy
      obtain ⟨a1, a2, a3, a4⟩ := hv (c, x) (List.mem_singleton.2 rfl)
      exact ⟨toFloat_valid a1 a2, toFloat_valid a3 a4⟩
    · obtain ⟨s0, h0, h2⟩ := bind_ok h2
      rw [hs] at h0
      cases h0
      obtain ⟨ks, _⟩ := schDropInf_ok w h2
      exact ⟨_, get_keeps ks w hd, rfl, rfl, rfl, fun _ => by simp [noInf, infCols], fun _ _ hx => by cases hx⟩
  · next hn =>
    rw [hs] at h2
    cases h2
    refine ⟨d1, hd, rfl, rfl, rfl, fun ht => ?_, fun h => absurd h hn⟩
    rw [Bool.and_eq_true, not_and] at hn
    rw [hi]
    simpa using hn (by simpa using ht)

theorem number_of_desc {d : Desc} {v : Value} (h : DescOK d v) (ht : d.ty = .INTEGER ∨ d.ty = .DECIMAL)
    (h1 : d.allowNull = false) (h2 : d.ty = .DECIMAL → d.allowNan = false ∧ d.allowInf = false) : Number v := by
  cases v with
  | null => rw [DescOK, h1] at h; cases h
  | int z => trivial
  | dec x =>
    cases x with
    | fin q => trivial
    | nan => obtain ⟨a, b⟩ := h; rw [(h2 a).1] at b; cases b
    | pinf => obtain ⟨a, b⟩ := h; rw [(h2 a).2] at b; cases b
    | ninf => obtain ⟨a, b⟩ := h; rw [(h2 a).2] at b; cases b
  | str x => rw [DescOK] at h; rw [h] at ht; rcases ht with ht | ht <;> cases ht
  | date x => rw [DescOK] at h; rw [h] at ht; rcases ht with ht | ht <;> cases ht
  | ts x => rw [DescOK] at h; rw [h] at ht; rcases ht with ht | ht <;> cases ht

theorem steps_ok {b : Option (Value × Value)} {d : Desc} {c : String} {e : Expr} (he : e.WF) (hf : e.FnsOK)
    (hr : e.RenamesDistinct) :
    (infStep b d c (nullStep d c e)).WF ∧ (infStep b d c (nullStep d c e)).FnsOK ∧
      (infStep b d c (nullStep d c e)).RenamesDistinct := by
  have h1 : (nullStep d c e).WF ∧ (nullStep d c e).FnsOK ∧ (nullStep d c e).RenamesDistinct := by
    unfold nullStep
    split <;> exact ⟨he, hf, hr⟩
  unfold infStep
  split
  · split
    · exact ⟨⟨h1.1, by simp [Dict.WF]⟩, h1.2.1, h1.2.2⟩
    · exact h1
  · exact h1

theorem measure_type {keys : Keys} {c : String} {s : Schema} (h : validateGroupby keys (some c) s = .ok ()) :
    ∃ d, Dict.get s.descs c = some d ∧ (d.ty = .INTEGER ∨ d.ty = .DECIMAL) ∧ c ∉ keys.columns ∧
      s.idColumn ≠ some c := by
  unfold validateGroupby at h
  split at h
  · cases h
  · split at h
    · cases h
    · dsimp only at h
      split at h
      · cases h
      · next hk =>
        unfold checkMeasure at h
        split at h
        · cases h
        · next d hd =>
          split at h
          · cases h
          · next ht =>
            split at h
            · cases h
            · next hi =>
              refine ⟨d, hd, ?_, hk, hi⟩
              by_contra hn
              rw [not_or] at hn
              exact ht hn

/-- The child of the aggregation of column `c` of a compiled query. -/
theorem prep_run {env : Env} {b : PB} {q : Query} {a : Agg} {p : Plan} {c : String} (hcat : env.cat.OK)
    (hq : q.agg? = some a) (hm : a.kind.measure = some c) (he : a.child.WF) (hf : a.child.FnsOK)
    (hr : a.child.RenamesDistinct) (h : compileQuery env b q = .ok p) :
    ∃ (o o2 : Out) (d : Desc) (s2 : Schema) (col : Option String) (tr : Option Truncation),
      compile env.h env.cat a.child = .ok o ∧ p.child = infStep a.kind.clamp d c (nullStep d c a.child) ∧
      build env.h env.cat p.child = .ok (s2, o2) ∧ o2.metric = o.metric ∧
      truncateOut env.h env.order env.m o2 a.keys.columns = .ok (col, tr, p.prep) ∧
      ∀ D, env.cat.DataOK D → o2.run D = (o.run D).filterMap (cleanRow a.kind.clamp c) ∧
        ∀ r ∈ o2.run D, Number (cell r c) := by
  obtain ⟨a₁, a₂, p₁, _, hrw, hfin, hcomp, hp⟩ := compileQuery_ok hq h
  obtain ⟨a₀, c₀, h1, _, rfl, _, hkind, _⟩ := rewriteAgg_ok hrw
  have hk0 : a₀.kind = a.kind := hkind
  have hnd : ∀ t m, a₀.kind ≠ .countDistinct t m := by
    intro t m hx
    rw [← hk0, hx] at hm
    cases hm
  cases hfin with
  | shortcut hk _ _ _ _ => exact absurd hk (hnd _ _)
  | same =>
    obtain ⟨o2, col, tr, f, hv, ht, _, hpf⟩ := hcomp.prep
    have hpf : p₁.prep = f := by
      rcases hpf with ⟨hpf, _⟩ | ⟨t, m, _, hx, _⟩
      · exact hpf
      · exact absurd hx (hnd _ _)
    have hpp : p.prep = f := by
      rcases hp with ⟨_, rfl⟩ | ⟨_, _, _, _, _, rfl⟩ <;> exact hpf
    rcases specialValues_child h1 with ⟨hn, _⟩ | ⟨c', s, d, hm', hs, hd, rfl⟩
    · rw [hn] at hm; cases hm
    rw [hm] at hm'
    cases hm'
    obtain ⟨s2, hb⟩ := visitChild_build hv
    obtain ⟨hs2, hc2, _, _, hmet⟩ := build_ok hb
    have hb2 : build env.h env.cat (infStep a.kind.clamp d c (nullStep d c a.child)) = .ok (s2, o2) := hb
    replace hs2 : schemaOf env.cat (infStep a.kind.clamp d c (nullStep d c a.child)) = .ok s2 := hs2
    replace hc2 : compile env.h env.cat (infStep a.kind.clamp d c (nullStep d c a.child)) = .ok o2 := hc2
    obtain ⟨s1, hs1⟩ := schemaOf_infStep hs2
    have w := schemaOf_wf hcat a.child he hs
    have w1 := (nullStep_types w hs hs1).2
    have w2 := (infStep_types w1 hs1 hs2).2
    obtain ⟨d1, e1, t1, n1, a1, i1⟩ := nullStep_desc w hs hd hs1
    obtain ⟨d2, e2, t2, n2, a2, i2, bv⟩ := infStep_desc w1 hs1 e1 i1 hs2
    obtain ⟨o1, hc1, hrun2⟩ := compile_infStep hc2
    obtain ⟨o, hc0, hrun1⟩ := compile_nullStep hc1
    obtain ⟨we, fe, re⟩ := steps_ok (b := a.kind.clamp) (d := d) (c := c) he hf hr
    -- the type of the measure
    have hty : d2.ty = .INTEGER ∨ d2.ty = .DECIMAL := by
      obtain ⟨sx, hsx⟩ := hcomp.schema
      unfold Agg.schema at hsx
      dsimp only at hsx
      rw [hs2] at hsx
      dsimp only at hsx
      split at hsx
      · cases hsx
      · next hval =>
        rw [hm] at hval
        obtain ⟨dd, g1, g2, _⟩ := measure_type hval
        rw [e2] at g1
        cases g1
        exact g2
    have ag := agree hcat a.child he hs hc0
    have hkey : c ∈ Dict.keys o.dom := by
      rw [ag.keys]
      exact Dict.get_isSome.1 (by rw [hd]; rfl)
    have main : ∀ D, env.cat.DataOK D → o2.run D = (o.run D).filterMap (cleanRow a.kind.clamp c) ∧
        ∀ r ∈ o2.run D, Number (cell r c) := by
      intro D hD
      have hnum : ∀ r ∈ o2.run D, Number (cell r c) := by
        intro r hrow
        have conf := C19_schema_describes_data_partial hcat hD we fe re hb2
        rw [conforms_iff w2] at conf
        have hg : Dict.get (analyticsToSparkColumns s2) c = some (toSparkDesc d2) := by
          rw [analytics_dom w2, get_mapVal s2.columnDescs.elements (fun p => toSparkDesc p.2),
            ← Schema.descs_eq w2, e2]
          rfl
        have := ((conf r hrow).cell hg).2
        rw [valOK_toSpark] at this
        refine number_of_desc this hty (by rw [n2]; exact n1) (fun hdec => ?_)
        have hdt : d.ty = .DECIMAL := by rw [← t1, ← t2]; exact hdec
        exact ⟨by rw [a2]; exact a1 hdt, i2 hdt⟩
      have rok := rows_conform hcat hD a.child he hf hr hs hc0
      refine ⟨clean_run (t1 := o1.run D) ?_ bv (hrun1 D rok hkey) (hrun2 D) hnum, hnum⟩
      intro r hrow
      exact ⟨(rok r hrow).1, ((rok r hrow).mem_cols c).2 hkey⟩
    have hmeto : o2.metric = o.metric := by
      have m1 : o1.metric = o.metric := by
        unfold nullStep at hc1
        split at hc1
        · obtain ⟨o', x1, x2⟩ := bind_ok hc1
          rw [hc0] at x1
          cases x1
          obtain ⟨_, _, rfl⟩ := visitDropNull_ok x2
          rfl
        · rw [hc0] at hc1
          cases hc1
          rfl
      have m2 : o2.metric = o1.metric := by
        unfold infStep at hc2
        split at hc2
        · split at hc2
          · obtain ⟨o', x1, x2⟩ := bind_ok hc2
            rw [hc1] at x1
            cases x1
            obtain ⟨_, rfl⟩ := visitReplaceInf_ok x2
            rfl
          · obtain ⟨o', x1, x2⟩ := bind_ok hc2
            rw [hc1] at x1
            cases x1
            obtain ⟨_, rfl⟩ := visitDropInf_ok x2
            rfl
        · rw [hc1] at hc2
          cases hc2
          rfl
      rw [m2, m1]
    have hch : p.child = infStep a.kind.clamp d c (nullStep d c a.child) := by
      rcases hp with ⟨_, rfl⟩ | ⟨_, _, _, _, _, rfl⟩ <;> exact hcomp.child
    exact ⟨o, o2, d, s2, col, tr, hc0, hch, hch ▸ hb2, hmeto, hpp ▸ ht, main⟩

/-- The table that reaches the aggregation of column `c` of a compiled query. -/
theorem prep_clean {env : Env} {b : PB} {q : Query} {a : Agg} {p : Plan} {c : String} (hcat : env.cat.OK)
    (hq : q.agg? = some a) (hm : a.kind.measure = some c) (he : a.child.WF) (hf : a.child.FnsOK)
    (hr : a.child.RenamesDistinct) (h : compileQuery env b q = .ok p) :
    ∃ (o : Out) (tr : Table → Table), compile env.h env.cat a.child = .ok o ∧ (∀ t, List.Subperm (tr t) t) ∧
      ((∀ i, o.metric ≠ .ids i) → ∀ t, tr t = t) ∧
      ∀ D, env.cat.DataOK D → p.prep D = tr ((o.run D).filterMap (cleanRow a.kind.clamp c)) ∧
        ∀ r ∈ (o.run D).filterMap (cleanRow a.kind.clamp c), Number (cell r c) := by
  obtain ⟨o, o2, _, _, col, tr, hc0, _, _, hmeto, ht, main⟩ := prep_run hcat hq hm he hf hr h
  generalize hpp : p.prep = f at ht
  unfold truncateOut at ht
  split at ht
  · next i hi =>
    split at ht
    · cases ht
    · next tr _ =>
      cases ht
      refine ⟨o, applyTruncation env.h i tr, hc0, fun t => applyTruncation_subperm _ _ _ _, ?_, ?_⟩
      · intro hno
        exact absurd (hmeto ▸ hi) (hno i)
      · intro D hD
        obtain ⟨m1, m2⟩ := main D hD
        dsimp only
        rw [← m1]
        exact ⟨rfl, m2⟩
  · cases ht
    refine ⟨o, id, hc0, fun t => List.Subperm.refl _, fun _ _ => rfl, ?_⟩
    intro D hD
    obtain ⟨m1, m2⟩ := main D hD
    rw [← m1]
    exact ⟨rfl, m2⟩

/-! ## C29 -/

/-- **C29** (partial, see below). When column `c` is aggregated, the rows that reach the aggregation are those of the
query with nulls and NaNs in `c` dropped and infinities replaced by the clamping bounds (dropped for `get_bounds`),
possibly after truncation of an ID table.

Partial: renames that give two columns the same new name are excluded, see `C19_fails`. -/
theorem C29_special_values_partial (env : Env) (b : PB) (q : Query) (a : Agg) (p : Plan) (c : String)
    (hcat : env.cat.OK) (hq : q.agg? = some a) (hm : a.kind.measure = some c) (he : a.child.WF)
    (hf : a.child.FnsOK) (hr : a.child.RenamesDistinct) (h : compileQuery env b q = .ok p) :
    ∃ (o : Out) (tr : Table → Table), compile env.h env.cat a.child = .ok o ∧ (∀ t, List.Subperm (tr t) t) ∧
      ((∀ i, o.metric ≠ .ids i) → ∀ t, tr t = t) ∧
      ∀ D, env.cat.DataOK D → p.prep D = tr ((o.run D).filterMap (cleanRow a.kind.clamp c)) ∧
        ((∀ r ∈ o.run D, Number (cell r c)) → p.prep D = tr (o.run D)) := by
  obtain ⟨o, tr, h1, h2, h3, h4⟩ := prep_clean hcat hq hm he hf hr h
  refine ⟨o, tr, h1, h2, h3, fun D hD => ⟨(h4 D hD).1, fun hall => ?_⟩⟩
  rw [(h4 D hD).1]
  congr 1
  conv_rhs => rw [← List.filterMap_some (l := o.run D)]
  exact List.filterMap_congr (fun r hrow => cleanRow_number (hall r hrow))

/-- **C29** (partial, as above). Only numbers reach the aggregation. -/
theorem C29_numbers_only_partial (env : Env) (b : PB) (q : Query) (a : Agg) (p : Plan) (c : String)
    (hcat : env.cat.OK) (hq : q.agg? = some a) (hm : a.kind.measure = some c) (he : a.child.WF)
    (hf : a.child.FnsOK) (hr : a.child.RenamesDistinct) (h : compileQuery env b q = .ok p) (D : Data)
    (hD : env.cat.DataOK D) : ∀ r ∈ p.prep D, Number (cell r c) := by
  obtain ⟨o, tr, _, h2, _, h4⟩ := prep_clean hcat hq hm he hf hr h
  intro r hrow
  rw [(h4 D hD).1] at hrow
  exact (h4 D hD).2 r ((h2 _).subset hrow)

end Verif.Query
