import Verif.Expr.Types

/-!
# C19: the schema of a query describes its data
-/

namespace Verif.Expr

open Verif Verif.Schema Verif.Constraint

/-! ## Hypotheses of C19 -/

/-- New columns may contain nulls whatever the user declared. -/
def withNulls (new : Schema) : Dict String Desc :=
  new.columnDescs.elements.map (fun p => (p.1, { p.2 with allowNull := true }))

/-- The functions given by the user return rows as declared, and data frames given for public joins conform to
their schemas. -/
def Expr.FnsOK : Expr → Prop
  | .source _ => True
  | .rename e _ => e.FnsOK
  | .filter e _ _ => e.FnsOK
  | .select e _ => e.FnsOK
  | .map e f new _ => e.FnsOK ∧ ∀ r, RowFits (withNulls new) (f r)
  | .flatMap e f new _ _ => e.FnsOK ∧ ∀ r, ∀ x ∈ f r, RowFits (withNulls new) x
  | .flatMapByID e f new => e.FnsOK ∧ ∀ t, ∀ x ∈ f t, RowFits (withNulls new) x
  | .joinPrivate l r _ _ _ => l.FnsOK ∧ r.FnsOK
  | .joinPublic e pub _ _ => e.FnsOK ∧ match pub with
    | .name _ => True
    | .df s t => Conforms s t
  | .replaceNull e _ => e.FnsOK
  | .replaceInf e _ => e.FnsOK
  | .dropNull e _ => e.FnsOK
  | .dropInf e _ => e.FnsOK
  | .enforce e _ => e.FnsOK

/-- No rename gives two columns the same new name. -/
def Expr.RenamesDistinct : Expr → Prop
  | .source _ => True
  | .rename e m => e.RenamesDistinct ∧ (m.map Prod.snd).Nodup
  | .filter e _ _ => e.RenamesDistinct
  | .select e _ => e.RenamesDistinct
  | .map e _ _ _ => e.RenamesDistinct
  | .flatMap e _ _ _ _ => e.RenamesDistinct
  | .flatMapByID e _ _ => e.RenamesDistinct
  | .joinPrivate l r _ _ _ => l.RenamesDistinct ∧ r.RenamesDistinct
  | .joinPublic e _ _ _ => e.RenamesDistinct
  | .replaceNull e _ => e.RenamesDistinct
  | .replaceInf e _ => e.RenamesDistinct
  | .dropNull e _ => e.RenamesDistinct
  | .dropInf e _ => e.RenamesDistinct
  | .enforce e _ => e.RenamesDistinct

/-- The tables of the session conform to their schemas. -/
structure Cat.DataOK (cat : Cat) (D : Data) : Prop where
  priv : ∀ id s cs, Dict.get cat.priv id = some (s, cs) → Conforms s (D id)
  pub : ∀ id s t, Dict.get cat.pub id = some (s, t) → Conforms s t

/-! ## Rows of each transformation -/

theorem withNulls_eq {new : Schema} (w : new.WF) : withNulls new = nullable new := by
  unfold withNulls nullable
  rw [Schema.descs_eq w]

theorem newDescs_eq {new : Schema} (w : new.WF) :
    newDescs new = (withNulls new).map (fun p => (p.1, toSparkDesc p.2)) := by
  unfold newDescs withNulls
  rw [analytics_dom w, List.map_map, List.map_map]
  apply List.map_congr_left
  rintro ⟨c, t, a, b, d⟩ _
  cases t <;> rfl

theorem rowOK_new {new : Schema} (w : new.WF) {r : Row} (h : RowFits (withNulls new) r) :
    RowOK (newDescs new) r := by
  rw [newDescs_eq w, rowOK_iff]
  · exact h
  · rw [withNulls_eq w]; exact wf_nullable w

theorem rowOK_append {a b : Dict String SparkDesc} {r x : Row} (hr : RowOK a r) (hx : RowOK b x)
    (dis : ∀ c ∈ Dict.keys b, c ∉ Dict.keys a) : RowOK (a ++ b) (r ++ x) := by
  refine ⟨?_, fun c => ?_⟩
  · rw [Dict.wf_iff, Dict.keys_append, List.nodup_append]
    refine ⟨hr.1, hx.1, ?_⟩
    intro c hc d hd e
    subst e
    exact dis c ((hx.mem_cols c).1 hd) ((hr.mem_cols c).1 hc)
  · rw [Dict.get_append, Dict.get_append]
    have h1 := hr.2 c
    have h2 := hx.2 c
    cases e1 : Dict.get a c <;> cases e2 : Dict.get r c <;> simp_all [Rel]

theorem rowOK_rename {dom : Dict String SparkDesc} {r : Row} (hd : Dict.WF dom) (hr : RowOK dom r)
    {f : String → String} (inj : ∀ a ∈ Dict.keys dom, ∀ b ∈ Dict.keys dom, f a = f b → a = b) :
    RowOK (Dict.ofPairs (dom.map (fun p => (f p.1, p.2)))) (r.map (fun p => (f p.1, p.2))) := by
  have inj' : ∀ a ∈ Dict.keys r, ∀ b ∈ Dict.keys r, f a = f b → a = b := fun a ha b hb =>
    inj a ((hr.mem_cols a).1 ha) b ((hr.mem_cols b).1 hb)
  rw [Dict.ofPairs_eq (wf_rename inj hd)]
  refine ⟨wf_rename inj' hr.1, fun c => ?_⟩
  by_cases h : c ∈ (Dict.keys dom).map f
  · obtain ⟨x, hx, rfl⟩ := List.mem_map.1 h
    rw [get_rename inj hx, get_rename inj' ((hr.mem_cols x).2 hx)]
    exact hr.2 x
  · have h' : c ∉ (Dict.keys r).map f := by
      intro hc
      obtain ⟨x, hx, rfl⟩ := List.mem_map.1 hc
      exact h (List.mem_map.2 ⟨x, (hr.mem_cols x).1 hx, rfl⟩)
    rw [Dict.get_eq_none.2 (by rw [keys_rename]; exact h), Dict.get_eq_none.2 (by rw [keys_rename]; exact h')]
    trivial

theorem get_update (f : SparkDesc → SparkDesc) (cs : List String) (d : Dict String SparkDesc) (c : String) :
    Dict.get (update f cs d) c = (Dict.get d c).map (fun x => if c ∈ cs then f x else x) :=
  get_mapVal d (fun p => if p.1 ∈ cs then f p.2 else p.2) c

theorem rowOK_pointwise {dom : Dict String SparkDesc} {r : Row} (hr : RowOK dom r)
    {f : String → SparkDesc → SparkDesc} {g : String → Value → Value}
    (h : ∀ c d, Dict.get dom c = some d → ValOK d (cell r c) → ValOK (f c d) (g c (cell r c))) :
    RowOK (dom.map (fun p => (p.1, f p.1 p.2))) (r.map (fun p => (p.1, g p.1 p.2))) := by
  refine ⟨wf_mapVal hr.1 (fun p => g p.1 p.2), fun c => ?_⟩
  rw [get_mapVal dom (fun p => f p.1 p.2), get_mapVal r (fun p => g p.1 p.2)]
  cases hd : Dict.get dom c with
  | none =>
    have := hr.2 c
    rw [hd] at this
    cases hv : Dict.get r c with
    | none => trivial
    | some v => rw [hv] at this; exact this.elim
  | some d =>
    obtain ⟨h1, h2⟩ := hr.cell hd
    rw [h1]
    exact h c d hd h2

theorem valOK_setNull_false {d : SparkDesc} {v : Value} (h : ValOK d v) (hv : isNull v = false) :
    ValOK (setNull false d) v := by
  cases d <;> cases v with
  | dec f => cases f <;> simp_all [ValOK, DescOK, ofSparkDesc, setNull, isNull]
  | _ => simp_all [ValOK, DescOK, ofSparkDesc, setNull, isNull]

theorem valOK_setNan_false {d : SparkDesc} {v : Value} (h : ValOK d v) (hv : isNan v = false) :
    ValOK (setNan false d) v := by
  cases d <;> cases v with
  | dec f => cases f <;> simp_all [ValOK, DescOK, ofSparkDesc, setNan, isNan]
  | _ => simp_all [ValOK, DescOK, ofSparkDesc, setNan, isNan]

theorem valOK_setInf_false {d : SparkDesc} {v : Value} (h : ValOK d v) (hp : isPinf v = false)
    (hn : isNinf v = false) : ValOK (setInf false d) v := by
  cases d <;> cases v with
  | dec f => cases f <;> simp_all [ValOK, DescOK, ofSparkDesc, setInf, isPinf, isNinf]
  | _ => simp_all [ValOK, DescOK, ofSparkDesc, setInf, isPinf, isNinf]

/-- An ordinary value of a type: no null, NaN or infinity. -/
def Plain (t : ColumnType) (v : Value) : Prop := DescOK ⟨t, false, false, false⟩ v

theorem valOK_plain {d : SparkDesc} {v : Value} (h : Plain (tyOf d) v) : ValOK d v := by
  cases d <;> cases v with
  | dec f => cases f <;> simp_all [Plain, ValOK, DescOK, ofSparkDesc, tyOf]
  | _ => simp_all [Plain, ValOK, DescOK, ofSparkDesc, tyOf]

theorem plain_default (d : SparkDesc) : Plain (tyOf d) (default d) := by
  cases d <;> simp [Plain, DescOK, default, tyOf, ofSparkDesc]

theorem plain_of {t : ColumnType} {v : Value} (h1 : validReplacement v = true) (h2 : typeOK t v = true)
    (h3 : t ≠ .DECIMAL) : Plain t v := by
  cases t <;> cases v <;> simp_all [Plain, DescOK, typeOK, validReplacement]

theorem plain_toFloat {v : Value} (h1 : validReplacement v = true) (h2 : typeOK .DECIMAL v = true) :
    Plain .DECIMAL (toFloat v) := by
  cases v with
  | dec f => cases f <;> simp_all [Plain, DescOK, typeOK, validReplacement, toFloat]
  | _ => simp_all [Plain, DescOK, typeOK, validReplacement, toFloat]

theorem isFloat_iff (d : SparkDesc) : isFloat d = true ↔ tyOf d = .DECIMAL := by
  cases d <;> simp [isFloat, tyOf, ofSparkDesc]

theorem replaceRow_eq (p : Value → Bool) (m : Dict String Value) (r : Row) :
    replaceRow p m r = r.map (fun q => (q.1, if p q.2 then (Dict.get m q.1).getD q.2 else q.2)) := by
  unfold replaceRow
  apply List.map_congr_left
  intro q _
  split <;> rfl

theorem rowOK_replace {dom : Dict String SparkDesc} {r : Row} (hr : RowOK dom r) {p : Value → Bool}
    {f : SparkDesc → SparkDesc} {m : Dict String Value} (hf : ∀ d, tyOf (f d) = tyOf d)
    (hp : ∀ d v, ValOK d v → p v = false → ValOK (f d) v)
    (hm : ∀ c w d, (c, w) ∈ m → Dict.get dom c = some d → Plain (tyOf d) w) :
    RowOK (update f (Dict.keys m) dom) (replaceRow p m r) := by
  rw [replaceRow_eq]
  refine rowOK_pointwise (f := fun c x => if c ∈ Dict.keys m then f x else x)
    (g := fun c v => if p v then (Dict.get m c).getD v else v) hr ?_
  intro c d hd hv
  by_cases hc : c ∈ Dict.keys m
  · rw [if_pos hc]
    obtain ⟨w, hw⟩ := Option.isSome_iff_exists.1 (Dict.get_isSome.2 hc)
    rw [hw]
    split
    · apply valOK_plain
      rw [hf]
      exact hm c w d (Dict.mem_of_get hw) hd
    · next hn => exact hp d _ hv (by simpa using hn)
  · rw [if_neg hc, Dict.get_eq_none.2 hc]
    simpa using hv

theorem tyOf_get_update {f : SparkDesc → SparkDesc} (hf : ∀ d, tyOf (f d) = tyOf d) {cs : List String}
    {dom : Dict String SparkDesc} {c : String} {d : SparkDesc} (h : Dict.get (update f cs dom) c = some d) :
    ∃ d', Dict.get dom c = some d' ∧ tyOf d = tyOf d' := by
  rw [get_update, Option.map_eq_some_iff] at h
  obtain ⟨d', h1, rfl⟩ := h
  refine ⟨d', h1, ?_⟩
  split
  · exact hf d'
  · rfl

theorem rowOK_replaceInf {dom : Dict String SparkDesc} {r : Row} (hr : RowOK dom r)
    {m : Dict String (Value × Value)}
    (hm : ∀ c w d, (c, w) ∈ m → Dict.get dom c = some d → Plain (tyOf d) w.1 ∧ Plain (tyOf d) w.2) :
    RowOK (update (setInf false) (Dict.keys m) dom) (replaceInfRow m r) := by
  unfold replaceInfRow
  rw [replaceRow_eq, replaceRow_eq, List.map_map]
  refine rowOK_pointwise (f := fun c x => if c ∈ Dict.keys m then setInf false x else x)
    (g := fun c v =>
      if isPinf (if isNinf v then (Dict.get (m.map (fun p => (p.1, p.2.1))) c).getD v else v) then
        (Dict.get (m.map (fun p => (p.1, p.2.2))) c).getD
          (if isNinf v then (Dict.get (m.map (fun p => (p.1, p.2.1))) c).getD v else v)
      else (if isNinf v then (Dict.get (m.map (fun p => (p.1, p.2.1))) c).getD v else v)) hr ?_
  intro c d hd hv
  rw [get_mapVal m (fun p => p.2.1), get_mapVal m (fun p => p.2.2)]
  by_cases hc : c ∈ Dict.keys m
  · rw [if_pos hc]
    obtain ⟨w, hw⟩ := Option.isSome_iff_exists.1 (Dict.get_isSome.2 hc)
    obtain ⟨m1, m2⟩ := hm c w d (Dict.mem_of_get hw) hd
    rw [← tyOf_setInf false] at m1 m2
    rw [hw]
    simp only [Option.map_some, Option.getD_some]
    by_cases hn : isNinf (cell r c) = true
    · rw [if_pos hn]
      split
      · exact valOK_plain m2
      · exact valOK_plain m1
    · rw [if_neg hn]
      split
      · exact valOK_plain m2
      · next hp => exact valOK_setInf_false hv (by simpa using hp) (by simpa using hn)
  · rw [if_neg hc, Dict.get_eq_none.2 hc]
    simpa using hv

theorem mem_dropRows {p : Value → Bool} {cs : List String} {t : Table} {r : Row} :
    r ∈ dropRows p cs t ↔ r ∈ t ∧ ∀ c ∈ cs, p (cell r c) = false := by
  simp [dropRows]

theorem rowOK_drop {dom : Dict String SparkDesc} {r : Row} (hr : RowOK dom r) {p : Value → Bool}
    {f : SparkDesc → SparkDesc} {cs : List String} (hp : ∀ d v, ValOK d v → p v = false → ValOK (f d) v)
    (h : ∀ c ∈ cs, p (cell r c) = false) : RowOK (update f cs dom) r := by
  have e : r = r.map (fun q => (q.1, q.2)) := by simp
  rw [e]
  refine rowOK_pointwise (f := fun c x => if c ∈ cs then f x else x) (g := fun _ v => v) hr ?_
  intro c d _ hv
  split
  · next hc => exact hp d _ hv (h c hc)
  · exact hv

theorem truncateBy_mem {h : Hash} {jc : List String} {a : Trunc} {t : Table} {r : Row}
    (hr : r ∈ truncateBy h jc a t) : r ∈ t := by
  cases a with
  | dropExcess n => exact (perGroup_subperm _ (takeRows_subperm h n) t).subset hr
  | dropNonUnique =>
    unfold truncateBy at hr
    refine (perGroup_subperm _ (fun s => ?_) t).subset hr
    show (if s.length ≤ 1 then s else []).Subperm s
    split
    · exact List.Subperm.refl _
    · exact List.nil_subperm

theorem mem_innerJoin {lk rk jc : List String} {lt rt : Table} {x : Row} :
    x ∈ innerJoin lk rk jc lt rt ↔
      ∃ l ∈ lt, ∃ r ∈ rt, matches_ jc l r = true ∧ joinRow lk rk jc l r = x := by
  simp only [innerJoin, List.mem_flatMap, List.mem_map, List.mem_filter]
  constructor
  · rintro ⟨l, hl, r, ⟨hr, hm⟩, e⟩; exact ⟨l, hl, r, hr, hm, e⟩
  · rintro ⟨l, hl, r, hr, hm, e⟩; exact ⟨l, hl, r, ⟨hr, hm⟩, e⟩

theorem mem_leftJoin {lk rk jc : List String} {lt rt : Table} {x : Row} (h : x ∈ leftJoin lk rk jc lt rt) :
    ∃ l ∈ lt, (∃ r ∈ rt, matches_ jc l r = true ∧ joinRow lk rk jc l r = x) ∨ joinRow lk rk jc l [] = x := by
  simp only [leftJoin, List.mem_flatMap] at h
  obtain ⟨l, hl, hx⟩ := h
  refine ⟨l, hl, ?_⟩
  split at hx
  · exact Or.inr (List.mem_singleton.1 hx).symm
  · simp only [List.mem_map, List.mem_filter] at hx
    obtain ⟨r, ⟨hr, hm⟩, e⟩ := hx
    exact Or.inl ⟨r, hr, hm, e⟩

theorem resolvePub_conforms {cat : Cat} {D : Data} (hD : cat.DataOK D) {pub : PubRef}
    (hf : match pub with
      | .name _ => True
      | .df s t => Conforms s t) {s : Schema} {t : Table} (h : resolvePub cat pub = .ok (s, t)) :
    Conforms s t := by
  cases pub with
  | name n =>
    simp only [resolvePub] at h
    split at h
    · next p hg => cases h; exact hD.pub _ _ _ hg
    · cases h
  | df s' t' => cases h; exact hf

/-- Every row of a compiled query conforms to the compiled domain. -/
theorem rows_conform {h : Hash} {cat : Cat} {D : Data} (hc : cat.OK) (hD : cat.DataOK D) (e : Expr) (he : e.WF)
    (hf : e.FnsOK) (hr : e.RenamesDistinct) {s : Schema} {o : Out} (hs : schemaOf cat e = .ok s)
    (ho : compile h cat e = .ok o) : ∀ r ∈ o.run D, RowOK o.dom r := by
  induction e generalizing s o with
  | source id =>
    simp only [schemaOf, schSource] at hs
    simp only [compile, visitSource] at ho
    split at hs
    · cases hs
    split at hs
    · next s' cs hg =>
      cases hs
      rw [hg] at ho
      cases ho
      exact (conforms_iff (hc.priv _ _ _ hg).1 _).1 (hD.priv _ _ _ hg)
    · cases hs
  | rename e m ih =>
    obtain ⟨s', hs', hs⟩ := bind_ok hs
    obtain ⟨o', ho', ho⟩ := bind_ok ho
    have a := agree hc e he.1 hs' ho'
    have ih := ih he.1 hf hr.1 hs' ho'
    obtain ⟨_, h2, rfl⟩ := visitRename_ok ho
    intro r hrow
    obtain ⟨r', hr', rfl⟩ := List.mem_map.1 hrow
    exact rowOK_rename a.wfd (ih r' hr') (renamed_inj he.2 hr.2 h2)
  | filter e valid cond ih =>
    obtain ⟨s', hs', hs⟩ := bind_ok hs
    obtain ⟨o', ho', ho⟩ := bind_ok ho
    have ih := ih he hf hr hs' ho'
    cases ho
    exact fun r hrow => ih r (List.mem_filter.1 hrow).1
  | select e cols ih =>
    obtain ⟨s', hs', hs⟩ := bind_ok hs
    obtain ⟨o', ho', ho⟩ := bind_ok ho
    have ih := ih he hf hr hs' ho'
    obtain ⟨nd, _⟩ := schSelect_ok hs
    obtain ⟨sub, _, rfl⟩ := visitSelect_ok ho
    intro r hrow
    obtain ⟨r', hr', rfl⟩ := List.mem_map.1 hrow
    exact rowOK_of_forall₂ (wf_pick sub nd) (forall₂_pick (ih r' hr') sub)
  | map e f new augment ih =>
    obtain ⟨s', hs', hs⟩ := bind_ok hs
    obtain ⟨o', ho', ho⟩ := bind_ok ho
    have a := agree hc e he.1 hs' ho'
    have ih := ih he.1 hf.1 hr hs' ho'
    obtain ⟨w, hh⟩ := schMap_ok he.2 a.wfs hs
    obtain ⟨hm, rfl⟩ := visitMap_ok ho
    intro r hrow
    obtain ⟨r', hr', rfl⟩ := List.mem_map.1 hrow
    have hn := rowOK_new he.2 (hf.2 r')
    rcases hh with ⟨rfl, dis, g1, g2, g3, el⟩ | ⟨rfl, i1, i2, g1, g2, g3, el⟩
    · show RowOK (Dict.union o'.dom (newDescs new)) (r' ++ f r')
      rw [(keys_append_new a w he.2 dis el).1]
      refine rowOK_append (ih r' hr') hn ?_
      intro c hc
      rw [keys_newDescs he.2] at hc
      rw [a.keys]
      exact dis c hc
    · exact hn
  | flatMap e f new augment n ih =>
    obtain ⟨s', hs', hs⟩ := bind_ok hs
    obtain ⟨o', ho', ho⟩ := bind_ok ho
    have a := agree hc e he.1 hs' ho'
    have ih := ih he.1 hf.1 hr hs' ho'
    obtain ⟨w, hng, hh⟩ := schFlatMap_ok he.2 a.wfs hs
    obtain ⟨g, hd, _, _, _, hrun, hm⟩ := visitFlatMap_ok ho
    have hg : ∀ r, ∀ x ∈ g r, x ∈ f r := by
      intro r x hx
      rcases hm with ⟨_, _, _, _, rfl⟩ | ⟨_, ⟨k, _, rfl⟩, _⟩
      · exact hx
      · exact mem_limited hx
    intro r hrow
    rw [hrun] at hrow
    obtain ⟨r', hr', hx⟩ := List.mem_flatMap.1 hrow
    obtain ⟨x, hxg, rfl⟩ := List.mem_map.1 hx
    have hn := rowOK_new he.2 (hf.2 r' x (hg r' x hxg))
    rw [hd]
    rcases hh with ⟨rfl, dis, g1, g2, g3, el⟩ | ⟨rfl, i1, i2, g1, g2, g3, el⟩
    · simp only [if_true]
      rw [(keys_append_new a w he.2 dis el).1]
      refine rowOK_append (ih r' hr') hn ?_
      intro c hc
      rw [keys_newDescs he.2] at hc
      rw [a.keys]
      exact dis c hc
    · exact hn
  | flatMapByID e f new ih =>
    obtain ⟨s', hs', hs⟩ := bind_ok hs
    obtain ⟨o', ho', ho⟩ := bind_ok ho
    have ih := ih he.1 hf.1 hr hs' ho'
    obtain ⟨i, d, hm, hd, hn, e1, e2, e3, _, hrun⟩ := visitFlatMapByID_ok ho
    intro r hrow
    rw [hrun] at hrow
    obtain ⟨v, hv, hx⟩ := List.mem_flatMap.1 hrow
    obtain ⟨x, hxf, rfl⟩ := List.mem_map.1 hx
    rw [List.mem_dedup] at hv
    obtain ⟨r', hr', rfl⟩ := List.mem_map.1 hv
    rw [e1]
    refine rowOK_append (a := [(i, d)]) (r := [(i, cell r' i)]) ?_ (rowOK_new he.2 (hf.2 _ x hxf)) ?_
    · refine rowOK_of_forall₂ (by simp [Dict.WF]) (.cons ⟨rfl, ?_⟩ .nil)
      exact ((ih r' hr').cell hd).2
    · intro c hc hc'
      simp only [Dict.keys, List.map_cons, List.map_nil, List.mem_singleton] at hc'
      exact hn (hc' ▸ hc)
  | joinPrivate l r tl tr cols ihl ihr =>
    obtain ⟨sl, hsl, hs⟩ := bind_ok hs
    obtain ⟨sr, hsr, hs⟩ := bind_ok hs
    obtain ⟨ol, hol, ho⟩ := bind_ok ho
    obtain ⟨or, hor, ho⟩ := bind_ok ho
    have ihl := ihl he.1 hf.1 hr.1 hsl hol
    have ihr := ihr he.2 hf.2 hr.2 hsr hor
    obtain ⟨_, _, hd, _, _, _, hcase⟩ := visitJoinPrivate_ok ho
    have key : ∀ x, (∃ l ∈ ol.run D, ∃ r ∈ or.run D,
        matches_ (joinCols (Dict.keys ol.dom) (Dict.keys or.dom) cols) l r = true ∧
        joinRow (Dict.keys ol.dom) (Dict.keys or.dom) (joinCols (Dict.keys ol.dom) (Dict.keys or.dom) cols) l r
          = x) → RowOK o.dom x := by
      rintro x ⟨a, ha, b, hb, hm, rfl⟩
      exact rowOK_join hd (ihl a ha) (Or.inl (ihr b hb)) (fun _ => matches_iff.1 hm)
    intro x hx
    apply key
    rcases hcase with ⟨i, _, _, hrun⟩ | ⟨a, b, _, _, _, hrun⟩
    · rw [hrun] at hx
      exact mem_innerJoin.1 hx
    · rw [hrun] at hx
      obtain ⟨l, hl, r, hr, h⟩ := mem_innerJoin.1 hx
      exact ⟨l, truncateBy_mem hl, r, truncateBy_mem hr, h⟩
  | joinPublic e pub cols how ih =>
    obtain ⟨s', hs', hs⟩ := bind_ok hs
    obtain ⟨o', ho', ho⟩ := bind_ok ho
    have ih := ih he.1 hf.1 hr hs' ho'
    obtain ⟨ps, pt, hp, hd, _, _, _, _, hrun⟩ := visitJoinPublic_ok ho
    have wp := (resolvePub_ok hc he.2 hp).1
    have hpt := (conforms_iff wp _).1 (resolvePub_conforms hD hf.2 hp)
    intro x hx
    rw [hrun] at hx
    generalize effHow o'.metric how = how' at hd hx
    cases how' with
    | inner =>
      obtain ⟨a, ha, b, hb, hm, rfl⟩ := mem_innerJoin.1 hx
      exact rowOK_join hd (ih a ha) (Or.inl (hpt b hb)) (fun _ => matches_iff.1 hm)
    | left =>
      obtain ⟨a, ha, ⟨b, hb, hm, rfl⟩ | rfl⟩ := mem_leftJoin hx
      · exact rowOK_join hd (ih a ha) (Or.inl (hpt b hb)) (fun _ => matches_iff.1 hm)
      · refine rowOK_join hd (ih a ha) (Or.inr ⟨rfl, rfl⟩) ?_
        intro hnil c hc
        obtain ⟨k, w⟩ := domainAfterJoin_keys hd
        exfalso
        have hk := hnil.mem_cols c
        simp only [Dict.keys_nil, List.not_mem_nil, false_iff] at hk
        unfold domainAfterJoin at hd
        split at hd
        · split at hd
          · next js hj =>
            exact hk (joinCols_mem hj c hc)
          · cases hd
        · cases hd
  | replaceNull e w ih =>
    obtain ⟨s', hs', hs⟩ := bind_ok hs
    obtain ⟨o', ho', ho⟩ := bind_ok ho
    have a := agree hc e he.1 hs' ho'
    have ty := types hc e he.1 hs' ho'
    have ih := ih he.1 hf hr hs' ho'
    obtain ⟨_, hv, _, _, hw⟩ := schReplaceNull_ok a.wfs hs
    obtain ⟨rw, hrw, _, rfl⟩ := visitReplaceNull_ok ho
    have good : ∀ c v d, (c, v) ∈ rw → Dict.get o'.dom c = some d → Plain (tyOf d) v := by
      intro c v d hcv hd
      unfold replaceWith at hrw
      split at hrw
      · cases hrw
        obtain ⟨p, hp, e⟩ := List.mem_map.1 hcv
        cases e
        have := (Dict.get_eq_some a.wfd).2 (List.mem_filter.1 hp).1
        rw [this] at hd
        cases hd
        exact plain_default _
      · split at hrw
        · cases hrw
        · cases hrw
          obtain ⟨p, hp, e⟩ := List.mem_map.1 hcv
          cases e
          obtain ⟨x, hx, ht⟩ := hw p hp
          have hty : x.ty = tyOf d := by
            have h1 := get_tys o'.dom p.1
            rw [ty, get_stys a.wfs, hx, hd] at h1
            simpa using h1
          rw [hd, Option.any_some]
          by_cases hfl : isFloat d = true
          · rw [if_pos hfl, (isFloat_iff d).1 hfl]
            rw [hty, (isFloat_iff d).1 hfl] at ht
            exact plain_toFloat (hv p hp) ht
          · rw [if_neg hfl]
            rw [hty] at ht
            exact plain_of (hv p hp) ht (fun h => hfl ((isFloat_iff d).2 h))
    intro r hrow
    obtain ⟨r', hr', rfl⟩ := List.mem_map.1 hrow
    refine rowOK_replace (rowOK_replace (ih r' hr') (tyOf_setNull false) (fun d v => valOK_setNull_false) ?_)
      (tyOf_setNan false) (fun d v => valOK_setNan_false) ?_
    · exact fun c v d hm hd => good c v d (List.mem_filter.1 hm).1 hd
    · intro c v d hm hd
      obtain ⟨d', h1, h2⟩ := tyOf_get_update (tyOf_setNull false) hd
      rw [h2]
      exact good c v d' (List.mem_filter.1 hm).1 h1
  | replaceInf e w ih =>
    obtain ⟨s', hs', hs⟩ := bind_ok hs
    obtain ⟨o', ho', ho⟩ := bind_ok ho
    have a := agree hc e he.1 hs' ho'
    have ih := ih he.1 hf hr hs' ho'
    obtain ⟨_, hv, _⟩ := schReplaceInf_ok a.wfs hs
    obtain ⟨hfl, rfl⟩ := visitReplaceInf_ok ho
    intro r hrow
    obtain ⟨r', hr', rfl⟩ := List.mem_map.1 hrow
    refine rowOK_replaceInf (ih r' hr') ?_
    intro c v d hm hd
    have := hfl _ hm
    rw [hd, Option.any_some, isFloat_iff] at this
    rw [this]
    unfold infReplaceWith at hm
    split at hm
    · obtain ⟨p, _, e⟩ := List.mem_map.1 hm
      cases e
      exact ⟨rfl, rfl⟩
    · obtain ⟨p, hp, e⟩ := List.mem_map.1 hm
      cases e
      obtain ⟨v1, v2, v3, v4⟩ := hv p hp
      exact ⟨plain_toFloat v2 v1, plain_toFloat v4 v3⟩
  | dropNull e cols ih =>
    obtain ⟨s', hs', hs⟩ := bind_ok hs
    obtain ⟨o', ho', ho⟩ := bind_ok ho
    have ih := ih he hf hr hs' ho'
    obtain ⟨_, _, rfl⟩ := visitDropNull_ok ho
    intro r hrow
    obtain ⟨h1, h2⟩ := mem_dropRows.1 hrow
    obtain ⟨h3, h4⟩ := mem_dropRows.1 h1
    exact rowOK_drop (rowOK_drop (ih r h3) (fun d v => valOK_setNull_false) h4) (fun d v => valOK_setNan_false) h2
  | dropInf e cols ih =>
    obtain ⟨s', hs', hs⟩ := bind_ok hs
    obtain ⟨o', ho', ho⟩ := bind_ok ho
    have ih := ih he hf hr hs' ho'
    obtain ⟨_, rfl⟩ := visitDropInf_ok ho
    intro r hrow
    obtain ⟨h1, h2⟩ := mem_dropRows (p := fun v => isPinf v || isNinf v).1 hrow
    refine rowOK_drop (p := fun v => isPinf v || isNinf v) (ih r h1) (fun d v hv hp => ?_) h2
    simp only [Bool.or_eq_false_iff] at hp
    exact valOK_setInf_false hv hp.1 hp.2
  | enforce e c ih =>
    obtain ⟨s', hs', hs⟩ := bind_ok hs
    obtain ⟨o', ho', ho⟩ := bind_ok ho
    have ih := ih he hf hr hs' ho'
    obtain ⟨i, _, _, rfl⟩ := visitEnforce_ok ho
    exact fun r hrow => ih r ((enforce_subperm h i c _).subset hrow)

theorem build_ok {h : Hash} {cat : Cat} {e : Expr} {s : Schema} {o : Out} (hb : build h cat e = .ok (s, o)) :
    schemaOf cat e = .ok s ∧ compile h cat e = .ok o ∧ (s.grouping = none ∨ s.idColumn = none) ∧
      Dict.pyEq o.dom (analyticsToSparkColumns s) = true ∧ o.metric = metricOf s := by
  unfold build at hb
  split at hb
  · cases hb
  next s' hs =>
  split at hb
  · cases hb
  next o' ho =>
  split at hb
  · cases hb
  next hv =>
  cases hb
  unfold validate at hv
  split at hv
  · cases hv
  next h1 =>
  split at hv
  · cases hv
  next h2 =>
  split at hv
  · cases hv
  next h3 =>
  refine ⟨hs, ho, ?_, by simpa using h2, by simpa using h3⟩
  cases e1 : s.grouping with
  | none => exact Or.inl rfl
  | some x =>
    cases e2 : s.idColumn with
    | none => exact Or.inr rfl
    | some y => simp [e1, e2] at h1

/-- C19. The table a query computes conforms to the schema reported for it: exactly the columns of the schema,
each once, values of the declared types, and nulls, NaNs and infinities only where the schema allows them.

Partial: renames that give two columns the same new name are excluded (`C19_fails`). -/
theorem C19_schema_describes_data_partial {h : Hash} {cat : Cat} {D : Data} {e : Expr} {s : Schema} {o : Out}
    (hc : cat.OK) (hD : cat.DataOK D) (he : e.WF) (hf : e.FnsOK) (hr : e.RenamesDistinct)
    (hb : build h cat e = .ok (s, o)) : Conforms s (o.run D) := by
  obtain ⟨hs, ho, _, heq, _⟩ := build_ok hb
  have a := agree hc e he hs ho
  rw [conforms_iff a.wfs]
  intro r hrow
  exact rowOK_same a.wfd (wf_analytics s) ((Dict.pyEq_iff a.wfd (wf_analytics s)).1 heq)
    (rows_conform hc hD e he hf hr hs ho r hrow)

end Verif.Expr
