import Verif.Query.PropsGrouping
import Verif.Query.PropsSpecial
import Verif.Query.PropsAnswer

/-!
# C59: the schema of a query describes its answer
-/

namespace Verif.Query

open Verif Verif.Schema Verif.Expr Verif.Constraint Verif.Budget

/-! ## Specification -/

/-- The columns with the results of the aggregation. -/
def outColumns (a : Agg) : List String :=
  match a.kind with
  | .bounds _ l u => [l, u]
  | _ => [a.out]

/-- Core's aggregations, by contract: one row with the output columns. Counts are integers, sums and bounds have the
type of the measure column, everything else is a decimal number; nulls, NaNs and infinities do not occur. -/
structure CoreOK (core : Task → Table → Row) (ty : String → Option ColumnType) : Prop where
  count : ∀ out t, ∃ z, core (.count out) t = [(out, .int z)]
  countDistinct : ∀ out t, ∃ z, core (.countDistinct out) t = [(out, .int z)]
  quantile : ∀ c q lo hi out t, ∃ x, core (.quantile c q lo hi out) t = [(out, .dec (.fin x))]
  sum : ∀ c T lo hi out t, ty c = some T → ∃ v, core (.bounded .sum c lo hi out) t = [(out, v)] ∧ Plain T v
  other : ∀ st c lo hi out t, st ≠ .sum → ∃ x, core (.bounded st c lo hi out) t = [(out, .dec (.fin x))]
  bounds : ∀ c T l u t, ty c = some T →
    ∃ v w, core (.bounds c l u) t = [(l, v), (u, w)] ∧ Plain T v ∧ Plain T w
  groups : ∀ t, core .groups t = []

/-- A KeySet as it comes from its constructors: the schema describes the rows (C52), and there are no decimal
columns. -/
structure KeySetV.OK (k : KeySetV) : Prop where
  wf : Dict.WF k.schema
  rows : ∀ r ∈ k.rows, RowFits k.schema r
  types : ∀ c d, (c, d) ∈ k.schema → d.ty ≠ .DECIMAL

/-- No key is null in a column in which the table has no nulls. -/
def Keys.NullsOK (s : Schema) : Keys → Prop
  | .set k => ∀ r ∈ k.rows, ∀ c, (c, Value.null) ∈ r → ∀ d, (c, d) ∈ s.columnDescs.elements → d.allowNull = true
  | .cols _ => True

def Keys.OK : Keys → Prop
  | .set k => k.OK
  | .cols cs => cs.Nodup

/-! ## Schemas -/

theorem validateGroupby_keys {keys : Keys} {m : Option String} {s : Schema} (h : validateGroupby keys m s = .ok ()) :
    checkKeys s keys = .ok () := by
  unfold validateGroupby at h
  split at h
  · cases h
  · next h1 => exact h1

theorem checkKeySet_ok {s : Schema} {ks : Dict String Desc} (h : checkKeySet s ks = .ok ()) :
    ∀ c d, (c, d) ∈ ks → ∃ d', Dict.get s.descs c = some d' ∧ d.ty = d'.ty := by
  induction ks with
  | nil => intro c d hc; cases hc
  | cons p rest ih =>
    unfold checkKeySet at h
    split at h
    · cases h
    · next d' hd' =>
      split at h
      · cases h
      · next ht =>
        intro c d hc
        rcases List.mem_cons.1 hc with e | hc
        · cases e
          exact ⟨d', hd', not_not.1 ht⟩
        · exact ih h c d hc

theorem checkKeys_mem {s : Schema} {keys : Keys} (h : checkKeys s keys = .ok ()) :
    ∀ c ∈ keys.columns, c ∈ Dict.keys s.descs := by
  intro c hc
  cases keys with
  | set k =>
    obtain ⟨d, hd⟩ := Dict.mem_keys.1 hc
    obtain ⟨d', h1, _⟩ := checkKeySet_ok h c d hd
    exact Dict.mem_keys.2 ⟨d', Dict.mem_of_get h1⟩
  | cols cs =>
    simp only [checkKeys] at h
    split at h
    · cases h
    · next hn =>
      have : c ∈ Schema.keys s := by simpa using any_false hn c hc
      exact this

/-- The descriptors of the key columns. -/
def keyDescs (s : Schema) (cols : List String) : Dict String Desc :=
  cols.filterMap (fun c => (Dict.get s.descs c).map (fun d => (c, d)))

theorem mem_keyDescs {s : Schema} {cols : List String} {c : String} {d : Desc} :
    (c, d) ∈ keyDescs s cols ↔ c ∈ cols ∧ Dict.get s.descs c = some d := by
  unfold keyDescs
  rw [List.mem_filterMap]
  constructor
  · rintro ⟨x, hx, h⟩
    cases hd : Dict.get s.descs x with
    | none => rw [hd] at h; cases h
    | some d' => rw [hd] at h; cases h; exact ⟨hx, hd⟩
  · rintro ⟨hc, hd⟩
    exact ⟨c, hc, by rw [hd]; rfl⟩

/-- The descriptors of the output columns. -/
def outDescs (a : Agg) (s : Schema) : Dict String Desc :=
  let ty : ColumnType := match a.kind with
    | .count _ => .INTEGER
    | .countDistinct _ _ => .INTEGER
    | .bounds c _ _ => ((Dict.get s.descs c).map Desc.ty).getD .DECIMAL
    | .bounded .sum c _ _ _ => ((Dict.get s.descs c).map Desc.ty).getD .DECIMAL
    | _ => .DECIMAL
  (outColumns a).map (fun c => (c, ⟨ty, false, false, false⟩))

theorem keys_outDescs (a : Agg) (s : Schema) : Dict.keys (outDescs a s) = outColumns a := by
  unfold outDescs Dict.keys
  dsimp only
  rw [List.map_map]
  exact List.map_id _

theorem keys_nodup {a : Agg} (h : a.keys.OK) : a.keys.columns.Nodup := by
  cases hk : a.keys with
  | set k => rw [hk] at h; exact h.wf
  | cols cs => rw [hk] at h; exact h

/-- The schema of an aggregation whose output columns are new. -/
theorem schema_agg {cat : Cat} {a : Agg} {s : Schema} (hk : a.keys.OK) (hn : (outColumns a).Nodup)
    (hd : ∀ c ∈ outColumns a, c ∉ a.keys.columns) (h : a.schema cat = .ok s) :
    ∃ s₀, schemaOf cat a.child = .ok s₀ ∧ validateGroupby a.keys a.kind.measure s₀ = .ok () ∧
      s.WF ∧ s.columnDescs.elements = keyDescs s₀ a.keys.columns ++ outDescs a s₀ ∧
      s.grouping = none ∧ s.idColumn = none := by
  unfold Agg.schema at h
  split at h
  · cases h
  · next s₀ hs₀ =>
    split at h
    · cases h
    · next hv =>
      refine ⟨s₀, hs₀, hv, ?_⟩
      have hmem := checkKeys_mem (validateGroupby_keys hv)
      have hnd : ((keyDescs s₀ a.keys.columns).map Prod.fst).Nodup := by
        have := pickD_keys hmem
        unfold Dict.keys at this
        unfold keyDescs
        rw [this]
        exact keys_nodup hk
      have hu : schemaForGroupby a s₀ = mk (keyDescs s₀ a.keys.columns ++ outDescs a s₀) none none none := by
        have hw : Dict.WF (outDescs a s₀) := by
          rw [Dict.wf_iff, keys_outDescs]
          exact hn
        have hdis : ∀ c ∈ Dict.keys (outDescs a s₀), c ∉ Dict.keys (keyDescs s₀ a.keys.columns) := by
          intro c hc
          rw [keys_outDescs] at hc
          unfold keyDescs
          rw [pickD_keys hmem]
          exact hd c hc
        rw [← Dict.union_disjoint _ _ hw hdis]
        unfold schemaForGroupby
        dsimp only
        change mk (Dict.union (Dict.ofPairs (keyDescs s₀ a.keys.columns)) _) none none none = _
        rw [Dict.ofPairs_eq hnd]
        congr 2
        unfold outDescs outColumns
        unfold outColumns at hn
        cases hkind : a.kind with
        | count m => rfl
        | countDistinct t m => rfl
        | quantile c q lo hi => rfl
        | bounded st c lo hi m => cases st <;> rfl
        | bounds c l u =>
          rw [hkind] at hn
          dsimp only at hn ⊢
          rw [Dict.ofPairs_eq (by simpa using hn)]
          rfl
      rw [hu] at h
      have hwf : Dict.WF (keyDescs s₀ a.keys.columns ++ outDescs a s₀) := by
        rw [Dict.wf_iff, Dict.keys_append, keys_outDescs]
        refine List.Nodup.append hnd hn ?_
        intro c hc1 hc2
        unfold keyDescs Dict.keys at hc1
        have := pickD_keys hmem
        unfold Dict.keys at this
        rw [this] at hc1
        exact hd c hc2 hc1
      obtain ⟨h1, h2, h3, _, h5⟩ := mk_ok hwf h
      exact ⟨h1, h5, h2, h3⟩

/-! ## The descriptors of key columns are those of the table before rewriting -/

theorem nullStep_other {cat : Cat} {d : Desc} {c x : String} {e : Expr} {s s1 : Schema} (w : s.WF) (hx : x ≠ c)
    (hs : schemaOf cat e = .ok s) (h1 : schemaOf cat (nullStep d c e) = .ok s1) :
    s1.WF ∧ ∀ dx, Dict.get s.descs x = some dx → Dict.get s1.descs x = some dx := by
  unfold nullStep at h1
  split at h1
  · obtain ⟨s0, h0, h2⟩ := bind_ok h1
    rw [hs] at h0
    cases h0
    obtain ⟨ks, _⟩ := schDropNull_ok w h2
    refine ⟨ks.wf, fun dx hdx => ?_⟩
    rw [get_keeps ks w hdx]
    simp [noNull, nullCols, hx]
  · rw [hs] at h1
    cases h1
    exact ⟨w, fun _ h => h⟩

theorem infStep_other {cat : Cat} {b : Option (Value × Value)} {d : Desc} {c x : String} {e : Expr} {s s1 : Schema}
    (w : s.WF) (hx : x ≠ c) (hs : schemaOf cat e = .ok s) (h1 : schemaOf cat (infStep b d c e) = .ok s1) :
    s1.WF ∧ ∀ dx, Dict.get s.descs x = some dx → Dict.get s1.descs x = some dx := by
  unfold infStep at h1
  split at h1
  · split at h1
    · obtain ⟨s0, h0, h2⟩ := bind_ok h1
      rw [hs] at h0
      cases h0
      obtain ⟨ks, _⟩ := schReplaceInf_ok w h2
      refine ⟨ks.wf, fun dx hdx => ?_⟩
      rw [get_keeps ks w hdx]
      simp [noInf, infCols, Dict.keys, hx]
    · obtain ⟨s0, h0, h2⟩ := bind_ok h1
      rw [hs] at h0
      cases h0
      obtain ⟨ks, _⟩ := schDropInf_ok w h2
      refine ⟨ks.wf, fun dx hdx => ?_⟩
      rw [get_keeps ks w hdx]
      simp [noInf, infCols, hx]
  · rw [hs] at h1
    cases h1
    exact ⟨w, fun _ h => h⟩

/-- A value of a conforming table is as described. -/
theorem conforms_cell {s : Schema} {t : Table} (w : s.WF) (hc : Conforms s t) {r : Row} (hr : r ∈ t) {c : String}
    {d : Desc} (hd : Dict.get s.descs c = some d) : DescOK d (cell r c) := by
  obtain ⟨hn, hk, hv⟩ := hc r hr
  rw [Schema.descs_eq w] at hd
  have hmem := Dict.mem_of_get hd
  have hcol : c ∈ r.cols := (hk c).2 (Dict.mem_keys.2 ⟨d, hmem⟩)
  unfold Row.cols at hcol
  obtain ⟨p, hp, rfl⟩ := List.mem_map.1 hcol
  have := cell_of_mem (r := r) hn hp
  rw [this]
  exact hv _ _ hp d hmem

theorem truncateOut_mem {h : Hash} {order : List String → List String} {m : Measure} {o : Out} {g : List String}
    {col : Option String} {tr : Option Truncation} {f : Data → Table}
    (ht : truncateOut h order m o g = .ok (col, tr, f)) (D : Data) : ∀ r ∈ f D, r ∈ o.run D := by
  unfold truncateOut at ht
  split at ht
  · split at ht
    · cases ht
    · cases ht
      exact fun r hr => (applyTruncation_subperm _ _ _ _).subset hr
  · cases ht
    exact fun r hr => hr

/-- The rows that reach the aggregation have, in the key columns, values as described by the schema of the table that
is aggregated. -/
theorem prep_keys {env : Env} {b : PB} {q : Query} {a : Agg} {p : Plan} {s₀ : Schema} (hcat : env.cat.OK)
    (hq : q.agg? = some a) (he : a.child.WF) (hf : a.child.FnsOK) (hr : a.child.RenamesDistinct)
    (hs₀ : schemaOf env.cat a.child = .ok s₀) (hv : validateGroupby a.keys a.kind.measure s₀ = .ok ())
    (h : compileQuery env b q = .ok p) (D : Data) (hD : env.cat.DataOK D) (r : Row) (hrow : r ∈ p.prep D)
    (c : String) (hc : c ∈ a.keys.columns) (d : Desc) (hd : Dict.get s₀.descs c = some d) :
    DescOK d (cell r c) := by
  obtain ⟨a₁, a₂, p₁, _, hrw, hfin, hcomp, hp⟩ := compileQuery_ok hq h
  obtain ⟨a₀, c₀, h1, _, rfl, hkeys, hkind, _⟩ := rewriteAgg_ok hrw
  have w₀ := schemaOf_wf hcat a.child he hs₀
  -- the rewritten child
  have step : a₀.child.WF ∧ a₀.child.FnsOK ∧ a₀.child.RenamesDistinct ∧
      ∀ s, schemaOf env.cat a₀.child = .ok s → s.WF ∧ Dict.get s.descs c = some d := by
    rcases specialValues_child h1 with ⟨_, rfl⟩ | ⟨m, s, dm, hm, hs, _, rfl⟩
    · refine ⟨he, hf, hr, fun s hs => ?_⟩
      rw [hs₀] at hs
      cases hs
      exact ⟨w₀, hd⟩
    · obtain ⟨x1, x2, x3⟩ := steps_ok (b := a.kind.clamp) (d := dm) (c := m) he hf hr
      refine ⟨x1, x2, x3, fun s2 hs2 => ?_⟩
      rw [hm] at hv
      obtain ⟨_, _, _, hnot, _⟩ := measure_type hv
      have hne : c ≠ m := fun e => hnot (e ▸ hc)
      obtain ⟨s1, hs1⟩ := schemaOf_infStep hs2
      obtain ⟨w1, g1⟩ := nullStep_other w₀ hne hs₀ hs1
      obtain ⟨w2, g2⟩ := infStep_other w1 hne hs1 hs2
      exact ⟨w2, g2 d (g1 d hd)⟩
  -- the child that is visited in the end
  have final : a₂.child.WF ∧ a₂.child.FnsOK ∧ a₂.child.RenamesDistinct ∧
      ∀ s, schemaOf env.cat a₂.child = .ok s → s.WF ∧ Dict.get s.descs c = some d := by
    cases hfin with
    | same => exact step
    | shortcut _ _ _ _ _ =>
      refine ⟨step.1, step.2.1, step.2.2.1, fun s hs => ?_⟩
      obtain ⟨s', hs', hs⟩ := bind_ok hs
      rw [(schEnforce_ok hs).1]
      exact step.2.2.2 s' hs'
  obtain ⟨f1, f2, f3, f4⟩ := final
  obtain ⟨o, col, tr, f, hvis, ht, _, hpf⟩ := hcomp.prep
  obtain ⟨s₂, hb⟩ := visitChild_build' hvis
  have hconf := C19_schema_describes_data_partial hcat hD f1 f2 f3 hb
  obtain ⟨hs₂, _, _, _, _⟩ := build_ok hb
  obtain ⟨w₂, hd₂⟩ := f4 s₂ hs₂
  have hcell : ∀ r ∈ f D, DescOK d (cell r c) := fun r hr =>
    conforms_cell w₂ hconf (truncateOut_mem ht D r hr) hd₂
  have hpp : p.prep = p₁.prep := by
    rcases hp with ⟨_, rfl⟩ | ⟨_, _, _, _, _, rfl⟩ <;> rfl
  rw [hpp] at hrow
  rcases hpf with ⟨hpf, _⟩ | ⟨toCount, _, cols, _, _, hall, hcols, hpf⟩
  · rw [hpf] at hrow
    exact hcell r hrow
  · rw [hpf] at hrow
    obtain ⟨r', hr', rfl⟩ := List.mem_map.1 hrow
    have hck : c ∈ a₂.keys.columns := by rw [hfin.keys.1, hkeys]; exact hc
    have hcm : c ∈ cols := by
      rw [hcols, List.mem_filter]
      exact ⟨hall c (List.mem_append_right _ hck), by simp [hck]⟩
    have : cell (cols.map (fun x => (x, cell r' x))) c = cell r' c := by
      have hm : (c, cell r' c) ∈ cols.map (fun x => (x, cell r' x)) := List.mem_map.2 ⟨c, hcm, rfl⟩
      show (Dict.get (cols.map (fun x => (x, cell r' x))) c).getD .null = _
      have : Dict.get (cols.map (fun x => (x, cell r' x))) c = some (cell r' c) := by
        clear hcols hm hpf hrow
        induction cols with
        | nil => cases hcm
        | cons y ys ih =>
          rw [List.map_cons, Dict.get_cons]
          split
          · next e => subst e; rfl
          · next e =>
            rcases List.mem_cons.1 hcm with rfl | hcm
            · exact absurd rfl e
            · exact ih hcm
      rw [this]
      rfl
    rw [this]
    exact hcell r' hr'

/-! ## Answers -/

theorem rowFits_append {a b : Dict String Desc} {r x : Row} (hr : RowFits a r) (hx : RowFits b x) (wa : Dict.WF a)
    (wb : Dict.WF b) (dis : ∀ c ∈ Dict.keys b, c ∉ Dict.keys a) : RowFits (a ++ b) (r ++ x) := by
  obtain ⟨n1, k1, v1⟩ := hr
  obtain ⟨n2, k2, v2⟩ := hx
  have hc : (r ++ x).cols = r.cols ++ x.cols := List.map_append
  refine ⟨?_, ?_, ?_⟩
  · rw [hc]
    refine List.Nodup.append n1 n2 ?_
    intro c h1 h2
    exact dis c ((k2 c).1 h2) ((k1 c).1 h1)
  · intro c
    rw [hc, Dict.keys_append, List.mem_append, List.mem_append, k1, k2]
  · intro c v hv d hd
    rcases List.mem_append.1 hv with hv | hv
    · have hcr : c ∈ Dict.keys a := (k1 c).1 (List.mem_map.2 ⟨_, hv, rfl⟩)
      rcases List.mem_append.1 hd with hd | hd
      · exact v1 c v hv d hd
      · exact absurd hcr (dis c (Dict.mem_keys.2 ⟨d, hd⟩))
    · have hcx : c ∈ Dict.keys b := (k2 c).1 (List.mem_map.2 ⟨_, hv, rfl⟩)
      rcases List.mem_append.1 hd with hd | hd
      · exact absurd (Dict.mem_keys.2 ⟨d, hd⟩) (dis c hcx)
      · exact v2 c v hv d hd

theorem rowFits_one {c : String} {d : Desc} {v : Value} (h : DescOK d v) : RowFits [(c, d)] [(c, v)] := by
  refine ⟨by simp [Row.cols], by simp [Row.cols, Dict.keys], ?_⟩
  intro x w hw e he
  simp only [List.mem_singleton, Prod.mk.injEq] at hw he
  rw [hw.2, he.2]
  exact h

def taskOf (out : String) : Kind → Task
  | .count _ => .count out
  | .countDistinct _ _ => .countDistinct out
  | .quantile c q low high => .quantile c q low high out
  | .bounded st c low high _ => .bounded st c low high out
  | .bounds c l u => .bounds c l u

/-- What core returns for a group is as described. -/
theorem core_fits {a : Agg} {s₀ : Schema} {core : Task → Table → Row} (hn : (outColumns a).Nodup)
    (hv : validateGroupby a.keys a.kind.measure s₀ = .ok ())
    (hcore : CoreOK core (fun c => (Dict.get s₀.descs c).map Desc.ty)) {k : Kind}
    (hk : k = a.kind ∨ ∃ t m, a.kind = .countDistinct t m ∧ k = .count m) (t : Table) :
    RowFits (outDescs a s₀) (core (taskOf a.out k) t) := by
  unfold outDescs outColumns
  unfold outColumns at hn
  cases hkind : a.kind with
  | count m =>
    rw [hkind] at hk
    rcases hk with rfl | ⟨_, _, hx, _⟩
    · obtain ⟨z, hz⟩ := hcore.count a.out t
      dsimp only [taskOf]
      rw [hz]
      exact rowFits_one rfl
    · cases hx
  | countDistinct tc m =>
    rw [hkind] at hk
    rcases hk with rfl | ⟨_, _, _, rfl⟩
    · obtain ⟨z, hz⟩ := hcore.countDistinct a.out t
      dsimp only [taskOf]
      rw [hz]
      exact rowFits_one rfl
    · obtain ⟨z, hz⟩ := hcore.count a.out t
      dsimp only [taskOf]
      rw [hz]
      exact rowFits_one rfl
  | quantile c q lo hi =>
    rw [hkind] at hk
    rcases hk with rfl | ⟨_, _, hx, _⟩
    · obtain ⟨z, hz⟩ := hcore.quantile c q lo hi a.out t
      dsimp only [taskOf]
      rw [hz]
      exact rowFits_one rfl
    · cases hx
  | bounded st c lo hi m =>
    rw [hkind] at hk hv
    rcases hk with rfl | ⟨_, _, hx, _⟩
    · obtain ⟨d, hd, _⟩ := measure_type hv
      by_cases hst : st = .sum
      · subst hst
        obtain ⟨v, hz, hp⟩ := hcore.sum c d.ty lo hi a.out t (by rw [hd]; rfl)
        dsimp only [taskOf]
        rw [hz, hd]
        exact rowFits_one hp
      · obtain ⟨x, hz⟩ := hcore.other st c lo hi a.out t hst
        dsimp only [taskOf]
        rw [hz]
        cases st with
        | sum => exact absurd rfl hst
        | average => exact rowFits_one rfl
        | variance => exact rowFits_one rfl
        | stdev => exact rowFits_one rfl
    · cases hx
  | bounds c l u =>
    rw [hkind] at hk hv hn
    rcases hk with rfl | ⟨_, _, hx, _⟩
    · obtain ⟨d, hd, _⟩ := measure_type hv
      obtain ⟨v, w, hz, hp, hp'⟩ := hcore.bounds c d.ty l u t (by rw [hd]; rfl)
      dsimp only [taskOf]
      rw [hz, hd]
      refine rowFits_append (a := [(l, _)]) (b := [(u, _)]) (r := [(l, v)]) (x := [(u, w)]) (rowFits_one hp)
        (rowFits_one hp') (by simp [Dict.WF]) (by simp [Dict.WF]) ?_
      intro c hc
      simp only [Dict.keys, List.map_cons, List.map_nil, List.mem_singleton] at hc ⊢
      subst hc
      simp only [List.nodup_cons, List.mem_singleton] at hn
      exact fun e => hn.1 e.symm
    · cases hx

/-- The key part of a row of the answer is as described. -/
theorem keys_fit {env : Env} {b : PB} {q : Query} {a : Agg} {p : Plan} {s₀ : Schema} (hcat : env.cat.OK)
    (hq : q.agg? = some a) (he : a.child.WF) (hf : a.child.FnsOK) (hr : a.child.RenamesDistinct)
    (hk : a.keys.OK) (hs₀ : schemaOf env.cat a.child = .ok s₀)
    (hv : validateGroupby a.keys a.kind.measure s₀ = .ok ())
    (hnull : ∀ k, a.keys = .set k → ∀ r ∈ k.rows, ∀ c, (c, Value.null) ∈ r → ∀ d, Dict.get s₀.descs c = some d →
      d.allowNull = true)
    (h : compileQuery env b q = .ok p) (D : Data) (hD : env.cat.DataOK D) (keys : List Row)
    (hkeys : p.KeysFor D keys) : ∀ k ∈ keys, RowFits (keyDescs s₀ a.keys.columns) k := by
  intro k hkr
  have hpk := (compileQuery_budget hq h).2.2
  have hck := validateGroupby_keys hv
  have hmem := checkKeys_mem hck
  have hcols : Dict.keys (keyDescs s₀ a.keys.columns) = a.keys.columns := pickD_keys hmem
  unfold Plan.KeysFor at hkeys
  rw [hpk] at hkeys
  cases hka : a.keys with
  | set ks =>
    rw [hka] at hkeys hck hcols hk
    dsimp only at hkeys
    rw [hkeys] at hkr
    obtain ⟨n, kk, vv⟩ := hk.rows k hkr
    refine ⟨n, fun c => ?_, fun c v hcv d hd => ?_⟩
    · rw [kk c, hcols]
      rfl
    · obtain ⟨_, hd⟩ := mem_keyDescs.1 hd
      obtain ⟨kd, hkd⟩ := Dict.mem_keys.1 ((kk c).1 (List.mem_map.2 ⟨_, hcv, rfl⟩))
      obtain ⟨d', hd', hty⟩ := checkKeySet_ok hck c kd hkd
      rw [hd] at hd'
      cases hd'
      have hfit := vv c v hcv kd hkd
      have hdec := hk.types c kd hkd
      cases v with
      | null => exact hnull ks hka k hkr c hcv d hd
      | dec x => cases x <;> simp [DescOK, hdec] at hfit
      | int z => rw [DescOK] at hfit ⊢; rw [← hty]; exact hfit
      | str z => rw [DescOK] at hfit ⊢; rw [← hty]; exact hfit
      | date z => rw [DescOK] at hfit ⊢; rw [← hty]; exact hfit
      | ts z => rw [DescOK] at hfit ⊢; rw [← hty]; exact hfit
  | cols cs =>
    rw [hka] at hkeys hk
    obtain ⟨r, hrow, hkk⟩ := hkeys.2 k hkr
    rw [hka] at hcols
    refine ⟨?_, fun c => ?_, fun c v hcv d hd => ?_⟩
    · rw [hkk]
      have : Row.cols (cs.map (fun c => (c, cell r c))) = cs := by
        unfold Row.cols
        rw [List.map_map]
        exact List.map_id _
      rw [this]
      exact hk
    · rw [hcols, hkk]
      unfold Row.cols
      rw [List.map_map]
      show c ∈ cs.map id ↔ c ∈ cs
      rw [List.map_id]
    · obtain ⟨hc, hd⟩ := mem_keyDescs.1 hd
      rw [hkk] at hcv
      obtain ⟨x, _, e⟩ := List.mem_map.1 hcv
      cases e
      exact prep_keys hcat hq he hf hr hs₀ hv h D hD r hrow c (by rw [hka]; exact hc) d hd

/-- **C59** (partial). The schema shown for a query describes its answer: the columns are the group-by columns
followed by the output columns, every row has exactly these columns, and its values have the types shown, without
nulls, NaNs or infinities where the schema excludes them.

Partial: output columns with the name of a group-by column (`C59_collision_fails`) and null keys for columns without
nulls (`C59_null_fails`) are excluded, as are renames that give two columns the same new name (`C19_fails`). -/
theorem C59_answer_partial (env : Env) (b : PB) (q : Query) (a : Agg) (p : Plan) (s : Schema) (hcat : env.cat.OK)
    (hq : q.agg? = some a) (he : a.child.WF) (hf : a.child.FnsOK) (hr : a.child.RenamesDistinct)
    (hk : a.keys.OK) (hnull : a.keys.NullsOK s) (hn : (outColumns a).Nodup)
    (hdis : ∀ c ∈ outColumns a, c ∉ a.keys.columns) (hs : q.schema env.cat = .ok s)
    (h : compileQuery env b q = .ok p) (core : Task → Table → Row)
    (hcore : ∀ s₀, schemaOf env.cat a.child = .ok s₀ → CoreOK core (fun c => (Dict.get s₀.descs c).map Desc.ty))
    (D : Data) (hD : env.cat.DataOK D) (keys : List Row) (hkeys : p.KeysFor D keys) :
    Schema.keys s = a.keys.columns ++ outColumns a ∧ s.grouping = none ∧ s.idColumn = none ∧
      Conforms s (p.answer core keys D) := by
  have hs' : a.schema env.cat = .ok s := by
    cases q with
    | groups e cols => cases hq
    | agg a' => cases hq; exact hs
    | suppress a' _ _ => cases hq; exact hs
  obtain ⟨s₀, hs₀, hv, w, hel, hg, hi⟩ := schema_agg hk hn hdis hs'
  have hmem := checkKeys_mem (validateGroupby_keys hv)
  have hcols : Dict.keys (keyDescs s₀ a.keys.columns) = a.keys.columns := pickD_keys hmem
  refine ⟨?_, hg, hi, ?_⟩
  · rw [keys_eq w, hel, List.map_append]
    exact congrArg₂ _ hcols (keys_outDescs a s₀)
  obtain ⟨a₁, a₂, p₁, _, hrw, hfin, hcomp, hp⟩ := compileQuery_ok hq h
  obtain ⟨_, _, _, _, _, hkeys₁, hkind, hout⟩ := rewriteAgg_ok hrw
  have hpk := (compileQuery_budget hq h).2.2
  have ht : p.task = p₁.task := by rcases hp with ⟨_, rfl⟩ | ⟨_, _, _, _, _, rfl⟩ <;> rfl
  -- the aggregate part of a row
  have hfit : ∀ t, RowFits (outDescs a s₀) (core p.task t) := by
    intro t
    have htk : p.task = taskOf a.out a₂.kind := by
      rw [ht, hcomp.task, hfin.keys.2.2.2, hout]
      cases a₂.kind <;> rfl
    rw [htk]
    have hka : a₂.kind = a.kind ∨ ∃ tc m, a.kind = .countDistinct tc m ∧ a₂.kind = .count m := by
      cases hfin with
      | same => exact Or.inl hkind
      | shortcut hk' _ _ _ _ => exact Or.inr ⟨_, _, hkind ▸ hk', rfl⟩
    exact core_fits (core := core) hn hv (hcore s₀ hs₀) hka t
  have hkey := keys_fit hcat hq he hf hr hk hs₀ hv (by
    intro k hka r hrow c hcv d hd
    have hc : c ∈ a.keys.columns := by
      rw [hka] at hk ⊢
      exact ((hk.rows r hrow).2.1 c).1 (List.mem_map.2 ⟨_, hcv, rfl⟩)
    rw [hka] at hnull
    refine hnull r hrow c hcv d ?_
    rw [hel]
    exact List.mem_append_left _ (mem_keyDescs.2 ⟨hc, hd⟩)) h D hD keys hkeys
  have hwk : Dict.WF (keyDescs s₀ a.keys.columns) := by
    rw [Dict.wf_iff, hcols]
    exact keys_nodup hk
  have hwo : Dict.WF (outDescs a s₀) := by
    rw [Dict.wf_iff, keys_outDescs]
    exact hn
  have main : ∀ r ∈ groupedAnswer p.keys.columns keys (core p.task) (p.prep D), RowFits s.columnDescs.elements r := by
    intro r hrow
    rw [hpk] at hrow
    rw [hel]
    by_cases hnil : a.keys.columns = []
    · unfold groupedAnswer at hrow
      rw [if_pos hnil, List.mem_singleton] at hrow
      subst hrow
      rw [hnil]
      exact hfit _
    · rw [groupedAnswer_eq hnil] at hrow
      obtain ⟨k, hkr, rfl⟩ := List.mem_map.1 hrow
      refine rowFits_append (hkey k hkr) (hfit _) hwk hwo ?_
      intro c hc
      rw [keys_outDescs] at hc
      rw [hcols]
      exact hdis c hc
  intro r hrow
  unfold Plan.answer at hrow
  rcases hp with ⟨_, rfl⟩ | ⟨_, _, _, _, _, rfl⟩
  · rw [hcomp.post] at hrow
    exact main r hrow
  · exact main r (List.mem_of_mem_filter hrow)

/-! ## `get_groups` -/

/-- The columns of the answer to `get_groups`: those asked for, or all but the ID column. -/
def groupColumns (s : Schema) (cols : List String) : List String :=
  if cols = [] then (Schema.keys s).filter (fun c => decide (s.idColumn ≠ some c)) else cols

theorem groups_plan {env : Env} {b : PB} {e : Expr} {cols : List String} {p : Plan}
    (h : compileQuery env b (.groups e cols) = .ok p) :
    ∃ s₀ o col tr f, schemaOf env.cat e = .ok s₀ ∧ visitChild env.h env.cat e = .ok o ∧
      truncateOut env.h env.order env.m o [] = .ok (col, tr, f) ∧ p.keys = .cols (groupColumns s₀ cols) ∧
      p.task = .groups ∧ p.post = id ∧
      p.prep = fun D => (f D).map (fun r => (groupColumns s₀ cols).map (fun x => (x, cell r x))) := by
  unfold compileQuery at h
  split at h
  · cases h
  · simp only [rewrite, visit] at h
    unfold visitGroups at h
    split at h
    · split at h
      · cases h
      · next s₀ hs₀ =>
        dsimp only at h
        have e1 : (if cols ≠ [] then cols else (Schema.keys s₀).filter (fun c => decide (s₀.idColumn ≠ some c)))
            = groupColumns s₀ cols := by
          unfold groupColumns
          by_cases hc : cols = [] <;> simp [hc]
        rw [e1] at h
        generalize hcol : groupColumns s₀ cols = columns at h
        split at h
        · cases h
        · split at h
          · cases h
          · next o ho =>
            split at h
            · cases h
            · next col tr f ht =>
              split at h
              · cases h
              · cases h
                subst hcol
                exact ⟨s₀, o, col, tr, f, hs₀, ho, ht, rfl, rfl, rfl, rfl⟩
    · cases h

theorem groupsSchema_ok {cat : Cat} {e : Expr} {cols : List String} {s s₀ : Schema} (w₀ : s₀.WF)
    (hs₀ : schemaOf cat e = .ok s₀) (hn : cols.Nodup) (h : groupsSchema cat e cols = .ok s) :
    s.WF ∧ s.columnDescs.elements = keyDescs s₀ (groupColumns s₀ cols) ∧
      (∀ c ∈ groupColumns s₀ cols, c ∈ Dict.keys s₀.descs) ∧ (groupColumns s₀ cols).Nodup := by
  unfold groupsSchema at h
  rw [hs₀] at h
  dsimp only at h
  split at h
  · cases h
  · next hmem =>
    have hmem' : ∀ c ∈ cols, c ∈ Dict.keys s₀.descs := fun c hc => by
      have : c ∈ Schema.keys s₀ := by simpa using any_false hmem c hc
      exact this
    split at h
    · next hne =>
      have e1 : groupColumns s₀ cols = cols := by simp [groupColumns, hne]
      rw [e1]
      have hk := pickD_keys hmem'
      have hnd : ((keyDescs s₀ cols).map Prod.fst).Nodup := by
        unfold Dict.keys at hk
        unfold keyDescs
        rw [hk]
        exact hn
      change mk (Dict.ofPairs (keyDescs s₀ cols)) none none none = .ok s at h
      rw [Dict.ofPairs_eq hnd] at h
      obtain ⟨h1, _, _, _, h5⟩ := mk_ok hnd h
      exact ⟨h1, h5, hmem', hn⟩
    · next hne =>
      have hnil : cols = [] := not_not.1 hne
      have wd : Dict.WF s₀.descs := wf_descs w₀
      have hw : Dict.WF (s₀.descs.filter (fun p => decide (s₀.idColumn ≠ some p.1))) :=
        List.Nodup.sublist (List.Sublist.map _ List.filter_sublist) wd
      obtain ⟨h1, _, _, _, h5⟩ := mk_ok hw h
      have e1 : groupColumns s₀ cols = (Dict.keys s₀.descs).filter (fun c => decide (s₀.idColumn ≠ some c)) := by
        unfold groupColumns
        rw [if_pos hnil]
        rfl
      rw [e1]
      refine ⟨h1, ?_, fun c hc => List.mem_of_mem_filter hc, List.Nodup.filter _ wd⟩
      rw [h5]
      have key : ∀ l : Dict String Desc, (∀ q ∈ l, q ∈ s₀.descs) →
          l.filter (fun p => decide (s₀.idColumn ≠ some p.1))
            = keyDescs s₀ ((Dict.keys l).filter (fun c => decide (s₀.idColumn ≠ some c))) := by
        intro l
        induction l with
        | nil => intro _; rfl
        | cons q l ih =>
          intro hl
          have ih := ih (fun x hx => hl x (List.mem_cons_of_mem _ hx))
          have hg : Dict.get s₀.descs q.1 = some q.2 := (Dict.get_eq_some wd).2 (hl q (by simp))
          by_cases hq : s₀.idColumn = some q.1
          · simp only [List.filter_cons, Dict.keys, List.map_cons, hq, ne_eq, not_true, decide_false]
            rw [hq] at ih
            simpa [Dict.keys] using ih
          · have h1 : decide (s₀.idColumn ≠ some q.1) = true := by simpa using hq
            rw [List.filter_cons, if_pos h1]
            have h2 : Dict.keys (q :: l) = q.1 :: Dict.keys l := rfl
            rw [h2, List.filter_cons, if_pos h1, ih]
            unfold keyDescs
            rw [List.filterMap_cons, hg]
            rfl
      exact key _ (fun _ h => h)

/-- **C59** for `get_groups`, of tables with some column to return. Renames that give two columns the same new name
are excluded (`C19_fails`). -/
theorem C59_groups_partial (env : Env) (b : PB) (e : Expr) (cols : List String) (p : Plan) (s : Schema)
    (hcat : env.cat.OK) (he : e.WF) (hf : e.FnsOK) (hr : e.RenamesDistinct) (hn : cols.Nodup)
    (hs : (Query.groups e cols).schema env.cat = .ok s) (hne : Schema.keys s ≠ [])
    (h : compileQuery env b (.groups e cols) = .ok p) (core : Task → Table → Row)
    (hcore : ∀ t, core .groups t = []) (D : Data) (hD : env.cat.DataOK D) (keys : List Row)
    (hkeys : p.KeysFor D keys) :
    (∃ s₀, schemaOf env.cat e = .ok s₀ ∧ Schema.keys s = groupColumns s₀ cols) ∧
      p.answer core keys D = keys ∧ Conforms s keys := by
  obtain ⟨s₀, o, col, tr, f, hs₀, hvis, ht, hpk, htask, hpost, hprep⟩ := groups_plan h
  have w₀ := schemaOf_wf hcat e he hs₀
  obtain ⟨w, hel, hmem, hnd⟩ := groupsSchema_ok w₀ hs₀ hn hs
  have hcols : Dict.keys (keyDescs s₀ (groupColumns s₀ cols)) = groupColumns s₀ cols := pickD_keys hmem
  have hsk : Schema.keys s = groupColumns s₀ cols := by
    rw [keys_eq w, hel]
    exact hcols
  refine ⟨⟨s₀, hs₀, hsk⟩, ?_, ?_⟩
  · unfold Plan.answer
    have hc : p.keys.columns = groupColumns s₀ cols := by rw [hpk]; rfl
    rw [hpost, htask, hc, groupedAnswer_eq (by rw [← hsk]; exact hne)]
    conv_rhs => rw [← List.map_id keys]
    apply List.map_congr_left
    intro k _
    unfold rowFor
    rw [hcore, List.append_nil]
    rfl
  · unfold Plan.KeysFor at hkeys
    rw [hpk] at hkeys
    obtain ⟨_, hkeys⟩ := hkeys
    obtain ⟨s₂, hb⟩ := visitChild_build' hvis
    have hconf := C19_schema_describes_data_partial hcat hD he hf hr hb
    obtain ⟨hs₂, _, _, _, _⟩ := build_ok hb
    rw [hs₀] at hs₂
    cases hs₂
    intro k hk
    obtain ⟨r, hrow, hkk⟩ := hkeys k hk
    rw [hprep] at hrow
    obtain ⟨r', hr', rfl⟩ := List.mem_map.1 hrow
    have hr'' := truncateOut_mem ht D r' hr'
    have hcell : ∀ c ∈ groupColumns s₀ cols, cell ((groupColumns s₀ cols).map (fun x => (x, cell r' x))) c = cell r' c := by
      intro c hc
      have hw : Dict.WF ((groupColumns s₀ cols).map (fun x => (x, cell r' x))) := by
        unfold Dict.WF
        rw [List.map_map]
        show ((groupColumns s₀ cols).map id).Nodup
        rw [List.map_id]
        exact hnd
      exact cell_of_mem (p := (c, cell r' c)) hw (List.mem_map.2 ⟨c, hc, rfl⟩)
    have hkc : k.cols = groupColumns s₀ cols := by
      rw [hkk]
      unfold Row.cols
      rw [List.map_map]
      exact List.map_id _
    rw [hel]
    refine ⟨by rw [hkc]; exact hnd, fun c => by rw [hkc, hcols], fun c v hcv d hd => ?_⟩
    obtain ⟨hc, hd⟩ := mem_keyDescs.1 hd
    rw [hkk] at hcv
    obtain ⟨x, hx, ex⟩ := List.mem_map.1 hcv
    cases ex
    rw [hcell c hc]
    exact conforms_cell w₀ hconf hr'' hd

end Verif.Query
