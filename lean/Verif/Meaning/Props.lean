import Verif.Meaning.Rows

/-!
# C57: transformations return what their documentation says
-/

namespace Verif.Meaning

open Verif Verif.Schema Verif.Constraint Verif.Expr

/-! ## Replacing and dropping -/

theorem defaultFor_tyOf (d : SparkDesc) : defaultFor (tyOf d) = Expr.default d := by cases d <;> rfl

theorem valOK_null_allowed {d : SparkDesc} (h : ValOK d .null) : d.allowNull = true := by
  cases d <;> exact h

theorem valOK_nan_allowed {d : SparkDesc} (h : ValOK d (.dec .nan)) : allowsNan d = true := by
  cases d <;> first | exact h.2 | (exact absurd h.1 (by simp [ofSparkDesc]))

theorem valOK_inf_allowed {d : SparkDesc} (h : ValOK d (.dec .pinf) ∨ ValOK d (.dec .ninf)) :
    allowsInf d = true ∧ isFloat d = true := by
  cases d <;> rcases h with h | h <;>
    first | exact ⟨h.2, rfl⟩ | (exact absurd h.1 (by simp [ofSparkDesc]))

/-- The column the metric groups by is the ID column or the grouping column. -/
theorem metricCol_iff {h : Hash} {cat : Cat} (hc : cat.OK) {e : Expr} {s : Schema} {o : Out} (a : Agree s o)
    (ho : compile h cat e = .ok o) (c : String) :
    o.metric.col = some c ↔ s.idColumn = some c ∨ groupTag cat e = some c := by
  rw [← a.ids, ← metric_groupTag hc e ho]
  cases o.metric <;> simp [Metric.col]

theorem type_eq {s : Schema} {o : Out} (a : Agree s o) (ty : tys o.dom = stys s) {c : String} {x : Desc}
    (hx : (c, x) ∈ s.columnDescs.elements) {d : SparkDesc} (hd : Dict.get o.dom c = some d) : x.ty = tyOf d := by
  have h1 := get_tys o.dom c
  have wf : Dict.WF s.columnDescs.elements := by
    have := wf_descs a.wfs
    rwa [Schema.descs_eq a.wfs] at this
  rw [ty, get_stys a.wfs, Schema.descs_eq a.wfs, (Dict.get_eq_some wf).2 hx, hd] at h1
  simpa using h1

/-- What replacing nulls and NaNs makes of a value. -/
theorem get_replaceNull (m : Dict String Value) (dom : Dict String SparkDesc) (r : Row) (c : String) (wm : Dict.WF m)
    (hm : ∀ x, (c, x) ∈ m → x ≠ .dec .nan) (hr : RowOK dom r) {v : Value} (hv : Row.get r c = some v) :
    ∃ v', Row.get (replaceRow isNan (restrict allowsNan dom m)
        (replaceRow isNull (restrict SparkDesc.allowNull dom m) r)) c = some v' ∧
      (∀ x, (c, x) ∈ m → Missing v → v' = x) ∧ ((Missing v → ∀ x, (c, x) ∉ m) → v' = v) := by
  have hcol : c ∈ Dict.keys dom := (hr.mem_cols c).1 (Dict.get_isSome.1 (by
    rw [show Dict.get r c = some v from hv]; rfl))
  obtain ⟨d, hd⟩ := Option.isSome_iff_exists.1 (Dict.get_isSome.2 hcol)
  obtain ⟨h1, h2⟩ := hr.cell hd
  rw [show Dict.get r c = Row.get r c from rfl, hv] at h1
  cases h1
  have wr : ∀ p : SparkDesc → Bool, Dict.WF (restrict p dom m) := fun p =>
    List.Sublist.nodup (List.Sublist.map _ List.filter_sublist) wm
  have gr : ∀ p : SparkDesc → Bool, ∀ x, (c, x) ∈ m → p d = true → Dict.get (restrict p dom m) c = some x := by
    intro p x hx hp
    exact (Dict.get_eq_some (wr p)).2 (List.mem_filter.2 ⟨hx, by simp [hd, hp]⟩)
  have gn : ∀ p : SparkDesc → Bool, (∀ x, (c, x) ∉ m) → Dict.get (restrict p dom m) c = none := by
    intro p hx
    rw [Dict.get_eq_none]
    intro hk
    obtain ⟨x, hx'⟩ := Dict.mem_keys.1 hk
    exact hx x (List.mem_filter.1 hx').1
  rw [get_replaceRow, get_replaceRow, hv]
  refine ⟨_, rfl, ?_, ?_⟩
  · intro x hx hmiss
    have hne := hm x hx
    rcases hmiss with e | e
    · rw [e] at h2 ⊢
      simp [isNull, isNan, gr _ x hx (valOK_null_allowed h2), hne]
    · rw [e] at h2 ⊢
      simp [isNull, isNan, gr _ x hx (valOK_nan_allowed h2)]
  · intro himp
    by_cases hmiss : Missing (cell r c)
    · rw [gn _ (himp hmiss), gn _ (himp hmiss)]
      simp
    · unfold Missing at hmiss
      push_neg at hmiss
      simp [isNull, isNan, hmiss.1, hmiss.2]

theorem plain_not_nan {t : ColumnType} {v : Value} (h : Plain t v) : v ≠ .dec .nan := by
  rintro rfl
  exact absurd h.2 (by simp)

theorem asType_eq {d : SparkDesc} (v : Value) : asType (tyOf d) v = if isFloat d then toFloat v else v := by
  cases d <;> cases v <;> rfl

/-! ## The theorem -/

/-- C57 for what compiles. -/
theorem means_by {h : Hash} {cat : Cat} {D : Data} (hc : cat.OK) (hD : cat.DataOK D) (e : Expr) (he : e.WF)
    (hf : e.FnsOK) (hr : e.RenamesDistinct) {s : Schema} {o : Out}
    (hs : schemaOf cat e = .ok s) (ho : compile h cat e = .ok o) : MeansBy true cat D e (o.run D) := by
  induction e generalizing s o with
  | source id =>
    simp only [compile, visitSource] at ho
    split at ho
    · cases ho
    cases ho
    exact List.Perm.refl _
  | rename e m ih =>
    obtain ⟨s', hs', hs⟩ := bind_ok hs
    obtain ⟨o', ho', ho⟩ := bind_ok ho
    have ok := rows_conform hc hD e he.1 hf hr.1 hs' ho'
    have ih := ih he.1 hf hr.1 hs' ho'
    obtain ⟨_, h2, rfl⟩ := visitRename_ok ho
    exact ⟨_, ih, each_map fun r hrow => renamed_row he.2 (ok r hrow) (renamed_inj he.2 hr.2 h2)⟩
  | filter e valid cond ih =>
    obtain ⟨s', hs', hs⟩ := bind_ok hs
    obtain ⟨o', ho', ho⟩ := bind_ok ho
    have ih := ih he hf hr hs' ho'
    cases ho
    exact ⟨_, ih, List.Perm.refl _⟩
  | select e cols ih =>
    obtain ⟨s', hs', hs⟩ := bind_ok hs
    obtain ⟨o', ho', ho⟩ := bind_ok ho
    have ok := rows_conform hc hD e he hf hr hs' ho'
    have ih := ih he hf hr hs' ho'
    obtain ⟨sub, _, rfl⟩ := visitSelect_ok ho
    exact ⟨_, ih, each_map fun r hrow => selected_row (ok r hrow) sub⟩
  | map e f new augment ih =>
    obtain ⟨s', hs', hs⟩ := bind_ok hs
    obtain ⟨o', ho', ho⟩ := bind_ok ho
    have a := agree hc e he.1 hs' ho'
    have ok := rows_conform hc hD e he.1 hf.1 hr hs' ho'
    have ih := ih he.1 hf.1 hr hs' ho'
    obtain ⟨w, hh⟩ := schMap_ok he.2 a.wfs hs
    obtain ⟨hm, rfl⟩ := visitMap_ok ho
    refine ⟨_, ih, each_map fun r hrow => ?_⟩
    have hn := rowOK_new he.2 (hf.2 r)
    rcases hh with ⟨rfl, dis, _⟩ | ⟨rfl, _⟩
    · refine made_append (ok r hrow) hn ?_
      intro c hc
      rw [keys_newDescs he.2] at hc
      rw [a.keys]
      exact dis c hc
    · exact made_alone r (f r)
  | flatMap e f new augment n ih =>
    obtain ⟨s', hs', hs⟩ := bind_ok hs
    obtain ⟨o', ho', ho⟩ := bind_ok ho
    have a := agree hc e he.1 hs' ho'
    have ok := rows_conform hc hD e he.1 hf.1 hr hs' ho'
    have ih := ih he.1 hf.1 hr hs' ho'
    obtain ⟨w, hng, hh⟩ := schFlatMap_ok he.2 a.wfs hs
    obtain ⟨g, hd, _, _, _, hrun, hm⟩ := visitFlatMap_ok ho
    have hg : ∀ r, ∀ x ∈ g r, x ∈ f r := by
      intro r x hx
      rcases hm with ⟨_, _, _, _, rfl⟩ | ⟨_, ⟨k, _, rfl⟩, _⟩
      · exact hx
      · exact mem_limited hx
    rw [hrun]
    refine ⟨_, s', ih, hs', expands_flatMap fun r hrow => ⟨g r, ?_, forall₂_map fun x hx => ?_⟩⟩
    · rcases hm with ⟨⟨i, hi⟩, _, _, _, rfl⟩ | ⟨hni, ⟨k, hk, rfl⟩, _⟩
      · have := (a.ids i).1 hi
        exact ⟨fun _ => rfl, fun hn => by rw [this] at hn; cases hn⟩
      · refine ⟨fun hsome => ?_, fun _ => ⟨k, hk, ?_, ?_, ?_⟩⟩
        · obtain ⟨i, hi⟩ := Option.isSome_iff_exists.1 hsome
          exact absurd ((a.ids i).2 hi) (hni i)
        · split <;> simp
        · split
          · exact ((List.take_sublist _ _).trans (List.dedup_sublist _)).subperm
          · exact (List.take_sublist _ _).subperm
        · intro hnd
          split
          · next hgr => exact congrArg (List.take k) (hnd hgr).dedup
          · rfl
    · have hn := rowOK_new he.2 (hf.2 r x (hg r x hx))
      rcases hh with ⟨rfl, dis, _⟩ | ⟨rfl, _⟩
      · refine made_append (ok r hrow) hn ?_
        intro c hc
        rw [keys_newDescs he.2] at hc
        rw [a.keys]
        exact dis c hc
      · exact made_alone r x
  | flatMapByID e f new ih =>
    obtain ⟨s', hs', hs⟩ := bind_ok hs
    obtain ⟨o', ho', ho⟩ := bind_ok ho
    have a := agree hc e he.1 hs' ho'
    have ok := rows_conform hc hD e he.1 hf.1 hr hs' ho'
    have ih := ih he.1 hf.1 hr hs' ho'
    obtain ⟨i, d, hm, hd, hn, e1, e2, e3, _, hrun⟩ := visitFlatMapByID_ok ho
    refine ⟨_, s', i, ih, hs', (a.ids i).1 hm, ?_⟩
    rw [hrun]
    have hi : ∀ r ∈ o'.run D, Row.get r i = some (cell r i) := fun r hrow =>
      (ok r hrow).get (Dict.get_isSome.1 (by rw [hd]; rfl))
    have hw : ∀ v, (o'.run D).whereEq i (some v) = (o'.run D).filter (fun r => decide (cell r i = v)) := by
      intro v
      apply List.filter_congr
      intro r hrow
      rw [hi r hrow]
      simp
    intro v
    have hval : ∀ (k : Value) (x : Row), Row.get ((i, k) :: x) i = some k := get_cons_self i
    -- the rows of the result with ID `v`
    have hout : Table.whereEq (((o'.run D).map (fun r => cell r i)).dedup.flatMap (fun v =>
        (f ((o'.run D).filter (fun r => decide (cell r i = v)))).map (fun x => (i, v) :: x))) i v =
        (((o'.run D).map (fun r => cell r i)).dedup.filter (fun k => decide (some k = v))).flatMap (fun v =>
          (f ((o'.run D).filter (fun r => decide (cell r i = v)))).map (fun x => (i, v) :: x)) := by
      refine filter_flatMap_mem (fun k => decide (some k = v)) (fun r => decide (Row.get r i = v)) _ _ ?_
      intro k _ b hb
      obtain ⟨x, _, rfl⟩ := List.mem_map.1 hb
      rw [hval]
    rw [hout]
    cases v with
    | none =>
      have : (o'.run D).whereEq i none = [] := by
        unfold Table.whereEq
        rw [List.filter_eq_nil_iff]
        intro r hrow
        rw [hi r hrow]
        simp
      rw [if_pos this]
      simp
    | some v =>
      have hfil : ((o'.run D).map (fun r => cell r i)).dedup.filter (fun k => decide (some k = some v)) =
          if v ∈ (o'.run D).map (fun r => cell r i) then [v] else [] := by
        simp only [Option.some.injEq]
        rw [show (fun k => decide (k = v)) = (fun k => k == v) from by funext k; simp [beq_eq_decide],
          List.filter_beq]
        split
        · next hin => rw [List.count_eq_one_of_mem (List.nodup_dedup _) (List.mem_dedup.2 hin)]; rfl
        · next hin => rw [List.count_eq_zero.2 (fun h => hin (List.mem_dedup.1 h))]; rfl
      rw [hfil]
      by_cases hin : v ∈ (o'.run D).map (fun r => cell r i)
      · rw [if_pos hin]
        have hne : (o'.run D).whereEq i (some v) ≠ [] := by
          obtain ⟨r, hrow, rfl⟩ := List.mem_map.1 hin
          exact List.ne_nil_of_mem (List.mem_filter.2 ⟨hrow, by simpa using hi r hrow⟩)
        rw [if_neg hne]
        refine ⟨_, List.Perm.refl _, ?_⟩
        rw [hw, List.flatMap_singleton]
        refine each_map fun x hx c => ?_
        show Dict.get ((i, v) :: x) c = _
        rw [Dict.get_cons]
        rfl
      · rw [if_neg hin]
        have : (o'.run D).whereEq i (some v) = [] := by
          rw [hw, List.filter_eq_nil_iff]
          intro r hrow hcell
          exact hin (List.mem_map.2 ⟨r, hrow, by simpa using hcell⟩)
        rw [if_pos this]
        rfl
  | joinPrivate l r tl tr cols ihl ihr =>
    obtain ⟨sl, hsl, hs⟩ := bind_ok hs
    obtain ⟨sr, hsr, hs⟩ := bind_ok hs
    obtain ⟨ol, hol, ho⟩ := bind_ok ho
    obtain ⟨or, hor, ho⟩ := bind_ok ho
    have al := agree hc l he.1 hsl hol
    have ar := agree hc r he.2 hsr hor
    have okl := rows_conform hc hD l he.1 hf.1 hr.1 hsl hol
    have okr := rows_conform hc hD r he.2 hf.2 hr.2 hsr hor
    have ihl := ihl he.1 hf.1 hr.1 hsl hol
    have ihr := ihr he.2 hf.2 hr.2 hsr hor
    obtain ⟨_, _, hd, _, _, _, hcase⟩ := visitJoinPrivate_ok ho
    have hjc := domainAfterJoin_jc hd
    refine ⟨_, _, sl, sr, ihl, ihr, hsl, hsr, ?_⟩
    rw [onCols_eq, ← al.keys, ← ar.keys]
    rcases hcase with ⟨i, hi, _, hrun⟩ | ⟨a, b, ha, hb, hm, hrun⟩
    · refine ⟨ol.run D, or.run D, ?_, fun _ => ⟨rfl, rfl⟩, fun hn => ?_⟩
      · rw [hrun]
        exact innerJoined hd okl okr
      · rw [(al.ids i).1 hi] at hn
        cases hn
    · refine ⟨_, _, ?_, fun hsome => ?_, fun _ => ⟨a, b, ha, hb,
        truncated (h := h) fun x hx c hc => (okl x hx).get (hjc c hc).1,
        truncated (h := h) fun x hx c hc => (okr x hx).get (hjc c hc).2⟩⟩
      · rw [hrun]
        exact innerJoined hd (fun x hx => okl x (truncateBy_mem hx)) (fun x hx => okr x (truncateBy_mem hx))
      · obtain ⟨i, hi⟩ := Option.isSome_iff_exists.1 hsome
        rw [(al.ids i).2 hi] at hm
        cases hm
  | joinPublic e pub cols how ih =>
    obtain ⟨s', hs', hs⟩ := bind_ok hs
    obtain ⟨o', ho', ho⟩ := bind_ok ho
    have a := agree hc e he.1 hs' ho'
    have ok := rows_conform hc hD e he.1 hf.1 hr hs' ho'
    have ih := ih he.1 hf.1 hr hs' ho'
    obtain ⟨ps, pt, hp, hd, _, _, _, _, hrun⟩ := visitJoinPublic_ok ho
    have wp := (resolvePub_ok hc he.2 hp).1
    have hpt := (conforms_iff wp _).1 (resolvePub_conforms hD hf.2 hp)
    have heff : effHow o'.metric how = if s'.idColumn.isSome then .inner else how := by
      cases hmet : o'.metric with
      | ids i => rw [(a.ids i).1 hmet]; rfl
      | _ =>
        have : s'.idColumn = none := by
          cases hi : s'.idColumn with
          | none => rfl
          | some i => rw [(a.ids i).2 hi] at hmet; cases hmet
        rw [this]
        rfl
    rw [heff] at hd hrun
    refine ⟨_, s', ps, pt, ih, hs', ?_, ?_⟩
    · cases pub with
      | name n =>
        simp only [resolvePub] at hp
        split at hp
        · next p hg => cases hp; exact hg
        · cases hp
      | df s t => cases hp; exact ⟨rfl, rfl⟩
    · rw [onCols_eq, ← a.keys, ← keys_analytics wp, hrun]
      cases how with
      | inner =>
        rw [ite_self] at hd ⊢
        exact innerJoined hd ok hpt
      | left =>
        dsimp only
        rw [Bool.true_and]
        split
        · next hi =>
          rw [if_pos hi] at hd
          exact innerJoined hd ok hpt
        · next hi =>
          rw [if_neg hi] at hd
          exact leftJoined hd ok hpt
  | replaceNull e w ih =>
    obtain ⟨s', hs', hs⟩ := bind_ok hs
    obtain ⟨o', ho', ho⟩ := bind_ok ho
    have a := agree hc e he.1 hs' ho'
    have ty := types hc e he.1 hs' ho'
    have ok := rows_conform hc hD e he.1 hf hr hs' ho'
    have ih := ih he.1 hf hr hs' ho'
    obtain ⟨_, hv, _, _, hw⟩ := schReplaceNull_ok a.wfs hs
    obtain ⟨rw, hrw, _, rfl⟩ := visitReplaceNull_ok ho
    refine ⟨_, s', ih, hs', each_map fun r hrow c => ?_⟩
    have okr := ok r hrow
    cases hcv : Row.get r c with
    | none =>
      show Row.get _ c = none
      rw [get_replaceRow, get_replaceRow, hcv]
      rfl
    | some v =>
      have hcol : c ∈ Dict.keys o'.dom := (okr.mem_cols c).1 (Dict.get_isSome.1 (by
        rw [show Dict.get r c = some v from hcv]; rfl))
      obtain ⟨d, hd⟩ := Option.isSome_iff_exists.1 (Dict.get_isSome.2 hcol)
      have mc := metricCol_iff hc a ho' c
      unfold replaceWith at hrw
      split at hrw
      · next hwe =>
        cases hrw
        set m := (o'.dom.filter (fun p => decide (o'.metric.col ≠ some p.1) && (p.2.allowNull || allowsNan p.2))).map
          (fun p => (p.1, Expr.default p.2)) with hmdef
        have wm : Dict.WF m := by
          rw [hmdef]
          exact wf_mapVal (List.Sublist.nodup (List.Sublist.map _ List.filter_sublist) a.wfd)
            (fun p => Expr.default p.2)
        have hmem : ∀ x, (c, x) ∈ m ↔ x = Expr.default d ∧ o'.metric.col ≠ some c ∧
            (d.allowNull = true ∨ allowsNan d = true) := by
          intro x
          rw [hmdef, List.mem_map]
          constructor
          · rintro ⟨p, hp, e⟩
            cases e
            obtain ⟨hp1, hp2⟩ := List.mem_filter.1 hp
            rw [(Dict.get_eq_some a.wfd).2 hp1] at hd
            cases hd
            simpa using hp2
          · rintro ⟨rfl, h1, h2⟩
            exact ⟨(c, d), List.mem_filter.2 ⟨(Dict.get_eq_some a.wfd).1 hd, by simpa using ⟨h1, h2⟩⟩, rfl⟩
        obtain ⟨v', e, h1, h2⟩ := get_replaceNull m o'.dom r c wm
          (fun x hx => by rw [((hmem x).1 hx).1]; exact plain_not_nan (plain_default d)) okr hcv
        refine ⟨v', e, ?_⟩
        intro x hx
        rw [if_pos hwe, type_eq a ty hx hd, defaultFor_tyOf]
        have hval : Missing v → d.allowNull = true ∨ allowsNan d = true := by
          obtain ⟨g1, g2⟩ := okr.cell hd
          rw [show Dict.get r c = Row.get r c from rfl, hcv] at g1
          cases g1
          rintro (e | e) <;> rw [e] at g2
          · exact Or.inl (valOK_null_allowed g2)
          · exact Or.inr (valOK_nan_allowed g2)
        refine ⟨fun ⟨hmiss, n1, n2⟩ => h1 _ ((hmem _).2 ⟨rfl, ?_, hval hmiss⟩) hmiss, fun hn => h2 ?_⟩
        · rw [Ne, mc]
          exact fun h => h.elim n1 n2
        · intro hmiss x hx
          obtain ⟨_, hne, _⟩ := (hmem x).1 hx
          rw [Ne, mc, not_or] at hne
          exact hn ⟨hmiss, hne.1, hne.2⟩
      · next hwe =>
        split at hrw
        · cases hrw
        cases hrw
        set m := w.map (fun p => (p.1, if (Dict.get o'.dom p.1).any isFloat then toFloat p.2 else p.2)) with hmdef
        have wm : Dict.WF m := wf_mapVal he.2 (fun p => if (Dict.get o'.dom p.1).any isFloat then toFloat p.2 else p.2)
        have hmem : ∀ x, (c, x) ∈ m ↔ ∃ y, (c, y) ∈ w ∧ x = asType (tyOf d) y := by
          intro x
          rw [hmdef, List.mem_map]
          constructor
          · rintro ⟨⟨c', y⟩, hp, e⟩
            cases e
            exact ⟨y, hp, by rw [hd, Option.any_some, asType_eq]⟩
          · rintro ⟨y, hy, rfl⟩
            exact ⟨(c, y), hy, by rw [hd, Option.any_some, asType_eq]⟩
        have hnan : ∀ x, (c, x) ∈ m → x ≠ .dec .nan := by
          intro x hx
          obtain ⟨y, hy, rfl⟩ := (hmem x).1 hx
          have hvy := hv _ hy
          rw [asType_eq]
          cases y with
          | dec f => cases f <;> simp_all [validReplacement, toFloat]
          | _ => split <;> simp [toFloat]
        obtain ⟨v', e, h1, h2⟩ := get_replaceNull m o'.dom r c wm hnan okr hcv
        refine ⟨v', e, ?_⟩
        intro x hx
        rw [if_neg hwe, type_eq a ty hx hd]
        refine ⟨fun y hy hmiss => h1 _ ((hmem _).2 ⟨y, hy, rfl⟩) hmiss, fun hn => h2 fun hmiss x hx => ?_⟩
        obtain ⟨y, hy, _⟩ := (hmem x).1 hx
        exact hn hmiss y hy
  | replaceInf e w ih =>
    obtain ⟨s', hs', hs⟩ := bind_ok hs
    obtain ⟨o', ho', ho⟩ := bind_ok ho
    have a := agree hc e he.1 hs' ho'
    have ok := rows_conform hc hD e he.1 hf hr hs' ho'
    have ih := ih he.1 hf hr hs' ho'
    obtain ⟨_, hv, _⟩ := schReplaceInf_ok a.wfs hs
    obtain ⟨hfl, rfl⟩ := visitReplaceInf_ok ho
    refine ⟨_, ih, each_map fun r hrow c => ?_⟩
    have okr := ok r hrow
    rw [get_replaceInfRow]
    cases hcv : Row.get r c with
    | none => rfl
    | some v =>
      refine ⟨_, rfl, ?_⟩
      have hcol : c ∈ Dict.keys o'.dom := (okr.mem_cols c).1 (Dict.get_isSome.1 (by
        rw [show Dict.get r c = some v from hcv]; rfl))
      obtain ⟨d, hd⟩ := Option.isSome_iff_exists.1 (Dict.get_isSome.2 hcol)
      obtain ⟨g1, g2⟩ := okr.cell hd
      rw [show Dict.get r c = Row.get r c from rfl, hcv] at g1
      cases g1
      unfold InfReplaced infReplaceWith
      split
      · next hwe =>
        constructor
        · intro hinf
          have hfd := (valOK_inf_allowed (d := d) (by rcases hinf with h | h <;> rw [h] at g2 <;> simp [g2])).2
          have hg : Dict.get ((o'.dom.filter (fun p => isFloat p.2)).map
              (fun p => (p.1, (Value.dec (.fin 0), Value.dec (.fin 0))))) c =
                some (Value.dec (.fin 0), Value.dec (.fin 0)) := by
            refine (Dict.get_eq_some ?_).2 ?_
            · exact wf_mapVal (List.Sublist.nodup (List.Sublist.map _ List.filter_sublist) a.wfd)
                (fun _ => (Value.dec (.fin 0), Value.dec (.fin 0)))
            · exact List.mem_map.2 ⟨(c, d), List.mem_filter.2 ⟨(Dict.get_eq_some a.wfd).1 hd, hfd⟩, rfl⟩
          unfold infVal
          rw [hg]
          rcases hinf with h | h <;> rw [h] <;> simp [isNinf, isPinf]
        · intro n1 n2
          unfold infVal
          simp [isNinf, isPinf, n1, n2]
      · next hwe =>
        have wm : Dict.WF (w.map (fun p => (p.1, (toFloat p.2.1, toFloat p.2.2)))) :=
          wf_mapVal he.2 (fun p => (toFloat p.2.1, toFloat p.2.2))
        have hg : ∀ x, (c, x) ∈ w → Dict.get (w.map (fun p => (p.1, (toFloat p.2.1, toFloat p.2.2)))) c =
            some (toFloat x.1, toFloat x.2) := by
          intro x hx
          exact (Dict.get_eq_some wm).2 (List.mem_map.2 ⟨(c, x), hx, rfl⟩)
        have hty : ∀ y : Value, asType .DECIMAL y = toFloat y := by intro y; cases y <;> rfl
        refine ⟨fun x hx hn => ?_, fun x hx hp => ?_, fun hn => ?_⟩
        · unfold infVal
          rw [hg x hx, hn, hty]
          obtain ⟨v1, v2, v3, v4⟩ := hv _ hx
          have : toFloat x.1 ≠ .dec .pinf := by
            intro h
            cases hx1 : x.1 with
            | dec f => cases f <;> simp_all [validReplacement, toFloat]
            | _ => simp_all [toFloat]
          simp [isNinf, isPinf, this]
        · unfold infVal
          rw [hg x hx, hp, hty]
          simp [isNinf, isPinf]
        · rcases hn with hn | ⟨n1, n2⟩
          · refine infVal_of_notMem ?_ _
            rw [keys_mapVal' w (fun p => (toFloat p.2.1, toFloat p.2.2))]
            intro hk
            obtain ⟨x, hx⟩ := Dict.mem_keys.1 hk
            exact hn x hx
          · unfold infVal
            simp [isNinf, isPinf, n1, n2]
  | dropNull e cols ih =>
    obtain ⟨s', hs', hs⟩ := bind_ok hs
    obtain ⟨o', ho', ho⟩ := bind_ok ho
    have a := agree hc e he hs' ho'
    have ok := rows_conform hc hD e he hf hr hs' ho'
    have ih := ih he hf hr hs' ho'
    obtain ⟨_, hsub, rfl⟩ := visitDropNull_ok ho
    refine ⟨_, s', ih, hs', _, by dsimp only [dropRows]; rw [List.filter_filter], fun r hrow => ?_⟩
    have okr := ok r hrow
    simp only [Bool.and_eq_true, List.all_eq_true, Bool.not_eq_true', having, List.mem_filter]
    have hcols : ∀ c d, Dict.get o'.dom c = some d → (d.allowNull = true ∨ allowsNan d = true) →
        (c ∈ dropNullCols cols o'.dom o'.metric.col ↔
          if cols = [] then s'.idColumn ≠ some c ∧ groupTag cat e ≠ some c else c ∈ cols) := by
      intro c d hd hor
      have mc := metricCol_iff hc a ho' c
      unfold dropNullCols
      split
      · rw [← not_or, ← mc, List.mem_map]
        constructor
        · rintro ⟨p, hp, rfl⟩
          have := (List.mem_filter.1 hp).2
          simp only [Bool.and_eq_true, decide_eq_true_eq] at this
          exact this.2
        · intro hne
          exact ⟨(c, d), List.mem_filter.2 ⟨(Dict.get_eq_some a.wfd).1 hd, by simpa [hne] using hor⟩, rfl⟩
      · rfl
    constructor
    · rintro ⟨k1, k2⟩ c v hcv hin hmiss
      have hcol : c ∈ Dict.keys o'.dom := (okr.mem_cols c).1 (Dict.get_isSome.1 (by
        rw [show Dict.get r c = some v from hcv]; rfl))
      obtain ⟨d, hd⟩ := Option.isSome_iff_exists.1 (Dict.get_isSome.2 hcol)
      obtain ⟨g1, g2⟩ := okr.cell hd
      rw [show Dict.get r c = Row.get r c from rfl, hcv] at g1
      cases g1
      rcases hmiss with h | h
      · have hal : d.allowNull = true := by rw [h] at g2; exact valOK_null_allowed g2
        have := k2 c ⟨(hcols c d hd (Or.inl hal)).2 hin, by simpa [hd] using hal⟩
        simp [isNull, h] at this
      · have hal : allowsNan d = true := by rw [h] at g2; exact valOK_nan_allowed g2
        have := k1 c ⟨(hcols c d hd (Or.inr hal)).2 hin, by simpa [hd] using hal⟩
        simp [isNan, h] at this
    · intro hk
      have main : ∀ c d, c ∈ dropNullCols cols o'.dom o'.metric.col → Dict.get o'.dom c = some d →
          (d.allowNull = true ∨ allowsNan d = true) → ¬ Missing (cell r c) := by
        intro c d hin hd hor
        exact hk c _ (okr.get (Dict.get_isSome.1 (by rw [hd]; rfl))) ((hcols c d hd hor).1 hin)
      constructor
      · rintro c ⟨hin, hany⟩
        obtain ⟨d, hd, hp⟩ := (Option.any_eq_true _ _).1 hany
        have := main c d hin hd (Or.inr hp)
        unfold Missing at this
        push_neg at this
        simp [isNan, this.2]
      · rintro c ⟨hin, hany⟩
        obtain ⟨d, hd, hp⟩ := (Option.any_eq_true _ _).1 hany
        have := main c d hin hd (Or.inl hp)
        unfold Missing at this
        push_neg at this
        simp [isNull, this.1]
  | dropInf e cols ih =>
    obtain ⟨s', hs', hs⟩ := bind_ok hs
    obtain ⟨o', ho', ho⟩ := bind_ok ho
    have a := agree hc e he hs' ho'
    have ok := rows_conform hc hD e he hf hr hs' ho'
    have ih := ih he hf hr hs' ho'
    obtain ⟨hsub, rfl⟩ := visitDropInf_ok ho
    refine ⟨_, ih, _, List.Perm.refl _, fun r hrow => ?_⟩
    have okr := ok r hrow
    simp only [List.all_eq_true, Bool.not_eq_true', Bool.or_eq_false_iff]
    constructor
    · intro hk c v hcv hin
      have hcol : c ∈ Dict.keys o'.dom := (okr.mem_cols c).1 (Dict.get_isSome.1 (by
        rw [show Dict.get r c = some v from hcv]; rfl))
      obtain ⟨d, hd⟩ := Option.isSome_iff_exists.1 (Dict.get_isSome.2 hcol)
      obtain ⟨g1, g2⟩ := okr.cell hd
      rw [show Dict.get r c = Row.get r c from rfl, hcv] at g1
      cases g1
      have key : cell r c = .dec .ninf ∨ cell r c = .dec .pinf → False := by
        intro hinf
        obtain ⟨f1, f2⟩ := valOK_inf_allowed (d := d) (by rcases hinf with h | h <;> rw [h] at g2 <;> simp [g2])
        have hin' : c ∈ dropInfCols cols o'.dom := by
          unfold dropInfCols
          split
          · exact List.mem_map.2 ⟨(c, d), List.mem_filter.2 ⟨(Dict.get_eq_some a.wfd).1 hd, by simp [f1, f2]⟩, rfl⟩
          · next hne => exact hin.resolve_left hne
        have := hk c hin'
        rcases hinf with h | h <;> simp [isPinf, isNinf, h] at this
      exact ⟨fun h => key (Or.inl h), fun h => key (Or.inr h)⟩
    · intro hk c hin
      have hin2 : c ∈ Dict.keys o'.dom ∧ (cols = [] ∨ c ∈ cols) := by
        unfold dropInfCols at hin
        split at hin
        · next he =>
          obtain ⟨p, hp, rfl⟩ := List.mem_map.1 hin
          exact ⟨List.mem_map.2 ⟨p, (List.mem_filter.1 hp).1, rfl⟩, Or.inl he⟩
        · refine ⟨?_, Or.inr hin⟩
          obtain ⟨d, hd, _⟩ := (Option.any_eq_true _ _).1 (hsub c hin)
          exact Dict.get_isSome.1 (by rw [hd]; rfl)
      obtain ⟨n1, n2⟩ := hk c _ (okr.get hin2.1) hin2.2
      simp [isPinf, isNinf, n1, n2]
  | enforce e c ih =>
    obtain ⟨s', hs', hs⟩ := bind_ok hs
    obtain ⟨o', ho', ho⟩ := bind_ok ho
    have a := agree hc e he hs' ho'
    have ih := ih he hf hr hs' ho'
    obtain ⟨i, hi, _, rfl⟩ := visitEnforce_ok ho
    exact ⟨_, s', i, ih, hs', (a.ids i).1 hi, enforced h i c _⟩

/-- Without left joins of tables with IDs there is nothing to except. -/
theorem means_of_by {cat : Cat} {D : Data} {e : Expr} (hl : NoLeftIDs cat e) {t' : Table} (h : MeansBy true cat D e t') :
    Means cat D e t' := by
  induction e generalizing t' with
  | source id => exact h
  | rename e m ih => obtain ⟨t, h, r⟩ := h; exact ⟨t, ih hl h, r⟩
  | filter e _ _ ih => obtain ⟨t, h, r⟩ := h; exact ⟨t, ih hl h, r⟩
  | select e _ ih => obtain ⟨t, h, r⟩ := h; exact ⟨t, ih hl h, r⟩
  | map e _ _ _ ih => obtain ⟨t, h, r⟩ := h; exact ⟨t, ih hl h, r⟩
  | flatMap e _ _ _ _ ih => obtain ⟨t, s, h, r⟩ := h; exact ⟨t, s, ih hl h, r⟩
  | flatMapByID e _ _ ih => obtain ⟨t, s, i, h, r⟩ := h; exact ⟨t, s, i, ih hl h, r⟩
  | joinPrivate l r _ _ _ il ir =>
    obtain ⟨lt, rt, ls, rs, h1, h2, h3⟩ := h
    exact ⟨lt, rt, ls, rs, il hl.1 h1, ir hl.2 h2, h3⟩
  | joinPublic e pub cols how ih =>
    obtain ⟨t, s, ps, pt, h1, h2, h3, h4⟩ := h
    refine ⟨t, s, ps, pt, ih hl.1 h1, h2, h3, ?_⟩
    cases how with
    | inner => exact h4
    | left =>
      dsimp only at h4 ⊢
      rw [hl.2 rfl s h2] at h4
      exact h4
  | replaceNull e _ ih => obtain ⟨t, s, h, r⟩ := h; exact ⟨t, s, ih hl h, r⟩
  | replaceInf e _ ih => obtain ⟨t, h, r⟩ := h; exact ⟨t, ih hl h, r⟩
  | dropNull e _ ih => obtain ⟨t, s, h, r⟩ := h; exact ⟨t, s, ih hl h, r⟩
  | dropInf e _ ih => obtain ⟨t, h, r⟩ := h; exact ⟨t, ih hl h, r⟩
  | enforce e _ ih => obtain ⟨t, s, i, h, r⟩ := h; exact ⟨t, s, i, ih hl h, r⟩

theorem faithful {h : Hash} {cat : Cat} {D : Data} (hc : cat.OK) (hD : cat.DataOK D) (e : Expr) (he : e.WF)
    (hf : e.FnsOK) (hr : e.RenamesDistinct) {s : Schema} {o : Out} (hs : schemaOf cat e = .ok s)
    (ho : compile h cat e = .ok o) : Faithful cat D e (o.run D) :=
  have m := means_by hc hD e he hf hr hs ho
  ⟨m, fun hl => means_of_by hl m⟩

theorem means {h : Hash} {cat : Cat} {D : Data} (hc : cat.OK) (hD : cat.DataOK D) (e : Expr) (he : e.WF)
    (hf : e.FnsOK) (hr : e.RenamesDistinct) (hl : NoLeftIDs cat e) {s : Schema} {o : Out}
    (hs : schemaOf cat e = .ok s) (ho : compile h cat e = .ok o) : Means cat D e (o.run D) :=
  (faithful hc hD e he hf hr hs ho).2 hl

theorem faithful_of_build {h : Hash} {cat : Cat} {D : Data} (hc : cat.OK) (hD : cat.DataOK D) (e : Expr)
    (he : e.WF) (hf : e.FnsOK) (hr : e.RenamesDistinct) {s : Schema} {o : Out} (hb : build h cat e = .ok (s, o)) :
    Faithful cat D e (o.run D) := by
  obtain ⟨hs, ho, _⟩ := build_ok hb
  exact faithful hc hD e he hf hr hs ho

/-- **C57**, with what happens otherwise: the table a query's transformations compute is one that their documentation
describes, if left joins of tables with IDs and public tables are read as inner joins.

Partial: renames that give two columns the same new name (see `C19_fails`) are excluded. -/
theorem C57_computed_partial {h : Hash} {cat : Cat} {D : Data} (hc : cat.OK) (hD : cat.DataOK D) (e : Expr)
    (he : e.WF) (hf : e.FnsOK) (hr : e.RenamesDistinct) {s : Schema} {o : Out} (hb : build h cat e = .ok (s, o)) :
    MeansBy true cat D e (o.run D) := by
  obtain ⟨hs, ho, _⟩ := build_ok hb
  exact means_by hc hD e he hf hr hs ho

/-- **C57.** The table a query's transformations compute is one that their documentation describes.

Partial: renames that give two columns the same new name (see `C19_fails`) and left joins of public tables with
tables with IDs (`C57_left_fails`) are excluded. -/
theorem C57_transformations_partial {h : Hash} {cat : Cat} {D : Data} (hc : cat.OK) (hD : cat.DataOK D) (e : Expr)
    (he : e.WF) (hf : e.FnsOK) (hr : e.RenamesDistinct) (hl : NoLeftIDs cat e) {s : Schema} {o : Out}
    (hb : build h cat e = .ok (s, o)) : Means cat D e (o.run D) := by
  obtain ⟨hs, ho, _⟩ := build_ok hb
  exact means hc hD e he hf hr hl hs ho

end Verif.Meaning
