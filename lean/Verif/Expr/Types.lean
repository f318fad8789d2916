import Verif.Expr.Agree

/-!
# The columns of a compiled table have the types its schema says
-/

namespace Verif.Expr

open Verif Verif.Schema Verif.Constraint

def tyOf (d : SparkDesc) : ColumnType := (ofSparkDesc d).ty

/-- Column names and types of a domain. -/
def tys (d : Dict String SparkDesc) : Dict String ColumnType := d.map (fun p => (p.1, tyOf p.2))

/-- Column names and types of a schema. -/
def stys (s : Schema) : Dict String ColumnType := s.columnDescs.elements.map (fun p => (p.1, p.2.ty))

theorem tyOf_toSpark (d : Desc) : tyOf (toSparkDesc d) = d.ty := by
  obtain ⟨t, a, b, c⟩ := d
  cases t <;> rfl

theorem tyOf_setNull (b : Bool) (d : SparkDesc) : tyOf (setNull b d) = tyOf d := by cases d <;> rfl
theorem tyOf_setNan (b : Bool) (d : SparkDesc) : tyOf (setNan b d) = tyOf d := by cases d <;> rfl
theorem tyOf_setInf (b : Bool) (d : SparkDesc) : tyOf (setInf b d) = tyOf d := by cases d <;> rfl

theorem tyOf_right (how : How) (d : SparkDesc) : tyOf (rightDesc how d) = tyOf d := by
  cases how
  · rfl
  · exact tyOf_setNull true d

theorem tyOf_meet {a b m : SparkDesc} (h : meet a b = some m) : tyOf m = tyOf a := by
  cases a <;> cases b <;> simp only [meet, Option.some.injEq, reduceCtorEq] at h <;> subst h <;> rfl

theorem keys_tys (d : Dict String SparkDesc) : Dict.keys (tys d) = Dict.keys d :=
  keys_mapVal' d (fun p => tyOf p.2)

theorem get_tys (d : Dict String SparkDesc) (c : String) : Dict.get (tys d) c = (Dict.get d c).map tyOf :=
  get_mapVal d (fun p => tyOf p.2) c

theorem get_stys {s : Schema} (w : s.WF) (c : String) : Dict.get (stys s) c = (Dict.get s.descs c).map Desc.ty := by
  rw [Schema.descs_eq w]
  exact get_mapVal s.columnDescs.elements (fun p => p.2.ty) c

theorem tys_analytics {s : Schema} (w : s.WF) : tys (analyticsToSparkColumns s) = stys s := by
  rw [analytics_dom w, tys, stys, List.map_map]
  apply List.map_congr_left
  intro p _
  simp [tyOf_toSpark]

theorem tys_append (a b : Dict String SparkDesc) : tys (a ++ b) = tys a ++ tys b := by simp [tys]

theorem tys_newDescs {new : Schema} (w : new.WF) :
    tys (newDescs new) = (nullable new).map (fun p => (p.1, p.2.ty)) := by
  unfold newDescs nullable
  rw [analytics_dom w, Schema.descs_eq w, tys, List.map_map, List.map_map, List.map_map]
  apply List.map_congr_left
  intro p _
  simp [tyOf_toSpark, tyOf_setNull]

theorem tys_update {f : SparkDesc → SparkDesc} (hf : ∀ d, tyOf (f d) = tyOf d) (cs : List String)
    (d : Dict String SparkDesc) : tys (update f cs d) = tys d := by
  unfold tys update
  rw [List.map_map]
  apply List.map_congr_left
  intro p _
  show (p.1, tyOf (if p.1 ∈ cs then f p.2 else p.2)) = _
  split
  · rw [hf]
  · rfl

theorem ofPairs_mapVal {V W : Type} (f : V → W) (l : List (String × V)) :
    (Dict.ofPairs l).map (fun p => (p.1, f p.2)) = Dict.ofPairs (l.map (fun p => (p.1, f p.2))) := by
  unfold Dict.ofPairs Dict.union
  have hset : ∀ (d : Dict String V) k v, (Dict.set d k v).map (fun p => (p.1, f p.2))
      = Dict.set (d.map (fun p => (p.1, f p.2))) k (f v) := by
    intro d k v
    have hk : k ∈ Dict.keys (d.map (fun p => (p.1, f p.2))) ↔ k ∈ Dict.keys d := by
      rw [keys_mapVal' d (fun p => f p.2)]
    unfold Dict.set
    by_cases h : k ∈ Dict.keys d
    · rw [if_pos h, if_pos (hk.2 h), List.map_map, List.map_map]
      apply List.map_congr_left
      intro p _
      simp only [Function.comp]
      split <;> rfl
    · rw [if_neg h, if_neg (fun x => h (hk.1 x))]
      simp
  have key : ∀ d : Dict String V, (l.foldl (fun d p => Dict.set d p.1 p.2) d).map (fun p => (p.1, f p.2))
      = (l.map (fun p => (p.1, f p.2))).foldl (fun d p => Dict.set d p.1 p.2)
          (d.map (fun p => (p.1, f p.2))) := by
    induction l with
    | nil => intro d; rfl
    | cons p l ih =>
      intro d
      rw [List.foldl_cons, List.map_cons, List.foldl_cons, ih, hset]
  exact key []

theorem tys_pick (d : Dict String SparkDesc) (cs : List String) :
    tys (pick d cs) = cs.filterMap (fun c => (Dict.get (tys d) c).map (fun x => (c, x))) := by
  induction cs with
  | nil => rfl
  | cons c cs ih =>
    unfold pick at *
    rw [List.filterMap_cons, List.filterMap_cons, get_tys]
    cases Dict.get d c with
    | none => simpa [tys] using ih
    | some x =>
      simp only [Option.map_some]
      rw [← ih]
      rfl

/-! ## Joins -/

/-- Names and types of the columns of a join. -/
def tyJoin (l r : Dict String ColumnType) (jc : List String) : Dict String ColumnType :=
  let lk := Dict.keys l
  let rk := Dict.keys r
  jc.filterMap (fun c => (Dict.get l c).map (fun x => (c, x))) ++
    (lk.filter (fun c => decide (c ∉ rk))).filterMap (fun c => (Dict.get l c).map (fun x => (c, x))) ++
    (rk.filter (fun c => decide (c ∉ lk))).filterMap (fun c => (Dict.get r c).map (fun x => (c, x))) ++
    (overlap lk rk jc).flatMap (fun c =>
      match Dict.get l c, Dict.get r c with
      | some a, some b => [(c ++ "_left", a), (c ++ "_right", b)]
      | _, _ => [])

theorem tys_joinCols {how : How} {ld rd js : Dict String SparkDesc} {jc : List String}
    (h : joinColDescs how ld rd jc = some js) :
    tys js = jc.filterMap (fun c => (Dict.get (tys ld) c).map (fun x => (c, x))) := by
  induction jc generalizing js with
  | nil => simp [joinColDescs] at h; subst h; rfl
  | cons c cs ih =>
    rw [joinColDescs] at h
    split at h
    · next d ds h1 h2 =>
      cases h
      rw [List.filterMap_cons, ← ih h2, get_tys]
      unfold joinColDesc at h1
      split at h1
      · next a b ha hb =>
        rw [ha]
        have e : tyOf d = tyOf a := by
          split at h1
          · exact tyOf_meet h1
          · rw [Option.map_eq_some_iff] at h1
            obtain ⟨_, _, rfl⟩ := h1
            rfl
        simp only [Option.map_some]
        show (c, tyOf d) :: tys ds = _
        rw [e]
      · cases h1
    · cases h

theorem tys_overlap (how : How) (ld rd : Dict String SparkDesc) (cs : List String) :
    tys (overlapDescs how ld rd cs) = cs.flatMap (fun c =>
      match Dict.get (tys ld) c, Dict.get (tys rd) c with
      | some a, some b => [(c ++ "_left", a), (c ++ "_right", b)]
      | _, _ => []) := by
  induction cs with
  | nil => rfl
  | cons c cs ih =>
    unfold overlapDescs at *
    rw [List.flatMap_cons, List.flatMap_cons, tys_append, ih, get_tys, get_tys]
    congr 1
    cases Dict.get ld c <;> cases Dict.get rd c <;> simp [tys, tyOf_right]

theorem tys_join {how : How} {ld rd d : Dict String SparkDesc} {jc : List String}
    (h : domainAfterJoin how ld rd jc = .ok d) : tys d = tyJoin (tys ld) (tys rd) jc := by
  unfold domainAfterJoin at h
  split at h
  · split at h
    · next js hj =>
      cases h
      have e : ∀ x : Dict String SparkDesc, tys (x.map (fun p => (p.1, rightDesc how p.2))) = tys x := by
        intro x
        unfold tys
        rw [List.map_map]
        apply List.map_congr_left
        intro p _
        simp [tyOf_right]
      rw [tys_append, tys_append, tys_append, tys_joinCols hj, tys_pick, e, tys_pick, tys_overlap]
      simp only [tyJoin, keys_tys]
    · cases h
  · cases h

theorem stys_join {how : How} {cols : Option (List String)} {l r s : Schema} (wl : l.WF) (wr : r.WF)
    (h : schemaForJoin how cols l r = .ok s) :
    stys s = tyJoin (stys l) (stys r) (joinCols (Schema.keys l) (Schema.keys r) cols) := by
  unfold schemaForJoin at h
  split at h
  · cases h
  · next d hd =>
    obtain ⟨k, w⟩ := domainAfterJoin_keys hd
    have w' : Dict.WF (sparkDomainToAnalytics d) := by
      rw [keys_ofSpark w]; exact wf_mapVal w (fun p => ofSparkDesc p.2)
    obtain ⟨_, _, _, _, h5⟩ := mk_ok w' h
    rw [← tys_analytics wl, ← tys_analytics wr, ← tys_join hd, stys, h5, keys_ofSpark w, List.map_map]
    rfl

theorem stys_keeps {s' s : Schema} {g : String × Desc → Desc} (ks : Keeps s' s g)
    (hg : ∀ p, (g p).ty = p.2.ty) : stys s = stys s' := by
  rw [stys, stys, ks.elems, List.map_map]
  apply List.map_congr_left
  intro p _
  simp [hg]

/-- The compiled table and the schema have the same columns with the same types. -/
theorem types {h : Hash} {cat : Cat} (hc : cat.OK) (e : Expr) (he : e.WF) {s : Schema} {o : Out}
    (hs : schemaOf cat e = .ok s) (ho : compile h cat e = .ok o) : tys o.dom = stys s := by
  induction e generalizing s o with
  | source id =>
    simp only [schemaOf, schSource] at hs
    simp only [compile, visitSource] at ho
    split at hs
    · cases hs
    split at hs
    · next s' cs hg =>
      cases hs
      rw [hg] at ho
      cases ho
      exact tys_analytics (hc.priv _ _ _ hg).1
    · cases hs
  | rename e m ih =>
    obtain ⟨s', hs', hs⟩ := bind_ok hs
    obtain ⟨o', ho', ho⟩ := bind_ok ho
    have t := ih he.1 hs' ho'
    have a := agree hc e he.1 hs' ho'
    obtain ⟨_, _, _, w, _, _, _, el⟩ := schRename_ok hs
    obtain ⟨_, _, rfl⟩ := visitRename_ok ho
    show tys (Dict.ofPairs _) = _
    unfold tys stys at *
    rw [el, ofPairs_mapVal tyOf, ofPairs_mapVal Desc.ty, Schema.descs_eq a.wfs]
    congr 1
    have := congrArg (List.map (fun p : String × ColumnType => (renamed m p.1, p.2))) t
    simp only [List.map_map] at this ⊢
    exact this
  | filter e valid cond ih =>
    obtain ⟨s', hs', hs⟩ := bind_ok hs
    obtain ⟨o', ho', ho⟩ := bind_ok ho
    have t := ih he hs' ho'
    unfold schFilter at hs
    split at hs
    · cases hs; cases ho; exact t
    · cases hs
  | select e cols ih =>
    obtain ⟨s', hs', hs⟩ := bind_ok hs
    obtain ⟨o', ho', ho⟩ := bind_ok ho
    have t := ih he hs' ho'
    have a := agree hc e he hs' ho'
    obtain ⟨nd, _, _, _, w, _, _, _, el, _⟩ := schSelect_ok hs
    obtain ⟨_, _, rfl⟩ := visitSelect_ok ho
    show tys (pick o'.dom cols) = _
    rw [tys_pick, t]
    conv_rhs => rw [stys, el, List.map_filterMap]
    congr 1
    funext c
    rw [get_stys a.wfs]
    cases Dict.get s'.descs c <;> rfl
  | map e f new augment ih =>
    obtain ⟨s', hs', hs⟩ := bind_ok hs
    obtain ⟨o', ho', ho⟩ := bind_ok ho
    have t := ih he.1 hs' ho'
    have a := agree hc e he.1 hs' ho'
    obtain ⟨w, hh⟩ := schMap_ok he.2 a.wfs hs
    obtain ⟨hm, rfl⟩ := visitMap_ok ho
    rcases hh with ⟨rfl, dis, g1, g2, g3, el⟩ | ⟨rfl, i1, i2, g1, g2, g3, el⟩
    · show tys (Dict.union o'.dom (newDescs new)) = _
      rw [(keys_append_new a w he.2 dis el).1, tys_append, t, tys_newDescs he.2, stys, stys, el, List.map_append]
    · show tys (newDescs new) = _
      rw [tys_newDescs he.2, stys, el]
  | flatMap e f new augment n ih =>
    obtain ⟨s', hs', hs⟩ := bind_ok hs
    obtain ⟨o', ho', ho⟩ := bind_ok ho
    have t := ih he.1 hs' ho'
    have a := agree hc e he.1 hs' ho'
    obtain ⟨w, hng, hh⟩ := schFlatMap_ok he.2 a.wfs hs
    obtain ⟨g, hd, _⟩ := visitFlatMap_ok ho
    rw [hd]
    rcases hh with ⟨rfl, dis, g1, g2, g3, el⟩ | ⟨rfl, i1, i2, g1, g2, g3, el⟩
    · simp only [if_true]
      rw [(keys_append_new a w he.2 dis el).1, tys_append, t, tys_newDescs he.2, stys, stys, el, List.map_append]
    · simp only [Bool.false_eq_true, if_false]
      rw [tys_newDescs he.2, stys, el]
  | flatMapByID e f new ih =>
    obtain ⟨s', hs', hs⟩ := bind_ok hs
    obtain ⟨o', ho', ho⟩ := bind_ok ho
    have t := ih he.1 hs' ho'
    have a := agree hc e he.1 hs' ho'
    obtain ⟨i, d, hi, hg, hn, hd, w, g1, g2, g3, el⟩ := schFlatMapByID_ok he.2 hs
    obtain ⟨i', d', hm, hd', hn', e1, e2, e3, _⟩ := visitFlatMapByID_ok ho
    have : i = i' := by
      have := (a.ids i').1 hm
      rw [hi] at this
      exact Option.some.inj this
    subst this
    have ht : tyOf d' = d.ty := by
      have h1 := get_tys o'.dom i
      rw [t, get_stys a.wfs, hd, hd'] at h1
      simpa using h1.symm
    rw [e1, stys, el]
    show (i, tyOf d') :: tys (newDescs new) = (i, d.ty) :: _
    rw [ht, tys_newDescs he.2]
  | joinPrivate l r tl tr cols ihl ihr =>
    obtain ⟨sl, hsl, hs⟩ := bind_ok hs
    obtain ⟨sr, hsr, hs⟩ := bind_ok hs
    obtain ⟨ol, hol, ho⟩ := bind_ok ho
    obtain ⟨or, hor, ho⟩ := bind_ok ho
    have al := agree hc l he.1 hsl hol
    have ar := agree hc r he.2 hsr hor
    obtain ⟨_, _, _, _, _, _, _, _, hj⟩ := schJoinPrivate_ok al.wfs ar.wfs hs
    obtain ⟨_, _, hd, _⟩ := visitJoinPrivate_ok ho
    rw [tys_join hd, stys_join al.wfs ar.wfs hj, ihl he.1 hsl hol, ihr he.2 hsr hor, al.keys, ar.keys]
  | joinPublic e pub cols how ih =>
    obtain ⟨s', hs', hs⟩ := bind_ok hs
    obtain ⟨o', ho', ho⟩ := bind_ok ho
    have a := agree hc e he.1 hs' ho'
    obtain ⟨ps, pt, hp, wp, _, w, _, _, _, _, hj⟩ := schJoinPublic_ok hc he.2 a.wfs hs
    obtain ⟨ps', pt', hp', hd, _⟩ := visitJoinPublic_ok ho
    rw [hp] at hp'
    cases hp'
    rw [tys_join hd, stys_join a.wfs wp hj, ih he.1 hs' ho', tys_analytics wp, a.keys, keys_analytics wp]
  | replaceNull e w ih =>
    obtain ⟨s', hs', hs⟩ := bind_ok hs
    obtain ⟨o', ho', ho⟩ := bind_ok ho
    have a := agree hc e he.1 hs' ho'
    obtain ⟨ks, _⟩ := schReplaceNull_ok a.wfs hs
    obtain ⟨rw, _, _, rfl⟩ := visitReplaceNull_ok ho
    show tys (update _ _ (update _ _ _)) = _
    rw [tys_update (tyOf_setNan _), tys_update (tyOf_setNull _), ih he.1 hs' ho', stys_keeps ks (fun _ => rfl)]
  | replaceInf e w ih =>
    obtain ⟨s', hs', hs⟩ := bind_ok hs
    obtain ⟨o', ho', ho⟩ := bind_ok ho
    have a := agree hc e he.1 hs' ho'
    obtain ⟨ks, _⟩ := schReplaceInf_ok a.wfs hs
    obtain ⟨_, rfl⟩ := visitReplaceInf_ok ho
    show tys (update _ _ _) = _
    rw [tys_update (tyOf_setInf _), ih he.1 hs' ho', stys_keeps ks (fun _ => rfl)]
  | dropNull e cols ih =>
    obtain ⟨s', hs', hs⟩ := bind_ok hs
    obtain ⟨o', ho', ho⟩ := bind_ok ho
    have a := agree hc e he hs' ho'
    obtain ⟨ks, _⟩ := schDropNull_ok a.wfs hs
    obtain ⟨_, _, rfl⟩ := visitDropNull_ok ho
    show tys (update _ _ (update _ _ _)) = _
    rw [tys_update (tyOf_setNan _), tys_update (tyOf_setNull _), ih he hs' ho', stys_keeps ks (fun _ => rfl)]
  | dropInf e cols ih =>
    obtain ⟨s', hs', hs⟩ := bind_ok hs
    obtain ⟨o', ho', ho⟩ := bind_ok ho
    have a := agree hc e he hs' ho'
    obtain ⟨ks, _⟩ := schDropInf_ok a.wfs hs
    obtain ⟨_, rfl⟩ := visitDropInf_ok ho
    show tys (update _ _ _) = _
    rw [tys_update (tyOf_setInf _), ih he hs' ho', stys_keeps ks (fun _ => rfl)]
  | enforce e c ih =>
    obtain ⟨s', hs', hs⟩ := bind_ok hs
    obtain ⟨o', ho', ho⟩ := bind_ok ho
    obtain ⟨rfl, _⟩ := schEnforce_ok hs
    have t := ih he hs' ho'
    obtain ⟨i, _, _, rfl⟩ := visitEnforce_ok ho
    exact t

end Verif.Expr
