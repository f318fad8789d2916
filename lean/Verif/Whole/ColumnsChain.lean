import Verif.Whole.PropsChain

/-!
# C72: the columns of the table a chain of methods makes
-/

namespace Verif.Whole

open Verif Verif.Schema Verif.Constraint Verif.Expr Verif.Query Verif.Stability
open Verif.Meaning

/-! ## Calls that succeeded -/

theorem newBuilder_ok {ctx : Ctx} {id : String} {e : Expr} (h : newBuilder ctx id = .ok e) : e = .source id := by
  unfold newBuilder at h
  split at h
  · cases h; rfl
  · cases h

theorem callMap_ok {e e' : Expr} {f : Row → Row} {types : Dict String ColSpec} {augment : Bool}
    (h : callMap e f types augment = .ok e') : ∃ new, newSchema types none = .ok new ∧ e' = .map e f new augment := by
  unfold callMap at h
  split at h
  · cases h
  · next new hn => cases h; exact ⟨new, hn, rfl⟩

theorem callFlatMap_ok {e e' : Expr} {f : Row → List Row} {types : Dict String ColSpec} {augment grouping : Bool}
    {n : Option ℤ} (h : callFlatMap e f types augment grouping n = .ok e') :
    ∃ new, newSchema types (if grouping then types.head?.map Prod.fst else none) = .ok new ∧
      (grouping = true → ∃ p, types = [p]) ∧ (∀ z, n = some z → 0 ≤ z) ∧
      e' = .flatMap e f new augment (n.map Int.toNat) := by
  have hc := callFlatMap_checks e f types augment grouping n
  rcases hc with ⟨_, _, hg, hz⟩ | ⟨⟨x, hx, _⟩, _⟩
  swap
  · rw [h] at hx; cases hx
  unfold callFlatMap at h
  split at h
  · cases h
  split at h
  · cases h
  next new hn =>
  refine ⟨new, ?_, hg, hz, ?_⟩
  · rw [← hn]
    unfold Dict.keys
    rw [List.head?_map]
  · split at h
    · cases h; rfl
    · split at h
      · cases h
      · cases h; rfl

theorem callFlatMapByID_ok {e e' : Expr} {f : List Row → List Row} {types : Dict String ColSpec}
    (h : callFlatMapByID e f types = .ok e') : ∃ new, newSchema types none = .ok new ∧ e' = .flatMapByID e f new := by
  unfold callFlatMapByID at h
  split at h
  · cases h
  · next new hn => cases h; exact ⟨new, hn, rfl⟩

theorem callBin_ok {e e' : Expr} {column : String} {b : Bins} {name : Option String} (h : callBin e column b name = .ok e') :
    ∃ n, n = name.getD (column ++ "_binned") ∧ n ≠ "" ∧
      e' = .map e (b.fn column n) (oneColumn n b.desc) true := by
  have hc := callBin_checks e column b name
  rcases hc with ⟨_, hc⟩ | ⟨⟨x, hx, _⟩, _⟩
  swap
  · rw [h] at hx; cases hx
  have key : ∀ n : String, n ≠ "" → callMap e (b.fn column n) [(n, .desc b.desc)] true = .ok e' →
      e' = .map e (b.fn column n) (oneColumn n b.desc) true := by
    intro n hn h
    obtain ⟨new, h1, rfl⟩ := callMap_ok h
    unfold newSchema Schema.init at h1
    rw [if_neg (by simpa [Dict.keys] using Ne.symm hn), if_neg (by simp), if_neg (by simp)] at h1
    simp only [resolveAll, Schema.resolve] at h1
    cases h1
    rfl
  cases name with
  | none => exact ⟨_, rfl, binned_ne column, key _ (binned_ne column) h⟩
  | some n =>
    have hn : n ≠ "" := fun he => hc (congrArg some he)
    exact ⟨_, rfl, hn, key _ hn h⟩

theorem callJoinPublic_ok {ctx : Ctx} {e e' : Expr} {pub : PubArg} {cols : ColsArg} {how : String}
    (h : callJoinPublic ctx e pub cols how = .ok e') :
    ∃ p k, pubRef ctx pub = .ok p ∧ howOf how = .ok k ∧ e' = .joinPublic e p (joinTuple cols) k := by
  unfold callJoinPublic at h
  split at h
  · cases h
  split at h
  · cases h
  next p hp =>
  split at h
  · cases h
  next k hk =>
  cases h
  exact ⟨p, k, hp, hk, rfl⟩

theorem howOf_ok {how : String} {k : How} (h : howOf how = .ok k) : how = "inner" ∧ k = .inner ∨ how = "left" ∧ k = .left := by
  unfold howOf at h
  split at h
  · next hh => cases h; exact .inl ⟨hh, rfl⟩
  split at h
  · next hh => cases h; exact .inr ⟨hh, rfl⟩
  · cases h

theorem callJoinPrivate_ok {e r e' : Expr} {tl tr : Option Trunc} {cols : ColsArg}
    (h : callJoinPrivate e r tl tr cols = .ok e') : e' = .joinPrivate e r tl tr (joinTuple cols) := by
  unfold callJoinPrivate at h
  split at h
  · cases h
  · cases h; rfl

theorem callReplaceNull_ok {e e' : Expr} {w : Option (Dict String Value)} (h : callReplaceNull e w = .ok e') :
    e' = .replaceNull e (w.getD []) := by
  unfold callReplaceNull at h
  dsimp only at h
  split at h
  · cases h
  · cases h; rfl

theorem callReplaceInf_ok {e e' : Expr} {w : Option (Dict String (Value × Value))} (h : callReplaceInf e w = .ok e') :
    e' = .replaceInf e (w.getD []) := by
  unfold callReplaceInf at h
  dsimp only at h
  split at h
  · cases h
  split at h
  · cases h
  · cases h; rfl

/-! ## Queries that the model covers -/

theorem resolve_may {x : ColSpec} {d : Desc} (h : Schema.resolve true true true x = some d) :
    d.ty = specType x ∧ ∀ v, May x v ↔ DescOK { d with allowNull := true } v := by
  cases x with
  | desc d' => cases h; exact ⟨rfl, fun _ => Iff.rfl⟩
  | ty t => cases h; exact ⟨rfl, fun _ => Iff.rfl⟩
  | name s =>
    simp only [Schema.resolve, Option.map_eq_some_iff] at h
    obtain ⟨t, ht, rfl⟩ := h
    have : t = specType (.name s) := by
      have := typeOfName_iff.1 ht
      unfold Written at this
      subst this
      cases t <;> rfl
    refine ⟨this, fun v => ?_⟩
    show DescOK ⟨specType (.name s), true, true, true⟩ v ↔ _
    rw [← this]

theorem newSchema_ok {types : Dict String ColSpec} {g : Option String} {new : Schema} (hw : Dict.WF types)
    (h : newSchema types g = .ok new) :
    new.WF ∧ new.grouping = g ∧ stys new = specTypes types ∧
      ∀ r, Promised types r → RowFits (withNulls new) r := by
  obtain ⟨h1, h2, h3, _, h5⟩ := Schema.init_ok hw h
  refine ⟨h1, h2, ?_, fun r hr => ?_⟩
  · unfold stys specTypes
    generalize new.columnDescs.elements = l at h5
    clear hw h h1
    induction h5 with
    | nil => rfl
    | cons hp _ ih => rw [List.map_cons, List.map_cons, ih, hp.1, (resolve_may hp.2).1]
  · obtain ⟨r1, r2, r3⟩ := hr
    have hk : Dict.keys (withNulls new) = Dict.keys types := by
      unfold withNulls Dict.keys
      rw [List.map_map]
      generalize new.columnDescs.elements = l at h5
      clear hw h h1 r1 r2 r3
      induction h5 with
      | nil => rfl
      | cons hp _ ih => rw [List.map_cons, List.map_cons, ih]; exact congrArg (· :: _) hp.1
    refine ⟨r1, fun c => by rw [hk]; exact r2 c, fun c v hv d hd => ?_⟩
    obtain ⟨⟨c', d'⟩, hm, he⟩ := List.mem_map.1 hd
    obtain ⟨rfl, rfl⟩ := Prod.mk.inj he
    obtain ⟨⟨c'', x⟩, hx, hp1, hp2⟩ : ∃ p ∈ types, c' = p.1 ∧ Schema.resolve true true true p.2 = some d' := by
      generalize new.columnDescs.elements = l at h5 hm
      clear hw h h1 r1 r2 r3 hk hd
      induction h5 with
      | nil => cases hm
      | @cons p q l l' hp _ ih =>
        rcases List.mem_cons.1 hm with rfl | hm
        · exact ⟨p, List.mem_cons_self, hp⟩
        · obtain ⟨p', h1, h2⟩ := ih hm
          exact ⟨p', List.mem_cons_of_mem _ h1, h2⟩
    dsimp only at hp1 hp2
    subst hp1
    exact ((resolve_may hp2).2 v).1 (r3 _ v x hv hx)

/-- Queries of users who keep their promises are among those that the model covers. -/
theorem admissible {ctx : Ctx} (c : Chain) (hk : c.Kept) {e : Expr} (h : c.build ctx = .ok e) : Admissible e := by
  induction c generalizing e with
  | start id =>
    cases newBuilder_ok h
    exact ⟨trivial, trivial, trivial, trivial, trivial⟩
  | rename c m ih =>
    obtain ⟨e', h', h⟩ := bind_ok h
    have ok := ih hk.1 h'
    split at h
    · cases h
    cases h
    exact ⟨⟨ok.wf, hk.2.1⟩, ok.fns, ⟨ok.renames, hk.2.2⟩, ok.orderFree, ok.groups⟩
  | filter c valid cond ih =>
    obtain ⟨e', h', h⟩ := bind_ok h
    have ok := ih hk h'
    cases h
    exact ⟨ok.wf, ok.fns, ok.renames, ok.orderFree, ok.groups⟩
  | select c columns ih =>
    obtain ⟨e', h', h⟩ := bind_ok h
    have ok := ih hk h'
    split at h
    · cases h
    split at h
    · cases h
      exact ⟨ok.wf, ok.fns, ok.renames, ok.orderFree, ok.groups⟩
    · cases h
  | map c f types augment ih =>
    obtain ⟨e', h', h⟩ := bind_ok h
    have ok := ih hk.1 h'
    obtain ⟨new, hn, rfl⟩ := callMap_ok h
    obtain ⟨w, _, _, hr⟩ := newSchema_ok hk.2.1 hn
    exact ⟨⟨ok.wf, w⟩, ⟨ok.fns, fun r => hr _ (hk.2.2 r)⟩, ok.renames, ok.orderFree, ok.groups⟩
  | flatMap c f types augment grouping n ih =>
    obtain ⟨e', h', h⟩ := bind_ok h
    have ok := ih hk.1 h'
    obtain ⟨new, hn, hg, _, rfl⟩ := callFlatMap_ok h
    obtain ⟨w, g, st, hr⟩ := newSchema_ok hk.2.1 hn
    refine ⟨⟨ok.wf, w⟩, ⟨ok.fns, fun r x hx => hr _ (hk.2.2.1 r x hx)⟩, ok.renames, ok.orderFree, ok.groups, ?_⟩
    intro c' hc d hd
    rw [g] at hc
    split at hc
    swap
    · cases hc
    next hgr =>
    have : (c', d.ty) ∈ stys new := List.mem_map.2 ⟨_, hd, rfl⟩
    rw [st] at this
    obtain ⟨p, hp, he⟩ := List.mem_map.1 this
    have := hk.2.2.2 hgr p hp
    rw [show specType p.2 = d.ty from congrArg Prod.snd he] at this
    exact this
  | flatMapByID c f types ih =>
    obtain ⟨e', h', h⟩ := bind_ok h
    have ok := ih hk.1 h'
    obtain ⟨new, hn, rfl⟩ := callFlatMapByID_ok h
    obtain ⟨w, _, _, hr⟩ := newSchema_ok hk.2.1 hn
    exact ⟨⟨ok.wf, w⟩, ⟨ok.fns, fun r x hx => hr _ (hk.2.2.1 r x hx)⟩, ok.renames, ⟨ok.orderFree, hk.2.2.2⟩, ok.groups⟩
  | binColumn c column bins name ih =>
    obtain ⟨e', h', h⟩ := bind_ok h
    have ok := ih hk.1 h'
    obtain ⟨n, _, hne, rfl⟩ := callBin_ok h
    exact @binColumn_ok _ _ bins.order bins.binner bins.spec column n bins.desc hne hk.2.2 e' ok
  | joinPublic c pub columns how ih =>
    obtain ⟨e', h', h⟩ := bind_ok h
    have ok := ih hk h'
    obtain ⟨p, k, hp, _, rfl⟩ := callJoinPublic_ok h
    cases pub with
    | table n =>
      cases hp
      exact ⟨⟨ok.wf, trivial⟩, ⟨ok.fns, trivial⟩, ok.renames, ok.orderFree, ok.groups⟩
    | frame f =>
      rcases pubRef_frame ctx f with ⟨s, h1, h2, h3, h4, h5, _⟩ | ⟨h1, _⟩
      · rw [h1] at hp
        cases hp
        exact ⟨⟨ok.wf, h2, h3, h4⟩, ⟨ok.fns, h5⟩, ok.renames, ok.orderFree, ok.groups⟩
      · rw [h1] at hp; cases hp
  | joinPrivate c r tl tr columns ih ih' =>
    obtain ⟨e', h', h⟩ := bind_ok h
    obtain ⟨e'', h'', h⟩ := bind_ok h
    have ok := ih hk.1 h'
    have ok' := ih' hk.2 h''
    cases callJoinPrivate_ok h
    exact ⟨⟨ok.wf, ok'.wf⟩, ⟨ok.fns, ok'.fns⟩, ⟨ok.renames, ok'.renames⟩, ⟨ok.orderFree, ok'.orderFree⟩, ok.groups, ok'.groups⟩
  | joinTable c table tl tr columns ih =>
    obtain ⟨e', h', h⟩ := bind_ok h
    obtain ⟨e'', h'', h⟩ := bind_ok h
    have ok := ih hk h'
    cases newBuilder_ok h''
    cases callJoinPrivate_ok h
    exact ⟨⟨ok.wf, trivial⟩, ⟨ok.fns, trivial⟩, ⟨ok.renames, trivial⟩, ⟨ok.orderFree, trivial⟩, ok.groups, trivial⟩
  | replaceNull c w ih =>
    obtain ⟨e', h', h⟩ := bind_ok h
    have ok := ih hk.1 h'
    cases callReplaceNull_ok h
    refine ⟨⟨ok.wf, ?_⟩, ok.fns, ok.renames, ok.orderFree, ok.groups⟩
    cases w with
    | none => exact List.nodup_nil
    | some m => exact hk.2 m rfl
  | replaceInf c w ih =>
    obtain ⟨e', h', h⟩ := bind_ok h
    have ok := ih hk.1 h'
    cases callReplaceInf_ok h
    refine ⟨⟨ok.wf, ?_⟩, ok.fns, ok.renames, ok.orderFree, ok.groups⟩
    cases w with
    | none => exact List.nodup_nil
    | some m => exact hk.2 m rfl
  | dropNull c columns ih =>
    obtain ⟨e', h', h⟩ := bind_ok h
    have ok := ih hk h'
    cases h
    exact ⟨ok.wf, ok.fns, ok.renames, ok.orderFree, ok.groups⟩
  | dropInf c columns ih =>
    obtain ⟨e', h', h⟩ := bind_ok h
    have ok := ih hk h'
    cases h
    exact ⟨ok.wf, ok.fns, ok.renames, ok.orderFree, ok.groups⟩
  | enforce c k ih =>
    obtain ⟨e', h', h⟩ := bind_ok h
    have ok := ih hk h'
    cases h
    exact ⟨ok.wf, ok.fns, ok.renames, ok.orderFree, ok.groups⟩

/-! ## Columns -/

theorem newName_eq (m : Dict String String) (c : String) : newName m c = renamed m c := by
  unfold newName renamed
  induction m with
  | nil => rfl
  | cons p m ih =>
    rw [List.find?_cons, Dict.get_cons]
    by_cases h : p.1 = c
    · simp [h]
    · rw [if_neg (fun h' => h h'.symm)]
      simp only [h, decide_false]
      exact ih

theorem named_eq {l : Dict String ColumnType} (w : Dict.WF l) (n : String) :
    named l n = ((Dict.get l n).map (fun x => (n, x))).toList := by
  unfold named
  induction l with
  | nil => rfl
  | cons p l ih =>
    obtain ⟨h1, h2⟩ := List.nodup_cons.1 w
    rw [List.filter_cons, Dict.get_cons, ih h2]
    by_cases h : p.1 = n
    · subst h
      rw [if_pos (by simp), if_pos rfl, Dict.get_eq_none.2 h1]
      rfl
    · rw [if_neg (by simpa using h), if_neg (fun h' => h h'.symm)]

theorem flatMap_named {l : Dict String ColumnType} (w : Dict.WF l) (cs : List String) :
    cs.flatMap (named l) = cs.filterMap (fun c => (Dict.get l c).map (fun x => (c, x))) := by
  induction cs with
  | nil => rfl
  | cons c cs ih =>
    rw [List.flatMap_cons, List.filterMap_cons, ih, named_eq w]
    cases Dict.get l c <;> rfl

theorem filter_names {l : Dict String ColumnType} (w : Dict.WF l) (P : String → Prop) [DecidablePred P] :
    l.filter (fun p => decide (P p.1)) =
      ((Dict.keys l).filter (fun c => decide (P c))).filterMap (fun c => (Dict.get l c).map (fun x => (c, x))) := by
  have key : ∀ l' : Dict String ColumnType, (∀ p ∈ l', Dict.get l p.1 = some p.2) → l'.filter (fun p => decide (P p.1)) =
      ((Dict.keys l').filter (fun c => decide (P c))).filterMap (fun c => (Dict.get l c).map (fun x => (c, x))) := by
    intro l' hl'
    induction l' with
    | nil => rfl
    | cons p l' ih =>
      have ih := ih fun q hq => hl' q (List.mem_cons_of_mem _ hq)
      have hp := hl' p List.mem_cons_self
      rw [List.filter_cons, show Dict.keys (p :: l') = p.1 :: Dict.keys l' from rfl, List.filter_cons]
      by_cases h : P p.1
      · rw [if_pos (by simpa using h), if_pos (by simpa using h), List.filterMap_cons, hp, ih]
        rfl
      · rw [if_neg (by simpa using h), if_neg (by simpa using h), ih]
  exact key l fun p hp => (Dict.get_eq_some w).2 hp

theorem joined_eq {l r : Dict String ColumnType} (wl : Dict.WF l) (wr : Dict.WF r) (given : ColsArg) :
    joinedColumns l r given = tyJoin l r (joinCols (Dict.keys l) (Dict.keys r) (joinTuple given)) := by
  unfold joinedColumns tyJoin
  dsimp only
  rw [given_eq, onCols_eq]
  have hn : ∀ l, names l = Dict.keys l := fun _ => rfl
  simp only [hn]
  generalize joinCols (Dict.keys l) (Dict.keys r) (joinTuple given) = jc
  rw [flatMap_named wl, filter_names wl (fun c => c ∉ Dict.keys r), filter_names wr (fun c => c ∉ Dict.keys l),
    filter_names wl (fun c => c ∈ Dict.keys r ∧ c ∉ jc)]
  congr 1
  have hov : overlap (Dict.keys l) (Dict.keys r) jc = (Dict.keys l).filter (fun c => decide (c ∈ Dict.keys r ∧ c ∉ jc)) := by
    unfold overlap common
    rw [List.filter_filter]
    congr 1
    funext c
    by_cases h1 : c ∈ Dict.keys r <;> by_cases h2 : c ∈ jc <;> simp [h1, h2]
  rw [hov]
  have hmem : ∀ c ∈ (Dict.keys l).filter (fun c => decide (c ∈ Dict.keys r ∧ c ∉ jc)), c ∈ Dict.keys l ∧ c ∈ Dict.keys r := by
    intro c hc
    obtain ⟨h1, h2⟩ := List.mem_filter.1 hc
    exact ⟨h1, (of_decide_eq_true h2).1⟩
  generalize (Dict.keys l).filter (fun c => decide (c ∈ Dict.keys r ∧ c ∉ jc)) = cs at hmem
  induction cs with
  | nil => rfl
  | cons c cs ih =>
    obtain ⟨h1, h2⟩ := hmem c List.mem_cons_self
    obtain ⟨x, hx⟩ := Option.isSome_iff_exists.1 (Dict.get_isSome.2 h1)
    obtain ⟨y, hy⟩ := Option.isSome_iff_exists.1 (Dict.get_isSome.2 h2)
    rw [List.filterMap_cons, List.flatMap_cons, hx, hy]
    dsimp only [Option.map_some]
    rw [List.flatMap_cons, ih fun c hc => hmem c (List.mem_cons_of_mem _ hc), named_eq wr, hy]
    rfl

theorem stys_wf {s : Schema} (w : s.WF) : Dict.WF (stys s) := by
  have : (stys s).map Prod.fst = s.columnDescs.elements.map Prod.fst := by
    unfold stys
    rw [List.map_map]
    rfl
  unfold Dict.WF
  rw [this]
  exact w.nodup

theorem keys_stys {s : Schema} (w : s.WF) : Dict.keys (stys s) = Schema.keys s := by
  rw [keys_eq w]
  unfold stys Dict.keys
  rw [List.map_map]
  rfl

theorem stys_nullable {new : Schema} (w : new.WF) : (nullable new).map (fun p => (p.1, p.2.ty)) = stys new := by
  unfold nullable stys
  rw [Schema.descs_eq w, List.map_map]
  rfl

theorem schSource_ok {cat : Cat} {id : String} {s : Schema} (h : schSource cat id = .ok s) :
    ∃ cs, Dict.get cat.priv id = some (s, cs) := by
  unfold schSource at h
  split at h
  · cases h
  split at h
  · next s' cs hg => cases h; exact ⟨cs, hg⟩
  · cases h

theorem source_facts {cat : Cat} {id : String} {s : Schema} (h : schSource cat id = .ok s) :
    stys s = tableColumns cat id ∧ s.idColumn = (Dict.get cat.priv id).bind (fun p => p.1.idColumn) := by
  obtain ⟨cs, hg⟩ := schSource_ok h
  unfold tableColumns
  rw [hg]
  exact ⟨rfl, rfl⟩

/-- The public table of a join. -/
theorem pub_facts {ctx : Ctx} {cat : Cat} (hc : cat.OK) {pub : PubArg} {p : PubRef} (h : pubRef ctx pub = .ok p) {s : Schema}
    {t : Table} (hr : resolvePub cat p = .ok (s, t)) : s.WF ∧ stys s = pub.columns cat ∧ pub.rows cat t := by
  cases pub with
  | table n =>
    cases h
    simp only [resolvePub] at hr
    split at hr
    · next q hq =>
      cases hr
      refine ⟨(hc.pub _ _ _ hq).1, ?_, s, hq⟩
      unfold PubArg.columns
      dsimp only
      rw [hq]
      rfl
    · cases hr
  | frame f =>
    rcases pubRef_frame ctx f with ⟨s', h1, h2, _, _, _, h3, _⟩ | ⟨h1, _⟩
    · rw [h1] at h
      cases h
      cases hr
      exact ⟨h2, h3, rfl⟩
    · rw [h1] at h; cases h

theorem joinedColumns_ok {how : How} {given : ColsArg} {l r s : Schema} (wl : l.WF) (wr : r.WF)
    (h : schemaForJoin how (joinTuple given) l r = .ok s) : stys s = joinedColumns (stys l) (stys r) given := by
  rw [stys_join wl wr h, joined_eq (stys_wf wl) (stys_wf wr), keys_stys wl, keys_stys wr]

/-- **C72**: the table of a query has the columns, the ID column and the column to group by that the documentation of the
methods says. -/
theorem C72_columns {ctx : Ctx} {cat : Cat} (hc : cat.OK) (c : Chain) (hk : c.Kept) {e : Expr} (h : c.build ctx = .ok e)
    {s : Schema} (hs : schemaOf cat e = .ok s) :
    s.columnDescs.elements.map (fun p => (p.1, p.2.ty)) = c.columns cat ∧ s.idColumn = c.id cat ∧
      groupTag cat e = c.tag cat := by
  show stys s = _ ∧ _
  induction c generalizing e s with
  | start id =>
    cases newBuilder_ok h
    obtain ⟨h1, h2⟩ := source_facts hs
    exact ⟨h1, h2, rfl⟩
  | rename c m ih =>
    obtain ⟨e', h', h⟩ := bind_ok h
    split at h
    · cases h
    cases h
    obtain ⟨s', hs', hs⟩ := bind_ok hs
    obtain ⟨i1, i2, i3⟩ := ih hk.1 h' hs'
    have w' := schemaOf_wf hc e' (admissible c hk.1 h').wf hs'
    obtain ⟨_, h2, h3, w, _, hid, _, el⟩ := schRename_ok hs
    refine ⟨?_, ?_, ?_⟩
    · have inj := renamed_inj hk.2.1 hk.2.2 h3
      rw [Chain.columns]
      rw [← i1]
      unfold stys
      rw [el, Schema.descs_eq w', Dict.ofPairs_eq]
      · rw [List.map_map, List.map_map]
        refine List.map_congr_left fun p _ => ?_
        show _ = (newName m p.1, _)
        rw [newName_eq]
        rfl
      · show (List.map Prod.fst _).Nodup
        rw [List.map_map]
        have : (Prod.fst ∘ fun p : String × Desc => (renamed m p.1, p.2)) = renamed m ∘ Prod.fst := rfl
        rw [this, ← List.map_map]
        refine List.Nodup.map_on ?_ w'.nodup
        intro a ha b hb
        rw [← keys_eq w'] at ha hb
        exact inj a ha b hb
    · rw [hid, i2]
      rw [Chain.id]
      congr 1
      funext x
      rw [newName_eq]
    · show (groupTag cat e').map _ = _
      rw [i3]
      rw [Chain.tag]
      congr 1
      funext x
      rw [newName_eq]
      rfl
  | filter c valid cond ih =>
    obtain ⟨e', h', h⟩ := bind_ok h
    cases h
    obtain ⟨s', hs', hs⟩ := bind_ok hs
    unfold schFilter at hs
    split at hs
    · cases hs; exact ih hk h' hs'
    · cases hs
  | select c columns ih =>
    obtain ⟨e', h', h⟩ := bind_ok h
    split at h
    · cases h
    next hm =>
    split at h
    swap
    · cases h
    cases h
    obtain ⟨s', hs', hs⟩ := bind_ok hs
    obtain ⟨i1, i2, i3⟩ := ih hk h' hs'
    have w' := schemaOf_wf hc e' (admissible c hk h').wf hs'
    obtain ⟨_, _, _, _, w, _, hid, _, el, _⟩ := schSelect_ok hs
    refine ⟨?_, hid.trans i2, i3⟩
    have key : stys s = (columnList columns).flatMap (named (c.columns cat)) := by
      rw [← i1, flatMap_named (stys_wf w')]
      unfold stys
      rw [el, List.map_filterMap]
      congr 1
      funext x
      have := get_stys w' x
      unfold stys at this
      rw [this]
      cases Dict.get s'.descs x <;> rfl
    cases columns with
    | missing => exact absurd rfl hm
    | one n => rw [key]; simp [columnList, Chain.columns]
    | list cs => exact key
  | map c f types augment ih =>
    obtain ⟨e', h', h⟩ := bind_ok h
    obtain ⟨new, hn, rfl⟩ := callMap_ok h
    obtain ⟨s', hs', hs⟩ := bind_ok hs
    obtain ⟨i1, i2, i3⟩ := ih hk.1 h' hs'
    have w' := schemaOf_wf hc e' (admissible c hk.1 h').wf hs'
    obtain ⟨wn, _, st, _⟩ := newSchema_ok hk.2.1 hn
    obtain ⟨w, ⟨rfl, _, _, g2, _, el⟩ | ⟨rfl, g0, g1, _, g2, _, el⟩⟩ := schMap_ok wn w' hs
    · refine ⟨?_, g2.trans i2, i3⟩
      rw [Chain.columns]
      rw [← i1, ← st, ← stys_nullable wn, stys, el, List.map_append]
      rfl
    · refine ⟨?_, ?_, i3⟩
      · rw [Chain.columns]
        rw [← st, ← stys_nullable wn, stys, el]
        rfl
      · rw [g2, ← g1]; exact i2
  | flatMap c f types augment grouping n ih =>
    obtain ⟨e', h', h⟩ := bind_ok h
    obtain ⟨new, hn, hg, _, rfl⟩ := callFlatMap_ok h
    obtain ⟨s', hs', hs⟩ := bind_ok hs
    obtain ⟨i1, i2, i3⟩ := ih hk.1 h' hs'
    have w' := schemaOf_wf hc e' (admissible c hk.1 h').wf hs'
    obtain ⟨wn, gn, st, _⟩ := newSchema_ok hk.2.1 hn
    have ht : groupTag cat (.flatMap e' f new augment (n.map Int.toNat)) = (Chain.flatMap c f types augment grouping n).tag cat := by
      show (if new.grouping.isSome then new.grouping else groupTag cat e') = if grouping then _ else _
      rw [gn, i3]
      cases grouping with
      | false => rfl
      | true =>
        obtain ⟨p, rfl⟩ := hg rfl
        rfl
    obtain ⟨w, _, ⟨rfl, _, _, g2, _, el⟩ | ⟨rfl, g0, g1, _, g2, _, el⟩⟩ := schFlatMap_ok wn w' hs
    · refine ⟨?_, g2.trans i2, ht⟩
      rw [Chain.columns]
      rw [← i1, ← st, ← stys_nullable wn, stys, el, List.map_append]
      rfl
    · refine ⟨?_, ?_, ht⟩
      · rw [Chain.columns]
        rw [← st, ← stys_nullable wn, stys, el]
        rfl
      · rw [g2, ← g1]; exact i2
  | flatMapByID c f types ih =>
    obtain ⟨e', h', h⟩ := bind_ok h
    obtain ⟨new, hn, rfl⟩ := callFlatMapByID_ok h
    obtain ⟨s', hs', hs⟩ := bind_ok hs
    obtain ⟨i1, i2, i3⟩ := ih hk.1 h' hs'
    have w' := schemaOf_wf hc e' (admissible c hk.1 h').wf hs'
    obtain ⟨wn, _, st, _⟩ := newSchema_ok hk.2.1 hn
    obtain ⟨i, d, hi, _, _, hd, w, _, g2, _, el⟩ := schFlatMapByID_ok wn hs
    refine ⟨?_, g2.trans (hi.symm.trans i2), i3⟩
    rw [Chain.columns]
    rw [← st, ← i1, ← i2, hi]
    have : (stys s').filter (fun p => decide (some i = some p.1)) = [(i, d.ty)] := by
      have := named_eq (stys_wf w') i
      rw [get_stys w', hd] at this
      unfold named at this
      rw [← show named (stys s') i = [(i, d.ty)] from this]
      unfold named
      congr 1
      funext p
      congr 1
      exact propext ⟨fun h => (Option.some.inj h).symm, fun h => congrArg some h.symm⟩
    rw [this, ← stys_nullable wn, stys, el]
    rfl
  | binColumn c column bins name ih =>
    obtain ⟨e', h', h⟩ := bind_ok h
    obtain ⟨n, hn, hne, rfl⟩ := callBin_ok h
    obtain ⟨s', hs', hs⟩ := bind_ok hs
    obtain ⟨i1, i2, i3⟩ := ih hk.1 h' hs'
    have w' := schemaOf_wf hc e' (admissible c hk.1 h').wf hs'
    have wn := oneColumn_wf (d := bins.desc) hne
    obtain ⟨w, ⟨_, _, _, g2, _, el⟩ | ⟨hf, _⟩⟩ := schMap_ok wn w' hs
    · refine ⟨?_, g2.trans i2, i3⟩
      rw [Chain.columns]
      rw [← i1, ← hn, stys, el, List.map_append, stys_nullable wn]
      rfl
    · cases hf
  | joinPublic c pub columns how ih =>
    obtain ⟨e', h', h⟩ := bind_ok h
    have ok := admissible (Chain.joinPublic c pub columns how) hk
      (show (Chain.joinPublic c pub columns how).build ctx = .ok e by unfold Chain.build; rw [h']; exact h)
    obtain ⟨p, k, hp, _, rfl⟩ := callJoinPublic_ok h
    obtain ⟨s', hs', hs⟩ := bind_ok hs
    obtain ⟨i1, i2, i3⟩ := ih hk h' hs'
    have w' := schemaOf_wf hc e' (admissible c hk h').wf hs'
    obtain ⟨ps, pt, hr, wp, _, w, _, g2, _, _, hj⟩ := schJoinPublic_ok hc ok.wf.2 w' hs
    refine ⟨?_, g2.trans i2, i3⟩
    rw [joinedColumns_ok w' wp hj, i1, (pub_facts hc hp hr).2.1]
    rfl
  | joinPrivate c r tl tr columns ih ih' =>
    obtain ⟨e', h', h⟩ := bind_ok h
    obtain ⟨e'', h'', h⟩ := bind_ok h
    cases callJoinPrivate_ok h
    obtain ⟨sl, hsl, hs⟩ := bind_ok hs
    obtain ⟨sr, hsr, hs⟩ := bind_ok hs
    obtain ⟨i1, i2, i3⟩ := ih hk.1 h' hsl
    obtain ⟨j1, j2, j3⟩ := ih' hk.2 h'' hsr
    have wl := schemaOf_wf hc e' (admissible c hk.1 h').wf hsl
    have wr := schemaOf_wf hc e'' (admissible r hk.2 h'').wf hsr
    obtain ⟨_, _, _, _, _, g2, _, _, hj⟩ := schJoinPrivate_ok wl wr hs
    refine ⟨?_, g2.trans i2, ?_⟩
    · rw [joinedColumns_ok wl wr hj, i1, j1]
      rfl
    · show (if (groupTag cat e').isSome then _ else _) = (c.tag cat).or (r.tag cat)
      rw [i3, j3]
      cases c.tag cat <;> rfl
  | joinTable c table tl tr columns ih =>
    obtain ⟨e', h', h⟩ := bind_ok h
    obtain ⟨e'', h'', h⟩ := bind_ok h
    cases newBuilder_ok h''
    cases callJoinPrivate_ok h
    obtain ⟨sl, hsl, hs⟩ := bind_ok hs
    obtain ⟨sr, hsr, hs⟩ := bind_ok hs
    obtain ⟨i1, i2, i3⟩ := ih hk h' hsl
    have wl := schemaOf_wf hc e' (admissible c hk h').wf hsl
    have wr := schemaOf_wf hc (.source table) trivial hsr
    obtain ⟨_, _, _, _, _, g2, _, _, hj⟩ := schJoinPrivate_ok wl wr hs
    refine ⟨?_, g2.trans i2, ?_⟩
    · rw [joinedColumns_ok wl wr hj, i1, (source_facts hsr).1]
      rfl
    · show (if (groupTag cat e').isSome then _ else _) = (c.tag cat).or _
      rw [i3]
      cases c.tag cat <;> rfl
  | replaceNull c w ih =>
    obtain ⟨e', h', h⟩ := bind_ok h
    cases callReplaceNull_ok h
    obtain ⟨s', hs', hs⟩ := bind_ok hs
    obtain ⟨i1, i2, i3⟩ := ih hk.1 h' hs'
    have ks := (schReplaceNull_ok (schemaOf_wf hc e' (admissible c hk.1 h').wf hs') hs).1
    exact ⟨(stys_keeps ks fun _ => rfl).trans i1, ks.idColumn.trans i2, i3⟩
  | replaceInf c w ih =>
    obtain ⟨e', h', h⟩ := bind_ok h
    cases callReplaceInf_ok h
    obtain ⟨s', hs', hs⟩ := bind_ok hs
    obtain ⟨i1, i2, i3⟩ := ih hk.1 h' hs'
    have ks := (schReplaceInf_ok (schemaOf_wf hc e' (admissible c hk.1 h').wf hs') hs).1
    exact ⟨(stys_keeps ks fun _ => rfl).trans i1, ks.idColumn.trans i2, i3⟩
  | dropNull c columns ih =>
    obtain ⟨e', h', h⟩ := bind_ok h
    cases h
    obtain ⟨s', hs', hs⟩ := bind_ok hs
    obtain ⟨i1, i2, i3⟩ := ih hk h' hs'
    have ks := (schDropNull_ok (schemaOf_wf hc e' (admissible c hk h').wf hs') hs).1
    exact ⟨(stys_keeps ks fun _ => rfl).trans i1, ks.idColumn.trans i2, i3⟩
  | dropInf c columns ih =>
    obtain ⟨e', h', h⟩ := bind_ok h
    cases h
    obtain ⟨s', hs', hs⟩ := bind_ok hs
    obtain ⟨i1, i2, i3⟩ := ih hk h' hs'
    have ks := (schDropInf_ok (schemaOf_wf hc e' (admissible c hk h').wf hs') hs).1
    exact ⟨(stys_keeps ks fun _ => rfl).trans i1, ks.idColumn.trans i2, i3⟩
  | enforce c k ih =>
    obtain ⟨e', h', h⟩ := bind_ok h
    cases h
    obtain ⟨s', hs', hs⟩ := bind_ok hs
    obtain ⟨rfl, _⟩ := schEnforce_ok hs
    exact ih hk h' hs'

end Verif.Whole
