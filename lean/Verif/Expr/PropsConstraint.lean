import Verif.Expr.PropsIds

/-!
# C16: propagated constraints hold
-/

namespace Verif.Expr

open Verif Verif.Schema Verif.Constraint
open Verif.Constraint.Constraint

/-! ## Hypotheses -/

/-- The declared constraints hold and mention columns of their tables. -/
def Cat.ConsOK (cat : Cat) (D : Data) : Prop :=
  ∀ id s cs i, Dict.get cat.priv id = some (s, cs) → s.idColumn = some i → ∀ c ∈ cs,
    Sat i c (D id) ∧ ∀ g, consCol c = some g → g ∈ s.columnDescs.elements.map Prod.fst

/-- A bound on the number of groups of a join column is no smaller than the bound on rows, if there is one. -/
def RowsBounded (jc : List String) (cs : List Constraint) : Prop :=
  ∀ g n, maxGroupsPerID g n ∈ cs → g ∈ jc → ∃ m ≤ n, maxRowsPerID m ∈ cs

/-- Excluded cases: joining two private tables on a column with a `MaxGroupsPerID` but no `MaxRowsPerID` at
most as large, and replacing values by default in a column of a `MaxRowsPerGroupPerID`. -/
def Expr.ConsSafe (h : Hash) (cat : Cat) : Expr → Prop
  | .source _ => True
  | .rename e _ => e.ConsSafe h cat
  | .filter e _ _ => e.ConsSafe h cat
  | .select e _ => e.ConsSafe h cat
  | .map e _ _ _ => e.ConsSafe h cat
  | .flatMap e _ _ _ _ => e.ConsSafe h cat
  | .flatMapByID e _ _ => e.ConsSafe h cat
  | .joinPrivate l r _ _ cols => l.ConsSafe h cat ∧ r.ConsSafe h cat ∧
      ∀ ol or, compile h cat l = .ok ol → compile h cat r = .ok or →
        RowsBounded (joinCols (Dict.keys ol.dom) (Dict.keys or.dom) cols) ol.cons ∧
        RowsBounded (joinCols (Dict.keys ol.dom) (Dict.keys or.dom) cols) or.cons
  | .joinPublic e _ _ _ => e.ConsSafe h cat
  | .replaceNull e w => e.ConsSafe h cat ∧ (w = [] → ∀ o, compile h cat e = .ok o →
      ∀ g n d, maxRowsPerGroupPerID g n ∈ o.cons → Dict.get o.dom g = some d →
        d.allowNull = false ∧ allowsNan d = false)
  | .replaceInf e w => e.ConsSafe h cat ∧ (w = [] → ∀ o, compile h cat e = .ok o →
      ∀ g n d, maxRowsPerGroupPerID g n ∈ o.cons → Dict.get o.dom g = some d → allowsInf d = false)
  | .dropNull e _ => e.ConsSafe h cat
  | .dropInf e _ => e.ConsSafe h cat
  | .enforce e _ => e.ConsSafe h cat

/-! ## Constraints and transformations of tables -/

section
variable {i j : String} {t : Table}

theorem whereEq_map {f : Row → Row} (hid : ∀ r ∈ t, Row.get (f r) j = Row.get r i) (v : Option Value) :
    Table.whereEq (t.map f) j v = (t.whereEq i v).map f := by
  unfold Table.whereEq
  apply filter_map_mem
  intro r hr
  rw [hid r hr]

/-- Constraints survive a change of rows that keeps IDs and maps groups to groups. -/
theorem sat_map {f : Row → Row} (hid : ∀ r ∈ t, Row.get (f r) j = Row.get r i) {c c' : Constraint}
    (hs : Sat i c t)
    (hc : (∃ n, c = maxRowsPerID n ∧ c' = maxRowsPerID n) ∨
      (∃ g g' n, c = maxGroupsPerID g n ∧ c' = maxGroupsPerID g' n ∧
        ∃ ψ : Option Value → Option Value, ∀ r ∈ t, Row.get (f r) g' = ψ (Row.get r g)) ∨
      (∃ g g' n, c = maxRowsPerGroupPerID g n ∧ c' = maxRowsPerGroupPerID g' n ∧
        ∀ r ∈ t, Row.get (f r) g' = Row.get r g)) : Sat j c' (t.map f) := by
  rcases hc with ⟨n, rfl, rfl⟩ | ⟨g, g', n, rfl, rfl, ψ, hψ⟩ | ⟨g, g', n, rfl, rfl, hg⟩
  · intro v
    rw [whereEq_map hid, List.length_map]
    exact hs v
  · intro v
    rw [whereEq_map hid, List.map_map]
    have e : (t.whereEq i v).map ((fun r => Row.get r g') ∘ f) =
        ((t.whereEq i v).map (fun r => Row.get r g)).map ψ := by
      rw [List.map_map]
      apply List.map_congr_left
      intro r hr
      exact hψ r (List.mem_filter.1 hr).1
    rw [e]
    refine le_trans ?_ (hs v)
    have : (((t.whereEq i v).map (fun r => Row.get r g)).map ψ).dedup.length ≤
        (((t.whereEq i v).map (fun r => Row.get r g)).dedup.map ψ).length := by
      apply List.Subperm.length_le
      apply (List.nodup_dedup _).subperm
      intro x hx
      rw [List.mem_dedup] at hx
      obtain ⟨y, hy, rfl⟩ := List.mem_map.1 hx
      exact List.mem_map.2 ⟨y, List.mem_dedup.2 hy, rfl⟩
    rwa [List.length_map] at this
  · intro v w
    rw [whereEq_map hid, whereEq_map (i := g)]
    · rw [List.length_map]
      exact hs v w
    · intro r hr
      exact hg r (List.mem_filter.1 hr).1

theorem length_flatMap_le {α β : Type} {F : α → List β} {k : Nat} {l : List α} (h : ∀ a ∈ l, (F a).length ≤ k) :
    (l.flatMap F).length ≤ l.length * k := by
  induction l with
  | nil => simp
  | cons a l ih =>
    rw [List.flatMap_cons, List.length_append, List.length_cons]
    have h1 := h a List.mem_cons_self
    have h2 := ih (fun b hb => h b (List.mem_cons_of_mem _ hb))
    calc (F a).length + (l.flatMap F).length ≤ k + l.length * k := Nat.add_le_add h1 h2
      _ = (l.length + 1) * k := by ring

theorem whereEq_flatMap {F : Row → Table} (hid : ∀ r ∈ t, ∀ x ∈ F r, Row.get x j = Row.get r i)
    (v : Option Value) : Table.whereEq (t.flatMap F) j v = (t.whereEq i v).flatMap F := by
  unfold Table.whereEq
  apply filter_flatMap_mem
  intro r hr x hx
  rw [hid r hr x hx]

/-- Bounds on groups survive replacing each row by rows of the same ID and group. -/
theorem sat_flatMap_groups {F : Row → Table} (hid : ∀ r ∈ t, ∀ x ∈ F r, Row.get x j = Row.get r i) {g g' : String}
    {n : Nat} (hg : ∀ r ∈ t, ∀ x ∈ F r, Row.get x g' = Row.get r g) (hs : Sat i (maxGroupsPerID g n) t) :
    Sat j (maxGroupsPerID g' n) (t.flatMap F) := by
  intro v
  rw [whereEq_flatMap hid]
  refine le_trans (dedup_length_mono ?_) (hs v)
  intro x hx
  obtain ⟨y, hy, rfl⟩ := List.mem_map.1 hx
  obtain ⟨r, hr, hyr⟩ := List.mem_flatMap.1 hy
  exact List.mem_map.2 ⟨r, hr, (hg r (List.mem_filter.1 hr).1 y hyr).symm⟩

/-- Bounds on rows are multiplied if each row becomes at most `k` rows of the same ID. -/
theorem sat_flatMap_rows {F : Row → Table} (hid : ∀ r ∈ t, ∀ x ∈ F r, Row.get x j = Row.get r i) {n k : Nat}
    (hk : ∀ r ∈ t, (F r).length ≤ k) (hs : Sat i (maxRowsPerID n) t) :
    Sat j (maxRowsPerID (n * k)) (t.flatMap F) := by
  intro v
  rw [whereEq_flatMap hid]
  exact le_trans (length_flatMap_le (fun r hr => hk r (List.mem_filter.1 hr).1))
    (Nat.mul_le_mul_right k (hs v))

theorem sat_flatMap_rpg {F : Row → Table} (hid : ∀ r ∈ t, ∀ x ∈ F r, Row.get x j = Row.get r i) {g g' : String}
    {n k : Nat} (hg : ∀ r ∈ t, ∀ x ∈ F r, Row.get x g' = Row.get r g) (hk : ∀ r ∈ t, (F r).length ≤ k)
    (hs : Sat i (maxRowsPerGroupPerID g n) t) : Sat j (maxRowsPerGroupPerID g' (n * k)) (t.flatMap F) := by
  intro v w
  rw [whereEq_flatMap hid, whereEq_flatMap (i := g)]
  · exact le_trans
      (length_flatMap_le (fun r hr => hk r (List.mem_filter.1 (List.mem_filter.1 hr).1).1))
      (Nat.mul_le_mul_right k (hs v w))
  · exact fun r hr => hg r (List.mem_filter.1 hr).1

end

/-- A constraint carried through a join. -/
theorem sat_propagateJoin {i : String} {t : Table} {F : Row → Table} {stab : Option Nat} {ov : List String}
    {suf : String} {c c' : Constraint} (hid : ∀ r ∈ t, ∀ x ∈ F r, Row.get x i = Row.get r i)
    (hg : ∀ g, consCol c = some g → ∀ r ∈ t, ∀ x ∈ F r, Row.get x (suffixed ov suf g) = Row.get r g)
    (hk : ∀ k, stab = some k → ∀ r ∈ t, (F r).length ≤ k) (hs : Sat i c t)
    (hp : propagateJoin stab ov suf c = some c') : Sat i c' (t.flatMap F) := by
  cases c with
  | maxRowsPerID n =>
    simp only [propagateJoin] at hp
    split at hp
    · next k =>
      cases hp
      exact sat_flatMap_rows hid (hk _ rfl) hs
    · cases hp
  | maxGroupsPerID g n =>
    cases hp
    exact sat_flatMap_groups hid (hg g rfl) hs
  | maxRowsPerGroupPerID g n =>
    simp only [propagateJoin] at hp
    split at hp
    · next k =>
      cases hp
      exact sat_flatMap_rpg hid (hg g rfl) (hk _ rfl) hs
    · cases hp

/-- A join enumerated by the right table. -/
theorem innerJoin_perm (lk rk jc : List String) (lt rt : Table) :
    (innerJoin lk rk jc lt rt).Perm
      (rt.flatMap (fun r => (lt.filter (fun l => matches_ jc l r)).map (fun l => joinRow lk rk jc l r))) := by
  unfold innerJoin
  induction lt with
  | nil => simp
  | cons a lt ih =>
    rw [List.flatMap_cons]
    have e : (rt.flatMap (fun r => ((a :: lt).filter (fun l => matches_ jc l r)).map
        (fun l => joinRow lk rk jc l r))) =
        rt.flatMap (fun r => (if matches_ jc a r then [joinRow lk rk jc a r] else []) ++
          (lt.filter (fun l => matches_ jc l r)).map (fun l => joinRow lk rk jc l r)) := by
      apply List.flatMap_congr
      intro r _
      by_cases h : matches_ jc a r = true
      · rw [List.filter_cons_of_pos (p := fun l => matches_ jc l r) h, if_pos h]; rfl
      · rw [List.filter_cons_of_neg (p := fun l => matches_ jc l r) h, if_neg h]; rfl
    rw [e]
    refine List.Perm.trans ?_ (List.flatMap_append_perm rt _ _)
    have e2 : (rt.filter (matches_ jc a)).map (joinRow lk rk jc a) =
        rt.flatMap (fun r => if matches_ jc a r then [joinRow lk rk jc a r] else []) := by
      clear ih e
      induction rt with
      | nil => rfl
      | cons r rt ih =>
        rw [List.flatMap_cons]
        by_cases h : matches_ jc a r = true
        · rw [List.filter_cons_of_pos h, if_pos h, List.map_cons, ih]; rfl
        · rw [List.filter_cons_of_neg h, if_neg h, ih]; rfl
    rw [e2]
    exact List.Perm.append (List.Perm.refl _) ih

/-- The stability used for a join bounds the number of rows that an ID has on that side. -/
theorem maxJoinStability_sound {jc : List String} {cs : List Constraint} (hb : RowsBounded jc cs) {i : String}
    {t : Table} (hs : ∀ c ∈ cs, Sat i c t) {k : Nat} (hk : maxJoinStability jc cs = some k) :
    Sat i (maxRowsPerID k) t := by
  have first : ∀ m, firstRows cs = some m → maxRowsPerID m ∈ cs := by
    clear hb hs hk
    induction cs with
    | nil => intro m hm; cases hm
    | cons c cs ih =>
      intro m hm
      cases c with
      | maxRowsPerID n => cases hm; exact List.mem_cons_self
      | maxGroupsPerID g n => exact List.mem_cons_of_mem _ (ih m hm)
      | maxRowsPerGroupPerID g n => exact List.mem_cons_of_mem _ (ih m hm)
  have all : ∀ n ∈ (firstRows cs).toList ++ cs.filterMap (fun c => match c with
      | .maxGroupsPerID g n => if g ∈ jc then some n else none
      | _ => none), Sat i (maxRowsPerID n) t := by
    intro n hn
    rcases List.mem_append.1 hn with hn | hn
    · exact hs _ (first n (by simpa using hn))
    · obtain ⟨c, hc, hcn⟩ := List.mem_filterMap.1 hn
      cases c with
      | maxRowsPerID m => cases hcn
      | maxRowsPerGroupPerID g m => cases hcn
      | maxGroupsPerID g m =>
        simp only at hcn
        split at hcn
        · next hg =>
          cases hcn
          obtain ⟨m', hle, hm'⟩ := hb g _ hc hg
          exact Sat.mono_rows hle (hs _ hm')
        · cases hcn
  exact (minList_iff (Q := fun m => Sat i (maxRowsPerID m) t) (fun m n hmn => Sat.mono_rows hmn) _).2 all k hk

theorem foldl_max_ge (l : List Nat) (x : Nat) : x ≤ l.foldl max x ∧ ∀ y ∈ l, y ≤ l.foldl max x := by
  induction l generalizing x with
  | nil => simp
  | cons z zs ih =>
    simp only [List.foldl_cons, List.mem_cons, forall_eq_or_imp]
    obtain ⟨h1, h2⟩ := ih (max x z)
    exact ⟨le_trans (le_max_left _ _) h1, le_trans (le_max_right _ _) h1, h2⟩

/-- No row matches more rows than the largest multiplicity of the join columns' values. -/
theorem matches_le_multiplicity (jc : List String) (l : Row) (t : Table) :
    (t.filter (matches_ jc l)).length ≤ maxMultiplicity jc t := by
  cases hf : t.filter (matches_ jc l) with
  | nil => simp
  | cons r rs =>
    have hr : r ∈ t.filter (matches_ jc l) := by rw [hf]; exact List.mem_cons_self
    obtain ⟨h1, h2⟩ := List.mem_filter.1 hr
    rw [← hf]
    have e : t.filter (matches_ jc l) = t.filter (matches_ jc r) := by
      apply List.filter_congr
      intro x _
      rw [Bool.eq_iff_iff, matches_iff, matches_iff]
      have h2 := matches_iff.1 h2
      exact forall₂_congr (fun c hc => by rw [h2 c hc])
    rw [e]
    exact (foldl_max_ge _ 0).2 _ (List.mem_map.2 ⟨r, h1, rfl⟩)

theorem consCol_kind {c c' : Constraint} (h : kind c = kind c') : consCol c = consCol c' := by
  cases c <;> cases c' <;> simp_all [kind, consCol]

/-- Simplification mentions no new columns. -/
theorem simplify_consCol {cs : List Constraint} {c : Constraint} (h : c ∈ simplify cs) :
    ∃ c' ∈ cs, consCol c' = consCol c := by
  have := (simplify_kinds cs (kind c)).1 (List.mem_map.2 ⟨c, h, rfl⟩)
  obtain ⟨c', hc', e⟩ := List.mem_map.1 this
  exact ⟨c', hc', consCol_kind e⟩

/-- The constraints of a compiled table with IDs: they hold and mention its columns. -/
def ConsHold (i : String) (dom : Dict String SparkDesc) (cs : List Constraint) (t : Table) : Prop :=
  ∀ c ∈ cs, Sat i c t ∧ ∀ g, consCol c = some g → g ∈ Dict.keys dom

theorem ConsHold.simplify {i : String} {dom : Dict String SparkDesc} {cs : List Constraint} {t : Table}
    (h : ConsHold i dom cs t) : ConsHold i dom (simplify cs) t := by
  intro c hc
  refine ⟨((C14_simplify cs).1 i t).2 (fun c hc => (h c hc).1) c hc, ?_⟩
  intro g hg
  obtain ⟨c', hc', e⟩ := simplify_consCol hc
  exact (h c' hc').2 g (by rw [e]; exact hg)

theorem ConsHold.of_subperm {i : String} {dom dom' : Dict String SparkDesc} {cs : List Constraint} {s t : Table}
    (h : ConsHold i dom cs t) (hp : s.Subperm t) (hk : ∀ g ∈ Dict.keys dom, g ∈ Dict.keys dom') :
    ConsHold i dom' cs s := fun c hc => ⟨Sat.of_subperm hp (h c hc).1, fun g hg => hk g ((h c hc).2 g hg)⟩

theorem filter_length_le {α : Type} {p q : α → Bool} {l : List α} (h : ∀ a ∈ l, p a = true → q a = true) :
    (l.filter p).length ≤ (l.filter q).length := by
  rw [← List.countP_eq_length_filter, ← List.countP_eq_length_filter]
  exact List.countP_mono_left h

theorem propagateJoin_consCol {stab : Option Nat} {ov : List String} {suf : String} {c c' : Constraint}
    (hp : propagateJoin stab ov suf c = some c') {g' : String} (hg : consCol c' = some g') :
    ∃ g, consCol c = some g ∧ g' = suffixed ov suf g := by
  cases c with
  | maxRowsPerID n =>
    simp only [propagateJoin] at hp
    split at hp
    · cases hp; cases hg
    · cases hp
  | maxGroupsPerID g n =>
    cases hp
    cases hg
    exact ⟨g, rfl, rfl⟩
  | maxRowsPerGroupPerID g n =>
    simp only [propagateJoin] at hp
    split at hp
    · cases hp; cases hg
      exact ⟨g, rfl, rfl⟩
    · cases hp

theorem valOK_noInf {d : SparkDesc} {v : Value} (h : ValOK d v) (hd : allowsInf d = false) :
    isPinf v = false ∧ isNinf v = false := by
  cases d <;> cases v with
  | dec f => cases f <;> simp_all [ValOK, DescOK, ofSparkDesc, allowsInf, isPinf, isNinf]
  | _ => simp_all [ValOK, DescOK, ofSparkDesc, allowsInf, isPinf, isNinf]

theorem infVal_noInf {rw : Dict String (Value × Value)} {c : String} {v : Value} (hp : isPinf v = false)
    (hn : isNinf v = false) : infVal rw c v = v := by
  simp [infVal, hp, hn]

section
variable {h : Hash} {cat : Cat} {D : Data}

theorem cons_hold (hc : cat.OK) (hid : cat.IdsNotFloat) (hD : cat.DataOK D) (hcs : cat.ConsOK D)
    (e : Expr) (he : e.WF) (hf : e.FnsOK) (hr : e.RenamesDistinct) (hsafe : e.ConsSafe h cat) {s : Schema} {o : Out}
    (hs : schemaOf cat e = .ok s) (ho : compile h cat e = .ok o) {i : String} (hi : o.metric = .ids i) :
    ConsHold i o.dom o.cons (o.run D) := by
  have conf := fun (e : Expr) (he : e.WF) (hf : e.FnsOK) (hr : e.RenamesDistinct) {s : Schema} {o : Out}
    (hs : schemaOf cat e = .ok s) (ho : compile h cat e = .ok o) => rows_conform hc hD e he hf hr hs ho
  have idt := fun (e : Expr) (he : e.WF) (hr : e.RenamesDistinct) {s : Schema} {o : Out}
    (hs : schemaOf cat e = .ok s) (ho : compile h cat e = .ok o) => id_typed hc hid e he hr hs ho
  induction e generalizing s o i with
  | source id =>
    simp only [compile, visitSource] at ho
    split at ho
    · cases ho
    next s' cs hg =>
    cases ho
    obtain ⟨w, _⟩ := hc.priv _ _ _ hg
    intro c hc
    obtain ⟨h1, h2⟩ := hcs id s' cs i hg ((metricOf_ids s' i).1 hi) c hc
    refine ⟨h1, fun g hg => ?_⟩
    show g ∈ Dict.keys (analyticsToSparkColumns s')
    rw [keys_analytics w, keys_eq w]
    exact h2 g hg
  | rename e m ih =>
    obtain ⟨s', hs', hs⟩ := bind_ok hs
    obtain ⟨o', ho', ho⟩ := bind_ok ho
    have a := agree hc e he.1 hs' ho'
    have cf := conf e he.1 hf hr.1 hs' ho'
    have it := idt e he.1 hr.1 hs' ho'
    obtain ⟨_, h2, rfl⟩ := visitRename_ok ho
    obtain ⟨j, hj, rfl⟩ := (rename_ids m o'.metric i).1 hi
    have ih := ih he.1 hf hr.1 hsafe hs' ho' hj
    have inj := renamed_inj he.2 hr.2 h2
    refine ConsHold.simplify ?_
    intro c' hc'
    obtain ⟨c, hc, rfl⟩ := List.mem_map.1 hc'
    obtain ⟨h3, h4⟩ := ih c hc
    have hget : ∀ g, g ∈ Dict.keys o'.dom → ∀ r ∈ o'.run D,
        Row.get (r.map (fun p => (renamed m p.1, p.2))) (renamed m g) = Row.get r g :=
      fun g hg r hr' => get_row_rename (cf r hr') inj hg
    have hmem : ∀ g, g ∈ Dict.keys o'.dom →
        renamed m g ∈ Dict.keys (Dict.ofPairs (o'.dom.map (fun p => (renamed m p.1, p.2)))) := by
      intro g hg
      rw [Dict.ofPairs_eq (wf_rename inj a.wfd), keys_rename]
      exact List.mem_map.2 ⟨g, hg, rfl⟩
    cases c with
    | maxRowsPerID n =>
      exact ⟨sat_map (hget j (it.mem hj)) h3 (Or.inl ⟨n, rfl, rfl⟩), fun g hg => by cases hg⟩
    | maxGroupsPerID g n =>
      refine ⟨sat_map (hget j (it.mem hj)) h3
        (Or.inr (Or.inl ⟨g, renamed m g, n, rfl, rfl, fun x => x, hget g (h4 g rfl)⟩)), ?_⟩
      intro g' hg'
      cases hg'
      exact hmem g (h4 g rfl)
    | maxRowsPerGroupPerID g n =>
      refine ⟨sat_map (hget j (it.mem hj)) h3
        (Or.inr (Or.inr ⟨g, renamed m g, n, rfl, rfl, hget g (h4 g rfl)⟩)), ?_⟩
      intro g' hg'
      cases hg'
      exact hmem g (h4 g rfl)
  | filter e valid cond ih =>
    obtain ⟨s', hs', hs⟩ := bind_ok hs
    obtain ⟨o', ho', ho⟩ := bind_ok ho
    cases ho
    have ih := ih he hf hr hsafe hs' ho' hi
    exact ConsHold.simplify (ih.of_subperm (filter_subperm_of _) (fun g hg => hg))
  | select e cols ih =>
    obtain ⟨s', hs', hs⟩ := bind_ok hs
    obtain ⟨o', ho', ho⟩ := bind_ok ho
    have cf := conf e he hf hr hs' ho'
    have it := idt e he hr hs' ho'
    obtain ⟨sub, hm, rfl⟩ := visitSelect_ok ho
    have hi' : o'.metric = .ids i := hi
    have ih := ih he hf hr hsafe hs' ho' hi'
    refine ConsHold.simplify ?_
    have hget : ∀ g ∈ cols, ∀ r ∈ o'.run D, Row.get (cols.map (fun c => (c, cell r c))) g = Row.get r g := by
      intro g hg r hr'
      rw [get_row_select r hg, (cf r hr').get (sub g hg)]
    have hicols : i ∈ cols := hm i (by rw [hi']; rfl)
    intro c hc
    obtain ⟨hc1, hc2⟩ := List.mem_filter.1 hc
    obtain ⟨h3, h4⟩ := ih c hc1
    have hmem : ∀ g ∈ cols, g ∈ Dict.keys (pick o'.dom cols) := fun g hg => by rw [pick_keys sub]; exact hg
    cases c with
    | maxRowsPerID n =>
      exact ⟨sat_map (hget i hicols) h3 (Or.inl ⟨n, rfl, rfl⟩), fun g hg => by cases hg⟩
    | maxGroupsPerID g n =>
      have hgc : g ∈ cols := by simpa [consCol] using hc2
      refine ⟨sat_map (hget i hicols) h3 (Or.inr (Or.inl ⟨g, g, n, rfl, rfl, fun x => x, hget g hgc⟩)), ?_⟩
      intro g' hg'
      cases hg'
      exact hmem g hgc
    | maxRowsPerGroupPerID g n =>
      have hgc : g ∈ cols := by simpa [consCol] using hc2
      refine ⟨sat_map (hget i hicols) h3 (Or.inr (Or.inr ⟨g, g, n, rfl, rfl, hget g hgc⟩)), ?_⟩
      intro g' hg'
      cases hg'
      exact hmem g hgc
  | map e f new augment ih =>
    obtain ⟨s', hs', hs⟩ := bind_ok hs
    obtain ⟨o', ho', ho⟩ := bind_ok ho
    have a := agree hc e he.1 hs' ho'
    have cf := conf e he.1 hf.1 hr hs' ho'
    have it := idt e he.1 hr hs' ho'
    obtain ⟨hm, rfl⟩ := visitMap_ok ho
    have hi' : o'.metric = .ids i := hi
    have ih := ih he.1 hf.1 hr hsafe hs' ho' hi'
    have haug : augment = true := by
      cases augment with
      | true => rfl
      | false =>
        have := (hm rfl).1
        rw [hi'] at this
        cases this
    subst haug
    refine ConsHold.simplify ?_
    have hget : ∀ g ∈ Dict.keys o'.dom, ∀ r ∈ o'.run D,
        Row.get (if true = true then r ++ f r else f r) g = Row.get r g :=
      fun g hg r hr' => get_row_append (cf r hr') _ hg
    have hmem : ∀ g ∈ Dict.keys o'.dom, g ∈ Dict.keys (Dict.union o'.dom (newDescs new)) := by
      intro g hg
      rw [Dict.keys_union _ _ (wf_newDescs new)]
      exact List.mem_append.2 (Or.inl hg)
    intro c hc
    obtain ⟨h3, h4⟩ := ih c hc
    refine ⟨?_, fun g hg => hmem g (h4 g hg)⟩
    refine sat_map (hget i (it.mem hi')) h3 ?_
    cases c with
    | maxRowsPerID n => exact Or.inl ⟨n, rfl, rfl⟩
    | maxGroupsPerID g n => exact Or.inr (Or.inl ⟨g, g, n, rfl, rfl, fun x => x, hget g (h4 g rfl)⟩)
    | maxRowsPerGroupPerID g n => exact Or.inr (Or.inr ⟨g, g, n, rfl, rfl, hget g (h4 g rfl)⟩)
  | flatMap e f new augment n ih =>
    obtain ⟨s', hs', hs⟩ := bind_ok hs
    obtain ⟨o', ho', ho⟩ := bind_ok ho
    have cf := conf e he.1 hf.1 hr hs' ho'
    have it := idt e he.1 hr hs' ho'
    obtain ⟨g, hd, _, hcons, _, hrun, hm⟩ := visitFlatMap_ok ho
    have hi' : o'.metric = .ids i ∧ augment = true := by
      rcases hm with ⟨_, h1, h2, _⟩ | ⟨h0, _, _, ⟨_, h1⟩ | ⟨c, _, _, h1⟩⟩
      · exact ⟨h1 ▸ hi, h2⟩
      · exact absurd (h1 ▸ hi) (h0 i)
      · rw [h1] at hi; cases hi
    have ih := ih he.1 hf.1 hr hsafe hs' ho' hi'.1
    rw [hcons]
    refine ConsHold.simplify ?_
    intro c hc
    obtain ⟨hc1, hc2⟩ := List.mem_filter.1 hc
    obtain ⟨h3, h4⟩ := ih c hc1
    have hget : ∀ b ∈ Dict.keys o'.dom, ∀ r ∈ o'.run D,
        ∀ x ∈ (g r).map (fun x => if augment then r ++ x else x), Row.get x b = Row.get r b := by
      intro b hb r hr' x hx
      obtain ⟨y, _, rfl⟩ := List.mem_map.1 hx
      rw [hi'.2]
      exact get_row_append (cf r hr') _ hb
    cases c with
    | maxRowsPerID n => simp at hc2
    | maxRowsPerGroupPerID g n => simp at hc2
    | maxGroupsPerID b n =>
      refine ⟨?_, ?_⟩
      · rw [hrun]
        exact sat_flatMap_groups (hget i (it.mem hi'.1)) (hget b (h4 b rfl)) h3
      · intro b' hb'
        cases hb'
        rw [hd, hi'.2]
        simp only [if_true]
        rw [Dict.keys_union _ _ (wf_newDescs new)]
        exact List.mem_append.2 (Or.inl (h4 b rfl))
  | flatMapByID e f new ih =>
    obtain ⟨o', ho', ho⟩ := bind_ok ho
    obtain ⟨j, d, hm, hd, hn, e1, e2, e3, hcons, hrun⟩ := visitFlatMapByID_ok ho
    rw [hcons]
    intro c hc
    simp at hc
  | joinPrivate l r tl tr cols ihl ihr =>
    obtain ⟨sl, hsl, hs⟩ := bind_ok hs
    obtain ⟨sr, hsr, hs⟩ := bind_ok hs
    obtain ⟨ol, hol, ho⟩ := bind_ok ho
    obtain ⟨or, hor, ho'⟩ := bind_ok ho
    have cfl := conf l he.1 hf.1 hr.1 hsl hol
    have cfr := conf r he.2 hf.2 hr.2 hsr hor
    have itl := idt l he.1 hr.1 hsl hol
    have itr := idt r he.2 hr.2 hsr hor
    obtain ⟨hsl', hsr', hb⟩ := hsafe
    obtain ⟨hbl, hbr⟩ := hb ol or hol hor
    obtain ⟨_, _, hd, hcons, hm, hmr, hcase⟩ := visitJoinPrivate_ok ho'
    rw [hm] at hi
    rw [hi] at hmr
    have ihl := ihl he.1 hf.1 hr.1 hsl' hsl hol hi
    have ihr := ihr he.2 hf.2 hr.2 hsr' hsr hor hmr
    rcases hcase with ⟨j, hj, hjc, hrun⟩ | ⟨a, b, _, _, hsym, _⟩
    · rw [hi] at hj
      cases hj
      rw [hcons, hrun]
      generalize hjcs : joinCols (Dict.keys ol.dom) (Dict.keys or.dom) cols = jc at *
      have hno : i ∉ overlap (Dict.keys ol.dom) (Dict.keys or.dom) jc := fun hx => (overlap_mem hx).2.2 hjc
      have rok : ∀ a ∈ ol.run D, ∀ b ∈ or.run D, matches_ jc a b = true →
          RowOK o.dom (joinRow (Dict.keys ol.dom) (Dict.keys or.dom) jc a b) :=
        fun a ha b hb hmab => rowOK_join hd (cfl a ha) (Or.inl (cfr b hb)) (fun _ => matches_iff.1 hmab)
      have getl : ∀ g ∈ Dict.keys ol.dom, ∀ a ∈ ol.run D, ∀ x ∈ ((or.run D).filter (matches_ jc a)).map
          (joinRow (Dict.keys ol.dom) (Dict.keys or.dom) jc a),
          Row.get x (suffixed (overlap (Dict.keys ol.dom) (Dict.keys or.dom) jc) "_left" g) = Row.get a g := by
        intro g hg a ha x hx
        obtain ⟨b, hb, rfl⟩ := List.mem_map.1 hx
        obtain ⟨hb1, hb2⟩ := List.mem_filter.1 hb
        exact get_joinRow_left hd (cfl a ha) (rok a ha b hb1 hb2) hg
      have getr : ∀ g ∈ Dict.keys or.dom, ∀ b ∈ or.run D, ∀ x ∈ ((ol.run D).filter
          (fun l => matches_ jc l b)).map (fun l => joinRow (Dict.keys ol.dom) (Dict.keys or.dom) jc l b),
          Row.get x (suffixed (overlap (Dict.keys ol.dom) (Dict.keys or.dom) jc) "_right" g) = Row.get b g := by
        intro g hg b hb x hx
        obtain ⟨a, ha, rfl⟩ := List.mem_map.1 hx
        obtain ⟨ha1, ha2⟩ := List.mem_filter.1 ha
        exact get_joinRow_right hd (cfr b hb) (rok a ha1 b hb ha2) ha2 hg
      have gi : ∀ a ∈ ol.run D, Row.get a i = some (cell a i) := fun a ha => (cfl a ha).get (itl.mem hi)
      have gj : ∀ b ∈ or.run D, Row.get b i = some (cell b i) := fun b hb => (cfr b hb).get (itr.mem hmr)
      refine ConsHold.simplify ?_
      intro c' hc'
      rcases List.mem_append.1 hc' with hc' | hc'
      · obtain ⟨c, hc, hp⟩ := List.mem_filterMap.1 hc'
        obtain ⟨h3, h4⟩ := ihl c hc
        refine ⟨?_, ?_⟩
        · refine sat_propagateJoin ?_ (fun g hg => getl g (h4 g hg)) ?_ h3 hp
          · have := getl i (itl.mem hi)
            rwa [suffixed_of_notMem hno] at this
          · intro k hk a ha
            have hsat := maxJoinStability_sound hbr (fun c hc => (ihr c hc).1) hk
            rw [List.length_map]
            refine le_trans (filter_length_le ?_) (hsat (Row.get a i))
            intro b hb hmab
            rw [decide_eq_true_eq, gi a ha, gj b hb, matches_iff.1 hmab i hjc]
        · intro g' hg'
          obtain ⟨g, hg, rfl⟩ := propagateJoin_consCol hp hg'
          exact suffixed_mem_left hd (h4 g hg)
      · obtain ⟨c, hc, hp⟩ := List.mem_filterMap.1 hc'
        obtain ⟨h3, h4⟩ := ihr c hc
        refine ⟨?_, ?_⟩
        · refine Sat.of_subperm (innerJoin_perm _ _ _ _ _).subperm ?_
          refine sat_propagateJoin ?_ (fun g hg => getr g (h4 g hg)) ?_ h3 hp
          · have := getr i (itr.mem hmr)
            rwa [suffixed_of_notMem hno] at this
          · intro k hk b hb
            have hsat := maxJoinStability_sound hbl (fun c hc => (ihl c hc).1) hk
            rw [List.length_map]
            refine le_trans (filter_length_le ?_) (hsat (Row.get b i))
            intro a ha hmab
            rw [decide_eq_true_eq, gi a ha, gj b hb, matches_iff.1 hmab i hjc]
        · intro g' hg'
          obtain ⟨g, hg, rfl⟩ := propagateJoin_consCol hp hg'
          exact suffixed_mem_right hd (h4 g hg)
    · rw [hi] at hsym; cases hsym
  | joinPublic e pub cols how ih =>
    obtain ⟨s', hs', hs⟩ := bind_ok hs
    obtain ⟨o', ho', ho⟩ := bind_ok ho
    have cf := conf e he.1 hf.1 hr hs' ho'
    have it := idt e he.1 hr hs' ho'
    obtain ⟨ps, pt, hp, hd, hm, _, hov, hcons, hrun⟩ := visitJoinPublic_ok ho
    have wp := (resolvePub_ok hc he.2 hp).1
    have hpt := (conforms_iff wp _).1 (resolvePub_conforms hD hf.2 hp)
    rw [hm] at hi
    have ih := ih he.1 hf.1 hr hsafe hs' ho' hi
    have hno := hov i (by rw [hi]; rfl)
    have heff : effHow o'.metric how = .inner := by rw [hi]; rfl
    rw [heff] at hd hrun
    simp only at hrun
    rw [hrun, hcons]
    generalize hjcs : joinCols (Dict.keys o'.dom) (Dict.keys (analyticsToSparkColumns ps)) cols = jc at *
    have getl : ∀ g ∈ Dict.keys o'.dom, ∀ a ∈ o'.run D, ∀ x ∈ (pt.filter (matches_ jc a)).map
        (joinRow (Dict.keys o'.dom) (Dict.keys (analyticsToSparkColumns ps)) jc a),
        Row.get x (suffixed (overlap (Dict.keys o'.dom) (Dict.keys (analyticsToSparkColumns ps)) jc) "_left" g)
          = Row.get a g := by
      intro g hg a ha x hx
      obtain ⟨b, hb, rfl⟩ := List.mem_map.1 hx
      obtain ⟨hb1, hb2⟩ := List.mem_filter.1 hb
      exact get_joinRow_left hd (cf a ha)
        (rowOK_join hd (cf a ha) (Or.inl (hpt b hb1)) (fun _ => matches_iff.1 hb2)) hg
    refine ConsHold.simplify ?_
    intro c' hc'
    obtain ⟨c, hc, hp⟩ := List.mem_filterMap.1 hc'
    obtain ⟨h3, h4⟩ := ih c hc
    refine ⟨?_, ?_⟩
    · refine sat_propagateJoin ?_ (fun g hg => getl g (h4 g hg)) ?_ h3 hp
      · have := getl i (it.mem hi)
        rwa [suffixed_of_notMem hno] at this
      · intro k hk a ha
        cases hk
        rw [List.length_map]
        exact matches_le_multiplicity jc a pt
    · intro g' hg'
      obtain ⟨g, hg, rfl⟩ := propagateJoin_consCol hp hg'
      exact suffixed_mem_left hd (h4 g hg)
  | replaceNull e w ih =>
    obtain ⟨s', hs', hs⟩ := bind_ok hs
    obtain ⟨o', ho', ho⟩ := bind_ok ho
    obtain ⟨rw', hrw, hk, rfl⟩ := visitReplaceNull_ok ho
    have hi' : o'.metric = .ids i := hi
    have ih := ih he.1 hf hr hsafe.1 hs' ho' hi'
    obtain ⟨hni, hkeys⟩ := replaceWith_keys hrw hk
    have hni := hni i (by rw [hi']; rfl)
    refine ConsHold.simplify ?_
    intro c hc
    obtain ⟨hc1, hc2⟩ := List.mem_filter.1 hc
    obtain ⟨h3, h4⟩ := ih c hc1
    refine ⟨?_, fun g hg => ?_⟩
    · refine sat_map (i := i) ?_ h3 ?_
      · intro r _
        rw [get_replaceRow_of_notMem _ _ (fun hx => hni (keys_restrict hx).1),
          get_replaceRow_of_notMem _ _ (fun hx => hni (keys_restrict hx).1)]
      · cases c with
        | maxRowsPerID n => exact Or.inl ⟨n, rfl, rfl⟩
        | maxGroupsPerID g n =>
          refine Or.inr (Or.inl ⟨g, g, n, rfl, rfl,
            fun x => (x.map (fun v => if isNull v then
                (Dict.get (restrict SparkDesc.allowNull o'.dom rw') g).getD v else v)).map
              (fun v => if isNan v then (Dict.get (restrict allowsNan o'.dom rw') g).getD v else v), ?_⟩)
          intro r _
          rw [get_replaceRow, get_replaceRow]
        | maxRowsPerGroupPerID g n =>
          refine Or.inr (Or.inr ⟨g, g, n, rfl, rfl, ?_⟩)
          intro r _
          have hno : g ∉ Dict.keys (restrict SparkDesc.allowNull o'.dom rw') ∧
              g ∉ Dict.keys (restrict allowsNan o'.dom rw') := by
            by_cases hw : w = []
            · obtain ⟨d, hd⟩ := Option.isSome_iff_exists.1 (Dict.get_isSome.2 (h4 g rfl))
              obtain ⟨n1, n2⟩ := hsafe.2 hw o' ho' g n d hc1 hd
              refine ⟨fun hx => ?_, fun hx => ?_⟩
              · have := (keys_restrict hx).2
                rw [hd, Option.any_some, n1] at this
                cases this
              · have := (keys_restrict hx).2
                rw [hd, Option.any_some, n2] at this
                cases this
            · have hgw : g ∉ Dict.keys w := by simpa using hc2
              rw [← hkeys hw] at hgw
              exact ⟨fun hx => hgw (keys_restrict hx).1, fun hx => hgw (keys_restrict hx).1⟩
          rw [get_replaceRow_of_notMem _ _ hno.2, get_replaceRow_of_notMem _ _ hno.1]
    · rw [keys_update, keys_update]
      exact h4 g hg
  | replaceInf e w ih =>
    obtain ⟨s', hs', hs⟩ := bind_ok hs
    obtain ⟨o', ho', ho⟩ := bind_ok ho
    have a := agree hc e he.1 hs' ho'
    have cf := conf e he.1 hf hr hs' ho'
    have it := idt e he.1 hr hs' ho'
    obtain ⟨_, rfl⟩ := visitReplaceInf_ok ho
    have hi' : o'.metric = .ids i := hi
    have ih := ih he.1 hf hr hsafe.1 hs' ho' hi'
    refine ConsHold.simplify ?_
    intro c hc
    obtain ⟨hc1, hc2⟩ := List.mem_filter.1 hc
    obtain ⟨h3, h4⟩ := ih c hc1
    refine ⟨?_, fun g hg => ?_⟩
    · refine sat_map (i := i) ?_ h3 ?_
      · intro r _
        rw [get_replaceInfRow_of_notMem (id_not_replaced a hs it hi')]
      · cases c with
        | maxRowsPerID n => exact Or.inl ⟨n, rfl, rfl⟩
        | maxGroupsPerID g n =>
          exact Or.inr (Or.inl ⟨g, g, n, rfl, rfl,
            fun x => x.map (infVal (infReplaceWith w o'.dom) g), fun r _ => get_replaceInfRow _ r g⟩)
        | maxRowsPerGroupPerID g n =>
          refine Or.inr (Or.inr ⟨g, g, n, rfl, rfl, ?_⟩)
          intro r hrow
          by_cases hw : w = []
          · obtain ⟨d, hd⟩ := Option.isSome_iff_exists.1 (Dict.get_isSome.2 (h4 g rfl))
            have n1 := hsafe.2 hw o' ho' g n d hc1 hd
            obtain ⟨e1, e2⟩ := (cf r hrow).cell hd
            rw [get_replaceInfRow, show Row.get r g = some (cell r g) from e1, Option.map_some,
              infVal_noInf (valOK_noInf e2 n1).1 (valOK_noInf e2 n1).2]
          · have hgw : g ∉ Dict.keys w := by simpa using hc2
            rw [get_replaceInfRow_of_notMem (by rw [keys_infReplaceWith hw]; exact hgw)]
    · rw [keys_update]
      exact h4 g hg
  | dropNull e cols ih =>
    obtain ⟨s', hs', hs⟩ := bind_ok hs
    obtain ⟨o', ho', ho⟩ := bind_ok ho
    obtain ⟨_, _, rfl⟩ := visitDropNull_ok ho
    have hi' : o'.metric = .ids i := hi
    have ih := ih he hf hr hsafe hs' ho' hi'
    refine ConsHold.simplify (ih.of_subperm ((filter_subperm_of _).trans (filter_subperm_of _)) ?_)
    intro g hg
    rw [keys_update, keys_update]
    exact hg
  | dropInf e cols ih =>
    obtain ⟨s', hs', hs⟩ := bind_ok hs
    obtain ⟨o', ho', ho⟩ := bind_ok ho
    obtain ⟨_, rfl⟩ := visitDropInf_ok ho
    have hi' : o'.metric = .ids i := hi
    have ih := ih he hf hr hsafe hs' ho' hi'
    refine ConsHold.simplify (ih.of_subperm (filter_subperm_of _) ?_)
    intro g hg
    rw [keys_update]
    exact hg
  | enforce e c ih =>
    obtain ⟨s', hs', hs⟩ := bind_ok hs
    obtain ⟨o', ho', ho⟩ := bind_ok ho
    obtain ⟨j, hj, hcol, rfl⟩ := visitEnforce_ok ho
    have hi' : o'.metric = .ids i := hi
    rw [hj] at hi'
    cases hi'
    have ih := ih he hf hr hsafe hs' ho' hj
    refine ConsHold.simplify ?_
    intro c' hc'
    obtain ⟨h1, _, h3, _⟩ := C15_enforce h i c (o'.run D)
    rcases List.mem_append.1 hc' with hc' | hc'
    · exact ⟨h3 c' (ih c' hc').1, (ih c' hc').2⟩
    · rw [List.mem_singleton] at hc'
      subst hc'
      exact ⟨h1, fun g hg => (hcol g hg).1⟩

/-- C16. The constraints attached to a query's table with IDs hold on the data: given that those declared for
the private tables do, everything that propagation derives through renames, selections, maps, flat maps, joins,
replacements, drops and enforcement is true of the table the query makes.

Partial. Excluded are a private join on a column that has a `MaxGroupsPerID` without a `MaxRowsPerID` at most
as large (`C16_fails_join`), default replacement in a column of a `MaxRowsPerGroupPerID` (`C16_fails_replace`),
and renames that give two columns the same new name. -/
theorem C16_constraints_hold_partial {e : Expr} {s : Schema} {o : Out} {i : String}
    (hc : cat.OK) (hid : cat.IdsNotFloat) (hD : cat.DataOK D) (hcs : cat.ConsOK D) (he : e.WF) (hf : e.FnsOK)
    (hr : e.RenamesDistinct) (hsafe : e.ConsSafe h cat) (hb : build h cat e = .ok (s, o))
    (hi : s.idColumn = some i) :
    ∀ c ∈ o.cons, Sat i c (o.run D) ∧
      ∀ g, consCol c = some g → g ∈ s.columnDescs.elements.map Prod.fst := by
  obtain ⟨hs, ho, _, heq, _⟩ := build_ok hb
  have a := agree hc e he hs ho
  intro c hcc
  obtain ⟨h1, h2⟩ := cons_hold hc hid hD hcs e he hf hr hsafe hs ho ((a.ids i).2 hi) c hcc
  refine ⟨h1, fun g hg => ?_⟩
  have := h2 g hg
  rwa [a.keys, keys_eq a.wfs] at this

end

end Verif.Expr
