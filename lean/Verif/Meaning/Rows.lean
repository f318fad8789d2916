import Verif.Meaning.Spec

/-!
# Rows and tables of compiled transformations meet the specification of C57
-/

namespace Verif.Meaning

open Verif Verif.Schema Verif.Constraint Verif.Expr

theorem forall₂_map {α β : Type} {R : α → β → Prop} {f : α → β} {l : List α} (h : ∀ a ∈ l, R a (f a)) :
    List.Forall₂ R l (l.map f) := by
  induction l with
  | nil => exact .nil
  | cons a l ih => exact .cons (h a (by simp)) (ih fun x hx => h x (by simp [hx]))

theorem each_map {R : Row → Row → Prop} {t : Table} {f : Row → Row} (h : ∀ r ∈ t, R r (f r)) :
    Each R t (t.map f) := ⟨_, forall₂_map h, List.Perm.refl _⟩

theorem expands_flatMap {R : Row → Table → Prop} {t : Table} {F : Row → Table} (h : ∀ r ∈ t, R r (F r)) :
    Expands R t (t.flatMap F) := ⟨_, forall₂_map h, by rw [List.flatMap_def]⟩

/-! ## Rename, select, map -/

theorem newName_iff {m : Dict String String} (w : Dict.WF m) {c n : String} : NewName m c n ↔ n = renamed m c := by
  unfold NewName renamed
  cases h : Dict.get m c with
  | none =>
    rw [Dict.get_eq_none] at h
    have h' : ∀ n', (c, n') ∉ m := fun n' hm => h (Dict.mem_keys.2 ⟨n', hm⟩)
    simp [h']
  | some x =>
    have hx := (Dict.get_eq_some w).1 h
    constructor
    · rintro (h1 | ⟨_, h2⟩)
      · rw [(Dict.get_eq_some w).2 h1] at h
        simpa using h
      · exact absurd hx (h2 x)
    · rintro rfl
      exact Or.inl hx

theorem renamed_row {m : Dict String String} (w : Dict.WF m) {dom : Dict String SparkDesc} {r : Row}
    (hr : RowOK dom r)
    (inj : ∀ a ∈ Dict.keys dom, ∀ b ∈ Dict.keys dom, renamed m a = renamed m b → a = b) :
    Renamed m r (r.map (fun p => (renamed m p.1, p.2))) := by
  refine ⟨?_, ?_⟩
  · intro c n v hn hv
    rw [newName_iff w] at hn
    subst hn
    rw [get_row_rename hr inj ((hr.mem_cols c).1 (Dict.get_isSome.1 (by
      rw [show Dict.get r c = some v from hv]; rfl)))]
    exact hv
  · intro n v hn
    have := Dict.mem_of_get (show Dict.get (r.map (fun p => (renamed m p.1, p.2))) n = some v from hn)
    obtain ⟨p, hp, e⟩ := List.mem_map.1 this
    cases e
    exact ⟨p.1, (newName_iff w).2 rfl, get_of_mem hr.1 hp⟩

theorem selected_row {cols : List String} {dom : Dict String SparkDesc} {r : Row} (hr : RowOK dom r)
    (sub : ∀ c ∈ cols, c ∈ Dict.keys dom) : Selected cols r (cols.map (fun c => (c, cell r c))) := by
  intro c
  split
  · next h => rw [get_row_select r h, hr.get (sub c h)]
  · next h =>
    show Dict.get (cols.map (fun c => (c, cell r c))) c = none
    rw [Dict.get_eq_none]
    intro hk
    obtain ⟨v, hv⟩ := Dict.mem_keys.1 hk
    obtain ⟨x, hx, e⟩ := List.mem_map.1 hv
    cases e
    exact h hx

theorem made_append {a b : Dict String SparkDesc} {r x : Row} (hr : RowOK a r) (hx : RowOK b x)
    (dis : ∀ c ∈ Dict.keys b, c ∉ Dict.keys a) : Made true r x (r ++ x) := by
  intro c
  show Dict.get (r ++ x) c = (Dict.get x c).or (Dict.get r c)
  rw [Dict.get_append]
  cases h1 : Dict.get r c with
  | none => cases h2 : Dict.get x c <;> rfl
  | some v =>
    have : Dict.get x c = none := by
      rw [Dict.get_eq_none]
      intro hc
      exact dis c ((hx.mem_cols c).1 hc) ((hr.mem_cols c).1 (Dict.get_isSome.1 (by rw [h1]; rfl)))
    rw [this]
    rfl

theorem made_alone (r x : Row) : Made false r x x := by
  intro c
  cases Row.get x c <;> rfl

/-! ## Joins -/

theorem onCols_eq (cols : Option (List String)) (lk rk : List String) : onCols cols lk rk = joinCols lk rk cols := by
  rcases cols with _ | (_ | ⟨c, cs⟩)
  · rfl
  · rfl
  · simp [onCols, joinCols]

theorem sameOn_eq {on : List String} {l r : Row} (hl : ∀ c ∈ on, Row.get l c = some (cell l c))
    (hr : ∀ c ∈ on, Row.get r c = some (cell r c)) : sameOn on l r = matches_ on l r := by
  rw [Bool.eq_iff_iff, matches_iff, sameOn, List.all_eq_true]
  refine forall₂_congr fun c hc => ?_
  rw [hl c hc, hr c hc]
  simp

/-- The cells of the right side of a join. -/
theorem joined_row {how : How} {ld rd dom : Dict String SparkDesc} {jc : List String} {l r : Row}
    (h : domainAfterJoin how ld rd jc = .ok dom) (hl : RowOK ld l) (hr : RightOK how rd r)
    (hm : RowOK rd r → ∀ c ∈ jc, cell l c = cell r c) {right : String → Option Value}
    (hright : ∀ c ∈ Dict.keys rd, right c = some (cell r c)) :
    Joined (Dict.keys ld) (Dict.keys rd) jc l right (joinRow (Dict.keys ld) (Dict.keys rd) jc l r) := by
  have ok := rowOK_join h hl hr hm
  have hjc := domainAfterJoin_jc h
  intro n v
  have e : Row.get (joinRow (Dict.keys ld) (Dict.keys rd) jc l r) n = some v ↔
      (n, v) ∈ joinRow (Dict.keys ld) (Dict.keys rd) jc l r := Dict.get_eq_some ok.1
  rw [e]
  simp only [joinRow, List.mem_append, List.mem_map, List.mem_filter, List.mem_flatMap, decide_eq_true_eq,
    List.mem_cons, List.not_mem_nil, or_false, Prod.mk.injEq, overlap, common]
  constructor
  · rintro (((⟨c, hc, rfl, rfl⟩ | ⟨c, ⟨hc, hn⟩, rfl, rfl⟩) | ⟨c, ⟨hc, hn⟩, rfl, rfl⟩) | ⟨c, ⟨⟨hc, hc'⟩, hn⟩, hx⟩)
    · exact Or.inl ⟨hc, hl.get (hjc c hc).1⟩
    · exact Or.inr (Or.inl ⟨hc, hn, hl.get hc⟩)
    · exact Or.inr (Or.inr (Or.inl ⟨hc, hn, hright c hc⟩))
    · refine Or.inr (Or.inr (Or.inr ⟨c, hc, hc', hn, ?_⟩))
      rcases hx with ⟨rfl, rfl⟩ | ⟨rfl, rfl⟩
      · exact Or.inl ⟨rfl, hl.get hc⟩
      · exact Or.inr ⟨rfl, hright c hc'⟩
  · rintro (⟨hc, hv⟩ | ⟨hc, hn, hv⟩ | ⟨hc, hn, hv⟩ | ⟨c, hc, hc', hn, hx⟩)
    · rw [hl.get (hjc n hc).1] at hv
      exact Or.inl (Or.inl (Or.inl ⟨n, hc, rfl, by simpa using hv⟩))
    · rw [hl.get hc] at hv
      exact Or.inl (Or.inl (Or.inr ⟨n, ⟨hc, hn⟩, rfl, by simpa using hv⟩))
    · rw [hright n hc] at hv
      exact Or.inl (Or.inr ⟨n, ⟨hc, hn⟩, rfl, by simpa using hv⟩)
    · refine Or.inr ⟨c, ⟨⟨hc, hc'⟩, hn⟩, ?_⟩
      rcases hx with ⟨rfl, hv⟩ | ⟨rfl, hv⟩
      · rw [hl.get hc] at hv
        exact Or.inl ⟨rfl, (Option.some.inj hv).symm⟩
      · rw [hright c hc'] at hv
        exact Or.inr ⟨rfl, (Option.some.inj hv).symm⟩

theorem filter_sameOn {ld rd dom : Dict String SparkDesc} {how : How} {jc : List String}
    (h : domainAfterJoin how ld rd jc = .ok dom) {l : Row} (hl : RowOK ld l) {rt : Table}
    (hr : ∀ r ∈ rt, RowOK rd r) : rt.filter (sameOn jc l) = rt.filter (matches_ jc l) := by
  apply List.filter_congr
  intro r hrt
  exact sameOn_eq (fun c hc => hl.get (domainAfterJoin_jc h c hc).1)
    (fun c hc => (hr r hrt).get (domainAfterJoin_jc h c hc).2)

theorem innerJoined {how : How} {ld rd dom : Dict String SparkDesc} {jc : List String} {lt rt : Table}
    (h : domainAfterJoin how ld rd jc = .ok dom) (hl : ∀ l ∈ lt, RowOK ld l) (hr : ∀ r ∈ rt, RowOK rd r) :
    InnerJoined (Dict.keys ld) (Dict.keys rd) jc lt rt (innerJoin (Dict.keys ld) (Dict.keys rd) jc lt rt) := by
  refine expands_flatMap fun l hlt => ?_
  rw [filter_sameOn h (hl l hlt) hr]
  refine forall₂_map fun r hrf => ?_
  obtain ⟨hrt, hm⟩ := List.mem_filter.1 hrf
  exact joined_row h (hl l hlt) (Or.inl (hr r hrt)) (fun _ => matches_iff.1 hm) (fun c hc => (hr r hrt).get hc)

theorem leftJoined {ld rd dom : Dict String SparkDesc} {jc : List String} {lt rt : Table}
    (h : domainAfterJoin .left ld rd jc = .ok dom) (hl : ∀ l ∈ lt, RowOK ld l) (hr : ∀ r ∈ rt, RowOK rd r) :
    LeftJoined (Dict.keys ld) (Dict.keys rd) jc lt rt (leftJoin (Dict.keys ld) (Dict.keys rd) jc lt rt) := by
  refine expands_flatMap fun l hlt => ?_
  rw [filter_sameOn h (hl l hlt) hr]
  split
  · refine ⟨_, rfl, joined_row h (hl l hlt) (Or.inr ⟨rfl, rfl⟩) ?_ ?_⟩
    · intro hnil c hc
      have hk := hnil.mem_cols c
      simp only [Dict.keys_nil, List.not_mem_nil, false_iff] at hk
      exact absurd (domainAfterJoin_jc h c hc).2 hk
    · intro c hc
      simp only [hc, if_true]
      rfl
  · refine forall₂_map fun r hrf => ?_
    obtain ⟨hrt, hm⟩ := List.mem_filter.1 hrf
    exact joined_row h (hl l hlt) (Or.inl (hr r hrt)) (fun _ => matches_iff.1 hm) (fun c hc => (hr r hrt).get hc)

/-! ## Truncation -/

theorem takeRows_length_eq (h : Hash) (n : Nat) (t : Table) : (takeRows h n t).length = min n t.length := by
  unfold takeRows
  rw [List.length_take, List.length_insertionSort]

theorem truncated {h : Hash} {jc : List String} {a : Trunc} {t : Table}
    (ht : ∀ r ∈ t, ∀ c ∈ jc, Row.get r c = some (cell r c)) : Truncated jc a t (truncateBy h jc a t) := by
  have key : ∀ r ∈ t, ∀ u : Table, u.Subperm t → u.filter (sameOn jc r) =
      u.filter (fun x => decide (jc.map (cell x) = jc.map (cell r))) := by
    intro r hr u hu
    apply List.filter_congr
    intro x hx
    rw [sameOn_eq (ht r hr) (ht x (hu.subset hx)), Bool.eq_iff_iff, matches_iff, decide_eq_true_eq,
      List.map_inj_left]
    exact forall₂_congr fun c _ => eq_comm
  cases a with
  | dropExcess n =>
    have sp : (truncateBy h jc (.dropExcess n) t).Subperm t :=
      perGroup_subperm (fun r => jc.map (cell r)) (takeRows_subperm h n) t
    refine ⟨sp, fun r hr => ?_⟩
    rw [key r hr t (List.Subperm.refl _), key r hr _ sp]
    show ((perGroup (fun r => jc.map (cell r)) (takeRows h n) t).filter _).length = _
    rw [(perGroup_filter (fun r => jc.map (cell r)) (takeRows_subperm h n) t _).length_eq, takeRows_length_eq]
  | dropNonUnique =>
    have hf : ∀ s : Table, (if s.length ≤ 1 then s else []).Subperm s := by
      intro s
      split
      · exact List.Subperm.refl _
      · exact List.nil_subperm
    show (perGroup (fun r => jc.map (cell r)) (fun g => if g.length ≤ 1 then g else []) t).Perm _
    rw [List.perm_iff_count]
    intro r
    rw [count_perGroup (f := fun g : Table => if g.length ≤ 1 then g else []) _ hf]
    by_cases hr : r ∈ t
    · have e := key r hr t (List.Subperm.refl _)
      rw [← e]
      have hin : r ∈ t.filter (sameOn jc r) := by
        rw [List.mem_filter]
        exact ⟨hr, by simp [sameOn]⟩
      have hpos := List.length_pos_of_mem hin
      by_cases h1 : (t.filter (sameOn jc r)).length = 1
      · rw [if_pos (by omega), List.count_filter (by simp [sameOn]), List.count_filter (by simpa using h1)]
      · rw [if_neg (by omega), List.count_nil]
        symm
        rw [List.count_eq_zero]
        intro hm
        exact h1 (by simpa using (List.mem_filter.1 hm).2)
    · rw [List.count_eq_zero.2 (fun hm => hr ((hf _).subset hm |> fun h => (List.mem_filter.1 h).1)),
        List.count_eq_zero.2 (fun hm => hr (List.mem_filter.1 hm).1)]

/-! ## Enforcing constraints -/

theorem takeKeys_groups_eq (h : Hash) (c : String) (n : Nat) (t : Table) :
    ((takeKeys h c n t).map (fun r => Row.get r c)).dedup.length =
      min n (t.map (fun r => Row.get r c)).dedup.length := by
  set ks := (t.map (fun r => Row.get r c)).dedup with hks
  set keep := (ks.insertionSort (fun a b => h.key a b = true)).take n with hkeep
  have hl : keep.length = min n ks.length := by rw [hkeep, List.length_take, List.length_insertionSort]
  rw [← hl]
  have nd : keep.Nodup := ((List.perm_insertionSort _ ks).nodup_iff.2 (List.nodup_dedup _)).sublist
    (List.take_sublist _ _)
  refine List.Perm.length_eq ((List.perm_ext_iff_of_nodup (List.nodup_dedup _) nd).2 fun v => ?_)
  rw [List.mem_dedup, List.mem_map]
  constructor
  · rintro ⟨r, hr, rfl⟩
    exact by simpa using (List.mem_filter.1 hr).2
  · intro hv
    have h1 : v ∈ ks := (List.perm_insertionSort _ ks).subset (List.mem_of_mem_take hv)
    rw [hks, List.mem_dedup, List.mem_map] at h1
    obtain ⟨r, hr, rfl⟩ := h1
    exact ⟨r, List.mem_filter.2 ⟨hr, by simpa using hv⟩, rfl⟩

theorem takeKeys_whole (h : Hash) (c : String) (n : Nat) (t : Table) (w : Option Value) :
    (takeKeys h c n t).whereEq c w = [] ∨ (takeKeys h c n t).whereEq c w = t.whereEq c w := by
  unfold takeKeys Table.whereEq
  simp only
  generalize ((t.map (fun r => Row.get r c)).dedup.insertionSort (fun a b => h.key a b = true)).take n = keep
  rw [List.filter_filter]
  by_cases hw : w ∈ keep
  · right
    apply List.filter_congr
    intro r _
    by_cases e : Row.get r c = w <;> simp [e, hw]
  · left
    rw [List.filter_eq_nil_iff]
    intro r _
    by_cases e : Row.get r c = w <;> simp [e, hw]

theorem enforced (h : Hash) (i : String) (c : Constraint) (t : Table) : Enforced i c t (enforce h i c t) := by
  cases c with
  | maxRowsPerID n =>
    refine ⟨enforce_subperm h i _ t, fun v => ?_⟩
    exact (perGroup_filter (fun r => Row.get r i) (takeRows_subperm h n) t v).length_eq.trans
      (takeRows_length_eq h n _)
  | maxGroupsPerID g n =>
    have hp := fun v => perGroup_filter (fun r => Row.get r i) (takeKeys_subperm h g n) t v
    refine ⟨fun v => ?_, fun v w => ?_⟩
    · refine Eq.trans ?_ (takeKeys_groups_eq h g n (t.whereEq i v))
      exact ((hp v).map _).dedup.length_eq
    · have := (hp v).filter (fun r => decide (Row.get r g = w))
      rcases takeKeys_whole h g n (t.whereEq i v) w with e | e
      · left
        unfold Table.whereEq at e
        rw [e] at this
        exact this.eq_nil
      · right
        unfold Table.whereEq at e
        rw [e] at this
        exact this
  | maxRowsPerGroupPerID g n =>
    refine ⟨enforce_subperm h i _ t, fun v w => ?_⟩
    rw [whereEq_whereEq, whereEq_whereEq]
    exact (perGroup_filter (fun r => (Row.get r i, Row.get r g)) (takeRows_subperm h n) t (v, w)).length_eq.trans
      (takeRows_length_eq h n _)

end Verif.Meaning
