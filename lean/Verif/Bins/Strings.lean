import Verif.Bins.Model

/-!
# Default names of bins: lemmas on strings
-/

namespace Verif.Bins

open Verif Verif.Schema Verif.Expr
open Verif.Binning (Spec Cell Err fmt roundHalfEven roundHalfEven_near)

/-- Lists that are equal have the same elements before and after the first place of `d`. -/
theorem split_first {α : Type} {d : α} {a b x y : List α} (ha : d ∉ a) (hb : d ∉ b) (h : a ++ d :: x = b ++ d :: y) :
    a = b ∧ x = y := by
  induction a generalizing b with
  | nil =>
    cases b with
    | nil => exact ⟨rfl, (List.cons.inj h).2⟩
    | cons c b => exact absurd ((List.cons.inj h).1 ▸ List.mem_cons_self) hb
  | cons c a ih =>
    cases b with
    | nil => exact absurd ((List.cons.inj h).1 ▸ List.mem_cons_self) ha
    | cons c' b =>
      obtain ⟨h1, h2⟩ := List.cons.inj h
      obtain ⟨h3, h4⟩ := ih (fun h => ha (List.mem_cons_of_mem _ h)) (fun h => hb (List.mem_cons_of_mem _ h)) h2
      exact ⟨by rw [h1, h3], h4⟩

/-! ## Digits -/

theorem digit_ne {n : Nat} (h : n < 10) : Nat.digitChar n ≠ ',' ∧ Nat.digitChar n ≠ '.' ∧ Nat.digitChar n ≠ '-' := by
  interval_cases n <;> decide

theorem digit_inj {n m : Nat} (hn : n < 10) (hm : m < 10) (h : Nat.digitChar n = Nat.digitChar m) : n = m := by
  interval_cases n <;> interval_cases m <;> first | rfl | exact absurd h (by decide)

theorem natStr_chars (n : Nat) : ∀ c ∈ natStr n, c ≠ ',' ∧ c ≠ '.' ∧ c ≠ '-' := by
  induction n using Nat.strong_induction_on with
  | _ n ih =>
    rw [natStr]
    split
    · rename_i h
      intro c hc
      rw [List.mem_singleton.1 hc]
      exact digit_ne h
    · intro c hc
      rcases List.mem_append.1 hc with hc | hc
      · exact ih (n / 10) (by omega) c hc
      · rw [List.mem_singleton.1 hc]
        exact digit_ne (Nat.mod_lt _ (by omega))

theorem natStr_pos (n : Nat) : natStr n ≠ [] := by
  rw [natStr]
  split <;> simp

theorem natStr_inj : ∀ n m : Nat, natStr n = natStr m → n = m := by
  intro n
  induction n using Nat.strong_induction_on with
  | _ n ih =>
    intro m h
    rw [natStr, natStr.eq_def m] at h
    split at h <;> split at h
    · simp only [List.cons.injEq, and_true] at h
      exact digit_inj (by assumption) (by assumption) h
    · have := congrArg List.length h
      have hp := List.length_pos_of_ne_nil (natStr_pos (m / 10))
      simp only [List.length_append, List.length_cons, List.length_nil] at this
      omega
    · have := congrArg List.length h
      have hp := List.length_pos_of_ne_nil (natStr_pos (n / 10))
      simp only [List.length_append, List.length_cons, List.length_nil] at this
      omega
    · obtain ⟨h1, h2⟩ := List.append_inj' h (by simp)
      have a := ih (n / 10) (by omega) _ h1
      simp only [List.cons.injEq, and_true] at h2
      have b := digit_inj (Nat.mod_lt _ (by omega)) (Nat.mod_lt _ (by omega)) h2
      omega

theorem intStr_inj {a b : ℤ} (h : intStr a = intStr b) : a = b := by
  unfold intStr at h
  have h := String.ofList_injective h
  have head : ∀ n : Nat, ∀ l, natStr n ≠ '-' :: l := by
    intro n l e
    exact (natStr_chars n '-' (by rw [e]; exact List.mem_cons_self)).2.2 rfl
  split at h <;> split at h
  · have := natStr_inj _ _ (List.cons.inj h).2
    omega
  · exact absurd h.symm (head _ _)
  · exact absurd h (head _ _)
  · have := natStr_inj _ _ h
    omega

theorem intStr_comma (z : ℤ) : ',' ∉ (intStr z).toList := by
  unfold intStr
  rw [String.toList_ofList]
  intro h
  split at h
  · rcases List.mem_cons.1 h with h | h
    · cases h
    · exact (natStr_chars _ _ h).1 rfl
  · exact (natStr_chars _ _ h).1 rfl

theorem lastDigits_chars (p n : Nat) : ∀ c ∈ lastDigits p n, c ≠ ',' := by
  induction p generalizing n with
  | zero => exact nofun
  | succ p ih =>
    intro c hc
    rcases List.mem_append.1 hc with hc | hc
    · exact ih _ c hc
    · rw [List.mem_singleton.1 hc]
      exact (digit_ne (Nat.mod_lt _ (by omega))).1

theorem lastDigits_inj {p n m : Nat} (h : lastDigits p n = lastDigits p m) : n % 10 ^ p = m % 10 ^ p := by
  induction p generalizing n m with
  | zero => simp [Nat.mod_one]
  | succ p ih =>
    obtain ⟨h1, h2⟩ := List.append_inj' h (by simp)
    have a := ih h1
    simp only [List.cons.injEq, and_true] at h2
    have b := digit_inj (Nat.mod_lt _ (by omega)) (Nat.mod_lt _ (by omega)) h2
    have key : ∀ k : Nat, k % 10 ^ (p + 1) = k % 10 + 10 * (k / 10 % 10 ^ p) := by
      intro k
      rw [pow_succ, Nat.mul_comm, Nat.mod_mul]
    rw [key, key, a, b]

/-! ## Floats -/

theorem sign_nonpos {p : Nat} {q : ℚ} (h : q < 0) : roundHalfEven (q * 10 ^ p) ≤ 0 := by
  have h1 := abs_le.1 (roundHalfEven_near (q * 10 ^ p))
  have h2 : q * 10 ^ p < 0 := mul_neg_of_neg_of_pos h (by positivity)
  have : (roundHalfEven (q * 10 ^ p) : ℚ) < 1 := by linarith [h1.2]
  have : roundHalfEven (q * 10 ^ p) < 1 := by exact_mod_cast this
  omega

theorem sign_nonneg {p : Nat} {q : ℚ} (h : ¬ q < 0) : 0 ≤ roundHalfEven (q * 10 ^ p) := by
  have h1 := abs_le.1 (roundHalfEven_near (q * 10 ^ p))
  have h2 : 0 ≤ q * 10 ^ p := mul_nonneg (not_lt.1 h) (by positivity)
  have : (-1 : ℚ) < (roundHalfEven (q * 10 ^ p) : ℚ) := by linarith [h1.1]
  have : -1 < roundHalfEven (q * 10 ^ p) := by exact_mod_cast this
  omega

theorem units_inj {p n m : Nat}
    (h : natStr (n / 10 ^ p) ++ '.' :: lastDigits p n = natStr (m / 10 ^ p) ++ '.' :: lastDigits p m) : n = m := by
  obtain ⟨h1, h2⟩ := split_first (fun h => (natStr_chars _ _ h).2.1 rfl) (fun h => (natStr_chars _ _ h).2.1 rfl) h
  have a := natStr_inj _ _ h1
  have b := lastDigits_inj h2
  rw [← Nat.div_add_mod n (10 ^ p), a, b, Nat.div_add_mod]

theorem fltStr_fin {p : Nat} {a b : ℚ} : fltStr p (.fin a) = fltStr p (.fin b) ↔ fmt p a = fmt p b := by
  constructor
  swap
  · intro h
    dsimp only [fltStr]
    rw [h]
  intro h
  have h := String.ofList_injective h
  unfold fmt at h ⊢
  have head : ∀ n : Nat, ∀ l l', natStr n ++ l' ≠ '-' :: l := by
    intro n l l' e
    have := natStr_pos n
    obtain ⟨c, cs, hc⟩ := List.exists_cons_of_ne_nil this
    rw [hc] at e
    have e := (List.cons.inj e).1
    exact (natStr_chars n c (by rw [hc]; exact List.mem_cons_self)).2.2 e
  by_cases ha : a < 0 <;> by_cases hb : b < 0 <;>
    simp only [ha, hb, decide_true, decide_false, if_true, Bool.false_eq_true, if_false, List.nil_append, List.cons_append,
      List.singleton_append] at h ⊢
  · have := units_inj (List.cons.inj h).2
    have := sign_nonpos (p := p) ha
    have := sign_nonpos (p := p) hb
    simp only [Prod.mk.injEq, true_and]
    omega
  · exact absurd h.symm (head _ _ _)
  · exact absurd h (head _ _ _)
  · have := units_inj h
    have := sign_nonneg (p := p) ha
    have := sign_nonneg (p := p) hb
    simp only [Prod.mk.injEq, true_and]
    omega

theorem fltStr_comma (p : Nat) (f : Flt) : ',' ∉ (fltStr p f).toList := by
  cases f with
  | fin q =>
    dsimp only [fltStr]
    rw [String.toList_ofList]
    intro h
    rcases List.mem_append.1 h with h | h
    · rcases List.mem_append.1 h with h | h
      · split at h
        · rw [List.mem_singleton] at h
          cases h
        · cases h
      · exact (natStr_chars _ _ h).1 rfl
    · rcases List.mem_cons.1 h with h | h
      · cases h
      · exact lastDigits_chars _ _ _ h rfl
  | nan => exact (by decide : ',' ∉ "nan".toList)
  | pinf => exact (by decide : ',' ∉ "inf".toList)
  | ninf => exact (by decide : ',' ∉ "-inf".toList)

theorem fltStr_dot (p : Nat) (q : ℚ) : '.' ∈ (fltStr p (.fin q)).toList := by
  dsimp only [fltStr]
  rw [String.toList_ofList]
  simp

/-! ## Names -/

/-- No string followed by a comma begins like another one followed by a comma. -/
def Delim (strs : List String) : Prop :=
  strs.Pairwise (fun a b => ∀ x y, a.toList ++ ',' :: x ≠ b.toList ++ ',' :: y)

theorem delim_of_nodup {strs : List String} (hn : strs.Nodup) (hc : ∀ s ∈ strs, ',' ∉ s.toList) : Delim strs := by
  unfold Delim
  refine List.Pairwise.imp_of_mem ?_ hn
  intro a b ha hb hab x y h
  exact hab (String.toList_injective (split_first (hc a ha) (hc b hb) h).1)

/-- The opening and closing brackets of bin `i`. -/
def opening (right both : Bool) (i : Nat) : String := if right then (if both && i == 0 then "[" else "(") else "["

def closing (right both : Bool) (n i : Nat) : String := if right then "]" else if both && i + 2 == n then "]" else ")"

theorem defaultNames_eq {fm : Format} {edges : List Value} {right both : Bool} (h2 : 2 ≤ edges.length) :
    defaultNames fm edges right both = (edgesAsStr fm edges).map (fun strs =>
      (List.range (edges.length - 1)).map (fun i => interval strs (opening right both i) (closing right both edges.length i) i)) := by
  unfold defaultNames
  cases edgesAsStr fm edges with
  | error x => rfl
  | ok strs =>
    obtain ⟨k, hk⟩ : ∃ k, edges.length = k + 2 := ⟨edges.length - 2, by omega⟩
    dsimp only [Except.map]
    rw [hk]
    have e1 : k + 2 - 1 = k + 1 := by omega
    have e2 : k + 2 - 2 = k := by omega
    rw [e1, e2]
    cases right <;> cases both <;> simp only [Bool.false_eq_true, if_false, if_true, Except.ok.injEq]
    · refine List.map_congr_left fun i _ => ?_
      simp [opening, closing]
    · rw [List.range_succ, List.map_append]
      congr 1
      · refine List.map_congr_left fun i hi => ?_
        have : i < k := List.mem_range.1 hi
        have : (i + 2 == k + 2) = false := by simp; omega
        simp [opening, closing, this]
      · simp [opening, closing]
    · refine List.map_congr_left fun i _ => ?_
      simp [opening, closing]
    · rw [List.range_succ_eq_map, List.map_cons, List.map_map]
      congr 1

theorem interval_list (strs : List String) (l r : String) (i : Nat) :
    (interval strs l r i).toList =
      l.toList ++ ((strs.getD i "").toList ++ ',' :: (' ' :: (strs.getD (i + 1) "").toList ++ r.toList)) := by
  unfold interval
  simp [String.toList_append]

theorem opening_length (right both : Bool) (i : Nat) : (opening right both i).toList.length = 1 := by
  unfold opening
  split
  · split <;> rfl
  · rfl

theorem names_nodup {strs : List String} (hd : Delim strs) {n : Nat} (hn : strs.length = n) (right both : Bool) :
    ((List.range (n - 1)).map (fun i => interval strs (opening right both i) (closing right both n i) i)).Nodup := by
  refine List.Nodup.map_on ?_ List.nodup_range
  intro i hi j hj h
  have hi : i < n - 1 := List.mem_range.1 hi
  have hj : j < n - 1 := List.mem_range.1 hj
  have h := congrArg String.toList h
  rw [interval_list, interval_list] at h
  have h := (List.append_inj h (by rw [opening_length, opening_length])).2
  have gi : strs.getD i "" = strs[i] := by rw [List.getD_eq_getElem?_getD, List.getElem?_eq_getElem (by omega)]; rfl
  have gj : strs.getD j "" = strs[j] := by rw [List.getD_eq_getElem?_getD, List.getElem?_eq_getElem (by omega)]; rfl
  rw [gi, gj] at h
  rcases Nat.lt_trichotomy i j with hij | hij | hij
  · exact absurd h (List.pairwise_iff_getElem.1 hd i j (by omega) (by omega) hij _ _)
  · exact hij
  · exact absurd h.symm (List.pairwise_iff_getElem.1 hd j i (by omega) (by omega) hij _ _)

/-! ## Timestamps -/

theorem none_any {l : List ℤ} {p : ℤ → Prop} [DecidablePred p] (h : ¬ l.any (fun t => decide (p t)) = true) {t : ℤ}
    (ht : t ∈ l) : ¬ p t := fun hp => h (List.any_eq_true.2 ⟨t, ht, decide_eq_true hp⟩)

theorem times_div {l : List ℤ} {t t' : ℤ} (ht : t ∈ l) (ht' : t' ∈ l)
    (h : t / (timeSpec l).size = t' / (timeSpec l).size) : t = t' := by
  unfold timeSpec at h
  split at h
  · simpa [TimeSpec.size] using h
  rename_i h1
  have a := none_any h1 ht
  have a' := none_any h1 ht'
  split at h
  · simp only [TimeSpec.size, microsecond] at *
    omega
  rename_i h2
  have b := none_any h2 ht
  have b' := none_any h2 ht'
  split at h
  · simp only [TimeSpec.size, microsecond] at *
    omega
  rename_i h3
  have c := none_any h3 ht
  have c' := none_any h3 ht'
  simp only [TimeSpec.size, microsecond, second] at *
  omega

end Verif.Bins
