import Verif.Query.PropsBudget

/-!
# C27, C32: the rows of an answer
-/

namespace Verif.Query

open Verif Verif.Schema Verif.Expr Verif.Constraint Verif.Budget

/-! ## Specification -/

/-- The rows of the group of `k`: those that agree with `k` on the group-by columns. -/
def group (cols : List String) (k : Row) (t : Table) : Table :=
  t.filter (fun r => cols.all (fun c => decide (cell r c = cell k c)))

/-- The row for key `k`. -/
def rowFor (cols : List String) (f : Table → Row) (t : Table) (k : Row) : Row := k ++ f (group cols k t)

/-- Exact counts, as core computes them before adding noise. -/
def exactCount (out : String) (t : Table) : Row := [(out, .int t.length)]

/-! ## Lemmas -/

theorem group_eq (cols : List String) (k : Row) (t : Table) :
    t.filter (fun r => decide (keyOf cols r = keyOf cols k)) = group cols k t := by
  unfold group
  apply List.filter_congr
  intro r _
  rw [Bool.eq_iff_iff]
  simp [keyOf]

theorem lookup_aggregated (cols : List String) (f : Table → Row) (t : Table) (k : List Value) :
    (List.lookup k (aggregated cols f t)).getD (f [])
      = f (t.filter (fun r => decide (keyOf cols r = k))) := by
  have key : ∀ ks : List (List Value),
      (List.lookup k (ks.map (fun k => (k, f (t.filter (fun r => decide (keyOf cols r = k))))))).getD (f [])
        = if k ∈ ks then f (t.filter (fun r => decide (keyOf cols r = k))) else f [] := by
    intro ks
    induction ks with
    | nil => rfl
    | cons x ks ih =>
      rw [List.map_cons, List.lookup_cons]
      by_cases hx : k = x
      · subst hx
        simp
      · rw [show (k == x) = false by simpa using hx]
        simp only [List.mem_cons, hx, false_or]
        exact ih
  rw [aggregated, key]
  split
  · rfl
  · next h =>
    congr 1
    symm
    rw [List.filter_eq_nil_iff]
    intro r hr hk
    apply h
    rw [List.mem_dedup, List.mem_map]
    exact ⟨r, hr, by simpa using hk⟩

theorem groupedAnswer_eq {cols : List String} (hne : cols ≠ []) (keys : List Row) (f : Table → Row) (t : Table) :
    groupedAnswer cols keys f t = keys.map (rowFor cols f t) := by
  unfold groupedAnswer
  rw [if_neg hne]
  apply List.map_congr_left
  intro k _
  rw [lookup_aggregated, group_eq]
  rfl

/-! ## C27 -/

/-- **C27**. A query grouped by a KeySet is answered with one row for each of its rows, in order: the key followed by
the aggregate of the rows of its group. -/
theorem C27_one_row_per_key (env : Env) (b : PB) (a : Agg) (k : KeySetV) (p : Plan) (hk : a.keys = .set k)
    (hne : Dict.keys k.schema ≠ []) (h : compileQuery env b (.agg a) = .ok p) (core : Task → Table → Row) (D : Data)
    (keys : List Row) (hkeys : p.KeysFor D keys) :
    p.answer core keys D = k.rows.map (rowFor (Dict.keys k.schema) (core p.task) (p.prep D)) := by
  obtain ⟨_, _, h3⟩ := compileQuery_budget (a := a) rfl h
  obtain ⟨_, _, p₁, _, _, _, hc, hp⟩ := compileQuery_ok (a := a) rfl h
  have hpost : p.post = id := by
    rcases hp with ⟨_, rfl⟩ | ⟨_, _, _, hx, _⟩
    · exact hc.post
    · cases hx
  rw [hk] at h3
  unfold Plan.KeysFor at hkeys
  rw [h3] at hkeys
  unfold Plan.answer
  rw [hpost, h3, hkeys]
  exact groupedAnswer_eq hne _ _ _

/-- **C27** (absent keys, absent values). A key that does not occur in the table gets the aggregate of the empty
table; rows of the table whose key is not in the KeySet have no influence on the answer. -/
theorem C27_absent (cols : List String) (f : Table → Row) (t : Table) :
    (∀ k : Row, (∀ r ∈ t, ∃ c ∈ cols, cell r c ≠ cell k c) → rowFor cols f t k = k ++ f []) ∧
      ∀ keys : List Row, ∀ extra : Table, (∀ r ∈ extra, ∀ k ∈ keys, ∃ c ∈ cols, cell r c ≠ cell k c) →
        keys.map (rowFor cols f (t ++ extra)) = keys.map (rowFor cols f t) := by
  have key : ∀ (t : Table) (k : Row), (∀ r ∈ t, ∃ c ∈ cols, cell r c ≠ cell k c) → group cols k t = [] := by
    intro t k h
    unfold group
    rw [List.filter_eq_nil_iff]
    intro r hr hall
    obtain ⟨c, hc, hne⟩ := h r hr
    rw [List.all_eq_true] at hall
    exact hne (by simpa using hall c hc)
  constructor
  · intro k h
    unfold rowFor
    rw [key t k h]
  · intro keys extra h
    apply List.map_congr_left
    intro k hk
    unfold rowFor
    have e : group cols k (t ++ extra) = group cols k t ++ group cols k extra := List.filter_append ..
    rw [e, key extra k (fun r hr => h r hr k hk), List.append_nil]

/-- **C27** (no group-by columns). The answer is one row. -/
theorem C27_total (env : Env) (b : PB) (a : Agg) (p : Plan) (hk : a.keys.columns = [])
    (h : compileQuery env b (.agg a) = .ok p) (core : Task → Table → Row) (D : Data) (keys : List Row) :
    p.answer core keys D = [core p.task (p.prep D)] := by
  obtain ⟨_, _, h3⟩ := compileQuery_budget (a := a) rfl h
  obtain ⟨_, _, p₁, _, _, _, hc, hp⟩ := compileQuery_ok (a := a) rfl h
  have hpost : p.post = id := by
    rcases hp with ⟨_, rfl⟩ | ⟨_, _, _, hx, _⟩
    · exact hc.post
    · cases hx
  unfold Plan.answer
  rw [hpost, h3, hk]
  rfl

/-- **C27** (automatic keys). Every row of the answer starts with a key that occurs in the table, no key occurs
twice, and the rest is the aggregate of its group. -/
theorem C27_auto (env : Env) (b : PB) (a : Agg) (cs : List String) (p : Plan) (hk : a.keys = .cols cs)
    (hne : cs ≠ []) (h : compileQuery env b (.agg a) = .ok p) (core : Task → Table → Row) (D : Data)
    (keys : List Row) (hkeys : p.KeysFor D keys) :
    p.answer core keys D = keys.map (rowFor cs (core p.task) (p.prep D)) ∧ keys.Nodup ∧
      ∀ k ∈ keys, ∃ r ∈ p.prep D, k = cs.map (fun c => (c, cell r c)) := by
  obtain ⟨_, _, h3⟩ := compileQuery_budget (a := a) rfl h
  obtain ⟨_, _, p₁, _, _, _, hc, hp⟩ := compileQuery_ok (a := a) rfl h
  have hpost : p.post = id := by
    rcases hp with ⟨_, rfl⟩ | ⟨_, _, _, hx, _⟩
    · exact hc.post
    · cases hx
  rw [hk] at h3
  unfold Plan.KeysFor at hkeys
  rw [h3] at hkeys
  refine ⟨?_, hkeys⟩
  unfold Plan.answer
  rw [hpost, h3]
  exact groupedAnswer_eq hne _ _ _

/-! ## C32 -/

theorem suppress_plan {env : Env} {b : PB} {a : Agg} {col : String} {t : ℚ} {p : Plan}
    (h : compileQuery env b (.suppress a col t) = .ok p) :
    ∃ p₀, compileQuery env b (.agg a) = .ok p₀ ∧ p₀.post = id ∧ p = { p₀ with post := suppressRows col t } := by
  unfold compileQuery at h ⊢
  simp only [Query.schema] at h ⊢
  split at h
  · cases h
  · next s hs =>
    split at h
    · cases h
    · next q' hq =>
      simp only [rewrite] at hq ⊢
      cases hr : rewriteAgg env.m env.cat a with
      | error e => rw [hr] at hq; cases hq
      | ok a₁ =>
        rw [hr] at hq
        simp only [Except.map, Except.ok.injEq] at hq
        subst hq
        simp only [Except.map]
        simp only [visit] at h ⊢
        split at h
        · next mech hm =>
          split at h
          · cases h
          · next p₁ hp =>
            cases h
            have hc := visitCount_ok hm hp
            have hp' : p₁.post = id := hc.post
            refine ⟨p₁, ?_, hp', ?_⟩
            · unfold visitAgg
              rw [hm]
              exact hp
            · rw [hp']
              rfl
        · cases h

/-- **C32**. `suppress` answers with exactly those rows of the count's answer whose count is at least the threshold,
unchanged and in the same order, and costs the same. -/
theorem C32_suppress (env : Env) (b : PB) (a : Agg) (col : String) (t : ℚ) (p : Plan)
    (h : compileQuery env b (.suppress a col t) = .ok p) :
    ∃ p₀, compileQuery env b (.agg a) = .ok p₀ ∧
      (p.total, p.keyBudget, p.aggBudget, p.mech, p.useL2) =
        (p₀.total, p₀.keyBudget, p₀.aggBudget, p₀.mech, p₀.useL2) ∧
      ∀ core keys D,
        ∃ keep : Row → Bool, (p.answer core keys D) = (p₀.answer core keys D).filter keep ∧
          ∀ r z, Row.get r col = some (.int z) → (keep r = true ↔ t ≤ (z : ℚ)) := by
  obtain ⟨p₀, h0, hpost, rfl⟩ := suppress_plan h
  refine ⟨p₀, h0, rfl, fun core keys D => ⟨fun r => atLeast t (Row.get r col), ?_, ?_⟩⟩
  · unfold Plan.answer
    dsimp only
    rw [hpost]
    rfl
  · intro r z hz
    dsimp only
    rw [hz]
    simp [atLeast]

/-- **C32** (counts). With a KeySet without the count column, the surviving rows are the keys whose group has at
least `t` rows; their counts are as before. (Before noise.) -/
theorem C32_exact (env : Env) (b : PB) (a : Agg) (k : KeySetV) (t : ℚ) (p : Plan) (hk : a.keys = .set k)
    (hne : Dict.keys k.schema ≠ []) (hout : ∀ r ∈ k.rows, a.out ∉ r.cols)
    (h : compileQuery env b (.suppress a a.out t) = .ok p) (D : Data) (core : Task → Table → Row)
    (hcore : core (.count a.out) = exactCount a.out) (keys : List Row) (hkeys : p.KeysFor D keys) :
    p.answer core keys D =
      (k.rows.filter (fun r => decide (t ≤ ((group (Dict.keys k.schema) r (p.prep D)).length : ℚ)))).map
        (rowFor (Dict.keys k.schema) (exactCount a.out) (p.prep D)) := by
  obtain ⟨p₀, h0, hpost, rfl⟩ := suppress_plan h
  have htask : p₀.task = .count a.out := by
    obtain ⟨a₁, a₂, p₁, _, hr, hf, hc, hp⟩ := compileQuery_ok (a := a) rfl h0
    obtain ⟨_, _, _, _, _, _, hkind, hout'⟩ := rewriteAgg_ok hr
    have hcount : ∃ m, a.kind = .count m := by
      obtain ⟨_, _, _, _, _, _, _, hp'⟩ := compileQuery_ok (a := a) rfl h
      rcases hp' with ⟨hx, _⟩ | ⟨_, _, m, _, hx, _⟩
      · cases hx
      · exact ⟨m, hx⟩
    obtain ⟨m, hm⟩ := hcount
    rcases hp with ⟨_, rfl⟩ | ⟨_, _, _, hx, _⟩
    · cases hf with
      | same => rw [hc.task, hkind, hm, hout']
      | shortcut hx _ _ _ _ => rw [hkind, hm] at hx; cases hx
    · cases hx
  have hans := C27_one_row_per_key env b a k p₀ hk hne h0 core D keys hkeys
  have e : Plan.answer { p₀ with post := suppressRows a.out t } core keys D
      = suppressRows a.out t (p₀.answer core keys D) := by
    unfold Plan.answer
    rw [hpost]
    rfl
  rw [e, hans, htask, hcore]
  unfold suppressRows
  rw [List.filter_map]
  congr 1
  apply List.filter_congr
  intro r hr
  have hget : Row.get (rowFor (Dict.keys k.schema) (exactCount a.out) (p₀.prep D) r) a.out
      = some (.int (group (Dict.keys k.schema) r (p₀.prep D)).length) := by
    unfold rowFor exactCount Row.get
    have hno := hout r hr
    generalize (Value.int _) = v
    clear hr
    induction r with
    | nil => simp
    | cons x r ih =>
      simp only [Row.cols, List.map_cons, List.mem_cons, not_or] at hno
      rw [List.cons_append, List.lookup_cons, show (a.out == x.1) = false by simpa using hno.1]
      exact ih hno.2
  simp only [Function.comp, hget, atLeast, Int.cast_natCast]

end Verif.Query
