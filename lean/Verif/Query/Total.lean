import Verif.Expr.Total
import Verif.Query.PropsSpecial
import Verif.Query.PropsNoise

/-!
# A query that type-checks is compiled

The query part of C62. `Agg.schema` and `groupsSchema` are what a user sees of type checking; `Answerable` lists what
else has to hold for an aggregation to be compiled.
-/

namespace Verif.Query

open Verif Verif.Schema Verif.Expr Verif.Constraint Verif.Budget

/-! ## Constraints that make a table with IDs usable -/

/-- Some constraints bound what an ID contributes, and go on doing so when the values of a column are replaced. -/
def Limits (m : Option String) (cs : List Constraint) : Prop :=
  (∃ n, .maxRowsPerID n ∈ cs) ∨
    ∃ g n k, m ≠ some g ∧ .maxGroupsPerID g n ∈ cs ∧ .maxRowsPerGroupPerID g k ∈ cs

theorem Limits.none {m : Option String} {cs : List Constraint} (h : Limits m cs) : Limits none cs := by
  rcases h with h | ⟨g, n, k, _, h1, h2⟩
  · exact Or.inl h
  · exact Or.inr ⟨g, n, k, by simp, h1, h2⟩

theorem mem_kind {cs : List Constraint} {c : Constraint} (h : c ∈ simplify cs) :
    ∃ c' ∈ cs, kind c' = kind c := by
  have := (simplify_kinds cs (kind c)).1 (List.mem_map_of_mem h)
  simpa [List.mem_map] using this

theorem kind_mem {cs : List Constraint} {c : Constraint} (h : c ∈ cs) :
    ∃ c' ∈ simplify cs, kind c' = kind c := by
  have := (simplify_kinds cs (kind c)).2 (List.mem_map_of_mem h)
  simpa [List.mem_map] using this

theorem kind_rows {c : Constraint} {n : Nat} (h : kind c = kind (.maxRowsPerID n)) : ∃ k, c = .maxRowsPerID k := by
  cases c <;> simp [kind] at h ⊢

theorem kind_groups {c : Constraint} {g : String} {n : Nat} (h : kind c = kind (.maxGroupsPerID g n)) :
    ∃ k, c = .maxGroupsPerID g k := by
  cases c <;> simp [kind] at h ⊢; exact h

theorem kind_rpg {c : Constraint} {g : String} {n : Nat} (h : kind c = kind (.maxRowsPerGroupPerID g n)) :
    ∃ k, c = .maxRowsPerGroupPerID g k := by
  cases c <;> simp [kind] at h ⊢; exact h

theorem Limits.simplify {m : Option String} {cs : List Constraint} (h : Limits m cs) : Limits m (simplify cs) := by
  rcases h with ⟨n, h⟩ | ⟨g, n, k, hm, h1, h2⟩
  · obtain ⟨c, hc, hk⟩ := kind_mem h
    obtain ⟨k, rfl⟩ := kind_rows hk
    exact Or.inl ⟨k, hc⟩
  · obtain ⟨c, hc, hk⟩ := kind_mem h1
    obtain ⟨x, rfl⟩ := kind_groups hk
    obtain ⟨c', hc', hk'⟩ := kind_mem h2
    obtain ⟨y, rfl⟩ := kind_rpg hk'
    exact Or.inr ⟨g, x, y, hm, hc, hc'⟩

theorem Limits.replace {c : String} {cs : List Constraint} (h : Limits (some c) cs) :
    Limits (some c) (propagateReplace [c] cs) := by
  unfold propagateReplace
  rcases h with ⟨n, h⟩ | ⟨g, n, k, hm, h1, h2⟩
  · exact Or.inl ⟨n, List.mem_filter.2 ⟨h, rfl⟩⟩
  · refine Or.inr ⟨g, n, k, hm, List.mem_filter.2 ⟨h1, rfl⟩, List.mem_filter.2 ⟨h2, ?_⟩⟩
    have : g ≠ c := fun e => hm (by rw [e])
    simpa using this

theorem truncatable_ne {order : List String → List String} (ho : ∀ l, (order l).Perm l) {cs : List Constraint}
    (h : Limits none cs) : truncatable order cs ≠ [] := by
  unfold truncatable
  rcases h with ⟨n, h⟩ | ⟨g, n, k, _, h1, h2⟩
  · obtain ⟨k, hk⟩ := firstRows_isSome h
    rw [hk]
    simp
  · have a1 : (lastGroups g cs).isSome = true := (lastGroups_aux g cs none).2 (Or.inr ⟨n, h1⟩)
    have a2 : (lastRowsPerGroup g cs).isSome = true := (lastRpg_aux g cs none).2 (Or.inr ⟨k, h2⟩)
    obtain ⟨x, hx⟩ := Option.isSome_iff_exists.1 a1
    obtain ⟨y, hy⟩ := Option.isSome_iff_exists.1 a2
    intro hn
    rw [List.append_eq_nil_iff] at hn
    have hmem : g ∈ order (groupCols cs).dedup := by
      rw [(ho _).mem_iff, List.mem_dedup]
      exact List.mem_filterMap.2 ⟨_, h1, rfl⟩
    have := List.filterMap_eq_nil_iff.1 hn.1 g hmem
    simp [hx, hy] at this

theorem choose_some {order : List String → List String} (ho : ∀ l, (order l).Perm l) (m : Measure) (gr : List String)
    {cs : List Constraint} (h : Limits none cs) :
    ∃ tr, chooseTruncation m gr (truncatable order cs) = some tr := by
  have := truncatable_ne ho h
  cases hx : truncatable order cs with
  | nil => exact absurd hx this
  | cons x xs => exact ⟨_, rfl⟩

/-- The column of the chosen truncation is one for which the number of groups is bounded. -/
theorem choose_col {order : List String → List String} {m : Measure} {gr : List String} {cs : List Constraint}
    {tr : Truncation} (h : chooseTruncation m gr (truncatable order cs) = some tr) {c : String}
    (hc : Truncation.col tr = some c) : ∃ n, .maxGroupsPerID c n ∈ cs := by
  have hm : tr ∈ truncatable order cs := by
    cases hx : truncatable order cs with
    | nil => rw [hx] at h; cases h
    | cons x xs =>
      rw [hx] at h
      simp only [chooseTruncation, Option.some.injEq] at h
      obtain ⟨h1, _⟩ := choose_spec m gr xs x
      rw [h] at h1
      exact List.mem_cons.2 h1
  cases tr with
  | rows n => cases hc
  | groups col g r =>
    cases hc
    unfold truncatable at hm
    rw [List.mem_append, List.mem_filterMap] at hm
    rcases hm with ⟨x, _, hx⟩ | hm
    · split at hx
      · next a b ha hb =>
        cases hx
        rcases (lastGroups_aux c cs none).1 _ ha with h0 | h0
        · cases h0
        · exact ⟨_, h0⟩
      · cases hx
    · split at hm <;> simp at hm

/-! ## Rewriting -/

/-- The same columns and types; only the descriptor of one column may differ. -/
structure Like (c : String) (s s1 : Schema) : Prop where
  wf : s1.WF
  grouping : s1.grouping = s.grouping
  idColumn : s1.idColumn = s.idColumn
  other : ∀ x, x ≠ c → Dict.get s1.descs x = Dict.get s.descs x
  ty : ∀ x, (Dict.get s1.descs x).map Desc.ty = (Dict.get s.descs x).map Desc.ty

theorem Like.refl (c : String) {s : Schema} (w : s.WF) : Like c s s := ⟨w, rfl, rfl, fun _ _ => rfl, fun _ => rfl⟩

theorem Like.trans {c : String} {s s1 s2 : Schema} (h : Like c s s1) (h' : Like c s1 s2) : Like c s s2 :=
  ⟨h'.wf, h'.grouping.trans h.grouping, h'.idColumn.trans h.idColumn,
    fun x hx => (h'.other x hx).trans (h.other x hx), fun x => (h'.ty x).trans (h.ty x)⟩

theorem Like.mem {c : String} {s s1 : Schema} (h : Like c s s1) (x : String) :
    x ∈ Schema.keys s1 ↔ x ∈ Schema.keys s := by
  unfold Schema.keys
  rw [← Dict.get_isSome, ← Dict.get_isSome]
  have := congrArg Option.isSome (h.ty x)
  simpa using this

theorem like_of_keeps {c : String} {s s1 : Schema} {g : String × Desc → Desc} (w : s.WF) (ks : Keeps s s1 g)
    (ho : ∀ x d, x ≠ c → g (x, d) = d) (ht : ∀ p, (g p).ty = p.2.ty) : Like c s s1 := by
  have key : ∀ x, Dict.get s1.descs x = (Dict.get s.descs x).map (fun d => g (x, d)) := by
    intro x
    cases hd : Dict.get s.descs x with
    | some d => rw [get_keeps ks w hd]; rfl
    | none =>
      have : x ∉ Dict.keys s.descs := by rw [← Dict.get_isSome, hd]; simp
      have hk : Dict.keys s1.descs = Dict.keys s.descs := ks.keys
      rw [← hk, ← Dict.get_isSome] at this
      simpa using this
  refine ⟨ks.wf, ks.grouping, ks.idColumn, ?_, ?_⟩
  · intro x hx
    rw [key]
    cases Dict.get s.descs x with
    | none => rfl
    | some d => rw [Option.map_some, ho x d hx]
  · intro x
    rw [key, Option.map_map]
    congr 1
    funext d
    exact ht (x, d)

theorem like_checkKeySet {c : String} {s s1 : Schema} (h : Like c s s1) (k : Dict String Desc) :
    checkKeySet s1 k = checkKeySet s k := by
  induction k with
  | nil => rfl
  | cons p rest ih =>
    obtain ⟨x, d⟩ := p
    have ht := h.ty x
    simp only [checkKeySet, ih]
    cases h1 : Dict.get s1.descs x <;> cases h2 : Dict.get s.descs x <;> rw [h1, h2] at ht <;> simp at ht ⊢
    rw [ht]

theorem like_validate {c : String} {s s1 : Schema} (h : Like c s s1) (keys : Keys) (m : Option String) :
    validateGroupby keys m s1 = validateGroupby keys m s := by
  have hk : checkKeys s1 keys = checkKeys s keys := by
    cases keys with
    | set k => exact like_checkKeySet h k.schema
    | cols cs => simp only [checkKeys, h.mem]
  have hm : ∀ x, checkMeasure s1 x = checkMeasure s x := by
    intro x
    have ht := h.ty x
    simp only [checkMeasure, h.idColumn]
    cases h1 : Dict.get s1.descs x <;> cases h2 : Dict.get s.descs x <;> rw [h1, h2] at ht <;> simp at ht ⊢
    rw [ht]
  unfold validateGroupby
  simp only [hk, hm, h.grouping]

theorem like_schema {c : String} {s s1 : Schema} (h : Like c s s1) {a a1 : Agg} (hk : a1.keys = a.keys)
    (hkind : a1.kind = a.kind) (ho : a1.out = a.out) (hc : c ∉ a.keys.columns) :
    schemaForGroupby a1 s1 = schemaForGroupby a s := by
  have e : a.keys.columns.filterMap (fun x => (Dict.get s1.descs x).map (fun d => (x, d)))
      = a.keys.columns.filterMap (fun x => (Dict.get s.descs x).map (fun d => (x, d))) := by
    apply List.filterMap_congr
    intro x hx
    rw [h.other x (fun e => hc (e ▸ hx))]
  unfold schemaForGroupby
  simp only [hk, hkind, ho, h.ty, e]

theorem mk_keeps {s : Schema} (w : s.WF) (g : String × Desc → Desc) :
    ∃ s1, mk (s.descs.map (fun p => (p.1, g p))) s.grouping s.idColumn s.idSpace = .ok s1 := by
  have hk : Dict.keys ((s.descs.map (fun p => (p.1, g p))).map (fun p => (p.1, ColSpec.desc p.2)))
      = s.columnDescs.elements.map Prod.fst := by
    rw [Schema.descs_eq w]
    simp [Dict.keys, Function.comp_def]
  have hr : ∀ l : Dict String Desc,
      resolveAll false false false (l.map (fun p => (p.1, ColSpec.desc p.2))) = some l := by
    intro l
    induction l with
    | nil => rfl
    | cons p l ih => simp [resolveAll, resolve, ih]
  unfold mk Schema.init
  rw [hk, if_neg w.nonempty, if_neg, if_neg, hr]
  · exact ⟨_, rfl⟩
  · exact opt_any_false (fun c hc => by simpa using w.idColumn c hc)
  · exact opt_any_false (fun c hc => by simpa using w.grouping c hc)

theorem nullStep_total {h : Hash} {cat : Cat} {d : Desc} {c : String} {e : Expr} {s : Schema} {o : Out} (w : s.WF)
    (hr : Ready cat e) (hs : schemaOf cat e = .ok s) (hc : c ∈ Schema.keys s) (hg : s.grouping ≠ some c)
    (hi : s.idColumn ≠ some c) (ho : compile h cat e = .ok o) (hl : s.idColumn.isSome = true → Limits (some c) o.cons) :
    ∃ s1, schemaOf cat (nullStep d c e) = .ok s1 ∧ Ready cat (nullStep d c e) ∧ Like c s s1 ∧
      ∀ o1, compile h cat (nullStep d c e) = .ok o1 → s.idColumn.isSome = true → Limits (some c) o1.cons := by
  unfold nullStep
  split
  · obtain ⟨s1, h1⟩ := mk_keeps w (noNull [c])
    have h2 : schDropNull [c] s = .ok s1 := by
      unfold schDropNull
      rw [if_neg, if_neg, if_neg]
      · simp only [if_false, List.cons_ne_nil]
        exact h1
      · simpa using hc
      · exact opt_any_false (fun x hx => by
          have : x ≠ c := fun e => hi (e ▸ hx)
          simpa using this)
      · exact opt_any_false (fun x hx => by
          have : x ≠ c := fun e => hg (e ▸ hx)
          simpa using this)
    have ks : Keeps s s1 (noNull [c]) := keeps_of w h1
    refine ⟨s1, by rw [schemaOf, hs]; exact h2, hr, like_of_keeps w ks ?_ (fun _ => rfl), ?_⟩
    · intro x d hx
      simp [noNull, hx]
    · intro o1 ho1 hid
      rw [compile, ho] at ho1
      obtain ⟨_, _, rfl⟩ := visitDropNull_ok ho1
      exact (hl hid).simplify
  · exact ⟨s, hs, hr, Like.refl c w, fun o1 ho1 hid => by rw [ho] at ho1; cases ho1; exact hl hid⟩

theorem infStep_total {h : Hash} {cat : Cat} {b : Option (Value × Value)} {d d1 : Desc} {c : String} {e : Expr}
    {s : Schema} {o : Out} (w : s.WF)
    (hb : ∀ x, b = some x → typeOK .DECIMAL x.1 = true ∧ validReplacement x.1 = true ∧ typeOK .DECIMAL x.2 = true ∧
      validReplacement x.2 = true)
    (hr : Ready cat e) (hs : schemaOf cat e = .ok s) (hc : Dict.get s.descs c = some d1) (hty : d1.ty = d.ty)
    (hg : s.grouping ≠ some c)
    (hi : s.idColumn ≠ some c) (ho : compile h cat e = .ok o) (hl : s.idColumn.isSome = true → Limits (some c) o.cons) :
    ∃ s1, schemaOf cat (infStep b d c e) = .ok s1 ∧ Ready cat (infStep b d c e) ∧ Like c s s1 ∧
      ∀ o1, compile h cat (infStep b d c e) = .ok o1 → s.idColumn.isSome = true → Limits (some c) o1.cons := by
  have g1 : ¬ s.grouping.any (fun g => decide (g ∈ [c])) = true := opt_any_false (fun x hx => by
    have : x ≠ c := fun e => hg (e ▸ hx)
    simpa using this)
  have g2 : ¬ s.idColumn.any (fun g => decide (g ∈ [c])) = true := opt_any_false (fun x hx => by
    have : x ≠ c := fun e => hi (e ▸ hx)
    simpa using this)
  unfold infStep
  split
  · next hyes =>
    have hD : d1.ty = .DECIMAL := by
      rw [Bool.and_eq_true] at hyes
      rw [hty]; simpa using hyes.1
    obtain ⟨s1, h1⟩ := mk_keeps w (noInf [c])
    have ks : Keeps s s1 (noInf [c]) := keeps_of w h1
    have lk : Like c s s1 := like_of_keeps w ks (fun x d hx => by simp [noInf, hx]) (fun _ => rfl)
    cases b with
    | some x =>
      obtain ⟨b1, b2, b3, b4⟩ := hb x rfl
      have h2 : schReplaceInf [(c, x)] s = .ok s1 := by
        unfold schReplaceInf
        rw [if_neg, if_neg, if_neg, if_neg]
        · simp only [if_false, List.cons_ne_nil]
          exact h1
        · simp [hc, hD]
        · exact g2
        · exact g1
        · simp [b1, b2, b3, b4]
      refine ⟨s1, by simp only [schemaOf, hs]; exact h2, ⟨hr, fun hn => by cases hn⟩, lk, ?_⟩
      intro o1 ho1 hid
      simp only [compile, ho] at ho1
      obtain ⟨_, rfl⟩ := visitReplaceInf_ok ho1
      exact (hl hid).replace.simplify
    | none =>
      have h2 : schDropInf [c] s = .ok s1 := by
        unfold schDropInf
        rw [if_neg, if_neg, if_neg]
        · simp only [if_false, List.cons_ne_nil]
          exact h1
        · simp [hc, hD]
        · exact g2
        · exact g1
      refine ⟨s1, by simp only [schemaOf, hs]; exact h2, ⟨hr, fun hn => by cases hn⟩, lk, ?_⟩
      intro o1 ho1 hid
      simp only [compile, ho] at ho1
      obtain ⟨_, rfl⟩ := visitDropInf_ok ho1
      exact (hl hid).simplify
  · exact ⟨s, hs, hr, Like.refl c w, fun o1 ho1 hid => by rw [ho] at ho1; cases ho1; exact hl hid⟩

/-! ## Aggregations -/

/-- What compiling an aggregation needs besides type checking. `s` is the schema of the table that is aggregated, `cs`
are its constraints.

* Gaussian noise is only for zCDP; automatic keys are only for approximate DP with positive parameters.
* The bounds are finite numbers.
* With IDs, the constraints bound the contribution of an ID, not only through the column that is aggregated; counting
  IDs may do without.
* Distinct rows are not grouped by the ID column. Columns to count go together with a KeySet; they exist, and
  truncation does not go by a column that is neither counted nor grouped by. -/
structure Answerable (env : Env) (b : PB) (a : Agg) (s : Schema) (cs : List Constraint) : Prop where
  gaussian : a.kind.mech = some .gaussian → env.m = .zCDP ∧ ∃ ρ, b = .zcdp ρ
  auto : ∀ ks, a.keys = .cols ks → ∃ ε δ, b = .approx ε δ ∧ (b.isInfinite = true ∨ 0 < ε ∧ 0 < δ)
  clamp : ∀ x, a.kind.clamp = some x → typeOK .DECIMAL x.1 = true ∧ validReplacement x.1 = true ∧
    typeOK .DECIMAL x.2 = true ∧ validReplacement x.2 = true
  ids : ∀ i, s.idColumn = some i → Limits a.kind.measure cs ∨
    ∃ toCount mech, a.kind = .countDistinct toCount mech ∧
      (countDistinctShortcut i (if toCount = [] then Schema.keys s else toCount) a.keys.columns cs).isSome = true
  noId : ∀ i toCount mech, s.idColumn = some i → a.kind = .countDistinct toCount mech → i ∉ a.keys.columns
  distinct : ∀ toCount mech, a.kind = .countDistinct toCount mech → toCount ≠ [] →
    (∃ k, a.keys = .set k) ∧ (∀ c ∈ toCount, c ∈ Schema.keys s) ∧
    (s.idColumn.isSome = true → ∀ g n, .maxGroupsPerID g n ∈ cs → g ∈ toCount ++ a.keys.columns)

/-- What `start` needs. -/
theorem start_total {env : Env} {b : PB} {a : Agg} {out : Schema} (hs : a.schema env.cat = .ok out)
    (hg : a.kind.mech = some .gaussian → ∃ ρ, b = .zcdp ρ)
    (ha : ∀ ks, a.keys = .cols ks → ∃ ε δ, b = .approx ε δ ∧ (b.isInfinite = true ∨ 0 < ε ∧ 0 < δ)) :
    ∃ x, start env b a = .ok x := by
  have h1 : ∃ adj, adjustForQuery a.keys a.kind.mech b = .ok adj ∧ ∀ ks, a.keys = .cols ks → ∃ ε δ, adj = .approx ε δ := by
    unfold adjustForQuery
    cases b with
    | pure ε => exact ⟨_, rfl, fun ks hk => by obtain ⟨_, _, h, _⟩ := ha ks hk; cases h⟩
    | zcdp ρ => exact ⟨_, rfl, fun ks hk => by obtain ⟨_, _, h, _⟩ := ha ks hk; cases h⟩
    | approx ε δ =>
      have hng : a.kind.mech ≠ some .gaussian := by
        intro h
        obtain ⟨ρ, hρ⟩ := hg h
        cases hρ
      simp only [hng, if_false]
      split
      · next hk =>
        obtain ⟨ks, hks⟩ : ∃ ks, a.keys = .cols ks := by
          cases hkk : a.keys with
          | cols ks => exact ⟨ks, rfl⟩
          | set k => rw [hkk] at hk; simp [Keys.isAuto] at hk
        obtain ⟨_, _, h, hp⟩ := ha ks hks
        cases h
        rcases hp with hp | ⟨h1, h2⟩
        · rw [hp] at hk; cases hk.2
        · rw [if_neg (not_le.2 h1), if_neg (not_le.2 h2)]
          exact ⟨_, rfl, fun _ _ => ⟨ε, δ, rfl⟩⟩
      · exact ⟨_, rfl, fun _ _ => ⟨ε, 0, rfl⟩⟩
  obtain ⟨adj, hadj, happ⟩ := h1
  have h2 : ∃ kq, keyAndQueryBudget a.keys b adj = .ok kq := by
    unfold keyAndQueryBudget
    cases hk : a.keys with
    | set k => exact ⟨_, rfl⟩
    | cols ks =>
      obtain ⟨ε, δ, rfl⟩ := happ ks hk
      simp only [splitBudget]
      split <;> exact ⟨_, rfl⟩
  obtain ⟨⟨kb, qb⟩, hkq⟩ := h2
  exact ⟨_, by unfold start; simp only [hadj, hs, hkq]; rfl⟩

theorem visitChild_total {h : Hash} {cat : Cat} (hc : cat.OK) (hp : cat.Plain) {e : Expr} (he : e.WF)
    (hr : Ready cat e) {s : Schema} (hs : schemaOf cat e = .ok s) :
    ∃ o, visitChild h cat e = .ok o ∧ compile h cat e = .ok o ∧ Fits s o ∧ Agree s o := by
  obtain ⟨o, ho, f⟩ := compile_total (h := h) hc hp e he hr hs
  have a := agree hc e he hs ho
  refine ⟨o, ?_, ho, f, a⟩
  unfold visitChild
  simp only [ho, hs, validate_fits a f]

theorem truncateOut_total {h : Hash} {order : List String → List String} (hord : ∀ l, (order l).Perm l) {m : Measure}
    {o : Out} {s : Schema} (f : Fits s o) (gr : List String) (hl : s.idColumn.isSome = true → Limits none o.cons) :
    ∃ x, truncateOut h order m o gr = .ok x ∧
      (s.idColumn = none → x.1 = keyCol s) ∧
      (s.idColumn.isSome = true → ∀ c, x.1 = some c → ∃ n, .maxGroupsPerID c n ∈ o.cons) := by
  unfold truncateOut
  cases hi : s.idColumn with
  | some i =>
    have hm : o.metric = .ids i := by rw [f.metric]; exact (metricOf_ids s i).2 hi
    obtain ⟨tr, htr⟩ := choose_some hord m gr (hl (by rw [hi]; rfl))
    simp only [hm, htr]
    exact ⟨_, rfl, nofun, fun _ c hc => choose_col htr hc⟩
  | none =>
    have hm : ∀ i, o.metric ≠ .ids i := by
      intro i hx
      rw [f.metric, metricOf_ids, hi] at hx
      cases hx
    cases hmm : o.metric with
    | ids i => exact absurd hmm (hm i)
    | grouped c => exact ⟨_, rfl, fun _ => by unfold keyCol; rw [← f.metric, hmm], by simp⟩
    | symDiff => exact ⟨_, rfl, fun _ => by unfold keyCol; rw [← f.metric, hmm], by simp⟩

theorem agg_schema {cat : Cat} {a : Agg} {out : Schema} (h : a.schema cat = .ok out) :
    ∃ s, schemaOf cat a.child = .ok s ∧ validateGroupby a.keys a.kind.measure s = .ok () ∧
      schemaForGroupby a s = .ok out := by
  unfold Agg.schema at h
  split at h
  · cases h
  · next s hs =>
    split at h
    · cases h
    · next hv => exact ⟨s, hs, hv, h⟩

theorem grouping_keys {keys : Keys} {m : Option String} {s : Schema} (h : validateGroupby keys m s = .ok ()) :
    checkKeys s keys = .ok () ∧ ∀ g, s.grouping = some g → g ∈ keys.columns := by
  unfold validateGroupby at h
  split at h
  · cases h
  · next hk =>
    split at h
    · cases h
    · next hg =>
      refine ⟨hk, fun g hs => ?_⟩
      rw [hs] at hg
      simpa using hg

theorem keySet_columns {s : Schema} {k : Dict String Desc} (h : checkKeySet s k = .ok ()) :
    ∀ c ∈ Dict.keys k, c ∈ Schema.keys s := by
  induction k with
  | nil => intro c hc; simp [Dict.keys] at hc
  | cons p rest ih =>
    obtain ⟨x, d⟩ := p
    simp only [checkKeySet] at h
    split at h
    · cases h
    · next d' hd =>
      split at h
      · cases h
      · intro c hc
        simp only [Dict.keys, List.map_cons, List.mem_cons] at hc
        rcases hc with rfl | hc
        · exact Dict.get_isSome.1 (by rw [hd]; rfl)
        · exact ih h c hc

/-- Rewriting succeeds, and what it makes of the aggregation type-checks as before. -/
theorem rewriteAgg_total {env : Env} (hc : env.cat.OK) (hp : env.cat.Plain) {a : Agg} (he : a.child.WF)
    (hr : Ready env.cat a.child) {s out : Schema} {o : Out} (hs : schemaOf env.cat a.child = .ok s)
    (ho : compile env.h env.cat a.child = .ok o) (hv : validateGroupby a.keys a.kind.measure s = .ok ())
    (hout : schemaForGroupby a s = .ok out) (hgau : a.kind.mech = some .gaussian → env.m = .zCDP)
    (hcl : ∀ x, a.kind.clamp = some x → typeOK .DECIMAL x.1 = true ∧ validReplacement x.1 = true ∧
      typeOK .DECIMAL x.2 = true ∧ validReplacement x.2 = true)
    (hl : a.kind.measure.isSome = true → s.idColumn.isSome = true → Limits a.kind.measure o.cons) :
    ∃ a' s', rewriteAgg env.m env.cat a = .ok a' ∧ a'.keys = a.keys ∧ a'.kind = a.kind ∧ a'.out = a.out ∧
      (∀ k, a.kind.mech = some k → ∃ c, a'.core = some c) ∧
      a'.child.WF ∧ Ready env.cat a'.child ∧ schemaOf env.cat a'.child = .ok s' ∧ a'.schema env.cat = .ok out ∧
      s'.idColumn = s.idColumn ∧ s'.grouping = s.grouping ∧
      (a.kind.measure = none → a'.child = a.child) ∧
      (a.kind.measure.isSome = true → s.idColumn.isSome = true →
        ∀ o', compile env.h env.cat a'.child = .ok o' → Limits none o'.cons) := by
  have w := schemaOf_wf hc a.child he hs
  -- special values
  have key : ∃ a1 s1, specialValues env.cat a = .ok a1 ∧ a1.keys = a.keys ∧ a1.kind = a.kind ∧ a1.out = a.out ∧
      a1.child.WF ∧ Ready env.cat a1.child ∧ schemaOf env.cat a1.child = .ok s1 ∧ a1.schema env.cat = .ok out ∧
      s1.idColumn = s.idColumn ∧ s1.grouping = s.grouping ∧
      (a.kind.measure = none → a1.child = a.child) ∧
      (a.kind.measure.isSome = true → s.idColumn.isSome = true →
        ∀ o', compile env.h env.cat a1.child = .ok o' → Limits none o'.cons) := by
    cases hm : a.kind.measure with
    | none =>
      refine ⟨a, s, by unfold specialValues; rw [hm], rfl, rfl, rfl, he, hr, hs, ?_, rfl, rfl, fun _ => rfl, by simp⟩
      unfold Agg.schema
      simp only [hs, hv, hout]
    | some c =>
      rw [hm] at hv
      obtain ⟨d, hd, hty, hck, hci⟩ := measure_type hv
      have hcg : s.grouping ≠ some c := fun hg => hck ((grouping_keys hv).2 c hg)
      have hcm : c ∈ Schema.keys s := Dict.get_isSome.1 (by rw [hd]; rfl)
      have hl1 : s.idColumn.isSome = true → Limits (some c) o.cons := by
        have := hl (by rw [hm]; rfl)
        rwa [hm] at this
      obtain ⟨s1, h1, r1, l1, c1⟩ := nullStep_total (d := d) w hr hs hcm hcg hci ho hl1
      have he1 : (nullStep d c a.child).WF := by unfold nullStep; split <;> exact he
      obtain ⟨o1, ho1, f1⟩ := compile_total (h := env.h) hc hp _ he1 r1 h1
      obtain ⟨d1, hd1, hty1⟩ : ∃ d1, Dict.get s1.descs c = some d1 ∧ d1.ty = d.ty := by
        have := l1.ty c
        rw [hd] at this
        cases hx : Dict.get s1.descs c with
        | none => rw [hx] at this; cases this
        | some d1 => rw [hx] at this; exact ⟨d1, rfl, by simpa using this⟩
      obtain ⟨s2, h2, r2, l2, c2⟩ := infStep_total (b := a.kind.clamp) (d := d) l1.wf hcl r1 h1 hd1 hty1
        (by rw [l1.grouping]; exact hcg) (by rw [l1.idColumn]; exact hci) ho1
        (fun hid => c1 o1 ho1 (by rw [l1.idColumn] at hid; exact hid))
      have he2 : (infStep a.kind.clamp d c (nullStep d c a.child)).WF := by
        unfold infStep
        split
        · split
          · exact ⟨he1, by simp [Dict.WF]⟩
          · exact he1
        · exact he1
      have lk := l1.trans l2
      refine ⟨{ a with child := infStep a.kind.clamp d c (nullStep d c a.child) }, s2, ?_, rfl, rfl, rfl, he2, r2, h2,
        ?_, lk.idColumn, lk.grouping, by simp, ?_⟩
      · unfold specialValues infStep nullStep
        rw [hm]
        simp only [hs, hd]
        by_cases hyes : (decide (d.ty = .DECIMAL) && d.allowInf) = true
        · rw [if_pos hyes, if_pos hyes]
          cases hk : a.kind with
          | count _ => rw [hk] at hm; cases hm
          | countDistinct _ _ => rw [hk] at hm; cases hm
          | quantile c' q low high =>
            obtain ⟨b1, b2, b3, b4⟩ := hcl (low, high) (by rw [hk]; rfl)
            simp only [b1, b2, b3, b4, Bool.and_self, if_true, Kind.clamp]
          | bounded st c' low high mech =>
            obtain ⟨b1, b2, b3, b4⟩ := hcl (low, high) (by rw [hk]; rfl)
            simp only [b1, b2, b3, b4, Bool.and_self, if_true, Kind.clamp]
          | bounds c' l u => simp only [Kind.clamp]
        · rw [if_neg hyes, if_neg hyes]
      · unfold Agg.schema
        simp only [h2]
        rw [like_validate lk, hm, hv]
        simp only []
        rw [← hout]
        exact like_schema lk rfl rfl rfl hck
      · intro _ hid o' ho'
        exact (c2 o' ho' (by rw [l1.idColumn]; exact hid)).none
  obtain ⟨a1, s1, h1, k1, k2, k3, e1, r1, hs1, ho1, i1, i2, i3, i4⟩ := key
  obtain ⟨a2, h2⟩ := C28_total env.m env.cat a1 ⟨out, ho1⟩ (by rw [k2]; exact hgau)
  obtain ⟨c, hc2⟩ := selectNoise_ok h2
  have hcore : ∀ k, a1.kind.mech = some k → ∃ c, a2.core = some c := by
    intro k hk
    unfold selectNoise at h2
    split at h2
    · split at h2
      · cases h2
      · cases h2; exact ⟨_, rfl⟩
    · split at h2
      · cases h2
      · cases h2; exact ⟨_, rfl⟩
    · split at h2
      · cases h2
      · split at h2
        · cases h2
        · split at h2
          · cases h2
          · cases h2; exact ⟨_, rfl⟩
    · next hk1 hk2 hk3 =>
      cases hx : a1.kind with
      | count m => exact absurd hx (hk1 m)
      | countDistinct l m => exact absurd hx (hk2 l m)
      | bounded st c l u m => exact absurd hx (hk3 st c l u m)
      | quantile _ _ _ _ => rw [hx] at hk; cases hk
      | bounds _ _ _ => rw [hx] at hk; cases hk
  subst hc2
  refine ⟨{ a1 with core := c }, s1, ?_, k1, k2, k3, ?_, e1, r1, hs1, ?_, i1, i2, i3, i4⟩
  · unfold rewriteAgg
    rw [h1]
    exact h2
  · intro k hk
    exact hcore k (by rw [k2]; exact hk)
  · exact ho1

theorem visitCount_total {env : Env} {b : PB} (hc : env.cat.OK) (hp : env.cat.Plain)
    (hord : ∀ l, (env.order l).Perm l) {a : Agg} (he : a.child.WF) (hr : Ready env.cat a.child) {s out : Schema}
    (hs : schemaOf env.cat a.child = .ok s) (hout : a.schema env.cat = .ok out)
    (hg : a.kind.mech = some .gaussian → ∃ ρ, b = .zcdp ρ)
    (ha : ∀ ks, a.keys = .cols ks → ∃ ε δ, b = .approx ε δ ∧ (b.isInfinite = true ∨ 0 < ε ∧ 0 < δ))
    (hcore : ∃ c, a.core = some c)
    (hl : s.idColumn.isSome = true → ∀ o, compile env.h env.cat a.child = .ok o → Limits none o.cons) :
    ∃ p, visitCount env b a = .ok p := by
  obtain ⟨⟨adj, kb, qb⟩, hst⟩ := start_total hout hg ha
  obtain ⟨c, hcc⟩ := hcore
  obtain ⟨o, hv, ho, f, _⟩ := visitChild_total (h := env.h) hc hp he hr hs
  obtain ⟨⟨col, tr, prep⟩, ht, _⟩ := truncateOut_total (h := env.h) (m := env.m) hord f a.keys.columns
    (fun hid => hl hid o ho)
  unfold visitCount
  simp only [hst, hcc, hv, ht]
  exact ⟨_, rfl⟩

theorem visitOther_total {env : Env} {b : PB} (hc : env.cat.OK) (hp : env.cat.Plain)
    (hord : ∀ l, (env.order l).Perm l) {a : Agg} (he : a.child.WF) (hr : Ready env.cat a.child) {s out : Schema}
    (hs : schemaOf env.cat a.child = .ok s) (hout : a.schema env.cat = .ok out)
    (hg : a.kind.mech = some .gaussian → ∃ ρ, b = .zcdp ρ)
    (ha : ∀ ks, a.keys = .cols ks → ∃ ε δ, b = .approx ε δ ∧ (b.isInfinite = true ∨ 0 < ε ∧ 0 < δ))
    (hl : s.idColumn.isSome = true → ∀ o, compile env.h env.cat a.child = .ok o → Limits none o.cons)
    {mech : Except PyErr (Option CoreMech)} (hm : ∃ c, mech = .ok c) (l2 : CoreMech → Bool) (task : Task) :
    ∃ p, visitOther env b a mech l2 task = .ok p := by
  obtain ⟨⟨adj, kb, qb⟩, hst⟩ := start_total hout hg ha
  obtain ⟨c, hcc⟩ := hm
  obtain ⟨o, hv, ho, f, _⟩ := visitChild_total (h := env.h) hc hp he hr hs
  obtain ⟨⟨col, tr, prep⟩, ht, _⟩ := truncateOut_total (h := env.h) (m := env.m) hord f a.keys.columns
    (fun hid => hl hid o ho)
  unfold visitOther
  simp only [hst, hcc, hv, ht]
  exact ⟨_, rfl⟩

/-- The constraint put in place of counting distinct IDs bounds what an ID contributes. -/
theorem shortcut_limits {i : String} {toCount gb : List String} {cs : List Constraint} {k : Constraint}
    (h : countDistinctShortcut i toCount gb cs = some k) :
    Limits none (simplify (cs ++ [k])) ∧ ∀ g, consCol k = some g → gb = [g] := by
  unfold countDistinctShortcut at h
  split at h
  · cases h
  split at h
  · cases h
    exact ⟨Limits.simplify (Or.inl ⟨1, by simp⟩), by simp [consCol]⟩
  · next g =>
    split at h
    · next hany =>
      cases h
      obtain ⟨c, hc, hk⟩ := List.any_eq_true.1 hany
      split at hk
      · next k' n =>
        have : k' = g := by simpa using hk
        subst this
        refine ⟨Limits.simplify (Or.inr ⟨k', n, 1, by simp, ?_, by simp⟩), fun x hx => ?_⟩
        · exact List.mem_append.2 (Or.inl hc)
        · simp only [consCol, Option.some.injEq] at hx; rw [hx]
      · cases hk
    · cases h
  · cases h

theorem visitDistinct_total {env : Env} {b : PB} (hc : env.cat.OK) (hp : env.cat.Plain)
    (hord : ∀ l, (env.order l).Perm l) {a : Agg} (he : a.child.WF) (hr : Ready env.cat a.child) {s out : Schema}
    (hs : schemaOf env.cat a.child = .ok s) (hout : a.schema env.cat = .ok out)
    {toCount : List String} {mech : Mech} (hk : a.kind = .countDistinct toCount mech)
    (hcore : ∃ c, a.core = some c)
    (hans : ∀ o, compile env.h env.cat a.child = .ok o → Answerable env b a s o.cons) :
    ∃ p, visitCountDistinct env b a toCount mech = .ok p := by
  obtain ⟨o, hv, ho, f, ag⟩ := visitChild_total (h := env.h) hc hp he hr hs
  have ha := hans o ho
  obtain ⟨⟨adj, kb, qb⟩, hst⟩ := start_total hout (fun h => (ha.gaussian h).2) ha.auto
  obtain ⟨c, hcc⟩ := hcore
  obtain ⟨s0, hs0, hval, hfor⟩ := agg_schema hout
  rw [hs] at hs0
  cases hs0
  unfold visitCountDistinct
  simp only [hst, hcc, hv, hs]
  cases hsc : s.idColumn.bind (fun i =>
      countDistinctShortcut i (if toCount = [] then Schema.keys s else toCount) a.keys.columns o.cons) with
  | some k =>
    simp only []
    cases hi : s.idColumn with
    | none => rw [hi] at hsc; cases hsc
    | some i =>
      rw [hi] at hsc
      replace hsc : countDistinctShortcut i (if toCount = [] then Schema.keys s else toCount) a.keys.columns o.cons
        = some k := hsc
      obtain ⟨hlim, hcol⟩ := shortcut_limits hsc
      have hsch : schemaOf env.cat (a.child.enforce k) = .ok s := by
        rw [schemaOf, hs]
        show schEnforce k s = .ok s
        unfold schEnforce
        simp only [hi]
        rw [if_neg, if_neg]
        · intro hx
          have := hcol i hx
          exact ha.noId i toCount mech hi hk (by rw [this]; simp)
        · rw [Bool.not_eq_true]
          cases hx : consCol k with
          | none => rfl
          | some g =>
            have h1 := hcol g hx
            have h2 : g ∈ Schema.keys s := by
              have h3 := (grouping_keys hval).1
              cases hkk : a.keys with
              | set ks =>
                rw [hkk] at h3 h1
                exact keySet_columns h3 g (by show g ∈ Keys.columns (.set ks); rw [h1]; simp)
              | cols l =>
                rw [hkk] at h3 h1
                unfold checkKeys at h3
                simp only [] at h3
                split at h3
                · cases h3
                · next hn =>
                  by_contra hcon
                  exact hn (List.any_eq_true.2 ⟨g, by show g ∈ Keys.columns (.cols l); rw [h1]; simp, by simpa using hcon⟩)
            simpa using h2
      refine visitCount_total hc hp hord (a := { a with child := a.child.enforce k, kind := .count mech, core := some c }) he hr
        hsch (out := out) ?_ ?_ ha.auto ⟨c, rfl⟩ ?_
      · unfold Agg.schema
        simp only [hsch]
        rw [hk] at hval
        have hval' : validateGroupby a.keys none s = .ok () := hval
        simp only [Kind.measure, hval']
        rw [← hfor]
        unfold schemaForGroupby
        simp only [hk, Kind.measure]
      · intro hg
        refine (ha.gaussian ?_).2
        rw [hk]
        exact hg
      · intro _ o2 ho2
        rw [compile, ho] at ho2
        replace ho2 : visitEnforce env.h k o = .ok o2 := ho2
        unfold visitEnforce at ho2
        split at ho2
        · split at ho2
          · cases ho2
          · cases ho2; exact hlim
        · cases ho2
  | none =>
    simp only []
    have hl : s.idColumn.isSome = true → Limits none o.cons := by
      intro hid
      obtain ⟨i, hi⟩ := Option.isSome_iff_exists.1 hid
      rcases ha.ids i hi with h | ⟨tc, m', hk', hx⟩
      · exact h.none
      · rw [hk] at hk'
        cases hk'
        rw [hi] at hsc
        replace hsc : countDistinctShortcut i (if toCount = [] then Schema.keys s else toCount) a.keys.columns o.cons
          = none := hsc
        rw [hsc] at hx
        cases hx
    obtain ⟨⟨col, tr, prep⟩, ht, hcolN, hcolS⟩ := truncateOut_total (h := env.h) (m := env.m) hord f a.keys.columns hl
    simp only [ht]
    by_cases htc : toCount = []
    · rw [if_pos htc]; exact ⟨_, rfl⟩
    · rw [if_neg htc]
      obtain ⟨⟨k, hkk⟩, hsub, hgr⟩ := ha.distinct toCount mech hk htc
      have hcols : a.keys.columns = Dict.keys k.schema := by rw [hkk]; rfl
      simp only [hkk]
      have hall : ∀ x ∈ toCount ++ Dict.keys k.schema, x ∈ Dict.keys o.dom := by
        intro x hx
        rw [ag.keys]
        rcases List.mem_append.1 hx with hx | hx
        · exact hsub x hx
        · have h3 := (grouping_keys hval).1
          rw [hkk] at h3
          exact keySet_columns h3 x hx
      have hin : ∀ x, x ∈ toCount ++ Dict.keys k.schema →
          x ∈ (Dict.keys o.dom).filter (fun x => decide (x ∈ toCount ++ Dict.keys k.schema)) := by
        intro x hx
        exact List.mem_filter.2 ⟨hall x hx, by simpa using hx⟩
      rw [if_neg (by
        rw [List.any_eq_true]
        rintro ⟨x, hx, hn⟩
        exact (by simpa using hn : x ∉ Dict.keys o.dom) (hall x hx))]
      rw [if_neg]
      · exact ⟨_, rfl⟩
      · rw [Bool.not_eq_true]
        cases hcol : col with
        | none => rfl
        | some x =>
          have hx : x ∈ toCount ++ Dict.keys k.schema := by
            cases hi : s.idColumn with
            | some i =>
              obtain ⟨n, hn⟩ := hcolS (by rw [hi]; rfl) x hcol
              have := hgr (by rw [hi]; rfl) x n hn
              rwa [hcols] at this
            | none =>
              have h1 := hcolN hi
              simp only [hcol] at h1
              rcases keyCol_some h1.symm with h2 | ⟨_, h2⟩
              · rw [hi] at h2; cases h2
              · have := (grouping_keys hval).2 x h2
                rw [hcols] at this
                exact List.mem_append.2 (Or.inr this)
          simpa only [Option.any_some, decide_eq_false_iff_not, not_not] using hin x hx

/-- **C62, aggregations.** -/
theorem C62_agg_partial {env : Env} {b : PB} (hc : env.cat.OK) (hp : env.cat.Plain)
    (hord : ∀ l, (env.order l).Perm l) {a : Agg} (he : a.child.WF) (hr : Ready env.cat a.child) {s out : Schema}
    (hs : schemaOf env.cat a.child = .ok s) (hout : a.schema env.cat = .ok out)
    (hans : ∀ o, compile env.h env.cat a.child = .ok o → Answerable env b a s o.cons) :
    ∃ p, compileQuery env b (.agg a) = .ok p := by
  obtain ⟨o, ho, f⟩ := compile_total (h := env.h) hc hp _ he hr hs
  have ha := hans o ho
  obtain ⟨s0, hs0, hval, hfor⟩ := agg_schema hout
  rw [hs] at hs0
  cases hs0
  obtain ⟨a', s', hrw, hkeys, hkind, _, hcore, he', hr', hs', hout', hid', _, hsame, hlim⟩ :=
    rewriteAgg_total hc hp he hr hs ho hval hfor (fun h => (ha.gaussian h).1) ha.clamp (by
      intro hm hid
      obtain ⟨i, hi⟩ := Option.isSome_iff_exists.1 hid
      rcases ha.ids i hi with h | ⟨tc, m, hk, _⟩
      · exact h
      · rw [hk] at hm; cases hm)
  have hg' : a'.kind.mech = some .gaussian → ∃ ρ, b = .zcdp ρ := by rw [hkind]; exact fun h => (ha.gaussian h).2
  have hauto : ∀ ks, a'.keys = .cols ks → ∃ ε δ, b = .approx ε δ ∧ (b.isInfinite = true ∨ 0 < ε ∧ 0 < δ) := by
    rw [hkeys]; exact ha.auto
  unfold compileQuery
  simp only [Query.schema, hout, rewrite, hrw, Except.map, visit]
  unfold visitAgg
  rw [hkind]
  have hother : a.kind.measure.isSome = true → s'.idColumn.isSome = true →
      ∀ o', compile env.h env.cat a'.child = .ok o' → Limits none o'.cons := by
    rw [hid']; exact hlim
  cases hk : a.kind with
  | count m =>
    have hsame := hsame (by rw [hk]; rfl)
    rw [hsame] at hs'
    refine visitCount_total hc hp hord he' hr' (by rw [hsame]; exact hs') hout' hg' hauto
      (hcore m (by rw [hk]; rfl)) ?_
    intro hid o2 ho2
    rw [hsame, ho] at ho2
    cases ho2
    rw [hs] at hs'
    cases hs'
    obtain ⟨i, hi⟩ := Option.isSome_iff_exists.1 hid
    rcases ha.ids i hi with h | ⟨tc, m, hk', _⟩
    · exact h.none
    · rw [hk] at hk'; cases hk'
  | countDistinct tc m =>
    have hsame := hsame (by rw [hk]; rfl)
    rw [hsame, hs] at hs'
    cases hs'
    refine visitDistinct_total hc hp hord he' hr' (by rw [hsame]; exact hs) hout' (hkind.trans hk)
      (hcore m (by rw [hk]; rfl)) ?_
    intro o2 ho2
    rw [hsame] at ho2
    have hx := hans o2 ho2
    constructor
    · rw [hkind]; exact hx.gaussian
    · rw [hkeys]; exact hx.auto
    · rw [hkind]; exact hx.clamp
    · rw [hkind, hkeys]; exact hx.ids
    · rw [hkind, hkeys]; exact hx.noId
    · rw [hkind, hkeys]; exact hx.distinct
  | quantile c q low high =>
    exact visitOther_total hc hp hord he' hr' hs' hout' hg' hauto (hother (by rw [hk]; rfl)) ⟨_, rfl⟩ _ _
  | bounded st c low high m =>
    refine visitOther_total hc hp hord he' hr' hs' hout' hg' hauto (hother (by rw [hk]; rfl)) ?_ _ _
    obtain ⟨c, hc⟩ := hcore m (by rw [hk]; rfl)
    exact ⟨some c, by unfold coreOf; rw [hc]⟩
  | bounds c l u =>
    exact visitOther_total hc hp hord he' hr' hs' hout' hg' hauto (hother (by rw [hk]; rfl)) ⟨_, rfl⟩ _ _

/-- **C62, suppressed counts.** -/
theorem C62_suppress_partial {env : Env} {b : PB} (hc : env.cat.OK) (hp : env.cat.Plain)
    (hord : ∀ l, (env.order l).Perm l) {a : Agg} (he : a.child.WF) (hr : Ready env.cat a.child) {s out : Schema}
    (hs : schemaOf env.cat a.child = .ok s) (hout : a.schema env.cat = .ok out) {m : Mech} (hk : a.kind = .count m)
    (hans : ∀ o, compile env.h env.cat a.child = .ok o → Answerable env b a s o.cons) (col : String) (t : ℚ) :
    ∃ p, compileQuery env b (.suppress a col t) = .ok p := by
  obtain ⟨p, hp'⟩ := C62_agg_partial hc hp hord he hr hs hout hans
  unfold compileQuery at hp' ⊢
  simp only [Query.schema, hout, rewrite] at hp' ⊢
  cases hrw : rewriteAgg env.m env.cat a with
  | error e => rw [hrw] at hp'; cases hp'
  | ok a' =>
    have hk' : a'.kind = .count m := by
      obtain ⟨_, _, _, _, _, _, h, _⟩ := rewriteAgg_ok hrw
      exact h.trans hk
    rw [hrw] at hp'
    simp only [Except.map, visit, visitAgg, hk'] at hp' ⊢
    simp only [hp']
    exact ⟨_, rfl⟩

/-- **C62, groups.** -/
theorem C62_groups_partial {env : Env} {ε δ : XNum} (hc : env.cat.OK) (hp : env.cat.Plain)
    (hord : ∀ l, (env.order l).Perm l) {e : Expr} (he : e.WF) (hr : Ready env.cat e) {s out : Schema}
    {cols : List String} (hs : schemaOf env.cat e = .ok s) (hout : groupsSchema env.cat e cols = .ok out)
    (hid : ∀ i, s.idColumn = some i → i ∉ cols ∧ (∃ c ∈ Schema.keys s, c ≠ i) ∧
      ∀ o, compile env.h env.cat e = .ok o → Limits none o.cons) :
    ∃ p, compileQuery env (.approx ε δ) (.groups e cols) = .ok p := by
  obtain ⟨o, hv, ho, f, ag⟩ := visitChild_total (h := env.h) hc hp he hr hs
  obtain ⟨⟨col, tr, prep⟩, ht, _⟩ := truncateOut_total (h := env.h) (m := env.m) hord f [] (by
    intro hi
    obtain ⟨i, hi⟩ := Option.isSome_iff_exists.1 hi
    exact (hid i hi).2.2 o ho)
  have hcols : ∀ c ∈ cols, c ∈ Schema.keys s := by
    unfold groupsSchema at hout
    rw [hs] at hout
    simp only [] at hout
    split at hout
    · cases hout
    · next hn =>
      intro c hcc
      by_contra hcon
      exact hn (List.any_eq_true.2 ⟨c, hcc, by simpa using hcon⟩)
  unfold compileQuery
  simp only [Query.schema, hout, rewrite, visit, visitGroups, hs]
  rw [if_neg]
  · simp only [hv, ht]
    rw [if_neg]
    · exact ⟨_, rfl⟩
    · rw [List.any_eq_true]
      rintro ⟨x, hx, hn⟩
      have hn : x ∉ Dict.keys o.dom := by simpa using hn
      apply hn
      rw [ag.keys]
      split at hx
      · exact hcols x hx
      · exact (List.mem_filter.1 hx).1
  · rw [Bool.not_eq_true]
    cases hi : s.idColumn with
    | none => rfl
    | some i =>
      obtain ⟨h1, ⟨c, hcs, hci⟩, _⟩ := hid i hi
      by_cases hn : cols = []
      · simp only [hn, ne_eq, not_true_eq_false, if_false, Option.any_some, Option.some.injEq]
        simp only [Bool.or_eq_false_iff, decide_eq_false_iff_not, List.mem_filter, decide_eq_true_eq, not_and, not_not]
        refine ⟨?_, by simp⟩
        intro hx
        have : c ∈ (Schema.keys s).filter (fun c => decide (¬ i = c)) :=
          List.mem_filter.2 ⟨hcs, by simpa using fun h => hci h.symm⟩
        rw [hx] at this
        cases this
      · simp [hn, h1]

end Verif.Query
