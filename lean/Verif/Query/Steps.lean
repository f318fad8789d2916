import Verif.Query.Model

/-!
# What successful compilation steps imply
-/

namespace Verif.Query

open Verif Verif.Schema Verif.Expr Verif.Constraint Verif.Budget

theorem start_ok {env : Env} {b : PB} {a : Agg} {x : PB × PB × PB} (h : start env b a = .ok x) :
    adjustForQuery a.keys a.kind.mech b = .ok x.1 ∧ (∃ s, a.schema env.cat = .ok s) ∧
      keyAndQueryBudget a.keys b x.1 = .ok (x.2.1, x.2.2) := by
  unfold start at h
  split at h
  · cases h
  · next adj h1 =>
    split at h
    · cases h
    · next s h2 =>
      split at h
      · cases h
      · next kb qb h3 => cases h; exact ⟨h1, ⟨s, h2⟩, h3⟩

/-- What every compiled aggregation has in common. `a` is the aggregation visited last. -/
structure Compiled (env : Env) (b : PB) (a : Agg) (p : Plan) : Prop where
  adjusted : adjustForQuery a.keys a.kind.mech b = .ok p.total
  schema : ∃ s, a.schema env.cat = .ok s
  budgets : keyAndQueryBudget a.keys b p.total = .ok (p.keyBudget, p.aggBudget)
  keys : p.keys = a.keys
  post : p.post = id
  child : p.child = a.child
  prep : ∃ o col tr f, visitChild env.h env.cat a.child = .ok o ∧
    truncateOut env.h env.order env.m o a.keys.columns = .ok (col, tr, f) ∧ p.trunc = tr ∧
    ((p.prep = f ∧ ∀ cols mech, a.kind = .countDistinct cols mech → cols = []) ∨ ∃ toCount mech cols, a.kind = .countDistinct toCount mech ∧ toCount ≠ [] ∧
      (∀ c ∈ toCount ++ a.keys.columns, c ∈ Dict.keys o.dom) ∧
      cols = (Dict.keys o.dom).filter (fun x => decide (x ∈ toCount ++ a.keys.columns)) ∧
      p.prep = fun D => (f D).map (fun r => cols.map (fun x => (x, cell r x))))
  /-- the noise mechanism is the one chosen during rewriting -/
  mech : (∀ k, a.kind.mech = some k → ∃ c, a.core = some c ∧ p.mech = some c ∧ p.useL2 = usesL2 c) ∧
    (a.kind.mech = none → p.mech = none ∧ p.useL2 = usesL2 (defaultMech env.m))
  task : p.task = match a.kind with
    | .count _ => .count a.out
    | .countDistinct _ _ => .countDistinct a.out
    | .quantile c q low high => .quantile c q low high a.out
    | .bounded st c low high _ => .bounded st c low high a.out
    | .bounds c l u => .bounds c l u

theorem visitCount_ok {env : Env} {b : PB} {a : Agg} {mech : Mech} (hk : a.kind = .count mech) {p : Plan}
    (h : visitCount env b a = .ok p) : Compiled env b a p := by
  unfold visitCount at h
  split at h
  · cases h
  · next adj kb qb h1 =>
    obtain ⟨h1, h2, h3⟩ := start_ok h1
    split at h
    · cases h
    · next c hc =>
      split at h
      · cases h
      · next o ho =>
        split at h
        · cases h
        · next col tr prep ht =>
          cases h
          refine ⟨h1, h2, h3, rfl, rfl, rfl, ⟨o, col, tr, prep, ho, ht, rfl, Or.inl ⟨rfl, fun _ _ hx => by rw [hk] at hx; cases hx⟩⟩, ⟨?_, ?_⟩, ?_⟩
          · intro k _
            exact ⟨c, hc, rfl, rfl⟩
          · intro hn
            rw [hk] at hn
            cases hn
          · simp only [hk]

theorem visitOther_ok {env : Env} {b : PB} {a : Agg} {mech : Except PyErr (Option CoreMech)} {task : Task} {p : Plan}
    (h : visitOther env b a mech usesL2 task = .ok p)
    (hm : (∀ k, a.kind.mech = some k → ∃ c, a.core = some c ∧ mech = .ok (some c)) ∧
      (a.kind.mech = none → mech = .ok none))
    (ht : task = match a.kind with
      | .count _ => .count a.out
      | .countDistinct _ _ => .countDistinct a.out
      | .quantile c q low high => .quantile c q low high a.out
      | .bounded st c low high _ => .bounded st c low high a.out
      | .bounds c l u => .bounds c l u)
    (hnd : ∀ cols mech, a.kind = .countDistinct cols mech → cols = []) : Compiled env b a p := by
  unfold visitOther at h
  split at h
  · cases h
  · next adj kb qb h1 =>
    obtain ⟨h1, h2, h3⟩ := start_ok h1
    split at h
    · cases h
    · next c =>
      split at h
      · cases h
      · next o ho =>
        split at h
        · cases h
        · next col tr prep ht' =>
          cases h
          refine ⟨h1, h2, h3, rfl, rfl, rfl, ⟨o, col, tr, prep, ho, ht', rfl, Or.inl ⟨rfl, hnd⟩⟩, ⟨?_, ?_⟩, ht⟩
          · intro k hk
            obtain ⟨c', h4, h5⟩ := hm.1 k hk
            cases h5
            exact ⟨c', h4, rfl, rfl⟩
          · intro hk
            have h5 := hm.2 hk
            cases h5
            exact ⟨rfl, rfl⟩

/-- The aggregation that is visited in the end. -/
inductive Final (env : Env) (a : Agg) : Agg → Prop
  | same : Final env a a
  | shortcut {toCount : List String} {mech : Mech} {o : Out} {s : Schema} {i : String} {k : Constraint}
      (hk : a.kind = .countDistinct toCount mech) (ho : visitChild env.h env.cat a.child = .ok o)
      (hs : schemaOf env.cat a.child = .ok s) (hi : s.idColumn = some i)
      (hc : countDistinctShortcut i (if toCount = [] then Schema.keys s else toCount) a.keys.columns o.cons = some k) :
      Final env a { a with child := a.child.enforce k, kind := .count mech }

theorem Final.keys {env : Env} {a a' : Agg} (h : Final env a a') :
    a'.keys = a.keys ∧ a'.kind.mech = a.kind.mech ∧ a'.core = a.core ∧ a'.out = a.out := by
  cases h with
  | same => exact ⟨rfl, rfl, rfl, rfl⟩
  | shortcut hk _ _ _ _ => exact ⟨rfl, by rw [hk]; rfl, rfl, rfl⟩

theorem visitAgg_ok {env : Env} {b : PB} {a : Agg} {p : Plan} (h : visitAgg env b a = .ok p) :
    ∃ a', Final env a a' ∧ Compiled env b a' p := by
  unfold visitAgg at h
  split at h
  · next m hk => exact ⟨a, .same, visitCount_ok hk h⟩
  · next toCount mech hk =>
    unfold visitCountDistinct at h
    split at h
    · cases h
    · next adj kb qb h1 =>
      obtain ⟨h1, h2, h3⟩ := start_ok h1
      split at h
      · cases h
      · next c hc =>
        split at h
        · cases h
        · next o ho =>
          split at h
          · cases h
          · next s hs =>
            dsimp only at h
            split at h
            · next k hsc =>
              obtain ⟨i, hi, hsc⟩ := Option.bind_eq_some_iff.1 hsc
              exact ⟨_, .shortcut hk ho hs hi hsc, visitCount_ok rfl h⟩
            · split at h
              · cases h
              · next col tr prep ht =>
                refine ⟨a, .same, ?_⟩
                split at h
                · next hem =>
                  cases h
                  refine ⟨h1, h2, h3, rfl, rfl, rfl, ⟨o, col, tr, prep, ho, ht, rfl,
                    Or.inl ⟨rfl, fun _ _ hx => by rw [hk] at hx; cases hx; exact hem⟩⟩, ⟨?_, ?_⟩, ?_⟩
                  · exact fun k _ => ⟨c, hc, rfl, rfl⟩
                  · intro hn; rw [hk] at hn; cases hn
                  · simp only [hk]
                · next hne =>
                  split at h
                  · cases h
                  · next ks hks =>
                    split at h
                    · cases h
                    · next hall =>
                      split at h
                      · cases h
                      · cases h
                        have hcols : a.keys.columns = Dict.keys ks.schema := by rw [hks]; rfl
                        refine ⟨h1, h2, h3, rfl, rfl, rfl, ⟨o, col, tr, prep, ho, ht, rfl, Or.inr ⟨toCount, mech, _, hk, hne, ?_, rfl, ?_⟩⟩,
                          ⟨?_, ?_⟩, ?_⟩
                        · intro x hx
                          rw [hcols] at hx
                          by_contra hn
                          exact hall (List.any_eq_true.2 ⟨x, hx, by simpa using hn⟩)
                        · rw [hcols]
                        · exact fun k _ => ⟨c, hc, rfl, rfl⟩
                        · intro hn; rw [hk] at hn; cases hn
                        · simp only [hk]
  · next c q low high hk =>
    refine ⟨a, .same, visitOther_ok h ⟨?_, fun _ => rfl⟩ (by rw [hk]) (fun _ _ hx => by rw [hk] at hx; cases hx)⟩
    intro k hk'
    rw [hk] at hk'
    cases hk'
  · next st c low high mech hk =>
    refine ⟨a, .same, visitOther_ok h ⟨?_, ?_⟩ (by rw [hk]) (fun _ _ hx => by rw [hk] at hx; cases hx)⟩
    · intro k _
      unfold visitOther coreOf at h
      cases hc : a.core with
      | none =>
        rw [hc] at h
        split at h <;> cases h
      | some c' => exact ⟨c', rfl, by simp only [coreOf, hc]⟩
    · intro hn
      rw [hk] at hn
      cases hn
  · next c l u hk =>
    refine ⟨a, .same, visitOther_ok h ⟨?_, fun _ => rfl⟩ (by rw [hk]) (fun _ _ hx => by rw [hk] at hx; cases hx)⟩
    intro k hk'
    rw [hk] at hk'
    cases hk'

/-! ## Rewriting -/

theorem specialValues_ok {cat : Cat} {a a' : Agg} (h : specialValues cat a = .ok a') :
    a'.keys = a.keys ∧ a'.kind = a.kind ∧ a'.out = a.out ∧ a'.core = a.core := by
  unfold specialValues at h
  repeat' split at h
  all_goals first
    | (cases h; done)
    | (cases h; exact ⟨rfl, rfl, rfl, rfl⟩)
    | skip
  all_goals dsimp only at h
  all_goals repeat' split at h
  all_goals first
    | (cases h; done)
    | (cases h; exact ⟨rfl, rfl, rfl, rfl⟩)

theorem selectNoise_ok {m : Measure} {cat : Cat} {a a' : Agg} (h : selectNoise m cat a = .ok a') :
    ∃ c, a' = { a with core := c } := by
  unfold selectNoise at h
  repeat' split at h
  all_goals first
    | (cases h; done)
    | (cases h; exact ⟨_, rfl⟩)

theorem rewriteAgg_ok {m : Measure} {cat : Cat} {a a' : Agg} (h : rewriteAgg m cat a = .ok a') :
    ∃ a₁ c, specialValues cat a = .ok a₁ ∧ selectNoise m cat a₁ = .ok a' ∧ a' = { a₁ with core := c } ∧
      a'.keys = a.keys ∧ a'.kind = a.kind ∧ a'.out = a.out := by
  unfold rewriteAgg at h
  cases h1 : specialValues cat a with
  | error e => rw [h1] at h; cases h
  | ok a₁ =>
    rw [h1] at h
    have h2 : selectNoise m cat a₁ = .ok a' := h
    obtain ⟨c, hc⟩ := selectNoise_ok h2
    obtain ⟨i, j, k, _⟩ := specialValues_ok h1
    exact ⟨a₁, c, rfl, h2, hc, by rw [hc]; exact i, by rw [hc]; exact j, by rw [hc]; exact k⟩

/-- The aggregation of a query. -/
def Query.agg? : Query → Option Agg
  | .agg a => some a
  | .groups _ _ => none
  | .suppress a _ _ => some a

/-- A compiled query that contains an aggregation. -/
theorem compileQuery_ok {env : Env} {b : PB} {q : Query} {p : Plan} {a : Agg} (hq : q.agg? = some a)
    (h : compileQuery env b q = .ok p) :
    ∃ a₁ a₂ p₁, (∃ s, q.schema env.cat = .ok s) ∧ rewriteAgg env.m env.cat a = .ok a₁ ∧ Final env a₁ a₂ ∧
      Compiled env b a₂ p₁ ∧
      (q = .agg a ∧ p = p₁ ∨
        ∃ col t mech, q = .suppress a col t ∧ a.kind = .count mech ∧ p = { p₁ with post := suppressRows col t }) := by
  unfold compileQuery at h
  split at h
  · cases h
  · next s hs =>
    split at h
    · cases h
    · next q' hr =>
      cases q with
      | groups e cols => cases hq
      | agg a0 =>
        cases hq
        cases h1 : rewriteAgg env.m env.cat a with
        | error e => simp [rewrite, h1, Except.map] at hr
        | ok a₁ =>
          simp only [rewrite, h1, Except.map, Except.ok.injEq] at hr
          subst hr
          obtain ⟨a₂, hf, hc⟩ := visitAgg_ok h
          exact ⟨a₁, a₂, p, ⟨s, hs⟩, rfl, hf, hc, Or.inl ⟨rfl, rfl⟩⟩
      | suppress a0 col t =>
        cases hq
        cases h1 : rewriteAgg env.m env.cat a with
        | error e => simp [rewrite, h1, Except.map] at hr
        | ok a₁ =>
          simp only [rewrite, h1, Except.map, Except.ok.injEq] at hr
          subst hr
          obtain ⟨_, _, _, _, _, _, hkind, _⟩ := rewriteAgg_ok h1
          simp only [visit] at h
          split at h
          · next mech hk =>
            split at h
            · cases h
            · next p₁ hp =>
              cases h
              have hc := visitCount_ok hk hp
              refine ⟨a₁, a₁, p₁, ⟨s, hs⟩, rfl, .same, hc, Or.inr ⟨col, t, mech, rfl, by rw [← hkind]; exact hk, ?_⟩⟩
              rw [hc.post]
              rfl
          · cases h

end Verif.Query
