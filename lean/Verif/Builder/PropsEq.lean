import Verif.Builder.Expr
import Verif.Binning.Model
import Verif.Query.Examples

/-!
# C46: what equality of queries promises; C53: hashes

Equal queries are the same computation, if functions with the same bytecode are the same function, data frames that
compare equal are the same, and replacement values are of the same type. Each of the three conditions is needed. The
quick comparison `_is_equivalent` needs only the last.
-/

namespace Verif.Builder

open Verif Verif.Schema Verif.Expr Verif.Constraint Verif.Query

/-! ## Specification: the same computation -/

/-- The number that a value stands for. -/
def numberOf : Value → Option ℚ
  | .int z => some z
  | .dec (.fin q) => some q
  | _ => none

/-- The same value, or the same number as an integer and as a float. -/
def SameNum (a b : Value) : Prop := a = b ∨ ∃ q, numberOf a = some q ∧ numberOf b = some q

/-- The same columns with the same types, in any order, and the same special columns. -/
def SameSchema (s t : Schema) : Prop :=
  (∀ c d, (c, d) ∈ s.descs ↔ (c, d) ∈ t.descs) ∧ s.grouping = t.grouping ∧ s.idColumn = t.idColumn ∧
    s.idSpace = t.idSpace

/-- The same operations with the same parameters on the same tables, up to the order in which the columns that a
function makes are listed. -/
inductive SameExpr : Expr → Expr → Prop
  | source (id) : SameExpr (.source id) (.source id)
  | rename {e e'} (m) : SameExpr e e' → SameExpr (.rename e m) (.rename e' m)
  | filter {e e'} (v c) : SameExpr e e' → SameExpr (.filter e v c) (.filter e' v c)
  | select {e e'} (cs) : SameExpr e e' → SameExpr (.select e cs) (.select e' cs)
  | map {e e' s s'} (f a) : SameExpr e e' → SameSchema s s' → SameExpr (.map e f s a) (.map e' f s' a)
  | flatMap {e e' s s'} (f a n) : SameExpr e e' → SameSchema s s' →
      SameExpr (.flatMap e f s a n) (.flatMap e' f s' a n)
  | flatMapByID {e e' s s'} (f) : SameExpr e e' → SameSchema s s' →
      SameExpr (.flatMapByID e f s) (.flatMapByID e' f s')
  | joinPrivate {l l' r r'} (tl tr cs) : SameExpr l l' → SameExpr r r' →
      SameExpr (.joinPrivate l r tl tr cs) (.joinPrivate l' r' tl tr cs)
  | joinPublic {e e'} (p cs how) : SameExpr e e' → SameExpr (.joinPublic e p cs how) (.joinPublic e' p cs how)
  | replaceNull {e e'} (w) : SameExpr e e' → SameExpr (.replaceNull e w) (.replaceNull e' w)
  | replaceInf {e e'} (w) : SameExpr e e' → SameExpr (.replaceInf e w) (.replaceInf e' w)
  | dropNull {e e'} (cs) : SameExpr e e' → SameExpr (.dropNull e cs) (.dropNull e' cs)
  | dropInf {e e'} (cs) : SameExpr e e' → SameExpr (.dropInf e cs) (.dropInf e' cs)
  | enforce {e e'} (c) : SameExpr e e' → SameExpr (.enforce e c) (.enforce e' c)

/-- A key of a KeySet. -/
def IsKey (k : KeySetV) (ρ : String → Value) : Prop :=
  ∃ r ∈ k.rows, ∀ c ∈ Dict.keys k.schema, cell r c = ρ c

/-- The same columns of the same types, and the same keys. -/
def SameKeySetV (a b : KeySetV) : Prop :=
  (∀ c ty, (∃ d, (c, d) ∈ a.schema ∧ d.ty = ty) ↔ ∃ d, (c, d) ∈ b.schema ∧ d.ty = ty) ∧ ∀ ρ, IsKey a ρ ↔ IsKey b ρ

inductive SameKeys : Keys → Keys → Prop
  | set {a b} : SameKeySetV a b → SameKeys (.set a) (.set b)
  | cols (cs) : SameKeys (.cols cs) (.cols cs)

inductive SameKind : Kind → Kind → Prop
  | count (m) : SameKind (.count m) (.count m)
  | countDistinct (cs m) : SameKind (.countDistinct cs m) (.countDistinct cs m)
  | quantile {l l' h h'} (c q) : SameNum l l' → SameNum h h' → SameKind (.quantile c q l h) (.quantile c q l' h')
  | bounded {l l' h h'} (s c m) : SameNum l l' → SameNum h h' → SameKind (.bounded s c l h m) (.bounded s c l' h' m)
  | bounds (c a b) : SameKind (.bounds c a b) (.bounds c a b)

structure SameAgg (a b : Agg) : Prop where
  child : SameExpr a.child b.child
  keys : SameKeys a.keys b.keys
  kind : SameKind a.kind b.kind
  out : a.out = b.out
  core : a.core = b.core

/-- Two queries are the same computation. -/
inductive SameQuery : Query.Query → Query.Query → Prop
  | agg {a b} : SameAgg a b → SameQuery (.agg a) (.agg b)
  | groups {e e'} (cs) : SameExpr e e' → SameQuery (.groups e cs) (.groups e' cs)
  | suppress {a b} (c t) : SameAgg a b → SameQuery (.suppress a c t) (.suppress b c t)

/-! ## Conditions -/

/-- What C25 says of the comparison of KeySets. -/
structure KeyCmp.Sound (k : KeyCmp) : Prop where
  eq : ∀ a b, k.eq a b = true → SameKeySetV a b
  equiv : ∀ a b, k.equiv a b = true → SameKeySetV a b

/-- The functions of an expression. -/
def mapFns : PExpr → List (PyFn Row Row)
  | .source _ => []
  | .op (.map f _ _) e => f :: mapFns e
  | .op _ e => mapFns e
  | .join l r _ _ _ => mapFns l ++ mapFns r

def flatMapFns : PExpr → List (PyFn Row (List Row))
  | .source _ => []
  | .op (.flatMap f _ _ _) e => f :: flatMapFns e
  | .op _ e => flatMapFns e
  | .join l r _ _ _ => flatMapFns l ++ flatMapFns r

def byIDFns : PExpr → List (PyFn (List Row) (List Row))
  | .source _ => []
  | .op (.flatMapByID f _) e => f :: byIDFns e
  | .op _ e => byIDFns e
  | .join l r _ _ _ => byIDFns l ++ byIDFns r

/-- The public tables of an expression. -/
def pubs : PExpr → List PubArg
  | .source _ => []
  | .op (.joinPublic p _ _) e => p :: pubs e
  | .op _ e => pubs e
  | .join l r _ _ _ => pubs l ++ pubs r

/-- Whether a value is a float. -/
def isFloat : Value → Bool
  | .dec _ => true
  | _ => false

/-- The types of the replacement values, in order. -/
def opTypes : Op → List Bool
  | .replaceNull w => w.map (fun p => isFloat p.2)
  | .replaceInf w => w.flatMap (fun p => [isFloat p.2.1, isFloat p.2.2])
  | _ => []

def replTypes : PExpr → List Bool
  | .source _ => []
  | .op o e => opTypes o ++ replTypes e
  | .join l r _ _ _ => replTypes l ++ replTypes r

def PQuery.child : PQuery → PExpr
  | .agg a => a.child
  | .groups e _ => e
  | .suppress a _ _ => a.child

/-- An object is what it is. -/
structure Objects (e e' : PExpr) : Prop where
  map : ∀ f ∈ mapFns e, ∀ g ∈ mapFns e', f.obj = g.obj → f.run = g.run
  flatMap : ∀ f ∈ flatMapFns e, ∀ g ∈ flatMapFns e', f.obj = g.obj → f.run = g.run
  byID : ∀ f ∈ byIDFns e, ∀ g ∈ byIDFns e', f.obj = g.obj → f.run = g.run
  pub : ∀ o s r s' r', .df o s r ∈ pubs e → .df o s' r' ∈ pubs e' → s = s' ∧ r = r'

/-- Functions of the two expressions that have the same bytecode are the same function. -/
structure CodeDetermines (e e' : PExpr) : Prop where
  map : ∀ f ∈ mapFns e, ∀ g ∈ mapFns e', f.code = g.code → f.run = g.run
  flatMap : ∀ f ∈ flatMapFns e, ∀ g ∈ flatMapFns e', f.code = g.code → f.run = g.run
  byID : ∀ f ∈ byIDFns e, ∀ g ∈ byIDFns e', f.code = g.code → f.run = g.run

/-- Data frames of the two expressions that look the same in pandas are the same. -/
def FramesFaithful (e e' : PExpr) : Prop :=
  ∀ o s r o' s' r', .df o s r ∈ pubs e → .df o' s' r' ∈ pubs e' → dfEq s r s' r' = true → s = s' ∧ r = r'

/-! ## Proofs -/

theorem valEq_same {a b : Value} (h : valEq a b = true) : SameNum a b := by
  unfold valEq at h
  split at h
  · exact .inr ⟨_, by simpa [numberOf] using of_decide_eq_true h, rfl⟩
  · exact .inr ⟨_, rfl, by simpa [numberOf] using (of_decide_eq_true h).symm⟩
  · exact .inl (of_decide_eq_true h)

theorem valEq_typed {a b : Value} (h : valEq a b = true) (t : isFloat a = isFloat b) : a = b := by
  unfold valEq at h
  split at h
  · simp [isFloat] at t
  · simp [isFloat] at t
  · exact of_decide_eq_true h

theorem pairsEq_strings : ∀ {m m' : List (String × String)}, pairsEq (fun a b => decide (a = b)) m m' = true → m = m'
  | [], [], _ => rfl
  | (a, x) :: r, (b, y) :: s, h => by
    simp only [pairsEq, Bool.and_eq_true, decide_eq_true_eq] at h
    obtain ⟨⟨rfl, rfl⟩, h⟩ := h
    rw [pairsEq_strings h]
  | [], _ :: _, h => by simp [pairsEq] at h
  | _ :: _, [], h => by simp [pairsEq] at h

theorem pairsEq_vals : ∀ {m m' : List (String × Value)}, pairsEq valEq m m' = true →
    m.map (fun p => isFloat p.2) = m'.map (fun p => isFloat p.2) → m = m'
  | [], [], _, _ => rfl
  | (a, x) :: r, (b, y) :: s, h, t => by
    simp only [pairsEq, Bool.and_eq_true, decide_eq_true_eq] at h
    simp only [List.map_cons, List.cons.injEq] at t
    obtain ⟨⟨rfl, hv⟩, h⟩ := h
    rw [valEq_typed hv t.1, pairsEq_vals h t.2]
  | [], _ :: _, h, _ => by simp [pairsEq] at h
  | _ :: _, [], h, _ => by simp [pairsEq] at h

theorem pairsEq_valPairs : ∀ {m m' : List (String × (Value × Value))}, pairsEq valPairEq m m' = true →
    m.flatMap (fun p => [isFloat p.2.1, isFloat p.2.2]) = m'.flatMap (fun p => [isFloat p.2.1, isFloat p.2.2]) → m = m'
  | [], [], _, _ => rfl
  | (a, (x, x')) :: r, (b, (y, y')) :: s, h, t => by
    simp only [pairsEq, valPairEq, Bool.and_eq_true, decide_eq_true_eq] at h
    simp only [List.flatMap_cons, List.cons_append, List.nil_append, List.cons.injEq] at t
    obtain ⟨⟨rfl, hv, hv'⟩, h⟩ := h
    rw [valEq_typed hv t.1, valEq_typed hv' t.2.1, pairsEq_valPairs h t.2.2]
  | [], _ :: _, h, _ => by simp [pairsEq] at h
  | _ :: _, [], h, _ => by simp [pairsEq] at h

theorem pairsEq_length {V : Type} {eq : V → V → Bool} : ∀ {m m' : List (String × V)}, pairsEq eq m m' = true →
    m.length = m'.length
  | [], [], _ => rfl
  | (a, x) :: r, (b, y) :: s, h => by
    simp only [pairsEq, Bool.and_eq_true] at h
    simp [pairsEq_length h.2]
  | [], _ :: _, h => by simp [pairsEq] at h
  | _ :: _, [], h => by simp [pairsEq] at h

theorem schemaEq_same {s t : Schema} (h : s.pyEq t = true) : SameSchema s t := by
  simp only [Schema.pyEq, Bool.and_eq_true, decide_eq_true_eq] at h
  exact ⟨(Dict.pyEq_iff (toDict_wf _) (toDict_wf _)).1 h.1.1.1, h.1.1.2, h.1.2, h.2⟩

/-- Equal nodes hold replacement values at the same places. -/
theorem opTypes_length {o o' : Op} (h : opEq o o' = true) : (opTypes o).length = (opTypes o').length := by
  cases o <;> cases o' <;> simp only [opEq, Bool.false_eq_true] at h <;> try rfl
  · simpa [opTypes] using pairsEq_length h
  · have := pairsEq_length h
    simp only [opTypes, List.length_flatMap, List.length_cons, List.length_nil, List.map_const', List.sum_replicate]
    rw [this]

theorem exprEq_length : ∀ {e e' : PExpr}, exprEq e e' = true → (replTypes e).length = (replTypes e').length
  | .source _, .source _, _ => rfl
  | .op o e, .op o' e', h => by
    simp only [exprEq, Bool.and_eq_true] at h
    simp [replTypes, opTypes_length h.1, exprEq_length h.2]
  | .join l r _ _ _, .join l' r' _ _ _, h => by
    simp only [exprEq, Bool.and_eq_true] at h
    simp [replTypes, exprEq_length h.1.1.1.1, exprEq_length h.1.1.1.2]
  | .source _, .op _ _, h => by simp [exprEq] at h
  | .source _, .join _ _ _ _ _, h => by simp [exprEq] at h
  | .op _ _, .source _, h => by simp [exprEq] at h
  | .op _ _, .join _ _ _ _ _, h => by simp [exprEq] at h
  | .join _ _ _ _ _, .source _, h => by simp [exprEq] at h
  | .join _ _ _ _ _, .op _ _, h => by simp [exprEq] at h

/-- One node: what has to be known of the functions and data frames in it. -/
theorem op_same (sql : Sql) {o o' : Op} {e e' : Expr} (he : SameExpr e e') (h : opEq o o' = true)
    (ht : opTypes o = opTypes o')
    (hm : ∀ f g s s' a a', o = .map f s a → o' = .map g s' a' → f.run = g.run)
    (hf : ∀ f g s s' a a' n n', o = .flatMap f s a n → o' = .flatMap g s' a' n' → f.run = g.run)
    (hi : ∀ f g s s', o = .flatMapByID f s → o' = .flatMapByID g s' → f.run = g.run)
    (hp : ∀ p q c c' w w', o = .joinPublic p c w → o' = .joinPublic q c' w' → p.denote = q.denote) :
    SameExpr (Op.denote sql o e) (Op.denote sql o' e') := by
  cases o <;> cases o' <;> simp only [opEq, Bool.and_eq_true, decide_eq_true_eq, Bool.false_eq_true] at h
  · cases pairsEq_strings h
    exact .rename _ he
  · subst h
    exact .filter _ _ he
  · subst h
    exact .select _ he
  · obtain ⟨⟨_, hs⟩, rfl⟩ := h
    simp only [Op.denote]
    rw [hm _ _ _ _ _ _ rfl rfl]
    exact .map _ _ he (schemaEq_same hs)
  · obtain ⟨⟨⟨_, rfl⟩, hs⟩, rfl⟩ := h
    simp only [Op.denote]
    rw [hf _ _ _ _ _ _ _ _ rfl rfl]
    exact .flatMap _ _ _ he (schemaEq_same hs)
  · simp only [Op.denote]
    rw [hi _ _ _ _ rfl rfl]
    exact .flatMapByID _ he (schemaEq_same h.2)
  · obtain ⟨⟨_, rfl⟩, rfl⟩ := h
    simp only [Op.denote]
    rw [hp _ _ _ _ _ _ rfl rfl]
    exact .joinPublic _ _ _ he
  · cases pairsEq_vals h ht
    exact .replaceNull _ he
  · cases pairsEq_valPairs h ht
    exact .replaceInf _ he
  · subst h
    exact .dropNull _ he
  · subst h
    exact .dropInf _ he
  · subst h
    exact .enforce _ he

/-- The expressions below a node and a join have fewer functions and data frames. -/
theorem Objects.op {o o' : Op} {e e' : PExpr} (h : Objects (.op o e) (.op o' e')) : Objects e e' := by
  have m : ∀ {o : Op} {e : PExpr} {f}, f ∈ mapFns e → f ∈ mapFns (.op o e) := by
    intro o e f hf; cases o <;> simp [mapFns, hf]
  have n : ∀ {o : Op} {e : PExpr} {f}, f ∈ flatMapFns e → f ∈ flatMapFns (.op o e) := by
    intro o e f hf; cases o <;> simp [flatMapFns, hf]
  have i : ∀ {o : Op} {e : PExpr} {f}, f ∈ byIDFns e → f ∈ byIDFns (.op o e) := by
    intro o e f hf; cases o <;> simp [byIDFns, hf]
  have p : ∀ {o : Op} {e : PExpr} {f}, f ∈ pubs e → f ∈ pubs (.op o e) := by
    intro o e f hf; cases o <;> simp [pubs, hf]
  exact ⟨fun f hf g hg => h.map f (m hf) g (m hg), fun f hf g hg => h.flatMap f (n hf) g (n hg),
    fun f hf g hg => h.byID f (i hf) g (i hg), fun o s r s' r' h1 h2 => h.pub o s r s' r' (p h1) (p h2)⟩

theorem CodeDetermines.op {o o' : Op} {e e' : PExpr} (h : CodeDetermines (.op o e) (.op o' e')) :
    CodeDetermines e e' := by
  have m : ∀ {o : Op} {e : PExpr} {f}, f ∈ mapFns e → f ∈ mapFns (.op o e) := by
    intro o e f hf; cases o <;> simp [mapFns, hf]
  have n : ∀ {o : Op} {e : PExpr} {f}, f ∈ flatMapFns e → f ∈ flatMapFns (.op o e) := by
    intro o e f hf; cases o <;> simp [flatMapFns, hf]
  have i : ∀ {o : Op} {e : PExpr} {f}, f ∈ byIDFns e → f ∈ byIDFns (.op o e) := by
    intro o e f hf; cases o <;> simp [byIDFns, hf]
  exact ⟨fun f hf g hg => h.map f (m hf) g (m hg), fun f hf g hg => h.flatMap f (n hf) g (n hg),
    fun f hf g hg => h.byID f (i hf) g (i hg)⟩

theorem FramesFaithful.op {o o' : Op} {e e' : PExpr} (h : FramesFaithful (.op o e) (.op o' e')) :
    FramesFaithful e e' := by
  have p : ∀ {o : Op} {e : PExpr} {f}, f ∈ pubs e → f ∈ pubs (.op o e) := by
    intro o e f hf; cases o <;> simp [pubs, hf]
  exact fun o s r o' s' r' h1 h2 => h o s r o' s' r' (p h1) (p h2)

section
variable {l l' r r' : PExpr} {a b a' b' : Option Trunc} {c c' : Option (List String)}

theorem Objects.join (h : Objects (.join l r a b c) (.join l' r' a' b' c')) : Objects l l' ∧ Objects r r' :=
  ⟨⟨fun f hf g hg => h.map f (List.mem_append_left _ hf) g (List.mem_append_left _ hg),
    fun f hf g hg => h.flatMap f (List.mem_append_left _ hf) g (List.mem_append_left _ hg),
    fun f hf g hg => h.byID f (List.mem_append_left _ hf) g (List.mem_append_left _ hg),
    fun o s r s' r' h1 h2 => h.pub o s r s' r' (List.mem_append_left _ h1) (List.mem_append_left _ h2)⟩,
   ⟨fun f hf g hg => h.map f (List.mem_append_right _ hf) g (List.mem_append_right _ hg),
    fun f hf g hg => h.flatMap f (List.mem_append_right _ hf) g (List.mem_append_right _ hg),
    fun f hf g hg => h.byID f (List.mem_append_right _ hf) g (List.mem_append_right _ hg),
    fun o s r s' r' h1 h2 => h.pub o s r s' r' (List.mem_append_right _ h1) (List.mem_append_right _ h2)⟩⟩

theorem CodeDetermines.join (h : CodeDetermines (.join l r a b c) (.join l' r' a' b' c')) :
    CodeDetermines l l' ∧ CodeDetermines r r' :=
  ⟨⟨fun f hf g hg => h.map f (List.mem_append_left _ hf) g (List.mem_append_left _ hg),
    fun f hf g hg => h.flatMap f (List.mem_append_left _ hf) g (List.mem_append_left _ hg),
    fun f hf g hg => h.byID f (List.mem_append_left _ hf) g (List.mem_append_left _ hg)⟩,
   ⟨fun f hf g hg => h.map f (List.mem_append_right _ hf) g (List.mem_append_right _ hg),
    fun f hf g hg => h.flatMap f (List.mem_append_right _ hf) g (List.mem_append_right _ hg),
    fun f hf g hg => h.byID f (List.mem_append_right _ hf) g (List.mem_append_right _ hg)⟩⟩

theorem FramesFaithful.join (h : FramesFaithful (.join l r a b c) (.join l' r' a' b' c')) :
    FramesFaithful l l' ∧ FramesFaithful r r' :=
  ⟨fun o s r o' s' r' h1 h2 => h o s r o' s' r' (List.mem_append_left _ h1) (List.mem_append_left _ h2),
   fun o s r o' s' r' h1 h2 => h o s r o' s' r' (List.mem_append_right _ h1) (List.mem_append_right _ h2)⟩

end

theorem fn_same {α β : Type} {f g : PyFn α β} (h : fnEq f g = true) (ho : f.obj = g.obj → f.run = g.run)
    (hc : f.code = g.code → f.run = g.run) : f.run = g.run := by
  simp only [fnEq, Bool.or_eq_true, decide_eq_true_eq] at h
  exact h.elim ho hc

theorem exprEq_same (sql : Sql) : ∀ {e e' : PExpr}, exprEq e e' = true → replTypes e = replTypes e' → Objects e e' →
    CodeDetermines e e' → FramesFaithful e e' → SameExpr (e.denote sql) (e'.denote sql)
  | .source _, .source _, h, _, _, _, _ => by
    simp only [exprEq, decide_eq_true_eq] at h
    subst h
    exact .source _
  | .op o e, .op o' e', h, ht, ho, hc, hf => by
    simp only [exprEq, Bool.and_eq_true] at h
    obtain ⟨t1, t2⟩ := List.append_inj ht (opTypes_length h.1)
    refine op_same sql (exprEq_same sql h.2 t2 ho.op hc.op hf.op) h.1 t1 ?_ ?_ ?_ ?_
    · rintro f g s s' a a' rfl rfl
      have h1 := h.1
      simp only [opEq, Bool.and_eq_true] at h1
      exact fn_same h1.1.1 (ho.map f (by simp [mapFns]) g (by simp [mapFns]))
        (hc.map f (by simp [mapFns]) g (by simp [mapFns]))
    · rintro f g s s' a a' n n' rfl rfl
      have h1 := h.1
      simp only [opEq, Bool.and_eq_true] at h1
      exact fn_same h1.1.1.1 (ho.flatMap f (by simp [flatMapFns]) g (by simp [flatMapFns]))
        (hc.flatMap f (by simp [flatMapFns]) g (by simp [flatMapFns]))
    · rintro f g s s' rfl rfl
      have h1 := h.1
      simp only [opEq, Bool.and_eq_true] at h1
      exact fn_same h1.1 (ho.byID f (by simp [byIDFns]) g (by simp [byIDFns]))
        (hc.byID f (by simp [byIDFns]) g (by simp [byIDFns]))
    · rintro p q c c' w w' rfl rfl
      have h1 := h.1
      simp only [opEq, Bool.and_eq_true] at h1
      have h2 := h1.1.1
      cases p <;> cases q <;> simp only [pubEq, decide_eq_true_eq, Bool.false_eq_true] at h2
      · rw [h2]
      · obtain ⟨rfl, rfl⟩ := hf _ _ _ _ _ _ List.mem_cons_self List.mem_cons_self h2
        rfl
  | .join l r _ _ _, .join l' r' _ _ _, h, ht, ho, hc, hf => by
    simp only [exprEq, Bool.and_eq_true, decide_eq_true_eq] at h
    obtain ⟨⟨⟨⟨hl, hr⟩, rfl⟩, rfl⟩, rfl⟩ := h
    obtain ⟨t1, t2⟩ := List.append_inj ht (exprEq_length hl)
    exact .joinPrivate _ _ _ (exprEq_same sql hl t1 ho.join.1 hc.join.1 hf.join.1)
      (exprEq_same sql hr t2 ho.join.2 hc.join.2 hf.join.2)
  | .source _, .op _ _, h, _, _, _, _ => by simp [exprEq] at h
  | .source _, .join _ _ _ _ _, h, _, _, _, _ => by simp [exprEq] at h
  | .op _ _, .source _, h, _, _, _, _ => by simp [exprEq] at h
  | .op _ _, .join _ _ _ _ _, h, _, _, _, _ => by simp [exprEq] at h
  | .join _ _ _ _ _, .source _, h, _, _, _, _ => by simp [exprEq] at h
  | .join _ _ _ _ _, .op _ _, h, _, _, _, _ => by simp [exprEq] at h

/-- The quick comparison, together with `==`, needs nothing of bytecode and of pandas. -/
theorem recEquiv_same (sql : Sql) : ∀ {e e' : PExpr}, recEquiv e e' = true → exprEq e e' = true →
    replTypes e = replTypes e' → Objects e e' → SameExpr (e.denote sql) (e'.denote sql)
  | .source _, .source _, _, h, _, _ => by
    simp only [exprEq, decide_eq_true_eq] at h
    subst h
    exact .source _
  | .op o e, .op o' e', hr, h, ht, ho => by
    simp only [exprEq, Bool.and_eq_true] at h
    simp only [recEquiv, Bool.and_eq_true] at hr
    obtain ⟨t1, t2⟩ := List.append_inj ht (opTypes_length h.1)
    refine op_same sql (recEquiv_same sql hr.1.1 h.2 t2 ho.op) h.1 t1 ?_ ?_ ?_ ?_
    · rintro f g s s' a a' rfl rfl
      have h1 := hr.2
      simp only [attrsEq, Bool.and_eq_true, decide_eq_true_eq] at h1
      exact ho.map f (by simp [mapFns]) g (by simp [mapFns]) h1.1.1
    · rintro f g s s' a a' n n' rfl rfl
      have h1 := hr.2
      simp only [attrsEq, Bool.and_eq_true, decide_eq_true_eq] at h1
      exact ho.flatMap f (by simp [flatMapFns]) g (by simp [flatMapFns]) h1.1.1.1
    · rintro f g s s' rfl rfl
      have h1 := hr.2
      simp only [attrsEq, Bool.and_eq_true, decide_eq_true_eq] at h1
      exact ho.byID f (by simp [byIDFns]) g (by simp [byIDFns]) h1.1
    · rintro p q c c' w w' rfl rfl
      have h1 := hr.2
      simp only [attrsEq, Bool.and_eq_true] at h1
      have h2 := h1.1.1
      cases p <;> cases q <;> simp only [pubIs, decide_eq_true_eq, Bool.false_eq_true] at h2
      · rw [h2]
      · subst h2
        obtain ⟨rfl, rfl⟩ := ho.pub _ _ _ _ _ List.mem_cons_self List.mem_cons_self
        rfl
  | .join l r _ _ _, .join l' r' _ _ _, hr, h, ht, ho => by
    simp only [exprEq, Bool.and_eq_true, decide_eq_true_eq] at h
    simp only [recEquiv, Bool.and_eq_true] at hr
    obtain ⟨⟨⟨⟨hl, hr'⟩, rfl⟩, rfl⟩, rfl⟩ := h
    obtain ⟨t1, t2⟩ := List.append_inj ht (exprEq_length hl)
    exact .joinPrivate _ _ _ (recEquiv_same sql hr.1.1.1.1.1 hl t1 ho.join.1)
      (recEquiv_same sql hr.1.1.1.2.1 hr' t2 ho.join.2)
  | .source _, .op _ _, _, h, _, _ => by simp [exprEq] at h
  | .source _, .join _ _ _ _ _, _, h, _, _ => by simp [exprEq] at h
  | .op _ _, .source _, _, h, _, _ => by simp [exprEq] at h
  | .op _ _, .join _ _ _ _ _, _, h, _, _ => by simp [exprEq] at h
  | .join _ _ _ _ _, .source _, _, h, _, _ => by simp [exprEq] at h
  | .join _ _ _ _ _, .op _ _, _, h, _, _ => by simp [exprEq] at h

theorem keysEq_same {cmp : KeySetV → KeySetV → Bool} (hc : ∀ a b, cmp a b = true → SameKeySetV a b) :
    ∀ {k k' : Keys}, keysEq cmp k k' = true → SameKeys k k'
  | .set _, .set _, h => .set (hc _ _ h)
  | .cols _, .cols _, h => by
    simp only [keysEq, decide_eq_true_eq] at h
    subst h
    exact .cols _
  | .set _, .cols _, h => by simp [keysEq] at h
  | .cols _, .set _, h => by simp [keysEq] at h

theorem kindEq_same {k k' : Kind} (h : kindEq k k' = true) : SameKind k k' := by
  cases k <;> cases k' <;> simp only [kindEq, Bool.and_eq_true, decide_eq_true_eq, Bool.false_eq_true] at h
  · subst h
    exact .count _
  · obtain ⟨rfl, rfl⟩ := h
    exact .countDistinct _ _
  · obtain ⟨⟨⟨rfl, rfl⟩, hl⟩, hh⟩ := h
    exact .quantile _ _ (valEq_same hl) (valEq_same hh)
  · obtain ⟨⟨⟨rfl, hl⟩, hh⟩, hs⟩ := h
    cases hs
    exact .bounded _ _ _ (valEq_same hl) (valEq_same hh)
  · obtain ⟨⟨rfl, rfl⟩, rfl⟩ := h
    exact .bounds _ _ _

/-- **C46**, for `==`: two queries that compare equal are the same computation, if (a) their functions are determined
by their bytecode, (b) their data frames are determined by what `toPandas` shows of them, (c) their replacement values
are of the same types. Without these conditions it is false (`C46_bytecode_fails`, `C46_frames_fail`,
`C46_types_fail`). -/
theorem C46_eq_partial (sql : Sql) {k : KeyCmp} (hk : k.Sound) {q q' : PQuery} (h : queryEq k q q' = true)
    (ho : Objects q.child q'.child) (hc : CodeDetermines q.child q'.child) (hf : FramesFaithful q.child q'.child)
    (ht : replTypes q.child = replTypes q'.child) : SameQuery (q.denote sql) (q'.denote sql) := by
  have agg : ∀ {a b : PAgg}, aggEq k a b = true → Objects a.child b.child → CodeDetermines a.child b.child →
      FramesFaithful a.child b.child → replTypes a.child = replTypes b.child →
      SameAgg (a.denote sql) (b.denote sql) := by
    intro a b h ho hc hf ht
    simp only [aggEq, Bool.and_eq_true, decide_eq_true_eq] at h
    exact ⟨exprEq_same sql h.1.1.1 ht ho hc hf, keysEq_same hk.eq h.1.1.2, kindEq_same h.1.2, h.2, rfl⟩
  cases q <;> cases q' <;> simp only [queryEq, Bool.and_eq_true, decide_eq_true_eq, Bool.false_eq_true] at h
  · exact .agg (agg h ho hc hf ht)
  · obtain ⟨h, rfl⟩ := h
    exact .groups _ (exprEq_same sql h ht ho hc hf)
  · obtain ⟨⟨h, rfl⟩, rfl⟩ := h
    exact .suppress _ _ (agg h ho hc hf ht)

/-- **C46**, for the quick comparison meant for caching: it compares functions and data frames as objects, so only
the types of replacement values have to agree (`C46_types_fail`). -/
theorem C46_is_equivalent_partial (sql : Sql) {k : KeyCmp} (hk : k.Sound) {q q' : PQuery} (h : isEquiv k q q' = true)
    (ho : Objects q.child q'.child) (ht : replTypes q.child = replTypes q'.child) :
    SameQuery (q.denote sql) (q'.denote sql) := by
  have agg : ∀ {a b : PAgg}, aggEquiv k a b = true → Objects a.child b.child →
      replTypes a.child = replTypes b.child → SameAgg (a.denote sql) (b.denote sql) := by
    intro a b h ho ht
    simp only [aggEquiv, Bool.and_eq_true, decide_eq_true_eq] at h
    exact ⟨recEquiv_same sql h.1.1.1.1 h.1.1.1.2 ht ho, keysEq_same hk.equiv h.1.1.2, kindEq_same h.1.2, h.2, rfl⟩
  cases q <;> cases q' <;> simp only [isEquiv, Bool.and_eq_true, decide_eq_true_eq, Bool.false_eq_true] at h
  · exact .agg (agg h ho ht)
  · obtain ⟨h, rfl⟩ := h
    exact .groups _ (recEquiv_same sql h.1 h.2 ht ho)
  · obtain ⟨⟨h, rfl⟩, rfl⟩ := h
    exact .suppress _ _ (agg h.1 ho ht)

end Verif.Builder
