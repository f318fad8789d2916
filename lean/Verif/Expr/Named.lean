import Verif.Expr.Model
import Verif.Expr.PropsIds

/-!
# Only the tables that an expression names matter (C89)
-/

namespace Verif.Expr

open Verif Verif.Schema Verif.Constraint

/-! ## Specification -/

/-- The public tables that an expression names. -/
def publics : Expr → List String
  | .source _ => []
  | .rename e _ => publics e
  | .filter e _ _ => publics e
  | .select e _ => publics e
  | .map e _ _ _ => publics e
  | .flatMap e _ _ _ _ => publics e
  | .flatMapByID e _ _ => publics e
  | .joinPrivate l r _ _ _ => publics l ++ publics r
  | .joinPublic e (.name n) _ _ => n :: publics e
  | .joinPublic e (.df _ _) _ _ => publics e
  | .replaceNull e _ => publics e
  | .replaceInf e _ => publics e
  | .dropNull e _ => publics e
  | .dropInf e _ => publics e
  | .enforce e _ => publics e

/-- The catalogs agree about the tables that the expression names. -/
structure SameNamed (cat cat' : Cat) (e : Expr) : Prop where
  priv : ∀ id ∈ e.sources, Dict.get cat'.priv id = Dict.get cat.priv id
  notPub : ∀ id ∈ e.sources, (id ∈ Dict.keys cat'.pub ↔ id ∈ Dict.keys cat.pub)
  pub : ∀ n ∈ publics e, Dict.get cat'.pub n = Dict.get cat.pub n

/-! ## Proofs -/

variable {h : Hash} {cat cat' : Cat}

theorem SameNamed.left {l r : Expr} {tl tr cols} (d : SameNamed cat cat' (.joinPrivate l r tl tr cols)) : SameNamed cat cat' l :=
  ⟨fun id h => d.priv id (List.mem_append_left _ h), fun id h => d.notPub id (List.mem_append_left _ h),
    fun n h => d.pub n (List.mem_append_left _ h)⟩

theorem SameNamed.right {l r : Expr} {tl tr cols} (d : SameNamed cat cat' (.joinPrivate l r tl tr cols)) : SameNamed cat cat' r :=
  ⟨fun id h => d.priv id (List.mem_append_right _ h), fun id h => d.notPub id (List.mem_append_right _ h),
    fun n h => d.pub n (List.mem_append_right _ h)⟩

theorem SameNamed.inner {e : Expr} {pub cols how} (d : SameNamed cat cat' (.joinPublic e pub cols how)) :
    SameNamed cat cat' e ∧ resolvePub cat' pub = resolvePub cat pub := by
  cases pub with
  | name n =>
    refine ⟨⟨d.priv, d.notPub, fun n h => d.pub n (List.mem_cons_of_mem _ h)⟩, ?_⟩
    simp only [resolvePub, d.pub n List.mem_cons_self]
  | df s t => exact ⟨⟨d.priv, d.notPub, d.pub⟩, rfl⟩

/-- The same for an expression that names the same tables. -/
theorem SameNamed.of {e e' : Expr} (d : SameNamed cat cat' e) (h1 : e'.sources = e.sources) (h2 : publics e' = publics e) :
    SameNamed cat cat' e' := by
  obtain ⟨a, b, c⟩ := d
  exact ⟨by rw [h1]; exact a, by rw [h1]; exact b, by rw [h2]; exact c⟩

theorem schemaOf_named (e : Expr) (d : SameNamed cat cat' e) : schemaOf cat' e = schemaOf cat e := by
  induction e with
  | source id =>
    have h1 := d.priv id (by simp [Expr.sources])
    have h2 := d.notPub id (by simp [Expr.sources])
    simp only [schemaOf, schSource, h1, h2]
  | joinPrivate l r tl tr cols ihl ihr => simp only [schemaOf, ihl d.left, ihr d.right]
  | joinPublic e pub cols how ih => 
    have : schJoinPublic cat' pub cols how = schJoinPublic cat pub cols how := by
      funext s
      simp only [schJoinPublic, d.inner.2]
    simp only [schemaOf, ih d.inner.1, this]
  | _ => rename_i ih; simp only [schemaOf, ih (d.of rfl rfl)]

theorem compile_named (e : Expr) (d : SameNamed cat cat' e) : compile h cat' e = compile h cat e := by
  induction e with
  | source id =>
    have h1 := d.priv id (by simp [Expr.sources])
    simp only [compile, visitSource, h1]
  | joinPrivate l r tl tr cols ihl ihr => simp only [compile, ihl d.left, ihr d.right]
  | joinPublic e pub cols how ih => 
    have : visitJoinPublic cat' pub cols how = visitJoinPublic cat pub cols how := by
      funext s
      simp only [visitJoinPublic, d.inner.2]
    simp only [compile, ih d.inner.1, this]
  | _ => rename_i ih; simp only [compile, ih (d.of rfl rfl)]

end Verif.Expr
