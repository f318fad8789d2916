import Verif.Whole.PropsFits
import Verif.Whole.AnswersChain
import Verif.Whole.Total

/-!
# C76: sessions accept the calls that fit their tables
-/

namespace Verif.Whole

open Verif Verif.Schema Verif.Constraint Verif.Expr Verif.Query Verif.Stability
open Verif.Budget (XNum PB Rounding)
open Verif.Meaning
open Verif.Session (Op World)

theorem schema_child {cat : Cat} {q : Query} {s : Schema} (h : q.schema cat = .ok s) : ∃ s', schemaOf cat (child q) = .ok s' := by
  cases q with
  | agg a =>
    change a.schema cat = _ at h
    show ∃ s', schemaOf cat a.child = .ok s'
    unfold Agg.schema at h
    split at h
    · cases h
    · next s' hs => exact ⟨s', hs⟩
  | groups e cols =>
    change groupsSchema cat e cols = _ at h
    show ∃ s', schemaOf cat e = .ok s'
    unfold groupsSchema at h
    split at h
    · cases h
    · next s' hs => exact ⟨s', hs⟩
  | suppress a c t =>
    change a.schema cat = _ at h
    show ∃ s', schemaOf cat a.child = .ok s'
    unfold Agg.schema at h
    split at h
    · cases h
    · next s' hs => exact ⟨s', hs⟩

section
variable {ctx : Ctx} {sources : Relation.Sources} {out : Relation.Output}

/-- **C76** for views (partial: for the calls that fit, `Ready` lists what else has to hold, see C62). In a session that was
made by the builder or by partitions, at any time before it is stopped, `create_view` with a fresh name fails with
`ValueError` or `KeyError` if the calls do not fit the tables, and adds nothing; if they do, it succeeds. -/
theorem C76_view_partial (core : Core) (hst : Relation.Stored ctx.cast sources) (hf : FramesOK sources)
    (h : Relation.initCore ctx.cast (coreMeasure ctx.m) sources = .ok out) (b : PB)
    (ops : List (Op Request PubFrame Value)) (w : World Meas Tab PubFrame)
    (hw : w = Session.run (env ctx) (Session.init b (startTables out)) ops) (i : Nat) (n : Session.Node Meas Tab)
    (hn : w.nodes[i]? = some n) (hlive : n.state ≠ .retired) :
    ∃ cat, catalog n.tables (w.pubOf n) = .ok cat ∧
      ∀ (c : Chain), c.Kept → c.ByTypes → ∀ e, c.build ctx = .ok e → ∃ ok : Admissible e,
        ∀ name, ctx.isIdent name = true → name ∉ Session.names n.tables → name ∉ Session.names (w.pubOf n) →
        (c.Fits cat → Ready cat e → (Session.step (env ctx) w (.createView i (.table e ok) name)).1 = .ok .none) ∧
        (¬ c.Fits cat →
          ((Session.step (env ctx) w (.createView i (.table e ok) name)).1 = .error .valueError ∨
            (Session.step (env ctx) w (.createView i (.table e ok) name)).1 = .error .keyError) ∧
          ∃ n', (Session.step (env ctx) w (.createView i (.table e ok) name)).2.nodes[i]? = some n' ∧ n'.tables = n.tables) := by
  obtain ⟨cat, hcat, hall⟩ := C62_view_partial core hst hf h b ops w hw i n hn hlive
  have hc := session_cat core hst hf h b ops w hw hn hcat
  refine ⟨cat, hcat, fun c hk hb e he => ⟨admissible c hk he, fun name hid h1 h2 => ⟨fun hfit hr => ?_, fun hno => ?_⟩⟩⟩
  · obtain ⟨s, hs⟩ := (C76_fits hc c hk hb he).1.2 hfit
    exact (hall e _ name s hid h1 h2 hs hr).1
  · obtain ⟨hiff, herr⟩ := C76_fits hc c hk hb he
    have hx : ∃ x, schemaOf cat e = .error x := by
      cases hs : schemaOf cat e with
      | ok s => exact absurd (hiff.1 ⟨s, hs⟩) hno
      | error x => exact ⟨x, rfl⟩
    obtain ⟨x, hx⟩ := hx
    have hbuild : build ctx.h cat e = .error x := by
      unfold build
      rw [hx]
    obtain ⟨ns, ha⟩ := Session.activate_ok hn hlive
    have hself := Session.activate_self hn ha
    have hnt : ((Session.names n.tables).contains name || (Session.names (w.pubOf n)).contains name) = false := by
      simp [h1, h2]
    have hpub : w.pubOf { n with state := .active } = w.pubOf n := rfl
    have hres : Session.step (env ctx) w (.createView i (.table e (admissible c hk he)) name) =
        (.error (toErr x), { w with nodes := ns }) := by
      simp only [Session.step, Session.createView, hn, env, hid, Bool.not_true, Bool.false_eq_true, if_false, ha, hself, hpub,
        hnt, transform, hcat, hbuild]
    rw [hres]
    refine ⟨?_, _, hself, rfl⟩
    rcases herr x hx with rfl | rfl
    · exact .inl rfl
    · exact .inr rfl

end

/-- **C76** for queries: only calls that fit the tables are answered, whatever the aggregation and the budget. -/
theorem C76_answered {ctx : Ctx} (core : Core) {sources : Relation.Sources}
    (hst : Relation.Stored ctx.cast sources) (hf : FramesOK sources) {out : Relation.Output}
    (h : Relation.initCore ctx.cast (coreMeasure ctx.m) sources = .ok out) (b₀ : PB)
    (ops : List (Op Request PubFrame Value)) (w : World Meas Tab PubFrame)
    (hw : w = Session.run (env ctx) (Session.init b₀ (startTables out)) ops) (i : Nat)
    (c : Chain) (hk : c.Kept) (hb : c.ByTypes) (q : Query) (he : c.build ctx = .ok (child q)) (ok : Admissible (child q)) (b : PB)
    (p : Meas) (amt : PB) (hev : (Session.step (env ctx) w (.evaluate i (.query q ok) b)).1 = .ok (.answer p amt)) :
    ∃ n cat, w.nodes[i]? = some n ∧ catalog n.tables (w.pubOf n) = .ok cat ∧ c.Fits cat := by
  have st := Session.step_cases (env ctx) w (.evaluate i (.query q ok) b)
  rw [hev] at st
  generalize (Session.step (env ctx) w (.evaluate i (.query q ok) b)).2 = w' at st
  cases st with
  | evaluate _ _ _ n _ _ ns hn hcomp ha hp hs =>
  have hm : compileM ctx n.tables (w.pubOf n) (.query q ok) amt = .ok p := by
    unfold Session.compileInfo at hcomp
    dsimp only at hcomp
    split at hcomp
    · cases hcomp
    split at hcomp
    · cases hcomp
    split at hcomp
    · cases hcomp
    split at hcomp
    · cases hcomp
    next m' hm' => cases hcomp; exact hm'
  obtain ⟨cat, pl, hcat, hpl, _⟩ := compileM_plan hm
  refine ⟨n, cat, hn, hcat, ?_⟩
  have hc := session_cat core hst hf h b₀ ops w hw hn hcat
  refine (C76_fits hc c hk hb he).1.1 ?_
  unfold compileQuery at hpl
  split at hpl
  · cases hpl
  · next s hs => exact schema_child hs

end Verif.Whole
