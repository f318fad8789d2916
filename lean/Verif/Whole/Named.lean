import Verif.Query.Named
import Verif.Whole.Unread
import Verif.Whole.Inline

/-!
# Only the tables that a query names matter (C89)
-/

namespace Verif.Whole

open Verif Verif.Schema Verif.Constraint Verif.Expr Verif.Query Verif.Stability
open Verif.Budget (XNum PB Rounding)
open Verif.Session (World Op)
open scoped NNReal

/-! ## Specification -/

/-- Two sessions have the same private and public tables under the names that a query uses. A name that is used for a private
table is a public one in both or in none. -/
structure SameTables (q : Query) (tables tables' : List (String × Tab)) (pub pub' : List (String × PubFrame)) : Prop where
  priv : ∀ id ∈ (child q).sources, Dict.get tables' id = Dict.get tables id
  notPub : ∀ id ∈ (child q).sources, (id ∈ Session.names pub' ↔ id ∈ Session.names pub)
  pub : ∀ n ∈ publics (child q), Dict.get pub' n = Dict.get pub n

/-- Calls that create or delete a view, or add a public table: their session, and the name they are about. -/
def nameIn : Op Request PubFrame Value → Option (Nat × String)
  | .createView i _ name => some (i, name)
  | .deleteView i name => some (i, name)
  | .addPublic i name _ => some (i, name)
  | _ => none

/-! ## Proofs: the catalog -/

/-- What the catalog knows of a private table. -/
theorem privCat_find : ∀ {tables : List (String × Tab)} {d : Dict String (Schema × List Constraint)}, privCat tables = .ok d →
    ∀ n, Dict.get d n = (Dict.get tables n).bind (fun t => t.schema.toOption.map (fun s => (s, t.cons)))
  | [], d, h, n => by cases h; rfl
  | (n', t) :: rest, d, h, n => by
    dsimp only [privCat] at h
    split at h
    · next s d' h1 h2 =>
      split at h
      · cases h
      cases h
      rw [Dict.get_cons, Dict.get_cons]
      split
      · simp [h1, Except.toOption]
      · exact privCat_find h2 n
    · cases h
    · cases h

/-- What the catalog knows of a public table. -/
theorem pubCat_find : ∀ {pub : List (String × PubFrame)} {d : Dict String (Schema × Table)}, pubCat pub = .ok d →
    ∀ n, Dict.get d n = (Dict.get pub n).bind (fun f => (sparkSchemaToAnalytics f.frame.fields).toOption.bind
      (fun ds => (Expr.mk ds none none none).toOption.map (fun s => (s, Frame.named f.frame))))
  | [], d, h, n => by cases h; rfl
  | (n', f) :: rest, d, h, n => by
    dsimp only [pubCat] at h
    split at h
    · next ds d' h1 h2 =>
      split at h
      · next s h3 =>
        split at h
        · cases h
        cases h
        rw [Dict.get_cons, Dict.get_cons]
        split
        · simp [h1, h3, Except.toOption]
        · exact pubCat_find h2 n
      · cases h
    · cases h
    · cases h

theorem pubCat_keys : ∀ {pub : List (String × PubFrame)} {d : Dict String (Schema × Table)}, pubCat pub = .ok d →
    Dict.keys d = Session.names pub
  | [], d, h => by cases h; rfl
  | (n', f) :: rest, d, h => by
    dsimp only [pubCat] at h
    split at h
    · next ds d' h1 h2 =>
      split at h
      · split at h
        · cases h
        cases h
        exact congrArg (n' :: ·) (pubCat_keys h2)
      · cases h
    · cases h
    · cases h

theorem SameTables.named {q : Query} {tables tables' : List (String × Tab)} {pub pub' : List (String × PubFrame)} {cat cat' : Cat}
    (st : SameTables q tables tables' pub pub') (hc : catalog tables pub = .ok cat) (hc' : catalog tables' pub' = .ok cat') :
    Expr.SameNamed cat cat' (child q) := by
  obtain ⟨p1, p2⟩ := catalog_ok hc
  obtain ⟨p1', p2'⟩ := catalog_ok hc'
  refine ⟨fun id hid => ?_, fun id hid => ?_, fun n hn => ?_⟩
  · rw [privCat_find p1, privCat_find p1', st.priv id hid]
  · rw [pubCat_keys p2, pubCat_keys p2']
    exact st.notPub id hid
  · rw [pubCat_find p2, pubCat_find p2', st.pub n hn]

/-! ## Proofs: measurements -/

theorem publicStability_named {h : Hash} {cat cat' : Cat} {e : Expr} {pub : PubRef} {cols how}
    (d : Expr.SameNamed cat cat' (.joinPublic e pub cols how)) :
    publicStability h cat' e pub cols how = publicStability h cat e pub cols how := by
  unfold publicStability
  rw [compile_named e d.inner.1, d.inner.2]

theorem distOf_named {l : Bool} {h : Hash} {cat cat' : Cat} {f f' : String → ℝ≥0} (e : Expr) (d : Expr.SameNamed cat cat' e)
    (hf : ∀ id ∈ e.sources, f' id = f id) : distOf l h cat' f' e = distOf l h cat f e := by
  induction e with
  | source id => exact hf id (by simp [Expr.sources])
  | joinPrivate a b tl tr cols iha ihb =>
    simp only [distOf]
    rw [iha d.left (fun id hid => hf id (List.mem_append_left _ hid)),
      ihb d.right (fun id hid => hf id (List.mem_append_right _ hid))]
  | joinPublic e pub cols how ih =>
    simp only [distOf]
    rw [ih d.inner.1 hf, publicStability_named d]
  | flatMap e f new augment n ih =>
    simp only [distOf]
    rw [ih (d.of rfl rfl) hf]
  | _ => rename_i ih; exact ih (d.of rfl rfl) hf

theorem outDist_named {l : Bool} {h : Hash} {cat cat' : Cat} {tables tables' : List (String × Tab)} (o : Out) (e : Expr)
    (d : Expr.SameNamed cat cat' e) (hf : ∀ id ∈ e.sources, Dict.get tables' id = Dict.get tables id) :
    outDist l h cat' tables' o e = outDist l h cat tables o e := by
  have hd : ∀ id ∈ e.sources, distAt tables' id = distAt tables id := by
    intro id hid
    simp only [distAt, hf id hid]
  unfold outDist
  cases o.metric with
  | ids i =>
    dsimp only
    refine hd _ ?_
    cases hs : e.sources with
    | nil => exact absurd hs (sources_ne e)
    | cons a l => simp
  | symDiff => exact distOf_named e d hd
  | grouped g => exact distOf_named e d hd

theorem sameNamed_query {cat cat' : Cat} {q : Query} (d : Expr.SameNamed cat cat' (child q)) : Query.SameNamed cat cat' q := by
  cases q <;> exact d

theorem extends_publics {e e' : Expr} (h : Extends e e') : publics e' = publics e := by
  induction h with
  | refl => rfl
  | dropNull _ ih => exact ih
  | dropInf _ ih => exact ih
  | replaceInf _ _ ih => exact ih
  | enforce _ ih => exact ih

/-- The measurement of a query depends on the tables it names. -/
theorem compileM_named {ctx : Ctx} {tables tables' : List (String × Tab)} {pub pub' : List (String × PubFrame)} {cat cat' : Cat}
    (hc : catalog tables pub = .ok cat) (hc' : catalog tables' pub' = .ok cat') (q : Query) (hq : Admissible (child q)) (b : PB)
    (st : SameTables q tables tables' pub pub') :
    compileM ctx tables' pub' (.query q hq) b = compileM ctx tables pub (.query q hq) b := by
  have d := st.named hc hc'
  unfold compileM
  dsimp only
  split
  · rfl
  rw [hc, hc']
  dsimp only
  rw [C89_compile (env := ⟨ctx.h, ctx.order, ctx.m, cat⟩) (env' := ⟨ctx.h, ctx.order, ctx.m, cat'⟩) ⟨rfl, rfl, rfl⟩ b q
    (sameNamed_query d)]
  cases hp : compileQuery ⟨ctx.h, ctx.order, ctx.m, cat⟩ b q with
  | error x => rfl
  | ok p =>
  obtain ⟨e, _, _, _, _, he, hx, _⟩ := prep_ok hp
  subst he
  have hsrc := hx.keeps.1
  have dp : Expr.SameNamed cat cat' p.child := d.of hsrc (extends_publics hx)
  dsimp only
  rw [compile_named p.child dp]
  cases ho : compile ctx.h cat p.child with
  | error x => rfl
  | ok o =>
  have hout : ∀ l, outDist l ctx.h cat' tables' o p.child = outDist l ctx.h cat tables o p.child :=
    fun l => outDist_named o p.child dp (by rw [hsrc]; exact st.priv)
  have hdelta : callDelta ctx.m ctx.h cat' tables' (groupCols q) o p = callDelta ctx.m ctx.h cat tables (groupCols q) o p := by
    simp only [callDelta, planDelta, hout]
  have hrun : (fun D => p.prep (resolve tables' D)) = fun D => p.prep (resolve tables D) := by
    funext D
    refine prep_congr hp fun id hid => ?_
    simp only [resolve, st.priv id hid]
  dsimp only
  rw [hdelta, hrun]

/-- A view depends on the tables its expression names. -/
theorem transform_named {ctx : Ctx} {tables tables' : List (String × Tab)} {pub pub' : List (String × PubFrame)} {cat cat' : Cat}
    (hc : catalog tables pub = .ok cat) (hc' : catalog tables' pub' = .ok cat') (e : Expr) (he : Admissible e)
    (h1 : ∀ id ∈ e.sources, Dict.get tables' id = Dict.get tables id)
    (h2 : ∀ id ∈ e.sources, (id ∈ Session.names pub' ↔ id ∈ Session.names pub))
    (h3 : ∀ n ∈ publics e, Dict.get pub' n = Dict.get pub n) :
    transform ctx tables' pub' (.table e he) = transform ctx tables pub (.table e he) := by
  have d : Expr.SameNamed cat cat' e := SameTables.named (q := .groups e []) ⟨h1, h2, h3⟩ hc hc'
  have hb : build ctx.h cat' e = build ctx.h cat e := by
    unfold build
    rw [schemaOf_named e d, compile_named e d]
  unfold transform
  dsimp only
  rw [hc, hc']
  dsimp only
  rw [hb]
  cases hx : build ctx.h cat e with
  | error x => rfl
  | ok p =>
    obtain ⟨s, o⟩ := p
    dsimp only
    have hrun : (fun D => o.run (resolve tables' D)) = fun D => o.run (resolve tables D) := by
      funext D
      refine run_congr e (fun id hid => ?_) (build_compile hx)
      simp only [resolve, h1 id hid]
    rw [outDist_named o e d h1, hrun]

/-- The parts of a table depend on this table. -/
theorem partTab_named {ctx : Ctx} {tables tables' : List (String × Tab)} {pub pub' : List (String × PubFrame)} {src : String}
    (h1 : Dict.get tables' src = Dict.get tables src) (h2 : src ∈ Session.names pub' ↔ src ∈ Session.names pub) (col : String)
    (vals : List Value) : partTab ctx tables' pub' src col vals = partTab ctx tables pub src col vals := by
  have h3 : src ∈ Dict.keys pub' ↔ src ∈ Dict.keys pub := h2
  unfold partTab
  simp only [h1, h3]

/-! ## Proofs: sessions -/

/-- What `evaluate` gives depends on the compiled query, on the budget that is left and on whether the session can be used. -/
theorem evaluate_like {w w' : World Meas Tab PubFrame} {env : Session.Env Request Meas Tab PubFrame Value} {i i' : Nat}
    {n n' : Session.Node Meas Tab} {q : Request} {b : PB} (hn : w.nodes[i]? = some n) (hn' : w'.nodes[i']? = some n')
    (hact : (∃ e, Session.activate w.nodes i = .error e ∧ Session.activate w'.nodes i' = .error e) ∨
      (n.state ≠ .retired ∧ n'.state ≠ .retired)) (hrem : n'.remaining = n.remaining)
    (hc : Session.compileInfo env w' n' q b = Session.compileInfo env w n q b) :
    (Session.evaluate env w' i' q b).1 = (Session.evaluate env w i q b).1 ∧
      ((Session.evaluate env w' i' q b).2.nodes[i']?).map (·.remaining) =
        ((Session.evaluate env w i q b).2.nodes[i]?).map (·.remaining) := by
  unfold Session.evaluate
  rw [hn, hn']
  dsimp only
  rw [hc]
  cases Session.compileInfo env w n q b with
  | error x => exact ⟨rfl, by rw [hn, hn']; exact congrArg some hrem⟩
  | ok p =>
    obtain ⟨m, adj⟩ := p
    dsimp only
    rcases hact with ⟨e, h1, h2⟩ | ⟨hlive, hlive'⟩
    · rw [h1, h2]
      exact ⟨rfl, by rw [hn, hn']; exact congrArg some hrem⟩
    obtain ⟨ns, ha⟩ := Session.activate_ok hn hlive
    obtain ⟨ns', ha'⟩ := Session.activate_ok hn' hlive'
    have hs := Session.activate_self hn ha
    have hs' := Session.activate_self hn' ha'
    have hlen : i < ns.length := (List.getElem?_eq_some_iff.1 hs).1
    have hlen' : i' < ns'.length := (List.getElem?_eq_some_iff.1 hs').1
    rw [ha, ha', hrem]
    dsimp only
    by_cases h1 : (!env.privRel m adj) = true
    · rw [if_pos h1, if_pos h1]
      exact ⟨rfl, by rw [hs, hs']; exact congrArg some hrem⟩
    rw [if_neg h1, if_neg h1]
    by_cases h2 : (!Session.canSpend n.remaining adj) = true
    · rw [if_pos h2, if_pos h2]
      exact ⟨rfl, by rw [hs, hs']; exact congrArg some hrem⟩
    rw [if_neg h2, if_neg h2, hs, hs']
    refine ⟨rfl, ?_⟩
    dsimp only
    rw [List.getElem?_set_self hlen, List.getElem?_set_self hlen']
    show some (Session.spend n'.remaining adj) = some (Session.spend n.remaining adj)
    rw [hrem]

section
variable {ctx : Ctx} {sources sources' : Relation.Sources} {out out' : Relation.Output}

theorem info_named {w w' : World Meas Tab PubFrame} {n n' : Session.Node Meas Tab} (hR : Reached ctx w n)
    (hR' : Reached ctx w' n') (hrem : n'.remaining = n.remaining) (q : Query) (hq : Admissible (child q))
    (st : SameTables q n.tables n'.tables (w.pubOf n) (w'.pubOf n')) (b : PB) :
    Session.compileInfo (env ctx) w' n' (.query q hq) b = Session.compileInfo (env ctx) w n (.query q hq) b := by
  obtain ⟨R, tok⟩ := hR.tabs
  obtain ⟨R', tok'⟩ := hR'.tabs
  obtain ⟨cat, hcat⟩ := catalog_total hR.names hR.pubNames tok hR.pub
  obtain ⟨cat', hcat'⟩ := catalog_total hR'.names hR'.pubNames tok' hR'.pub
  have : (env ctx).compile = compileM ctx := rfl
  simp only [Session.compileInfo, hrem, this, compileM_named hcat hcat' q hq _ st]

/-- **C89**: two sessions, whatever they were made of and whatever happened in them, answer a query alike if they agree about the
tables that the query names, and have the same budget left. -/
theorem C89_sessions (core : Core) (hst : Relation.Stored ctx.cast sources) (hf : FramesOK sources)
    (h : Relation.initCore ctx.cast (coreMeasure ctx.m) sources = .ok out) (hst' : Relation.Stored ctx.cast sources')
    (hf' : FramesOK sources') (h' : Relation.initCore ctx.cast (coreMeasure ctx.m) sources' = .ok out') (b₀ b₀' : PB)
    (ops ops' : List (Op Request PubFrame Value)) (w w' : World Meas Tab PubFrame)
    (hw : w = Session.run (env ctx) (Session.init b₀ (startTables out)) ops)
    (hw' : w' = Session.run (env ctx) (Session.init b₀' (startTables out')) ops') (i i' : Nat) (n n' : Session.Node Meas Tab)
    (hn : w.nodes[i]? = some n) (hn' : w'.nodes[i']? = some n') (hlive : n.state ≠ .retired) (hlive' : n'.state ≠ .retired)
    (hrem : n'.remaining = n.remaining) (q : Query) (hq : Admissible (child q))
    (st : SameTables q n.tables n'.tables (w.pubOf n) (w'.pubOf n')) (b : PB) :
    (Session.step (env ctx) w' (.evaluate i' (.query q hq) b)).1 = (Session.step (env ctx) w (.evaluate i (.query q hq) b)).1 ∧
    ((Session.step (env ctx) w' (.evaluate i' (.query q hq) b)).2.nodes[i']?).map (·.remaining) =
      ((Session.step (env ctx) w (.evaluate i (.query q hq) b)).2.nodes[i]?).map (·.remaining) ∧
    Session.noiseInfo (env ctx) id w' i' (.query q hq) b = Session.noiseInfo (env ctx) id w i (.query q hq) b := by
  have hR := reached core hst hf h b₀ ops i n (hw ▸ hn)
  have hR' := reached core hst' hf' h' b₀' ops' i' n' (hw' ▸ hn')
  rw [← hw] at hR
  rw [← hw'] at hR'
  have hinfo := info_named hR hR' hrem q hq st b
  obtain ⟨r1, r2⟩ := evaluate_like hn hn' (.inr ⟨hlive, hlive'⟩) hrem hinfo
  refine ⟨r1, r2, ?_⟩
  unfold Session.noiseInfo
  rw [hn, hn']
  dsimp only
  rw [hinfo]

theorem get_append_ne {V : Type} {name id : String} (x : V) (l : List (String × V)) (hid : id ≠ name) :
    Dict.get (l ++ [(name, x)]) id = Dict.get l id := by
  induction l with
  | nil =>
    have : (id == name) = false := by simpa using hid
    simp [Dict.get, List.lookup_cons, this]
  | cons p l ih =>
    obtain ⟨k, v⟩ := p
    rw [List.cons_append, Dict.get_cons, Dict.get_cons, ih]

theorem get_filter_ne {V : Type} {name id : String} (l : List (String × V)) (hid : id ≠ name) :
    Dict.get (l.filter (fun p => p.1 != name)) id = Dict.get l id := by
  induction l with
  | nil => rfl
  | cons p l ih =>
    obtain ⟨k, v⟩ := p
    by_cases hk : k = name
    · subst hk
      rw [List.filter_cons_of_neg (by simp), Dict.get_cons, if_neg (fun h => hid h), ih]
    · rw [List.filter_cons_of_pos (by simpa using hk), Dict.get_cons, Dict.get_cons, ih]

/-- **C89**: creating or deleting a view and adding a public table, whether this succeeds or not, has no effect on the queries
that do not name it: what they return or raise, what they cost and their noise stay the same. -/
theorem C89_unnamed (core : Core) (hst : Relation.Stored ctx.cast sources) (hf : FramesOK sources)
    (h : Relation.initCore ctx.cast (coreMeasure ctx.m) sources = .ok out) (b₀ : PB)
    (ops : List (Op Request PubFrame Value)) (w w' : World Meas Tab PubFrame)
    (hw : w = Session.run (env ctx) (Session.init b₀ (startTables out)) ops) (op : Op Request PubFrame Value) (i : Nat)
    (name : String) (hop : nameIn op = some (i, name)) (hw' : w' = (Session.step (env ctx) w op).2) (q : Query)
    (hq : Admissible (child q)) (h1 : name ∉ (child q).sources) (h2 : name ∉ publics (child q)) (b : PB) :
    (Session.step (env ctx) w' (.evaluate i (.query q hq) b)).1 = (Session.step (env ctx) w (.evaluate i (.query q hq) b)).1 ∧
    ((Session.step (env ctx) w' (.evaluate i (.query q hq) b)).2.nodes[i]?).map (·.remaining) =
      ((Session.step (env ctx) w (.evaluate i (.query q hq) b)).2.nodes[i]?).map (·.remaining) ∧
    Session.noiseInfo (env ctx) id w' i (.query q hq) b = Session.noiseInfo (env ctx) id w i (.query q hq) b := by
  have stp := Session.step_cases (env ctx) w op
  rw [← hw'] at stp
  have hrun : w' = Session.run (env ctx) (Session.init b₀ (startTables out)) (ops ++ [op]) := by
    rw [run_snoc, ← hw, hw']
  have n1 : ∀ id ∈ (child q).sources, id ≠ name := fun id hid e => h1 (e ▸ hid)
  have n2 : ∀ id ∈ publics (child q), id ≠ name := fun id hid e => h2 (e ▸ hid)
  have main : ∀ n n', w.nodes[i]? = some n → w'.nodes[i]? = some n' →
      ((∃ e, Session.activate w.nodes i = .error e ∧ Session.activate w'.nodes i = .error e) ∨
        (n.state ≠ .retired ∧ n'.state ≠ .retired)) → n'.remaining = n.remaining →
      SameTables q n.tables n'.tables (w.pubOf n) (w'.pubOf n') →
      (Session.step (env ctx) w' (.evaluate i (.query q hq) b)).1 = (Session.step (env ctx) w (.evaluate i (.query q hq) b)).1 ∧
      ((Session.step (env ctx) w' (.evaluate i (.query q hq) b)).2.nodes[i]?).map (·.remaining) =
        ((Session.step (env ctx) w (.evaluate i (.query q hq) b)).2.nodes[i]?).map (·.remaining) ∧
      Session.noiseInfo (env ctx) id w' i (.query q hq) b = Session.noiseInfo (env ctx) id w i (.query q hq) b := by
    intro n n' hn hn' hact hrem st
    have hR := reached core hst hf h b₀ ops i n (hw ▸ hn)
    have hR' := reached core hst hf h b₀ (ops ++ [op]) i n' (hrun ▸ hn')
    rw [← hw] at hR
    rw [← hrun] at hR'
    have hinfo := info_named hR hR' hrem q hq st b
    obtain ⟨r1, r2⟩ := evaluate_like hn hn' hact hrem hinfo
    refine ⟨r1, r2, ?_⟩
    unfold Session.noiseInfo
    rw [hn, hn']
    dsimp only
    rw [hinfo]
  clear hw' hrun
  generalize (Session.step (env ctx) w op).1 = r at stp
  cases stp with
  | reject => exact ⟨rfl, rfl, rfl⟩
  | late _ e ns ha =>
    have ht : op.target = i := by
      cases op <;> simp_all [nameIn, Session.Op.target]
    rw [ht] at ha
    cases hn : w.nodes[i]? with
    | none =>
      unfold Session.activate at ha
      rw [hn] at ha
      cases ha
    | some n =>
      exact main n _ hn (Session.activate_self hn ha) (.inr ⟨Session.activate_not_retired hn ha, by simp⟩) rfl
        ⟨fun _ _ => rfl, fun _ _ => Iff.rfl, fun _ _ => rfl⟩
  | evaluate => cases hop
  | partition => cases hop
  | stop => cases hop
  | createView j r nm n t ns hn hi ha g1 g2 ht =>
    cases hop
    have hlen : i < ns.length := (List.getElem?_eq_some_iff.1 (Session.activate_self hn ha)).1
    refine main n _ hn (List.getElem?_set_self hlen) (.inr ⟨Session.activate_not_retired hn ha, by simp⟩) rfl
      ⟨fun id hid => get_tail _ _ (n1 id hid), fun _ _ => Iff.rfl, fun _ _ => rfl⟩
  | deleteView j nm n ns hn ha g1 =>
    cases hop
    have hlen : i < ns.length := (List.getElem?_eq_some_iff.1 (Session.activate_self hn ha)).1
    refine main n _ hn (List.getElem?_set_self hlen) (.inr ⟨Session.activate_not_retired hn ha, by simp⟩) rfl
      ⟨fun id hid => get_filter_ne _ (n1 id hid), fun _ _ => Iff.rfl, fun _ _ => rfl⟩
  | addPublic j nm df df' n hn hi g1 g2 hc =>
    cases hop
    have hpub : ({ w with heap := w.heap.set n.pub (w.pubOf n ++ [(name, df')]) } : World Meas Tab PubFrame).pubOf n = w.pubOf n ∨
        ({ w with heap := w.heap.set n.pub (w.pubOf n ++ [(name, df')]) } : World Meas Tab PubFrame).pubOf n =
          w.pubOf n ++ [(name, df')] := by
      unfold Session.World.pubOf
      dsimp only
      by_cases hl : n.pub < w.heap.length
      · right
        rw [List.getElem?_set_self hl]
        rfl
      · left
        rw [List.getElem?_eq_none (by simpa using hl), List.getElem?_eq_none (by simpa using hl)]
    refine main n n hn hn ?_ rfl ⟨fun _ _ => rfl, fun id hid => ?_, fun id hid => ?_⟩
    · cases ha : Session.activate w.nodes i with
      | error e => exact .inl ⟨e, rfl, rfl⟩
      | ok ns =>
        have := Session.activate_not_retired hn ha
        exact .inr ⟨this, this⟩
    · rcases hpub with e | e
      · rw [e]
      · rw [e]
        simp [Session.names, n1 id hid]
    · rcases hpub with e | e
      · rw [e]
      · rw [e]
        exact get_append_ne _ _ (n2 id hid)

end

end Verif.Whole
