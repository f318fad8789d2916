import Verif.Nested.Start
import Verif.Whole.Total

/-!
# C65: histories of calls on nested dictionaries
-/

namespace Verif.Nested

open Verif Verif.Schema Verif.Constraint Verif.Expr Verif.Query
open Verif.Relation (Ident Dom Ref RErr)
open Verif.Whole (Tab PubFrame Request Meas Ctx startTables coreMeasure)
open Verif.Session (Op World)
open Verif.Budget (PB)

/-- The dictionaries of one part (`partition_and_create`, `session.py` l. 1572-1652). -/
noncomputable def partStore (ctx : Ctx) (st : Store) (pub : List (String × PubFrame)) (src col : String) (vals : List Value)
    (split : String) : Except Session.Err Store :=
  match tabOf st src with
  | .error x => .error (Whole.toErr x)
  | .ok tab =>
    match Whole.partTab ctx [(src, tab)] pub src col vals with
    | .error x => .error x
    | .ok t => .ok ⟨partState tab.space split ⟨t.dom, t.metric, t.run⟩, [(.named split, [])]⟩

/-- The dictionaries of every session after a call. Accountants, budgets and public tables are those of the world `w`; the
private tables are looked up in the dictionaries only. -/
noncomputable def storeStep (ctx : Ctx) (core : Core) (w : World Meas Tab PubFrame) (stores : Nat → Store) :
    Op Request PubFrame Value → Bool → Except Session.Err (Nat → Store)
  | .createView i (.table e _) name, cache =>
    -- l. 1212-1246
    match w.nodes[i]? with
    | none => .error .noSession
    | some n =>
      if !ctx.isIdent name then .error .valueError
      else
        match Session.activate w.nodes i with
        | .error x => .error x
        | .ok _ =>
          match createView core ctx.h (w.pubOf n) name cache e (stores i) with
          | .error x => .error (Whole.toErr x)
          | .ok st => .ok (Function.update stores i st)
  | .deleteView i name, _ =>
    -- l. 1255-1282
    match w.nodes[i]? with
    | none => .error .noSession
    | some _ =>
      match Session.activate w.nodes i with
      | .error x => .error x
      | .ok _ =>
        match deleteView core name (stores i) with
        | .error x => .error (Whole.toErr x)
        | .ok st => .ok (Function.update stores i st)
  | .partition i src b col splits, _ =>
    match w.nodes[i]?, (Session.step (Whole.env ctx) w (.partition i src b col splits)).1 with
    | some n, .ok (.sessions ss) => .ok (fun j =>
        match ss.find? (fun s => s.2 == j) with
        | none => stores j
        | some s =>
          match partStore ctx (stores i) (w.pubOf n) src col (splits.map Prod.snd) s.1 with
          | .ok st => st
          | .error _ => stores j)
    | _, .error x => .error x
    | _, .ok _ => .ok stores
  | op, _ =>
    -- the dictionaries are not changed by `evaluate`, `add_public_dataframe` and `stop`
    match (Session.step (Whole.env ctx) w op).1 with
    | .error x => .error x
    | .ok _ => .ok stores

/-- The dictionaries of every session after a history of calls. -/
noncomputable def storesRun (ctx : Ctx) (core : Core) (w : World Meas Tab PubFrame) (stores : Nat → Store) :
    List (Op Request PubFrame Value × Bool) → Nat → Store
  | [] => stores
  | (op, cache) :: rest =>
    storesRun ctx core (Session.step (Whole.env ctx) w op).2
      (match storeStep ctx core w stores op cache with
       | .ok stores' => stores'
       | .error _ => stores) rest

/-! ## Specification -/

/-- The dictionaries of every session have exactly the tables of the session. -/
def Reps (w : World Meas Tab PubFrame) (stores : Nat → Store) : Prop :=
  ∀ i n, w.nodes[i]? = some n → Rep n.tables (stores i)

/-- What core does with this call is known: either core joins tables with themselves, or this is not asked for; either it
makes an empty dictionary, or the dictionary keeps a table. -/
def Fine (core : Core) (w : World Meas Tab PubFrame) : Op Request PubFrame Value → Prop
  | .createView _ (.table e _) _ => core.selfJoin = true ∨ NoSelfJoin e
  | .deleteView i name => core.emptySubset = true ∨ ∀ n, w.nodes[i]? = some n → ∀ t, Dict.get n.tables name = some t →
      ∃ n' u, Dict.get n.tables n' = some u ∧ n' ≠ name ∧ (u.space = t.space ∨ t.space = none)
  | _ => True

/-! ## Proofs -/

/-- Queries that are known to be answered (C62) do not join a table with itself. -/
theorem ready_noSelfJoin {cat : Cat} (e : Expr) : Ready cat e → NoSelfJoin e := by
  induction e with
  | source => exact fun _ => trivial
  | joinPrivate l r tl tr cols ihl ihr => exact fun h => ⟨ihl h.1, ihr h.2.1, h.2.2.1⟩
  | flatMap e f new augment n ih => exact fun h => ih h.1
  | joinPublic e pub cols how ih => exact fun h => ih h.1
  | replaceInf e w ih => exact fun h => ih h.1
  | dropInf e cols ih => exact fun h => ih h.1
  | _ => rename_i ih; exact fun h => ih h

section
variable {ctx : Ctx} {core : Core} {w : World Meas Tab PubFrame} {stores : Nat → Store}

theorem reps_stateOnly (hr : Reps w stores) {ns : List (Session.Node Meas Tab)} (h : Session.StateOnly w.nodes ns) :
    Reps { w with nodes := ns } stores := by
  intro i n hn
  obtain ⟨s, hs⟩ := h.get' hn
  exact hr i { n with state := s } hs

theorem reps_set (hr : Reps w stores) {ns : List (Session.Node Meas Tab)} (h : Session.StateOnly w.nodes ns)
    {i : Nat} {n : Session.Node Meas Tab} {st : Store} (hn : Rep n.tables st) :
    Reps { w with nodes := ns.set i n } (Function.update stores i st) := by
  intro j m hm
  rw [List.getElem?_set] at hm
  by_cases hij : i = j
  · subst hij
    rw [if_pos rfl] at hm
    split at hm
    · cases hm; rw [Function.update_self]; exact hn
    · cases hm
  · rw [if_neg hij] at hm
    rw [Function.update_of_ne (Ne.symm hij)]
    obtain ⟨s, hs⟩ := h.get' hm
    exact hr j { m with state := s } hs

theorem reps_same (hr : Reps w stores) {ns : List (Session.Node Meas Tab)} (h : Session.StateOnly w.nodes ns)
    {i : Nat} {n : Session.Node Meas Tab} (hn : Rep n.tables (stores i)) :
    Reps { w with nodes := ns.set i n } stores := by
  have := reps_set hr h (i := i) hn
  rwa [Function.update_eq_self] at this

theorem part_store {tables : List (String × Tab)} {st : Store} (hr : Rep tables st)
    {pub : List (String × PubFrame)} {src col : String} {vals : List Value} {t : Tab}
    (hp : Whole.partTab ctx tables pub src col vals = .ok t) (split : String) :
    ∃ st', partStore ctx st pub src col vals split = .ok st' ∧ Rep [(split, t)] st' := by
  cases h0 : Dict.get tables src with
  | none => simp only [Whole.partTab, h0] at hp; split at hp <;> cases hp
  | some t0 =>
    obtain ⟨h1, h2⟩ := C65_partition hr h0 hp split
    unfold partStore
    rw [h1]
    dsimp only
    have : ∃ d, Whole.partTab ctx [(src, { t0 with dist := 0 })] pub src col vals = .ok { t with dist := d } := by
      unfold Whole.partTab at hp ⊢
      rw [h0] at hp
      have h00 : Dict.get [(src, { t0 with dist := 0 })] src = some { t0 with dist := 0 } := by simp [Dict.get]
      rw [h00]
      have hcut : Whole.cutOf { t0 with dist := 0 } col = Whole.cutOf t0 col := rfl
      dsimp only at hp ⊢
      rw [hcut]
      split at hp
      · cases hp
      · next cut hc =>
        split at hp
        · cases hp
        · next d hd =>
          split at hp
          · cases hp
          next g1 =>
          split at hp
          · cases hp
          next g2 =>
          split at hp
          · cases hp
          next g3 =>
          cases hp
          rw [if_neg g1, if_neg g2, if_neg g3]
          exact ⟨_, rfl⟩
    obtain ⟨d, hd⟩ := this
    rw [hd]
    exact ⟨_, rfl, h2⟩

theorem find_zip : ∀ (l : List String) (base k : Nat), ((l.zip ((List.range l.length).map (· + base))).find?
      (fun s => s.2 == k)) = if k < base then none else (l[k - base]?).map (fun s => (s, k))
  | [], base, k => by simp
  | a :: l, base, k => by
    have ih := find_zip l (base + 1) k
    have hmap : (List.range (a :: l).length).map (· + base) = base :: (List.range l.length).map (· + (base + 1)) := by
      rw [List.length_cons, List.range_succ_eq_map, List.map_cons, List.map_map]
      congr 1
      · simp
      · refine List.map_congr_left fun x _ => ?_
        simp only [Function.comp]
        omega
    rw [hmap, List.zip_cons_cons, List.find?_cons, ih]
    rcases Nat.lt_trichotomy k base with h | h | h
    · have h1 : ((a, base).2 == k) = false := by simp; omega
      rw [h1]
      simp only
      rw [if_pos (by omega), if_pos h]
    · subst h
      simp
    · have h1 : ((a, base).2 == k) = false := by simp; omega
      rw [h1]
      simp only
      rw [if_neg (by omega), if_neg (by omega)]
      obtain ⟨d, rfl⟩ : ∃ d, k = base + 1 + d := ⟨k - base - 1, by omega⟩
      rw [show base + 1 + d - (base + 1) = d by omega, show base + 1 + d - base = d + 1 by omega]
      simp

/-- **C65**: a call on nested dictionaries does what the call on a list of tables does. -/
theorem C65_step (hc : core.Lawful) (hr : Reps w stores) 
    (hcat : ∀ (i : Nat) (n : Session.Node Meas Tab), w.nodes[i]? = some n → ∃ cat, Whole.catalog n.tables (w.pubOf n) = .ok cat)
    (hw : ∀ (i : Nat) (n : Session.Node Meas Tab), w.nodes[i]? = some n → ∀ (a : String) (t : Tab), Dict.get n.tables a = some t → Dict.WF t.dom)
    (op : Op Request PubFrame Value) (cache : Bool) (hf : Fine core w op) :
    match (Session.step (Whole.env ctx) w op).1 with
    | .error x => storeStep ctx core w stores op cache = .error x ∧ Reps (Session.step (Whole.env ctx) w op).2 stores
    | .ok _ => ∃ stores', storeStep ctx core w stores op cache = .ok stores' ∧
        Reps (Session.step (Whole.env ctx) w op).2 stores' := by
  have hplain : ∀ (res : Except Session.Err (Session.Out Meas)) (w' : World Meas Tab PubFrame),
      Session.Step (Whole.env ctx) w op res w' → (∀ i q a, op ≠ .createView i q a) → (∀ i a, op ≠ .deleteView i a) →
      (∀ i s b c l, op ≠ .partition i s b c l) → Reps w' stores := by
    intro res w' hs h1 h2 h3
    cases hs with
    | reject _ e => exact hr
    | late _ e ns h => exact reps_stateOnly hr (Session.activate_stateOnly h)
    | evaluate i q b n m adj ns hn _ ha _ _ => exact reps_same hr (Session.activate_stateOnly ha) (hr i n hn)
    | createView => exact absurd rfl (h1 _ _ _)
    | deleteView => exact absurd rfl (h2 _ _)
    | addPublic => exact hr
    | partition => exact absurd rfl (h3 _ _ _ _ _)
    | stop i n hn => exact reps_stateOnly hr (Session.retire_stateOnly _ _)
  have hstep := Session.step_cases (Whole.env ctx) w op
  cases op with
  | evaluate i q b =>
    dsimp only [storeStep]
    generalize (Session.step (Whole.env ctx) w (.evaluate i q b)).1 = res at hstep ⊢
    generalize (Session.step (Whole.env ctx) w (.evaluate i q b)).2 = w' at hstep ⊢
    have h := hplain res w' hstep (fun _ _ _ h => by cases h) (fun _ _ h => by cases h) (fun _ _ _ _ _ h => by cases h)
    cases res with
    | error x => exact ⟨rfl, h⟩
    | ok r => exact ⟨stores, rfl, h⟩
  | addPublic i name df =>
    dsimp only [storeStep]
    generalize (Session.step (Whole.env ctx) w (.addPublic i name df)).1 = res at hstep ⊢
    generalize (Session.step (Whole.env ctx) w (.addPublic i name df)).2 = w' at hstep ⊢
    have h := hplain res w' hstep (fun _ _ _ h => by cases h) (fun _ _ h => by cases h) (fun _ _ _ _ _ h => by cases h)
    cases res with
    | error x => exact ⟨rfl, h⟩
    | ok r => exact ⟨stores, rfl, h⟩
  | stop i =>
    dsimp only [storeStep]
    generalize (Session.step (Whole.env ctx) w (.stop i)).1 = res at hstep ⊢
    generalize (Session.step (Whole.env ctx) w (.stop i)).2 = w' at hstep ⊢
    have h := hplain res w' hstep (fun _ _ _ h => by cases h) (fun _ _ h => by cases h) (fun _ _ _ _ _ h => by cases h)
    cases res with
    | error x => exact ⟨rfl, h⟩
    | ok r => exact ⟨stores, rfl, h⟩
  | createView i q name =>
    cases q with
    | query q ok =>
      dsimp only [storeStep]
      generalize (Session.step (Whole.env ctx) w (.createView i (.query q ok) name)).1 = res at hstep ⊢
      generalize (Session.step (Whole.env ctx) w (.createView i (.query q ok) name)).2 = w' at hstep ⊢
      cases hstep with
      | reject _ e => exact ⟨rfl, hr⟩
      | late _ e ns h => exact ⟨rfl, reps_stateOnly hr (Session.activate_stateOnly h)⟩
      | createView _ _ _ n t ns hn hi ha h1 h2 ht => cases ht
    | table e ok =>
      clear hstep hplain
      dsimp only [storeStep]
      simp only [Session.step, Session.createView]
      cases hn : w.nodes[i]? with
      | none => exact ⟨rfl, hr⟩
      | some n =>
        dsimp only
        have hid : (Whole.env ctx).isIdent name = ctx.isIdent name := rfl
        rw [hid]
        cases hi : ctx.isIdent name with
        | false => exact ⟨rfl, hr⟩
        | true =>
          simp only [Bool.not_true, Bool.false_eq_true, if_false]
          cases ha : Session.activate w.nodes i with
          | error x => exact ⟨rfl, hr⟩
          | ok ns =>
            dsimp only
            rw [Session.activate_self hn ha]
            dsimp only
            obtain ⟨cat, hcat'⟩ := hcat i n hn
            have hcr := C65_create hc (hr i n hn) hcat' (hw i n hn) ctx e ok hf name cache
            have hpub : w.pubOf { n with state := .active } = w.pubOf n := rfl
            rw [hpub]
            by_cases hnm : name ∈ n.tables.map Prod.fst ∨ name ∈ Dict.keys (w.pubOf n)
            · rw [if_pos hnm] at hcr
              rw [if_pos (by simpa [Session.names, Dict.keys] using hnm), hcr]
              exact ⟨rfl, reps_stateOnly hr (Session.activate_stateOnly ha)⟩
            · rw [if_neg hnm] at hcr
              rw [if_neg (by simpa [Session.names, Dict.keys] using hnm)]
              have ht : (Whole.env ctx).transform n.tables (w.pubOf n) (.table e ok) =
                Whole.transform ctx n.tables (w.pubOf n) (.table e ok) := rfl
              rw [ht]
              cases htr : Whole.transform ctx n.tables (w.pubOf n) (.table e ok) with
              | error x =>
                rw [htr] at hcr
                obtain ⟨y, h1, h2⟩ := hcr
                rw [h1]
                exact ⟨by rw [← h2], reps_stateOnly hr (Session.activate_stateOnly ha)⟩
              | ok t =>
                rw [htr] at hcr
                obtain ⟨st', h1, h2⟩ := hcr
                rw [h1]
                exact ⟨_, rfl, reps_set hr (Session.activate_stateOnly ha) h2⟩
  | deleteView i name =>
    clear hstep hplain
    dsimp only [storeStep]
    simp only [Session.step, Session.deleteView]
    cases hn : w.nodes[i]? with
    | none => exact ⟨rfl, hr⟩
    | some n =>
      dsimp only
      cases ha : Session.activate w.nodes i with
      | error x => exact ⟨rfl, hr⟩
      | ok ns =>
        dsimp only
        rw [Session.activate_self hn ha]
        dsimp only
        have hd := C65_delete hc (hr i n hn) name
        cases hg : Dict.get n.tables name with
        | none =>
          rw [hg] at hd
          have hnm : name ∉ Session.names n.tables := fun h => by
            have := Dict.get_isSome.2 (show name ∈ Dict.keys n.tables from h)
            rw [hg] at this
            cases this
          rw [if_pos (by simpa using hnm)]
          dsimp only at hd
          rw [hd]
          exact ⟨rfl, reps_stateOnly hr (Session.activate_stateOnly ha)⟩
        | some t =>
          rw [hg] at hd
          have hnm : name ∈ Session.names n.tables :=
            Dict.get_isSome.1 (show (Dict.get n.tables name).isSome = true by rw [hg]; rfl)
          rw [if_neg (by simpa using hnm)]
          obtain ⟨st', h1, h2⟩ := hd (hf.imp id (fun h => h n hn t hg))
          rw [h1]
          exact ⟨_, rfl, reps_set hr (Session.activate_stateOnly ha) h2⟩
  | partition i src b col splits =>
    clear hplain
    dsimp only [storeStep]
    generalize (Session.step (Whole.env ctx) w (.partition i src b col splits)).1 = res at hstep ⊢
    generalize (Session.step (Whole.env ctx) w (.partition i src b col splits)).2 = w' at hstep ⊢
    cases hstep with
    | reject _ e => exact ⟨by cases w.nodes[i]? <;> rfl, hr⟩
    | late _ e ns h => exact ⟨by cases w.nodes[i]? <;> rfl, reps_stateOnly hr (Session.activate_stateOnly h)⟩
    | partition _ _ _ _ _ n adj t ns hn hk hid hadj ht ha hs =>
      rw [hn]
      refine ⟨_, rfl, fun j m hm => ?_⟩
      have hlen := (Session.activate_stateOnly ha).length
      have hfind : ∀ k : Nat, (((Session.names splits).zip ((List.range splits.length).map (· + w.nodes.length))).find?
          (fun s => s.2 == k)) = if k < w.nodes.length then none else
            ((Session.names splits)[k - w.nodes.length]?).map (fun s => (s, k)) := by
        intro k
        have := find_zip (Session.names splits) w.nodes.length k
        simpa [Session.names] using this
      dsimp only at hm
      rw [List.getElem?_append] at hm
      split at hm
      · next hlt =>
        rw [List.length_set, hlen] at hlt
        rw [hfind, if_pos hlt]
        have := reps_same hr (Session.activate_stateOnly ha) (hr i n hn) (n := { n with
              state := .waitChildren
              remaining := Session.spend n.remaining adj
              log := n.log ++ [.split adj ((List.range splits.length).map (· + w.nodes.length))] })
        exact this j m hm
      · next hge =>
        rw [List.length_set, hlen] at hge
        rw [List.length_set, hlen] at hm
        obtain ⟨s, hs', rfl⟩ := Session.mkChildren_get _ _ _ _ _ _ _ _ hm
        dsimp only
        rw [hfind, if_neg hge, hs']
        dsimp only [Option.map]
        obtain ⟨st', h1, h2⟩ := part_store (hr i n hn) ht s
        rw [h1]
        exact h2

theorem run_append {Q M T D V : Type} (env : Session.Env Q M T D V) : ∀ (a b : List (Op Q D V)) (w : World M T D),
    Session.run env w (a ++ b) = Session.run env (Session.run env w a) b
  | [], _, _ => rfl
  | op :: a, b, w => by
    simp only [List.cons_append, Session.run]
    exact run_append env a b _

/-- **C65**: after every history of calls, the dictionaries of every session have exactly the tables of the session. -/
theorem C65_history (hc : core.Lawful) {sources : Relation.Sources} (hst : Relation.Stored ctx.cast sources)
    (hfr : Whole.FramesOK sources) {out : Relation.Output}
    (h : Relation.initCore ctx.cast (coreMeasure ctx.m) sources = .ok out) (b : PB)
    (ops : List (Op Request PubFrame Value × Bool))
    (hf : ∀ pre op rest, ops.map Prod.fst = pre ++ op :: rest →
      Fine core (Session.run (Whole.env ctx) (Session.init b (startTables out)) pre) op) :
    Reps (Session.run (Whole.env ctx) (Session.init b (startTables out)) (ops.map Prod.fst))
      (storesRun ctx core (Session.init b (startTables out)) (fun _ => startStore out) ops) := by
  have key : ∀ (ops : List (Op Request PubFrame Value × Bool)) (done : List (Op Request PubFrame Value))
      (stores : Nat → Store),
      (∀ pre op rest, ops.map Prod.fst = pre ++ op :: rest →
        Fine core (Session.run (Whole.env ctx) (Session.init b (startTables out)) (done ++ pre)) op) →
      Reps (Session.run (Whole.env ctx) (Session.init b (startTables out)) done) stores →
      Reps (Session.run (Whole.env ctx) (Session.init b (startTables out)) (done ++ ops.map Prod.fst))
        (storesRun ctx core (Session.run (Whole.env ctx) (Session.init b (startTables out)) done) stores ops) := by
    intro ops
    induction ops with
    | nil =>
      intro done stores _ hr
      simpa [storesRun] using hr
    | cons p rest ih =>
      obtain ⟨op, cache⟩ := p
      intro done stores hf hr
      have hreach := fun i n hn => Whole.reached (ctx := ctx) ⟨fun _ t => PMF.pure t⟩ hst hfr h b done i n hn
      have hs := C65_step (ctx := ctx) hc hr
        (fun i n hn => by
          obtain ⟨R, hR⟩ := (hreach i n hn).tabs
          exact Whole.catalog_total (hreach i n hn).names (hreach i n hn).pubNames hR (hreach i n hn).pub)
        (fun i n hn a t ht => by
          obtain ⟨R, hR⟩ := (hreach i n hn).tabs
          exact (hR _ (Dict.mem_of_get ht)).wf)
        op cache (by simpa using hf [] op (rest.map Prod.fst) (by simp))
      have hrun : Session.run (Whole.env ctx) (Session.init b (startTables out)) (done ++ [op]) =
          (Session.step (Whole.env ctx) (Session.run (Whole.env ctx) (Session.init b (startTables out)) done) op).2 := by
        rw [run_append]; rfl
      have hr' : Reps (Session.run (Whole.env ctx) (Session.init b (startTables out)) (done ++ [op]))
          (match storeStep ctx core (Session.run (Whole.env ctx) (Session.init b (startTables out)) done) stores op cache with
           | .ok stores' => stores'
           | .error _ => stores) := by
        rw [hrun]
        split at hs
        · rw [hs.1]; exact hs.2
        · obtain ⟨stores', h1, h2⟩ := hs
          rw [h1]; exact h2
      have := ih (done ++ [op]) _ (fun pre op' rest' he => by
        have := hf (op :: pre) op' rest' (by simp [he])
        simpa using this) hr'
      rw [hrun] at this
      simpa [storesRun] using this
  have h0 := key ops [] (fun _ => startStore out) (by simpa using hf) (fun i n hn => by
    have : n.tables = startTables out := by
      simp only [Session.run, Session.init] at hn
      cases i with
      | zero => cases hn; rfl
      | succ i => simp at hn
    rw [this]
    exact C65_start hst h)
  exact h0

end

end Verif.Nested
