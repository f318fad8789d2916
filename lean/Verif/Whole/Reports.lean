import Verif.Whole.Answers
import Verif.Session.PropsViews

/-!
# C60: what a session says about its tables is true

`get_schema`, `get_column_types`, `get_grouping_column`, `get_id_column`, `get_id_space` and `describe`, at any time, for a
session made by the builder and all sessions made from it by partitions.
-/

namespace Verif.Whole

open Verif Verif.Schema Verif.Constraint Verif.Expr Verif.Query Verif.Stability
open Verif.Budget (XNum PB Rounding)
open scoped NNReal

/-! ## The getters -/

/-- `get_schema` (`session.py` l. 777-800). -/
def getSchema (tables : List (String × Tab)) (pub : List (String × PubFrame)) (id : String) :
    Except PyErr (Dict String Desc) :=
  match Dict.get tables id with
  | some t => .ok (sparkDomainToAnalytics t.dom)
  | none =>
    match Dict.get pub id with
    | some f => sparkSchemaToAnalytics f.frame.fields
    | none => .error .key

/-- `get_column_types` (l. 803-808). -/
def getColumnTypes (tables : List (String × Tab)) (pub : List (String × PubFrame)) (id : String) :
    Except PyErr (Dict String ColumnType) :=
  match getSchema tables pub id with
  | .ok d => .ok (Dict.ofPairs (d.map (fun p => (p.1, p.2.ty))))
  | .error e => .error e

/-- The getters that only private tables have: `ValueError` for public tables, else `KeyError`. -/
def ofPrivate {α : Type} (f : Tab → α) (tables : List (String × Tab)) (pub : List (String × PubFrame)) (id : String) :
    Except PyErr α :=
  match Dict.get tables id with
  | some t => .ok (f t)
  | none => if id ∈ Dict.keys pub then .error .value else .error .key

/-- `get_grouping_column` (l. 811-839). -/
def getGroupingColumn := ofPrivate (fun t => groupOf t.metric)

/-- `get_id_column` (l. 842-864). -/
def getIdColumn := ofPrivate (fun t => idOf t.metric)

/-- `get_id_space` (l. 867-892): the parent of the reference of the table. -/
def getIdSpace := ofPrivate Tab.space

/-- What `describe` lists (l. 640-700): the private tables with their schemas and constraints, the public tables with
their schemas. Without private tables it raises `AnalyticsInternalError`. -/
def describe (tables : List (String × Tab)) (pub : List (String × PubFrame)) :
    Except PyErr (List (String × Schema × List Constraint) × List (String × Schema)) :=
  match catalog tables pub with
  | .error e => .error e
  | .ok cat => if cat.priv = [] then .error .internal else .ok (cat.priv, cat.pub.map (fun p => (p.1, p.2.1)))

/-! ## Specification -/

/-- The data of all sessions after some calls. -/
noncomputable def dataAfter (ctx : Ctx) (core : Core) : Session.World Meas Tab PubFrame → (Nat → Root × Data) →
    List (Session.Op Request PubFrame Value) → (Nat → Root × Data)
  | _, data, [] => data
  | w, data, op :: ops => dataAfter ctx core (Session.step (env ctx) w op).2
      (Composition.nextData (sem ctx core) w data op (Session.step (env ctx) w op).1) ops

/-- What the getters say about a table with these rows is true: each row has the columns of the schema with values of
their types, special values only where they are allowed; the grouping and the ID column are columns. -/
structure TrueOf (descs : Dict String Desc) (types : Dict String ColumnType) (g i sp : Option String) (rows : Table) :
    Prop where
  names : (Dict.keys descs).Nodup
  rows : ∀ r ∈ rows, RowFits descs r
  types : types = descs.map (fun p => (p.1, p.2.ty))
  grouping : ∀ c, g = some c → c ∈ Dict.keys descs
  ids : ∀ c, i = some c → c ∈ Dict.keys descs
  notBoth : g = none ∨ i = none
  space : i = none → sp = none

/-- All views that are created keep to what C16 is proved for. -/
def ViewsSafe (ctx : Ctx) : Session.World Meas Tab PubFrame → List (Session.Op Request PubFrame Value) → Prop
  | _, [] => True
  | w, op :: ops =>
    (∀ i e ok name n cat, op = .createView i (.table e ok) name → w.nodes[i]? = some n →
      catalog n.tables (w.pubOf n) = .ok cat → e.ConsSafe ctx.h cat) ∧
    ViewsSafe ctx (Session.step (env ctx) w op).2 ops

/-! ## The invariant -/

/-- What is known about the sessions and their data. -/
structure Inv (ctx : Ctx) (w : Session.World Meas Tab PubFrame) (data : Nat → Root × Data) : Prop where
  near : ∀ i < w.nodes.length, ∃ s, Near ctx.m s (data i) (data i)
  tabs : ∀ i n, w.nodes[i]? = some n → ∀ p ∈ n.tables, TabOK ctx.m p.2 (data i).1

theorem near_refl {m : Measure} {x : Root × Data} (hg : ∀ n sch, Dict.get x.1.priv n = some sch → SchemaOK sch)
    (hc : Conf x.1 x.2) : Near m 0 x x := by
  refine ⟨rfl, hg, hc, hc, ?_, fun sp => ⟨0, by simp, .same fun _ _ _ _ _ _ => List.Perm.refl _⟩⟩
  intro n s _ _
  have h0 : ∀ k, tdist m k (x.2 n) (x.2 n) = 0 := by
    intro k
    have h1 : (rowDist (x.2 n) (x.2 n) : ℝ≥0) = 0 := by simp [rowDist_self]
    unfold tdist
    split
    · split
      · exact le_antisymm ((rootDist_le_rowDist _ _ _).trans h1.le) (zero_le)
      · exact h1
    · exact h1
  rw [h0]
  exact zero_le

section
variable {ctx : Ctx} {core : Core}

open Verif.Session (World Op Step step_cases)

/-- The tables of a session after a call, exactly. -/
theorem tables_exact {Q M T D V : Type} {env : Session.Env Q M T D V} {w w' : World M T D} {op : Op Q D V}
    {res : Except Session.Err (Session.Out M)} (h : Step env w op res w') {j : Nat} {n' : Session.Node M T}
    (hj : j < w.nodes.length) (hn' : w'.nodes[j]? = some n') :
    ∃ n, w.nodes[j]? = some n ∧ n'.pub = n.pub ∧
      (n'.tables = n.tables ∨
       (∃ name, op = .deleteView j name ∧ n'.tables = n.tables.filter (fun p => p.1 != name)) ∨
       ∃ q name t, op = .createView j q name ∧ env.transform n.tables (w.pubOf n) q = .ok t ∧
         name ∉ Session.names n.tables ∧ n'.tables = (name, t) :: n.tables) := by
  have so : ∀ {ns : List (Session.Node M T)}, Session.StateOnly w.nodes ns → ∀ {m : Session.Node M T}, ns[j]? = some m →
      ∃ n, w.nodes[j]? = some n ∧ m.pub = n.pub ∧ m.tables = n.tables := by
    intro ns so m hm
    obtain ⟨s, hs⟩ := so.get' hm
    exact ⟨_, hs, rfl, rfl⟩
  have upd : ∀ {i : Nat} {n m : Session.Node M T} {ns : List (Session.Node M T)}, w.nodes[i]? = some n →
      Session.activate w.nodes i = .ok ns → ∀ {m' : Session.Node M T}, (ns.set i m)[j]? = some m' →
      (j = i ∧ m' = m) ∨ ∃ n, w.nodes[j]? = some n ∧ m'.pub = n.pub ∧ m'.tables = n.tables := by
    intro i n m ns hn ha m' hm'
    rw [Session.get_set (Session.activate_self hn ha) m j] at hm'
    split at hm'
    · next e =>
      subst e
      cases hm'
      exact .inl ⟨rfl, rfl⟩
    · exact .inr (so (Session.activate_stateOnly ha) hm')
  have easy : (∃ n, w.nodes[j]? = some n ∧ n'.pub = n.pub ∧ n'.tables = n.tables) → ∃ n, w.nodes[j]? = some n ∧ n'.pub = n.pub ∧
      (n'.tables = n.tables ∨
       (∃ name, op = .deleteView j name ∧ n'.tables = n.tables.filter (fun p => p.1 != name)) ∨
       ∃ q name t, op = .createView j q name ∧ env.transform n.tables (w.pubOf n) q = .ok t ∧
         name ∉ Session.names n.tables ∧ n'.tables = (name, t) :: n.tables) :=
    fun ⟨n, h1, h2, h3⟩ => ⟨n, h1, h2, .inl h3⟩
  cases h with
  | reject => exact easy ⟨_, hn', rfl, rfl⟩
  | late _ e ns h => exact easy (so (Session.activate_stateOnly h) hn')
  | evaluate i q b n m adj ns hn hc ha hp hs =>
    rcases upd hn ha hn' with ⟨rfl, rfl⟩ | h
    · exact easy ⟨n, hn, rfl, rfl⟩
    · exact easy h
  | createView i q name n t ns hn hi ha h1 h2 ht =>
    rcases upd hn ha hn' with ⟨rfl, rfl⟩ | h
    · exact ⟨n, hn, rfl, .inr (.inr ⟨q, name, t, rfl, ht, h1, rfl⟩)⟩
    · exact easy h
  | deleteView i name n ns hn ha h1 =>
    rcases upd hn ha hn' with ⟨rfl, rfl⟩ | h
    · exact ⟨n, hn, rfl, .inr (.inl ⟨name, rfl, rfl⟩)⟩
    · exact easy h
  | addPublic => exact easy ⟨_, hn', rfl, rfl⟩
  | partition i src b col splits n adj t ns hn hkm hid hadj ht ha hs =>
    simp only at hn'
    rw [List.getElem?_append_left (by rw [List.length_set, (Session.activate_stateOnly ha).length]; exact hj)] at hn'
    rcases upd hn ha hn' with ⟨rfl, rfl⟩ | h
    · exact easy ⟨n, hn, rfl, rfl⟩
    · exact easy h
  | stop i n hn => exact easy (so (Session.retire_stateOnly w.nodes i) hn')

/-- The tables of a session that a call created. -/
theorem tables_new {Q M T D V : Type} {env : Session.Env Q M T D V} {w w' : World M T D} {op : Op Q D V}
    {res : Except Session.Err (Session.Out M)} (h : Step env w op res w') {j : Nat} {n' : Session.Node M T}
    (hj : w.nodes.length ≤ j) (hn' : w'.nodes[j]? = some n') :
    ∃ i src b col splits n t x s, op = .partition i src b col splits ∧ res = .ok x ∧ w.nodes[i]? = some n ∧
      env.partition n.tables (w.pubOf n) src col (splits.map Prod.snd) = .ok t ∧ n'.pub = n.pub ∧
      n'.tables = [(s, t)] ∧ (Session.names splits)[j - w.nodes.length]? = some s := by
  have no : ∀ {ns : List (Session.Node M T)}, ns.length = w.nodes.length → ns[j]? = some n' → False := by
    intro ns hl hx
    have := Composition.lt_of_get hx
    omega
  cases h with
  | reject => exact (no rfl hn').elim
  | late _ e ns h => exact (no (Session.activate_stateOnly h).length hn').elim
  | evaluate i q b n m adj ns hn hc ha hp hs =>
    exact (no (by rw [List.length_set, (Session.activate_stateOnly ha).length]) hn').elim
  | createView i q name n t ns hn hi ha h1 h2 ht =>
    exact (no (by rw [List.length_set, (Session.activate_stateOnly ha).length]) hn').elim
  | deleteView i name n ns hn ha h1 =>
    exact (no (by rw [List.length_set, (Session.activate_stateOnly ha).length]) hn').elim
  | addPublic => exact (no rfl hn').elim
  | partition i src b col splits n adj t ns hn hkm hid hadj ht ha hs =>
    simp only at hn'
    have hl : (ns.set i { n with
              state := .waitChildren
              remaining := Session.spend n.remaining adj
              log := n.log ++ [.split adj ((List.range splits.length).map (· + w.nodes.length))] }).length = w.nodes.length := by
      rw [List.length_set, (Session.activate_stateOnly ha).length]
    rw [List.getElem?_append_right (by rw [hl]; exact hj), hl] at hn'
    obtain ⟨s, hs', rfl⟩ := Session.mkChildren_get _ _ _ _ _ _ _ _ hn'
    exact ⟨i, src, b, col, splits, n, t, _, s, rfl, rfl, hn, ht, rfl, rfl, hs'⟩
  | stop i n hn => exact (no (Session.retire_stateOnly w.nodes i).length hn').elim

theorem next_old {w : World Meas Tab PubFrame} {data : Nat → Root × Data} {op : Op Request PubFrame Value}
    {res : Except Session.Err (Session.Out Meas)} {j : Nat} (hj : j < w.nodes.length) :
    Composition.nextData (sem ctx core) w data op res j = data j := by
  unfold Composition.nextData
  split
  · exact if_pos hj
  · rfl

theorem next_new {w : World Meas Tab PubFrame} {data : Nat → Root × Data} {i j : Nat} {src : String} {b : PB} {col : String}
    {splits : List (String × Value)} {x : Session.Out Meas} {n : Session.Node Meas Tab} (hn : w.nodes[i]? = some n)
    (hj : w.nodes.length ≤ j) :
    Composition.nextData (Q := Request) (sem ctx core) w data (.partition i src b col splits) (.ok x) j =
      partData ctx n.tables (data i) src col (splits.map Prod.snd) (j - w.nodes.length) := by
  dsimp only [Composition.nextData]
  rw [if_neg (by omega)]
  unfold Composition.tablesOf
  rw [hn]
  rfl

/-- One call keeps the invariant. -/
theorem Inv.step {w : World Meas Tab PubFrame} {data : Nat → Root × Data} (h : Inv ctx w data)
    (op : Op Request PubFrame Value) :
    Inv ctx (Session.step (env ctx) w op).2 (Composition.nextData (sem ctx core) w data op (Session.step (env ctx) w op).1) := by
  have st := step_cases (env ctx) w op
  generalize (Session.step (env ctx) w op).1 = res at st
  generalize (Session.step (env ctx) w op).2 = w' at st
  have new : ∀ j n', w.nodes.length ≤ j → w'.nodes[j]? = some n' →
      (∃ s, Near ctx.m s (Composition.nextData (sem ctx core) w data op res j)
        (Composition.nextData (sem ctx core) w data op res j)) ∧
      ∀ p ∈ n'.tables, TabOK ctx.m p.2 (Composition.nextData (sem ctx core) w data op res j).1 := by
    intro j n' hj hn'
    obtain ⟨i, src, b, col, splits, n, t, x, s, rfl, rfl, hn, ht, _, htab, hs⟩ := tables_new st hj hn'
    obtain ⟨σ, hnear⟩ := h.near i (Composition.lt_of_get hn)
    obtain ⟨sh, _, hsh⟩ := C55_partition hnear (h.tabs i n hn) ht
    have hlt : j - w.nodes.length < (splits.map Prod.snd).length := by
      obtain ⟨this, _⟩ := List.getElem?_eq_some_iff.1 hs
      simpa [Session.names] using this
    obtain ⟨h1, h2, _⟩ := hsh _ hlt
    rw [next_new hn hj]
    refine ⟨⟨_, h1⟩, fun p hp => ?_⟩
    rw [htab, List.mem_singleton] at hp
    rw [hp]
    exact h2
  refine ⟨fun j hj => ?_, fun j n' hn' => ?_⟩
  · by_cases hlt : j < w.nodes.length
    · rw [next_old hlt]
      exact h.near j hlt
    · exact (new j _ (by omega) (List.getElem?_eq_getElem hj)).1
  · by_cases hlt : j < w.nodes.length
    · rw [next_old hlt]
      obtain ⟨n, hn, _, hc⟩ := tables_exact st hlt hn'
      rcases hc with e | ⟨name, _, e⟩ | ⟨q, name, t, _, ht, _, e⟩
      · rw [e]; exact h.tabs j n hn
      · rw [e]
        exact fun p hp => h.tabs j n hn p (List.mem_of_mem_filter hp)
      · rw [e]
        intro p hp
        rcases List.mem_cons.1 hp with rfl | hp
        · exact C55_view ht (h.tabs j n hn)
        · exact h.tabs j n hn p hp
    · exact (new j n' (by omega) hn').2

theorem Inv.run : ∀ (ops : List (Op Request PubFrame Value)) {w : World Meas Tab PubFrame} {data : Nat → Root × Data},
    Inv ctx w data → Inv ctx (Session.run (env ctx) w ops) (dataAfter ctx core w data ops)
  | [], _, _, h => h
  | op :: ops, _, _, h => Inv.run ops (h.step op)

end

/-! ## Names -/

theorem namesOf_nodup : ∀ {rs : List Relation.Ref}, rs.Nodup →
    (∀ r ∈ rs, ∀ r' ∈ rs, ∀ n, Relation.EndsWith r n → Relation.EndsWith r' n → r = r') → (Relation.namesOf rs).Nodup
  | [], _, _ => List.nodup_nil
  | r :: rs, h, hu => by
    obtain ⟨h1, h2⟩ := List.nodup_cons.1 h
    have ih := namesOf_nodup h2 fun a ha b hb => hu a (List.mem_cons_of_mem _ ha) b (List.mem_cons_of_mem _ hb)
    unfold Relation.namesOf
    split
    · next n hn =>
      refine List.nodup_cons.2 ⟨fun hm => ?_, ih⟩
      obtain ⟨r', hr', he⟩ := Relation.mem_namesOf.1 hm
      exact h1 (hu r List.mem_cons_self r' (List.mem_cons_of_mem _ hr') n hn he ▸ hr')
    · exact ih

section
variable {cast : SparkType → Value → Value} {sources : Relation.Sources} {m : Measure} {out : Relation.Output}

/-- The private tables of a new session have distinct names. -/
theorem start_names (hst : Relation.Stored cast sources) (h : Relation.initCore cast (coreMeasure m) sources = .ok out) :
    (Session.names (startTables out)).Nodup := by
  have hn : ∀ {names}, Relation.privateSources out.domain = .ok names → names.Nodup := by
    intro names hp
    obtain ⟨hwf, huniq, _⟩ := Relation.C33_names hst h
    obtain ⟨_, cs, outs, _, _, _, _, _, _, rfl⟩ := Relation.initCore_ok hst (coreMeasure m) h
    obtain ⟨rs, h1, h2, h3⟩ := Relation.C35_all hwf
    unfold Relation.privateSources at hp
    dsimp only at hp
    rw [h1] at hp
    cases hp
    refine namesOf_nodup h2 fun r hr r' hr' n he he' => ?_
    obtain ⟨_, _, p1, _⟩ := (h3 r).1 hr
    obtain ⟨_, _, p2, _⟩ := (h3 r').1 hr'
    exact huniq n r r' _ _ p1 p2 he he'
  unfold startTables
  split
  · next names hp =>
    have := hn hp
    clear hp
    induction names with
    | nil => exact List.nodup_nil
    | cons n names ih =>
      obtain ⟨h1, h2⟩ := List.nodup_cons.1 this
      rw [List.filterMap_cons]
      split
      · exact ih h2
      · next p hp =>
        obtain ⟨t, _, rfl⟩ := Option.map_eq_some_iff.1 hp
        refine List.nodup_cons.2 ⟨fun hm => h1 ?_, ih h2⟩
        obtain ⟨q, hq, he⟩ := List.mem_map.1 hm
        obtain ⟨n', hn', hq'⟩ := List.mem_filterMap.1 hq
        obtain ⟨t', _, rfl⟩ := Option.map_eq_some_iff.1 hq'
        dsimp only at he
        exact he ▸ hn'
  · exact List.nodup_nil

end

/-! ## Public tables -/

/-- Public tables are stored as `coerce_spark_schema_or_fail` returned them. -/
def PubOK (ctx : Ctx) (w : Session.World Meas Tab PubFrame) : Prop :=
  ∀ l ∈ w.heap, ∀ p ∈ l, coerce ctx.cast p.2.frame = .ok p.2.frame

theorem coerceFrame_stored {ctx : Ctx} {f f' : PubFrame} (h : coerceFrame ctx.cast ctx.castOK f = .ok f') :
    coerce ctx.cast f'.frame = .ok f'.frame := by
  unfold coerceFrame at h
  split at h
  · cases h
  · next df hd =>
    cases h
    exact (C39_coerce hd).2.2

theorem PubOK.pubOf {ctx : Ctx} {w : Session.World Meas Tab PubFrame} (h : PubOK ctx w) (n : Session.Node Meas Tab) :
    ∀ p ∈ w.pubOf n, coerce ctx.cast p.2.frame = .ok p.2.frame := by
  intro p hp
  unfold Session.World.pubOf at hp
  cases hh : w.heap[n.pub]? with
  | none => rw [hh] at hp; cases hp
  | some l =>
    rw [hh] at hp
    exact h l (List.mem_of_getElem? hh) p hp

theorem pubOK_run {ctx : Ctx} (ops : List (Session.Op Request PubFrame Value)) (b : PB) (tables : List (String × Tab)) :
    PubOK ctx (Session.run (env ctx) (Session.init b tables) ops) := by
  refine Session.run_induction (env := env ctx) (PubOK ctx) ?_ ops _ ?_
  · intro w op res w' hw hst
    cases hst with
    | addPublic i name df df' n hn hi h1 h2 hc =>
      intro l hl p hp
      rcases List.mem_or_eq_of_mem_set hl with hl | rfl
      · exact hw l hl p hp
      · rcases List.mem_append.1 hp with hp | hp
        · exact hw.pubOf n p hp
        · rw [List.mem_singleton] at hp
          subst hp
          dsimp only [env] at hc
          split at hc
          · next f' hf => cases hc; exact coerceFrame_stored hf
          · cases hc
    | _ => exact hw
  · intro l hl p hp
    simp only [Session.init, List.mem_singleton] at hl
    subst hl
    cases hp

theorem stored_schema {ctx : Ctx} {f : PubFrame} (h : coerce ctx.cast f.frame = .ok f.frame) :
    ∃ ds, sparkSchemaToAnalytics f.frame.fields = .ok ds ∧ (Dict.keys ds).Nodup ∧ "" ∉ Dict.keys ds ∧
      ∀ r ∈ Frame.named f.frame, RowFits ds r := by
  have ha := (C39_coerce_accepts (cast := ctx.cast) f.names).1 ⟨_, h⟩
  obtain ⟨ds, h1, h2, _, _, h3⟩ := C39_frame f.names fun g hg => (ha g hg).2
  refine ⟨ds, h1, ?_, ?_, h3 f.typed⟩
  · show (ds.map Prod.fst).Nodup
    rw [h2]; exact f.names
  · show "" ∉ ds.map Prod.fst
    rw [h2]
    intro hm
    obtain ⟨g, hg, he⟩ := List.mem_map.1 hm
    exact (ha g hg).1 he

theorem stored_mk {ds : Dict String Desc} (h1 : (Dict.keys ds).Nodup) (h2 : "" ∉ Dict.keys ds) :
    Expr.mk ds none none none = .ok ⟨⟨ds⟩, none, none, none⟩ :=
  Schema.init_descs (s := ⟨⟨ds⟩, none, none, none⟩) ⟨h1, h2, nofun, nofun⟩

theorem pubCat_total {ctx : Ctx} : ∀ {pub : List (String × PubFrame)}, (Session.names pub).Nodup →
    (∀ p ∈ pub, coerce ctx.cast p.2.frame = .ok p.2.frame) → ∃ d, pubCat pub = .ok d ∧ Dict.keys d = Session.names pub ∧
      ∀ n s t, (n, s, t) ∈ d → ∃ f ds, (n, f) ∈ pub ∧ sparkSchemaToAnalytics f.frame.fields = .ok ds ∧
        s = ⟨⟨ds⟩, none, none, none⟩ ∧ t = Frame.named f.frame
  | [], _, _ => ⟨[], rfl, rfl, nofun⟩
  | (n, f) :: rest, hn, hp => by
    obtain ⟨h1, h2⟩ := List.nodup_cons.1 hn
    obtain ⟨d, hd, hk, hm⟩ := pubCat_total h2 fun p h => hp p (List.mem_cons_of_mem _ h)
    obtain ⟨ds, e1, e2, e3, _⟩ := stored_schema (hp (n, f) List.mem_cons_self)
    have hnd : n ∉ Dict.keys d := by rw [hk]; exact h1
    refine ⟨(n, (⟨⟨ds⟩, none, none, none⟩, Frame.named f.frame)) :: d, ?_, ?_, ?_⟩
    · dsimp only [pubCat]
      rw [e1, hd]
      dsimp only
      rw [stored_mk e2 e3]
      dsimp only
      rw [if_neg hnd]
    · show n :: Dict.keys d = n :: Session.names rest
      rw [hk]
    · intro n' s t hmem
      rcases List.mem_cons.1 hmem with h | h
      · cases h
        exact ⟨f, ds, List.mem_cons_self, e1, rfl, rfl⟩
      · obtain ⟨f', ds', h1, h2, h3⟩ := hm n' s t h
        exact ⟨f', ds', List.mem_cons_of_mem _ h1, h2, h3⟩

theorem privCat_total {m : Measure} {R : Root} : ∀ {tables : List (String × Tab)}, (Session.names tables).Nodup →
    (∀ p ∈ tables, TabOK m p.2 R) → ∃ d, privCat tables = .ok d ∧ Dict.keys d = Session.names tables ∧
      ∀ n s cs, (n, s, cs) ∈ d → ∃ t, (n, t) ∈ tables ∧ t.schema = .ok s ∧ cs = t.cons
  | [], _, _ => ⟨[], rfl, rfl, nofun⟩
  | (n, t) :: rest, hn, hp => by
    obtain ⟨h1, h2⟩ := List.nodup_cons.1 hn
    obtain ⟨d, hd, hk, hm⟩ := privCat_total h2 fun p h => hp p (List.mem_cons_of_mem _ h)
    obtain ⟨s, e1, _⟩ := (hp (n, t) List.mem_cons_self).schema
    have hnd : n ∉ Dict.keys d := by rw [hk]; exact h1
    refine ⟨(n, (s, t.cons)) :: d, ?_, ?_, ?_⟩
    · dsimp only [privCat]
      dsimp only at e1
      rw [e1, hd]
      dsimp only
      rw [if_neg hnd]
    · show n :: Dict.keys d = n :: Session.names rest
      rw [hk]
    · intro n' s' cs hmem
      rcases List.mem_cons.1 hmem with h | h
      · cases h
        exact ⟨t, List.mem_cons_self, e1, rfl⟩
      · obtain ⟨t', h1, h2⟩ := hm n' s' cs h
        exact ⟨t', List.mem_cons_of_mem _ h1, h2⟩

/-! ## The theorems -/

theorem start_inv {ctx : Ctx} {sources : Relation.Sources} (hst : Relation.Stored ctx.cast sources) (hf : FramesOK sources)
    {out : Relation.Output} (h : Relation.initCore ctx.cast (coreMeasure ctx.m) sources = .ok out) (b : PB) :
    Inv ctx (Session.init b (startTables out)) (fun _ => (startRoot out, startData out)) := by
  have hok := (Relation.initCore_ok hst _ h).1
  refine ⟨fun i _ => ⟨0, near_refl ?_ (start_conf hst hf h)⟩, ?_⟩
  · intro n sch hg
    obtain ⟨df, ch, s, hm, hs, hmk⟩ := root_get hst h hg
    obtain ⟨sch', h1, h2⟩ := start_schema hst hok hm hs
    rw [hmk] at h1
    cases h1
    exact h2
  · intro i n hn
    cases i with
    | zero =>
      simp only [Session.init, List.getElem?_cons_zero, Option.some.injEq] at hn
      subst hn
      exact start_tabOK hst hf h
    | succ i => simp [Session.init] at hn

theorem tab_true {m : Measure} {t : Tab} {R : Root} {D : Data} (ht : TabOK m t R) (hD : Conf R D) :
    TrueOf (sparkDomainToAnalytics t.dom) (Dict.ofPairs ((sparkDomainToAnalytics t.dom).map (fun p => (p.1, p.2.ty))))
      (groupOf t.metric) (idOf t.metric) t.space (t.run D) := by
  obtain ⟨s, hs, hok⟩ := ht.schema
  have sf := t.schema_for ht.wf hs
  have hel : s.columnDescs.elements = sparkDomainToAnalytics t.dom := by
    have w : Dict.WF (sparkDomainToAnalytics t.dom) := Dict.wf_ofPairs _
    exact (mk_ok w hs).2.2.2.2
  have w := hok.wf
  refine ⟨?_, ?_, ?_, ?_, ?_, ?_, ?_⟩
  · rw [← hel]; exact w.nodup
  · have : Conforms s (t.run D) := by
      rw [conforms_iff w, sf.dom]
      exact ht.conf D hD
    intro r hr
    rw [← hel]
    exact this r hr
  · rw [Dict.ofPairs_eq]
    rw [keys_mapVal, ← hel]
    exact w.nodup
  · intro c hc
    rw [← hel]
    exact w.grouping c (by rw [sf.grouping]; exact hc)
  · intro c hc
    rw [← hel]
    exact w.idColumn c (by rw [sf.idColumn]; exact hc)
  · cases t.metric <;> simp [groupOf, idOf]
  · intro hi
    have := hok.noSpace (by rw [sf.idColumn]; exact hi)
    rwa [sf.idSpace] at this

/-- **C60**: at any time, in any session that was made by the builder or by partitions, what `get_schema`,
`get_column_types`, `get_grouping_column`, `get_id_column` and `get_id_space` say is true of the rows of the table;
`describe` lists all private and public tables with just these schemas. -/
theorem C60_reports {ctx : Ctx} {core : Core} {sources : Relation.Sources} (hst : Relation.Stored ctx.cast sources)
    (hf : FramesOK sources) {out : Relation.Output}
    (h : Relation.initCore ctx.cast (coreMeasure ctx.m) sources = .ok out) (b : PB)
    (ops : List (Session.Op Request PubFrame Value)) (w : Session.World Meas Tab PubFrame)
    (hw : w = Session.run (env ctx) (Session.init b (startTables out)) ops) (i : Nat) (n : Session.Node Meas Tab)
    (hn : w.nodes[i]? = some n) (D : Data)
    (hD : D = (dataAfter ctx core (Session.init b (startTables out)) (fun _ => (startRoot out, startData out)) ops i).2) :
    (∀ id t, (id, t) ∈ n.tables → ∃ descs types g ic sp, getSchema n.tables (w.pubOf n) id = .ok descs ∧
      getColumnTypes n.tables (w.pubOf n) id = .ok types ∧ getGroupingColumn n.tables (w.pubOf n) id = .ok g ∧
      getIdColumn n.tables (w.pubOf n) id = .ok ic ∧ getIdSpace n.tables (w.pubOf n) id = .ok sp ∧
      TrueOf descs types g ic sp (t.run D)) ∧
    (∀ id f, (id, f) ∈ w.pubOf n → id ∉ Session.names n.tables → ∃ descs types,
      getSchema n.tables (w.pubOf n) id = .ok descs ∧ getColumnTypes n.tables (w.pubOf n) id = .ok types ∧
      TrueOf descs types none none none (Frame.named f.frame)) ∧
    (∀ id, id ∉ Session.names n.tables → id ∉ Session.names (w.pubOf n) →
      getSchema n.tables (w.pubOf n) id = .error .key) ∧
    (n.tables ≠ [] → ∃ priv pub, describe n.tables (w.pubOf n) = .ok (priv, pub) ∧
      priv.map Prod.fst = Session.names n.tables ∧ pub.map Prod.fst = Session.names (w.pubOf n) ∧
      (∀ id s cs, (id, s, cs) ∈ priv → ∃ t, (id, t) ∈ n.tables ∧ cs = t.cons ∧
        getSchema n.tables (w.pubOf n) id = .ok s.columnDescs.elements ∧
        getGroupingColumn n.tables (w.pubOf n) id = .ok s.grouping ∧
        getIdColumn n.tables (w.pubOf n) id = .ok s.idColumn ∧ getIdSpace n.tables (w.pubOf n) id = .ok s.idSpace) ∧
      ∀ id s, (id, s) ∈ pub → ∃ f, (id, f) ∈ w.pubOf n ∧ Conforms s (Frame.named f.frame)) := by
  have inv := (start_inv hst hf h b).run (core := core) ops
  obtain ⟨n1, n2⟩ := (Session.C36_names_partial (env := env ctx) (D := PubFrame) b (startTables out)
    (start_names hst h) ops).1 i n (by rw [← hw]; exact hn)
  have pok := pubOK_run (ctx := ctx) ops b (startTables out)
  rw [← hw] at inv n2 pok
  have pok := pok.pubOf n
  have tok := inv.tabs i n hn
  obtain ⟨σ, near⟩ := inv.near i (Composition.lt_of_get hn)
  have hc := near.conf
  rw [← hD] at hc
  generalize w.pubOf n = pub at n2 pok ⊢
  have get : ∀ {id t}, (id, t) ∈ n.tables → Dict.get n.tables id = some t := fun hm => (Dict.get_eq_some n1).2 hm
  have pget : ∀ {id f}, (id, f) ∈ pub → Dict.get pub id = some f := fun hm => (Dict.get_eq_some n2).2 hm
  have nget : ∀ {α : Type} {l : List (String × α)} {id}, id ∉ Session.names l → Dict.get l id = none := by
    intro α l id hm
    cases hg : Dict.get l id with
    | none => rfl
    | some t => exact absurd (List.mem_map_of_mem (f := Prod.fst) (Dict.mem_of_get hg)) hm
  refine ⟨?_, ?_, ?_, ?_⟩
  · intro id t hm
    have hg := get hm
    refine ⟨_, _, _, _, _, ?_, ?_, ?_, ?_, ?_, tab_true (tok _ hm) hc⟩
    · simp only [getSchema, hg]
    · simp only [getColumnTypes, getSchema, hg]
    · simp only [getGroupingColumn, ofPrivate, hg]
    · simp only [getIdColumn, ofPrivate, hg]
    · simp only [getIdSpace, ofPrivate, hg]
  · intro id f hm hni
    obtain ⟨ds, e1, e2, e3, e4⟩ := stored_schema (pok _ hm)
    refine ⟨ds, ds.map (fun p => (p.1, p.2.ty)), ?_, ?_, ⟨e2, e4, rfl, nofun, nofun, .inl rfl, fun _ => rfl⟩⟩
    · simp only [getSchema, nget hni, pget hm]
      exact e1
    · simp only [getColumnTypes, getSchema, nget hni, pget hm]
      dsimp only at e1
      rw [e1]
      dsimp only
      rw [Dict.ofPairs_eq]
      rw [keys_mapVal]
      exact e2
  · intro id h1 h2
    simp only [getSchema, nget h1, nget h2]
  · intro hne
    obtain ⟨d, d1, d2, d3⟩ := privCat_total n1 tok
    obtain ⟨p, p1, p2, p3⟩ := pubCat_total n2 pok
    have hdne : d ≠ [] := by
      rintro rfl
      apply hne
      have : Session.names n.tables = [] := d2.symm
      simpa [Session.names] using this
    refine ⟨d, p.map (fun q => (q.1, q.2.1)), ?_, d2, ?_, ?_, ?_⟩
    · unfold describe catalog
      rw [d1, p1]
      dsimp only
      rw [if_neg hdne]
    · rw [List.map_map]
      exact p2
    · intro id s cs hm
      obtain ⟨t, t1, t2, t3⟩ := d3 id s cs hm
      have hg := get t1
      have sf := t.schema_for (tok _ t1).wf t2
      have hel : s.columnDescs.elements = sparkDomainToAnalytics t.dom := by
        have w : Dict.WF (sparkDomainToAnalytics t.dom) := Dict.wf_ofPairs _
        exact (mk_ok w t2).2.2.2.2
      refine ⟨t, t1, t3, ?_, ?_, ?_, ?_⟩
      · simp only [getSchema, hg, hel]
      · simp only [getGroupingColumn, ofPrivate, hg, sf.grouping]
      · simp only [getIdColumn, ofPrivate, hg, sf.idColumn]
      · simp only [getIdSpace, ofPrivate, hg, sf.idSpace]
    · intro id s hm
      obtain ⟨⟨id', s', t⟩, q1, q2⟩ := List.mem_map.1 hm
      cases q2
      obtain ⟨f, ds, f1, f2, f3, f4⟩ := p3 _ _ _ q1
      refine ⟨f, f1, ?_⟩
      obtain ⟨ds', e1, e2, e3, e4⟩ := stored_schema (pok _ f1)
      dsimp only at e1
      rw [f2] at e1
      cases e1
      rw [f3]
      exact e4

/-- **C60**: a call keeps all tables of all sessions with their rows; only `delete_view` removes the table that it names,
from the session it is called on, and only `create_view` adds one. -/
theorem C60_unchanged {ctx : Ctx} {core : Core} (w : Session.World Meas Tab PubFrame) (data : Nat → Root × Data)
    (op : Session.Op Request PubFrame Value) (j : Nat) (n : Session.Node Meas Tab) (hn : w.nodes[j]? = some n) :
    Composition.nextData (sem ctx core) w data op (Session.step (env ctx) w op).1 j = data j ∧
    ∃ n', (Session.step (env ctx) w op).2.nodes[j]? = some n' ∧
      (∀ id t, (id, t) ∈ n.tables → op ≠ .deleteView j id → (id, t) ∈ n'.tables) ∧
      ∀ id t, (id, t) ∈ n'.tables → (id, t) ∈ n.tables ∨ ∃ q, op = .createView j q id ∧ id ∉ Session.names n.tables := by
  have hj := Composition.lt_of_get hn
  refine ⟨next_old hj, ?_⟩
  have st := Session.step_cases (env ctx) w op
  generalize (Session.step (env ctx) w op).1 = res at st
  generalize (Session.step (env ctx) w op).2 = w' at st
  have hl : j < w'.nodes.length := by
    cases st with
    | reject => exact hj
    | late _ e ns h => exact (Session.activate_stateOnly h).length ▸ hj
    | evaluate i q b n m adj ns hn hc ha hp hs =>
      dsimp only; rw [List.length_set, (Session.activate_stateOnly ha).length]; exact hj
    | createView i q name n t ns hn hi ha h1 h2 ht =>
      dsimp only; rw [List.length_set, (Session.activate_stateOnly ha).length]; exact hj
    | deleteView i name n ns hn ha h1 =>
      dsimp only; rw [List.length_set, (Session.activate_stateOnly ha).length]; exact hj
    | addPublic => exact hj
    | partition i src b col splits n adj t ns hn hkm hid hadj ht ha hs =>
      dsimp only; rw [List.length_append, List.length_set, (Session.activate_stateOnly ha).length]; omega
    | stop i n hn => exact (Session.retire_stateOnly w.nodes i).length ▸ hj
  have hn' := List.getElem?_eq_getElem hl
  generalize w'.nodes[j] = n' at hn'
  refine ⟨n', hn', ?_⟩
  obtain ⟨n0, hn0, _, hc⟩ := tables_exact st hj hn'
  rw [hn] at hn0
  cases hn0
  rcases hc with e | ⟨name, rfl, e⟩ | ⟨q, name, t, rfl, _, hnew, e⟩
  · rw [e]
    exact ⟨fun _ _ h _ => h, fun _ _ h => .inl h⟩
  · rw [e]
    refine ⟨fun id t h hne => List.mem_filter.2 ⟨h, ?_⟩, fun _ _ h => .inl (List.mem_of_mem_filter h)⟩
    simp only [bne_iff_ne, ne_eq]
    rintro rfl
    exact hne rfl
  · rw [e]
    refine ⟨fun _ _ h _ => List.mem_cons_of_mem _ h, fun id t' h => ?_⟩
    rcases List.mem_cons.1 h with h | h
    · cases h
      exact .inr ⟨q, rfl, hnew⟩
    · exact .inl h

theorem known_step {ctx : Ctx} {core : Core} {w : Session.World Meas Tab PubFrame} {data : Nat → Root × Data}
    (inv : Inv ctx w data) (hk : ∀ i n, w.nodes[i]? = some n → ∀ p ∈ n.tables, Known p.2 (data i).2)
    (op : Session.Op Request PubFrame Value)
    (hop : ∀ i e ok name n cat, op = .createView i (.table e ok) name → w.nodes[i]? = some n →
      catalog n.tables (w.pubOf n) = .ok cat → e.ConsSafe ctx.h cat) :
    ∀ i n, (Session.step (env ctx) w op).2.nodes[i]? = some n → ∀ p ∈ n.tables,
      Known p.2 (Composition.nextData (sem ctx core) w data op (Session.step (env ctx) w op).1 i).2 := by
  have st := Session.step_cases (env ctx) w op
  generalize (Session.step (env ctx) w op).1 = res at st
  generalize (Session.step (env ctx) w op).2 = w' at st
  intro j n' hn' p hp
  by_cases hlt : j < w.nodes.length
  · rw [next_old hlt]
    obtain ⟨n, hn, _, hc⟩ := tables_exact st hlt hn'
    rcases hc with e | ⟨name, _, e⟩ | ⟨q, name, t, ho, ht, _, e⟩
    · rw [e] at hp
      exact hk j n hn p hp
    · rw [e] at hp
      exact hk j n hn p (List.mem_of_mem_filter hp)
    · rw [e] at hp
      rcases List.mem_cons.1 hp with rfl | hp
      · cases q with
        | query q ok => cases ht
        | table ex ok =>
          obtain ⟨σ, near⟩ := inv.near j hlt
          obtain ⟨cat, hcat, _, h3⟩ := C58_view_partial (ok := ok) ht (inv.tabs j n hn) near.conf
          exact h3 (hk j n hn) (hop j ex ok name n cat ho hn hcat)
      · exact hk j n hn p hp
  · obtain ⟨i, src, b, col, splits, n, t, x, s, rfl, rfl, hn, ht, _, htab, hs⟩ := tables_new st (by omega) hn'
    rw [next_new hn (by omega)]
    rw [htab, List.mem_singleton] at hp
    rw [hp]
    obtain ⟨t0, _, _, h3⟩ := C58_part ht (inv.tabs i n hn)
    obtain ⟨hlt', _⟩ := List.getElem?_eq_some_iff.1 hs
    have hlt'' : j - w.nodes.length < (splits.map Prod.snd).length := by simpa [Session.names] using hlt'
    exact (h3 _ _ (List.getElem?_eq_getElem hlt'')).2.2

theorem known_run {ctx : Ctx} {core : Core} : ∀ (ops : List (Session.Op Request PubFrame Value))
    {w : Session.World Meas Tab PubFrame} {data : Nat → Root × Data}, Inv ctx w data →
    (∀ i n, w.nodes[i]? = some n → ∀ p ∈ n.tables, Known p.2 (data i).2) → ViewsSafe ctx w ops →
    ∀ i n, (Session.run (env ctx) w ops).nodes[i]? = some n → ∀ p ∈ n.tables, Known p.2 (dataAfter ctx core w data ops i).2
  | [], _, _, _, hk, _ => hk
  | op :: ops, _, _, inv, hk, hs => known_run ops (inv.step op) (known_step inv hk op hs.1) hs.2

/-- **C60** (partial). At any time, in any session that was made by the builder or by partitions, the constraints that
`describe` lists for a table hold for its rows.

Partial: provided that the queries of all views are those that C16 is proved for (see `C16_fails_join`,
`C16_fails_replace`). -/
theorem C60_constraints_partial {ctx : Ctx} {core : Core} {sources : Relation.Sources}
    (hst : Relation.Stored ctx.cast sources) (hf : FramesOK sources) {out : Relation.Output}
    (h : Relation.initCore ctx.cast (coreMeasure ctx.m) sources = .ok out) (b : PB)
    (ops : List (Session.Op Request PubFrame Value)) (hs : ViewsSafe ctx (Session.init b (startTables out)) ops) (i : Nat)
    (n : Session.Node Meas Tab)
    (hn : (Session.run (env ctx) (Session.init b (startTables out)) ops).nodes[i]? = some n) :
    ∀ p ∈ n.tables, Known p.2
      (dataAfter ctx core (Session.init b (startTables out)) (fun _ => (startRoot out, startData out)) ops i).2 := by
  refine known_run ops (start_inv hst hf h b) ?_ hs i n hn
  intro i n hn p hp
  cases i with
  | zero =>
    simp only [Session.init, List.getElem?_cons_zero, Option.some.injEq] at hn
    subst hn
    obtain ⟨df, ch, s, h1, h2, h3⟩ := start_mem hst h hp
    have := (starts_as hst h h1 h2 h3).cons
    intro i hi c hc
    rw [this] at hc
    cases hc
  | succ i => simp [Session.init] at hn

/-- **C60**: what a new session says about a table is what the builder was given: the columns of the data frame with their
types, nullable if they are there; the ID column and space, or the grouping column, of the protected change. -/
theorem C60_start {ctx : Ctx} {sources : Relation.Sources} (hst : Relation.Stored ctx.cast sources)
    {out : Relation.Output} (h : Relation.initCore ctx.cast (coreMeasure ctx.m) sources = .ok out)
    {n : String} {df : Frame} {ch : Relation.Change} (hm : (n, df, ch) ∈ sources) (pub : List (String × PubFrame)) :
    (∃ descs, getSchema (startTables out) pub n = .ok descs ∧ (∀ c, c ∈ Dict.keys descs ↔ c ∈ df.fields.map Field.name) ∧
      ∀ f ∈ df.fields, ∃ d, Dict.get descs f.name = some d ∧ sparkToAnalytics f.ty = some d.ty ∧
        (f.nullable = true → d.allowNull = true)) ∧
    getIdColumn (startTables out) pub n = .ok (match ch with | .rowsWithID c _ => some c | _ => none) ∧
    getIdSpace (startTables out) pub n = .ok (match ch with | .rowsWithID _ sp => some sp | _ => none) ∧
    getGroupingColumn (startTables out) pub n = .ok (match ch with | .maxRowsInMaxGroups c _ _ => some c | _ => none) := by
  obtain ⟨s, hf⟩ := start_facts hst h hm
  obtain ⟨t, hg, _⟩ := (C58_start hst h).2 n df ch hm
  obtain ⟨_, _, _, _, _, h3⟩ := start_mem hst h (Dict.mem_of_get hg)
  dsimp only at h3
  rw [hf.tab] at h3
  cases h3
  obtain ⟨w, hw⟩ := fits_widen hf.fits
  have sup := Relation.coerced_types (hst.coerced _ _ _ hm)
  have get : ∀ f ∈ df.fields, ∃ sd, Dict.get s f.name = some sd ∧ ∃ sd', Relation.fieldSpark f = some sd' ∧
      sd = if w = some f.name then Relation.setNull sd' else sd' := by
    intro f hf'
    obtain ⟨sd, hsd⟩ := Relation.fieldSpark_some (sup f hf')
    have hfind := Relation.find_unique (hst.columns _ _ _ hm) hf'
    refine ⟨_, ?_, sd, hsd, rfl⟩
    rw [hw, Relation.expected_eq, hfind, Option.bind_some, hsd]
    rfl
  have hdesc : ∀ c, Dict.get (sparkDomainToAnalytics s) c = (Dict.get s c).map ofSparkDesc := by
    intro c
    rw [domain_descs hf.wf]
    exact get_mapVal s (fun p => ofSparkDesc p.2) c
  refine ⟨⟨sparkDomainToAnalytics s, ?_, ?_, ?_⟩, ?_, ?_, ?_⟩
  · simp only [getSchema, hg]
  · intro c
    constructor
    · intro hc
      have h1 := Dict.get_isSome.2 hc
      rw [hdesc, hw, Relation.expected_eq] at h1
      cases hfi : df.fields.find? (fun f => decide (f.name = c)) with
      | none => rw [hfi] at h1; cases h1
      | some f =>
        have h2 := List.mem_of_find?_eq_some hfi
        have h3 := List.find?_some hfi
        exact List.mem_map.2 ⟨f, h2, by simpa using h3⟩
    · intro hc
      obtain ⟨f, hf', rfl⟩ := List.mem_map.1 hc
      obtain ⟨sd, h1, _⟩ := get f hf'
      exact Dict.get_isSome.1 (by rw [hdesc, h1]; rfl)
  · intro f hf'
    obtain ⟨sd, h1, sd', h2, h3⟩ := get f hf'
    refine ⟨ofSparkDesc sd, by rw [hdesc, h1]; rfl, ?_⟩
    subst h3
    obtain ⟨fn, ft, fnull⟩ := f
    unfold Relation.fieldSpark at h2
    dsimp only at h2 ⊢
    cases ft <;> cases h2 <;> split <;> simp [sparkToAnalytics, ofSparkDesc, Relation.setNull]
  · simp only [getIdColumn, ofPrivate, hg]
    cases ch <;> rfl
  · simp only [getIdSpace, ofPrivate, hg]
    cases ch <;> rfl
  · simp only [getGroupingColumn, ofPrivate, hg]
    cases ch <;> rfl
end Verif.Whole
