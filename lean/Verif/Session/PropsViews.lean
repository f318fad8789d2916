import Verif.Session.PropsTree

/-!
# Views and public tables: C36, C47; concrete sessions that show the theorems are not vacuous
-/

namespace Verif.Session

open Verif.Budget

variable {Q M T D V : Type}

/-! ## C36 -/

/-- **C36**, creating: a successful `create_view` adds exactly one private name, which was not in use in
this session, with the table information of the query; nothing else that can be observed changes, in
any session. -/
theorem C36_create {env : Env Q M T D V} (w : World M T D) (i : Nat) (q : Q) (name : String)
    (out : Out M) (hok : (step env w (.createView i q name)).1 = .ok out) :
    ∃ n t, w.nodes[i]? = some n ∧ env.transform n.tables (w.pubOf n) q = .ok t ∧
      env.isIdent name = true ∧ name ∉ names n.tables ∧ name ∉ names (w.pubOf n) ∧
      observe (step env w (.createView i q name)).2 i =
        some ⟨n.remaining, (name, t) :: n.tables, w.pubOf n⟩ ∧
      ∀ j, j ≠ i → observe (step env w (.createView i q name)).2 j = observe w j := by
  have hst := step_cases env w (.createView i q name)
  rw [hok] at hst
  generalize (step env w (.createView i q name)).2 = w' at hst
  cases hst with
  | createView i q name n t ns hn hi ha h1 h2 ht =>
    refine ⟨n, t, hn, ht, hi, h1, h2, ?_, ?_⟩
    · simp only [observe]
      rw [get_set (activate_self hn ha), if_pos rfl]
      rfl
    · intro j hj
      simp only [observe]
      rw [get_set (activate_self hn ha), if_neg (fun h => hj h.symm)]
      cases hm : w.nodes[j]? with
      | none => simp [(activate_stateOnly ha).getNone hm]
      | some m =>
        obtain ⟨s, hs⟩ := (activate_stateOnly ha).get hm
        simp only [hs, Option.map_some, Option.some.injEq]
        rfl

/-- **C36**, round trip: deleting the view that was just created succeeds and gives back exactly the
state that could be observed before, in every session. -/
theorem C36_create_delete {env : Env Q M T D V} (w : World M T D) (i : Nat) (q : Q) (name : String)
    (out : Out M) (hok : (step env w (.createView i q name)).1 = .ok out) :
    let w1 := (step env w (.createView i q name)).2
    (∃ out', (step env w1 (.deleteView i name)).1 = .ok out') ∧
    ∀ j, observe (step env w1 (.deleteView i name)).2 j = observe w j := by
  intro w1
  have hst := step_cases env w (.createView i q name)
  rw [hok] at hst
  have hw1 : (step env w (.createView i q name)).2 = w1 := rfl
  rw [hw1] at hst
  generalize w1 = w1 at hst
  cases hst with
  | createView i q name n t ns hn hi ha h1 h2 ht =>
    set n1 : Node M T := { n with state := .active, tables := (name, t) :: n.tables } with hn1
    have hget : ∀ j, (ns.set i n1)[j]? = if i = j then some n1 else ns[j]? :=
      get_set (activate_self hn ha) n1
    have hi1 : (ns.set i n1)[i]? = some n1 := by rw [hget, if_pos rfl]
    have hact : activate (ns.set i n1) i = .ok (ns.set i n1) := by
      unfold activate; rw [hi1]; simp [hn1]
    have hfilter : n.tables.filter (fun p => p.1 != name) = n.tables := by
      rw [List.filter_eq_self]
      intro p hp
      simp only [bne_iff_ne, ne_eq]
      rintro rfl
      exact h1 (List.mem_map.mpr ⟨p, hp, rfl⟩)
    have hres : step env ({ w with nodes := ns.set i n1 } : World M T D) (.deleteView i name) =
        (.ok .none, { w with nodes := (ns.set i n1).set i { n1 with tables := n.tables } }) := by
      simp only [step, deleteView, hi1, hact]
      simp only [hn1, names, List.map_cons, List.contains_cons, beq_self_eq_true, Bool.true_or,
        Bool.not_true, Bool.false_eq_true, if_false]
      simp only [List.filter_cons, bne_self_eq_false, Bool.false_eq_true, if_false, hfilter]
    rw [hres]
    refine ⟨⟨_, rfl⟩, ?_⟩
    intro j
    simp only [observe]
    rw [get_set hi1]
    by_cases hij : i = j
    · subst hij
      rw [if_pos rfl, hn]
      rfl
    · rw [if_neg hij, hget, if_neg hij]
      cases hm : w.nodes[j]? with
      | none => simp [(activate_stateOnly ha).getNone hm]
      | some m =>
        obtain ⟨s, hs⟩ := (activate_stateOnly ha).get hm
        simp only [hs, Option.map_some, Option.some.injEq]
        rfl

/-- **C36**, deleting a name that is not a private table of the session is rejected and changes nothing
that can be observed. -/
theorem C36_delete_unknown {env : Env Q M T D V} (w : World M T D) (i : Nat) (name : String)
    (n : Node M T) (hn : w.nodes[i]? = some n) (h : name ∉ names n.tables) :
    (∃ e, (step env w (.deleteView i name)).1 = .error e ∧
      (n.state ≠ .retired → e = .keyError)) ∧
    ∀ j, observe (step env w (.deleteView i name)).2 j = observe w j := by
  have key : ∃ e, (step env w (.deleteView i name)).1 = .error e ∧
      (n.state ≠ .retired → e = .keyError) := by
    simp only [step, deleteView, hn]
    cases ha : activate w.nodes i with
    | error e =>
      refine ⟨e, rfl, ?_⟩
      intro hs
      obtain ⟨ns, hns⟩ := activate_ok hn hs
      rw [hns] at ha
      exact absurd ha (by simp)
    | ok ns =>
      simp only [activate_self hn ha]
      have : (names n.tables).contains name = false := by
        rw [← Bool.not_eq_true, List.contains_iff_mem]; exact h
      rw [this]
      exact ⟨_, rfl, fun _ => rfl⟩
  refine ⟨key, fun j => ?_⟩
  obtain ⟨e, he, _⟩ := key
  exact C02_rejected_call_changes_nothing w _ e he j

/-- **C36, where the code and the claim part ways (1).** `delete_view` does not look at whether the name
is a view: it removes any private table, also one the session was created with. -/
theorem C36_delete_deletes_sources {env : Env Q M T D V} (b : PB) (tables : List (String × T))
    (name : String) (h : name ∈ names tables) :
    let w : World M T D := init b tables
    (step env w (.deleteView 0 name)).1 = .ok .none ∧
    observe (step env w (.deleteView 0 name)).2 0 =
      some ⟨initialBudget b, tables.filter (fun p => p.1 != name), []⟩ := by
  have : (names tables).contains name = true := by rw [List.contains_iff_mem]; exact h
  have ha : activate (init b tables : World M T D).nodes 0 = .ok (init b tables : World M T D).nodes :=
    rfl
  have hw : step env (init b tables : World M T D) (.deleteView 0 name) = (.ok .none,
      ⟨[⟨none, [], .active, initialBudget b, initialBudget b, tables.filter (fun p => p.1 != name), 0,
        []⟩], [[]]⟩) := by
    simp only [step, deleteView, ha]
    simp only [init, List.getElem?_cons_zero, this, Bool.not_true, Bool.false_eq_true, if_false]
    rfl
  intro w
  rw [show step env w (.deleteView 0 name) = _ from hw]
  exact ⟨rfl, rfl⟩

/-- Names of the private tables are distinct, names of the public tables are distinct. -/
def NamesDistinct (w : World M T D) : Prop :=
  ∀ (i : Nat) (n : Node M T), w.nodes[i]? = some n →
    (names n.tables).Nodup ∧ (names (w.pubOf n)).Nodup

/-- No name is both private and public. -/
def NamesDisjoint (w : World M T D) : Prop :=
  ∀ (i : Nat) (n : Node M T), w.nodes[i]? = some n →
    ∀ x ∈ names n.tables, x ∉ names (w.pubOf n)

/-- In every reachable state all sessions point to the same dict of public tables. -/
def SharedPub (w : World M T D) : Prop :=
  w.heap.length = 1 ∧ ∀ (i : Nat) (n : Node M T), w.nodes[i]? = some n → n.pub = 0

theorem names_filter {l : List (String × T)} (p : String × T → Bool) (h : (names l).Nodup) :
    (names (l.filter p)).Nodup :=
  List.Nodup.sublist (List.Sublist.map _ List.filter_sublist) h

/-- Public tables of a session, when everything points to the single dict. -/
theorem SharedPub.pubOf {w : World M T D} (h : SharedPub w) {i : Nat} {n : Node M T}
    (hn : w.nodes[i]? = some n) : w.pubOf n = (w.heap[0]?).getD [] := by
  unfold World.pubOf; rw [h.2 i n hn]

/-- Where the nodes of the next state come from. -/
theorem step_nodes {env : Env Q M T D V} {w w' : World M T D} {op : Op Q D V}
    {res : Except Err (Out M)} (hst : Step env w op res w') (i : Nat) (n' : Node M T)
    (hn' : w'.nodes[i]? = some n') :
    (∃ n, w.nodes[i]? = some n ∧ n'.pub = n.pub ∧
      (n'.tables = n.tables ∨
       (∃ q name t, op = .createView i q name ∧ n'.tables = (name, t) :: n.tables ∧
          name ∉ names n.tables ∧ name ∉ names (w.pubOf n)) ∨
       (∃ name, n'.tables = n.tables.filter (fun p => p.1 != name)))) ∨
    (∃ p src b col splits n s t, op = .partition p src b col splits ∧ w.nodes[p]? = some n ∧
      n'.pub = n.pub ∧ n'.tables = [(s, t)] ∧ s ∈ names splits) := by
  have hact : ∀ {ns : List (Node M T)}, StateOnly w.nodes ns → ns[i]? = some n' →
      ∃ n, w.nodes[i]? = some n ∧ n'.pub = n.pub ∧ n'.tables = n.tables := by
    intro ns h hh
    obtain ⟨s, hs⟩ := h.get' hh
    exact ⟨_, hs, rfl, rfl⟩
  cases hst with
  | reject _ e => exact Or.inl ⟨n', hn', rfl, Or.inl rfl⟩
  | late _ e ns h =>
    obtain ⟨n, h1, h2, h3⟩ := hact (activate_stateOnly h) hn'
    exact Or.inl ⟨n, h1, h2, Or.inl h3⟩
  | evaluate j q b a m adj ns hn hc ha hp hs =>
    simp only at hn'
    rw [get_set (activate_self hn ha)] at hn'
    split at hn'
    · rename_i hij
      subst hij
      cases hn'
      exact Or.inl ⟨a, hn, rfl, Or.inl rfl⟩
    · obtain ⟨n, h1, h2, h3⟩ := hact (activate_stateOnly ha) hn'
      exact Or.inl ⟨n, h1, h2, Or.inl h3⟩
  | createView j q name a t ns hn hi ha h1 h2 ht =>
    simp only at hn'
    rw [get_set (activate_self hn ha)] at hn'
    split at hn'
    · rename_i hij
      subst hij
      cases hn'
      exact Or.inl ⟨a, hn, rfl, Or.inr (Or.inl ⟨q, name, t, rfl, rfl, h1, h2⟩)⟩
    · obtain ⟨n, h1, h2, h3⟩ := hact (activate_stateOnly ha) hn'
      exact Or.inl ⟨n, h1, h2, Or.inl h3⟩
  | deleteView j name a ns hn ha h1 =>
    simp only at hn'
    rw [get_set (activate_self hn ha)] at hn'
    split at hn'
    · rename_i hij
      subst hij
      cases hn'
      exact Or.inl ⟨a, hn, rfl, Or.inr (Or.inr ⟨name, rfl⟩)⟩
    · obtain ⟨n, h1, h2, h3⟩ := hact (activate_stateOnly ha) hn'
      exact Or.inl ⟨n, h1, h2, Or.inl h3⟩
  | addPublic => exact Or.inl ⟨n', hn', rfl, Or.inl rfl⟩
  | partition j src b' col splits a adj t ns hn hk hid hadj ht ha hs =>
    simp only at hn'
    rw [List.getElem?_append] at hn'
    split at hn'
    · rw [get_set (activate_self hn ha)] at hn'
      split at hn'
      · rename_i hij
        subst hij
        cases hn'
        exact Or.inl ⟨a, hn, rfl, Or.inl rfl⟩
      · obtain ⟨n, h1, h2, h3⟩ := hact (activate_stateOnly ha) hn'
        exact Or.inl ⟨n, h1, h2, Or.inl h3⟩
    · obtain ⟨s, hs', hcc⟩ := mkChildren_get _ _ _ _ _ _ _ _ hn'
      subst hcc
      exact Or.inr ⟨j, src, b', col, splits, a, s, t, rfl, hn, rfl, rfl, List.mem_of_getElem? hs'⟩
  | stop j a hn =>
    obtain ⟨n, h1, h2, h3⟩ := hact (retire_stateOnly _ _) hn'
    exact Or.inl ⟨n, h1, h2, Or.inl h3⟩

/-- How the dicts of public tables change. -/
theorem step_heap {env : Env Q M T D V} {w w' : World M T D} {op : Op Q D V}
    {res : Except Err (Out M)} (hst : Step env w op res w') :
    w'.heap = w.heap ∨ ∃ i name df df' n, op = .addPublic i name df ∧ w.nodes[i]? = some n ∧
      name ∉ names (w.pubOf n) ∧ name ∉ names n.tables ∧
      w'.heap = w.heap.set n.pub (w.pubOf n ++ [(name, df')]) ∧ w'.nodes = w.nodes := by
  cases hst with
  | addPublic i name df df' n hn hi h1 h2 hc =>
    exact Or.inr ⟨i, name, df, df', n, rfl, hn, h1, h2, rfl, rfl⟩
  | _ => exact Or.inl rfl

theorem sharedPub_step {env : Env Q M T D V} {w w' : World M T D} {op : Op Q D V}
    {res : Except Err (Out M)} (h : SharedPub w) (hst : Step env w op res w') : SharedPub w' := by
  constructor
  · rcases step_heap hst with e | ⟨_, _, _, _, _, _, _, _, _, e, _⟩
    · rw [e]; exact h.1
    · rw [e, List.length_set]; exact h.1
  · intro i n' hn'
    rcases step_nodes hst i n' hn' with ⟨n, h1, h2, _⟩ | ⟨p, _, _, _, _, n, _, _, _, h1, h2, _⟩
    · rw [h2]; exact h.2 i n h1
    · rw [h2]; exact h.2 p n h1

theorem sharedPub_init (b : PB) (tables : List (String × T)) :
    SharedPub (init b tables : World M T D) := by
  refine ⟨rfl, ?_⟩
  intro i n hn
  cases i with
  | zero =>
    simp only [init, List.getElem?_cons_zero, Option.some.injEq] at hn
    subst hn
    rfl
  | succ i => simp [init] at hn

theorem pub_after {w : World M T D} (h : SharedPub w) {n : Node M T} {i : Nat}
    (hn : w.nodes[i]? = some n) (l : List (String × D)) :
    ((w.heap.set n.pub l)[0]?).getD [] = l := by
  rw [h.2 i n hn, List.getElem?_set, if_pos rfl, if_pos (by rw [h.1]; exact Nat.zero_lt_one)]
  rfl

/-- Every name in the session tree, private or public, is an identifier. -/
def NamesIdent (env : Env Q M T D V) (w : World M T D) : Prop :=
  (∀ (i : Nat) (n : Node M T), w.nodes[i]? = some n → ∀ x ∈ names n.tables, env.isIdent x = true) ∧
  ∀ l ∈ w.heap, ∀ x ∈ names l, env.isIdent x = true

/-- **C36**, identifiers: if the names of the tables a session is built with are identifiers, so are all
names after any history, in all sessions. -/
theorem C36_identifiers {env : Env Q M T D V} (b : PB) (tables : List (String × T))
    (htab : ∀ x ∈ names tables, env.isIdent x = true) (ops : List (Op Q D V)) :
    NamesIdent env (run env (init b tables : World M T D) ops) := by
  apply run_induction (NamesIdent env)
  · intro w op res w' ⟨h1, h2⟩ hst
    constructor
    · intro i n' hn' x hx
      have hst' := hst
      rcases step_nodes hst i n' hn' with ⟨n, hn, _, e | ⟨q, name, t, rfl, e, _, _⟩ | ⟨name, e⟩⟩ |
        ⟨p, src, b', col, splits, n, s, t, rfl, hn, _, e, hs⟩
      · rw [e] at hx; exact h1 i n hn x hx
      · rw [e] at hx
        simp only [names, List.map_cons, List.mem_cons] at hx
        rcases hx with rfl | hx
        · cases hst' with
          | createView _ _ _ a t' ns ha hi _ _ _ _ => exact hi
          | reject =>
            rw [hn] at hn'
            cases hn'
            exact absurd e (fun h => by
              have := congrArg List.length h
              simp at this)
          | late _ _ ns h =>
            obtain ⟨s, hs⟩ := (activate_stateOnly h).get hn
            simp only at hn'
            rw [hs] at hn'
            cases hn'
            exact absurd e (fun h => by
              have := congrArg List.length h
              simp at this)
        · exact h1 i n hn x hx
      · rw [e] at hx
        refine h1 i n hn x ?_
        simp only [names, List.mem_map, List.mem_filter] at hx ⊢
        obtain ⟨a, ⟨ha, _⟩, rfl⟩ := hx
        exact ⟨a, ha, rfl⟩
      · rw [e] at hx
        simp only [names, List.map_cons, List.map_nil, List.mem_singleton] at hx
        subst hx
        cases hst' with
        | partition _ _ _ _ _ a adj t' ns _ _ hid _ _ _ _ => exact hid _ hs
        | reject => exact h1 i n' hn' _ (by rw [e]; simp [names])
        | late _ _ ns h =>
          obtain ⟨st, hs'⟩ := (activate_stateOnly h).get' hn'
          exact h1 i _ hs' _ (by simp only; rw [e]; simp [names])
    · have hst' := hst
      cases hst with
      | addPublic i name df df' n hn hi hp1 hp2 hc =>
        intro l hl x hx
        rcases List.mem_or_eq_of_mem_set hl with hl | rfl
        · exact h2 l hl x hx
        · simp only [names, List.map_append, List.map_cons, List.map_nil, List.mem_append,
            List.mem_singleton] at hx
          rcases hx with hx | rfl
          · unfold World.pubOf at hx
            cases hh : w.heap[n.pub]? with
            | none => simp [hh] at hx
            | some l' =>
              simp only [hh, Option.getD_some] at hx
              exact h2 l' (List.mem_of_getElem? hh) x hx
          · exact hi
      | _ => exact h2
  · constructor
    · intro i n hn x hx
      cases i with
      | zero =>
        simp only [init, List.getElem?_cons_zero, Option.some.injEq] at hn
        subst hn
        exact htab x hx
      | succ i => simp [init] at hn
    · intro l hl x hx
      simp only [init, List.mem_singleton] at hl
      subst hl
      simp [names] at hx

/-- **C36** (partial), names: after any history the private names of a session are distinct and so are
its public names; as long as nothing was partitioned, no name is both private and public. Missing: with
partitions a part may be named like a public table, see `C36_partition_name_clash`. -/
theorem C36_names_partial {env : Env Q M T D V} (b : PB) (tables : List (String × T))
    (htab : (names tables).Nodup) (ops : List (Op Q D V)) :
    NamesDistinct (run env (init b tables : World M T D) ops) ∧
    ((∀ op ∈ ops, ∀ p src bud col splits, op ≠ .partition p src bud col splits) →
      NamesDisjoint (run env (init b tables : World M T D) ops)) := by
  have hinit : ∀ (i : Nat) (n : Node M T), (init b tables : World M T D).nodes[i]? = some n →
      n.tables = tables ∧ (init b tables : World M T D).pubOf n = [] := by
    intro i n hn
    cases i with
    | zero =>
      simp only [init, List.getElem?_cons_zero, Option.some.injEq] at hn
      subst hn
      exact ⟨rfl, rfl⟩
    | succ i => simp [init] at hn
  constructor
  · have : NamesDistinct (run env (init b tables : World M T D) ops) ∧
        SharedPub (run env (init b tables : World M T D) ops) := by
      apply run_induction (env := env) (P := fun w : World M T D => NamesDistinct w ∧ SharedPub w)
      · rintro w op res w' ⟨hd, hsh⟩ hst
        refine ⟨?_, sharedPub_step hsh hst⟩
        intro i n' hn'
        constructor
        · rcases step_nodes hst i n' hn' with ⟨n, h1, _, h3⟩ | ⟨_, _, _, _, _, _, _, _, _, _, _, h3, _⟩
          · rcases h3 with h3 | ⟨q, name, t, _, h3, h4, _⟩ | ⟨name, h3⟩
            · rw [h3]; exact (hd i n h1).1
            · rw [h3]; exact List.nodup_cons.mpr ⟨h4, (hd i n h1).1⟩
            · rw [h3]; exact names_filter _ (hd i n h1).1
          · rw [h3]; simp [names]
        · rw [(sharedPub_step hsh hst).pubOf hn']
          rcases step_heap hst with e | ⟨j, name, df, df', n, _, hj, g1, _, e, _⟩
          · rw [e]
            rcases step_nodes hst i n' hn' with ⟨n, h1, _⟩ | ⟨p, _, _, _, _, n, _, _, _, h1, _⟩
            · rw [← hsh.pubOf h1]; exact (hd _ n h1).2
            · rw [← hsh.pubOf h1]; exact (hd _ n h1).2
          · rw [e, pub_after hsh hj]
            have := (hd j n hj).2
            simp only [names, List.map_append, List.map_cons, List.map_nil] at this g1 ⊢
            rw [List.nodup_append]
            refine ⟨this, by simp, ?_⟩
            intro a ha b hb
            simp only [List.mem_singleton] at hb
            rintro rfl
            rw [hb] at ha
            exact g1 ha
      · refine ⟨?_, sharedPub_init b tables⟩
        intro i n hn
        obtain ⟨h1, h2⟩ := hinit i n hn
        rw [h1, h2]
        exact ⟨htab, by simp [names]⟩
    exact this.1
  · intro hnop
    -- without partitions there is only session 0
    have : NamesDisjoint (run env (init b tables : World M T D) ops) ∧
        SharedPub (run env (init b tables : World M T D) ops) ∧
        (∀ (i : Nat) (n : Node M T),
          (run env (init b tables : World M T D) ops).nodes[i]? = some n → i = 0) := by
      apply run_induction_of (env := env)
        (P := fun w : World M T D => NamesDisjoint w ∧ SharedPub w ∧
          ∀ (i : Nat) (n : Node M T), w.nodes[i]? = some n → i = 0)
        (C := fun op => ∀ p src bud col splits, op ≠ .partition p src bud col splits) _ ops _ hnop
      · refine ⟨?_, sharedPub_init b tables, ?_⟩
        · intro i n hn
          rw [(hinit i n hn).2]
          simp [names]
        · intro i n hn
          cases i with
          | zero => rfl
          | succ i => simp [init] at hn
      · rintro w op res w' hnp ⟨hd, hsh, hone⟩ hst
        refine ⟨?_, sharedPub_step hsh hst, ?_⟩
        · intro i n' hn' x hx
          rw [(sharedPub_step hsh hst).pubOf hn']
          rcases step_nodes hst i n' hn' with ⟨n, h1, _, h3⟩ | ⟨_, _, _, _, _, _, _, _, h, _⟩
          · rcases step_heap hst with e | ⟨j, name, df, df', m, hop, hj, g1, g2, e, hnodes⟩
            · rw [e, ← hsh.pubOf h1]
              rcases h3 with h3 | ⟨q, name, t, _, h3, _, h5⟩ | ⟨name, h3⟩
              · rw [h3] at hx; exact hd i n h1 x hx
              · rw [h3] at hx
                simp only [names, List.map_cons, List.mem_cons] at hx
                rcases hx with rfl | hx
                · exact h5
                · exact hd i n h1 x hx
              · rw [h3] at hx
                have : x ∈ names n.tables := by
                  simp only [names, List.mem_map] at hx ⊢
                  obtain ⟨a, ha, rfl⟩ := hx
                  exact ⟨a, List.mem_of_mem_filter ha, rfl⟩
                exact hd i n h1 x this
            · have hj0 := hone j m hj
              have hi0 := hone i n h1
              rw [hi0] at h1
              rw [hj0] at hj
              rw [h1] at hj
              cases hj
              rw [e, pub_after hsh h1]
              simp only [names, List.map_append, List.map_cons, List.map_nil, List.mem_append,
                List.mem_singleton, not_or]
              have hn'eq : n' = n := by
                rw [hnodes, hi0] at hn'
                rw [h1] at hn'
                cases hn'
                rfl
              rw [hn'eq] at hx
              refine ⟨hd 0 n h1 x hx, ?_⟩
              rintro rfl
              exact g2 hx
          · exact absurd h (hnp _ _ _ _ _)
        · intro i n' hn'
          rcases step_nodes hst i n' hn' with ⟨n, h1, _⟩ | ⟨_, _, _, _, _, _, _, _, h, _⟩
          · exact hone i n h1
          · exact absurd h (hnp _ _ _ _ _)
    exact this.1

/-! ## C47 -/

/-- **C47, the claim is false.** After any history, a successful `add_public_dataframe` on one session
adds the table to *every* session of the tree: the sessions made by `partition_and_create` hold the same
dict object. -/
theorem C47_public_tables_leak {env : Env Q M T D V} (b : PB) (tables : List (String × T))
    (ops : List (Op Q D V)) (i : Nat) (name : String) (df : D) (out : Out M)
    (hok : (step env (run env (init b tables : World M T D) ops) (.addPublic i name df)).1 = .ok out) :
    let w := run env (init b tables : World M T D) ops
    let w' := (step env w (.addPublic i name df)).2
    ∃ df', env.coerce df = .ok df' ∧ ∀ j n, w.nodes[j]? = some n →
      observe w' j = some ⟨n.remaining, n.tables, w.pubOf n ++ [(name, df')]⟩ := by
  intro w w'
  have hsh : SharedPub w := run_induction SharedPub (fun _ _ _ _ h hs => sharedPub_step h hs) ops _
    (sharedPub_init b tables)
  have hst : Step env w (.addPublic i name df) (step env w (.addPublic i name df)).1 w' :=
    step_cases env w _
  have hok : (step env w (.addPublic i name df)).1 = .ok out := hok
  rw [hok] at hst
  generalize w' = w' at hst
  generalize w = w at hst hsh
  cases hst with
  | addPublic i name df df' n hn hi h1 h2 hc =>
    refine ⟨df', hc, ?_⟩
    intro j m hm
    simp only [observe, hm, Option.map_some, Option.some.injEq, Observed.mk.injEq, true_and]
    unfold World.pubOf
    simp only
    rw [hsh.2 j m hm, pub_after hsh hn]
    rw [hsh.2 i n hn]

/-- **C47** (partial): adding a public table never changes the private tables or the remaining budget of
any session. Missing: the public tables of other sessions do change, see `C47_public_tables_leak`. -/
theorem C47_private_unaffected_partial {env : Env Q M T D V} (w : World M T D) (i : Nat)
    (name : String) (df : D) :
    (step env w (.addPublic i name df)).2.nodes = w.nodes := by
  simp only [step, addPublic]
  repeat' split
  all_goals rfl

end Verif.Session
