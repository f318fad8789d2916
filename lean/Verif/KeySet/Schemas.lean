import Verif.KeySet.Class
import Verif.KeySet.Traverse
import Verif.KeySet.Frames

/-!
# Schemas of KeySets describe their keys
-/

namespace Verif.KeySet

open Verif Verif.Schema

/-- A value is as described: of the type, or null where that is allowed. -/
def Fits (d : Desc) (v : Value) : Prop := (v = .null ∧ d.allowNull = true) ∨ vtype v = some d.ty

/-- Leaves whose values are as described: the values given to `from_tuples` have the types it finds, and those of a
Spark data frame the types in its schema, with nulls in nullable columns only (as Spark sees to). -/
def Leaf : Op → Prop
  | .detect _ => False
  | .tuples ts ds => ∀ t ∈ ts, ∀ p ∈ ds, Fits p.2 (cell (ds.map Prod.fst) t p.1)
  | .frame df => ∀ t ∈ df.rows, ∀ f ∈ df.fields, ∀ d, fieldDesc f = some d →
      Fits d (cell (df.fields.map Field.name) t f.name)
  | _ => True

theorem fine_noPlan {E : Env} {op : Op} (hp : ∀ cs, ¬ E.leaf (.detect cs)) (g : op.Fine E) : op.isPlan = false := by
  induction op using Op.ind with
  | hd cs => exact absurd g (hp cs)
  | ht ts ds => rfl
  | hf df => rfl
  | hc m fs ih =>
    have := fineL_iff.1 g.1
    show isPlanL fs = false
    rw [← Bool.not_eq_true, isPlanL_iff]
    rintro ⟨f, hf, h⟩
    rw [ih f hf (this f hf)] at h
    cases h
  | hj l r hl hr => simp [Op.isPlan, hl g.1, hr g.2]
  | hp c cs ih => exact ih g.2
  | hfi c k ih => exact ih g
  | hs l r hl hr => exact hl g.1
  | hu l r hl hr => simp [Op.isPlan, hl g.1, hr g.2]

theorem fieldDescs_keys {fs : List Field} {ds : List (String × Desc)} (h : fieldDescs fs = some ds) :
    ds.map Prod.fst = fs.map Field.name := by
  induction fs generalizing ds with
  | nil => cases h; rfl
  | cons f fs ih =>
    dsimp only [fieldDescs] at h
    split at h
    · rename_i d es _ he
      cases h
      simp [ih he]
    · cases h

theorem fieldDescs_mem {fs : List Field} {ds : List (String × Desc)} (h : fieldDescs fs = some ds) {p : String × Desc}
    (hp : p ∈ ds) : ∃ f ∈ fs, f.name = p.1 ∧ fieldDesc f = some p.2 := by
  induction fs generalizing ds with
  | nil => cases h; cases hp
  | cons f fs ih =>
    dsimp only [fieldDescs] at h
    split at h
    · rename_i d es hd he
      cases h
      rcases List.mem_cons.1 hp with rfl | hp
      · exact ⟨f, by simp, rfl, hd⟩
      · obtain ⟨g, hg, h1, h2⟩ := ih he hp
        exact ⟨g, by simp [hg], h1, h2⟩
    · cases h

/-- A schema that is a dictionary with the columns of the tree. -/
def HasSchema (op : Op) (s : Dict String Desc) : Prop :=
  op.schema = .ok s ∧ Dict.WF s ∧ ∀ c, c ∈ Dict.keys s ↔ c ∈ op.columns

theorem wf_map {a : Dict String Desc} (g : String × Desc → Desc) (w : Dict.WF a) :
    Dict.WF (a.map (fun p => (p.1, g p))) := by
  unfold Dict.WF at *
  rwa [List.map_map]

theorem keys_map (a : Dict String Desc) (g : String × Desc → Desc) :
    Dict.keys (a.map (fun p => (p.1, g p))) = Dict.keys a := by
  unfold Dict.keys
  rw [List.map_map]
  rfl

theorem get_map (a : Dict String Desc) (g : String × Desc → Desc) (c : String) :
    Dict.get (a.map (fun p => (p.1, g p))) c = (Dict.get a c).map (fun d => g (c, d)) := by
  induction a with
  | nil => rfl
  | cons p a ih =>
    rw [List.map_cons, Dict.get_cons, Dict.get_cons, ih]
    by_cases h : c = p.1
    · subst h; simp
    · simp [h]

/-- `{c: schema[c] for c in cs}` -/
theorem get_pick (a : Dict String Desc) (cs : List String) (c : String) :
    Dict.get (cs.filterMap (fun x => (Dict.get a x).map (fun d => (x, d)))) c = if c ∈ cs then Dict.get a c else none := by
  induction cs with
  | nil => simp
  | cons x cs ih =>
    rw [List.filterMap_cons]
    cases hx : Dict.get a x with
    | none =>
      simp only [Option.map_none, ih, List.mem_cons]
      by_cases hc : c = x
      · subst hc; simp [hx]
      · simp [hc]
    | some d =>
      simp only [Option.map_some, Dict.get_cons, ih, List.mem_cons]
      by_cases hc : c = x
      · subst hc; simp [hx]
      · simp [hc]

theorem keys_pick (a : Dict String Desc) (cs : List String) :
    Dict.keys (cs.filterMap (fun x => (Dict.get a x).map (fun d => (x, d)))) =
      cs.filter (fun x => decide (x ∈ Dict.keys a)) := by
  induction cs with
  | nil => rfl
  | cons x cs ih =>
    rw [List.filterMap_cons, List.filter_cons]
    cases hx : Dict.get a x with
    | none =>
      have : x ∉ Dict.keys a := Dict.get_eq_none.1 hx
      simp [this, ih]
    | some d =>
      have : x ∈ Dict.keys a := by rw [← Dict.get_isSome, hx]; rfl
      simp only [Option.map_some, this, decide_true, if_true]
      show x :: Dict.keys _ = _
      rw [ih]

/-- Trees without detected keys have a schema, for exactly their columns. -/
theorem schema_total {op : Op} (w : op.WF) (hp : op.isPlan = false) : ∃ s, HasSchema op s := by
  induction op using Op.ind with
  | hd cs => cases hp
  | ht ts ds => exact ⟨ds, rfl, w.2.2.1, fun _ => Iff.rfl⟩
  | hf df =>
    obtain ⟨d, hd, _, _⟩ := check_frame w.1
    refine ⟨d, ?_, ?_⟩
    · dsimp only [Op.schema]
      rw [hd]
    · unfold sparkSchemaToAnalytics at hd
      split at hd
      · cases hd
      · rename_i ds hds
        cases hd
        have hk := fieldDescs_keys hds
        have hn : (ds.map Prod.fst).Nodup := hk ▸ w.2.1
        rw [Dict.ofPairs_eq hn]
        refine ⟨hn, fun c => ?_⟩
        show c ∈ ds.map Prod.fst ↔ _
        rw [hk]
        rfl
  | hc m fs ih =>
    have hpl : ∀ f ∈ fs, f.isPlan = false := by
      intro f hf
      by_contra h
      have : isPlanL fs = true := isPlanL_iff.2 ⟨f, hf, by simpa using h⟩
      have hp' : isPlanL fs = false := hp
      rw [hp'] at this
      cases this
    have hw := wfL_iff.1 w.2
    have : ∀ gs : List Op, (∀ f ∈ gs, ∃ s, HasSchema f s) →
        ∃ s, schemaL gs = .ok s ∧ Dict.WF s ∧ ∀ c, c ∈ Dict.keys s ↔ c ∈ columnsL gs := by
      intro gs
      induction gs with
      | nil => exact fun _ => ⟨[], rfl, Dict.wf_nil, by simp [columnsL]⟩
      | cons f gs ih2 =>
        intro hh
        obtain ⟨b, hb, wb, kb⟩ := ih2 (fun x hx => hh x (by simp [hx]))
        obtain ⟨a, ha, wa, ka⟩ := hh f (by simp)
        refine ⟨Dict.union a b, ?_, Dict.wf_union wa _, fun c => ?_⟩
        · dsimp only [schemaL]
          rw [ha, hb]
        · rw [Dict.keys_union _ _ wb]
          simp only [List.mem_append, List.mem_filter, decide_eq_true_eq, columnsL]
          rw [ka, kb]
          by_cases hc : c ∈ f.columns
          · simp [hc]
          · have : c ∉ Dict.keys a := by rwa [ka]
            simp [hc]
    exact this fs (fun f hf => ih f hf (hw f hf) (hpl f hf))
  | hj l r hl hr =>
    simp only [Op.isPlan, Bool.or_eq_false_iff] at hp
    obtain ⟨a, ha, wa, ka⟩ := hl w.2.1 hp.1
    obtain ⟨b, hb, wb, kb⟩ := hr w.2.2 hp.2
    refine ⟨Dict.union a (b.map (fun p => (p.1, joinDesc a p))), ?_, Dict.wf_union wa _, fun c => ?_⟩
    · dsimp only [Op.schema]
      rw [ha, hb]
    · rw [Dict.keys_union _ _ (wf_map _ wb), keys_map, mem_join_columns]
      simp only [List.mem_append, List.mem_filter, decide_eq_true_eq]
      rw [ka, kb]
      by_cases hc : c ∈ l.columns
      · simp [hc]
      · simp [hc]
  | hp c cs ih =>
    obtain ⟨a, ha, wa, ka⟩ := ih w.2.2 hp
    have hk := keys_pick a cs
    rw [List.filter_eq_self.2] at hk
    · refine ⟨cs.filterMap (fun x => (Dict.get a x).map (fun d => (x, d))), ?_, ?_, fun x => ?_⟩
      · dsimp only [Op.schema]
        rw [ha]
      · rw [Dict.wf_iff, hk]
        exact w.2.1
      · rw [hk]
        rfl
    · intro x hx
      simpa [ka] using (check_project w.1).2 x hx
  | hfi c k ih => exact ih w.2 hp
  | hs l r hl hr => exact hl w.2.1 hp
  | hu l r hl hr =>
    simp only [Op.isPlan, Bool.or_eq_false_iff] at hp
    obtain ⟨a, ha, wa, ka⟩ := hl w.2.1 hp.1
    obtain ⟨b, hb, wb, kb⟩ := hr w.2.2 hp.2
    refine ⟨a.map (fun p => (p.1, unionDesc b p)), ?_, wf_map _ wa, fun c => ?_⟩
    · dsimp only [Op.schema]
      rw [ha, hb]
    · rw [keys_map]
      exact ka c

theorem HasSchema.get {op : Op} {s t : Dict String Desc} (h : HasSchema op s) (h' : op.schema = .ok t) : s = t := by
  have := h.1
  rw [h'] at this
  cases this
  rfl

/-- The validation of a union compares types. -/
theorem check_union_types {l r : Op} {a b : Dict String Desc} (h : check (.union l r) = .ok ())
    (hl : l.isPlan = false) (hr : r.isPlan = false) (ha : l.schema = .ok a) (hb : r.schema = .ok b) :
    ∀ c ∈ l.columns, (Dict.get a c).map Desc.ty = (Dict.get b c).map Desc.ty := by
  dsimp only [check] at h
  split at h
  · cases h
  rw [hl, hr, ha, hb] at h
  simp only [Bool.or_self, Bool.false_eq_true, if_false] at h
  split at h
  · rename_i h1
    simpa [sameTypes] using h1
  · cases h

/-- Every key has values as the schema describes them. -/
theorem schema_describes {E : Env} {op : Op} {s : Dict String Desc} (w : op.WF) (hf : op.Fine E) (hE : E.leaf = Leaf)
    (h : op.schema = .ok s) {ρ : Assign} (hm : op.Matches E ρ) {c : String} {d : Desc} (hg : Dict.get s c = some d) :
    Fits d (ρ c) := by
  have hdet : ∀ cs, ¬ E.leaf (.detect cs) := by intro cs; rw [hE]; exact id
  induction op using Op.ind generalizing s ρ c d with
  | hd cs => cases h
  | ht ts ds =>
    cases h
    have hl : Leaf (.tuples ts ds) := by rw [← hE]; exact hf
    have hmem := Dict.mem_of_get hg
    rcases hm with rfl | hm
    · cases hmem
    · have := hl _ hm (c, d) hmem
      rwa [cell_map ρ (List.mem_map_of_mem hmem)] at this
  | hf df =>
    have hl : Leaf (.frame df) := by rw [← hE]; exact hf
    dsimp only [Op.schema] at h
    split at h
    · rename_i ds hds
      cases h
      unfold sparkSchemaToAnalytics at hds
      split at hds
      · cases hds
      · rename_i es hes
        cases hds
        have hn : (es.map Prod.fst).Nodup := fieldDescs_keys hes ▸ w.2.1
        rw [Dict.ofPairs_eq hn] at hg
        obtain ⟨f, hfm, hfn, hfd⟩ := fieldDescs_mem hes (Dict.mem_of_get hg)
        rcases hm with hm | hm
        · rw [hm] at hfm
          cases hfm
        · have := hl _ hm f hfm d hfd
          rw [cell_map ρ (List.mem_map_of_mem hfm), hfn] at this
          exact this
    · cases h
  | hc m fs ih =>
    have hw := wfL_iff.1 w.2
    have hff := fineL_iff.1 hf.1
    have hmm := matchesL_iff.1 (show matchesL E fs ρ from hm)
    have : ∀ gs : List Op, (∀ f ∈ gs, f ∈ fs) → ∀ t, schemaL gs = .ok t → Dict.get t c = some d → Fits d (ρ c) := by
      intro gs
      induction gs with
      | nil =>
        intro _ t ht hgt
        cases ht
        cases hgt
      | cons f gs ih2 =>
        intro hsub t ht hgt
        have hfm := hsub f (by simp)
        dsimp only [schemaL] at ht
        split at ht
        · rename_i a b ha hb
          cases ht
          have wb : Dict.WF b := by
            obtain ⟨s', hs'⟩ : ∃ s, schemaL gs = .ok s ∧ Dict.WF s := by
              clear ih2 hgt
              induction gs generalizing b with
              | nil => exact ⟨[], rfl, Dict.wf_nil⟩
              | cons g gs ih3 =>
                dsimp only [schemaL] at hb
                split at hb
                · rename_i x y hx hy
                  cases hb
                  have hgm := hsub g (by simp)
                  obtain ⟨x', hx'⟩ := schema_total (hw g hgm) (fine_noPlan hdet (hff g hgm))
                  cases hx'.get hx
                  refine ⟨Dict.union x y, ?_, Dict.wf_union hx'.2.1 _⟩
                  dsimp only [schemaL]
                  rw [hx, hy]
                · cases hb
                · cases hb
            rw [hb] at hs'
            cases hs'.1
            exact hs'.2
          rw [Dict.get_union _ _ wb] at hgt
          cases hgb : Dict.get b c with
          | some d' =>
            rw [hgb] at hgt
            cases hgt
            exact ih2 (fun x hx => hsub x (by simp [hx])) b hb hgb
          | none =>
            rw [hgb] at hgt
            exact ih f hfm (hw f hfm) (hff f hfm) ha (hmm f hfm) hgt
        · cases ht
        · cases ht
    exact this fs (fun _ h => h) s h hg
  | hj l r hl hr =>
    have pl := fine_noPlan hdet hf.1
    have pr := fine_noPlan hdet hf.2
    obtain ⟨a, hsa⟩ := schema_total w.2.1 pl
    obtain ⟨b, hsb⟩ := schema_total w.2.2 pr
    dsimp only [Op.schema] at h
    rw [hsa.1, hsb.1] at h
    cases h
    rw [Dict.get_union _ _ (wf_map _ hsb.2.1), get_map] at hg
    cases hgb : Dict.get b c with
    | none =>
      rw [hgb] at hg
      exact hl w.2.1 hf.1 hsa.1 hm.1 hg
    | some db =>
      rw [hgb] at hg
      simp only [Option.map_some, Option.some_or, Option.some.injEq] at hg
      have fb := hr w.2.2 hf.2 hsb.1 hm.2 hgb
      unfold joinDesc at hg
      cases hga : Dict.get a c with
      | none =>
        rw [hga] at hg
        cases hg
        exact fb
      | some da =>
        have fa := hl w.2.1 hf.1 hsa.1 hm.1 hga
        rw [hga] at hg
        cases hg
        rcases fa with ⟨h1, h2⟩ | h1
        · rcases fb with ⟨_, h3⟩ | h3
          · exact .inl ⟨h1, by simp [h2, h3]⟩
          · rw [h1] at h3
            cases h3
        · exact .inr h1
  | hp c' cs ih =>
    obtain ⟨a, hsa⟩ := schema_total w.2.2 (fine_noPlan hdet hf.2)
    dsimp only [Op.schema] at h
    rw [hsa.1] at h
    cases h
    rw [get_pick] at hg
    split at hg
    · rename_i hc
      obtain ⟨ρ', h1, h2⟩ := hm
      rw [← h1 c hc]
      exact ih w.2.2 hf.2 hsa.1 h2 hg
    · cases hg
  | hfi c' k ih => exact ih w.2 hf h hm.1 hg
  | hs l r hl hr => exact hl w.2.1 hf.1 h hm.1 hg
  | hu l r hl hr =>
    have pl := fine_noPlan hdet hf.1
    have pr := fine_noPlan hdet hf.2
    obtain ⟨a, hsa⟩ := schema_total w.2.1 pl
    obtain ⟨b, hsb⟩ := schema_total w.2.2 pr
    have hty := check_union_types w.1 pl pr hsa.1 hsb.1
    dsimp only [Op.schema] at h
    rw [hsa.1, hsb.1] at h
    cases h
    rw [get_map] at hg
    cases hga : Dict.get a c with
    | none => rw [hga] at hg; cases hg
    | some da =>
      rw [hga] at hg
      simp only [Option.map_some, Option.some.injEq] at hg
      unfold unionDesc at hg
      have hcl : c ∈ l.columns := by
        rw [← hsa.2.2, ← Dict.get_isSome, hga]; rfl
      have hcr : c ∈ r.columns := (check_union w.1 c).1 hcl
      cases hgb : Dict.get b c with
      | none =>
        rw [Dict.get_eq_none, hsb.2.2] at hgb
        exact absurd hcr hgb
      | some db =>
        rw [hgb] at hg
        cases hg
        have ht := hty c hcl
        rw [hga, hgb] at ht
        simp only [Option.map_some, Option.some.injEq] at ht
        rcases hm with hm | hm
        · rcases hl w.2.1 hf.1 hsa.1 hm hga with ⟨h1, h2⟩ | h1
          · exact .inl ⟨h1, by simp [h2]⟩
          · exact .inr h1
        · rcases hr w.2.2 hf.2 hsb.1 hm hgb with ⟨h1, h2⟩ | h1
          · exact .inl ⟨h1, by simp [h2]⟩
          · exact .inr (by rw [h1, ht])

end Verif.KeySet
