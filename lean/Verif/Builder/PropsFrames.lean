import Verif.Builder.PropsEqFails

/-!
# C46: when two public tables compare equal
-/

namespace Verif.Builder

open Verif Verif.Schema Verif.Expr Verif.Constraint Verif.Query

/-! ## Specification -/

/-- A value of a type, other than null and NaN. -/
def Plain : ColumnType → Value → Prop
  | .INTEGER, .int _ => True
  | .DECIMAL, .dec x => x ≠ .nan
  | .VARCHAR, .str _ => True
  | .DATE, .date _ => True
  | .TIMESTAMP, .ts _ => True
  | _, _ => False

/-- A data frame with rows, and without nulls and NaNs. -/
def PlainFrame (s : Schema) (rows : Table) : Prop := rows ≠ [] ∧ ∀ r ∈ rows, ∀ p ∈ s.descs, Plain p.2.ty (cell r p.1)

/-- The contents of a data frame. -/
def contents (cols : List String) (rows : Table) : List (List Value) := rows.map (fun r => cols.map (cell r))

/-! ## Proofs -/

/-- What was in the cell. -/
def unPd : PdType → Option Value → Value
  | .int, some (.dec (.fin q)) => .int q.num
  | _, some v => v
  | _, none => .null

theorem pdType_plain {s : Schema} {rows : Table} (h : PlainFrame s rows) {c : String} {d : Desc} (hm : (c, d) ∈ s.descs) :
    pdType rows c d.ty = match d.ty with
      | .INTEGER => .int | .DECIMAL => .float | .VARCHAR => .object | .DATE => .object | .TIMESTAMP => .datetime := by
  cases hd : d.ty <;> simp only [pdType]
  rw [if_neg]
  rw [List.any_eq_true]
  rintro ⟨r, hr, hn⟩
  have := h.2 r hr _ hm
  rw [of_decide_eq_true hn, hd] at this
  exact this

theorem unPd_cell {s : Schema} {rows : Table} (h : PlainFrame s rows) {c : String} {d : Desc} (hm : (c, d) ∈ s.descs)
    {r : Row} (hr : r ∈ rows) : unPd (pdType rows c d.ty) (pdCell (cell r c)) = cell r c := by
  rw [pdType_plain h hm]
  have := h.2 r hr _ hm
  dsimp only at this
  revert this
  generalize cell r c = v
  cases d.ty <;> cases v <;> simp only [Plain, false_imp_iff, forall_const]
  · simp [pdCell, unPd]
  · next x => cases x <;> simp [pdCell, unPd]
  · simp [pdCell, unPd]
  · simp [pdCell, unPd]
  · simp [pdCell, unPd]

theorem plain_type {t t' : ColumnType} {v : Value} (h : Plain t v) (h' : Plain t' v) : t = t' := by
  cases t <;> cases t' <;> cases v <;> simp [Plain] at h h' ⊢

theorem pdRows_contents (cols : List String) (rows : Table) : pdRows cols rows = (contents cols rows).map (List.map pdCell) := by
  simp [pdRows, contents]

/-- Read a row back, given the types of the columns. -/
theorem contents_back {K : List String} {rows : Table} {ts : List PdType}
    (h : ∀ r ∈ rows, List.zipWith unPd ts (K.map (fun c => pdCell (cell r c))) = K.map (cell r)) :
    (pdRows K rows).map (List.zipWith unPd ts) = contents K rows := by
  simp only [pdRows, contents, List.map_map]
  exact List.map_congr_left h

theorem zip_back {l : List (String × Desc)} {ty : String × Desc → PdType} {r : Row}
    (h : ∀ p ∈ l, unPd (ty p) (pdCell (cell r p.1)) = cell r p.1) :
    List.zipWith unPd (l.map ty) ((l.map Prod.fst).map (fun c => pdCell (cell r c))) = (l.map Prod.fst).map (cell r) := by
  induction l with
  | nil => rfl
  | cons p l ih =>
    simp only [List.map_cons, List.zipWith_cons_cons]
    rw [h p List.mem_cons_self, ih (fun q hq => h q (List.mem_cons_of_mem _ hq))]

/-- **C46**: two data frames with rows and without nulls and NaNs compare equal exactly if they have the same columns in the
same order, and the same rows up to order. The same number in an integer and in a floating point column is different. -/
theorem C46_frames {s s' : Schema} {r r' : Table} (h : PlainFrame s r) (h' : PlainFrame s' r') :
    dfEq s r s' r' = true ↔
      Schema.keys s = Schema.keys s' ∧ (contents (Schema.keys s) r).Perm (contents (Schema.keys s') r') := by
  have he : r.isEmpty = false := by simpa using h.1
  have he' : r'.isEmpty = false := by simpa using h'.1
  unfold dfEq
  rw [he, he']
  simp only [Bool.false_or, Bool.and_eq_true, decide_eq_true_eq, List.all_eq_true]
  constructor
  · rintro ⟨_, ⟨hk, ht⟩, hp⟩
    refine ⟨hk, ?_⟩
    rw [← hk]
    have hp' := hp.map (List.zipWith unPd (s.descs.map (fun p => pdType r p.1 p.2.ty)))
    have hks : Schema.keys s = s.descs.map Prod.fst := rfl
    rw [contents_back, contents_back] at hp'
    · exact hp'
    · intro row hrow
      rw [hks]
      refine zip_back fun p hp => ?_
      have := ht p hp
      cases hg : Dict.get s'.descs p.1 with
      | none => rw [hg] at this; cases this
      | some d =>
        rw [hg] at this
        have e : pdType r p.1 p.2.ty = pdType r' p.1 d.ty := by simpa using this
        rw [e]
        exact unPd_cell h' (Dict.mem_of_get hg) hrow
    · intro row hrow
      rw [hks]
      exact zip_back fun p hp => unPd_cell h hp hrow
  · rintro ⟨hk, hp⟩
    rw [← hk] at hp
    refine ⟨by rw [hk], ⟨hk, ?_⟩, ?_⟩
    · rintro ⟨c, d⟩ hm
      have hc : c ∈ Schema.keys s' := hk ▸ (List.mem_map.2 ⟨_, hm, rfl⟩ : c ∈ s.descs.map Prod.fst)
      obtain ⟨d', hg⟩ : ∃ d', Dict.get s'.descs c = some d' := Option.isSome_iff_exists.1 (Dict.get_isSome.2 hc)
      have hm' := Dict.mem_of_get hg
      obtain ⟨row, hrow⟩ := List.exists_mem_of_ne_nil _ h.1
      have hin : (Schema.keys s).map (cell row) ∈ contents (Schema.keys s) r' :=
        hp.mem_iff.1 (List.mem_map.2 ⟨row, hrow, rfl⟩)
      obtain ⟨row', hrow', heq⟩ := List.mem_map.1 hin
      have hcell : cell row' c = cell row c := List.map_inj_left.1 heq c (List.mem_map.2 ⟨_, hm, rfl⟩)
      have ht := plain_type (hcell ▸ h'.2 row' hrow' _ hm') (h.2 row hrow _ hm)
      show some _ = (Dict.get s'.descs c).map _
      rw [hg, Option.map_some, pdType_plain h hm, pdType_plain h' hm', ht]
    · rw [pdRows_contents, pdRows_contents]
      exact hp.map _

/-- The hypotheses can be met, with rows in another order, and with other rows. -/
theorem C46_frames_example :
    PlainFrame Example.pubSchema [[("x", .int 3), ("y", .dec (.fin 1))], [("x", .int 4), ("y", .dec .pinf)]] ∧
    dfEq Example.pubSchema [[("x", .int 3), ("y", .dec (.fin 1))], [("x", .int 4), ("y", .dec .pinf)]]
      Example.pubSchema [[("x", .int 4), ("y", .dec .pinf)], [("x", .int 3), ("y", .dec (.fin 1))]] = true ∧
    dfEq Example.pubSchema [[("x", .int 3), ("y", .dec (.fin 1))], [("x", .int 4), ("y", .dec .pinf)]]
      Example.pubSchema [[("x", .int 4), ("y", .dec .pinf)], [("x", .int 4), ("y", .dec .pinf)]] = false := by
  refine ⟨⟨by simp, ?_⟩, by decide +kernel, by decide +kernel⟩
  intro r hr p hp
  simp only [List.mem_cons, List.not_mem_nil, or_false] at hr
  have hp : p ∈ [("x", (⟨.INTEGER, false, false, false⟩ : Desc)), ("y", ⟨.DECIMAL, true, true, true⟩)] := hp
  simp only [List.mem_cons, List.not_mem_nil, or_false] at hp
  rcases hr with rfl | rfl <;> rcases hp with rfl | rfl 
  · exact True.intro
  · exact (nofun : Flt.fin 1 ≠ Flt.nan)
  · exact True.intro
  · exact (nofun : Flt.pinf ≠ Flt.nan)

end Verif.Builder
