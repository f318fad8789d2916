import Verif.Expr.PropsGrouping

/-!
# C57: what the documentation says transformations return (specification)

The specification looks at tables cell by cell and up to the order of rows. It says nothing about how a table is
computed, and leaves open what the documentation leaves open (which rows a truncation keeps, the order of rows, the
order of columns). Schemas are only used for the names and types of columns and for the ID column.
-/

namespace Verif.Meaning

open Verif Verif.Schema Verif.Constraint Verif.Expr

/-! ## Tables from tables -/

/-- One new row for every row. -/
def Each (R : Row → Row → Prop) (t t' : Table) : Prop := ∃ u, List.Forall₂ R t u ∧ t'.Perm u

/-- Some new rows for every row. -/
def Expands (R : Row → Table → Prop) (t t' : Table) : Prop := ∃ us, List.Forall₂ R t us ∧ t'.Perm us.flatten

/-! ## Rows -/

/-- The new name of a column. -/
def NewName (m : Dict String String) (c n : String) : Prop := (c, n) ∈ m ∨ n = c ∧ ∀ n', (c, n') ∉ m

/-- `rename`: every column keeps its value under its new name, and there are no other columns. -/
def Renamed (m : Dict String String) (r r' : Row) : Prop :=
  (∀ c n v, NewName m c n → Row.get r c = some v → Row.get r' n = some v) ∧
    ∀ n v, Row.get r' n = some v → ∃ c, NewName m c n ∧ Row.get r c = some v

/-- `select`. -/
def Selected (cols : List String) (r r' : Row) : Prop :=
  ∀ c, Row.get r' c = if c ∈ cols then Row.get r c else none

/-- A row `x` made by a user's function from row `r`: alone, or added to it. -/
def Made (augment : Bool) (r x r' : Row) : Prop :=
  ∀ c, Row.get r' c = (Row.get x c).or (if augment then Row.get r c else none)

/-- The cells of a row, some of them replaced. -/
def Replaced (P : String → Value → Value → Prop) (r r' : Row) : Prop :=
  ∀ c, match Row.get r c with
    | none => Row.get r' c = none
    | some v => ∃ v', Row.get r' c = some v' ∧ P c v v'

def Missing (v : Value) : Prop := v = .null ∨ v = .dec .nan

/-- `AnalyticsDefault`. -/
def defaultFor : ColumnType → Value
  | .VARCHAR => .str ""
  | .DECIMAL => .dec (.fin 0)
  | .INTEGER => .int 0
  | .DATE => .date 0
  | .TIMESTAMP => .ts 0

/-- An integer given for a column of floats is the float of that value. -/
def asType : ColumnType → Value → Value
  | .DECIMAL, .int z => .dec (.fin z)
  | _, v => v

/-- `replace_null_and_nan`: in the given columns, or in all columns but the ID and the grouping column, nulls and
NaNs are replaced by the given value or the default for the type. Other values stay. -/
def NullReplaced (s : Schema) (grp : Option String) (w : Dict String Value) (c : String) (v v' : Value) : Prop :=
  ∀ d, (c, d) ∈ s.columnDescs.elements →
    if w = [] then
      ((Missing v ∧ s.idColumn ≠ some c ∧ grp ≠ some c) → v' = defaultFor d.ty) ∧
        (¬ (Missing v ∧ s.idColumn ≠ some c ∧ grp ≠ some c) → v' = v)
    else
      (∀ x, (c, x) ∈ w → Missing v → v' = asType d.ty x) ∧ ((Missing v → ∀ x, (c, x) ∉ w) → v' = v)

/-- `replace_infinity`: -∞ by the first and ∞ by the second value. -/
def InfReplaced (w : Dict String (Value × Value)) (c : String) (v v' : Value) : Prop :=
  if w = [] then
    (v = .dec .ninf ∨ v = .dec .pinf → v' = .dec (.fin 0)) ∧ (v ≠ .dec .ninf → v ≠ .dec .pinf → v' = v)
  else
    (∀ x, (c, x) ∈ w → v = .dec .ninf → v' = asType .DECIMAL x.1) ∧
      (∀ x, (c, x) ∈ w → v = .dec .pinf → v' = asType .DECIMAL x.2) ∧
      (((∀ x, (c, x) ∉ w) ∨ (v ≠ .dec .ninf ∧ v ≠ .dec .pinf)) → v' = v)

/-! ## Joins -/

/-- The columns of a natural join: the given ones or all common ones. -/
def onCols (given : Option (List String)) (lk rk : List String) : List String :=
  match given with
  | some (c :: cs) => c :: cs
  | _ => lk.filter (· ∈ rk)

/-- Two rows have the same values in some columns. -/
def sameOn (on : List String) (l r : Row) : Bool := on.all (fun c => Row.get l c == Row.get r c)

/-- A row of a join: one copy of each join column, the other columns of one table under their names, and those
of both tables with suffixes. `right` are the cells of the right row. -/
def Joined (lk rk on : List String) (l : Row) (right : String → Option Value) (x : Row) : Prop :=
  ∀ n v, Row.get x n = some v ↔
    (n ∈ on ∧ Row.get l n = some v) ∨ (n ∈ lk ∧ n ∉ rk ∧ Row.get l n = some v) ∨
    (n ∈ rk ∧ n ∉ lk ∧ right n = some v) ∨
    ∃ c ∈ lk, c ∈ rk ∧ c ∉ on ∧
      (n = c ++ "_left" ∧ Row.get l c = some v ∨ n = c ++ "_right" ∧ right c = some v)

/-- Every row of the left table with every row of its join group. -/
def InnerJoined (lk rk on : List String) (lt rt t' : Table) : Prop :=
  Expands (fun l us => List.Forall₂ (fun r x => Joined lk rk on l (Row.get r) x) (rt.filter (sameOn on l)) us) lt t'

/-- Rows of the left table without partner appear once, with nulls. -/
def LeftJoined (lk rk on : List String) (lt rt t' : Table) : Prop :=
  Expands (fun l us =>
    if rt.filter (sameOn on l) = [] then
      ∃ x, us = [x] ∧ Joined lk rk on l (fun c => if c ∈ rk then some .null else none) x
    else List.Forall₂ (fun r x => Joined lk rk on l (Row.get r) x) (rt.filter (sameOn on l)) us) lt t'

/-- `TruncationStrategy`: at most `n` rows with the same join key (as many as possible), or only the rows whose join
key no other row has. -/
def Truncated (on : List String) : Trunc → Table → Table → Prop
  | .dropExcess n, t, t' =>
    t'.Subperm t ∧ ∀ r ∈ t, (t'.filter (sameOn on r)).length = min n (t.filter (sameOn on r)).length
  | .dropNonUnique, t, t' => t'.Perm (t.filter (fun r => decide ((t.filter (sameOn on r)).length = 1)))

/-- The public table of a join. -/
def PublicTable (cat : Cat) (s : Schema) (t : Table) : PubRef → Prop
  | .name n => Dict.get cat.pub n = some (s, t)
  | .df s' t' => s' = s ∧ t' = t

/-! ## Other tables -/

/-- The rows a flat map keeps of those its function returns for a row. On tables with IDs all of them, otherwise
the first `max_rows`. A grouping flat map needs them to be distinct. -/
def FlatKept (s : Schema) (grouping : Bool) (maxRows : Option Nat) (xs ys : Table) : Prop :=
  (s.idColumn.isSome → ys = xs) ∧
    (s.idColumn = none → ∃ n, maxRows = some n ∧ ys.length ≤ n ∧ ys.Subperm xs ∧
      ((grouping = true → xs.Nodup) → ys = xs.take n))

/-- `flat_map_by_id`: the rows of every ID are what the function makes of the rows that ID had (in some order), with
the ID added. -/
def ByID (i : String) (f : List Row → List Row) (t t' : Table) : Prop :=
  ∀ v, if t.whereEq i v = [] then t'.whereEq i v = []
    else ∃ g, g.Perm (t.whereEq i v) ∧
      Each (fun x r' => ∀ c, Row.get r' c = if c = i then v else Row.get x c) (f g) (t'.whereEq i v)

/-- `enforce`: as few rows are dropped as possible; whole groups for a limit on groups. -/
def Enforced (i : String) : Constraint → Table → Table → Prop
  | .maxRowsPerID n, t, t' => t'.Subperm t ∧ ∀ v, (t'.whereEq i v).length = min n (t.whereEq i v).length
  | .maxGroupsPerID g n, t, t' =>
    (∀ v, ((t'.whereEq i v).map (fun r => Row.get r g)).dedup.length =
        min n ((t.whereEq i v).map (fun r => Row.get r g)).dedup.length) ∧
      ∀ v w, (t'.whereEq i v).whereEq g w = [] ∨ ((t'.whereEq i v).whereEq g w).Perm ((t.whereEq i v).whereEq g w)
  | .maxRowsPerGroupPerID g n, t, t' =>
    t'.Subperm t ∧ ∀ v w, ((t'.whereEq i v).whereEq g w).length = min n ((t.whereEq i v).whereEq g w).length

/-! ## Queries -/

/-- `MeansBy drops cat D e t'`: table `t'` is one the documentation allows for the transformations of `e` on the data
`D`; if `drops` is true, a left join of a table with IDs and a public table is an inner join. -/
def MeansBy (drops : Bool) (cat : Cat) (D : Data) : Expr → Table → Prop
  | .source id, t' => t'.Perm (D id)
  | .rename e m, t' => ∃ t, MeansBy drops cat D e t ∧ Each (Renamed m) t t'
  | .filter e _ cond, t' => ∃ t, MeansBy drops cat D e t ∧ t'.Perm (t.filter cond)
  | .select e cols, t' => ∃ t, MeansBy drops cat D e t ∧ Each (Selected cols) t t'
  | .map e f _ augment, t' => ∃ t, MeansBy drops cat D e t ∧ Each (fun r r' => Made augment r (f r) r') t t'
  | .flatMap e f new augment n, t' => ∃ t s, MeansBy drops cat D e t ∧ schemaOf cat e = .ok s ∧
      Expands (fun r us => ∃ ys, FlatKept s new.grouping.isSome n (f r) ys ∧
        List.Forall₂ (Made augment r) ys us) t t'
  | .flatMapByID e f _, t' => ∃ t s i, MeansBy drops cat D e t ∧ schemaOf cat e = .ok s ∧ s.idColumn = some i ∧
      ByID i f t t'
  | .joinPrivate l r tl tr cols, t' => ∃ lt rt ls rs, MeansBy drops cat D l lt ∧ MeansBy drops cat D r rt ∧
      schemaOf cat l = .ok ls ∧ schemaOf cat r = .ok rs ∧
      ∃ lt' rt', InnerJoined (Schema.keys ls) (Schema.keys rs) (onCols cols (Schema.keys ls) (Schema.keys rs)) lt' rt' t' ∧
        (ls.idColumn.isSome → lt' = lt ∧ rt' = rt) ∧
        (ls.idColumn = none → ∃ a b, tl = some a ∧ tr = some b ∧
          Truncated (onCols cols (Schema.keys ls) (Schema.keys rs)) a lt lt' ∧
          Truncated (onCols cols (Schema.keys ls) (Schema.keys rs)) b rt rt')
  | .joinPublic e pub cols how, t' => ∃ t s ps pt, MeansBy drops cat D e t ∧ schemaOf cat e = .ok s ∧
      PublicTable cat ps pt pub ∧
      match how with
      | .inner => InnerJoined (Schema.keys s) (Schema.keys ps) (onCols cols (Schema.keys s) (Schema.keys ps)) t pt t'
      | .left =>
        if drops && s.idColumn.isSome then
          InnerJoined (Schema.keys s) (Schema.keys ps) (onCols cols (Schema.keys s) (Schema.keys ps)) t pt t'
        else LeftJoined (Schema.keys s) (Schema.keys ps) (onCols cols (Schema.keys s) (Schema.keys ps)) t pt t'
  | .replaceNull e w, t' => ∃ t s, MeansBy drops cat D e t ∧ schemaOf cat e = .ok s ∧
      Each (Replaced (NullReplaced s (groupTag cat e) w)) t t'
  | .replaceInf e w, t' => ∃ t, MeansBy drops cat D e t ∧ Each (Replaced (InfReplaced w)) t t'
  | .dropNull e cols, t' => ∃ t s, MeansBy drops cat D e t ∧ schemaOf cat e = .ok s ∧ ∃ keep : Row → Bool,
      t'.Perm (t.filter keep) ∧ ∀ r ∈ t, keep r = true ↔ ∀ c v, Row.get r c = some v →
        (if cols = [] then s.idColumn ≠ some c ∧ groupTag cat e ≠ some c else c ∈ cols) → ¬ Missing v
  | .dropInf e cols, t' => ∃ t, MeansBy drops cat D e t ∧ ∃ keep : Row → Bool,
      t'.Perm (t.filter keep) ∧ ∀ r ∈ t, keep r = true ↔ ∀ c v, Row.get r c = some v →
        (cols = [] ∨ c ∈ cols) → v ≠ .dec .ninf ∧ v ≠ .dec .pinf
  | .enforce e c, t' => ∃ t s i, MeansBy drops cat D e t ∧ schemaOf cat e = .ok s ∧ s.idColumn = some i ∧
      Enforced i c t t'

/-- `Means cat D e t'`: table `t'` is one the documentation allows for the transformations of `e` on the data `D`. -/
abbrev Means (cat : Cat) (D : Data) (e : Expr) (t' : Table) : Prop := MeansBy false cat D e t'

/-- No left join of a public table with a table with IDs. -/
def NoLeftIDs (cat : Cat) : Expr → Prop
  | .source _ => True
  | .rename e _ => NoLeftIDs cat e
  | .filter e _ _ => NoLeftIDs cat e
  | .select e _ => NoLeftIDs cat e
  | .map e _ _ _ => NoLeftIDs cat e
  | .flatMap e _ _ _ _ => NoLeftIDs cat e
  | .flatMapByID e _ _ => NoLeftIDs cat e
  | .joinPrivate l r _ _ _ => NoLeftIDs cat l ∧ NoLeftIDs cat r
  | .joinPublic e _ _ how => NoLeftIDs cat e ∧ (how = .left → ∀ s, schemaOf cat e = .ok s → s.idColumn = none)
  | .replaceNull e _ => NoLeftIDs cat e
  | .replaceInf e _ => NoLeftIDs cat e
  | .dropNull e _ => NoLeftIDs cat e
  | .dropInf e _ => NoLeftIDs cat e
  | .enforce e _ => NoLeftIDs cat e

/-- What holds of the tables that are computed: they are as documented, but for left joins of tables with IDs and public
tables, which are inner joins (`C57_left_fails`). -/
def Faithful (cat : Cat) (D : Data) (e : Expr) (t' : Table) : Prop :=
  MeansBy true cat D e t' ∧ (NoLeftIDs cat e → Means cat D e t')

end Verif.Meaning
