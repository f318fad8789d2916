import Verif.Schema.Dict
import Verif.Table.Value

/-!
# Model of schemas

Sources: `/repo/src/tmlt/analytics/_schema.py` and `/repo/src/tmlt/analytics/_coerce_spark_schema.py`.

Simplified: type checks on arguments (`typechecked`, `check_type`) are types here; error messages are dropped
and only the exception class is kept; the Spark type universe outside the seven supported types is one
constructor `other n`.
-/

namespace Verif.Schema

open Verif

/-- Exception classes. -/
inductive PyErr where
  | value
  | key
  | type
  | internal
  | notImplemented
  | runtime
  | attribute
  deriving DecidableEq, Repr

/-- `FrozenDict` (l. 60-84): a tuple of key-value pairs. -/
structure FrozenDict (K V : Type) where
  elements : List (K × V)
  deriving DecidableEq

namespace FrozenDict

variable {K V : Type} [DecidableEq K]

/-- `from_dict` (l. 86-91). -/
def fromDict (d : Dict K V) : FrozenDict K V := ⟨d⟩

/-- `__len__` (l. 93-95). -/
def len (f : FrozenDict K V) : Nat := f.elements.length

/-- `__iter__` (l. 97-100): the keys. -/
def iter (f : FrozenDict K V) : List K := f.elements.map Prod.fst

/-- The search loop of `__getitem__` (l. 104-107); `none` is `KeyError`. -/
def search : List (K × V) → K → Option V
  | [], _ => none
  | p :: ps, k => if p.1 = k then some p.2 else search ps k

/-- `__getitem__` (l. 102-107). -/
def getItem (f : FrozenDict K V) (k : K) : Option V := search f.elements k

/-- `dict(f)`: Python builds it from the `Mapping` interface, by iterating over the keys and looking each
one up. -/
def toDict (f : FrozenDict K V) : Dict K V :=
  Dict.ofPairs ((iter f).filterMap (fun k => (getItem f k).map (fun v => (k, v))))

/-- `__eq__` (l. 109-113). -/
def pyEq [DecidableEq V] (f g : FrozenDict K V) : Bool := decide (f.elements = g.elements)

/-- `__hash__` (l. 115-117), for a hash function on tuples. -/
def pyHash {β : Type} (H : List (K × V) → β) (f : FrozenDict K V) : β := H f.elements

/-- The right operand of `|`: a dict, a `FrozenDict`, or something else. -/
inductive Operand (K V : Type) where
  | dict (d : Dict K V)
  | frozen (f : FrozenDict K V)
  | other

/-- `__or__` (l. 119-126). -/
def or (f : FrozenDict K V) : Operand K V → Except PyErr (FrozenDict K V)
  | .dict d => .ok (fromDict (Dict.union (toDict f) d))
  | .frozen g => .ok (fromDict (Dict.union (toDict f) (toDict g)))
  | .other => .error .type

end FrozenDict

/-- `ColumnType` (l. 129-177). -/
inductive ColumnType where
  | INTEGER
  | DECIMAL
  | VARCHAR
  | DATE
  | TIMESTAMP
  deriving DecidableEq, Repr

/-- `ColumnDescriptor` (l. 180-196). -/
structure Desc where
  ty : ColumnType
  allowNull : Bool := false
  allowNan : Bool := false
  allowInf : Bool := false
  deriving DecidableEq, Repr

/-- What a column may be described by (l. 208): a type name, a `ColumnType` or a `ColumnDescriptor`. -/
inductive ColSpec where
  | name (s : String)
  | ty (t : ColumnType)
  | desc (d : Desc)
  deriving DecidableEq

/-- `ColumnType[name]`. -/
def typeOfName : String → Option ColumnType
  | "INTEGER" => some .INTEGER
  | "DECIMAL" => some .DECIMAL
  | "VARCHAR" => some .VARCHAR
  | "DATE" => some .DATE
  | "TIMESTAMP" => some .TIMESTAMP
  | _ => none

/-- A `Schema` object (its four attributes). -/
structure Schema where
  columnDescs : FrozenDict String Desc
  grouping : Option String := none
  idColumn : Option String := none
  idSpace : Option String := none
  deriving DecidableEq

/-- The descriptor stored for one argument (l. 266-282); `none` for an unsupported type name
(l. 249-263). -/
def resolve (nul nan inf : Bool) : ColSpec → Option Desc
  | .desc d => some d
  | .ty t => some ⟨t, nul, nan, inf⟩
  | .name s => (typeOfName s).map (fun t => ⟨t, nul, nan, inf⟩)

/-- All descriptors, or `none` if some type name is unsupported. -/
def resolveAll (nul nan inf : Bool) : Dict String ColSpec → Option (Dict String Desc)
  | [] => some []
  | (c, s) :: rest =>
    match resolve nul nan inf s, resolveAll nul nan inf rest with
    | some d, some ds => some ((c, d) :: ds)
    | _, _ => none

/-- `Schema.__init__` (l. 206-283). -/
def Schema.init (cols : Dict String ColSpec) (grouping idColumn idSpace : Option String := none)
    (nul nan inf : Bool := false) : Except PyErr Schema :=
  if "" ∈ Dict.keys cols then .error .value
  else if grouping.any (fun g => decide (g ∉ Dict.keys cols)) then .error .key
  else if idColumn.any (fun g => decide (g ∉ Dict.keys cols)) then .error .key
  else
    match resolveAll nul nan inf cols with
    | none => .error .value
    | some ds => .ok ⟨FrozenDict.fromDict ds, grouping, idColumn, idSpace⟩

/-- `Schema.column_descs` (l. 290-293). -/
def Schema.descs (s : Schema) : Dict String Desc := FrozenDict.toDict s.columnDescs

/-- `Schema.__eq__` (l. 316-329). -/
def Schema.pyEq (s t : Schema) : Bool :=
  Dict.pyEq s.descs t.descs && decide (s.grouping = t.grouping) && decide (s.idColumn = t.idColumn)
    && decide (s.idSpace = t.idSpace)

/-- `Schema.__hash__` (l. 359-364). -/
def Schema.pyHash {β : Type} (H : List (String × Desc) → β) (s : Schema) : β :=
  FrozenDict.pyHash H s.columnDescs

/-- Spark data types (`pyspark.sql.types`). -/
inductive SparkType where
  | integer
  | long
  | float
  | double
  | string
  | date
  | timestamp
  | other (n : Nat)
  deriving DecidableEq, Repr

/-- `_SPARK_TO_ANALYTICS` (l. 367-375); `none` is `KeyError`. -/
def sparkToAnalytics : SparkType → Option ColumnType
  | .integer => some .INTEGER
  | .long => some .INTEGER
  | .double => some .DECIMAL
  | .float => some .DECIMAL
  | .string => some .VARCHAR
  | .date => some .DATE
  | .timestamp => some .TIMESTAMP
  | .other _ => none

/-- `_ANALYTICS_TO_SPARK` (l. 378-384). -/
def analyticsToSpark : ColumnType → SparkType
  | .INTEGER => .long
  | .DECIMAL => .double
  | .VARCHAR => .string
  | .DATE => .date
  | .TIMESTAMP => .timestamp

/-- Column descriptors of `tmlt.core` (`SparkIntegerColumnDescriptor`, ...). -/
inductive SparkDesc where
  | integer (null : Bool)
  | float (nan inf null : Bool)
  | string (null : Bool)
  | date (null : Bool)
  | timestamp (null : Bool)
  deriving DecidableEq, Repr

/-- `descriptor.data_type` (core; 64 bits is the default size of integers and floats). -/
def SparkDesc.dataType : SparkDesc → SparkType
  | .integer _ => .long
  | .float _ _ _ => .double
  | .string _ => .string
  | .date _ => .date
  | .timestamp _ => .timestamp

/-- `descriptor.allow_null`. -/
def SparkDesc.allowNull : SparkDesc → Bool
  | .integer n => n
  | .float _ _ n => n
  | .string n => n
  | .date n => n
  | .timestamp n => n

/-- A field of a Spark schema. -/
structure Field where
  name : String
  ty : SparkType
  nullable : Bool
  deriving DecidableEq

/-- `analytics_to_spark_schema` (l. 413-424). -/
def analyticsToSparkSchema (s : Schema) : List Field :=
  s.descs.map (fun p => ⟨p.1, analyticsToSpark p.2.ty, p.2.allowNull⟩)

/-- The body of the loop of `analytics_to_spark_columns_descriptor` (l. 432-442). -/
def toSparkDesc (d : Desc) : SparkDesc :=
  match d.ty with
  | .DECIMAL => .float d.allowNan d.allowInf d.allowNull
  | .INTEGER => .integer d.allowNull
  | .VARCHAR => .string d.allowNull
  | .DATE => .date d.allowNull
  | .TIMESTAMP => .timestamp d.allowNull

/-- `analytics_to_spark_columns_descriptor` (l. 427-443). -/
def analyticsToSparkColumns (s : Schema) : Dict String SparkDesc :=
  Dict.ofPairs (s.descs.map (fun p => (p.1, toSparkDesc p.2)))

/-- One entry of `spark_schema_to_analytics_columns` (l. 450-461). -/
def fieldDesc (f : Field) : Option Desc :=
  (sparkToAnalytics f.ty).map (fun t => ⟨t, f.nullable, decide (t = .DECIMAL), decide (t = .DECIMAL)⟩)

/-- All entries; `none` when some type is not supported (`KeyError`). -/
def fieldDescs : List Field → Option (List (String × Desc))
  | [] => some []
  | f :: fs =>
    match fieldDesc f, fieldDescs fs with
    | some d, some ds => some ((f.name, d) :: ds)
    | _, _ => none

/-- `spark_schema_to_analytics_columns` (l. 446-462). -/
def sparkSchemaToAnalytics (fs : List Field) : Except PyErr (Dict String Desc) :=
  match fieldDescs fs with
  | none => .error .key
  | some ds => .ok (Dict.ofPairs ds)

/-- The body of the loop of `spark_dataframe_domain_to_analytics_columns` (l. 470-482). -/
def ofSparkDesc (d : SparkDesc) : Desc :=
  match d with
  | .float nan inf null => ⟨.DECIMAL, null, nan, inf⟩
  | .integer null => ⟨.INTEGER, null, false, false⟩
  | .string null => ⟨.VARCHAR, null, false, false⟩
  | .date null => ⟨.DATE, null, false, false⟩
  | .timestamp null => ⟨.TIMESTAMP, null, false, false⟩

/-- `spark_dataframe_domain_to_analytics_columns` (l. 465-483). -/
def sparkDomainToAnalytics (dom : Dict String SparkDesc) : Dict String Desc :=
  Dict.ofPairs (dom.map (fun p => (p.1, ofSparkDesc p.2)))

/-! ## Coercion of data frames -/

/-- A Spark data frame: its fields and its rows, positionally. -/
structure Frame where
  fields : List Field
  rows : List (List Value)
  deriving DecidableEq

/-- `SUPPORTED_SPARK_TYPES` (`_coerce_spark_schema.py` l. 20-28). -/
def supported : List SparkType := [.integer, .long, .float, .double, .string, .date, .timestamp]

/-- `TYPE_COERCION_MAP` (l. 31-34). -/
def coercionMap : Dict SparkType SparkType := [(.integer, .long), (.float, .double)]

/-- Spark's `withColumn(name, df[name].cast(ty))`: replaces the column of that name; an ambiguous name is an
error (`AnalysisException`, here `value`). `cast` is Spark's conversion of a value to a type. Nullability is
unchanged by the two widening casts used. -/
def withColumn (cast : SparkType → Value → Value) (df : Frame) (name : String) (ty : SparkType) :
    Except PyErr Frame :=
  if (df.fields.filter (fun f => decide (f.name = name))).length = 1 then
    .ok
      { fields := df.fields.map (fun f => if f.name = name then { f with ty := ty } else f)
        rows := df.rows.map (fun r =>
          List.zipWith (fun f v => if f.name = name then cast ty v else v) df.fields r) }
  else .error .value

/-- The loop of `coerce_spark_schema_or_fail` (l. 71-76), over the fields of the frame as given. -/
def coerceLoop (cast : SparkType → Value → Value) : List Field → Frame → Except PyErr Frame
  | [], df => .ok df
  | f :: fs, df =>
    match Dict.get coercionMap f.ty with
    | some ty =>
      match withColumn cast df f.name ty with
      | .ok df' => coerceLoop cast fs df'
      | .error e => .error e
    | none => coerceLoop cast fs df

/-- `coerce_spark_schema_or_fail` (l. 55-78). -/
def coerce (cast : SparkType → Value → Value) (df : Frame) : Except PyErr Frame :=
  if "" ∈ df.fields.map Field.name then .error .value
  else if (df.fields.filter (fun f => decide (f.ty ∉ supported))).length ≠ 0 then .error .value
  else coerceLoop cast df.fields df

end Verif.Schema
