import Verif.TableId.Model
/-!
Model of the translation of SQL data definition statements: the parts of the grammar that build the type
names and the qualified names (components/sql/parser/gram.y), the transformer
(components/sql/transformer/impl/transform_table.cpp, transform_index.cpp, transform_database.cpp) and the
creation of the collection (services/memory_storage/memory_storage.cpp).

Left out: the lexer (identifiers arrive folded and unquoted), collations, storage options, inheritance and
distribution clauses, which the transformer never looks at; the character types with a character set.
-/
namespace Verif.Ddl
open Verif Verif.TableId

/-! ## Types -/

/-- The values of `logical_type` that `get_logical_type` can give, utils.hpp:92-127. -/
inductive Logical
  | na | smallint | integer | bigint | boolean | float | double | bit | decimal | tinyint | hugeint
  | timestampSec | timestampMs | timestampUs | timestampNs | blob | utinyint | usmallint | uinteger
  | ubigint | uhugeint | pointer | uuid | string
  deriving DecidableEq, Repr

/-- `complex_logical_type` as far as CREATE TABLE builds it: a plain type, `create_decimal`
(types.cpp:330-335; its assertion that the width is not below the scale is compiled out) and
`create_array` (types.cpp:344-350). `list` is `create_list` (337-342), which the transformer never calls. -/
inductive LType
  | plain (l : Logical)
  | decimal (width scale : Nat)
  | array (of : LType) (size : Nat)
  | list (of : LType)
  deriving DecidableEq, Repr

/-- The table of `get_logical_type`, utils.hpp:93-121. -/
def lookup : List (String × Logical) :=
  [("int2", .smallint), ("int4", .integer), ("int8_t", .bigint), ("bool", .boolean), ("float4", .float),
   ("float8", .double), ("bit", .bit), ("numeric", .decimal),
   ("double", .double), ("tinyint", .tinyint), ("hugeint", .hugeint), ("timestamp_sec", .timestampSec),
   ("timestamp_ms", .timestampMs), ("timestamp_us", .timestampUs), ("timestamp_ns", .timestampNs),
   ("blob", .blob), ("utinyint", .utinyint), ("usmallint", .usmallint), ("uinteger", .uinteger),
   ("uint", .uinteger), ("ubigint", .ubigint), ("uhugeint", .uhugeint), ("pointer", .pointer),
   ("uuid", .uuid), ("string", .string)]

/-- `get_logical_type`, utils.hpp:92-127: NA when the name is not in the table. -/
def logical (n : String) : Logical :=
  match lookup.lookup n with
  | some l => l
  | none => .na

/-- A type modifier, an element of `expr_list`: an integer constant, another constant, or an expression
that is no constant. -/
inductive Mod
  | int (n : Int)
  | const
  | expr
  deriving DecidableEq, Repr

/-- `TypeName` of the parse tree: the parts of the name, the modifiers and the array bounds (`-1` where
none is given, gram.y:13062-13079). -/
structure TypeName where
  names : List String
  mods : List Mod
  bounds : List Int
  deriving DecidableEq, Repr

/-- `static_cast<uint8_t>` of a long. -/
def toByte (n : Int) : Nat := (n % 256).toNat
/-- A long as a `size_t`. -/
def toSize (n : Int) : Nat := (n % 18446744073709551616).toNat

/-- The DECIMAL branch, transform_table.cpp:19-30. The cast to `A_Const` is not checked: reading another
node through it is undefined. -/
def decimalOf : List Mod → Res LType
  | [.int w, .int s] => .ok (.decimal (toByte w) (toByte s))
  | [.expr, _] => .ub
  | [_, .expr] => .ub
  | _ => .throws

/-- `get_type` without the array, transform_table.cpp:14-33. `lsecond` of a list of one is undefined. -/
def elemType (t : TypeName) : Res LType :=
  match t.names with
  | [] => .ub
  | h :: rest =>
    if h = "pg_catalog" then
      match rest with
      | [] => .ub
      | n :: _ => if logical n = .decimal then decimalOf t.mods else .ok (.plain (logical n))
    else .ok (.plain (logical h))

/-- `get_type`, transform_table.cpp:13-41: only the first bound is used. -/
def getType (t : TypeName) : Res LType :=
  (elemType t).map' fun c =>
    match t.bounds with
    | [] => c
    | b :: _ => .array c (toSize b)

/-! ## The grammar of types -/

/-- A type as it is written in a statement, before the array brackets: the keywords of `Numeric`, `Bit`,
`Character`, `ConstDatetime` and `ConstInterval`, and any other name (`GenericType`). -/
inductive Base
  | int | integer | smallint | bigint | real | doublePrecision | boolean
  | float (precision : Option Int)
  | decimal (mods : List Mod)
  | bit (mods : List Mod)
  | varbit (mods : List Mod)
  | char (mods : List Mod)
  | varchar (mods : List Mod)
  | timestamp (zone : Bool) (mods : List Mod)
  | time (zone : Bool) (mods : List Mod)
  | interval (mods : List Mod)
  | named (first : String) (rest : List String) (mods : List Mod)
  deriving DecidableEq, Repr

/-- A type as it is written, with its array brackets: a bound, or none. `ARRAY[n]` is written as one
bracket with a bound, `ARRAY` as one without (gram.y:13051-13071). -/
structure Written where
  base : Base
  dims : List (Option Nat)
  deriving DecidableEq, Repr

/-- `SystemTypeName`: the name qualified with pg_catalog. -/
def system (n : String) : List String := ["pg_catalog", n]

/-- The names and modifiers the grammar gives, gram.y:13134-13150 (`GenericType`), 13159-13245 (`Numeric`,
with `opt_float`, where a precision below 1 or above 53 is an error), 13251-13301 (`Bit`), 13335-13373
(`Character`), 13388-13424 (`ConstDatetime`), 13425-13431 (`ConstInterval`). -/
def Base.parse : Base → Res (List String × List Mod)
  | .int => .ok (system "int4", [])
  | .integer => .ok (system "int4", [])
  | .smallint => .ok (system "int2", [])
  | .bigint => .ok (system "int8_t", [])
  | .real => .ok (system "float4", [])
  | .doublePrecision => .ok (system "float8", [])
  | .boolean => .ok (system "bool", [])
  | .float none => .ok (system "float4", [])
  | .float (some p) =>
    if p < 1 then .throws
    else if p ≤ 24 then .ok (system "float4", [])
    else if p ≤ 53 then .ok (system "float8", [])
    else .throws
  | .decimal m => .ok (system "numeric", m)
  | .bit m => .ok (system "bit", if m.isEmpty then [.int 1] else m)
  | .varbit m => .ok (system "varbit", m)
  | .char m => .ok (system "bpchar", if m.isEmpty then [.int 1] else m)
  | .varchar m => .ok (system "varchar", m)
  | .timestamp z m => .ok (system (if z then "timestamptz" else "timestamp"), m)
  | .time z m => .ok (system (if z then "timetz" else "time"), m)
  | .interval m => .ok (system "interval", m)
  | .named f r m => .ok (f :: r, m)

/-- `opt_array_bounds`, gram.y:13075-13081: a bracket without a bound is `-1`. -/
def bound : Option Nat → Int
  | some n => n
  | none => -1

/-- `Typename`, gram.y:13039-13072. -/
def Written.parse (w : Written) : Res TypeName :=
  w.base.parse.map' fun (n, m) => ⟨n, m, w.dims.map bound⟩

/-! ## Names -/

/-- The fields of `RangeVar` a qualified name fills; `none` is a null pointer. -/
structure RangeVar where
  uid : Option Str
  catalog : Option Str
  schema : Option Str
  rel : Option Str
  deriving DecidableEq, Repr

/-- `qualified_name`, gram.y:15460-15498, with the first part and the others: with more than four parts
nothing is filled in, the error report is commented out. -/
def qualified (first : Str) : List Str → RangeVar
  | [] => ⟨none, none, none, some first⟩
  | [r] => ⟨none, some first, none, some r⟩
  | [s, r] => ⟨none, some first, some s, some r⟩
  | [c, s, r] => ⟨some first, some c, some s, some r⟩
  | _ => ⟨none, none, none, none⟩

/-- `construct`, utils.hpp:34. -/
def construct : Option Str → Str
  | some s => s
  | none => []

/-- `rangevar_to_collection`, utils.hpp:36-41. -/
def toCollection (v : RangeVar) : FullName :=
  ⟨construct v.uid, construct v.catalog, construct v.schema, construct v.rel⟩

/-! ## CREATE TABLE -/

/-- What may stand behind a column's type (`ColConstraintElem` and `ColConstraint`). -/
inductive ColumnConstraint
  | notNull | unique | primaryKey | default | check | references
  deriving DecidableEq, Repr

/-- `ColumnDef`: the name, the type and the constraints. -/
structure ColumnDef where
  name : Str
  type : Written
  constraints : List ColumnConstraint
  deriving DecidableEq, Repr

/-- `TableElement`, gram.y:4288-4293: a column, or a table constraint, a LIKE clause or a storage
directive. -/
inductive Element
  | column (c : ColumnDef)
  | constraint
  | like
  | storage
  deriving DecidableEq, Repr

/-- `CreateStmt` with the name's parts, gram.y:4142-4190. -/
structure CreateTable where
  ifNotExists : Bool
  first : Str
  rest : List Str
  elements : List Element
  deriving DecidableEq, Repr

/-- `node_create_collection_t`: the collection's name and its schema. -/
structure Created where
  name : FullName
  schema : List (Str × LType)
  deriving DecidableEq, Repr

/-- One turn of the loop, transform_table.cpp:59-69: every element is taken to be a column, reading
another node as one is undefined. The parser runs before; the errors it reports and those of the
transformer are both `throws`. -/
def element : Element → Res (Str × LType)
  | .column c =>
    c.type.parse.bind fun t => (getType t).bind fun l =>
      if l = .plain .na then .throws else .ok (c.name, l)
  | _ => .ub

/-- The loop, transform_table.cpp:59-69. -/
def columns : List Element → Res (List (Str × LType))
  | [] => .ok []
  | e :: es => (element e).bind fun c => (columns es).bind fun cs => .ok (c :: cs)

/-- `transform_create_table`, transform_table.cpp:54-79; `if_not_exists` and the columns' constraints are
not looked at. -/
def createTable (s : CreateTable) : Res Created :=
  (columns s.elements).map' fun cs => ⟨toCollection (qualified s.first s.rest), cs⟩

/-- What is kept for a collection: documents, or a table with its columns. -/
inductive Kept
  | documents
  | table (cols : List (Str × LType))
  deriving DecidableEq, Repr

/-- `create_collection_`, memory_storage.cpp:235-257: a collection of documents when the schema is empty,
otherwise a table with one column for each entry, named by the entry's alias. -/
def keep (c : Created) : Kept := if c.schema.isEmpty then .documents else .table c.schema

/-! ## DROP TABLE, DROP INDEX -/

/-- `removeType`: a table, an index, or anything else, gram.y:7780-7800. -/
inductive DropKind
  | table | index | other
  deriving DecidableEq, Repr

/-- `DropStmt`, gram.y:7733-7777: the names, each with its parts, of which there is at least one. -/
structure Drop where
  kind : DropKind
  missingOk : Bool
  head : List Str
  tail : List (List Str)
  deriving DecidableEq, Repr

/-- What a statement asks the engine to do to a collection or an index. -/
inductive Act
  | dropTable (name : FullName)
  | dropIndex (name : FullName) (index : Str)
  deriving DecidableEq, Repr

/-- `transform_drop`, transform_table.cpp:81-156: only the first name is looked at. -/
def drop (s : Drop) : Res Act :=
  match s.kind with
  | .table =>
    match s.head with
    | [t] => .ok (.dropTable ⟨[], [], [], t⟩)
    | [d, t] => .ok (.dropTable ⟨[], d, [], t⟩)
    | [d, sc, t] => .ok (.dropTable ⟨[], d, sc, t⟩)
    | [u, d, sc, t] => .ok (.dropTable ⟨u, d, sc, t⟩)
    | _ => .throws
  | .index =>
    match s.head with
    | [d, t, i] => .ok (.dropIndex ⟨[], d, [], t⟩ i)
    | [d, sc, t, i] => .ok (.dropIndex ⟨[], d, sc, t⟩ i)
    | [u, d, sc, t, i] => .ok (.dropIndex ⟨u, d, sc, t⟩ i)
    | _ => .throws
  | .other => .throws

/-! ## CREATE INDEX -/

/-- An element of the index: a column, or an expression, gram.y:8801-8834. -/
inductive IndexElem
  | column (name : Str)
  | expr
  deriving DecidableEq, Repr

/-- `IndexStmt`, gram.y:8737-8770: the index name may be left out. -/
structure CreateIndex where
  unique : Bool
  name : Option Str
  first : Str
  rest : List Str
  elements : List IndexElem
  filtered : Bool
  deriving DecidableEq, Repr

/-- `node_create_index_t`. -/
structure IndexMade where
  name : FullName
  index : Str
  keys : List Str
  deriving DecidableEq, Repr

/-- The loop, transform_index.cpp:15-17: the name of an expression is null, a string made of it is
undefined. -/
def indexKeys : List IndexElem → Res (List Str)
  | [] => .ok []
  | .column n :: es => (indexKeys es).map' (n :: ·)
  | .expr :: _ => .ub

/-- `transform_create_index`, transform_index.cpp:9-19. -/
def createIndex (s : CreateIndex) : Res IndexMade :=
  let v := qualified s.first s.rest
  match v.rel, v.catalog, s.name with
  | some _, some _, some i => (indexKeys s.elements).map' fun ks => ⟨toCollection v, i, ks⟩
  | _, _, _ => .throws

/-- `transform_create_database` and `transform_drop_database`, transform_database.cpp:6-12: the full name
with the database alone. -/
def databaseName (d : Str) : FullName := ⟨[], d, [], []⟩

end Verif.Ddl
