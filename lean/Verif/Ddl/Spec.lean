import Verif.Ddl.Model
/-!
What CREATE TABLE, DROP TABLE, CREATE INDEX and DROP INDEX are supposed to mean (C75, C76), apart from
the transformer: which type a column declaration names, which collection a dotted name denotes.
-/
namespace Verif.Ddl
open Verif Verif.TableId

/-- DECIMAL(width, scale): both are needed, neither is negative, the scale is at most the width. -/
def decimalMeans : List Mod → Option LType
  | [.int w, .int s] => if 0 ≤ s ∧ s ≤ w then some (.decimal w.toNat s.toNat) else none
  | _ => none

/-- The types a single name stands for. -/
def named (n : String) : Option LType :=
  if n = "int2" then some (.plain .smallint)
  else if n = "int4" then some (.plain .integer)
  else if n = "int8_t" then some (.plain .bigint)
  else if n = "bool" then some (.plain .boolean)
  else if n = "float4" then some (.plain .float)
  else if n = "float8" ∨ n = "double" then some (.plain .double)
  else if n = "bit" then some (.plain .bit)
  else if n = "tinyint" then some (.plain .tinyint)
  else if n = "hugeint" then some (.plain .hugeint)
  else if n = "utinyint" then some (.plain .utinyint)
  else if n = "usmallint" then some (.plain .usmallint)
  else if n = "uinteger" ∨ n = "uint" then some (.plain .uinteger)
  else if n = "ubigint" then some (.plain .ubigint)
  else if n = "uhugeint" then some (.plain .uhugeint)
  else if n = "timestamp_sec" then some (.plain .timestampSec)
  else if n = "timestamp_ms" then some (.plain .timestampMs)
  else if n = "timestamp_us" then some (.plain .timestampUs)
  else if n = "timestamp_ns" then some (.plain .timestampNs)
  else if n = "blob" then some (.plain .blob)
  else if n = "pointer" then some (.plain .pointer)
  else if n = "uuid" then some (.plain .uuid)
  else if n = "string" then some (.plain .string)
  else none

/-- A single name with modifiers: only `numeric` has any. -/
def namedWith (n : String) (m : List Mod) : Option LType :=
  if n = "numeric" then decimalMeans m else if m = [] then named n else none

/-- The type a declaration names, `none` when the engine has no such type and the statement is to be
rejected: lengths of bit strings, characters, dates, times and intervals are not supported, nor are names
with a qualifier other than pg_catalog. -/
def Base.meaning : Base → Option LType
  | .int => some (.plain .integer)
  | .integer => some (.plain .integer)
  | .smallint => some (.plain .smallint)
  | .bigint => some (.plain .bigint)
  | .real => some (.plain .float)
  | .doublePrecision => some (.plain .double)
  | .boolean => some (.plain .boolean)
  | .float none => some (.plain .float)
  | .float (some p) =>
    if 1 ≤ p ∧ p ≤ 24 then some (.plain .float)
    else if 25 ≤ p ∧ p ≤ 53 then some (.plain .double)
    else none
  | .decimal m => decimalMeans m
  | .bit m => if m = [] then some (.plain .bit) else none
  | .named n [] m => namedWith n m
  | .named q [n] m => if q = "pg_catalog" then namedWith n m else none
  | _ => none

/-- One pair of brackets: an array of that size, or a list when no size is given. -/
def dim : Option Nat → LType → LType
  | some n, t => .array t n
  | none, t => .list t

/-- `t[3][4]` is an array of three arrays of four. -/
def Written.meaning (w : Written) : Option LType :=
  w.base.meaning.map fun t => w.dims.foldr dim t

/-- The schema a list of column definitions declares: the columns in the order they are written, each with
its name and the type it names. -/
def Declares (cs : List ColumnDef) (sch : List (Str × LType)) : Prop :=
  sch.map (fun p => (p.1, some p.2)) = cs.map (fun c => (c.name, c.type.meaning))

/-- The collection a dotted name denotes: table, database.table, database.schema.table or
uid.database.schema.table. -/
inductive Denotes : List Str → FullName → Prop
  | table (t) : Denotes [t] ⟨[], [], [], t⟩
  | inDatabase (d t) : Denotes [d, t] ⟨[], d, [], t⟩
  | inSchema (d s t) : Denotes [d, s, t] ⟨[], d, s, t⟩
  | full (u d s t) : Denotes [u, d, s, t] ⟨u, d, s, t⟩

/-- A type name the transformer reads as it is meant: a known type with modifiers only where they belong,
decimals up to 255 digits, at most one pair of brackets, with a size. -/
def Base.Fits : Base → Prop
  | .decimal m => .expr ∉ m ∧ ∀ w s, m = [.int w, .int s] → 0 ≤ s ∧ s ≤ w ∧ w < 256
  | .bit m => m = []
  | .named q r m => m = [] ∧ ((q = "pg_catalog" ∧ ∃ n, r = [n]) ∨ (q ≠ "pg_catalog" ∧ q ≠ "numeric" ∧ r = []))
  | _ => True

/-- See `Base.Fits`; an array of an unknown type is not noticed. -/
def Written.Fits (w : Written) : Prop :=
  w.base.Fits ∧
    (w.dims = [] ∨ ((∃ n, w.dims = [some n] ∧ n < 18446744073709551616) ∧ w.base.meaning ≠ none))

end Verif.Ddl
