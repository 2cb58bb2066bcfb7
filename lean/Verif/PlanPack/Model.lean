import Verif.DocPack.Model
/-!
Model of plans as MessagePack: `msgpack_serializer_t` and `msgpack_deserializer_t` (components/serialization), the
`serialize` and `deserialize` functions of plan nodes (components/logical_plan) and expressions (components/expressions),
and the record made of them (services/wal/dto.cpp).

Simplifications: names and texts are byte strings; kinds of operations are numbers, as they are packed; the schema of a
table is the list of its column names; a chunk of columns is one constructor without contents, as it cannot be packed;
expressions of nodes that have none by construction are left out.  The deserializer reads members of a union without
looking at the type: where the member is not the one that was set, and where an array is too short, the result is `ub`
(so it is where the array is longer than any that is written).
Where it returns a null pointer (an unknown number of a node or expression) the result is `ub` too.  As in
`Verif.DocPack`, `shrink` says whether the library packs doubles that are integers as integers.
-/
namespace Verif.PlanPack

open Verif.DocVal Verif.Json Verif.Msgpack Verif.DocPack

/-- `collection_full_name_t`, components/base/collection_full_name.hpp:12-16. -/
structure Coll where
  uid : Bytes
  db : Bytes
  schema : Bytes
  coll : Bytes
  deriving DecidableEq, Repr

/-- `key_t`, components/expressions/key.hpp:9-109. -/
inductive Key where
  | none
  | str (s : Bytes)
  | i32 (v : Int)
  | u32 (n : Nat)
  deriving DecidableEq, Repr

mutual
/-- The expressions of filters, groups and sorts: `compare_expression_t`, `aggregate_expression_t`,
`scalar_expression_t`, `sort_expression_t`. -/
inductive Expr where
  | compare (type : Nat) (left right : Key) (value : Nat) (children : List Expr)
  | aggregate (type : Nat) (key : Key) (params : List Arg)
  | scalar (type : Nat) (key : Key) (params : List Arg)
  | sort (order : Int) (key : Key)
/-- `param_storage`, components/expressions/expression.hpp:47: the number of a parameter, a key or an expression. -/
inductive Arg where
  | id (n : Nat)
  | key (k : Key)
  | expr (e : Expr)
end

/-- `update_expr_t` and its four kinds, components/expressions/update_expression.hpp; `null` is a null pointer. -/
inductive Upd where
  | null
  | set (key : Key) (left : Upd)
  | get (key : Key) (side : Nat)
  | const (id : Nat)
  | arith (type : Nat) (left right : Upd)

/-- `node_match_t`, components/logical_plan/node_match.cpp. -/
structure Match where
  coll : Coll
  exprs : List Expr

/-- `node_limit_t`, components/logical_plan/node_limit.cpp. -/
structure Limit where
  coll : Coll
  n : Int

/-- `node_t`, components/logical_plan. -/
inductive Plan where
  | aggregate (c : Coll) (children : List Plan)
  | createCollection (c : Coll) (schema : List Bytes)
  | createDatabase (c : Coll)
  | createIndex (type : Nat) (c : Coll) (name : Bytes) (keys : List Key)
  | data (docs : List Node)
  | chunk
  | delete (c source : Coll) (m : Match) (l : Limit)
  | dropCollection (c : Coll)
  | dropDatabase (c : Coll)
  | dropIndex (c : Coll) (name : Bytes)
  | insert (c : Coll) (children : List Plan) (translation : List (Key × Key))
  | join (type : Nat) (c : Coll) (children : List Plan) (on : List Expr)
  | limit (l : Limit)
  | filter (m : Match)
  | group (c : Coll) (exprs : List Expr)
  | sort (c : Coll) (exprs : List Expr)
  | function (name : Bytes) (args : List Nat)
  | update (c source : Coll) (m : Match) (l : Limit) (updates : List Upd) (upsert : Bool)

/-! ### writing -/

/-- `start_array` and the members, serializer.cpp:239. -/
def arrayOf (n : Nat) (parts : List Bytes) : Bytes := encArrHdr n ++ parts.flatten

/-- `append` of a number of eight or sixteen bits, serializer.cpp:249-291. -/
def writeNat (n : Nat) : Bytes := encode (.uint n)

/-- `append` of a text, serializer.cpp:293. -/
def writeText (s : Bytes) : Bytes := encode (.str s)

/-- `append` of a key, serializer.cpp:301-311. -/
def writeKey : Key → Bytes
  | .str s => encode (.str s)
  | .i32 v => encode (packInt v)
  | .u32 n => encode (.uint n)
  | .none => encode .nil

/-- `append` of a collection's name, serializer.cpp:71-76. -/
def writeColl (c : Coll) : Bytes := arrayOf 2 [writeText c.db, writeText c.coll]

mutual
/-- `serialize_impl`: compare_expression.cpp:114-123, aggregate_expression.cpp:100-107, scalar_expression.cpp:100-107,
sort_expression.cpp:47-53. -/
def writeExpr : Expr → Bytes
  | .compare t l r v cs => arrayOf 6 [writeNat 17, writeNat t, writeKey l, writeKey r, writeNat v, encArrHdr cs.length ++ writeExprs cs]
  | .aggregate t k ps => arrayOf 4 [writeNat 18, writeNat t, writeKey k, encArrHdr ps.length ++ writeArgs ps]
  | .scalar t k ps => arrayOf 4 [writeNat 19, writeNat t, writeKey k, encArrHdr ps.length ++ writeArgs ps]
  | .sort o k => arrayOf 3 [writeNat 20, encode (packInt o), writeKey k]
/-- The members of `append` of expressions, serializer.cpp:45-52. -/
def writeExprs : List Expr → Bytes
  | [] => []
  | e :: es => writeExpr e ++ writeExprs es
/-- `append` of a parameter, serializer.cpp:78-93. -/
def writeArg : Arg → Bytes
  | .id n => writeNat n
  | .key k => writeKey k
  | .expr e => writeExpr e
/-- The members of `append` of parameters, serializer.cpp:63-69. -/
def writeArgs : List Arg → Bytes
  | [] => []
  | a :: as => writeArg a ++ writeArgs as
end

/-- `append` of expressions, serializer.cpp:45-52. -/
def writeExprArray (es : List Expr) : Bytes := encArrHdr es.length ++ writeExprs es

/-- `serialize`: update_expression.cpp:161-168, 229-236, 318-324, 354-361; a null pointer is dereferenced
(serializer.cpp:101-103). -/
def writeUpd : Upd → Res Bytes
  | .null => .ub
  | .set k l => (writeUpd l).bind fun bl => .ok (arrayOf 4 [writeNat 21, writeNat 0, writeKey k, bl])
  | .get k s => .ok (arrayOf 4 [writeNat 21, writeNat 1, writeKey k, writeNat s])
  | .const i => .ok (arrayOf 3 [writeNat 21, writeNat 2, writeNat i])
  | .arith t l r => (writeUpd l).bind fun bl => (writeUpd r).bind fun br =>
      .ok (arrayOf 4 [writeNat 21, writeNat t, bl, br])

/-- The members of `append` of update expressions, serializer.cpp:54-61. -/
def writeUpds : List Upd → Res Bytes
  | [] => .ok []
  | u :: us => (writeUpd u).bind fun b => (writeUpds us).bind fun bs => .ok (b ++ bs)

/-- `node_match_t::serialize_impl`, node_match.cpp:37-43: `front()` of the expressions, there being at least one or not. -/
def writeMatch (m : Match) : Res Bytes :=
  match m.exprs with
  | [] => .ub
  | e :: _ => .ok (arrayOf 3 [writeNat 12, writeColl m.coll, writeExpr e])

/-- `node_limit_t::serialize_impl`, node_limit.cpp:44-50. -/
def writeLimit (l : Limit) : Bytes := arrayOf 3 [writeNat 11, writeColl l.coll, encode (packInt l.n)]

/-- The keys of an index, serializer.cpp:29-35. -/
def writeKeys (ks : List Key) : Bytes := encArrHdr ks.length ++ (ks.map writeKey).flatten

/-- The arguments of a function, serializer.cpp:37-43. -/
def writeIds (is : List Nat) : Bytes := encArrHdr is.length ++ (is.map writeNat).flatten

/-- One pair of the key translation, node_insert.cpp:65-68. -/
def writePair (p : Key × Key) : Bytes := arrayOf 2 [writeKey p.1, writeKey p.2]

/-- The key translation, node_insert.cpp:63-70. -/
def writeTranslation (ps : List (Key × Key)) : Bytes := encArrHdr ps.length ++ (ps.map writePair).flatten

mutual
/-- `serialize_impl` of the nodes, components/logical_plan/node_*.cpp.  The source collection of a delete
(node_delete.cpp:61-67), the condition of a join (node_join.cpp:50-57) and the schema of a created collection
(node_create_collection.cpp:31-36) are not written; a chunk throws `bad_variant_access` (node_data.cpp:71-77). -/
def writePlan (shrink : Bool) : Plan → Res Bytes
  | .aggregate c ps => (writePlans shrink ps).bind fun b => .ok (arrayOf 3 [writeNat 0, writeColl c, encArrHdr ps.length ++ b])
  | .createCollection c _ => .ok (arrayOf 2 [writeNat 1, writeColl c])
  | .createDatabase c => .ok (arrayOf 2 [writeNat 2, writeColl c])
  | .createIndex t c n ks => .ok (arrayOf 5 [writeNat 3, writeNat t, writeColl c, writeText n, writeKeys ks])
  | .data ds => .ok (arrayOf 2 [writeNat 4, packAll shrink ds])
  | .chunk => .throws
  | .delete c _ m l => (writeMatch m).bind fun b => .ok (arrayOf 3 [writeNat 5, writeColl c, arrayOf 2 [b, writeLimit l]])
  | .dropCollection c => .ok (arrayOf 2 [writeNat 6, writeColl c])
  | .dropDatabase c => .ok (arrayOf 2 [writeNat 7, writeColl c])
  | .dropIndex c n => .ok (arrayOf 3 [writeNat 8, writeColl c, writeText n])
  | .insert c ps tr => (writePlans shrink ps).bind fun b =>
      .ok (arrayOf 4 [writeNat 9, writeColl c, encArrHdr ps.length ++ b, writeTranslation tr])
  | .join t c ps _ => (writePlans shrink ps).bind fun b =>
      .ok (arrayOf 4 [writeNat 10, writeNat t, writeColl c, encArrHdr ps.length ++ b])
  | .limit l => .ok (writeLimit l)
  | .filter m => writeMatch m
  | .group c es => .ok (arrayOf 3 [writeNat 13, writeColl c, writeExprArray es])
  | .sort c es => .ok (arrayOf 3 [writeNat 14, writeColl c, writeExprArray es])
  | .function n is => .ok (arrayOf 3 [writeNat 15, writeText n, writeIds is])
  | .update c s m l us up => (writeMatch m).bind fun b => (writeUpds us).bind fun bu =>
      .ok (arrayOf 6 [writeNat 16, writeColl c, writeColl s, arrayOf 2 [b, writeLimit l], encArrHdr us.length ++ bu,
        encode (.bool up)])
/-- The members of `append` of nodes, serializer.cpp:13-19. -/
def writePlans (shrink : Bool) : List Plan → Res Bytes
  | [] => .ok []
  | p :: ps => (writePlan shrink p).bind fun b => (writePlans shrink ps).bind fun bs => .ok (b ++ bs)
end

/-- `parameter_node_t`, components/logical_plan/param_storage.hpp: the values by their numbers, in the order of the
table's iteration. -/
abbrev Params := List (Nat × V)

/-- One parameter, param_storage.cpp:40-43. -/
def writeParam (shrink : Bool) (p : Nat × V) : Bytes := arrayOf 2 [writeNat p.1, packV shrink p.2]

/-- `parameter_node_t::serialize`, param_storage.cpp:35-47. -/
def writeParams (shrink : Bool) (ps : Params) : Bytes :=
  arrayOf 2 [writeNat 22, encArrHdr ps.length ++ (ps.map (writeParam shrink)).flatten]

/-- The payload of a record: `pack`, services/wal/dto.cpp:59-74. -/
def writeEntry (shrink : Bool) (crc id : Nat) (p : Plan) (ps : Params) : Res Bytes :=
  (writePlan shrink p).bind fun b => .ok (arrayOf 4 [writeNat crc, writeNat id, b, writeParams shrink ps])

/-! ### reading -/

/-- An unsigned number of eight bits: `static_cast` of `via.u64`, deserializer.cpp:211-253. -/
def byteOf (n : Nat) : Nat := n % 256

/-- `deserialize_param_id`, deserializer.cpp:255-257: sixteen bits. -/
def idOf (n : Nat) : Nat := n % 65536

/-- `static_cast<int32_t>`. -/
def toI32 (n : Nat) : Int := if n % 2 ^ 32 < 2 ^ 31 then (n % 2 ^ 32 : Nat) else (n % 2 ^ 32 : Nat) - 2 ^ 32

/-- `deserialize_key`, deserializer.cpp:259-269. -/
def readKey : Val → Key
  | .uint n => .i32 (toI32 n)
  | .nint i => .u32 (i % 2 ^ 32).toNat
  | .str s => .str s
  | _ => .none

/-- A number that was packed as signed: `via.i64`, deserializer.cpp:217 and 235-237. -/
def readInt : Val → Res Int
  | .uint n => .ok (if n < 2 ^ 63 then (n : Int) else (n : Int) - 2 ^ 64)
  | .nint i => .ok i
  | _ => .ub

/-- `deserialize_collection`, deserializer.cpp:300-305. -/
def readColl : Val → Res Coll
  | .arr (.str d :: .str c :: _) => .ok ⟨[], d, [], c⟩
  | _ => .ub

/-- `is_union_compare_condition`, components/expressions/compare_expression.cpp:9-11. -/
def isUnion (t : Nat) : Bool := t == 10 || t == 11 || t == 12

/-- `compare_expression_t::deserialize`, compare_expression.cpp:56-70, once the members are read. -/
def makeCompare (t : Nat) (l r : Key) (v : Nat) (cs : List Expr) : Expr :=
  if isUnion t then .compare t .none .none 0 cs
  else if r = .none then .compare t l .none v []
  else .compare t l r 0 []

mutual
/-- `expression_i::deserialize`, expression.cpp:31-46. -/
def readExpr : Val → Res Expr
  | .arr vs => readExprParts vs
  | _ => .ub
/-- The members of an expression: compare_expression.cpp:49-54, aggregate_expression.cpp:55-64,
scalar_expression.cpp:56-65, sort_expression.cpp:24-28. -/
def readExprParts : List Val → Res Expr
  | [.uint g, .uint t, l, r, .uint v, .arr cs] =>
    if byteOf g = 17 then (readExprs cs).bind fun es => .ok (makeCompare (byteOf t) (readKey l) (readKey r) (idOf v) es)
    else .ub
  | [.uint g, .uint t, k, .arr ps] =>
    if byteOf g = 18 then (readArgs ps).bind fun as => .ok (.aggregate (byteOf t) (readKey k) as)
    else if byteOf g = 19 then (readArgs ps).bind fun as => .ok (.scalar (byteOf t) (readKey k) as)
    else .ub
  | [.uint g, o, k] =>
    if byteOf g = 20 then (readInt o).bind fun o => .ok (.sort o (readKey k))
    else .ub
  | _ => .ub
/-- `deserialize_expressions`, deserializer.cpp:54-63. -/
def readExprs : List Val → Res (List Expr)
  | [] => .ok []
  | v :: vs => (readExpr v).bind fun e => (readExprs vs).bind fun es => .ok (e :: es)
/-- `deserialize_param_storage`, deserializer.cpp:307-315. -/
def readArg : Val → Res Arg
  | .nint i => .ok (.id (idOf (i % 2 ^ 64).toNat))
  | .arr vs => (readExprParts vs).bind fun e => .ok (.expr e)
  | v => .ok (.key (readKey v))
/-- `deserialize_param_storages`, deserializer.cpp:21-30. -/
def readArgs : List Val → Res (List Arg)
  | [] => .ok []
  | v :: vs => (readArg v).bind fun a => (readArgs vs).bind fun as => .ok (a :: as)
end

/-- `deserialize_update_expr_side`, deserializer.cpp:243-245, and the other kinds of eight bits. -/
def readSide : Val → Res Nat
  | .uint s => .ok (byteOf s)
  | _ => .ub

/-- `update_expr_t::deserialize`, update_expression.cpp:73-102, and the members: update_expression.cpp:170-176, 238-241,
326-328, 363-372. -/
def readUpd : Val → Res Upd
  | .arr [_, .uint t, .uint i] => if byteOf t = 2 then .ok (.const (idOf i)) else .ub
  | .arr [_, .uint t, a, b] =>
    if byteOf t = 0 then (readUpd b).bind fun l => .ok (.set (readKey a) l)
    else if byteOf t = 1 then (readSide b).bind fun s => .ok (.get (readKey a) s)
    else if 3 ≤ byteOf t ∧ byteOf t ≤ 18 then
      (readUpd a).bind fun l => (readUpd b).bind fun r => .ok (.arith (byteOf t) l r)
    else .ub
  | _ => .ub

/-- The loop over update expressions, node_update.cpp:48-52. -/
def readUpds : List Val → Res (List Upd)
  | [] => .ok []
  | v :: vs => (readUpd v).bind fun u => (readUpds vs).bind fun us => .ok (u :: us)

/-- `node_match_t::deserialize`, node_match.cpp:13-17. -/
def readMatch : Val → Res Match
  | .arr (_ :: c :: e :: _) => (readColl c).bind fun c => (readExpr e).bind fun e => .ok ⟨c, [e]⟩
  | _ => .ub

/-- `node_limit_t::deserialize`, node_limit.cpp:30-34: `limit_t` holds an `int`. -/
def readLimit : Val → Res Limit
  | .arr (_ :: c :: n :: _) => (readColl c).bind fun c => (readInt n).bind fun n => .ok ⟨c, toI32 (n % 2 ^ 32).toNat⟩
  | _ => .ub

/-- `deserialize_param_ids`, deserializer.cpp:43-52. -/
def readIds : List Val → Res (List Nat)
  | [] => .ok []
  | .uint n :: vs => (readIds vs).bind fun is => .ok (idOf n :: is)
  | _ => .ub

/-- The loop over the key translation, node_insert.cpp:38-42. -/
def readTranslation : List Val → Res (List (Key × Key))
  | [] => .ok []
  | .arr (a :: b :: _) :: vs => (readTranslation vs).bind fun ps => .ok ((readKey a, readKey b) :: ps)
  | _ => .ub

/-- Nodes of which every member is read by its place: all but those with child nodes. -/
def readFlat : List Val → Res Plan
  | [.uint g, c] =>
    if byteOf g = 1 then (readColl c).bind fun c => .ok (.createCollection c [])
    else if byteOf g = 2 then (readColl c).bind fun c => .ok (.createDatabase c)
    else if byteOf g = 6 then (readColl c).bind fun c => .ok (.dropCollection c)
    else if byteOf g = 7 then (readColl c).bind fun c => .ok (.dropDatabase c)
    else if byteOf g = 4 then
      match c with
      | .arr ds => (toDocumentsLoop ds).bind fun ds => .ok (.data ds)
      | _ => .ub
    else .ub
  | [.uint g, .uint t, c, .str n, .arr ks] =>
    if byteOf g = 3 then (readColl c).bind fun c => .ok (.createIndex (byteOf t) c n (ks.map readKey))
    else .ub
  | [.uint g, c, .str n] => if byteOf g = 8 then (readColl c).bind fun c => .ok (.dropIndex c n) else .ub
  | [.uint g, .str n, .arr is] => if byteOf g = 15 then (readIds is).bind fun is => .ok (.function n is) else .ub
  | [.uint g, c, x] =>
    if byteOf g = 11 then (readLimit (.arr [.uint g, c, x])).bind fun l => .ok (.limit l)
    else if byteOf g = 12 then (readMatch (.arr [.uint g, c, x])).bind fun m => .ok (.filter m)
    else match x with
      | .arr xs =>
        if byteOf g = 13 then (readColl c).bind fun c => (readExprs xs).bind fun es => .ok (.group c es)
        else if byteOf g = 14 then (readColl c).bind fun c => (readExprs xs).bind fun es => .ok (.sort c es)
        else if byteOf g = 5 then
          match xs with
          | m :: l :: _ => (readColl c).bind fun c => (readMatch m).bind fun m => (readLimit l).bind fun l =>
              .ok (.delete c ⟨[], [], [], []⟩ m l)
          | _ => .ub
        else .ub
      | _ => .ub
  | [.uint g, c, s, .arr (m :: l :: _), .arr us, .bool up] =>
    if byteOf g = 16 then
      (readColl c).bind fun c => (readColl s).bind fun s => (readMatch m).bind fun m => (readLimit l).bind fun l =>
        (readUpds us).bind fun us => .ok (.update c s m l us up)
    else .ub
  | _ => .ub

mutual
/-- `node_t::deserialize`, node.cpp:88-131, and the `deserialize` functions of the nodes. -/
def readPlan : Val → Res Plan
  | .arr vs => readPlanParts vs
  | _ => .ub
/-- The members of a node: those with child nodes (node_aggregate.cpp:14-26, node_insert.cpp:24-46,
node_join.cpp:19-32) here, the others in `readFlat`. -/
def readPlanParts : List Val → Res Plan
  | [.uint g, c, .arr ps] =>
    if byteOf g = 0 then (readColl c).bind fun c => (readPlans ps).bind fun ps => .ok (.aggregate c ps)
    else readFlat [.uint g, c, .arr ps]
  | [.uint g, a, b, .arr xs] =>
    if byteOf g = 9 then
      (readColl a).bind fun c => (readChildren b).bind fun ps => (readTranslation xs).bind fun tr => .ok (.insert c ps tr)
    else if byteOf g = 10 then
      (readSide a).bind fun t => (readColl b).bind fun c => (readPlans xs).bind fun ps => .ok (.join t c ps [])
    else .ub
  | vs => readFlat vs
/-- An array of child nodes. -/
def readChildren : Val → Res (List Plan)
  | .arr ps => readPlans ps
  | _ => .ub
/-- The loop over child nodes, node_aggregate.cpp:19-23, node_insert.cpp:29-33, node_join.cpp:24-28. -/
def readPlans : List Val → Res (List Plan)
  | [] => .ok []
  | v :: vs => (readPlan v).bind fun p => (readPlans vs).bind fun ps => .ok (p :: ps)
end

/-- `add_parameter`, param_storage.hpp: the first value of a number stays. -/
def addParam (ps : Params) (i : Nat) (v : V) : Params :=
  if i ∈ ps.map Prod.fst then ps else ps ++ [(i, v)]

/-- The loop over parameters, param_storage.cpp:52-55, with `deserialize_param_pair` (deserializer.cpp:65-71) and
`deserialize_value` (deserializer.cpp:275-294). -/
def readParamsLoop (acc : Params) : List Val → Res Params
  | [] => .ok acc
  | .arr (.uint i :: v :: _) :: vs => (Query.put (primitive v)).bind fun x => readParamsLoop (addParam acc (idOf i) x) vs
  | _ => .ub

/-- `parameter_node_t::deserialize`, param_storage.cpp:49-58. -/
def readParams : Val → Res Params
  | .arr (_ :: .arr ps :: _) => readParamsLoop [] ps
  | _ => .ub

/-- What `unpack` of a record gives: the checksum of the record before it, its number, the plan and the parameters. -/
structure Entry where
  crc : Nat
  id : Nat
  plan : Plan
  params : Params

/-- The members of the record, dto.cpp:79-90. -/
def readEntryParts : Val → Res Entry
  | .arr (.uint crc :: .uint id :: p :: ps :: _) =>
    (readPlan p).bind fun p => (readParams ps).bind fun ps => .ok ⟨crc % 2 ^ 32, id, p, ps⟩
  | _ => .ub

/-- `unpack`, dto.cpp:76-90, of the payload of a record. -/
def readEntry (bs : Bytes) : Res Entry :=
  match unpack bs with
  | none => .throws
  | some v => readEntryParts v

end Verif.PlanPack
