import Verif.Py.FindModel
import Verif.Query.WriteModel
/-!
Model of `insert_one`, `insert_many`, `find_one`, `delete_one` and `delete_many` of a collection in Python
(integration/python/sql/wrapper_collection.cpp, integration/cpp/wrapper_dispatcher.cpp), on top of the conditions of
`Py/FindModel` and the writes of `Query/WriteModel`.

Simplifications: the collection exists and has no index; the documents of an insert are already made of the Python objects
(`Py/Model`) and have their `_id`, given or made by `generate_document_id_if_not_exists` (wrapper_collection.cpp:17-21).
-/
namespace Verif.Py
open Verif

/-- `find_one`, wrapper_collection.cpp:224-242: the first document of the answer to the whole query, which has no limit;
`none` is the empty dictionary. -/
def findOne (L : Lib) (rx : Bytes → Bytes → Res Bool) (cond : PyObj) (store : List Query.Doc) : Res (Option Query.Doc) :=
  match cond with
  | .dict es => (find L rx es store).bind fun r => .ok (r.bind List.head?)
  | _ => .throws

/-- `delete_one` and `delete_many`, wrapper_collection.cpp:244-283: `lim` is the limit of the plan
(`limit_t::limit_one()` and `limit_t::unlimit()`, components/logical_plan/node_delete.cpp:69-98). The storage and the
length of the cursor; another object than a dictionary deletes nothing. -/
def delete (L : Lib) (rx : Bytes → Bytes → Res Bool) (lim : Int) (cond : PyObj) (store : List Query.Doc) : Res (List Query.Doc × Nat) :=
  match cond with
  | .dict es => (parseFind L es).bind fun r =>
    (Query.deleteMatch lim (fun d => Query.check (checkP rx d) (toFilter r.2 r.1)) store).bind fun w =>
      (Query.deleteReply w).bind fun n => .ok (w.1, n)
  | _ => .ok (store, 0)

def deleteOne (L : Lib) (rx : Bytes → Bytes → Res Bool) := delete L rx 1
def deleteMany (L : Lib) (rx : Bytes → Bytes → Res Bool) := delete L rx (-1)

/-- `insert_many`, wrapper_collection.cpp:79-104: the storage and the list of the `_id`s of the documents of the answer. -/
def insertMany (batch store : List Query.Doc) : Res (List Query.Doc × List Nat) :=
  (Query.insertReply (Query.insertOp [] store batch)).bind fun ds => .ok ((Query.insertOp [] store batch).1, ds.map Query.Doc.id)

/-- `insert_one`, wrapper_collection.cpp:60-77: the `_id` of the first document of the answer, `none` is the empty text. -/
def insertOne (d : Query.Doc) (store : List Query.Doc) : Res (List Query.Doc × Option Nat) :=
  (Query.insertReply (Query.insertOp [] store [d])).bind fun ds => .ok ((Query.insertOp [] store [d]).1, (ds.map Query.Doc.id).head?)

end Verif.Py
