import Verif.Base.Res
/-!
Model of schema transactions: components/catalog/transaction/schema_diff.cpp, metadata_diff.cpp,
metadata_transaction.cpp/.hpp, transaction_scope.cpp, with the parts of components/catalog/schema.cpp,
components/types/types.cpp and components/catalog/catalog.cpp they use.

Simplifications:
* a type is a number for `logical_type` and, if there is an extension, a number for what the extension holds together
  with its alias;
* the hash maps are association lists, oldest entry first; nothing depends on their order;
* the primary key is left out (no call of a transaction changes it), and so are the time of the last update and the
  next column id;
* errors are not told apart; the list of active transactions is only present or gone (nothing reads its elements).
-/
namespace Verif.SchemaTxn

abbrev Name := String

/-- `complex_logical_type`: the type and `extension_` (its content and its alias). -/
structure Ty where
  base : Nat
  ext : Option (Nat × Name)
deriving DecidableEq, Repr

/-- `complex_logical_type()`: no extension. -/
def Ty.default : Ty := ⟨0, none⟩

/-- `operator=(const complex_logical_type&)`, types.cpp:69-113: without an extension on the right, the one on the left
stays. -/
def Ty.assign (a b : Ty) : Ty := ⟨b.base, match b.ext with | none => a.ext | some e => some e⟩

/-- `set_alias`, types.cpp:268-275 (0: `GENERIC`). -/
def Ty.setAlias (t : Ty) (n : Name) : Ty := ⟨t.base, some ((match t.ext with | none => 0 | some e => e.1), n)⟩

/-- A column: its type, whose alias is its name, and its `field_description`. -/
structure Col where
  ty : Ty
  id : Nat
  req : Bool
  doc : String
deriving DecidableEq, Repr

/-- `alias()`, types.cpp:284-287, on the columns of a schema, which all have one; `""` for the null dereference. -/
def Col.name (c : Col) : Name := match c.ty.ext with
  | none => ""
  | some e => e.2

/-- `diff_info`, schema_diff.hpp:47-55; the four bits of `info` and the parts of `entry` that are used. -/
structure Info where
  t : Bool
  n : Bool
  d : Bool
  o : Bool
  ty : Ty
  req : Bool
  doc : String
deriving DecidableEq, Repr

/-- `schema_diff`, schema_diff.hpp:62-67. -/
structure Diff where
  added : List Col
  updates : List (Name × Info)
  renames : List (Name × Name)
  deleted : List Name
deriving DecidableEq, Repr

def Diff.empty : Diff := ⟨[], [], [], []⟩

/-- Change the entry of a name. -/
def setInfo (l : List (Name × Info)) (a : Name) (f : Info → Info) : List (Name × Info) :=
  l.map fun p => if p.1 = a then (p.1, f p.2) else p

/-- `emplace`: an entry that is there stays. -/
def emplace {β : Type} (l : List (Name × β)) (a : Name) (b : β) : List (Name × β) :=
  match l.lookup a with
  | some _ => l
  | none => l ++ [(a, b)]

/-- `add_column`, schema_diff.cpp:19-26: every added column has the id 0. -/
def Diff.addColumn (D : Diff) (a : Name) (ty : Ty) (req : Bool) (doc : String) : Diff :=
  { D with added := D.added ++ [⟨ty.setAlias a, 0, req, doc⟩] }

/-- `delete_column`, schema_diff.cpp:28. -/
def Diff.deleteColumn (D : Diff) (a : Name) : Diff := { D with deleted := D.deleted ++ [a] }

/-- `rename_column`, schema_diff.cpp:30-41. -/
def Diff.renameColumn (D : Diff) (a b : Name) : Diff :=
  match D.updates.lookup a with
  | some _ => { D with updates := setInfo D.updates a fun i => { i with n := true, ty := i.ty.setAlias b } }
  | none => { D with
      renames := emplace D.renames a b
      updates := emplace D.updates b ⟨false, true, false, false, Ty.default.setAlias b, false, ""⟩ }

/-- `update_column_type`, schema_diff.cpp:43-53.  `old_alias` is a reference into the extension: a null one is
dereferenced, and one that the assignment replaces is read after it was freed. -/
def Diff.updateType (D : Diff) (a : Name) (ty : Ty) : Res Diff :=
  match D.updates.lookup a with
  | some i => match i.ty.ext, ty.ext with
    | none, _ => .ub
    | some _, some _ => .ub
    | some e, none => .ok { D with updates := setInfo D.updates a fun i => { i with t := true, ty := (i.ty.assign ty).setAlias e.2 } }
  | none => .ok { D with updates := emplace D.updates a ⟨true, false, false, false, ty, false, ""⟩ }

/-- `update_column_doc`, schema_diff.cpp:55-63. -/
def Diff.updateDoc (D : Diff) (a : Name) (doc : String) : Diff :=
  match D.updates.lookup a with
  | some _ => { D with updates := setInfo D.updates a fun i => { i with d := true, doc := doc } }
  | none => { D with updates := emplace D.updates a ⟨false, false, true, false, Ty.default, false, doc⟩ }

/-- `make_optional`, `make_required`, schema_diff.cpp:65-83. -/
def Diff.setRequired (D : Diff) (a : Name) (req : Bool) : Diff :=
  match D.updates.lookup a with
  | some _ => { D with updates := setInfo D.updates a fun i => { i with o := true, req := req } }
  | none => { D with updates := emplace D.updates a ⟨false, false, false, true, Ty.default, req, ""⟩ }

/-- `has_changes`, schema_diff.cpp:89-91. -/
def Diff.hasChanges (D : Diff) : Bool := !D.updates.isEmpty || !D.added.isEmpty || !D.deleted.isEmpty

/-- The body of `do_update`, schema_diff.cpp:131-166, on the last column: type, name, doc, optional. -/
def applyInfo (i : Info) (c : Col) : Col :=
  let ty := if i.t then c.ty.assign i.ty else c.ty
  let ty := if i.n && !i.t then (match i.ty.ext with | some e => ty.setAlias e.2 | none => ty) else ty
  { ty := ty, id := c.id, req := if i.o then i.req else c.req, doc := if i.d then i.doc else c.doc }

/-- What the loop of `apply` makes of a column that is not deleted, schema_diff.cpp:109-116. -/
def Diff.updateCol (D : Diff) (c : Col) : Col :=
  match D.updates.lookup c.name with
  | some i => applyInfo i c
  | none => match D.renames.lookup c.name with
    | some b => match D.updates.lookup b with
      | some i => applyInfo i c
      | none => c
    | none => c

/-- `apply`, schema_diff.cpp:93-126. -/
def Diff.apply (D : Diff) (cols : List Col) : List Col :=
  (cols.filterMap fun c => if D.deleted.contains c.name then none else some (D.updateCol c)) ++ D.added

/-- The error a schema records in its constructor, schema.cpp:15-42: a name or an id occurs twice. -/
def schemaError (cols : List Col) : Bool := !decide ((cols.map Col.name).Nodup) || !decide ((cols.map Col.id).Nodup)

/-- `table_metadata`. -/
structure Table where
  cols : List Col
  desc : String
deriving DecidableEq, Repr

/-- `metadata_diff`, metadata_diff.hpp:19-20. -/
structure MDiff where
  schema : Diff
  desc : Option String
deriving DecidableEq, Repr

def MDiff.empty : MDiff := ⟨Diff.empty, none⟩

/-- `has_changes`, metadata_diff.cpp:12. -/
def MDiff.hasChanges (M : MDiff) : Bool := M.desc.isSome || M.schema.hasChanges

/-- `apply`, metadata_diff.cpp:14-23. -/
def MDiff.apply (M : MDiff) (T : Table) : Table :=
  if !M.hasChanges then T
  else ⟨if M.schema.hasChanges then M.schema.apply T.cols else T.cols, M.desc.getD T.desc⟩

/-! ### the transaction -/

inductive TState where
  | active | committed | aborted
deriving DecidableEq, Repr

/-- `metadata_transaction`, metadata_transaction.hpp:69-73. -/
structure Txn where
  state : TState
  mdiff : MDiff
  sdiff : Diff
  err : Bool
  saves : List (Name × (MDiff × Diff))
deriving DecidableEq, Repr

/-- A transaction begun on an existing table. -/
def Txn.init : Txn := ⟨.active, .empty, .empty, false, []⟩

/-- The calls on a transaction. -/
inductive Op where
  | add (a : Name) (ty : Ty) (req : Bool) (doc : String)
  | delete (a : Name)
  | rename (a b : Name)
  | updateType (a : Name) (ty : Ty)
  | updateDoc (a : Name) (doc : String)
  | setRequired (a : Name) (req : Bool)
  | describe (desc : String)
  | savepoint (s : Name)
  | rollback (s : Name)
deriving DecidableEq, Repr

/-- The calls, metadata_transaction.cpp:32-127, when `ensure_active` holds. -/
def Txn.act (t : Txn) : Op → Res Txn
  | .add a ty req doc => .ok { t with sdiff := t.sdiff.addColumn a ty req doc }
  | .delete a => .ok { t with sdiff := t.sdiff.deleteColumn a }
  | .rename a b => .ok { t with sdiff := t.sdiff.renameColumn a b }
  | .updateType a ty => (t.sdiff.updateType a ty).bind fun D => .ok { t with sdiff := D }
  | .updateDoc a doc => .ok { t with sdiff := t.sdiff.updateDoc a doc }
  | .setRequired a req => .ok { t with sdiff := t.sdiff.setRequired a req }
  | .describe desc => .ok { t with mdiff := { t.mdiff with desc := some desc } }
  | .savepoint s => .ok { t with saves := emplace t.saves s (t.mdiff, t.sdiff) }
  | .rollback s => match t.saves.lookup s with
    | none => .ok { t with err := true }
    | some p => .ok { t with mdiff := p.1, sdiff := p.2 }

/-- `ensure_active`, metadata_transaction.cpp:18-30, then the call. -/
def Txn.call (t : Txn) (o : Op) : Res Txn :=
  if t.err then .ok t
  else if t.state = .active then t.act o
  else .ok { t with err := true }

/-- What the scope works on: the namespace of the table (still there?) and the table (still there?). -/
structure World where
  ns : Bool
  table : Option Table
deriving DecidableEq, Repr

/-- `transaction_scope`, transaction_scope.hpp:46-52; `alive`: the list of transactions is not expired. -/
structure Scope where
  committed : Bool
  aborted : Bool
  err : Bool
  alive : Bool
  txn : Txn
deriving DecidableEq, Repr

/-- `begin_transaction` on an existing table, catalog.cpp:170-179. -/
def Scope.begin : Scope := ⟨false, false, false, true, .init⟩

/-- `abort`, transaction_scope.cpp:98-117, and `metadata_transaction::abort`, metadata_transaction.cpp:133-137. -/
def Scope.abort (s : Scope) : Scope :=
  if s.committed then { s with err := true }
  else if s.aborted then s
  else { s with aborted := true, txn := { s.txn with state := if s.txn.state = .active then .aborted else s.txn.state } }

/-- `commit`, transaction_scope.cpp:63-96, with `metadata_transaction::commit`, metadata_transaction.hpp:51-65.  The
second component: an exception, thrown by `get_namespace_info` (namespace_storage.cpp:126-131) when the namespace is
gone; then the transaction is still active and holds the recorded changes in `metadata_diff_`. -/
def Scope.commit (s : Scope) (w : World) : Scope × World × Bool :=
  let s := if s.committed || s.aborted then { s with err := true } else s
  let s := if !s.alive then { s with err := true } else s
  if s.err then (s.abort, w, false)
  else if s.txn.err then ((({ s with err := true }).abort), w, false)
  else if s.txn.state = .active then
    let m : MDiff := ⟨s.txn.sdiff, s.txn.mdiff.desc⟩
    if !m.hasChanges then ({ s with committed := true, txn := { s.txn with state := .committed } }, w, false)
    else if !w.ns then ({ s with txn := { s.txn with mdiff := m, sdiff := .empty } }, w, true)
    else match w.table with
      | none => ((({ s with err := true, txn := { s.txn with err := true, state := .aborted } }).abort), w, false)
      | some T => ({ s with committed := true, txn := { s.txn with state := .committed } }, { w with table := some (m.apply T) }, false)
  else ((({ s with err := true, txn := { s.txn with err := true } }).abort), w, false)

/-- The destructor, transaction_scope.cpp:27-31. -/
def Scope.destroy (s : Scope) : Scope := if !s.committed && !s.aborted then s.abort else s

end Verif.SchemaTxn
