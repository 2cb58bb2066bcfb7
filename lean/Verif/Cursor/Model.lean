import Verif.Base.Res
/-!
Model of walking through an answer, components/cursor/cursor.cpp.
-/
namespace Verif.Cursor

/-- `cursor_t`, components/cursor/cursor.hpp:88-97: `size_`, `document_data_`, `current_index_` (an `int32_t`). -/
structure Cur (α : Type) where
  size : Nat
  docs : List α
  cur : Int

/-- The cursor of documents, cursor.cpp:33-40. -/
def ofDocuments {α : Type} (docs : List α) : Cur α := ⟨docs.length, docs, -1⟩

/-- The cursor of a table's rows or of types, cursor.cpp:42-59: no documents. -/
def ofRows {α : Type} (n : Nat) : Cur α := ⟨n, [], -1⟩

/-- `current_index_ + 1`; a signed overflow is undefined. -/
def Cur.after {α : Type} (c : Cur α) : Res Int := if c.cur = 2 ^ 31 - 1 then .ub else .ok (c.cur + 1)

/-- `has_next`, cursor.cpp:71. -/
def Cur.hasNext {α : Type} (c : Cur α) : Res Bool := c.after.bind fun i => .ok (decide (i.toNat < c.size))

/-- `get_document(index)`, cursor.cpp:78-83. -/
def Cur.getAt {α : Type} (c : Cur α) (i : Nat) : Res (Option α) :=
  if i < c.size then
    match c.docs[i]? with
    | some d => .ok (some d)
    | none => .throws
  else .ok none

/-- `get_document()`, cursor.cpp:75-77. -/
def Cur.get {α : Type} (c : Cur α) : Res (Option α) := c.getAt (if c.cur < 0 then 0 else c.cur.toNat)

/-- `next_document`, cursor.cpp:72-74. -/
def Cur.next {α : Type} (c : Cur α) : Res (Option α × Cur α) :=
  c.after.bind fun i => (c.getAt i.toNat).bind fun d => .ok (d, { c with cur := i })

/-- `sort`, cursor.cpp:91-94; `f` is what `std::sort` makes of the documents. -/
def Cur.sort {α : Type} (c : Cur α) (f : List α → List α) : Cur α := { c with docs := f c.docs, cur := -1 }

/-- A call. -/
inductive Call (α : Type) where
  | hasNext
  | next
  | get
  | getAt (i : Nat)
  | sort (f : List α → List α)

/-- What a call returns. -/
inductive Out (α : Type) where
  | bool (b : Bool)
  | doc (d : Option α)
  | nothing

/-- One call. -/
def Cur.call {α : Type} (c : Cur α) : Call α → Res (Out α × Cur α)
  | .hasNext => c.hasNext.bind fun b => .ok (.bool b, c)
  | .next => c.next.bind fun r => .ok (.doc r.1, r.2)
  | .get => c.get.bind fun d => .ok (.doc d, c)
  | .getAt i => (c.getAt i).bind fun d => .ok (.doc d, c)
  | .sort f => .ok (.nothing, c.sort f)

/-- The outputs of a list of calls. -/
def Cur.calls {α : Type} (c : Cur α) : List (Call α) → Res (List (Out α))
  | [] => .ok []
  | x :: xs => (c.call x).bind fun r => (r.2.calls xs).bind fun os => .ok (r.1 :: os)

end Verif.Cursor
