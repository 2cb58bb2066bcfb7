import Verif.Py.CurModel
/-!
What one expects of a cursor in Python: a list of documents and how many of them were asked for.
-/
namespace Verif.Py
open Verif

structure Pos where
  docs : List Query.Doc
  asked : Nat

/-- The document asked for last, at first the first one; `none` if the documents are at an end. -/
def Pos.here (p : Pos) : Option Query.Doc := p.docs[p.asked - 1]?

/-- What Python sees of reading from a document: the value, or an exception it can catch. -/
def given {X : Type} : Res X → Res (POut X)
  | .ok x => .ok (.value x)
  | .throws => .ok .raised
  | .ub => .ub
  | .diverges => .diverges

/-- What a call gives: `next` gives the cursor as long as there is another document, then it stops; `len` counts the
documents; `cursor[k]` reads from the document asked for last; `cursor[i]` gives the document at `i` and refuses negative
numbers. `none`: nothing is said, there is no such document. -/
def Pos.out {X : Type} (rd : Reader X) (p : Pos) : PCall → Option (Res (POut X))
  | .next => some (.ok (if p.asked < p.docs.length then .self else .stop))
  | .len => some (.ok (.num p.docs.length))
  | .hasNext => some (.ok (.bool (decide (p.asked < p.docs.length))))
  | .item (.text k) => p.here.map fun d => given (rd.field d k)
  | .item (.int i) => if i < 0 then some (.ok .raised) else p.docs[i.toNat]?.map fun d => given (rd.whole d)
  | .item .other => some (.ok .raised)
  | .repr => p.here.map fun d => given (rd.json d)
  | .close => some (.ok .nothing)

/-- `next` goes on, nothing else does. -/
def Pos.after (p : Pos) : PCall → Pos
  | .next => ⟨p.docs, p.asked + 1⟩
  | _ => p

/-- What the calls give, if something is said of all of them. -/
def Pos.outs {X : Type} (rd : Reader X) : Pos → List PCall → Option (Res (List (POut X)))
  | _, [] => some (.ok [])
  | p, x :: xs => (p.out rd x).bind fun r => (Pos.outs rd (p.after x) xs).map fun q => r.bind fun o => q.bind fun os => .ok (o :: os)

/-- The number of documents asked for. -/
def asks : List PCall → Nat
  | [] => 0
  | .next :: xs => asks xs + 1
  | _ :: xs => asks xs

/-- The fields `ks` of one document. -/
def fieldsOf {X : Type} (rd : Reader X) (d : Query.Doc) : List Bytes → Res (List X)
  | [] => .ok []
  | k :: ks => (rd.field d k).bind fun x => (fieldsOf rd d ks).bind fun xs => .ok (x :: xs)

/-- The fields `ks` of one document after the other; an exception ends it. -/
def table {X : Type} (rd : Reader X) (ks : List Bytes) : List Query.Doc → Res (List (List X))
  | [] => .ok []
  | d :: ds => (fieldsOf rd d ks).bind fun x => (table rd ks ds).bind fun xs => .ok (x :: xs)

/-- The cursor of an answer, and that of a delete: a null pointer for each document, executor.cpp:428-463. -/
def answer (docs : List Query.Doc) : PCur := Cursor.ofDocuments (docs.map some)
def answerOfDelete (n : Nat) : PCur := Cursor.ofDocuments (List.replicate n none)

end Verif.Py
