import Verif.Share.Model
/-!
What clients expect: the same calls on values.  A collection holds documents, not pointers; INSERT stores copies of the
documents it is given, an answer has copies of what was found, and neither changes when the other does.

What an answer contains when it is given is not the subject here: as the code does, a refused INSERT answers with the
collection, and a DELETE with as many empty places as it deleted.
-/
namespace Verif.Share

/-- Documents clients made, answers they got, and the contents of each collection in order of `_id`. -/
structure World (D : Type) where
  made : List D
  answers : List (List (Option D))
  colls : Nat → List D

def World.init {D : Type} : World D := ⟨[], [], fun _ => []⟩

variable {D : Type} (idOf : D → Nat)

/-- A document stored, in place of one with the same `_id`. -/
def put (d : D) (ds : List D) : List D :=
  ds.filter (fun e => idOf e < idOf d) ++ d :: ds.filter (fun e => idOf d < idOf e)

/-- What a filter with a limit finds. -/
def found (p : D → Bool) (lim : Option Nat) (ds : List D) : List D :=
  match lim with
  | none => ds.filter p
  | some n => (ds.filter p).take n

def World.setColl (w : World D) (c : Nat) (ds : List D) : World D :=
  { w with colls := fun x => if x = c then ds else w.colls x }

def World.say (w : World D) (l : List (Option D)) : World D := { w with answers := w.answers ++ [l] }

/-- The document a client means. -/
def World.held (w : World D) : Held → Option D
  | .made k => w.made[k]?
  | .answer a i => (w.answers[a]?).bind fun l => (l[i]?).bind id

/-- A client changes its document, and nothing else changes. -/
def World.change (w : World D) (h : Held) (d : D) : World D :=
  match h with
  | .made k => { w with made := w.made.set k d }
  | .answer a i => { w with answers := w.answers.modify a fun l => l.set i (some d) }

/-- INSERT of documents: all, if no `_id` among them is stored, else none. -/
def World.insert (w : World D) (c : Nat) (ds : List D) : World D :=
  if ds.any fun d => (w.colls c).any fun e => idOf e == idOf d then w.say ((w.colls c).map some)
  else
    let all := ds.foldl (fun l d => put idOf d l) (w.colls c)
    (w.setColl c all).say (ds.map fun d => all.find? fun e => idOf e == idOf d)

/-- UPDATE: the documents found are changed, and are the answer if that made a difference; if there are none, the
document of an upsert is stored. -/
def World.update (w : World D) (c : Nat) (p : D → Bool) (lim : Option Nat) (f : D → D × Bool) (new : Option D) : World D :=
  let hit := found p lim (w.colls c)
  if lim = some 0 then w.say []
  else if hit.isEmpty then
    match new with
    | none => w.say []
    | some d => (w.setColl c (put idOf d (w.colls c))).say [some d]
  else
    (w.setColl c ((w.colls c).map fun d => if hit.any (fun e => idOf e == idOf d) then (f d).1 else d)).say
      ((hit.filter fun d => (f d).2).map fun d => some (f d).1)

/-- DELETE: the documents found are gone. -/
def World.delete (w : World D) (c : Nat) (p : D → Bool) (lim : Option Nat) : World D :=
  let hit := found p lim (w.colls c)
  (w.setColl c ((w.colls c).filter fun d => !hit.any fun e => idOf e == idOf d)).say (List.replicate hit.length none)

/-- One call; `none` when the client has no such document. -/
def World.step (w : World D) : Op D → Option (World D)
  | .make d => some { w with made := w.made ++ [d] }
  | .write h f => (w.held h).map fun d => w.change h (f d)
  | .insert c hs => (hs.mapM w.held).map (w.insert idOf c)
  | .insertAll c src p => some (w.insert idOf c (found p none (w.colls src)))
  | .insertCols c src p g => some (w.insert idOf c (g (found p none (w.colls src))))
  | .select c p lim => some (w.say ((found p lim (w.colls c)).map some))
  | .selectCols c p g => some (w.say ((g (found p none (w.colls c))).map some))
  | .update c p lim f new => some (w.update idOf c p lim f new)
  | .delete c p lim => some (w.delete idOf c p lim)

def World.run : World D → List (Op D) → Option (World D)
  | w, [] => some w
  | w, o :: os => (w.step idOf o).bind fun w' => World.run w' os

/-- The collections are those of the world of values. -/
def SameColls (s : St D) (w : World D) : Prop := ∀ c, readColl s c = (w.colls c).map some

/-- Everything clients can read is as in the world of values. -/
def Same (s : St D) (w : World D) : Prop :=
  SameColls s w ∧ (∀ a, readAnswer s a = w.answers[a]?) ∧ ∀ k, readMade s k = w.made[k]?

/-- DELETE with limit 0 is undefined behaviour, and an UPDATE of `_id` another matter, whatever is shared. -/
def Op.plain : Op D → Prop
  | .delete _ _ lim => lim ≠ some 0
  | .update _ _ _ f _ => ∀ d, idOf (f d).1 = idOf d
  | _ => True

/-- A call that changes no document: anything but UPDATE and clients changing documents they have.  (An upsert that finds
nothing is an UPDATE here.) -/
def Op.quiet : Op D → Prop
  | .write _ _ => False
  | .update _ _ _ _ _ => False
  | .delete _ _ lim => lim ≠ some 0
  | _ => True

/-- A call that changes no document, unless it is undefined: anything but UPDATE and clients changing documents. -/
def Op.silent : Op D → Prop
  | .write _ _ => False
  | .update _ _ _ _ _ => False
  | _ => True

/-- The collection an UPDATE is on. -/
def Op.updates : Op D → Option Nat
  | .update c _ _ _ _ => some c
  | _ => none

/-- The collection the answer of a statement is about. -/
def Op.about : Op D → Option Nat
  | .insert c _ => some c
  | .insertAll c _ _ => some c
  | .insertCols c _ _ _ => some c
  | .select c _ _ => some c
  | .selectCols c _ _ => some c
  | .update c _ _ _ _ => some c
  | .delete c _ _ => some c
  | _ => none

/-- Clients that give each document away once: a document a client made goes to at most one INSERT, once, and is not
changed after that (`used` are those given); documents of answers are only read; no INSERT … SELECT *; UPDATE keeps `_id`s. -/
def Careful : List Nat → List (Op D) → Prop
  | _, [] => True
  | used, .write h _ :: os => (∃ k : Nat, h = .made k ∧ k ∉ used) ∧ Careful used os
  | used, .insert _ hs :: os =>
    ∃ ks : List Nat, hs = ks.map .made ∧ ks.Nodup ∧ (∀ k ∈ ks, k ∉ used) ∧ Careful (ks ++ used) os
  | _, .insertAll _ _ _ :: _ => False
  | used, .update _ _ _ f _ :: os => (∀ d, idOf (f d).1 = idOf d) ∧ Careful used os
  | used, .delete _ _ lim :: os => lim ≠ some 0 ∧ Careful used os
  | used, _ :: os => Careful used os

end Verif.Share
