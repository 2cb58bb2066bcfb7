import Verif.Glob.FilesModel
import Verif.Glob.Spec
/-!
What a pattern of paths means.
-/
namespace Verif.Glob

/-- A part of the pattern has `*`, `?` or `[` in it. -/
def Special (p : Name) : Prop := 42 ∈ p ∨ 63 ∈ p ∨ 91 ∈ p

/-- A name fits a part: the pattern matches it, or it is the part. -/
def Fits (p n : Name) : Prop := (Special p ∧ ∃ is, Written p is ∧ Matches is n) ∨ (¬ Special p ∧ n = p)

/-- The names of a path fit the parts of a pattern one by one; `**` stands for any directories on the way, or as the last part for all that is
below. -/
inductive FitsPath : List Name → List Name → Prop where
  | last {p n : Name} : p ≠ [42, 42] → Fits p n → FitsPath [p] [n]
  | under {ds : List Name} : ds ≠ [] → FitsPath [[42, 42]] ds
  | part {p n : Name} {ps ns : List Name} : p ≠ [42, 42] → Fits p n → FitsPath ps ns → FitsPath (p :: ps) (n :: ns)
  | crawl {ps ns : List Name} (ds : List Name) : FitsPath ps ns → FitsPath ([42, 42] :: ps) (ds ++ ns)

/-- In no directory are two things of the same name. -/
def Distinct : Ents → Prop
  | .nil => True
  | .file n r => n ∉ r.list.map Prod.fst ∧ Distinct r
  | .dir n s r => n ∉ r.list.map Prod.fst ∧ Distinct s ∧ Distinct r

/-- In the directory there is a regular file of this path. -/
inductive IsFile : Ents → List Name → Prop where
  | here {n : Name} {es : Ents} : es.find n = some none → IsFile es [n]
  | deeper {n : Name} {es sub : Ents} {ns : List Name} : es.find n = some (some sub) → IsFile sub ns → IsFile es (n :: ns)

/-- In the directory there is a directory of this path. -/
inductive IsDir : Ents → List Name → Prop where
  | here {n : Name} {es sub : Ents} : es.find n = some (some sub) → IsDir es [n]
  | deeper {n : Name} {es sub : Ents} {ns : List Name} : es.find n = some (some sub) → IsDir sub ns → IsDir es (n :: ns)

/-- What a search for a pattern is to find: what fits it and is a regular file, or, if the last part is a plain name, a directory. -/
def Found (es : Ents) (ps ns : List Name) : Prop :=
  FitsPath ps ns ∧ (IsFile es ns ∨ (IsDir es ns ∧ ∃ p, ps.getLast? = some p ∧ ¬ Special p))

/-- A part of a pattern of the kind considered: not empty, not `.` and not `..`, without `/` and backslash. -/
def Part (p : Name) : Prop := p ≠ [] ∧ p ≠ [46] ∧ p ≠ [46, 46] ∧ 47 ∉ p ∧ 92 ∉ p

/-- The parts with `/` between them. -/
def joined : List Name → List Ch
  | [] => []
  | [p] => p
  | p :: q :: ps => p ++ 47 :: joined (q :: ps)

/-- The text of a pattern, from the root or from the directory of the process. -/
def text (absolute : Bool) (ps : List Name) : List Ch := if absolute then 47 :: joined ps else joined ps

/-- Where its search starts. -/
def Disk.start (d : Disk) (absolute : Bool) : Ents := if absolute then d.root else d.cwd

/-- A search finds what it is to find; if there is nothing, it finds the regular file that has the text of the pattern as its path. -/
def FindsRight (d : Disk) (absolute : Bool) (ps : List Name) : Prop :=
  ∀ ns, ns ∈ search d (text absolute ps) ↔
    Found (d.start absolute) ps ns ∨ ((∀ ms, ¬ Found (d.start absolute) ps ms) ∧ ns = ps ∧ IsFile (d.start absolute) ps)

end Verif.Glob
