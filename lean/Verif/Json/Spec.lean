import Verif.Json.Model
/-!
Places in a document and what is seen there.
-/
namespace Verif.Json

open Verif.DocVal

/-- A place in a document: the names and indices that lead to it. -/
abbrev Loc := List Key

/-- The node at a place. -/
def reach (n : Node) : Loc → Option Node
  | [] => some n
  | .name k :: l => match n with
    | .obj fs => (lookN fs k).bind fun c => reach c l
    | _ => none
  | .index i :: l => match n with
    | .arr xs => xs[i]?.bind fun c => reach c l
    | _ => none

/-- What kind of thing is at a place. -/
inductive Shape where
  | value (v : V)
  | object
  | array
  | deleted
deriving DecidableEq, Repr

def Node.shape : Node → Shape
  | .leaf v => .value v
  | .obj _ => .object
  | .arr _ => .array
  | .del => .deleted

/-- What is seen at a place: nothing, a value, or a container.  A document is determined by this up to the order of the
fields of its objects. -/
def seen (n : Node) (l : Loc) : Option Shape := (reach n l).map Node.shape

/-- The document `n` with `v` in the place `t`. -/
def withAt (n : Node) (t : Loc) (v : Node) (l : Loc) : Option Shape :=
  if t <+: l then seen v (l.drop t.length) else seen n l

/-- The text of a name in a path: `~` as `~0`, `/` as `~1`. -/
def escape : Bytes → Bytes
  | [] => []
  | c :: r => if c = tilde then tilde :: char0 :: escape r else if c = slash then tilde :: char1 :: escape r else c :: escape r

/-- The decimal digits of a number. -/
def decimal (n : Nat) : Bytes := if n < 10 then [UInt8.ofNat (48 + n)] else decimal (n / 10) ++ [UInt8.ofNat (48 + n % 10)]

/-- The text of a step. -/
def Key.text : Key → Bytes
  | .name k => escape k
  | .index i => decimal i

/-- The text of a path: each step after a slash. -/
def pointer : Loc → Bytes
  | [] => []
  | k :: l => slash :: k.text ++ pointer l

/-- The steps of a path fit the document: names at objects, indices below 2^63 at arrays, as long as there is something. -/
def Fits (n : Node) : Loc → Prop
  | [] => True
  | .name k :: l => match n with
    | .arr _ => False
    | .obj fs => ∀ c, lookN fs k = some c → Fits c l
    | _ => True
  | .index i :: l => match n with
    | .obj _ => False
    | .arr xs => i < 2 ^ 63 ∧ ∀ c, xs[i]? = some c → Fits c l
    | _ => True

/-- No object has a name twice. -/
inductive Tree : Node → Prop where
  | leaf (v) : Tree (.leaf v)
  | del : Tree .del
  | arr (xs) (h : ∀ x ∈ xs, Tree x) : Tree (.arr xs)
  | obj (fs : List (Bytes × Node)) (hn : (fs.map Prod.fst).Nodup) (h : ∀ p ∈ fs, Tree p.2) : Tree (.obj fs)

/-- Which document decides what is seen in a place after a merge. -/
inductive Who where
  | first | second | nobody
deriving DecidableEq, Repr

/-- The second document decides where it has a value or an array on the way or something at the end, nobody where it has a
mark for deletion, the first one elsewhere. -/
def who (n : Node) : Loc → Who
  | [] => match n with
    | .del => .nobody
    | _ => .second
  | k :: l => match n with
    | .obj fs => match k with
      | .name k => match lookN fs k with
        | none => .first
        | some c => who c l
      | .index _ => .second
    | .del => .nobody
    | _ => .second

/-- What is seen after a merge. -/
def mergedSeen (n1 n2 : Node) (l : Loc) : Option Shape :=
  match who n2 l with
  | .second => seen n2 l
  | .first => seen n1 l
  | .nobody => none

end Verif.Json
