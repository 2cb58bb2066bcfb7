import Verif.Node.CStartModel
import Verif.Node.Spec
/-!
What a C program may expect when it starts again.
-/
namespace Verif.Node

/-- What the client is told when it asks for collection `c`, while nobody else asks anything. -/
def toldOf (s : Sys) (k : Nat) (c : Coll) : Option Bool := ((run s (ask k (.find c))).answers.find? fun a => a.1 == s.next).map fun a => a.2.2

/-- A step of a C program that creates nothing: no database, no collection. -/
def Bare : Event → Prop
  | .request _ (.createDb _) => False
  | .request _ (.createColl _) => False
  | .crash => False
  | _ => True

end Verif.Node
