import Verif.Arrow.SchemaModel
/-! What the Arrow C data interface says a schema describes. -/
namespace Verif.Arrow
open Verif
open Verif.Text (showNat)

/-- The format of a scalar: n, b, c, s, i, l, C, S, I, L, f, g; u, U or vu for texts; z, Z or vz for blobs;
"ts", the unit, ":" and a time zone for timestamps. -/
inductive FormatOf : Name → Scalar → Prop
  | na : FormatOf [110] .na
  | boolean : FormatOf [98] .boolean
  | tinyint : FormatOf [99] .tinyint
  | smallint : FormatOf [115] .smallint
  | integer : FormatOf [105] .integer
  | bigint : FormatOf [108] .bigint
  | utinyint : FormatOf [67] .utinyint
  | usmallint : FormatOf [83] .usmallint
  | uinteger : FormatOf [73] .uinteger
  | ubigint : FormatOf [76] .ubigint
  | float : FormatOf [102] .float
  | double : FormatOf [103] .double
  | string (f : Name) (h : f ∈ [[117], [85], [118, 117]]) : FormatOf f .string
  | blob (f : Name) (h : f ∈ [[122], [90], [118, 122]]) : FormatOf f .blob
  | tsSec (zone : Name) : FormatOf ([116, 115, 115, 58] ++ zone) .tsSec
  | tsMs (zone : Name) : FormatOf ([116, 115, 109, 58] ++ zone) .tsMs
  | tsUs (zone : Name) : FormatOf ([116, 115, 117, 58] ++ zone) .tsUs
  | tsNs (zone : Name) : FormatOf ([116, 115, 110, 58] ++ zone) .tsNs

mutual
/-- A schema of a column with the type: "d:<width>,<scale>" for decimals; "+l", "+L", "+vl", "+vL" with
one child for lists; "+w:<size>" with one child for arrays; "+s" with a child for every field for structs; "+m"
with a struct of key and value for maps. -/
inductive Describes : Sch → STy → Prop
  | scalar {f n : Name} {cs : Schs} {s : Scalar} (h : FormatOf f s) : Describes (.mk f n cs) (.scalar s)
  | decimal {n : Name} {cs : Schs} {w s : Nat} (hw : w ≤ 38) (hs : s ≤ w) :
      Describes (.mk ([100, 58] ++ showNat w ++ [44] ++ showNat s) n cs) (.decimal w s)
  | list {f n : Name} {c : Sch} {t : STy} (hf : f ∈ [[43, 108], [43, 76], [43, 118, 108], [43, 118, 76]]) (h : Describes c t) :
      Describes (.mk f n (.cons c .nil)) (.list t)
  | array {n : Name} {c : Sch} {t : STy} {k : Nat} (hk : k < 2 ^ 31) (h : Describes c t) :
      Describes (.mk ([43, 119, 58] ++ showNat k) n (.cons c .nil)) (.array k t)
  | struct {n : Name} {cs : Schs} {fs : SFields} (hn : fs ≠ .nil) (h : DescribesAll cs fs) : Describes (.mk [43, 115] n cs) (.struct fs)
  | map {n e : Name} {k v : Sch} {kt vt : STy} (hk : Describes k kt) (hv : Describes v vt) :
      Describes (.mk [43, 109] n (.cons (.mk [43, 115] e (.cons k (.cons v .nil))) .nil)) (.map kt vt)
/-- The children of a struct with the names and the types of its fields. -/
inductive DescribesAll : Schs → SFields → Prop
  | nil : DescribesAll .nil .nil
  | cons {c : Sch} {cs : Schs} {t : STy} {fs : SFields} (h : Describes c t) (hs : DescribesAll cs fs) :
      DescribesAll (.cons c cs) (.cons c.name t fs)
end

mutual
/-- Types without decimals, arrays, maps, blobs and 128 bit integers, whose structs have fields, all of
them without a name. -/
def STy.bare : STy → Prop
  | .scalar s => s ≠ .blob ∧ s ≠ .hugeint ∧ s ≠ .uhugeint
  | .decimal _ _ => False
  | .list t => t.bare
  | .array _ _ => False
  | .struct fs => fs ≠ .nil ∧ fs.bare
  | .map _ _ => False
def SFields.bare : SFields → Prop
  | .nil => True
  | .cons n t fs => n = [] ∧ t.bare ∧ fs.bare
end

end Verif.Arrow
