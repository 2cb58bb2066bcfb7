import Verif.Glob.Model
/-!
What a pattern of file names means.
-/
namespace Verif.Glob

/-- A part of a pattern: any text, or one character of a set. -/
inductive Item where
  | star
  | one (f : Ch → Prop)

/-- The text is put together from what the parts stand for. -/
inductive Matches : List Item → List Ch → Prop where
  | nil : Matches [] []
  | one {f : Ch → Prop} {c : Ch} {is : List Item} {s : List Ch} : f c → Matches is s → Matches (.one f :: is) (c :: s)
  | star {is : List Item} {s : List Ch} (u : List Ch) : Matches is s → Matches (.star :: is) (u ++ s)

/-- What stands between brackets: characters `c` and ranges `lo-hi`; `]` only as the first. -/
inductive Members : Bool → List Ch → List (Ch × Ch) → Prop where
  | nil : Members false [] []
  | range {first : Bool} {lo hi : Ch} {m : List Ch} {ms : List (Ch × Ch)} : (first = true ∨ lo ≠ 93) → Members false m ms →
      Members first (lo :: 45 :: hi :: m) ((lo, hi) :: ms)
  | single {first : Bool} {c : Ch} {m : List Ch} {ms : List (Ch × Ch)} : (first = true ∨ c ≠ 93) → m.head? ≠ some 45 → Members false m ms →
      Members first (c :: m) ((c, c) :: ms)

/-- The character is in one of the ranges. -/
def Among (ms : List (Ch × Ch)) (c : Ch) : Prop := ∃ r ∈ ms, r.1 ≤ c ∧ c ≤ r.2

/-- How parts are written: `*`, `?`, `\c`, `[...]`, `[!...]`, and other characters for themselves. -/
inductive Written : List Ch → List Item → Prop where
  | nil : Written [] []
  | star {p : List Ch} {is : List Item} : Written p is → Written (42 :: p) (.star :: is)
  | any {p : List Ch} {is : List Item} : Written p is → Written (63 :: p) (.one (fun _ => True) :: is)
  | escaped {p : List Ch} {is : List Item} (c : Ch) : Written p is → Written (92 :: c :: p) (.one (· = c) :: is)
  | of {p : List Ch} {is : List Item} {m : List Ch} {ms : List (Ch × Ch)} : Members true m ms → m.head? ≠ some 33 → Written p is →
      Written (91 :: (m ++ 93 :: p)) (.one (Among ms) :: is)
  | notOf {p : List Ch} {is : List Item} {m : List Ch} {ms : List (Ch × Ch)} : Members true m ms → Written p is →
      Written (91 :: 33 :: (m ++ 93 :: p)) (.one (fun c => ¬ Among ms c) :: is)
  | plain {p : List Ch} {is : List Item} {c : Ch} : c ≠ 42 → c ≠ 63 → c ≠ 91 → c ≠ 92 → Written p is → Written (c :: p) (.one (· = c) :: is)

end Verif.Glob
