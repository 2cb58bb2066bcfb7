/-!
Patterns of file names: core/file/path_utils.cpp and `has_glob`. A `char` is its value, which is signed; a text is the list of its
bytes.
-/
namespace Verif.Glob

/-- A `char`. -/
abbrev Ch := Int

/-- `while (pidx < plen && pattern[pidx] == '*')`, path_utils.cpp:52-54, 91-93. -/
def skipStars : List Ch → List Ch
  | [] => []
  | c :: p => if c = 42 then skipStars p else c :: p

/-- The suffixes of a text that are not empty, the loop of path_utils.cpp:58-62. -/
def tails : List Ch → List (List Ch)
  | [] => []
  | c :: s => (c :: s) :: tails s

/-- The update of `found_match`, path_utils.cpp:132-134. -/
def note (invert found matched : Bool) : Bool := if found == invert && matched then !invert else found

/-- The loop over the members of a bracket, path_utils.cpp:110-135: `found_match` and the pattern behind the closing bracket, or `none` if
there is none. `first` is `pidx == start_pos`. -/
def members (c : Ch) (invert first found : Bool) : List Ch → Option (Bool × List Ch)
  | [] => none
  | [p] => if p = 93 ∧ first = false then some (found, []) else none
  | p :: n :: ps =>
    if p = 93 ∧ first = false then some (found, n :: ps)
    else if n = 45 then
      match ps with
      | [] => none
      | hi :: ps => members c invert false (note invert found (decide (c ≥ p) && decide (c ≤ hi))) ps
    else members c invert false (note invert found (p == c)) (n :: ps)

/-- `parse_bracket`, path_utils.cpp:96-144, behind the opening bracket. -/
def bracket (c : Ch) : List Ch → Option (Bool × List Ch)
  | [] => none
  | p :: ps => if p = 33 then members c true true true ps else members c false true false (p :: ps)

theorem members_shorter (c : Ch) (invert : Bool) : ∀ (n : Nat) (p : List Ch) (first found b : Bool) (r : List Ch), p.length ≤ n →
    members c invert first found p = some (b, r) → r.length < p.length := by
  intro n
  induction n with
  | zero =>
    intro p first found b r hl h
    cases p with
    | nil => exact absurd h (by simp [members])
    | cons x p => exact absurd hl (by simp)
  | succ n ih =>
    intro p first found b r hl h
    match p with
    | [] => exact absurd h (by simp [members])
    | [x] =>
      simp only [members] at h
      split at h
      · injection h with h; injection h with _ h; subst h; simp
      · exact absurd h (by simp)
    | x :: y :: ps =>
      unfold members at h
      split at h
      · injection h with h; injection h with _ h; subst h; simp
      · split at h
        · match ps with
          | [] => exact absurd h (by simp)
          | hi :: ps =>
            have := ih ps false _ b r (by simp at hl; omega) h
            simp; omega
        · have := ih (y :: ps) false _ b r (by simp at hl ⊢; omega) h
          simp at this ⊢; omega

theorem bracket_shorter {c : Ch} {p r : List Ch} {b : Bool} (h : bracket c p = some (b, r)) : r.length < p.length := by
  unfold bracket at h
  split at h
  · exact absurd h (by simp)
  · rename_i x ps
    split at h
    · have := members_shorter c true _ ps true true b r (Nat.le_refl _) h
      simp; omega
    · exact members_shorter c false _ (x :: ps) true false b r (Nat.le_refl _) h

theorem skipStars_le (p : List Ch) : (skipStars p).length ≤ p.length := by
  induction p with
  | nil => simp [skipStars]
  | cons c p ih =>
    unfold skipStars
    split
    · simp; omega
    · simp

/-- `glob`, path_utils.cpp:42-145; `q` is `allow_question_mark`. Without it `?` falls through to `[` (65-71). -/
def glob (q : Bool) : List Ch → List Ch → Bool
  | s, [] => s.isEmpty
  | [], x :: p => (skipStars (x :: p)).isEmpty
  | c :: s, x :: p =>
    if x = 42 then
      if (skipStars p).isEmpty then true else (tails (c :: s)).any fun t => glob q t (skipStars p)
    else if x = 63 ∧ q = true then glob q s p
    else if x = 63 ∨ x = 91 then
      match h : bracket c p with
      | none => false
      | some (found, r) => if found then glob q s r else false
    else if x = 92 then
      match p with
      | [] => false
      | y :: p => if c = y then glob q s p else false
    else if c = x then glob q s p else false
termination_by _ p => p.length
decreasing_by
  · have := skipStars_le p; simp; omega
  · simp
  · have := bracket_shorter h; simp; omega
  · simp; omega
  · simp

/-- `has_glob`, core/file/local_file_system.cpp:198-210. -/
def hasGlob (p : List Ch) : Bool := p.any fun c => c == 42 || c == 63 || c == 91

end Verif.Glob
