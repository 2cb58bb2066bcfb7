import Verif.VFs.Model
/-!
# What a user expects of a file system of file systems, for C120

One tree of files, in which a path names one place, whichever sub system handles it and whatever is asked.
-/
namespace Verif.VFs.Spec

open Verif.VFs

/-- The place a path names: from the root, or from the directory of the process. -/
def Names (cwd : List String) (p : Path) (l : List String) : Prop :=
  p.parts ≠ [] ∧ ((p.abs = true ∧ l = p.parts) ∨ (p.abs = false ∧ l = cwd ++ p.parts))

/-- Nothing changed but, maybe, in these places. -/
def SameBut (ls : List (List String)) (m m' : Disk) : Prop := ∀ k, k ∉ ls → m' k = m k

/-- There is a file with this text under this name. -/
def Has (cwd : List String) (m : Disk) (p : Path) (t : String) : Prop := ∃ l, Names cwd p l ∧ m l = some t

/-- What a request says and does to the files. -/
def Does (cwd : List String) (m : Disk) : Op → Ans → Disk → Prop
  | .save p t, a, m' =>
    (∃ l, Names cwd p l ∧ a = .yes true ∧ m' l = some t ∧ SameBut [l] m m') ∨ (p.parts = [] ∧ a = .yes false ∧ m' = m)
  | .load p, a, m' => m' = m ∧ ∃ r, a = .text r ∧ ∀ t, r = some t ↔ Has cwd m p t
  | .fileExists p, a, m' => m' = m ∧ ∃ b, a = .yes b ∧ (b = true ↔ ∃ t, Has cwd m p t)
  | .remove p, a, m' =>
    (∃ l t, Names cwd p l ∧ m l = some t ∧ a = .yes true ∧ m' l = none ∧ SameBut [l] m m') ∨
    ((∀ t, ¬ Has cwd m p t) ∧ a = .yes false ∧ m' = m)
  | .move p q, a, m' =>
    (∃ l k t, Names cwd p l ∧ Names cwd q k ∧ m l = some t ∧ a = .yes true ∧ m' k = some t ∧ (l ≠ k → m' l = none) ∧ SameBut [l, k] m m') ∨
    (((∀ t, ¬ Has cwd m p t) ∨ q.parts = []) ∧ a = .yes false ∧ m' = m)
  | _, _, m' => m' = m

/-- A history of requests. -/
inductive Hist (cwd : List String) : Disk → List Op → List Ans → Disk → Prop where
  | nil (m) : Hist cwd m [] [] m
  | cons {m m' m'' o a os as} : Does cwd m o a m' → Hist cwd m' os as m'' → Hist cwd m (o :: os) (a :: as) m''

/-- The names of the sub systems after a history: each at the end when it comes, the first of the name taken away. -/
def live : List Op → List String → List String
  | [], l => l
  | .register f :: os, l => live os (l ++ [f.name])
  | .unregister n :: os, l => live os (l.erase n)
  | _ :: os, l => live os l

/-- The first sub system that handles a path, else the default one. -/
def Chosen (subs : List Fs) (dflt f : Fs) (p : Path) : Prop :=
  (∃ before after, subs = before ++ f :: after ∧ f.handles p = true ∧ ∀ g ∈ before, g.handles p = false) ∨
  (f = dflt ∧ ∀ g ∈ subs, g.handles p = false)

/-- No system has a home directory, nor is one set or brought in. -/
def NoHome (v : Vfs) (os : List Op) : Prop :=
  (∀ f ∈ v.dflt :: v.subs, f.home = ⟨false, []⟩) ∧
  ∀ o ∈ os, (∀ f, o = .register f → f.home = ⟨false, []⟩) ∧ ∀ p, o = .home p → p.abs = false

/-- The path by which a request chooses its file system. -/
def asks : Op → Option Path
  | .which p | .save p _ | .load p | .fileExists p | .remove p | .move p _ => some p
  | _ => none

end Verif.VFs.Spec
