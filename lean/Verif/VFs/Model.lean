import Verif.Base.Res
/-!
# The file system of file systems, for C120

`/repo/core/file/virtual_file_system.cpp`, with what `/repo/core/file/local_file_system.cpp` does with the paths it is given.  The disk has
regular files only: every directory a path goes through exists, no file is in the place of a directory, no part of a path is `.`, `..` or a
link, and the system gives no errors.  A sub system overrides `name` and `can_handle_files` only.
-/
namespace Verif.VFs

open Verif

/-- `std::filesystem::path`: absolute or not, and the names it goes through. -/
structure Path where
  abs : Bool
  parts : List String
  deriving DecidableEq

/-- `path::empty`. -/
def Path.empty (p : Path) : Bool := !p.abs && p.parts.isEmpty

/-- `path::operator/=`: an absolute path replaces the first one. -/
def Path.append (p q : Path) : Path := if q.abs then q else ⟨p.abs, p.parts ++ q.parts⟩

/-- `local_file_system_t`, local_file_system.hpp:8-42, and what is derived from it: its name, the paths it handles and its home. -/
structure Fs where
  name : String
  handles : Path → Bool
  home : Path

/-- `local_file_system_t()`, local_file_system.hpp:10, 23-24. -/
def localFs : Fs := ⟨"local_file_system_t", fun _ => true, ⟨false, []⟩⟩

/-- `set_home_directory`, local_file_system.cpp:182-188. -/
def Fs.setHome (f : Fs) (p : Path) : Fs × Bool := if p.abs then ({ f with home := p }, true) else (f, false)

/-- `expand_path`, local_file_system.cpp:190-196. -/
def Fs.expand (f : Fs) (p : Path) : Path := if p.empty then p else f.home.append p

/-- The regular files of the disk, by the names from the root on. -/
abbrev Disk := List String → Option String

/-- How the system finds a path: from the root or from the directory of the process. No path without names is a regular file. -/
def find (cwd : List String) (p : Path) : Option (List String) :=
  if p.parts = [] then none else some (if p.abs then p.parts else cwd ++ p.parts)

/-- A file with new contents, or none. -/
def put (d : Disk) (l : List String) (t : Option String) : Disk := fun k => if k = l then t else d k

/-- `open_file(lfs, path, WRITE | FILE_CREATE_NEW)`, local_file_system.cpp:331-390, then one `write` of the text. -/
def Fs.save (f : Fs) (cwd : List String) (d : Disk) (p : Path) (t : String) : Bool × Disk :=
  match find cwd (f.expand p) with
  | none => (false, d)
  | some l => (true, put d l (some t))

/-- `open_file(lfs, path, READ)`, local_file_system.cpp:331-390, then a `read` of all there is. -/
def Fs.load (f : Fs) (cwd : List String) (d : Disk) (p : Path) : Option String :=
  match find cwd (f.expand p) with
  | none => none
  | some l => d l

/-- `file_exists`, local_file_system.cpp:215-226. -/
def Fs.fileExists (_ : Fs) (cwd : List String) (d : Disk) (p : Path) : Bool :=
  if p.empty then false else match find cwd p with
  | none => false
  | some l => (d l).isSome

/-- `remove_file`, local_file_system.cpp:561-566. -/
def Fs.remove (_ : Fs) (cwd : List String) (d : Disk) (p : Path) : Bool × Disk :=
  match find cwd p with
  | none => (false, d)
  | some l => match d l with
    | none => (false, d)
    | some _ => (true, put d l none)

/-- `move_files`, local_file_system.cpp:607-612: `rename`, which does nothing if both are the same file. -/
def Fs.move (_ : Fs) (cwd : List String) (d : Disk) (p q : Path) : Bool × Disk :=
  match find cwd p, find cwd q with
  | some l, some k => match d l with
    | none => (false, d)
    | some t => (true, if l = k then d else put (put d l none) k (some t))
  | _, _ => (false, d)

/-- `virtual_file_system_t`, virtual_file_system.hpp:31-34. `compressed_fs_` is left out: it is written (virtual_file_system.cpp:24-27) and
never read. -/
structure Vfs where
  subs : List Fs
  dflt : Fs
  off : List String

/-- `virtual_file_system_t()`, virtual_file_system.cpp:7-8. -/
def new : Vfs := ⟨[], localFs, []⟩

/-- `assert(false && ...)`: with assertions the program ends, which is `throws` here; without them it goes on. -/
def check (asserts : Bool) : Res Unit := if asserts then .throws else .ok ()

/-- The loop of `unregister_sub_system`, virtual_file_system.cpp:14-22: what is left, `none` at the end of the list. -/
def eraseName (n : String) : List Fs → Option (List Fs)
  | [] => none
  | f :: fs => if f.name = n then some fs else (eraseName n fs).map (f :: ·)

/-- The first loop of `set_disabled_file_systems`, virtual_file_system.cpp:40-49. -/
def collect (asserts : Bool) : List String → List String → Res (List String)
  | [], acc => .ok acc
  | n :: ns, acc =>
    if n = "" then collect asserts ns acc
    else if n ∈ acc then (check asserts).bind fun _ => collect asserts ns acc
    else collect asserts ns (n :: acc)

/-- `set_disabled_file_systems`, virtual_file_system.cpp:39-58. -/
def Vfs.disable (asserts : Bool) (v : Vfs) (ns : List String) : Res Vfs :=
  (collect asserts ns []).bind fun new =>
    if v.off.all (· ∈ new) then .ok { v with off := new } else (check asserts).bind fun _ => .ok { v with off := new }

/-- `find_file_system_`, virtual_file_system.cpp:68-75. -/
def pick : List Fs → Fs → Path → Fs
  | [], dflt, _ => dflt
  | f :: fs, dflt, p => if f.handles p then f else pick fs dflt p

/-- `find_file_system`, virtual_file_system.cpp:60-66. -/
def Vfs.fs (asserts : Bool) (v : Vfs) (p : Path) : Res Fs :=
  if (pick v.subs v.dflt p).name ∈ v.off then (check asserts).bind fun _ => .ok (pick v.subs v.dflt p)
  else .ok (pick v.subs v.dflt p)

/-- What a program does with it. -/
inductive Op where
  | register (f : Fs)
  | unregister (n : String)
  | disable (ns : List String)
  | home (p : Path)
  | names
  | which (p : Path)
  | save (p : Path) (t : String)
  | load (p : Path)
  | fileExists (p : Path)
  | remove (p : Path)
  | move (p q : Path)

/-- What it is told. -/
inductive Ans where
  | done
  | yes (b : Bool)
  | text (t : Option String)
  | name (n : String)
  | names (ns : List String)
  deriving DecidableEq

/-- The file systems and the disk. -/
structure St where
  v : Vfs
  d : Disk

/-- One request: `register_sub_system`, virtual_file_system.cpp:10-12, `unregister_sub_system`, 14-22, `set_disabled_file_systems`, 39-58,
`default_file_system().set_home_directory`, virtual_file_system.hpp:25, `list_sub_system`, virtual_file_system.cpp:29-35,
`find_file_system(path).name()`, 60-66, `open_file`, 77-83, with reading and writing, which always go to the default system, 85-99, and do
not use it, `file_exists`, 142-144, `remove_file`, 150-152, and `move_files`, 138-140, which asks the system of the source only. -/
def step (asserts : Bool) (cwd : List String) (s : St) : Op → Res (Ans × St)
  | .register f => .ok (.done, { s with v := { s.v with subs := s.v.subs ++ [f] } })
  | .unregister n => match eraseName n s.v.subs with
    | some l => .ok (.done, { s with v := { s.v with subs := l } })
    | none => (check asserts).bind fun _ => .ok (.done, s)
  | .disable ns => (s.v.disable asserts ns).bind fun v => .ok (.done, { s with v := v })
  | .home p => .ok (.yes (s.v.dflt.setHome p).2, { s with v := { s.v with dflt := (s.v.dflt.setHome p).1 } })
  | .names => .ok (.names (s.v.subs.map (·.name)), s)
  | .which p => (s.v.fs asserts p).bind fun f => .ok (.name f.name, s)
  | .save p t => (s.v.fs asserts p).bind fun f => .ok (.yes (f.save cwd s.d p t).1, { s with d := (f.save cwd s.d p t).2 })
  | .load p => (s.v.fs asserts p).bind fun f => .ok (.text (f.load cwd s.d p), s)
  | .fileExists p => (s.v.fs asserts p).bind fun f => .ok (.yes (f.fileExists cwd s.d p), s)
  | .remove p => (s.v.fs asserts p).bind fun f => .ok (.yes (f.remove cwd s.d p).1, { s with d := (f.remove cwd s.d p).2 })
  | .move p q => (s.v.fs asserts p).bind fun f => .ok (.yes (f.move cwd s.d p q).1, { s with d := (f.move cwd s.d p q).2 })

/-- Requests one after the other. -/
def run (asserts : Bool) (cwd : List String) : St → List Op → Res (List Ans × St)
  | s, [] => .ok ([], s)
  | s, o :: os => (step asserts cwd s o).bind fun (a, s') => (run asserts cwd s' os).bind fun (l, t) => .ok (a :: l, t)

end Verif.VFs
