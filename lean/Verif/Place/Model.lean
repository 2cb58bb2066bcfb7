import Verif.Base.Res
/-!
Model of where the engine keeps its files (services/disk/disk.cpp, services/disk/manager_disk.cpp,
services/disk/index_agent_disk.cpp, services/disk/index_disk.cpp, services/wal/wal.cpp,
core/b_plus_tree/b_plus_tree.cpp) and of the set of directories in use
(integration/cpp/base_spaces.cpp).

Simplifications, valid for the whole file.
* Paths are those of POSIX, as libstdc++ treats them. There are no symbolic links, no limits on names and
  paths, and enough rights and space.
* Of the file system only the files are modelled, each with its place and its contents. Directories are
  there as soon as they are needed (`create_directories`); that an empty one is in the way of a file is left
  out.
-/
namespace Verif.Place
open Verif

abbrev Bytes := List UInt8

/-- A place in the file system: the names of the directories from the root on, and the name of the file. -/
abbrev Loc := List Bytes

/-! ### Paths -/

/-- `operator/` of `std::filesystem::path`: an absolute right side replaces the left one. -/
def join (p q : Bytes) : Bytes :=
  if q.head? = some 47 then q else if p = [] ∨ p.getLast? = some 47 then p ++ q else p ++ 47 :: q

/-- The names between the slashes of a path. -/
def split : Bytes → List Bytes
  | [] => [[]]
  | c :: r =>
    if c = 47 then [] :: split r
    else match split r with
      | [] => [[c]]
      | w :: ws => (c :: w) :: ws

/-- One step of the resolution of a path by the operating system. -/
def walk (l : Loc) (w : Bytes) : Loc := if w = [] ∨ w = [46] then l else if w = [46, 46] then l.dropLast else l ++ [w]

/-- A path as a C string: `path::c_str()` up to the first 0. -/
def cstr (s : Bytes) : Bytes := s.takeWhile fun c => c != 0

/-- The place a path leads to from the working directory. -/
def locate (cwd : Loc) (p : Bytes) : Loc :=
  (split (cstr p)).foldl walk (if (cstr p).head? = some 47 then [] else cwd)

/-! ### Files -/

/-- The files there are. -/
abbrev Fs := List (Loc × Bytes)

/-- The contents of the file at a place. -/
def get (fs : Fs) (l : Loc) : Option Bytes := (fs.find? fun e => e.1 = l).map (·.2)

/-- `create_directories` for its directory, then `open_file` with `FILE_CREATE` and writing of the contents,
core/file/local_file_system.cpp:332-389 (the home directory of 190-196 is never set). `create_directories` throws if
there is a file where a directory has to be. If there is a directory in the place of the file `open_file`
returns a null pointer, which is used without a check. -/
def put (fs : Fs) (l : Loc) (b : Bytes) : Res Fs :=
  if fs.any fun e => e.1 <+: l ∧ e.1 ≠ l then .throws
  else if fs.any fun e => l <+: e.1 ∧ e.1 ≠ l then .ub
  else .ok ((l, b) :: fs.filter fun e => e.1 ≠ l)

/-- `remove_directory_recursive`, core/file/local_file_system.cpp:518-555: nothing happens if the path is
that of a file. (A path that leads through the directory it names, as `d/..` does, may find itself gone
halfway; this is left out, everything is removed here.) -/
def removeDir (fs : Fs) (l : Loc) : Fs := if fs.any fun e => e.1 = l then fs else fs.filter fun e => ¬ l <+: e.1

/-! ### The files of the engine -/

/-- The paths of the configuration, components/configuration/configuration.hpp:19-51, and the working
directory. -/
structure Cfg where
  main : Bytes
  disk : Bytes
  wal : Bytes
  cwd : Loc

/-- `base_index`, disk.cpp:10. -/
def baseIndex : Bytes := [98, 97, 115, 101, 95, 105, 110, 100, 101, 120]

/-- `.wal`, wal.cpp:23. -/
def walName : Bytes := [46, 119, 97, 108]

/-- `METADATA` and `WAL_ID`, disk.cpp:28, 30; `indexes_METADATA`, manager_disk.cpp:94. -/
def ownNames : List Bytes :=
  [[77, 69, 84, 65, 68, 65, 84, 65], [87, 65, 76, 95, 73, 68],
    [105, 110, 100, 101, 120, 101, 115, 95, 77, 69, 84, 65, 68, 65, 84, 65]]

/-- What is kept in files: a file of the tree of the documents of a collection (database, collection, file),
of the tree of an index (database, collection, index, file), one of the files about all databases, the log. -/
inductive Key where
  | doc (d c f : Bytes)
  | idx (d c i f : Bytes)
  | own (n : Bytes)
  | log
deriving DecidableEq

/-- The directory of a collection, disk.cpp:133. -/
def collPath (cfg : Cfg) (d c : Bytes) : Bytes := join (join cfg.disk d) c

/-- The directory of an index, index_agent_disk.cpp:26-28. -/
def idxPath (cfg : Cfg) (d c i : Bytes) : Bytes := join (collPath cfg d c) i

/-- The path of a file: disk.cpp:28-31, 36, 55, 123, manager_disk.cpp:93-96, wal.cpp:80-83,
index_agent_disk.cpp:26-28; in the directory of a tree b_plus_tree.cpp:299-302, 749-750. -/
def path (cfg : Cfg) : Key → Bytes
  | .doc d c f => join (join (collPath cfg d c) baseIndex) f
  | .idx d c i f => join (idxPath cfg d c i) f
  | .own n => join cfg.disk n
  | .log => join cfg.wal walName

/-- What the engine does with files: write one, drop a collection, drop an index. -/
inductive Call where
  | save (k : Key) (b : Bytes)
  | dropColl (d c : Bytes)
  | dropIdx (d c i : Bytes)

/-- One call. `disk_t::remove_collection`, disk.cpp:131-135; `index_disk_t::drop`, index_disk.cpp:162-165. -/
def step (cfg : Cfg) (fs : Fs) : Call → Res Fs
  | .save k b => put fs (locate cfg.cwd (path cfg k)) b
  | .dropColl d c => .ok (removeDir fs (locate cfg.cwd (collPath cfg d c)))
  | .dropIdx d c i => .ok (removeDir fs (locate cfg.cwd (idxPath cfg d c i)))

def run (cfg : Cfg) (fs : Fs) : List Call → Res Fs
  | [] => .ok fs
  | c :: cs => (step cfg fs c).bind fun fs' => run cfg fs' cs

/-- What is read from the file that is kept for `k`. -/
def read (cfg : Cfg) (fs : Fs) (k : Key) : Option Bytes := get fs (locate cfg.cwd (path cfg k))

/-! ### Instances -/

/-- What `operator==` of `std::filesystem::path` compares: whether the path is absolute, and the elements an
iteration over it gives: no empty ones but a last one behind a final slash. -/
def pathKey (p : Bytes) : Bool × List Bytes × Bool :=
  (p.head? == some 47, (split p).filter (fun w => w ≠ []), (split p).filter (fun w => w ≠ []) ≠ [] && p.getLast? == some 47)

/-- What has happened to an instance: not made yet; behind the check of base_spaces.cpp:28-35 but still in
its constructor; made; behind line 137 of its destructor, its managers not yet destroyed; destroyed; refused
by the check; left by an exception behind the check. -/
inductive Phase where
  | fresh | opening | live | closing | gone | refused | failed
deriving DecidableEq

/-- The instances of a process, by number, and `paths_`. -/
structure Inst where
  phase : Nat → Phase
  taken : List (Bool × List Bytes × Bool)

def setPhase (s : Inst) (i : Nat) (p : Phase) : Inst := { s with phase := fun j => if j = i then p else s.phase j }

/-- The steps of instance `i`, of any threads in any order. -/
inductive Act where
  | check (i : Nat)
  | opened (i : Nat)
  | openFails (i : Nat)
  | erase (i : Nat)
  | destroyed (i : Nat)

/-- One step; `none` if it is not the turn of this step. `check`: base_spaces.cpp:28-35, under the mutex.
`openFails`: an exception in lines 37-125; the destructor is not run then. `erase`: lines 136-137, under the
mutex. `destroyed`: the members are gone. -/
def act (cfg : Nat → Cfg) (s : Inst) : Act → Option Inst
  | .check i =>
    if s.phase i = .fresh then
      if pathKey (cfg i).main ∈ s.taken then some (setPhase s i .refused)
      else some { setPhase s i .opening with taken := pathKey (cfg i).main :: s.taken }
    else none
  | .opened i => if s.phase i = .opening then some (setPhase s i .live) else none
  | .openFails i => if s.phase i = .opening then some (setPhase s i .failed) else none
  | .erase i =>
    if s.phase i = .live then some { setPhase s i .closing with taken := s.taken.filter fun k => k ≠ pathKey (cfg i).main } else none
  | .destroyed i => if s.phase i = .closing then some (setPhase s i .gone) else none

/-- The state before the first instance. -/
def start : Inst := ⟨fun _ => .fresh, []⟩

def acts (cfg : Nat → Cfg) (s : Inst) : List Act → Option Inst
  | [] => some s
  | a :: as => (act cfg s a).bind fun s' => acts cfg s' as

end Verif.Place
