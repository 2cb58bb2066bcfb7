import Verif.Glob.Model
/-!
Finding files by a pattern of paths: `glob_files` of core/file/local_file_system.cpp. Only regular files and directories that can be read
are modelled, no links and no pipes; the file system does not change during the search. The names `.` and `..` and an empty last name are not
resolved, and `~` is not expanded. `file_search_path` is empty: nothing in the code sets it.
-/
namespace Verif.Glob

/-- The name of a file or directory. -/
abbrev Name := List Ch

/-- What is in a directory, in the order in which `readdir` gives it. -/
inductive Ents where
  | nil
  | file (n : Name) (rest : Ents)
  | dir (n : Name) (sub rest : Ents)

/-- The names in a directory and whether they are directories: `list_files`, local_file_system.cpp:568-597. -/
def Ents.list : Ents → List (Name × Bool)
  | .nil => []
  | .file n r => (n, false) :: r.list
  | .dir n _ r => (n, true) :: r.list

/-- What has that name in a directory: a file is `some none`, a directory `some (some _)`. The lookup of one name by the system. -/
def Ents.find (n : Name) : Ents → Option (Option Ents)
  | .nil => none
  | .file m r => if m = n then some none else r.find n
  | .dir m s r => if m = n then some (some s) else r.find n

/-- The lookup of a path by the system, `stat` of local_file_system.cpp:219, 496. -/
def look : Option Ents → List Name → Option (Option Ents)
  | t, [] => some t
  | none, _ :: _ => none
  | some es, n :: ns => match es.find n with
    | none => none
    | some t => look t ns

/-- `file_exists`, local_file_system.cpp:215-226. -/
def isFile (es : Ents) (d : List Name) : Bool := match look (some es) d with
  | some none => true
  | _ => false

/-- `file_exists(..) || directory_exists(..)`, local_file_system.cpp:1113. -/
def exists' (es : Ents) (d : List Name) : Bool := (look (some es) d).isSome

/-- `**`, `is_crawl`, local_file_system.cpp:971. -/
def crawlPart : Name := [42, 42]

/-- `recursive_glob_directories`, local_file_system.cpp:984-1007, over the contents of the directory `pre`. -/
def crawl (md : Bool) : List Name → Ents → List (List Name)
  | _, .nil => []
  | pre, .file n r => (if md = false then [pre ++ [n]] else []) ++ crawl md pre r
  | pre, .dir n s r => (if md = true then [pre ++ [n]] else []) ++ crawl md (pre ++ [n]) s ++ crawl md pre r

/-- `recursive_glob_directories` of a path; it lists nothing if that is no directory. -/
def crawlIn (es : Ents) (md : Bool) (d : List Name) : List (List Name) := match look (some es) d with
  | some (some sub) => crawl md d sub
  | _ => []

/-- `glob_files_internal`, local_file_system.cpp:1009-1028. -/
def globIn (es : Ents) (md : Bool) (p : Name) (d : List Name) : List (List Name) := match look (some es) d with
  | some (some sub) => (sub.list.filter fun e => e.2 == md && glob true e.1 p).map fun e => d ++ [e.1]
  | _ => []

/-- The body of the loop over the parts, local_file_system.cpp:1101-1144: the paths that part `p` leads to from `prev`. The directory `.` is
the empty path. -/
def stage (es : Ents) (prev : List (List Name)) (p : Name) (last : Bool) : List (List Name) :=
  if hasGlob p = false then
    if prev.isEmpty then [[p]]
    else if last then (prev.map (· ++ [p])).filter (exists' es)
    else prev.map (· ++ [p])
  else if p = crawlPart then
    (if last then [] else prev) ++ (if prev.isEmpty then crawlIn es (!last) [] else prev.flatMap (crawlIn es (!last)))
  else if prev.isEmpty then globIn es (!last) p []
  else prev.flatMap (globIn es (!last) p)

/-- The loop over the parts, local_file_system.cpp:1100-1152; `none` is the way out at 1146, if a part leads nowhere. -/
def parts (es : Ents) : List Name → List (List Name) → Option (List (List Name))
  | [], _ => some []
  | p :: ps, prev =>
    if (stage es prev p ps.isEmpty).isEmpty then none
    else if ps.isEmpty then some (stage es prev p ps.isEmpty)
    else parts es ps (stage es prev p ps.isEmpty)

/-- How the text is cut at `/` and `\`, local_file_system.cpp:1051-1067. `pre` is the text up to here, `cur` the text since `last_pos`; the first
piece is taken from the start of the text. -/
def cut (started : Bool) (pre cur : List Ch) : List Ch → List Name
  | [] => [cur]
  | c :: cs =>
    if c = 92 ∨ c = 47 then
      if cur.isEmpty then cut started (pre ++ [c]) [] cs
      else (if started then cur else pre) :: cut true (pre ++ [c]) [] cs
    else cut started (pre ++ [c]) (cur ++ [c]) cs

/-- The names in a path, as the system reads it. -/
def names (cur : Name) : List Ch → List Name
  | [] => if cur.isEmpty then [] else [cur]
  | c :: cs => if c = 47 then (if cur.isEmpty then names [] cs else cur :: names [] cs) else names (cur ++ [c]) cs

/-- `fetch_file_without_glob`, local_file_system.cpp:1030-1045, with an empty search path. -/
def fetch (es : Ents) (path : List Ch) : List (List Name) := if isFile es (names [] path) then [names [] path] else []

/-- A file system as a process sees it: the root and the directory it is in. -/
structure Disk where
  root : Ents
  cwd : Ents

/-- Where a path starts. -/
def Disk.base (d : Disk) (path : List Ch) : Ents := if path.head? = some 47 then d.root else d.cwd

/-- `glob_files`, local_file_system.cpp:1047-1153. Paths that are found are given as their names from the root or from the directory of the
process. -/
def search (d : Disk) (path : List Ch) : List (List Name) :=
  if path.isEmpty then [] else
  let splits := cut false [] [] path
  let absolute := path.head? == some 47 || (splits.headD []).contains 58
  if hasGlob path = false then fetch (d.base path) path
  else if splits.count crawlPart > 1 then []
  else
    match parts (if absolute then d.base (splits.headD []) else d.cwd) (if absolute then splits.drop 1 else splits) (if absolute then [names [] (splits.headD [])] else []) with
    | none => fetch (d.base path) path
    | some r => r

end Verif.Glob
