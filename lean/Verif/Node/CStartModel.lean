import Verif.Node.Model
/-!
The start of a process that uses the C interface, or `make_otterbrix` and `execute_sql` of C++: the parts of the node are made, and
nothing asks them to load.
-/
namespace Verif.Node

/-- `otterbrix_create`, integration/c/main.cpp:58-73, `make_otterbrix`, integration/cpp/otterbrix.cpp:5-9, 23-25, and the constructor of
`base_otterbrix_t` (integration/cpp/base_spaces.cpp), after the former process ended. Only `load` of the dispatcher of the wrapper
(integration/cpp/wrapper_dispatcher.cpp:70-76) makes the node load, and of the interfaces only the client of Python calls it
(integration/python/sql/wrapper_client.cpp:22); otterbrix.h has no such function. The disk opens its trees (disk.cpp:20-42), the log finds
its last id (wal.cpp:353-361); catalog and memory are empty. -/
def cstart (s : Sys) : Sys :=
  { init with log := s.log, disk := s.disk.reopen, answers := s.answers, next := s.next }

/-- What happens: something in the node, where `crash` is the end of the process and the start of a Python program with the same directory,
or the end of the process and the start of a C program. -/
inductive CEvent where
  | act (e : Event)
  | start

/-- One step. -/
def cstep (s : Sys) : CEvent → Sys
  | .act e => step s e
  | .start => cstart s

/-- A history of processes. -/
def crun (s : Sys) (es : List CEvent) : Sys := es.foldl cstep s

end Verif.Node
