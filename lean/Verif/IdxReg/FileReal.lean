import Verif.IdxReg.FileProps
import Verif.PlanPack.Props
/-!
# C115 with the texts that are really written

The file of indexes (`FileModel`) with the plans of C44 as the texts of indexes.
-/
namespace Verif.IdxFile

open Verif Verif.DocVal Verif.Json Verif.DocPack Verif.PlanPack Verif.Msgpack

/-- What `node_create_index_t` holds, node_create_index.hpp:38-40. -/
structure Idx where
  /-- the kind of index -/
  type : Nat
  /-- of which collection -/
  coll : PlanPack.Coll
  /-- its name -/
  name : Bytes
  /-- the fields -/
  keys : List PlanPack.Key

/-- The plan of it. -/
def Idx.plan (i : Idx) : Plan := .createIndex i.type i.coll i.name i.keys

/-- What is read must be the plan of an index, manager_disk.cpp:427-430 (`reinterpret_cast`). -/
def asIdx : Plan → Res Idx
  | .createIndex t c n ks => .ok ⟨t, c, n, ks⟩
  | _ => .ub

/-- The first member of the array, manager_disk.cpp:426-428. -/
def first : Val → Res Idx
  | .arr (p :: _) => (readPlan p).bind asIdx
  | _ => .ub

/-- `msgpack_serializer_t` with an array of one plan (manager_disk.cpp:377-381) and `msgpack_deserializer_t` with
`node_t::deserialize` (manager_disk.cpp:424-428). -/
def real (shrink : Bool) : Codec Idx where
  enc i := match writePlan shrink i.plan with
    | .ok b => arrayOf 1 [b]
    | _ => []
  dec b := match unpack b with
    | none => .throws
    | some v => first v
  name i := i.name
  coll i := i.coll.coll

/-- An index of a collection without a schema and a unique identifier, on fields with names, of which all texts are of less
than 2 GiB. -/
def Idx.Plain (i : Idx) : Prop :=
  i.type < 256 ∧ i.coll.uid = [] ∧ i.coll.schema = [] ∧ i.coll.db.length < 2 ^ 31 ∧ i.coll.coll.length < 2 ^ 31 ∧
  i.name.length < 2 ^ 31 ∧ i.keys.length < 2 ^ 31 ∧ ∀ k ∈ i.keys, ∃ s : Bytes, k = .str s ∧ s.length < 2 ^ 31

theorem real_good (shrink : Bool) (i : Idx) (h : i.Plain) (hl : ((real shrink).enc i).length < 2 ^ 63 - 1) :
    (real shrink).Good i := by
  refine ⟨?_, hl⟩
  have hok : i.plan.ok (kept shrink) := by
    obtain ⟨h1, h2, h3, h4, h5, h6, h7, h8⟩ := h
    refine ⟨h1, ⟨h4, h5, .inl ⟨h2, h3⟩⟩, h6, h7, fun k hk => ?_⟩
    obtain ⟨s, rfl, hs⟩ := h8 k hk
    exact hs
  obtain ⟨p1, p2, p3⟩ := works_plan shrink _ (lets_kept shrink) i.plan hok
  have he : (real shrink).enc i = encode (.arr [valPlan shrink i.plan]) := by
    simp only [real, p1]
    exact arrayOf_eq 1 [valPlan shrink i.plan] rfl
  have hwf : WF (.arr [valPlan shrink i.plan]) := wf_arr _ (by simp) ⟨p2, trivial⟩
  have hu := unpack_encode _ [] hwf
  rw [List.append_nil] at hu
  rw [he]
  simp only [real, hu, first, p3, Res.bind]
  rfl

/-- **C115**: with the texts that are really written, after any operations the file is read as the indexes there are. -/
theorem C115_real (shrink : Bool) (ops : List (Op Idx))
    (h : ∀ i, Op.create i ∈ ops → i.Plain ∧ ((real shrink).enc i).length < 2 ^ 63 - 1) :
    ∃ b, run (real shrink) [] ops = .ok b ∧ read (real shrink) b = .ok (there (real shrink) [] ops) :=
  C115_file _ ops fun i hi => real_good shrink i (h i hi).1 (h i hi).2

/-- An index `i` on the field `a` of `d.c`. -/
def ia : Idx := ⟨0, ⟨[], [100], [], [99]⟩, [105], [.str [97]]⟩
/-- An index `j` on the field `b` of `d.c`. -/
def jb : Idx := ⟨0, ⟨[], [100], [], [99]⟩, [106], [.str [98]]⟩

theorem ia_plain : ia.Plain := by
  refine ⟨by decide, rfl, rfl, by decide, by decide, by decide, by decide, fun k hk => ⟨[97], ?_, by decide⟩⟩
  simpa [ia] using hk

theorem jb_plain : jb.Plain := by
  refine ⟨by decide, rfl, rfl, by decide, by decide, by decide, by decide, fun k hk => ⟨[98], ?_, by decide⟩⟩
  simpa [jb] using hk

example : ∃ b, run (real false) [] [.create ia, .create jb, .drop [105]] = .ok b ∧ read (real false) b = .ok [jb] :=
  C115_real false [.create ia, .create jb, .drop [105]] fun i hi => by
    simp only [List.mem_cons, Op.create.injEq, reduceCtorEq, List.not_mem_nil, or_false] at hi
    rcases hi with rfl | rfl
    · exact ⟨ia_plain, by decide +kernel⟩
    · exact ⟨jb_plain, by decide +kernel⟩

/-- **C115 fails**: the program stops when the size of an index is written and nothing of its text: at the next start zeros
are taken for an array. -/
theorem C115_real_zeros_is_ub : read (real false) (stopped (real false) [] ia 8) = .ub := by
  have hg := real_good false ia ia_plain (by decide +kernel)
  have := C115_stop_text (real false) [] (by simp [Codec.GoodAll]) [] ia 0 hg rfl (by decide +kernel)
  rw [this]
  rfl

/-- **C115 fails**: it stops one byte later: at the next start an exception is thrown and no index is loaded, also not one
that was made long before. -/
theorem C115_real_throws_fails :
    read (real false) (stopped (real false) (write (real false) [] jb) ia 9) = .throws := by
  have hg := real_good false ia ia_plain (by decide +kernel)
  have hj := real_good false jb jb_plain (by decide +kernel)
  have := C115_stop_text (real false) [.create jb] (fun i hi => by simp at hi; subst hi; exact hj) _ ia 1 hg rfl (by decide +kernel)
  rw [this]
  rfl

end Verif.IdxFile
