import Verif.Arrow.Export
/-! C98: rows keep their values when they are handed over through the Arrow C data interface. -/
namespace Verif.Arrow
open Verif
open Verif.Table
open Verif.NestCol

/-! ## Taking in -/

/-- The property for arrays that are taken in: `n` rows of a column of a chunk that starts at row
`rootOff` are the rows the Arrow format says the array has. -/
def C98_import_claim : Prop :=
  ∀ (t : ATy) (a : AArr) (rootOff n : Nat), a.Wf t → rootOff + n ≤ a.hdr.len →
    ∃ v, importCol rootOff n t a = .ok v ∧ v.len = n ∧ ∀ i < n, v.value i = a.value t (rootOff + i)

/-- The property for chunks without offset, arrays without offsets in structs and without arrays in
lists, whose validity buffers are padded or start with the first row. Numbers, booleans, strings,
lists and arrays may have offsets. Missing: the rest, and arrays with dictionaries. -/
theorem C98_import_partial (t : ATy) (a : AArr) (n : Nat) (hw : a.Wf t) (hn : n ≤ a.hdr.len) (ho : a.noOffset)
    (hr : a.padded ∨ a.whole) (hp : t.plainLists) :
    ∃ v, importCol 0 n t a = .ok v ∧ v.len = n ∧ ∀ i < n, v.value i = a.value t i :=
  importCol_ok hw ho hr hp hn

/-- Structs may start at any row if no field is itself a struct: every row is the one the array has
there. -/
theorem C98_import_sliced_struct_partial (ts : ATys) (h : Hdr) (cs : AArrs) (n : Nat) (hw : (AArr.struct h cs).Wf (.struct ts))
    (hn : n ≤ h.len) (hf : ts.noStruct) (ho : cs.noOffset) (hr : (AArr.struct h cs).padded) (hp : ts.plainLists) :
    ∃ v, importCol 0 n (.struct ts) (.struct h cs) = .ok v ∧ v.len = n ∧
      ∀ i < n, v.value i = (AArr.struct h cs).value (.struct ts) i :=
  importStruct_ok hw hf ho hr hp hn

/-! ## Handing over -/

/-- A column of a chunk: its type, its vector and the rows. -/
structure Column (n : Nat) (c : ATy × NVec Datum × Sel) : Prop where
  typed : Vec c.1 c.2.1
  rows : c.2.2.idx.length = n
  inside : ∀ i ∈ c.2.2.idx, i < c.2.1.len
  fits : Fits c.2.1 c.2.2.idx

/-- Row `j` of a column. -/
def cell (c : ATy × NVec Datum × Sel) (j : Nat) : Res (NVal Datum) :=
  match c.2.2.idx[j]? with
  | none => .ub
  | some i => c.2.1.value i

/-- The property for chunks that are handed over and taken in again. -/
def C98_round_trip_claim : Prop :=
  ∀ (n : Nat) (cs : List (ATy × NVec Datum × Sel)), (∀ c ∈ cs, Column n c) →
    ∃ as vs, exportChunk cs = .ok as ∧ importChunk 0 n (cs.map Prod.fst) as = .ok vs ∧
      List.Forall₂ (fun c v => ∀ j < n, v.value j = cell c j) cs vs

/-- Chunks whose types have no arrays in lists, and no arrays in DICTIONARY vectors, are handed over
as well-formed arrays with the rows of the chunk. Missing: arrays there. -/
theorem C98_export_partial (n : Nat) (cs : List (ATy × NVec Datum × Sel)) (h : ∀ c ∈ cs, Column n c)
    (hp : ∀ c ∈ cs, c.1.plainLists) (hd : ∀ c ∈ cs, c.2.2.isDict = true → c.1.hasArray = false) :
    ∃ as, exportChunk cs = .ok as ∧
      List.Forall₂ (fun c a => a.Wf c.1 ∧ a.whole ∧ a.hdr.len = n ∧ ∀ j < n, a.value c.1 j = cell c j) cs as := by
  induction cs with
  | nil => exact ⟨[], rfl, .nil⟩
  | cons c cs ih =>
    obtain ⟨as, h1, h2⟩ := ih (fun x hx => h x (List.mem_cons_of_mem _ hx)) (fun x hx => hp x (List.mem_cons_of_mem _ hx))
      (fun x hx => hd x (List.mem_cons_of_mem _ hx))
    have hc := h c (by simp)
    obtain ⟨a, a1, a2, a3, a4, a5⟩ := exportA_ok c.1 c.2.1 c.2.2 hc.typed hc.inside (hp c (by simp)) (hd c (by simp)) hc.fits
    refine ⟨a :: as, by simp only [exportChunk, a1, h1, Res.bind_ok, Res.map'_ok], .cons ⟨a2, a3, a4.trans hc.rows, ?_⟩ h2⟩
    intro j hj
    have hr := hc.rows
    obtain ⟨i, hi⟩ : ∃ i, c.2.2.idx[j]? = some i := ⟨_, List.getElem?_eq_getElem (by omega)⟩
    rw [a5 j i hi]
    unfold cell
    rw [hi]

/-- And they come back with the same values. -/
theorem C98_round_trip_partial (n : Nat) (cs : List (ATy × NVec Datum × Sel)) (h : ∀ c ∈ cs, Column n c)
    (hp : ∀ c ∈ cs, c.1.plainLists) (hd : ∀ c ∈ cs, c.2.2.isDict = true → c.1.hasArray = false) :
    ∃ as vs, exportChunk cs = .ok as ∧ importChunk 0 n (cs.map Prod.fst) as = .ok vs ∧
      List.Forall₂ (fun c v => v.len = n ∧ ∀ j < n, v.value j = cell c j) cs vs := by
  obtain ⟨as, h1, h2⟩ := C98_export_partial n cs h hp hd
  suffices hv : ∃ vs, importChunk 0 n (cs.map Prod.fst) as = .ok vs ∧
      List.Forall₂ (fun c v => v.len = n ∧ ∀ j < n, v.value j = cell c j) cs vs by
    obtain ⟨vs, k⟩ := hv
    exact ⟨as, vs, h1, k⟩
  clear h1 hd h
  induction h2 with
  | nil => exact ⟨[], rfl, .nil⟩
  | cons e _ ih =>
    obtain ⟨vs, v1, v2⟩ := ih fun x hx => hp x (List.mem_cons_of_mem _ hx)
    obtain ⟨e1, e2, e3, e4⟩ := e
    obtain ⟨v, u1, u2, u3⟩ := importCol_ok e1 e2.noOffset (.inr e2) (hp _ (by simp)) (Nat.le_of_eq e3.symm)
    exact ⟨v :: vs, by simp only [List.map_cons, importChunk, u1, v1, Res.bind_ok, Res.map'_ok],
      .cons ⟨u2, fun j hj => by rw [u3 j hj, e4 j hj]⟩ v2⟩

/-! ### The hypotheses are met

A chunk of three rows: a struct of a list of strings and an array of two booleans, with NULLs at all
levels, and a DICTIONARY of numbers; and a sliced list of sliced strings with padded buffers. -/

def exTy : ATy := .struct (.cons (.list .str) (.cons (.array 2 .bool) .nil))

def exVec : NVec Datum := .struct [true, false, true]
  (.cons (.list [some (1, 2), none, some (0, 1)] (.prim [some (.str [97]), none, some (.str [98, 99])]))
    (.cons (.array 2 [true, true, false] (.prim [some (.bool true), none, some (.bool false), some (.bool true), none, none])) .nil))

def exCols : List (ATy × NVec Datum × Sel) :=
  [(exTy, exVec, .flat 3), (.num, .prim [some (.num 7), none], .dict [1, 0, 0])]

theorem ex_columns : ∀ c ∈ exCols, Column 3 c := by
  intro c hc
  simp only [exCols, List.mem_cons, List.not_mem_nil, or_false] at hc
  rcases hc with rfl | rfl
  · refine ⟨?_, rfl, by decide, ⟨by decide, trivial⟩, trivial, trivial⟩
    refine ⟨⟨?_, by decide, ?_⟩, rfl, ⟨rfl, ?_, rfl⟩, rfl, trivial⟩
    · intro c hc
      simp only [List.mem_cons, List.not_mem_nil, or_false] at hc
      rcases hc with rfl | rfl | rfl <;> simp [IsStr]
    · intro o n hr
      simp at hr
      rcases hr with ⟨rfl, rfl⟩ | ⟨rfl, rfl⟩ <;> decide
    · intro c hc
      simp only [List.mem_cons, List.not_mem_nil, or_false] at hc
      rcases hc with rfl | rfl | rfl | rfl | rfl | rfl <;> simp [IsBool]
  · refine ⟨?_, rfl, by decide, trivial⟩
    intro c hc
    simp only [List.mem_cons, List.not_mem_nil, or_false] at hc
    rcases hc with rfl | rfl <;> simp [IsNum]

example : ∃ as vs, exportChunk exCols = .ok as ∧ importChunk 0 3 (exCols.map Prod.fst) as = .ok vs ∧
    List.Forall₂ (fun c v => v.len = 3 ∧ ∀ j < 3, v.value j = cell c j) exCols vs :=
  C98_round_trip_partial 3 exCols ex_columns
    (by intro c hc
        simp only [exCols, List.mem_cons, List.not_mem_nil, or_false] at hc
        rcases hc with rfl | rfl
        · exact ⟨⟨rfl, trivial⟩, trivial, trivial⟩
        · trivial)
    (by intro c hc
        simp only [exCols, List.mem_cons, List.not_mem_nil, or_false] at hc
        rcases hc with rfl | rfl
        · simp [Sel.isDict]
        · exact fun _ => rfl)

/-- Two rows of a longer array of lists; the strings are sliced, too. -/
def exSliced : AArr := .list ⟨2, -1, 1, some [0xFD#8, 0#8]⟩ [0, 1, 1, 3]
  (.str ⟨3, -1, 1, some [0xFF#8, 0#8]⟩ [0, 1, 2, 4, 4] [120, 97, 98, 99])

theorem exSliced_wf : exSliced.Wf (.list .str) := by
  have hh : ∀ (h : Hdr), (∀ bs, h.bits = some bs → (h.off + h.len + 7) / 8 ≤ bs.length) → h.nulls ≠ 0 → h.Wf :=
    fun h h1 h2 => ⟨h1, fun h3 => absurd h3 h2⟩
  refine ⟨hh _ (by intro bs hb; cases hb; decide) (by decide), .inr ⟨by decide, ?_, 3, rfl, by decide⟩, by decide,
    hh _ (by intro bs hb; cases hb; decide) (by decide), .inr ⟨by decide, ?_, 4, rfl, by decide⟩, ?_⟩
  · intro i hi
    match i, hi with
    | 0, _ => exact ⟨1, 1, rfl, rfl, by decide⟩
    | 1, _ => exact ⟨1, 3, rfl, rfl, by decide⟩
  · intro i hi
    match i, hi with
    | 0, _ => exact ⟨1, 2, rfl, rfl, by decide⟩
    | 1, _ => exact ⟨2, 4, rfl, rfl, by decide⟩
    | 2, _ => exact ⟨4, 4, rfl, rfl, by decide⟩
  · intro i hi a b ha hb
    match i, hi, ha, hb with
    | 0, _, ha, hb => cases ha; cases hb; decide
    | 1, _, ha, hb => cases ha; cases hb; decide
    | 2, _, ha, hb => cases ha; cases hb; decide

example : ∃ v, importCol 0 2 (.list .str) exSliced = .ok v ∧ v.len = 2 ∧ ∀ i < 2, v.value i = exSliced.value (.list .str) i :=
  C98_import_partial _ _ 2 exSliced_wf (by decide) trivial
    (.inl ⟨by intro bs hb; cases hb; decide, by intro bs hb; cases hb; decide⟩) ⟨rfl, trivial⟩

/-! ## Where the code does not have the property -/

/-- No NULL rows, no validity buffer. -/
def plain (len off : Nat) : Hdr := ⟨len, 0, off, none⟩

theorem plain_wf (len off : Nat) : (plain len off).Wf := ⟨by simp [plain], fun _ _ _ => rfl⟩

/-- A struct of numbers that starts at row 1. -/
example : ∃ v, importCol 0 1 (.struct (.cons .num .nil)) (.struct (plain 1 1) (.cons (.num (plain 2 0) [5, 6]) .nil)) = .ok v ∧ v.len = 1 ∧
    ∀ i < 1, v.value i = (AArr.struct (plain 1 1) (.cons (.num (plain 2 0) [5, 6]) .nil)).value (.struct (.cons .num .nil)) i :=
  C98_import_sliced_struct_partial _ _ _ 1 ⟨plain_wf _ _, ⟨plain_wf _ _, by decide⟩, by decide, trivial⟩ (by decide) trivial ⟨trivial, trivial⟩
    ⟨by simp [Hdr.padded, plain], by simp [AArr.padded, Hdr.padded, plain], trivial⟩ ⟨trivial, trivial⟩

/-- The number in a value. -/
def numIn : NVal Datum → Option Nat
  | .prim (.num n) => some n
  | .struct [.prim (.num n)] => some n
  | .struct [.struct [.prim (.num n)]] => some n
  | .list [.struct [.prim (.num n)]] => some n
  | .list [.array [.prim (.num n)]] => some n
  | _ => none

/-- A chunk that starts at row 1 of its columns is read from row 0: the offset of the chunk is taken
for the NULL flags only. Row 1 is 6, 5 is read. -/
theorem C98_sliced_chunk_fails : (AArr.num (plain 2 0) [5, 6]).Wf .num ∧
    ((AArr.num (plain 2 0) [5, 6]).value .num (1 + 0)).map' numIn = .ok (some 6) ∧
    ((importCol 1 1 .num (.num (plain 2 0) [5, 6])).bind fun v => (v.value 0).map' numIn) = .ok (some 5) :=
  ⟨⟨plain_wf _ _, by decide⟩, by decide +kernel, by decide +kernel⟩

/-- A struct that starts at row 1 loses the offset below a struct in between. -/
def slicedStructs : AArr := .struct (plain 1 1) (.cons (.struct (plain 2 0) (.cons (.num (plain 2 0) [5, 6]) .nil)) .nil)

theorem C98_sliced_structs_fails : slicedStructs.Wf (.struct (.cons (.struct (.cons .num .nil)) .nil)) ∧
    (slicedStructs.value (.struct (.cons (.struct (.cons .num .nil)) .nil)) 0).map' numIn = .ok (some 6) ∧
    ((importCol 0 1 (.struct (.cons (.struct (.cons .num .nil)) .nil)) slicedStructs).bind fun v => (v.value 0).map' numIn) =
      .ok (some 5) :=
  ⟨⟨plain_wf _ _, ⟨plain_wf _ _, ⟨plain_wf _ _, by decide⟩, by decide, trivial⟩, by decide, trivial⟩, by decide +kernel, by decide +kernel⟩

/-- A list of structs that start at row 1: the offset of the structs is lost. -/
def listOfSliced : AArr := .list (plain 1 0) [0, 1] (.struct (plain 1 1) (.cons (.num (plain 2 0) [5, 6]) .nil))

theorem listOfSliced_wf : listOfSliced.Wf (.list (.struct (.cons .num .nil))) := by
  refine ⟨plain_wf _ _, .inr ⟨by decide, ?_, 1, rfl, by decide⟩, by decide, plain_wf _ _, ⟨plain_wf _ _, by decide⟩, by decide, trivial⟩
  intro i hi
  match i, hi with
  | 0, _ => exact ⟨0, 1, rfl, rfl, by decide⟩

theorem C98_list_of_sliced_structs_fails : listOfSliced.Wf (.list (.struct (.cons .num .nil))) ∧
    (listOfSliced.value (.list (.struct (.cons .num .nil))) 0).map' numIn = .ok (some 6) ∧
    ((importCol 0 1 (.list (.struct (.cons .num .nil))) listOfSliced).bind fun v => (v.value 0).map' numIn) = .ok (some 5) :=
  ⟨listOfSliced_wf, by decide +kernel, by decide +kernel⟩

/-- Row 0 of a sliced column of seven numbers: the eighth bit is its last, and the byte behind it is
read. -/
theorem C98_unpadded_is_ub : (AArr.num ⟨7, 1, 1, some [0xFD#8]⟩ [1, 2, 3, 4, 5, 6, 7, 8]).Wf .num ∧
    importCol 0 7 .num (.num ⟨7, 1, 1, some [0xFD#8]⟩ [1, 2, 3, 4, 5, 6, 7, 8]) = .ub :=
  ⟨⟨⟨by intro bs hb; cases hb; decide, fun h => absurd h (by decide)⟩, by decide⟩, by rfl⟩

/-- Columns with a dictionary are not taken in at all, whatever they hold. -/
theorem C98_dictionary_is_ub (t : ATy) (idx : List Nat) (values : AArr) (n : Nat) :
    importCol 0 n t (.dict (plain n 0) idx values) = .ub := by
  cases t <;> simp [importCol, AArr.hdr, plain, getValidity, importA]

/-- Two lists with three arrays together: making room for them goes beyond the memory. -/
def listsOfArrays : AArr := .list (plain 2 0) [0, 2, 3] (.array (plain 3 0) (.num (plain 3 0) [5, 6, 7]))

theorem listsOfArrays_wf : listsOfArrays.Wf (.list (.array 1 .num)) := by
  refine ⟨plain_wf _ _, .inr ⟨by decide, ?_, 3, rfl, by decide⟩, by decide, plain_wf _ _, by decide, plain_wf _ _, by decide⟩
  intro i hi
  match i, hi with
  | 0, _ => exact ⟨0, 2, rfl, rfl, by decide⟩
  | 1, _ => exact ⟨2, 3, rfl, rfl, by decide⟩

theorem C98_lists_of_arrays_is_ub : listsOfArrays.Wf (.list (.array 1 .num)) ∧
    importCol 0 2 (.list (.array 1 .num)) listsOfArrays = .ub := ⟨listsOfArrays_wf, rfl⟩

theorem C98_import_fails : ¬ C98_import_claim := by
  intro h
  obtain ⟨v, h1, _⟩ := h _ _ 0 2 listsOfArrays_wf (by decide)
  rw [C98_lists_of_arrays_is_ub.2] at h1
  cases h1

/-- A list of one array is handed over with a zero for its element: `[[5]]` comes back as `[[0]]`. -/
def arrayInList : ATy × NVec Datum × Sel := (.list (.array 1 .num), .list [some (0, 1)] (.array 1 [true] (.prim [some (.num 5)])), .flat 1)

theorem arrayInList_column : Column 1 arrayInList := by
  refine ⟨⟨⟨rfl, ?_, rfl⟩, by decide, ?_⟩, rfl, by decide, by decide, trivial⟩
  · intro c hc
    simp only [List.mem_cons, List.not_mem_nil, or_false] at hc
    subst hc
    trivial
  · intro o n hr
    simp at hr
    obtain ⟨rfl, rfl⟩ := hr
    decide

/-- The number in the first row of the first column that comes back. -/
def comesBack (cs : List (ATy × NVec Datum × Sel)) (n : Nat) : Res (Option Nat) :=
  (exportChunk cs).bind fun as => (importChunk 0 n (cs.map Prod.fst) as).bind fun vs =>
    match vs with
    | v :: _ => (v.value 0).map' numIn
    | [] => .ub

theorem C98_array_in_list_fails : Column 1 arrayInList ∧ (cell arrayInList 0).map' numIn = .ok (some 5) ∧
    comesBack [arrayInList] 1 = .ok (some 0) := ⟨arrayInList_column, by decide +kernel, by decide +kernel⟩

theorem C98_round_trip_fails : ¬ C98_round_trip_claim := by
  intro h
  obtain ⟨as, vs, h1, h2, h3⟩ := h 1 [arrayInList] (by intro c hc; simp only [List.mem_cons, List.not_mem_nil, or_false] at hc; subst hc; exact arrayInList_column)
  have hw := C98_array_in_list_fails.2.2
  have hc := C98_array_in_list_fails.2.1
  cases h3 with
  | cons e1 e2 =>
    unfold comesBack at hw
    rw [h1, Res.bind_ok, h2, Res.bind_ok] at hw
    simp only at hw
    rw [e1 0 (by decide), hc] at hw
    cases hw

end Verif.Arrow
