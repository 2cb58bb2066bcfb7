import Verif.NestCol.Fetch
/-!
C96: a column of lists, arrays and structs gives back the values that were appended to it.
-/
namespace Verif.NestCol
open Verif
open Verif.Table
open Verif.Mvcc (CAP)

/-- The column gives the values back: scanned from the start, scanned from any row on, and row by
row. `a` is the first row of the column; a scan takes at most a vector of rows. -/
structure GivesBack {α : Type} [Inhabited α] (c : NCol α) (a : Nat) (vals : List (NVal α)) : Prop where
  /-- The column knows its size. -/
  size : c.maxEntry = vals.length
  /-- A scan of the first `n` rows. -/
  start : ∀ n, n ≤ CAP → n ≤ vals.length →
    ∃ v, c.scan none CAP n = .ok v ∧ Shows v (List.range n) (vals.take n)
  /-- A scan of `n` rows from row `off` on. -/
  offset : ∀ off n, n ≤ CAP → off < vals.length → off + n ≤ vals.length →
    ∃ v, c.scan (some (a + off)) CAP n = .ok v ∧ Shows v (List.range n) ((vals.drop off).take n)
  /-- Any rows, in any order, as often as wanted, written into one result. -/
  rows : ∀ ids ys, List.Forall₂ (fun i y => vals[i]? = some y) ids ys →
    ∃ v, fetchAll c (ids.map fun i => a + i) c.blank = .ok v ∧ Shows v (List.range ids.length) ys

/-- The full property: whatever the type, after any batches of rows were appended to a new column, the
column gives back the rows of all batches in order. -/
def C96_claim : Prop :=
  ∀ (α : Type) [Inhabited α] (t : NTy α) (caps : Caps) (a : Nat) (bs : List (NVec α × Sel)) (xss : List (List (NVal α))),
    t.Ok → 0 < caps.offs ∧ 0 < caps.valid → List.Forall₂ (Batch t) bs xss →
    ∃ c, appendAll (NCol.empty caps a t) bs = .ok c ∧ (c.Small → GivesBack c a xss.flatten)

/-- The property for types in which neither lists nor arrays have arrays as elements, and for batches
that are not DICTIONARY vectors of arrays. Missing: arrays inside lists and arrays. -/
theorem C96_nested_partial {α : Type} [Inhabited α] (t : NTy α) (caps : Caps) (a : Nat) (bs : List (NVec α × Sel)) (xss : List (List (NVal α)))
    (hk : t.Ok) (hc : 0 < caps.offs ∧ 0 < caps.valid) (hb : List.Forall₂ (Batch t) bs xss)
    (hl : t.plainLists) (ha : t.plainArrays) (hd : ∀ b ∈ bs, b.2.isDict = true → t.hasArray = false) :
    ∃ c, appendAll (NCol.empty caps a t) bs = .ok c ∧ (c.Small → GivesBack c a xss.flatten) := by
  obtain ⟨c, h1, h2⟩ := appendAll_ok hl hk hb hd _ [] (Holds.empty hc a t hk)
  rw [List.nil_append] at h2
  refine ⟨c, h1, fun hs => ⟨Holds.maxEntry t a c _ h2 hk, ?_, ?_, ?_⟩⟩
  · intro n _ hn
    obtain ⟨v, k1, _, _, k4⟩ := scan_ok t c _ none 0 CAP n h2 hs hl hk rfl (by omega)
    exact ⟨v, k1, by simpa using k4⟩
  · intro off n _ ho hn
    obtain ⟨v, k1, _, _, k4⟩ := scan_ok t c _ (some (a + off)) off CAP n h2 hs hl hk ⟨rfl, ho⟩ hn
    exact ⟨v, k1, k4⟩
  · intro ids ys hy
    obtain ⟨b1, b2⟩ := Holds.blank t c _ h2
    obtain ⟨w, w1, w2⟩ := fetchAll_ok h2 hs hl ha hk hy c.blank [] b1 (by rw [b2]; exact .nil)
    rw [b2, Nat.zero_add] at w2
    exact ⟨w, w1, by simpa using w2⟩

/-- Scans alone are right when arrays are nested in arrays, too. Missing: arrays inside lists. -/
theorem C96_scan_partial {α : Type} [Inhabited α] (t : NTy α) (caps : Caps) (a : Nat) (bs : List (NVec α × Sel)) (xss : List (List (NVal α)))
    (hk : t.Ok) (hc : 0 < caps.offs ∧ 0 < caps.valid) (hb : List.Forall₂ (Batch t) bs xss)
    (hl : t.plainLists) (hd : ∀ b ∈ bs, b.2.isDict = true → t.hasArray = false) :
    ∃ c, appendAll (NCol.empty caps a t) bs = .ok c ∧ (c.Small → c.maxEntry = xss.flatten.length ∧
      (∀ n, n ≤ xss.flatten.length → ∃ v, c.scan none CAP n = .ok v ∧ Shows v (List.range n) (xss.flatten.take n)) ∧
      ∀ off n, off < xss.flatten.length → off + n ≤ xss.flatten.length →
        ∃ v, c.scan (some (a + off)) CAP n = .ok v ∧ Shows v (List.range n) ((xss.flatten.drop off).take n)) := by
  obtain ⟨c, h1, h2⟩ := appendAll_ok hl hk hb hd _ [] (Holds.empty hc a t hk)
  rw [List.nil_append] at h2
  refine ⟨c, h1, fun hs => ⟨Holds.maxEntry t a c _ h2 hk, ?_, ?_⟩⟩
  · intro n hn
    obtain ⟨v, k1, _, _, k4⟩ := scan_ok t c _ none 0 CAP n h2 hs hl hk rfl (by omega)
    exact ⟨v, k1, by simpa using k4⟩
  · intro off n ho hn
    obtain ⟨v, k1, _, _, k4⟩ := scan_ok t c _ (some (a + off)) off CAP n h2 hs hl hk ⟨rfl, ho⟩ hn
    exact ⟨v, k1, k4⟩

/-! ### The hypotheses are met

A struct of a list of numbers and an array of two numbers, appended in two batches, with a NULL
struct, a NULL list, an empty list and a NULL array; and a list of lists from a DICTIONARY vector. -/

/-- The rows stay inside of a child with `len` rows. -/
def inChild (rows : List (Option (Nat × Nat))) (len : Nat) : Bool :=
  rows.all fun r => match r with
    | none => true
    | some (o, n) => decide (o + n ≤ len)

theorem inChild_ok {rows : List (Option (Nat × Nat))} {len : Nat} (h : inChild rows len = true) :
    ∀ o n, some (o, n) ∈ rows → o + n ≤ len := by
  intro o n hm
  have := List.all_eq_true.mp h _ hm
  simpa using this

/-- Numbers, two in a segment. -/
def num : NTy Nat := .prim (fixedTy 0 2)

def exTy : NTy Nat := .struct (.cons (.list num) (.cons (.array 2 num) .nil))

def exVec : NVec Nat :=
  .struct [true, false, true, true]
    (.cons (.list [some (1, 2), none, some (3, 0), none] (.prim [some 9, some 1, none, some 7]))
      (.cons (.array 2 [true, true, false, true] (.prim [some 1, some 2, some 3, some 4, some 5, some 6, none, some 8])) .nil))

def exVals : List (NVal Nat) :=
  [.struct [.list [.prim 1, .null], .array [.prim 1, .prim 2]],
   .null,
   .struct [.list [], .null],
   .struct [.null, .array [.null, .prim 8]]]

theorem ex_batch : Batch exTy (exVec, .flat 4) exVals := by
  refine ⟨⟨⟨trivial, inChild_ok rfl⟩, rfl, ⟨rfl, trivial, rfl⟩, rfl, trivial⟩, by decide, ?_⟩
  exact .cons rfl (.cons rfl (.cons rfl (.cons rfl .nil)))

theorem ex_ok : exTy.Ok :=
  ⟨nofun, fixedTy_ok (by decide), ⟨by decide, fixedTy_ok (by decide)⟩, trivial⟩

example : ∃ c, appendAll (NCol.empty ⟨2, 3⟩ 5 exTy) [(exVec, .flat 4), (exVec, .flat 4)] = .ok c ∧
    (c.Small → GivesBack c 5 (exVals ++ exVals)) := by
  have := C96_nested_partial exTy ⟨2, 3⟩ 5 [(exVec, .flat 4), (exVec, .flat 4)] [exVals, exVals] ex_ok (by decide)
    (.cons ex_batch (.cons ex_batch .nil)) ⟨⟨rfl, trivial⟩, trivial, trivial⟩ ⟨trivial, ⟨rfl, trivial⟩, trivial⟩ (by simp [Sel.isDict])
  simpa using this

def exList : NVec Nat := .list [some (0, 1), none, some (1, 2)] (.list [some (0, 2), some (2, 0), some (2, 1)] (.prim [some 1, some 2, some 3]))

example : Batch (.list (.list num)) (exList, .dict [2, 1, 2])
    [.list [.list [], .list [.prim 3]], .null, .list [.list [], .list [.prim 3]]] :=
  ⟨⟨⟨trivial, inChild_ok rfl⟩, inChild_ok rfl⟩, by decide, .cons rfl (.cons rfl (.cons rfl .nil))⟩

/-! ### Where the code fails -/

/-- Lists of arrays of one number. -/
def lists : NTy Nat := .list (.array 1 num)

theorem lists_ok : lists.Ok := ⟨by decide, fixedTy_ok (by decide)⟩

/-- A NULL and a list of one array: the NULL owns an element of the child (vector.cpp:511-516). -/
def nullFirst : NVec Nat := .list [none, some (1, 1)] (.array 1 [false, true] (.prim [none, some 5]))

theorem nullFirst_batch : Batch lists (nullFirst, .flat 2) [.null, .list [.array [.prim 5]]] :=
  ⟨⟨⟨rfl, trivial, rfl⟩, inChild_ok rfl⟩, by decide, .cons rfl (.cons rfl .nil)⟩

/-- The number in a list of one array of one number. -/
def inner : NVal Nat → Option Nat
  | .list [.array [.prim x]] => some x
  | _ => none

/-- What a scan gives for row `i` of a column of two rows. -/
def scanned (c : NCol Nat) (n i : Nat) : Res (Option Nat) :=
  (c.scan none CAP n).bind fun v => (v.value i).map' inner

/-- A NULL list in front of a list of arrays: the elements are not in one piece, so they are copied,
and arrays are copied without their elements. The list `[[5]]` is stored as `[[0]]`. -/
theorem C96_null_list_of_arrays_fails :
    Batch lists (nullFirst, .flat 2) [.null, .list [.array [.prim 5]]] ∧
      ((appendAll (NCol.empty ⟨4, 4⟩ 0 lists) [(nullFirst, .flat 2)]).bind fun c => scanned c 2 1) = .ok (some 0) :=
  ⟨nullFirst_batch, by decide +kernel⟩

/-- A list of one array. -/
def oneList : NVec Nat := .list [some (0, 1)] (.array 1 [true] (.prim [some 5]))

/-- A list of arrays is stored and scanned, but a fetch copies its elements and gives `[[0]]` for `[[5]]`. -/
theorem C96_fetch_list_of_arrays_fails :
    Batch lists (oneList, .flat 1) [.list [.array [.prim 5]]] ∧
      ((appendAll (NCol.empty ⟨4, 4⟩ 0 lists) [(oneList, .flat 1)]).bind fun c => scanned c 1 0) = .ok (some 5) ∧
      ((appendAll (NCol.empty ⟨4, 4⟩ 0 lists) [(oneList, .flat 1)]).bind fun c =>
        (fetchAll c [0] c.blank).bind fun v => (v.value 0).map' inner) = .ok (some 0) :=
  ⟨⟨⟨⟨rfl, trivial, rfl⟩, inChild_ok rfl⟩, by decide, .cons rfl .nil⟩, by decide +kernel, by decide +kernel⟩

/-- The number in an array of an array of one number. -/
def inner2 : NVal Nat → Option Nat
  | .array [.array [.prim x]] => some x
  | _ => none

/-- Arrays of arrays: the same. -/
theorem C96_fetch_array_of_arrays_fails :
    Batch (.array 1 (.array 1 num)) (.array 1 [true] (.array 1 [true] (.prim [some 5])), .flat 1) [.array [.array [.prim 5]]] ∧
      ((appendAll (NCol.empty ⟨4, 4⟩ 0 (.array 1 (.array 1 num))) [(.array 1 [true] (.array 1 [true] (.prim [some 5])), .flat 1)]).bind
        fun c => (fetchAll c [0] c.blank).bind fun v => (v.value 0).map' inner2) = .ok (some 0) :=
  ⟨⟨⟨rfl, ⟨rfl, trivial, rfl⟩, rfl⟩, by decide, .cons rfl .nil⟩, by decide +kernel⟩

/-- One list of `n` arrays. -/
def manyArrays (n : Nat) : NVec Nat := .list [some (0, n)] (.array 1 (List.replicate n true) (.prim (List.replicate n (some 5))))

theorem manyArrays_batch (n : Nat) : ∃ xs, Batch lists (manyArrays n, .flat 1) [.list xs] ∧ xs.length = n := by
  have hh : (manyArrays n).Has lists := ⟨⟨rfl, trivial, by simp [NVec.len]⟩, by simp [NVec.len]⟩
  obtain ⟨xs, hx⟩ := Has.shows (idx := [0]) hh (by simp [manyArrays, NVec.len])
  cases hx with
  | cons h1 h2 =>
    cases h2
    simp only [manyArrays, NVec.value, List.getElem?_cons_zero, Res.map'_ok_iff] at h1
    obtain ⟨ys, hy, rfl⟩ := h1
    refine ⟨ys, ⟨hh, by simp [manyArrays, NVec.len, Sel.idx], .cons ?_ .nil⟩, ?_⟩
    · simp only [manyArrays, NVec.value, List.getElem?_cons_zero, hy, Res.map'_ok]
    · have := (collect_iff.mp hy).length_eq
      simpa using this.symm

/-- `n` arrays are appended to a new column. -/
theorem manyArrays_append (n : Nat) : ∃ w k s, (NCol.empty ⟨2048, 2048⟩ 0 (.array 1 num)).initAppend.append
    (.array 1 (List.replicate n true) (.prim (List.replicate n (some 5)))) (.flat n) = .ok (.array 1 0 k w (.prim s)) := by
  obtain ⟨h1, h2⟩ := Holds.initAppend _ _ _ (Holds.empty (caps := ⟨2048, 2048⟩) (by decide) 0 (.array 1 num) lists_ok)
  have hv : (NVec.array 1 (List.replicate n true) (.prim (List.replicate n (some 5))) : NVec Nat).Has (.array 1 num) :=
    ⟨rfl, trivial, by simp [NVec.len]⟩
  have hi : ∀ i ∈ (Sel.flat n).idx, i < (NVec.array 1 (List.replicate n true) (.prim (List.replicate n (some 5))) : NVec Nat).len := by
    intro i hi
    simpa [Sel.idx, NVec.len] using hi
  obtain ⟨xs, hx⟩ := Has.shows hv hi
  obtain ⟨c, e1, e2, _⟩ := append_ok _ _ _ _ _ _ h1 h2 hv hi hx (by simp [Sel.isDict]) trivial lists_ok
  obtain ⟨w, ch, parts, rfl, _, _, e3, _⟩ := e2.array_inv
  obtain ⟨s, _, _, rfl, _⟩ := e3.prim_inv
  exact ⟨w, _, s, e1⟩

/-- A list of `n` arrays is appended to a new column. -/
theorem manyArrays_appendAll (n : Nat) (hn : n ≠ 0) : ∃ w k s, appendAll (NCol.empty ⟨2048, 2048⟩ 0 lists) [(manyArrays n, .flat 1)] =
    ((Col.empty (fixedTy 0 2048) 0).initAppend.append [n]).bind fun offs =>
    ((Col.empty (fixedTy true 2048) 0).initAppend.append [true]).map' fun valid => .list 0 offs valid (.array 1 0 k w (.prim s)) := by
  obtain ⟨w, k, s, h⟩ := manyArrays_append n
  refine ⟨w, k, s, ?_⟩
  simp only [appendAll, NCol.empty, lists, NCol.initAppend, manyArrays, NCol.append] at h ⊢
  rw [show take [some (0, n)] (Sel.flat 1).idx = .ok [some (0, n)] from rfl]
  simp only [Res.bind_ok]
  rw [if_neg (by simpa [total, rowLen] using hn), show childSel [some (0, n)] = .flat n by simp [childSel, contiguous, total, rowLen], h]
  rw [show ends _ [some (0, n)] = [n] by simp [ends, rowLen, NCol.maxEntry]]
  simp only [Res.bind_ok, List.map_cons, Option.isSome_some, List.map_nil]
  generalize (Col.empty (fixedTy 0 2048) 0).initAppend.append [n] = x
  generalize (Col.empty (fixedTy true 2048) 0).initAppend.append [true] = y
  cases x <;> cases y <;> rfl

/-- A list of more arrays than a vector has rows cannot be scanned: making the vector of the elements
larger goes beyond its memory. -/
theorem C96_scan_many_arrays_is_ub :
    (∃ xs, Batch lists (manyArrays 1025, .flat 1) [.list xs] ∧ xs.length = 1025) ∧
      ((appendAll (NCol.empty ⟨2048, 2048⟩ 0 lists) [(manyArrays 1025, .flat 1)]).bind fun c =>
        (c.scan none CAP 1).map' fun _ => ()) = .ub := by
  refine ⟨manyArrays_batch 1025, ?_⟩
  obtain ⟨w, k, s, h⟩ := manyArrays_appendAll 1025 (by decide)
  rw [h]
  rfl

/-- The columns of the witness are small. -/
def smallb : NCol Nat → Bool
  | .list a offs _ (.array _ b n _ (.prim s)) =>
    decide (a + offs.count < 2 ^ 62) && decide (b + n < 2 ^ 62) && decide (s.data.start + s.data.count < 2 ^ 62)
  | _ => false

theorem smallb_ok (c : NCol Nat) (h : smallb c = true) : c.Small := by
  unfold smallb at h
  split at h
  · simp only [Bool.and_eq_true, decide_eq_true_eq] at h
    exact ⟨h.1.1, h.1.2, h.2⟩
  · simp at h

/-- So the full property does not hold. -/
theorem C96_fails : ¬ C96_claim := by
  intro h
  obtain ⟨c, hc, hg⟩ := h Nat lists ⟨4, 4⟩ 0 [(nullFirst, .flat 2)] [[.null, .list [.array [.prim 5]]]] lists_ok (by decide)
    (.cons nullFirst_batch .nil)
  have hw := C96_null_list_of_arrays_fails.2
  have hsm : ((appendAll (NCol.empty ⟨4, 4⟩ 0 lists) [(nullFirst, .flat 2)]).map' fun c => smallb c) = .ok true := by
    decide +kernel
  rw [hc] at hw hsm
  simp only [Res.map'_ok, Res.ok.injEq] at hsm
  obtain ⟨v, hv, hs⟩ := (hg (smallb_ok c hsm)).start 2 (by decide) (by decide)
  have h1 := (List.forall₂_iff_get.mp hs).2 1 (by decide) (by decide)
  have h1 : v.value 1 = .ok (.list [.array [.prim 5]]) := h1
  simp only [Res.bind_ok, scanned, hv, h1, Res.map'_ok, inner] at hw
  simp at hw

end Verif.NestCol
