import Verif.VecVal.Put
/-!
C80 - C83: values written into the columns of a chunk, slices of them, and chunks built from other chunks.
-/
namespace Verif.VecVal
open Res

/-! ### C80 -/

theorem double_room {V : Type} (rs : Nat → Nat → V → Res V) {need c : Nat} {v : V} (h : need ≤ c) : double rs need c v = .ok (v, c) := by
  rw [double, if_pos h]

theorem double_step {V : Type} (rs : Nat → Nat → V → Res V) {need c : Nat} {v : V} (h : c < need) (h0 : c ≠ 0) :
    double rs need c v = (rs c (c * 2) v).bind fun v' => double rs need (c * 2) v' := by
  rw [double, if_neg (by omega), if_neg h0]

/-- C80, for types made of booleans, integers, floating point numbers and strings with lists, arrays and structs around them, without an
array within a list: for every capacity and every history of writes to its rows, all writes succeed, and every row reads as the value
last written to it, or as the zero of the type if there was none. -/
theorem C80_written_is_read_partial (t : Ty) (ht : plain t = true) (cap : Nat) (ws : List (Nat × Val t)) (hw : ∀ w ∈ ws, w.1 < cap ∧ Sized t w.2) :
    ∃ v, sized t = true ∧ writes t (make t cap) ws = .ok v ∧ ∀ r, r < cap → get t v r = .ok (last (zero t) ws r) := by
  obtain ⟨v, h1, _, h3⟩ := writes_spec t ht ws (make t cap) cap (fun _ => zero t) (make_fits t cap) hw (fun r hr => make_live t ht cap r hr)
  have hs : sized t = true := by
    have := plains_sized [t] (by simp [plains, ht])
    simpa [sizeds] using this
  exact ⟨v, hs, h1, fun r hr => (h3 r hr).2⟩

/-- A list of structs of a number and a list of strings, written, read, overwritten by NULL and written again. -/
example : plain (.list (.struct [.leaf .bigint, .list (.leaf .string)])) = true ∧
    ∀ w ∈ ([(0, some [some (some 5, some [some ['a'], none], ()), none]), (1, none), (0, none), (1, some [])] :
      List (Nat × Val (.list (.struct [.leaf .bigint, .list (.leaf .string)])))), w.1 < 2 ∧ Sized _ w.2 := by
  simp [plain, plains, noArray, noArrays, Kind.usable, Sized, Sizeds]

/-- A TIMESTAMP can be a column's type, but not be written. -/
theorem C80_timestamp_fails : writes (.leaf .timestamp) (make _ 1) [(0, some 5)] = .throws := rfl

/-- A DECIMAL column has no size: making the chunk is undefined behaviour. -/
theorem C80_decimal_is_ub : (Build.new 1 : Build [.leaf .decimal]).eval = .ub := rfl

/-- A list of arrays of one number, in a column with room for two rows: at the third element the child grows, and the number of rows
it had is taken for the number of elements of an array. -/
theorem C80_array_in_list_is_ub : writes (.list (.array (.leaf .bigint) 1)) (make _ 2) [(0, some [some [some 1], some [some 2], some [some 3]])] = .ub := by
  rw [writes, set]
  refine Eq.trans (b := Res.bind (Res.bind _ _) _) (congrArg (fun y => Res.bind (Res.bind y _) _) (a₂ := Res.ub) ?_) rfl
  rw [pushAll, double_room _ (by decide)]
  refine Eq.trans (b := pushAll (resize _) (set (.array (.leaf .bigint) 1)) [some [some 2], some [some 3]] _) rfl ?_
  rw [pushAll, double_room _ (by decide)]
  refine Eq.trans (b := pushAll (resize _) (set (.array (.leaf .bigint) 1)) [some [some 3]] _) rfl ?_
  rw [pushAll, double_step _ (by decide) (by decide)]
  rfl

/-- So C80 does not hold in full. -/
theorem C80_fails : ¬ C80_claim := by
  intro h
  obtain ⟨v, _, h2, _⟩ := h (.leaf .timestamp) 1 [(0, some 5)] (by decide) (by simp [Sized])
  rw [C80_timestamp_fails] at h2
  exact nomatch h2

/-! ### C81 -/

theorem sliceAll_spec {ts : List Ty} {V : Nat → Res (Vals ts)} : ∀ (sels : List (List Nat)) (o : Sliced ts) (rows : List Nat), Wides ts o.cols o.count →
    rows.length = o.count → (∀ i p : Nat, rows[i]? = some p → o.row i = V p) → InRange o.count sels →
    ∃ w, o.sliceAll sels = .ok w ∧ w.count = (through rows sels).length ∧ ∀ i p : Nat, (through rows sels)[i]? = some p → w.row i = V p
  | [], o, rows, _, hc, hr, _ => ⟨o, rfl, hc.symm, hr⟩
  | sel :: sels, o, rows, hw, hc, hr, hin => by
    obtain ⟨w, h1, h2, h3⟩ := slices_spec ts hw hin.1
    have hs : ∀ r ∈ sel, r < rows.length := fun r h => by rw [hc]; exact hin.1 r h
    obtain ⟨k1, k2⟩ := chosen_some rows sel hs
    obtain ⟨u, g1, g2⟩ := sliceAll_spec sels ⟨w, sel.length⟩ (chosen rows (some sel)) h2 k1 (fun i p hp => by
      obtain ⟨q, hq, hqp⟩ := k2 i p hp
      have := h3 i q hq
      simp only [Sliced.row] at hr ⊢
      rw [this, hr q p hqp]) hin.2
    exact ⟨u, by simp only [Sliced.sliceAll, Sliced.slice]; rw [bindOk _ h1]; exact g1, g2⟩

/-- C81: for columns of any types with any contents, and any number of slices one of the other, each of rows that are there: slicing
succeeds, the last slice has as many rows as were picked for it, and each of them reads as the row of the chunk it comes from. -/
theorem C81_slices_read (ts : List Ty) (c : Chunk ts) (sels : List (List Nat)) (h : InRange c.count sels) :
    ∃ w, c.all.sliceAll sels = .ok w ∧ w.count = (through (List.range c.count) sels).length ∧
      ∀ i p : Nat, (through (List.range c.count) sels)[i]? = some p → w.row i = c.row p := by
  refine sliceAll_spec (V := c.row) sels c.all (List.range c.count) (wides_flats ts _ _) (by simp [Chunk.all]) (fun i p hp => ?_) h
  have : i = p := by
    obtain ⟨h1, h2⟩ := List.getElem?_eq_some_iff.1 hp
    simpa using h2
  subst this
  simp only [Sliced.row, Chunk.row, Chunk.all, views_flats]

/-- Five rows; three of them, one twice, and of these the last and the first. -/
example : InRange 5 [[4, 1, 1, 0], [3, 0]] ∧ through (List.range 5) [[4, 1, 1, 0], [3, 0]] = [0, 4] := by
  simp [InRange, through, chosen, List.range_succ]

/-! ### C82 -/

/-- C82, for columns without arrays and of the types of C80: for every way to build a chunk from rows, other chunks, slices and parts
of them, with as many steps and rows as one likes, building it succeeds, and its rows are those of the same lists of rows picked, cut
and put together. -/
theorem C82_rows_partial (ts : List Ty) (ht : plains ts = true) (hna : noArrays ts = true) (b : Build ts) (hb : b.Legal) :
    ∃ c, b.eval = .ok c ∧ c.Holds b.rows := by
  obtain ⟨c, h1, h2⟩ := build_inv ht hna b hb
  exact ⟨c, h1, h2.count, fun i x hx => (h2.row i x hx).2⟩

/-- So has what is cut from it. -/
theorem C82_cut_rows_partial (ts : List Ty) (ht : plains ts = true) (hna : noArrays ts = true) (c : Cut ts) (hc : c.Legal) :
    ∃ s, c.eval = .ok s ∧ s.Holds c.rows := by
  obtain ⟨s, h1, h2⟩ := cut_inv ht hna c hc
  exact ⟨s, h1, h2.count, fun i x hx => (h2.row i x hx).2⟩

/-- Two rows of a number and a list of strings, appended to themselves in another order in a chunk that has to grow. -/
def someBuild : Build [.leaf .bigint, .list (.leaf .string)] :=
  .add (.add (.new 2) (some 1, some [some ['a'], none], ())) (none, none, ())
def someAppend : Build [.leaf .bigint, .list (.leaf .string)] := .append someBuild (.slice (.all someBuild) [1, 0, 0]) true (some [2, 0])

theorem someBuild_legal : someBuild.Legal := by
  have h1 : ∀ c, (Build.new 2 : Build [.leaf .bigint, .list (.leaf .string)]).eval = .ok c → c.count = 0 ∧ c.cap = 2 := by
    intro c hc
    simp only [Build.eval, sizeds, sized, Kind.sized, Bool.and_self, if_true] at hc
    injection hc with hc; subst hc; exact ⟨rfl, rfl⟩
  have hadd : ∀ {ts : List Ty} {c d : Chunk ts} {x}, c.addRow x = .ok d → d.count = c.count + 1 ∧ d.cap = c.cap := by
    intro ts c d x h
    simp only [Chunk.addRow, bindOkIff] at h
    obtain ⟨_, _, h⟩ := h
    injection h with h; subst h; exact ⟨rfl, rfl⟩
  refine ⟨⟨by simp [Build.Legal], by simp [Sizeds, Sized], fun c hc => ?_⟩, by simp [Sizeds, Sized], fun c hc => ?_⟩
  · obtain ⟨a, b⟩ := h1 c hc; omega
  · simp only [Build.eval] at hc
    rw [bindOkIff] at hc
    obtain ⟨d, hd, hc⟩ := hc
    obtain ⟨a, b⟩ := h1 d hd
    obtain ⟨a', b'⟩ := hadd hc
    omega

example : someAppend.Legal ∧ someAppend.rows = [(some 1, some [some ['a'], none], ()), (none, none, ()), (some 1, some [some ['a'], none], ()), (none, none, ())] := by
  refine ⟨⟨someBuild_legal, ⟨someBuild_legal, ?_⟩, ?_, fun h => by simp at h⟩, rfl⟩
  · intro r hr; simp [Cut.rows, someBuild, Build.rows] at hr ⊢; omega
  · intro s hs r hr
    injection hs with hs; subst hs
    simp [Cut.rows, someBuild, Build.rows, chosen] at hr ⊢; omega

/-- An array of numbers is appended without its numbers. -/
def arrayBuild : Build [.array (.leaf .bigint) 2] := .append (.new 1) (.all (.add (.new 1) (some [some 7, some 8], ()))) false none

theorem C82_array_append_fails : ∃ c, arrayBuild.eval = .ok c ∧ arrayBuild.rows = [(some [some 7, some 8], ())] ∧ c.row 0 = .ok (some [some 0, some 0], ()) := by
  refine ⟨_, rfl, rfl, rfl⟩

/-- A chunk with a column of arrays of one number has room for two rows, is full and may grow: undefined behaviour. -/
def arrayGrow : Build [.array (.leaf .bigint) 1] :=
  .append (.add (.add (.new 2) (some [some 7], ())) (some [some 8], ())) (.all (.add (.new 1) (some [some 9], ()))) true none

theorem C82_array_grow_is_ub : arrayGrow.eval = .ub := by
  simp [arrayGrow, Build.eval, Cut.eval, sizeds, sized, Kind.sized, Res.bind, Chunk.addRow, sets, set, setFrom, Rows.write, Chunk.new, makes, make, Rows.new,
    Kind.handled, Chunk.append, Chunk.all, howMany, resizes, resize, grow, nextPow2, Rows.resize]

/-- So C82 does not hold in full. -/
theorem C82_fails : ¬ C82_claim := by
  intro h
  obtain ⟨c, h1, h2⟩ := h _ arrayBuild (by
    refine ⟨by simp [Build.Legal], ⟨by simp [Build.Legal], by simp [Sizeds, Sized], fun c hc => ?_⟩, nofun, fun _ c hc => ?_⟩
    · simp only [Build.eval, sizeds, sized, Kind.sized, Bool.and_self, if_true] at hc
      injection hc with hc; subst hc; simp [Chunk.new]
    · simp only [Build.eval, sizeds, sized, Kind.sized, Bool.and_self, if_true] at hc
      injection hc with hc; subst hc; simp [Chunk.new, chosen, Cut.rows, Build.rows])
  obtain ⟨d, h3, h4, h5⟩ := C82_array_append_fails
  rw [h1] at h3; injection h3 with h3; subst h3
  have := h2.2 0 (some [some 7, some 8], ()) (by rw [h4]; rfl)
  rw [h5] at this
  simp at this

/-- `reset` sets the capacity to 1024: a row added to a chunk with room for one is then written past its end. -/
theorem C82_reset_is_ub : ∃ c : Chunk [.leaf .bigint], Build.eval (.add (.new 1) (some 1, ())) = .ok c ∧ c.reset.cap = 1024 ∧
    (c.reset.addRow (some 2, ())).bind (fun d => d.addRow (some 3, ())) = .ub := by
  refine ⟨_, rfl, rfl, rfl⟩

/-- A chunk with room for no row, as a chunk that is filled by appending is made, has grown by an append; writing a list into it never
ends. -/
theorem C82_empty_chunk_fails : ∃ c : Chunk [.list (.leaf .bigint)],
    Build.eval (.append (.new 0) (.all (.add (.new 1) (some [], ()))) true none) = .ok c ∧ c.cap = 1 ∧
    sets [.list (.leaf .bigint)] c.cols 0 (some [some 3], ()) = .diverges := by
  refine ⟨_, rfl, rfl, ?_⟩
  simp only [sets, set, pushAll]
  rw [double]
  rfl

/-! ### C83 -/

/-- C83, for types that are no structs, if the row was not NULL and is not set to NULL: what is written to a row of a slice is read from
it, and rows of the slice that are other rows of the chunk stay as they were. -/
theorem C83_write_slice_partial (t : Ty) (v : Vec t) (cap : Nat) (ws : List (Nat × Val t)) (sel : List Nat) (w : View t) (i : Nat) (x : Val t)
    (ht : plain t = true) (hn : notStruct t = true) (hws : ∀ u ∈ ws, u.1 < cap ∧ Sized t u.2) (hv : writes t (make t cap) ws = .ok v) (hs : ∀ r ∈ sel, r < cap)
    (hw : slice t (flat t v) sel sel.length = .ok w) (hi : i < sel.length) (hx : Sized t x) (hx0 : x ≠ null t) (h0 : view t w i ≠ .ok (null t)) :
    ∃ w', put t w i x = .ok w' ∧ view t w' i = .ok x ∧ ∀ j, j < sel.length → sel[j]? ≠ sel[i]? → view t w' j = view t w j := by
  obtain ⟨v', h1, h2, h3⟩ := writes_spec t ht ws (make t cap) cap (fun _ => zero t) (make_fits t cap) hws (fun r hr => make_live t ht cap r hr)
  rw [hv] at h1; injection h1 with h1; subst h1
  exact put_spec t ht hn h2 (fun r hr => (h3 r hr).1) hs hw hi hx hx0 h0

/-- The second and first of two numbers; the first of them is written. -/
example : ∃ v w, writes (.leaf .bigint) (make _ 2) [(0, some 1), (1, some 2)] = .ok v ∧ slice (.leaf .bigint) (flat _ v) [1, 0] 2 = .ok w ∧
    view (.leaf .bigint) w 0 = .ok (some 2) := ⟨_, _, rfl, rfl, rfl⟩

/-- NULL written to a row of a slice: the row reads as it did before. -/
theorem C83_null_fails : ∃ v w w', writes (.leaf .bigint) (make _ 2) [(0, some 1), (1, some 2)] = .ok v ∧ slice (.leaf .bigint) (flat _ v) [1, 0] 2 = .ok w ∧
    put (.leaf .bigint) w 0 none = .ok w' ∧ view (.leaf .bigint) w' 0 = .ok (some 2) := ⟨_, _, _, rfl, rfl, rfl, rfl⟩

/-- A row that is NULL in a slice stays NULL, whatever is written. -/
theorem C83_not_null_fails : ∃ v w w', writes (.leaf .bigint) (make _ 2) [(0, some 1), (1, none)] = .ok v ∧ slice (.leaf .bigint) (flat _ v) [1, 0] 2 = .ok w ∧
    put (.leaf .bigint) w 0 (some 7) = .ok w' ∧ view (.leaf .bigint) w' 0 = .ok none := ⟨_, _, _, rfl, rfl, rfl, rfl⟩

/-- A struct written to row 0 of a slice of the second and first row: the value is found in row 1 of the slice. -/
theorem C83_struct_fails : ∃ v w w', writes (.struct [.leaf .bigint]) (make _ 2) [(0, some (some 1, ())), (1, some (some 2, ()))] = .ok v ∧
    slice (.struct [.leaf .bigint]) (flat _ v) [1, 0] 2 = .ok w ∧ put (.struct [.leaf .bigint]) w 0 (some (some 7, ())) = .ok w' ∧
    view (.struct [.leaf .bigint]) w' 0 = .ok (some (some 2, ())) ∧ view (.struct [.leaf .bigint]) w' 1 = .ok (some (some 7, ())) := ⟨_, _, _, rfl, rfl, rfl, rfl, rfl⟩

/-- So C83 does not hold in full. -/
theorem C83_fails : ¬ C83_claim := by
  intro h
  obtain ⟨v, w, w', h1, h2, h3, h4⟩ := C83_null_fails
  obtain ⟨u, h5, h6, _⟩ := h (.leaf .bigint) v 2 [(0, some 1), (1, some 2)] [1, 0] w 0 none rfl (by simp [Sized]) h1 (by simp) h2 (by simp) trivial
  rw [h3] at h5; injection h5 with h5; subst h5
  rw [h4] at h6; simp at h6

end Verif.VecVal
