import Verif.Base.Res
/-!
Model of `collection_t::scan`, collection.cpp:88-119, which uses one chunk for all row groups. The
result vector of a column of fixed-size values does not copy a whole segment but points into it
(column_segment.cpp:461-473), and the next row group is first written row by row to where the vector
points (column_data.cpp:410-416).

Simplifications: one column of fixed-size values (the columns of a chunk do not influence each
other), no NULLs, no updates, no deleted rows. One row group has one segment: its 1024 rows of at most 16
bytes fit into a block of 2^18 bytes.
-/
namespace Verif.Table.Reuse

variable {α : Type}

/-- Where the result vector points: to its own buffer, data_chunk.cpp:14, or into the segment of a
row group, column_segment.cpp:471-472. -/
inductive Target where
  | own
  | seg (i : Nat)
  deriving DecidableEq, Repr

/-- The memory: the segments of the row groups and the buffer of the result vector. -/
structure Mem (α : Type) where
  segs : List (List α)
  buf : List α

/-- `memcpy` of one value to where the vector points, column_segment.cpp:190. -/
def Mem.write (m : Mem α) (t : Target) (r : Nat) (x : α) : Mem α :=
  match t with
  | .own => { m with buf := m.buf.set r x }
  | .seg i => { m with segs := m.segs.modify i fun l => l.set r x }

/-- The loop over the rows of a segment with `fetch_row`, column_data.cpp:410-416 with
column_segment.cpp:179-191. -/
def rowLoop (t : Target) (g : Nat) : Nat → Nat → Mem α → Res (Mem α)
  | 0, _, m => .ok m
  | n + 1, r, m =>
    match m.segs[g]? with
    | none => .ub
    | some l =>
      match l[r]? with
      | none => .ub
      | some x => rowLoop t g n (r + 1) (m.write t r x)

/-- One call of `collection_scan_state::scan` on row group `g`: the loop above, then the vector is
pointed into the segment (column_data.cpp:417, column_segment.cpp:461-473). The function of the
caller sees the rows of the segment. -/
def scanGroup (g : Nat) (t : Target) (m : Mem α) : Res (Mem α × Target × List α) :=
  match m.segs[g]? with
  | none => .ub
  | some l => (rowLoop t g l.length 0 m).bind fun m' =>
      match m'.segs[g]? with
      | none => .ub
      | some seen => .ok (m', .seg g, seen)

/-- The loop of `collection_t::scan`, collection.cpp:99-109, over the row groups from `g` on (`reset`,
data_chunk.cpp:27-33, leaves the pointer as it is). `fresh` says whether each call gets a new chunk, as
`Verif.Table.Model` assumes. The function sees the chunks one after another. -/
def scanFrom (fresh : Bool) : Nat → Nat → Target → Mem α → Res (Mem α × List (List α))
  | 0, _, _, m => .ok (m, [])
  | n + 1, g, t, m =>
    (scanGroup g (if fresh then .own else t) m).bind fun r =>
      (scanFrom fresh n (g + 1) r.2.1 r.1).map' fun s => (s.1, r.2.2 :: s.2)

/-- `collection_t::scan` of a table with these row groups: the row groups after it and the chunks its
function was called with. -/
def scan (fresh : Bool) (buf : List α) (groups : List (List α)) : Res (List (List α) × List (List α)) :=
  (scanFrom fresh groups.length 0 .own ⟨groups, buf⟩).map' fun r => (r.1.segs, r.2)

/-! ## Lemmas -/

theorem write_own_segs (m : Mem α) (r : Nat) (x : α) : (m.write .own r x).segs = m.segs := rfl

theorem rowLoop_own (g : Nat) (l : List α) : ∀ (n r : Nat) (m : Mem α), m.segs[g]? = some l → r + n ≤ l.length →
    ∃ m', rowLoop .own g n r m = .ok m' ∧ m'.segs = m.segs := by
  intro n
  induction n with
  | zero => intro r m _ _; exact ⟨m, rfl, rfl⟩
  | succ n ih =>
    intro r m hl hr
    unfold rowLoop
    rw [hl]
    simp only
    rw [List.getElem?_eq_getElem (by omega)]
    simp only
    obtain ⟨m', h1, h2⟩ := ih (r + 1) (m.write .own r l[r]) hl (by omega)
    exact ⟨m', h1, h2⟩

/-- The segment `h` after the first `k` values of `l` were written to it. -/
def over (h l : List α) (k : Nat) : List α := (l.take k).take h.length ++ h.drop k

theorem over_zero (h l : List α) : over h l 0 = h := by simp [over]

theorem over_set (h l : List α) (k : Nat) (hk : k < l.length) : (over h l k).set k l[k] = over h l (k + 1) := by
  unfold over
  by_cases hkh : k < h.length
  · rw [List.take_take, List.take_take, Nat.min_eq_right (by omega), Nat.min_eq_right (by omega),
      List.drop_eq_getElem_cons hkh, List.set_append_right _ _ (by rw [List.length_take]; omega), List.length_take,
      Nat.min_eq_left (by omega), Nat.sub_self, List.set_cons_zero, List.take_succ_eq_append_getElem hk, List.append_assoc]
    rfl
  · rw [List.drop_eq_nil_of_le (by omega), List.drop_eq_nil_of_le (by omega), List.append_nil, List.append_nil,
      List.take_take, List.take_take, Nat.min_eq_left (by omega), Nat.min_eq_left (by omega)]
    rw [List.set_eq_of_length_le]
    rw [List.length_take]
    omega

theorem rowLoop_seg (g i : Nat) (hne : i ≠ g) (l h : List α) : ∀ (n r : Nat) (m : Mem α), m.segs[g]? = some l →
    m.segs[i]? = some (over h l r) → r + n ≤ l.length →
    ∃ m', rowLoop (.seg i) g n r m = .ok m' ∧ m'.segs = m.segs.set i (over h l (r + n)) := by
  intro n
  induction n with
  | zero =>
    intro r m _ hi _
    refine ⟨m, rfl, ?_⟩
    rw [Nat.add_zero]
    obtain ⟨hlt, he⟩ := List.getElem?_eq_some_iff.mp hi
    rw [← he, List.set_getElem_self]
  | succ n ih =>
    intro r m hl hi hr
    unfold rowLoop
    rw [hl]
    simp only
    rw [List.getElem?_eq_getElem (by omega)]
    simp only
    have hw : (m.write (.seg i) r l[r]).segs = m.segs.set i (over h l (r + 1)) := by
      show m.segs.modify i _ = _
      obtain ⟨hlt, he⟩ := List.getElem?_eq_some_iff.mp hi
      apply List.ext_getElem?
      intro j
      by_cases hj : i = j
      · subst hj
        rw [List.getElem?_modify_eq, hi, List.getElem?_set_self hlt, ← over_set h l r (by omega)]
        rfl
      · rw [List.getElem?_modify_ne _ _ hj, List.getElem?_set_ne hj]
    obtain ⟨hlt, _⟩ := List.getElem?_eq_some_iff.mp hi
    obtain ⟨m', h1, h2⟩ := ih (r + 1) (m.write (.seg i) r l[r])
      (by rw [hw, List.getElem?_set_ne hne]; exact hl) (by rw [hw, List.getElem?_set_self hlt]) (by omega)
    refine ⟨m', h1, ?_⟩
    rw [h2, hw, List.set_set]
    congr 2
    omega

theorem scanFrom_fresh (groups : List (List α)) : ∀ (n g : Nat) (t : Target) (m : Mem α), m.segs = groups → g + n = groups.length →
    ∃ m', scanFrom true n g t m = .ok (m', groups.drop g) ∧ m'.segs = groups := by
  intro n
  induction n with
  | zero =>
    intro g t m hm hg
    exact ⟨m, by unfold scanFrom; rw [List.drop_eq_nil_of_le (by omega)], hm⟩
  | succ n ih =>
    intro g t m hm hg
    have hlt : g < groups.length := by omega
    have hgo : m.segs[g]? = some groups[g] := by rw [hm]; exact List.getElem?_eq_getElem hlt
    obtain ⟨m', h1, h2⟩ := rowLoop_own g groups[g] groups[g].length 0 m hgo (by omega)
    obtain ⟨m'', h3, h4⟩ := ih (g + 1) (.seg g) m' (by rw [h2, hm]) (by omega)
    refine ⟨m'', ?_, h4⟩
    unfold scanFrom scanGroup
    simp only [if_true]
    rw [hgo]
    simp only
    rw [h1]
    simp only [Res.bind]
    rw [h2, hgo]
    simp only
    rw [h3, List.drop_eq_getElem_cons hlt]
    rfl

/-- Each row group, overwritten from its first row on with the rows of the next. -/
def shifted : List (List α) → List (List α)
  | [] => []
  | [g] => [g]
  | g :: g' :: gs => (g'.take g.length ++ g.drop g'.length) :: shifted (g' :: gs)

theorem scanFrom_reused : ∀ (rest : List (List α)) (pre : List (List α)) (cur : List α) (m : Mem α), m.segs = pre ++ cur :: rest →
    ∃ m', scanFrom false rest.length (pre.length + 1) (.seg pre.length) m = .ok (m', rest) ∧ m'.segs = pre ++ shifted (cur :: rest) := by
  intro rest
  induction rest with
  | nil => intro pre cur m hm; exact ⟨m, rfl, hm⟩
  | cons l rest ih =>
    intro pre cur m hm
    have hgo : m.segs[pre.length + 1]? = some l := by rw [hm]; simp
    have hpr : m.segs[pre.length]? = some cur := by rw [hm]; simp
    obtain ⟨m', h1, h2⟩ := rowLoop_seg (pre.length + 1) pre.length (by omega) l cur l.length 0 m hgo (by rw [over_zero]; exact hpr) (by omega)
    have hm' : m'.segs = (pre ++ [over cur l l.length]) ++ l :: rest := by
      rw [h2, hm, Nat.zero_add, List.set_append_right _ _ (Nat.le_refl _), Nat.sub_self, List.set_cons_zero]
      simp
    obtain ⟨m'', h3, h4⟩ := ih (pre ++ [over cur l l.length]) l m' hm'
    refine ⟨m'', ?_, ?_⟩
    · unfold scanFrom
      simp only [List.length_cons, Bool.false_eq_true, if_false]
      unfold scanGroup
      rw [hgo]
      simp only
      rw [h1]
      simp only [Res.bind]
      have : m'.segs[pre.length + 1]? = some l := by rw [hm']; simp
      rw [this]
      simp only
      rw [List.length_append, List.length_singleton] at h3
      rw [h3]
      rfl
    · rw [h4, List.append_assoc]
      congr 1
      simp only [List.cons_append, List.nil_append, shifted]
      congr 1
      unfold over
      rw [List.take_of_length_le (Nat.le_refl l.length)]

/-! ## C67: reading a table does not change it -/

/-- The full C67 claim: after `collection_t::scan` the table holds the rows it held before. -/
def C67_scan_keeps_claim (α : Type) : Prop :=
  ∀ (buf : List α) (groups : List (List α)), ∃ seen, scan false buf groups = .ok (groups, seen)

/-- **C67**, what a scan does: it shows every row group as it is, but leaves each row group
overwritten from its first row on with the rows of the next one. -/
theorem C67_scan_overwrites (buf : List α) (groups : List (List α)) : scan false buf groups = .ok (shifted groups, groups) := by
  unfold scan
  cases groups with
  | nil => rfl
  | cons g gs =>
    simp only [List.length_cons]
    unfold scanFrom scanGroup
    simp only [Bool.false_eq_true, if_false, List.getElem?_cons_zero]
    obtain ⟨m', h1, h2⟩ := rowLoop_own 0 g g.length 0 ⟨g :: gs, buf⟩ rfl (by omega)
    rw [h1]
    simp only [Res.bind, h2, List.getElem?_cons_zero]
    obtain ⟨m'', h3, h4⟩ := scanFrom_reused gs [] g m' h2
    have h3' : scanFrom false gs.length (0 + 1) (.seg 0) m' = .ok (m'', gs) := h3
    rw [h3']
    show Res.ok (m''.segs, g :: gs) = _
    rw [h4]
    rfl

/-- **C67 fails**: of two full row groups the first is lost: after one scan, a second one returns the
second row group twice. -/
theorem C67_rows_lost_fails (buf : List α) (g g' : List α) (hlen : g.length = g'.length) :
    scan false buf [g, g'] = .ok ([g', g'], [g, g']) := by
  rw [C67_scan_overwrites]
  simp [shifted, hlen]

theorem C67_scan_keeps_fails : ¬ C67_scan_keeps_claim Int := by
  intro hc
  obtain ⟨seen, h⟩ := hc [] [List.replicate 1024 1, List.replicate 1024 2]
  rw [C67_rows_lost_fails _ _ _ (by rw [List.length_replicate, List.length_replicate])] at h
  simp only [Res.ok.injEq, Prod.mk.injEq, List.cons.injEq] at h
  have := h.1.1
  rw [List.replicate_inj] at this
  omega

/-- **C67, partial**: a table of one row group (up to 1024 rows) is left as it is. Missing: larger
tables, for which it is false. -/
theorem C67_scan_keeps_partial (buf : List α) (groups : List (List α)) (h1 : groups.length ≤ 1) :
    scan false buf groups = .ok (groups, groups) := by
  rw [C67_scan_overwrites]
  match groups with
  | [] => rfl
  | [g] => rfl
  | _ :: _ :: _ => simp at h1

/-- **C67**, new chunks: when every call gets a new chunk, the table is left as it is and all of its
rows are shown. This is how `Verif.Table.Model` reads tables. -/
theorem C67_new_chunks_keep (buf : List α) (groups : List (List α)) : scan true buf groups = .ok (groups, groups) := by
  unfold scan
  obtain ⟨m', h1, h2⟩ := scanFrom_fresh groups groups.length 0 .own ⟨groups, buf⟩ rfl (by omega)
  rw [h1]
  show Res.ok (m'.segs, _) = _
  rw [h2]
  rfl

/-- Two row groups of two rows, and a shorter last one: what is left after the scan. -/
example : scan false [0, 0] [[1, 2], [3, 4], [5]] = .ok ([[3, 4], [5, 4], [5]], [[1, 2], [3, 4], [5]]) := by rfl

end Verif.Table.Reuse
