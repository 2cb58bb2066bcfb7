import Verif.Table.Versions
/-! Facts about one row group with at most 1024 rows. -/
namespace Verif.Table
open Verif.Mvcc (CAP Mgr Txn NOT_DELETED)
variable {α : Type}

/-- The cells of the rows `a, ..., a + n - 1`. -/
def slice {β : Type} (l : List β) (a n : Nat) : List β := (l.drop a).take n

theorem slice_length {β : Type} {l : List β} {a n : Nat} (h : a + n ≤ l.length) : (slice l a n).length = n := by
  unfold slice; simp; omega

theorem slice_get {β : Type} {l : List β} {a n i : Nat} (h : i < n) : (slice l a n)[i]? = l[a + i]? := by
  unfold slice; rw [List.getElem?_take]; simp [h]

theorem slice_append_left {β : Type} {l r : List β} {a n : Nat} (h : a + n ≤ l.length) : slice (l ++ r) a n = slice l a n := by
  unfold slice
  rw [List.drop_append_of_le_length (by omega), List.take_append_of_le_length (by simp; omega)]

theorem slice_append {β : Type} {l r : List β} {a n k : Nat} (h : a + n = l.length) :
    slice (l ++ r) a (n + k) = slice l a n ++ r.take k := by
  unfold slice
  rw [List.drop_append_of_le_length (by omega), List.take_append]
  simp only [List.length_drop]
  rw [List.take_of_length_le (by simp; omega), List.take_of_length_le (l := l.drop a) (i := n) (by simp; omega)]
  congr 2
  omega

theorem slice_set_inside {β : Type} (l : List β) (a n i : Nat) (x : β) (h : a ≤ i) :
    slice (l.set i x) a n = (slice l a n).set (i - a) x := by
  unfold slice
  rw [List.drop_set, if_neg (by omega), List.take_set]

theorem slice_set_outside {β : Type} (l : List β) (a n i : Nat) (x : β) (h : i < a ∨ a + n ≤ i) :
    slice (l.set i x) a n = slice l a n := by
  unfold slice
  rw [List.drop_set]
  split
  · rfl
  · next hn =>
    rw [List.take_set, List.set_eq_of_length_le]
    simp; omega

theorem slice_overlay_inside {β : Type} (rows : List (Nat × β)) (l : List β) (a n : Nat) (h : ∀ p ∈ rows, a ≤ p.1) :
    slice (overlay l rows) a n = overlay (slice l a n) (rel a rows) := by
  unfold overlay rel
  induction rows generalizing l with
  | nil => rfl
  | cons p r ih =>
    rw [List.foldl_cons, ih _ (fun q hq => h q (by simp [hq])), slice_set_inside _ _ _ _ _ (h p (by simp))]
    rfl

theorem slice_overlay_outside {β : Type} (rows : List (Nat × β)) (l : List β) (a n : Nat)
    (h : ∀ p ∈ rows, p.1 < a ∨ a + n ≤ p.1) : slice (overlay l rows) a n = slice l a n := by
  unfold overlay
  induction rows generalizing l with
  | nil => rfl
  | cons p r ih =>
    rw [List.foldl_cons, ih _ (fun q hq => h q (by simp [hq])), slice_set_outside _ _ _ _ _ (h p (by simp))]

theorem assign_eq (l : List (Cell α)) (ids : List Nat) (new : List (Cell α)) : assign l ids new = overlay l (ids.zip new) := by
  unfold overlay
  induction ids generalizing l new with
  | nil => simp [assign]
  | cons i is ih =>
    cases new with
    | nil => simp [assign]
    | cons x xs => simp [assign, ih]

/-- A row group holds `n` rows of the table. -/
structure GroupOk (g : RowGroup α) (s : Ideal α) (u : Nat → Bool) (n : Nat) : Prop where
  width : g.cols.length = s.cols.length
  cols : ∀ (j : Nat) (std : Std α) (l : List (Cell α)), g.cols[j]? = some std → s.cols[j]? = some l → Holds std g.start (slice l g.start n) u
  vers : VersOk g.vers g.version n (fun i => s.dead (g.start + i))

/-- All columns can be appended to. -/
def RowGroup.Ready (g : RowGroup α) : Prop := ∀ std ∈ g.cols, std.Ready

theorem GroupOk.initAppend {g : RowGroup α} {s : Ideal α} {u : Nat → Bool} {n : Nat} (h : GroupOk g s u n) :
    GroupOk g.initAppend s u n ∧ g.initAppend.Ready := by
  constructor
  · refine ⟨by simp [RowGroup.initAppend, h.width], ?_, h.vers⟩
    intro j std l hj hl
    unfold RowGroup.initAppend at hj
    simp only [List.getElem?_map, Option.map_eq_some_iff] at hj
    obtain ⟨x, hx, rfl⟩ := hj
    exact (h.cols j x l hx hl).initAppend.1
  · intro std hs
    unfold RowGroup.initAppend at hs
    simp only [List.mem_map] at hs
    obtain ⟨x, hx, rfl⟩ := hs
    obtain ⟨j, hj⟩ := List.getElem?_of_mem hx
    have hlt : j < s.cols.length := by rw [← h.width]; exact (List.getElem?_eq_some_iff.mp hj).1
    exact (h.cols j x _ hj (List.getElem?_eq_getElem hlt)).initAppend.2

theorem GroupOk.empty {tys : List (ColTy α)} (hty : ∀ ty ∈ tys, ty.Ok) {s : Ideal α} {u : Nat → Bool} {a : Nat}
    (hw : s.cols.length = tys.length) (ha : a < 2 ^ 62) : GroupOk (RowGroup.empty tys a) s u 0 := by
  refine ⟨by simp [RowGroup.empty, hw], ?_, VersOk.new 0 _ (by simp)⟩
  intro j std l hj hl
  unfold RowGroup.empty at hj ⊢
  simp only [List.getElem?_map, Option.map_eq_some_iff] at hj
  obtain ⟨ty, hty', rfl⟩ := hj
  have : slice l a 0 = [] := by simp [slice]
  simp only
  rw [this]
  exact Holds.empty (hty ty (List.mem_of_getElem? hty')) ha u

theorem appendCols_ok : ∀ (stds : List (Std α)) (bs : List (List (Cell α))) (n : Nat), stds.length = bs.length →
    (∀ (j : Nat) (std : Std α) (b : List (Cell α)), stds[j]? = some std → bs[j]? = some b → ∃ s', std.append (b.take n) = .ok s') →
    ∃ out, appendCols stds bs n = .ok out ∧ out.length = stds.length ∧
      ∀ (j : Nat) (std : Std α) (b : List (Cell α)) (x : Std α), stds[j]? = some std → bs[j]? = some b → out[j]? = some x → std.append (b.take n) = .ok x
  | [], _, _, _, _ => ⟨[], rfl, rfl, by simp⟩
  | _ :: _, [], _, h, _ => by simp at h
  | s :: ss, b :: bs, n, hl, h => by
    obtain ⟨s', hs'⟩ := h 0 s b (by simp) (by simp)
    obtain ⟨out, h1, h2, h3⟩ := appendCols_ok ss bs n (by simpa using hl) (fun j std b hj hb => h (j + 1) std b (by simpa using hj) (by simpa using hb))
    refine ⟨s' :: out, ?_, by simp [h2], ?_⟩
    · unfold appendCols
      rw [hs', Res.bind_ok, h1]
      rfl
    · intro j std b x hj hb hx
      cases j with
      | zero => simp at hj hb hx; subst hj hb hx; exact hs'
      | succ j => simp at hj hb hx; exact h3 j std b x hj hb hx

/-- Rows of a chunk. -/
def Chunk.take (ch : Chunk α) (n : Nat) : Chunk α := ⟨n, ch.cols.map (·.take n)⟩

/-- The facts about the ideal table that hold throughout. -/
structure Ideal.Ok (s : Ideal α) (u : Nat → Bool) (w : Nat) : Prop where
  width : s.cols.length = w
  len : ∀ l ∈ s.cols, l.length = s.rows
  dead : ∀ i, s.dead i = true → i < s.rows
  upd : ∀ i, u i = true → i < s.rows
  small : s.rows < 2 ^ 62

theorem append_col {s : Ideal α} {ch : Chunk α} {j : Nat} {l : List (Cell α)} (h : (s.append ch).cols[j]? = some l) :
    ∃ l0 b, s.cols[j]? = some l0 ∧ ch.cols[j]? = some b ∧ l = l0 ++ b := by
  unfold Ideal.append at h
  simp only [List.getElem?_zipWith] at h
  cases h1 : s.cols[j]? with
  | none => rw [h1] at h; simp at h
  | some l0 =>
    cases h2 : ch.cols[j]? with
    | none => rw [h1, h2] at h; simp at h
    | some b => rw [h1, h2] at h; simp at h; exact ⟨l0, b, rfl, rfl, h.symm⟩

theorem Ideal.Ok.append {s : Ideal α} {u : Nat → Bool} {w : Nat} (h : s.Ok u w) {ch : Chunk α} (hch : ch.For w)
    (hsm : s.rows + ch.size < 2 ^ 62) : (s.append ch).Ok u w := by
  refine ⟨?_, ?_, ?_, ?_, hsm⟩
  · simp [Ideal.append, h.width, hch.width]
  · intro l hl
    obtain ⟨j, hj⟩ := List.getElem?_of_mem hl
    obtain ⟨l0, b, h1, h2, rfl⟩ := append_col hj
    simp [Ideal.append, h.len l0 (List.mem_of_getElem? h1), hch.height b (List.mem_of_getElem? h2)]
  · intro i hi
    have := h.dead i hi
    simp only [Ideal.append]; omega
  · intro i hi
    have := h.upd i hi
    simp only [Ideal.append]; omega

/-- Rows appended elsewhere do not touch a group. -/
theorem GroupOk.stable {g : RowGroup α} {s : Ideal α} {u : Nat → Bool} {n w : Nat} (h : GroupOk g s u n) (hs : s.Ok u w)
    {ch : Chunk α} (hch : ch.For w) (hn : g.start + n ≤ s.rows) : GroupOk g (s.append ch) u n := by
  refine ⟨?_, ?_, h.vers⟩
  · rw [h.width]; simp [Ideal.append, hs.width, hch.width]
  · intro j std l hj hl
    obtain ⟨l0, b, h1, h2, rfl⟩ := append_col hl
    rw [slice_append_left (by rw [hs.len l0 (List.mem_of_getElem? h1)]; exact hn)]
    exact h.cols j std l0 hj h1

theorem GroupOk.append {g : RowGroup α} {s : Ideal α} {u : Nat → Bool} {n w : Nat} (h : GroupOk g s u n) (hs : s.Ok u w)
    (hrd : g.Ready) {ch : Chunk α} (hch : ch.For w) (hrows : g.start + n = s.rows) {k : Nat} (hk : k ≤ ch.size)
    (hsm : s.rows + k < 2 ^ 62) :
    ∃ g', g.append ch k = .ok g' ∧ GroupOk g' (s.append (ch.take k)) u (n + k) ∧ g'.Ready ∧ g'.start = g.start ∧ g'.count = g.count := by
  have hstep : ∀ (j : Nat) (std : Std α) (b : List (Cell α)), g.cols[j]? = some std → ch.cols[j]? = some b → ∃ l, s.cols[j]? = some l ∧
      ∃ s', std.append (b.take k) = .ok s' ∧ Holds s' g.start (slice l g.start n ++ b.take k) u ∧ s'.Ready := by
    intro j std b hj hb
    have hlt : j < s.cols.length := by rw [← h.width]; exact (List.getElem?_eq_some_iff.mp hj).1
    have hl := List.getElem?_eq_getElem hlt
    refine ⟨_, hl, ?_⟩
    have hlen := hs.len _ (List.mem_of_getElem? hl)
    have hsl : (slice s.cols[j] g.start n).length = n := slice_length (by omega)
    have hbl := hch.height b (List.mem_of_getElem? hb)
    apply (h.cols j std _ hj hl).append (hrd std (List.mem_of_getElem? hj))
    · rw [hsl]; simp; omega
    · intro i hi _
      rw [hsl] at hi
      cases hu : u (g.start + i) with
      | false => rfl
      | true => have := hs.upd _ hu; omega
  obtain ⟨out, h1, h2, h3⟩ := appendCols_ok g.cols ch.cols k (by rw [h.width, hs.width, hch.width])
    (fun j std b hj hb => by obtain ⟨_, _, s', hs', _⟩ := hstep j std b hj hb; exact ⟨s', hs'⟩)
  refine ⟨{ g with cols := out }, ?_, ⟨?_, ?_, ?_⟩, ?_, rfl, rfl⟩
  · unfold RowGroup.append
    rw [h1]; rfl
  · simp only [h2, h.width]
    simp [Ideal.append, Chunk.take, hs.width, hch.width]
  · intro j x l hj hl
    obtain ⟨l0, b, hl0, hb, rfl⟩ := append_col hl
    unfold Chunk.take at hb
    simp only [List.getElem?_map, Option.map_eq_some_iff] at hb
    obtain ⟨b, hb, rfl⟩ := hb
    have hlt : j < g.cols.length := by rw [← h2]; exact (List.getElem?_eq_some_iff.mp hj).1
    have hstd := List.getElem?_eq_getElem hlt
    obtain ⟨l1, hl1, s', hs', hh, _⟩ := hstep j _ b hstd hb
    have hx := h3 j _ b x hstd hb hj
    rw [hs'] at hx
    cases hx
    rw [hl0] at hl1
    cases hl1
    have hlen := hs.len l0 (List.mem_of_getElem? hl0)
    rw [slice_append (a := g.start) (by omega), List.take_of_length_le (l := b.take k) (by simp)]
    exact hh
  · exact h.vers.grow (by omega) (fun i hi _ => by
      show s.dead (g.start + i) = false
      cases hd : s.dead (g.start + i) with
      | false => rfl
      | true => have := hs.dead _ hd; omega)
  · intro x hx
    obtain ⟨j, hj⟩ := List.getElem?_of_mem hx
    have hlt : j < g.cols.length := by rw [← h2]; exact (List.getElem?_eq_some_iff.mp hj).1
    have hstd := List.getElem?_eq_getElem hlt
    have hlt' : j < ch.cols.length := by rw [hch.width, ← hs.width, ← h.width]; exact hlt
    have hb := List.getElem?_eq_getElem hlt'
    obtain ⟨_, _, s', hs', _, hr⟩ := hstep j _ _ hstd hb
    have hx' := h3 j _ _ x hstd hb hj
    rw [hs'] at hx'
    cases hx'
    exact hr

/-! ### Scanning -/

theorem initCols_ok (g : RowGroup α) : ∀ refs : List Nat, (∀ j ∈ refs, j < g.cols.length) →
    ∃ sts, initCols g refs = .ok sts ∧ sts.length = refs.length ∧
      ∀ (k j : Nat) (std : Std α), refs[k]? = some j → g.cols[j]? = some std → sts[k]? = some (std.data.initScan, std.valid.initScan)
  | [], _ => ⟨[], rfl, rfl, by simp⟩
  | j :: js, h => by
    obtain ⟨sts, h1, h2, h3⟩ := initCols_ok g js (fun x hx => h x (by simp [hx]))
    have hj := h j (by simp)
    refine ⟨(g.cols[j].data.initScan, g.cols[j].valid.initScan) :: sts, ?_, by simp [h2], ?_⟩
    · unfold initCols
      rw [List.getElem?_eq_getElem hj]
      simp only [h1, Res.map'_ok]
    · intro k j' std hk hstd
      cases k with
      | zero =>
        simp at hk
        subst hk
        rw [List.getElem?_eq_getElem hj] at hstd
        simp at hstd
        subst hstd
        simp
      | succ k => simp at hk ⊢; exact h3 k j' std hk hstd

/-- The states `initialize_scan` leaves. -/
def Fresh (g : RowGroup α) (refs : List Nat) (sts : List (Scan × Scan)) : Prop :=
  sts.length = refs.length ∧
    ∀ (k j : Nat) (std : Std α), refs[k]? = some j → g.cols[j]? = some std → sts[k]? = some (std.data.initScan, std.valid.initScan)

theorem scanCols_ok {g : RowGroup α} {s : Ideal α} {u : Nat → Bool} {n w : Nat} (h : GroupOk g s u n) (hs : s.Ok u w)
    (h0 : 0 < n) (hn : n ≤ CAP) (hrows : g.start + n ≤ s.rows) :
    ∀ (refs : List Nat) (sts : List (Scan × Scan)), (∀ j ∈ refs, j < w) → Fresh g refs sts →
      ∃ cols sts', scanCols g 0 refs sts = .ok (cols, sts') ∧ cols.length = refs.length ∧
        ∀ (k j : Nat) (col l : List (Cell α)), refs[k]? = some j → cols[k]? = some col → s.cols[j]? = some l → col = slice l g.start n
  | [], sts, _, _ => ⟨[], [], by unfold scanCols; rfl, rfl, by simp⟩
  | j :: js, sts, hj, hf => by
    obtain ⟨hf1, hf2⟩ := hf
    cases sts with
    | nil => simp at hf1
    | cons st sts =>
      have hjw := hj j (by simp)
      have hjl : j < s.cols.length := by rw [hs.width]; exact hjw
      have hjg : j < g.cols.length := by rw [h.width]; exact hjl
      have hstd := List.getElem?_eq_getElem hjg
      have hl := List.getElem?_eq_getElem hjl
      have hst := hf2 0 j _ (by simp) hstd
      simp at hst
      have hlen := hs.len _ (List.mem_of_getElem? hl)
      have hsl : (slice s.cols[j] g.start n).length = n := slice_length (by omega)
      obtain ⟨st', hsc⟩ := (h.cols j _ _ hstd hl).scan (by omega) (by omega)
      obtain ⟨cols, sts', h1, h2, h3⟩ := scanCols_ok h hs h0 hn hrows js sts (fun x hx => hj x (by simp [hx]))
        ⟨by simpa using hf1, fun k j' std hk hstd' => by simpa using hf2 (k + 1) j' std (by simpa using hk) hstd'⟩
      refine ⟨slice s.cols[j] g.start n :: cols, st' :: sts', ?_, by simp [h2], ?_⟩
      · unfold scanCols
        rw [hstd]
        simp only
        rw [hst, hsc, Res.bind_ok, h1]
        rfl
      · intro k j' col l hk hc hl'
        cases k with
        | zero =>
          simp at hk hc
          subst hk
          rw [hl] at hl'
          cases hl'
          exact hc.symm
        | succ k => simp at hk hc; exact h3 k j' col l hk hc hl'

theorem pick_ok {β : Type} (l : List β) : ∀ ps : List Nat, (∀ p ∈ ps, p < l.length) →
    ∃ r, pick l ps = .ok r ∧ r.map some = ps.map fun p => l[p]?
  | [], _ => ⟨[], rfl, rfl⟩
  | p :: ps, h => by
    obtain ⟨r, h1, h2⟩ := pick_ok l ps (fun x hx => h x (by simp [hx]))
    have hp := h p (by simp)
    refine ⟨l[p] :: r, ?_, by simp [h2, hp]⟩
    unfold pick
    rw [List.getElem?_eq_getElem hp]
    simp only [h1, Res.map'_ok]

theorem pickAll_ok {β : Type} (ps : List Nat) : ∀ ls : List (List β), (∀ l ∈ ls, ∀ p ∈ ps, p < l.length) →
    ∃ r, pickAll ps ls = .ok r ∧ r.length = ls.length ∧
      ∀ (k : Nat) (l col : List β), ls[k]? = some l → r[k]? = some col → col.map some = ps.map fun p => l[p]?
  | [], _ => ⟨[], rfl, rfl, by simp⟩
  | l :: ls, h => by
    obtain ⟨r, h1, h2, h3⟩ := pickAll_ok ps ls (fun x hx => h x (by simp [hx]))
    obtain ⟨c, h4, h5⟩ := pick_ok l ps (h l (by simp))
    refine ⟨c :: r, ?_, by simp [h2], ?_⟩
    · unfold pickAll
      rw [h4, Res.bind_ok, h1]
      rfl
    · intro k l' col hk hc
      cases k with
      | zero => simp at hk hc; subst hk hc; exact h5
      | succ k => simp at hk hc; exact h3 k l' col hk hc

/-- The rows `a, ..., a + n - 1` to be kept, by id. -/
def rowsIn (keep : Nat → Bool) (a n : Nat) : List Nat := ((List.range n).filter fun i => keep (a + i)).map (a + ·)

/-- What one scan call must return for the given positions of a group. -/
structure OutOk (s : Ideal α) (refs rows : List Nat) (o : Out α) : Prop where
  ids : o.ids = rows
  width : o.cols.length = refs.length
  cells : ∀ (k j : Nat) (col l : List (Cell α)), refs[k]? = some j → o.cols[k]? = some col → s.cols[j]? = some l →
    col.map some = rows.map fun i => l[i]?

/-- Scanning and selecting positions of the only vector. -/
theorem scan_positions {g : RowGroup α} {s : Ideal α} {u : Nat → Bool} {n w : Nat} (h : GroupOk g s u n) (hs : s.Ok u w)
    (h0 : 0 < n) (hn : n ≤ CAP) (hrows : g.start + n ≤ s.rows) {refs : List Nat} {sts : List (Scan × Scan)}
    (hj : ∀ j ∈ refs, j < w) (hf : Fresh g refs sts) {ps : List Nat} (hps : ∀ p ∈ ps, p < n) :
    ∃ cols sts' out, scanCols g 0 refs sts = .ok (cols, sts') ∧ pickAll ps cols = .ok out ∧
      OutOk s refs (ps.map (g.start + ·)) ⟨ps.map (g.start + ·), out⟩ := by
  obtain ⟨cols, sts', h1, h2, h3⟩ := scanCols_ok h hs h0 hn hrows refs sts hj hf
  have hcol : ∀ (k : Nat) (col : List (Cell α)), cols[k]? = some col → ∃ j l, refs[k]? = some j ∧ s.cols[j]? = some l ∧ col = slice l g.start n := by
    intro k col hk
    have hlt : k < refs.length := by rw [← h2]; exact (List.getElem?_eq_some_iff.mp hk).1
    have hr := List.getElem?_eq_getElem hlt
    have hjl : refs[k] < s.cols.length := by rw [hs.width]; exact hj _ (List.mem_of_getElem? hr)
    have hl := List.getElem?_eq_getElem hjl
    exact ⟨_, _, hr, hl, h3 k _ col _ hr hk hl⟩
  obtain ⟨out, h4, h5, h6⟩ := pickAll_ok ps cols (by
    intro c hc p hp
    obtain ⟨k, hk⟩ := List.getElem?_of_mem hc
    obtain ⟨j, l, _, hl, rfl⟩ := hcol k c hk
    rw [slice_length (by rw [hs.len l (List.mem_of_getElem? hl)]; exact hrows)]
    exact hps p hp)
  refine ⟨cols, sts', out, h1, h4, rfl, by simp [h5, h2], ?_⟩
  intro k j col l hk hc hl
  simp only at hc
  have hlt : k < cols.length := by rw [← h5]; exact (List.getElem?_eq_some_iff.mp hc).1
  have hcc := List.getElem?_eq_getElem hlt
  rw [h6 k _ col hcc hc, h3 k j _ l hk hcc hl, List.map_map]
  apply List.map_congr_left
  intro p hp
  rw [slice_get (hps p hp)]
  rfl

/-- The filter gives the answer `P` for the rows of a group. -/
def Decides (cmp : α → α → Ordering) (g : RowGroup α) (n : Nat) (flt : Option (Flt α)) (live P : Nat → Bool) : Prop :=
  match flt with
  | none => ∀ p, p < n → live (g.start + p) = true → P (g.start + p) = true
  | some f => ∀ p, p < n → live (g.start + p) = true → g.check cmp p f = .ok (P (g.start + p))

theorem filter_ok {cmp : α → α → Ordering} {g : RowGroup α} {f : Flt α} {P : Nat → Bool} : ∀ ps : List Nat,
    (∀ p ∈ ps, g.check cmp p f = .ok (P (g.start + p))) → g.filter cmp f ps = .ok (ps.filter fun p => P (g.start + p))
  | [], _ => rfl
  | p :: ps, h => by
    unfold RowGroup.filter
    rw [h p (by simp), Res.bind_ok, filter_ok ps (fun x hx => h x (by simp [hx])), Res.map'_ok, List.filter_cons]

theorem positions_ok {cmp : α → α → Ordering} {g : RowGroup α} {n : Nat} {flt : Option (Flt α)} {P : Nat → Bool}
    {live : Nat → Bool} (h : Decides cmp g n flt live P) {sel : Mvcc.Sel} (hs : sel.rows n = (List.range n).filter fun i => live (g.start + i)) :
    g.positions cmp flt sel n = .ok ((List.range n).filter fun i => live (g.start + i) && P (g.start + i)) := by
  unfold RowGroup.positions
  rw [hs]
  cases flt with
  | none =>
    simp only
    congr 1
    apply List.filter_congr
    intro i hi
    cases hl : live (g.start + i) with
    | false => rfl
    | true => rw [h i (List.mem_range.mp hi) hl]; rfl
  | some f =>
    simp only
    rw [filter_ok (P := P) _ (fun p hp => h p (List.mem_range.mp (List.mem_filter.mp hp).1) (List.mem_filter.mp hp).2), List.filter_filter]
    congr 1
    apply List.filter_congr
    intro i _
    rw [Bool.and_comm]

/-- A scan of a whole group. -/
theorem GroupOk.scan {g : RowGroup α} {s : Ideal α} {u : Nat → Bool} {n w : Nat} (cmp : α → α → Ordering) (h : GroupOk g s u n)
    (hs : s.Ok u w) (h0 : 0 < n) (hn : n ≤ CAP) (hrows : g.start + n ≤ s.rows) {refs : List Nat} {st : ScanSt}
    {flt : Option (Flt α)} {P : Nat → Bool} (hP : Decides cmp g n flt (fun i => !s.dead i) P)
    (hj : ∀ j ∈ refs, j < w) (hf : Fresh g refs st.cols) (hv : st.vec = 0) (hm : st.maxRow = n) (fuel : Nat) :
    ∃ st' o, g.scan cmp refs flt (fuel + 2) st = .ok (st', o) ∧
      OutOk s refs (rowsIn (fun i => !s.dead i && P i) g.start n) o ∧
      (st'.grp = st.grp ∧ st'.vec = 1 ∧ st'.maxRow = n ∧ st'.endRow = st.endRow) := by
  have hCAP : (0 : Nat) < CAP := by unfold CAP; omega
  have hend : ∀ (f : Nat) (st : ScanSt), st.vec = 1 → st.maxRow = n →
      g.scan cmp refs flt (f + 1) st = .ok (st, ⟨[], refs.map fun _ => []⟩) := by
    intro f st h1 h2
    unfold RowGroup.scan
    rw [h1, h2, if_pos (by omega)]
  obtain ⟨sel, hsel, hrw, hcnt⟩ := h.vers.select hn
  have hps := positions_ok hP hrw
  have hempty : rowsIn (fun i => !s.dead i && P i) g.start n = [] →
      OutOk s refs (rowsIn (fun i => !s.dead i && P i) g.start n) ⟨[], refs.map fun _ => []⟩ := by
    intro he
    rw [he]
    refine ⟨rfl, by simp, ?_⟩
    intro k j col l _ hc _
    simp only [List.getElem?_map, Option.map_eq_some_iff] at hc
    obtain ⟨_, _, rfl⟩ := hc
    rfl
  unfold RowGroup.scan
  rw [hv, hm, if_neg (by omega)]
  simp only [Nat.zero_mul, Nat.sub_zero, Nat.add_zero, Nat.zero_add]
  rw [Nat.min_eq_right hn, hsel, Res.bind_ok, hps, hcnt]
  by_cases hlive : ((List.range n).filter fun i => !s.dead (g.start + i)) = []
  · rw [hlive]
    simp only [List.length_nil, if_true]
    rw [hend fuel _ (by rfl) (by rfl)]
    refine ⟨_, _, rfl, hempty ?_, rfl, rfl, rfl, rfl⟩
    unfold rowsIn
    have : ((List.range n).filter fun i => !s.dead (g.start + i) && P (g.start + i)) = [] := by
      rw [List.filter_eq_nil_iff] at hlive ⊢
      intro i hi
      have := hlive i hi
      revert this
      cases s.dead (g.start + i) <;> simp
    rw [this]; rfl
  · have hpos : ¬ ((List.range n).filter fun i => !s.dead (g.start + i)).length = 0 := by
      rw [List.length_eq_zero_iff]; exact hlive
    rw [if_neg hpos]
    simp only [Res.bind_ok]
    by_cases hkeep : ((List.range n).filter fun i => !s.dead (g.start + i) && P (g.start + i)) = []
    · rw [hkeep]
      simp only [List.isEmpty_nil, if_true]
      rw [hend fuel _ (by rfl) (by rfl)]
      refine ⟨_, _, rfl, hempty ?_, rfl, rfl, rfl, rfl⟩
      unfold rowsIn
      rw [hkeep]; rfl
    · have hemp : ((List.range n).filter fun i => !s.dead (g.start + i) && P (g.start + i)).isEmpty = false := by
        rw [Bool.eq_false_iff]; rw [ne_eq, List.isEmpty_iff]; exact hkeep
      rw [hemp]
      simp only [Bool.false_eq_true, if_false]
      obtain ⟨cols, sts', out, h1, h2, h3⟩ := scan_positions h hs h0 hn hrows hj hf
        (ps := (List.range n).filter fun i => !s.dead (g.start + i) && P (g.start + i))
        (fun p hp => List.mem_range.mp (List.mem_filter.mp hp).1)
      rw [h1, Res.bind_ok]
      simp only
      rw [h2, Res.map'_ok]
      exact ⟨_, _, rfl, h3, rfl, rfl, rfl, rfl⟩

/-- Reading single rows. -/
theorem GroupOk.fetchRow {g : RowGroup α} {s : Ideal α} {u : Nat → Bool} {n w : Nat} (h : GroupOk g s u n) (hs : s.Ok u w)
    (hn : n ≤ CAP) (hrows : g.start + n ≤ s.rows) {row : Nat} (h1 : g.start ≤ row) (h2 : row < g.start + n) :
    ∀ refs : List Nat, (∀ j ∈ refs, j < w) → ∃ r, g.fetchRow row refs = .ok r ∧
      r.map some = refs.map fun j => (s.cols[j]?).bind fun l => l[row]?
  | [], _ => ⟨[], rfl, rfl⟩
  | j :: js, hj => by
    obtain ⟨r, h3, h4⟩ := GroupOk.fetchRow h hs hn hrows h1 h2 js (fun x hx => hj x (by simp [hx]))
    have hjl : j < s.cols.length := by rw [hs.width]; exact hj j (by simp)
    have hjg : j < g.cols.length := by rw [h.width]; exact hjl
    have hl := List.getElem?_eq_getElem hjl
    have hlen := hs.len _ (List.mem_of_getElem? hl)
    have hsl : (slice s.cols[j] g.start n).length = n := slice_length (by omega)
    have hrow : row < s.cols[j].length := by omega
    have hx : (slice s.cols[j] g.start n)[row - g.start]? = some s.cols[j][row] := by
      rw [slice_get (by omega), show g.start + (row - g.start) = row by omega]
      exact List.getElem?_eq_getElem hrow
    have hfe := (h.cols j _ _ (List.getElem?_eq_getElem hjg) hl).fetchRow (by omega) hx
    rw [show g.start + (row - g.start) = row by omega] at hfe
    refine ⟨s.cols[j][row] :: r, ?_, by simp [h4, hl, hrow]⟩
    unfold RowGroup.fetchRow
    rw [List.getElem?_eq_getElem hjg]
    simp only
    rw [hfe, Res.bind_ok, h3]
    rfl

/-! ### Updating and deleting -/

theorem updateCols_ok : ∀ (ids : List Nat) (stds : List (Std α)) (bs : List (List (Cell α))) (out : List (Std α)),
    updateCols ids stds bs = .ok out → out.length = stds.length ∧
      ∀ (j : Nat) (std : Std α) (b : List (Cell α)) (x : Std α), stds[j]? = some std → bs[j]? = some b → out[j]? = some x → std.update (ids.zip b) = .ok x
  | ids, [], _, out, h => by unfold updateCols at h; cases h; simp
  | ids, _ :: _, [], out, h => by unfold updateCols at h; cases h
  | ids, s :: ss, b :: bs, out, h => by
    unfold updateCols at h
    rw [Res.bind_ok_iff] at h
    obtain ⟨s', h1, h⟩ := h
    rw [Res.map'_ok_iff] at h
    obtain ⟨ss', h2, rfl⟩ := h
    obtain ⟨h3, h4⟩ := updateCols_ok ids ss bs ss' h2
    refine ⟨by simp [h3], ?_⟩
    intro j std b x hj hb hx
    cases j with
    | zero => simp at hj hb hx; subst hj hb hx; exact h1
    | succ j => simp at hj hb hx; exact h4 j std b x hj hb hx

theorem updateCols_runs : ∀ (ids : List Nat) (stds : List (Std α)) (bs : List (List (Cell α))), stds.length = bs.length →
    (∀ (j : Nat) (std : Std α) (b : List (Cell α)), stds[j]? = some std → bs[j]? = some b → ∃ x, std.update (ids.zip b) = .ok x) →
    ∃ out, updateCols ids stds bs = .ok out
  | ids, [], _, _, _ => ⟨[], rfl⟩
  | ids, _ :: _, [], h, _ => by simp at h
  | ids, s :: ss, b :: bs, hl, h => by
    obtain ⟨x, hx⟩ := h 0 s b (by simp) (by simp)
    obtain ⟨out, ho⟩ := updateCols_runs ids ss bs (by simpa using hl)
      (fun j std b hj hb => h (j + 1) std b (by simpa using hj) (by simpa using hb))
    unfold updateCols
    rw [hx, Res.bind_ok, ho]
    exact ⟨_, rfl⟩

theorem update_col {s : Ideal α} {ids : List Nat} {ch : Chunk α} {j : Nat} {l : List (Cell α)} (h : (s.update ids ch).cols[j]? = some l) :
    ∃ l0 b, s.cols[j]? = some l0 ∧ ch.cols[j]? = some b ∧ l = overlay l0 (ids.zip b) := by
  unfold Ideal.update at h
  simp only [List.getElem?_zipWith] at h
  cases h1 : s.cols[j]? with
  | none => rw [h1] at h; simp at h
  | some l0 =>
    cases h2 : ch.cols[j]? with
    | none => rw [h1, h2] at h; simp at h
    | some b =>
      rw [h1, h2] at h
      simp only [Option.some.injEq] at h
      exact ⟨l0, b, rfl, rfl, by rw [← h, assign_eq]⟩

theorem zip_fst {β γ : Type} : ∀ (l : List β) (r : List γ), l.length = r.length → (l.zip r).map Prod.fst = l := by
  intro l r h
  rw [List.map_fst_zip]
  omega

/-- Marks after an update of the rows `ids`. -/
def marked (u : Nat → Bool) (ids : List Nat) : Nat → Bool := fun i => u i || decide (i ∈ ids)

theorem Ideal.Ok.update {s : Ideal α} {u : Nat → Bool} {w : Nat} (h : s.Ok u w) {ids : List Nat} {ch : Chunk α} (hch : ch.For w)
    (hids : ∀ i ∈ ids, i < s.rows) : (s.update ids ch).Ok (marked u ids) w := by
  refine ⟨by simp [Ideal.update, h.width, hch.width], ?_, h.dead, ?_, h.small⟩
  · intro l hl
    obtain ⟨j, hj⟩ := List.getElem?_of_mem hl
    obtain ⟨l0, b, h1, h2, rfl⟩ := update_col hj
    rw [overlay_length]
    exact h.len l0 (List.mem_of_getElem? h1)
  · intro i hi
    unfold marked at hi
    simp only [Bool.or_eq_true, decide_eq_true_eq] at hi
    rcases hi with hi | hi
    · exact h.upd i hi
    · exact hids i hi

/-- An update inside a group. -/
theorem GroupOk.update {g g' : RowGroup α} {s : Ideal α} {u : Nat → Bool} {n w : Nat} (h : GroupOk g s u n) (hs : s.Ok u w)
    (hn : n ≤ CAP) (hrows : g.start + n ≤ s.rows) {ids : List Nat} {ch : Chunk α} (hch : ch.For w) (hsz : ids.length = ch.size)
    (hnd : ids.Nodup) (hin : ∀ i ∈ ids, g.start ≤ i ∧ i < g.start + n) (hu : g.update ids ch.cols = .ok g') :
    GroupOk g' (s.update ids ch) (marked u ids) n ∧ g'.start = g.start ∧ g'.count = g.count := by
  unfold RowGroup.update at hu
  rw [Res.map'_ok_iff] at hu
  obtain ⟨cs, hcs, rfl⟩ := hu
  obtain ⟨h1, h2⟩ := updateCols_ok ids g.cols ch.cols cs hcs
  refine ⟨⟨?_, ?_, h.vers⟩, rfl, rfl⟩
  · simp only [h1, h.width]
    simp [Ideal.update, hs.width, hch.width]
  · intro j x l hj hl
    obtain ⟨l0, b, hl0, hb, rfl⟩ := update_col hl
    have hlt : j < g.cols.length := by rw [← h1]; exact (List.getElem?_eq_some_iff.mp hj).1
    have hstd := List.getElem?_eq_getElem hlt
    have hup := h2 j _ b x hstd hb hj
    have hbl := hch.height b (List.mem_of_getElem? hb)
    have hfst := zip_fst ids b (by omega)
    have hlen := hs.len l0 (List.mem_of_getElem? hl0)
    have hsl : (slice l0 g.start n).length = n := slice_length (by omega)
    have hmem : ∀ p ∈ ids.zip b, g.start ≤ p.1 ∧ p.1 < g.start + n := by
      intro p hp
      exact hin p.1 (by rw [← hfst]; exact List.mem_map.mpr ⟨p, hp, rfl⟩)
    have := (h.cols j _ l0 hstd hl0).update (by omega) (by rw [hfst]; exact hnd) (by rw [hsl]; exact hmem) hup
    simp only
    rw [slice_overlay_inside _ _ _ _ (fun p hp => (hmem p hp).1)]
    rw [hfst] at this
    exact this

/-- An update elsewhere. -/
theorem GroupOk.update_other {g : RowGroup α} {s : Ideal α} {u : Nat → Bool} {n w : Nat} (h : GroupOk g s u n) (hs : s.Ok u w)
    (hrows : g.start + n ≤ s.rows) {ids : List Nat} {ch : Chunk α} (hch : ch.For w) (hsz : ids.length = ch.size)
    (hout : ∀ i ∈ ids, i < g.start ∨ g.start + n ≤ i) : GroupOk g (s.update ids ch) (marked u ids) n := by
  refine ⟨?_, ?_, h.vers⟩
  · rw [h.width]; simp [Ideal.update, hs.width, hch.width]
  · intro j std l hj hl
    obtain ⟨l0, b, hl0, hb, rfl⟩ := update_col hl
    have hbl := hch.height b (List.mem_of_getElem? hb)
    have hfst := zip_fst ids b (by omega)
    have hlen := hs.len l0 (List.mem_of_getElem? hl0)
    rw [slice_overlay_outside]
    · obtain ⟨vals, flags, hh⟩ := h.cols j std l0 hj hl0
      have hsl : (slice l0 g.start n).length = n := slice_length (by omega)
      have hmk : ∀ i, i < (slice l0 g.start n).length → marked u ids (g.start + i) = u (g.start + i) := by
        intro i hi
        unfold marked
        have : g.start + i ∉ ids := by
          intro hm
          rcases hout _ hm with h | h <;> omega
        simp [this]
      refine ⟨vals, flags, hh.data, hh.valid, hh.lenD, hh.lenV, hh.cells, ?_, ?_⟩
      · intro i hi; rw [hmk i hi]; exact hh.markD i hi
      · intro i hi; rw [hmk i hi]; exact hh.markV i hi
    · intro p hp
      exact hout p.1 (by rw [← hfst]; exact List.mem_map.mpr ⟨p, hp, rfl⟩)

theorem runs_one : ∀ (l : List Nat), l ≠ [] → (∀ x ∈ l, x < CAP) → runs l = [(0, l)]
  | [], h, _ => (h rfl).elim
  | r :: rs, _, h => by
    have hr := h r (by simp)
    have h1 : r / CAP = 0 := Nat.div_eq_of_lt hr
    have h2 : r % CAP = r := Nat.mod_eq_of_lt hr
    unfold runs
    by_cases hrs : rs = []
    · subst hrs; simp [runs, h1, h2]
    · rw [runs_one rs hrs (fun x hx => h x (by simp [hx]))]
      simp [h1, h2]

theorem deleteRows_eq {g : RowGroup α} {ids : List Nat} {n : Nat} (hne : ids ≠ []) (hn : n ≤ CAP)
    (hin : ∀ i ∈ ids, g.start ≤ i ∧ i < g.start + n) : g.deleteRows ids = g.flush 0 (ids.map (· - g.start)) := by
  unfold RowGroup.deleteRows
  rw [runs_one _ (by simpa using hne) (by
    intro x hx
    rw [List.mem_map] at hx
    obtain ⟨i, hi, rfl⟩ := hx
    have := hin i hi
    omega)]
  unfold flushAll flushAll
  generalize g.flush 0 (ids.map (· - g.start)) = r
  cases r <;> simp [Res.bind, Res.map']

/-- A delete inside a group. -/
theorem GroupOk.delete {g g' : RowGroup α} {s : Ideal α} {u : Nat → Bool} {n k : Nat} (h : GroupOk g s u n)
    (hn : n ≤ CAP) {ids : List Nat} (hne : ids ≠ []) (hin : ∀ i ∈ ids, g.start ≤ i ∧ i < g.start + n)
    (hd : g.deleteRows ids = .ok (g', k)) :
    GroupOk g' (s.delete ids) u n ∧ g'.start = g.start ∧ g'.count = g.count ∧ (∀ i ∈ ids, s.dead i = false) ∧
      ∃ new : List Nat, new.Nodup ∧ (∀ x, x ∈ new ↔ x ∈ ids) ∧ k = new.length := by
  rw [deleteRows_eq hne hn hin] at hd
  obtain ⟨h1, h2, h3, new, h4, h5, h6⟩ := h.vers.flush hn (by simpa using hne) (by
    intro r hr
    rw [List.mem_map] at hr
    obtain ⟨i, hi, rfl⟩ := hr
    have := hin i hi
    omega) hd
  have hst : g'.start = g.start := by rw [h2]
  have hct : g'.count = g.count := by rw [h2]
  have hcs : g'.cols = g.cols := by rw [h2]
  refine ⟨⟨by rw [hcs]; exact h.width, ?_, ?_⟩, hst, hct, ?_, new.map (g.start + ·), ?_, ?_, by simp [h6]⟩
  · intro j std l hj hl
    rw [hcs] at hj
    rw [hst]
    exact h.cols j std l hj hl
  · apply h3.congr
    intro i hi
    unfold Ideal.delete
    simp only [hst]
    congr 2
    rw [eq_iff_iff, List.mem_map]
    constructor
    · intro hm
      exact ⟨_, hm, by omega⟩
    · rintro ⟨x, hx, rfl⟩
      have := hin x hx
      rw [show g.start + (x - g.start) = x by omega]
      exact hx
  · intro i hi
    have := h1 (i - g.start) (List.mem_map.mpr ⟨i, hi, rfl⟩)
    have h7 := hin i hi
    rwa [show g.start + (i - g.start) = i by omega] at this
  · exact List.Nodup.map (fun a b hab => by omega) h4
  · intro x
    rw [List.mem_map]
    constructor
    · rintro ⟨y, hy, rfl⟩
      rw [h5, List.mem_map] at hy
      obtain ⟨i, hi, rfl⟩ := hy
      have := hin i hi
      rw [show g.start + (i - g.start) = i by omega]
      exact hi
    · intro hx
      have := hin x hx
      exact ⟨x - g.start, (h5 _).mpr (List.mem_map.mpr ⟨x, hx, rfl⟩), by omega⟩

/-- A delete elsewhere. -/
theorem GroupOk.delete_other {g : RowGroup α} {s : Ideal α} {u : Nat → Bool} {n : Nat} (h : GroupOk g s u n) {ids : List Nat}
    (hout : ∀ i ∈ ids, i < g.start ∨ g.start + n ≤ i) : GroupOk g (s.delete ids) u n := by
  refine ⟨h.width, h.cols, h.vers.congr fun i hi => ?_⟩
  unfold Ideal.delete
  have : g.start + i ∉ ids := by
    intro hm
    rcases hout _ hm with h | h <;> omega
  simp [this]

/-- When an update inside a group returns. -/
theorem GroupOk.update_runs {g : RowGroup α} {s : Ideal α} {u : Nat → Bool} {n w : Nat} (h : GroupOk g s u n) (hs : s.Ok u w)
    (hn : n ≤ CAP) (hrows : g.start + n ≤ s.rows) {ids : List Nat} {ch : Chunk α} (hch : ch.For w) (hsz : ids.length = ch.size)
    (hne : ids ≠ []) (hnd : ids.Nodup) (hin : ∀ i ∈ ids, g.start ≤ i ∧ i < g.start + n)
    (hm : (∀ i, i < n → u (g.start + i) = false) ∨ ∀ i ∈ ids, ∃ k, k < n ∧ u (g.start + k) = true ∧ i ≤ g.start + k) :
    ∃ g', g.update ids ch.cols = .ok g' := by
  obtain ⟨out, ho⟩ := updateCols_runs ids g.cols ch.cols (by rw [h.width, hs.width, hch.width]) (by
    intro j std b hj hb
    have hlt : j < s.cols.length := by rw [← h.width]; exact (List.getElem?_eq_some_iff.mp hj).1
    have hl := List.getElem?_eq_getElem hlt
    have hbl := hch.height b (List.mem_of_getElem? hb)
    have hfst := zip_fst ids b (by omega)
    have hlen := hs.len _ (List.mem_of_getElem? hl)
    have hsl : (slice s.cols[j] g.start n).length = n := slice_length (by omega)
    have hmem : ∀ p ∈ ids.zip b, p.1 ∈ ids := by
      intro p hp
      rw [← hfst]; exact List.mem_map.mpr ⟨p, hp, rfl⟩
    apply (h.cols j std _ hj hl).update_runs (by omega)
    · intro e
      apply hne
      rw [← hfst, e]; rfl
    · rw [hfst]; exact hnd
    · rw [hsl]; intro p hp; exact hin _ (hmem p hp)
    · rw [hsl]
      rcases hm with hm | hm
      · exact .inl hm
      · exact .inr fun p hp => hm _ (hmem p hp))
  exact ⟨_, by unfold RowGroup.update; rw [ho]; rfl⟩

/-- A row behind all rows of its group that were updated so far. -/
theorem GroupOk.update_ub {g : RowGroup α} {s : Ideal α} {u : Nat → Bool} {n w : Nat} (h : GroupOk g s u n) (hs : s.Ok u w)
    (hn : n ≤ CAP) (hrows : g.start + n ≤ s.rows) {ids : List Nat} {ch : Chunk α} (hch : ch.For w) (hsz : ids.length = ch.size)
    (hw : 0 < w) (hnd : ids.Nodup) (hin : ∀ i ∈ ids, g.start ≤ i ∧ i < g.start + n)
    (hu : ∃ k, k < n ∧ u (g.start + k) = true) (hm : ∃ i ∈ ids, ∀ k, k < n → u (g.start + k) = true → g.start + k < i) :
    g.update ids ch.cols = .ub := by
  have hlt : 0 < s.cols.length := by rw [hs.width]; exact hw
  have hltg : 0 < g.cols.length := by rw [h.width]; exact hlt
  have hltc : 0 < ch.cols.length := by rw [hch.width]; exact hw
  have hstd := List.getElem?_eq_getElem hltg
  have hl := List.getElem?_eq_getElem hlt
  have hb := List.getElem?_eq_getElem hltc
  have hbl := hch.height _ (List.mem_of_getElem? hb)
  have hfst := zip_fst ids ch.cols[0] (by omega)
  have hlen := hs.len _ (List.mem_of_getElem? hl)
  have hsl : (slice s.cols[0] g.start n).length = n := slice_length (by omega)
  have hmem : ∀ p ∈ ids.zip ch.cols[0], p.1 ∈ ids := by
    intro p hp
    rw [← hfst]; exact List.mem_map.mpr ⟨p, hp, rfl⟩
  have hub := (h.cols 0 _ _ hstd hl).update_ub (rows := ids.zip ch.cols[0]) (by omega) (by
    intro e
    obtain ⟨i, hi, _⟩ := hm
    rw [← hfst, e] at hi
    simp at hi) (by rw [hfst]; exact hnd) (by rw [hsl]; intro p hp; exact hin _ (hmem p hp)) (by rw [hsl]; exact hu) (by
    rw [hsl]
    obtain ⟨i, hi, hi2⟩ := hm
    rw [← hfst, List.mem_map] at hi
    obtain ⟨p, hp, rfl⟩ := hi
    exact ⟨p, hp, hi2⟩)
  unfold RowGroup.update
  cases hg : g.cols with
  | nil => rw [hg] at hltg; simp at hltg
  | cons x xs =>
    cases hc : ch.cols with
    | nil => rw [hc] at hltc; simp at hltc
    | cons y ys =>
      simp only [hg, hc, List.getElem_cons_zero] at hub
      unfold updateCols
      rw [hub]
      rfl

/-- When a delete inside a group returns. -/
theorem GroupOk.delete_runs {g : RowGroup α} {s : Ideal α} {u : Nat → Bool} {n : Nat} (h : GroupOk g s u n)
    (hn : n ≤ CAP) {ids : List Nat} (hne : ids ≠ []) (hnd : ids.Nodup) (hin : ∀ i ∈ ids, g.start ≤ i ∧ i < g.start + n) :
    ((∀ i ∈ ids, s.dead i = false) → ∃ r, g.deleteRows ids = .ok r) ∧ ((∃ r, g.deleteRows ids = .ok r) ∨ g.deleteRows ids = .throws) := by
  rw [deleteRows_eq hne hn hin]
  have := h.vers.flush_runs hn (rows := ids.map (· - g.start)) (by
    apply List.Nodup.map_on _ hnd
    intro x hx y hy hxy
    have := hin x hx
    have := hin y hy
    omega) (by
    intro r hr
    rw [List.mem_map] at hr
    obtain ⟨i, hi, rfl⟩ := hr
    have := hin i hi
    omega)
  refine ⟨fun hl => this.1 ?_, this.2⟩
  intro r hr
  rw [List.mem_map] at hr
  obtain ⟨i, hi, rfl⟩ := hr
  have := hin i hi
  rw [show g.start + (i - g.start) = i by omega]
  exact hl i hi

end Verif.Table
