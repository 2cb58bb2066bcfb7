import Verif.Table.Upd
/-! Facts about a column together with its null flags. -/
namespace Verif.Table
open Verif.Mvcc (CAP)
variable {α : Type}

/-- The updated positions of a column with `n` rows from row `a` on are those marked in `u`. -/
def Marks {β : Type} (c : Col β) (a n : Nat) (u : Nat → Bool) : Prop := ∀ i, i < n → ((∃ p ∈ c.ups, p.1 = i) ↔ u (a + i) = true)

/-- A column from row `a` on with the cells `l`; `u` are the rows updated so far. -/
structure StdOk (s : Std α) (a : Nat) (l : List (Cell α)) (u : Nat → Bool) (vals : List α) (flags : List Bool) : Prop where
  data : ColOk s.data a vals
  valid : ColOk s.valid a flags
  lenD : vals.length = l.length
  lenV : flags.length = l.length
  cells : cells vals flags = l
  markD : Marks s.data a l.length u
  markV : Marks s.valid a l.length u

/-- Some values and flags make up the cells. -/
def Holds (s : Std α) (a : Nat) (l : List (Cell α)) (u : Nat → Bool) : Prop := ∃ vals flags, StdOk s a l u vals flags

theorem fixedTy_ok {β : Type} (z : β) {cap : Nat} (h : 0 < cap) : (fixedTy z cap).Ok := by
  constructor
  · intro stored batch
    simp only [fixedTy]
    omega
  · intro batch hb
    have := List.length_pos_iff.mpr hb
    simp [fixedTy, this, h]

theorem cells_append (v1 v2 : List α) (f1 f2 : List Bool) (h : v1.length = f1.length) :
    cells (v1 ++ v2) (f1 ++ f2) = cells v1 f1 ++ cells v2 f2 := by
  unfold cells
  exact List.zipWith_append h

theorem cells_split (z : α) (l : List (Cell α)) : cells (l.map fun x => x.getD z) (l.map Option.isSome) = l := by
  unfold cells
  induction l with
  | nil => rfl
  | cons x r ih =>
    rw [List.map_cons, List.map_cons, List.zipWith_cons_cons, ih]
    cases x <;> rfl

theorem cells_set (v : List α) (f : List Bool) (i : Nat) (x : α) (b : Bool) :
    cells (v.set i x) (f.set i b) = (cells v f).set i (if b then some x else none) := by
  unfold cells
  induction v generalizing f i with
  | nil => simp
  | cons y v ih =>
    cases f with
    | nil => simp
    | cons c f =>
      cases i with
      | zero => simp
      | succ i => simp [ih]

theorem cells_overlay (z : α) (rows : List (Nat × Cell α)) (v : List α) (f : List Bool) (a : Nat) :
    cells (overlay v (rel a (rows.map fun p => (p.1, p.2.getD z)))) (overlay f (rel a (rows.map fun p => (p.1, p.2.isSome)))) =
      overlay (cells v f) (rel a rows) := by
  unfold overlay rel
  induction rows generalizing v f with
  | nil => rfl
  | cons p r ih =>
    simp only [List.map_cons, List.foldl_cons]
    rw [ih, cells_set]
    congr 2
    cases p.2 <;> rfl

theorem Holds.empty {ty : ColTy α} (h : ty.Ok) {a : Nat} (ha : a < 2 ^ 62) (u : Nat → Bool) : Holds (Std.empty ty a) a [] u :=
  ⟨[], [], ColOk.empty h.1 ha, ColOk.empty (fixedTy_ok true h.2) ha, rfl, rfl, rfl, by intro i hi; simp at hi, by intro i hi; simp at hi⟩

/-- Both parts have a segment to append to. -/
def Std.Ready (s : Std α) : Prop := s.data.segs ≠ [] ∧ s.valid.segs ≠ []

theorem initAppend_ups {β : Type} (c : Col β) : c.initAppend.ups = c.ups := by
  unfold Col.initAppend
  split <;> rfl

theorem Holds.initAppend {s : Std α} {a : Nat} {l : List (Cell α)} {u : Nat → Bool} (h : Holds s a l u) :
    Holds s.initAppend a l u ∧ s.initAppend.Ready := by
  obtain ⟨vals, flags, h⟩ := h
  refine ⟨⟨vals, flags, h.data.initAppend.1, h.valid.initAppend.1, h.lenD, h.lenV, h.cells, ?_, ?_⟩, h.data.initAppend.2, h.valid.initAppend.2⟩
  · intro i hi
    unfold Std.initAppend
    rw [initAppend_ups]
    exact h.markD i hi
  · intro i hi
    unfold Std.initAppend
    rw [initAppend_ups]
    exact h.markV i hi

theorem append_ups {β : Type} {c c' : Col β} {b : List β} (h : c.append b = .ok c') : c'.ups = c.ups := by
  unfold Col.append at h
  cases hl : c.segs.getLast? with
  | none => rw [hl] at h; cases h
  | some s =>
    rw [hl] at h
    simp only at h
    generalize appendLoop c.ty (b.length + 2) c.segs.dropLast s b = r at h
    cases r <;> simp at h
    subst h
    rfl

theorem Marks.append {β : Type} {c c' : Col β} {a n m : Nat} {u : Nat → Bool} (h : Marks c a n u) (hu : c'.ups = c.ups)
    (hlt : ∀ p ∈ c.ups, p.1 < n) (hnew : ∀ i, n ≤ i → i < n + m → u (a + i) = false) : Marks c' a (n + m) u := by
  intro i hi
  rw [hu]
  by_cases hin : i < n
  · exact h i hin
  · rw [hnew i (by omega) hi]
    constructor
    · rintro ⟨p, hp, rfl⟩
      have := hlt p hp
      omega
    · simp

theorem Holds.append {s : Std α} {a : Nat} {l : List (Cell α)} {u : Nat → Bool} (h : Holds s a l u) (hr : s.Ready)
    (batch : List (Cell α)) (hb : a + l.length + batch.length < 2 ^ 62)
    (hu : ∀ i, l.length ≤ i → i < l.length + batch.length → u (a + i) = false) :
    ∃ s', s.append batch = .ok s' ∧ Holds s' a (l ++ batch) u ∧ s'.Ready := by
  obtain ⟨vals, flags, h⟩ := h
  have h1 := h.lenD
  have h2 := h.lenV
  obtain ⟨d, hd1, hd2, hd3, hd4⟩ := h.data.append hr.1 (batch.map fun x => x.getD s.data.ty.zero) (by simp; omega)
  obtain ⟨v, hv1, hv2, hv3, hv4⟩ := h.valid.append hr.2 (batch.map Option.isSome) (by simp; omega)
  refine ⟨⟨d, v⟩, ?_, ⟨_, _, hd2, hv2, by simp [h1], by simp [h2], ?_, ?_, ?_⟩, hd3, hv3⟩
  · unfold Std.append
    rw [hd1]
    simp only [Res.bind_ok]
    rw [hv1]
    rfl
  · rw [cells_append _ _ _ _ (by omega), h.cells, cells_split]
  · rw [List.length_append]
    exact h.markD.append (append_ups hd1) (by have := h.data.upd.lt; rw [h1] at this; exact this) hu
  · rw [List.length_append]
    exact h.markV.append (append_ups hv1) (by have := h.valid.upd.lt; rw [h2] at this; exact this) hu

theorem ColOk.segs_ne {β : Type} {c : Col β} {a : Nat} {vals : List β} (h : ColOk c a vals) (hv : 0 < vals.length) : c.segs ≠ [] := by
  intro e
  have := h.len
  rw [e] at this
  simp at this
  omega

theorem Holds.scan {s : Std α} {a : Nat} {l : List (Cell α)} {u : Nat → Bool} (h : Holds s a l u) (h0 : 0 < l.length)
    (hl : l.length ≤ CAP) : ∃ st, s.scan 0 (s.data.initScan, s.valid.initScan) = .ok (l, st) := by
  obtain ⟨vals, flags, h⟩ := h
  have h1 := h.lenD
  have h2 := h.lenV
  have hsd := h.data.segs_ne (by omega)
  have hsv := h.valid.segs_ne (by omega)
  unfold Std.scan
  simp only
  rw [h.data.vectorCount (by omega)]
  obtain ⟨fd, hf1, hf2⟩ := h.data.flat_ok hsd vals.length
  obtain ⟨fv, hg1, hg2⟩ := h.valid.flat_ok hsv vals.length
  rw [hf1]
  simp only [Res.bind_ok]
  have key : ∀ f, (f = false → s.data.upd = none) → ∃ st, ((s.data.scan 0 s.data.initScan vals.length f).bind fun d =>
      (s.valid.flat s.valid.initScan vals.length).bind fun fv =>
      (s.valid.scan 0 s.valid.initScan vals.length fv).map' fun w => (Table.cells d.1 w.1, (d.2, w.2))) = .ok (l, st) := by
    intro f hf
    obtain ⟨st1, hs1⟩ := h.data.scan hsd f hf
    obtain ⟨st2, hs2⟩ := h.valid.scan hsv fv hg2
    rw [hs1]
    simp only [Res.bind_ok]
    rw [hg1]
    simp only [Res.bind_ok]
    rw [h1, ← h2, hs2]
    simp only [Res.map'_ok, h.cells]
    exact ⟨_, rfl⟩
  cases fd with
  | true => exact key true (by simp)
  | false =>
    simp only [Bool.false_eq_true, if_false]
    rw [hg1, Res.bind_ok]
    have := key fv (fun _ => hf2 rfl)
    rw [hg1] at this
    exact this

theorem Holds.fetchRow {s : Std α} {a : Nat} {l : List (Cell α)} {u : Nat → Bool} (h : Holds s a l u)
    (hl : l.length ≤ CAP) {i : Nat} {x : Cell α} (hx : l[i]? = some x) : s.fetchRow (a + i) = .ok x := by
  obtain ⟨vals, flags, h⟩ := h
  have hc := h.cells
  have hx' := hx
  rw [← hc] at hx
  unfold Table.cells at hx
  rw [List.getElem?_zipWith] at hx
  unfold Std.fetchRow
  cases hv : vals[i]? with
  | none => rw [hv] at hx; simp at hx
  | some v =>
    cases hf : flags[i]? with
    | none => rw [hv, hf] at hx; simp at hx
    | some b =>
      rw [hv, hf] at hx
      simp only [Option.some.injEq] at hx
      rw [h.valid.fetchRow (by rw [h.lenV]; exact hl) hf, Res.bind_ok, h.data.fetchRow (by rw [h.lenD]; exact hl) hv, Res.map'_ok, hx]

theorem map_fst_map {β γ : Type} (rows : List (Nat × β)) (f : β → γ) :
    (rows.map fun p => (p.1, f p.2)).map Prod.fst = rows.map Prod.fst := by
  rw [List.map_map]; rfl

theorem Holds.update {s s' : Std α} {a : Nat} {l : List (Cell α)} {u : Nat → Bool} (h : Holds s a l u)
    (hl : l.length ≤ CAP) {rows : List (Nat × Cell α)} (hn : (rows.map Prod.fst).Nodup)
    (hr : ∀ p ∈ rows, a ≤ p.1 ∧ p.1 < a + l.length) (hu : s.update rows = .ok s') :
    Holds s' a (overlay l (rel a rows)) (fun i => u i || decide (i ∈ rows.map Prod.fst)) := by
  obtain ⟨vals, flags, h⟩ := h
  have h1 := h.lenD
  have h2 := h.lenV
  unfold Std.update at hu
  rw [Res.bind_ok_iff] at hu
  obtain ⟨d, hd, hu⟩ := hu
  rw [Res.map'_ok_iff] at hu
  obtain ⟨v, hv, rfl⟩ := hu
  have hr' : ∀ {β : Type} (f : Cell α → β), ∀ p ∈ rows.map fun p => (p.1, f p.2), a ≤ p.1 ∧ p.1 < a + l.length := by
    intro β f p hp
    rw [List.mem_map] at hp
    obtain ⟨q, hq, rfl⟩ := hp
    exact hr q hq
  obtain ⟨hd1, _, _, hd2⟩ := h.data.update (by omega) (by rw [map_fst_map rows fun x => x.getD s.data.ty.zero]; exact hn) (by rw [h1]; exact hr' fun x => x.getD s.data.ty.zero) hd
  obtain ⟨hv1, _, _, hv2⟩ := h.valid.update (by omega) (by rw [map_fst_map]; exact hn) (by rw [h2]; exact hr' _) hv
  refine ⟨_, _, hd1, hv1, by simp [overlay_length, h1], by simp [overlay_length, h2], ?_, ?_, ?_⟩
  · rw [cells_overlay, h.cells]
  · intro i hi
    rw [overlay_length] at hi
    rw [hd2 i, h.markD i hi]
    simp
  · intro i hi
    rw [overlay_length] at hi
    rw [hv2 i, h.markV i hi]
    simp

/-- An update returns when no row was updated before, or none lies behind the last updated one. -/
theorem Holds.update_runs {s : Std α} {a : Nat} {l : List (Cell α)} {u : Nat → Bool} (h : Holds s a l u)
    (hl : l.length ≤ CAP) {rows : List (Nat × Cell α)} (hne : rows ≠ []) (hn : (rows.map Prod.fst).Nodup)
    (hr : ∀ p ∈ rows, a ≤ p.1 ∧ p.1 < a + l.length)
    (hm : (∀ i, i < l.length → u (a + i) = false) ∨ ∀ p ∈ rows, ∃ i, i < l.length ∧ u (a + i) = true ∧ p.1 ≤ a + i) :
    ∃ s', s.update rows = .ok s' := by
  obtain ⟨vals, flags, h⟩ := h
  have h1 := h.lenD
  have h2 := h.lenV
  have hr' : ∀ {β : Type} (f : Cell α → β), ∀ p ∈ rows.map fun p => (p.1, f p.2), a ≤ p.1 ∧ p.1 < a + l.length := by
    intro β f p hp
    rw [List.mem_map] at hp
    obtain ⟨q, hq, rfl⟩ := hp
    exact hr q hq
  have key : ∀ {β : Type} (c : Col β) (f : Cell α → β), (∀ p ∈ c.ups, p.1 < l.length) → Marks c a l.length u →
      (c.ups = [] ∨ ∀ p ∈ rows.map fun p => (p.1, f p.2), ∃ q ∈ c.ups, p.1 - a ≤ q.1) := by
    intro β c f hlt hmk
    rcases hm with hm | hm
    · left
      rw [List.eq_nil_iff_forall_not_mem]
      intro q hq
      have hq1 := hlt q hq
      have := (hmk q.1 hq1).mp ⟨q, hq, rfl⟩
      rw [hm _ hq1] at this
      simp at this
    · right
      intro p hp
      rw [List.mem_map] at hp
      obtain ⟨x, hx, rfl⟩ := hp
      obtain ⟨i, hi, hui, hle⟩ := hm x hx
      obtain ⟨q, hq, rfl⟩ := (hmk i hi).mpr hui
      exact ⟨q, hq, by simp only; omega⟩
  obtain ⟨d, hd⟩ := h.data.update_runs (rows := rows.map fun p => (p.1, p.2.getD s.data.ty.zero)) (by omega)
    (by simpa using hne) (by rw [map_fst_map rows fun x => x.getD s.data.ty.zero]; exact hn) (by rw [h1]; exact hr' fun x => x.getD s.data.ty.zero)
    (key _ (fun x => x.getD s.data.ty.zero) (by have := h.data.upd.lt; rw [h1] at this; exact this) h.markD)
  obtain ⟨v, hv⟩ := h.valid.update_runs (rows := rows.map fun p => (p.1, p.2.isSome)) (by omega)
    (by simpa using hne) (by rw [map_fst_map]; exact hn) (by rw [h2]; exact hr' _)
    (key _ _ (by have := h.valid.upd.lt; rw [h2] at this; exact this) h.markV)
  unfold Std.update
  rw [hd, Res.bind_ok, hv]
  exact ⟨_, rfl⟩

/-- A row behind all rows updated so far. -/
theorem Holds.update_ub {s : Std α} {a : Nat} {l : List (Cell α)} {u : Nat → Bool} (h : Holds s a l u)
    (hl : l.length ≤ CAP) {rows : List (Nat × Cell α)} (hne : rows ≠ []) (hn : (rows.map Prod.fst).Nodup)
    (hr : ∀ p ∈ rows, a ≤ p.1 ∧ p.1 < a + l.length) (hu : ∃ i, i < l.length ∧ u (a + i) = true)
    (hm : ∃ p ∈ rows, ∀ i, i < l.length → u (a + i) = true → a + i < p.1) : s.update rows = .ub := by
  obtain ⟨vals, flags, h⟩ := h
  have h1 := h.lenD
  have hub := h.data.update_ub (rows := rows.map fun p => (p.1, p.2.getD s.data.ty.zero)) (by omega)
    (by simpa using hne) (by rw [map_fst_map rows fun x => x.getD s.data.ty.zero]; exact hn) (by
      intro p hp
      rw [List.mem_map] at hp
      obtain ⟨q, hq, rfl⟩ := hp
      rw [h1]
      exact hr q hq) (by
      intro e
      obtain ⟨i, hi, hui⟩ := hu
      obtain ⟨q, hq, _⟩ := (h.markD i hi).mpr hui
      rw [e] at hq
      simp at hq) (by
      obtain ⟨p, hp, hp2⟩ := hm
      refine ⟨_, List.mem_map.mpr ⟨p, hp, rfl⟩, ?_⟩
      intro q hq
      have hql := h.data.upd.lt q hq
      rw [h1] at hql
      have := hp2 q.1 hql ((h.markD q.1 hql).mp ⟨q, hq, rfl⟩)
      simp only
      omega)
  unfold Std.update
  rw [hub]
  rfl

end Verif.Table
