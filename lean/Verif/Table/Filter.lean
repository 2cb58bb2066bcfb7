import Verif.Table.Read
/-! Predicates on rows, and what holds after a history of calls. -/
namespace Verif.Table
open Verif.Mvcc (CAP Mgr Txn NOT_DELETED)
variable {α : Type} {tys : List (ColTy α)} {t t' : Table α} {s : Ideal α} {u : Nat → Bool}

theorem sat_eq (op : FOp) (o : Ordering) : op.holds o = op.sat o := by
  cases op <;> cases o <;> rfl

theorem Holds.check {std : Std α} {a : Nat} {l : List (Cell α)} (h : Holds std a l u) (hu : ∀ i, i < l.length → u (a + i) = false)
    {i : Nat} {x : α} (hx : l[i]? = some (some x)) (p : α → Bool) : std.data.check (a + i) p = .ok (p x) := by
  obtain ⟨vals, flags, h⟩ := h
  have hil : i < l.length := (List.getElem?_eq_some_iff.mp hx).1
  have hups : std.data.ups = [] := by
    rw [List.eq_nil_iff_forall_not_mem]
    intro q hq
    have hlt := h.data.upd.lt q hq
    rw [h.lenD] at hlt
    have := (h.markD q.1 hlt).mp ⟨q, hq, rfl⟩
    rw [hu _ hlt] at this
    cases this
  have hnode : ∀ v, updNode std.data.upd v = none := by
    intro v
    cases v with
    | zero =>
      cases hn : updNode std.data.upd 0 with
      | none => rfl
      | some b =>
        unfold Col.ups at hups
        rw [hn] at hups
        simp only [Option.getD_some] at hups
        subst hups
        exact (h.data.set hn).elim
    | succ v => exact h.data.other _ (by omega)
  have hvals : vals = flat std.data.segs := by
    rw [h.data.vals, hups]; rfl
  have hval : vals[i]? = some x := by
    rw [← h.cells] at hx
    unfold cells at hx
    rw [List.getElem?_zipWith] at hx
    cases h1 : vals[i]? with
    | none => rw [h1] at hx; simp at hx
    | some y =>
      cases h2 : flags[i]? with
      | none => rw [h1, h2] at hx; simp at hx
      | some b =>
        rw [h1, h2] at hx
        cases b <;> simp at hx
        rw [hx]
  rcases h.data.segOf (row := a + i) (by omega) with ⟨sg, hm, hs, h1, h2, h3⟩ | ⟨h1, _⟩
  · unfold Col.check
    rw [hs]
    simp only [Res.bind_ok]
    rw [hnode]
    simp only
    have hget := chain_get h.data.chain hm h1 h2
    rw [Nat.add_sub_cancel_left] at hget
    unfold Seg.at
    rw [hget, ← hvals, hval]
    rfl
  · rw [h.lenD] at h1; omega

mutual
theorem check_ok {g : RowGroup α} {n w : Nat} (cmp : α → α → Ordering) (h : GroupOk g s u n) (hs : s.Ok u w) (hst : g.start = 0)
    (hu : ∀ i, u i = false) {p : Nat} (hp : p < n) (hn : n ≤ s.rows) : ∀ f : Flt α,
    f.On (fun c => ∃ x, (s.row p)[c]? = some (some x)) → g.check cmp p f = .ok (f.holds cmp (s.row p))
  | .const col op c, hon => by
    unfold Flt.On at hon
    obtain ⟨x, hx⟩ := hon
    unfold RowGroup.check Flt.holds
    rw [hx]
    unfold Ideal.row at hx
    rw [List.getElem?_map, Option.map_eq_some_iff] at hx
    obtain ⟨l, hl, hx⟩ := hx
    have hlt : col < g.cols.length := by rw [h.width]; exact (List.getElem?_eq_some_iff.mp hl).1
    have hstd := List.getElem?_eq_getElem hlt
    rw [hstd]
    simp only
    have hh := h.cols col _ l hstd hl
    have hlen := hs.len l (List.mem_of_getElem? hl)
    have hcell : (slice l g.start n)[p]? = some (some x) := by
      rw [slice_get hp, hst, Nat.zero_add]
      cases hq : l[p]? with
      | none => rw [hq] at hx; cases hx
      | some y => rw [hq] at hx; simp at hx; rw [hx]
    have := hh.check (fun i _ => hu _) hcell (fun x => op.holds (cmp x c))
    rw [hst, Nat.zero_add] at this
    rw [this, sat_eq]
  | .and l, hon => by
    unfold Flt.On at hon
    unfold RowGroup.check Flt.holds
    exact checkAnd_ok cmp h hs hst hu hp hn l hon
  | .or l, hon => by
    unfold Flt.On at hon
    unfold RowGroup.check Flt.holds
    exact checkOr_ok cmp h hs hst hu hp hn l hon
  | .invalid, hon => by unfold Flt.On at hon; exact hon.elim
  | .null, hon => by unfold Flt.On at hon; exact hon.elim
theorem checkAnd_ok {g : RowGroup α} {n w : Nat} (cmp : α → α → Ordering) (h : GroupOk g s u n) (hs : s.Ok u w) (hst : g.start = 0)
    (hu : ∀ i, u i = false) {p : Nat} (hp : p < n) (hn : n ≤ s.rows) : ∀ l : List (Flt α),
    Flt.AllOn (fun c => ∃ x, (s.row p)[c]? = some (some x)) l → g.checkAnd cmp p l = .ok (Flt.all cmp (s.row p) l)
  | [], _ => by unfold RowGroup.checkAnd Flt.all; rfl
  | f :: fs, hon => by
    unfold Flt.AllOn at hon
    unfold RowGroup.checkAnd Flt.all
    rw [check_ok cmp h hs hst hu hp hn f hon.1, Res.bind_ok, checkAnd_ok cmp h hs hst hu hp hn fs hon.2]
    cases f.holds cmp (s.row p) <;> rfl
theorem checkOr_ok {g : RowGroup α} {n w : Nat} (cmp : α → α → Ordering) (h : GroupOk g s u n) (hs : s.Ok u w) (hst : g.start = 0)
    (hu : ∀ i, u i = false) {p : Nat} (hp : p < n) (hn : n ≤ s.rows) : ∀ l : List (Flt α),
    Flt.AllOn (fun c => ∃ x, (s.row p)[c]? = some (some x)) l → g.checkOr cmp p l = .ok (Flt.any cmp (s.row p) l)
  | [], _ => by unfold RowGroup.checkOr Flt.any; rfl
  | f :: fs, hon => by
    unfold Flt.AllOn at hon
    unfold RowGroup.checkOr Flt.any
    rw [check_ok cmp h hs hst hu hp hn f hon.1, Res.bind_ok, checkOr_ok cmp h hs hst hu hp hn fs hon.2]
    cases f.holds cmp (s.row p) <;> rfl
end

/-- A position is taken for a row id: in a later row group it lies in front of all its segments. -/
theorem check_ub {g : RowGroup α} {n w : Nat} (cmp : α → α → Ordering) (h : GroupOk g s u n) (hs : s.Ok u w) (h0 : 0 < n)
    (hrows : g.start + n ≤ s.rows) {p : Nat} (hp : p < g.start) {col : Nat} (hc : col < w) (op : FOp) (c : α) :
    g.check cmp p (.const col op c) = .ub := by
  unfold RowGroup.check
  have hlt : col < g.cols.length := by rw [h.width, hs.width]; exact hc
  have hl : col < s.cols.length := by rw [hs.width]; exact hc
  have hstd := List.getElem?_eq_getElem hlt
  rw [hstd]
  simp only
  obtain ⟨vals, flags, hh⟩ := h.cols col _ _ hstd (List.getElem?_eq_getElem hl)
  have hlen := hs.len _ (List.mem_of_getElem? (List.getElem?_eq_getElem hl))
  have hsl : (slice s.cols[col] g.start n).length = n := slice_length (by omega)
  have hne := hh.data.segs_ne (by rw [hh.lenD]; omega)
  unfold Col.check Col.segOf SegLookup.segmentIndex
  have hord := hh.data.ordered
  cases hseg : g.cols[col].data.segs with
  | nil => exact (hne hseg).elim
  | cons x xs =>
    have hch := hh.data.chain
    rw [hseg] at hch
    unfold Col.nodes at hord ⊢
    rw [hseg] at hord ⊢
    rw [List.map_cons] at hord ⊢
    rw [SegLookup.C41_row_before_first_is_ub _ _ p hord (by have := hch.1; simp only; omega)]
    rfl

/-! ### Histories -/

theorem touched_append (h : List (Call α)) (c : Call α) (i : Nat) : touched (h ++ [c]) i = (touched h i || touched [c] i) := by
  induction h with
  | nil => rfl
  | cons x h ih => cases x <;> simp [touched, ih, Bool.or_assoc]

theorem step_rows (s : Ideal α) (c : Call α) : s.rows ≤ (s.step c).rows := by
  cases c with
  | append chs => simp only [Ideal.step, rows_foldl]; omega
  | delete ids => exact le_refl _
  | update ids ch => exact le_refl _

theorem append_rgSize {chs : List (Chunk α)} (h : t.append chs = .ok t') : t'.rgSize = t.rgSize := by
  unfold Table.append at h
  simp only [Res.bind_ok_iff, Res.map'_ok_iff] at h
  obtain ⟨_, _, _, _, rfl⟩ := h
  rfl

theorem deleteLoop_rgSize : ∀ (fuel : Nat) (t : Table α) (ids : List Nat) (t' : Table α) (n : Nat), t.deleteLoop fuel ids = .ok (t', n) → t'.rgSize = t.rgSize
  | 0, _, _, _, _, h => by unfold Table.deleteLoop at h; cases h
  | f + 1, t, [], t', n, h => by unfold Table.deleteLoop at h; cases h; rfl
  | f + 1, t, id :: ids, t', n, h => by
    unfold Table.deleteLoop at h
    rw [Res.bind_ok_iff] at h
    obtain ⟨gi, _, h⟩ := h
    cases hg : t.groups[gi]? with
    | none => rw [hg] at h; cases h
    | some g =>
      rw [hg] at h
      simp only at h
      rw [Res.bind_ok_iff] at h
      obtain ⟨r, _, h⟩ := h
      rw [Res.map'_ok_iff] at h
      obtain ⟨⟨t2, m⟩, hrest, he⟩ := h
      cases he
      exact (deleteLoop_rgSize f _ _ _ _ hrest).trans rfl

theorem updateLoop_rgSize : ∀ (fuel : Nat) (t : Table α) (ids : List Nat) (cols : List (List (Cell α))) (t' : Table α),
    t.updateLoop fuel ids cols = .ok t' → t'.rgSize = t.rgSize
  | 0, _, _, _, _, h => by unfold Table.updateLoop at h; cases h
  | f + 1, t, [], _, t', h => by unfold Table.updateLoop at h; cases h; rfl
  | f + 1, t, id :: ids, cols, t', h => by
    unfold Table.updateLoop at h
    rw [Res.bind_ok_iff] at h
    obtain ⟨gi, _, h⟩ := h
    cases hg : t.groups[gi]? with
    | none => rw [hg] at h; cases h
    | some g =>
      rw [hg] at h
      simp only at h
      rw [Res.bind_ok_iff] at h
      obtain ⟨r, _, h⟩ := h
      exact (updateLoop_rgSize f _ _ _ _ h).trans rfl

/-- What holds after any history. -/
theorem After.inv (hty : ∀ ty ∈ tys, ty.Ok) {h : List (Call α)} (ha : After tys h t s) :
    s.rows < 2 ^ 62 → Inv tys t s (touched h) ∧ t.rgSize = CAP := by
  induction ha with
  | new => intro _; exact ⟨Inv.new hty, rfl⟩
  | @call h t s c t' ha hfit hstep ih =>
    intro hr
    obtain ⟨hi, hrg⟩ := ih (by have := step_rows s c; omega)
    cases c with
    | append chs =>
      obtain ⟨t2, h1, h2⟩ := hi.append hfit hr
      have : t2 = t' := by
        have : t.append chs = .ok t' := hstep
        rw [h1] at this
        exact Res.ok.inj this
      subst this
      refine ⟨?_, by rw [append_rgSize h1]; exact hrg⟩
      have : touched (h ++ [Call.append chs]) = touched h := by
        funext i; rw [touched_append]; simp [touched]
      rw [this]
      exact h2
    | delete ids =>
      have hstep' : (t.delete ids).map' Prod.fst = .ok t' := hstep
      rw [Res.map'_ok_iff] at hstep'
      obtain ⟨⟨t2, n⟩, h1, rfl⟩ := hstep'
      obtain ⟨r1, _, _⟩ := deleteLoop_sound _ _ _ _ _ _ hi h1
      refine ⟨?_, by rw [deleteLoop_rgSize _ _ _ _ _ h1]; exact hrg⟩
      have : touched (h ++ [Call.delete ids]) = touched h := by
        funext i; rw [touched_append]; simp [touched]
      rw [this]
      exact r1
    | update ids ch =>
      obtain ⟨hf1, hf2, hf3⟩ := hfit
      have hstep' : t.update ids ch = .ok t' := hstep
      refine ⟨?_, ?_⟩
      · have : touched (h ++ [Call.update ids ch]) = marked (touched h) ids := by
          funext i; rw [touched_append]; simp [touched, marked]
        rw [this]
        exact (hi.update hf1 hf3 hf2 hstep').1
      · unfold Table.update at hstep'
        split at hstep'
        · cases hstep'; exact hrg
        · split at hstep'
          · cases hstep'
          · rw [updateLoop_rgSize _ _ _ _ _ hstep']; exact hrg

end Verif.Table
