import Verif.Table.Filter
/-!
C61–C66: columnar tables (`data_table_t`). `After tys h t s` says: the calls `h` on a new table all
returned, they left the table `t`, and `s` is what its user expects (`Verif.Table.Spec`). Row
numbers are below `2 ^ 62`, as the code's `MAX_ROW_ID` demands.
-/
namespace Verif.Table
open Verif.Mvcc (CAP Mgr Txn NOT_DELETED)
variable {α : Type} {tys : List (ColTy α)} {t t' : Table α} {s : Ideal α} {h : List (Call α)}

/-! ## C61: a scan returns what is there -/

/-- **C61**: after every history of appends, deletes and updates, reading the table to its end returns
every row that is left exactly once and in order, with its row id and the cells last written to it,
in chunks of 1 to 1024 rows. -/
theorem C61_scan_returns_all (cmp : α → α → Ordering) (hty : ∀ ty ∈ tys, ty.Ok) (ha : After tys h t s) (hr : s.rows < 2 ^ 62)
    (refs : List Nat) (hrefs : ∀ j ∈ refs, j < tys.length) :
    ∃ outs, t.read cmp refs none = .ok outs ∧ Reads s s.live refs outs := by
  obtain ⟨outs, h1, h2⟩ := (ha.inv hty hr).1.read cmp hrefs (flt := none) (P := fun _ => true) (fun g _ p _ _ => rfl)
  refine ⟨outs, h1, ?_⟩
  have : (s.live.filter fun _ => true) = s.live := by simp
  rw [this] at h2
  exact h2

/-- **C61**, appending: every append of chunks that fit the table returns, whatever happened before. -/
theorem C61_append_returns (hty : ∀ ty ∈ tys, ty.Ok) (ha : After tys h t s) (chs : List (Chunk α))
    (hch : ∀ ch ∈ chs, ch.For tys.length) (hr : (s.step (.append chs)).rows < 2 ^ 62) :
    ∃ t', t.append chs = .ok t' ∧ After tys (h ++ [.append chs]) t' (s.step (.append chs)) := by
  obtain ⟨t', h1, _⟩ := (ha.inv hty (by have := step_rows s (.append chs); omega)).1.append hch hr
  exact ⟨t', h1, .call ha hch h1⟩

/-- Integers, two to a segment; null flags, eight to a segment. -/
def exTy : ColTy Int := ⟨fixedTy 0 2, 8⟩

theorem exTy_ok : ∀ ty ∈ [exTy], ty.Ok := by
  intro ty hty
  rw [List.mem_singleton] at hty
  subst hty
  exact ⟨fixedTy_ok 0 (by omega), by decide⟩

/-- Three rows: 5, NULL, 7. -/
def exChunk : Chunk Int := ⟨3, [[some 5, none, some 7]]⟩

theorem exChunk_for : ∀ ch ∈ [exChunk], ch.For [exTy].length := by
  intro ch hch
  rw [List.mem_singleton] at hch
  subst hch
  exact ⟨rfl, by decide⟩

/-- The table with these rows. -/
theorem exAfter : ∃ t, After [exTy] [.append [exChunk]] t ⟨3, [[some 5, none, some 7]], fun _ => false⟩ ∧
    (Table.create [exTy]).append [exChunk] = .ok t := by
  obtain ⟨t, h1, h2⟩ := C61_append_returns exTy_ok .new [exChunk] exChunk_for (by decide)
  exact ⟨t, h2, h1⟩

/-- The hypotheses are met: three rows, one of them NULL, over two segments. -/
example : ∃ t outs, (Table.create [exTy]).append [exChunk] = .ok t ∧ t.read compare [0] none = .ok outs ∧
    Reads ⟨3, [[some 5, none, some 7]], fun _ => false⟩ [0, 1, 2] [0] outs := by
  obtain ⟨t, h1, h2⟩ := exAfter
  obtain ⟨outs, h3, h4⟩ := C61_scan_returns_all compare exTy_ok h1 (by decide) [0] (by decide)
  exact ⟨t, outs, h2, h3, h4⟩

/-! ## C62: deleting rows -/

/-- **C62**, what a delete does: when it returns, all ids were ids of rows that were there, the rows
with these ids are gone and no others (`After` with `Ideal.step`, read with C61), and the returned
number is the number of rows that are gone. -/
theorem C62_delete (hty : ∀ ty ∈ tys, ty.Ok) (ha : After tys h t s) (hr : s.rows < 2 ^ 62) (ids : List Nat) {n : Nat}
    (hd : t.delete ids = .ok (t', n)) :
    After tys (h ++ [.delete ids]) t' (s.delete ids) ∧ (∀ i ∈ ids, i ∈ s.live) ∧
      (∀ i, i ∈ (s.delete ids).live ↔ i ∈ s.live ∧ i ∉ ids) ∧ n + (s.delete ids).live.length = s.live.length := by
  obtain ⟨_, h2, h3⟩ := deleteLoop_sound _ _ _ _ _ _ (ha.inv hty hr).1 hd
  refine ⟨.call ha trivial (by show (t.delete ids).map' Prod.fst = _; rw [hd]; rfl), h2, ?_, by omega⟩
  intro i
  rw [mem_live, mem_live]
  unfold Ideal.delete
  simp only [Bool.or_eq_false_iff, decide_eq_false_iff_not]
  exact and_assoc.symm

/-- **C62**, when a delete returns: for distinct ids of rows that are there it does. -/
theorem C62_delete_returns (hty : ∀ ty ∈ tys, ty.Ok) (ha : After tys h t s) (hr : s.rows < 2 ^ 62) (ids : List Nat)
    (hnd : ids.Nodup) (hl : ∀ i ∈ ids, i ∈ s.live) : ∃ t', t.delete ids = .ok (t', ids.length) := by
  obtain ⟨⟨t', n⟩, h1⟩ := (deleteLoop_runs _ _ _ _ (ha.inv hty hr).1 hnd (Nat.lt_succ_self _)).1 hl
  have h2 := (C62_delete hty ha hr ids h1).2.2.2
  have h3 := delete_live hnd (fun _ => Iff.rfl) hl
  have : n = ids.length := by omega
  subst this
  exact ⟨t', h1⟩

/-- **C62**, unknown rows: with distinct ids of which one is not the id of a row that is there, the
delete throws. -/
theorem C62_unknown_row_throws (hty : ∀ ty ∈ tys, ty.Ok) (ha : After tys h t s) (hr : s.rows < 2 ^ 62) (ids : List Nat)
    (hnd : ids.Nodup) {i : Nat} (hi : i ∈ ids) (hgone : i ∉ s.live) : t.delete ids = .throws := by
  rcases (deleteLoop_runs _ _ _ _ (ha.inv hty hr).1 hnd (Nat.lt_succ_self _)).2 with ⟨⟨t', n⟩, h1⟩ | h1
  · exact (hgone ((C62_delete hty ha hr ids h1).2.1 i hi)).elim
  · exact h1

/-- The hypotheses are met: delete the NULL row, then try it again. -/
example : ∃ t t', (Table.create [exTy]).append [exChunk] = .ok t ∧ t.delete [1] = .ok (t', 1) ∧ t'.delete [1] = .throws := by
  obtain ⟨t, h1, h2⟩ := exAfter
  obtain ⟨t', h3⟩ := C62_delete_returns exTy_ok h1 (by decide) [1] (by decide) (by decide)
  exact ⟨t, t', h2, h3, C62_unknown_row_throws exTy_ok (C62_delete exTy_ok h1 (by decide) [1] h3).1 (by decide) [1] (by decide)
    (i := 1) (by simp) (by decide)⟩

/-- More than 1024 ids of the same row group (only possible with repetitions) overrun the buffer of
the delete, row_group.cpp:472 and 579. -/
theorem C62_repeated_ids_are_ub (hty : ∀ ty ∈ tys, ty.Ok) (ha : After tys h t s) (hr : s.rows < 2 ^ 62) {i : Nat} (hi : i < s.rows)
    {k : Nat} (hk : 1024 < k) : t.delete (List.replicate k i) = .ub := by
  obtain ⟨k, rfl⟩ : ∃ m, k = m + 1 := ⟨k - 1, by omega⟩
  have hinv := (ha.inv hty hr).1
  unfold Table.delete
  rw [List.replicate_succ]
  unfold Table.deleteLoop
  rcases hinv.groupOf i with ⟨gi, g, h1, h2, h3, h4, _⟩ | ⟨_, h1⟩
  swap
  · omega
  rw [h1, Res.bind_ok, h2]
  simp only
  rw [List.takeWhile_eq_self_iff.mpr (by
    intro x hx
    rw [List.mem_replicate] at hx
    rw [hx.2]
    simp [h3, h4])]
  have hg := hinv.groups g (List.mem_of_getElem? h2)
  rw [deleteRows_eq (n := g.count) (by simp) (by have := hinv.le; omega) (by
    intro x hx
    rw [← List.replicate_succ, List.mem_replicate] at hx
    rw [hx.2]
    exact ⟨h3, h4⟩)]
  unfold RowGroup.flush
  rw [if_pos (by simp [CAP]; omega)]
  rfl

/-! ## C63: updating rows -/

/-- **C63**, what an update does: when it returns, the rows with the given ids have the new cells in
all columns and nothing else changed (`After` with `Ideal.step`, read with C61). -/
theorem C63_update (hty : ∀ ty ∈ tys, ty.Ok) (ha : After tys h t s) (hr : s.rows < 2 ^ 62) (ids : List Nat) (ch : Chunk α)
    (hch : ch.For tys.length) (hsz : ids.length = ch.size) (hnd : ids.Nodup) (hu : t.update ids ch = .ok t') :
    After tys (h ++ [.update ids ch]) t' (s.update ids ch) ∧ (∀ i ∈ ids, i < s.rows) ∧ (s.update ids ch).live = s.live ∧
      ∀ (j : Nat) (l new l' : List (Cell α)), s.cols[j]? = some l → ch.cols[j]? = some new → (s.update ids ch).cols[j]? = some l' →
        (∀ k, k < ids.length → l'[ids[k]?.getD 0]? = new[k]?) ∧ ∀ i, i ∉ ids → l'[i]? = l[i]? := by
  have h2 := ((ha.inv hty hr).1.update hch hsz hnd hu).2
  refine ⟨.call ha ⟨hch, hnd, hsz⟩ hu, h2, rfl, ?_⟩
  intro j l new l' hl hnew hl'
  have hok := (ha.inv hty hr).1.ok
  obtain ⟨l0, b, e1, e2, rfl⟩ := update_col hl'
  rw [hl] at e1
  cases e1
  rw [hnew] at e2
  cases e2
  have hlen := hok.len l (List.mem_of_getElem? hl)
  have hnl := hch.height new (List.mem_of_getElem? hnew)
  have key : ∀ (ids : List Nat) (new : List (Cell α)) (l : List (Cell α)), ids.Nodup → ids.length = new.length → (∀ i ∈ ids, i < l.length) →
      (∀ k, k < ids.length → (overlay l (ids.zip new))[ids[k]?.getD 0]? = new[k]?) ∧
        ∀ i, i ∉ ids → (overlay l (ids.zip new))[i]? = l[i]? := by
    intro ids
    induction ids with
    | nil => intro new l _ _ _; exact ⟨by simp, by intro i _; rfl⟩
    | cons x xs ih =>
      intro new l hn hle hlt
      cases new with
      | nil => simp at hle
      | cons y ys =>
        rw [List.nodup_cons] at hn
        obtain ⟨p1, p2⟩ := ih ys (l.set x y) hn.2 (by simpa using hle) (by intro i hi; rw [List.length_set]; exact hlt i (by simp [hi]))
        have he : overlay l ((x :: xs).zip (y :: ys)) = overlay (l.set x y) (xs.zip ys) := rfl
        rw [he]
        constructor
        · intro k hk
          cases k with
          | zero =>
            have hx := hlt x (by simp)
            simp only [List.getElem?_cons_zero, Option.getD_some]
            rw [p2 x hn.1, List.getElem?_set_self hx]
          | succ k => simpa using p1 k (by simpa using hk)
        · intro i hi
          rw [List.mem_cons, not_or] at hi
          rw [p2 i hi.2, List.getElem?_set_ne (fun e => hi.1 e.symm)]
  exact key ids new l hnd (by omega) (fun i hi => by rw [hlen]; exact h2 i hi)

/-- The full C63 claim: an update of distinct rows that are there returns. -/
def C63_update_returns_claim (α : Type) : Prop :=
  ∀ (tys : List (ColTy α)) (h : List (Call α)) (t : Table α) (s : Ideal α), (∀ ty ∈ tys, ty.Ok) → After tys h t s → s.rows < 2 ^ 62 →
    ∀ (ids : List Nat) (ch : Chunk α), ch.For tys.length → ids.length = ch.size → ids.Nodup → (∀ i ∈ ids, i ∈ s.live) →
      ∃ t', t.update ids ch = .ok t'

/-- **C63, partial**: an update of existing rows, given in ascending order, returns if for each of
them no row of the same block of 1024 rows was updated before, or one with the same or a larger id
was. Missing: the other updates (see below), ids in another order. -/
theorem C63_update_returns_partial (hty : ∀ ty ∈ tys, ty.Ok) (ha : After tys h t s) (hr : s.rows < 2 ^ 62) (ids : List Nat) (ch : Chunk α)
    (hch : ch.For tys.length) (hsz : ids.length = ch.size) (hasc : ids.Pairwise (· < ·)) (hex : ∀ i ∈ ids, i < s.rows)
    (hopen : ∀ i ∈ ids, (∀ k, k / 1024 = i / 1024 → touched h k = false) ∨ ∃ k, k / 1024 = i / 1024 ∧ touched h k = true ∧ i ≤ k) :
    ∃ t', t.update ids ch = .ok t' := by
  obtain ⟨hi, hrg⟩ := ha.inv hty hr
  unfold Table.update
  split
  · exact ⟨t, rfl⟩
  · rw [if_neg (by omega), List.take_of_length_le (by omega)]
    exact (updateLoop_runs _ _ _ _ _ _ hi hrg hch hsz hasc (by omega) hex).1 hopen

/-- **C63 fails**, in every table: an update of a row is undefined behaviour if rows of its block of
1024 rows were updated before and all of them have smaller ids. -/
theorem C63_update_behind_is_ub (hty : ∀ ty ∈ tys, ty.Ok) (hw : 0 < tys.length) (ha : After tys h t s) (hr : s.rows < 2 ^ 62) (i : Nat)
    (ch : Chunk α) (hch : ch.For tys.length) (hsz : ch.size = 1) (hex : i < s.rows)
    (hsome : ∃ k, k / 1024 = i / 1024 ∧ touched h k = true) (hall : ∀ k, k / 1024 = i / 1024 → touched h k = true → k < i) :
    t.update [i] ch = .ub := by
  obtain ⟨hi, hrg⟩ := ha.inv hty hr
  unfold Table.update
  rw [if_neg (by omega), if_neg (by simp; omega), hsz]
  refine (updateLoop_runs _ _ _ _ _ ch hi hrg hch (by simp [hsz]) (by simp) (by simp) (by simpa using hex)).2 ⟨i, by simp, ?_⟩ hw
  rintro (ho | ⟨k, k1, k2, k3⟩)
  · obtain ⟨k, k1, k2⟩ := hsome
    rw [ho k k1] at k2
    cases k2
  · have := hall k k1 k2
    omega

/-- **C63 fails**: after row 1 was updated, an update of row 2 is undefined behaviour. -/
theorem C63_update_returns_fails : ¬ C63_update_returns_claim Int := by
  intro hc
  obtain ⟨t, h1, h2⟩ := exAfter
  have hch : (⟨1, [[some 9]]⟩ : Chunk Int).For [exTy].length := ⟨rfl, by decide⟩
  obtain ⟨t', h3⟩ := C63_update_returns_partial exTy_ok h1 (by decide) [1] ⟨1, [[some 9]]⟩ hch rfl (by simp) (by decide)
    (fun i _ => .inl fun k _ => rfl)
  have h4 := (C63_update exTy_ok h1 (by decide) [1] _ hch rfl (by simp) h3).1
  obtain ⟨t2, h5⟩ := hc _ _ _ _ exTy_ok h4 (by decide) [2] ⟨1, [[some 9]]⟩ hch rfl (by simp) (by decide)
  rw [C63_update_behind_is_ub exTy_ok (by decide) h4 (by decide) 2 _ hch rfl (by decide) ⟨1, rfl, rfl⟩ (by
    intro k _ hk
    simp [touched] at hk
    omega)] at h5
  cases h5

/-- The hypotheses of the partial theorem are met: row 1, then rows 0 and 1. -/
example : ∃ t t' t'', (Table.create [exTy]).append [exChunk] = .ok t ∧ t.update [1] ⟨1, [[some 9]]⟩ = .ok t' ∧
    t'.update [0, 1] ⟨2, [[none, some 8]]⟩ = .ok t'' ∧
    After [exTy] [.append [exChunk], .update [1] ⟨1, [[some 9]]⟩, .update [0, 1] ⟨2, [[none, some 8]]⟩] t''
      ⟨3, [[none, some 8, some 7]], fun _ => false⟩ := by
  obtain ⟨t, h1, h2⟩ := exAfter
  have hch : (⟨1, [[some 9]]⟩ : Chunk Int).For [exTy].length := ⟨rfl, by decide⟩
  have hch2 : (⟨2, [[none, some 8]]⟩ : Chunk Int).For [exTy].length := ⟨rfl, by decide⟩
  obtain ⟨t', h3⟩ := C63_update_returns_partial exTy_ok h1 (by decide) [1] ⟨1, [[some 9]]⟩ hch rfl (by simp) (by decide)
    (fun i _ => .inl fun k _ => rfl)
  have h4 := (C63_update exTy_ok h1 (by decide) [1] _ hch rfl (by simp) h3).1
  obtain ⟨t'', h5⟩ := C63_update_returns_partial exTy_ok h4 (by decide) [0, 1] ⟨2, [[none, some 8]]⟩ hch2 rfl (by simp) (by decide)
    (fun i hi => .inr ⟨1, by rw [List.mem_cons, List.mem_singleton] at hi; rcases hi with rfl | rfl <;> rfl, rfl, by
      rw [List.mem_cons, List.mem_singleton] at hi; omega⟩)
  exact ⟨t, t', t'', h2, h3, h5, (C63_update exTy_ok h4 (by decide) [0, 1] _ hch2 rfl (by simp) h5).1⟩

/-! ## C64: scans with a filter -/

/-- The full C64 claim: a scan with a filter returns the rows that are left and satisfy it. -/
def C64_filter_claim (α : Type) : Prop :=
  ∀ (cmp : α → α → Ordering) (tys : List (ColTy α)) (h : List (Call α)) (t : Table α) (s : Ideal α), (∀ ty ∈ tys, ty.Ok) →
    After tys h t s → s.rows < 2 ^ 62 → ∀ (refs : List Nat) (f : Flt α), (∀ j ∈ refs, j < tys.length) → f.On (· < tys.length) →
      ∃ outs, t.read cmp refs (some f) = .ok outs ∧ Reads s (s.live.filter fun i => f.holds cmp (s.row i)) refs outs

/-- **C64, partial**: the claim holds for tables of at most 1024 rows of which none was updated, if
the columns the filter names are not NULL in the rows that are left. Missing: larger tables,
updated tables and NULLs, for which it is false, see below. -/
theorem C64_filter_partial (cmp : α → α → Ordering) (hty : ∀ ty ∈ tys, ty.Ok) (ha : After tys h t s) (hr : s.rows ≤ 1024)
    (hu : ∀ i, touched h i = false) (refs : List Nat) (hrefs : ∀ j ∈ refs, j < tys.length) (f : Flt α)
    (hf : ∀ i ∈ s.live, f.On fun c => ∃ x, (s.row i)[c]? = some (some x)) :
    ∃ outs, t.read cmp refs (some f) = .ok outs ∧ Reads s (s.live.filter fun i => f.holds cmp (s.row i)) refs outs := by
  obtain ⟨hi, hrg⟩ := ha.inv hty (by omega)
  apply hi.read cmp hrefs
  intro g hg p hp hlive
  obtain ⟨gi, hgi⟩ := List.getElem?_of_mem hg
  have hst := gchain_start hi.chain hi.full hgi
  have hb := gchain_bounds hi.chain g hg
  have h0 : g.start = 0 := by
    rw [hrg] at hst
    unfold CAP at hst
    omega
  rw [h0, Nat.zero_add] at hlive ⊢
  refine check_ok cmp (hi.groups g hg).1 hi.ok h0 hu hp (by omega) f (hf p (mem_live.mpr ⟨by omega, by simpa using hlive⟩))

/-- The hypotheses are met: after the NULL row is deleted, `5 < x` leaves row 2. -/
example : ∃ t t' outs, (Table.create [exTy]).append [exChunk] = .ok t ∧ t.delete [1] = .ok (t', 1) ∧
    t'.read compare [0] (some (.and [.const 0 .gt 5])) = .ok outs ∧ outs.flatMap Out.ids = [2] := by
  obtain ⟨t, h1, h2⟩ := exAfter
  obtain ⟨t', h3⟩ := C62_delete_returns exTy_ok h1 (by decide) [1] (by decide) (by decide)
  have h4 := (C62_delete exTy_ok h1 (by decide) [1] h3).1
  obtain ⟨outs, h5, h6⟩ := C64_filter_partial compare exTy_ok h4 (by decide) (fun _ => rfl) [0] (by decide) (.and [.const 0 .gt 5]) (by
    intro i hi
    have : (Ideal.delete (⟨3, [[some 5, none, some 7]], fun _ => false⟩ : Ideal Int) [1]).live = [0, 2] := by decide
    rw [this, List.mem_cons, List.mem_singleton] at hi
    simp only [Flt.On, Flt.AllOn, and_true]
    rcases hi with rfl | rfl
    · exact ⟨5, rfl⟩
    · exact ⟨7, rfl⟩)
  refine ⟨t, t', outs, h2, h3, h5, ?_⟩
  rw [h6.ids]
  decide

/-- **C64 fails** for NULL: the value stored in its place is compared. A scan for `x = 0` returns the
row with the NULL. -/
theorem C64_filter_null_fails : ¬ C64_filter_claim Int := by
  intro hc
  obtain ⟨t, h1, h2⟩ := exAfter
  obtain ⟨outs, h3, h4⟩ := hc compare [exTy] _ t _ exTy_ok h1 (by decide) [0] (.const 0 .eq 0) (by decide) Nat.one_pos
  have hrun : ((Table.create [exTy]).append [exChunk]).bind (fun t => t.read compare [0] (some (.const 0 .eq 0))) = .ok [⟨[1], [[none]]⟩] := by rfl
  rw [h2, Res.bind_ok, h3] at hrun
  cases hrun
  have := h4.ids
  revert this
  decide

/-- **C64 fails** after an update: the old values are compared. After row 1 was set to 9, a scan for
`x = 9` returns nothing. -/
theorem C64_filter_after_update_fails : ¬ C64_filter_claim Int := by
  intro hc
  obtain ⟨t, h1, h2⟩ := exAfter
  have hch : (⟨1, [[some 9]]⟩ : Chunk Int).For [exTy].length := ⟨rfl, by decide⟩
  obtain ⟨t', h3⟩ := C63_update_returns_partial exTy_ok h1 (by decide) [1] ⟨1, [[some 9]]⟩ hch rfl (by simp) (by decide)
    (fun i _ => .inl fun k _ => rfl)
  have h4 := (C63_update exTy_ok h1 (by decide) [1] _ hch rfl (by simp) h3).1
  obtain ⟨outs, h5, h6⟩ := hc compare [exTy] _ t' _ exTy_ok h4 (by decide) [0] (.const 0 .eq 9) (by decide) Nat.one_pos
  have hrun : ((Table.create [exTy]).append [exChunk]).bind (fun t => (t.update [1] ⟨1, [[some 9]]⟩).bind fun t =>
      t.read compare [0] (some (.const 0 .eq 9))) = .ok [] := by rfl
  rw [h2, Res.bind_ok, h3, Res.bind_ok, h5] at hrun
  cases hrun
  have := h6.ids
  revert this
  decide

/-- **C64 fails** in every table with more than one row group: once the rows of the first group are
gone, a comparison with any column is undefined behaviour, because the position in the chunk is
taken for a row id. -/
theorem C64_filter_second_group_is_ub (cmp : α → α → Ordering) (hty : ∀ ty ∈ tys, ty.Ok) (ha : After tys h t s) (hr : s.rows < 2 ^ 62)
    (hgone : ∀ i, i < 1024 → s.dead i = true) {k : Nat} (hk : k < 1024) (hrow : 1024 + k < s.rows) (hlive : s.dead (1024 + k) = false)
    {refs : List Nat} (hrefs : ∀ j ∈ refs, j < tys.length) {col : Nat} (hcol : col < tys.length) (op : FOp) (c : α) :
    t.read cmp refs (some (.const col op c)) = .ub := by
  obtain ⟨hi, hrg⟩ := ha.inv hty hr
  -- the first two row groups
  obtain ⟨g0, g1, rest, hgs⟩ : ∃ g0 g1 rest, t.groups = g0 :: g1 :: rest := by
    cases hg : t.groups with
    | nil => have := hi.chain; rw [hg] at this; have : 0 = s.rows := this; omega
    | cons a l =>
      cases l with
      | nil =>
        have hc := hi.chain
        rw [hg] at hc
        have : 0 + a.count = s.rows := hc.2
        have := (hi.groups a (by rw [hg]; simp)).2
        rw [hrg] at this
        unfold CAP at this
        omega
      | cons b l => exact ⟨a, b, l, rfl⟩
  have hm0 : g0 ∈ t.groups := by rw [hgs]; simp
  have hm1 : g1 ∈ t.groups := by rw [hgs]; simp
  have hc := hi.chain
  rw [hgs] at hc
  have hs0 : g0.start = 0 := hc.1
  have hs1 : g1.start = 0 + g0.count := hc.2.1
  have hf0 : g0.count = 1024 := by
    have := hi.full g0 (by rw [hgs]; simp)
    rw [this, hrg]; rfl
  have hle1 : g1.count ≤ CAP := by have := (hi.groups g1 hm1).2; rw [hrg] at this; exact this
  have hb0 := gchain_bounds hi.chain g0 hm0
  have hb1 := gchain_bounds hi.chain g1 hm1
  have hk1 : k < g1.count := by
    by_contra hge
    cases hrest : rest with
    | nil =>
      rw [hrest] at hc
      have : 0 + g0.count + g1.count = s.rows := hc.2.2
      omega
    | cons x xs =>
      have := hi.full g1 (by rw [hgs, hrest]; simp)
      rw [hrg] at this
      unfold CAP at this
      omega
  unfold Table.read Table.initScan
  rw [hgs]
  unfold findFirst
  obtain ⟨st0, a1, a2, a3, a4, a5, a6⟩ := initScan_ok hi hrefs hm0 (st := ⟨none, 0, 0, [], s.rows⟩) rfl (by omega) 0
  rw [hi.total, a1]
  simp only [Res.bind_ok, if_true]
  unfold Table.scanMany Table.scan
  rw [hgs]
  simp only [List.length_cons]
  unfold Table.scanLoop
  simp only [a2, hgs, List.getElem?_cons_zero]
  -- nothing is left in the first group
  obtain ⟨st1, o, b1, b2, b3, b4, b5, b6⟩ := (hi.groups g0 hm0).1.scan cmp hi.ok (by omega) (by rw [hf0]; exact le_refl _) hb0.2
    (flt := some (.const col op c)) (P := fun _ => true) (by
      intro p hp hl
      simp [hs0, hgone p (by omega)] at hl) hrefs a6 a3 a4 (st0.maxRow / CAP)
  have hr0 : g0.scan cmp refs (some (.const col op c)) (rounds st0.maxRow) st0 = .ok (st1, o) := b1
  have hempty : o.ids = [] := by
    rw [b2.ids]
    unfold rowsIn
    rw [List.map_eq_nil_iff, List.filter_eq_nil_iff]
    intro i hi'
    rw [List.mem_range] at hi'
    simp [hs0, hgone i (by omega)]
  rw [hr0]
  simp only [Res.bind_ok, hempty, ne_eq, not_true, if_false]
  rw [a5, if_neg (by omega)]
  -- on to the second group
  obtain ⟨st2, d1, d2, d3, d4, d5, d6⟩ := initScan_ok hi hrefs hm1 (st := st1) (by rw [b6]; exact a5) (by omega) 1
  have hn : nextGroup refs (List.drop (0 + 1) (g0 :: g1 :: rest)) (0 + 1) st1 = .ok st2 := by
    simp only [Nat.zero_add, List.drop_succ_cons, List.drop_zero]
    unfold nextGroup
    rw [b6, a5, if_neg (by omega), d1]
    rfl
  rw [hn]
  simp only [Res.bind_ok]
  unfold Table.scanLoop
  simp only [d2, hgs, List.getElem?_cons_succ, List.getElem?_cons_zero]
  have hub : g1.scan cmp refs (some (.const col op c)) (rounds st2.maxRow) st2 = .ub := by
    unfold rounds RowGroup.scan
    rw [d3, d4, if_neg (by omega)]
    simp only [Nat.zero_mul, Nat.sub_zero]
    rw [Nat.min_eq_right hle1]
    obtain ⟨sel, e1, e2, e3⟩ := (hi.groups g1 hm1).1.vers.select hle1
    rw [e1, Res.bind_ok]
    have hmem : k ∈ (List.range g1.count).filter fun i => !s.dead (g1.start + i) := by
      rw [List.mem_filter, List.mem_range]
      refine ⟨hk1, ?_⟩
      rw [hs1, hf0, Nat.zero_add, hlive]
      rfl
    rw [if_neg (by
      rw [e3]
      intro hz
      rw [List.length_eq_zero_iff] at hz
      rw [hz] at hmem
      simp at hmem)]
    unfold RowGroup.positions
    simp only
    rw [e2]
    cases hlist : (List.range g1.count).filter fun i => !s.dead (g1.start + i) with
    | nil => rw [hlist] at hmem; simp at hmem
    | cons p ps =>
      unfold RowGroup.filter
      have hp : p < g1.count := by
        have : p ∈ (List.range g1.count).filter fun i => !s.dead (g1.start + i) := by rw [hlist]; simp
        exact List.mem_range.mp (List.mem_filter.mp this).1
      rw [check_ub cmp (hi.groups g1 hm1).1 hi.ok (by omega) hb1.2 (by unfold CAP at hle1; omega) hcol op c]
      rfl
  rw [hub]
  rfl

/-- Such a table: 1025 rows, of which the first 1024 are deleted. -/
example : ∃ t t', (Table.create [exTy]).append [⟨1025, [List.replicate 1025 (some 5)]⟩] = .ok t ∧ t.delete (List.range 1024) = .ok (t', 1024) ∧
    t'.read compare [0] (some (.const 0 .eq 5)) = .ub := by
  have hch : ∀ ch ∈ [(⟨1025, [List.replicate 1025 (some 5)]⟩ : Chunk Int)], ch.For [exTy].length := by
    intro ch hm
    rw [List.mem_singleton] at hm
    subst hm
    refine ⟨rfl, ?_⟩
    intro c hc
    rw [List.mem_singleton] at hc
    subst hc
    exact List.length_replicate
  obtain ⟨t, h1, h2⟩ := C61_append_returns exTy_ok .new _ hch (by
    simp only [Ideal.step, List.foldl_cons, List.foldl_nil, Ideal.append, Ideal.empty]; omega)
  have hrows : (Ideal.step (Ideal.empty [exTy].length) (.append [(⟨1025, [List.replicate 1025 (some 5)]⟩ : Chunk Int)])).rows = 1025 := rfl
  obtain ⟨t', h3⟩ := C62_delete_returns exTy_ok h2 (by omega) (List.range 1024) List.nodup_range (by
    intro i hi
    rw [List.mem_range] at hi
    exact mem_live.mpr ⟨by omega, rfl⟩)
  rw [List.length_range] at h3
  refine ⟨t, t', h1, h3, ?_⟩
  have h4 := (C62_delete exTy_ok h2 (by omega) _ h3).1
  refine C64_filter_second_group_is_ub compare exTy_ok h4 ?_ ?_ (k := 0) (by omega) ?_ ?_ (by decide) (by decide) .eq 5
  · show (1025 : Nat) < _; omega
  · intro i hi
    simp only [Ideal.delete, Bool.or_eq_true, decide_eq_true_eq, List.mem_range]
    exact .inr hi
  · show (1024 : Nat) + 0 < 1025; omega
  · simp only [Ideal.delete, Bool.or_eq_false_iff, decide_eq_false_iff_not, List.mem_range]
    exact ⟨rfl, by omega⟩

/-! ## C65: rows by id -/

/-- **C65**: fetching rows by id returns, in the order of the ids, the current cells of the rows with
these ids; ids no row ever had are skipped. -/
theorem C65_fetch (hty : ∀ ty ∈ tys, ty.Ok) (ha : After tys h t s) (hr : s.rows < 2 ^ 62) (refs : List Nat)
    (hrefs : ∀ j ∈ refs, j < tys.length) (ids : List Nat) :
    ∃ rows, t.fetch refs ids = .ok rows ∧ rows.map (fun r => r.map some) =
      (ids.filter fun i => decide (i < s.rows)).map fun i => refs.map fun j => (s.cols[j]?).bind fun l => l[i]? :=
  (ha.inv hty hr).1.fetch hrefs ids

/-- The full C65 claim: only rows that are left are returned. -/
def C65_fetch_live_claim (α : Type) : Prop :=
  ∀ (tys : List (ColTy α)) (h : List (Call α)) (t : Table α) (s : Ideal α), (∀ ty ∈ tys, ty.Ok) → After tys h t s → s.rows < 2 ^ 62 →
    ∀ (refs ids : List Nat), (∀ j ∈ refs, j < tys.length) →
      ∃ rows, t.fetch refs ids = .ok rows ∧ rows.map (fun r => r.map some) =
        (ids.filter fun i => decide (i ∈ s.live)).map fun i => refs.map fun j => (s.cols[j]?).bind fun l => l[i]?

/-- **C65, partial**: the claim holds for ids of rows that were not deleted. Missing: deleted rows, for
which it is false. -/
theorem C65_fetch_live_partial (hty : ∀ ty ∈ tys, ty.Ok) (ha : After tys h t s) (hr : s.rows < 2 ^ 62) (refs : List Nat)
    (hrefs : ∀ j ∈ refs, j < tys.length) (ids : List Nat) (hids : ∀ i ∈ ids, s.dead i = false) :
    ∃ rows, t.fetch refs ids = .ok rows ∧ rows.map (fun r => r.map some) =
      (ids.filter fun i => decide (i ∈ s.live)).map fun i => refs.map fun j => (s.cols[j]?).bind fun l => l[i]? := by
  obtain ⟨rows, h1, h2⟩ := C65_fetch hty ha hr refs hrefs ids
  refine ⟨rows, h1, ?_⟩
  rw [h2]
  congr 1
  apply List.filter_congr
  intro i hi
  congr 1
  rw [eq_iff_iff, mem_live]
  simp [hids i hi]

/-- **C65 fails**: a deleted row is still returned. -/
theorem C65_fetch_live_fails : ¬ C65_fetch_live_claim Int := by
  intro hc
  obtain ⟨t, h1, h2⟩ := exAfter
  obtain ⟨t', h3⟩ := C62_delete_returns exTy_ok h1 (by decide) [1] (by decide) (by decide)
  have h4 := (C62_delete exTy_ok h1 (by decide) [1] h3).1
  obtain ⟨rows, h5, h6⟩ := hc _ _ _ _ exTy_ok h4 (by decide) [0] [1] (by decide)
  obtain ⟨rows', h7, h8⟩ := C65_fetch exTy_ok h4 (by decide) [0] (by decide) [1]
  rw [h5] at h7
  cases h7
  rw [h6] at h8
  revert h8
  decide

/-- The hypotheses are met: rows 2 and 0, and one that does not exist. -/
example : ∃ t, (Table.create [exTy]).append [exChunk] = .ok t ∧ t.fetch [0] [2, 9, 0] = .ok [[some 7], [some 5]] := by
  obtain ⟨t, h1, h2⟩ := exAfter
  obtain ⟨rows, h5, h6⟩ := C65_fetch_live_partial exTy_ok h1 (by decide) [0] (by decide) [2, 9, 0] (fun _ _ => rfl)
  have hrun : ((Table.create [exTy]).append [exChunk]).bind (fun t => t.fetch [0] [2, 9, 0]) = .ok [[some 7], [some 5]] := by rfl
  rw [h2, Res.bind_ok] at hrun
  exact ⟨t, h2, hrun⟩

/-! ## C66: the number of rows -/

/-- **C66**: after every history, the size of the table is the number of rows that are left. -/
theorem C66_size (hty : ∀ ty ∈ tys, ty.Ok) (ha : After tys h t s) (hr : s.rows < 2 ^ 62) : t.size = .ok s.live.length :=
  (ha.inv hty hr).1.size

/-- The hypotheses are met: three rows, one deleted. -/
example : ∃ t t', (Table.create [exTy]).append [exChunk] = .ok t ∧ t.delete [1] = .ok (t', 1) ∧ t'.size = .ok 2 := by
  obtain ⟨t, h1, h2⟩ := exAfter
  obtain ⟨t', h3⟩ := C62_delete_returns exTy_ok h1 (by decide) [1] (by decide) (by decide)
  exact ⟨t, t', h2, h3, C66_size exTy_ok (C62_delete exTy_ok h1 (by decide) [1] h3).1 (by decide)⟩

end Verif.Table
