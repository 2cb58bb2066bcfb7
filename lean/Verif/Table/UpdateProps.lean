import Verif.Table.UpdateOp
/-!
C97: UPDATE on columnar tables. `Ideal.chosen` says which rows a statement is about, `newRow` what a row
becomes, `Ideal.setRows` what the table becomes, `Reads` that a reader of the table gets just that
(`Verif.Table.OpsModel`, `Verif.Table.UpdateModel`, `Verif.Table.Spec`).
-/
namespace Verif.Table
open Verif
open Verif.Mvcc (CAP)
variable {α : Type} {tys : List (ColTy α)} {t t' : Table α} {s : Ideal α} {h : List (Call α)}

/-- The outcome of an UPDATE as it must be: the statement returns the new cells of the rows it is about and
reports as many as have changed; whoever reads the table afterwards, by scan or by id, gets the new cells of these
rows and the old ones of all others, and no row was added or removed. -/
def Updated [DecidableEq α] (cmp : α → α → Ordering) (w : Nat) (s : Ideal α) (sets : List (SetEx α)) (ids : List Nat)
    (o : Res (Table α × List (List (Cell α)) × List Nat)) : Prop :=
  ∃ t' m, o = .ok (t', ids.map (fun i => newRow sets (s.row i)), m) ∧
    m.length = (ids.filter fun i => decide (newRow sets (s.row i) ≠ s.row i)).length ∧
    (∀ refs : List Nat, (∀ j ∈ refs, j < w) → ∃ outs, t'.read cmp refs none = .ok outs ∧
      Reads (s.setRows sets ids) s.live refs outs) ∧ t'.size = .ok s.live.length

/-- The full C97 claim. -/
def C97_update_claim (α : Type) : Prop :=
  ∀ (_ : DecidableEq α) (cmp : α → α → Ordering) (fixed : Nat → Bool) (tys : List (ColTy α)) (h : List (Call α)) (t : Table α) (s : Ideal α),
    (∀ ty ∈ tys, ty.Ok) → After tys h t s → s.rows < 2 ^ 62 → ∀ (e : Option (Ex α)) (limit : Int), -1 ≤ limit →
      (∀ x, e = some x → x.On (· < tys.length)) → ∀ sets : List (SetEx α), SetsFit sets tys.length →
        Updated cmp tys.length s sets (s.chosen cmp e limit) (t.updateOp cmp fixed e sets limit)

theorem live_asc (s : Ideal α) : s.live.Pairwise (· < ·) := List.Pairwise.filter _ List.pairwise_lt_range

theorem first_asc {l : List Nat} (h : l.Pairwise (· < ·)) (limit : Int) : (first limit l).Pairwise (· < ·) := by
  unfold first
  split
  · exact h
  · exact h.sublist (List.take_sublist _ _)

/-- From the invariant to what a reader sees. -/
theorem updated_of_inv [DecidableEq α] (cmp : α → α → Ordering) {sets : List (SetEx α)} {ids : List Nat} {u : Nat → Bool}
    {o : Res (Table α × List (List (Cell α)) × List Nat)} {t' : Table α} {m : List Nat}
    (h1 : o = .ok (t', ids.map (fun i => newRow sets (s.row i)), m))
    (h2 : m.length = (ids.filter fun i => decide (newRow sets (s.row i) ≠ s.row i)).length) (h3 : Inv tys t' (s.setRows sets ids) u) :
    Updated cmp tys.length s sets ids o := by
  refine ⟨t', m, h1, h2, ?_, h3.size⟩
  intro refs hrefs
  obtain ⟨outs, h4, h5⟩ := h3.read cmp hrefs (flt := none) (P := fun _ => true) (fun g _ p _ _ => rfl)
  have : ((s.setRows sets ids).live.filter fun _ => true) = s.live := by rw [List.filter_true]; rfl
  rw [this] at h5
  exact ⟨outs, h4, h5⟩

/-- The ids the operator collects from a dictionary. -/
theorem rowIds_dict {p : Picked α} {ids : List Nat} (hids : p.out.ids = ids) (hd : ids ≠ [] → p.dict = true) (hlt : ∀ i ∈ ids, i < 1024)
    (hb : ∀ i ∈ p.out.ids, i / 1024 * 1024 = p.base) : p.rowIds = ids := by
  unfold Picked.rowIds
  by_cases hnil : ids = []
  · rw [hids, hnil]; simp
  · rw [hd hnil, if_pos rfl, hids]
    conv_rhs => rw [← List.map_id ids]
    apply List.map_congr_left
    intro i hi
    have h2 := hb i (by rw [hids]; exact hi)
    have := hlt i hi
    simp only [id_eq]
    omega

/-- **C97, partial**: the claim holds for an UPDATE with a condition on a table of at most 1024 rows of which none was
updated before, if the columns the condition names are not NULL in the rows that are left and no right side of the
statement reads a column that was set before it. Missing: larger tables (as C68), tables updated before, NULLs (as C64),
dependent right sides, UPDATE without a condition. -/
theorem C97_update_where_partial [DecidableEq α] (cmp : α → α → Ordering) (fixed : Nat → Bool) (hty : ∀ ty ∈ tys, ty.Ok) (ha : After tys h t s)
    (hr : s.rows ≤ 1024) (hu : ∀ i, touched h i = false) (e : Ex α) (hne : e.On fun _ => True)
    (hf : ∀ i ∈ s.live, e.On fun c => ∃ x, (s.row i)[c]? = some (some x)) (limit : Int) (hl : -1 ≤ limit)
    (sets : List (SetEx α)) (hfit : SetsFit sets tys.length) (hsep : Separate sets) :
    Updated cmp tys.length s sets (s.chosen cmp (some e) limit) (t.updateOp cmp fixed (some e) sets limit) := by
  obtain ⟨hi, hrg⟩ := ha.inv hty (by omega)
  by_cases h0 : Query.limOk limit 0 = true
  · obtain ⟨p, h1, h2, h3, h4⟩ := scanOp_ok cmp hi hrg (some e) (decides_where cmp hty ha hr hu e hf hne) limit h0
    rw [firstBlock_small _ (fun i him => by have := (mem_live.mp (List.mem_filter.mp him).1).1; omega)] at h2
    have hch : first limit (s.live.filter fun i => e.holds cmp (s.row i)) = s.chosen cmp (some e) limit := rfl
    rw [hch] at h2
    have hlt : ∀ i ∈ s.chosen cmp (some e) limit, i < s.rows := fun i hi => (mem_live.mp (List.mem_filter.mp (first_sub _ _ i hi)).1).1
    have hrow := rowIds_dict h2.1 (by
      intro hne'
      rw [h3 (by
        intro hz
        apply hne'
        rw [← hch, hz]
        simp [first]), transform_on e hne]
      rfl) (fun i hi => by have := hlt i hi; omega) h4
    obtain ⟨t', m, r1, r2, r3, _⟩ := updateOp_ok cmp fixed hi hrg h1 h2 hrow (first_asc ((live_asc s).filter _) limit) hlt
      (fun i _ => .inl fun k _ => hu k) hfit hsep
    exact updated_of_inv cmp r1 r2 r3
  · have hz : limit = 0 := by
      unfold Query.limOk at h0
      simp at h0
      omega
    subst hz
    have hch : s.chosen cmp (some e) 0 = [] := by simp [Ideal.chosen, first]
    rw [hch]
    have hsame : s.setRows sets [] = s := by
      have := setRows_eq sets hi.ok (Near.refl s []) List.Pairwise.nil (by simp) 0
      rw [← this]
      exact update_nil _ (by rw [hi.ok.width]; simp [colsOf])
    refine updated_of_inv cmp (t' := t) (m := []) (u := touched h) ?_ rfl (by rw [hsame]; exact hi)
    unfold Table.updateOp Table.scanOp
    rw [if_neg h0]
    rfl

/-- **C97, partial**: an UPDATE without a condition does what the claim says on a table of at most 1024 rows of which
one was deleted before and none updated. -/
theorem C97_update_all_partial [DecidableEq α] (cmp : α → α → Ordering) (fixed : Nat → Bool) (hty : ∀ ty ∈ tys, ty.Ok) (ha : After tys h t s)
    (hr : s.rows ≤ 1024) (hu : ∀ i, touched h i = false) (hgone : ∃ i, i < s.rows ∧ s.dead i = true) (e : Option (Ex α))
    (he : e = none ∨ e = some .allTrue) (limit : Int) (hl : 0 < limit ∨ limit = -1) (sets : List (SetEx α)) (hfit : SetsFit sets tys.length)
    (hsep : Separate sets) : Updated cmp tys.length s sets (s.chosen cmp e limit) (t.updateOp cmp fixed e sets limit) := by
  obtain ⟨hi, hrg⟩ := ha.inv hty (by omega)
  have h0 : Query.limOk limit 0 = true := by
    unfold Query.limOk
    rcases hl with hl | hl
    · simp [hl]
    · rw [hl]; rfl
  have htr : transform e = none := by rcases he with rfl | rfl <;> rfl
  obtain ⟨p, h1, h2, h3, h4⟩ := scanOp_ok cmp hi hrg e (P := fun _ => true) (by rw [htr]; intro g _ p _ _; rfl) limit h0
  have hall : (s.live.filter fun _ => true) = s.live := by simp
  rw [hall, firstBlock_small _ (fun i him => by have := (mem_live.mp him).1; omega)] at h2 h3
  have hch : s.chosen cmp e limit = first limit s.live := by
    unfold Ideal.chosen
    congr 1
    rcases he with rfl | rfl <;> simp [Ex.holds]
  rw [hch]
  have hlt : ∀ i ∈ first limit s.live, i < s.rows := fun i hi => (mem_live.mp (first_sub _ _ i hi)).1
  have hrow := rowIds_dict h2.1 (by
    intro hne
    obtain ⟨i, hi1, hi2⟩ := hgone
    rw [h3 (by
      intro hz
      apply hne
      rw [hz]
      simp [first])]
    have hbase : p.base = 0 := by
      obtain ⟨k, l, hk⟩ := List.exists_cons_of_ne_nil hne
      have hkm : k ∈ p.out.ids := by rw [h2.1, hk]; simp
      have h5 := h4 k hkm
      rw [h2.1] at hkm
      have := hlt k hkm
      omega
    rw [hbase, Bool.or_eq_true, decide_eq_true_eq]
    right
    have hlen : s.live.length < s.rows := by
      unfold Ideal.live
      have := List.length_filter_lt_length_iff_exists (p := fun i => !s.dead i) (l := List.range s.rows)
      rw [List.length_range] at this
      exact this.mpr ⟨i, List.mem_range.mpr hi1, by simp [hi2]⟩
    omega) (fun i hi => by have := hlt i hi; omega) h4
  obtain ⟨t', m, r1, r2, r3, _⟩ := updateOp_ok cmp fixed hi hrg h1 h2 hrow (first_asc (live_asc s) limit) hlt
    (fun i _ => .inl fun k _ => hu k) hfit hsep
  exact updated_of_inv cmp r1 r2 r3

/-! ### Cases -/

/-- Two columns of integers of fixed size, 100 to a segment. -/
def up2 : List (ColTy Int) := [⟨fixedTy 0 100, 128⟩, ⟨fixedTy 0 100, 128⟩]

theorem up2_ok : ∀ ty ∈ up2, ty.Ok := by
  intro ty h
  unfold up2 at h
  simp only [List.mem_cons, List.not_mem_nil, or_false, or_self] at h
  subst h
  exact ⟨fixedTy_ok _ (by omega), by decide⟩

/-- Three rows: `(1, 10)`, `(2, 20)`, `(3, 30)`. -/
def upChunk : Chunk Int := ⟨3, [[some 1, some 2, some 3], [some 10, some 20, some 30]]⟩

/-- What is left by it. -/
def upIdeal : Ideal Int := ⟨3, [[some 1, some 2, some 3], [some 10, some 20, some 30]], fun _ => false⟩

theorem upAfter : ∃ t, After up2 [.append [upChunk]] t upIdeal ∧ (Table.create up2).append [upChunk] = .ok t := by
  obtain ⟨t, h1, h2⟩ := C61_append_returns up2_ok .new [upChunk] (by
    intro ch hch
    rw [List.mem_singleton] at hch
    subst hch
    exact ⟨rfl, by decide⟩) (by decide)
  have hs : (Ideal.empty up2.length).step (.append [upChunk]) = upIdeal := rfl
  rw [hs] at h2
  exact ⟨t, h2, h1⟩

/-- `column 0 := column 0 + 10` -/
def plusTen : SetEx Int := ⟨0, .calc (fun a b => a.bind fun x => b.map fun y => x + y) (.get 0) (.val (some 10))⟩

/-- The hypotheses are met: `SET a = a + 10 WHERE b > 15` on three rows. -/
example : ∃ t, (Table.create up2).append [upChunk] = .ok t ∧
    Updated compare 2 upIdeal [plusTen] [1, 2] (t.updateOp compare (fun _ => true) (some (.cmp .gt 1 15)) [plusTen] (-1)) := by
  obtain ⟨t, h1, h2⟩ := upAfter
  have := C97_update_where_partial compare (fun _ => true) up2_ok h1 (by decide) (fun _ => rfl) (.cmp .gt 1 15) trivial (by
    intro i hi
    have hlive : upIdeal.live = [0, 1, 2] := by decide
    rw [hlive] at hi
    simp only [List.mem_cons, List.not_mem_nil, or_false] at hi
    rcases hi with rfl | rfl | rfl
    · exact ⟨10, rfl⟩
    · exact ⟨20, rfl⟩
    · exact ⟨30, rfl⟩) (-1) (by decide) [plusTen] ⟨by decide, by decide, by decide⟩ (by simp [Separate])
  have e1 : upIdeal.chosen compare (some (.cmp .gt 1 15)) (-1) = [1, 2] := by decide
  rw [e1] at this
  exact ⟨t, h2, this⟩

/-- The hypotheses are met: `SET a = a + 10` on three rows of which one was deleted. -/
example : ∃ t t', (Table.create up2).append [upChunk] = .ok t ∧ t.delete [1] = .ok (t', 1) ∧
    Updated compare 2 (upIdeal.delete [1]) [plusTen] [0, 2] (t'.updateOp compare (fun _ => true) none [plusTen] (-1)) := by
  obtain ⟨t, h1, h2⟩ := upAfter
  obtain ⟨t', h3⟩ := C62_delete_returns up2_ok h1 (by decide) [1] (by decide) (by decide)
  have h4 := (C62_delete up2_ok h1 (by decide) [1] h3).1
  have := C97_update_all_partial compare (fun _ => true) up2_ok h4 (by decide) (fun _ => rfl) ⟨1, by decide, by decide⟩ none (.inl rfl) (-1)
    (by decide) [plusTen] ⟨by decide, by decide, by decide⟩ (by simp [Separate])
  have e1 : (upIdeal.delete [1]).chosen compare none (-1) = [0, 2] := by decide
  exact ⟨t, t', h2, h3, e1 ▸ this⟩

deriving instance DecidableEq for Out

/-- What a reader gets after the statements, one after the other. -/
def afterUpdates (fixed : Nat → Bool) (stmts : List (Option (Ex Int) × List (SetEx Int))) : Res (List (Out Int)) :=
  (stmts.foldl (fun r q => r.bind fun t => (t.updateOp compare fixed q.1 q.2 (-1)).map' Prod.fst)
    ((Table.create up2).append [upChunk])).bind fun t => t.read compare [0, 1] none

/-- The same statement, read back. -/
example : afterUpdates (fun _ => true) [(some (.cmp .gt 1 15), [plusTen])] = .ok [⟨[0, 1, 2], [[some 1, some 12, some 13], [some 10, some 20, some 30]]⟩] := by decide +kernel

/-- **C97 fails**: a second UPDATE without a condition changes the first row only. The first one changes all rows, since it
writes into the segments. -/
theorem C97_second_update_fails :
    afterUpdates (fun _ => true) [(none, [⟨0, .val (some 7)⟩])] = .ok [⟨[0, 1, 2], [[some 7, some 7, some 7], [some 10, some 20, some 30]]⟩] ∧
    afterUpdates (fun _ => true) [(none, [⟨0, .val (some 7)⟩]), (none, [⟨0, .val (some 8)⟩])] =
      .ok [⟨[0, 1, 2], [[some 8, some 7, some 7], [some 10, some 20, some 30]]⟩] := ⟨by decide +kernel, by decide +kernel⟩

/-- **C97 fails**: an UPDATE without a condition that sets NULL makes the first row NULL only. -/
theorem C97_update_null_fails : afterUpdates (fun _ => true) [(none, [⟨0, .val none⟩])] =
    .ok [⟨[0, 1, 2], [[none, some 2, some 3], [some 10, some 20, some 30]]⟩] := by decide +kernel

/-- **C97 fails**: an UPDATE without a condition of a column of texts changes the first row only. -/
theorem C97_update_text_fails : afterUpdates (fun _ => false) [(none, [⟨0, .val (some 7)⟩])] =
    .ok [⟨[0, 1, 2], [[some 7, some 2, some 3], [some 10, some 20, some 30]]⟩] := by decide +kernel

/-- **C97 fails**: two UPDATEs, of a row and of one behind it, are undefined behaviour (C63). -/
theorem C97_update_behind_is_ub :
    afterUpdates (fun _ => true) [(some (.cmp .eq 1 10), [⟨0, .val (some 7)⟩]), (some (.cmp .eq 1 20), [⟨0, .val (some 7)⟩])] = .ub := by decide +kernel

/-- **C97 fails**: `SET a = b, b = a` does not exchange the columns; both get the value of `b`. -/
theorem C97_swap_fails : afterUpdates (fun _ => true) [(some (.cmp .eq 1 20), [⟨0, .get 1⟩, ⟨1, .get 0⟩])] =
    .ok [⟨[0, 1, 2], [[some 1, some 20, some 3], [some 10, some 20, some 30]]⟩] := by decide +kernel

/-- **C97 fails**. -/
theorem C97_update_fails : ¬ C97_update_claim Int := by
  intro hc
  obtain ⟨t, h1, h2⟩ := upAfter
  have hch : upIdeal.chosen compare none (-1) = [0, 1, 2] := by decide
  have hu := hc inferInstance compare (fun _ => true) up2 _ t upIdeal up2_ok h1 (by decide) none (-1) (by decide) (by simp) [⟨0, .val none⟩]
    ⟨by decide, by decide, by decide⟩
  rw [hch] at hu
  obtain ⟨t', m, e1, _, e2, _⟩ := hu
  obtain ⟨outs, e3, e4⟩ := e2 [0, 1] (by decide)
  have hrun := C97_update_null_fails
  unfold afterUpdates at hrun
  simp only [List.foldl_cons, List.foldl_nil] at hrun
  rw [h2, Res.bind_ok, e1, Res.map'_ok, Res.bind_ok, e3] at hrun
  injection hrun with hrun
  have hcell := e4.cells _ (by rw [hrun]; exact List.mem_singleton.mpr rfl) 0 0 [none, some 2, some 3] [none, none, none] rfl rfl (by rfl)
  exact absurd hcell (by decide)

end Verif.Table
