import Verif.TextSeg.Lemmas
import Verif.Table.Props
/-!
C90: texts put into a column are read back as they were put, batch after batch, whichever rows are asked for.
-/
namespace Verif.TextSeg

open Verif.DocVal

/-- C90, full statement: a segment takes of every batch as many cells as fit, and each row then has the text put there. -/
def C90_claim : Prop := ∀ (mem : Bytes) (batches : List (List (Option Bytes))), Sized mem → (∀ b ∈ batches, Lengths b) →
  ∃ s0 s taken held, create mem = .ok s0 ∧ appendAll s0 batches = .ok (s, taken) ∧ Filled mem.length [] batches taken held ∧
    s.count = held.length ∧ ∀ row c, held[row]? = some c → fetch s row = .ok (text c)

/-- C90: appends never fail and take what fits.  Rows are read, one by one or in a run, as they were put, if the last text at
or before each is one that is stored in the segment; missing: texts of 4096 bytes and more, and the NULLs after them. -/
theorem C90_texts_partial (mem : Bytes) (batches : List (List (Option Bytes))) (hm : Sized mem) (hb : ∀ b ∈ batches, Lengths b) :
    ∃ s0 s taken held, create mem = .ok s0 ∧ appendAll s0 batches = .ok (s, taken) ∧ Filled mem.length [] batches taken held ∧
      s.count = held.length ∧
      (∀ row c, held[row]? = some c → (∀ t, latest held row = some t → t.length < limit mem.length) → fetch s row = .ok (text c)) ∧
      (∀ start n, start + n ≤ held.length → (∀ row t, start ≤ row → row < start + n → latest held row = some t → t.length < limit mem.length) →
        scan s start n = .ok (((held.drop start).take n).map text)) ∧
      (∀ row t, row < held.length → latest held row = some t → limit mem.length ≤ t.length → fetch s row = .ub) ∧
      (∀ start n row t, start + n ≤ held.length → start ≤ row → row < start + n → latest held row = some t → limit mem.length ≤ t.length →
        scan s start n = .ub) := by
  obtain ⟨s0, e0, v0, c0, l0⟩ := create_inv hm
  obtain ⟨s, taken, held, rs, e, f, v, r, l, c⟩ := appendAll_spec batches s0 [] [] v0 .nil c0 hb
  rw [l0] at f r
  have hl := r.length
  refine ⟨s0, s, taken, held, e0, e, f, by omega, ?_, ?_, ?_, ?_⟩
  · intro row cc hrow hshort
    have hi : row < rs.length := by rw [hl]; exact (List.getElem?_eq_some_iff.mp hrow).1
    have hno : ¬ (rs[row].2 = true ∧ tot (rs.take (row + 1)) ≠ 0) := by
      rw [r.readable row hi]
      rintro ⟨t, ht, hle⟩
      exact absurd (hshort t ht) (by omega)
    rw [fetch_of v row hi, if_neg hno]
    obtain ⟨c', hc', ht⟩ := r.text row hi hno
    rw [hc'] at hrow; injection hrow with hrow
    rw [ht, hrow]
  · intro start n hn hshort
    have hno : ∀ (k : Nat) (hk : k < rs.length), start ≤ k → k < start + n → ¬ (rs[k].2 = true ∧ tot (rs.take (k + 1)) ≠ 0) := by
      intro k hk a b
      rw [r.readable k hk]
      rintro ⟨t, ht, hle⟩
      exact absurd (hshort k t a b ht) (by omega)
    have hres : ((rs.drop start).take n).map Prod.fst = ((held.drop start).take n).map text := by
      apply List.ext_getElem?
      intro k
      simp only [List.getElem?_map, List.getElem?_take, List.getElem?_drop]
      split
      · rename_i hk
        obtain ⟨c', hc', ht⟩ := r.text (start + k) (by omega) (hno _ (by omega) (by omega) (by omega))
        rw [hc', List.getElem?_eq_getElem (by omega)]
        simp [ht]
      · rfl
    by_cases h0 : 0 < n
    · rw [scan_eq v start n (by omega) h0, scanLoop_of v n start (by omega) _ (fun _ => rfl) hno, hres]
    · have : n = 0 := by omega
      subst this
      unfold scan
      cases start with
      | zero => simp [Res.bind, scanLoop]
      | succ i =>
        have hp := read_off v i (by omega)
        rw [if_pos (by omega)]
        simp [hp.1, Res.bind, scanLoop]
  · intro row t hrow ht hle
    have hi : row < rs.length := by omega
    rw [fetch_of v row hi, if_pos ((r.readable row hi).mpr ⟨t, ht, hle⟩)]
  · intro start n row t hn a b ht hle
    have hi : row < rs.length := by omega
    rw [scan_eq v start n (by omega) (by omega)]
    exact scanLoop_long v n start (by omega) _ (fun _ => rfl) ⟨row, hi, a, b, (r.readable row hi).mpr ⟨t, ht, hle⟩⟩

/-- C90: what is taken is determined by the batches. -/
theorem C90_unique {size : Nat} {held : List (Option Bytes)} {bs : List (List (Option Bytes))} {ns ns' : List Nat} {out out' : List (Option Bytes)}
    (h : Filled size held bs ns out) (h' : Filled size held bs ns' out') : ns = ns' ∧ out = out' := by
  induction h generalizing ns' out' with
  | nil => cases h'; exact ⟨rfl, rfl⟩
  | @cons held b bs n ns out t _ ih =>
    cases h' with
    | @cons _ _ _ n' _ _ t' f' =>
      have : n = n' := by
        rcases Nat.lt_trichotomy n n' with h | h | h
        · exact absurd t'.2.1 (t.2.2 n' h t'.1)
        · exact h
        · exact absurd t.2.1 (t'.2.2 n h t.1)
      subst this
      obtain ⟨a, b⟩ := ih f'
      exact ⟨by rw [a], b⟩

/-- The segments of a table are of this size and hold texts of up to 4095 bytes. -/
example : Sized (List.replicate 262136 0) ∧ limit 262136 = 4096 := by
  refine ⟨⟨?_, ?_⟩, by decide⟩ <;> rw [List.length_replicate] <;> decide

def exMem : Bytes := List.replicate 64 7

/-- Two batches: of the second, the cell that does not fit and the one after it are left. -/
example : ((create exMem).bind fun s0 =>
    (appendAll s0 [[some [65, 66, 67], none, some []], [some [68], some (List.replicate 15 69), some [70, 71], none]]).bind fun r =>
    (scan r.1 0 4).bind fun a => (fetch r.1 3).bind fun b => (fetch r.1 1).bind fun c => (scan r.1 2 2).bind fun d => .ok (r.2, a, b, c, d)) =
    .ok ([3, 2], [[65, 66, 67], [], [], [68]], [68], [], [[], [68]]) := by
  rfl

/-- Before a long text and after the next short one rows can still be read. -/
example : ((create exMem).bind fun s0 => (appendAll s0 [[some [65], some (List.replicate 16 66), some [67]]]).bind fun r =>
    (fetch r.1 0).bind fun a => (fetch r.1 2).bind fun b => .ok (r.2, a, b)) = .ok ([3], [65], [67]) := by
  rfl

theorem exSized : Sized exMem := by
  simp only [Sized, exMem, List.length_replicate]; decide

/-- C90: a text that is too long, and a NULL after it, cannot be read. -/
theorem C90_claim_fails : ¬ C90_claim := by
  intro h
  have hb : ∀ b ∈ [[some (List.replicate 16 65), none]], Lengths b := by
    intro b hb t ht
    simp only [List.mem_singleton] at hb
    subst hb
    simp only [List.mem_cons, Option.some.injEq, reduceCtorEq, List.not_mem_nil, or_false] at ht
    subst ht
    simp
  obtain ⟨s0, s, taken, held, e0, e, f, _, hr⟩ := h exMem [[some (List.replicate 16 65), none]] exSized hb
  obtain ⟨s0', s', taken', held', e0', e', f', _, _, _, hr', _⟩ := C90_texts_partial exMem _ exSized hb
  have es : s0 = s0' := Res.ok.inj (e0.symm.trans e0')
  subst es
  have es : s = s' := congrArg Prod.fst (Res.ok.inj (e.symm.trans e'))
  subst es
  obtain ⟨_, rfl⟩ := C90_unique f f'
  have hheld : held = [some (List.replicate 16 65), none] := by
    have g : Filled exMem.length [] [[some (List.replicate 16 65), none]] [2] [some (List.replicate 16 65), none] := by
      refine .cons ⟨by decide, ?_, ?_⟩ .nil
      · show 20 + _ ≤ _; decide
      · intro k a b; simp at b; omega
    exact (C90_unique f g).2
  subst hheld
  have a := hr 1 none rfl
  have b := hr' 1 (List.replicate 16 65) (by decide) rfl (by decide)
  rw [b] at a
  cases a

/-! ### columns of texts -/

theorem room_takes {size : Nat} : ∀ (batch held : List (Short size)), Fit size (cells held) → Takes size (cells held) (cells batch) (room size held batch) := by
  intro batch
  induction batch with
  | nil => intro held hf; exact ⟨Nat.zero_le _, by simpa [cells, room] using hf, by intro k a b; simp [cells] at b; omega⟩
  | cons b bs ih =>
    intro held hf
    have hc : cells (held ++ [b]) = cells held ++ [some b.1] := by simp [cells]
    have hcb : cells (b :: bs) = some b.1 :: cells bs := rfl
    unfold room
    by_cases h : room.Fit' size (held ++ [b]) = true
    · rw [if_pos h]
      have hfit : Fit size (cells (held ++ [b])) := by unfold Fit; exact of_decide_eq_true h
      obtain ⟨t1, t2, t3⟩ := ih (held ++ [b]) hfit
      rw [hc] at t2 t3
      refine ⟨by rw [hcb]; simp; exact t1, ?_, ?_⟩
      · rw [hcb, List.take_succ_cons, List.append_cons]; exact t2
      · intro k a c
        obtain ⟨k', rfl⟩ : ∃ k', k = k' + 1 := ⟨k - 1, by omega⟩
        rw [hcb, List.take_succ_cons, List.append_cons]
        exact t3 k' (by omega) (by rw [hcb] at c; simp at c; exact c)
    · rw [if_neg h]
      refine ⟨Nat.zero_le _, by simpa using hf, ?_⟩
      intro k a c hfit
      obtain ⟨k', rfl⟩ : ∃ k', k = k' + 1 := ⟨k - 1, by omega⟩
      rw [hcb, List.take_succ_cons, List.append_cons, ← hc] at hfit
      apply h
      have := hfit.of_prefix
      unfold Fit at this
      exact decide_eq_true this

/-- C90: what the bytes take of a batch is what the model of tables assumes of columns of texts. -/
theorem C90_room {mem : Bytes} (hm : Sized mem) (held batch : List (Short mem.length)) (hf : Fit mem.length (cells held)) :
    ∃ s0 s s', create mem = .ok s0 ∧ append s0 (cells held) = .ok (s, held.length) ∧
      append s (cells batch) = .ok (s', room mem.length held batch) ∧
      ∀ (row : Nat) (t : Short mem.length), (held ++ batch.take (room mem.length held batch))[row]? = some t → fetch s' row = .ok t.1 := by
  have hL : ∀ ts : List (Short mem.length), Lengths (cells ts) := by
    intro ts t ht
    simp only [cells, List.mem_map, Option.some.injEq] at ht
    obtain ⟨x, _, rfl⟩ := ht
    have h1 := x.2
    have h2 : limit mem.length ≤ 4096 := Nat.min_le_right _ _
    omega
  obtain ⟨s0, e0, v0, c0, l0⟩ := create_inv hm
  obtain ⟨s, n, rs, e, t, v, r, l, c⟩ := append_spec (batch := cells held) v0 .nil c0 (hL held)
  rw [l0] at t r
  have hn : n = held.length := by
    rcases Nat.lt_or_ge n held.length with h | h
    · exfalso
      refine t.2.2 held.length h (by simp [cells]) ?_
      rw [List.take_of_length_le (by simp [cells])]; simpa using hf
    · have := t.1
      simp [cells] at this; omega
  subst hn
  rw [List.take_of_length_le (by simp [cells]), List.nil_append] at r
  obtain ⟨s', n', rs', e', t', v', r', l', c'⟩ := append_spec (batch := cells batch) v (by rw [l, l0]; exact r) c (hL batch)
  rw [l, l0] at t' r'
  have ht := room_takes batch held hf
  have hn' : n' = room mem.length held batch := by
    rcases Nat.lt_trichotomy n' (room mem.length held batch) with h | h | h
    · exact absurd ht.2.1 (t'.2.2 _ h ht.1)
    · exact h
    · exact absurd t'.2.1 (ht.2.2 _ h t'.1)
  subst hn'
  refine ⟨s0, s, s', e0, e, e', ?_⟩
  intro row x hx
  have hcs : (cells held ++ (cells batch).take (room mem.length held batch)) = cells (held ++ batch.take (room mem.length held batch)) := by
    simp [cells, List.map_take]
  rw [hcs] at r'
  have hi : row < rs'.length := by rw [r'.length]; simp only [cells, List.length_map]; exact (List.getElem?_eq_some_iff.mp hx).1
  have hno : ¬ (rs'[row].2 = true ∧ tot (rs'.take (row + 1)) ≠ 0) := by
    rw [r'.readable row hi]
    rintro ⟨y, hy, hle⟩
    have := List.mem_of_getLast? hy
    simp only [List.mem_filterMap, id] at this
    obtain ⟨z, hz, rfl⟩ := this
    have := List.mem_of_mem_take hz
    simp only [cells, List.mem_map, Option.some.injEq] at this
    obtain ⟨w, _, rfl⟩ := this
    exact absurd w.2 (by omega)
  rw [fetch_of v' row hi, if_neg hno]
  obtain ⟨c', hc', hct⟩ := r'.text row hi hno
  simp only [cells, List.getElem?_map, hx, Option.map_some, Option.some.injEq] at hc'
  rw [hct, ← hc']; rfl

/-- A text that is stored fits into an empty segment. -/
theorem textTy_ok (size : Nat) (h : 0 < limit size) : (textTy size h).Ok := by
  have hle : ∀ (b s : List (Short size)), room size s b ≤ b.length := by
    intro b
    induction b with
    | nil => intro s; simp [room]
    | cons b bs ih =>
      intro s
      unfold room
      split
      · have := ih (s ++ [b]); simp; omega
      · exact Nat.zero_le _
  refine ⟨fun s b => hle b s, ?_⟩
  intro batch hne
  cases batch with
  | nil => exact absurd rfl hne
  | cons b bs =>
    show 0 < room size [] (b :: bs)
    unfold room
    rw [if_pos]
    · omega
    · apply decide_eq_true
      have := b.2
      simp only [cells, List.nil_append, List.map_cons, List.map_nil, List.sum_cons, List.sum_nil, cost, if_pos this]
      simp only [limit] at this h
      omega

/-- C90: a table with columns of texts that are stored in their segments returns all its rows. -/
theorem C90_columns {size capV : Nat} (h : 0 < limit size) (hv : 0 < capV) (cmp : Short size → Short size → Ordering) {n : Nat}
    {calls : List (Table.Call (Short size))} {t : Table.Table (Short size)} {s : Table.Ideal (Short size)}
    (ha : Table.After (List.replicate n ⟨textTy size h, capV⟩) calls t s) (hr : s.rows < 2 ^ 62) (refs : List Nat)
    (href : ∀ j ∈ refs, j < n) :
    ∃ outs, t.read cmp refs none = .ok outs ∧ Table.Reads s s.live refs outs := by
  have hty : ∀ ty ∈ List.replicate n (⟨textTy size h, capV⟩ : Table.ColTy (Short size)), ty.Ok := by
    intro ty hm
    rw [List.eq_of_mem_replicate hm]
    exact ⟨textTy_ok size h, hv⟩
  exact Table.C61_scan_returns_all cmp hty ha hr refs (by simpa using href)

/-- A table with a column of texts, a text and a NULL appended. -/
example : ∃ t s, Table.After (List.replicate 1 ⟨textTy 64 (by decide), 8⟩) [.append [⟨2, [[some ⟨[65], by decide⟩, none]]⟩]] t s ∧ s.rows = 2 := by
  obtain ⟨t, _, h⟩ := Table.C61_append_returns (tys := List.replicate 1 ⟨textTy 64 (by decide), 8⟩)
    (by intro ty hm; rw [List.eq_of_mem_replicate hm]; exact ⟨textTy_ok _ _, by decide⟩) .new [⟨2, [[some ⟨[65], by decide⟩, none]]⟩]
    (by intro ch hc; simp only [List.mem_singleton] at hc; subst hc; exact ⟨rfl, by simp⟩) (by decide)
  exact ⟨t, _, h, rfl⟩

end Verif.TextSeg
