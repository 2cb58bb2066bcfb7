import Verif.Block.Props
import Verif.Wal.Props
/-!
C15: a page on disk.  Model of the page image, `recalculate_checksum`, `varify_checksum` and `restore_block`
(core/b_plus_tree/block.cpp:288-299, 555-557, 638-643) and of reading a page back
(core/b_plus_tree/segment_tree.cpp:763-773, 868-886).
-/
namespace Verif.Block
variable {K : Type} [LinearOrder K]
set_option linter.unusedSectionVars false

/-- `k` bytes of `n`, least significant first, as the (little-endian) machine stores integers. -/
def leBytes (k n : Nat) : Bytes := (beBytes k n).reverse
def leNat (bs : Bytes) : Nat := beNat bs.reverse

/-- How a key is kept in a metadata record: 16 bytes (`physical_value`, physical_value.hpp:99-102).  A number
is in these bytes; of a string they hold an address, and the key is computed again from the item
(`key_func_`, block.cpp:293-295): hence `dec` is also given the item. -/
structure Codec (K : Type) where
  enc : K → Bytes
  enc_length : ∀ k, (enc k).length = 16
  dec : Bytes → Bytes → K

/-- One metadata record in memory, block.hpp:34-38. -/
def encMeta (c : Codec K) (m : Meta K) : Bytes := leBytes 4 m.off ++ leBytes 4 m.size ++ c.enc m.key

/-- The page from byte 8 on (block.cpp:62-67): counters, items and free space, metadata. -/
def body (c : Codec K) (b : Block K) : Bytes :=
  leBytes 4 b.count ++ leBytes 4 b.uniq ++ slice b.mem 16 (b.full - 16 - 24 * b.count) ++ b.metas.flatMap (encMeta c)

/-- `recalculate_checksum` and the write to the file: block.cpp:555, 638-643; segment_tree.cpp:741-742. -/
def store (c : Codec K) (b : Block K) : Bytes := leBytes 8 (Crc.crc32c (body c b)) ++ body c b

/-- Bytes of a page as memory. -/
def memOf (pg : Bytes) : Mem := fun i => pg.getD i 0

/-- The metadata records `last_metadata_ … end_`. -/
def decArr (c : Codec K) (mem : Mem) : Nat → Bytes → List (Meta K)
  | 0, _ => []
  | n + 1, a =>
    let off := leNat (a.take 4)
    let size := leNat ((a.drop 4).take 4)
    ⟨off, size, c.dec ((a.drop 8).take 16) (slice mem off size)⟩ :: decArr c mem n (a.drop 24)

/-- Reading a page of `full` bytes: `varify_checksum` (an assertion in segment_tree.cpp:770, 881) and
`restore_block`.  `none`: the assertion fails, or memory outside the page is read. -/
def load (c : Codec K) (full : Nat) (pg : Bytes) : Option (Block K) :=
  if pg.length ≠ full ∨ full < 16 then none
  else if leNat (pg.take 8) ≠ Crc.crc32c (pg.drop 8) then none
  else
    let count := leNat ((pg.drop 8).take 4)
    let uniq := leNat ((pg.drop 12).take 4)
    if full < 16 + 24 * count then none
    else
      let metas := decArr c (memOf pg) count (pg.drop (full - 24 * count))
      if metas.all fun m => decide (m.off + m.size ≤ full) then
        let buf := 16 + (metas.map (·.size)).sum
        some ⟨full, memOf pg, buf, full - 24 * count - buf, metas, count, uniq⟩
      else none

/-! ### helper lemmas -/

@[simp] theorem leBytes_length (k n : Nat) : (leBytes k n).length = k := by simp [leBytes]

theorem leNat_leBytes {k n : Nat} (h : n < 256 ^ k) : leNat (leBytes k n) = n := by
  unfold leNat leBytes; rw [List.reverse_reverse, beNat_beBytes_of_lt h]

theorem encMeta_length (c : Codec K) (m : Meta K) : (encMeta c m).length = 24 := by
  simp [encMeta, c.enc_length]

theorem flat_length (c : Codec K) (ms : List (Meta K)) : (ms.flatMap (encMeta c)).length = 24 * ms.length := by
  induction ms with
  | nil => rfl
  | cons m ms ih => rw [List.flatMap_cons, List.length_append, encMeta_length, ih, List.length_cons]; omega

theorem decArr_flat (c : Codec K) (mem : Mem) : ∀ (ms : List (Meta K)),
    (∀ m ∈ ms, m.off < 256 ^ 4 ∧ m.size < 256 ^ 4 ∧ c.dec (c.enc m.key) (slice mem m.off m.size) = m.key) →
    decArr c mem ms.length (ms.flatMap (encMeta c)) = ms := by
  intro ms
  induction ms with
  | nil => intro _; rfl
  | cons m ms ih =>
    intro h
    obtain ⟨h1, h2, h3⟩ := h m (List.mem_cons_self ..)
    rw [List.flatMap_cons, List.length_cons]
    unfold decArr
    have e : encMeta c m ++ ms.flatMap (encMeta c) =
        leBytes 4 m.off ++ (leBytes 4 m.size ++ (c.enc m.key ++ ms.flatMap (encMeta c))) := by
      unfold encMeta; simp only [List.append_assoc]
    have t1 : (encMeta c m ++ ms.flatMap (encMeta c)).take 4 = leBytes 4 m.off := by
      rw [e, List.take_append_of_le_length (by simp), List.take_of_length_le (by simp)]
    have d1 : (encMeta c m ++ ms.flatMap (encMeta c)).drop 4 = leBytes 4 m.size ++ (c.enc m.key ++ ms.flatMap (encMeta c)) := by
      rw [e]; exact List.drop_left' (by simp)
    have d2 : (encMeta c m ++ ms.flatMap (encMeta c)).drop 8 = c.enc m.key ++ ms.flatMap (encMeta c) := by
      rw [show 8 = 4 + 4 from rfl, ← List.drop_drop, d1]; exact List.drop_left' (by simp)
    have d3 : (encMeta c m ++ ms.flatMap (encMeta c)).drop 24 = ms.flatMap (encMeta c) :=
      List.drop_left' (encMeta_length c m)
    rw [t1, d1, d2, d3]
    have t2 : (leBytes 4 m.size ++ (c.enc m.key ++ ms.flatMap (encMeta c))).take 4 = leBytes 4 m.size := by
      rw [List.take_append_of_le_length (by simp), List.take_of_length_le (by simp)]
    have t3 : (c.enc m.key ++ ms.flatMap (encMeta c)).take 16 = c.enc m.key := by
      rw [List.take_append_of_le_length (by rw [c.enc_length]), List.take_of_length_le (by rw [c.enc_length])]
    simp only [t2, t3, leNat_leBytes h1, leNat_leBytes h2, h3]
    rw [ih (fun n hn => h n (List.mem_cons_of_mem _ hn))]

theorem body_length {c : Codec K} {b : Block K} (h : Inv b) : (body c b).length + 8 = b.full := by
  have h1 := h.room; have h2 := h.sum; have h3 := h.cnt
  unfold body
  simp only [List.length_append, leBytes_length, slice_length, flat_length]
  unfold MSZ HSZ at *
  omega

theorem store_length {c : Codec K} {b : Block K} (h : Inv b) : (store c b).length = b.full := by
  have := body_length (c := c) h
  unfold store
  rw [List.length_append, leBytes_length]; omega

theorem store_mem {c : Codec K} {b : Block K} (h : Inv b) {i : Nat} (h1 : 16 ≤ i) (h2 : i < b.full - 24 * b.count) :
    memOf (store c b) i = b.mem i := by
  unfold memOf store body
  have e : leBytes 8 (Crc.crc32c (leBytes 4 b.count ++ leBytes 4 b.uniq ++ slice b.mem 16 (b.full - 16 - 24 * b.count) ++
      b.metas.flatMap (encMeta c))) ++ (leBytes 4 b.count ++ leBytes 4 b.uniq ++
      slice b.mem 16 (b.full - 16 - 24 * b.count) ++ b.metas.flatMap (encMeta c)) =
      (leBytes 8 (Crc.crc32c (leBytes 4 b.count ++ leBytes 4 b.uniq ++ slice b.mem 16 (b.full - 16 - 24 * b.count) ++
      b.metas.flatMap (encMeta c))) ++ leBytes 4 b.count ++ leBytes 4 b.uniq) ++
      (slice b.mem 16 (b.full - 16 - 24 * b.count) ++ b.metas.flatMap (encMeta c)) := by
    simp only [List.append_assoc]
  rw [e]
  generalize hq : leBytes 8 (Crc.crc32c (leBytes 4 b.count ++ leBytes 4 b.uniq ++
    slice b.mem 16 (b.full - 16 - 24 * b.count) ++ b.metas.flatMap (encMeta c))) ++ leBytes 4 b.count ++ leBytes 4 b.uniq = hd
  have hl : hd.length = 16 := by rw [← hq]; simp
  have hi2 : i - 16 < b.full - 16 - 24 * b.count := by omega
  rw [List.getD_eq_getElem?_getD, List.getElem?_append_right (by omega), hl,
    List.getElem?_append_left (by rw [slice_length]; exact hi2), List.getElem?_eq_getElem (by rw [slice_length]; exact hi2)]
  simp only [slice, List.getElem_map, List.getElem_range, Option.getD_some]
  congr 1
  omega

/-- **C15**, round trip.  A page (in any state a history of calls can produce) written to disk and read back
holds the same entries in the same order, with the same counters and free room, and is in a good state.  The
hypothesis about the codec says that a key can be recovered from its 16 bytes and its item. -/
theorem C15_round_trip (c : Codec K) {b : Block K} (h : Inv b) (hf : 16 ≤ b.full) (h32 : b.full < 2 ^ 32)
    (hc : ∀ e ∈ iterate b, c.dec (c.enc e.1) e.2 = e.1) :
    ∃ b', load c b.full (store c b) = some b' ∧ Inv b' ∧ iterate b' = iterate b ∧
      b'.count = b.count ∧ b'.uniq = b.uniq ∧ b'.avail = b.avail ∧ b'.full = b.full := by
  have hroom := h.room; have hsum := h.sum; have hcnt := h.cnt
  have hcl := h.cnt
  have hitem : ∀ m ∈ b.metas, slice (memOf (store c b)) m.off m.size = item b m := by
    intro m hm
    have h1 := h.lo m hm; have h2 := h.hi m hm
    refine slice_congr ?_
    intro i hi
    refine store_mem h ?_ ?_
    · unfold HSZ at h1; omega
    · unfold MSZ at hroom; omega
  have hmetas : ∀ m ∈ b.metas, m.off < 256 ^ 4 ∧ m.size < 256 ^ 4 ∧
      c.dec (c.enc m.key) (slice (memOf (store c b)) m.off m.size) = m.key := by
    intro m hm
    have h2 := h.hi m hm
    refine ⟨by omega, by omega, ?_⟩
    rw [hitem m hm]
    have hmem : (m.key, item b m) ∈ iterate b := by
      rw [iterate_eq, List.mem_reverse]; exact List.mem_map.mpr ⟨m, hm, rfl⟩
    exact hc _ hmem
  have hu : b.uniq ≤ b.count := by
    rw [h.unq, h.cnt]
    unfold distinctKeys
    refine le_trans (List.toFinset_card_le _) ?_
    rw [List.length_map]
  have e1 : (store c b).take 8 = leBytes 8 (Crc.crc32c (body c b)) := by
    unfold store; exact List.take_left' (by simp)
  have e2 : (store c b).drop 8 = body c b := by
    unfold store; exact List.drop_left' (by simp)
  have e3 : ((store c b).drop 8).take 4 = leBytes 4 b.count := by
    rw [e2]
    unfold body
    rw [List.append_assoc, List.append_assoc]; exact List.take_left' (by simp)
  have e4 : ((store c b).drop 12).take 4 = leBytes 4 b.uniq := by
    rw [show 12 = 8 + 4 from rfl, ← List.drop_drop, e2]
    unfold body
    rw [List.append_assoc, List.append_assoc, List.drop_left' (by simp)]
    exact List.take_left' (by simp)
  have e5 : (store c b).drop (b.full - 24 * b.count) = b.metas.flatMap (encMeta c) := by
    have hb : (store c b) = (leBytes 8 (Crc.crc32c (body c b)) ++ leBytes 4 b.count ++ leBytes 4 b.uniq ++
        slice b.mem 16 (b.full - 16 - 24 * b.count)) ++ b.metas.flatMap (encMeta c) := by
      unfold store
      conv_lhs => rw [show body c b = leBytes 4 b.count ++ leBytes 4 b.uniq ++ slice b.mem 16 (b.full - 16 - 24 * b.count) ++ b.metas.flatMap (encMeta c) from rfl]
      simp only [List.append_assoc]
      rfl
    rw [hb]
    refine List.drop_left' ?_
    simp only [List.length_append, leBytes_length, slice_length]
    unfold MSZ HSZ at *
    omega
  have hcrc : Crc.crc32c (body c b) < 256 ^ 8 := lt_of_lt_of_le (Crc.crc32c_lt _) (by decide)
  have harr : decArr c (memOf (store c b)) b.count (b.metas.flatMap (encMeta c)) = b.metas := by
    rw [hcnt]; exact decArr_flat c _ _ hmetas
  let b' : Block K := ⟨b.full, memOf (store c b), 16 + (b.metas.map (·.size)).sum,
    b.full - 24 * b.count - (16 + (b.metas.map (·.size)).sum), b.metas, b.count, b.uniq⟩
  have hload : load c b.full (store c b) = some b' := by
    unfold load
    rw [if_neg (by rw [store_length h]; omega), e1, e2, leNat_leBytes hcrc, if_neg (by simp)]
    rw [← e2, e3, e4, leNat_leBytes (show b.count < 256 ^ 4 by unfold MSZ at hroom; omega),
      leNat_leBytes (show b.uniq < 256 ^ 4 by unfold MSZ at hroom; omega)]
    simp only
    rw [if_neg (by unfold MSZ HSZ at *; omega), e5, harr, if_pos]
    rw [List.all_eq_true]
    intro m hm
    have := h.hi m hm
    unfold MSZ at hroom
    simp only [decide_eq_true_eq]
    omega
  have hbuf : 16 + (b.metas.map (·.size)).sum = b.buf := hsum
  have hent : iterate b' = iterate b := by
    show b.metas.reverse.map _ = b.metas.reverse.map _
    refine List.map_congr_left ?_
    intro m hm
    show (m.key, slice (memOf (store c b)) m.off m.size) = _
    rw [hitem m (List.mem_reverse.mp hm)]
  refine ⟨b', hload, ?_, hent, rfl, rfl, ?_, rfl⟩
  · refine ⟨h.cnt, h.unq, h.sorted, h.pos, h.lo, ?_, h.disj, rfl, ?_, ?_⟩
    · intro m hm
      show _ ≤ 16 + _
      rw [hbuf]; exact h.hi m hm
    · show b.full - 24 * b.count - (16 + (b.metas.map (·.size)).sum) + (16 + (b.metas.map (·.size)).sum) + MSZ * b.count = b.full
      unfold MSZ at *
      omega
    · have := h.nodup
      rw [← List.nodup_reverse, ← iterate_eq] at this ⊢
      rw [hent]; exact this
  · show b.full - 24 * b.count - (16 + (b.metas.map (·.size)).sum) = b.avail
    unfold MSZ at *
    omega

/-- A codec for 64-bit keys: type tag, four unused bytes … and the number (physical_value.hpp:99-102). -/
def natCodec : Codec Nat where
  enc k := List.replicate 8 0 ++ leBytes 8 k
  enc_length k := by simp
  dec bs _ := leNat (bs.drop 8)

/-- A codec for string keys: the stored bytes are an address, the key is taken from the item. -/
def itemCodec (key : Bytes → Nat) : Codec Nat where
  enc _ := List.replicate 16 0xff
  enc_length _ := by simp
  dec _ x := key x

example : ∀ e ∈ iterate (build 4096 [(5, [1, 2]), (7, [2]), (5, [3])]), natCodec.dec (natCodec.enc e.1) e.2 = e.1 := by
  decide +kernel

/-- Non-vacuity: a page with keys kept as numbers, one with keys found in the items. -/
example : ∃ b', load natCodec 4096 (store natCodec (build 4096 [(5, [1, 2]), (7, [2]), (5, [3])])) = some b' ∧
    iterate b' = [(5, [1, 2]), (5, [3]), (7, [2])] := by
  obtain ⟨b', e, _, i, _⟩ := C15_round_trip natCodec (b := build 4096 [(5, [1, 2]), (7, [2]), (5, [3])])
    (build_inv (by decide) _ (by decide)) (by decide +kernel) (by decide +kernel) (by decide +kernel)
  exact ⟨b', e, i.trans (by decide +kernel)⟩

example : ∀ e ∈ iterate (build 4096 [(5, [5, 2]), (7, [7]), (5, [5])]),
    (itemCodec fun x => (x.headD 0).toNat).dec ((itemCodec fun x => (x.headD 0).toNat).enc e.1) e.2 = e.1 := by
  decide +kernel

theorem leNat_inj {a b : Bytes} (hl : a.length = b.length) (h : leNat a = leNat b) : a = b := by
  have aux : ∀ (a b : Bytes), a.length = b.length → beNat a = beNat b → a = b := by
    intro a
    induction a using List.reverseRecOn with
    | nil =>
      intro b hl _
      exact (List.length_eq_zero_iff.mp hl.symm).symm
    | append_singleton a x ih =>
      intro b hl h
      rcases List.eq_nil_or_concat b with rfl | ⟨b', y, rfl⟩
      · simp at hl
      · rw [List.concat_eq_append] at h hl ⊢
        rw [beNat_append_singleton, beNat_append_singleton] at h
        have hx := x.toNat_lt; have hy := y.toNat_lt
        have h1 : x.toNat = y.toNat := by omega
        have h2 : beNat a = beNat b' := by omega
        rw [ih b' (by simpa using hl) h2, UInt8.toNat_inj.mp h1]
  have := aux a.reverse b.reverse (by simpa using hl) h
  exact List.reverse_injective this

/-- A checksum that was read with something in its upper half is not that of any page. -/
theorem high_zero {n : Nat} (h : n < 2 ^ 32) : leBytes 8 n = leBytes 4 n ++ [0, 0, 0, 0] := by
  refine leNat_inj (by simp) ?_
  rw [leNat_leBytes (by omega)]
  unfold leNat
  rw [List.reverse_append]
  have : leBytes 4 n = (beBytes 4 n).reverse := rfl
  rw [this, List.reverse_reverse]
  have hz : ∀ l : Bytes, beNat ([0, 0, 0, 0].reverse ++ l) = beNat l := by
    intro l
    unfold beNat
    rw [List.foldl_append]
    rfl
  rw [hz, beNat_beBytes_of_lt (by omega)]

/-- **C15**, damage.  If any one to four consecutive bytes of the stored page are changed — in the checksum,
the counters, the items, the free space or the metadata — the page is not accepted. -/
theorem C15_damage_detected (c : Codec K) {b : Block K} (x w w' y : Bytes) (hs : store c b = x ++ w ++ y)
    (hlen : w'.length = w.length) (h4 : w.length ≤ 4) (hne : w' ≠ w) : load c b.full (x ++ w' ++ y) = none := by
  unfold load
  split
  · rfl
  next hl =>
  rw [if_pos]
  intro heq
  -- where the change is
  have hcut : (x ++ w ++ y).take 8 ++ (x ++ w ++ y).drop 8 = x ++ w ++ y := List.take_append_drop 8 _
  have e1 : (x ++ w ++ y).take 8 = leBytes 8 (Crc.crc32c (body c b)) := by
    rw [← hs]; unfold store; exact List.take_left' (by simp)
  have e2 : (x ++ w ++ y).drop 8 = body c b := by
    rw [← hs]; unfold store; exact List.drop_left' (by simp)
  have hcrc := Crc.crc32c_lt (body c b)
  have hcrc' := Crc.crc32c_lt ((x ++ w' ++ y).drop 8)
  by_cases hx : 8 ≤ x.length
  · -- in the body
    have e3 : (x ++ w' ++ y).take 8 = leBytes 8 (Crc.crc32c (body c b)) := by
      rw [← e1, List.append_assoc, List.append_assoc, List.take_append_of_le_length hx, List.take_append_of_le_length hx]
    rw [e3, leNat_leBytes (lt_of_lt_of_le hcrc (by decide)), ← e2] at heq
    have d : ∀ v : Bytes, (x ++ v ++ y).drop 8 = x.drop 8 ++ v ++ y := by
      intro v
      rw [List.append_assoc, List.drop_append_of_le_length hx, List.append_assoc]
    rw [d, d] at heq
    refine Crc.crc32c_burst (a := Crc.bitsOf (x.drop 8)) (m := Crc.bitsOf w) (m' := Crc.bitsOf w') (z := Crc.bitsOf y)
      (by simp [Crc.bitsOf]) (by simp [Crc.bitsOf]) ?_ ?_ ?_ heq
    · rw [Wal.bitsOf_length, Wal.bitsOf_length, hlen]
    · rw [Wal.bitsOf_length]; omega
    · intro hh
      exact hne (Wal.bitsOf_inj hlen.symm hh).symm
  · -- the change begins in the checksum
    -- the part of the change inside the checksum, and the part in the body
    have hlp : (x ++ w ++ y).length = (x ++ w' ++ y).length := by simp [hlen]
    have hlen8 : 8 ≤ (x ++ w ++ y).length := by rw [← hs]; unfold store; simp
    by_cases hsame : (x ++ w' ++ y).take 8 = (x ++ w ++ y).take 8
    · -- only the body changed
      rw [hsame, e1, leNat_leBytes (lt_of_lt_of_le hcrc (by decide)), ← e2] at heq
      have hd : ∀ v : Bytes, v.length = w.length → (x ++ v ++ y).drop 8 = v.drop (8 - x.length) ++ y.drop (8 - (x.length + w.length)) := by
        intro v hv
        rw [List.append_assoc, List.drop_append, List.drop_eq_nil_of_le (by omega), List.nil_append, List.drop_append]
        congr 1
        congr 1
        omega
      have ht : ∀ v : Bytes, v.length = w.length → (x ++ v ++ y).take 8 = x ++ (v.take (8 - x.length) ++ y.take (8 - (x.length + w.length))) := by
        intro v hv
        rw [List.append_assoc, List.take_append, List.take_of_length_le (by omega), List.take_append]
        congr 3
        omega
      rw [ht w' hlen, ht w rfl] at hsame
      have hsame2 := List.append_cancel_left hsame
      have hsame3 : w'.take (8 - x.length) = w.take (8 - x.length) := List.append_cancel_right hsame2
      rw [hd w rfl, hd w' hlen] at heq
      refine Crc.crc32c_burst (a := []) (m := Crc.bitsOf (w.drop (8 - x.length))) (m' := Crc.bitsOf (w'.drop (8 - x.length)))
        (z := Crc.bitsOf (y.drop (8 - (x.length + w.length)))) (by simp [Crc.bitsOf]) (by simp [Crc.bitsOf]) ?_ ?_ ?_ heq
      · rw [Wal.bitsOf_length, Wal.bitsOf_length, List.length_drop, List.length_drop, hlen]
      · rw [Wal.bitsOf_length, List.length_drop]; omega
      · intro hh
        have h1 := Wal.bitsOf_inj (by rw [List.length_drop, List.length_drop, hlen]) hh
        refine hne ?_
        rw [← List.take_append_drop (8 - x.length) w', ← List.take_append_drop (8 - x.length) w, hsame3, h1]
    · by_cases hin : x.length + w.length ≤ 8
      · -- only the checksum changed
        have hd : (x ++ w' ++ y).drop 8 = (x ++ w ++ y).drop 8 := by
          have hk : ∀ v : Bytes, v.length = w.length → (x ++ v ++ y).drop 8 = y.drop (8 - (x.length + w.length)) := by
            intro v hv
            rw [List.drop_append, List.drop_eq_nil_of_le (by rw [List.length_append]; omega), List.nil_append, List.length_append, hv]
          rw [hk w' hlen, hk w rfl]
        rw [hd, e2] at heq
        have : (x ++ w' ++ y).take 8 = leBytes 8 (Crc.crc32c (body c b)) := by
          refine leNat_inj ?_ ?_
          · rw [List.length_take, leBytes_length]; omega
          · rw [heq, leNat_leBytes (lt_of_lt_of_le hcrc (by decide))]
        exact hsame (this.trans e1.symm)
      · -- the change straddles the end of the checksum: its upper half is not zero any more
        have hx5 : 5 ≤ x.length := by omega
        have hnew : (x ++ w' ++ y).take 8 = leBytes 8 (Crc.crc32c ((x ++ w' ++ y).drop 8)) := by
          refine leNat_inj ?_ ?_
          · rw [List.length_take, leBytes_length]; omega
          · rw [heq, leNat_leBytes (lt_of_lt_of_le hcrc' (by decide))]
        rw [high_zero hcrc'] at hnew
        rw [high_zero hcrc] at e1
        -- both agree on the first five bytes (in `x`), and from byte 4 on they are zero
        have f1 : ((x ++ w' ++ y).take 8).take 4 = ((x ++ w ++ y).take 8).take 4 := by
          rw [List.take_take, List.take_take, List.append_assoc, List.append_assoc,
            List.take_append_of_le_length (by omega), List.take_append_of_le_length (by omega)]
        have f2 : ((x ++ w' ++ y).take 8).drop 4 = ((x ++ w ++ y).take 8).drop 4 := by
          rw [hnew, e1, List.drop_left' (by simp), List.drop_left' (by simp)]
        refine hsame ?_
        rw [← List.take_append_drop 4 ((x ++ w' ++ y).take 8), ← List.take_append_drop 4 ((x ++ w ++ y).take 8), f1, f2]

/-- Non-vacuity: one changed byte in the items of a stored page. -/
example : ∃ x w y, store natCodec (build 64 [(5, [1, 2])]) = x ++ w ++ y ∧ w = [2] ∧ x.length = 17 :=
  ⟨(store natCodec (build 64 [(5, [1, 2])])).take 17, _, (store natCodec (build 64 [(5, [1, 2])])).drop 18,
    by decide +kernel, rfl, by decide +kernel⟩

end Verif.Block
