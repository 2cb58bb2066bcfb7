import Verif.Validity.Spec
/-! Word and bit lemmas for null masks. -/
namespace Verif.Validity
open Verif

/-- Bit `i` of a word list (false outside). -/
def bitAt (ws : List Word) (i : Nat) : Bool :=
  match ws[i / 64]? with
  | none => false
  | some w => w.getLsbD (i % 64)

theorem valid_some (ws : List Word) (c i : Nat) : Mask.valid ⟨some ws, c⟩ i = bitAt ws i := rfl

theorem valid_none (c i : Nat) : Mask.valid ⟨none, c⟩ i = true := rfl

theorem bitAt_set (ws : List Word) (k : Nat) (w : Word) (hk : k < ws.length) (j : Nat) :
    bitAt (ws.set k w) j = if j / 64 = k then w.getLsbD (j % 64) else bitAt ws j := by
  unfold bitAt
  by_cases h : j / 64 = k
  · subst h; simp [hk]
  · rw [List.getElem?_set_ne (by omega), if_neg h]

theorem bitAt_some {ws : List Word} {j : Nat} {w : Word} (h : ws[j / 64]? = some w) :
    bitAt ws j = w.getLsbD (j % 64) := by
  unfold bitAt; rw [h]

theorem maxEntry_bit (b : Nat) (hb : b < 64) : maxEntry.getLsbD b = true := by
  unfold maxEntry; rw [BitVec.getLsbD_allOnes]; simp [hb]

theorem bitAt_fresh (n j : Nat) (h : j / 64 < n) : bitAt (freshData n) j = true := by
  unfold bitAt freshData
  rw [List.getElem?_replicate, if_pos h]
  exact maxEntry_bit _ (Nat.mod_lt _ (by decide))

theorem ensure_valid (m : Mask) (j : Nat) (h : j / 64 < m.count) : bitAt (ensureWords m) j = m.valid j := by
  unfold ensureWords Mask.valid
  cases hw : m.words with
  | none => simp [bitAt_fresh _ _ h]
  | some ws => rfl

theorem ensure_length {m : Mask} (h : m.WF) : (ensureWords m).length = m.count := by
  unfold ensureWords
  cases hw : m.words with
  | none => simp [freshData]
  | some ws => simpa using h ws hw

theorem div_lt_of_lt {i n : Nat} (h : i < n) : i / 64 < n := Nat.lt_of_le_of_lt (Nat.div_le_self i 64) h

theorem shl_one_bit (r b : Nat) (hb : b < 64) :
    (1#64 <<< r).getLsbD b = decide (b = r) := by
  rw [BitVec.getLsbD_shiftLeft]
  simp only [hb, decide_true, Bool.true_and, BitVec.getLsbD_one]
  by_cases h : b = r
  · subst h; simp
  · by_cases h2 : b < r
    · simp [h2, h]
    · have : b - r ≠ 0 := by omega
      simp [h2, h, this]

theorem getLsbD_clear (w : Word) (r b : Nat) (hb : b < 64) :
    (w &&& ~~~(1#64 <<< r)).getLsbD b = (w.getLsbD b && decide (b ≠ r)) := by
  rw [BitVec.getLsbD_and, BitVec.getLsbD_not, shl_one_bit r b hb]
  simp [hb]

theorem getLsbD_mark (w : Word) (r b : Nat) (hb : b < 64) :
    (w ||| (1#64 <<< r)).getLsbD b = (w.getLsbD b || decide (b = r)) := by
  rw [BitVec.getLsbD_or, shl_one_bit r b hb]

theorem setInvalid_spec (m : Mask) (hwf : m.WF) (row : Nat) (hrow : row < m.count) :
    ∃ m', setInvalid m row = .ok m' ∧ m'.WF ∧ m'.count = m.count ∧ m'.words.isSome ∧
      ∀ j, j / 64 < m.count → m'.valid j = if j = row then false else m.valid j := by
  have hl := ensure_length hwf
  have hk : row / 64 < (ensureWords m).length := by rw [hl]; exact div_lt_of_lt hrow
  have hget : (ensureWords m)[row / 64]? = some (ensureWords m)[row / 64] := List.getElem?_eq_getElem hk
  generalize (ensureWords m)[row / 64] = w at hget
  refine ⟨⟨some ((ensureWords m).set (row / 64) (w &&& ~~~(1#64 <<< (row % 64)))), m.count⟩, ?_, ?_, rfl, rfl, ?_⟩
  · unfold setInvalid; simp only [hget]
  · intro ws hws; simp at hws; subst hws; simp [hl]
  · intro j hj
    rw [valid_some, bitAt_set _ _ _ hk, ← ensure_valid m j hj]
    by_cases h : j / 64 = row / 64
    · rw [if_pos h, getLsbD_clear _ _ _ (Nat.mod_lt _ (by decide))]
      have hjw : bitAt (ensureWords m) j = w.getLsbD (j % 64) := bitAt_some (by rw [h]; exact hget)
      rw [hjw]
      by_cases hjr : j = row
      · subst hjr; simp
      · have : j % 64 ≠ row % 64 := by omega
        simp [hjr, this]
    · have : j ≠ row := by intro e; subst e; exact h rfl
      rw [if_neg h, if_neg this]

theorem set_spec (m : Mask) (hwf : m.WF) (row : Nat) (v : Bool) (hrow : row < m.count) :
    ∃ m', set m row v = .ok m' ∧ m'.WF ∧ m'.count = m.count ∧
      ∀ j, j / 64 < m.count → m'.valid j = if j = row then v else m.valid j := by
  cases v with
  | false =>
    obtain ⟨m', h1, h2, h3, _, h4⟩ := setInvalid_spec m hwf row hrow
    exact ⟨m', by simpa [set] using h1, h2, h3, h4⟩
  | true =>
    cases hw : m.words with
    | none =>
      refine ⟨m, by simp [set, hw], hwf, rfl, ?_⟩
      intro j _
      unfold Mask.valid
      simp [hw]
    | some ws =>
      have hl := hwf ws hw
      have hk : row / 64 < ws.length := by rw [hl]; exact div_lt_of_lt hrow
      have hget : ws[row / 64]? = some ws[row / 64] := List.getElem?_eq_getElem hk
      generalize ws[row / 64] = w at hget
      refine ⟨⟨some (ws.set (row / 64) (w ||| (1#64 <<< (row % 64)))), m.count⟩, ?_, ?_, rfl, ?_⟩
      · unfold set; simp only [if_true, hw, hget]
      · intro ws' hws; simp at hws; subst hws; simp [hl]
      · intro j hj
        have hmv : m.valid j = bitAt ws j := by unfold Mask.valid bitAt; simp only [hw]; rfl
        rw [valid_some, bitAt_set _ _ _ hk, hmv]
        by_cases h : j / 64 = row / 64
        · rw [if_pos h, getLsbD_mark _ _ _ (Nat.mod_lt _ (by decide))]
          have hjw : bitAt ws j = w.getLsbD (j % 64) := bitAt_some (by rw [h]; exact hget)
          rw [hjw]
          by_cases hjr : j = row
          · subst hjr; simp
          · have : j % 64 ≠ row % 64 := by omega
            simp [hjr, this]
        · have : j ≠ row := by intro e; subst e; exact h rfl
          rw [if_neg h, if_neg this]

theorem rowIsValid_spec (m : Mask) (hwf : m.WF) (row : Nat) (hrow : row / 64 < m.count) :
    rowIsValid m row = .ok (m.valid row) := by
  unfold rowIsValid Mask.valid
  cases hw : m.words with
  | none => rfl
  | some ws =>
    have hk : row / 64 < ws.length := by rw [hwf ws hw]; exact hrow
    have hget : ws[row / 64]? = some ws[row / 64] := List.getElem?_eq_getElem hk
    generalize ws[row / 64] = w at hget
    simp only [hget]
    congr 1
    have hlt : row % 64 < 64 := Nat.mod_lt _ (by decide)
    cases hb : w.getLsbD (row % 64) with
    | true =>
      rw [decide_eq_true_iff]
      intro h0
      have := congrArg (fun x => x.getLsbD (row % 64)) h0
      simp only [BitVec.getLsbD_and, shl_one_bit _ _ hlt, hb] at this
      simp at this
    | false =>
      rw [decide_eq_false_iff_not]
      intro hne
      apply hne
      apply BitVec.eq_of_getLsbD_eq
      intro i hi
      rw [BitVec.getLsbD_and, shl_one_bit _ _ hi]
      by_cases he : i = row % 64
      · subst he; simp [hb]
      · simp [he]

theorem setRows_spec (other : Mask) (how : other.WF) (to : Nat) (f : Nat → Nat) (n i : Nat) (m : Mask)
    (hwf : m.WF) (hto : to + i + n ≤ m.count) (hsrc : ∀ k, i ≤ k → k < i + n → f k / 64 < other.count) :
    ∃ m', setRows other to f n i m = .ok m' ∧ m'.WF ∧ m'.count = m.count ∧
      ∀ j, j / 64 < m.count → m'.valid j =
        if to + i ≤ j ∧ j < to + i + n then other.valid (f (j - to)) else m.valid j := by
  induction n generalizing i m with
  | zero =>
    refine ⟨m, rfl, hwf, rfl, ?_⟩
    intro j _
    rw [if_neg (by omega)]
  | succ n ih =>
    unfold setRows
    rw [rowIsValid_spec other how (f i) (hsrc i (Nat.le_refl i) (by omega))]
    simp only
    obtain ⟨m1, h1, h2, h3, h4⟩ := set_spec m hwf (to + i) (other.valid (f i)) (by omega)
    rw [h1]
    simp only
    obtain ⟨m2, g1, g2, g3, g4⟩ := ih (i + 1) m1 h2 (by omega) (fun k hk1 hk2 => hsrc k (by omega) (by omega))
    refine ⟨m2, g1, g2, by omega, ?_⟩
    intro j hj
    rw [g4 j (by omega), h4 j hj]
    by_cases hji : j = to + i
    · subst hji
      rw [if_neg (by omega), if_pos rfl, if_pos (by omega)]
      congr 2
      omega
    · rw [if_neg hji]
      by_cases hin : to + (i + 1) ≤ j ∧ j < to + (i + 1) + n
      · rw [if_pos hin, if_pos (by omega)]
      · rw [if_neg hin, if_neg (by omega)]

theorem putWords_get {tgt ws t : List Word} {to : Nat} (h : putWords tgt to ws = .ok t) :
    t.length = tgt.length ∧ ∀ k, t[k]? = if to ≤ k ∧ k < to + ws.length then ws[k - to]? else tgt[k]? := by
  unfold putWords at h
  by_cases hle : to + ws.length ≤ tgt.length
  · rw [if_pos hle] at h
    simp only [Res.ok.injEq] at h
    subst h
    refine ⟨by simp; omega, ?_⟩
    intro k
    by_cases h1 : k < to
    · rw [if_neg (by omega), List.append_assoc, List.getElem?_append_left (by simp; omega), List.getElem?_take, if_pos h1]
    · by_cases h2 : k < to + ws.length
      · rw [if_pos (by omega), List.getElem?_append_left (by simp; omega),
          List.getElem?_append_right (by simp; omega)]
        simp only [List.length_take]
        congr 1; omega
      · rw [if_neg (by omega), List.getElem?_append_right (by simp; omega), List.getElem?_drop]
        simp only [List.length_append, List.length_take]
        congr 1; omega
  · rw [if_neg hle] at h; cases h

theorem putWords_ok {tgt ws : List Word} {to : Nat} (h : to + ws.length ≤ tgt.length) :
    ∃ t, putWords tgt to ws = .ok t := by
  unfold putWords; rw [if_pos h]; exact ⟨_, rfl⟩

theorem maxShl_bit (n b : Nat) (hb : b < 64) : (maxEntry <<< n).getLsbD b = decide (n ≤ b) := by
  rw [BitVec.getLsbD_shiftLeft]
  by_cases h : b < n
  · have : ¬ n ≤ b := by omega
    simp [h, this]
  · have h' : n ≤ b := by omega
    have : b - n < 64 := by omega
    rw [maxEntry_bit _ this]
    simp [hb, h, h']

theorem maxShr_bit (n b : Nat) (hn : n < 64) (hn0 : 0 < n) (hb : b < 64) :
    (maxEntry >>> (64 - n)).getLsbD b = decide (b < n) := by
  unfold maxEntry
  rw [BitVec.getLsbD_ushiftRight, BitVec.getLsbD_allOnes]
  congr 1
  apply propext; omega

/-- Row `j` seen through the source (`none` is all valid). -/
def srcBit (src : Option (List Word)) (i : Nat) : Bool :=
  match src with
  | none => true
  | some ws => bitAt ws i

theorem sliceAligned_spec (tgt : List Word) (src : Option (List Word)) (to sro count : Nat)
    (hto : to % 64 = 0) (hsro : sro % 64 = 0) (ht : to + count ≤ 64 * tgt.length)
    (hs : ∀ ws, src = some ws → sro + count ≤ 64 * ws.length) :
    ∃ t, sliceAligned tgt src to sro count = .ok t ∧ t.length = tgt.length ∧
      ∀ j, j < 64 * tgt.length →
        bitAt t j = if to ≤ j ∧ j < to + count then srcBit src (sro + (j - to)) else bitAt tgt j := by
  have hte : entryCount to = to / 64 := by unfold entryCount; omega
  have hse : entryCount sro = sro / 64 := by unfold entryCount; omega
  obtain ⟨block, hb, hbl, hbg⟩ : ∃ block, srcBlock src (sro / 64) (count / 64) = Res.ok block ∧ block.length = count / 64 ∧
      ∀ k, k < count / 64 → ∃ w, block[k]? = some w ∧ ∀ b, b < 64 → w.getLsbD b = srcBit src (sro + 64 * k + b) := by
    cases src with
    | none =>
      refine ⟨_, rfl, by simp, ?_⟩
      intro k hk
      refine ⟨maxEntry, by simp [List.getElem?_replicate, hk], ?_⟩
      intro b hb; simp [srcBit, maxEntry_bit _ hb]
    | some ws =>
      have := hs ws rfl
      refine ⟨(ws.drop (sro / 64)).take (count / 64), by simp only [srcBlock]; rw [if_pos (by omega)], by simp; omega, ?_⟩
      intro k hk
      have hlt : sro / 64 + k < ws.length := by omega
      refine ⟨ws[sro / 64 + k], ?_, ?_⟩
      · rw [List.getElem?_take, if_pos hk, List.getElem?_drop, List.getElem?_eq_getElem hlt]
      · intro b hb
        have e1 : (sro + 64 * k + b) / 64 = sro / 64 + k := by omega
        have e2 : (sro + 64 * k + b) % 64 = b := by omega
        unfold srcBit bitAt
        simp only [e1, e2, List.getElem?_eq_getElem hlt]
  obtain ⟨t1, ht1⟩ := putWords_ok (tgt := tgt) (ws := block) (to := to / 64) (by omega)
  obtain ⟨hl1, hg1⟩ := putWords_get ht1
  have bits1 : ∀ j, j < 64 * tgt.length → bitAt t1 j =
      if to ≤ j ∧ j < to + 64 * (count / 64) then srcBit src (sro + (j - to)) else bitAt tgt j := by
    intro j hj
    unfold bitAt
    rw [hg1 (j / 64), hbl]
    by_cases hin : to / 64 ≤ j / 64 ∧ j / 64 < to / 64 + count / 64
    · rw [if_pos hin, if_pos (by omega)]
      obtain ⟨w, hw, hwb⟩ := hbg (j / 64 - to / 64) (by omega)
      rw [hw]
      simp only
      rw [hwb _ (Nat.mod_lt _ (by decide))]
      congr 1; omega
    · rw [if_neg hin, if_neg (by omega)]
  unfold sliceAligned
  simp only [hte, hse]
  rw [hb]
  simp only [ht1]
  by_cases hr : count % 64 = 0
  · rw [if_pos hr]
    refine ⟨t1, rfl, hl1, ?_⟩
    intro j hj
    rw [bits1 j hj]
    have : 64 * (count / 64) = count := by omega
    rw [this]
  · rw [if_neg hr]
    obtain ⟨s, hs', hsb⟩ : ∃ s, srcWord src (sro / 64 + count / 64) = Res.ok s ∧ ∀ b, b < 64 → s.getLsbD b = srcBit src (sro + 64 * (count / 64) + b) := by
      cases src with
      | none => exact ⟨maxEntry, rfl, fun b hb => by simp [srcBit, maxEntry_bit _ hb]⟩
      | some ws =>
        have := hs ws rfl
        have hlt : sro / 64 + count / 64 < ws.length := by omega
        refine ⟨ws[sro / 64 + count / 64], by simp only [srcWord, List.getElem?_eq_getElem hlt], ?_⟩
        intro b hb
        have e1 : (sro + 64 * (count / 64) + b) / 64 = sro / 64 + count / 64 := by omega
        have e2 : (sro + 64 * (count / 64) + b) % 64 = b := by omega
        unfold srcBit bitAt
        simp only [e1, e2, List.getElem?_eq_getElem hlt]
    have hlt : to / 64 + count / 64 < t1.length := by omega
    have hget : t1[to / 64 + count / 64]? = some t1[to / 64 + count / 64] := List.getElem?_eq_getElem hlt
    generalize hw : t1[to / 64 + count / 64] = w at hget
    rw [hs', hget]
    simp only
    refine ⟨_, rfl, by simp [hl1], ?_⟩
    intro j hj
    rw [bitAt_set _ _ _ hlt]
    by_cases hjk : j / 64 = to / 64 + count / 64
    · rw [if_pos hjk]
      have hm : j % 64 < 64 := Nat.mod_lt _ (by decide)
      rw [BitVec.getLsbD_or, BitVec.getLsbD_and, BitVec.getLsbD_and, maxShl_bit _ _ hm,
        maxShr_bit _ _ (Nat.mod_lt _ (by decide)) (by omega) hm, hsb _ hm]
      have hwj : w.getLsbD (j % 64) = bitAt tgt j := by
        rw [← bitAt_some (ws := t1) (by rw [hjk]; exact hget), bits1 j hj, if_neg (by omega)]
      rw [hwj]
      by_cases hlt2 : j % 64 < count % 64
      · have hn : ¬ (count % 64 ≤ j % 64) := by omega
        rw [if_pos (by omega)]
        simp only [hlt2, hn, decide_true, decide_false, Bool.and_false, Bool.and_true, Bool.false_or]
        congr 1; omega
      · have hn : count % 64 ≤ j % 64 := by omega
        rw [if_neg (by omega)]
        simp [hlt2, hn]
    · rw [if_neg hjk, bits1 j hj]
      by_cases hin : to ≤ j ∧ j < to + 64 * (count / 64)
      · rw [if_pos hin, if_pos (by omega)]
      · rw [if_neg hin, if_neg (by omega)]

theorem shiftLoop_spec (src : List Word) (tail : Nat) (n : Nat) (e : Word) (si ti : Nat) (tgt : List Word)
    (he : src[si - 1]? = some e) (hsi : 0 < si) (hsrc : si + n ≤ src.length) (htgt : ti + n ≤ tgt.length) :
    ∃ e' t, shiftLoop src tail n e si ti tgt = .ok (e', si + n, t) ∧ src[si + n - 1]? = some e' ∧
      t.length = tgt.length ∧
      ∀ k, (k < ti ∨ ti + n ≤ k → t[k]? = tgt[k]?) ∧
        (ti ≤ k → k < ti + n → ∃ x y, src[si - 1 + (k - ti)]? = some x ∧ src[si + (k - ti)]? = some y ∧
          t[k]? = some ((x >>> tail) ||| (y <<< (64 - tail)))) := by
  induction n generalizing e si ti tgt with
  | zero =>
    exact ⟨e, tgt, rfl, he, rfl, fun k => ⟨fun _ => rfl, fun h1 h2 => by omega⟩⟩
  | succ n ih =>
    have hlt : si < src.length := by omega
    have hget : src[si]? = some src[si] := List.getElem?_eq_getElem hlt
    generalize src[si] = y at hget
    unfold shiftLoop
    rw [hget]
    simp only
    rw [if_pos (by omega)]
    obtain ⟨e', t, h1, h2, h3, h4⟩ := ih y (si + 1) (ti + 1) (tgt.set ti ((e >>> tail) ||| (y <<< (64 - tail))))
      (by simpa using hget) (by omega) (by omega) (by simp; omega)
    refine ⟨e', t, by rw [h1]; congr 2; simp; omega, ?_, by simpa using h3, ?_⟩
    · rw [← h2]; congr 1; omega
    · intro k
      obtain ⟨h5, h6⟩ := h4 k
      refine ⟨?_, ?_⟩
      · intro hk
        rw [h5 (by omega), List.getElem?_set_ne (by omega)]
      · intro hk1 hk2
        by_cases hkt : k = ti
        · subst hkt
          refine ⟨e, y, by simpa using he, by simpa using hget, ?_⟩
          rw [h5 (by omega)]
          rw [List.getElem?_set_self (by omega)]
        · obtain ⟨x, z, hx, hz, hk⟩ := h6 (by omega) (by omega)
          refine ⟨x, z, ?_, ?_, hk⟩
          · rw [← hx]; congr 1; omega
          · rw [← hz]; congr 1; omega

theorem shift_bit (x y : Word) (tail b : Nat) (ht : 0 < tail) (ht2 : tail < 64) (hb : b < 64) :
    ((x >>> tail) ||| (y <<< (64 - tail))).getLsbD b =
      if b + tail < 64 then x.getLsbD (b + tail) else y.getLsbD (b + tail - 64) := by
  rw [BitVec.getLsbD_or, BitVec.getLsbD_ushiftRight, BitVec.getLsbD_shiftLeft]
  by_cases h : b + tail < 64
  · have : b < 64 - tail := by omega
    rw [if_pos h]
    simp [this, Nat.add_comm]
  · have h2 : ¬ b < 64 - tail := by omega
    rw [if_neg h]
    have hx : x.getLsbD (tail + b) = false := BitVec.getLsbD_of_ge _ _ (by omega)
    have e : b - (64 - tail) = b + tail - 64 := by omega
    simp [h2, hx, hb, e]

theorem sliceShift_spec (tgt ws : List Word) (to sro count : Nat)
    (hto : to % 64 = 0) (hsro : sro % 64 ≠ 0) (ht : to + count ≤ 64 * tgt.length)
    (hs : sro + count ≤ 64 * ws.length) :
    ∃ t, sliceShift tgt (some ws) to sro count = .ok t ∧ t.length = tgt.length ∧
      ∀ j, j < 64 * tgt.length →
        bitAt t j = if to ≤ j ∧ j < to + count then bitAt ws (sro + (j - to)) else bitAt tgt j := by
  have h0 : sro / 64 < ws.length := by omega
  have hget0 : ws[sro / 64]? = some ws[sro / 64] := List.getElem?_eq_getElem h0
  generalize ws[sro / 64] = e0 at hget0
  have htail : sro % 64 < 64 := Nat.mod_lt _ (by decide)
  obtain ⟨e', t1, h1, h2, h3, h4⟩ := shiftLoop_spec ws (sro % 64) (count / 64) e0 (sro / 64 + 1) (to / 64) tgt
    (by simpa using hget0) (by omega) (by omega) (by omega)
  have srcbit : ∀ j q r, to ≤ j → sro / 64 + q < ws.length → (sro + (j - to)) / 64 = sro / 64 + q →
      (sro + (j - to)) % 64 = r → ∀ x, ws[sro / 64 + q]? = some x → bitAt ws (sro + (j - to)) = x.getLsbD r := by
    intro j q r _ _ e1 e2 x hx
    unfold bitAt
    rw [e1, hx]
    simp only [e2]
  have bits1 : ∀ j, j < 64 * tgt.length → bitAt t1 j =
      if to ≤ j ∧ j < to + 64 * (count / 64) then bitAt ws (sro + (j - to)) else bitAt tgt j := by
    intro j hj
    obtain ⟨g1, g2⟩ := h4 (j / 64)
    have hm : j % 64 < 64 := Nat.mod_lt _ (by decide)
    by_cases hin : to / 64 ≤ j / 64 ∧ j / 64 < to / 64 + count / 64
    · obtain ⟨x, y, hx, hy, hk⟩ := g2 hin.1 hin.2
      rw [bitAt_some hk, if_pos (by omega), shift_bit _ _ _ _ (by omega) htail hm]
      have hx' : ws[sro / 64 + (j / 64 - to / 64)]? = some x := by rw [← hx]; congr 1
      have hy' : ws[sro / 64 + (j / 64 - to / 64 + 1)]? = some y := by rw [← hy]; congr 1; omega
      have hxl := (List.getElem?_eq_some_iff.mp hx').1
      have hyl := (List.getElem?_eq_some_iff.mp hy').1
      by_cases hc : j % 64 + sro % 64 < 64
      · rw [if_pos hc, srcbit j _ (j % 64 + sro % 64) (by omega) hxl (by omega) (by omega) x hx']
      · rw [if_neg hc, srcbit j _ (j % 64 + sro % 64 - 64) (by omega) hyl (by omega) (by omega) y hy']
    · rw [if_neg (by omega)]
      unfold bitAt
      rw [g1 (by omega)]
  unfold sliceShift
  simp only [hget0, h1]
  by_cases hr : count % 64 = 0
  · rw [if_pos hr]
    refine ⟨t1, rfl, h3, ?_⟩
    intro j hj
    rw [bits1 j hj]
    have : 64 * (count / 64) = count := by omega
    rw [this]
  · rw [if_neg hr]
    have hlt : to / 64 + count / 64 < t1.length := by omega
    have hget : t1[to / 64 + count / 64]? = some t1[to / 64 + count / 64] := List.getElem?_eq_getElem hlt
    generalize t1[to / 64 + count / 64] = w at hget
    have he' : ws[sro / 64 + count / 64]? = some e' := by rw [← h2]; congr 1; omega
    have hel := (List.getElem?_eq_some_iff.mp he').1
    obtain ⟨x, hx, hxb⟩ : ∃ x, raggedWord ws e' (sro % 64) (count % 64) (sro / 64 + 1 + count / 64) = Res.ok x ∧
        ∀ j, to ≤ j → j / 64 = to / 64 + count / 64 → j % 64 < count % 64 →
          x.getLsbD (j % 64) = bitAt ws (sro + (j - to)) := by
      unfold raggedWord
      by_cases hh : 64 - sro % 64 < count % 64
      · rw [if_pos hh]
        have hl2 : sro / 64 + (count / 64 + 1) < ws.length := by omega
        have hg2 : ws[sro / 64 + (count / 64 + 1)]? = some ws[sro / 64 + (count / 64 + 1)] :=
          List.getElem?_eq_getElem hl2
        generalize ws[sro / 64 + (count / 64 + 1)] = y at hg2
        have e3 : sro / 64 + 1 + count / 64 = sro / 64 + (count / 64 + 1) := by omega
        rw [e3, hg2]
        refine ⟨_, rfl, ?_⟩
        intro j hj1 hj2 hj3
        rw [shift_bit _ _ _ _ (by omega) htail (by omega)]
        by_cases hc : j % 64 + sro % 64 < 64
        · rw [if_pos hc, srcbit j _ (j % 64 + sro % 64) (by omega) hel (by omega) (by omega) _ he']
        · rw [if_neg hc, srcbit j _ (j % 64 + sro % 64 - 64) (by omega) hl2 (by omega) (by omega) _ hg2]
      · rw [if_neg hh]
        refine ⟨_, rfl, ?_⟩
        intro j hj1 hj2 hj3
        rw [BitVec.getLsbD_ushiftRight,
          srcbit j _ (sro % 64 + j % 64) (by omega) hel (by omega) (by omega) _ he']
    rw [hx, hget]
    simp only
    refine ⟨_, rfl, by simp [h3], ?_⟩
    intro j hj
    rw [bitAt_set _ _ _ hlt]
    by_cases hjk : j / 64 = to / 64 + count / 64
    · rw [if_pos hjk]
      have hm : j % 64 < 64 := Nat.mod_lt _ (by decide)
      rw [BitVec.getLsbD_or, BitVec.getLsbD_and, BitVec.getLsbD_and, maxShl_bit _ _ hm,
        maxShr_bit _ _ (Nat.mod_lt _ (by decide)) (by omega) hm]
      have hwj : w.getLsbD (j % 64) = bitAt tgt j := by
        rw [← bitAt_some (ws := t1) (by rw [hjk]; exact hget), bits1 j hj, if_neg (by omega)]
      rw [hwj]
      by_cases hlt2 : j % 64 < count % 64
      · have hn : ¬ (count % 64 ≤ j % 64) := by omega
        rw [if_pos (by omega), hxb j (by omega) hjk hlt2]
        simp [hlt2, hn]
      · have hn : count % 64 ≤ j % 64 := by omega
        rw [if_neg (by omega)]
        simp [hlt2, hn]
    · rw [if_neg hjk, bits1 j hj]
      by_cases hin : to ≤ j ∧ j < to + 64 * (count / 64)
      · rw [if_pos hin, if_pos (by omega)]
      · rw [if_neg hin, if_neg (by omega)]

end Verif.Validity
