import Verif.TextSeg.Spec
import Verif.DocVal.TapeProps
import Mathlib.Data.List.Induction
/-!
The bytes of a segment of texts.
-/
namespace Verif.TextSeg

open Verif.DocVal

theorem get_put_same {m m' : Bytes} {i : Nat} {bs : Bytes} (h : put m i bs = .ok m') : get m' i bs.length = .ok bs := by
  unfold put at h
  split at h
  · cases h
  · rename_i hl
    cases h
    unfold get
    have h1 : (m.take i).length = i := by simp; omega
    rw [if_neg (by simp; omega), List.append_assoc, List.drop_append_of_le_length (by omega)]
    rw [List.drop_of_length_le (by omega)]; simp

theorem put_length {m m' : Bytes} {i : Nat} {bs : Bytes} (h : put m i bs = .ok m') : m'.length = m.length := by
  unfold put at h
  split at h
  · cases h
  · cases h; simp; omega

theorem get_put_other {m m' : Bytes} {i j n : Nat} {bs : Bytes} (h : put m i bs = .ok m') (hd : j + n ≤ i ∨ i + bs.length ≤ j) :
    get m' j n = get m j n := by
  have hlen := put_length h
  unfold put at h
  split at h
  · cases h
  · rename_i hl
    cases h
    unfold get
    rw [hlen]
    split
    · rfl
    · rename_i hn
      have h1 : (m.take i).length = i := by simp; omega
      congr 1
      apply List.ext_getElem?
      intro k
      simp only [List.getElem?_take, List.getElem?_drop]
      split
      · rename_i hk
        rcases hd with hd | hd
        · rw [List.append_assoc, List.getElem?_append_left (by omega), List.getElem?_take, if_pos (by omega)]
        · rw [List.getElem?_append_right (by simp; omega), List.getElem?_drop]
          congr 1; simp; omega
      · rfl

theorem put_ok {m : Bytes} {i : Nat} {bs : Bytes} (h : i + bs.length ≤ m.length) : ∃ m', put m i bs = .ok m' :=
  ⟨_, by unfold put; rw [if_neg (by omega)]⟩

theorem get32_of {m : Bytes} {i v : Nat} (h : get m i 4 = .ok (le32 v)) (hv : v < 2 ^ 32) : get32 m i = .ok v := by
  unfold get at h
  split at h
  · cases h
  · injection h with h
    unfold get32
    rw [← List.take_append_drop 4 (m.drop i), h, rd32_le32 v hv]

/-! ### rows: their bytes and whether their offset is negative -/

abbrev Row := Bytes × Bool

def tot (rs : List Row) : Nat := (rs.map fun r => r.1.length).sum

theorem tot_snoc (rs : List Row) (r : Row) : tot (rs ++ [r]) = tot rs + r.1.length := by simp [tot]

theorem tot_take_le (rs : List Row) (n : Nat) : tot (rs.take n) ≤ tot rs := by
  have : tot rs = tot (rs.take n) + tot (rs.drop n) := by
    conv_lhs => rw [← List.take_append_drop n rs]
    simp only [tot, List.map_append, List.sum_append]
  omega

theorem tot_take_succ (rs : List Row) (i : Nat) (h : i < rs.length) : tot (rs.take (i + 1)) = tot (rs.take i) + rs[i].1.length := by
  rw [List.take_succ_eq_append_getElem h, tot_snoc]

/-- The offset of a row, as the four bytes hold it. -/
def code (neg : Bool) (n : Nat) : Nat := if neg then ((-(n : Int)) % 2 ^ 32).toNat else n

theorem code_true (n : Nat) : code true n = ((-(n : Int)) % 2 ^ 32).toNat := by unfold code; rw [if_pos rfl]

theorem code_false (n : Nat) : code false n = n := by unfold code; rw [if_neg (by decide)]

theorem code_lt {neg n} (h : n < 2 ^ 31) : code neg n < 2 ^ 32 := by
  unfold code; split <;> omega

theorem signed_code {neg n} (h : n < 2 ^ 31) : signed (code neg n) = if neg then -(n : Int) else n := by
  unfold code signed
  cases neg
  · simp; omega
  · simp only [if_true]
    by_cases h0 : n = 0
    · subst h0; simp
    · have : ((-(n : Int)) % 2 ^ 32).toNat = 2 ^ 32 - n := by omega
      rw [this]; split <;> omega

structure Inv (m : Bytes) (rs : List Row) : Prop where
  head : get m 0 4 = .ok (le32 (tot rs))
  stop : get m 4 4 = .ok (le32 m.length)
  off : ∀ (i : Nat) (h : i < rs.length), get m (slot i) 4 = .ok (le32 (code rs[i].2 (tot (rs.take (i + 1)))))
  txt : ∀ (i : Nat) (h : i < rs.length), get m (m.length - tot (rs.take (i + 1))) rs[i].1.length = .ok rs[i].1
  fits : 20 + 4 * rs.length + tot rs ≤ m.length
  small : m.length < 2 ^ 31

/-- What a row with a text of its own writes. -/
theorem Inv.snoc {m rs} (v : Inv m rs) (img : Bytes) (neg : Bool) (h : 20 + 4 * (rs.length + 1) + (tot rs + img.length) ≤ m.length) :
    ∃ m1 m2 m3, put m 0 (le32 (tot rs + img.length)) = .ok m1 ∧ put m1 (m.length - (tot rs + img.length)) img = .ok m2 ∧
      put m2 (slot rs.length) (le32 (code neg (tot rs + img.length))) = .ok m3 ∧ Inv m3 (rs ++ [(img, neg)]) ∧ m3.length = m.length := by
  obtain ⟨m1, h1⟩ := put_ok (m := m) (i := 0) (bs := le32 (tot rs + img.length)) (by rw [le32_length]; omega)
  have l1 := put_length h1
  obtain ⟨m2, h2⟩ := put_ok (m := m1) (i := m.length - (tot rs + img.length)) (bs := img) (by omega)
  have l2 := put_length h2
  obtain ⟨m3, h3⟩ := put_ok (m := m2) (i := slot rs.length) (bs := le32 (code neg (tot rs + img.length)))
    (by rw [le32_length]; simp only [slot, headerSize]; omega)
  have l3 := put_length h3
  have hl : m3.length = m.length := by omega
  have fr : ∀ j n, (4 ≤ j) → (j + n ≤ m.length - (tot rs + img.length) ∨ m.length - tot rs ≤ j) →
      (j + n ≤ slot rs.length ∨ slot rs.length + 4 ≤ j) → get m3 j n = get m j n := by
    intro j n a b c
    rw [get_put_other h3 (by rw [le32_length]; exact c), get_put_other h2 (by omega), get_put_other h1 (by rw [le32_length]; omega)]
  refine ⟨m1, m2, m3, h1, h2, h3, ⟨?_, ?_, ?_, ?_, ?_, by have := v.small; omega⟩, hl⟩
  · have e := get_put_same h1
    rw [le32_length] at e
    rw [get_put_other h3 (by left; simp only [slot, headerSize]; omega), get_put_other h2 (by left; omega), e, tot_snoc]
  · rw [fr 4 4 (by omega) (by left; omega) (by left; simp only [slot, headerSize]; omega), v.stop, hl]
  · intro i hi
    by_cases hlt : i < rs.length
    · rw [fr (slot i) 4 (by simp only [slot, headerSize]; omega) (by left; simp only [slot, headerSize]; omega)
        (by left; simp only [slot, headerSize]; omega), v.off i hlt]
      rw [List.getElem_append_left hlt, List.take_append_of_le_length (by omega)]
    · have : i = rs.length := by simp at hi; omega
      subst this
      have e := get_put_same h3
      rw [le32_length] at e
      rw [e, List.take_of_length_le (by simp), tot_snoc]; simp
  · intro i hi
    rw [hl]
    by_cases hlt : i < rs.length
    · rw [List.getElem_append_left hlt, List.take_append_of_le_length (by omega)]
      have := tot_take_le rs (i + 1)
      rw [fr _ _ (by omega) (by right; omega) (by right; simp only [slot, headerSize]; omega), v.txt i hlt]
    · have : i = rs.length := by simp at hi; omega
      subst this
      have e := get_put_same h2
      rw [List.take_of_length_le (by simp), tot_snoc]
      simp only [List.getElem_concat_length]
      rw [get_put_other h3 (by rw [le32_length]; right; simp only [slot, headerSize]; omega), e]
  · rw [tot_snoc, hl, List.length_append]; exact h

/-- What a NULL writes. -/
theorem Inv.null {m rs} (v : Inv m rs) (neg : Bool) (h : 20 + 4 * (rs.length + 1) + tot rs ≤ m.length) :
    ∃ m', put m (slot rs.length) (le32 (code neg (tot rs))) = .ok m' ∧ Inv m' (rs ++ [([], neg)]) ∧ m'.length = m.length := by
  obtain ⟨m3, h3⟩ := put_ok (m := m) (i := slot rs.length) (bs := le32 (code neg (tot rs)))
    (by rw [le32_length]; simp only [slot, headerSize]; omega)
  have hl := put_length h3
  have fr : ∀ j n, (j + n ≤ slot rs.length ∨ slot rs.length + 4 ≤ j) → get m3 j n = get m j n := by
    intro j n c
    rw [get_put_other h3 (by rw [le32_length]; exact c)]
  refine ⟨m3, h3, ⟨?_, ?_, ?_, ?_, ?_, by have := v.small; omega⟩, hl⟩
  · rw [fr 0 4 (by left; simp only [slot, headerSize]; omega), v.head, tot_snoc]; simp
  · rw [fr 4 4 (by left; simp only [slot, headerSize]; omega), v.stop, hl]
  · intro i hi
    by_cases hlt : i < rs.length
    · rw [fr (slot i) 4 (by left; simp only [slot, headerSize]; omega), v.off i hlt]
      rw [List.getElem_append_left hlt, List.take_append_of_le_length (by omega)]
    · have : i = rs.length := by simp at hi; omega
      subst this
      have e := get_put_same h3
      rw [le32_length] at e
      rw [e, List.take_of_length_le (by simp), tot_snoc]; simp
  · intro i hi
    rw [hl]
    by_cases hlt : i < rs.length
    · rw [List.getElem_append_left hlt, List.take_append_of_le_length (by omega)]
      have := tot_take_le rs (i + 1)
      rw [fr _ _ (by right; simp only [slot, headerSize]; omega), v.txt i hlt]
    · have : i = rs.length := by simp at hi; omega
      subst this
      rw [List.take_of_length_le (by simp), tot_snoc]
      simp only [List.getElem_concat_length, List.length_nil]
      unfold get
      rw [if_neg (by omega)]; simp
  · rw [tot_snoc, hl, List.length_append]; simp; omega

theorem create_inv {mem : Bytes} (h : Sized mem) : ∃ s, create mem = .ok s ∧ Inv s.mem [] ∧ s.count = 0 ∧ s.mem.length = mem.length := by
  obtain ⟨a, b⟩ := h
  obtain ⟨m1, h1⟩ := put_ok (m := mem) (i := 0) (bs := le32 0) (by rw [le32_length]; omega)
  have l1 := put_length h1
  obtain ⟨m2, h2⟩ := put_ok (m := m1) (i := 4) (bs := le32 (mem.length % 2 ^ 32)) (by rw [le32_length]; omega)
  have l2 := put_length h2
  refine ⟨⟨m2, 0, []⟩, by simp only [create, h1, h2, Res.bind], ⟨?_, ?_, ?_, ?_, ?_, ?_⟩, rfl, by show m2.length = _; omega⟩
  · have e := get_put_same h1
    rw [le32_length] at e
    rw [get_put_other h2 (by left; omega), e]; rfl
  · have e := get_put_same h2
    rw [le32_length] at e
    rw [e, show (⟨m2, 0, []⟩ : Seg).mem.length = mem.length from by show m2.length = _; omega, Nat.mod_eq_of_lt (by omega)]
  · intro i hi; simp at hi
  · intro i hi; simp at hi
  · show 20 + 4 * 0 + 0 ≤ m2.length; omega
  · show m2.length < _; omega

/-! ### cells -/

/-- Whether the last text is a long one. -/
def negAfter (lim : Nat) (cs : List (Option Bytes)) : Bool := cs.foldl (fun b c => match c with
  | none => b
  | some t => decide (lim ≤ t.length)) false

/-- The bytes a cell has in the segment. -/
def Img (lim : Nat) : Option Bytes → Bytes → Prop
  | none, b => b = []
  | some t, b => if t.length < lim then b = t else b.length = 8

inductive Rep (lim : Nat) : List (Option Bytes) → List Row → Prop
  | nil : Rep lim [] []
  | snoc {cs rs c img} : Rep lim cs rs → Img lim c img → Rep lim (cs ++ [c]) (rs ++ [(img, negAfter lim (cs ++ [c]))])

theorem Rep.length {lim cs rs} (h : Rep lim cs rs) : rs.length = cs.length := by
  induction h with
  | nil => rfl
  | snoc _ _ ih => simp [ih]

theorem Rep.cost {lim cs rs} (h : Rep lim cs rs) : 4 * rs.length + tot rs = (cs.map (cost lim)).sum := by
  induction h with
  | nil => rfl
  | @snoc cs rs c img _ hi ih =>
    rw [tot_snoc]
    simp only [List.length_append, List.length_singleton, List.map_append, List.map_cons, List.map_nil, List.sum_append, List.sum_cons, List.sum_nil]
    rw [← ih]
    cases c with
    | none => simp only [Img] at hi; subst hi; simp [TextSeg.cost]; omega
    | some t =>
      simp only [Img] at hi
      simp only [TextSeg.cost]
      split at hi
      · rename_i hlt; rw [if_pos hlt, hi]; omega
      · rename_i hlt; rw [if_neg hlt, hi]; omega

theorem Rep.at {lim cs rs} (h : Rep lim cs rs) (i : Nat) (hi : i < rs.length) :
    rs[i].2 = negAfter lim (cs.take (i + 1)) ∧ ∃ c, cs[i]? = some c ∧ Img lim c rs[i].1 := by
  induction h with
  | nil => simp at hi
  | @snoc cs rs c img hr hm ih =>
    have hl := hr.length
    by_cases hlt : i < rs.length
    · obtain ⟨a, c', b, d⟩ := ih hlt
      rw [List.getElem_append_left hlt, List.take_append_of_le_length (by omega), List.getElem?_append_left (by omega)]
      exact ⟨a, c', b, d⟩
    · have : i = rs.length := by simp at hi; omega
      subst this
      simp only [List.getElem_concat_length]
      refine ⟨by rw [List.take_of_length_le (by simp; omega)], c, by simp [hl], hm⟩

theorem negAfter_snoc (lim : Nat) (cs : List (Option Bytes)) (c) : negAfter lim (cs ++ [c]) = match c with
    | none => negAfter lim cs
    | some t => decide (lim ≤ t.length) := by
  simp only [negAfter, List.foldl_append, List.foldl_cons, List.foldl_nil]

theorem negAfter_iff (lim : Nat) (cs : List (Option Bytes)) :
    negAfter lim cs = true ↔ ∃ t, (cs.filterMap id).getLast? = some t ∧ lim ≤ t.length := by
  induction cs using List.reverseRecOn with
  | nil => simp [negAfter]
  | append_singleton cs c ih =>
    rw [negAfter_snoc]
    cases c with
    | none => simpa using ih
    | some t => simp

/-! ### appending -/

theorem writeOver_ok (block : Nat) (over : List Over) (t : Bytes) (h : t.length + 4 < 2 ^ 32) : ∃ w, writeOver block over t = .ok w := by
  unfold writeOver
  rw [Nat.mod_eq_of_lt h]
  have key : ∀ (o : List Over), o ≠ [] → (∀ b, o.getLast? = some b → b.used + (t.length + 4) ≤ b.data.length) →
      ∃ w, (match o.getLast? with
        | none => Res.ub
        | some h => (put h.data h.used (le32 (t.length % 2 ^ 32))).bind fun d => (put d (h.used + 4) t).bind fun d =>
          .ok (o.dropLast ++ [Over.mk (h.used + (t.length + 4)) d], o.length - 1, h.used)) = .ok w := by
    intro o hne hb
    obtain ⟨b, hb'⟩ : ∃ b, o.getLast? = some b := by
      cases hg : o.getLast? with
      | none => exact absurd (List.getLast?_eq_none_iff.mp hg) hne
      | some b => exact ⟨b, rfl⟩
    have hl := hb b hb'
    rw [hb']
    obtain ⟨d, hd⟩ := put_ok (m := b.data) (i := b.used) (bs := le32 (t.length % 2 ^ 32)) (by rw [le32_length]; omega)
    have := put_length hd
    obtain ⟨d', hd'⟩ := put_ok (m := d) (i := b.used + 4) (bs := t) (by omega)
    refine ⟨(o.dropLast ++ [Over.mk (b.used + (t.length + 4)) d'], o.length - 1, b.used), ?_⟩
    simp only [hd, Res.bind, hd']
  apply key
  · split
    · rename_i hr
      intro e; rw [e] at hr; simp [hasRoom] at hr
    · simp
  · intro b hb
    split at hb
    · rename_i hr
      simp only [hasRoom, hb, decide_eq_true_eq] at hr; omega
    · simp at hb; subst hb; simp

theorem remaining_of {s : Seg} {rs} (v : Inv s.mem rs) (hc : s.count = rs.length) :
    remaining s = .ok (s.mem.length - (20 + 4 * rs.length + tot rs)) := by
  have hf := v.fits
  have hs := v.small
  unfold remaining
  rw [get32_of v.head (by omega)]
  simp only [Res.bind, headerSize, hc]
  congr 1
  omega

/-- A cell that fits is written; one that does not is not. -/
theorem appendOne_spec {s : Seg} {cs rs} (v : Inv s.mem rs) (hr : Rep (limit s.mem.length) cs rs) {row rem : Nat} (hrow : row = rs.length)
    (hrem : rem = s.mem.length - (20 + 4 * rs.length + tot rs)) (c : Option Bytes) (hc : ∀ t, c = some t → t.length + 4 < 2 ^ 32) :
    (¬ Fit s.mem.length (cs ++ [c]) ∧ appendOne s row rem c = .ok none) ∨
    (Fit s.mem.length (cs ++ [c]) ∧ ∃ s' rem' rs', appendOne s row rem c = .ok (some (s', rem')) ∧ Inv s'.mem rs' ∧ Rep (limit s.mem.length) (cs ++ [c]) rs' ∧
      s'.mem.length = s.mem.length ∧ s'.count = s.count ∧ rem' = s.mem.length - (20 + 4 * rs'.length + tot rs')) := by
  subst hrow
  have hco := hr.cost
  have hf := v.fits
  have hsm := v.small
  have hfit : Fit s.mem.length (cs ++ [c]) ↔ 20 + (4 * rs.length + tot rs + cost (limit s.mem.length) c) ≤ s.mem.length := by
    unfold Fit; rw [List.map_append, List.sum_append, ← hco]; simp
  rw [hfit]
  unfold appendOne
  by_cases h4 : rem < 4
  · left
    rw [if_pos h4]
    refine ⟨?_, rfl⟩
    cases c <;> simp only [cost] <;> omega
  · rw [if_neg h4]
    cases c with
    | none =>
      right
      refine ⟨by simp only [cost]; omega, ?_⟩
      obtain ⟨m', hm, hv, hl⟩ := v.null (negAfter (limit s.mem.length) (cs ++ [none])) (by omega)
      refine ⟨{ s with mem := m' }, rem - 4, _, ?_, hv, hr.snoc rfl, hl, rfl, by rw [tot_snoc]; simp; omega⟩
      have hneg := negAfter_snoc (limit s.mem.length) cs none
      simp only at hneg
      by_cases h0 : 0 < rs.length
      · simp only [if_pos h0]
        rw [v.off (rs.length - 1) (by omega)]
        simp only [Res.bind]
        have hat := (hr.at (rs.length - 1) (by omega)).1
        rw [show rs.length - 1 + 1 = rs.length from by omega, show cs.take rs.length = cs from by rw [hr.length, List.take_length]] at hat
        rw [show rs.length - 1 + 1 = rs.length from by omega, List.take_length, hat, ← hneg, hm]
      · have h0' : rs = [] := by cases rs <;> simp at h0 ⊢
        subst h0'
        have hcs : cs = [] := by have := hr.length; cases cs <;> simp at this ⊢
        subst hcs
        simp only [List.length_nil] at hm ⊢
        rw [if_neg (by omega)]
        have : code (negAfter (limit s.mem.length) ([] ++ [none])) (tot []) = 0 := by simp [negAfter, code, tot]
        rw [this] at hm
        rw [hm]; rfl
    | some t =>
      have ht := hc t rfl
      simp only
      rw [get32_of v.stop (by omega)]
      simp only [Res.bind]
      by_cases hlim : limit s.mem.length ≤ t.length
      · have hmk : markerSize = 8 := rfl
        simp only [if_pos hlim, cost, if_neg (Nat.not_lt.mpr hlim)]
        by_cases h8 : rem - 4 < markerSize
        · left; rw [if_pos h8]; exact ⟨by omega, rfl⟩
        · right
          refine ⟨by omega, ?_⟩
          rw [if_neg h8]
          obtain ⟨w, hw⟩ := writeOver_ok s.mem.length s.over t ht
          rw [hw]
          simp only [get32_of v.head (show tot rs < 2 ^ 32 by omega)]
          have hml : (le32 w.2.1 ++ le32 w.2.2).length = markerSize := rfl
          obtain ⟨m1, m2, m3, h1, h2, h3, hv, hl⟩ := v.snoc (le32 w.2.1 ++ le32 w.2.2) true (by rw [hml]; omega)
          rw [hml] at h1 h2 h3
          rw [show (tot rs + markerSize) % 2 ^ 32 = tot rs + markerSize from Nat.mod_eq_of_lt (by omega), h1]
          simp only [back, if_neg (show ¬ s.mem.length < tot rs + markerSize by omega), h2]
          rw [code_true] at h3
          simp only [h3]
          have hneg : negAfter (limit s.mem.length) (cs ++ [some t]) = true := by rw [negAfter_snoc]; simpa using hlim
          refine ⟨_, _, _, rfl, hv, ?_, hl, rfl, ?_⟩
          · rw [← hneg]
            exact hr.snoc (by simp only [Img]; rw [if_neg (by omega)]; rfl)
          · rw [tot_snoc, List.length_append, List.length_singleton]
            show rem - 4 - markerSize = _
            rw [hml]; omega
      · have hlt : t.length < limit s.mem.length := by omega
        simp only [if_neg hlim, cost, if_pos hlt]
        by_cases h8 : rem - 4 < t.length
        · left; rw [if_pos h8]; exact ⟨by omega, rfl⟩
        · right
          refine ⟨by omega, ?_⟩
          rw [if_neg h8]
          simp only [get32_of v.head (show tot rs < 2 ^ 32 by omega)]
          obtain ⟨m1, m2, m3, h1, h2, h3, hv, hl⟩ := v.snoc t false (by omega)
          rw [show (tot rs + t.length) % 2 ^ 32 = tot rs + t.length from Nat.mod_eq_of_lt (by omega), h1]
          simp only [back, if_neg (show ¬ s.mem.length < tot rs + t.length by omega), h2]
          rw [code_false] at h3
          simp only [h3]
          have hneg : negAfter (limit s.mem.length) (cs ++ [some t]) = false := by rw [negAfter_snoc]; simp only [decide_eq_false_iff_not]; exact hlim
          refine ⟨_, _, _, rfl, hv, ?_, hl, rfl, ?_⟩
          · rw [← hneg]
            exact hr.snoc (show Img _ (some t) t by simp only [Img, if_pos hlt])
          · rw [tot_snoc, List.length_append, List.length_singleton]; show rem - 4 - t.length = s.mem.length - (20 + 4 * (rs.length + 1) + (tot rs + t.length)); omega

theorem Fit.of_prefix {size : Nat} {a b : List (Option Bytes)} (h : Fit size (a ++ b)) : Fit size a := by
  unfold Fit at *
  rw [List.map_append, List.sum_append] at h
  omega

theorem appendLoop_spec (size : Nat) (base : Nat) : ∀ (batch : List (Option Bytes)) (s : Seg) (cs : List (Option Bytes)) (rs : List Row) (i rem : Nat), s.mem.length = size →
    Inv s.mem rs → Rep (limit size) cs rs → base + i = rs.length → s.count = base →
    rem = size - (20 + 4 * rs.length + tot rs) → Lengths batch →
    ∃ s' n rs', appendLoop base s i rem batch = .ok (s', i + n) ∧ Takes size cs batch n ∧ Inv s'.mem rs' ∧ Rep (limit size) (cs ++ batch.take n) rs' ∧
      s'.mem.length = size ∧ s'.count = rs'.length := by
  intro batch
  induction batch with
  | nil =>
    intro s cs rs i rem hs v hr hi hc hrem hL
    refine ⟨{ s with count := s.count + i }, 0, rs, rfl, ⟨le_refl _, ?_, by intro k a b; simp at b; omega⟩, v, by simpa using hr, hs, by show s.count + i = _; omega⟩
    unfold Fit
    simp only [List.take_nil, List.append_nil]
    rw [← hr.cost]
    have := v.fits; omega
  | cons c batch ih =>
    intro s cs rs i rem hs v hr hi hc hrem hL
    subst hs
    unfold appendLoop
    rcases appendOne_spec v hr hi hrem c (fun t ht => hL t (by rw [ht]; exact List.mem_cons_self ..)) with ⟨hno, he⟩ | ⟨hyes, s', rem', rs', he, hv, hrep, hl, hcnt, hrem'⟩
    · rw [he]
      refine ⟨{ s with count := s.count + i }, 0, rs, rfl, ⟨Nat.zero_le _, ?_, ?_⟩, v, by simpa using hr, rfl, by show s.count + i = _; omega⟩
      · unfold Fit
        simp only [List.take_zero, List.append_nil]
        rw [← hr.cost]
        have := v.fits; omega
      · intro k hk hk2 hfit
        apply hno
        obtain ⟨k', rfl⟩ : ∃ k', k = k' + 1 := ⟨k - 1, by omega⟩
        rw [List.take_succ_cons] at hfit
        rw [List.append_cons] at hfit
        exact hfit.of_prefix
    · rw [he]
      simp only [Res.bind]
      have hlen : rs'.length = rs.length + 1 := by rw [hrep.length, hr.length]; simp
      obtain ⟨s'', n, rs'', e, ⟨t1, t2, t3⟩, i', r', l', c'⟩ := ih s' (cs ++ [c]) rs' (i + 1) rem' hl hv hrep (by omega) (by omega) (by omega)
        (fun t ht => hL t (List.mem_cons_of_mem _ ht))
      refine ⟨s'', n + 1, rs'', ?_, ⟨by simp; omega, ?_, ?_⟩, i', ?_, l', c'⟩
      · rw [e]; congr 2; omega
      · rw [List.take_succ_cons]; simpa using t2
      · intro k hk hk2
        obtain ⟨k', rfl⟩ : ∃ k', k = k' + 1 := ⟨k - 1, by omega⟩
        rw [List.take_succ_cons]
        have := t3 k' (by omega) (by simp at hk2; omega)
        simpa using this
      · rw [List.take_succ_cons]; simpa using r'

theorem append_spec {s : Seg} {cs rs batch} (v : Inv s.mem rs) (hr : Rep (limit s.mem.length) cs rs) (hc : s.count = rs.length) (hL : Lengths batch) :
    ∃ s' n rs', append s batch = .ok (s', n) ∧ Takes s.mem.length cs batch n ∧ Inv s'.mem rs' ∧ Rep (limit s.mem.length) (cs ++ batch.take n) rs' ∧
      s'.mem.length = s.mem.length ∧ s'.count = rs'.length := by
  unfold append
  rw [remaining_of v hc]
  obtain ⟨s', n, rs', e, rest⟩ := appendLoop_spec s.mem.length s.count batch s cs rs 0 _ rfl v hr (by omega) rfl rfl hL
  exact ⟨s', n, rs', by simp only [Res.bind]; rw [e, Nat.zero_add], rest⟩

theorem appendAll_spec : ∀ (bs : List (List (Option Bytes))) (s : Seg) (cs : List (Option Bytes)) (rs : List Row), Inv s.mem rs → Rep (limit s.mem.length) cs rs →
    s.count = rs.length → (∀ b ∈ bs, Lengths b) →
    ∃ s' ns cs' rs', appendAll s bs = .ok (s', ns) ∧ Filled s.mem.length cs bs ns cs' ∧ Inv s'.mem rs' ∧ Rep (limit s.mem.length) cs' rs' ∧
      s'.mem.length = s.mem.length ∧ s'.count = rs'.length := by
  intro bs
  induction bs with
  | nil => intro s cs rs v hr hc _; exact ⟨s, [], cs, rs, rfl, .nil, v, hr, rfl, hc⟩
  | cons b bs ih =>
    intro s cs rs v hr hc hL
    obtain ⟨s1, n, rs1, e1, t1, v1, r1, l1, c1⟩ := append_spec v hr hc (hL b (List.mem_cons_self ..))
    obtain ⟨s2, ns, cs2, rs2, e2, f2, v2, r2, l2, c2⟩ := ih s1 _ rs1 v1 (by rw [l1]; exact r1) c1 (fun x hx => hL x (List.mem_cons_of_mem _ hx))
    rw [l1] at f2 r2
    exact ⟨s2, n :: ns, cs2, rs2, by simp only [appendAll, e1, Res.bind, e2], .cons t1 f2, v2, r2, by omega, c2⟩

/-! ### reading -/

theorem iabs_of {n : Nat} (neg : Bool) (h : n < 2 ^ 31) : iabs (if neg then -(n : Int) else n) = .ok n := by
  unfold iabs
  rw [if_neg (by split <;> omega)]
  congr 1; split <;> omega

theorem lenOf_of {m n : Nat} (a b : Bool) (h : n + m < 2 ^ 31) :
    lenOf (if a then -((n + m : Nat) : Int) else ((n + m : Nat) : Int)) (if b then -(n : Int) else n) = .ok m := by
  unfold lenOf
  rw [iabs_of a h, iabs_of b (by omega)]
  simp only [Res.bind]
  congr 1; omega

/-- The offset of a row as a number. -/
def offOf (rs : List Row) (i : Nat) (h : i < rs.length) : Int :=
  if rs[i].2 then -((tot (rs.take (i + 1)) : Nat) : Int) else ((tot (rs.take (i + 1)) : Nat) : Int)

/-- The offset of the row before. -/
def prevOff (rs : List Row) : (i : Nat) → i < rs.length → Int
  | 0, _ => 0
  | i + 1, h => offOf rs i (by omega)

theorem read_off {m rs} (v : Inv m rs) (i : Nat) (h : i < rs.length) : get32 m (slot i) = .ok (code rs[i].2 (tot (rs.take (i + 1)))) ∧
    signed (code rs[i].2 (tot (rs.take (i + 1)))) = offOf rs i h := by
  have hf := v.fits
  have hs := v.small
  have := tot_take_le rs (i + 1)
  exact ⟨get32_of (v.off i h) (code_lt (by omega)), signed_code (by omega)⟩

theorem len_of {m rs} (v : Inv m rs) (i : Nat) (h : i < rs.length) : lenOf (offOf rs i h) (prevOff rs i h) = .ok rs[i].1.length := by
  have hf := v.fits
  have hs := v.small
  have h1 := tot_take_le rs (i + 1)
  have h2 := tot_take_succ rs i h
  cases i with
  | zero =>
    have := lenOf_of (m := rs[0].1.length) (n := 0) rs[0].2 false (by rw [h2] at h1; omega)
    simp only [offOf, prevOff]
    rw [h2]
    simpa [tot] using this
  | succ i =>
    have := lenOf_of (m := rs[i+1].1.length) (n := tot (rs.take (i + 1))) rs[i+1].2 rs[i].2 (by omega)
    simp only [offOf, prevOff]
    rw [h2]
    exact this

theorem fromDict_of {s : Seg} {rs} (v : Inv s.mem rs) (i : Nat) (h : i < rs.length) :
    fromDict s (offOf rs i h) rs[i].1.length = if rs[i].2 = true ∧ tot (rs.take (i + 1)) ≠ 0 then .ub else .ok rs[i].1 := by
  have hf := v.fits
  have hs := v.small
  have h1 := tot_take_le rs (i + 1)
  have h2 := tot_take_succ rs i h
  unfold fromDict
  by_cases h0 : tot (rs.take (i + 1)) = 0
  · have e : offOf rs i h = 0 := by unfold offOf; rw [h0]; simp
    rw [e]
    have : rs[i].1 = [] := List.eq_nil_of_length_eq_zero (by omega)
    simp [h0, this]
  · cases hb : rs[i].2 with
    | true =>
      have e : offOf rs i h < 0 := by unfold offOf; rw [hb]; simp only [if_true]; omega
      rw [if_pos e]; simp [h0]
    | false =>
      have e : offOf rs i h = tot (rs.take (i + 1)) := by unfold offOf; rw [hb]; simp
      rw [e, if_neg (by omega), if_neg (by omega), get32_of v.stop (by omega)]
      simp only [Res.bind, Int.toNat_natCast, back]
      rw [if_neg (by omega)]
      simp [v.txt i h]

theorem fetch_of {s : Seg} {rs} (v : Inv s.mem rs) (i : Nat) (h : i < rs.length) :
    fetch s i = if rs[i].2 = true ∧ tot (rs.take (i + 1)) ≠ 0 then .ub else .ok rs[i].1 := by
  have ho := read_off v i h
  have hl := len_of v i h
  unfold fetch
  rw [ho.1]
  simp only [Res.bind]
  rw [ho.2]
  cases i with
  | zero =>
    simp only [if_true]
    have hl' : lenOf (offOf rs 0 h) 0 = .ok rs[0].1.length := hl
    rw [hl']
    exact fromDict_of v 0 h
  | succ i =>
    have hp := read_off v i (by omega)
    rw [if_neg (by omega)]
    simp only [Nat.add_sub_cancel, hp.1, hp.2]
    have hl' : lenOf (offOf rs (i + 1) h) (offOf rs i (by omega)) = .ok rs[i+1].1.length := hl
    rw [hl']
    exact fromDict_of v (i + 1) h

theorem scanLoop_of {s : Seg} {rs} (v : Inv s.mem rs) : ∀ (n i : Nat) (h : i + n ≤ rs.length) (prev : Int), (∀ h : i < rs.length, prev = prevOff rs i h) →
    (∀ (k : Nat) (hk : k < rs.length), i ≤ k → k < i + n → ¬ (rs[k].2 = true ∧ tot (rs.take (k + 1)) ≠ 0)) →
    scanLoop s i prev n = .ok (((rs.drop i).take n).map Prod.fst) := by
  intro n
  induction n with
  | zero => intro i h prev hp hr; simp [scanLoop]
  | succ n ih =>
    intro i h prev hp hr
    have hi : i < rs.length := by omega
    have ho := read_off v i hi
    have hl := len_of v i hi
    unfold scanLoop
    rw [ho.1]
    simp only [Res.bind]
    rw [ho.2, hp hi, hl]
    simp only [fromDict_of v i hi, if_neg (hr i hi (le_refl _) (by omega))]
    rw [ih (i + 1) (by omega) _ (fun _ => rfl) (fun k hk a b => hr k hk (by omega) (by omega))]
    rw [List.drop_eq_getElem_cons hi, List.take_succ_cons, List.map_cons]

theorem scanLoop_long {s : Seg} {rs} (v : Inv s.mem rs) : ∀ (n i : Nat) (h : i + n ≤ rs.length) (prev : Int), (∀ h : i < rs.length, prev = prevOff rs i h) →
    (∃ (k : Nat) (hk : k < rs.length), i ≤ k ∧ k < i + n ∧ (rs[k].2 = true ∧ tot (rs.take (k + 1)) ≠ 0)) →
    scanLoop s i prev n = .ub := by
  intro n
  induction n with
  | zero => intro i h prev hp hr; obtain ⟨k, hk, a, b, _⟩ := hr; omega
  | succ n ih =>
    intro i h prev hp hr
    have hi : i < rs.length := by omega
    have ho := read_off v i hi
    have hl := len_of v i hi
    unfold scanLoop
    rw [ho.1]
    simp only [Res.bind]
    rw [ho.2, hp hi, hl]
    simp only [fromDict_of v i hi]
    by_cases hb : rs[i].2 = true ∧ tot (rs.take (i + 1)) ≠ 0
    · rw [if_pos hb]
    · rw [if_neg hb]
      simp only
      rw [ih (i + 1) (by omega) _ (fun _ => rfl)]
      obtain ⟨k, hk, a, b, c⟩ := hr
      by_cases hki : k = i
      · subst hki; exact absurd c hb
      · exact ⟨k, hk, by omega, by omega, c⟩

theorem scan_eq {s : Seg} {rs} (v : Inv s.mem rs) (start n : Nat) (h : start + n ≤ rs.length) (hn : 0 < n) :
    scan s start n = scanLoop s start (prevOff rs start (by omega)) n := by
  unfold scan
  cases start with
  | zero => simp [Res.bind, prevOff]
  | succ i =>
    have hp := read_off v i (by omega)
    rw [if_pos (by omega)]
    simp only [Nat.add_sub_cancel, hp.1, Res.bind, hp.2]
    rfl

theorem Rep.tot_pos {lim cs rs} (h : Rep lim cs rs) : ∀ (i : Nat), i < rs.length → negAfter lim (cs.take (i + 1)) = true → tot (rs.take (i + 1)) ≠ 0 := by
  intro i
  induction i with
  | zero =>
    intro hi hn
    have h2 := tot_take_succ rs 0 hi
    obtain ⟨_, c, hc, hm⟩ := h.at 0 hi
    rw [List.take_succ_eq_append_getElem (by rw [← h.length]; exact hi), negAfter_snoc] at hn
    rw [List.getElem?_eq_getElem (by rw [← h.length]; exact hi)] at hc
    injection hc with hc
    rw [hc] at hn
    cases c with
    | none => simp [negAfter] at hn
    | some t =>
      simp only [decide_eq_true_eq] at hn
      simp only [Img, if_neg (Nat.not_lt.mpr hn)] at hm
      omega
  | succ i ih =>
    intro hi hn
    have h2 := tot_take_succ rs (i + 1) hi
    obtain ⟨_, c, hc, hm⟩ := h.at (i + 1) hi
    rw [List.take_succ_eq_append_getElem (by rw [← h.length]; exact hi), negAfter_snoc] at hn
    rw [List.getElem?_eq_getElem (by rw [← h.length]; exact hi)] at hc
    injection hc with hc
    rw [hc] at hn
    cases c with
    | none =>
      simp only at hn
      have := ih (by omega) hn
      omega
    | some t =>
      simp only [decide_eq_true_eq] at hn
      simp only [Img, if_neg (Nat.not_lt.mpr hn)] at hm
      omega

/-- Whether a row can be read. -/
theorem Rep.readable {lim cs rs} (h : Rep lim cs rs) (i : Nat) (hi : i < rs.length) :
    (rs[i].2 = true ∧ tot (rs.take (i + 1)) ≠ 0) ↔ ∃ t, latest cs i = some t ∧ lim ≤ t.length := by
  rw [(h.at i hi).1]
  constructor
  · intro ⟨a, _⟩; exact (negAfter_iff _ _).mp a
  · intro a
    have := (negAfter_iff lim (cs.take (i + 1))).mpr a
    exact ⟨this, h.tot_pos i hi this⟩

theorem Rep.text {lim cs rs} (h : Rep lim cs rs) (i : Nat) (hi : i < rs.length) (hr : ¬ (rs[i].2 = true ∧ tot (rs.take (i + 1)) ≠ 0)) :
    ∃ c, cs[i]? = some c ∧ rs[i].1 = TextSeg.text c := by
  obtain ⟨a, c, hc, hm⟩ := h.at i hi
  refine ⟨c, hc, ?_⟩
  cases c with
  | none => exact hm
  | some t =>
    by_cases hl : t.length < lim
    · simp only [Img, if_pos hl] at hm; exact hm
    · exfalso; apply hr
      have : negAfter lim (cs.take (i + 1)) = true := by
        rw [List.take_succ_eq_append_getElem (by rw [← h.length]; exact hi), negAfter_snoc]
        rw [List.getElem?_eq_getElem (by rw [← h.length]; exact hi)] at hc
        injection hc with hc
        rw [hc]; simpa using hl
      exact ⟨by rw [a]; exact this, h.tot_pos i hi this⟩

end Verif.TextSeg
