import Verif.Arrow.Bits
import Verif.NestCol.Scan
/-! Arrays that are taken in. -/
namespace Verif.Arrow
open Verif
open Verif.Table
open Verif.NestCol

theorem mask_get {β : Type} {m : List Bool} {d : List β} {i : Nat} {b : Bool} {x : β} (hm : m[i]? = some b) (hd : d[i]? = some x) :
    (mask m d)[i]? = some (if b then some x else none) := by
  unfold mask
  rw [List.getElem?_zipWith, hm, hd]

theorem mask_length {β : Type} {m : List Bool} {d : List β} {n : Nat} (hm : m.length = n) (hd : d.length = n) : (mask m d).length = n := by
  simp [mask, hm, hd]

theorem markNull_get {m p : List Bool} {i : Nat} {b : Bool} (hm : m[i]? = some b) (hp : p[i]? = some true) :
    (markNull m p)[i]? = some b := by
  unfold markNull
  rw [List.getElem?_zipWith, hm, hp]
  simp

theorem markNull_length {m p : List Bool} {n : Nat} (hm : m.length = n) (hp : p.length = n) : (markNull m p).length = n := by
  simp [markNull, hm, hp]

theorem spread_length (k : Nat) (m : List Bool) : (spread k m).length = m.length * k := by
  induction m with
  | nil => simp [spread]
  | cons b m ih =>
    unfold spread at *
    rw [List.flatMap_cons, List.length_append, List.length_replicate, ih, List.length_cons, Nat.succ_mul, Nat.add_comm]

theorem spread_get {k : Nat} (hk : 0 < k) : ∀ (m : List Bool) (q : Nat), (spread k m)[q]? = m[q / k]?
  | [], q => by simp [spread]
  | b :: m, q => by
    have ih := spread_get hk m (q - k)
    unfold spread at *
    rw [List.flatMap_cons]
    by_cases hq : q < k
    · rw [List.getElem?_append_left (by simpa using hq), List.getElem?_replicate, if_pos hq, Nat.div_eq_of_lt hq]
      rfl
    · have hq := Nat.le_of_not_lt hq
      rw [List.getElem?_append_right (by simpa using hq), List.length_replicate, ih]
      have : q / k = (q - k) / k + 1 := by rw [Nat.div_eq_sub_div hk hq]
      rw [this, List.getElem?_cons_succ]

theorem effOff_eq {off s : Nat} {nested : Option Nat} (h : nested = some s ∨ (nested = none ∧ s = 0)) : effOff off 0 nested = off + s := by
  rcases h with rfl | ⟨rfl, rfl⟩ <;> rfl

/-- Offsets grow over more than one row. -/
theorem offs_mono {offs : List Nat} {o n limit : Nat} (h : OffsetsOk offs o n limit) :
    ∀ (d i : Nat), i + d ≤ n → 0 < n → ∃ a b, offs[o + i]? = some a ∧ offs[o + i + d]? = some b ∧ a ≤ b
  | 0, i, hi, hn => by
    rcases h with h | ⟨h1, _, _⟩
    · omega
    · have : o + i < offs.length := by omega
      exact ⟨_, _, List.getElem?_eq_getElem this, List.getElem?_eq_getElem this, Nat.le_refl _⟩
  | d + 1, i, hi, hn => by
    obtain ⟨a, b, h1, h2, h3⟩ := offs_mono h d i (by omega) hn
    rcases h with h | ⟨_, h4, _⟩
    · omega
    · obtain ⟨b', c, e1, e2, e3⟩ := h4 (i + d) (by omega)
      rw [show o + (i + d) = o + i + d by omega] at e1
      rw [show o + (i + d) + 1 = o + i + (d + 1) by omega] at e2
      rw [h2] at e1
      cases e1
      exact ⟨a, c, h1, e2, by omega⟩

theorem offs_limit {offs : List Nat} {o n limit i b : Nat} (h : OffsetsOk offs o n limit) (hn : 0 < n) (hi : i ≤ n)
    (hb : offs[o + i]? = some b) : b ≤ limit := by
  obtain ⟨x, z, h1, h2, h3⟩ := offs_mono h (n - i) i (by omega) hn
  rw [hb] at h1
  cases h1
  rcases h with h | ⟨_, _, w, h4, h5⟩
  · omega
  · rw [show o + i + (n - i) = o + n by omega, h4] at h2
    cases h2
    omega

theorem wrap_sub {a b w : Nat} (h : a ≤ b) (hb : b - a < w) : (w + b - a) % w = b - a := by
  rw [show w + b - a = (b - a) + w by omega, Nat.add_mod_right, Nat.mod_eq_of_lt hb]

theorem readStrs_ok {offs : List Nat} {chars : List UInt8} : ∀ (m : List Bool) (o : Nat),
    (∀ i : Nat, m[i]? = some true → ∃ a b, offs[o + i]? = some a ∧ offs[o + i + 1]? = some b ∧ a ≤ b ∧ b ≤ chars.length ∧ b - a < 2 ^ 32) →
    ∃ cs, readStrs offs chars o m = .ok cs ∧ cs.length = m.length ∧
      (∀ i : Nat, m[i]? = some false → cs[i]? = some none) ∧
      ∀ i a b : Nat, m[i]? = some true → offs[o + i]? = some a → offs[o + i + 1]? = some b →
        cs[i]? = some (some (.str ((chars.drop a).take (b - a))))
  | [], o, _ => ⟨[], rfl, rfl, by simp, by simp⟩
  | false :: m, o, h => by
    obtain ⟨cs, h1, h2, h3, h4⟩ := readStrs_ok m (o + 1) fun i hi => by
      have := h (i + 1) (by simpa using hi)
      rwa [show o + (i + 1) = o + 1 + i by omega] at this
    refine ⟨none :: cs, by unfold readStrs; rw [h1]; rfl, by simp [h2], ?_, ?_⟩
    · intro i hi
      cases i with
      | zero => rfl
      | succ i => simpa using h3 i (by simpa using hi)
    · intro i a b hi ha hb
      cases i with
      | zero => simp at hi
      | succ i =>
        rw [List.getElem?_cons_succ]
        exact h4 i a b (by simpa using hi) (by rwa [show o + (i + 1) = o + 1 + i by omega] at ha)
          (by rwa [show o + (i + 1) + 1 = o + 1 + i + 1 by omega] at hb)
  | true :: m, o, h => by
    obtain ⟨cs, h1, h2, h3, h4⟩ := readStrs_ok m (o + 1) fun i hi => by
      have := h (i + 1) (by simpa using hi)
      rwa [show o + (i + 1) = o + 1 + i by omega] at this
    obtain ⟨a0, b0, e1, e2, e3, e4, e5⟩ := h 0 rfl
    rw [Nat.add_zero] at e1 e2
    refine ⟨some (.str ((chars.drop a0).take (b0 - a0))) :: cs, ?_, by simp [h2], ?_, ?_⟩
    · unfold readStrs
      simp only [e1, e2]
      rw [wrap_sub e3 (by omega), if_neg (by omega)]
      unfold slice
      rw [if_pos (by omega), h1]
      rfl
    · intro i hi
      cases i with
      | zero => simp at hi
      | succ i => simpa using h3 i (by simpa using hi)
    · intro i a b hi ha hb
      cases i with
      | zero =>
        rw [Nat.add_zero] at ha hb
        rw [e1] at ha
        rw [e2] at hb
        cases ha
        cases hb
        rfl
      | succ i =>
        rw [List.getElem?_cons_succ]
        exact h4 i a b (by simpa using hi) (by rwa [show o + (i + 1) = o + 1 + i by omega] at ha)
          (by rwa [show o + (i + 1) + 1 = o + 1 + i + 1 by omega] at hb)

theorem readEntries_ok : ∀ (os : List Nat) (base cur : Nat), os.head? = some (base + cur) → (∀ i a b : Nat, os[i]? = some a → os[i + 1]? = some b → a ≤ b ∧ b < 2 ^ 32) →
    (readEntries cur os).length = os.length - 1 ∧
      ∀ i a b : Nat, os[i]? = some a → os[i + 1]? = some b → (readEntries cur os)[i]? = some (a - base, b - a)
  | [], _, _, h, _ => by simp at h
  | [x], base, cur, _, _ => by
    refine ⟨rfl, ?_⟩
    intro i a b _ hb
    cases i <;> simp at hb
  | x :: y :: os, base, cur, h, hm => by
    obtain ⟨m1, m2⟩ := hm 0 x y rfl rfl
    simp only [List.head?_cons, Option.some.injEq] at h
    have hw : (2 ^ 32 + y - x) % 2 ^ 32 = y - x := wrap_sub m1 (by omega)
    obtain ⟨i1, i2⟩ := readEntries_ok (y :: os) base (cur + (y - x)) (by simp; omega) fun i a b ha hb => hm (i + 1) a b ha hb
    unfold readEntries
    rw [hw]
    refine ⟨by simp [i1], ?_⟩
    intro i a b ha hb
    cases i with
    | zero =>
      simp only [List.getElem?_cons_zero, List.getElem?_cons_succ, Option.some.injEq, Nat.zero_add] at ha hb
      subst ha hb
      simp
      omega
    | succ i =>
      rw [List.getElem?_cons_succ]
      exact i2 i a b ha hb

theorem listParts_ok {offs : List Nat} {o len limit s n : Nat} (h : OffsetsOk offs o len limit) (hl : limit < 2 ^ 31) (hn : s + n ≤ len) :
    ∃ es start size, listParts offs (o + s) n = .ok (es, start, size) ∧ es.length = n ∧ start + size ≤ limit ∧
      (n = 0 → start = 0 ∧ size = 0) ∧ (0 < n → offs[o + s]? = some start) ∧
      ∀ i < n, ∃ a b, offs[o + (s + i)]? = some a ∧ offs[o + (s + i) + 1]? = some b ∧
        es[i]? = some (a - start, b - a) ∧ start ≤ a ∧ a ≤ b ∧ b ≤ start + size := by
  by_cases h0 : n = 0
  · subst h0
    exact ⟨[], 0, 0, by simp [listParts], rfl, by omega, fun _ => ⟨rfl, rfl⟩, by omega, by omega⟩
  · have hlen : 0 < len := by omega
    have hroom : o + len + 1 ≤ offs.length := by
      rcases h with h | ⟨h1, _, _⟩
      · omega
      · exact h1
    obtain ⟨os, r1, r2, r3⟩ := slice_ok (l := offs) (o := o + s) (n := n + 1) (by omega)
    obtain ⟨a, z, e1, e2, e3⟩ := offs_mono h n s (by omega) hlen
    have hz : z ≤ limit := offs_limit h hlen (i := s + n) (by omega) (by rw [← Nat.add_assoc]; exact e2)
    have hhead : os.head? = some a := by
      rw [List.head?_eq_getElem?, r3 0 (by omega), Nat.add_zero, e1]
    have hlast : os.getLast? = some z := by
      rw [List.getLast?_eq_getElem?, r2, show n + 1 - 1 = n by omega, r3 n (by omega), e2]
    have hpair : ∀ i x y, os[i]? = some x → os[i + 1]? = some y → i < n ∧ offs[o + (s + i)]? = some x ∧
        offs[o + (s + i) + 1]? = some y ∧ x ≤ y ∧ y ≤ z ∧ a ≤ x := by
      intro i x y hx hy
      have hi : i < n := by
        have := (List.getElem?_eq_some_iff.mp hy).1
        omega
      rw [r3 i (by omega)] at hx
      rw [r3 (i + 1) (by omega)] at hy
      rw [show o + s + i = o + (s + i) by omega] at hx
      rw [show o + s + (i + 1) = o + (s + i) + 1 by omega] at hy
      obtain ⟨x', y', f1, f2, f3⟩ := offs_mono h 1 (s + i) (by omega) hlen
      rw [hx] at f1
      rw [hy] at f2
      cases f1
      cases f2
      obtain ⟨y'', z', g1, g2, g3⟩ := offs_mono h (n - (i + 1)) (s + (i + 1)) (by omega) hlen
      rw [show o + (s + (i + 1)) = o + (s + i) + 1 by omega, hy] at g1
      cases g1
      rw [show o + (s + (i + 1)) + (n - (i + 1)) = o + s + n by omega, e2] at g2
      cases g2
      obtain ⟨a', x'', k1, k2, k3⟩ := offs_mono h i s (by omega) hlen
      rw [e1] at k1
      cases k1
      rw [show o + s + i = o + (s + i) by omega, hx] at k2
      cases k2
      exact ⟨hi, hx, hy, f3, g3, k3⟩
    obtain ⟨q1, q2⟩ := readEntries_ok os a 0 (by simpa using hhead) fun i x y hx hy => by
      obtain ⟨_, _, _, p1, p2, _⟩ := hpair i x y hx hy
      exact ⟨p1, by omega⟩
    have hsz : (2 ^ 64 + z - a) % 2 ^ 64 = z - a := wrap_sub e3 (by omega)
    refine ⟨readEntries 0 os, a, z - a, ?_, by rw [q1, r2]; omega, by omega, by omega, fun _ => e1, ?_⟩
    · unfold listParts
      rw [if_neg h0, r1]
      simp only [Res.bind_ok, hhead, hlast, hsz]
    · intro i hi
      obtain ⟨x, hx⟩ : ∃ x, os[i]? = some x := ⟨_, List.getElem?_eq_getElem (by omega)⟩
      obtain ⟨y, hy⟩ : ∃ y, os[i + 1]? = some y := ⟨_, List.getElem?_eq_getElem (by omega)⟩
      obtain ⟨_, p1, p2, p3, p4, p5⟩ := hpair i x y hx hy
      exact ⟨x, y, p1, p2, q2 i x y hx hy, p5, p3, by omega⟩

mutual
theorem resizeOk_plain (need cap : Nat) : ∀ t : ATy, t.hasArray = false → t.resizeOk need cap 1 1 = true
  | .num, _ => by simp [ATy.resizeOk, le_nextPow2]
  | .bool, _ => by simp [ATy.resizeOk, le_nextPow2]
  | .str, _ => by simp [ATy.resizeOk, le_nextPow2]
  | .list _, _ => by simp [ATy.resizeOk, le_nextPow2]
  | .array _ _, h => by simp [ATy.hasArray] at h
  | .struct ts, h => resizesOk_plain need cap ts h
theorem resizesOk_plain (need cap : Nat) : ∀ ts : ATys, ts.hasArray = false → ts.resizeOk need cap 1 1 = true
  | .nil, _ => rfl
  | .cons t ts, h => by
    simp only [ATys.hasArray, Bool.or_eq_false_iff] at h
    simp only [ATys.resizeOk, resizeOk_plain need cap t h.1, resizesOk_plain need cap ts h.2, Bool.and_self]
end

/-- A new mask that is filled once has the flags of the array. -/
theorem fresh_ok {h : Hdr} {s n : Nat} (hw : h.Wf) (hr : s + n ≤ h.len) (hp : h.padded ∨ h.off + s = 0) :
    ∃ m, getValidity h (h.off + s) n (List.replicate n true) = .ok m ∧ m.length = n ∧
      ∀ i < n, m[i]? = some (h.valid (h.off + s + i)) := by
  obtain ⟨m, h1, h2, h3⟩ := getValidity_ok (m := List.replicate n true) (by simp) (off := h.off + s) (n := n) (h := h) (by omega) hw.room hp
  refine ⟨m, h1, h2, fun i hi => ?_⟩
  rw [h3 i hi]
  unfold newMask
  rw [List.getElem?_replicate, if_pos hi]
  by_cases h0 : h.nulls = 0
  · rw [if_pos h0, show h.off + s + i = h.off + (s + i) by omega, hw.none h0 (s + i) (by omega)]
  · rw [if_neg h0]
    cases hb : h.bits with
    | none => simp [Hdr.valid, hb]
    | some bs => rfl

/-- A mask that has the flags of the live rows keeps them. -/
theorem again_ok {h : Hdr} {s n : Nat} {m : List Bool} {live : Nat → Prop} (hw : h.Wf) (hr : s + n ≤ h.len)
    (hp : h.padded ∨ h.off + s = 0) (hm : m.length = n) (hl : ∀ i < n, live i → m[i]? = some (h.valid (h.off + s + i))) :
    ∃ m', getValidity h (h.off + s) n m = .ok m' ∧ m'.length = n ∧
      ∀ i < n, live i → m'[i]? = some (h.valid (h.off + s + i)) := by
  obtain ⟨m', h1, h2, h3⟩ := getValidity_ok (m := m) hm (off := h.off + s) (n := n) (h := h) (by omega) hw.room hp
  refine ⟨m', h1, h2, fun i hi li => ?_⟩
  rw [h3 i hi]
  unfold newMask
  by_cases h0 : h.nulls = 0
  · rw [if_pos h0, hl i hi li]
  · rw [if_neg h0]
    cases hb : h.bits with
    | none => exact hl i hi li
    | some bs => rfl

theorem markOpt_ok {m : List Bool} {pm : Option (List Bool)} {n : Nat} {live : Nat → Prop} {f : Nat → Bool} (hm : m.length = n)
    (hp : ∀ p, pm = some p → p.length = n ∧ ∀ i < n, live i → p[i]? = some true)
    (hl : ∀ i < n, live i → m[i]? = some (f i)) :
    (markOpt m pm).length = n ∧ ∀ i < n, live i → (markOpt m pm)[i]? = some (f i) := by
  cases pm with
  | none => exact ⟨hm, hl⟩
  | some p =>
    obtain ⟨p1, p2⟩ := hp p rfl
    exact ⟨markNull_length hm p1, fun i hi li => markNull_get (hl i hi li) (p2 i hi li)⟩

end Verif.Arrow
