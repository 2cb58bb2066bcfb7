import Verif.VecVal.Spec
namespace Verif.VecVal
open Res

theorem bindOk {α β : Type} {r : Res α} {a : α} (f : α → Res β) (h : r = .ok a) : r.bind f = f a := by rw [h]; rfl

mutual
/-- Room for `c` rows at every level. -/
def Fits : (t : Ty) → Vec t → Nat → Prop
  | .leaf _, v, c => v.cap = c
  | .list t, v, c => v.rows.cap = c ∧ Fits t v.child v.ccap ∧ v.size ≤ v.ccap ∧ (0 < c → 0 < v.ccap)
  | .array t n, v, c => Fits t v.child (c * n)
  | .struct ts, v, c => Fitss ts v.children c
def Fitss : (ts : List Ty) → Vecs ts → Nat → Prop
  | [], _, _ => True
  | t :: ts, v, c => Fits t v.1 c ∧ Fitss ts v.2 c
end

mutual
/-- What is read at a row has been written. -/
def Live : (t : Ty) → Vec t → Nat → Prop
  | .leaf _, v, i => i < v.cap ∧ (v.valid i = true → ∃ a, v.data i = some a)
  | .list t, v, i => i < v.rows.cap ∧ (v.rows.valid i = true → ∃ e, v.rows.data i = some e ∧ e.1 + e.2 ≤ v.size ∧
      ∀ j, e.1 ≤ j → j < e.1 + e.2 → Live t v.child j)
  | .array t n, v, i => v.valid i = true → ∀ j, i * n ≤ j → j < i * n + n → Live t v.child j
  | .struct ts, v, i => Lives ts v.children i
def Lives : (ts : List Ty) → Vecs ts → Nat → Prop
  | [], _, _ => True
  | t :: ts, v, i => Live t v.1 i ∧ Lives ts v.2 i
end

theorem getFrom_congr {V X : Type} (g : V → Nat → Res X) (v w : V) : ∀ (n i : Nat),
    (∀ j, i ≤ j → j < i + n → g v j = g w j) → getFrom g v i n = getFrom g w i n
  | 0, _, _ => rfl
  | n + 1, i, h => by
    simp only [getFrom]
    rw [h i (Nat.le_refl _) (by omega), getFrom_congr g v w n (i + 1) fun j h1 h2 => h j (by omega) (by omega)]

theorem getFrom_eq {V X : Type} (g : V → Nat → Res X) (v : V) : ∀ (xs : List X) (i : Nat),
    (∀ (j : Nat) x, xs[j]? = some x → g v (i + j) = .ok x) → getFrom g v i xs.length = .ok xs
  | [], _, _ => rfl
  | x :: xs, i, h => by
    have h0 := h 0 x rfl
    simp only [List.length_cons, getFrom]
    rw [Nat.add_zero] at h0
    rw [h0]
    have := getFrom_eq g v xs (i + 1) fun j y hy => by
      have := h (j + 1) y (by simpa using hy)
      rw [show i + 1 + j = i + (j + 1) by omega]; exact this
    simp only [Res.bind, this]

/-! ### Growth -/

theorem Rows.resize_spec {α : Type} (r : Rows α) {old new : Nat} (hc : old ≤ r.cap) (hn : old ≤ new) :
    r.resize old new = .ok ⟨r.valid, fun j => if j < old then r.data j else none, new⟩ := by
  have : min old new = old := Nat.min_eq_left hn
  simp only [Rows.resize, this, if_pos hc]

/-- What a growth keeps. -/
structure Grown (t : Ty) (v v' : Vec t) (old new : Nat) : Prop where
  fits : Fits t v' new
  keep : ∀ j, j < old → Live t v j → Live t v' j ∧ get t v' j = get t v j

structure Growns (ts : List Ty) (v v' : Vecs ts) (old new : Nat) : Prop where
  fits : Fitss ts v' new
  keep : ∀ j, j < old → Lives ts v j → Lives ts v' j ∧ gets ts v' j = gets ts v j

mutual
theorem grow_spec : (t : Ty) → noArray t = true → ∀ {v : Vec t} {c old new : Nat}, Fits t v c → 0 < c → old ≤ c → old ≤ new →
    ∃ v', grow t 1 old new v = .ok v' ∧ Grown t v v' old new
  | .leaf k, _, v, c, old, new, hf, h0, ho, hn => by
    simp only [Fits] at hf
    refine ⟨_, by simp only [grow, Nat.mul_one]; exact Rows.resize_spec v (by omega) hn, ?_, ?_⟩
    · simp only [Fits]
    · intro j hj hl
      simp only [Live] at hl ⊢
      simp only [get, Rows.read]
      constructor
      · refine ⟨by omega, fun hv => ?_⟩
        obtain ⟨a, ha⟩ := hl.2 hv
        exact ⟨a, by simp only [if_pos hj, ha]⟩
      · by_cases hv : v.valid j = true
        · obtain ⟨a, ha⟩ := hl.2 hv
          simp only [hv, if_pos hj, ha, if_pos hl.1, if_pos (show j < new by omega)]
        · simp only [hv]
          rfl
  | .list t, ht, v, c, old, new, hf, h0, ho, hn => by
    simp only [Fits] at hf
    obtain ⟨hf1, hf2, hf3, hf4⟩ := hf
    have hr := Rows.resize_spec v.rows (old := old) (new := new) (by omega) hn
    refine ⟨_, by simp only [grow, Nat.mul_one, hr, Res.bind]; rfl, ?_, ?_⟩
    · simp only [Fits]
      exact ⟨trivial, hf2, hf3, fun _ => hf4 h0⟩
    · intro j hj hl
      simp only [Live] at hl ⊢
      simp only [get, Rows.read]
      constructor
      · refine ⟨by omega, fun hv => ?_⟩
        obtain ⟨e, ha, h2⟩ := hl.2 hv
        exact ⟨e, by simp only [if_pos hj, ha], h2⟩
      · by_cases hv : v.rows.valid j = true
        · obtain ⟨a, ha, _⟩ := hl.2 hv
          simp only [hv, if_pos hj, ha, if_pos hl.1, if_pos (show j < new by omega)]
        · simp only [hv]
          rfl
  | .array _ _, ht, _, _, _, _, _, _, _, _ => by simp only [noArray] at ht; exact nomatch ht
  | .struct ts, ht, v, c, old, new, hf, h0, ho, hn => by
    simp only [noArray] at ht
    simp only [Fits] at hf
    obtain ⟨w, hw, hg⟩ := grows_spec ts ht hf h0 ho hn
    refine ⟨_, by simp only [grow, hw, Res.bind]; rfl, ?_, ?_⟩
    · simp only [Fits]; exact hg.fits
    · intro j hj hl
      simp only [Live] at hl ⊢
      simp only [get]
      constructor
      · exact (hg.keep j hj hl).1
      · simp only [(hg.keep j hj hl).2]
theorem grows_spec : (ts : List Ty) → noArrays ts = true → ∀ {v : Vecs ts} {c old new : Nat}, Fitss ts v c → 0 < c → old ≤ c → old ≤ new →
    ∃ v', grows ts 1 old new v = .ok v' ∧ Growns ts v v' old new
  | [], _, v, c, old, new, _, _, _, _ => ⟨(), by simp only [grows], by simp only [Fitss], fun j _ _ => by simp only [Lives, gets]; exact ⟨trivial, trivial⟩⟩
  | t :: ts, ht, v, c, old, new, hf, h0, ho, hn => by
    simp only [noArrays, Bool.and_eq_true] at ht
    simp only [Fitss] at hf
    obtain ⟨a, ha, hga⟩ := grow_spec t ht.1 hf.1 h0 ho hn
    obtain ⟨b, hb, hgb⟩ := grows_spec ts ht.2 hf.2 h0 ho hn
    refine ⟨(a, b), by simp only [grows, ha, hb, Res.bind], by simp only [Fitss]; exact ⟨hga.fits, hgb.fits⟩, ?_⟩
    intro j hj hl
    simp only [Lives] at hl ⊢
    obtain ⟨h1, h2⟩ := hga.keep j hj hl.1
    obtain ⟨h3, h4⟩ := hgb.keep j hj hl.2
    exact ⟨⟨h1, h3⟩, by simp only [gets, h2, h4]⟩
end

theorem resize_spec (t : Ty) (ht : noArray t = true) {v : Vec t} {c old new : Nat} (hf : Fits t v c) (h0 : 0 < c) (ho : old ≤ c) (hn : old ≤ new) (hx : old = new → c = new) :
    ∃ v', resize t old new v = .ok v' ∧ Grown t v v' old new := by
  by_cases h : old = new
  · refine ⟨v, by simp only [resize, if_pos h], hx h ▸ hf, fun j _ hl => ⟨hl, rfl⟩⟩
  · simp only [resize, if_neg h]; exact grow_spec t ht hf h0 ho hn

/-! ### Writing -/

/-- What a write does. -/
structure Written (t : Ty) (v v' : Vec t) (c i : Nat) (x : Val t) : Prop where
  fits : Fits t v' c
  live : Live t v' i
  read : get t v' i = .ok x
  keep : ∀ j, j ≠ i → Live t v j → Live t v' j ∧ get t v' j = get t v j

structure Writtens (ts : List Ty) (v v' : Vecs ts) (c i : Nat) (x : Vals ts) : Prop where
  fits : Fitss ts v' c
  live : Lives ts v' i
  read : gets ts v' i = .ok x
  keep : ∀ j, j ≠ i → Lives ts v j → Lives ts v' j ∧ gets ts v' j = gets ts v j

/-- What it does at every type and row. -/
def Writes (t : Ty) : Prop := ∀ (v : Vec t) (c i : Nat) (x : Val t), Fits t v c → i < c → Sized t x → ∃ v', set t v i x = .ok v' ∧ Written t v v' c i x

theorem double_spec (t : Ty) (ht : noArray t = true) {v : Vec t} {c s : Nat} (hf : Fits t v c) (hs : s ≤ c) (hc : 0 < c) :
    ∃ v' c', double (resize t) (s + 1) c v = .ok (v', c') ∧ Fits t v' c' ∧ s < c' ∧ c ≤ c' ∧ ∀ j, j < s → Live t v j → Live t v' j ∧ get t v' j = get t v j := by
  rw [double]
  by_cases h : s + 1 ≤ c
  · exact ⟨v, c, by simp only [if_pos h], hf, by omega, by omega, fun j _ hl => ⟨hl, rfl⟩⟩
  · rw [if_neg h, if_neg (by omega)]
    obtain ⟨w, hw, hg⟩ := resize_spec t ht hf hc (Nat.le_refl c) (show c ≤ c * 2 by omega) (by omega)
    rw [bindOk _ hw, double, if_pos (by omega)]
    exact ⟨w, c * 2, rfl, hg.fits, by omega, by omega, fun j hj hl => hg.keep j (by omega) hl⟩

/-- Elements pushed into a list's child. -/
theorem pushAll_spec (t : Ty) (ht : noArray t = true) (hw : Writes t) : ∀ (xs : List (Val t)) (l : Lists (Vec t)), (∀ x ∈ xs, Sized t x) →
    Fits t l.child l.ccap → l.size ≤ l.ccap → 0 < l.ccap →
    ∃ l' : Lists (Vec t), pushAll (resize t) (set t) xs l = .ok l' ∧ l'.rows = l.rows ∧ Fits t l'.child l'.ccap ∧ l'.size = l.size + xs.length ∧ l'.size ≤ l'.ccap ∧
      0 < l'.ccap ∧ (∀ j, j < l.size → Live t l.child j → Live t l'.child j ∧ get t l'.child j = get t l.child j) ∧
      ∀ (j : Nat) x, xs[j]? = some x → Live t l'.child (l.size + j) ∧ get t l'.child (l.size + j) = .ok x
  | [], l, _, hf, hs, hc => ⟨l, rfl, rfl, hf, rfl, hs, hc, fun j _ hl => ⟨hl, rfl⟩, fun j x h => by simp at h⟩
  | x :: xs, l, hx, hf, hs, hc => by
    obtain ⟨v, c, hd, hfv, hsc, hcc, hk⟩ := double_spec t ht hf hs hc
    obtain ⟨w, hset, hwr⟩ := hw _ _ _ x hfv hsc (hx x (List.mem_cons_self ..))
    obtain ⟨l', h1, h2, h3, h4, h5, h6, h7, h8⟩ := pushAll_spec t ht hw xs { l with child := w, ccap := c, size := l.size + 1 }
      (fun y hy => hx y (List.mem_cons_of_mem _ hy)) hwr.fits (Nat.succ_le_of_lt hsc) (by simp only; omega)
    refine ⟨l', ?_, h2, h3, by simp only [h4, List.length_cons]; omega, h5, h6, ?_, ?_⟩
    · simp only [pushAll]; rw [bindOk _ hd]; simp only; rw [bindOk _ hset]; exact h1
    · intro j hj hl
      obtain ⟨k1, k2⟩ := hk j hj hl
      obtain ⟨k3, k4⟩ := hwr.keep j (by omega) k1
      obtain ⟨k5, k6⟩ := h7 j (by simp only; omega) k3
      exact ⟨k5, by rw [k6]; simp only; rw [k4, k2]⟩
    · intro j y hy
      cases j with
      | zero =>
        simp only [List.getElem?_cons_zero, Option.some.injEq] at hy
        subst hy
        obtain ⟨k5, k6⟩ := h7 l.size (by simp only; omega) hwr.live
        exact ⟨k5, by rw [Nat.add_zero, k6]; exact hwr.read⟩
      | succ j =>
        have := h8 j y (by simpa using hy)
        simp only at this
        rw [show l.size + (j + 1) = l.size + 1 + j by omega]; exact this

/-- Elements written in a row. -/
theorem setFrom_spec (t : Ty) (hw : Writes t) : ∀ (xs : List (Val t)) (v : Vec t) (i c : Nat), (∀ x ∈ xs, Sized t x) → Fits t v c → i + xs.length ≤ c →
    ∃ v' : Vec t, setFrom (set t) xs i v = .ok v' ∧ Fits t v' c ∧ (∀ (j : Nat) x, xs[j]? = some x → Live t v' (i + j) ∧ get t v' (i + j) = .ok x) ∧
      ∀ j, (j < i ∨ i + xs.length ≤ j) → Live t v j → Live t v' j ∧ get t v' j = get t v j
  | [], v, i, c, _, hf, _ => ⟨v, rfl, hf, fun j x h => by simp at h, fun j _ hl => ⟨hl, rfl⟩⟩
  | x :: xs, v, i, c, hx, hf, hi => by
    simp only [List.length_cons] at hi
    obtain ⟨w, hset, hwr⟩ := hw _ _ i x hf (by omega) (hx x (List.mem_cons_self ..))
    obtain ⟨v', h1, h2, h3, h4⟩ := setFrom_spec t hw xs w (i + 1) c (fun y hy => hx y (List.mem_cons_of_mem _ hy)) hwr.fits (by omega)
    refine ⟨v', by simp only [setFrom]; rw [bindOk _ hset]; exact h1, h2, ?_, ?_⟩
    · intro j y hy
      cases j with
      | zero =>
        simp only [List.getElem?_cons_zero, Option.some.injEq] at hy
        subst hy
        obtain ⟨k5, k6⟩ := h4 i (Or.inl (by omega)) hwr.live
        exact ⟨k5, by rw [Nat.add_zero, k6]; exact hwr.read⟩
      | succ j =>
        have := h3 j y (by simpa using hy)
        rw [show i + (j + 1) = i + 1 + j by omega]; exact this
    · intro j hj hl
      simp only [List.length_cons] at hj
      obtain ⟨k1, k2⟩ := hwr.keep j (by omega) hl
      obtain ⟨k3, k4⟩ := h4 j (by omega) k1
      exact ⟨k3, by rw [k4, k2]⟩

theorem mark_self (f : Nat → Bool) (i : Nat) (b : Bool) : mark f i b i = b := by simp [mark]
theorem mark_ne (f : Nat → Bool) {i j : Nat} (b : Bool) (h : j ≠ i) : mark f i b j = f j := by simp [mark, h]

theorem sized_null : (t : Ty) → Sized t (null t)
  | .leaf _ => by simp only [Sized]
  | .list _ => by simp only [null, Sized]
  | .array _ _ => by simp only [null, Sized]
  | .struct _ => by simp only [null, Sized]
theorem sizeds_nulls : (ts : List Ty) → Sizeds ts (nulls ts)
  | [] => by simp only [Sizeds]
  | t :: ts => by simp only [nulls, Sizeds]; exact ⟨sized_null t, sizeds_nulls ts⟩

/-- The rows of a list vector after a write of an entry. -/
theorem list_written {t : Ty} {v l : Lists (Vec t)} {c i : Nat} {b : Bool} {e : Nat × Nat} {x : Val (.list t)}
    (hf : Fits (.list t) v c) (hi : i < c) (hr : l.rows = v.rows) (hfl : Fits t l.child l.ccap) (hs : l.size ≤ l.ccap) (hc : 0 < l.ccap) (hsz : v.size ≤ l.size)
    (hk : ∀ j, j < v.size → Live t v.child j → Live t l.child j ∧ get t l.child j = get t v.child j)
    (hb : b = true → e.1 + e.2 ≤ l.size ∧ ∀ j, e.1 ≤ j → j < e.1 + e.2 → Live t l.child j)
    (hx : (if b = true then (getFrom (get t) l.child e.1 e.2).bind fun xs => .ok (some xs) else .ok none) = .ok x) :
    ∃ v', ((Rows.write { l.rows with valid := mark l.rows.valid i b } i e).bind fun r => (.ok { l with rows := r } : Res (Lists (Vec t)))) = .ok v' ∧
      Written (.list t) v v' c i x := by
  simp only [Fits] at hf
  obtain ⟨hf1, hf2, hf3, hf4⟩ := hf
  have hw : Rows.write { l.rows with valid := mark l.rows.valid i b } i e = .ok ⟨mark v.rows.valid i b, fun j => if j = i then some e else v.rows.data j, v.rows.cap⟩ := by
    simp only [Rows.write, hr, if_pos (show i < v.rows.cap by omega)]
  refine ⟨_, by rw [bindOk _ hw], ?_, ?_, ?_, ?_⟩
  · simp only [Fits]; exact ⟨hf1, hfl, hs, fun _ => hc⟩
  · simp only [Live, mark_self]
    exact ⟨by omega, fun h => ⟨e, by simp, (hb h).1, (hb h).2⟩⟩
  · simp only [get, mark_self, Rows.read, if_pos (show i < v.rows.cap by omega), if_true, Res.bind]
    exact hx
  · intro j hj hl
    simp only [Live] at hl ⊢
    simp only [get, mark_ne _ _ hj, Rows.read, if_neg hj]
    constructor
    · refine ⟨hl.1, fun h => ?_⟩
      obtain ⟨e', h2, h3, h4⟩ := hl.2 h
      exact ⟨e', h2, by omega, fun k k1 k2 => (hk k (by omega) (h4 k k1 k2)).1⟩
    · by_cases h : v.rows.valid j = true
      · obtain ⟨e', h2, h3, h4⟩ := hl.2 h
        simp only [h, if_pos hl.1, h2, Res.bind]
        rw [getFrom_congr (get t) l.child v.child e'.2 e'.1 fun k k1 k2 => (hk k (by omega) (h4 k k1 k2)).2]
      · simp only [h]
        rfl

/-- The rows of an array vector after a write of its elements. -/
theorem array_written {t : Ty} {n : Nat} (hw : Writes t) {v : Arrays (Vec t)} {c i : Nat} (xs : List (Val t)) (b : Bool)
    (hf : Fits (.array t n) v c) (hi : i < c) (hx : ∀ x ∈ xs, Sized t x) (hn : xs.length = n) :
    ∃ v', ((setFrom (set t) xs (i * n) v.child).bind fun c => (.ok { v with valid := mark v.valid i b, child := c } : Res (Arrays (Vec t)))) = .ok v' ∧
      Written (.array t n) v v' c i (if b then some xs else none) := by
  simp only [Fits] at hf
  have hin : (i + 1) * n ≤ c * n := Nat.mul_le_mul_right n hi
  rw [Nat.add_mul, Nat.one_mul] at hin
  obtain ⟨w, h1, h2, h3, h4⟩ := setFrom_spec t hw xs v.child (i * n) (c * n) hx hf (by omega)
  refine ⟨_, by rw [bindOk _ h1], ?_, ?_, ?_, ?_⟩
  · simp only [Fits]; exact h2
  · simp only [Live, mark_self]
    intro _ j hj1 hj2
    have hl : j - i * n < xs.length := by omega
    have := (h3 (j - i * n) (xs[j - i * n]) (List.getElem?_eq_getElem hl)).1
    rwa [show i * n + (j - i * n) = j by omega] at this
  · simp only [get, mark_self]
    cases b with
    | false => rfl
    | true =>
      have := getFrom_eq (get t) w xs (i * n) fun j x hjx => (h3 j x hjx).2
      rw [hn] at this
      simp only [this, Res.bind, if_true]
  · intro j hj hl
    simp only [Live] at hl ⊢
    simp only [get, mark_ne _ _ hj]
    have hout : ∀ k, j * n ≤ k → k < j * n + n → (k < i * n ∨ i * n + xs.length ≤ k) := by
      intro k k1 k2
      rcases Nat.lt_or_gt_of_ne hj with h | h
      · have : (j + 1) * n ≤ i * n := Nat.mul_le_mul_right n h
        rw [Nat.add_mul, Nat.one_mul] at this
        left; omega
      · have : (i + 1) * n ≤ j * n := Nat.mul_le_mul_right n h
        rw [Nat.add_mul, Nat.one_mul] at this
        right; omega
    constructor
    · intro h k k1 k2
      exact (h4 k (hout k k1 k2) (hl h k k1 k2)).1
    · by_cases h : v.valid j = true
      · simp only [h]
        rw [getFrom_congr (get t) w v.child n (j * n) fun k k1 k2 => (h4 k (hout k k1 k2) (hl h k k1 k2)).2]
      · simp only [h]
        rfl

theorem usable_handled {k : Kind} (h : k.usable = true) : k.handled = true := by
  cases k <;> first | rfl | cases h

mutual
theorem set_spec : (t : Ty) → plain t = true → Writes t
  | .leaf k, ht => by
    intro v c i x hf hi hx
    simp only [plain] at ht
    replace ht := usable_handled ht
    simp only [Fits] at hf
    cases x with
    | none =>
      refine ⟨{ v with valid := mark v.valid i false }, by simp only [set], ?_, ?_, ?_, ?_⟩
      · simp only [Fits]; exact hf
      · simp only [Live, mark_self]; exact ⟨by omega, nofun⟩
      · simp only [get, mark_self]; rfl
      · intro j hj hl
        simp only [Live, get, mark_ne _ _ hj] at hl ⊢
        exact ⟨hl, rfl⟩
    | some a =>
      have hw : Rows.write { v with valid := mark v.valid i true } i a = .ok ⟨mark v.valid i true, fun j => if j = i then some a else v.data j, v.cap⟩ := by
        simp only [Rows.write, if_pos (show i < v.cap by omega)]
      refine ⟨_, by simp only [set, ht, if_true]; exact hw, ?_, ?_, ?_, ?_⟩
      · simp only [Fits]; exact hf
      · simp only [Live, mark_self]; exact ⟨by omega, fun _ => ⟨a, by simp⟩⟩
      · simp only [get, mark_self, if_true, ht, Rows.read, if_pos (show i < v.cap by omega), Res.bind]
      · intro j hj hl
        simp only [Live, get, mark_ne _ _ hj, Rows.read, if_neg hj] at hl ⊢
        exact ⟨hl, trivial⟩
  | .list t, ht => by
    intro v c i x hf hi hx
    simp only [plain, Bool.and_eq_true] at ht
    have hf' := hf
    simp only [Fits] at hf'
    obtain ⟨hf1, hf2, hf3, hf4⟩ := hf'
    have hw := set_spec t ht.1
    cases x with
    | none =>
      by_cases hsa : hasSA t = true
      · obtain ⟨l, h1, h2, h3, h4, h5, h6, h7, _⟩ := pushAll_spec t ht.2 hw [null t] v (fun x hx => by simp only [List.mem_singleton] at hx; subst hx; exact sized_null t) hf2 hf3 (hf4 (by omega))
        obtain ⟨v', k1, k2⟩ := list_written (b := false) (e := (v.size, 1)) (x := none) hf hi h2 h3 h5 h6 (by omega) h7 nofun (by simp)
        exact ⟨v', by simp only [set, hsa, if_true]; rw [bindOk _ h1]; exact k1, k2⟩
      · refine ⟨_, by simp only [set, hsa]; rfl, ?_, ?_, ?_, ?_⟩
        · simp only [Fits]; exact ⟨hf1, hf2, hf3, hf4⟩
        · simp only [Live, mark_self]; exact ⟨by omega, nofun⟩
        · simp only [get, mark_self]; rfl
        · intro j hj hl
          simp only [Live, get, mark_ne _ _ hj, Rows.read] at hl ⊢
          exact ⟨hl, trivial⟩
    | some xs =>
      simp only [Sized] at hx
      obtain ⟨l, h1, h2, h3, h4, h5, h6, h7, h8⟩ := pushAll_spec t ht.2 hw xs v hx hf2 hf3 (hf4 (by omega))
      obtain ⟨v', k1, k2⟩ := list_written (b := true) (e := (v.size, xs.length)) (x := some xs) hf hi h2 h3 h5 h6 (by omega) h7
        (fun _ => ⟨by simp only; omega, fun j j1 j2 => by
          simp only at j1 j2
          have hl : j - v.size < xs.length := by omega
          have := (h8 (j - v.size) _ (List.getElem?_eq_getElem hl)).1
          rwa [show v.size + (j - v.size) = j by omega] at this⟩)
        (by simp only [if_true]; rw [bindOk _ (getFrom_eq (get t) l.child xs v.size fun j x hjx => (h8 j x hjx).2)])
      exact ⟨v', by simp only [set]; rw [bindOk _ h1]; exact k1, k2⟩
  | .array t n, ht => by
    intro v c i x hf hi hx
    simp only [plain] at ht
    have hw := set_spec t ht
    cases x with
    | none =>
      obtain ⟨v', h1, h2⟩ := array_written hw (List.replicate n (null t)) false hf hi (fun x hx => by
        rw [List.eq_of_mem_replicate hx]; exact sized_null t) (by simp)
      exact ⟨v', by simp only [set]; exact h1, by simpa using h2⟩
    | some xs =>
      simp only [Sized] at hx
      obtain ⟨v', h1, h2⟩ := array_written hw xs true hf hi hx.2 hx.1
      exact ⟨v', by simp only [set, if_pos (show n ≤ xs.length by omega), List.take_of_length_le (show xs.length ≤ n by omega)]; exact h1, by simpa using h2⟩
  | .struct ts, ht => by
    intro v c i x hf hi hx
    simp only [plain] at ht
    simp only [Fits] at hf
    cases x with
    | none =>
      obtain ⟨w, h1, h2⟩ := sets_spec ts ht (x := nulls ts) hf hi (sizeds_nulls ts)
      refine ⟨_, by simp only [set]; rw [bindOk _ h1], ?_, ?_, ?_, ?_⟩
      · simp only [Fits]; exact h2.fits
      · simp only [Live]; exact h2.live
      · simp only [get, mark_self]; rfl
      · intro j hj hl
        simp only [Live, get, mark_ne _ _ hj] at hl ⊢
        exact ⟨(h2.keep j hj hl).1, by simp only [(h2.keep j hj hl).2]⟩
    | some xs =>
      simp only [Sized] at hx
      obtain ⟨w, h1, h2⟩ := sets_spec ts ht (x := xs) hf hi hx
      refine ⟨_, by simp only [set]; rw [bindOk _ h1], ?_, ?_, ?_, ?_⟩
      · simp only [Fits]; exact h2.fits
      · simp only [Live]; exact h2.live
      · simp only [get, mark_self, if_true]; rw [bindOk _ h2.read]
      · intro j hj hl
        simp only [Live, get, mark_ne _ _ hj] at hl ⊢
        exact ⟨(h2.keep j hj hl).1, by simp only [(h2.keep j hj hl).2]⟩
theorem sets_spec : (ts : List Ty) → plains ts = true → ∀ {v : Vecs ts} {c i : Nat} {x : Vals ts}, Fitss ts v c → i < c → Sizeds ts x →
    ∃ v', sets ts v i x = .ok v' ∧ Writtens ts v v' c i x
  | [], _, v, c, i, x, _, _, _ => ⟨(), by simp only [sets], by simp only [Fitss], by simp only [Lives], by simp only [gets], fun j _ _ => by simp only [Lives, gets]; exact ⟨trivial, trivial⟩⟩
  | t :: ts, ht, v, c, i, x, hf, hi, hx => by
    simp only [plains, Bool.and_eq_true] at ht
    simp only [Fitss] at hf
    simp only [Sizeds] at hx
    obtain ⟨a, ha, wa⟩ := set_spec t ht.1 _ _ _ _ hf.1 hi hx.1
    obtain ⟨b, hb, wb⟩ := sets_spec ts ht.2 hf.2 hi hx.2
    refine ⟨(a, b), by simp only [sets]; rw [bindOk _ ha, bindOk _ hb], ?_, ?_, ?_, ?_⟩
    · simp only [Fitss]; exact ⟨wa.fits, wb.fits⟩
    · simp only [Lives]; exact ⟨wa.live, wb.live⟩
    · simp only [gets]; rw [bindOk _ wa.read, bindOk _ wb.read]
    · intro j hj hl
      simp only [Lives] at hl ⊢
      obtain ⟨h1, h2⟩ := wa.keep j hj hl.1
      obtain ⟨h3, h4⟩ := wb.keep j hj hl.2
      exact ⟨⟨h1, h3⟩, by simp only [gets, h2, h4]⟩
end

/-! ### A new vector -/

mutual
theorem make_fits : (t : Ty) → (c : Nat) → Fits t (make t c) c
  | .leaf _, c => by simp only [make, Fits, Rows.new]
  | .list t, c => by
    simp only [make, Fits, Rows.new]
    exact ⟨trivial, make_fits t c, Nat.zero_le _, id⟩
  | .array t n, c => by simp only [make, Fits]; exact make_fits t (c * n)
  | .struct ts, c => by simp only [make, Fits]; exact makes_fits ts c
theorem makes_fits : (ts : List Ty) → (c : Nat) → Fitss ts (makes ts c) c
  | [], c => by simp only [Fitss]
  | t :: ts, c => by simp only [makes, Fitss]; exact ⟨make_fits t c, makes_fits ts c⟩
end

mutual
theorem make_live : (t : Ty) → plain t = true → (c i : Nat) → i < c → Live t (make t c) i ∧ get t (make t c) i = .ok (zero t)
  | .leaf k, ht, c, i, hi => by
    simp only [plain] at ht
    replace ht := usable_handled ht
    simp only [make, Live, get, Rows.new, Rows.read, if_pos hi, zero, ht, Res.bind, if_true]
    exact ⟨⟨hi, fun _ => ⟨_, rfl⟩⟩, trivial⟩
  | .list t, _, c, i, hi => by
    simp only [make, Live, get, Rows.new, Rows.read, if_pos hi, zero, Res.bind, if_true, getFrom]
    exact ⟨⟨hi, fun _ => ⟨_, rfl, Nat.le_refl _, fun j h1 h2 => by simp only at h2; omega⟩⟩, trivial⟩
  | .array t n, ht, c, i, hi => by
    simp only [plain] at ht
    have hin : (i + 1) * n ≤ c * n := Nat.mul_le_mul_right n hi
    rw [Nat.add_mul, Nat.one_mul] at hin
    simp only [make, Live, get, zero, if_true]
    refine ⟨fun _ j h1 h2 => (make_live t ht (c * n) j (by omega)).1, ?_⟩
    have := getFrom_eq (get t) (make t (c * n)) (List.replicate n (zero t)) (i * n) fun j x hx => by
      obtain ⟨h1, h2⟩ := List.getElem?_eq_some_iff.1 hx
      rw [List.getElem_replicate] at h2
      rw [List.length_replicate] at h1
      rw [← h2]
      exact (make_live t ht (c * n) _ (by omega)).2
    rw [List.length_replicate] at this
    rw [bindOk _ this]
  | .struct ts, ht, c, i, hi => by
    simp only [plain] at ht
    have := makes_live ts ht c i hi
    simp only [make, Live, get, zero, if_true]
    exact ⟨this.1, bindOk _ this.2⟩
theorem makes_live : (ts : List Ty) → plains ts = true → (c i : Nat) → i < c → Lives ts (makes ts c) i ∧ gets ts (makes ts c) i = .ok (zeros ts)
  | [], _, c, i, _ => by simp only [Lives, gets, zeros]; exact ⟨trivial, trivial⟩
  | t :: ts, ht, c, i, hi => by
    simp only [plains, Bool.and_eq_true] at ht
    have h1 := make_live t ht.1 c i hi
    have h2 := makes_live ts ht.2 c i hi
    simp only [makes, Lives, gets, zeros]
    exact ⟨⟨h1.1, h2.1⟩, by rw [bindOk _ h1.2, bindOk _ h2.2]⟩
end

/-- A history of writes. -/
theorem writes_spec (t : Ty) (ht : plain t = true) : ∀ (ws : List (Nat × Val t)) (v : Vec t) (c : Nat) (f : Nat → Val t), Fits t v c →
    (∀ w ∈ ws, w.1 < c ∧ Sized t w.2) → (∀ r, r < c → Live t v r ∧ get t v r = .ok (f r)) →
    ∃ v', writes t v ws = .ok v' ∧ Fits t v' c ∧ ∀ r, r < c → Live t v' r ∧ get t v' r = .ok (last (f r) ws r)
  | [], v, c, f, hf, _, h => ⟨v, rfl, hf, h⟩
  | w :: ws, v, c, f, hf, hw, h => by
    obtain ⟨h1, h2⟩ := hw w (List.mem_cons_self ..)
    obtain ⟨u, hu, hwr⟩ := set_spec t ht v c w.1 w.2 hf h1 h2
    obtain ⟨v', h3, h4, h5⟩ := writes_spec t ht ws u c (fun r => if w.1 = r then w.2 else f r) hwr.fits
      (fun x hx => hw x (List.mem_cons_of_mem _ hx)) (fun r hr => by
        by_cases e : w.1 = r
        · subst e; exact ⟨hwr.live, by simp only [if_true]; exact hwr.read⟩
        · obtain ⟨k1, k2⟩ := hwr.keep r (fun h => e h.symm) (h r hr).1
          exact ⟨k1, by simp only [if_neg e]; rw [k2]; exact (h r hr).2⟩)
    exact ⟨v', by simp only [writes]; rw [bindOk _ hu]; exact h3, h4, fun r hr => by simpa only [last] using h5 r hr⟩
end Verif.VecVal
