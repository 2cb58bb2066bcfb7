import Verif.Arrow.Read
/-! Every well-formed array without offsets in its structs is taken in as the rows it has. -/
namespace Verif.Arrow
open Verif
open Verif.Table
open Verif.NestCol

theorem AArr.Wf.num_inv {a : AArr} (h : a.Wf .num) : ∃ hd vals, a = .num hd vals ∧ hd.Wf ∧ hd.off + hd.len ≤ vals.length := by
  cases a with
  | num hd vals => exact ⟨hd, vals, rfl, h⟩
  | bool _ _ => exact absurd h (by simp [AArr.Wf])
  | str _ _ _ => exact absurd h (by simp [AArr.Wf])
  | list _ _ _ => exact absurd h (by simp [AArr.Wf])
  | array _ _ => exact absurd h (by simp [AArr.Wf])
  | struct _ _ => exact absurd h (by simp [AArr.Wf])
  | dict _ _ _ => exact absurd h (by simp [AArr.Wf])

theorem AArr.Wf.bool_inv {a : AArr} (h : a.Wf .bool) : ∃ hd data, a = .bool hd data ∧ hd.Wf ∧ hd.off + hd.len ≤ 8 * data.length := by
  cases a with
  | bool hd vals => exact ⟨hd, vals, rfl, h⟩
  | num _ _ => exact absurd h (by simp [AArr.Wf])
  | str _ _ _ => exact absurd h (by simp [AArr.Wf])
  | list _ _ _ => exact absurd h (by simp [AArr.Wf])
  | array _ _ => exact absurd h (by simp [AArr.Wf])
  | struct _ _ => exact absurd h (by simp [AArr.Wf])
  | dict _ _ _ => exact absurd h (by simp [AArr.Wf])

theorem AArr.Wf.str_inv {a : AArr} (h : a.Wf .str) : ∃ hd offs chars, a = .str hd offs chars ∧ hd.Wf ∧
    OffsetsOk offs hd.off hd.len chars.length ∧
      ∀ i < hd.len, ∀ a b, offs[hd.off + i]? = some a → offs[hd.off + i + 1]? = some b → b - a < 2 ^ 32 := by
  cases a with
  | str hd o c => exact ⟨hd, o, c, rfl, h⟩
  | num _ _ => exact absurd h (by simp [AArr.Wf])
  | bool _ _ => exact absurd h (by simp [AArr.Wf])
  | list _ _ _ => exact absurd h (by simp [AArr.Wf])
  | array _ _ => exact absurd h (by simp [AArr.Wf])
  | struct _ _ => exact absurd h (by simp [AArr.Wf])
  | dict _ _ _ => exact absurd h (by simp [AArr.Wf])

theorem AArr.Wf.list_inv {t : ATy} {a : AArr} (h : a.Wf (.list t)) : ∃ hd offs c, a = .list hd offs c ∧ hd.Wf ∧
    OffsetsOk offs hd.off hd.len c.hdr.len ∧ c.hdr.len < 2 ^ 31 ∧ c.Wf t := by
  cases a with
  | list hd o c => exact ⟨hd, o, c, rfl, h⟩
  | num _ _ => exact absurd h (by simp [AArr.Wf])
  | bool _ _ => exact absurd h (by simp [AArr.Wf])
  | str _ _ _ => exact absurd h (by simp [AArr.Wf])
  | array _ _ => exact absurd h (by simp [AArr.Wf])
  | struct _ _ => exact absurd h (by simp [AArr.Wf])
  | dict _ _ _ => exact absurd h (by simp [AArr.Wf])

theorem AArr.Wf.array_inv {k : Nat} {t : ATy} {a : AArr} (h : a.Wf (.array k t)) : ∃ hd c, a = .array hd c ∧ hd.Wf ∧
    (hd.off + hd.len) * k ≤ c.hdr.len ∧ c.Wf t := by
  cases a with
  | array hd c => exact ⟨hd, c, rfl, h⟩
  | num _ _ => exact absurd h (by simp [AArr.Wf])
  | bool _ _ => exact absurd h (by simp [AArr.Wf])
  | str _ _ _ => exact absurd h (by simp [AArr.Wf])
  | list _ _ _ => exact absurd h (by simp [AArr.Wf])
  | struct _ _ => exact absurd h (by simp [AArr.Wf])
  | dict _ _ _ => exact absurd h (by simp [AArr.Wf])

theorem AArr.Wf.struct_inv {ts : ATys} {a : AArr} (h : a.Wf (.struct ts)) : ∃ hd cs, a = .struct hd cs ∧ hd.Wf ∧
    cs.Wf ts (hd.off + hd.len) := by
  cases a with
  | struct hd c => exact ⟨hd, c, rfl, h⟩
  | num _ _ => exact absurd h (by simp [AArr.Wf])
  | bool _ _ => exact absurd h (by simp [AArr.Wf])
  | str _ _ _ => exact absurd h (by simp [AArr.Wf])
  | list _ _ _ => exact absurd h (by simp [AArr.Wf])
  | array _ _ => exact absurd h (by simp [AArr.Wf])
  | dict _ _ _ => exact absurd h (by simp [AArr.Wf])

/-- The header of a well-formed array. -/
theorem AArr.Wf.hdr {t : ATy} {a : AArr} (h : a.Wf t) : a.hdr.Wf := by
  cases t with
  | num => obtain ⟨_, _, rfl, h, _⟩ := h.num_inv; exact h
  | bool => obtain ⟨_, _, rfl, h, _⟩ := h.bool_inv; exact h
  | str => obtain ⟨_, _, _, rfl, h, _⟩ := h.str_inv; exact h
  | list t => obtain ⟨_, _, _, rfl, h, _⟩ := h.list_inv; exact h
  | array k t => obtain ⟨_, _, rfl, h, _⟩ := h.array_inv; exact h
  | struct ts => obtain ⟨_, _, rfl, h, _⟩ := h.struct_inv; exact h

theorem AArr.padded.hdr {a : AArr} (h : a.padded) : a.hdr.padded := by
  cases a <;> first | exact h | exact h.1

theorem AArr.whole.hdr {a : AArr} (h : a.whole) : a.hdr.off = 0 := by
  cases a <;> first | exact h | exact h.1

/-- Either there is room behind all validity buffers, or the array is read from its first row. -/
def Reads (a : AArr) (s : Nat) : Prop := a.padded ∨ (a.whole ∧ s = 0)

theorem Reads.hdr {a : AArr} {s : Nat} (h : Reads a s) : a.hdr.padded ∨ a.hdr.off + s = 0 := by
  rcases h with h | ⟨h1, h2⟩
  · exact .inl h.hdr
  · exact .inr (by rw [h1.hdr, h2])

theorem childNested_ok (n start : Nat) :
    childNested n start = some start ∨ (childNested n start = none ∧ start = 0) := by
  unfold childNested
  split
  · next h => exact .inr ⟨rfl, h.2⟩
  · exact .inl rfl

theorem reserveTy_ok {t : ATy} (h : t.hasArray = false) (cap need : Nat) : reserveTy t cap need = .ok () := by
  unfold reserveTy
  rw [resizeOk_plain need cap t h]
  split <;> rfl

mutual
theorem importA_ok : ∀ (t : ATy) (a : AArr) (cap n s : Nat) (nested : Option Nat) (pm : Option (List Bool)) (m : List Bool)
    (live : Nat → Prop), a.Wf t → a.noOffset → Reads a s → t.plainLists → (nested = some s ∨ (nested = none ∧ s = 0)) →
    s + n ≤ a.hdr.len → m.length = n → (∀ p, pm = some p → p.length = n ∧ ∀ i < n, live i → p[i]? = some true) →
    (∀ i < n, live i → m[i]? = some (a.hdr.valid (a.hdr.off + s + i))) →
    ∃ v, importA t a cap n nested pm 0 m = .ok v ∧ v.len = n ∧ ∀ i < n, live i → v.value i = a.value t (s + i)
  | .num, a, cap, n, s, nested, pm, m, live, hw, _, _, _, hs, hn, hm, _, hl => by
    obtain ⟨h, vals, rfl, h1, h2⟩ := hw.num_inv
    simp only [AArr.hdr] at hn hl
    obtain ⟨d, d1, d2, d3⟩ := slice_ok (l := vals) (o := h.off + s) (n := n) (by omega)
    refine ⟨.prim (mask m (d.map .num)), ?_, mask_length hm (by simpa using d2), ?_⟩
    · simp only [importA, effOff_eq hs, d1, Res.map'_ok]
    · intro i hi li
      have hv : i < d.length := by omega
      obtain ⟨x, hx⟩ : ∃ x, d[i]? = some x := ⟨_, List.getElem?_eq_getElem hv⟩
      have hx' := hx
      rw [d3 i hi, show h.off + s + i = h.off + (s + i) by omega] at hx'
      have hml := hl i hi li
      rw [show h.off + s + i = h.off + (s + i) by omega] at hml
      have hdx : (d.map Datum.num)[i]? = some (.num x) := by simp [hx]
      simp only [NVec.value, AArr.value, mask_get hml hdx, hx']
      cases h.valid (h.off + (s + i)) <;> rfl
  | .bool, a, cap, n, s, nested, pm, m, live, hw, _, _, _, hs, hn, hm, _, hl => by
    obtain ⟨h, data, rfl, h1, h2⟩ := hw.bool_inv
    simp only [AArr.hdr] at hn hl
    obtain ⟨d, d1, d2, d3⟩ := bitsOf_ok (bs := data) n (h.off + s) (by omega)
    refine ⟨.prim (mask m (d.map .bool)), ?_, mask_length hm (by simpa using d2), ?_⟩
    · simp only [importA, effOff_eq hs, d1, Res.map'_ok]
    · intro i hi li
      have hv : i < d.length := by omega
      obtain ⟨x, hx⟩ : ∃ x, d[i]? = some x := ⟨_, List.getElem?_eq_getElem hv⟩
      have hx' := hx
      rw [d3 i hi, show h.off + s + i = h.off + (s + i) by omega] at hx'
      have hml := hl i hi li
      rw [show h.off + s + i = h.off + (s + i) by omega] at hml
      have hdx : (d.map Datum.bool)[i]? = some (.bool x) := by simp [hx]
      simp only [NVec.value, AArr.value, mask_get hml hdx, hx']
      cases h.valid (h.off + (s + i)) <;> rfl
  | .str, a, cap, n, s, nested, pm, m, live, hw, _, _, _, hs, hn, hm, _, hl => by
    obtain ⟨h, offs, chars, rfl, h1, h2, h3⟩ := hw.str_inv
    simp only [AArr.hdr] at hn hl
    have hrow : ∀ i < n, ∃ a b, offs[h.off + s + i]? = some a ∧ offs[h.off + s + i + 1]? = some b ∧ a ≤ b ∧
        b ≤ chars.length ∧ b - a < 2 ^ 32 := by
      intro i hi
      obtain ⟨x, y, e1, e2, e3⟩ := offs_mono h2 1 (s + i) (by omega) (by omega)
      have e4 := offs_limit h2 (by omega) (i := s + i + 1) (by omega) (by rw [← Nat.add_assoc]; exact e2)
      have e5 := h3 (s + i) (by omega) x y e1 e2
      rw [show h.off + s + i = h.off + (s + i) by omega]
      exact ⟨x, y, e1, e2, e3, e4, e5⟩
    obtain ⟨cs, c1, c2, c3, c4⟩ := readStrs_ok (offs := offs) (chars := chars) m (h.off + s) fun i hi => by
      exact hrow i (by have := (List.getElem?_eq_some_iff.mp hi).1; omega)
    refine ⟨.prim cs, ?_, c2.trans hm, ?_⟩
    · simp only [importA, effOff_eq hs, c1, Res.map'_ok]
    · intro i hi li
      obtain ⟨x, y, e1, e2, _⟩ := hrow i hi
      have hml := hl i hi li
      have e1' := e1
      have e2' := e2
      rw [show h.off + s + i = h.off + (s + i) by omega] at hml e1' e2'
      simp only [NVec.value, AArr.value, e1', e2']
      cases hb : h.valid (h.off + (s + i)) with
      | false => rw [hb] at hml; rw [c3 i hml]; rfl
      | true => rw [hb] at hml; rw [c4 i x y hml e1 e2]; rfl
  | .list t, a, cap, n, s, nested, pm, m, live, hw, ho, hr, hp, hs, hn, hm, hpm, hl => by
    obtain ⟨h, offs, c, rfl, h1, h2, h3, h4⟩ := hw.list_inv
    have hrh := hr.hdr
    simp only [AArr.hdr] at hn hl hrh
    obtain ⟨m1, a1, a2, a3⟩ := again_ok h1 hn hrh hm hl
    obtain ⟨M1, M2⟩ := markOpt_ok a2 hpm a3
    obtain ⟨es, start, size, p1, p2, p3, p4, p5, p6⟩ := listParts_ok h2 h3 hn
    have hr' : Reads c start := by
      rcases hr with hr | ⟨hr, h0⟩
      · exact .inl hr.2
      · refine .inr ⟨hr.2.2, ?_⟩
        by_cases n0 : n = 0
        · exact (p4 n0).1
        · have e := p5 (by omega)
          rw [hr.1, h0, Nat.add_zero, ← List.head?_eq_getElem?, hr.2.1] at e
          exact (Option.some.inj e).symm
    obtain ⟨cm, q1, q2, q3⟩ := fresh_ok h4.hdr (show start + size ≤ c.hdr.len by omega) hr'.hdr
    obtain ⟨v, v1, v2, v3⟩ := importA_ok t c cap size start (childNested size start) none cm (fun _ => True) h4 ho hr' hp.2
      (childNested_ok _ _) p3 q2 (by simp) (fun i hi _ => q3 i hi)
    refine ⟨.list (mask (markOpt m1 pm) es) v, ?_, mask_length M1 p2, ?_⟩
    · simp only [importA, effOff_eq hs, a1, p1, Res.bind_ok, reserveTy_ok hp.1, q1, v1, Res.map'_ok]
    · intro i hi li
      obtain ⟨x, y, e1, e2, e3, e4, e5, e6⟩ := p6 i hi
      have hml := M2 i hi li
      rw [show h.off + s + i = h.off + (s + i) by omega] at hml
      simp only [NVec.value, AArr.value, mask_get hml e3, e1, e2]
      cases hb : h.valid (h.off + (s + i)) with
      | false => rfl
      | true =>
        simp only [if_true, orNull]
        rw [collect_congr (g := AArr.value t c) (p := x)]
        intro j hj
        rw [v3 _ (by omega) trivial]
        congr 1
        omega
  | .array k t, a, cap, n, s, nested, pm, m, live, hw, ho, hr, hp, hs, hn, hm, hpm, hl => by
    obtain ⟨h, c, rfl, h1, h2, h3⟩ := hw.array_inv
    have hrh := hr.hdr
    simp only [AArr.hdr] at hn hl hrh
    obtain ⟨m1, a1, a2, a3⟩ := again_ok h1 hn hrh hm hl
    obtain ⟨M1, M2⟩ := markOpt_ok a2 hpm a3
    have hroom : (h.off + s) * k + n * k ≤ c.hdr.len := by
      rw [← Nat.add_mul]
      exact Nat.le_trans (Nat.mul_le_mul_right k (by omega)) h2
    have hr' : Reads c ((h.off + s) * k) := by
      rcases hr with hr | ⟨hr, h0⟩
      · exact .inl hr.2
      · exact .inr ⟨hr.2, by rw [hr.1, h0]; simp⟩
    obtain ⟨cm, q1, q2, q3⟩ := fresh_ok h3.hdr hroom hr'.hdr
    have hsl : (spread k (markOpt m1 pm)).length = n * k := by rw [spread_length, M1]
    obtain ⟨v, v1, v2, v3⟩ := importA_ok t c (cap * k) (n * k) ((h.off + s) * k) (childNested (n * k) ((h.off + s) * k)) none
      (markNull cm (spread k (markOpt m1 pm))) (fun q => (markOpt m1 pm)[q / k]? = some true) h3 ho hr' hp
      (childNested_ok _ _) hroom (markNull_length q2 hsl) (by simp) (fun i hi li => by
        have hk : 0 < k := by
          rcases Nat.eq_zero_or_pos k with rfl | h
          · simp at hi
          · exact h
        refine markNull_get (q3 i hi) ?_
        rw [spread_get hk]
        exact li)
    refine ⟨.array k (markOpt m1 pm) v, ?_, M1, ?_⟩
    · simp only [importA, effOff_eq hs, a1, Res.bind_ok, q1, v1, Res.map'_ok]
    · intro i hi li
      have hml := M2 i hi li
      rw [show h.off + s + i = h.off + (s + i) by omega] at hml
      simp only [NVec.value, AArr.value, hml]
      cases hb : h.valid (h.off + (s + i)) with
      | false => rfl
      | true =>
        simp only [if_true, orNull]
        rw [collect_congr (g := AArr.value t c) (p := (h.off + (s + i)) * k)]
        intro j hj
        have hk : 0 < k := by omega
        have hd : (i * k + j) / k = i := by
          rw [Nat.mul_comm, Nat.mul_add_div hk, Nat.div_eq_of_lt hj, Nat.add_zero]
        have hlt : i * k + j < n * k := by
          have : (i + 1) * k ≤ n * k := Nat.mul_le_mul_right k (by omega)
          rw [Nat.succ_mul] at this
          omega
        rw [v3 _ hlt (by rw [hd, hml, hb])]
        congr 1
        rw [← Nat.add_assoc h.off, Nat.add_mul (h.off + s) i k]
        omega
  | .struct ts, a, cap, n, s, nested, pm, m, live, hw, ho, hr, hp, hs, hn, hm, hpm, hl => by
    obtain ⟨h, cs, rfl, h1, h2⟩ := hw.struct_inv
    simp only [AArr.hdr] at hn hl
    obtain ⟨ho1, ho2⟩ := ho
    have hr' : AArrs.padded cs ∨ (cs.whole ∧ s = 0) := by
      rcases hr with hr | ⟨hr, h0⟩
      · exact .inl hr.2
      · exact .inr ⟨hr.2, h0⟩
    obtain ⟨vs, v1, v2⟩ := importAs_ok ts cs cap n s nested m (h.off + h.len) h2 ho2 hr' hp hs (by omega) hm
    refine ⟨.struct m vs, ?_, hm, ?_⟩
    · simp only [importA, ho1, v1, Res.map'_ok]
    · intro i hi li
      have hml := hl i hi li
      rw [show h.off + s + i = h.off + (s + i) by omega] at hml
      simp only [NVec.value, AArr.value, hml]
      cases hb : h.valid (h.off + (s + i)) with
      | false => rfl
      | true =>
        simp only [if_true, orNull]
        rw [v2 i hi (by rw [hml, hb]), ho1, Nat.zero_add]
theorem importAs_ok : ∀ (ts : ATys) (as : AArrs) (cap n s : Nat) (nested : Option Nat) (m : List Bool) (N : Nat),
    as.Wf ts N → as.noOffset → (as.padded ∨ (as.whole ∧ s = 0)) → ts.plainLists → (nested = some s ∨ (nested = none ∧ s = 0)) →
    s + n ≤ N → m.length = n →
    ∃ vs, importAs ts as cap n nested 0 m = .ok vs ∧ ∀ i < n, m[i]? = some true → vs.values i = as.values ts (s + i)
  | .nil, as, cap, n, s, nested, m, N, hw, _, _, _, _, _, _ => by
    cases as with
    | nil => exact ⟨.nil, by simp [importAs], fun i _ _ => rfl⟩
    | cons a as => exact absurd hw (by simp [AArrs.Wf])
  | .cons t ts, as, cap, n, s, nested, m, N, hw, ho, hr, hp, hs, hn, hm => by
    cases as with
    | nil => exact absurd hw (by simp [AArrs.Wf])
    | cons a as =>
      obtain ⟨w1, w2, w3⟩ := hw
      have hr1 : Reads a s := by
        rcases hr with hr | ⟨hr, h0⟩
        · exact .inl hr.1
        · exact .inr ⟨hr.1, h0⟩
      have hr2 : AArrs.padded as ∨ (as.whole ∧ s = 0) := by
        rcases hr with hr | ⟨hr, h0⟩
        · exact .inl hr.2
        · exact .inr ⟨hr.2, h0⟩
      obtain ⟨cm, q1, q2, q3⟩ := fresh_ok w1.hdr (show s + n ≤ a.hdr.len by omega) hr1.hdr
      obtain ⟨v, v1, v2, v3⟩ := importA_ok t a cap n s nested (some m) (markNull cm m) (fun i => m[i]? = some true) w1 ho.1 hr1 hp.1 hs
        (by omega) (markNull_length q2 hm) (fun p hp => by cases hp; exact ⟨hm, fun i _ li => li⟩)
        (fun i hi li => markNull_get (q3 i hi) li)
      obtain ⟨vs, u1, u2⟩ := importAs_ok ts as cap n s nested m N w3 ho.2 hr2 hp.2 hs hn hm
      refine ⟨.cons v vs, ?_, ?_⟩
      · simp only [importAs, effOff_eq hs, q1, Res.bind_ok, v1, u1, Res.map'_ok]
      · intro i hi li
        simp only [NVecs.values, AArrs.values, v3 i hi li, u2 i hi li]
end

/-- A column of a chunk without offset. -/
theorem importCol_ok {t : ATy} {a : AArr} {n : Nat} (hw : a.Wf t) (ho : a.noOffset) (hr : a.padded ∨ a.whole) (hp : t.plainLists)
    (hn : n ≤ a.hdr.len) : ∃ v, importCol 0 n t a = .ok v ∧ v.len = n ∧ ∀ i < n, v.value i = a.value t i := by
  have hr' : Reads a 0 := hr.imp id fun h => ⟨h, rfl⟩
  obtain ⟨m, q1, q2, q3⟩ := fresh_ok hw.hdr (show 0 + n ≤ a.hdr.len by omega) hr'.hdr
  obtain ⟨v, v1, v2, v3⟩ := importA_ok t a n n 0 none none m (fun _ => True) hw ho hr' hp (.inr ⟨rfl, rfl⟩) (by omega) q2
    (by simp) (fun i hi _ => q3 i hi)
  refine ⟨v, ?_, v2, fun i hi => by simpa using v3 i hi trivial⟩
  simp only [importCol, q1, Res.bind_ok, v1]

/-- Without structs among the fields the offset of a struct works like the one of a list. -/
theorem importAs_parent : ∀ (ts : ATys) (as : AArrs) (cap n off : Nat) (m : List Bool), ts.noStruct →
    importAs ts as cap n none off m = importAs ts as cap n (some off) 0 m
  | .nil, as, cap, n, off, m, _ => by simp [importAs]
  | .cons t ts, as, cap, n, off, m, h => by
    cases as with
    | nil => simp [importAs]
    | cons a as =>
      have hts : ts.noStruct := by cases t <;> first | exact h | exact h.elim
      have hA : ∀ (pm : Option (List Bool)) (x : List Bool), importA t a cap n none pm off x = importA t a cap n (some off) pm 0 x := by
        intro pm x
        cases t with
        | struct _ => exact h.elim
        | num => cases a <;> simp [importA, effOff]
        | bool => cases a <;> simp [importA, effOff]
        | str => cases a <;> simp [importA, effOff]
        | list t => cases a <;> simp [importA, effOff]
        | array k t => cases a <;> simp [importA, effOff]
      simp only [importAs, importAs_parent ts as cap n off m hts, hA, effOff]

/-- A column of structs that start at any row. -/
theorem importStruct_ok {ts : ATys} {h : Hdr} {cs : AArrs} {n : Nat} (hw : (AArr.struct h cs).Wf (.struct ts)) (hf : ts.noStruct)
    (ho : cs.noOffset) (hr : (AArr.struct h cs).padded) (hp : ts.plainLists) (hn : n ≤ h.len) :
    ∃ v, importCol 0 n (.struct ts) (.struct h cs) = .ok v ∧ v.len = n ∧ ∀ i < n, v.value i = (AArr.struct h cs).value (.struct ts) i := by
  have hr' : Reads (.struct h cs) 0 := .inl hr
  obtain ⟨m, q1, q2, q3⟩ := fresh_ok hw.hdr (show 0 + n ≤ (AArr.struct h cs).hdr.len by simpa [AArr.hdr] using hn) hr'.hdr
  simp only [AArr.hdr] at q1 q3
  obtain ⟨vs, v1, v2⟩ := importAs_ok ts cs n n h.off (some h.off) m (h.off + h.len) hw.2 ho (.inl hr.2) hp (.inl rfl) (by omega) q2
  refine ⟨.struct m vs, ?_, q2, fun i hi => ?_⟩
  · simp only [importCol, AArr.hdr, q1, Res.bind_ok, importA, importAs_parent ts cs n n h.off m hf, v1, Res.map'_ok]
  · have hml := q3 i hi
    simp only [Nat.add_zero] at hml
    simp only [NVec.value, AArr.value, hml]
    cases hb : h.valid (h.off + i) with
    | false => rfl
    | true =>
      simp only [if_true, orNull]
      rw [v2 i hi (by rw [hml, hb])]

end Verif.Arrow
