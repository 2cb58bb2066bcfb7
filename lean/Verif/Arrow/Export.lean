import Verif.Arrow.Import
/-! Vectors that are handed over. -/
namespace Verif.Arrow
open Verif
open Verif.Table
open Verif.NestCol

theorem mkHdr_ok (fs : List Bool) : ∃ h, mkHdr fs = .ok h ∧ h.len = fs.length ∧ h.off = 0 ∧ h.Wf ∧
    ∀ i b, fs[i]? = some b → h.valid i = b := by
  obtain ⟨bs, h1, h2, h3⟩ := packBits_ok fs
  have hv : ∀ i b, fs[i]? = some b → (Hdr.mk fs.length ((fs.filter fun f => !f).length : Nat) 0 (some bs)).valid i = b := by
    intro i b hb
    have hi := (List.getElem?_eq_some_iff.mp hb).1
    simp only [Hdr.valid, h3 i hi, hb]
    cases b <;> rfl
  refine ⟨_, by unfold mkHdr; rw [h1]; rfl, rfl, rfl, ⟨?_, ?_⟩, hv⟩
  · intro bs' hb
    simp only [Option.some.injEq] at hb
    subst hb
    simp [h2]
  · intro h0 i hi
    simp only [Int.natCast_eq_zero, List.length_eq_zero_iff, List.filter_eq_nil_iff, Bool.not_eq_true', Bool.not_eq_false] at h0
    simp only at hi
    refine hv _ _ ?_
    rw [Nat.zero_add, List.getElem?_eq_getElem hi, h0 _ (List.getElem_mem hi)]

theorem nums_ok : ∀ cs : List (Cell Datum), (∀ c ∈ cs, IsNum c) → ∃ d, nums cs = .ok d ∧ d.length = cs.length ∧
    ∀ (i x : Nat), cs[i]? = some (some (.num x)) → d[i]? = some x
  | [], _ => ⟨[], rfl, rfl, by simp⟩
  | c :: cs, h => by
    obtain ⟨d, h1, h2, h3⟩ := nums_ok cs fun x hx => h x (List.mem_cons_of_mem _ hx)
    have hc := h c (by simp)
    match c, hc with
    | none, _ =>
      refine ⟨0 :: d, by simp [nums, numOf, h1], by simp [h2], fun i x hi => ?_⟩
      cases i with
      | zero => simp at hi
      | succ i => exact h3 i x hi
    | some (.num n), _ =>
      refine ⟨n :: d, by simp [nums, numOf, h1], by simp [h2], fun i x hi => ?_⟩
      cases i with
      | zero => simpa using hi
      | succ i => exact h3 i x hi

theorem bools_ok : ∀ cs : List (Cell Datum), (∀ c ∈ cs, IsBool c) → ∃ d, bools cs = .ok d ∧ d.length = cs.length ∧
    ∀ (i : Nat) (x : Bool), cs[i]? = some (some (.bool x)) → d[i]? = some x
  | [], _ => ⟨[], rfl, rfl, by simp⟩
  | c :: cs, h => by
    obtain ⟨d, h1, h2, h3⟩ := bools_ok cs fun x hx => h x (List.mem_cons_of_mem _ hx)
    have hc := h c (by simp)
    match c, hc with
    | none, _ =>
      refine ⟨true :: d, by simp [bools, boolOf, h1], by simp [h2], fun i x hi => ?_⟩
      cases i with
      | zero => simp at hi
      | succ i => exact h3 i x hi
    | some (.bool n), _ =>
      refine ⟨n :: d, by simp [bools, boolOf, h1], by simp [h2], fun i x hi => ?_⟩
      cases i with
      | zero => simpa using hi
      | succ i => exact h3 i x hi

/-- Neighbouring offsets of strings enclose the characters of the string. -/
theorem strs_ok : ∀ (cs : List (Cell Datum)) (last : Nat), (∀ c ∈ cs, IsStr c) →
    ∃ os ch, strs last cs = .ok (os, ch) ∧ os.length = cs.length ∧
      ∀ i < cs.length, ∃ a b, (last :: os)[i]? = some a ∧ (last :: os)[i + 1]? = some b ∧ last ≤ a ∧ a ≤ b ∧
        b ≤ last + ch.length ∧ b - a < 2 ^ 32 ∧
        ∀ s, cs[i]? = some (some (.str s)) → (ch.drop (a - last)).take (b - a) = s
  | [], last, _ => ⟨[], [], rfl, rfl, by simp⟩
  | c :: cs, last, h => by
    have hc := h c (by simp)
    match c, hc with
    | none, _ =>
      obtain ⟨os, ch, h1, h2, h3⟩ := strs_ok cs last fun x hx => h x (List.mem_cons_of_mem _ hx)
      refine ⟨last :: os, ch, by simp [strs, h1], by simp [h2], fun i hi => ?_⟩
      cases i with
      | zero => exact ⟨last, last, rfl, rfl, by omega, by omega, by omega, by omega, by simp⟩
      | succ i =>
        simp only [List.length_cons] at hi
        obtain ⟨a, b, e1, e2, e3, e4, e5, e6, e7⟩ := h3 i (by omega)
        exact ⟨a, b, e1, e2, e3, e4, e5, e6, fun s hs => e7 s (by simpa using hs)⟩
    | some (.str w), hw =>
      obtain ⟨os, ch, h1, h2, h3⟩ := strs_ok cs (last + w.length) fun x hx => h x (List.mem_cons_of_mem _ hx)
      have hw : w.length < 2 ^ 32 := hw
      refine ⟨(last + w.length) :: os, w ++ ch, by simp [strs, h1], by simp [h2], fun i hi => ?_⟩
      cases i with
      | zero =>
        refine ⟨last, last + w.length, rfl, rfl, by omega, by omega, by simp, by omega, fun s hs => ?_⟩
        simp only [List.getElem?_cons_zero, Option.some.injEq, Datum.str.injEq] at hs
        subst hs
        rw [Nat.sub_self, Nat.add_sub_cancel_left, List.drop_zero, List.take_left' rfl]
      | succ i =>
        simp only [List.length_cons] at hi
        obtain ⟨a, b, e1, e2, e3, e4, e5, e6, e7⟩ := h3 i (by omega)
        refine ⟨a, b, e1, e2, by omega, e4, by simp only [List.length_append]; omega, e6, fun s hs => ?_⟩
        have := e7 s (by simpa using hs)
        rw [show a - last = w.length + (a - (last + w.length)) by omega, ← List.drop_drop, List.drop_left' rfl]
        exact this

/-- Neighbouring offsets of lists enclose the elements of the list. -/
theorem listOffs_ok : ∀ (rs : List (Option (Nat × Nat))) (last : Nat), last + (gather rs).length ≤ INT32_MAX →
    ∃ os, listOffs last rs = .ok os ∧ os.length = rs.length ∧
      ∀ i < rs.length, ∃ a b, (last :: os)[i]? = some a ∧ (last :: os)[i + 1]? = some b ∧ last ≤ a ∧ a ≤ b ∧
        b ≤ last + (gather rs).length ∧
        ∀ o n, rs[i]? = some (some (o, n)) → b - a = n ∧ ∀ j < n, (gather rs)[a - last + j]? = some (o + j)
  | [], last, _ => ⟨[], rfl, rfl, by simp⟩
  | none :: rs, last, h => by
    simp only [gather] at h
    obtain ⟨os, h1, h2, h3⟩ := listOffs_ok rs last h
    refine ⟨last :: os, by simp [listOffs, h1], by simp [h2], fun i hi => ?_⟩
    cases i with
    | zero => exact ⟨last, last, rfl, rfl, by omega, by omega, by omega, by simp⟩
    | succ i =>
      simp only [List.length_cons] at hi
      obtain ⟨a, b, e1, e2, e3, e4, e5, e6⟩ := h3 i (by omega)
      exact ⟨a, b, e1, e2, e3, e4, e5, fun o n hs => e6 o n (by simpa using hs)⟩
  | some (o', n') :: rs, last, h => by
    simp only [gather, List.length_append, List.length_range'] at h
    obtain ⟨os, h1, h2, h3⟩ := listOffs_ok rs (last + n') (by omega)
    have hle : ¬ (last + n' > INT32_MAX) := by omega
    refine ⟨(last + n') :: os, by simp only [listOffs, if_neg hle, h1, Res.map'_ok], by simp [h2], fun i hi => ?_⟩
    simp only [gather, List.length_append, List.length_range']
    cases i with
    | zero =>
      refine ⟨last, last + n', rfl, rfl, by omega, by omega, by omega, fun o n hs => ?_⟩
      simp only [List.getElem?_cons_zero, Option.some.injEq, Prod.mk.injEq] at hs
      obtain ⟨rfl, rfl⟩ := hs
      refine ⟨by omega, fun j hj => ?_⟩
      rw [Nat.sub_self, Nat.zero_add, List.getElem?_append_left (by simpa using hj), List.getElem?_range' hj]
      simp
    | succ i =>
      simp only [List.length_cons] at hi
      obtain ⟨a, b, e1, e2, e3, e4, e5, e6⟩ := h3 i (by omega)
      refine ⟨a, b, e1, e2, by omega, e4, by omega, fun o n hs => ?_⟩
      obtain ⟨f1, f2⟩ := e6 o n (by simpa using hs)
      refine ⟨f1, fun j hj => ?_⟩
      rw [List.getElem?_append_right (by simp; omega), List.length_range', show a - last + j - n' = a - (last + n') + j by omega]
      exact f2 j hj

theorem OffsetsOk.of {offs : List Nat} {n limit : Nat} (hl : offs.length = n + 1)
    (h : ∀ i < n, ∃ a b, offs[i]? = some a ∧ offs[i + 1]? = some b ∧ a ≤ b ∧ b ≤ limit) : OffsetsOk offs 0 n limit := by
  by_cases h0 : n = 0
  · exact .inl h0
  · refine .inr ⟨by omega, fun i hi => ?_, ?_⟩
    · obtain ⟨a, b, e1, e2, e3, _⟩ := h i hi
      exact ⟨a, b, by simpa using e1, by simpa using e2, e3⟩
    · obtain ⟨a, b, e1, e2, _, e4⟩ := h (n - 1) (by omega)
      rw [show n - 1 + 1 = n by omega] at e2
      exact ⟨b, by simpa using e2, e4⟩

theorem elemsOf_eq {rows : List (Option (Nat × Nat))} {idx : List Nat} {rs : List (Option (Nat × Nat))}
    (h : take rows idx = .ok rs) : elemsOf rows idx = gather rs := by
  unfold elemsOf
  congr 1
  have h2 := take_iff.mp h
  clear h
  induction h2 with
  | nil => rfl
  | cons h1 _ ih => rw [List.filterMap_cons_some h1, ih]

theorem range_flat (n k : Nat) : ((List.range n).flatMap fun i => List.range' (i * k) k) = List.range (n * k) := by
  induction n with
  | zero => simp
  | succ n ih =>
    rw [List.range_succ, List.flatMap_append, ih, Nat.succ_mul, List.range_add]
    simp [List.range'_eq_map_range]

theorem Vec.prim_inv {v : NVec Datum} {t : ATy} (h : Vec t v) (ht : t = .num ∨ t = .bool ∨ t = .str) : ∃ cs, v = .prim cs := by
  cases v with
  | prim cs => exact ⟨cs, rfl⟩
  | list _ _ => rcases ht with rfl | rfl | rfl <;> exact absurd h (by simp [Vec])
  | array _ _ _ => rcases ht with rfl | rfl | rfl <;> exact absurd h (by simp [Vec])
  | struct _ _ => rcases ht with rfl | rfl | rfl <;> exact absurd h (by simp [Vec])

theorem Vec.list_inv {v : NVec Datum} {t : ATy} (h : Vec (.list t) v) : ∃ rows c, v = .list rows c ∧ Vec t c ∧ c.len ≤ 2 ^ 32 ∧
    ∀ o n, some (o, n) ∈ rows → o + n ≤ c.len := by
  cases v with
  | list rows c => exact ⟨rows, c, rfl, h⟩
  | prim _ => exact absurd h (by simp [Vec])
  | array _ _ _ => exact absurd h (by simp [Vec])
  | struct _ _ => exact absurd h (by simp [Vec])

theorem Vec.array_inv {v : NVec Datum} {k : Nat} {t : ATy} (h : Vec (.array k t) v) : ∃ fl c, v = .array k fl c ∧ Vec t c ∧
    c.len = fl.length * k := by
  cases v with
  | array k' fl c => obtain ⟨rfl, h⟩ := h; exact ⟨fl, c, rfl, h⟩
  | prim _ => exact absurd h (by simp [Vec])
  | list _ _ => exact absurd h (by simp [Vec])
  | struct _ _ => exact absurd h (by simp [Vec])

theorem Vec.struct_inv {v : NVec Datum} {ts : ATys} (h : Vec (.struct ts) v) : ∃ fl fs, v = .struct fl fs ∧ Vecs ts fs fl.length := by
  cases v with
  | struct fl fs => exact ⟨fl, fs, rfl, h⟩
  | prim _ => exact absurd h (by simp [Vec])
  | list _ _ => exact absurd h (by simp [Vec])
  | array _ _ _ => exact absurd h (by simp [Vec])

theorem take_length {β : Type} {l : List β} {idx : List Nat} {xs : List β} (h : take l idx = .ok xs) : xs.length = idx.length :=
  (take_iff.mp h).length_eq.symm

/-- What is handed over for the rows `idx` of a vector. -/
def Carries (t : ATy) (v : NVec Datum) (idx : List Nat) (a : AArr) : Prop :=
  a.Wf t ∧ a.whole ∧ a.hdr.len = idx.length ∧ ∀ j i : Nat, idx[j]? = some i → a.value t j = v.value i

mutual
theorem exportA_ok : ∀ (t : ATy) (v : NVec Datum) (sel : Sel), Vec t v → (∀ i ∈ sel.idx, i < v.len) → t.plainLists →
    (sel.isDict = true → t.hasArray = false) → Fits v sel.idx → ∃ a, exportA t v sel = .ok a ∧ Carries t v sel.idx a
  | .num, v, sel, hv, hi, _, _, _ => by
    obtain ⟨cells, rfl⟩ := hv.prim_inv (.inl rfl)
    obtain ⟨cs, hc⟩ := take_total (l := cells) hi
    have hl := take_length hc
    obtain ⟨h, k1, k2, k3, k4, k5⟩ := mkHdr_ok (cs.map Option.isSome)
    obtain ⟨d, d1, d2, d3⟩ := nums_ok cs fun c hc' => hv c (take_mem hc hc')
    rw [List.length_map] at k2
    refine ⟨.num h d, by simp only [exportA, cellsOf, hc, Res.bind_ok, k1, d1, Res.map'_ok], ⟨k4, by omega⟩, k3, by simp only [AArr.hdr]; omega, ?_⟩
    intro j i hj
    have hx := take_get hc hj
    obtain ⟨x, hx'⟩ : ∃ x, cs[j]? = some x := ⟨_, List.getElem?_eq_getElem (by have := (List.getElem?_eq_some_iff.mp hj).1; omega)⟩
    rw [hx'] at hx
    have hb := k5 j x.isSome (by simp [hx'])
    have hty := hv x (take_mem hc (List.mem_of_getElem? hx'))
    simp only [AArr.value, NVec.value, k3, Nat.zero_add, hb, ← hx]
    match x, hty with
    | none, _ => rfl
    | some (.num n), _ => simp [orNull, d3 j n hx', cellVal]
  | .bool, v, sel, hv, hi, _, _, _ => by
    obtain ⟨cells, rfl⟩ := hv.prim_inv (.inr (.inl rfl))
    obtain ⟨cs, hc⟩ := take_total (l := cells) hi
    have hl := take_length hc
    obtain ⟨h, k1, k2, k3, k4, k5⟩ := mkHdr_ok (cs.map Option.isSome)
    obtain ⟨d, d1, d2, d3⟩ := bools_ok cs fun c hc' => hv c (take_mem hc hc')
    obtain ⟨bs, b1, b2, b3⟩ := packBits_ok d
    rw [List.length_map] at k2
    refine ⟨.bool h bs, by simp only [exportA, cellsOf, hc, Res.bind_ok, k1, d1, b1, Res.map'_ok], ⟨k4, by omega⟩, k3, by simp only [AArr.hdr]; omega, ?_⟩
    intro j i hj
    have hx := take_get hc hj
    obtain ⟨x, hx'⟩ : ∃ x, cs[j]? = some x := ⟨_, List.getElem?_eq_getElem (by have := (List.getElem?_eq_some_iff.mp hj).1; omega)⟩
    rw [hx'] at hx
    have hb := k5 j x.isSome (by simp [hx'])
    have hty := hv x (take_mem hc (List.mem_of_getElem? hx'))
    simp only [AArr.value, NVec.value, k3, Nat.zero_add, hb, ← hx]
    match x, hty with
    | none, _ => rfl
    | some (.bool n), _ =>
      have hdj := d3 j n hx'
      have := (List.getElem?_eq_some_iff.mp hdj).1
      simp [orNull, b3 j this, hdj, cellVal]
  | .str, v, sel, hv, hi, _, _, _ => by
    obtain ⟨cells, rfl⟩ := hv.prim_inv (.inr (.inr rfl))
    obtain ⟨cs, hc⟩ := take_total (l := cells) hi
    have hl := take_length hc
    obtain ⟨h, k1, k2, k3, k4, k5⟩ := mkHdr_ok (cs.map Option.isSome)
    obtain ⟨os, ch, d1, d2, d3⟩ := strs_ok cs 0 fun c hc' => hv c (take_mem hc hc')
    rw [List.length_map] at k2
    refine ⟨.str h (0 :: os) ch, by simp only [exportA, cellsOf, hc, Res.bind_ok, k1, d1, Res.map'_ok], ⟨k4, ?_, ?_⟩, k3, by simp only [AArr.hdr]; omega, ?_⟩
    · rw [k3, k2]
      refine OffsetsOk.of (by simp [d2]) fun i hi => ?_
      obtain ⟨a, b, e1, e2, _, e3, e4, _⟩ := d3 i hi
      exact ⟨a, b, e1, e2, e3, by omega⟩
    · intro i hi a b ha hb
      rw [k3, Nat.zero_add] at ha hb
      obtain ⟨a', b', e1, e2, _, _, _, e3, _⟩ := d3 i (by omega)
      rw [ha] at e1
      rw [hb] at e2
      cases e1
      cases e2
      exact e3
    · intro j i hj
      have hx := take_get hc hj
      have hjl : j < cs.length := by have := (List.getElem?_eq_some_iff.mp hj).1; omega
      obtain ⟨x, hx'⟩ : ∃ x, cs[j]? = some x := ⟨_, List.getElem?_eq_getElem hjl⟩
      rw [hx'] at hx
      have hb := k5 j x.isSome (by simp [hx'])
      have hty := hv x (take_mem hc (List.mem_of_getElem? hx'))
      obtain ⟨a', b', e1, e2, _, _, _, _, e3⟩ := d3 j hjl
      simp only [AArr.value, NVec.value, k3, Nat.zero_add, hb, ← hx, e1, e2]
      match x, hty with
      | none, _ => rfl
      | some (.str n), _ =>
        have := e3 n hx'
        rw [Nat.sub_zero] at this
        simp [orNull, this, cellVal]
  | .list t, v, sel, hv, hi, hp, _, hf => by
    obtain ⟨rows, c, rfl, v1, v2, v3⟩ := hv.list_inv
    obtain ⟨rs, hc⟩ := take_total (l := rows) hi
    have hl := take_length hc
    obtain ⟨h, k1, k2, k3, k4, k5⟩ := mkHdr_ok (rs.map Option.isSome)
    rw [List.length_map] at k2
    obtain ⟨f1, f2⟩ := hf
    rw [elemsOf_eq hc] at f1 f2
    have hin : ∀ i ∈ gather rs, i < c.len := by
      intro i hi
      obtain ⟨o, n, g1, g2, g3⟩ := gather_mem hi
      have := v3 o n (take_mem hc g1)
      omega
    have hcr : childRows rs = gather rs := by
      unfold childRows
      conv => rhs; rw [← List.map_id (gather rs)]
      refine List.map_congr_left fun i hi => ?_
      have := hin i hi
      rw [Nat.mod_eq_of_lt (by omega), id]
    obtain ⟨os, o1, o2, o3⟩ := listOffs_ok rs 0 (by unfold INT32_MAX; omega)
    obtain ⟨ca, c1, c2, c3, c4, c5⟩ := exportA_ok t c (.dict (gather rs)) v1 hin hp.2 (fun _ => hp.1) f2
    have c4 : ca.hdr.len = (gather rs).length := c4
    refine ⟨.list h (0 :: os) ca, by simp only [exportA, hc, Res.bind_ok, k1, o1, hcr, c1, Res.map'_ok], ⟨k4, ?_, by omega, c2⟩,
      ⟨k3, rfl, c3⟩, by simp only [AArr.hdr]; omega, ?_⟩
    · rw [k3, k2]
      refine OffsetsOk.of (by simp [o2]) fun i hi => ?_
      obtain ⟨a, b, e1, e2, _, e3, e4, _⟩ := o3 i hi
      exact ⟨a, b, e1, e2, e3, by omega⟩
    · intro j i hj
      have hx := take_get hc hj
      have hjl : j < rs.length := by have := (List.getElem?_eq_some_iff.mp hj).1; omega
      obtain ⟨x, hx'⟩ : ∃ x, rs[j]? = some x := ⟨_, List.getElem?_eq_getElem hjl⟩
      rw [hx'] at hx
      have hb := k5 j x.isSome (by simp [hx'])
      obtain ⟨a', b', e1, e2, _, _, _, e3⟩ := o3 j hjl
      simp only [AArr.value, NVec.value, k3, Nat.zero_add, hb, ← hx, e1, e2]
      match x with
      | none => rfl
      | some (o, n) =>
        obtain ⟨e4, e5⟩ := e3 o n hx'
        simp only [orNull, Option.isSome_some, if_true]
        rw [e4, collect_congr (g := c.value) (p := o)]
        intro m hm
        refine c5 _ _ ?_
        have := e5 m hm
        rwa [Nat.sub_zero] at this
  | .array k t, v, sel, hv, hi, hp, hd, hf => by
    obtain ⟨fl, c, rfl, v1, v2⟩ := hv.array_inv
    match sel, hi, hd, hf with
    | .dict l, _, hd, _ => exact absurd (hd rfl) (by simp [ATy.hasArray])
    | .flat n, hi, _, hf =>
      obtain ⟨b, hc⟩ := take_total (l := fl) (idx := List.range n) hi
      have hl := take_length hc
      rw [List.length_range] at hl
      obtain ⟨h, k1, k2, k3, k4, k5⟩ := mkHdr_ok b
      have hn : n ≤ fl.length := by
        rcases Nat.eq_zero_or_pos n with rfl | h0
        · omega
        · have := hi (n - 1) (by simp [Sel.idx]; omega)
          simp only [NVec.len] at this
          omega
      have hf : Fits c ((List.range n).flatMap fun i => List.range' (i * k) k) := hf
      rw [range_flat] at hf
      obtain ⟨ca, c1, c2, c3, c4, c5⟩ := exportA_ok t c (.flat (n * k)) v1 (by
        intro i hi
        simp only [Sel.idx, List.mem_range] at hi
        rw [v2]
        exact Nat.lt_of_lt_of_le hi (Nat.mul_le_mul_right k hn)) hp (by simp [Sel.isDict]) hf
      have c4 : ca.hdr.len = n * k := by simpa [Sel.idx] using c4
      refine ⟨.array h ca, by simp only [exportA, flatten, hc, Res.bind_ok, k1, c1, Res.map'_ok], ⟨k4, ?_, c2⟩, ⟨k3, c3⟩,
        by simp only [AArr.hdr, Sel.idx, List.length_range]; omega, ?_⟩
      · rw [k3, k2, hl, c4]
        simp
      · intro j i hj
        have hj : (List.range n)[j]? = some i := hj
        have hx := take_get hc hj
        have hjl := (List.getElem?_eq_some_iff.mp hj).1
        rw [List.length_range] at hjl
        have hji : j = i := by simpa [hjl] using hj
        subst hji
        obtain ⟨x, hx'⟩ : ∃ x, b[j]? = some x := ⟨_, List.getElem?_eq_getElem (by omega)⟩
        rw [hx'] at hx
        have hb := k5 j x hx'
        simp only [AArr.value, NVec.value, k3, Nat.zero_add, hb, ← hx]
        cases x with
        | false => rfl
        | true =>
          simp only [orNull, if_true]
          rw [collect_congr (g := c.value) (p := j * k)]
          intro m hm
          refine c5 _ _ ?_
          have : j * k + m < n * k := by
            have : (j + 1) * k ≤ n * k := Nat.mul_le_mul_right k (by omega)
            rw [Nat.succ_mul] at this
            omega
          simp [Sel.idx, this]
  | .struct ts, v, sel, hv, hi, hp, hd, hf => by
    obtain ⟨fl, fs, rfl, v1⟩ := hv.struct_inv
    obtain ⟨b, hc⟩ := take_total (l := fl) hi
    have hl := take_length hc
    obtain ⟨h, k1, k2, k3, k4, k5⟩ := mkHdr_ok b
    obtain ⟨as, a1, a2, a3, a4⟩ := exportAs_ok ts fs sel fl.length v1 hi hp hd hf
    refine ⟨.struct h as, by simp only [exportA, hc, Res.bind_ok, k1, a1, Res.map'_ok], ⟨k4, ?_⟩, ⟨k3, a3⟩,
      by simp only [AArr.hdr]; omega, ?_⟩
    · rw [k3, k2, hl, Nat.zero_add]
      exact a2
    · intro j i hj
      have hx := take_get hc hj
      obtain ⟨x, hx'⟩ : ∃ x, b[j]? = some x := ⟨_, List.getElem?_eq_getElem (by have := (List.getElem?_eq_some_iff.mp hj).1; omega)⟩
      rw [hx'] at hx
      have hb := k5 j x hx'
      simp only [AArr.value, NVec.value, k3, Nat.zero_add, hb, ← hx]
      cases x with
      | false => rfl
      | true => simp only [orNull, if_true, a4 j i hj]
theorem exportAs_ok : ∀ (ts : ATys) (vs : NVecs Datum) (sel : Sel) (n : Nat), Vecs ts vs n → (∀ i ∈ sel.idx, i < n) → ts.plainLists →
    (sel.isDict = true → ts.hasArray = false) → FitsAll vs sel.idx → ∃ as, exportAs ts vs sel = .ok as ∧ as.Wf ts sel.idx.length ∧
      as.whole ∧ ∀ j i : Nat, sel.idx[j]? = some i → as.values ts j = vs.values i
  | .nil, vs, sel, n, hv, _, _, _, _ => by
    cases vs with
    | nil => exact ⟨.nil, rfl, trivial, trivial, fun _ _ _ => rfl⟩
    | cons _ _ => exact absurd hv (by simp [Vecs])
  | .cons t ts, vs, sel, n, hv, hi, hp, hd, hf => by
    cases vs with
    | nil => exact absurd hv (by simp [Vecs])
    | cons v vs =>
      obtain ⟨v1, v2, v3⟩ := hv
      simp only [ATys.hasArray, Bool.or_eq_false_iff] at hd
      obtain ⟨a, a1, a2, a3, a4, a5⟩ := exportA_ok t v sel v1 (by rw [v2]; exact hi) hp.1 (fun h => (hd h).1) hf.1
      obtain ⟨as, b1, b2, b3, b4⟩ := exportAs_ok ts vs sel n v3 hi hp.2 (fun h => (hd h).2) hf.2
      refine ⟨.cons a as, by simp only [exportAs, a1, b1, Res.bind_ok, Res.map'_ok], ⟨a2, Nat.le_of_eq a4.symm, b2⟩, ⟨a3, b3⟩, ?_⟩
      intro j i hj
      simp only [AArrs.values, NVecs.values, a5 j i hj, b4 j i hj]
end

mutual
theorem AArr.whole.noOffset : ∀ {a : AArr}, a.whole → a.noOffset
  | .num _ _, _ => trivial
  | .bool _ _, _ => trivial
  | .str _ _ _, _ => trivial
  | .list _ _ _, h => h.2.2.noOffset
  | .array _ _, h => h.2.noOffset
  | .struct _ _, h => ⟨h.1, h.2.noOffset⟩
  | .dict _ _ _, h => h.2.noOffset
theorem AArrs.whole.noOffset : ∀ {as : AArrs}, as.whole → as.noOffset
  | .nil, _ => trivial
  | .cons _ _, h => ⟨h.1.noOffset, h.2.noOffset⟩
end

end Verif.Arrow
