import Verif.NestCol.Copy
/-! What a column holds, and that appending adds the values handed in. -/
namespace Verif.NestCol
open Verif
open Verif.Table

variable {α β : Type} [Inhabited α]

/-- The value of a list row. -/
def listVal : Option (List (NVal α)) → NVal α
  | none => .null
  | some xs => .list xs

/-- The value of an array row; the elements of a NULL are stored too. -/
def arrayVal : Bool × List (NVal α) → NVal α
  | (false, _) => .null
  | (true, xs) => .array xs

/-- The value of a struct row. -/
def structVal : Bool × List (NVal α) → NVal α
  | (false, _) => .null
  | (true, xs) => .struct xs

/-- Running sums. -/
def sums (base : Nat) : List Nat → List Nat
  | [] => []
  | n :: ns => (base + n) :: sums (base + n) ns

/-- The elements of a list row. -/
def elems : Option (List (NVal α)) → List (NVal α)
  | none => []
  | some xs => xs

mutual
/-- The column from row `a` on holds these values. -/
def Holds (a : Nat) : NTy α → NCol α → List (NVal α) → Prop
  | .prim _, .prim s, vals => ∃ ds fl, Plain s.data a ds ∧ Plain s.valid a fl ∧ ds.length = fl.length ∧
      vals = (cells ds fl).map cellVal
  | .list t, .list a' offs valid child, vals => ∃ parts : List (Option (List (NVal α))), a' = a ∧
      Plain offs a (sums 0 (parts.map fun p => (elems p).length)) ∧ Plain valid a (parts.map Option.isSome) ∧
      Holds a t child (parts.flatMap elems) ∧ vals = parts.map listVal
  | .array k t, .array k' a' n valid child, vals => ∃ parts : List (Bool × List (NVal α)), k' = k ∧ a' = a ∧
      n = parts.length ∧ Plain valid a (parts.map Prod.fst) ∧ (∀ p ∈ parts, p.2.length = k) ∧
      Holds a t child (parts.flatMap Prod.snd) ∧ vals = parts.map arrayVal
  | .struct ts, .struct a' n valid fs, vals => ∃ parts : List (Bool × List (NVal α)), a' = a ∧
      n = parts.length ∧ Plain valid a (parts.map Prod.fst) ∧ HoldsAll a ts fs (parts.map Prod.snd) ∧
      vals = parts.map structVal
  | _, _, _ => False
def HoldsAll (a : Nat) : NTys α → NCols α → List (List (NVal α)) → Prop
  | .nil, .nil, rows => ∀ r ∈ rows, r = []
  | .cons t ts, .cons c cs, rows => ∃ hs tl, hs.length = tl.length ∧ rows = List.zipWith List.cons hs tl ∧
      Holds a t c hs ∧ HoldsAll a ts cs tl
  | _, _, _ => False
end

mutual
/-- All parts have a segment to append to. -/
def NCol.Ready : NCol α → Prop
  | .prim s => s.data.segs ≠ [] ∧ s.valid.segs ≠ []
  | .list _ offs valid child => offs.segs ≠ [] ∧ valid.segs ≠ [] ∧ child.Ready
  | .array _ _ _ valid child => valid.segs ≠ [] ∧ child.Ready
  | .struct _ _ valid fs => valid.segs ≠ [] ∧ fs.Ready
def NCols.Ready : NCols α → Prop
  | .nil => True
  | .cons c cs => c.Ready ∧ cs.Ready
end

/-! ### Inversion -/

theorem Holds.prim_inv {a : Nat} {ty : Ty α} {c : NCol α} {vals : List (NVal α)} (h : Holds a (.prim ty) c vals) :
    ∃ s ds fl, c = .prim s ∧ Plain s.data a ds ∧ Plain s.valid a fl ∧ ds.length = fl.length ∧
      vals = (cells ds fl).map cellVal := by
  cases c with
  | prim s => obtain ⟨ds, fl, h⟩ := h; exact ⟨s, ds, fl, rfl, h⟩
  | list _ _ _ _ => exact h.elim
  | array _ _ _ _ _ => exact h.elim
  | struct _ _ _ _ => exact h.elim

theorem Holds.list_inv {a : Nat} {t : NTy α} {c : NCol α} {vals : List (NVal α)} (h : Holds a (.list t) c vals) :
    ∃ offs valid child, ∃ parts : List (Option (List (NVal α))), c = .list a offs valid child ∧
      Plain offs a (sums 0 (parts.map fun p => (elems p).length)) ∧ Plain valid a (parts.map Option.isSome) ∧
      Holds a t child (parts.flatMap elems) ∧ vals = parts.map listVal := by
  cases c with
  | prim _ => exact h.elim
  | list a' offs valid child => obtain ⟨parts, rfl, h⟩ := h; exact ⟨offs, valid, child, parts, rfl, h⟩
  | array _ _ _ _ _ => exact h.elim
  | struct _ _ _ _ => exact h.elim

theorem Holds.array_inv {a k : Nat} {t : NTy α} {c : NCol α} {vals : List (NVal α)} (h : Holds a (.array k t) c vals) :
    ∃ valid child, ∃ parts : List (Bool × List (NVal α)), c = .array k a parts.length valid child ∧
      Plain valid a (parts.map Prod.fst) ∧ (∀ p ∈ parts, p.2.length = k) ∧
      Holds a t child (parts.flatMap Prod.snd) ∧ vals = parts.map arrayVal := by
  cases c with
  | prim _ => exact h.elim
  | list _ _ _ _ => exact h.elim
  | array k' a' n valid child =>
    obtain ⟨parts, rfl, rfl, rfl, h⟩ := h; exact ⟨valid, child, parts, rfl, h⟩
  | struct _ _ _ _ => exact h.elim

theorem Holds.struct_inv {a : Nat} {ts : NTys α} {c : NCol α} {vals : List (NVal α)} (h : Holds a (.struct ts) c vals) :
    ∃ valid fs, ∃ parts : List (Bool × List (NVal α)), c = .struct a parts.length valid fs ∧
      Plain valid a (parts.map Prod.fst) ∧ HoldsAll a ts fs (parts.map Prod.snd) ∧ vals = parts.map structVal := by
  cases c with
  | prim _ => exact h.elim
  | list _ _ _ _ => exact h.elim
  | array _ _ _ _ _ => exact h.elim
  | struct a' n valid fs => obtain ⟨parts, rfl, rfl, h⟩ := h; exact ⟨valid, fs, parts, rfl, h⟩

theorem HoldsAll.nil_inv {a : Nat} {cs : NCols α} {rows : List (List (NVal α))} (h : HoldsAll a .nil cs rows) :
    cs = .nil ∧ ∀ r ∈ rows, r = [] := by
  cases cs with
  | nil => exact ⟨rfl, h⟩
  | cons _ _ => exact h.elim

theorem HoldsAll.cons_inv {a : Nat} {t : NTy α} {ts : NTys α} {cs : NCols α} {rows : List (List (NVal α))}
    (h : HoldsAll a (.cons t ts) cs rows) : ∃ c cs' hs tl, cs = .cons c cs' ∧ hs.length = tl.length ∧
      rows = List.zipWith List.cons hs tl ∧ Holds a t c hs ∧ HoldsAll a ts cs' tl := by
  cases cs with
  | nil => exact h.elim
  | cons c cs' => obtain ⟨hs, tl, h⟩ := h; exact ⟨c, cs', hs, tl, rfl, h⟩

theorem sums_length (b : Nat) (ns : List Nat) : (sums b ns).length = ns.length := by
  induction ns generalizing b with
  | nil => rfl
  | cons n ns ih => simp [sums, ih]

theorem sums_append (b : Nat) (xs ys : List Nat) : sums b (xs ++ ys) = sums b xs ++ sums (b + xs.sum) ys := by
  induction xs generalizing b with
  | nil => simp [sums]
  | cons n ns ih => simp [sums, ih, Nat.add_assoc]

theorem cells_length {ds : List α} {fl : List Bool} (h : ds.length = fl.length) : (cells ds fl).length = ds.length := by
  simp [cells, h]

/-- `max_entry` is the number of rows. -/
theorem Holds.maxEntry : ∀ (t : NTy α) (a : Nat) (c : NCol α) (vals : List (NVal α)), Holds a t c vals → t.Ok →
    c.maxEntry = vals.length
  | .prim _, a, c, vals, h, _ => by
    obtain ⟨s, ds, fl, rfl, h1, h2, h3, rfl⟩ := h.prim_inv
    simp [NCol.maxEntry, h1.count, cells_length h3]
  | .list _, a, c, vals, h, _ => by
    obtain ⟨offs, valid, child, parts, rfl, h1, h2, h3, rfl⟩ := h.list_inv
    simp [NCol.maxEntry, h1.count, sums_length]
  | .array _ _, a, c, vals, h, _ => by
    obtain ⟨valid, child, parts, rfl, h1, h2, h3, rfl⟩ := h.array_inv
    simp [NCol.maxEntry]
  | .struct .nil, a, c, vals, h, hk => (hk.1 rfl).elim
  | .struct (.cons t ts), a, c, vals, h, hk => by
    obtain ⟨valid, fs, parts, rfl, h1, h2, rfl⟩ := h.struct_inv
    obtain ⟨c, cs, hs, tl, rfl, h3, h4, h5, _⟩ := h2.cons_inv
    simp only [NCol.maxEntry]
    rw [Holds.maxEntry t a c hs h5 hk.2.1]
    have := congrArg List.length h4
    simp [h3] at this
    simp [h3, this]

/-! ### New columns -/

theorem fixedTy_ok {z : β} {cap : Nat} (h : 0 < cap) : (fixedTy z cap).Ok := by
  refine ⟨fun _ _ => Nat.min_le_left _ _, ?_⟩
  intro batch hb
  have := List.length_pos_iff.mpr hb
  simp [fixedTy]
  omega

mutual
theorem Holds.empty {caps : Caps} (hc : 0 < caps.offs ∧ 0 < caps.valid) (a : Nat) :
    ∀ t : NTy α, t.Ok → Holds a t (NCol.empty caps a t) []
  | .prim ty, hk => ⟨[], [], Plain.empty hk a, Plain.empty (fixedTy_ok hc.2) a, rfl, rfl⟩
  | .list t, hk => ⟨[], rfl, Plain.empty (fixedTy_ok hc.1) a, Plain.empty (fixedTy_ok hc.2) a, Holds.empty hc a t hk, rfl⟩
  | .array k t, hk => ⟨[], rfl, rfl, rfl, Plain.empty (fixedTy_ok hc.2) a, by simp, Holds.empty hc a t hk.2, rfl⟩
  | .struct ts, hk => ⟨[], rfl, rfl, Plain.empty (fixedTy_ok hc.2) a, HoldsAll.empty hc a ts hk.2, rfl⟩
theorem HoldsAll.empty {caps : Caps} (hc : 0 < caps.offs ∧ 0 < caps.valid) (a : Nat) :
    ∀ ts : NTys α, ts.Ok → HoldsAll a ts (NCols.empty caps a ts) []
  | .nil, _ => by intro r hr; simp at hr
  | .cons t ts, hk => ⟨[], [], rfl, rfl, Holds.empty hc a t hk.1, HoldsAll.empty hc a ts hk.2⟩
end

mutual
theorem Holds.initAppend {a : Nat} : ∀ (t : NTy α) (c : NCol α) (vals : List (NVal α)), Holds a t c vals →
    Holds a t c.initAppend vals ∧ c.initAppend.Ready
  | .prim _, c, vals, h => by
    obtain ⟨s, ds, fl, rfl, h1, h2, h3, h4⟩ := h.prim_inv
    exact ⟨⟨ds, fl, h1.initAppend.1, h2.initAppend.1, h3, h4⟩, h1.initAppend.2, h2.initAppend.2⟩
  | .list t, c, vals, h => by
    obtain ⟨offs, valid, child, parts, rfl, h1, h2, h3, h4⟩ := h.list_inv
    have := Holds.initAppend t child _ h3
    exact ⟨⟨parts, rfl, h1.initAppend.1, h2.initAppend.1, this.1, h4⟩, h1.initAppend.2, h2.initAppend.2, this.2⟩
  | .array k t, c, vals, h => by
    obtain ⟨valid, child, parts, rfl, h1, h2, h3, h4⟩ := h.array_inv
    have := Holds.initAppend t child _ h3
    exact ⟨⟨parts, rfl, rfl, rfl, h1.initAppend.1, h2, this.1, h4⟩, h1.initAppend.2, this.2⟩
  | .struct ts, c, vals, h => by
    obtain ⟨valid, fs, parts, rfl, h1, h2, h3⟩ := h.struct_inv
    have := HoldsAll.initAppend ts fs _ h2
    exact ⟨⟨parts, rfl, rfl, h1.initAppend.1, this.1, h3⟩, h1.initAppend.2, this.2⟩
theorem HoldsAll.initAppend {a : Nat} : ∀ (ts : NTys α) (cs : NCols α) (rows : List (List (NVal α))), HoldsAll a ts cs rows →
    HoldsAll a ts cs.initAppend rows ∧ cs.initAppend.Ready
  | .nil, cs, rows, h => by
    obtain ⟨rfl, h⟩ := h.nil_inv
    exact ⟨h, trivial⟩
  | .cons t ts, cs, rows, h => by
    obtain ⟨c, cs', hs, tl, rfl, h1, h2, h3, h4⟩ := h.cons_inv
    have g1 := Holds.initAppend t c hs h3
    have g2 := HoldsAll.initAppend ts cs' tl h4
    exact ⟨⟨hs, tl, h1, h2, g1.1, g2.1⟩, g1.2, g2.2⟩
end

/-! ### Flattening -/

theorem flatten_ok {t : NTy α} {v : NVec α} {sel : Sel} (h : v.Has t) (hi : ∀ i ∈ sel.idx, i < v.len)
    (hd : sel.isDict = true → t.hasArray = false) (hp : t.plainLists) :
    ∃ w, flatten v sel = .ok (w, sel.idx.length) ∧ w.Has t ∧ sel.idx.length ≤ w.len ∧
      ∀ j i, sel.idx[j]? = some i → w.value j = v.value i := by
  cases sel with
  | flat n =>
    refine ⟨v, by simp [flatten, Sel.idx], h, ?_, ?_⟩
    · simp only [Sel.idx, List.mem_range, List.length_range] at hi ⊢
      by_contra hlt
      have := hi v.len (by omega)
      omega
    · intro j i hj
      simp only [Sel.idx] at hj
      obtain ⟨hj1, hj2⟩ := List.getElem?_eq_some_iff.mp hj
      simp only [List.getElem_range] at hj2
      rw [hj2]
  | dict l =>
    obtain ⟨hb, hl⟩ := Has.blank t v h
    obtain ⟨w, hw, hc⟩ := copy_ok t v.blank v l hb h hi (hd rfl) hp
    refine ⟨w, by simp [flatten, hw, Sel.idx], hc.has, ?_, ?_⟩
    · rw [hc.len, hl]; simp [Sel.idx]
    · intro j i hj
      have := hc.new j i hj
      rw [hl, Nat.zero_add] at this
      exact this

/-- Rows of the flattened vector. -/
theorem flatten_shows {v w : NVec α} {idx : List Nat} {xs : List (NVal α)} (h : Shows v idx xs)
    (hw : ∀ j i, idx[j]? = some i → w.value j = v.value i) : Shows w (List.range idx.length) xs := by
  unfold Shows at *
  rw [List.forall₂_iff_get] at h ⊢
  refine ⟨by simpa using h.1, ?_⟩
  intro j h1 h2
  simp only [List.length_range] at h1
  have h3 := h.2 j h1 h2
  simp only [List.get_eq_getElem, List.getElem_range] at h3 ⊢
  rw [hw j _ (List.getElem?_eq_getElem h1), h3]

/-! ### Rows and their parts -/

/-- A list row of a vector and the values of its elements. -/
def RowPart (c : NVec α) : Option (Nat × Nat) → Option (List (NVal α)) → Prop
  | none, none => True
  | some (o, n), some xs => Shows c (List.range' o n) xs
  | _, _ => False

theorem list_parts {rows : List (Option (Nat × Nat))} {c : NVec α} {idx : List Nat} {rs : List (Option (Nat × Nat))}
    {xs : List (NVal α)} (hr : List.Forall₂ (fun i x => rows[i]? = some x) idx rs)
    (h : Shows (.list rows c) idx xs) : ∃ ps, List.Forall₂ (RowPart c) rs ps ∧ xs = ps.map listVal := by
  induction hr generalizing xs with
  | nil => cases h; exact ⟨[], .nil, rfl⟩
  | cons h1 _ ih =>
    cases h with
    | cons h2 h3 =>
      obtain ⟨ps, hp, rfl⟩ := ih h3
      simp only [NVec.value, h1] at h2
      rename_i r _ _ _ _
      cases r with
      | none =>
        simp only [Res.ok.injEq] at h2
        exact ⟨none :: ps, .cons trivial hp, by rw [← h2]; rfl⟩
      | some p =>
        obtain ⟨o, n⟩ := p
        simp only [Res.map'_ok_iff] at h2
        obtain ⟨ys, hy, rfl⟩ := h2
        exact ⟨some ys :: ps, .cons (collect_iff.mp hy) hp, rfl⟩

theorem parts_facts {c : NVec α} {rs : List (Option (Nat × Nat))} {ps : List (Option (List (NVal α)))}
    (h : List.Forall₂ (RowPart c) rs ps) :
    Shows c (gather rs) (ps.flatMap elems) ∧ rs.map Option.isSome = ps.map Option.isSome ∧
      (∀ b, ends b rs = sums b (ps.map fun p => (elems p).length)) ∧ total rs = (ps.flatMap elems).length := by
  induction h with
  | nil => exact ⟨.nil, rfl, fun _ => rfl, rfl⟩
  | @cons r p rs ps h1 _ ih =>
    obtain ⟨i1, i2, i3, i4⟩ := ih
    match r, p, h1 with
    | none, none, _ =>
      refine ⟨by simpa [gather, elems] using i1, by simp [i2], ?_, by simp [total, rowLen, elems, i4]⟩
      intro b
      simp [ends, sums, rowLen, elems, i3]
    | some (o, n), some xs, h1 =>
      have hl : xs.length = n := by have := h1.length; simpa using this
      refine ⟨?_, by simp [i2], ?_, by simp [total, rowLen, elems, i4, hl]⟩
      · simp only [gather, List.flatMap_cons, elems]
        exact List.rel_append h1 i1
      · intro b
        simp [ends, sums, rowLen, elems, i3, hl]

theorem contiguous_gather {rs : List (Option (Nat × Nat))} {b : Nat} (h : contiguous b rs = true) :
    gather rs = List.range' b (total rs) := by
  induction rs generalizing b with
  | nil => rfl
  | cons r rs ih =>
    cases r with
    | none => simpa [gather, total, rowLen] using ih h
    | some p =>
      obtain ⟨o, n⟩ := p
      simp only [contiguous, Bool.and_eq_true, decide_eq_true_eq] at h
      obtain ⟨rfl, h⟩ := h
      simp only [gather, total, rowLen, ih h]
      rw [List.range'_append_1]

theorem childSel_idx (rs : List (Option (Nat × Nat))) : (childSel rs).idx = gather rs := by
  unfold childSel
  by_cases h : contiguous 0 rs = true
  · rw [if_pos h]
    simp only [Sel.idx]
    rw [contiguous_gather h, List.range_eq_range']
  · rw [if_neg h]; rfl

/-- Lists of `k` elements each. -/
def chunks (k : Nat) : Nat → List β → List (List β)
  | 0, _ => []
  | n + 1, l => l.take k :: chunks k n (l.drop k)

theorem chunks_length (k n : Nat) (l : List β) : (chunks k n l).length = n := by
  induction n generalizing l with
  | zero => rfl
  | succ n ih => simp [chunks, ih]

theorem chunks_flat {k n : Nat} {l : List β} (h : l.length = n * k) : (chunks k n l).flatten = l := by
  induction n generalizing l with
  | zero =>
    simp at h
    simp [chunks, h]
  | succ n ih =>
    rw [Nat.succ_mul] at h
    simp only [chunks, List.flatten_cons]
    rw [ih (by simp; omega), List.take_append_drop]

theorem chunks_mem {k n : Nat} {l : List β} (h : l.length = n * k) : ∀ x ∈ chunks k n l, x.length = k := by
  induction n generalizing l with
  | zero => simp [chunks]
  | succ n ih =>
    rw [Nat.succ_mul] at h
    intro x hx
    simp only [chunks, List.mem_cons] at hx
    rcases hx with rfl | hx
    · simp; omega
    · exact ih (by simp; omega) x hx

theorem chunks_get {k n i : Nat} {l : List β} (hi : i < n) : (chunks k n l)[i]? = some ((l.drop (i * k)).take k) := by
  induction n generalizing l i with
  | zero => omega
  | succ n ih =>
    cases i with
    | zero => simp [chunks]
    | succ i =>
      simp only [chunks, List.getElem?_cons_succ]
      rw [ih (by omega), List.drop_drop]
      congr 3
      rw [Nat.succ_mul]
      omega

theorem Shows.sub {v : NVec α} {n : Nat} {ys : List (NVal α)} (h : Shows v (List.range n) ys) {o k : Nat} (hk : o + k ≤ n) :
    Shows v (List.range' o k) ((ys.drop o).take k) := by
  unfold Shows at *
  rw [List.forall₂_iff_get] at h ⊢
  have hl : n = ys.length := by simpa using h.1
  refine ⟨by simp; omega, ?_⟩
  intro j h1 h2
  simp only [List.length_range'] at h1
  have h3 := h.2 (o + j) (by simp; omega) (by omega)
  simp only [List.get_eq_getElem, List.getElem_range, List.getElem_range', List.getElem_take, List.getElem_drop] at h3 ⊢
  rw [Nat.one_mul, h3]

/-- The values of array rows from the values of their elements. -/
theorem array_parts {k n : Nat} {fl : List Bool} {c : NVec α} {xs ys : List (NVal α)} (hn : n ≤ fl.length)
    (h : Shows (.array k fl c) (List.range n) xs) (hy : Shows c (List.range (n * k)) ys) :
    xs = (List.zip (fl.take n) (chunks k n ys)).map arrayVal := by
  refine h.unique ?_
  unfold Shows
  rw [List.forall₂_iff_get]
  refine ⟨by simp [chunks_length, hn], ?_⟩
  intro j h1 h2
  simp only [List.length_range] at h1
  simp only [List.get_eq_getElem, List.getElem_range, List.getElem_map, List.getElem_zip, List.getElem_take, NVec.value]
  rw [List.getElem?_eq_getElem (by omega)]
  have hch : (chunks k n ys)[j]'(by rw [chunks_length]; exact h1) = (ys.drop (j * k)).take k := by
    have := chunks_get (k := k) (l := ys) h1
    rw [List.getElem?_eq_getElem (by rw [chunks_length]; exact h1)] at this
    simpa using this
  rw [hch]
  have hle : j * k + k ≤ n * k := by
    have := Nat.mul_le_mul_right k (Nat.succ_le_of_lt h1); rw [Nat.succ_mul] at this; exact this
  cases fl[j] with
  | false => rfl
  | true =>
    simp only [arrayVal]
    rw [collect_iff.mpr (hy.sub hle)]
    rfl

/-- The values of struct rows from the values of their fields. -/
theorem struct_parts {n : Nat} {fl : List Bool} {fs : NVecs α} {xs : List (NVal α)} {rows : List (List (NVal α))}
    (hn : n ≤ fl.length) (h : Shows (.struct fl fs) (List.range n) xs)
    (hr : List.Forall₂ (fun i r => fs.values i = .ok r) (List.range n) rows) :
    xs = (List.zip (fl.take n) rows).map structVal := by
  have hl : rows.length = n := by simpa using hr.length_eq.symm
  refine h.unique ?_
  unfold Shows
  rw [List.forall₂_iff_get] at hr ⊢
  refine ⟨by simp [hl, hn], ?_⟩
  intro j h1 h2
  simp only [List.length_range] at h1
  have h3 := hr.2 j (by simpa using h1) (by omega)
  simp only [List.get_eq_getElem, List.getElem_range, List.getElem_map, List.getElem_zip, List.getElem_take, NVec.value] at h3 ⊢
  rw [List.getElem?_eq_getElem (by omega)]
  cases fl[j] with
  | false => rfl
  | true => simp only [structVal, h3, Res.map'_ok]

theorem fields_cons {v : NVec α} {vs : NVecs α} {idx : List Nat} {rows : List (List (NVal α))}
    (h : List.Forall₂ (fun i r => (NVecs.cons v vs).values i = .ok r) idx rows) :
    ∃ hs tl, hs.length = tl.length ∧ rows = List.zipWith List.cons hs tl ∧ Shows v idx hs ∧
      List.Forall₂ (fun i r => vs.values i = .ok r) idx tl := by
  induction h with
  | nil => exact ⟨[], [], rfl, rfl, .nil, .nil⟩
  | cons h1 _ ih =>
    obtain ⟨hs, tl, i1, rfl, i3, i4⟩ := ih
    simp only [NVecs.values, Res.bind_ok_iff, Res.map'_ok_iff] at h1
    obtain ⟨x, hx, ys, hy, rfl⟩ := h1
    exact ⟨x :: hs, ys :: tl, by simp [i1], rfl, .cons hx i3, .cons hy i4⟩

/-! ### Appending -/

theorem cells_map (b : List (Cell α)) (z : α) : cells (b.map fun x => x.getD z) (b.map Option.isSome) = b := by
  induction b with
  | nil => rfl
  | cons x b ih =>
    simp only [cells, List.map_cons, List.zipWith_cons_cons] at ih ⊢
    rw [ih]
    cases x <;> rfl

theorem cells_append {d1 d2 : List α} {f1 f2 : List Bool} (h : d1.length = f1.length) :
    cells (d1 ++ d2) (f1 ++ f2) = cells d1 f1 ++ cells d2 f2 := by
  unfold cells
  rw [List.zipWith_append h]

mutual
theorem append_ok {a : Nat} : ∀ (t : NTy α) (c : NCol α) (v : NVec α) (sel : Sel) (vals xs : List (NVal α)), Holds a t c vals →
    c.Ready → v.Has t → (∀ i ∈ sel.idx, i < v.len) → Shows v sel.idx xs → (sel.isDict = true → t.hasArray = false) →
    t.plainLists → t.Ok → ∃ c', c.append v sel = .ok c' ∧ Holds a t c' (vals ++ xs) ∧ c'.Ready
  | .prim ty, c, v, sel, vals, xs, h, hr, hv, hi, hx, _, _, _ => by
    obtain ⟨s, ds, fl, rfl, h1, h2, h3, rfl⟩ := h.prim_inv
    obtain ⟨cs, rfl⟩ := hv.prim_inv
    obtain ⟨b, hb⟩ := take_total (l := cs) hi
    obtain ⟨d', hd1, hd2, hd3, _⟩ := h1.append hr.1 (b.map fun x => x.getD s.data.ty.zero)
    obtain ⟨f', hf1, hf2, hf3, _⟩ := h2.append hr.2 (b.map Option.isSome)
    refine ⟨.prim ⟨d', f'⟩, by simp [NCol.append, hb, Std.append, hd1, hf1], ⟨_, _, hd2, hf2, by simp [h3], ?_⟩, hd3, hf3⟩
    rw [cells_append h3, cells_map, List.map_append]
    congr 1
    refine hx.unique ?_
    have hb' := take_iff.mp hb
    unfold Shows
    rw [List.forall₂_map_right_iff]
    refine hb'.imp ?_
    intro i x hix
    simp only [NVec.value, hix]
  | .list t, c, v, sel, vals, xs, h, hr, hv, hi, hx, _, hp, hk => by
    obtain ⟨offs, valid, child, parts, rfl, h1, h2, h3, rfl⟩ := h.list_inv
    obtain ⟨rows, cv, rfl, hv1, hv2⟩ := hv.list_inv
    obtain ⟨r1, r2, r3⟩ := hr
    obtain ⟨rs, hb⟩ := take_total (l := rows) hi
    obtain ⟨ps, hps, rfl⟩ := list_parts (take_iff.mp hb) hx
    obtain ⟨f1, f2, f3, f4⟩ := parts_facts hps
    have hme := Holds.maxEntry t a child _ h3 hk
    have hchild : ∃ child', (if total rs = 0 then Res.ok child else child.append cv (childSel rs)) = .ok child' ∧
        Holds a t child' (parts.flatMap elems ++ ps.flatMap elems) ∧ child'.Ready := by
      by_cases h0 : total rs = 0
      · rw [if_pos h0]
        refine ⟨child, rfl, ?_, r3⟩
        have : ps.flatMap elems = [] := by rw [← List.length_eq_zero_iff, ← f4, h0]
        rw [this, List.append_nil]
        exact h3
      · rw [if_neg h0]
        refine append_ok t child cv (childSel rs) _ _ h3 r3 hv1 ?_ ?_ (fun _ => hp.1) hp.2 hk
        · rw [childSel_idx]
          intro i hm
          obtain ⟨o, n, g1, g2, g3⟩ := gather_mem hm
          have := hv2 o n (take_mem hb g1)
          omega
        · rw [childSel_idx]; exact f1
    obtain ⟨child', hc1, hc2, hc3⟩ := hchild
    obtain ⟨offs', ho1, ho2, ho3, _⟩ := h1.append r1 (ends child.maxEntry rs)
    obtain ⟨valid', hv1', hv2', hv3', _⟩ := h2.append r2 (rs.map Option.isSome)
    refine ⟨.list a offs' valid' child', by simp only [NCol.append, hb, Res.bind_ok, hc1, ho1, hv1', Res.map'_ok],
      ⟨parts ++ ps, rfl, ?_, ?_, ?_, by simp⟩, ho3, hv3', hc3⟩
    · rw [List.map_append, sums_append, Nat.zero_add]
      rw [f3, hme] at ho2
      have : (parts.map fun p => (elems p).length).sum = (parts.flatMap elems).length := by
        rw [List.length_flatMap]
      rw [this]
      exact ho2
    · rw [List.map_append, ← f2]; exact hv2'
    · rw [List.flatMap_append]; exact hc2
  | .array k t, c, v, sel, vals, xs, h, hr, hv, hi, hx, hd, hp, hk => by
    obtain ⟨valid, child, parts, rfl, h1, h2, h3, rfl⟩ := h.array_inv
    obtain ⟨w, hw, hw1, hw2, hw3⟩ := flatten_ok hv hi hd hp
    have hxw := flatten_shows hx hw3
    obtain ⟨fl, cv, rfl, hc1, hc2⟩ := hw1.array_inv
    have hw2 : sel.idx.length ≤ fl.length := hw2
    generalize sel.idx.length = n at hw hw2 hxw
    have hle : n * k ≤ fl.length * k := Nat.mul_le_mul_right k hw2
    obtain ⟨ys, hys⟩ := Has.shows (idx := List.range (n * k)) hc1 (by intro i hm; simp at hm; omega)
    have hyl : ys.length = n * k := by have := hys.length; simpa using this
    have hxs := array_parts hw2 hxw hys
    obtain ⟨child', g1, g2, g3⟩ := append_ok t child cv (.flat (n * k)) _ ys h3 hr.2 hc1
      (by intro i hm; simp [Sel.idx] at hm; omega) hys (by simp [Sel.isDict]) hp hk.2
    obtain ⟨valid', k1, k2, k3, _⟩ := h1.append hr.1 (fl.take n)
    have hlz : (fl.take n).length = (chunks k n ys).length := by rw [chunks_length]; simp [hw2]
    refine ⟨.array k a (parts.length + n) valid' child', ?_, ⟨parts ++ List.zip (fl.take n) (chunks k n ys), rfl, rfl, ?_, ?_, ?_, ?_, ?_⟩, k3, g3⟩
    · simp only [NCol.append, hw, Res.bind_ok, take_range hw2, k1, g1, Res.map'_ok]
    · rw [List.length_append, List.length_zip, hlz, Nat.min_self, chunks_length]
    · rw [List.map_append, List.map_fst_zip (by omega)]; exact k2
    · intro p hp'
      rcases List.mem_append.mp hp' with hm | hm
      · exact h2 p hm
      · exact chunks_mem hyl p.2 (List.of_mem_zip hm).2
    · rw [List.flatMap_append]
      have : (List.zip (fl.take n) (chunks k n ys)).flatMap Prod.snd = ys := by
        rw [List.flatMap_def, List.map_snd_zip (by omega), chunks_flat hyl]
      rw [this]
      exact g2
    · rw [List.map_append, hxs]
  | .struct ts, c, v, sel, vals, xs, h, hr, hv, hi, hx, hd, hp, hk => by
    obtain ⟨valid, fs, parts, rfl, h1, h2, rfl⟩ := h.struct_inv
    obtain ⟨w, hw, hw1, hw2, hw3⟩ := flatten_ok hv hi hd hp
    have hxw := flatten_shows hx hw3
    obtain ⟨fl, vs, rfl, hc1⟩ := hw1.struct_inv
    have hw2 : sel.idx.length ≤ fl.length := hw2
    generalize sel.idx.length = n at hw hw2 hxw
    obtain ⟨rows, hrows⟩ := forall₂_exists (R := fun i r => vs.values i = .ok r) (l := List.range n) fun i hm =>
      Has.values ts vs fl.length i hc1 (by simp at hm; omega)
    have hrl : rows.length = n := by simpa using hrows.length_eq.symm
    have hxs := struct_parts hw2 hxw hrows
    obtain ⟨fs', g1, g2, g3⟩ := appends_ok ts fs vs fl.length n _ rows h2 hr.2 hc1 hw2 hrows hp hk.2
    obtain ⟨valid', k1, k2, k3, _⟩ := h1.append hr.1 (fl.take n)
    have hlz : (fl.take n).length = rows.length := by simp [hw2, hrl]
    refine ⟨.struct a (parts.length + n) valid' fs', ?_, ⟨parts ++ List.zip (fl.take n) rows, rfl, ?_, ?_, ?_, ?_⟩, k3, g3⟩
    · simp only [NCol.append, hw, Res.bind_ok, take_range hw2, k1, g1, Res.map'_ok]
    · rw [List.length_append, List.length_zip, hlz, Nat.min_self, hrl]
    · rw [List.map_append, List.map_fst_zip (by omega)]; exact k2
    · rw [List.map_append, List.map_snd_zip (by omega)]; exact g2
    · rw [List.map_append, hxs]
theorem appends_ok {a : Nat} : ∀ (ts : NTys α) (cs : NCols α) (vs : NVecs α) (len n : Nat) (rows new : List (List (NVal α))),
    HoldsAll a ts cs rows → cs.Ready → vs.Has ts len → n ≤ len →
    List.Forall₂ (fun i r => vs.values i = .ok r) (List.range n) new → ts.plainLists → ts.Ok →
    ∃ cs', cs.append vs n = .ok cs' ∧ HoldsAll a ts cs' (rows ++ new) ∧ cs'.Ready
  | .nil, cs, vs, len, n, rows, new, h, _, hv, _, hnew, _, _ => by
    obtain ⟨rfl, h⟩ := h.nil_inv
    rw [hv.nil_inv] at hnew ⊢
    refine ⟨.nil, rfl, ?_, trivial⟩
    intro r hm
    rcases List.mem_append.mp hm with hm | hm
    · exact h r hm
    · obtain ⟨j, hj, rfl⟩ := List.getElem_of_mem hm
      rw [List.forall₂_iff_get] at hnew
      have := hnew.2 j (by rw [hnew.1]; exact hj) hj
      simp only [List.get_eq_getElem, NVecs.values, Res.ok.injEq] at this
      exact this.symm
  | .cons t ts, cs, vs, len, n, rows, new, h, hr, hv, hn, hnew, hp, hk => by
    obtain ⟨c, cs', hs, tl, rfl, h1, rfl, h3, h4⟩ := h.cons_inv
    obtain ⟨v, ws, rfl, hv1, hv2, hv3⟩ := hv.cons_inv
    obtain ⟨hs', tl', g1, rfl, g3, g4⟩ := fields_cons hnew
    obtain ⟨c', a1, a2, a3⟩ := append_ok t c v (.flat n) hs hs' h3 hr.1 hv1 (by intro i hm; simp [Sel.idx] at hm; omega) g3
      (by simp [Sel.isDict]) hp.1 hk.1
    obtain ⟨cs'', b1, b2, b3⟩ := appends_ok ts cs' ws len n tl tl' h4 hr.2 hv3 hn g4 hp.2 hk.2
    refine ⟨.cons c' cs'', by simp only [NCols.append, a1, b1, Res.bind_ok, Res.map'_ok], ⟨hs ++ hs', tl ++ tl', by simp [h1, g1], ?_, a2, b2⟩, a3, b3⟩
    rw [List.zipWith_append h1]
end

end Verif.NestCol
