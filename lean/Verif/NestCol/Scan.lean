import Verif.NestCol.Append
/-! Scanning a column gives its values. -/
namespace Verif.NestCol
open Verif
open Verif.Table

variable {α β : Type} [Inhabited α]

instance : Inhabited (NVal α) := ⟨.null⟩

mutual
theorem Holds.blank {a : Nat} : ∀ (t : NTy α) (c : NCol α) (vals : List (NVal α)), Holds a t c vals →
    c.blank.Has t ∧ c.blank.len = 0
  | .prim _, c, vals, h => by obtain ⟨s, ds, fl, rfl, _⟩ := h.prim_inv; exact ⟨trivial, rfl⟩
  | .list t, c, vals, h => by
    obtain ⟨offs, valid, child, parts, rfl, _, _, h3, _⟩ := h.list_inv
    exact ⟨⟨(Holds.blank t child _ h3).1, by simp⟩, rfl⟩
  | .array k t, c, vals, h => by
    obtain ⟨valid, child, parts, rfl, _, _, h3, _⟩ := h.array_inv
    exact ⟨⟨rfl, (Holds.blank t child _ h3).1, by simp [(Holds.blank t child _ h3).2]⟩, rfl⟩
  | .struct ts, c, vals, h => by
    obtain ⟨valid, fs, parts, rfl, _, h2, _⟩ := h.struct_inv
    exact ⟨HoldsAll.blank ts fs _ h2, rfl⟩
theorem HoldsAll.blank {a : Nat} : ∀ (ts : NTys α) (cs : NCols α) (rows : List (List (NVal α))), HoldsAll a ts cs rows →
    cs.blank.Has ts 0
  | .nil, cs, rows, h => by obtain ⟨rfl, _⟩ := h.nil_inv; exact trivial
  | .cons t ts, cs, rows, h => by
    obtain ⟨c, cs', hs, tl, rfl, _, _, h3, h4⟩ := h.cons_inv
    exact ⟨(Holds.blank t c hs h3).1, (Holds.blank t c hs h3).2, HoldsAll.blank ts cs' tl h4⟩
end

/-! ### Room for the elements of lists -/

theorem le_nextPow2 (n : Nat) : n ≤ nextPow2 n := by
  unfold nextPow2
  split
  · assumption
  · have := Nat.lt_log2_self (n := n - 1)
    omega

mutual
theorem resizeOk_plain {a : Nat} (need cap : Nat) : ∀ (t : NTy α) (c : NCol α) (vals : List (NVal α)), Holds a t c vals →
    t.hasArray = false → c.resizeOk need cap 1 1 = true
  | .prim _, c, vals, h, _ => by
    obtain ⟨s, ds, fl, rfl, _⟩ := h.prim_inv
    simp [NCol.resizeOk, le_nextPow2]
  | .list t, c, vals, h, _ => by
    obtain ⟨offs, valid, child, parts, rfl, _⟩ := h.list_inv
    simp [NCol.resizeOk, le_nextPow2]
  | .array k t, c, vals, h, ha => by simp [NTy.hasArray] at ha
  | .struct ts, c, vals, h, ha => by
    obtain ⟨valid, fs, parts, rfl, _, h2, _⟩ := h.struct_inv
    exact resizesOk_plain need cap ts fs _ h2 ha
theorem resizesOk_plain {a : Nat} (need cap : Nat) : ∀ (ts : NTys α) (cs : NCols α) (rows : List (List (NVal α))),
    HoldsAll a ts cs rows → ts.hasArray = false → cs.resizeOk need cap 1 1 = true
  | .nil, cs, rows, h, _ => by obtain ⟨rfl, _⟩ := h.nil_inv; rfl
  | .cons t ts, cs, rows, h, ha => by
    obtain ⟨c, cs', hs, tl, rfl, _, _, h3, h4⟩ := h.cons_inv
    simp only [NTys.hasArray, Bool.or_eq_false_iff] at ha
    simp only [NCols.resizeOk, Bool.and_eq_true]
    exact ⟨resizeOk_plain need cap t c hs h3 ha.1, resizesOk_plain need cap ts cs' tl h4 ha.2⟩
end

theorem reserve_ok {a : Nat} {t : NTy α} {c : NCol α} {vals : List (NVal α)} (h : Holds a t c vals) (ht : t.hasArray = false)
    (cap need : Nat) : reserve c cap need = .ok () := by
  unfold reserve
  rw [resizeOk_plain need cap t c vals h ht]
  split <;> rfl

theorem rowIndex_le {c : Col β} {a off : Nat} {vals : List β} {pos : Pos} (h : Plain c a vals) (hp : At a off vals.length pos) :
    rowIndex c pos ≤ a + off := by
  match pos, hp with
  | none, hp =>
    show c.initScan.row ≤ _
    unfold Col.initScan
    cases hs : c.segs with
    | nil => simp
    | cons s ss =>
      have := h.chain
      rw [hs] at this
      have := this.1
      simp only
      omega
  | some row, hp => exact Nat.le_of_eq hp.1

theorem beyond_ok {a : Nat} {t : NTy α} {c : NCol α} {vals : List (NVal α)} (h : Holds a t c vals) {off need : Nat} {pos : Pos}
    (hp : At a off vals.length pos) (hn : off + need ≤ vals.length) : beyond c pos need = false := by
  cases t with
  | prim ty =>
    obtain ⟨s, ds, fl, rfl, h1, h2, h3, rfl⟩ := h.prim_inv
    simp only [List.length_map, cells_length h3] at hp hn
    have := rowIndex_le h1 hp
    simp only [beyond, h1.start, h1.count, decide_eq_false_iff_not]
    omega
  | list t =>
    obtain ⟨offs, valid, child, parts, rfl, h1, h2, h3, rfl⟩ := h.list_inv
    simp only [List.length_map] at hp hn
    have := rowIndex_le h1 (pos := fromStart pos) (off := off) (by simpa [sums_length] using hp.fromStart)
    simp only [beyond, h1.count, decide_eq_false_iff_not, sums_length, List.length_map]
    omega
  | array k t => obtain ⟨valid, child, parts, rfl, _⟩ := h.array_inv; rfl
  | struct ts => obtain ⟨valid, fs, parts, rfl, _⟩ := h.struct_inv; rfl

/-! ### List entries -/

/-- Entries of consecutive rows. -/
def spans (cur : Nat) : List Nat → List (Nat × Nat)
  | [] => []
  | n :: ns => (cur, n) :: spans (cur + n) ns

theorem entries_sums (base cur : Nat) (ns : List Nat) : entries base cur (sums (base + cur) ns) = spans cur ns := by
  induction ns generalizing cur with
  | nil => rfl
  | cons n ns ih =>
    have h1 : base + cur + n - cur - base = n := by omega
    simp only [sums, entries, spans, h1]
    rw [Nat.add_assoc, ih]

theorem sums_take (b n : Nat) (ns : List Nat) : (sums b ns).take n = sums b (ns.take n) := by
  induction ns generalizing b n with
  | nil => simp [sums]
  | cons m ns ih => cases n with
    | zero => rfl
    | succ n => simp [sums, ih]

theorem sums_drop (b n : Nat) (ns : List Nat) : (sums b ns).drop n = sums (b + (ns.take n).sum) (ns.drop n) := by
  induction ns generalizing b n with
  | nil => simp [sums]
  | cons m ns ih => cases n with
    | zero => simp
    | succ n => simp [sums, ih, Nat.add_assoc]

theorem sums_get {b i : Nat} {ns : List Nat} (hi : i < ns.length) : (sums b ns)[i]? = some (b + (ns.take (i + 1)).sum) := by
  induction ns generalizing b i with
  | nil => simp at hi
  | cons m ns ih => cases i with
    | zero => simp [sums]
    | succ i =>
      simp only [List.length_cons] at hi
      simp only [sums, List.getElem?_cons_succ]
      rw [ih (by omega)]
      simp [Nat.add_assoc]

theorem sums_last (b : Nat) (ns : List Nat) :
    childCount b (sums b ns) = ns.sum := by
  unfold childCount
  cases h : ns with
  | nil => rfl
  | cons m ms =>
    rw [List.getLast?_eq_getElem?, sums_length, sums_get (by simp)]
    rw [Nat.sub_add_cancel (by simp), List.take_length]
    simp

/-- The value of a list row. -/
def rowValue (c : NVec α) : Option (Nat × Nat) → Res (NVal α)
  | none => .ok .null
  | some (o, n) => (collect c.value o n).map' .list

theorem list_shows {rows : List (Option (Nat × Nat))} {c : NVec α} {xs : List (NVal α)}
    (h : List.Forall₂ (fun r x => rowValue c r = .ok x) rows xs) : Shows (.list rows c) (List.range rows.length) xs := by
  unfold Shows
  rw [List.forall₂_iff_get] at h ⊢
  refine ⟨by simpa using h.1, ?_⟩
  intro j h1 h2
  simp only [List.length_range] at h1
  have h3 := h.2 j h1 h2
  simp only [List.get_eq_getElem, List.getElem_range, NVec.value] at h3 ⊢
  rw [List.getElem?_eq_getElem h1]
  unfold rowValue at h3
  cases hr : rows[j] with
  | none => rw [hr] at h3; exact h3
  | some p => rw [hr] at h3; exact h3

theorem spans_rows {c : NVec α} {ps : List (Option (List (NVal α)))} {cur : Nat}
    (h : Shows c (List.range' cur (ps.flatMap elems).length) (ps.flatMap elems)) :
    List.Forall₂ (fun r x => rowValue c r = .ok x)
      (maskRows (spans cur (ps.map fun p => (elems p).length)) (ps.map Option.isSome)) (ps.map listVal) := by
  induction ps generalizing cur with
  | nil => exact .nil
  | cons p ps ih =>
    simp only [List.flatMap_cons, List.length_append] at h
    rw [← List.range'_append_1] at h
    have h1 := List.forall₂_take_append _ _ _ h
    have h2 := List.forall₂_drop_append _ _ _ h
    rw [List.take_left' (by simp)] at h1
    rw [List.drop_left' (by simp)] at h2
    simp only [List.map_cons, spans, maskRows, List.zipWith_cons_cons]
    refine .cons ?_ (ih h2)
    cases p with
    | none => rfl
    | some xs =>
      simp only [Option.isSome_some, if_true, rowValue, elems, listVal]
      have h1 : collect c.value cur xs.length = .ok xs := collect_iff.mpr h1
      rw [h1]
      rfl

theorem spans_mem {cur : Nat} {ns : List Nat} {o n : Nat} (h : (o, n) ∈ spans cur ns) : o + n ≤ cur + ns.sum := by
  induction ns generalizing cur with
  | nil => simp [spans] at h
  | cons m ms ih =>
    simp only [spans, List.mem_cons, Prod.mk.injEq] at h
    simp only [List.sum_cons]
    rcases h with ⟨rfl, rfl⟩ | h
    · omega
    · have := ih h; omega

theorem maskRows_mem {es : List (Nat × Nat)} {fl : List Bool} {p : Nat × Nat} (h : some p ∈ maskRows es fl) : p ∈ es := by
  induction es generalizing fl with
  | nil => simp [maskRows] at h
  | cons e es ih =>
    cases fl with
    | nil => simp [maskRows] at h
    | cons b fl =>
      simp only [maskRows, List.zipWith_cons_cons, List.mem_cons] at h ⊢
      rcases h with h | h
      · cases b with
        | false => simp at h
        | true => simp at h; exact .inl h
      · exact .inr (ih h)

theorem spans_length (cur : Nat) (ns : List Nat) : (spans cur ns).length = ns.length := by
  induction ns generalizing cur with
  | nil => rfl
  | cons n ns ih => simp [spans, ih]

theorem flatMap_slice (f : β → List α) (ps : List β) (off n : Nat) :
    ((ps.flatMap f).drop ((ps.take off).map fun p => (f p).length).sum).take (((ps.drop off).take n).map fun p => (f p).length).sum
      = ((ps.drop off).take n).flatMap f := by
  have h1 : ps.flatMap f = (ps.take off).flatMap f ++ ((ps.drop off).take n).flatMap f ++ ((ps.drop off).drop n).flatMap f := by
    rw [← List.flatMap_append, ← List.flatMap_append, List.append_assoc, List.take_append_drop, List.take_append_drop]
  rw [h1, List.append_assoc, ← List.length_flatMap, ← List.length_flatMap, List.drop_left, List.take_left]

theorem flatMap_sum_le (f : β → List α) (ps : List β) (off n : Nat) :
    ((ps.take off).map fun p => (f p).length).sum + (((ps.drop off).take n).map fun p => (f p).length).sum
      ≤ (ps.flatMap f).length := by
  have h1 : ps.flatMap f = (ps.take off).flatMap f ++ ((ps.drop off).take n).flatMap f ++ ((ps.drop off).drop n).flatMap f := by
    rw [← List.flatMap_append, ← List.flatMap_append, List.append_assoc, List.take_append_drop, List.take_append_drop]
  rw [h1, ← List.length_flatMap, ← List.length_flatMap]
  simp only [List.length_append]
  omega

theorem sum_const {f : β → Nat} {k : Nat} {l : List β} (h : ∀ x ∈ l, f x = k) : (l.map f).sum = l.length * k := by
  induction l with
  | nil => simp
  | cons x l ih =>
    rw [List.map_cons, List.sum_cons, ih fun y hy => h y (List.mem_cons_of_mem _ hy), h x (by simp), List.length_cons, Nat.succ_mul]
    omega

theorem chunks_of {k : Nat} {ls : List (List β)} (h : ∀ l ∈ ls, l.length = k) : chunks k ls.length ls.flatten = ls := by
  induction ls with
  | nil => rfl
  | cons l ls ih =>
    simp only [List.length_cons, chunks, List.flatten_cons]
    have hl := h l (by simp)
    rw [← hl, List.take_left, List.drop_left, hl, ih fun x hx => h x (List.mem_cons_of_mem _ hx)]

theorem zip_fst_snd {γ : Type} (l : List (β × γ)) : List.zip (l.map Prod.fst) (l.map Prod.snd) = l := by
  induction l with
  | nil => rfl
  | cons x l ih => simp [ih]

theorem listBase_ok {offs : Col Nat} {a off : Nat} {ns : List Nat} {p : Pos} (h : Plain offs a (sums 0 ns))
    (hs : a + ns.length < 2 ^ 62) (hp : At a off ns.length p) : listBase a offs p = .ok (ns.take off).sum := by
  match p, hp with
  | none, hp =>
    have hp : off = 0 := hp
    subst hp
    rfl
  | some row, hp =>
    obtain ⟨rfl, ho⟩ := hp
    show (if a + off = a then Res.ok 0 else listOffset offs (a + off - 1)) = _
    by_cases h0 : off = 0
    · subst h0; simp
    · rw [if_neg (by omega)]
      have := listOffset_ok (i := off - 1) h (by rwa [sums_length]) (sums_get (by omega))
      rw [show a + off - 1 = a + (off - 1) by omega, this, Nat.sub_add_cancel (by omega), Nat.zero_add]

mutual
theorem scan_ok {a : Nat} : ∀ (t : NTy α) (c : NCol α) (vals : List (NVal α)) (pos : Pos) (off cap n : Nat), Holds a t c vals →
    c.Small → t.plainLists → t.Ok → At a off vals.length pos → off + n ≤ vals.length →
    ∃ v, c.scan pos cap n = .ok v ∧ v.Has t ∧ v.len = n ∧ Shows v (List.range n) ((vals.drop off).take n)
  | .prim ty, c, vals, pos, off, cap, n, h, hsm, _, _, hp, hn => by
    obtain ⟨s, ds, fl, rfl, h1, h2, h3, rfl⟩ := h.prim_inv
    have hsm : s.data.start + s.data.count < 2 ^ 62 := hsm
    rw [h1.start, h1.count] at hsm
    simp only [List.length_map, cells_length h3] at hp hn
    have g1 := scanCount_ok h1 hsm hp hn
    have g2 := scanCount_ok (n := n) h2 (by omega) (by rw [← h3]; exact hp) (by omega)
    refine ⟨.prim (cells ((ds.drop off).take n) ((fl.drop off).take n)), by simp only [NCol.scan, g1, g2, Res.bind_ok, Res.map'_ok], trivial, ?_, ?_⟩
    · show (cells _ _).length = n
      rw [cells_length (by simp; omega)]
      simp; omega
    · have hc : cells ((ds.drop off).take n) ((fl.drop off).take n) = ((cells ds fl).drop off).take n := by
        unfold cells; rw [List.drop_zipWith, List.take_zipWith]
      rw [hc, ← List.map_drop, ← List.map_take]
      have hl : (((cells ds fl).drop off).take n).length = n := by
        rw [List.length_take, List.length_drop, cells_length h3]; omega
      generalize ((cells ds fl).drop off).take n = cs at hl ⊢
      subst hl
      unfold Shows
      rw [List.forall₂_iff_get]
      refine ⟨by simp, ?_⟩
      intro j k1 k2
      simp only [List.length_range] at k1
      simp only [List.get_eq_getElem, List.getElem_range, List.getElem_map, NVec.value]
      rw [List.getElem?_eq_getElem k1]
  | .list t, c, vals, pos, off, cap, n, h, hsm, hpl, hk, hp, hn => by
    obtain ⟨offs, valid, child, parts, rfl, h1, h2, h3, rfl⟩ := h.list_inv
    obtain ⟨hs1, hs2⟩ : a + offs.count < 2 ^ 62 ∧ child.Small := hsm
    rw [h1.count, sums_length] at hs1
    simp only [List.length_map] at hp hn hs1
    have hp' := hp.fromStart
    have g0 := listBase_ok h1 (by simpa using hs1) (by simpa using hp')
    have g1 := scanCount_ok (n := n) h1 (by rw [sums_length]; simpa using hs1) (by rw [sums_length]; simpa using hp') (by rw [sums_length]; simpa using hn)
    have g2 := scanCount_ok (n := n) h2 (by simpa using hs1) (by simpa using hp') (by simpa using hn)
    rw [sums_drop, sums_take, Nat.zero_add] at g1
    have hns : ((parts.map fun p => (elems p).length).drop off).take n = (((parts.drop off).take n).map fun p => (elems p).length) := by
      rw [List.map_take, List.map_drop]
    have hbs : (parts.map fun p => (elems p).length).take off = (parts.take off).map fun p => (elems p).length := by
      rw [List.map_take]
    rw [hns, hbs] at g1
    rw [hbs] at g0
    rw [← List.map_drop, ← List.map_take] at g2
    have hfl := flatMap_slice elems parts off n
    have hle := flatMap_sum_le elems parts off n
    have hvals : ((parts.map listVal).drop off).take n = ((parts.drop off).take n).map listVal := by
      rw [← List.map_drop, ← List.map_take]
    have hlen : ((parts.drop off).take n).length = n := by simp; omega
    rw [hvals]
    generalize hb : ((parts.take off).map fun p => (elems p).length).sum = base at g0 g1 hfl hle
    generalize (parts.drop off).take n = ps at g1 g2 hfl hle hlen
    have hent : entries base 0 (sums base (ps.map fun p => (elems p).length)) = spans 0 (ps.map fun p => (elems p).length) :=
      entries_sums base 0 _
    have hrl : (maskRows (spans 0 (ps.map fun p => (elems p).length)) (ps.map Option.isSome)).length = n := by
      simp [maskRows, spans_length, hlen]
    have hneed := sums_last base (ps.map fun p => (elems p).length)
    simp only [NCol.scan, g0, g1, g2, Res.bind_ok, hent, hneed]
    have hsum : (ps.map fun p => (elems p).length).sum = (ps.flatMap elems).length := by rw [List.length_flatMap]
    by_cases hz : (ps.map fun p => (elems p).length).sum = 0
    · rw [if_pos hz]
      have hnil : ps.flatMap elems = [] := by rw [← List.length_eq_zero_iff, ← hsum, hz]
      obtain ⟨b1, b2⟩ := Holds.blank t child _ h3
      refine ⟨_, rfl, ⟨b1, ?_⟩, hrl, ?_⟩
      · intro o m hm
        have := spans_mem (maskRows_mem hm)
        omega
      · have := list_shows (spans_rows (c := child.blank) (ps := ps) (cur := 0) (by rw [hnil]; exact .nil))
        rw [hrl] at this
        exact this
    · rw [if_neg hz, reserve_ok h3 hpl.1]
      simp only [Res.bind_ok]
      have hme := Holds.maxEntry t a child _ h3 hk
      have hq : ∃ q, childPos a base child.maxEntry (fromStart pos) = some q ∧ At a base (parts.flatMap elems).length q := by
        match hfp : fromStart pos with
        | none =>
          rw [hfp] at hp'
          have hp' : off = 0 := hp'
          subst hp'
          simp at hb
          exact ⟨none, rfl, hb.symm⟩
        | some row =>
          refine ⟨some (a + base), ?_, rfl, by omega⟩
          unfold childPos
          rw [if_pos (by rw [hme]; omega)]
      obtain ⟨q, hq1, hq2⟩ := hq
      rw [hq1]
      simp only
      rw [beyond_ok h3 hq2 hle]
      obtain ⟨v, k1, k2, k3, k4⟩ := scan_ok t child _ q base cap _ h3 hs2 hpl.2 hk hq2 hle
      rw [k1]
      refine ⟨.list _ v, rfl, ⟨k2, ?_⟩, hrl, ?_⟩
      · intro o m hm
        have := spans_mem (maskRows_mem hm)
        omega
      · rw [hfl, hsum, List.range_eq_range'] at k4
        have := list_shows (spans_rows k4)
        rw [hrl] at this
        exact this
  | .array k t, c, vals, pos, off, cap, n, h, hsm, hpl, hk, hp, hn => by
    obtain ⟨valid, child, parts, rfl, h1, h2, h3, rfl⟩ := h.array_inv
    obtain ⟨hs1, hs2⟩ : a + parts.length < 2 ^ 62 ∧ child.Small := hsm
    simp only [List.length_map] at hp hn
    have hp' := hp.fromStart
    have g1 := scanCount_ok (n := n) h1 (by simpa using hs1) (by simpa using hp') (by simpa using hn)
    rw [← List.map_drop, ← List.map_take] at g1
    have hps : ∀ p ∈ (parts.drop off).take n, p.2.length = k := fun p hm => h2 p (List.mem_of_mem_drop (List.mem_of_mem_take hm))
    have hoff : ((parts.take off).map fun p => p.2.length).sum = off * k := by
      rw [sum_const fun p hm => h2 p (List.mem_of_mem_take hm), List.length_take, Nat.min_eq_left (by omega)]
    have hlen : ((parts.drop off).take n).length = n := by simp; omega
    have hnk : (((parts.drop off).take n).map fun p => p.2.length).sum = n * k := by
      rw [sum_const hps, hlen]
    have hfl := flatMap_slice Prod.snd parts off n
    have hle := flatMap_sum_le Prod.snd parts off n
    rw [hoff, hnk] at hfl hle
    have hvals : ((parts.map arrayVal).drop off).take n = ((parts.drop off).take n).map arrayVal := by
      rw [← List.map_drop, ← List.map_take]
    rw [hvals]
    generalize (parts.drop off).take n = ps at g1 hps hlen hfl
    simp only [NCol.scan, g1, Res.bind_ok]
    by_cases hz : n * k = 0
    · rw [if_pos hz]
      have hn0 : n = 0 := by
        rcases Nat.mul_eq_zero.mp hz with h0 | h0
        · exact h0
        · have := hk.1; omega
      subst hn0
      have : ps = [] := by simpa using hlen
      subst this
      obtain ⟨b1, b2⟩ := Holds.blank t child _ h3
      exact ⟨_, rfl, ⟨rfl, b1, by simp [b2]⟩, rfl, .nil⟩
    · rw [if_neg hz]
      have hme := Holds.maxEntry t a child _ h3 hk.2
      have hq : ∃ q, childPos a (arrayBase a k (fromStart pos)) child.maxEntry (fromStart pos) = some q ∧
          At a (off * k) (parts.flatMap Prod.snd).length q := by
        match hfp : fromStart pos with
        | none =>
          rw [hfp] at hp'
          have hp' : off = 0 := hp'
          subst hp'
          exact ⟨none, rfl, by simp [At]⟩
        | some row =>
          rw [hfp] at hp'
          obtain ⟨rfl, _⟩ := hp'
          refine ⟨some (a + off * k), ?_, rfl, by omega⟩
          unfold childPos arrayBase
          simp only [Nat.add_sub_cancel_left]
          rw [if_pos (by rw [hme]; omega)]
      obtain ⟨q, hq1, hq2⟩ := hq
      rw [hq1]
      simp only
      obtain ⟨v, k1, k2, k3, k4⟩ := scan_ok t child _ q (off * k) (cap * k) (n * k) h3 hs2 hpl hk.2 hq2 hle
      rw [k1]
      rw [hfl] at k4
      have hhas : (NVec.array k (ps.map Prod.fst) v).Has (.array k t) := ⟨rfl, k2, by simp [k3, hlen]⟩
      have hlv : (NVec.array k (ps.map Prod.fst) v).len = n := by simp [NVec.len, hlen]
      refine ⟨.array k (ps.map Prod.fst) v, rfl, hhas, hlv, ?_⟩
      obtain ⟨xs, hxs⟩ := Has.shows (idx := List.range n) hhas (by intro i hm; rw [hlv]; simpa using hm)
      have := array_parts (by simp [hlen]) hxs k4
      rw [this] at hxs
      have hch : chunks k n (ps.flatMap Prod.snd) = ps.map Prod.snd := by
        rw [List.flatMap_def, ← hlen, ← List.length_map (f := Prod.snd)]
        exact chunks_of fun l hm => by obtain ⟨p, hp1, rfl⟩ := List.mem_map.mp hm; exact hps p hp1
      have hz : List.zip ((ps.map Prod.fst).take n) (ps.map Prod.snd) = ps := by
        rw [List.take_of_length_le (by simp [hlen])]
        exact zip_fst_snd ps
      rw [hch, hz] at hxs
      exact hxs
  | .struct ts, c, vals, pos, off, cap, n, h, hsm, hpl, hk, hp, hn => by
    obtain ⟨valid, fs, parts, rfl, h1, h2, rfl⟩ := h.struct_inv
    obtain ⟨hs1, hs2⟩ : a + parts.length < 2 ^ 62 ∧ fs.Small := hsm
    simp only [List.length_map] at hp hn
    have g1 := scanCount_ok (n := n) h1 (by simpa using hs1) (by simpa using hp) (by simpa using hn)
    rw [← List.map_drop, ← List.map_take] at g1
    obtain ⟨vs, k1, k2, k3⟩ := scans_ok ts fs _ pos off cap n h2 hs2 hpl hk.2 (by simpa using hp) (by simpa using hn)
    rw [← List.map_drop, ← List.map_take] at k3
    have hlen : ((parts.drop off).take n).length = n := by simp; omega
    have hvals : ((parts.map structVal).drop off).take n = ((parts.drop off).take n).map structVal := by
      rw [← List.map_drop, ← List.map_take]
    rw [hvals]
    generalize (parts.drop off).take n = ps at g1 hlen k3
    have hhas : (NVec.struct (ps.map Prod.fst) vs).Has (.struct ts) := by
      show vs.Has ts (ps.map Prod.fst).length
      simpa [hlen] using k2
    have hlv : (NVec.struct (ps.map Prod.fst) vs).len = n := by simp [NVec.len, hlen]
    refine ⟨.struct (ps.map Prod.fst) vs, by simp only [NCol.scan, g1, k1, Res.bind_ok, Res.map'_ok], hhas, hlv, ?_⟩
    obtain ⟨xs, hxs⟩ := Has.shows (idx := List.range n) hhas (by intro i hm; rw [hlv]; simpa using hm)
    have := struct_parts (by simp [hlen]) hxs k3
    rw [this] at hxs
    have hz : List.zip ((ps.map Prod.fst).take n) (ps.map Prod.snd) = ps := by
      rw [List.take_of_length_le (by simp [hlen])]
      exact zip_fst_snd ps
    rw [hz] at hxs
    exact hxs
theorem scans_ok {a : Nat} : ∀ (ts : NTys α) (cs : NCols α) (rows : List (List (NVal α))) (pos : Pos) (off cap n : Nat),
    HoldsAll a ts cs rows → cs.Small → ts.plainLists → ts.Ok → At a off rows.length pos → off + n ≤ rows.length →
    ∃ vs, cs.scan pos cap n = .ok vs ∧ vs.Has ts n ∧
      List.Forall₂ (fun i r => vs.values i = .ok r) (List.range n) ((rows.drop off).take n)
  | .nil, cs, rows, pos, off, cap, n, h, _, _, _, _, hn => by
    obtain ⟨rfl, h⟩ := h.nil_inv
    refine ⟨.nil, rfl, trivial, ?_⟩
    rw [List.forall₂_iff_get]
    refine ⟨by simp; omega, ?_⟩
    intro j h1 h2
    have := h _ (List.mem_of_mem_drop (List.mem_of_mem_take (List.getElem_mem h2)))
    simp only [List.get_eq_getElem, NVecs.values]
    rw [this]
  | .cons t ts, cs, rows, pos, off, cap, n, h, hsm, hpl, hk, hp, hn => by
    obtain ⟨c, cs', hs, tl, rfl, h1, rfl, h3, h4⟩ := h.cons_inv
    have hl : (List.zipWith List.cons hs tl).length = hs.length := by simp [h1]
    rw [hl] at hp hn
    obtain ⟨v, a1, a2, a3, a4⟩ := scan_ok t c hs pos off cap n h3 hsm.1 hpl.1 hk.1 hp hn
    obtain ⟨vs, b1, b2, b3⟩ := scans_ok ts cs' tl pos off cap n h4 hsm.2 hpl.2 hk.2 (by rw [← h1]; exact hp) (by omega)
    refine ⟨.cons v vs, by simp only [NCols.scan, a1, b1, Res.bind_ok, Res.map'_ok], ⟨a2, a3, b2⟩, ?_⟩
    rw [List.drop_zipWith, List.take_zipWith]
    generalize (hs.drop off).take n = xs at a4
    generalize (tl.drop off).take n = ys at b3
    unfold Shows at a4
    generalize List.range n = idx at a4 b3
    induction a4 generalizing ys with
    | nil => cases b3; exact .nil
    | cons e1 _ ih =>
      cases b3 with
      | cons e2 e3 =>
        refine .cons ?_ (ih _ e3)
        simp only [NVecs.values, e1, e2, Res.bind_ok, Res.map'_ok]
end

end Verif.NestCol
