import Verif.NestCol.Scan
/-! Fetching single rows of a column. -/
namespace Verif.NestCol
open Verif
open Verif.Table

variable {α β : Type} [Inhabited α]

theorem Plain.fetchRow {c : Col β} {a i : Nat} {vals : List β} {x : β} (h : Plain c a vals)
    (hs : a + vals.length < 2 ^ 62) (hx : vals[i]? = some x) : c.fetchRow (a + i) = .ok x := by
  have hi : i < vals.length := (List.getElem?_eq_some_iff.mp hx).1
  rcases (h.colOk hs).segOf (row := a + i) (by omega) with ⟨s, hm, hso, h1, h2, _⟩ | ⟨h1, _⟩
  · unfold Col.fetchRow
    have hget := chain_get h.chain hm h1 h2
    rw [Nat.add_sub_cancel_left, h.vals, hx] at hget
    rw [hso]
    simp only [Res.bind_ok, Seg.at, hget, Res.map'_ok, Col.updRow, h.upd, updNode, Option.getD_none]
  · omega

/-- What fetching a row does to the result. -/
structure Fetched (t : NTy α) (r w : NVec α) (x : NVal α) : Prop where
  has : w.Has t
  len : w.len = r.len + 1
  old : ∀ j < r.len, w.value j = r.value j
  new : w.value r.len = .ok x

structure FetchedAll (ts : NTys α) (r w : NVecs α) (m : Nat) (x : List (NVal α)) : Prop where
  has : w.Has ts (m + 1)
  old : ∀ j < m, w.values j = r.values j
  new : w.values m = .ok x

theorem sum_take_succ {ns : List Nat} {i n : Nat} (h : ns[i]? = some n) : (ns.take (i + 1)).sum = (ns.take i).sum + n := by
  obtain ⟨hi, rfl⟩ := List.getElem?_eq_some_iff.mp h
  rw [List.take_add_one, List.getElem?_eq_getElem hi, List.sum_append]
  simp

theorem listRow_old {tr : List (Option (Nat × Nat))} {tc c : NVec α} {e : Option (Nat × Nat)} {j : Nat} (hj : j < tr.length)
    (ht : ∀ o n, some (o, n) ∈ tr → o + n ≤ tc.len) (hc : ∀ i < tc.len, c.value i = tc.value i) :
    (NVec.list (tr ++ [e]) c).value j = (NVec.list tr tc).value j := by
  simp only [NVec.value]
  rw [List.getElem?_append_left hj, List.getElem?_eq_getElem hj]
  cases hr : tr[j] with
  | none => rfl
  | some p =>
    obtain ⟨o, n⟩ := p
    have := ht o n (by rw [← hr]; exact List.getElem_mem hj)
    simp only
    rw [collect_congr (g := tc.value) (p := o) fun m hm => hc _ (by omega)]

theorem listRow_new {tr : List (Option (Nat × Nat))} {c : NVec α} {e : Option (Nat × Nat)} :
    (NVec.list (tr ++ [e]) c).value tr.length = rowValue c e := by
  simp only [NVec.value]
  rw [List.getElem?_append_right (by omega), Nat.sub_self]
  cases e <;> rfl

/-- Elements copied behind a vector. -/
theorem copied_shows {t : NTy α} {tv sv w : NVec α} {n : Nat} {ys : List (NVal α)} (h : Copied t tv sv w (List.range n))
    (hy : Shows sv (List.range n) ys) : collect w.value tv.len n = .ok ys := by
  rw [collect_iff]
  unfold Shows at hy
  rw [List.forall₂_iff_get] at hy ⊢
  refine ⟨by simpa using hy.1, ?_⟩
  intro j h1 h2
  simp only [List.length_range'] at h1
  have h3 := hy.2 j (by simpa using h1) h2
  simp only [List.get_eq_getElem, List.getElem_range, List.getElem_range', Nat.one_mul] at h3 ⊢
  rw [h.new j j (by simp [h1]), h3]

mutual
theorem fetch_ok {a : Nat} : ∀ (t : NTy α) (c : NCol α) (vals : List (NVal α)) (i : Nat) (x : NVal α) (r : NVec α), Holds a t c vals →
    c.Small → t.plainLists → t.plainArrays → t.Ok → vals[i]? = some x → r.Has t →
    ∃ w, c.fetch (a + i) r = .ok w ∧ Fetched t r w x
  | .prim ty, c, vals, i, x, r, h, hsm, _, _, _, hx, hr => by
    obtain ⟨s, ds, fl, rfl, h1, h2, h3, rfl⟩ := h.prim_inv
    obtain ⟨cs, rfl⟩ := hr.prim_inv
    have hsm : s.data.start + s.data.count < 2 ^ 62 := hsm
    rw [h1.start, h1.count] at hsm
    rw [List.getElem?_map] at hx
    obtain ⟨y, hy, rfl⟩ := Option.map_eq_some_iff.mp hx
    unfold cells at hy
    rw [List.getElem?_zipWith] at hy
    cases hd : ds[i]? with
    | none => rw [hd] at hy; simp at hy
    | some d =>
      cases hf : fl[i]? with
      | none => rw [hd, hf] at hy; simp at hy
      | some f =>
        rw [hd, hf] at hy
        simp only [Option.some.injEq] at hy
        refine ⟨.prim (cs ++ [y]), ?_, trivial, by simp [NVec.len], ?_, ?_⟩
        · simp only [NCol.fetch, Std.fetchRow, Plain.fetchRow h2 (by omega) hf, Plain.fetchRow h1 hsm hd, Res.bind_ok, Res.map'_ok, ← hy]
        · intro j hj
          simp only [NVec.value]
          rw [List.getElem?_append_left hj]
        · simp [NVec.value, NVec.len]
  | .list t, c, vals, i, x, r, h, hsm, hpl, hpa, hk, hx, hr => by
    obtain ⟨offs, valid, child, parts, rfl, h1, h2, h3, rfl⟩ := h.list_inv
    obtain ⟨tr, tc, rfl, ht1, ht2⟩ := hr.list_inv
    obtain ⟨hs1, hs2⟩ : a + offs.count < 2 ^ 62 ∧ child.Small := hsm
    rw [h1.count, sums_length, List.length_map] at hs1
    rw [List.getElem?_map] at hx
    obtain ⟨p, hp, rfl⟩ := Option.map_eq_some_iff.mp hx
    obtain ⟨hi, hpi⟩ := List.getElem?_eq_some_iff.mp hp
    have hb : (if a + i = a then Res.ok 0 else listOffset offs (a + i - 1)) = .ok (((parts.take i).map fun p => (elems p).length).sum) := by
      by_cases h0 : i = 0
      · subst h0; simp
      · rw [if_neg (by omega), show a + i - 1 = a + (i - 1) by omega,
          listOffset_ok (i := i - 1) h1 (by rw [sums_length]; simpa using hs1) (sums_get (by simp; omega)),
          Nat.sub_add_cancel (by omega), Nat.zero_add, List.map_take]
    have he := listOffset_ok (i := i) h1 (by rw [sums_length]; simpa using hs1) (sums_get (by simpa using hi))
    rw [sum_take_succ (n := (elems p).length) (by rw [List.getElem?_map, hp]; rfl), Nat.zero_add, ← List.map_take] at he
    have hv := Plain.fetchRow (i := i) (x := p.isSome) h2 (by simpa using hs1) (by rw [List.getElem?_map, hp]; rfl)
    have hfl := flatMap_slice elems parts i 1
    have hle := flatMap_sum_le elems parts i 1
    have hone : (parts.drop i).take 1 = [p] := by
      rw [List.drop_eq_getElem_cons hi, hpi]; rfl
    rw [hone] at hfl hle
    simp only [List.map_cons, List.map_nil, List.sum_cons, List.sum_nil, Nat.add_zero, List.flatMap_cons, List.flatMap_nil, List.append_nil] at hfl hle
    generalize hbb : ((parts.take i).map fun p => (elems p).length).sum = b at hb he hfl hle
    simp only [NCol.fetch, hb, he, hv, Res.bind_ok, Nat.add_sub_cancel_left]
    cases p with
    | none =>
      refine ⟨.list (tr ++ [none]) tc, by simp, ⟨ht1, ?_⟩, by simp [NVec.len], ?_, ?_⟩
      · intro o n hm
        simp only [List.mem_append, List.mem_singleton, reduceCtorEq, or_false] at hm
        exact ht2 o n hm
      · intro j hj
        exact listRow_old hj ht2 fun _ _ => rfl
      · exact listRow_new
    | some ys =>
      have hel : (elems (some ys)).length = ys.length := rfl
      have hfl : (List.drop b (parts.flatMap elems)).take ys.length = ys := hfl
      have hle : b + ys.length ≤ (parts.flatMap elems).length := hle
      rw [hel]
      simp only [Option.isSome_some, Bool.true_eq_false, if_false]
      by_cases hz : ys.length = 0
      · rw [if_pos hz]
        have : ys = [] := List.length_eq_zero_iff.mp hz
        subst this
        refine ⟨_, rfl, ⟨ht1, ?_⟩, by simp [NVec.len], ?_, ?_⟩
        · intro o n hm
          simp only [List.mem_append, List.mem_singleton, Option.some.injEq, Prod.mk.injEq] at hm
          rcases hm with hm | ⟨rfl, rfl⟩
          · exact ht2 o n hm
          · omega
        · intro j hj
          exact listRow_old hj ht2 fun _ _ => rfl
        · exact listRow_new
      · rw [if_neg hz]
        obtain ⟨s, k1, k2, k3, k4⟩ := scan_ok t child _ (some (a + b)) b ys.length ys.length h3 hs2 hpl.2 hk ⟨rfl, by omega⟩ hle
        rw [hfl] at k4
        obtain ⟨w, w1, w2⟩ := copy_ok t tc s (List.range ys.length) ht1 k2 (by intro i hm; simp at hm; omega) hpl.1 hpl.2
        rw [k1]
        simp only [Res.bind_ok, w1, Res.map'_ok]
        refine ⟨_, rfl, ⟨w2.has, ?_⟩, by simp [NVec.len], ?_, ?_⟩
        · intro o n hm
          rw [w2.len, List.length_range]
          simp only [List.mem_append, List.mem_singleton, Option.some.injEq, Prod.mk.injEq] at hm
          rcases hm with hm | ⟨rfl, rfl⟩
          · have := ht2 o n hm; omega
          · omega
        · intro j hj
          exact listRow_old hj ht2 w2.old
        · show NVec.value _ tr.length = _
          rw [listRow_new]
          simp only [rowValue, copied_shows w2 k4, Res.map'_ok, listVal]
  | .array k t, c, vals, i, x, r, h, hsm, hpl, hpa, hk, hx, hr => by
    obtain ⟨valid, child, parts, rfl, h1, h2, h3, rfl⟩ := h.array_inv
    obtain ⟨fl, tc, rfl, ht1, ht2⟩ := hr.array_inv
    obtain ⟨hs1, hs2⟩ : a + parts.length < 2 ^ 62 ∧ child.Small := hsm
    rw [List.getElem?_map] at hx
    obtain ⟨p, hp, rfl⟩ := Option.map_eq_some_iff.mp hx
    obtain ⟨hi, hpi⟩ := List.getElem?_eq_some_iff.mp hp
    have hv := Plain.fetchRow (i := i) (x := p.1) h1 (by simpa using hs1) (by rw [List.getElem?_map, hp]; rfl)
    have hpk : p.2.length = k := h2 p (by rw [← hpi]; exact List.getElem_mem hi)
    have hfl := flatMap_slice Prod.snd parts i 1
    have hle := flatMap_sum_le Prod.snd parts i 1
    have hone : (parts.drop i).take 1 = [p] := by
      rw [List.drop_eq_getElem_cons hi, hpi]; rfl
    have hoff : ((parts.take i).map fun p => p.2.length).sum = i * k := by
      rw [sum_const fun p hm => h2 p (List.mem_of_mem_take hm), List.length_take, Nat.min_eq_left (by omega)]
    rw [hone, hoff] at hfl hle
    simp only [List.map_cons, List.map_nil, List.sum_cons, List.sum_nil, Nat.add_zero, List.flatMap_cons, List.flatMap_nil, List.append_nil, hpk] at hfl hle
    have hk0 := hk.1
    obtain ⟨s, k1, k2, k3, k4⟩ := scan_ok t child _ (some (a + i * k)) (i * k) k k h3 hs2 hpl hk.2 ⟨rfl, by omega⟩ hle
    rw [hfl] at k4
    obtain ⟨w, w1, w2⟩ := copy_ok t tc s (List.range k) ht1 k2 (by intro i hm; simp at hm; omega) hpa.1 hpl
    have hwl : w.len = (fl.length + 1) * k := by rw [w2.len, ht2, List.length_range, Nat.succ_mul]
    refine ⟨.array k (fl ++ [p.1]) w, by simp only [NCol.fetch, hv, Nat.add_sub_cancel_left, k1, w1, Res.bind_ok, Res.map'_ok],
      ⟨rfl, w2.has, by simpa using hwl⟩, by simp [NVec.len], ?_, ?_⟩
    · intro j hj
      have hj : j < fl.length := hj
      simp only [NVec.value]
      rw [List.getElem?_append_left hj, List.getElem?_eq_getElem hj]
      have hjk : (j + 1) * k ≤ fl.length * k := Nat.mul_le_mul_right k hj
      rw [Nat.succ_mul] at hjk
      cases fl[j] with
      | false => rfl
      | true =>
        simp only
        rw [collect_congr (g := tc.value) (p := j * k) fun m hm => w2.old _ (by omega)]
    · show NVec.value _ fl.length = _
      simp only [NVec.value]
      rw [List.getElem?_append_right (by omega), Nat.sub_self]
      simp only [List.getElem?_cons_zero]
      have := copied_shows w2 k4
      rw [ht2] at this
      obtain ⟨b, ys⟩ := p
      cases b with
      | false => rfl
      | true => simp only [this, Res.map'_ok, arrayVal]
  | .struct ts, c, vals, i, x, r, h, hsm, hpl, hpa, hk, hx, hr => by
    obtain ⟨valid, fs, parts, rfl, h1, h2, rfl⟩ := h.struct_inv
    obtain ⟨fl, vs, rfl, ht1⟩ := hr.struct_inv
    obtain ⟨hs1, hs2⟩ : a + parts.length < 2 ^ 62 ∧ fs.Small := hsm
    rw [List.getElem?_map] at hx
    obtain ⟨p, hp, rfl⟩ := Option.map_eq_some_iff.mp hx
    have hv := Plain.fetchRow (i := i) (x := p.1) h1 (by simpa using hs1) (by rw [List.getElem?_map, hp]; rfl)
    obtain ⟨w, w1, w2⟩ := fetchs_ok ts fs _ i p.2 vs fl.length h2 hs2 hpl hpa hk.2 (by rw [List.getElem?_map, hp]; rfl) ht1
    refine ⟨.struct (fl ++ [p.1]) w, by simp only [NCol.fetch, hv, w1, Res.bind_ok, Res.map'_ok], ?_, by simp [NVec.len], ?_, ?_⟩
    · show w.Has ts (fl ++ [p.1]).length
      simpa using w2.has
    · intro j hj
      have hj : j < fl.length := hj
      simp only [NVec.value]
      rw [List.getElem?_append_left hj, w2.old j hj]
    · show NVec.value _ fl.length = _
      simp only [NVec.value]
      rw [List.getElem?_append_right (by omega), Nat.sub_self]
      simp only [List.getElem?_cons_zero, w2.new, Res.map'_ok]
      obtain ⟨b, ys⟩ := p
      cases b <;> rfl
theorem fetchs_ok {a : Nat} : ∀ (ts : NTys α) (cs : NCols α) (rows : List (List (NVal α))) (i : Nat) (x : List (NVal α))
    (r : NVecs α) (m : Nat), HoldsAll a ts cs rows → cs.Small → ts.plainLists → ts.plainArrays → ts.Ok → rows[i]? = some x →
    r.Has ts m → ∃ w, cs.fetch (a + i) r = .ok w ∧ FetchedAll ts r w m x
  | .nil, cs, rows, i, x, r, m, h, _, _, _, _, hx, hr => by
    obtain ⟨rfl, h⟩ := h.nil_inv
    rw [hr.nil_inv]
    have := h x (List.mem_of_getElem? hx)
    subst this
    exact ⟨.nil, rfl, trivial, fun _ _ => rfl, rfl⟩
  | .cons t ts, cs, rows, i, x, r, m, h, hsm, hpl, hpa, hk, hx, hr => by
    obtain ⟨c, cs', hs, tl, rfl, h1, rfl, h3, h4⟩ := h.cons_inv
    obtain ⟨v, vs, rfl, hr1, hr2, hr3⟩ := hr.cons_inv
    rw [List.getElem?_zipWith] at hx
    cases hh : hs[i]? with
    | none => rw [hh] at hx; simp at hx
    | some y =>
      cases ht : tl[i]? with
      | none => rw [hh, ht] at hx; simp at hx
      | some ys =>
        rw [hh, ht] at hx
        simp only [Option.some.injEq] at hx
        subst hx
        obtain ⟨w, a1, a2⟩ := fetch_ok t c hs i y v h3 hsm.1 hpl.1 hpa.1 hk.1 hh hr1
        obtain ⟨ws, b1, b2⟩ := fetchs_ok ts cs' tl i ys vs m h4 hsm.2 hpl.2 hpa.2 hk.2 ht hr3
        refine ⟨.cons w ws, by simp only [NCols.fetch, a1, b1, Res.bind_ok, Res.map'_ok], ⟨a2.has, by rw [a2.len, hr2], b2.has⟩, ?_, ?_⟩
        · intro j hj
          simp only [NVecs.values]
          rw [a2.old j (by omega), b2.old j hj]
        · simp only [NVecs.values]
          have := a2.new
          rw [hr2] at this
          simp only [this, b2.new, Res.bind_ok, Res.map'_ok]
end

/-- Rows fetched one after the other. -/
theorem fetchAll_ok {a : Nat} {t : NTy α} {c : NCol α} {vals : List (NVal α)} (h : Holds a t c vals) (hs : c.Small)
    (hpl : t.plainLists) (hpa : t.plainArrays) (hk : t.Ok) {ids : List Nat} {ys : List (NVal α)}
    (hy : List.Forall₂ (fun i y => vals[i]? = some y) ids ys) : ∀ (r : NVec α) (zs : List (NVal α)), r.Has t →
      Shows r (List.range r.len) zs → ∃ w, fetchAll c (ids.map fun i => a + i) r = .ok w ∧
        Shows w (List.range (r.len + ids.length)) (zs ++ ys) := by
  induction hy with
  | nil => intro r zs _ hz; exact ⟨r, rfl, by simpa using hz⟩
  | @cons i y ids ys h1 _ ih =>
    intro r zs hr hz
    obtain ⟨w, w1, w2⟩ := fetch_ok t c vals i y r h hs hpl hpa hk h1 hr
    have hw : Shows w (List.range w.len) (zs ++ [y]) := by
      rw [w2.len, List.range_succ]
      refine List.rel_append ?_ (.cons w2.new .nil)
      unfold Shows at hz
      rw [List.forall₂_iff_get] at hz ⊢
      refine ⟨hz.1, ?_⟩
      intro j g1 g2
      have g3 := hz.2 j g1 g2
      simp only [List.length_range] at g1
      simp only [List.get_eq_getElem, List.getElem_range] at g3 ⊢
      rw [w2.old j g1, g3]
    obtain ⟨w', w1', w2'⟩ := ih w _ w2.has hw
    refine ⟨w', by simp only [List.map_cons, fetchAll, w1, Res.bind_ok, w1'], ?_⟩
    rw [w2.len, Nat.add_assoc, Nat.add_comm 1, List.append_assoc] at w2'
    exact w2'

/-- Batches appended one after the other. -/
theorem appendAll_ok {a : Nat} {t : NTy α} (hpl : t.plainLists) (hk : t.Ok) {bs : List (NVec α × Sel)} {xss : List (List (NVal α))}
    (hb : List.Forall₂ (Batch t) bs xss) (hd : ∀ b ∈ bs, b.2.isDict = true → t.hasArray = false) :
    ∀ (c : NCol α) (vals : List (NVal α)), Holds a t c vals →
      ∃ c', appendAll c bs = .ok c' ∧ Holds a t c' (vals ++ xss.flatten) := by
  induction hb with
  | nil => intro c vals h; exact ⟨c, rfl, by simpa using h⟩
  | @cons b xs bs xss h1 _ ih =>
    intro c vals h
    obtain ⟨i1, i2⟩ := Holds.initAppend t c vals h
    obtain ⟨c1, a1, a2, _⟩ := append_ok t c.initAppend b.1 b.2 vals xs i1 i2 h1.has h1.inside h1.shows (hd b (by simp)) hpl hk
    obtain ⟨c2, b1, b2⟩ := ih (fun b' hm => hd b' (List.mem_cons_of_mem _ hm)) c1 _ a2
    refine ⟨c2, by simp only [appendAll, a1, Res.bind_ok, b1], ?_⟩
    rw [List.flatten_cons, ← List.append_assoc]
    exact b2

end Verif.NestCol
