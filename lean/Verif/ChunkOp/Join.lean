import Verif.ChunkOp.Cond
/-!
Lemmas about joins of chunks.
-/
namespace Verif.ChunkOp
open Verif Verif.Num Verif.PhysKey Verif.LogVal
open Verif.DocVal (V)

theorem pmeaning_logical {ty : Ty} {v : V} (h : ty.has (Query.logical v)) : pmeaning v = meaning (Query.logical v) := by
  cases v <;> first | rfl | (cases ty <;> simp [Query.logical, Ty.has] at h)

theorem leafTwo_ok {ps : List V} {cl cr : Cols} {l r : Row} (hl : Typed cl l) (hr : Typed cr r) (op : Op) (k : Bytes) (x : Rhs)
    (hs : SuitTwo ps cl cr op k x) :
    ∃ b, leafTwo ps cl cr l r op k x = .ok b ∧ truth (twoRows ps cl cr (fill cl l) (fill cr r)) (.cmp op k x) = some b := by
  obtain ⟨ty, hty, hx⟩ := hs
  obtain ⟨w, h1, h2, h3⟩ := lookup_ok hl hty
  cases x with
  | param n =>
    obtain ⟨v, hv, hsu⟩ := hx
    obtain ⟨a, b, ha, hb, hc⟩ := cmpTwo_ok op h2 hsu
    refine ⟨op.says a b, ?_, ?_⟩
    · simp [leafTwo, h1, Res.bind, param, hv, hc]
    · simp [truth, twoRows, holds, h3, ha, hv, pmeaning_logical hsu, hb]
  | key k' =>
    obtain ⟨w', h4, h5, h6⟩ := lookup_ok hr hx
    obtain ⟨a, b, ha, hb, hc⟩ := cmpTwo_ok op h2 h5
    refine ⟨op.says a b, ?_, ?_⟩
    · simp [leafTwo, h1, h4, Res.bind, hc]
    · simp [truth, twoRows, holds, h3, h6, ha, hb]

theorem checkTwo_ok {ps : List V} {cl cr : Cols} {l r : Row} {e : Ex} (hl : Typed cl l) (hr : Typed cr r) (he : e.All (SuitTwo ps cl cr)) (hp : e.Plain) :
    check (leafTwo ps cl cr l r) e = .ok (pairs ps e cl cr (fill cl l) (fill cr r)) := by
  obtain ⟨b, h1, h2⟩ := check_truth (leafTwo_ok hl hr) e he hp
  rw [h1]
  cases b <;> simp [pairs, h2]

/-! ### columns -/

theorem joinCols_eq (l r : Cols) (hr : (r.map Prod.fst).Nodup) : joinCols l r = joinedCols l r := by
  have h : ∀ (r pre : Cols), ((pre ++ r).map Prod.fst).Nodup →
      r.foldl (fun acc c => if acc.any (fun d => d.1 == c.1) then acc else acc ++ [c]) (l ++ pre.filter fun c => !(l.map Prod.fst).contains c.1)
        = l ++ (pre ++ r).filter fun c => !(l.map Prod.fst).contains c.1 := by
    intro r
    induction r with
    | nil => intro pre _; simp
    | cons c r ih =>
      intro pre hn
      have hstep : (if (l ++ pre.filter fun c => !(l.map Prod.fst).contains c.1).any (fun d => d.1 == c.1)
          then l ++ pre.filter fun c => !(l.map Prod.fst).contains c.1
          else l ++ (pre.filter fun c => !(l.map Prod.fst).contains c.1) ++ [c])
          = l ++ (pre ++ [c]).filter fun c => !(l.map Prod.fst).contains c.1 := by
        by_cases hc : c.1 ∈ l.map Prod.fst
        · have h1 : (l ++ pre.filter fun c => !(l.map Prod.fst).contains c.1).any (fun d => d.1 == c.1) = true := by
            obtain ⟨d, hd, he⟩ := List.mem_map.mp hc
            exact List.any_eq_true.mpr ⟨d, List.mem_append_left _ hd, by simp [he]⟩
          rw [if_pos h1]
          have : (l.map Prod.fst).contains c.1 = true := List.contains_iff_mem.mpr hc
          rw [List.filter_append, List.filter_cons, this]
          simp only [Bool.not_true, Bool.false_eq_true, if_false, List.filter_nil, List.append_nil]
        · have h1 : (l ++ pre.filter fun c => !(l.map Prod.fst).contains c.1).any (fun d => d.1 == c.1) = false := by
            rw [List.any_eq_false]
            intro d hd he
            have he : d.1 = c.1 := by simpa using he
            rcases List.mem_append.mp hd with hd | hd
            · exact hc (he ▸ List.mem_map_of_mem hd)
            · have hd := (List.mem_filter.mp hd).1
              simp only [List.map_append, List.map_cons] at hn
              exact (List.nodup_append.mp hn).2.2 d.1 (List.mem_map_of_mem hd) c.1 List.mem_cons_self he
          rw [if_neg (by rw [h1]; exact Bool.false_ne_true)]
          have : (l.map Prod.fst).contains c.1 = false := by
            rw [← Bool.not_eq_true]; exact fun h => hc (List.contains_iff_mem.mp h)
          rw [List.filter_append, List.filter_cons, this]
          simp only [Bool.not_false, if_true, List.filter_nil, List.append_assoc]
      simp only [List.foldl_cons]
      rw [hstep, ih (pre ++ [c]) (by simpa using hn)]
      simp
  have := h r [] (by simpa using hr)
  simpa [joinCols, joinedCols] using this

theorem tyOf_append (a b : Cols) (k : Bytes) : tyOf (a ++ b) k = (tyOf a k).or (tyOf b k) := by
  induction a with
  | nil => simp [tyOf]
  | cons c a ih => obtain ⟨n, ty⟩ := c; simp only [List.cons_append, tyOf]; split <;> simp [ih]

theorem tyOf_none {cs : Cols} {k : Bytes} : tyOf cs k = none ↔ k ∉ cs.map Prod.fst := by
  induction cs with
  | nil => simp [tyOf]
  | cons c cs ih =>
    obtain ⟨n, ty⟩ := c
    simp only [tyOf, List.map_cons, List.mem_cons, not_or]
    by_cases h : n = k
    · simp [h]
    · simp [h, ih, Ne.symm h, eq_comm]

theorem tyOf_filter {cs : Cols} {f : Bytes → Bool} {k : Bytes} : tyOf (cs.filter fun c => f c.1) k = if f k then tyOf cs k else none := by
  induction cs with
  | nil => simp [tyOf]
  | cons c cs ih =>
    obtain ⟨n, ty⟩ := c
    by_cases hf : f n = true
    · simp only [List.filter_cons, hf, if_true, tyOf, ih]
      by_cases h : n = k
      · subst h; simp [hf]
      · simp [h]
    · simp only [List.filter_cons, hf, Bool.false_eq_true, if_false, ih, tyOf]
      by_cases h : n = k
      · subst h; simp [hf]
      · simp [h]

theorem tyOf_joined {l r : Cols} (hj : Joinable l r) (k : Bytes) (ty : Ty) :
    (tyOf l k = some ty → tyOf (joinedCols l r) k = some ty) ∧ (tyOf r k = some ty → tyOf (joinedCols l r) k = some ty) := by
  have h := tyOf_append l (r.filter fun c => !(l.map Prod.fst).contains c.1) k
  have hf := tyOf_filter (cs := r) (f := fun n => !(l.map Prod.fst).contains n) (k := k)
  refine ⟨fun h1 => by rw [joinedCols, h, h1]; rfl, fun h1 => ?_⟩
  rw [joinedCols, h, hf]
  cases h2 : tyOf l k with
  | some ty' => rw [hj.types k ty' h2 ty h1]; rfl
  | none =>
    have := tyOf_none.mp h2
    have hc : (l.map Prod.fst).contains k = false := by
      rw [← Bool.not_eq_true]; exact fun h => this (List.contains_iff_mem.mp h)
    rw [hc]
    simp [h1]

theorem nodup_joined {l r : Cols} (hj : Joinable l r) : ((joinedCols l r).map Prod.fst).Nodup := by
  simp only [joinedCols, List.map_append]
  refine List.nodup_append.mpr ⟨hj.left, ?_, ?_⟩
  · exact hj.right.sublist (List.Sublist.map _ List.filter_sublist)
  · intro a ha b hb hab
    obtain ⟨c, hc, rfl⟩ := List.mem_map.mp hb
    have := (List.mem_filter.mp hc).2
    simp at this
    obtain ⟨d, hd, he⟩ := List.mem_map.mp ha
    exact this d.2 (by rw [← hab, ← he]; exact hd)

/-! ### writing a row -/

theorem index_tyOf {cs : Cols} {k : Bytes} {ty : Ty} (h : tyOf cs k = some ty) : ∃ i c, index cs k = .ok i ∧ cs[i]? = some c ∧ c.2 = ty := by
  induction cs with
  | nil => simp [tyOf] at h
  | cons c cs ih =>
    obtain ⟨n, t⟩ := c
    simp only [tyOf] at h
    by_cases hn : n = k
    · simp only [hn, if_true, Option.some.injEq] at h
      exact ⟨0, (n, t), by simp [index, hn], rfl, h⟩
    · simp only [hn, if_false] at h
      obtain ⟨i, c, h1, h2, h3⟩ := ih h
      exact ⟨i + 1, c, by simp [index, hn, h1, Res.map', Res.bind], by simpa using h2, h3⟩

theorem cell_set {cs : Cols} {k : Bytes} {i : Nat} (hi : index cs k = .ok i) {row : Row} (hlen : row.length = cs.length) (w : Cell) (k' : Bytes) :
    cell cs (row.set i w) k' = if k = k' then some w else cell cs row k' := by
  induction cs generalizing i row with
  | nil => simp [index] at hi
  | cons c cs ih =>
    obtain ⟨n, t⟩ := c
    cases row with
    | nil => simp at hlen
    | cons x row =>
      simp only [index] at hi
      by_cases hn : n = k
      · simp only [hn, if_true, Res.ok.injEq] at hi
        subst hi
        simp only [List.set_cons_zero, cell, hn]
        split <;> rfl
      · simp only [hn, if_false] at hi
        cases hi2 : index cs k with
        | ok j =>
          rw [hi2] at hi
          simp only [Res.map', Res.bind, Res.ok.injEq] at hi
          subst hi
          simp only [List.set_cons_succ, cell]
          rw [ih hi2 (by simpa using hlen)]
          by_cases h1 : n = k'
          · have : k ≠ k' := fun h => hn (h1.trans h.symm)
            simp [h1, this]
          · simp [h1]
        | throws => rw [hi2] at hi; simp [Res.map', Res.bind] at hi
        | ub => rw [hi2] at hi; simp [Res.map', Res.bind] at hi
        | diverges => rw [hi2] at hi; simp [Res.map', Res.bind] at hi

theorem putAll_ok {conv : Ty → LV → LV} {res cs : Cols} {r : Row} (h : Typed cs r) (hn : (cs.map Prod.fst).Nodup)
    (ht : ∀ k ty, tyOf cs k = some ty → tyOf res k = some ty) :
    ∀ (row : Row), row.length = res.length → ∃ row', putAll conv res cs (values cs r) row = .ok row' ∧ row'.length = res.length ∧
      ∀ k, cell res row' k = match cell cs (fill cs r) k with
        | some c => some c
        | none => cell res row k := by
  induction h with
  | nil => intro row hlen; exact ⟨row, rfl, hlen, fun k => rfl⟩
  | @cons n ty cs c r hc h ih =>
    intro row hlen
    simp only [List.map_cons, List.nodup_cons] at hn
    obtain ⟨i, d, h1, h2, h3⟩ := index_tyOf (ht n ty (by simp [tyOf]))
    have hput : put conv res row n (read ty c) = .ok (row.set i (some (read ty c))) := by
      simp [put, h1, Res.bind, h2, h3, write_has (read_has hc)]
    have ht' : ∀ k ty, tyOf cs k = some ty → tyOf res k = some ty := by
      intro k ty' hk
      apply ht
      have : n ≠ k := by
        rintro rfl
        rw [tyOf_none.mpr hn.1] at hk
        exact nomatch hk
      simp [tyOf, this, hk]
    obtain ⟨row', h4, h5, h6⟩ := ih hn.2 ht' (row.set i (some (read ty c))) (by simpa using hlen)
    refine ⟨row', by simp [putAll, values, hput, Res.bind, h4], h5, fun k => ?_⟩
    rw [h6 k]
    simp only [cell, fill]
    by_cases hk : n = k
    · subst hk
      have hno : cell cs (fill cs r) n = none := by
        cases hcc : cell cs (fill cs r) n with
        | none => rfl
        | some x =>
          exfalso
          have : ∀ (cs : Cols) (r : Row), cell cs r n = some x → n ∈ cs.map Prod.fst := by
            intro cs
            induction cs with
            | nil => intro r hh; simp [cell] at hh
            | cons c cs ih2 =>
              intro r hh
              obtain ⟨m, t⟩ := c
              cases r with
              | nil => simp [cell] at hh
              | cons y r =>
                simp only [cell] at hh
                by_cases hm : m = n
                · simp [hm]
                · simp only [hm, if_false] at hh
                  exact List.mem_cons_of_mem _ (ih2 r hh)
          exact hn.1 (this cs _ hcc)
      rw [hno]
      simp [cell_set h1 hlen, read]
    · rw [cell_set h1 hlen]
      simp [hk]

theorem cell_some {cs : Cols} {r : Row} {k : Bytes} (hlen : r.length = cs.length) : cell cs r k = none ↔ tyOf cs k = none := by
  induction cs generalizing r with
  | nil => cases r <;> simp [cell, tyOf]
  | cons c cs ih =>
    obtain ⟨n, t⟩ := c
    cases r with
    | nil => simp at hlen
    | cons x r =>
      simp only [cell, tyOf]
      split
      · simp
      · exact ih (by simpa using hlen)

theorem typed_length {cs : Cols} {r : Row} (h : Typed cs r) : r.length = cs.length := by
  induction h with
  | nil => rfl
  | cons _ _ ih => simp [ih]

/-- A row is what it reads. -/
theorem row_ext {cs : Cols} (hn : (cs.map Prod.fst).Nodup) {row : Row} (hlen : row.length = cs.length) {f : Bytes → Cell}
    (h : ∀ c ∈ cs, cell cs row c.1 = some (f c.1)) : row = cs.map fun c => f c.1 := by
  induction cs generalizing row with
  | nil => cases row with
    | nil => rfl
    | cons x row => simp at hlen
  | cons c cs ih =>
    obtain ⟨n, t⟩ := c
    cases row with
    | nil => simp at hlen
    | cons x row =>
      simp only [List.map_cons, List.nodup_cons] at hn
      have h1 := h (n, t) List.mem_cons_self
      simp only [cell, if_true, Option.some.injEq] at h1
      rw [h1, List.map_cons, ← ih hn.2 (by simpa using hlen) ?_]
      intro d hd
      have h2 := h d (List.mem_cons_of_mem _ hd)
      have : n ≠ d.1 := by rintro rfl; exact hn.1 (List.mem_map_of_mem hd)
      simpa [cell, this] using h2

theorem joined_ok {conv : Ty → LV → LV} {cl cr : Cols} (hj : Joinable cl cr) {l r : Row} (hl : Typed cl l) (hr : Typed cr r) :
    joined conv cl cr (values cl l) (values cr r) = .ok (besides cl cr (some (fill cl l), some (fill cr r))) := by
  have hc := joinCols_eq cl cr hj.right
  obtain ⟨row1, h1, h2, h3⟩ := putAll_ok (conv := conv) hl hj.left (fun k ty => (tyOf_joined hj k ty).1)
    ((joinedCols cl cr).map fun c => some c.2.zero) (by simp)
  obtain ⟨row2, h4, h5, h6⟩ := putAll_ok (conv := conv) hr hj.right (fun k ty => (tyOf_joined hj k ty).2) row1 h2
  have hrow : row2 = besides cl cr (some (fill cl l), some (fill cr r)) := by
    refine row_ext (nodup_joined hj) h5 (f := sideCell cl cr (some (fill cl l), some (fill cr r))) fun c hc => ?_
    rw [h6]
    simp only [sideCell, Option.bind_some]
    cases h7 : cell cr (fill cr r) c.1 with
    | some x => rfl
    | none =>
      simp only
      rw [h3]
      cases h8 : cell cl (fill cl l) c.1 with
      | some x => rfl
      | none =>
        exfalso
        have e1 := (cell_some (typed_length (typed_fill hr))).mp h7
        have e2 := (cell_some (typed_length (typed_fill hl))).mp h8
        have e1 := tyOf_none.mp e1
        have e2 := tyOf_none.mp e2
        rcases List.mem_append.mp hc with hc | hc
        · exact e2 (List.mem_map_of_mem hc)
        · exact e1 (List.mem_map_of_mem (List.mem_filter.mp hc).1)
  simp only [joined, hc, h1, Res.bind, h4, hrow]

/-! ### the loops -/

variable {p : Row → Row → Res Bool} {mk : Row → Row → Res Row} {q : Row → Row → Bool} {f : Row → Row → Row}

theorem innerRow_ok {l : Row} : ∀ (rs out : List Row), (∀ r ∈ rs, p l r = .ok (q l r) ∧ mk l r = .ok (f l r)) →
    out.length + (rs.filter (q l)).length ≤ CAP → innerRow p mk l rs out = .ok (out ++ (rs.filter (q l)).map (f l))
  | [], out, _, _ => by simp [innerRow]
  | r :: rs, out, h, hcap => by
    obtain ⟨h1, h2⟩ := h r List.mem_cons_self
    have hrs := fun r' hr' => h r' (List.mem_cons_of_mem _ hr')
    simp only [innerRow, h1, Res.bind]
    cases hq : q l r with
    | false =>
      simp only [List.filter_cons, hq] at hcap ⊢
      simpa using innerRow_ok rs out hrs (by simpa using hcap)
    | true =>
      simp only [List.filter_cons, hq, if_true, List.length_cons] at hcap
      have hn : ¬ CAP ≤ out.length := by omega
      simp only [if_true, emit, hn, if_false, h2, Res.map', Res.bind]
      rw [innerRow_ok rs _ hrs (by simp; omega)]
      simp [List.filter_cons, hq]

theorem innerRow_ub {l : Row} : ∀ (rs out : List Row), (∀ r ∈ rs, p l r = .ok (q l r) ∧ mk l r = .ok (f l r)) →
    out.length ≤ CAP → CAP < out.length + (rs.filter (q l)).length → innerRow p mk l rs out = .ub
  | [], out, _, _, h => by simp at h; omega
  | r :: rs, out, h, hout, hcap => by
    obtain ⟨h1, h2⟩ := h r List.mem_cons_self
    have hrs := fun r' hr' => h r' (List.mem_cons_of_mem _ hr')
    simp only [innerRow, h1, Res.bind]
    cases hq : q l r with
    | false =>
      simp only [List.filter_cons, hq] at hcap ⊢
      simpa using innerRow_ub rs out hrs hout (by simpa using hcap)
    | true =>
      simp only [List.filter_cons, hq, if_true, List.length_cons] at hcap
      by_cases hn : CAP ≤ out.length
      · simp [emit, hn]
      · simp only [if_true, emit, hn, if_false, h2, Res.map', Res.bind]
        exact innerRow_ub rs _ hrs (by simp; omega) (by simp; omega)

theorem innerLoop_ok {rs : List Row} : ∀ (ls out : List Row), (∀ l ∈ ls, ∀ r ∈ rs, p l r = .ok (q l r) ∧ mk l r = .ok (f l r)) →
    out.length + (ls.flatMap fun l => (rs.filter (q l)).map (f l)).length ≤ CAP →
    innerLoop p mk rs ls out = .ok (out ++ ls.flatMap fun l => (rs.filter (q l)).map (f l))
  | [], out, _, _ => by simp [innerLoop]
  | l :: ls, out, h, hcap => by
    simp only [List.flatMap_cons, List.length_append, List.length_map] at hcap
    simp only [innerLoop]
    rw [innerRow_ok rs out (h l List.mem_cons_self) (by omega)]
    simp only [Res.bind]
    rw [innerLoop_ok ls _ (fun l' hl' => h l' (List.mem_cons_of_mem _ hl')) (by simp only [List.length_append, List.length_map]; omega)]
    simp

theorem innerLoop_ub {rs : List Row} : ∀ (ls out : List Row), (∀ l ∈ ls, ∀ r ∈ rs, p l r = .ok (q l r) ∧ mk l r = .ok (f l r)) →
    out.length ≤ CAP → CAP < out.length + (ls.flatMap fun l => (rs.filter (q l)).map (f l)).length → innerLoop p mk rs ls out = .ub
  | [], out, _, _, h => by simp at h; omega
  | l :: ls, out, h, hout, hcap => by
    simp only [List.flatMap_cons, List.length_append, List.length_map] at hcap
    simp only [innerLoop]
    by_cases hr : out.length + (rs.filter (q l)).length ≤ CAP
    · rw [innerRow_ok rs out (h l List.mem_cons_self) hr]
      simp only [Res.bind]
      exact innerLoop_ub ls _ (fun l' hl' => h l' (List.mem_cons_of_mem _ hl')) (by simpa using hr)
        (by simp only [List.length_append, List.length_map]; omega)
    · rw [innerRow_ub rs out (h l List.mem_cons_self) hout (by omega)]
      rfl

end Verif.ChunkOp
