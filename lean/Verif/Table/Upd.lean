import Verif.Table.Column
/-! Facts about the updates of one column. -/
namespace Verif.Table
open Verif.Mvcc (CAP)
variable {α : Type}

theorem overlay_perm {l1 l2 : List (Nat × α)} (h : l1.Perm l2) (hn : (l1.map Prod.fst).Nodup) (l : List α) :
    overlay l l1 = overlay l l2 := by
  unfold overlay
  induction h generalizing l with
  | nil => rfl
  | cons x _ ih => rw [List.foldl_cons, List.foldl_cons, ih (List.nodup_cons.mp hn).2]
  | swap x y r =>
    simp only [List.map_cons, List.nodup_cons, List.mem_cons, not_or] at hn
    simp only [List.foldl_cons]
    rw [List.set_comm _ _ (fun e => hn.1.1 e)]
  | trans h1 _ ih1 ih2 => rw [ih1 hn, ih2 ((h1.map _).nodup_iff.mp hn)]

theorem insertPos_perm (p : Nat × α) (l : List (Nat × α)) : (insertPos p l).Perm (p :: l) := by
  induction l with
  | nil => exact .refl _
  | cons q r ih =>
    unfold insertPos
    split
    · exact .refl _
    · exact (ih.cons q).trans (.swap _ _ _)

theorem insertPos_sorted (p : Nat × α) (l : List (Nat × α)) (h : l.Pairwise fun a b => a.1 ≤ b.1) :
    (insertPos p l).Pairwise fun a b => a.1 ≤ b.1 := by
  induction l with
  | nil => simp [insertPos]
  | cons q r ih =>
    have h' := h
    rw [List.pairwise_cons] at h
    unfold insertPos
    split
    · next hlt =>
      rw [List.pairwise_cons]
      refine ⟨?_, h'⟩
      intro x hx
      rw [List.mem_cons] at hx
      rcases hx with rfl | hx
      · omega
      · have := h.1 x hx; omega
    · next hlt =>
      rw [List.pairwise_cons]
      refine ⟨?_, ih h.2⟩
      intro x hx
      have := (insertPos_perm p r).mem_iff.mp hx
      rw [List.mem_cons] at this
      rcases this with rfl | hx
      · omega
      · exact h.1 x hx

theorem sorted_perm (l : List (Nat × α)) : (l.foldr insertPos []).Perm l ∧ (l.foldr insertPos []).Pairwise fun a b => a.1 ≤ b.1 := by
  induction l with
  | nil => simp
  | cons p r ih => exact ⟨(insertPos_perm _ _).trans (ih.1.cons p), insertPos_sorted _ _ ih.2⟩

theorem ascending_iff (l : List (Nat × α)) : ascending l = true → l.Pairwise fun a b => a.1 < b.1 := by
  induction l with
  | nil => simp
  | cons p r ih =>
    intro h
    unfold ascending at h
    rw [Bool.and_eq_true] at h
    have hr := ih h.2
    rw [List.pairwise_cons]
    refine ⟨?_, hr⟩
    cases r with
    | nil => simp
    | cons q r' =>
      simp only [decide_eq_true_eq] at h
      rw [List.pairwise_cons] at hr
      intro x hx
      rw [List.mem_cons] at hx
      rcases hx with rfl | hx
      · exact h.1
      · have := hr.1 x hx; omega

theorem firsts_id (l : List (Nat × α)) (h : l.Pairwise fun a b => a.1 < b.1) : firsts l = l := by
  induction l with
  | nil => rfl
  | cons p r ih =>
    rw [List.pairwise_cons] at h
    unfold firsts
    rw [ih h.2]
    cases r with
    | nil => rfl
    | cons q r' =>
      have := h.1 q (by simp)
      simp only
      rw [if_neg (by omega)]

theorem sortPos_ok (l : List (Nat × α)) (hn : (l.map Prod.fst).Nodup) :
    (sortPos l).Perm l ∧ (sortPos l).Pairwise fun a b => a.1 < b.1 := by
  unfold sortPos
  by_cases ha : ascending l = true
  · rw [if_pos ha]
    exact ⟨.refl _, ascending_iff l ha⟩
  · rw [if_neg ha]
    obtain ⟨h1, h2⟩ := sorted_perm l
    have hnd : ((l.foldr insertPos []).map Prod.fst).Nodup := (h1.map _).nodup_iff.mpr hn
    have hst : (l.foldr insertPos []).Pairwise fun a b => a.1 < b.1 := by
      have h3 := List.pairwise_map.mp hnd
      exact (h2.and h3).imp fun {a b} h => by have := h.1; have := h.2; omega
    rw [firsts_id _ hst]
    exact ⟨h1, hst⟩

/-- The merge as one recursion over both lists; only used to reason about `mergeUpd`. -/
def mergeBoth : List (Nat × α) → List (Nat × α) → Res (List (Nat × α))
  | [], base => .ok base
  | _ :: _, [] => .ub
  | a :: as, b :: bs =>
    if a.1 = b.1 then (mergeBoth as bs).map' (a :: ·)
    else if a.1 < b.1 then (mergeBoth as (b :: bs)).map' (a :: ·)
    else (mergeBoth (a :: as) bs).map' (b :: ·)
  termination_by a b => a.length + b.length

theorem mergeUpd_eq (a b : List (Nat × α)) : mergeUpd a b = mergeBoth a b := by
  fun_induction mergeBoth a b with
  | case1 b => rfl
  | case2 a as => rfl
  | case3 a as b bs hab ih => rw [← ih]; simp [mergeUpd, mergeOne, hab]
  | case4 a as b bs hab hlt ih => rw [← ih]; simp [mergeUpd, mergeOne, hab, hlt]
  | case5 a as b bs hab hlt ih => rw [← ih]; simp [mergeUpd, mergeOne, hab, hlt]

/-- The new value at a position. -/
def look (l : List (Nat × α)) (i : Nat) : Option (Nat × α) := l.find? fun p => decide (p.1 = i)

theorem look_none {l : List (Nat × α)} {i : Nat} (h : ∀ p ∈ l, i < p.1) : look l i = none := by
  unfold look
  rw [List.find?_eq_none]
  intro q hq
  have := h q hq
  simp; omega

theorem mergeUpd_ok (a b : List (Nat × α)) : ∀ m, mergeUpd a b = .ok m → (a.Pairwise fun p q => p.1 < q.1) →
    (b.Pairwise fun p q => p.1 < q.1) → (m.Pairwise fun p q => p.1 < q.1) ∧ (∀ p ∈ m, p ∈ a ∨ p ∈ b) ∧
      ∀ i, look m i = (look a i).or (look b i) := by
  simp only [mergeUpd_eq]
  fun_induction mergeBoth a b with
  | case1 b =>
    intro m h _ hb
    cases h
    exact ⟨hb, fun p hp => .inr hp, fun i => by simp [look]⟩
  | case2 => intro m h; cases h
  | case3 a as b bs hab ih =>
    intro m h ha hb
    rw [Res.map'_ok_iff] at h
    obtain ⟨m', h1, rfl⟩ := h
    rw [List.pairwise_cons] at ha hb
    obtain ⟨h2, h3, h4⟩ := ih m' h1 ha.2 hb.2
    refine ⟨?_, ?_, ?_⟩
    · rw [List.pairwise_cons]
      refine ⟨fun x hx => ?_, h2⟩
      rcases h3 x hx with h | h
      · exact ha.1 x h
      · have := hb.1 x h; omega
    · intro p hp
      rw [List.mem_cons] at hp
      rcases hp with rfl | hp
      · left; simp
      · rcases h3 p hp with h | h <;> simp [h]
    · intro i
      have := h4 i
      unfold look at this ⊢
      rw [List.find?_cons, List.find?_cons, List.find?_cons]
      by_cases hi : a.1 = i
      · simp [hi]
      · simp only [hi, decide_false]
        rw [← hab] at *
        simp only [hi, decide_false]
        exact this
  | case4 a as b bs hab hlt ih =>
    intro m h ha hb
    rw [Res.map'_ok_iff] at h
    obtain ⟨m', h1, rfl⟩ := h
    have ha' := ha
    rw [List.pairwise_cons] at ha
    obtain ⟨h2, h3, h4⟩ := ih m' h1 ha.2 hb
    refine ⟨?_, ?_, ?_⟩
    · rw [List.pairwise_cons]
      refine ⟨fun x hx => ?_, h2⟩
      rcases h3 x hx with h | h
      · exact ha.1 x h
      · rw [List.mem_cons] at h
        rcases h with rfl | h
        · exact hlt
        · rw [List.pairwise_cons] at hb
          have := hb.1 x h; omega
    · intro p hp
      rw [List.mem_cons] at hp
      rcases hp with rfl | hp
      · left; simp
      · rcases h3 p hp with h | h
        · simp [h]
        · exact .inr h
    · intro i
      have := h4 i
      unfold look at this ⊢
      by_cases hi : a.1 = i
      · rw [List.find?_cons, List.find?_cons]; simp [hi]
      · rw [List.find?_cons, this]
        simp only [hi, decide_false]
        rw [List.find?_cons (a := a)]
        simp only [hi, decide_false]
  | case5 a as b bs hab hlt ih =>
    intro m h ha hb
    rw [Res.map'_ok_iff] at h
    obtain ⟨m', h1, rfl⟩ := h
    have hb' := hb
    rw [List.pairwise_cons] at hb
    obtain ⟨h2, h3, h4⟩ := ih m' h1 ha hb.2
    have hba : ∀ x ∈ a :: as, b.1 < x.1 := by
      intro x hx
      rw [List.mem_cons] at hx
      rcases hx with rfl | hx
      · omega
      · have := (List.pairwise_cons.mp ha).1 x hx; omega
    refine ⟨?_, ?_, ?_⟩
    · rw [List.pairwise_cons]
      refine ⟨fun x hx => ?_, h2⟩
      rcases h3 x hx with h | h
      · exact hba x h
      · exact hb.1 x h
    · intro p hp
      rw [List.mem_cons] at hp
      rcases hp with rfl | hp
      · right; simp
      · rcases h3 p hp with h | h
        · exact .inl h
        · simp [h]
    · intro i
      have := h4 i
      by_cases hi : b.1 = i
      · rw [look_none (l := a :: as) (i := i) (by intro p hp; rw [← hi]; exact hba p hp)]
        unfold look
        simp [hi]
      · unfold look at this ⊢
        rw [List.find?_cons, this]
        simp only [hi, decide_false]
        rw [List.find?_cons (a := b)]
        simp only [hi, decide_false]

/-- The merge ends well when the largest new position is not behind the largest old one. -/
theorem mergeUpd_runs (a b : List (Nat × α)) : (a.Pairwise fun p q => p.1 < q.1) → (b.Pairwise fun p q => p.1 < q.1) →
    (∀ p ∈ a, ∃ q ∈ b, p.1 ≤ q.1) → ∃ m, mergeUpd a b = .ok m := by
  simp only [mergeUpd_eq]
  fun_induction mergeBoth a b with
  | case1 b => intro _ _ _; exact ⟨b, rfl⟩
  | case2 a as => intro _ _ h; obtain ⟨q, hq, _⟩ := h a (by simp); simp at hq
  | case3 a as b bs hab ih =>
    intro ha hb h
    rw [List.pairwise_cons] at ha hb
    obtain ⟨m, hm⟩ := ih ha.2 hb.2 (by
      intro p hp
      obtain ⟨q, hq, hle⟩ := h p (by simp [hp])
      have := ha.1 p hp
      rw [List.mem_cons] at hq
      rcases hq with rfl | hq
      · omega
      · exact ⟨q, hq, hle⟩)
    exact ⟨_, by rw [hm]; rfl⟩
  | case4 a as b bs hab hlt ih =>
    intro ha hb h
    rw [List.pairwise_cons] at ha
    obtain ⟨m, hm⟩ := ih ha.2 hb (fun p hp => h p (by simp [hp]))
    exact ⟨_, by rw [hm]; rfl⟩
  | case5 a as b bs hab hlt ih =>
    intro ha hb h
    rw [List.pairwise_cons] at hb
    obtain ⟨m, hm⟩ := ih ha hb.2 (by
      intro p hp
      obtain ⟨q, hq, hle⟩ := h p hp
      have : a.1 ≤ p.1 := by
        rw [List.mem_cons] at hp
        rcases hp with rfl | hp
        · omega
        · have := (List.pairwise_cons.mp ha).1 p hp; omega
      rw [List.mem_cons] at hq
      rcases hq with rfl | hq
      · omega
      · exact ⟨q, hq, hle⟩)
    exact ⟨_, by rw [hm]; rfl⟩

/-- New positions behind all old ones: the loop never ends and writes out of bounds. -/
theorem mergeUpd_ub (a b : List (Nat × α)) (ha : a.Pairwise fun p q => p.1 < q.1) (hb : b.Pairwise fun p q => p.1 < q.1) :
    (∃ p ∈ a, ∀ q ∈ b, q.1 < p.1) → mergeUpd a b = .ub := by
  simp only [mergeUpd_eq]
  fun_induction mergeBoth a b with
  | case1 b => rintro ⟨p, hp, _⟩; simp at hp
  | case2 a as => intro _; rfl
  | case3 a as b bs hab ih =>
    rintro ⟨p, hp, h⟩
    rw [List.pairwise_cons] at ha hb
    have hb0 := h b (by simp)
    rw [List.mem_cons] at hp
    rcases hp with rfl | hp
    · omega
    · rw [ih ha.2 hb.2 ⟨p, hp, fun q hq => h q (by simp [hq])⟩]; rfl
  | case4 a as b bs hab hlt ih =>
    rintro ⟨p, hp, h⟩
    rw [List.pairwise_cons] at ha
    have hb0 := h b (by simp)
    rw [List.mem_cons] at hp
    rcases hp with rfl | hp
    · omega
    · rw [ih ha.2 hb ⟨p, hp, h⟩]; rfl
  | case5 a as b bs hab hlt ih =>
    rintro ⟨p, hp, h⟩
    rw [List.pairwise_cons] at hb
    rw [ih ha hb.2 ⟨p, hp, fun q hq => h q (by simp [hq])⟩]; rfl

theorem overlay_none (ups : List (Nat × α)) (l : List α) (i : Nat) (hi : l.length ≤ i) : (overlay l ups)[i]? = none := by
  apply List.getElem?_eq_none
  rw [overlay_length]; exact hi

theorem overlay_look (ups : List (Nat × α)) (hs : ups.Pairwise fun p q => p.1 < q.1) (l : List α) (i : Nat) {x : α}
    (hx : l[i]? = some x) : (overlay l ups)[i]? = some (((look ups i).map Prod.snd).getD x) := by
  rw [overlay_get ups hs l i hx, updAt_eq ups hs]; rfl

theorem overlay_merge {a b m : List (Nat × α)} (h : mergeUpd a b = .ok m) (ha : a.Pairwise fun p q => p.1 < q.1)
    (hb : b.Pairwise fun p q => p.1 < q.1) (l : List α) : overlay l m = overlay (overlay l b) a := by
  obtain ⟨h1, _, h3⟩ := mergeUpd_ok a b m h ha hb
  apply List.ext_getElem?
  intro i
  by_cases hi : i < l.length
  · have hx := List.getElem?_eq_getElem hi
    rw [overlay_look m h1 l i hx, overlay_look a ha _ i (overlay_look b hb l i hx), h3]
    cases look a i <;> simp
  · rw [overlay_none _ _ _ (by omega), overlay_none _ _ _ (by rw [overlay_length]; omega)]

theorem fillInfo_zero (info : List (Option (List (Nat × α)))) (v : Nat) :
    0 < (fillInfo info 0).length ∧ ((fillInfo info 0)[v]?).join = (info[v]?).join := by
  unfold fillInfo
  cases info with
  | nil => cases v <;> simp
  | cons x r => simp

theorem updNode_getD (upd : Option (List (Option (List (Nat × α))))) (v : Nat) : (((upd.getD [])[v]?).join) = updNode upd v := by
  cases upd with
  | none => simp [updNode]
  | some u => rfl

theorem updNode_set (info : List (Option (List (Nat × α)))) (l : List (Nat × α)) (h : 0 < info.length) :
    updNode (some (info.set 0 (some l))) 0 = some l ∧ ∀ v, 0 < v → updNode (some (info.set 0 (some l))) v = (info[v]?).join := by
  constructor
  · simp [updNode, h]
  · intro v hv
    simp only [updNode]
    rw [List.getElem?_set_ne (by omega)]

/-- Positions of row ids. -/
def rel (a : Nat) (rows : List (Nat × α)) : List (Nat × α) := rows.map fun p => (p.1 - a, p.2)

theorem rel_sorted {a : Nat} {rows : List (Nat × α)} (h : rows.Pairwise fun p q => p.1 < q.1) (ha : ∀ p ∈ rows, a ≤ p.1) :
    (rel a rows).Pairwise fun p q => p.1 < q.1 := by
  unfold rel
  rw [List.pairwise_map]
  refine h.imp_of_mem fun {p q} hp hq hlt => ?_
  have := ha p hp
  simp only
  omega

theorem rel_nodup {a : Nat} {rows : List (Nat × α)} (h : (rows.map Prod.fst).Nodup) (ha : ∀ p ∈ rows, a ≤ p.1) :
    ((rel a rows).map Prod.fst).Nodup := by
  unfold rel
  rw [List.map_map]
  have h' := List.pairwise_map.mp h
  unfold List.Nodup
  rw [List.pairwise_map]
  refine h'.imp_of_mem fun {p q} hp hq hne => ?_
  have := ha p hp
  have := ha q hq
  simp only [Function.comp]
  omega

/-- What an update of a column does when it returns. -/
theorem ColOk.update {c c' : Col α} {a : Nat} {vals : List α} (h : ColOk c a vals) (hl : vals.length ≤ CAP)
    {rows : List (Nat × α)} (hn : (rows.map Prod.fst).Nodup) (hr : ∀ p ∈ rows, a ≤ p.1 ∧ p.1 < a + vals.length)
    (hu : c.update rows = .ok c') :
    ColOk c' a (overlay vals (rel a rows)) ∧ c'.ty = c.ty ∧ (c.segs ≠ [] → c'.segs ≠ []) ∧
      ∀ i, (∃ p ∈ c'.ups, p.1 = i) ↔ (∃ p ∈ c.ups, p.1 = i) ∨ ∃ p ∈ rows, p.1 = a + i := by
  unfold Col.update at hu
  cases rows with
  | nil => cases hu
  | cons first rest =>
    simp only at hu
    rw [Res.bind_ok_iff] at hu
    obtain ⟨_, _, hu⟩ := hu
    obtain ⟨hp, hs⟩ := sortPos_ok (first :: rest) hn
    have hr' : ∀ p ∈ sortPos (first :: rest), a ≤ p.1 ∧ p.1 < a + vals.length := fun p hp' => hr p (hp.mem_iff.mp hp')
    have hperm : overlay vals (rel a (first :: rest)) = overlay vals (rel a (sortPos (first :: rest))) :=
      (overlay_perm (hp.map _) (by
        apply rel_nodup (List.Perm.nodup_iff (hp.map _) |>.mpr hn)
        exact fun p hp' => (hr' p hp').1) _).symm
    rw [hperm]
    have hmem : ∀ i, (∃ p ∈ first :: rest, p.1 = a + i) ↔ ∃ p ∈ sortPos (first :: rest), p.1 = a + i := fun i => by
      simp only [hp.mem_iff]
    simp only [hmem]
    have hnil : sortPos (first :: rest) ≠ [] := by
      intro e
      have := hp.length_eq
      rw [e] at this
      simp at this
    clear hmem
    generalize sortPos (first :: rest) = ups at hu hs hr' hnil
    unfold Col.applyUpd at hu
    cases ups with
    | nil => exact (hnil rfl).elim
    | cons f r =>
      simp only at hu
      have hf := hr' f (by simp)
      have hv : (f.1 - c.start) / CAP = 0 := by rw [h.start]; apply Nat.div_eq_of_lt; omega
      rw [hv, h.start] at hu
      simp only [Nat.zero_mul, Nat.add_zero] at hu
      obtain ⟨hlen, _⟩ := fillInfo_zero (c.upd.getD []) 0
      have hinfo : ∀ v, ((fillInfo (c.upd.getD []) 0)[v]?).join = updNode c.upd v := fun v => by
        rw [(fillInfo_zero (c.upd.getD []) v).2, updNode_getD]
      rw [hinfo 0] at hu
      have hpos : ((f :: r).map fun p => (p.1 - a, p.2)) = rel a (f :: r) := rfl
      rw [hpos] at hu
      have hrs := rel_sorted hs (fun p hp' => (hr' p hp').1)
      have hrlt : ∀ p ∈ rel a (f :: r), p.1 < vals.length := by
        intro p hp'
        unfold rel at hp'
        rw [List.mem_map] at hp'
        obtain ⟨q, hq, rfl⟩ := hp'
        have := hr' q hq
        simp only; omega
      have hrel : ∀ i, (∃ p ∈ rel a (f :: r), p.1 = i) ↔ ∃ p ∈ f :: r, p.1 = a + i := by
        intro i
        constructor
        · rintro ⟨p, hp', rfl⟩
          unfold rel at hp'
          rw [List.mem_map] at hp'
          obtain ⟨q, hq, rfl⟩ := hp'
          have := hr' q hq
          exact ⟨q, hq, by simp only; omega⟩
        · rintro ⟨q, hq, he⟩
          exact ⟨(q.1 - a, q.2), List.mem_map.mpr ⟨q, hq, rfl⟩, by simp only; omega⟩
      have key : ∀ m, m ≠ [] → (m.Pairwise fun p q => p.1 < q.1) → (∀ p ∈ m, p.1 < vals.length) →
          overlay (flat c.segs) m = overlay vals (rel a (f :: r)) →
          ColOk { c with start := a, upd := some ((fillInfo (c.upd.getD []) 0).set 0 (some m)) } a (overlay vals (rel a (f :: r))) := by
        intro m hm0 hm1 hm2 hm3
        obtain ⟨hn1, hn2⟩ := updNode_set (fillInfo (c.upd.getD []) 0) m hlen
        have hups : ({ c with start := a, upd := some ((fillInfo (c.upd.getD []) 0).set 0 (some m)) } : Col α).ups = m := by
          unfold Col.ups
          simp only [hn1, Option.getD_some]
        refine ⟨rfl, ?_, h.ty, h.chain, h.nonempty, ?_, ?_, ?_, ?_, ?_, ?_⟩
        · rw [overlay_length]; exact h.count
        · rw [overlay_length]; exact h.len
        · rw [overlay_length]; exact h.small
        · rw [hups, overlay_length]; exact ⟨hm1, hm2⟩
        · intro v hv'
          simp only
          rw [hn2 v hv', hinfo v]
          exact h.other v hv'
        · simp only [hn1, ne_eq, Option.some.injEq]; exact hm0
        · rw [hups]; exact hm3.symm
      cases hb : updNode c.upd 0 with
      | none =>
        rw [hb] at hu
        simp only [Res.ok.injEq] at hu
        subst hu
        have hv0 : vals = flat c.segs := by
          have := h.vals
          unfold Col.ups at this
          rw [hb] at this
          exact this
        refine ⟨key _ (by simp [rel]) hrs hrlt (by rw [← hv0]), rfl, id, fun i => ?_⟩
        rw [← hrel i]
        have e1 : c.ups = [] := by unfold Col.ups; rw [hb]; rfl
        rw [e1]
        unfold Col.ups
        simp only [(updNode_set (fillInfo (c.upd.getD []) 0) (rel a (f :: r)) hlen).1, Option.getD_some]
        simp
      | some base =>
        rw [hb] at hu
        simp only at hu
        rw [Res.map'_ok_iff] at hu
        obtain ⟨m, hm, rfl⟩ := hu
        have hups : c.ups = base := by unfold Col.ups; rw [hb]; rfl
        have hbs : base.Pairwise fun p q => p.1 < q.1 := hups ▸ h.upd.sorted
        obtain ⟨h1, h2, h3⟩ := mergeUpd_ok _ _ m hm hrs hbs
        have hlook : ∀ (l : List (Nat × α)) i, (∃ p ∈ l, p.1 = i) ↔ (look l i).isSome = true := by
          intro l i
          unfold look
          rw [List.find?_isSome]
          simp
        have hmk : ∀ i, (∃ p ∈ m, p.1 = i) ↔ (∃ p ∈ base, p.1 = i) ∨ ∃ p ∈ f :: r, p.1 = a + i := by
          intro i
          rw [← hrel i, hlook m, h3, hlook base, hlook (rel a _)]
          cases look (rel a (f :: r)) i <;> simp
        refine ⟨key m ?_ h1 ?_ ?_, rfl, id, fun i => ?_⟩
        · rintro rfl
          have := (hmk (f.1 - a)).mpr (.inr ⟨f, by simp, by omega⟩)
          simp at this
        · intro p hp'
          rcases h2 p hp' with h4 | h4
          · exact hrlt p h4
          · exact h.upd.lt p (hups ▸ h4)
        · rw [overlay_merge hm hrs hbs, ← hups, ← h.vals]
        · rw [hups, ← hmk i]
          unfold Col.ups
          simp only [(updNode_set (fillInfo (c.upd.getD []) 0) m hlen).1, Option.getD_some]

/-- When an update of a column returns: nothing in it was updated before, or no new row lies behind
the last updated one. -/
theorem ColOk.update_runs {c : Col α} {a : Nat} {vals : List α} (h : ColOk c a vals) (hl : vals.length ≤ CAP)
    {rows : List (Nat × α)} (hne : rows ≠ []) (hn : (rows.map Prod.fst).Nodup)
    (hr : ∀ p ∈ rows, a ≤ p.1 ∧ p.1 < a + vals.length)
    (hm : c.ups = [] ∨ ∀ p ∈ rows, ∃ q ∈ c.ups, p.1 - a ≤ q.1) : ∃ c', c.update rows = .ok c' := by
  unfold Col.update
  cases rows with
  | nil => exact (hne rfl).elim
  | cons first rest =>
    simp only
    have hf0 := hr first (by simp)
    have hv0 : (first.1 - c.start) / CAP = 0 := by rw [h.start]; apply Nat.div_eq_of_lt; omega
    rw [hv0, h.start]
    rcases h.segOf (row := a + 0 * CAP) (by omega) with ⟨s, _, hsg, _⟩ | ⟨hbad, _⟩
    · rw [hsg]
      simp only [Res.bind_ok]
      obtain ⟨hp, hs⟩ := sortPos_ok (first :: rest) hn
      have hr' : ∀ p ∈ sortPos (first :: rest), a ≤ p.1 ∧ p.1 < a + vals.length := fun p hp' => hr p (hp.mem_iff.mp hp')
      have hm' : c.ups = [] ∨ ∀ p ∈ sortPos (first :: rest), ∃ q ∈ c.ups, p.1 - a ≤ q.1 := by
        rcases hm with hm | hm
        · exact .inl hm
        · exact .inr fun p hp' => hm p (hp.mem_iff.mp hp')
      generalize sortPos (first :: rest) = ups at hs hr' hm'
      unfold Col.applyUpd
      cases ups with
      | nil => exact ⟨c, rfl⟩
      | cons f r =>
        simp only
        have hf := hr' f (by simp)
        have hv : (f.1 - c.start) / CAP = 0 := by rw [h.start]; apply Nat.div_eq_of_lt; omega
        rw [hv, h.start]
        simp only [Nat.zero_mul, Nat.add_zero]
        rw [(fillInfo_zero (c.upd.getD []) 0).2, updNode_getD]
        cases hb : updNode c.upd 0 with
        | none => exact ⟨_, rfl⟩
        | some base =>
          simp only
          have hups : c.ups = base := by unfold Col.ups; rw [hb]; rfl
          rcases hm' with hm' | hm'
          · rw [hups] at hm'
            subst hm'
            exact (h.set hb).elim
          · have hrs := rel_sorted hs (fun p hp' => (hr' p hp').1)
            obtain ⟨m, hmm⟩ := mergeUpd_runs (rel a (f :: r)) base hrs (hups ▸ h.upd.sorted) (by
              intro p hp'
              unfold rel at hp'
              rw [List.mem_map] at hp'
              obtain ⟨q, hq, rfl⟩ := hp'
              rw [← hups]
              exact hm' q hq)
            have hpos : ((f :: r).map fun p => (p.1 - a, p.2)) = rel a (f :: r) := rfl
            rw [hpos, hmm]
            exact ⟨_, rfl⟩
    · omega

/-- A row behind all rows updated so far. -/
theorem ColOk.update_ub {c : Col α} {a : Nat} {vals : List α} (h : ColOk c a vals) (hl : vals.length ≤ CAP)
    {rows : List (Nat × α)} (hne : rows ≠ []) (hn : (rows.map Prod.fst).Nodup)
    (hr : ∀ p ∈ rows, a ≤ p.1 ∧ p.1 < a + vals.length) (hu : c.ups ≠ [])
    (hm : ∃ p ∈ rows, ∀ q ∈ c.ups, q.1 < p.1 - a) : c.update rows = .ub := by
  unfold Col.update
  cases rows with
  | nil => exact (hne rfl).elim
  | cons first rest =>
    simp only
    have hf0 := hr first (by simp)
    have hv0 : (first.1 - c.start) / CAP = 0 := by rw [h.start]; apply Nat.div_eq_of_lt; omega
    rw [hv0, h.start]
    rcases h.segOf (row := a + 0 * CAP) (by omega) with ⟨s, _, hsg, _⟩ | ⟨hbad, _⟩
    · rw [hsg]
      simp only [Res.bind_ok]
      obtain ⟨hp, hs⟩ := sortPos_ok (first :: rest) hn
      have hr' : ∀ p ∈ sortPos (first :: rest), a ≤ p.1 ∧ p.1 < a + vals.length := fun p hp' => hr p (hp.mem_iff.mp hp')
      have hm' : ∃ p ∈ sortPos (first :: rest), ∀ q ∈ c.ups, q.1 < p.1 - a := by
        obtain ⟨p, hp1, hp2⟩ := hm
        exact ⟨p, hp.mem_iff.mpr hp1, hp2⟩
      generalize sortPos (first :: rest) = ups at hs hr' hm'
      unfold Col.applyUpd
      cases ups with
      | nil => obtain ⟨p, hp1, _⟩ := hm'; simp at hp1
      | cons f r =>
        simp only
        have hf := hr' f (by simp)
        have hv : (f.1 - c.start) / CAP = 0 := by rw [h.start]; apply Nat.div_eq_of_lt; omega
        rw [hv, h.start]
        simp only [Nat.zero_mul, Nat.add_zero]
        rw [(fillInfo_zero (c.upd.getD []) 0).2, updNode_getD]
        cases hb : updNode c.upd 0 with
        | none => exact (hu (by unfold Col.ups; rw [hb]; rfl)).elim
        | some base =>
          simp only
          have hups : c.ups = base := by unfold Col.ups; rw [hb]; rfl
          have hrs := rel_sorted hs (fun p hp' => (hr' p hp').1)
          have hpos : ((f :: r).map fun p => (p.1 - a, p.2)) = rel a (f :: r) := rfl
          rw [hpos, mergeUpd_ub (rel a (f :: r)) base hrs (hups ▸ h.upd.sorted) (by
            obtain ⟨p, hp1, hp2⟩ := hm'
            rw [← hups]
            exact ⟨(p.1 - a, p.2), List.mem_map.mpr ⟨p, hp1, rfl⟩, hp2⟩)]
          rfl
    · omega

end Verif.Table
