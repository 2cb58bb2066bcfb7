import Verif.Table.IndexModel
/-!
Lemmas about the index of a table.
-/
namespace Verif.Table
open Verif

variable {α : Type} {lt : Cell α → Cell α → Bool} {cmp : α → α → Ordering} {P : α → Prop}

/-! ### order of the keys -/

/-- A key with a value in `P`. -/
def IKey (P : α → Prop) (k : Cell α) : Prop := ∃ a, k = some a ∧ P a

theorem Orders.irrefl (h : Orders lt cmp P) {k : Cell α} (hk : IKey P k) : lt k k = false := by
  obtain ⟨a, rfl, ha⟩ := hk
  rw [h.same a a ha ha]
  cases hc : cmp a a with
  | lt => have := (h.swap a a ha ha).mpr hc; rw [hc] at this; cases this
  | eq => rfl
  | gt => rfl

theorem Orders.asymm (h : Orders lt cmp P) {k l : Cell α} (hk : IKey P k) (hl : IKey P l) (hlt : lt k l = true) : lt l k = false := by
  obtain ⟨a, rfl, ha⟩ := hk
  obtain ⟨b, rfl, hb⟩ := hl
  rw [h.same a b ha hb, decide_eq_true_iff] at hlt
  rw [h.same b a hb ha, (h.swap b a hb ha).mpr hlt]
  rfl

theorem Orders.co (h : Orders lt cmp P) {k l m : Cell α} (hk : IKey P k) (hl : IKey P l) (hm : IKey P m) (hlt : lt k l = true) :
    lt k m = true ∨ lt m l = true := by
  obtain ⟨a, rfl, ha⟩ := hk
  obtain ⟨b, rfl, hb⟩ := hl
  obtain ⟨c, rfl, hc⟩ := hm
  rw [h.same a b ha hb, decide_eq_true_iff] at hlt
  rw [h.same a c ha hc, h.same c b hc hb, decide_eq_true_iff, decide_eq_true_iff]
  exact h.cotrans a b c ha hb hc hlt

/-- Keys in order. -/
def IOrder (lt : Cell α → Cell α → Bool) (es : List (IEntry α)) : Prop := es.Pairwise fun a b => lt b.key a.key = false

/-- All keys have values in `P`. -/
def IKeys (P : α → Prop) (es : List (IEntry α)) : Prop := ∀ e ∈ es, IKey P e.key

theorem iInsert_perm (e : IEntry α) (es : List (IEntry α)) : (iInsert lt e es).Perm (e :: es) := by
  induction es with
  | nil => exact .refl _
  | cons x xs ih =>
    simp only [iInsert]
    split
    · exact .refl _
    · exact (List.Perm.cons x ih).trans (List.Perm.swap _ _ _)

theorem iInsert_order (h : Orders lt cmp P) (e : IEntry α) (he : IKey P e.key) (es : List (IEntry α)) (hk : IKeys P es)
    (ho : IOrder lt es) : IOrder lt (iInsert lt e es) := by
  induction es with
  | nil => exact List.pairwise_singleton _ _
  | cons x xs ih =>
    have ho' := List.pairwise_cons.mp ho
    simp only [iInsert]
    by_cases hlt : lt e.key x.key = true
    · rw [if_pos hlt]
      refine List.pairwise_cons.mpr ⟨?_, ho⟩
      intro y hy
      rcases List.mem_cons.mp hy with rfl | hy'
      · exact h.asymm he (hk y (by simp)) hlt
      · cases hy2 : lt y.key e.key with
        | false => rfl
        | true =>
          rcases h.co (hk y hy) he (hk x (by simp)) hy2 with h3 | h3
          · rw [ho'.1 y hy'] at h3; cases h3
          · rw [h.asymm he (hk x (by simp)) hlt] at h3; cases h3
    · rw [if_neg hlt]
      refine List.pairwise_cons.mpr ⟨?_, ih (fun y hy => hk y (by simp [hy])) ho'.2⟩
      intro y hy
      rcases List.mem_cons.mp ((iInsert_perm e xs).mem_iff.mp hy) with rfl | hy
      · simpa using hlt
      · exact ho'.1 y hy

/-! ### ranges -/

theorem down_all {β : Type} (p : β → Bool) (l : List β) (h : l.Pairwise fun a b => p b = true → p a = true) :
    (∀ x ∈ l.dropWhile p, p x = false) ∧ l.takeWhile p = l.filter p ∧ l.dropWhile p = l.filter fun x => !p x := by
  induction l with
  | nil => exact ⟨by simp, rfl, rfl⟩
  | cons a l ih =>
    have h' := List.pairwise_cons.mp h
    obtain ⟨i1, i2, i3⟩ := ih h'.2
    cases hp : p a with
    | true => exact ⟨by simpa [List.dropWhile_cons, hp] using i1, by simp [hp, i2], by simp [List.dropWhile_cons, hp, i3]⟩
    | false =>
      have hall : ∀ x ∈ l, p x = false := by
        intro x hx
        cases hpx : p x with
        | false => rfl
        | true => rw [h'.1 x hx hpx] at hp; cases hp
      refine ⟨?_, ?_, ?_⟩
      · intro x hx
        rw [List.dropWhile_cons, hp] at hx
        rcases List.mem_cons.mp (by simpa using hx) with rfl | hx
        · exact hp
        · exact hall x hx
      · rw [List.takeWhile_cons, hp, List.filter_cons, hp]
        simp only [Bool.false_eq_true, if_false]
        rw [eq_comm, List.filter_eq_nil_iff]
        intro x hx
        rw [hall x hx]
        exact Bool.false_ne_true
      · rw [List.dropWhile_cons, hp, List.filter_cons, hp]
        simp only [Bool.false_eq_true, if_false, Bool.not_false, if_true]
        congr 1
        rw [eq_comm, List.filter_eq_self]
        intro x hx
        rw [hall x hx]
        rfl

theorem split_filter {β : Type} (p q : β → Bool) (l : List β) (hd : l.Pairwise fun a b => p b = true → p a = true) (hpq : ∀ x ∈ l, p x = true → q x = false) :
    l.filter p ++ l.filter q = l.filter fun x => p x || q x := by
  induction l with
  | nil => rfl
  | cons a l ih =>
    have h' := List.pairwise_cons.mp hd
    have ih' := ih h'.2 fun x hx => hpq x (by simp [hx])
    cases hp : p a with
    | true =>
      have hq := hpq a (by simp) hp
      simp only [List.filter_cons, hp, hq, Bool.true_or, if_true, Bool.false_eq_true, if_false, List.cons_append, ih']
    | false =>
      have hall : ∀ x ∈ l, p x = false := by
        intro x hx
        cases hpx : p x with
        | false => rfl
        | true => rw [h'.1 x hx hpx] at hp; cases hp
      have e0 : l.filter p = [] := by
        rw [List.filter_eq_nil_iff]
        intro x hx
        rw [hall x hx]
        exact Bool.false_ne_true
      simp only [List.filter_cons, hp, e0, Bool.false_or, Bool.false_eq_true, if_false, List.nil_append]
      have : l.filter (fun x => p x || q x) = l.filter q := by
        apply List.filter_congr
        intro x hx
        rw [hall x hx]
        rfl
      rw [this]

/-- What a comparison says of a key. -/
def FOp.key (op : FOp) (lt : Cell α → Cell α → Bool) (x k : Cell α) : Bool :=
  op.sat (if lt x k then .lt else if lt k x then .gt else .eq)

theorem iRanges_eq (h : Orders lt cmp P) (op : FOp) (hop : op.indexable = true) (k : Cell α) (hk : IKey P k) (es : List (IEntry α)) (hks : IKeys P es)
    (ho : IOrder lt es) : iRanges lt op k es = es.filter fun e => op.key lt e.key k := by
  have d1 : es.Pairwise fun a b => lt b.key k = true → lt a.key k = true := by
    apply List.Pairwise.imp_of_mem _ ho
    intro a b ha hb hba hbk
    rcases h.co (hks b hb) hk (hks a ha) hbk with h1 | h1
    · rw [hba] at h1; cases h1
    · exact h1
  have d2 : es.Pairwise fun a b => (!lt k b.key) = true → (!lt k a.key) = true := by
    apply List.Pairwise.imp_of_mem _ ho
    intro a b ha hb hba hbk
    simp only [Bool.not_eq_true'] at hbk ⊢
    cases hka : lt k a.key with
    | false => rfl
    | true =>
      rcases h.co hk (hks a ha) (hks b hb) hka with h1 | h1
      · rw [hbk] at h1; cases h1
      · rw [hba] at h1; cases h1
  have b1 : iBelow lt k es = es.filter fun e => lt e.key k := (down_all _ es d1).2.1
  have b2 : iAbove lt k es = es.filter fun e => lt k e.key := by
    rw [show iAbove lt k es = _ from (down_all _ es d2).2.2]
    simp
  have b3 : iEqual lt k es = es.filter fun e => !lt e.key k && !lt k e.key := by
    unfold iEqual
    rw [(down_all _ es d1).2.2, (down_all (fun e : IEntry α => !lt k e.key) _ (d2.sublist List.filter_sublist)).2.1, List.filter_filter]
    apply List.filter_congr
    intro x _
    rw [Bool.and_comm]
  have asy : ∀ x ∈ es, lt x.key k = true → lt k x.key = false := fun x hx => h.asymm (hks x hx) hk
  have asy' : ∀ x ∈ es, lt k x.key = true → lt x.key k = false := fun x hx => h.asymm hk (hks x hx)
  cases op with
  | allTrue => cases hop
  | other => cases hop
  | eq =>
    rw [show iRanges lt .eq k es = iEqual lt k es from rfl, b3]
    apply List.filter_congr; intro x _
    unfold FOp.key; cases lt x.key k <;> cases lt k x.key <;> rfl
  | gt =>
    rw [show iRanges lt .gt k es = iAbove lt k es from rfl, b2]
    apply List.filter_congr; intro x hx
    unfold FOp.key
    cases h1 : lt k x.key
    · cases lt x.key k <;> rfl
    · rw [asy' x hx h1]; rfl
  | lt =>
    rw [show iRanges lt .lt k es = iBelow lt k es from rfl, b1]
    apply List.filter_congr; intro x _
    unfold FOp.key; cases lt x.key k <;> cases lt k x.key <;> rfl
  | ne =>
    rw [show iRanges lt .ne k es = iBelow lt k es ++ iAbove lt k es from rfl, b1, b2, split_filter _ _ es d1 asy]
    apply List.filter_congr; intro x _
    unfold FOp.key; cases lt x.key k <;> cases lt k x.key <;> rfl
  | gte =>
    rw [show iRanges lt .gte k es = iEqual lt k es ++ iAbove lt k es from rfl, b3, b2]
    have e1 : (es.filter fun e => !lt e.key k && !lt k e.key) = (es.filter fun e => !lt e.key k).filter fun e => !lt k e.key := by
      rw [List.filter_filter]
      apply List.filter_congr; intro x _
      rw [Bool.and_comm]
    have e2 : (es.filter fun e => lt k e.key) = (es.filter fun e => !lt e.key k).filter fun e => lt k e.key := by
      rw [List.filter_filter]
      apply List.filter_congr; intro x hx
      cases h1 : lt k x.key
      · rfl
      · rw [asy' x hx h1]; rfl
    rw [e1, e2, split_filter _ _ _ (d2.sublist List.filter_sublist) (by intro x _ hx; simpa using hx), List.filter_filter]
    apply List.filter_congr; intro x hx
    unfold FOp.key
    cases h1 : lt k x.key
    · cases lt x.key k <;> rfl
    · rw [asy' x hx h1]; rfl
  | lte =>
    rw [show iRanges lt .lte k es = iBelow lt k es ++ iEqual lt k es from rfl, b1, b3,
      split_filter _ _ es d1 (by intro x _ hx; rw [hx]; rfl)]
    apply List.filter_congr; intro x hx
    unfold FOp.key
    cases h1 : lt x.key k
    · cases lt k x.key <;> rfl
    · rfl

theorem iIds_eq (limit : Int) (hl : -1 ≤ limit) : ∀ (es : List (IEntry α)) (n : Nat),
    iIds limit es n = if limit = -1 then es.map IEntry.row else (es.map IEntry.row).take (limit.toNat - n) := by
  intro es
  induction es with
  | nil => intro n; simp [iIds]
  | cons e es ih =>
    intro n
    simp only [iIds, Query.limOk, ih]
    by_cases h1 : limit = -1
    · subst h1; simp
    · simp only [h1, if_false, beq_iff_eq, Bool.or_eq_true, decide_eq_true_eq, false_or]
      by_cases h2 : (n : Int) < limit
      · rw [if_pos h2, show limit.toNat - n = (limit.toNat - (n + 1)) + 1 by omega]
        rfl
      · rw [if_neg h2, show limit.toNat - n = 0 by omega]
        rfl

/-! ### erasing -/

/-- The first key of the entries with `p` erases that entry, if `p` depends on the key only. -/
theorem iErase_first (h : Orders lt cmp P) (p : IEntry α → Bool) (es : List (IEntry α)) (hks : IKeys P es) (ho : IOrder lt es)
    (hp : ∀ a b : IEntry α, a ∈ es → b ∈ es → lt a.key b.key = false → lt b.key a.key = false → p a = p b) {d : IEntry α} {rest : List (IEntry α)}
    (hf : es.filter p = d :: rest) :
    ∃ es', iErase lt d.key es = .ok es' ∧ es.Perm (d :: es') ∧ es'.Sublist es ∧ es'.filter p = rest := by
  induction es with
  | nil => cases hf
  | cons e es ih =>
    have ho' := List.pairwise_cons.mp ho
    rw [List.filter_cons] at hf
    by_cases hpe : p e = true
    · rw [if_pos hpe] at hf
      injection hf with e1 e2
      subst e1
      refine ⟨es, ?_, .refl _, List.sublist_cons_self _ _, e2⟩
      simp only [iErase, h.irrefl (hks e (by simp)), Bool.false_eq_true, if_false]
    · rw [if_neg hpe] at hf
      have hd : d ∈ es := by
        have : d ∈ es.filter p := by rw [hf]; simp
        exact (List.mem_filter.mp this).1
      have hpd : p d = true := by
        have : d ∈ es.filter p := by rw [hf]; simp
        exact (List.mem_filter.mp this).2
      obtain ⟨es', i1, i2, i3, i4⟩ := ih (fun x hx => hks x (by simp [hx])) ho'.2 (fun a b ha hb => hp a b (by simp [ha]) (by simp [hb])) hf
      have hlt : lt e.key d.key = true := by
        cases hlt : lt e.key d.key with
        | true => rfl
        | false => exact absurd ((hp e d (by simp) (by simp [hd]) hlt (ho'.1 d hd)).trans hpd) hpe
      refine ⟨e :: es', ?_, (List.Perm.cons e i2).trans (List.Perm.swap _ _ _), i3.cons_cons e, ?_⟩
      · simp only [iErase, hlt, if_true, i1, Res.map'_ok]
      · rw [List.filter_cons, if_neg hpe, i4]

/-- Erasing the keys of the first `n` of these entries, one after the other, erases these entries. -/
theorem eraseKeys (h : Orders lt cmp P) (p : IEntry α → Bool) (col : Nat) (f : IEntry α → List (Cell α)) : ∀ (n : Nat) (es : List (IEntry α)), IKeys P es → IOrder lt es →
    (∀ a b : IEntry α, a ∈ es → b ∈ es → lt a.key b.key = false → lt b.key a.key = false → p a = p b) → (∀ e ∈ es, (f e)[col]? = some e.key) →
    ∃ es', eraseRows lt col (((es.filter p).take n).map f) es = .ok es' ∧ es.Perm ((es.filter p).take n ++ es') ∧ es'.Sublist es := by
  intro n
  induction n with
  | zero => intro es _ _ _ _; exact ⟨es, rfl, .refl _, .refl _⟩
  | succ n ih =>
    intro es hks ho hp hfk
    cases hf : es.filter p with
    | nil => exact ⟨es, rfl, .refl _, .refl _⟩
    | cons d rest =>
      obtain ⟨es', i1, i2, i3, i4⟩ := iErase_first h p es hks ho hp hf
      obtain ⟨es2, j1, j2, j3⟩ := ih es' (fun x hx => hks x (i3.subset hx)) (ho.sublist i3) (fun a b ha hb => hp a b (i3.subset ha) (i3.subset hb))
        (fun e he => hfk e (i3.subset he))
      rw [i4] at j1 j2
      have hd : d ∈ es := i2.mem_iff.mpr (by simp)
      refine ⟨es2, ?_, ?_, j3.trans i3⟩
      · simp only [List.take_succ_cons, List.map_cons, eraseRows, keyAt, hfk d hd, Res.bind_ok, i1, j1]
      · rw [List.take_succ_cons, List.cons_append]
        exact i2.trans (j2.cons d)

end Verif.Table
