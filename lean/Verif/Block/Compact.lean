import Verif.Block.Lemmas
/-!
Helper lemmas: `remove_range_` compacts the item area without changing any entry that stays.
-/
namespace Verif.Block
variable {K : Type} [LinearOrder K]
set_option linter.unusedSectionVars false

/-- Spaces in order, with something between them. -/
def SpSep (sp : List Space) : Prop := sp.Pairwise fun s t => s.first + s.second < t.first

/-- `[a, e)` lies inside one of the spaces. -/
def Within (sp : List Space) (a e : Nat) : Prop := ∃ s ∈ sp, s.first ≤ a ∧ e ≤ s.first + s.second

def total (sp : List Space) : Nat := (sp.map (·.second)).sum

theorem spSep_cons {s : Space} {sp : List Space} : SpSep (s :: sp) ↔ (∀ t ∈ sp, s.first + s.second < t.first) ∧ SpSep sp :=
  List.pairwise_cons

theorem cutSpace_mem {off size : Nat} {s t : Space} (h1 : s.first ≤ off) (h2 : off + size ≤ s.first + s.second)
    (ht : t ∈ cutSpace off size s) :
    s.first ≤ t.first ∧ t.first + t.second ≤ s.first + s.second ∧ (t.first = s.first ∨ t.first = off + size) := by
  unfold cutSpace at ht
  simp only at ht
  split at ht
  · simp only [List.mem_cons, List.not_mem_nil, or_false] at ht
    rcases ht with rfl | rfl
    · exact ⟨Nat.le_refl _, by simp only; omega, Or.inl rfl⟩
    · exact ⟨by simp only; omega, by simp only; omega, Or.inr rfl⟩
  · simp only [List.mem_cons, List.not_mem_nil, or_false] at ht
    subst ht
    exact ⟨Nat.le_refl _, by simp only; omega, Or.inl rfl⟩

theorem cutSpace_sep {off size : Nat} {s : Space} (h1 : s.first ≤ off) (h0 : 0 < size) :
    SpSep (cutSpace off size s) := by
  unfold cutSpace SpSep
  simp only
  split
  · simp only [List.pairwise_cons, List.mem_cons, List.not_mem_nil, or_false, forall_eq, List.Pairwise.nil, and_true]
    refine ⟨by omega, ?_⟩
    intro a ha; cases ha
  · exact List.pairwise_singleton _ _

theorem cutSpace_total {off size : Nat} {s : Space} (h1 : s.first ≤ off) (h2 : off + size ≤ s.first + s.second) :
    total (cutSpace off size s) + size = s.second := by
  unfold cutSpace total
  simp only
  split
  · simp only [List.map_cons, List.map_nil, List.sum_cons, List.sum_nil]; omega
  · next h =>
    have : s.second + s.first - off - size = 0 := by
      by_contra hc; exact h hc
    simp only [List.map_cons, List.map_nil, List.sum_cons, List.sum_nil]; omega

theorem cutSpace_within {off size a e : Nat} {s : Space} (ha : a < e)
    (hd : e ≤ off ∨ off + size ≤ a) (hs1 : s.first ≤ a) (hs2 : e ≤ s.first + s.second) : Within (cutSpace off size s) a e := by
  unfold cutSpace
  simp only
  split
  · rcases hd with hd | hd
    · exact ⟨⟨s.first, off - s.first⟩, by simp, hs1, by simp only; omega⟩
    · exact ⟨⟨off + size, s.second + s.first - off - size⟩, by simp, hd, by simp only; omega⟩
  · next h =>
    have h0 : s.second + s.first - off - size = 0 := by
      by_contra hc; exact h hc
    rcases hd with hd | hd
    · exact ⟨⟨s.first, off - s.first⟩, by simp, hs1, by simp only; omega⟩
    · omega

/-- What cutting one entry out of the spaces does. -/
structure Punched (off size : Nat) (sp sp' : List Space) : Prop where
  sep : SpSep sp'
  tot : total sp' + size = total sp
  keep : ∀ a e, a < e → (e ≤ off ∨ off + size ≤ a) → Within sp a e → Within sp' a e
  low : ∀ c, (∀ s ∈ sp, c < s.first) → ∀ s ∈ sp', c < s.first
  upp : ∀ c, (∀ s ∈ sp, s.first ≤ c) → off + size ≤ c → ∀ s ∈ sp', s.first ≤ c
  head : (sp'.head?).map (·.first) = (sp.head?).map (·.first)
  last : ∀ E, (∀ s ∈ sp.getLast?, s.first + s.second = E) → off + size < E → ∀ s ∈ sp'.getLast?, s.first + s.second = E

theorem cutSpace_head (off size : Nat) (s : Space) (rest : List Space) :
    ((cutSpace off size s ++ rest).head?).map (·.first) = some s.first := by
  unfold cutSpace
  simp only
  split <;> rfl

theorem cutSpace_last {off size E : Nat} {s : Space} (h2 : off + size ≤ s.first + s.second)
    (hs : s.first + s.second = E) (hE : off + size < E) : ∀ t ∈ (cutSpace off size s).getLast?, t.first + t.second = E := by
  unfold cutSpace
  simp only
  split
  · intro t ht
    simp only [List.getLast?_cons_cons, List.getLast?_singleton, Option.mem_some_iff] at ht
    subst ht
    simp only; omega
  · next h =>
    have : s.second + s.first - off - size = 0 := by
      by_contra hc; exact h hc
    omega

theorem cutSpace_ne (off size : Nat) (s : Space) : cutSpace off size s ≠ [] := by
  unfold cutSpace
  simp only
  split <;> exact List.cons_ne_nil _ _

theorem punch_ok {off size : Nat} (h0 : 0 < size) : ∀ {sp : List Space}, SpSep sp → Within sp off (off + size) →
    ∃ sp', punch off size sp = some sp' ∧ Punched off size sp sp' := by
  intro sp
  induction sp with
  | nil => rintro _ ⟨s, hs, _⟩; cases hs
  | cons s rest ih =>
    intro hsep hw
    obtain ⟨hs1, hs2⟩ := spSep_cons.mp hsep
    by_cases hin : s.first ≤ off ∧ off + size ≤ s.first + s.second
    · -- cut the first space
      refine ⟨cutSpace off size s ++ rest, ?_, ?_⟩
      · unfold punch
        rw [if_neg (by omega)]
        cases rest with
        | nil => simp
        | cons t rest =>
          simp only
          have := hs1 t (List.mem_cons_self ..)
          rw [if_pos (by omega)]
      · refine ⟨?_, ?_, ?_, ?_, ?_, ?_, ?_⟩
        · refine List.pairwise_append.mpr ⟨cutSpace_sep hin.1 h0, hs2, ?_⟩
          intro u hu t ht
          have := (cutSpace_mem hin.1 hin.2 hu).2.1
          have := hs1 t ht
          omega
        · have := cutSpace_total hin.1 hin.2
          unfold total at *
          rw [List.map_append, List.sum_append, List.map_cons, List.sum_cons]
          omega
        · rintro a e ha hd ⟨u, hu, hu1, hu2⟩
          rcases List.mem_cons.mp hu with hu | hu
          · subst hu
            obtain ⟨v, hv, hv1, hv2⟩ := cutSpace_within ha hd hu1 hu2
            exact ⟨v, List.mem_append_left _ hv, hv1, hv2⟩
          · exact ⟨u, List.mem_append_right _ hu, hu1, hu2⟩
        · intro c hc u hu
          rcases List.mem_append.mp hu with hu | hu
          · have := (cutSpace_mem hin.1 hin.2 hu).1
            have := hc s (List.mem_cons_self ..)
            omega
          · exact hc u (List.mem_cons_of_mem _ hu)
        · intro c hc hcc u hu
          rcases List.mem_append.mp hu with hu | hu
          · rcases (cutSpace_mem hin.1 hin.2 hu).2.2 with e | e
            · have := hc s (List.mem_cons_self ..); omega
            · omega
          · exact hc u (List.mem_cons_of_mem _ hu)
        · rw [cutSpace_head]; rfl
        · intro E hE hlt u hu
          cases hr : rest with
          | nil =>
            subst hr
            rw [List.append_nil] at hu
            exact cutSpace_last hin.2 (hE s (by simp)) hlt u hu
          | cons t rest' =>
            subst hr
            rw [List.getLast?_append_of_ne_nil _ (List.cons_ne_nil _ _)] at hu
            refine hE u ?_
            rw [List.getLast?_cons_cons]
            exact hu
    · -- the entry is further on
      have hw' : Within rest off (off + size) := by
        obtain ⟨u, hu, hu1, hu2⟩ := hw
        rcases List.mem_cons.mp hu with hu | hu
        · subst hu; exact absurd ⟨hu1, hu2⟩ hin
        · exact ⟨u, hu, hu1, hu2⟩
      obtain ⟨sp', he, hp⟩ := ih hs2 hw'
      cases hr : rest with
      | nil => subst hr; obtain ⟨u, hu, _⟩ := hw'; cases hu
      | cons t rest' =>
        have htoff : t.first ≤ off := by
          obtain ⟨u, hu, hu1, _⟩ := hw'
          rw [hr] at hu hs2
          rcases List.mem_cons.mp hu with hu | hu
          · subst hu; exact hu1
          · have := (spSep_cons.mp hs2).1 u hu
            omega
        refine ⟨s :: sp', ?_, ?_⟩
        · have := hs1 t (by rw [hr]; exact List.mem_cons_self ..)
          unfold punch
          rw [if_neg (by omega)]
          simp only
          rw [if_neg (by omega), ← hr, he]
          rfl
        · rw [← hr]
          have hne : sp' ≠ [] := by
            intro hc
            have := hp.head
            rw [hc, hr] at this
            cases this
          refine ⟨?_, ?_, ?_, ?_, ?_, rfl, ?_⟩
          · exact spSep_cons.mpr ⟨hp.low _ hs1, hp.sep⟩
          · have := hp.tot
            unfold total at *
            rw [List.map_cons, List.sum_cons, List.map_cons, List.sum_cons]
            omega
          · rintro a e ha hd ⟨u, hu, hu1, hu2⟩
            rcases List.mem_cons.mp hu with hu | hu
            · subst hu; exact ⟨u, List.mem_cons_self .., hu1, hu2⟩
            · obtain ⟨v, hv, hv1, hv2⟩ := hp.keep a e ha hd ⟨u, hu, hu1, hu2⟩
              exact ⟨v, List.mem_cons_of_mem _ hv, hv1, hv2⟩
          · intro c hc u hu
            rcases List.mem_cons.mp hu with hu | hu
            · subst hu; exact hc u (List.mem_cons_self ..)
            · exact hp.low c (fun v hv => hc v (List.mem_cons_of_mem _ hv)) u hu
          · intro c hc hcc u hu
            rcases List.mem_cons.mp hu with hu | hu
            · subst hu; exact hc u (List.mem_cons_self ..)
            · exact hp.upp c (fun v hv => hc v (List.mem_cons_of_mem _ hv)) hcc u hu
          · intro E hE hlt u hu
            have e1 : (s :: sp').getLast? = sp'.getLast? := by
              cases sp' with
              | nil => exact absurd rfl hne
              | cons _ _ => rw [List.getLast?_cons_cons]
            have e2 : (s :: rest).getLast? = rest.getLast? := by rw [hr, List.getLast?_cons_cons]
            rw [e1] at hu
            rw [e2] at hE
            exact hp.last E hE hlt u hu

/-- Cutting out a whole range of entries. -/
theorem punchAll_ok {buf E first : Nat} (hE : buf < E) : ∀ {ms : List (Meta K)} {sp : List Space},
    (∀ m ∈ ms, 0 < m.size ∧ m.off + m.size ≤ buf) →
    ms.Pairwise (fun m n => m.off + m.size ≤ n.off ∨ n.off + n.size ≤ m.off) →
    SpSep sp → (∀ m ∈ ms, Within sp m.off (m.off + m.size)) → (∀ s ∈ sp, s.first ≤ buf) →
    (sp.head?).map (·.first) = some first → (∀ s ∈ sp.getLast?, s.first + s.second = E) →
    ∃ sp', punchAll ms sp = some sp' ∧ SpSep sp' ∧ total sp' + (ms.map (·.size)).sum = total sp ∧
      (∀ a e, a < e → (∀ m ∈ ms, e ≤ m.off ∨ m.off + m.size ≤ a) → Within sp a e → Within sp' a e) ∧
      (∀ s ∈ sp', s.first ≤ buf) ∧ (sp'.head?).map (·.first) = some first ∧
      (∀ s ∈ sp'.getLast?, s.first + s.second = E) := by
  intro ms
  induction ms with
  | nil => 
    intro sp _ _ h1 _ h3 h4 h5
    exact ⟨sp, rfl, h1, by simp, fun a e _ _ h => h, h3, h4, h5⟩
  | cons m ms ih =>
    intro sp hm hd hsep hw hup hh hl
    obtain ⟨hm1, hm2⟩ := hm m (List.mem_cons_self ..)
    obtain ⟨hd1, hd2⟩ := List.pairwise_cons.mp hd
    obtain ⟨sp1, he, hp⟩ := punch_ok hm1 hsep (hw m (List.mem_cons_self ..))
    obtain ⟨sp2, i1, i2, i3, i4, i5, i6, i7⟩ := ih (sp := sp1) (fun n hn => hm n (List.mem_cons_of_mem _ hn)) hd2 hp.sep
      (fun n hn => hp.keep _ _ (by have := (hm n (List.mem_cons_of_mem _ hn)).1; omega)
        (by have := hd1 n hn; omega) (hw n (List.mem_cons_of_mem _ hn)))
      (hp.upp buf hup hm2) (by rw [hp.head, hh]) (hp.last E hl (by omega))
    refine ⟨sp2, ?_, i2, ?_, ?_, i5, i6, i7⟩
    · unfold punchAll; rw [he]; exact i1
    · have := hp.tot
      rw [List.map_cons, List.sum_cons]
      omega
    · intro a e ha hdis hwi
      exact i4 a e ha (fun n hn => hdis n (List.mem_cons_of_mem _ hn))
        (hp.keep a e ha (by have := hdis m (List.mem_cons_self ..); omega) hwi)

theorem joinFrom_sep : ∀ (rest : List Space) (s : Space), SpSep (s :: rest) → joinFrom s rest = s :: rest := by
  intro rest
  induction rest with
  | nil => intro s _; rfl
  | cons t rest ih =>
    intro s h
    obtain ⟨h1, h2⟩ := spSep_cons.mp h
    unfold joinFrom
    have := h1 t (List.mem_cons_self ..)
    rw [if_neg (by omega), ih t h2]

theorem joinSpaces_sep {sp : List Space} (h : SpSep sp) : joinSpaces sp = sp := by
  cases sp with
  | nil => rfl
  | cons s rest => exact joinFrom_sep rest s h

/-! ### moving the spaces down -/

/-- Bytes between the spaces. -/
def gapsum (s : Space) : List Space → Nat
  | [] => 0
  | t :: rest => (t.first - (s.first + s.second)) + gapsum t rest

/-- How far an entry at `x` in one of the later spaces is moved. -/
def shiftOf (req : Nat) (s : Space) : List Space → Nat → Nat
  | [], _ => 0
  | t :: rest, x =>
    if t.first ≤ x ∧ x < t.first + t.second then req + (t.first - (s.first + s.second))
    else shiftOf (req + (t.first - (s.first + s.second))) t rest x

theorem shiftOf_cons (req : Nat) (s t : Space) (rest : List Space) (x : Nat) : shiftOf req s (t :: rest) x =
    if t.first ≤ x ∧ x < t.first + t.second then req + (t.first - (s.first + s.second))
    else shiftOf (req + (t.first - (s.first + s.second))) t rest x := rfl

theorem gapsum_cons (s t : Space) (rest : List Space) :
    gapsum s (t :: rest) = (t.first - (s.first + s.second)) + gapsum t rest := rfl

theorem shiftOf_zero : ∀ (rest : List Space) (req : Nat) (s : Space), SpSep (s :: rest) → ∀ x, x < s.first + s.second →
    shiftOf req s rest x = 0 := by
  intro rest
  induction rest with
  | nil => intro req s _ x _; rfl
  | cons t rest ih =>
    intro req s h x hx
    obtain ⟨h1, h2⟩ := spSep_cons.mp h
    have := h1 t (List.mem_cons_self ..)
    unfold shiftOf
    rw [if_neg (by omega)]
    exact ih _ t h2 x (by omega)

theorem compact_ok : ∀ (rest : List Space) (mem : Mem) (metas : List (Meta K)) (req : Nat) (s : Space),
    SpSep (s :: rest) → req ≤ s.first + s.second →
    (compact mem metas req s rest).2.2 = req + gapsum s rest ∧
    (compact mem metas req s rest).2.1 = metas.map (fun m => { m with off := m.off - shiftOf req s rest m.off }) ∧
    (∀ y, y < s.first + s.second - req → (compact mem metas req s rest).1 y = mem y) ∧
    (∀ x, (∃ t ∈ rest, t.first ≤ x ∧ x < t.first + t.second) →
      (compact mem metas req s rest).1 (x - shiftOf req s rest x) = mem x) := by
  intro rest
  induction rest with
  | nil =>
    intro mem metas req s _ _
    refine ⟨rfl, ?_, fun _ _ => rfl, ?_⟩
    · simp [compact, shiftOf]
    · rintro x ⟨t, ht, _⟩; cases ht
  | cons t rest ih =>
    intro mem metas req s hsep hreq
    obtain ⟨h1, h2⟩ := spSep_cons.mp hsep
    have hst := h1 t (List.mem_cons_self ..)
    obtain ⟨i1, i2, i3, i4⟩ := ih (move mem (s.first + s.second - req) t.first t.second)
      (metas.map (shiftIn t (req + (t.first - (s.first + s.second))))) (req + (t.first - (s.first + s.second))) t h2 (by omega)
    have e : compact mem metas req s (t :: rest) =
      compact (move mem (s.first + s.second - req) t.first t.second)
        (metas.map (shiftIn t (req + (t.first - (s.first + s.second))))) (req + (t.first - (s.first + s.second))) t rest := rfl
    rw [e]
    refine ⟨?_, ?_, ?_, ?_⟩
    · rw [i1]; simp only [gapsum]; omega
    · rw [i2, List.map_map]
      refine List.map_congr_left ?_
      intro m _
      simp only [Function.comp_apply, shiftIn]
      rw [shiftOf_cons]
      by_cases hin : t.first ≤ m.off ∧ m.off < t.first + t.second
      · simp only [if_pos hin]
        rw [shiftOf_zero rest _ t h2 _ (by omega)]
        rfl
      · simp only [if_neg hin]
    · intro y hy
      rw [i3 y (by omega)]
      unfold move
      rw [if_neg (by omega)]
    · rintro x ⟨u, hu, hu1, hu2⟩
      unfold shiftOf
      split
      · next hin =>
        rw [i3 _ (by omega)]
        unfold move
        rw [if_pos (by omega)]
        congr 1
        omega
      · next hin =>
        rcases List.mem_cons.mp hu with e | e
        · subst e; exact absurd ⟨hu1, hu2⟩ hin
        · rw [i4 x ⟨u, e, hu1, hu2⟩]
          have := (spSep_cons.mp h2).1 u e
          unfold move
          rw [if_neg (by omega)]

/-- The shift as a function that is also defined between the spaces. -/
def shiftTot (req : Nat) (s : Space) : List Space → Nat → Nat
  | [], _ => req
  | t :: rest, x => if x < t.first then req else shiftTot (req + (t.first - (s.first + s.second))) t rest x

theorem shiftOf_eq_tot : ∀ (rest : List Space) (req : Nat) (s : Space), SpSep (s :: rest) → ∀ x,
    (∃ t ∈ rest, t.first ≤ x ∧ x < t.first + t.second) → shiftOf req s rest x = shiftTot req s rest x := by
  intro rest
  induction rest with
  | nil => rintro req s _ x ⟨t, ht, _⟩; cases ht
  | cons t rest ih =>
    rintro req s h x ⟨u, hu, hu1, hu2⟩
    obtain ⟨h1, h2⟩ := spSep_cons.mp h
    unfold shiftOf shiftTot
    have hle : t.first ≤ u.first := by
      rcases List.mem_cons.mp hu with e | e
      · subst e; exact Nat.le_refl _
      · have := (spSep_cons.mp h2).1 u e; omega
    rw [if_neg (show ¬ x < t.first by omega)]
    split
    · next hin =>
      cases rest with
      | nil => rfl
      | cons v rest =>
        have := (spSep_cons.mp h2).1 v (List.mem_cons_self ..)
        unfold shiftTot
        rw [if_pos (by omega)]
    · next hin =>
      refine ih _ t h2 x ?_
      rcases List.mem_cons.mp hu with e | e
      · subst e; exact absurd ⟨hu1, hu2⟩ hin
      · exact ⟨u, e, hu1, hu2⟩

theorem shiftTot_bounds : ∀ (rest : List Space) (req : Nat) (s : Space), SpSep (s :: rest) → ∀ x,
    s.first + s.second ≤ x → req ≤ shiftTot req s rest x ∧ shiftTot req s rest x + (s.first + s.second) ≤ req + x := by
  intro rest
  induction rest with
  | nil => intro req s _ x hx; simp only [shiftTot]; omega
  | cons t rest ih =>
    intro req s h x hx
    obtain ⟨h1, h2⟩ := spSep_cons.mp h
    have := h1 t (List.mem_cons_self ..)
    unfold shiftTot
    split
    · omega
    · next hn =>
      by_cases hx2 : t.first + t.second ≤ x
      · have := ih (req + (t.first - (s.first + s.second))) t h2 x hx2
        omega
      · have e : shiftTot (req + (t.first - (s.first + s.second))) t rest x = req + (t.first - (s.first + s.second)) := by
          cases rest with
          | nil => rfl
          | cons v rest =>
            have := (spSep_cons.mp h2).1 v (List.mem_cons_self ..)
            unfold shiftTot
            rw [if_pos (by omega)]
        omega

/-- Moving the spaces keeps the order of what is in them: an entry ending at `e` in the space of `a` stays
before what starts at `c`. -/
theorem shiftTot_mono : ∀ (rest : List Space) (req : Nat) (s : Space), SpSep (s :: rest) → ∀ a e c,
    Within (s :: rest) a e → a < e → e ≤ c → 
    shiftTot req s rest a ≤ shiftTot req s rest c ∧ shiftTot req s rest c + e ≤ c + shiftTot req s rest a := by
  intro rest
  induction rest with
  | nil => intro req s _ a e c _ _ _; simp only [shiftTot]; omega
  | cons t rest ih =>
    intro req s h a e c hw hae hec
    obtain ⟨h1, h2⟩ := spSep_cons.mp h
    have hst := h1 t (List.mem_cons_self ..)
    by_cases ha : a < t.first
    · have hs : s.first ≤ a ∧ e ≤ s.first + s.second := by
        obtain ⟨u, hu, hu1, hu2⟩ := hw
        rcases List.mem_cons.mp hu with hu | hu
        · subst hu; exact ⟨hu1, hu2⟩
        · rcases List.mem_cons.mp hu with e' | e'
          · subst e'; omega
          · have := (spSep_cons.mp h2).1 u e'; omega
      have ea : shiftTot req s (t :: rest) a = req := by unfold shiftTot; rw [if_pos ha]
      rw [ea]
      by_cases hc : s.first + s.second ≤ c
      · have := shiftTot_bounds (t :: rest) req s h c hc
        omega
      · have ec : shiftTot req s (t :: rest) c = req := by unfold shiftTot; rw [if_pos (by omega)]
        rw [ec]; omega
    · have hw' : Within (t :: rest) a e := by
        obtain ⟨u, hu, hu1, hu2⟩ := hw
        rcases List.mem_cons.mp hu with hu | hu
        · subst hu; omega
        · exact ⟨u, hu, hu1, hu2⟩
      have ea : shiftTot req s (t :: rest) a = shiftTot (req + (t.first - (s.first + s.second))) t rest a := by
        conv_lhs => unfold shiftTot
        rw [if_neg ha]
      have ec : shiftTot req s (t :: rest) c = shiftTot (req + (t.first - (s.first + s.second))) t rest c := by
        conv_lhs => unfold shiftTot
        rw [if_neg (by omega)]
      rw [ea, ec]
      exact ih _ t h2 a e c hw' hae hec

theorem shiftTot_last : ∀ (rest : List Space) (req : Nat) (s : Space), SpSep (s :: rest) → ∀ c,
    (∀ u ∈ s :: rest, u.first ≤ c) → shiftTot req s rest c = req + gapsum s rest := by
  intro rest
  induction rest with
  | nil => intro req s _ c _; rfl
  | cons t rest ih =>
    intro req s h c hc
    obtain ⟨h1, h2⟩ := spSep_cons.mp h
    unfold shiftTot gapsum
    have := hc t (List.mem_cons_of_mem _ (List.mem_cons_self ..))
    rw [if_neg (by omega), ih _ t h2 c (fun u hu => hc u (List.mem_cons_of_mem _ hu))]
    omega

theorem gapsum_total : ∀ (rest : List Space) (s : Space), SpSep (s :: rest) → ∀ E, (∀ u ∈ (s :: rest).getLast?, u.first + u.second = E) →
    s.first + total (s :: rest) + gapsum s rest = E := by
  intro rest
  induction rest with
  | nil =>
    intro s _ E hE
    have := hE s (by simp)
    simp [total, gapsum]; omega
  | cons t rest ih =>
    intro s h E hE
    obtain ⟨h1, h2⟩ := spSep_cons.mp h
    have hst := h1 t (List.mem_cons_self ..)
    have := ih t h2 E (by rw [List.getLast?_cons_cons] at hE; exact hE)
    rw [gapsum_cons]
    unfold total at *
    rw [List.map_cons, List.sum_cons]
    omega

/-- What `remove_range_` achieves. -/
theorem removeRange_ok {b : Block K} (h : Lay b) {pre rng post : List (Meta K)} (hms : b.metas = pre ++ (rng ++ post))
    (hne : rng ≠ []) :
    ∃ b', removeRange b pre rng post = some b' ∧ Lay b' ∧ entries b' = (pre ++ post).map (fun m => (m.key, item b m)) ∧
      b'.metas.map (·.key) = (pre ++ post).map (·.key) ∧ b'.buf + (rng.map (·.size)).sum = b.buf ∧
      b'.avail = b.avail + (rng.map (·.size)).sum + rng.length * MSZ ∧ b'.full = b.full ∧ b'.count = b.count ∧
      b'.uniq = b.uniq := by
  have hperm : b.metas.Perm (rng ++ (pre ++ post)) := by
    rw [hms, ← List.append_assoc, ← List.append_assoc]
    exact List.Perm.append_right post List.perm_append_comm
  have hd := (hperm.pairwise_iff (fun hab => Or.symm hab)).mp h.disj
  obtain ⟨hd1, hd2, hd3⟩ := List.pairwise_append.mp hd
  have hrng : ∀ m ∈ rng, m ∈ b.metas := fun m hm => hperm.mem_iff.mpr (List.mem_append_left _ hm)
  have hrest : ∀ m ∈ pre ++ post, m ∈ b.metas := fun m hm => hperm.mem_iff.mpr (List.mem_append_right _ hm)
  have hbuf : HSZ ≤ b.buf := by have := h.sum; omega
  have hw0 : ∀ m ∈ b.metas, Within [⟨HSZ, b.buf⟩] m.off (m.off + m.size) := by
    intro m hm
    refine ⟨⟨HSZ, b.buf⟩, List.mem_singleton.mpr rfl, h.lo m hm, ?_⟩
    have := h.hi m hm; simp only; omega
  obtain ⟨sp, p1, p2, p3, p4, p5, p6, p7⟩ := punchAll_ok (buf := b.buf) (E := HSZ + b.buf) (first := HSZ)
    (by unfold HSZ; omega) (ms := rng) (sp := [⟨HSZ, b.buf⟩])
    (fun m hm => ⟨h.pos m (hrng m hm), h.hi m (hrng m hm)⟩) hd1 (List.pairwise_singleton _ _)
    (fun m hm => hw0 m (hrng m hm)) (by intro s hs; rw [List.mem_singleton] at hs; subst hs; exact hbuf)
    rfl (by intro s hs; simp only [List.getLast?_singleton, Option.mem_some_iff] at hs; subst hs; rfl)
  cases hsp : sp with
  | nil => rw [hsp] at p6; cases p6
  | cons s rest =>
    rw [hsp] at p1 p2 p3 p4 p5 p6 p7
    simp only [List.head?_cons, Option.map_some, Option.some.injEq] at p6
    obtain ⟨c1, c2, c3, c4⟩ := compact_ok rest b.mem (pre ++ post) 0 s p2 (Nat.zero_le _)
    have hgap : gapsum s rest = (rng.map (·.size)).sum := by
      have h1 := gapsum_total rest s p2 _ p7
      have h2 := p3
      have h3 : total [(⟨HSZ, b.buf⟩ : Space)] = b.buf := by simp [total]
      rw [h3] at h2
      omega
    have hsumle : (rng.map (·.size)).sum + ((pre ++ post).map (·.size)).sum + HSZ = b.buf := by
      have := h.sum
      rw [(hperm.map (·.size)).sum_nat, List.map_append, List.sum_append] at this
      omega
    -- every entry that stays lies in one of the spaces
    have hin : ∀ m ∈ pre ++ post, Within (s :: rest) m.off (m.off + m.size) := by
      intro m hm
      refine p4 _ _ (by have := h.pos m (hrest m hm); omega) ?_ (hw0 m (hrest m hm))
      intro n hn
      have := hd3 n hn m hm
      omega
    have hshift : ∀ m ∈ pre ++ post, shiftOf 0 s rest m.off = shiftTot 0 s rest m.off := by
      intro m hm
      have hp := h.pos m (hrest m hm)
      obtain ⟨u, hu, hu1, hu2⟩ := hin m hm
      rcases List.mem_cons.mp hu with e | e
      · subst e
        rw [shiftOf_zero rest 0 u p2 _ (by omega)]
        cases rest with
        | nil => rfl
        | cons t rest =>
          have := (spSep_cons.mp p2).1 t (List.mem_cons_self ..)
          unfold shiftTot
          rw [if_pos (by omega)]
      · exact shiftOf_eq_tot rest 0 s p2 _ ⟨u, e, hu1, by omega⟩
    refine ⟨{ b with mem := (compact b.mem (pre ++ post) 0 s rest).1, metas := (compact b.mem (pre ++ post) 0 s rest).2.1,
                     buf := b.buf - (compact b.mem (pre ++ post) 0 s rest).2.2,
                     avail := b.avail + (rng.map (·.size)).sum + rng.length * MSZ }, ?_, ?_, ?_, ?_, ?_, rfl, rfl, rfl, rfl⟩
    · unfold removeRange
      have : rng.isEmpty = false := by cases rng with
        | nil => exact absurd rfl hne
        | cons _ _ => rfl
      rw [this, p1]
      simp only [Bool.false_eq_true, if_false]
      rw [joinSpaces_sep p2]
    · -- layout
      rw [c2, c1]
      refine ⟨?_, ?_, ?_, ?_, ?_⟩
      · intro n hn
        obtain ⟨m, hm, rfl⟩ := List.mem_map.mp hn
        exact h.pos m (hrest m hm)
      · intro n hn
        obtain ⟨m, hm, rfl⟩ := List.mem_map.mp hn
        simp only
        rw [hshift m hm]
        by_cases hx : s.first + s.second ≤ m.off
        · have := (shiftTot_bounds rest 0 s p2 m.off hx).2
          omega
        · obtain ⟨u, hu, hu1, hu2⟩ := hin m hm
          have h0 : shiftTot 0 s rest m.off = 0 := by
            rw [← hshift m hm]
            exact shiftOf_zero rest 0 s p2 _ (by omega)
          rw [h0]; exact h.lo m (hrest m hm)
      · intro n hn
        obtain ⟨m, hm, rfl⟩ := List.mem_map.mp hn
        simp only
        rw [hshift m hm]
        have hp := h.pos m (hrest m hm)
        have h1 := (shiftTot_mono rest 0 s p2 m.off (m.off + m.size) b.buf (hin m hm) (by omega) (h.hi m (hrest m hm))).2
        rw [shiftTot_last rest 0 s p2 b.buf p5] at h1
        have h2 := h.hi m (hrest m hm)
        have h3 : shiftTot 0 s rest m.off ≤ m.off := by
          by_cases hx : s.first + s.second ≤ m.off
          · have := (shiftTot_bounds rest 0 s p2 m.off hx).2
            omega
          · rw [← hshift m hm, shiftOf_zero rest 0 s p2 _ (by omega)]; omega
        omega
      · rw [List.pairwise_map]
        refine hd2.imp_of_mem ?_
        intro m n hm hn hmn
        simp only
        rw [hshift m hm, hshift n hn]
        have hpm := h.pos m (hrest m hm)
        have hpn := h.pos n (hrest n hn)
        have hle : ∀ k ∈ pre ++ post, shiftTot 0 s rest k.off ≤ k.off := by
          intro k hk
          by_cases hx : s.first + s.second ≤ k.off
          · have := (shiftTot_bounds rest 0 s p2 k.off hx).2
            omega
          · rw [← hshift k hk, shiftOf_zero rest 0 s p2 _ (by omega)]; omega
        have hlm := hle m hm
        have hln := hle n hn
        rcases hmn with hmn | hmn
        · have := shiftTot_mono rest 0 s p2 m.off (m.off + m.size) n.off (hin m hm) (by omega) hmn
          omega
        · have := shiftTot_mono rest 0 s p2 n.off (n.off + n.size) m.off (hin n hn) (by omega) hmn
          omega
      · rw [List.map_map]
        have : (pre ++ post).map ((fun m => m.size) ∘ fun m => { m with off := m.off - shiftOf 0 s rest m.off }) =
            (pre ++ post).map (·.size) := List.map_congr_left fun _ _ => rfl
        rw [this]
        simp only
        omega
    · -- contents
      unfold entries
      simp only
      rw [c2, List.map_map]
      refine List.map_congr_left ?_
      intro m hm
      simp only [Function.comp_apply]
      refine Prod.ext rfl ?_
      simp only [item]
      refine slice_congr ?_
      intro i hi
      have hp := h.pos m (hrest m hm)
      obtain ⟨u, hu, hu1, hu2⟩ := hin m hm
      rcases List.mem_cons.mp hu with e | e
      · rw [← e, shiftOf_zero rest 0 u (e ▸ p2) _ (by omega), Nat.sub_zero, e]
        rw [c3 _ (by rw [← e]; omega)]
      · have h1 := c4 (m.off + i) ⟨u, e, by omega, by omega⟩
        have hsame : shiftOf 0 s rest (m.off + i) = shiftOf 0 s rest m.off := by
          have key : ∀ (rest : List Space) (req : Nat) (s : Space), SpSep (s :: rest) → u ∈ rest →
              shiftOf req s rest (m.off + i) = shiftOf req s rest m.off := by
            intro rest
            induction rest with
            | nil => intro _ _ _ hc; cases hc
            | cons t rest ih =>
              intro req s hsep hu'
              have h2 := (spSep_cons.mp hsep).2
              unfold shiftOf
              rcases List.mem_cons.mp hu' with e' | e'
              · subst e'
                rw [if_pos (by omega), if_pos (by omega)]
              · have := (spSep_cons.mp h2).1 u e'
                rw [if_neg (by omega), if_neg (by omega)]
                exact ih _ t h2 e'
          exact key rest 0 s p2 e
        rw [hsame] at h1
        have hle : shiftOf 0 s rest m.off ≤ m.off := by
          rw [hshift m hm]
          have := (spSep_cons.mp p2).1 u e
          have := (shiftTot_bounds rest 0 s p2 m.off (by omega)).2
          omega
        rw [← h1]
        exact congrArg _ (show m.off - shiftOf 0 s rest m.off + i = m.off + i - shiftOf 0 s rest m.off by omega)
    · show ((compact b.mem (pre ++ post) 0 s rest).2.1).map (·.key) = _
      rw [c2, List.map_map]
      exact List.map_congr_left fun _ _ => rfl
    · show b.buf - (compact b.mem (pre ++ post) 0 s rest).2.2 + _ = _
      rw [c1]
      omega

end Verif.Block
