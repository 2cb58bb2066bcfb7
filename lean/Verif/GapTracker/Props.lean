import Verif.GapTracker.Model
/-!
C14: the file space allocator.
-/
namespace Verif.GapTracker

/-- Byte `x` belongs to the range. -/
def Gap.has (g : Gap) (x : Nat) : Prop := g.off ≤ x ∧ x < g.off + g.size

/-- Byte `x` is free. -/
def Free (gaps : List Gap) (x : Nat) : Prop := ∃ g ∈ gaps, g.has x

/-- Two ranges have no byte in common. -/
def Gap.disjoint (a b : Gap) : Prop := ∀ x, ¬ (a.has x ∧ b.has x)

/-- Free ranges are non-empty, sorted, and do not touch each other. -/
def Sep (gaps : List Gap) : Prop := (∀ g ∈ gaps, 0 < g.size) ∧ gaps.Pairwise fun a b => a.off + a.size < b.off

/-! ### helper lemmas -/

theorem free_nil (x : Nat) : ¬ Free [] x := by rintro ⟨g, h, _⟩; cases h

theorem free_cons (g : Gap) (gs : List Gap) (x : Nat) : Free (g :: gs) x ↔ g.has x ∨ Free gs x := by
  simp [Free]

theorem sep_cons {g : Gap} {gs : List Gap} : Sep (g :: gs) ↔ 0 < g.size ∧ (∀ h ∈ gs, g.off + g.size < h.off) ∧ Sep gs := by
  simp only [Sep, List.mem_cons, forall_eq_or_imp, List.pairwise_cons]
  constructor
  · rintro ⟨⟨a, b⟩, c, d⟩; exact ⟨a, c, b, d⟩
  · rintro ⟨a, c, b, d⟩; exact ⟨⟨a, b⟩, c, d⟩

theorem findGap_ok {size : Nat} (h0 : 0 < size) : ∀ {gaps : List Gap} {r : Nat} {gaps' : List Gap}, Sep gaps →
    findGap size gaps = some (r, gaps') →
    Sep gaps' ∧ (∀ x, Free gaps' x ↔ Free gaps x ∧ ¬ (⟨r, size⟩ : Gap).has x) ∧
    (∀ x, (⟨r, size⟩ : Gap).has x → Free gaps x) ∧ (∀ b, (∀ g ∈ gaps, b < g.off) → ∀ g ∈ gaps', b < g.off) := by
  intro gaps
  induction gaps with
  | nil => intro r gaps' _ h; cases h
  | cons g gs ih =>
    intro r gaps' hs h
    obtain ⟨h1, h2, h3⟩ := sep_cons.mp hs
    have hlater : ∀ x, Free gs x → g.off + g.size < x := by
      rintro x ⟨k, hk, hx⟩; have := h2 k hk; have := hx.1; omega
    unfold findGap at h
    split at h
    · next hle =>
      simp only [Option.some.injEq, Prod.mk.injEq] at h
      obtain ⟨rfl, hg⟩ := h
      have hfit : ∀ x, (⟨g.off, size⟩ : Gap).has x → Free (g :: gs) x := by
        intro x hx
        rw [free_cons]
        left
        exact ⟨hx.1, by have := hx.2; simp only at this; omega⟩
      split at hg
      · next he =>
        subst hg
        refine ⟨h3, ?_, hfit, fun b hb k hk => hb k (List.mem_cons_of_mem _ hk)⟩
        intro x
        rw [free_cons]
        constructor
        · intro hx; refine ⟨Or.inr hx, ?_⟩
          intro hc; have := hlater x hx; have := hc.2; simp only at this; omega
        · rintro ⟨hx | hx, hn⟩
          · exact absurd ⟨hx.1, by have := hx.2; simp only; omega⟩ hn
          · exact hx
      · next he =>
        subst hg
        refine ⟨sep_cons.mpr ⟨by simp only; omega, ?_, h3⟩, ?_, hfit, ?_⟩
        · intro k hk; have := h2 k hk; simp only; omega
        · intro x
          rw [free_cons, free_cons]
          constructor
          · rintro (hx | hx)
            · refine ⟨Or.inl ⟨by have := hx.1; simp only at this; omega, by have := hx.2; simp only at this; omega⟩, ?_⟩
              intro hc; have := hc.2; have := hx.1; simp only at *; omega
            · refine ⟨Or.inr hx, ?_⟩
              intro hc; have := hlater x hx; have := hc.2; simp only at this; omega
          · rintro ⟨hx | hx, hn⟩
            · left
              have : ¬ x < g.off + size := fun hlt => hn ⟨hx.1, hlt⟩
              exact ⟨by simp only; omega, by have := hx.2; simp only; omega⟩
            · exact Or.inr hx
        · intro b hb k hk
          rcases List.mem_cons.mp hk with hk | hk
          · subst hk; have := hb g (List.mem_cons_self ..); simp only; omega
          · exact hb k (List.mem_cons_of_mem _ hk)
    · next hle =>
      cases hf : findGap size gs with
      | none => rw [hf] at h; cases h
      | some p =>
        obtain ⟨r', gs'⟩ := p
        rw [hf] at h
        simp only [Option.map_some, Option.some.injEq, Prod.mk.injEq] at h
        obtain ⟨rfl, rfl⟩ := h
        obtain ⟨i1, i2, i3, i4⟩ := ih h3 hf
        refine ⟨sep_cons.mpr ⟨h1, i4 _ h2, i1⟩, ?_, ?_, ?_⟩
        · intro x
          rw [free_cons, free_cons, i2]
          constructor
          · rintro (hx | hx)
            · refine ⟨Or.inl hx, ?_⟩
              intro hc
              have := hlater _ (i3 x hc)
              have := hx.2; omega
            · exact ⟨Or.inr hx.1, hx.2⟩
          · rintro ⟨hx | hx, hn⟩
            · exact Or.inl hx
            · exact Or.inr ⟨hx, hn⟩
        · intro x hx; rw [free_cons]; exact Or.inr (i3 x hx)
        · intro b hb k hk
          rcases List.mem_cons.mp hk with hk | hk
          · subst hk; exact hb _ (List.mem_cons_self ..)
          · exact i4 b (fun q hq => hb q (List.mem_cons_of_mem _ hq)) k hk

/-- Sorted without overlap, possibly touching. -/
def WeakSep (gaps : List Gap) : Prop := (∀ g ∈ gaps, 0 < g.size) ∧ gaps.Pairwise fun a b => a.off + a.size ≤ b.off

theorem weak_cons {g : Gap} {gs : List Gap} :
    WeakSep (g :: gs) ↔ 0 < g.size ∧ (∀ h ∈ gs, g.off + g.size ≤ h.off) ∧ WeakSep gs := by
  simp only [WeakSep, List.mem_cons, forall_eq_or_imp, List.pairwise_cons]
  constructor
  · rintro ⟨⟨a, b⟩, c, d⟩; exact ⟨a, c, b, d⟩
  · rintro ⟨a, c, b, d⟩; exact ⟨⟨a, b⟩, c, d⟩

theorem insertGap_mem {r g : Gap} : ∀ {gaps : List Gap}, g ∈ insertGap r gaps ↔ g = r ∨ g ∈ gaps := by
  intro gaps
  induction gaps with
  | nil => simp [insertGap]
  | cons h hs ih =>
    unfold insertGap
    split
    · simp
    · simp only [List.mem_cons, ih]
      constructor
      · rintro (a | a | a)
        · exact Or.inr (Or.inl a)
        · exact Or.inl a
        · exact Or.inr (Or.inr a)
      · rintro (a | a | a)
        · exact Or.inr (Or.inl a)
        · exact Or.inl a
        · exact Or.inr (Or.inr a)

theorem insertGap_weak {r : Gap} (h0 : 0 < r.size) : ∀ {gaps : List Gap}, Sep gaps → (∀ x, r.has x → ¬ Free gaps x) →
    WeakSep (insertGap r gaps) := by
  intro gaps
  induction gaps with
  | nil => intro _ _; exact weak_cons.mpr ⟨h0, by simp, by simp [WeakSep]⟩
  | cons g gs ih =>
    intro hs hd
    obtain ⟨h1, h2, h3⟩ := sep_cons.mp hs
    have hd2 : ∀ x, r.has x → ¬ Free gs x := fun x hx hf => hd x hx ((free_cons ..).mpr (Or.inr hf))
    have hdg : ∀ x, r.has x → ¬ g.has x := fun x hx hf => hd x hx ((free_cons ..).mpr (Or.inl hf))
    unfold insertGap
    split
    · next hlt =>
      have hend : r.off + r.size ≤ g.off := by
        rcases Nat.lt_or_ge g.off (r.off + r.size) with h | h
        · exact absurd ⟨Nat.le_refl _, by omega⟩ (hdg g.off ⟨by omega, h⟩)
        · exact h
      refine weak_cons.mpr ⟨h0, ?_, weak_cons.mpr ⟨h1, fun k hk => by have := h2 k hk; omega, ?_⟩⟩
      · intro k hk
        rcases List.mem_cons.mp hk with hk | hk
        · subst hk; exact hend
        · have := h2 k hk; omega
      · exact ⟨h3.1, h3.2.imp (by intro a b h; omega)⟩
    · next hlt =>
      have hend : g.off + g.size ≤ r.off := by
        rcases Nat.lt_or_ge r.off (g.off + g.size) with h | h
        · exact absurd ⟨by omega, h⟩ (hdg r.off ⟨Nat.le_refl _, by omega⟩)
        · exact h
      refine weak_cons.mpr ⟨h1, ?_, ih h3 hd2⟩
      intro k hk
      rcases insertGap_mem.mp hk with hk | hk
      · subst hk; exact hend
      · have := h2 k hk; omega

theorem cleanGaps_ok : ∀ (n : Nat) (gaps : List Gap), gaps.length ≤ n → WeakSep gaps →
    Sep (cleanGaps gaps) ∧ (∀ x, Free (cleanGaps gaps) x ↔ Free gaps x) ∧
    (∀ b, (∀ g ∈ gaps, b < g.off) → ∀ g ∈ cleanGaps gaps, b < g.off) := by
  intro n
  induction n with
  | zero =>
    intro gaps hl _
    cases gaps with
    | nil => simp [cleanGaps, Sep]
    | cons _ _ => simp at hl
  | succ n ih =>
    intro gaps hl hw
    match gaps, hl, hw with
    | [], _, _ => simp [cleanGaps, Sep]
    | [g], _, hw =>
      have e : cleanGaps [g] = [g] := rfl
      rw [e]
      exact ⟨⟨hw.1, by simp⟩, fun _ => Iff.rfl, fun b hb => hb⟩
    | g :: h :: rest, hl, hw =>
      obtain ⟨w1, w2, w3⟩ := weak_cons.mp hw
      obtain ⟨v1, v2, v3⟩ := weak_cons.mp w3
      have e : cleanGaps (g :: h :: rest) = if g.off + g.size = h.off then cleanGaps (⟨g.off, g.size + h.size⟩ :: rest)
          else g :: cleanGaps (h :: rest) := rfl
      rw [e]
      split
      · next he =>
        obtain ⟨i1, i2, i3⟩ := ih (⟨g.off, g.size + h.size⟩ :: rest) (by simp only [List.length_cons] at *; omega)
          (weak_cons.mpr ⟨by simp only; omega, fun k hk => by have := v2 k hk; simp only; omega, v3⟩)
        refine ⟨i1, ?_, ?_⟩
        · intro x
          rw [i2, free_cons, free_cons, free_cons]
          simp only [Gap.has]
          constructor
          · rintro (hx | hx)
            · by_cases hc : x < h.off
              · exact Or.inl (by omega)
              · exact Or.inr (Or.inl (by omega))
            · exact Or.inr (Or.inr hx)
          · rintro (hx | hx | hx)
            · exact Or.inl (by omega)
            · exact Or.inl (by omega)
            · exact Or.inr hx
        · intro b hb
          refine i3 b ?_
          intro k hk
          rcases List.mem_cons.mp hk with hk | hk
          · subst hk; exact hb g (List.mem_cons_self ..)
          · exact hb k (List.mem_cons_of_mem _ (List.mem_cons_of_mem _ hk))
      · next he =>
        obtain ⟨i1, i2, i3⟩ := ih (h :: rest) (by simp only [List.length_cons] at *; omega) w3
        refine ⟨sep_cons.mpr ⟨w1, i3 _ ?_, i1⟩, ?_, ?_⟩
        · intro k hk
          rcases List.mem_cons.mp hk with hk | hk
          · subst hk; have := w2 k (List.mem_cons_self ..); omega
          · have := w2 h (List.mem_cons_self ..); have := v2 k hk; omega
        · intro x; rw [free_cons, free_cons, i2]
        · intro b hb k hk
          rcases List.mem_cons.mp hk with hk | hk
          · subst hk; exact hb _ (List.mem_cons_self ..)
          · exact i3 b (fun q hq => hb q (List.mem_cons_of_mem _ hq)) k hk

theorem removeGap_ok {r : Gap} (h0 : 0 < r.size) {gaps : List Gap} (hs : Sep gaps) (hd : ∀ x, r.has x → ¬ Free gaps x) :
    Sep (removeGap r gaps) ∧ ∀ x, Free (removeGap r gaps) x ↔ Free gaps x ∨ r.has x := by
  obtain ⟨h1, h2, _⟩ := cleanGaps_ok _ _ (Nat.le_refl _) (insertGap_weak h0 hs hd)
  refine ⟨h1, fun x => ?_⟩
  unfold removeGap
  rw [h2]
  constructor
  · rintro ⟨g, hg, hx⟩
    rcases insertGap_mem.mp hg with hg | hg
    · subst hg; exact Or.inr hx
    · exact Or.inl ⟨g, hg, hx⟩
  · rintro (⟨g, hg, hx⟩ | hx)
    · exact ⟨g, insertGap_mem.mpr (Or.inr hg), hx⟩
    · exact ⟨r, insertGap_mem.mpr (Or.inl rfl), hx⟩

/-- What holds in every state of a client that uses the tracker correctly. -/
structure Inv (min max : Nat) (s : State) : Prop where
  sep : Sep s.gaps
  pos : ∀ r ∈ s.live, 0 < r.size
  live : s.live.Pairwise Gap.disjoint
  free : ∀ x, Free s.gaps x ↔ (min ≤ x ∧ x < max) ∧ ∀ r ∈ s.live, ¬ r.has x
  inside : ∀ r ∈ s.live, min ≤ r.off ∧ r.off + r.size ≤ max

theorem disjoint_symm {a b : Gap} (h : a.disjoint b) : b.disjoint a := fun x hx => h x ⟨hx.2, hx.1⟩

theorem step_inv {min max : Nat} {s : State} (h : Inv min max s) {op : Op} (hl : Legal s op) : Inv min max (step s op) := by
  cases op with
  | alloc size =>
    simp only [step]
    cases hf : findGap size s.gaps with
    | none => exact h
    | some p =>
      obtain ⟨r, gaps'⟩ := p
      obtain ⟨h1, h2, h3, _⟩ := findGap_ok hl h.sep hf
      simp only
      refine ⟨h1, ?_, ?_, ?_, ?_⟩
      · intro q hq
        rcases List.mem_cons.mp hq with hq | hq
        · subst hq; exact hl
        · exact h.pos q hq
      · refine List.pairwise_cons.mpr ⟨?_, h.live⟩
        intro q hq x ⟨hx, hy⟩
        exact ((h.free x).mp (h3 x hx)).2 q hq hy
      · intro x
        rw [h2, h.free]
        simp only [List.mem_cons, forall_eq_or_imp]
        constructor
        · rintro ⟨⟨a, b⟩, c⟩; exact ⟨a, c, b⟩
        · rintro ⟨a, c, b⟩; exact ⟨⟨a, b⟩, c⟩
      · intro q hq
        rcases List.mem_cons.mp hq with hq | hq
        · subst hq
          have hl' : 0 < size := hl
          have a := ((h.free r).mp (h3 r ⟨Nat.le_refl _, by simp only; omega⟩)).1
          have b := ((h.free (r + size - 1)).mp (h3 (r + size - 1) ⟨by simp only; omega, by simp only; omega⟩)).1
          exact ⟨a.1, by simp only; omega⟩
        · exact h.inside q hq
  | release r =>
    have hr : r ∈ s.live := hl
    have hd : ∀ x, r.has x → ¬ Free s.gaps x := fun x hx hf => ((h.free x).mp hf).2 r hr hx
    obtain ⟨h1, h2⟩ := removeGap_ok (h.pos r hr) h.sep hd
    have hperm : s.live.Perm (r :: s.live.erase r) := List.perm_cons_erase hr
    have hpw : (r :: s.live.erase r).Pairwise Gap.disjoint :=
      (hperm.pairwise_iff (fun hab => disjoint_symm hab)).mp h.live
    obtain ⟨hp1, hp2⟩ := List.pairwise_cons.mp hpw
    have hmem : ∀ q, q ∈ s.live.erase r → q ∈ s.live := fun q hq => List.mem_of_mem_erase hq
    refine ⟨h1, fun q hq => h.pos q (hmem q hq), hp2, ?_, fun q hq => h.inside q (hmem q hq)⟩
    intro x
    simp only [step]
    rw [h2, h.free]
    constructor
    · rintro (⟨a, b⟩ | hx)
      · exact ⟨a, fun q hq => b q (hmem q hq)⟩
      · refine ⟨?_, fun q hq hqx => hp1 q hq x ⟨hx, hqx⟩⟩
        have := h.inside r hr
        have := hx.1; have := hx.2
        omega
    · rintro ⟨a, b⟩
      by_cases hx : r.has x
      · exact Or.inr hx
      · refine Or.inl ⟨a, ?_⟩
        intro q hq hqx
        rcases List.mem_cons.mp (hperm.mem_iff.mp hq) with e | e
        · subst e; exact hx hqx
        · exact b q e hqx

theorem run_inv {min max : Nat} : ∀ (ops : List Op) {s : State}, Inv min max s → LegalHist s ops → Inv min max (run s ops) := by
  intro ops
  induction ops with
  | nil => intro s h _; exact h
  | cons op ops ih => intro s h hl; exact ih (step_inv h hl.1) hl.2

theorem start_inv {min max : Nat} (h : min < max) : Inv min max (start min max) := by
  refine ⟨?_, ?_, ?_, ?_, ?_⟩
  · refine sep_cons.mpr ⟨by simp only; omega, by simp, by simp [Sep]⟩
  · intro r hr; cases hr
  · exact List.Pairwise.nil
  · intro x
    simp only [start, init, free_cons, Gap.has]
    constructor
    · rintro (hx | hx)
      · exact ⟨by omega, fun r hr => by cases hr⟩
      · exact absurd hx (free_nil x)
    · rintro ⟨hx, _⟩; exact Or.inl (by omega)
  · intro r hr; cases hr

/-! ## C14 -/

/-- C14: at every point of every history of allocations and releases, an allocation returns a range
inside the file's space that has no byte in common with any range in use. -/
theorem C14_no_overlap {min max : Nat} (hm : min < max) {ops : List Op} (hl : LegalHist (start min max) ops)
    {size off : Nat} {gaps : List Gap} (hs : 0 < size)
    (ha : findGap size (run (start min max) ops).gaps = some (off, gaps)) :
    (∀ r ∈ (run (start min max) ops).live, r.disjoint ⟨off, size⟩) ∧ min ≤ off ∧ off + size ≤ max := by
  have h := run_inv ops (start_inv hm) hl
  have h' := step_inv (op := .alloc size) h hs
  simp only [step, ha] at h'
  refine ⟨fun r hr => disjoint_symm ((List.pairwise_cons.mp h'.live).1 r hr), h'.inside _ (List.mem_cons_self ..)⟩

/-- C14: the ranges in use never overlap each other. -/
theorem C14_live_disjoint {min max : Nat} (hm : min < max) {ops : List Op} (hl : LegalHist (start min max) ops) :
    (run (start min max) ops).live.Pairwise Gap.disjoint :=
  (run_inv ops (start_inv hm) hl).live

/-- C14: a byte is free exactly when no range in use contains it (so releasing a range makes exactly its
bytes reusable, and no space is ever lost). -/
theorem C14_free_exact {min max : Nat} (hm : min < max) {ops : List Op} (hl : LegalHist (start min max) ops) (x : Nat) :
    Free (run (start min max) ops).gaps x ↔
      (min ≤ x ∧ x < max) ∧ ∀ r ∈ (run (start min max) ops).live, ¬ r.has x :=
  (run_inv ops (start_inv hm) hl).free x

/-- C14: free ranges are kept sorted and coalesced: no two of them touch. -/
theorem C14_coalesced {min max : Nat} (hm : min < max) {ops : List Op} (hl : LegalHist (start min max) ops) :
    (run (start min max) ops).gaps.Pairwise fun a b => a.off + a.size < b.off :=
  (run_inv ops (start_inv hm) hl).sep.2

theorem run_in_gap {gaps : List Gap} (hs : Sep gaps) (x : Nat) : ∀ n, (∀ y, x ≤ y → y < x + (n + 1) → Free gaps y) →
    ∃ g ∈ gaps, g.off ≤ x ∧ x + (n + 1) ≤ g.off + g.size := by
  intro n
  induction n with
  | zero =>
    intro h
    obtain ⟨g, hg, hx⟩ := h x (Nat.le_refl _) (by omega)
    exact ⟨g, hg, hx.1, by have := hx.2; omega⟩
  | succ n ih =>
    intro h
    obtain ⟨g, hg, h1, h2⟩ := ih (fun y hy hy' => h y hy (by omega))
    obtain ⟨k, hk, hx⟩ := h (x + (n + 1)) (by omega) (by omega)
    rcases Nat.lt_or_ge (x + (n + 1)) (g.off + g.size) with hlt | hge
    · exact ⟨g, hg, h1, by omega⟩
    · -- the next byte would have to start another range, touching `g`
      exfalso
      have hkoff : g.off + g.size < k.off ∨ k.off + k.size < g.off ∨ g = k := by
        have hp := hs.2
        clear ih h hx h1 h2 hge
        have hp1 := hs.1
        clear hs
        induction gaps with
        | nil => cases hg
        | cons a as iha =>
          obtain ⟨p1, p2⟩ := List.pairwise_cons.mp hp
          rcases List.mem_cons.mp hg with hg' | hg'
          · rcases List.mem_cons.mp hk with hk' | hk'
            · exact Or.inr (Or.inr (by rw [hg', hk']))
            · rw [hg']; exact Or.inl (p1 k hk')
          · rcases List.mem_cons.mp hk with hk' | hk'
            · rw [hk']; exact Or.inr (Or.inl (p1 g hg'))
            · exact iha hg' hk' p2 (fun q hq => hp1 q (List.mem_cons_of_mem _ hq))
      have := hx.1; have := hx.2
      rcases hkoff with h' | h' | h'
      · omega
      · omega
      · subst h'; omega

/-- C14: an allocation is refused only if there is no contiguous free range of that size. -/
theorem C14_complete {min max : Nat} (hm : min < max) {ops : List Op} (hl : LegalHist (start min max) ops)
    {size : Nat} (hs : 0 < size) (hn : findGap size (run (start min max) ops).gaps = none) :
    ¬ ∃ x, min ≤ x ∧ x + size ≤ max ∧ ∀ r ∈ (run (start min max) ops).live, r.disjoint ⟨x, size⟩ := by
  rintro ⟨x, hx1, hx2, hd⟩
  have h := run_inv ops (start_inv hm) hl
  have hfree : ∀ y, x ≤ y → y < x + (size - 1 + 1) → Free (run (start min max) ops).gaps y := by
    intro y hy hy'
    rw [h.free]
    refine ⟨by omega, fun r hr hry => hd r hr y ⟨hry, hy, by simp only; omega⟩⟩
  obtain ⟨g, hg, h1, h2⟩ := run_in_gap h.sep x (size - 1) hfree
  have hbig : size ≤ g.size := by omega
  have : ∀ gaps : List Gap, findGap size gaps = none → ∀ g ∈ gaps, ¬ size ≤ g.size := by
    intro gaps
    induction gaps with
    | nil => intro _ g hg; cases hg
    | cons a as ih =>
      intro hn g hg
      unfold findGap at hn
      split at hn
      · cases hn
      · next ha =>
        rw [Option.map_eq_none_iff] at hn
        rcases List.mem_cons.mp hg with hg | hg
        · subst hg; exact ha
        · exact ih hn g hg
  exact this _ hn g hg hbig

/-! Non-vacuity: a fragmented file. -/

def sampleOps : List Op := [.alloc 10, .alloc 20, .alloc 30, .release ⟨110, 20⟩, .alloc 5, .release ⟨100, 10⟩]

example : LegalHist (start 100 1000) sampleOps := by
  refine ⟨?_, ?_, ?_, ?_, ?_, ?_, trivial⟩ <;> simp only [Legal] <;> decide
example : (run (start 100 1000) sampleOps).gaps = [⟨100, 10⟩, ⟨115, 15⟩, ⟨160, 840⟩] := by decide
example : (run (start 100 1000) [.alloc 10, .alloc 20, .alloc 30, .release ⟨110, 20⟩]).gaps = [⟨110, 20⟩, ⟨160, 840⟩] := by decide
example : findGap 25 [⟨110, 20⟩, ⟨160, 840⟩] = some (160, [⟨110, 20⟩, ⟨185, 815⟩]) := by decide
/-- Releasing between two free ranges joins all three. -/
example : removeGap ⟨110, 20⟩ [⟨100, 10⟩, ⟨130, 5⟩] = [⟨100, 35⟩] := by
  decide

end Verif.GapTracker
