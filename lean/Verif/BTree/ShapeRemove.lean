import Verif.BTree.Shape
/-!
Helper lemmas about the levels of inner nodes: removal of a child.
-/
namespace Verif.BTree
open Verif.Seg
set_option linter.unusedSectionVars false
variable {K : Type} [LinearOrder K] [BoundedOrder K]

/-- Nodes in key order. -/
structure BS (bs : List (K × K)) : Prop where
  own : ∀ b ∈ bs, b.1 ≤ b.2
  next : bs.Pairwise (fun a b => a.2 < b.1)

theorem BS.append {a b : List (K × K)} (h : BS (a ++ b)) : BS a ∧ BS b ∧ ∀ x ∈ a, ∀ y ∈ b, x.2 < y.1 := by
  obtain ⟨h1, h2, h3⟩ := List.pairwise_append.mp h.next
  exact ⟨⟨fun x hx => h.own x (List.mem_append_left _ hx), h1⟩, ⟨fun x hx => h.own x (List.mem_append_right _ hx), h2⟩, h3⟩

theorem groupBounds_length (cs : List Nat) (bs : List (K × K)) : (groupBounds cs bs).length = cs.length := by
  unfold groupBounds
  rw [List.length_map, chunks_length]

theorem groupBounds_cons {c : Nat} {cs : List Nat} {B R : List (K × K)} (hb : B.length = c) :
    groupBounds (c :: cs) (B ++ R) = ((B.head?.map Prod.fst).getD ⊥, (B.getLast?.map Prod.snd).getD ⊤) :: groupBounds cs R := by
  unfold groupBounds
  rw [chunks_cons hb]
  rfl

theorem groupBounds_mem : ∀ (cs : List Nat) (bs : List (K × K)), (∀ c ∈ cs, 0 < c) → cs.sum = bs.length →
    ∀ g ∈ groupBounds cs bs, (∃ b ∈ bs, g.1 = b.1) ∧ ∃ b ∈ bs, g.2 = b.2 := by
  intro cs
  induction cs with
  | nil => intro bs _ _ g hg; cases hg
  | cons c cs ih =>
    intro bs hpos hlen g hg
    rw [List.sum_cons] at hlen
    obtain ⟨B, R, rfl, hB, hR⟩ := split_at (show bs.length = c + cs.sum by omega)
    rw [groupBounds_cons hB] at hg
    rcases List.mem_cons.mp hg with rfl | hg
    · have hc := hpos c (List.mem_cons_self ..)
      have hne : B ≠ [] := by rintro rfl; rw [List.length_nil] at hB; omega
      constructor
      · refine ⟨B.head hne, List.mem_append_left _ (List.head_mem hne), ?_⟩
        rw [List.head?_eq_some_head hne]; rfl
      · refine ⟨B.getLast hne, List.mem_append_left _ (List.getLast_mem hne), ?_⟩
        rw [List.getLast?_eq_some_getLast hne]; rfl
    · obtain ⟨⟨b1, h1, h2⟩, b2, h3, h4⟩ := ih R (fun d hd => hpos d (List.mem_cons_of_mem _ hd)) hR.symm g hg
      exact ⟨⟨b1, List.mem_append_right _ h1, h2⟩, b2, List.mem_append_right _ h3, h4⟩

theorem bs_group : ∀ (cs : List Nat) (bs : List (K × K)), (∀ c ∈ cs, 0 < c) → cs.sum = bs.length → BS bs →
    BS (groupBounds cs bs) := by
  intro cs
  induction cs with
  | nil => intro bs _ _ _; exact ⟨fun b hb => absurd hb List.not_mem_nil, List.Pairwise.nil⟩
  | cons c cs ih =>
    intro bs hpos hlen h
    rw [List.sum_cons] at hlen
    obtain ⟨B, R, rfl, hB, hR⟩ := split_at (show bs.length = c + cs.sum by omega)
    obtain ⟨hb, hr, hbr⟩ := h.append
    have hposr : ∀ d ∈ cs, 0 < d := fun d hd => hpos d (List.mem_cons_of_mem _ hd)
    have hih := ih R hposr hR.symm hr
    rw [groupBounds_cons hB]
    have hc := hpos c (List.mem_cons_self ..)
    have hne : B ≠ [] := by rintro rfl; rw [List.length_nil] at hB; omega
    rw [List.head?_eq_some_head hne, List.getLast?_eq_some_getLast hne]
    show BS (((B.head hne).1, (B.getLast hne).2) :: groupBounds cs R)
    constructor
    · intro b hbm
      rcases List.mem_cons.mp hbm with rfl | hbm
      · show (B.head hne).1 ≤ (B.getLast hne).2
        cases B with
        | nil => exact absurd rfl hne
        | cons x B =>
          rw [List.head_cons]
          by_cases hB0 : B = []
          · subst hB0; exact hb.own x (List.mem_singleton.mpr rfl)
          · rw [List.getLast_cons hB0]
            have h1 := (List.pairwise_cons.mp hb.next).1 (B.getLast hB0) (List.getLast_mem hB0)
            exact le_trans (hb.own x (List.mem_cons_self ..)) (le_trans (le_of_lt h1)
              (hb.own _ (List.mem_cons_of_mem _ (List.getLast_mem hB0))))
      · exact hih.own b hbm
    · refine List.pairwise_cons.mpr ⟨?_, hih.next⟩
      intro g hg
      obtain ⟨⟨b1, h1, h2⟩, _⟩ := groupBounds_mem cs R hposr hR.symm g hg
      show (B.getLast hne).2 < g.1
      rw [h2]
      exact hbr _ (List.getLast_mem hne) b1 h1

/-- A list cut at the place of a middle element of another list of the same length. -/
theorem align {α β : Type} {P Q : List α} {c : α} {l : List β} (h : l.length = (P ++ c :: Q).length) :
    ∃ L x R, l = L ++ x :: R ∧ L.length = P.length ∧ R.length = Q.length := by
  rw [List.length_append, List.length_cons] at h
  obtain ⟨L, R, rfl, h1, h2⟩ := split_at (show l.length = P.length + (Q.length + 1) by omega)
  cases R with
  | nil => simp at h2
  | cons x R => exact ⟨L, x, R, rfl, h1, by simpa using h2⟩

theorem last_cases {α : Type} (l : List α) : l = [] ∨ ∃ l' a, l = l' ++ [a] := by
  by_cases h : l = []
  · exact Or.inl h
  · exact Or.inr ⟨l.dropLast, l.getLast h, (List.dropLast_append_getLast h).symm⟩

theorem get_mid_succ {α : Type} {P Q : List α} {c : α} {n : Nat} (hn : n = P.length) : (P ++ c :: Q)[n + 1]? = Q.head? := by
  subst hn
  rw [List.getElem?_append_right (by omega), show P.length + 1 - P.length = 0 + 1 by omega, List.getElem?_cons_succ]
  cases Q <;> rfl

theorem get_mid_pred {α : Type} {P Q : List α} {c l : α} {n : Nat} (hn : n = P.length + 1) :
    ((P ++ [l]) ++ c :: Q)[n - 1]? = some l := by
  subst hn
  rw [List.append_assoc]
  exact get_mid

theorem removeUp_ok {mx : Nat} (h12 : 12 ≤ mx) : ∀ (lv : List (List Nat)) (bs : List (K × K)) (i n : Nat), lv ≠ [] → Shape mx lv n →
    bs.length + 1 = n → BS bs → i < n → ∃ lv', removeUp mx lv bs i = some lv' ∧ Shape mx lv' (n - 1) := by
  intro lv
  induction lv with
  | nil => intro bs i n h; exact absurd rfl h
  | cons cs up ih =>
    intro bs i n _ h hlen hbs hi
    have h2c := h.two h12
    obtain ⟨hsum, hmx, hmn, hup⟩ := h
    obtain ⟨P, c, Q, rfl, hP1, hP2, hown⟩ := owner_split cs i (by omega)
    have hcm : c ∈ P ++ c :: Q := by simp
    have hc2 := h2c c hcm
    have hcx := hmx c hcm
    have hcn := hmn c hcm
    have hP2c : ∀ d ∈ P, 2 ≤ d := fun d hd => h2c d (List.mem_append_left _ hd)
    have hQ2c : ∀ d ∈ Q, 2 ≤ d := fun d hd => h2c d (List.mem_append_right _ (List.mem_cons_of_mem _ hd))
    have hPx : ∀ d ∈ P, d ≤ mx := fun d hd => hmx d (List.mem_append_left _ hd)
    have hQx : ∀ d ∈ Q, d ≤ mx := fun d hd => hmx d (List.mem_append_right _ (List.mem_cons_of_mem _ hd))
    rw [List.sum_append, List.sum_cons] at hsum
    conv => enter [1, lv', 1, 1]; unfold removeUp
    simp only [hown, get_mid, Option.getD_some, set_mid]
    by_cases hc1 : c - 1 = 1
    · -- the root loses all but one child
      rw [if_pos hc1]
      by_cases hu : up = []
      · subst hu
        have h1 : (P ++ c :: Q).length = 1 := hup
        rw [List.length_append, List.length_cons] at h1
        have hP : P = [] := List.length_eq_zero_iff.mp (by omega)
        have hQ : Q = [] := List.length_eq_zero_iff.mp (by omega)
        subst hP hQ
        refine ⟨[], rfl, ?_⟩
        show n - 1 = 1
        simp at hsum
        omega
      · rw [if_neg hu] at hcn
        omega
    · rw [if_neg hc1]
      by_cases hsafe : up.isEmpty = true ∨ mx / 4 < c
      · rw [if_pos hsafe]
        refine ⟨_, rfl, ?_, ?_, ?_, ?_⟩
        · rw [List.sum_append, List.sum_cons]; omega
        · intro d hd
          rcases List.mem_append.mp hd with hd | hd
          · exact hPx d hd
          · rcases List.mem_cons.mp hd with rfl | hd
            · omega
            · exact hQx d hd
        · intro d hd
          rcases List.mem_append.mp hd with hd | hd
          · exact hmn d (List.mem_append_left _ hd)
          · rcases List.mem_cons.mp hd with rfl | hd
            · by_cases hu : up = []
              · rw [if_pos hu]; omega
              · rw [if_neg hu]
                rcases hsafe with hs | hs
                · exact absurd (List.isEmpty_iff.mp hs) hu
                · omega
            · exact hmn d (List.mem_append_right _ (List.mem_cons_of_mem _ hd))
        · have : (P ++ (c - 1) :: Q).length = (P ++ c :: Q).length := by simp
          rw [this]; exact hup
      · rw [if_neg hsafe]
        have hune : up ≠ [] := fun hu => hsafe (Or.inl (by rw [hu]; rfl))
        have hceq : c = mx / 4 := by
          rw [if_neg hune] at hcn
          have : ¬ mx / 4 < c := fun hh => hsafe (Or.inr hh)
          omega
        have hPn : ∀ d ∈ P, mx / 4 ≤ d := fun d hd => by
          have := hmn d (List.mem_append_left _ hd)
          rwa [if_neg hune] at this
        have hQn : ∀ d ∈ Q, mx / 4 ≤ d := fun d hd => by
          have := hmn d (List.mem_append_right _ (List.mem_cons_of_mem _ hd))
          rwa [if_neg hune] at this
        have hlen2 : 2 ≤ (P ++ c :: Q).length := (shape_pos h12 up _ hup).2 hune
        rw [List.length_append, List.length_cons] at hlen2
        have hsum' : (P ++ (c - 1) :: Q).sum = bs.length := by rw [List.sum_append, List.sum_cons]; omega
        have hpos' : ∀ d ∈ P ++ (c - 1) :: Q, 0 < d := by
          intro d hd
          rcases List.mem_append.mp hd with hd | hd
          · have := hP2c d hd; omega
          · rcases List.mem_cons.mp hd with rfl | hd
            · omega
            · have := hQ2c d hd; omega
        have hnb := bs_group _ bs hpos' hsum' hbs
        obtain ⟨NP, cur, NQ, hnbe, hNP, hNQ⟩ := align (l := groupBounds (P ++ (c - 1) :: Q) bs) (P := P) (c := c - 1) (Q := Q)
          (groupBounds_length _ _)
        rw [hnbe] at hnb ⊢
        obtain ⟨hNPs, hcQ, hPcQ⟩ := hnb.append
        have hget : (NP ++ cur :: NQ)[P.length]? = some cur := by rw [← hNP]; exact get_mid
        simp only [hget, Option.getD_some, get_mid_succ (rfl : P.length = P.length), get_mid_succ hNP.symm]
        -- shapes of the results
        have merged : ∀ (cs2 : List Nat), cs2.sum = n - 1 → (∀ d ∈ cs2, d ≤ mx ∧ mx / 4 ≤ d) → cs2.length + 1 = (P ++ c :: Q).length →
            ∃ lv', Option.map (fun x => cs2 :: x) (removeUp mx up (groupBounds cs2 bs) P.length) = some lv' ∧ Shape mx lv' (n - 1) := by
          intro cs2 hs2 hb2 hl2
          obtain ⟨lv', e1, e2⟩ := ih (groupBounds cs2 bs) P.length (P ++ c :: Q).length hune hup
            (by rw [groupBounds_length]; exact hl2)
            (bs_group cs2 bs (fun d hd => by have := (hb2 d hd).2; omega) (by omega) hbs)
            (by rw [List.length_append, List.length_cons]; omega)
          rw [e1]
          refine ⟨_, rfl, hs2, fun d hd => (hb2 d hd).1, ?_, ?_⟩
          · intro d hd
            have := (hb2 d hd).2
            split <;> omega
          · rw [← hl2] at e2; exact e2
        have balanced : ∀ (cs2 : List Nat), cs2.sum = n - 1 → (∀ d ∈ cs2, d ≤ mx ∧ mx / 4 ≤ d) → cs2.length = (P ++ c :: Q).length →
            Shape mx (cs2 :: up) (n - 1) := by
          intro cs2 hs2 hb2 hl2
          refine ⟨hs2, fun d hd => (hb2 d hd).1, ?_, by rw [hl2]; exact hup⟩
          intro d hd
          rw [if_neg hune]
          exact (hb2 d hd).2
        have mergeLeft : ∀ (P' : List Nat) (l : Nat), P = P' ++ [l] → l ≤ mx / 2 →
            ∃ lv', Option.map (fun x => (P' ++ (l + (c - 1)) :: Q) :: x)
              (removeUp mx up (groupBounds (P' ++ (l + (c - 1)) :: Q) bs) P.length) = some lv' ∧ Shape mx lv' (n - 1) := by
          intro P' l hP hl
          subst hP
          have hl4 := hPn l (by simp)
          rw [List.sum_append] at hsum
          simp only [List.sum_cons, List.sum_nil] at hsum
          refine merged _ ?_ ?_ ?_
          · rw [List.sum_append, List.sum_cons]; omega
          · intro d hd
            rcases List.mem_append.mp hd with hd | hd
            · exact ⟨hPx d (List.mem_append_left _ hd), hPn d (List.mem_append_left _ hd)⟩
            · rcases List.mem_cons.mp hd with rfl | hd
              · constructor <;> omega
              · exact ⟨hQx d hd, hQn d hd⟩
          · simp; omega
        cases Q with
        | cons r Q' =>
          have hr4 := hQn r (List.mem_cons_self ..)
          have hrx := hQx r (List.mem_cons_self ..)
          rw [List.sum_cons] at hsum
          cases NQ with
          | nil => simp at hNQ
          | cons rb NQ' =>
            have hcr : cur.2 < rb.1 := (List.pairwise_cons.mp hcQ.next).1 rb (List.mem_cons_self ..)
            have htake : (P ++ (c - 1) :: r :: Q').take P.length = P := take_mid
            have hdrop : (P ++ (c - 1) :: r :: Q').drop (P.length + 2) = Q' := by
              rw [show P ++ (c - 1) :: r :: Q' = (P ++ [c - 1, r]) ++ Q' by simp]
              rw [List.drop_append_of_le_length (by simp)]
              simp
            have hbal : ∃ lv', some ((P ++ (share (c - 1) r).1 :: (share (c - 1) r).2 :: Q') :: up) = some lv' ∧ Shape mx lv' (n - 1) ∨ r ≤ mx / 2 := by
              by_cases hr : r ≤ mx / 2
              · exact ⟨[], Or.inr hr⟩
              · refine ⟨_, Or.inl ⟨rfl, balanced _ ?_ ?_ ?_⟩⟩
                · rw [List.sum_append, List.sum_cons, List.sum_cons]
                  simp only [share]
                  omega
                · intro d hd
                  rcases List.mem_append.mp hd with hd | hd
                  · exact ⟨hPx d hd, hPn d hd⟩
                  · rcases List.mem_cons.mp hd with rfl | hd
                    · simp only [share]; constructor <;> omega
                    · rcases List.mem_cons.mp hd with rfl | hd
                      · simp only [share]; constructor <;> omega
                      · exact ⟨hQx d (List.mem_cons_of_mem _ hd), hQn d (List.mem_cons_of_mem _ hd)⟩
                · simp
            simp only [List.head?_cons]
            by_cases hr : r ≤ mx / 2
            · rw [if_pos hr, if_pos hcr, htake, hdrop]
              refine merged _ ?_ ?_ ?_
              · rw [List.sum_append, List.sum_cons]; omega
              · intro d hd
                rcases List.mem_append.mp hd with hd | hd
                · exact ⟨hPx d hd, hPn d hd⟩
                · rcases List.mem_cons.mp hd with rfl | hd
                  · constructor <;> omega
                  · exact ⟨hQx d (List.mem_cons_of_mem _ hd), hQn d (List.mem_cons_of_mem _ hd)⟩
              · simp; omega
            · rw [if_neg hr]
              rcases last_cases P with hP | ⟨P', l, hP⟩
              · have hg0 : P.length = 0 := by rw [hP]; rfl
                simp only [if_pos hg0]
                rw [if_pos ⟨by omega, hcr⟩, htake, hdrop]
                obtain ⟨lv', hh | hh⟩ := hbal
                · exact ⟨lv', hh⟩
                · exact absurd hh hr
              · have hg0 : P.length ≠ 0 := by rw [hP]; simp
                have hPl : P.length = P'.length + 1 := by rw [hP]; simp
                obtain ⟨NP', lb, hNP'⟩ : ∃ NP' lb, NP = NP' ++ [lb] := by
                  rcases last_cases NP with hh | hh
                  · rw [hh] at hNP; simp at hNP; omega
                  · exact hh
                have hNl : P.length = NP'.length + 1 := by rw [← hNP, hNP']; simp
                have hlc : lb.2 < cur.1 := hPcQ lb (by rw [hNP']; simp) cur (List.mem_cons_self ..)
                have e1 : (P ++ (c - 1) :: r :: Q')[P.length - 1]? = some l := by
                  conv_lhs => rw [hP]
                  exact get_mid_pred (by simp)
                have e2 : (NP ++ cur :: rb :: NQ')[P.length - 1]? = some lb := by
                  rw [hNP']
                  exact get_mid_pred hNl
                simp only [if_neg hg0, e1, e2]
                by_cases hl : l ≤ mx / 2
                · rw [if_pos hl, if_pos hlc]
                  have ht : (P ++ (c - 1) :: r :: Q').take (P.length - 1) = P' := by
                    rw [show P.length - 1 = P'.length by omega, hP, List.append_assoc]
                    exact take_mid
                  have hd : (P ++ (c - 1) :: r :: Q').drop (P.length + 1) = r :: Q' := drop_mid
                  rw [ht, hd]
                  exact mergeLeft P' l hP hl
                · rw [if_neg hl, if_pos ⟨by omega, hcr⟩, htake, hdrop]
                  obtain ⟨lv', hh | hh⟩ := hbal
                  · exact ⟨lv', hh⟩
                  · exact absurd hh hr
        | nil =>
          have hNQ0 : NQ = [] := List.length_eq_zero_iff.mp (by simpa using hNQ)
          subst hNQ0
          simp only [List.head?_nil]
          rcases last_cases P with hP | ⟨P', l, hP⟩
          · rw [hP] at hlen2; simp at hlen2
          · have hg0 : P.length ≠ 0 := by rw [hP]; simp
            have hPl : P.length = P'.length + 1 := by rw [hP]; simp
            obtain ⟨NP', lb, hNP'⟩ : ∃ NP' lb, NP = NP' ++ [lb] := by
              rcases last_cases NP with hh | hh
              · rw [hh] at hNP; simp at hNP; omega
              · exact hh
            have hNl : P.length = NP'.length + 1 := by rw [← hNP, hNP']; simp
            have hlc : lb.2 < cur.1 := hPcQ lb (by rw [hNP']; simp) cur (List.mem_cons_self ..)
            have e1 : (P ++ [c - 1])[P.length - 1]? = some l := by
              conv_lhs => rw [hP]
              exact get_mid_pred (by simp)
            have e2 : (NP ++ [cur])[P.length - 1]? = some lb := by
              rw [hNP']
              exact get_mid_pred hNl
            have ht : (P ++ [c - 1]).take (P.length - 1) = P' := by
              rw [show P.length - 1 = P'.length by omega, hP, List.append_assoc]
              exact take_mid
            have hd : (P ++ [c - 1]).drop (P.length + 1) = [] := drop_mid
            simp only [if_neg hg0, e1, e2]
            by_cases hl : l ≤ mx / 2
            · rw [if_pos hl, if_pos hlc, ht, hd]
              exact mergeLeft P' l hP hl
            · rw [if_neg hl, if_pos ⟨by omega, hlc⟩, ht, hd]
              have hl4 := hPn l (by rw [hP]; simp)
              have hlx := hPx l (by rw [hP]; simp)
              rw [hP, List.sum_append] at hsum
              simp only [List.sum_cons, List.sum_nil] at hsum
              refine ⟨_, rfl, balanced _ ?_ ?_ ?_⟩
              · rw [List.sum_append, List.sum_cons, List.sum_cons]
                simp only [share, List.sum_nil]
                omega
              · intro d hd
                rcases List.mem_append.mp hd with hd | hd
                · exact ⟨hPx d (by rw [hP]; simp [hd]), hPn d (by rw [hP]; simp [hd])⟩
                · rcases List.mem_cons.mp hd with rfl | hd
                  · simp only [share]; constructor <;> omega
                  · rcases List.mem_cons.mp hd with rfl | hd
                    · simp only [share]; constructor <;> omega
                    · cases hd
              · rw [hP]; simp

end Verif.BTree
