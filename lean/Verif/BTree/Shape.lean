import Verif.BTree.Model
import Verif.SegTree.Balance
import Mathlib.Tactic.Linarith
/-!
Helper lemmas about the levels of inner nodes.
-/
namespace Verif.BTree
open Verif.Seg
set_option linter.unusedSectionVars false
variable {K : Type} [LinearOrder K] [BoundedOrder K]

/-- A proper B+ tree over `n` nodes: each level groups the one below, the root is alone, all other inner nodes have
between `mx / 4` and `mx` children. -/
def Shape (mx : Nat) : List (List Nat) → Nat → Prop
  | [], n => n = 1
  | cs :: up, n => cs.sum = n ∧ (∀ c ∈ cs, c ≤ mx) ∧ (∀ c ∈ cs, (if up = [] then 2 else mx / 4) ≤ c) ∧ Shape mx up cs.length

theorem Shape.two {mx : Nat} (h12 : 12 ≤ mx) {cs : List Nat} {up : List (List Nat)} {n : Nat} (h : Shape mx (cs :: up) n) :
    ∀ c ∈ cs, 2 ≤ c := by
  intro c hc
  have := h.2.2.1 c hc
  split at this
  · exact this
  · omega

theorem shape_pos {mx : Nat} (h12 : 12 ≤ mx) : ∀ (lv : List (List Nat)) (n : Nat), Shape mx lv n →
    1 ≤ n ∧ (lv ≠ [] → 2 ≤ n) := by
  intro lv
  induction lv with
  | nil =>
    intro n h
    have h' : n = 1 := h
    exact ⟨by omega, fun hc => absurd rfl hc⟩
  | cons cs up ih =>
    intro n h
    have hlen := (ih _ h.2.2.2).1
    cases cs with
    | nil => exact absurd hlen (by simp)
    | cons c cs =>
      have h2 := h.two h12 c (List.mem_cons_self ..)
      have := h.1
      rw [List.sum_cons] at this
      exact ⟨by omega, fun _ => by omega⟩

/-! ### pieces -/

theorem chunks_append {α : Type} {P Q : List Nat} {A C : List α} (h : A.length = P.sum) :
    chunks (P ++ Q) (A ++ C) = chunks P A ++ chunks Q C := by
  induction P generalizing A with
  | nil =>
    have : A = [] := List.length_eq_zero_iff.mp (by simpa using h)
    subst this
    rfl
  | cons c P ih =>
    rw [List.sum_cons] at h
    show (A ++ C).take c :: chunks (P ++ Q) ((A ++ C).drop c) = A.take c :: (chunks P (A.drop c) ++ chunks Q C)
    rw [List.take_append_of_le_length (by omega), List.drop_append_of_le_length (by omega), ih (by rw [List.length_drop]; omega)]

theorem chunks_one {α : Type} {c : Nat} {B : List α} (h : B.length = c) : chunks [c] B = [B] := by
  show [B.take c] = [B]
  rw [← h, List.take_length]

theorem chunks_length {α : Type} (cs : List Nat) (l : List α) : (chunks cs l).length = cs.length := by
  induction cs generalizing l with
  | nil => rfl
  | cons c cs ih => show _ + 1 = _; rw [ih]; rfl

theorem chunks_three {α : Type} {P Q : List Nat} {c : Nat} {A B C : List α} (h : A.length = P.sum) (hb : B.length = c) :
    chunks (P ++ c :: Q) (A ++ (B ++ C)) = chunks P A ++ B :: chunks Q C := by
  rw [chunks_append h]
  have : chunks ([c] ++ Q) (B ++ C) = chunks [c] B ++ chunks Q C := chunks_append (by simpa using hb)
  rw [chunks_one hb] at this
  exact congrArg _ this

theorem owner_split : ∀ (cs : List Nat) (i : Nat), i < cs.sum → ∃ P c Q, cs = P ++ c :: Q ∧ P.sum ≤ i ∧ i < P.sum + c ∧
    owner cs i = P.length := by
  intro cs
  induction cs with
  | nil => intro i h; simp at h
  | cons c cs ih =>
    intro i h
    rw [List.sum_cons] at h
    by_cases hc : i < c
    · exact ⟨[], c, cs, rfl, by simp, by simpa using hc, if_pos hc⟩
    · obtain ⟨P, d, Q, e, h1, h2, h3⟩ := ih (i - c) (by omega)
      refine ⟨c :: P, d, Q, by rw [e]; rfl, ?_, ?_, ?_⟩
      · rw [List.sum_cons]; omega
      · rw [List.sum_cons]; omega
      · show (if i < c then 0 else owner cs (i - c) + 1) = _
        rw [if_neg hc, h3]; rfl

theorem split_at {α : Type} {l : List α} {a b : Nat} (h : l.length = a + b) : ∃ A B, l = A ++ B ∧ A.length = a ∧ B.length = b :=
  ⟨l.take a, l.drop a, (List.take_append_drop a l).symm, by rw [List.length_take]; omega, by rw [List.length_drop]; omega⟩

theorem groupMins_length (cs : List Nat) (ms : List K) : (groupMins cs ms).length = cs.length := by
  unfold groupMins
  rw [List.length_map, chunks_length]

/-- The smallest keys of the groups are among those of the children. -/
theorem groupMins_sublist : ∀ (cs : List Nat) (ms : List K), (∀ c ∈ cs, 0 < c) → cs.sum = ms.length →
    (groupMins cs ms).Sublist ms := by
  intro cs
  induction cs with
  | nil => intro ms _ _; exact List.nil_sublist _
  | cons c cs ih =>
    intro ms hpos hlen
    rw [List.sum_cons] at hlen
    obtain ⟨A, B, rfl, ha, hb⟩ := split_at (show ms.length = c + cs.sum by omega)
    have : groupMins (c :: cs) (A ++ B) = minOf A :: groupMins cs B := by
      unfold groupMins
      have := chunks_append (P := [c]) (Q := cs) (A := A) (C := B) (by simpa using ha)
      rw [chunks_one ha] at this
      rw [show c :: cs = [c] ++ cs from rfl, this]
      rfl
    rw [this]
    have hih := ih B (fun d hd => hpos d (List.mem_cons_of_mem _ hd)) hb.symm
    cases A with
    | nil =>
      have := hpos c (List.mem_cons_self ..)
      rw [List.length_nil] at ha
      omega
    | cons m A => exact (hih.trans (List.sublist_append_right A B)).cons_cons m

/-! ### the descent -/

/-- How many of the smallest keys are at most `k`. -/
def cntLe (ms : List K) (k : K) : Nat := (ms.takeWhile fun m => decide (m ≤ k)).length

theorem takeWhile_app_pos {α : Type} {p : α → Bool} {a b : List α} (h : ∀ x ∈ a, p x = true) :
    (a ++ b).takeWhile p = a ++ b.takeWhile p := by
  induction a with
  | nil => rfl
  | cons x a ih =>
    rw [List.cons_append, List.takeWhile_cons_of_pos (h x (List.mem_cons_self ..)), ih (fun y hy => h y (List.mem_cons_of_mem _ hy))]
    rfl

theorem takeWhile_neg {α : Type} {p : α → Bool} {b : List α} (h : ∀ x, b.head? = some x → p x = false) :
    b.takeWhile p = [] := by
  cases b with
  | nil => rfl
  | cons x b => rw [List.takeWhile_cons_of_neg]; simpa using h x rfl

/-- The list falls into those at most `k` and those above. -/
theorem cntLe_split {ms : List K} (h : ms.Pairwise (· < ·)) (k : K) : ∃ A B, ms = A ++ B ∧ A.length = cntLe ms k ∧
    (∀ m ∈ A, m ≤ k) ∧ ∀ m ∈ B, k < m := by
  refine ⟨ms.takeWhile fun m => decide (m ≤ k), ms.dropWhile fun m => decide (m ≤ k), (List.takeWhile_append_dropWhile).symm, rfl, ?_, ?_⟩
  · intro m hm
    have := Verif.Block.mem_takeWhile_imp hm
    exact of_decide_eq_true this
  · intro m hm
    have hs : (ms.dropWhile fun m => decide (m ≤ k)).Pairwise (· < ·) := h.sublist (List.dropWhile_sublist _)
    cases hd : ms.dropWhile fun m => decide (m ≤ k) with
    | nil => rw [hd] at hm; cases hm
    | cons a l =>
      have hne : ms.dropWhile (fun m => decide (m ≤ k)) ≠ [] := by rw [hd]; exact List.cons_ne_nil _ _
      have h1 := List.head_dropWhile_not (fun m => decide (m ≤ k)) (l := ms) hne
      have h2 : (ms.dropWhile (fun m => decide (m ≤ k))).head hne = a := by
        have : (ms.dropWhile fun m => decide (m ≤ k)).head? = some a := by rw [hd]; rfl
        exact (List.head_eq_iff_head?_eq_some _).mpr this
      rw [h2] at h1
      have h3 : k < a := not_le.mp (of_decide_eq_false h1)
      rw [hd] at hm hs
      rcases List.mem_cons.mp hm with rfl | hm
      · exact h3
      · exact lt_trans h3 ((List.pairwise_cons.mp hs).1 m hm)

theorem cntLe_eq {A B : List K} {k : K} (ha : ∀ m ∈ A, m ≤ k) (hb : ∀ m ∈ B, k < m) : cntLe (A ++ B) k = A.length := by
  unfold cntLe
  rw [takeWhile_app_pos (fun x hx => decide_eq_true (ha x hx)), takeWhile_neg, List.append_nil]
  intro x hx
  exact decide_eq_false (not_le.mpr (hb x (List.mem_of_mem_head? (by rw [hx]; rfl))))

theorem lowerBound_eq {A B : List K} {k : K} (ha : ∀ m ∈ A, m < k) (hb : ∀ m ∈ B, k ≤ m) : lowerBound (A ++ B) k = A.length := by
  unfold lowerBound
  rw [takeWhile_app_pos (fun x hx => decide_eq_true (ha x hx)), takeWhile_neg, List.append_nil]
  intro x hx
  exact decide_eq_false (not_lt.mpr (hb x (List.mem_of_mem_head? (by rw [hx]; rfl))))

/-- `find_node` goes to the last child whose smallest key is at most `k`, or to the first child. -/
theorem pick_eq {ms : List K} (h : ms.Pairwise (· < ·)) (k : K) : pick ms k = cntLe ms k - 1 := by
  obtain ⟨A, B, rfl, hlen, ha, hb⟩ := cntLe_split h k
  rw [← hlen]
  unfold pick
  rcases getLast_cases' A with rfl | ⟨A', a, rfl⟩
  · have : lowerBound ([] ++ B) k = 0 := lowerBound_eq (A := []) (fun m hm => absurd hm List.not_mem_nil) fun m hm => le_of_lt (hb m hm)
    rw [this]
    cases B with
    | nil => rfl
    | cons b B => rfl
  · have hlt : ∀ m ∈ A', m < a := by
      rw [List.append_assoc, List.pairwise_append] at h
      intro m hm
      exact h.2.2 m hm a (by simp)
    have hak := ha a (by simp)
    by_cases hak' : a = k
    · subst hak'
      have hlb : lowerBound (A' ++ [a] ++ B) a = A'.length := by
        rw [List.append_assoc]
        refine lowerBound_eq hlt ?_
        intro m hm
        rcases List.mem_append.mp hm with hm | hm
        · rw [List.mem_singleton.mp hm]
        · exact le_of_lt (hb m hm)
      rw [hlb]
      have hget : (A' ++ [a] ++ B)[A'.length]? = some a := by
        rw [List.append_assoc, List.getElem?_append_right (Nat.le_refl _), Nat.sub_self]; rfl
      rw [hget]
      simp
      intro h0
      rw [h0]; rfl
    · have hlt' : a < k := lt_of_le_of_ne hak hak'
      have hlb : lowerBound (A' ++ [a] ++ B) k = (A' ++ [a]).length := by
        refine lowerBound_eq ?_ fun m hm => le_of_lt (hb m hm)
        intro m hm
        rcases List.mem_append.mp hm with hm | hm
        · exact lt_trans (hlt m hm) hlt'
        · rw [List.mem_singleton.mp hm]; exact hlt'
      rw [hlb]
      rw [List.getElem?_append_right (Nat.le_refl _), Nat.sub_self]
      cases B with
      | nil => rfl
      | cons b B =>
        show (if (A' ++ [a]).length = 0 then 0 else if k < b then _ else _) = _
        rw [if_neg (by simp), if_pos (hb b (List.mem_cons_self ..))]
where
  getLast_cases' {α : Type} (l : List α) : l = [] ∨ ∃ l' a, l = l' ++ [a] := by
    by_cases h : l = []
    · exact Or.inl h
    · exact Or.inr ⟨l.dropLast, l.getLast h, (List.dropLast_append_getLast h).symm⟩

theorem groupMins_cons {c : Nat} {cs : List Nat} {B R : List K} (hb : B.length = c) :
    groupMins (c :: cs) (B ++ R) = minOf B :: groupMins cs R := by
  unfold groupMins
  have := chunks_append (P := [c]) (Q := cs) (A := B) (C := R) (by simpa using hb)
  rw [chunks_one hb] at this
  rw [show c :: cs = [c] ++ cs from rfl, this]
  rfl

theorem chunks_cons {α : Type} {c : Nat} {cs : List Nat} {B R : List α} (hb : B.length = c) :
    chunks (c :: cs) (B ++ R) = B :: chunks cs R := by
  have := chunks_append (P := [c]) (Q := cs) (A := B) (C := R) (by simpa using hb)
  rw [chunks_one hb] at this
  rw [show c :: cs = [c] ++ cs from rfl, this]
  rfl

theorem descend_step {k : K} : ∀ (cs : List Nat) (ms : List K), cs ≠ [] → (∀ c ∈ cs, 0 < c) → cs.sum = ms.length →
    ms.Pairwise (· < ·) →
    (cs.take (cntLe (groupMins cs ms) k - 1)).sum +
      (cntLe (((chunks cs ms)[cntLe (groupMins cs ms) k - 1]?).getD []) k - 1) = cntLe ms k - 1 := by
  intro cs
  induction cs with
  | nil => intro ms h; exact absurd rfl h
  | cons c cs ih =>
    intro ms _ hpos hlen hs
    rw [List.sum_cons] at hlen
    obtain ⟨B, R, rfl, hB, hR⟩ := split_at (show ms.length = c + cs.sum by omega)
    rw [groupMins_cons hB, chunks_cons hB]
    have hc := hpos c (List.mem_cons_self ..)
    have hposr : ∀ d ∈ cs, 0 < d := fun d hd => hpos d (List.mem_cons_of_mem _ hd)
    obtain ⟨hsB, hsR, hBR⟩ := List.pairwise_append.mp hs
    obtain ⟨b, B', rfl⟩ : ∃ b B', B = b :: B' := by
      cases B with
      | nil => rw [List.length_nil] at hB; omega
      | cons b B' => exact ⟨b, B', rfl⟩
    -- the first key of the rest decides
    by_cases hr : ∃ r ∈ R, r ≤ k
    · obtain ⟨r, hr, hrk⟩ := hr
      have hBk : ∀ m ∈ b :: B', m ≤ k := fun m hm => le_of_lt (lt_of_lt_of_le (hBR m hm r hr) hrk)
      have hcs : cs ≠ [] := by
        rintro rfl
        rw [List.sum_nil] at hR
        rw [List.length_eq_zero_iff.mp hR] at hr
        cases hr
      have e1 : cntLe (b :: B' ++ R) k = (b :: B').length + cntLe R k := by
        unfold cntLe
        rw [takeWhile_app_pos (fun x hx => decide_eq_true (hBk x hx)), List.length_append]
      have e2 : cntLe (minOf (b :: B') :: groupMins cs R) k = 1 + cntLe (groupMins cs R) k := by
        unfold cntLe
        have hd : (fun m => decide (m ≤ k)) (minOf (b :: B')) = true := decide_eq_true (hBk b (List.mem_cons_self ..))
        rw [List.takeWhile_cons_of_pos (p := fun m => decide (m ≤ k)) hd, List.length_cons]
        omega
      -- the rest has a group starting at or below k
      have hpos2 : 0 < cntLe (groupMins cs R) k := by
        cases cs with
        | nil => exact absurd rfl hcs
        | cons d cs' =>
          rw [List.sum_cons] at hR
          obtain ⟨D, R', rfl, hD, hR'⟩ := split_at (show R.length = d + cs'.sum by omega)
          rw [groupMins_cons hD]
          have hd := hposr d (List.mem_cons_self ..)
          cases D with
          | nil => rw [List.length_nil] at hD; omega
          | cons d0 D =>
            have : d0 ≤ r := by
              rw [List.cons_append] at hr hsR
              rcases List.mem_cons.mp hr with rfl | hr
              · exact le_refl _
              · exact le_of_lt ((List.pairwise_cons.mp hsR).1 r hr)
            unfold cntLe
            have hd : (fun m => decide (m ≤ k)) (minOf (d0 :: D)) = true := decide_eq_true (le_trans this hrk)
            rw [List.takeWhile_cons_of_pos (p := fun m => decide (m ≤ k)) hd]
            simp
      have hpos3 : 0 < cntLe R k := by
        obtain ⟨A, C, hAC, hl, hA, hC⟩ := cntLe_split hsR k
        rw [← hl]
        cases A with
        | nil =>
          rw [hAC] at hr
          exact absurd hrk (not_le.mpr (hC r hr))
        | cons _ _ => simp
      rw [e1, e2]
      have hidx : 1 + cntLe (groupMins cs R) k - 1 = (cntLe (groupMins cs R) k - 1) + 1 := by omega
      rw [hidx, List.take_succ_cons, List.sum_cons, List.getElem?_cons_succ]
      have := ih R hcs hposr hR.symm hsR
      rw [← hB] at *
      omega
    · have hRk : ∀ r ∈ R, k < r := by
        intro r hr'
        by_contra hc
        exact hr ⟨r, hr', not_lt.mp hc⟩
      have hgR : ∀ m ∈ groupMins cs R, k < m := fun m hm => hRk m ((groupMins_sublist cs R hposr hR.symm).mem hm)
      have e1 : cntLe (b :: B' ++ R) k = cntLe (b :: B') k := by
        obtain ⟨A, C, hAC, hl, hA, hC⟩ := cntLe_split hsB k
        rw [← hl, hAC, List.append_assoc]
        refine cntLe_eq hA ?_
        intro m hm
        rcases List.mem_append.mp hm with hm | hm
        · exact hC m hm
        · exact hRk m hm
      have e2 : cntLe (minOf (b :: B') :: groupMins cs R) k ≤ 1 := by
        by_cases hb : b ≤ k
        · have := cntLe_eq (A := [b]) (B := groupMins cs R) (k := k) (by simpa using hb) hgR
          exact le_of_eq this
        · have := cntLe_eq (A := []) (B := b :: groupMins cs R) (k := k) (by simp) (by
            intro m hm
            rcases List.mem_cons.mp hm with rfl | hm
            · exact not_le.mp hb
            · exact hgR m hm)
          exact le_trans (le_of_eq this) (Nat.zero_le _)
      have hidx : cntLe (minOf (b :: B') :: groupMins cs R) k - 1 = 0 := by omega
      rw [hidx, e1]
      simp

/-- The descent ends at the last leaf whose smallest key is at most `k`, or at the first leaf. -/
theorem descend_eq {mx : Nat} (h12 : 12 ≤ mx) {k : K} : ∀ (lv : List (List Nat)) (ms : List K), Shape mx lv ms.length →
    ms.Pairwise (· < ·) → descend k lv ms = cntLe ms k - 1 := by
  intro lv
  induction lv with
  | nil =>
    intro ms h _
    have h' : ms.length = 1 := h
    have : cntLe ms k ≤ ms.length := by
      unfold cntLe
      exact (List.takeWhile_sublist _).length_le
    show 0 = _
    omega
  | cons cs up ih =>
    intro ms h hs
    have hpos : ∀ c ∈ cs, 0 < c := fun c hc => by have := h.two h12 c hc; omega
    have hg : (groupMins cs ms).Pairwise (· < ·) := hs.sublist (groupMins_sublist cs ms hpos h.1)
    have hih := ih (groupMins cs ms) (by rw [groupMins_length]; exact h.2.2.2) hg
    have hne : cs ≠ [] := by
      rintro rfl
      have := (shape_pos h12 up _ h.2.2.2).1
      simp at this
    show (cs.take (descend k up (groupMins cs ms))).sum + pick (((chunks cs ms)[descend k up (groupMins cs ms)]?).getD []) k = _
    rw [hih]
    rw [pick_eq, descend_step cs ms hne hpos h.1 hs]
    -- the piece is sorted
    have hsub : ∀ (cs : List Nat) (ms : List K) (g : Nat), (((chunks cs ms)[g]?).getD []).Sublist ms := by
      intro cs
      induction cs with
      | nil => intro ms g; simp [chunks]
      | cons c cs ih2 =>
        intro ms g
        cases g with
        | zero => show (ms.take c).Sublist ms; exact List.take_sublist _ _
        | succ g =>
          show (((ms.take c :: chunks cs (ms.drop c))[g + 1]?).getD []).Sublist ms
          rw [List.getElem?_cons_succ]
          exact (ih2 (ms.drop c) g).trans (List.drop_sublist _ _)
    exact hs.sublist (hsub _ _ _)

/-! ### insertion -/

theorem minOf_mem {l : List K} (h : l ≠ []) : minOf l ∈ l := by
  cases l with
  | nil => exact absurd rfl h
  | cons a l => exact List.mem_cons_self ..

theorem set_mid {P Q : List Nat} {c d : Nat} : (P ++ c :: Q).set P.length d = P ++ d :: Q := by
  rw [List.set_append_right _ _ (Nat.le_refl _), Nat.sub_self]; rfl

theorem get_mid {α : Type} {P Q : List α} {c : α} : (P ++ c :: Q)[P.length]? = some c := by
  rw [List.getElem?_append_right (Nat.le_refl _), Nat.sub_self]; rfl

theorem take_mid {α : Type} {P Q : List α} {c : α} : (P ++ c :: Q).take P.length = P := by simp

theorem drop_mid {α : Type} {P Q : List α} {c : α} : (P ++ c :: Q).drop (P.length + 1) = Q := by
  rw [show P ++ c :: Q = (P ++ [c]) ++ Q by simp, List.drop_append_of_le_length (by simp)]
  simp

theorem insertUp_ok {mx : Nat} (h12 : 12 ≤ mx) : ∀ (lv : List (List Nat)) (X Y : List K) (m nm : K),
    Shape mx lv (X ++ m :: Y).length → (X ++ m :: Y).Pairwise (· < ·) → m < nm → (∀ y ∈ Y, nm < y) →
    ∃ lv', insertUp mx lv (X ++ m :: Y) X.length nm = some lv' ∧ lv' ≠ [] ∧ Shape mx lv' ((X ++ m :: Y).length + 1) := by
  intro lv
  induction lv with
  | nil =>
    intro X Y m nm h _ _ _
    have h' : (X ++ m :: Y).length = 1 := h
    refine ⟨[[2]], rfl, List.cons_ne_nil _ _, ?_, ?_, ?_, rfl⟩
    · rw [h']; rfl
    · intro c hc; rw [List.mem_singleton.mp hc]; omega
    · intro c hc; rw [List.mem_singleton.mp hc]; simp
  | cons cs up ih =>
    intro X Y m nm h hs hm hY
    obtain ⟨hsum, hmx, hmn, hup⟩ := h
    have hpos : ∀ c ∈ cs, 2 ≤ c := Shape.two h12 (⟨hsum, hmx, hmn, hup⟩ : Shape mx (cs :: up) (X ++ m :: Y).length)
    obtain ⟨P, c, Q, rfl, hP1, hP2, hown⟩ := owner_split cs X.length (by rw [hsum]; simp)
    have hcm : c ∈ P ++ c :: Q := by simp
    rw [List.sum_append, List.sum_cons] at hsum
    rw [List.length_append, List.length_cons] at hsum
    -- the children of the parent
    obtain ⟨A, X2, rfl, hA, hX2⟩ := split_at (show X.length = P.sum + (X.length - P.sum) by omega)
    rw [List.length_append] at hsum hP1 hP2 hX2
    obtain ⟨Y1, C, rfl, hY1, hC⟩ := split_at (show Y.length = (c - X2.length - 1) + Q.sum by omega)
    have hms : A ++ X2 ++ m :: (Y1 ++ C) = A ++ ((X2 ++ m :: Y1) ++ C) := by simp
    have hBl : (X2 ++ m :: Y1).length = c := by rw [List.length_append, List.length_cons]; omega
    have hch : ((A ++ X2 ++ m :: (Y1 ++ C)).drop P.sum).take c = X2 ++ m :: Y1 := by
      rw [hms, ← hA, List.drop_left, ← hBl, List.take_left]
    have hs' := hs
    rw [hms] at hs'
    obtain ⟨hsA, hsBC, hABC⟩ := List.pairwise_append.mp hs'
    obtain ⟨hsB, hsC, hBC⟩ := List.pairwise_append.mp hsBC
    obtain ⟨hsX2, hsmY, hXm⟩ := List.pairwise_append.mp hsB
    have hX2lt : ∀ y ∈ X2 ++ [m], y < nm := by
      intro y hy
      rcases List.mem_append.mp hy with hy | hy
      · exact lt_trans (hXm y hy m (List.mem_cons_self ..)) hm
      · rw [List.mem_singleton.mp hy]; exact hm
    have hY1gt : ∀ y ∈ Y1, nm < y := fun y hy => hY y (List.mem_append_left _ hy)
    have hlb : lowerBound (X2 ++ m :: Y1) nm = X2.length + 1 := by
      have := lowerBound_eq (A := X2 ++ [m]) (B := Y1) hX2lt (fun y hy => le_of_lt (hY1gt y hy))
      rw [List.append_assoc] at this
      simpa using this
    have hgm : groupMins (P ++ c :: Q) (A ++ X2 ++ m :: (Y1 ++ C)) = groupMins P A ++ minOf (X2 ++ m :: Y1) :: groupMins Q C := by
      unfold groupMins
      rw [hms, chunks_three hA hBl]
      simp
    have hgP : (groupMins P A).length = P.length := groupMins_length _ _
    have hc2 := hpos c hcm
    have hcx := hmx c hcm
    have hcn := hmn c hcm
    have hposP : ∀ d ∈ P, 0 < d := fun d hd => by have := hpos d (List.mem_append_left _ hd); omega
    have hposQ : ∀ d ∈ Q, 0 < d := fun d hd => by have := hpos d (List.mem_append_right _ (List.mem_cons_of_mem _ hd)); omega
    have hsC' : (groupMins Q C).Sublist C := groupMins_sublist Q C hposQ hC.symm
    have hun : insertUp mx ((P ++ c :: Q) :: up) (A ++ X2 ++ m :: (Y1 ++ C)) (A ++ X2).length nm =
        (if c < mx then
          if P.sum + lowerBound (X2 ++ m :: Y1) nm = (A ++ X2).length + 1 then some ((P ++ (c + 1) :: Q) :: up) else none
        else
          if minOf ((X2 ++ m :: Y1).drop (c - c / 2)) < nm then
            if P.sum + (c - c / 2) + lowerBound ((X2 ++ m :: Y1).drop (c - c / 2)) nm = (A ++ X2).length + 1 then
              (insertUp mx up (groupMins (P ++ c :: Q) (A ++ X2 ++ m :: (Y1 ++ C))) P.length
                (minOf ((X2 ++ m :: Y1).drop (c - c / 2)))).map ((P ++ (c - c / 2) :: (c / 2 + 1) :: Q) :: ·)
            else none
          else
            if P.sum + lowerBound ((X2 ++ m :: Y1).take (c - c / 2)) nm = (A ++ X2).length + 1 then
              (insertUp mx up (groupMins (P ++ c :: Q) (A ++ X2 ++ m :: (Y1 ++ C))) P.length
                (minOf ((X2 ++ m :: Y1).drop (c - c / 2)))).map ((P ++ (c - c / 2 + 1) :: (c / 2) :: Q) :: ·)
            else none) := by
      conv_lhs => unfold insertUp
      simp only [hown, get_mid, Option.getD_some, take_mid, drop_mid, set_mid, hch]
    rw [hun]
    by_cases hfull : c < mx
    · rw [if_pos hfull, if_pos (by rw [hlb, List.length_append]; omega)]
      refine ⟨_, rfl, List.cons_ne_nil _ _, ?_, ?_, ?_, ?_⟩
      · rw [List.sum_append, List.sum_cons]
        simp only [List.length_append, List.length_cons]
        omega
      · intro d hd
        rcases List.mem_append.mp hd with hd | hd
        · exact hmx d (List.mem_append_left _ hd)
        · rcases List.mem_cons.mp hd with rfl | hd
          · omega
          · exact hmx d (List.mem_append_right _ (List.mem_cons_of_mem _ hd))
      · intro d hd
        rcases List.mem_append.mp hd with hd | hd
        · exact hmn d (List.mem_append_left _ hd)
        · rcases List.mem_cons.mp hd with rfl | hd
          · omega
          · exact hmn d (List.mem_append_right _ (List.mem_cons_of_mem _ hd))
      · have : (P ++ (c + 1) :: Q).length = (P ++ c :: Q).length := by simp
        rw [this]; exact hup
    · rw [if_neg hfull]
      have hceq : c = mx := by omega
      have hdne : (X2 ++ m :: Y1).drop (c - c / 2) ≠ [] := by
        intro hc
        have := congrArg List.length hc
        rw [List.length_drop, hBl, List.length_nil] at this
        omega
      have hum : minOf ((X2 ++ m :: Y1).drop (c - c / 2)) ∈ (X2 ++ m :: Y1).drop (c - c / 2) := minOf_mem hdne
      generalize hhd : c - c / 2 = hh at *
      have hsplit := List.take_append_drop hh (X2 ++ m :: Y1)
      -- the recursive call
      have hfirst : minOf (X2 ++ m :: Y1) < minOf ((X2 ++ m :: Y1).drop hh) := by
        have hsB' := hsB
        rw [← hsplit] at hsB'
        have := (List.pairwise_append.mp hsB').2.2
        refine this _ ?_ _ hum
        have h1 : minOf (X2 ++ m :: Y1) = minOf ((X2 ++ m :: Y1).take hh) := by
          have hpos' : 0 < hh := by omega
          unfold minOf
          congr 1
          rw [List.head?_take, if_neg (by omega)]
        rw [h1]
        refine minOf_mem ?_
        intro hc
        have := congrArg List.length hc
        rw [List.length_take, hBl, List.length_nil] at this
        omega
      obtain ⟨lv', e1, e2, e3⟩ := ih (groupMins P A) (groupMins Q C) (minOf (X2 ++ m :: Y1))
        (minOf ((X2 ++ m :: Y1).drop hh))
        (by
          rw [← hgm, groupMins_length]; exact hup)
        (by
          rw [← hgm]
          exact hs.sublist (groupMins_sublist _ _ (fun d hd => by have := hpos d hd; omega) (by
            rw [List.sum_append, List.sum_cons]
            simp only [List.length_append, List.length_cons]
            omega)))
        hfirst
        (fun y hy => hBC _ (List.mem_of_mem_drop hum) _ (hsC'.mem hy))
      rw [← hgm, hgP] at e1
      have hlen' : (groupMins P A ++ minOf (X2 ++ m :: Y1) :: groupMins Q C).length = P.length + 1 + Q.length := by
        rw [← hgm, groupMins_length]; simp; omega
      rw [hlen'] at e3
      have hshape : ∀ a b : Nat, a + b = c + 1 → mx / 4 ≤ a → mx / 4 ≤ b → a ≤ mx → b ≤ mx →
          Shape mx ((P ++ a :: b :: Q) :: lv') ((A ++ X2 ++ m :: (Y1 ++ C)).length + 1) := by
        intro a b hab ha hb ha2 hb2
        have hmn' : ∀ d ∈ P ++ c :: Q, up ≠ [] → mx / 4 ≤ d := by
          intro d hd hne
          have := hmn d hd
          rwa [if_neg hne] at this
        have hnilPQ : up = [] → P = [] ∧ Q = [] := by
          rintro rfl
          have h1 : (P ++ c :: Q).length = 1 := hup
          rw [List.length_append, List.length_cons] at h1
          exact ⟨List.length_eq_zero_iff.mp (by omega), List.length_eq_zero_iff.mp (by omega)⟩
        refine ⟨?_, ?_, ?_, ?_⟩
        · rw [List.sum_append, List.sum_cons, List.sum_cons]
          simp only [List.length_append, List.length_cons]
          omega
        · intro d hd
          rcases List.mem_append.mp hd with hd | hd
          · exact hmx d (List.mem_append_left _ hd)
          · rcases List.mem_cons.mp hd with rfl | hd
            · exact ha2
            · rcases List.mem_cons.mp hd with rfl | hd
              · exact hb2
              · exact hmx d (List.mem_append_right _ (List.mem_cons_of_mem _ hd))
        · intro d hd
          rw [if_neg e2]
          rcases List.mem_append.mp hd with hd | hd
          · by_cases hu : up = []
            · rw [(hnilPQ hu).1] at hd; cases hd
            · exact hmn' d (List.mem_append_left _ hd) hu
          · rcases List.mem_cons.mp hd with rfl | hd
            · exact ha
            · rcases List.mem_cons.mp hd with rfl | hd
              · exact hb
              · by_cases hu : up = []
                · rw [(hnilPQ hu).2] at hd; cases hd
                · exact hmn' d (List.mem_append_right _ (List.mem_cons_of_mem _ hd)) hu
        · have : (P ++ a :: b :: Q).length = P.length + 1 + Q.length + 1 := by simp; omega
          rw [this]; exact e3
      by_cases hlt : minOf ((X2 ++ m :: Y1).drop hh) < nm
      · rw [if_pos hlt]
        have hle : hh ≤ X2.length := by
          by_contra hc
          have hd : (X2 ++ m :: Y1).drop hh = Y1.drop (hh - X2.length - 1) := by
            rw [List.drop_append, List.drop_eq_nil_of_le (by omega), List.nil_append]
            have : hh - X2.length = (hh - X2.length - 1) + 1 := by omega
            rw [this, List.drop_succ_cons]
            simp
          rw [hd] at hum hlt
          exact absurd (lt_trans hlt (hY1gt _ (List.mem_of_mem_drop hum))) (lt_irrefl _)
        have hlb2 : lowerBound ((X2 ++ m :: Y1).drop hh) nm = X2.length - hh + 1 := by
          rw [List.drop_append_of_le_length hle]
          have := lowerBound_eq (A := X2.drop hh ++ [m]) (B := Y1) (k := nm) (by
            intro y hy
            refine hX2lt y ?_
            rcases List.mem_append.mp hy with hy | hy
            · exact List.mem_append_left _ (List.mem_of_mem_drop hy)
            · exact List.mem_append_right _ hy) (fun y hy => le_of_lt (hY1gt y hy))
          rw [List.append_assoc] at this
          simpa using this
        rw [if_pos (by rw [hlb2, List.length_append]; omega), e1]
        exact ⟨_, rfl, List.cons_ne_nil _ _, hshape _ _ (by omega) (by omega) (by omega) (by omega) (by omega)⟩
      · rw [if_neg hlt]
        have hgt : X2.length < hh := by
          by_contra hc
          apply hlt
          have hd : minOf ((X2 ++ m :: Y1).drop hh) ∈ X2 ++ [m] := by
            rw [List.drop_append_of_le_length (by omega)]
            cases hx : X2.drop hh with
            | nil => exact List.mem_append_right _ (List.mem_singleton.mpr rfl)
            | cons z zs =>
              refine List.mem_append_left _ (List.mem_of_mem_drop (i := hh) ?_)
              rw [hx]; exact List.mem_cons_self ..
          exact hX2lt _ hd
        have hlb2 : lowerBound ((X2 ++ m :: Y1).take hh) nm = X2.length + 1 := by
          have ht : (X2 ++ m :: Y1).take hh = (X2 ++ [m]) ++ Y1.take (hh - X2.length - 1) := by
            rw [List.take_append, List.take_of_length_le (by omega)]
            have : hh - X2.length = (hh - X2.length - 1) + 1 := by omega
            rw [this, List.take_succ_cons]
            simp
          rw [ht, lowerBound_eq hX2lt (fun y hy => le_of_lt (hY1gt y (List.mem_of_mem_take hy)))]
          simp
        rw [if_pos (by rw [hlb2, List.length_append]; omega), e1]
        exact ⟨_, rfl, List.cons_ne_nil _ _, hshape _ _ (by omega) (by omega) (by omega) (by omega) (by omega)⟩

end Verif.BTree
