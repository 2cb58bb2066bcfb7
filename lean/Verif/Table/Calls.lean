import Verif.Table.Inv
import Mathlib.Data.List.Perm.Basic
import Mathlib.Data.List.TakeWhile
/-! Deletes and updates keep the invariant; when they return. -/
namespace Verif.Table
open Verif.Mvcc (CAP Mgr Txn NOT_DELETED)
variable {α : Type} {tys : List (ColTy α)} {t t' : Table α} {s : Ideal α} {u : Nat → Bool}

/-! ### Deleting -/

theorem Ideal.Ok.delete {w : Nat} (h : s.Ok u w) {ids : List Nat} (hids : ∀ i ∈ ids, i < s.rows) : (s.delete ids).Ok u w := by
  refine ⟨h.width, h.len, ?_, h.upd, h.small⟩
  intro i hi
  unfold Ideal.delete at hi ⊢
  simp only [Bool.or_eq_true, decide_eq_true_eq] at hi
  rcases hi with hi | hi
  · exact h.dead i hi
  · exact hids i hi

theorem delete_append (a b : List Nat) : (s.delete a).delete b = s.delete (a ++ b) := by
  unfold Ideal.delete
  simp only [Ideal.mk.injEq, true_and]
  funext i
  simp [Bool.or_assoc]

theorem mem_live {i : Nat} : i ∈ s.live ↔ i < s.rows ∧ s.dead i = false := by
  unfold Ideal.live
  simp

theorem delete_live {ids new : List Nat} (hnd : new.Nodup) (hmem : ∀ x, x ∈ new ↔ x ∈ ids) (hl : ∀ i ∈ ids, i ∈ s.live) :
    (s.delete ids).live.length + new.length = s.live.length := by
  have h1 : (s.delete ids).live = s.live.filter fun i => !decide (i ∈ ids) := by
    unfold Ideal.live Ideal.delete
    simp only
    rw [List.filter_filter]
    apply List.filter_congr
    intro i _
    cases s.dead i <;> simp
  have h2 : (s.live.filter fun i => decide (i ∈ ids)).Perm new := by
    rw [List.perm_ext_iff_of_nodup]
    · intro x
      rw [List.mem_filter, hmem x]
      constructor
      · intro h; simpa using h.2
      · intro h; exact ⟨hl x h, by simpa using h⟩
    · apply List.Nodup.filter
      unfold Ideal.live
      exact List.Nodup.filter _ List.nodup_range
    · exact hnd
  have h3 := List.length_eq_length_filter_add (l := s.live) (fun i => decide (i ∈ ids))
  rw [h1, ← h2.length_eq]
  omega

theorem takeWhile_split (p : Nat → Bool) (id : Nat) (ids : List Nat) :
    id :: ids = (id :: ids.takeWhile p) ++ ids.dropWhile p := by
  rw [List.cons_append, List.takeWhile_append_dropWhile]

theorem deleteLoop_sound : ∀ (fuel : Nat) (t : Table α) (s : Ideal α) (ids : List Nat) (t' : Table α) (n : Nat), Inv tys t s u →
    t.deleteLoop fuel ids = .ok (t', n) →
    Inv tys t' (s.delete ids) u ∧ (∀ i ∈ ids, i ∈ s.live) ∧ (s.delete ids).live.length + n = s.live.length := by
  intro fuel
  induction fuel with
  | zero => intro t s ids t' n _ h; unfold Table.deleteLoop at h; cases h
  | succ f ih =>
    intro t s ids t' n hi h
    cases ids with
    | nil =>
      unfold Table.deleteLoop at h
      cases h
      have : s.delete [] = s := by unfold Ideal.delete; simp
      rw [this]
      exact ⟨hi, by simp, by simp⟩
    | cons id ids =>
      unfold Table.deleteLoop at h
      rw [Res.bind_ok_iff] at h
      obtain ⟨gi, hgi, h⟩ := h
      rcases hi.groupOf id with ⟨gi', g, h1, h2, h3, h4, h5⟩ | ⟨h1, _⟩
      swap
      · rw [h1] at hgi; cases hgi
      rw [h1] at hgi
      cases hgi
      rw [h2] at h
      simp only at h
      rw [Res.bind_ok_iff] at h
      obtain ⟨⟨g', k⟩, hd, h⟩ := h
      rw [Res.map'_ok_iff] at h
      obtain ⟨⟨t2, m⟩, hrest, he⟩ := h
      cases he
      have hg := hi.groups g (List.mem_of_getElem? h2)
      have hb := gchain_bounds hi.chain g (List.mem_of_getElem? h2)
      have hin : ∀ i ∈ id :: ids.takeWhile (fun i => decide (g.start ≤ i ∧ i < g.start + g.count)), g.start ≤ i ∧ i < g.start + g.count := by
        intro i him
        rw [List.mem_cons] at him
        rcases him with rfl | him
        · exact ⟨h3, h4⟩
        · simpa using List.mem_takeWhile_imp him
      obtain ⟨d1, d2, d3, d4, new, d5, d6, d7⟩ := hg.1.delete (by have := hi.le; omega) (by simp) hin hd
      have hlive : ∀ i ∈ id :: ids.takeWhile (fun i => decide (g.start ≤ i ∧ i < g.start + g.count)), i ∈ s.live := by
        intro i him
        have := hin i him
        exact mem_live.mpr ⟨by omega, d4 i him⟩
      have hinv := hi.replace h2 (hi.ok.delete fun i him => (mem_live.mp (hlive i him)).1) rfl d1 d2 d3 (by
        intro j x hj hx
        exact (hi.groups x (List.mem_of_getElem? hx)).1.delete_other fun i him => hi.apart h2 hx (fun e => hj e.symm) i (hin i him).1 (hin i him).2)
      obtain ⟨r1, r2, r3⟩ := ih _ _ _ _ _ hinv hrest
      have hall := takeWhile_split (fun i => decide (g.start ≤ i ∧ i < g.start + g.count)) id ids
      rw [delete_append, ← hall] at r1 r3
      refine ⟨r1, ?_, ?_⟩
      · intro i him
        rw [hall, List.mem_append] at him
        rcases him with him | him
        · exact hlive i him
        · have := mem_live.mp (r2 i him)
          refine mem_live.mpr ⟨this.1, ?_⟩
          have h7 := this.2
          unfold Ideal.delete at h7
          simp only [Bool.or_eq_false_iff] at h7
          exact h7.1
      · have := delete_live d5 d6 hlive
        omega

theorem deleteLoop_runs : ∀ (fuel : Nat) (t : Table α) (s : Ideal α) (ids : List Nat), Inv tys t s u → ids.Nodup → ids.length < fuel →
    ((∀ i ∈ ids, i ∈ s.live) → ∃ r, t.deleteLoop fuel ids = .ok r) ∧ ((∃ r, t.deleteLoop fuel ids = .ok r) ∨ t.deleteLoop fuel ids = .throws) := by
  intro fuel
  induction fuel with
  | zero => intros; omega
  | succ f ih =>
    intro t s ids hi hnd hf
    cases ids with
    | nil => unfold Table.deleteLoop; exact ⟨fun _ => ⟨_, rfl⟩, .inl ⟨_, rfl⟩⟩
    | cons id ids =>
      unfold Table.deleteLoop
      rcases hi.groupOf id with ⟨gi, g, h1, h2, h3, h4, h5⟩ | ⟨h1, h2⟩
      swap
      · rw [h1]
        refine ⟨fun hl => ?_, .inr rfl⟩
        have := (mem_live.mp (hl id (by simp))).1
        omega
      rw [h1, Res.bind_ok, h2]
      simp only
      have hg := hi.groups g (List.mem_of_getElem? h2)
      have hb := gchain_bounds hi.chain g (List.mem_of_getElem? h2)
      have hin : ∀ i ∈ id :: ids.takeWhile (fun i => decide (g.start ≤ i ∧ i < g.start + g.count)), g.start ≤ i ∧ i < g.start + g.count := by
        intro i him
        rw [List.mem_cons] at him
        rcases him with rfl | him
        · exact ⟨h3, h4⟩
        · simpa using List.mem_takeWhile_imp him
      have hall := takeWhile_split (fun i => decide (g.start ≤ i ∧ i < g.start + g.count)) id ids
      have hnd' := hnd
      rw [hall, List.nodup_append] at hnd'
      obtain ⟨n1, n2, n3⟩ := hnd'
      obtain ⟨p1, p2⟩ := hg.1.delete_runs (by have := hi.le; omega) (by simp) n1 hin
      rcases p2 with ⟨⟨g', k⟩, hd⟩ | hd
      swap
      · rw [hd]
        refine ⟨fun hl => ?_, .inr rfl⟩
        obtain ⟨r, hr⟩ := p1 (fun i him => (mem_live.mp (hl i (by rw [hall]; exact List.mem_append_left _ him))).2)
        rw [hr] at hd
        cases hd
      rw [hd, Res.bind_ok]
      obtain ⟨d1, d2, d3, d4, new, d5, d6, d7⟩ := hg.1.delete (by have := hi.le; omega) (by simp) hin hd
      have hinv := hi.replace h2 (hi.ok.delete fun i him => by have := hin i him; omega) rfl d1 d2 d3 (by
        intro j x hj hx
        exact (hi.groups x (List.mem_of_getElem? hx)).1.delete_other fun i him => hi.apart h2 hx (fun e => hj e.symm) i (hin i him).1 (hin i him).2)
      obtain ⟨r1, r2⟩ := ih _ _ _ hinv n2 (by
        have := (List.dropWhile_sublist (l := ids) (fun i => decide (g.start ≤ i ∧ i < g.start + g.count))).length_le
        simp only [List.length_cons] at hf
        omega)
      constructor
      · intro hl
        obtain ⟨r, hr⟩ := r1 (by
          intro i him
          have := mem_live.mp (hl i (by rw [hall]; exact List.mem_append_right _ him))
          refine mem_live.mpr ⟨this.1, ?_⟩
          unfold Ideal.delete
          simp only [this.2, Bool.false_or, decide_eq_false_iff_not]
          intro hm
          exact n3 i hm i him rfl)
        rw [hr]
        exact ⟨_, rfl⟩
      · rcases r2 with ⟨r, hr⟩ | hr
        · rw [hr]; exact .inl ⟨_, rfl⟩
        · rw [hr]; exact .inr rfl

/-! ### Updating -/

theorem overlay_foldl {β : Type} (l : List β) (a b : List (Nat × β)) : overlay l (a ++ b) = overlay (overlay l a) b := by
  unfold overlay
  rw [List.foldl_append]

theorem update_append (a b : List Nat) (ch : Chunk α) (h : ∀ c ∈ ch.cols, a.length ≤ c.length) (n m : Nat) :
    (s.update a ⟨n, ch.cols.map (·.take a.length)⟩).update b ⟨m, ch.cols.map (·.drop a.length)⟩ = s.update (a ++ b) ch := by
  unfold Ideal.update
  simp only [Ideal.mk.injEq, true_and, and_true]
  apply List.ext_getElem?
  intro i
  simp only [List.getElem?_zipWith, List.getElem?_map]
  cases s.cols[i]? with
  | none => rfl
  | some l =>
    cases hc : ch.cols[i]? with
    | none => rfl
    | some c =>
      have hlen := h c (List.mem_of_getElem? hc)
      simp only [Option.map_some, assign_eq, ← overlay_foldl]
      congr 2
      rw [← List.zip_append (by simp; omega), List.take_append_drop]

theorem marked_append (a b : List Nat) : marked (marked u a) b = marked u (a ++ b) := by
  funext i
  unfold marked
  simp [Bool.or_assoc]

theorem update_nil (ch : Chunk α) (h : s.cols.length = ch.cols.length) : s.update [] ch = s := by
  unfold Ideal.update
  have : List.zipWith (fun l new => assign l [] new) s.cols ch.cols = s.cols := by
    apply List.ext_getElem?
    intro i
    rw [List.getElem?_zipWith]
    cases h1 : s.cols[i]? with
    | none => rfl
    | some l =>
      have : i < ch.cols.length := by rw [← h]; exact (List.getElem?_eq_some_iff.mp h1).1
      simp [List.getElem?_eq_getElem this, assign]
  rw [this]

theorem marked_nil : marked u [] = u := by
  funext i
  unfold marked
  simp

theorem vec_base {a id n : Nat} (hn : n ≤ CAP) (h1 : a ≤ id) (h2 : id < a + n) : a + (id - a) / CAP * CAP = a := by
  rw [Nat.div_eq_of_lt (by omega)]; simp

theorem stop_eq {a n : Nat} (hn : n ≤ CAP) : min (a + CAP) (a + n) = a + n := by omega

theorem take_run (p : Nat → Bool) (id : Nat) (ids : List Nat) :
    (id :: ids).drop (id :: ids.takeWhile p).length = ids.dropWhile p := by
  conv_lhs => rw [takeWhile_split p id ids]
  exact List.drop_left

/-- The part of a chunk that belongs to a run of ids. -/
theorem part_for {ch : Chunk α} {w k : Nat} (h : ch.For w) (hk : k ≤ ch.size) : (⟨k, ch.cols.map (·.take k)⟩ : Chunk α).For w := h.take hk

theorem updateLoop_sound : ∀ (fuel : Nat) (t : Table α) (s : Ideal α) (u : Nat → Bool) (ids : List Nat) (ch : Chunk α) (t' : Table α),
    Inv tys t s u → ch.For tys.length → ids.length = ch.size → ids.Nodup → t.updateLoop fuel ids ch.cols = .ok t' →
    Inv tys t' (s.update ids ch) (marked u ids) ∧ ∀ i ∈ ids, i < s.rows := by
  intro fuel
  induction fuel with
  | zero => intro t s u ids ch t' _ _ _ _ h; unfold Table.updateLoop at h; cases h
  | succ f ih =>
    intro t s u ids ch t' hi hch hsz hnd h
    cases ids with
    | nil =>
      unfold Table.updateLoop at h
      cases h
      rw [update_nil ch (by rw [hi.ok.width, hch.width]), marked_nil]
      exact ⟨hi, by simp⟩
    | cons id ids =>
      unfold Table.updateLoop at h
      rw [Res.bind_ok_iff] at h
      obtain ⟨gi, hgi, h⟩ := h
      rcases hi.groupOf id with ⟨gi', g, h1, h2, h3, h4, h5⟩ | ⟨h1, _⟩
      swap
      · rw [h1] at hgi; cases hgi
      rw [h1] at hgi
      cases hgi
      rw [h2] at h
      simp only at h
      have hg := hi.groups g (List.mem_of_getElem? h2)
      have hb := gchain_bounds hi.chain g (List.mem_of_getElem? h2)
      have hcap : g.count ≤ CAP := by have := hi.le; omega
      rw [vec_base hcap h3 h4, stop_eq hcap] at h
      rw [take_run] at h
      have hall := takeWhile_split (fun i => decide (g.start ≤ i ∧ i < g.start + g.count)) id ids
      have hin : ∀ i ∈ id :: ids.takeWhile (fun i => decide (g.start ≤ i ∧ i < g.start + g.count)), g.start ≤ i ∧ i < g.start + g.count := by
        intro i him
        rw [List.mem_cons] at him
        rcases him with rfl | him
        · exact ⟨h3, h4⟩
        · simpa using List.mem_takeWhile_imp him
      generalize hrun : id :: ids.takeWhile (fun i => decide (g.start ≤ i ∧ i < g.start + g.count)) = run at h hin hall
      generalize hrest : ids.dropWhile (fun i => decide (g.start ≤ i ∧ i < g.start + g.count)) = rest at h hall
      have hlen : run.length + rest.length = ch.size := by rw [← List.length_append, ← hall]; exact hsz
      rw [Res.bind_ok_iff] at h
      obtain ⟨g', hu, h⟩ := h
      rw [hall, List.nodup_append] at hnd
      obtain ⟨n1, n2, n3⟩ := hnd
      obtain ⟨d1, d2, d3⟩ := hg.1.update (ch := ch.take run.length) hi.ok hcap hb.2 (hch.take (by omega)) rfl n1 hin hu
      have hrows : ∀ i ∈ run, i < s.rows := fun i him => by have := hin i him; omega
      have hinv := hi.replace h2 (hi.ok.update (ch := ch.take run.length) (hch.take (by omega)) hrows) rfl d1 d2 d3 (by
        intro j x hj hx
        exact (hi.groups x (List.mem_of_getElem? hx)).1.update_other hi.ok (gchain_bounds hi.chain x (List.mem_of_getElem? hx)).2
          (hch.take (by omega)) rfl fun i him => hi.apart h2 hx (fun e => hj e.symm) i (hin i him).1 (hin i him).2)
      obtain ⟨r1, r2⟩ := ih _ _ _ rest (ch.drop run.length) t' hinv (hch.drop _) (by simp only [Chunk.drop]; omega) n2 h
      have hsplit := update_append (s := s) run rest ch (fun c hc => by have := hch.height c hc; omega) run.length (ch.size - run.length)
      unfold Chunk.drop Chunk.take at r1
      rw [hsplit, marked_append] at r1
      rw [hall]
      refine ⟨r1, ?_⟩
      intro i him
      rw [List.mem_append] at him
      rcases him with him | him
      · exact hrows i him
      · exact r2 i him

theorem Inv.update (h : Inv tys t s u) {ids : List Nat} {ch : Chunk α} (hch : ch.For tys.length) (hsz : ids.length = ch.size)
    (hnd : ids.Nodup) (hu : t.update ids ch = .ok t') : Inv tys t' (s.update ids ch) (marked u ids) ∧ ∀ i ∈ ids, i < s.rows := by
  unfold Table.update at hu
  split at hu
  · next h0 =>
    cases hu
    have : ids = [] := List.length_eq_zero_iff.mp (by omega)
    subst this
    rw [update_nil ch (by rw [h.ok.width, hch.width]), marked_nil]
    exact ⟨h, by simp⟩
  · rw [if_neg (by omega), List.take_of_length_le (by omega)] at hu
    exact updateLoop_sound _ _ _ _ _ _ _ h hch hsz hnd hu

theorem gchain_start {a e rg : Nat} {l : List (RowGroup α)} (h : GChain a l e) (hfull : ∀ g ∈ l.dropLast, g.count = rg) {i : Nat} {g : RowGroup α}
    (hi : l[i]? = some g) : g.start = a + i * rg := by
  induction l generalizing a i with
  | nil => simp at hi
  | cons x l ih =>
    cases i with
    | zero => simp at hi; subst hi; rw [h.1]; simp
    | succ i =>
      have hne : l ≠ [] := by rintro rfl; simp at hi
      have hx := hfull x (by rw [List.dropLast_cons_of_ne_nil hne]; simp)
      have := ih h.2 (fun y hy => hfull y (by rw [List.dropLast_cons_of_ne_nil hne]; simp [hy])) (by simpa using hi)
      rw [this, hx, Nat.succ_mul]; omega

/-- A row can be updated: no row of its block of `CAP` rows was updated before, or one at or behind it. -/
def Open (u : Nat → Bool) (id : Nat) : Prop :=
  (∀ i, i / CAP = id / CAP → u i = false) ∨ ∃ k, k / CAP = id / CAP ∧ u k = true ∧ id ≤ k

theorem updateLoop_runs : ∀ (fuel : Nat) (t : Table α) (s : Ideal α) (u : Nat → Bool) (ids : List Nat) (ch : Chunk α),
    Inv tys t s u → t.rgSize = CAP → ch.For tys.length → ids.length = ch.size → ids.Pairwise (· < ·) → ids.length < fuel →
    (∀ i ∈ ids, i < s.rows) →
    ((∀ i ∈ ids, Open u i) → ∃ t', t.updateLoop fuel ids ch.cols = .ok t') ∧
      ((∃ i ∈ ids, ¬ Open u i) → 0 < tys.length → t.updateLoop fuel ids ch.cols = .ub) := by
  intro fuel
  induction fuel with
  | zero => intros; omega
  | succ f ih =>
    intro t s u ids ch hi hrg hch hsz hasc hf hrows
    cases ids with
    | nil => unfold Table.updateLoop; exact ⟨fun _ => ⟨_, rfl⟩, fun ⟨i, hi, _⟩ => by simp at hi⟩
    | cons id ids =>
      unfold Table.updateLoop
      have hnd : (id :: ids).Nodup := hasc.imp (fun h => Nat.ne_of_lt h)
      rcases hi.groupOf id with ⟨gi, g, h1, h2, h3, h4, h5⟩ | ⟨h1, h2⟩
      swap
      · have := hrows id (by simp); omega
      rw [h1, Res.bind_ok, h2]
      simp only
      have hg := hi.groups g (List.mem_of_getElem? h2)
      have hb := gchain_bounds hi.chain g (List.mem_of_getElem? h2)
      have hcap : g.count ≤ CAP := by have := hi.le; omega
      have hstart := gchain_start hi.chain hi.full h2
      rw [hrg, Nat.zero_add] at hstart
      have hcap0 : 0 < CAP := by unfold CAP; omega
      have hblock : ∀ i, g.start ≤ i → i < g.start + g.count → i / CAP = gi := by
        intro i a b
        rw [hstart] at a b
        apply Nat.div_eq_of_lt_le
        · exact a
        · rw [Nat.succ_mul]; omega
      rw [vec_base hcap h3 h4, stop_eq hcap]
      rw [take_run]
      have hall := takeWhile_split (fun i => decide (g.start ≤ i ∧ i < g.start + g.count)) id ids
      have hin : ∀ i ∈ id :: ids.takeWhile (fun i => decide (g.start ≤ i ∧ i < g.start + g.count)), g.start ≤ i ∧ i < g.start + g.count := by
        intro i him
        rw [List.mem_cons] at him
        rcases him with rfl | him
        · exact ⟨h3, h4⟩
        · simpa using List.mem_takeWhile_imp him
      have hout : ∀ i ∈ ids.dropWhile (fun i => decide (g.start ≤ i ∧ i < g.start + g.count)), g.start + g.count ≤ i := by
        have hs2 : (ids.dropWhile (fun i => decide (g.start ≤ i ∧ i < g.start + g.count))).Pairwise (· < ·) :=
          List.Pairwise.sublist ((List.dropWhile_sublist _).trans (List.sublist_cons_self id ids)) hasc
        cases hdw : ids.dropWhile (fun i => decide (g.start ≤ i ∧ i < g.start + g.count)) with
        | nil => simp
        | cons y ys =>
          have hy := List.head?_dropWhile_not (fun i => decide (g.start ≤ i ∧ i < g.start + g.count)) ids
          rw [hdw] at hy hs2
          simp only [List.head?_cons] at hy
          have hym : y ∈ ids := (List.dropWhile_sublist (l := ids) (p := fun i => decide (g.start ≤ i ∧ i < g.start + g.count))).subset (by rw [hdw]; simp)
          have hlt := (List.pairwise_cons.mp hasc).1 y hym
          have hy' : g.start + g.count ≤ y := by
            by_contra hc
            have : decide (g.start ≤ y ∧ y < g.start + g.count) = true := by
              rw [decide_eq_true_eq]; omega
            simp [this] at hy
          intro i him
          rw [List.mem_cons] at him
          rcases him with rfl | him
          · exact hy'
          · have := (List.pairwise_cons.mp hs2).1 i him
            omega
      have hrunlen : 0 < (id :: ids.takeWhile (fun i => decide (g.start ≤ i ∧ i < g.start + g.count))).length := by simp
      generalize hrun : id :: ids.takeWhile (fun i => decide (g.start ≤ i ∧ i < g.start + g.count)) = run at hin hall hrunlen
      generalize hrest : ids.dropWhile (fun i => decide (g.start ≤ i ∧ i < g.start + g.count)) = rest at hall hout
      have hlen : run.length + rest.length = ch.size := by rw [← List.length_append, ← hall]; exact hsz
      have hmem : ∀ i ∈ run, i ∈ id :: ids := fun i him => by rw [hall]; exact List.mem_append_left _ him
      have hmem2 : ∀ i ∈ rest, i ∈ id :: ids := fun i him => by rw [hall]; exact List.mem_append_right _ him
      rw [hall, List.nodup_append] at hnd
      obtain ⟨n1, n2, n3⟩ := hnd
      have hasc' := hasc
      rw [hall, List.pairwise_append] at hasc'
      -- a row of the table in the block of this group lies in the group
      have hsame : ∀ m, m < s.rows → m / CAP = gi → g.start ≤ m ∧ m < g.start + g.count := by
        intro m hm hmb
        obtain ⟨gx, hgx, hx1, hx2⟩ := gchain_find hi.chain (Nat.zero_le m) hm
        obtain ⟨gj, hgj⟩ := List.getElem?_of_mem hgx
        have hsx := gchain_start hi.chain hi.full hgj
        have hcx : gx.count ≤ CAP := by have := (hi.groups gx hgx).2; have := hi.le; omega
        rw [hrg, Nat.zero_add] at hsx
        have : m / CAP = gj := by
          apply Nat.div_eq_of_lt_le
          · omega
          · rw [Nat.succ_mul]; omega
        rw [this] at hmb
        subst hmb
        rw [h2] at hgj
        cases hgj
        exact ⟨hx1, hx2⟩
      by_cases hopenrun : ∀ i ∈ run, Open u i
      · obtain ⟨g', hu⟩ := hg.1.update_runs (ch := ch.take run.length) hi.ok hcap hb.2 (hch.take (by omega)) rfl
          (by rintro rfl; simp at hrunlen) n1 hin (by
            by_cases hany : ∃ k, k < g.count ∧ u (g.start + k) = true
            · right
              intro i him
              obtain ⟨k, hk1, hk2⟩ := hany
              have hbi := hblock i (hin i him).1 (hin i him).2
              rcases hopenrun i him with ho | ⟨m, m1, m2, m3⟩
              · have := ho (g.start + k) (by rw [hbi]; exact hblock _ (by omega) (by omega))
                rw [hk2] at this
                cases this
              · have := hsame m (hi.ok.upd m m2) (by rw [m1, hbi])
                refine ⟨m - g.start, by omega, ?_, by omega⟩
                rw [show g.start + (m - g.start) = m by omega]
                exact m2
            · left
              intro k hk
              cases huk : u (g.start + k) with
              | false => rfl
              | true => exact (hany ⟨k, hk, huk⟩).elim)
        have hu' : g.update run (ch.cols.map (·.take run.length)) = .ok g' := hu
        rw [hu', Res.bind_ok]
        obtain ⟨d1, d2, d3⟩ := hg.1.update (ch := ch.take run.length) hi.ok hcap hb.2 (hch.take (by omega)) rfl n1 hin hu
        have hrows' : ∀ i ∈ run, i < s.rows := fun i him => by have := hin i him; omega
        have hinv := hi.replace h2 (hi.ok.update (ch := ch.take run.length) (hch.take (by omega)) hrows') rfl d1 d2 d3 (by
          intro j x hj hx
          exact (hi.groups x (List.mem_of_getElem? hx)).1.update_other hi.ok (gchain_bounds hi.chain x (List.mem_of_getElem? hx)).2
            (hch.take (by omega)) rfl fun i him => hi.apart h2 hx (fun e => hj e.symm) i (hin i him).1 (hin i him).2)
        obtain ⟨r1, r2⟩ := ih _ _ _ rest (ch.drop run.length) hinv hrg (hch.drop _) (by simp only [Chunk.drop]; omega) hasc'.2.1
          (by simp only [List.length_cons] at hf; simp only [List.length_cons] at hsz; omega) (fun i him => hrows i (hmem2 i him))
        have hmk : ∀ i ∈ rest, ∀ k, k / CAP = i / CAP → marked u run k = u k := by
          intro i him k hk
          unfold marked
          have : k ∉ run := by
            intro hm
            have hkb := hblock k (hin k hm).1 (hin k hm).2
            have h6 := hsame i (hrows i (hmem2 i him)) (by rw [← hk, hkb])
            have := hout i him
            omega
          simp [this]
        have hop : ∀ i ∈ rest, (Open (marked u run) i ↔ Open u i) := by
          intro i him
          unfold Open
          constructor
          · rintro (ho | ⟨m, m1, m2, m3⟩)
            · exact .inl fun k hk => by rw [← hmk i him k hk]; exact ho k hk
            · exact .inr ⟨m, m1, by rw [← hmk i him m m1]; exact m2, m3⟩
          · rintro (ho | ⟨m, m1, m2, m3⟩)
            · exact .inl fun k hk => by rw [hmk i him k hk]; exact ho k hk
            · exact .inr ⟨m, m1, by rw [hmk i him m m1]; exact m2, m3⟩
        constructor
        · intro hopen
          exact r1 fun i him => (hop i him).mpr (hopen i (hmem2 i him))
        · rintro ⟨i, him, hno⟩ hw
          rw [hall, List.mem_append] at him
          rcases him with him | him
          · exact (hno (hopenrun i him)).elim
          · exact r2 ⟨i, him, fun ho => hno ((hop i him).mp ho)⟩ hw
      · have hbad : ∃ i ∈ run, ¬ Open u i := by
          by_contra hc
          apply hopenrun
          intro i him
          by_contra hno
          exact hc ⟨i, him, hno⟩
        obtain ⟨i, him, hno⟩ := hbad
        constructor
        · intro hopen
          exact (hno (hopen i (hmem i him))).elim
        · intro _ hw
          have hbi := hblock i (hin i him).1 (hin i him).2
          have hub := hg.1.update_ub (ch := ch.take run.length) hi.ok hcap hb.2 (hch.take (by omega)) rfl hw n1 hin (by
            by_contra hc
            apply hno
            left
            intro k hk
            cases huk : u k with
            | false => rfl
            | true =>
              exfalso
              apply hc
              have := hsame k (hi.ok.upd k huk) (by rw [hk, hbi])
              exact ⟨k - g.start, by omega, by rw [show g.start + (k - g.start) = k by omega]; exact huk⟩) (by
            refine ⟨i, him, ?_⟩
            intro k hk huk
            by_contra hc
            apply hno
            right
            exact ⟨g.start + k, by rw [hbi]; exact hblock _ (by omega) (by omega), huk, by omega⟩)
          have hub' : g.update run (ch.cols.map (·.take run.length)) = .ub := hub
          rw [hub']
          rfl

end Verif.Table
