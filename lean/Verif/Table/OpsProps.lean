import Verif.Table.Ops
/-!
C68, C69: SELECT and DELETE on columnar tables. `Ideal.chosen` says which rows a statement is about,
`Shows` that an operator's output has these rows (`Verif.Table.OpsModel`).
-/
namespace Verif.Table
open Verif
open Verif.Mvcc (CAP)
variable {α : Type} {tys : List (ColTy α)} {t t' : Table α} {s : Ideal α} {h : List (Call α)}

/-! ## C68: a query returns all rows that satisfy it -/

/-- The full C68 claim. -/
def C68_select_claim (α : Type) : Prop :=
  ∀ (cmp : α → α → Ordering) (tys : List (ColTy α)) (h : List (Call α)) (t : Table α) (s : Ideal α), (∀ ty ∈ tys, ty.Ok) →
    After tys h t s → s.rows < 2 ^ 62 → ∀ (e : Option (Ex α)) (limit : Int), -1 ≤ limit → (∀ x, e = some x → x.On (· < tys.length)) →
      ∃ o, t.scanOp cmp e limit = .ok o ∧ Shows s tys.length (s.chosen cmp e limit) o

/-- **C68**, without a condition, what is returned: the rows that are left of one block of 1024 rows, the
block of the first row that is left, and of these as many as the limit allows, with their cells. -/
theorem C68_select_all_first_block (cmp : α → α → Ordering) (hty : ∀ ty ∈ tys, ty.Ok) (ha : After tys h t s) (hr : s.rows < 2 ^ 62)
    (e : Option (Ex α)) (he : e = none ∨ e = some .allTrue) (limit : Int) (hl : -1 ≤ limit) :
    ∃ o, t.scanOp cmp e limit = .ok o ∧ Shows s tys.length (first limit (match s.live with
      | [] => []
      | i :: l => (i :: l).filter fun k => decide (k / 1024 = i / 1024))) o := by
  obtain ⟨hi, hrg⟩ := ha.inv hty hr
  by_cases h0 : Query.limOk limit 0 = true
  · have htr : transform e = none := by rcases he with rfl | rfl <;> rfl
    obtain ⟨p, h1, h2, _⟩ := scanOp_ok cmp hi hrg e (P := fun _ => true) (by rw [htr]; intro g _ p _ _; rfl) limit h0
    have : (s.live.filter fun _ => true) = s.live := by simp
    rw [this] at h2
    exact ⟨some p, h1, by cases hl : s.live <;> (rw [hl] at h2; exact h2)⟩
  · refine ⟨none, by unfold Table.scanOp; rw [if_neg h0], ?_⟩
    have : limit = 0 := by
      unfold Query.limOk at h0
      simp at h0
      omega
    subst this
    simp [Shows, first]

/-- **C68, partial**: the claim holds for tables of at most 1024 rows, without a condition. Missing:
larger tables, for which it is false. -/
theorem C68_select_all_partial (cmp : α → α → Ordering) (hty : ∀ ty ∈ tys, ty.Ok) (ha : After tys h t s) (hr : s.rows ≤ 1024)
    (e : Option (Ex α)) (he : e = none ∨ e = some .allTrue) (limit : Int) (hl : -1 ≤ limit) :
    ∃ o, t.scanOp cmp e limit = .ok o ∧ Shows s tys.length (s.chosen cmp e limit) o := by
  obtain ⟨o, h1, h2⟩ := C68_select_all_first_block cmp hty ha (by omega) e he limit hl
  refine ⟨o, h1, ?_⟩
  have h3 := firstBlock_small s.live (fun i him => by have := (mem_live.mp him).1; omega)
  have h4 : s.chosen cmp e limit = first limit (firstBlock s.live) := by
    rw [h3]
    unfold Ideal.chosen
    congr 1
    rcases he with rfl | rfl <;> simp [Ex.holds]
  rw [h4]
  cases hl : s.live <;> (rw [hl] at h2; exact h2)

/-- **C68, partial**: with a condition the claim holds for tables of at most 1024 rows of which none was
updated, if the columns the condition names are not NULL in the rows that are left. -/
theorem C68_select_where_partial (cmp : α → α → Ordering) (hty : ∀ ty ∈ tys, ty.Ok) (ha : After tys h t s) (hr : s.rows ≤ 1024)
    (hu : ∀ i, touched h i = false) (e : Ex α) (hne : e.On fun _ => True)
    (hf : ∀ i ∈ s.live, e.On fun c => ∃ x, (s.row i)[c]? = some (some x)) (limit : Int) (hl : -1 ≤ limit) :
    ∃ o, t.scanOp cmp (some e) limit = .ok o ∧ Shows s tys.length (s.chosen cmp (some e) limit) o := by
  obtain ⟨hi, hrg⟩ := ha.inv hty (by omega)
  by_cases h0 : Query.limOk limit 0 = true
  · obtain ⟨p, h1, h2, _⟩ := scanOp_ok cmp hi hrg (some e) (decides_where cmp hty ha hr hu e hf hne) limit h0
    refine ⟨some p, h1, ?_⟩
    rw [firstBlock_small _ (fun i him => by have := (mem_live.mp (List.mem_filter.mp him).1).1; omega)] at h2
    exact h2
  · refine ⟨none, by unfold Table.scanOp; rw [if_neg h0], ?_⟩
    have : limit = 0 := by
      unfold Query.limOk at h0
      simp at h0
      omega
    subst this
    simp [Shows, Ideal.chosen, first]

/-- The hypotheses are met: `x > 5` on 5 and 7 (the NULL row is deleted), at most three rows. -/
example : ∃ t t' p, (Table.create [exTy]).append [exChunk] = .ok t ∧ t.delete [1] = .ok (t', 1) ∧
    t'.scanOp compare (some (.cmp .gt 0 5)) 3 = .ok (some p) ∧ p.out.ids = [2] := by
  obtain ⟨t, h1, h2⟩ := exAfter
  obtain ⟨t', h3⟩ := C62_delete_returns exTy_ok h1 (by decide) [1] (by decide) (by decide)
  have h4 := (C62_delete exTy_ok h1 (by decide) [1] h3).1
  obtain ⟨o, h5, h6⟩ := C68_select_where_partial compare exTy_ok h4 (by decide) (fun _ => rfl) (.cmp .gt 0 5) trivial (by
    intro i hi
    have : (Ideal.delete (⟨3, [[some 5, none, some 7]], fun _ => false⟩ : Ideal Int) [1]).live = [0, 2] := by decide
    rw [this, List.mem_cons, List.mem_singleton] at hi
    rcases hi with rfl | rfl
    · exact ⟨5, rfl⟩
    · exact ⟨7, rfl⟩) 3 (by decide)
  cases o with
  | none => exact absurd h6 (by show ¬ (_ = ([] : List Nat)); decide)
  | some p =>
    refine ⟨t, t', p, h2, h3, h5, ?_⟩
    rw [h6.1]
    decide

/-- A table with `n` rows. -/
theorem exBig (n : Nat) (hn : n < 2 ^ 62) : ∃ t, After [exTy] [.append [(⟨n, [List.replicate n (some 5)]⟩ : Chunk Int)]] t
    ⟨n, [List.replicate n (some 5)], fun _ => false⟩ := by
  have hch : ∀ ch ∈ [(⟨n, [List.replicate n (some 5)]⟩ : Chunk Int)], ch.For [exTy].length := by
    intro ch hm
    rw [List.mem_singleton] at hm
    subst hm
    refine ⟨rfl, ?_⟩
    intro c hc
    rw [List.mem_singleton] at hc
    subst hc
    exact List.length_replicate
  obtain ⟨t, _, h2⟩ := C61_append_returns exTy_ok .new _ hch (by
    simp only [Ideal.step, List.foldl_cons, List.foldl_nil, Ideal.append, Ideal.empty]; omega)
  refine ⟨t, ?_⟩
  have : (Ideal.empty [exTy].length).step (.append [(⟨n, [List.replicate n (some 5)]⟩ : Chunk Int)]) =
      ⟨n, [List.replicate n (some 5)], fun _ => false⟩ := by
    simp [Ideal.step, Ideal.append, Ideal.empty]
  rw [this] at h2
  exact h2

/-- **C68 fails**: of a table with 1025 rows only 1024 are returned. -/
theorem C68_select_fails : ¬ C68_select_claim Int := by
  intro hc
  obtain ⟨t, h1⟩ := exBig 1025 (by omega)
  obtain ⟨o, h2, h3⟩ := hc compare _ _ t _ exTy_ok h1 (by show 1025 < _; omega) none (-1) (by omega) (by simp)
  obtain ⟨o', h4, h5⟩ := C68_select_all_first_block compare exTy_ok h1 (by show 1025 < _; omega) none (.inl rfl) (-1) (by omega)
  rw [h2] at h4
  cases h4
  have hlive : (⟨1025, [List.replicate 1025 (some 5)], fun _ => false⟩ : Ideal Int).live = List.range 1025 := by
    unfold Ideal.live
    rw [List.filter_eq_self]
    intros; rfl
  have hch : Ideal.chosen compare (⟨1025, [List.replicate 1025 (some 5)], fun _ => false⟩ : Ideal Int) none (-1) = List.range 1025 := by
    unfold Ideal.chosen first
    rw [if_pos rfl, hlive, List.filter_eq_self]
    intros; rfl
  rw [hch] at h3
  have hsucc : List.range 1025 = 0 :: (List.range 1024).map Nat.succ := List.range_succ_eq_map (n := 1024)
  rw [hlive, hsucc] at h5
  simp only [first, if_true] at h5
  cases o with
  | none =>
    have := congrArg List.length h3
    rw [List.length_range] at this
    simp at this
  | some p =>
    have hm : (1024 : Nat) ∈ p.out.ids := by rw [h3.1, List.mem_range]; omega
    rw [h5.1, List.mem_filter] at hm
    have := hm.2
    revert this
    decide

/-! ## C69: DELETE on a table -/

/-- The full C69 claim: a DELETE removes and reports exactly the rows it is about. -/
def C69_delete_claim (α : Type) : Prop :=
  ∀ (cmp : α → α → Ordering) (tys : List (ColTy α)) (h : List (Call α)) (t : Table α) (s : Ideal α), (∀ ty ∈ tys, ty.Ok) →
    After tys h t s → s.rows < 2 ^ 62 → ∀ (e : Option (Ex α)) (limit : Int), -1 ≤ limit → (∀ x, e = some x → x.On (· < tys.length)) →
      ∃ t', t.deleteOp cmp e limit = .ok (t', s.chosen cmp e limit) ∧
        After tys (h ++ [.delete (s.chosen cmp e limit)]) t' (s.delete (s.chosen cmp e limit))

theorem live_nodup (s : Ideal α) : s.live.Nodup := List.nodup_range.filter _

theorem first_nodup {l : List Nat} (h : l.Nodup) (limit : Int) : (first limit l).Nodup := by
  unfold first
  split
  · exact h
  · exact h.sublist (List.take_sublist _ _)

/-- Where the ids are right the delete is right. -/
theorem deleteOp_ok (cmp : α → α → Ordering) (hty : ∀ ty ∈ tys, ty.Ok) (ha : After tys h t s) (hr : s.rows ≤ 1024) {e : Option (Ex α)}
    {limit : Int} {p : Picked α} (h1 : t.scanOp cmp e limit = .ok (some p)) (hids : p.out.ids = s.chosen cmp e limit)
    (hd : p.out.ids ≠ [] → p.dict = true) (hb : ∀ i ∈ p.out.ids, i / 1024 * 1024 = p.base) :
    ∃ t', t.deleteOp cmp e limit = .ok (t', s.chosen cmp e limit) ∧
      After tys (h ++ [.delete (s.chosen cmp e limit)]) t' (s.delete (s.chosen cmp e limit)) := by
  have hlt : ∀ i ∈ s.chosen cmp e limit, i ∈ s.live := fun i hi => (List.mem_filter.mp (first_sub _ _ i hi)).1
  have hrow : p.rowIds = s.chosen cmp e limit := by
    unfold Picked.rowIds
    by_cases hnil : p.out.ids = []
    · rw [hnil] at hids ⊢
      rw [← hids]
      simp
    · rw [hd hnil, if_pos rfl, ← hids]
      conv_rhs => rw [← List.map_id p.out.ids]
      apply List.map_congr_left
      intro i hi
      have h2 := hb i hi
      rw [hids] at hi
      have := (mem_live.mp (hlt i hi)).1
      simp only [id_eq]
      omega
  obtain ⟨t', h2⟩ := C62_delete_returns hty ha (by omega) (s.chosen cmp e limit) (first_nodup ((live_nodup s).filter _) limit) hlt
  refine ⟨t', ?_, (C62_delete hty ha (by omega) _ h2).1⟩
  unfold Table.deleteOp
  rw [h1, Res.bind_ok]
  simp only
  rw [hrow, h2]
  rfl

/-- **C69, partial**: the claim holds for a DELETE with a condition on a table of at most 1024 rows of
which none was updated, if the columns the condition names are not NULL in the rows that are left.
Missing: larger or updated tables and NULLs (as C64, C68), and DELETE without a condition. -/
theorem C69_delete_where_partial (cmp : α → α → Ordering) (hty : ∀ ty ∈ tys, ty.Ok) (ha : After tys h t s) (hr : s.rows ≤ 1024)
    (hu : ∀ i, touched h i = false) (e : Ex α) (hne : e.On fun _ => True)
    (hf : ∀ i ∈ s.live, e.On fun c => ∃ x, (s.row i)[c]? = some (some x)) (limit : Int) (hl : 0 < limit ∨ limit = -1) :
    ∃ t', t.deleteOp cmp (some e) limit = .ok (t', s.chosen cmp (some e) limit) ∧
      After tys (h ++ [.delete (s.chosen cmp (some e) limit)]) t' (s.delete (s.chosen cmp (some e) limit)) := by
  obtain ⟨hi, hrg⟩ := ha.inv hty (by omega)
  have h0 : Query.limOk limit 0 = true := by
    unfold Query.limOk
    rcases hl with hl | hl
    · simp [hl]
    · rw [hl]; rfl
  obtain ⟨p, h1, h2, h3, h4⟩ := scanOp_ok cmp hi hrg (some e) (decides_where cmp hty ha hr hu e hf hne) limit h0
  rw [firstBlock_small _ (fun i him => by have := (mem_live.mp (List.mem_filter.mp him).1).1; omega)] at h2
  refine deleteOp_ok cmp hty ha hr h1 h2.1 ?_ h4
  intro hne'
  rw [h3 (by
    intro hz
    apply hne'
    rw [h2.1, hz]
    simp [first])]
  rw [transform_on e hne]
  rfl

/-- **C69, partial**: a DELETE without a condition is right for a table of at most 1024 rows of which
one was deleted before. -/
theorem C69_delete_all_partial (cmp : α → α → Ordering) (hty : ∀ ty ∈ tys, ty.Ok) (ha : After tys h t s) (hr : s.rows ≤ 1024)
    (hgone : ∃ i, i < s.rows ∧ s.dead i = true) (e : Option (Ex α)) (he : e = none ∨ e = some .allTrue) (limit : Int)
    (hl : 0 < limit ∨ limit = -1) :
    ∃ t', t.deleteOp cmp e limit = .ok (t', s.chosen cmp e limit) ∧
      After tys (h ++ [.delete (s.chosen cmp e limit)]) t' (s.delete (s.chosen cmp e limit)) := by
  obtain ⟨hi, hrg⟩ := ha.inv hty (by omega)
  have h0 : Query.limOk limit 0 = true := by
    unfold Query.limOk
    rcases hl with hl | hl
    · simp [hl]
    · rw [hl]; rfl
  have htr : transform e = none := by rcases he with rfl | rfl <;> rfl
  obtain ⟨p, h1, h2, h3, h4⟩ := scanOp_ok cmp hi hrg e (P := fun _ => true) (by rw [htr]; intro g _ p _ _; rfl) limit h0
  have hall : (s.live.filter fun _ => true) = s.live := by simp
  rw [hall, firstBlock_small _ (fun i him => by have := (mem_live.mp him).1; omega)] at h2 h3
  have hch : s.chosen cmp e limit = first limit s.live := by
    unfold Ideal.chosen
    congr 1
    rcases he with rfl | rfl <;> simp [Ex.holds]
  refine deleteOp_ok cmp hty ha hr h1 (by rw [hch]; exact h2.1) ?_ h4
  intro hne
  obtain ⟨i, hi1, hi2⟩ := hgone
  rw [h3 (by
    intro hz
    apply hne
    rw [h2.1, hz]
    simp [first])]
  have hbase : p.base = 0 := by
    obtain ⟨k, l, hk⟩ := List.exists_cons_of_ne_nil hne
    have hkm : k ∈ p.out.ids := by rw [hk]; simp
    have h5 := h4 k hkm
    rw [h2.1] at hkm
    have := (mem_live.mp (first_sub _ _ k hkm)).1
    omega
  rw [hbase, Bool.or_eq_true, decide_eq_true_eq]
  right
  have hlen : s.live.length < s.rows := by
    unfold Ideal.live
    have := List.length_filter_lt_length_iff_exists (p := fun i => !s.dead i) (l := List.range s.rows)
    rw [List.length_range] at this
    exact this.mpr ⟨i, List.mem_range.mpr hi1, by simp [hi2]⟩
  omega

/-- The hypotheses are met: delete 1 by a condition, then the rest. -/
example : ∃ t t' t'', (Table.create [exTy]).append [⟨3, [[some 5, some 6, some 7]]⟩] = .ok t ∧
    t.deleteOp compare (some (.cmp .eq 0 6)) (-1) = .ok (t', [1]) ∧ t'.deleteOp compare (some .allTrue) (-1) = .ok (t'', [0, 2]) := by
  obtain ⟨t, h1, h2⟩ := C61_append_returns exTy_ok .new [⟨3, [[some 5, some 6, some 7]]⟩] (by
    intro ch hch
    rw [List.mem_singleton] at hch
    subst hch
    exact ⟨rfl, by decide⟩) (by decide)
  have hs : (Ideal.empty [exTy].length).step (.append [(⟨3, [[some 5, some 6, some 7]]⟩ : Chunk Int)]) = ⟨3, [[some 5, some 6, some 7]], fun _ => false⟩ := rfl
  rw [hs] at h2
  obtain ⟨t', h3, h4⟩ := C69_delete_where_partial compare exTy_ok h2 (by decide) (fun _ => rfl) (.cmp .eq 0 6) trivial (by
    intro i hi
    have : (⟨3, [[some 5, some 6, some 7]], fun _ => false⟩ : Ideal Int).live = [0, 1, 2] := by decide
    rw [this] at hi
    simp only [List.mem_cons, List.not_mem_nil, or_false] at hi
    rcases hi with rfl | rfl | rfl
    · exact ⟨5, rfl⟩
    · exact ⟨6, rfl⟩
    · exact ⟨7, rfl⟩) (-1) (.inr rfl)
  obtain ⟨t'', h5, h6⟩ := C69_delete_all_partial compare exTy_ok h4 (by decide) ⟨1, by decide, by decide⟩ (some .allTrue) (.inr rfl) (-1) (.inr rfl)
  have e1 : Ideal.chosen compare (⟨3, [[some 5, some 6, some 7]], fun _ => false⟩ : Ideal Int) (some (.cmp .eq 0 6)) (-1) = [1] := by decide
  rw [e1] at h3 h4 h5
  have e2 : Ideal.chosen compare ((⟨3, [[some 5, some 6, some 7]], fun _ => false⟩ : Ideal Int).delete [1]) (some .allTrue) (-1) = [0, 2] := by decide
  rw [e2] at h5
  exact ⟨t, t', t'', h1, h3, h5⟩

/-- **C69 fails**: `DELETE FROM t` on a table of three rows of which none was deleted before removes row 0
only, and reports row 0 three times. -/
theorem C69_delete_all_fails : ¬ C69_delete_claim Int := by
  intro hc
  obtain ⟨t, h1, h2⟩ := exAfter
  obtain ⟨t', h3, _⟩ := hc compare _ _ t _ exTy_ok h1 (by decide) none (-1) (by decide) (by simp)
  have hrun : ((Table.create [exTy]).append [exChunk]).bind (fun t => (t.deleteOp compare none (-1)).map' Prod.snd) = .ok [0, 0, 0] := by rfl
  rw [h2, Res.bind_ok, h3, Res.map'_ok] at hrun
  injection hrun with hrun
  have hrun' : Ideal.chosen compare (⟨3, [[some 5, none, some 7]], fun _ => false⟩ : Ideal Int) none (-1) = [0, 0, 0] := hrun
  exact absurd hrun' (by decide)

/-- The same, what is left: rows 1 and 2. -/
theorem C69_delete_all_leaves_rows_fails : ((Table.create [exTy]).append [exChunk]).bind (fun t =>
    (t.deleteOp compare none (-1)).bind fun r => r.1.read compare [0] none) = .ok [⟨[1, 2], [[none, some 7]]⟩] := by rfl

end Verif.Table
