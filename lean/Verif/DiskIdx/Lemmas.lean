import Verif.DiskIdx.Spec
import Verif.Table.Column
/-!
Lemmas for C77 and C78.
-/
namespace Verif.DiskIdx

open Verif.IndexDisk (Cmp rows Op want wants)

variable {K : Type} [LinearOrder K]

/-! ### lists -/

theorem mInsert_perm (k : K) (d : Doc K) (es : List (K × Doc K)) : (mInsert k d es).Perm ((k, d) :: es) := by
  induction es with
  | nil => exact List.Perm.refl _
  | cons e es ih =>
    simp only [mInsert]
    split
    · exact List.Perm.refl _
    · exact (List.Perm.cons e ih).trans (List.Perm.swap _ _ _)

/-- In the order of the keys. -/
def ByKey (es : List (K × Doc K)) : Prop := es.Pairwise fun a b => a.1 ≤ b.1

theorem mInsert_byKey (k : K) (d : Doc K) (es : List (K × Doc K)) (h : ByKey es) : ByKey (mInsert k d es) := by
  induction es with
  | nil => exact List.pairwise_singleton _ _
  | cons e es ih =>
    have h' := List.pairwise_cons.mp h
    simp only [mInsert]
    by_cases hk : k < e.1
    · rw [if_pos hk]
      refine List.pairwise_cons.mpr ⟨?_, h⟩
      intro x hx
      rcases List.mem_cons.mp hx with rfl | hx
      · exact le_of_lt hk
      · exact le_trans (le_of_lt hk) (h'.1 x hx)
    · rw [if_neg hk]
      refine List.pairwise_cons.mpr ⟨?_, ih h'.2⟩
      intro x hx
      rcases List.mem_cons.mp ((mInsert_perm k d es).mem_iff.mp hx) with rfl | hx
      · exact le_of_not_gt hk
      · exact h'.1 x hx

theorem mErase_ok (k : K) (es : List (K × Doc K)) (R : List K) (h : (es.map Prod.fst).Perm (k :: R)) :
    ∃ es', mErase k es = .ok es' ∧ (es'.map Prod.fst).Perm R := by
  induction es generalizing R with
  | nil => exact absurd h.length_eq (by simp)
  | cons e es ih =>
    simp only [mErase]
    by_cases he : e.1 = k
    · rw [if_pos he]
      refine ⟨es, rfl, ?_⟩
      rw [List.map_cons, he] at h
      exact (List.perm_cons k).mp h
    · rw [if_neg he]
      have hm : e.1 ∈ R := by
        have : e.1 ∈ k :: R := h.mem_iff.mp (by simp)
        rcases List.mem_cons.mp this with h1 | h1
        · exact absurd h1 he
        · exact h1
      have h2 : (es.map Prod.fst).Perm (k :: R.erase e.1) := by
        have h3 : (e.1 :: es.map Prod.fst).Perm (e.1 :: k :: R.erase e.1) :=
          h.trans ((List.Perm.cons k (List.perm_cons_erase hm)).trans (List.Perm.swap _ _ _))
        exact (List.perm_cons _).mp h3
      obtain ⟨es', e1, e2⟩ := ih _ h2
      refine ⟨e :: es', by rw [e1]; rfl, ?_⟩
      rw [List.map_cons]
      exact (List.Perm.cons _ e2).trans (List.perm_cons_erase hm).symm

theorem takeWhile_true {α : Type} (p : α → Bool) (l : List α) (h : ∀ x ∈ l, p x = true) : l.takeWhile p = l := by
  induction l with
  | nil => rfl
  | cons a l ih => rw [List.takeWhile_cons, if_pos (h a (by simp)), ih fun x hx => h x (by simp [hx])]

theorem dropWhile_false {α : Type} (p : α → Bool) (l : List α) (h : ∀ x ∈ l, p x = false) : l.dropWhile p = l := by
  cases l with
  | nil => rfl
  | cons a l => rw [List.dropWhile_cons, if_neg (by rw [h a (by simp)]; simp)]

theorem dropWhile_congr' {α : Type} (p p' : α → Bool) (l : List α) (h : ∀ x ∈ l, p x = p' x) : l.dropWhile p = l.dropWhile p' := by
  induction l with
  | nil => rfl
  | cons a l ih => rw [List.dropWhile_cons, List.dropWhile_cons, h a (by simp), ih fun x hx => h x (by simp [hx])]

/-- Over entries that all stand in the relation, the ranges are all of them. -/
theorem ranges_all (c : Cmp) (k : K) (es : List (K × Doc K)) (h : ∀ e ∈ es, c.holds e.1 k) : ranges c k es = es := by
  cases c <;> simp only [ranges, Cmp.holds] at *
  · rw [dropWhile_false _ _ (fun x hx => by simp [h x hx]), takeWhile_true _ _ (fun x hx => by simp [h x hx])]
  · rw [dropWhile_congr' (fun e => decide (e.1 ≤ k)) (fun e => decide (e.1 < k)) es
      (fun x hx => by simp [le_iff_lt_or_eq, h x hx])]
    exact List.takeWhile_append_dropWhile
  · exact dropWhile_false _ _ fun x hx => by simp [h x hx]
  · exact takeWhile_true _ _ fun x hx => by simp [h x hx]
  · rw [dropWhile_false (fun e : K × Doc K => decide (e.1 < k)) _ (fun x hx => by simp [h x hx])]
    exact List.takeWhile_append_dropWhile
  · rw [takeWhile_true (fun e : K × Doc K => decide (e.1 ≤ k)) _ (fun x hx => by
      have := (List.dropWhile_sublist _).subset hx
      simp [h x this])]
    exact List.takeWhile_append_dropWhile
  · cases es with
    | nil => rfl
    | cons a l => exact (h a (by simp)).elim

theorem searchLoop_eq (lim : Int) (es : List (K × Doc K)) (n : Nat) :
    searchLoop lim es n = if lim = -1 then es.map Prod.snd else (es.map Prod.snd).take (lim - n).toNat := by
  induction es generalizing n with
  | nil => simp [searchLoop]
  | cons e es ih =>
    simp only [searchLoop, Query.limOk]
    by_cases h1 : lim = -1
    · rw [if_pos h1]
      simp only [h1, beq_self_eq_true, Bool.true_or, if_true, List.map_cons, List.cons.injEq, true_and]
      have := ih (n + 1)
      rw [if_pos h1] at this
      rw [← h1]; exact this
    · rw [if_neg h1]
      have h1' : (lim == -1) = false := by simpa using h1
      simp only [h1', Bool.false_or, decide_eq_true_eq]
      by_cases h2 : (n : Int) < lim
      · have h3 : (lim - n).toNat = (lim - (n + 1 : Nat)).toNat + 1 := by omega
        rw [if_pos h2, ih, if_neg h1, h3, List.map_cons, List.take_succ_cons]
      · have h3 : (lim - n).toNat = 0 := by omega
        rw [if_neg h2, h3, List.take_zero]

theorem search_eq (p : Plan K) (es : List (K × Doc K)) (h : ∀ e ∈ es, p.cmp.holds e.1 p.val) :
    search p es = firstN p.lim (es.map Prod.snd) := by
  unfold search firstN
  rw [ranges_all _ _ _ h, searchLoop_eq]
  by_cases h1 : p.lim = -1
  · simp [h1, Query.limOk]
  · rw [if_neg h1, if_neg h1]
    have h1' : (p.lim == -1) = false := by simpa using h1
    simp only [Query.limOk, h1', Bool.false_or, decide_eq_true_eq, Nat.cast_zero, Int.sub_zero]
    by_cases h2 : 0 < p.lim
    · rw [if_pos h2]
    · have : p.lim.toNat = 0 := by omega
      rw [if_neg h2, this, List.take_zero]

theorem firstN_sublist {α : Type} (lim : Int) (l : List α) : (firstN lim l).Sublist l := by
  unfold firstN
  split
  · exact List.Sublist.refl _
  · exact List.take_sublist _ _

/-! ### reading the index back -/

/-- The ids of documents that are there and have the field. -/
theorem syncLoop_ok (S : List (Doc K)) (hS : (S.map Doc.id).Nodup) (docs : List (Doc K)) (hd : ∀ d ∈ docs, d ∈ S ∧ d.key ≠ none)
    (m : List (K × Doc K)) (hm : ByKey m) :
    ∃ m', syncLoop S (docs.map Doc.id) m = .ok m' ∧ ByKey m' ∧ (m'.map Prod.snd).Perm (m.map Prod.snd ++ docs) ∧
      ∀ e ∈ m', e ∈ m ∨ (e.2 ∈ docs ∧ e.2.key = some e.1) := by
  induction docs generalizing m with
  | nil => exact ⟨m, rfl, hm, by simp, fun e he => .inl he⟩
  | cons d ds ih =>
    obtain ⟨hdS, hdk⟩ := hd d (by simp)
    obtain ⟨k, hk⟩ := Option.ne_none_iff_exists'.mp hdk
    have hf : S.find? (fun e => e.id = d.id) = some d := by
      clear hd ih
      induction S with
      | nil => cases hdS
      | cons x xs ihx =>
        rw [List.map_cons] at hS
        have hS' := List.nodup_cons.mp hS
        rw [List.find?_cons]
        by_cases hx : x.id = d.id
        · simp only [hx, decide_true]
          rcases List.mem_cons.mp hdS with rfl | h1
          · rfl
          · exact absurd (List.mem_map.mpr ⟨d, h1, hx.symm⟩) hS'.1
        · simp only [hx, decide_false]
          rcases List.mem_cons.mp hdS with rfl | h1
          · exact absurd rfl hx
          · exact ihx hS'.2 h1
    have h1 : syncOne S m d.id = .ok (mInsert k d m) := by
      unfold syncOne
      rw [hf]
      simp only [hk]
    obtain ⟨m', e1, e2, e3, e4⟩ := ih (fun x hx => hd x (by simp [hx])) (mInsert k d m) (mInsert_byKey k d m hm)
    refine ⟨m', ?_, e2, ?_, ?_⟩
    · rw [List.map_cons]
      show (syncOne S m d.id).bind _ = _
      rw [h1]; exact e1
    · refine e3.trans ?_
      have := ((mInsert_perm k d m).map Prod.snd).append_right ds
      refine this.trans ?_
      rw [List.map_cons]
      show (d :: (m.map Prod.snd ++ ds)).Perm _
      exact List.perm_middle.symm
    · intro e he
      rcases e4 e he with h2 | h2
      · rcases List.mem_cons.mp ((mInsert_perm k d m).mem_iff.mp h2) with rfl | h3
        · exact .inr ⟨by simp, hk⟩
        · exact .inl h3
      · exact .inr ⟨by simp [h2.1], h2.2⟩

/-! ### deletes -/

/-- The messages that remove documents from the index. -/
def removals (s : Session) (ds : List (Doc K)) : List (Msg K) := ds.filterMap fun d => d.key.map fun k => .remove s k d.id

theorem deleteAll_ok (s : Session) (ds : List (Doc K)) (st : State K) (hn : (ds.map Doc.id).Nodup)
    (hd : ∀ d ∈ ds, d ∈ st.store) (R : List K) (hR : (st.mem.map Prod.fst).Perm (ds.filterMap Doc.key ++ R)) :
    ∃ m, (m.map Prod.fst).Perm R ∧ deleteAll s ds st = .ok { st with
      store := st.store.filter (fun e => e.id ∉ ds.map Doc.id), mem := m, box := st.box ++ removals s ds } := by
  induction ds generalizing st with
  | nil =>
    refine ⟨st.mem, by simpa using hR, ?_⟩
    simp [deleteAll, removals]
  | cons d ds ih =>
    rw [List.map_cons] at hn
    have hn' := List.nodup_cons.mp hn
    have hmem : d.id ∈ st.store.map Doc.id := List.mem_map_of_mem (hd d (by simp))
    have hd' : ∀ x ∈ ds, x ∈ erase d.id st.store := fun x hx => by
      unfold erase
      refine List.mem_filter.mpr ⟨hd x (by simp [hx]), ?_⟩
      have : x.id ≠ d.id := fun h => hn'.1 (h ▸ List.mem_map_of_mem hx)
      simpa using this
    have hstore : (erase d.id st.store).filter (fun e => e.id ∉ ds.map Doc.id) = st.store.filter (fun e => e.id ∉ (d :: ds).map Doc.id) := by
      unfold erase
      rw [List.filter_filter]
      congr 1
      funext e
      simp only [List.map_cons, List.mem_cons, not_or, Bool.decide_and, ne_eq]
      rw [Bool.and_comm]
    simp only [deleteAll, deleteOne, if_pos hmem]
    cases hk : d.key with
    | none =>
      rw [List.filterMap_cons, hk] at hR
      obtain ⟨m, e1, e2⟩ := ih { st with store := erase d.id st.store } hn'.2 hd' hR
      refine ⟨m, e1, ?_⟩
      have h1 : idxDelete s d { st with store := erase d.id st.store } = .ok { st with store := erase d.id st.store } := by
        unfold idxDelete; rw [hk]
      rw [h1, Res.bind_ok, e2]
      simp only [hstore, removals, List.filterMap_cons, hk, Option.map_none]
    | some k =>
      rw [List.filterMap_cons, hk] at hR
      obtain ⟨m0, f1, f2⟩ := mErase_ok k st.mem (ds.filterMap Doc.key ++ R) hR
      obtain ⟨m, e1, e2⟩ := ih { st with store := erase d.id st.store, mem := m0, box := st.box ++ [.remove s k d.id] } hn'.2 hd' f2
      refine ⟨m, e1, ?_⟩
      have h1 : idxDelete s d { st with store := erase d.id st.store } =
          .ok { st with store := erase d.id st.store, mem := m0, box := st.box ++ [.remove s k d.id] } := by
        unfold idxDelete; rw [hk]; simp only [f1, Res.map'_ok]
      rw [h1, Res.bind_ok, e2]
      simp only [hstore, removals, List.filterMap_cons, hk, Option.map_some, List.append_assoc, List.singleton_append]

/-! ### inserts -/

/-- The messages that insert documents into the index. -/
def insertions (s : Session) (ds : List (Doc K)) : List (Msg K) := ds.filterMap fun d => d.key.map fun k => .insert s k d.id

theorem assign_new (d : Doc K) (l : List (Doc K)) (h : d.id ∉ l.map Doc.id) : assign d l = l ++ [d] := by
  unfold assign
  rw [List.filter_eq_self.mpr]
  intro e he
  have : e.id ≠ d.id := fun h1 => h (h1 ▸ List.mem_map_of_mem he)
  simpa using this

theorem insertAll_ok (s : Session) (ds : List (Doc K)) (st : State K) (hn : (ds.map Doc.id).Nodup)
    (hd : ∀ d ∈ ds, d.id ∉ st.store.map Doc.id) :
    ∃ m sv, (m.map Prod.fst).Perm (st.mem.map Prod.fst ++ ds.filterMap Doc.key) ∧ (st.saved = st.store → sv = st.store ++ ds) ∧
      insertAll s ds st = { st with store := st.store ++ ds, saved := sv, mem := m, box := st.box ++ insertions s ds } := by
  induction ds generalizing st with
  | nil =>
    refine ⟨st.mem, st.saved, by simp, by simp, ?_⟩
    simp [insertAll, insertions]
  | cons d ds ih =>
    rw [List.map_cons] at hn
    have hn' := List.nodup_cons.mp hn
    have hnew := hd d (by simp)
    have ha := assign_new d st.store hnew
    have hd' : ∀ x ∈ ds, x.id ∉ (st.store ++ [d]).map Doc.id := fun x hx => by
      rw [List.map_append, List.mem_append, not_or]
      refine ⟨hd x (by simp [hx]), ?_⟩
      have : x.id ≠ d.id := fun h => hn'.1 (h ▸ List.mem_map_of_mem hx)
      simpa using this
    simp only [insertAll, ha]
    cases hk : d.key with
    | none =>
      obtain ⟨m, sv, e1, e2, e3⟩ := ih { st with store := st.store ++ [d], saved := assign d st.saved } hn'.2 hd'
      refine ⟨m, sv, by rw [List.filterMap_cons, hk]; exact e1, ?_, ?_⟩
      · intro h
        rw [e2 (by show assign d st.saved = _; rw [h, ha])]
        show st.store ++ [d] ++ ds = _
        rw [List.append_assoc, List.singleton_append]
      · have h1 : idxInsert s d { st with store := st.store ++ [d], saved := assign d st.saved } = { st with store := st.store ++ [d], saved := assign d st.saved } := by
          unfold idxInsert; rw [hk]
        rw [h1, e3]
        simp only [insertions, List.filterMap_cons, hk, Option.map_none, List.append_assoc, List.singleton_append]
    | some k =>
      obtain ⟨m, sv, e1, e2, e3⟩ := ih { st with store := st.store ++ [d], saved := assign d st.saved, mem := mInsert k d st.mem, box := st.box ++ [.insert s k d.id] } hn'.2 hd'
      refine ⟨m, sv, ?_, ?_, ?_⟩
      · rw [List.filterMap_cons, hk]
        refine e1.trans ?_
        have := ((mInsert_perm k d st.mem).map Prod.fst).append_right (ds.filterMap Doc.key)
        exact this.trans List.perm_middle.symm
      · intro h
        rw [e2 (by show assign d st.saved = _; rw [h, ha])]
        show st.store ++ [d] ++ ds = _
        rw [List.append_assoc, List.singleton_append]
      · have h1 : idxInsert s d { st with store := st.store ++ [d], saved := assign d st.saved } =
            { st with store := st.store ++ [d], saved := assign d st.saved, mem := mInsert k d st.mem, box := st.box ++ [.insert s k d.id] } := by
          unfold idxInsert; rw [hk]
        rw [h1, e3]
        simp only [insertions, List.filterMap_cons, hk, Option.map_some, List.append_assoc, List.singleton_append]

end Verif.DiskIdx
