import Verif.Wal.Lemmas
namespace Verif.Wal
open Verif

/-- State of a log that has recorded exactly `ops`, with ids 1, 2, …. -/
def Holds (w : Wal) (ops : List Op) : Prop :=
  ∃ rs : List Rec, (∀ r ∈ rs, Good r) ∧ w.file = logBytes rs ∧
    (rs.map fun r => (r.2.1, r.2.2)) = (ops.zipIdx 1).map (fun p => (p.2, p.1)) ∧
    w.id = ops.length ∧ w.lastCrc < 2 ^ 32

theorem logBytes_append (a b : List Rec) : logBytes (a ++ b) = logBytes a ++ logBytes b := by
  simp [logBytes]

theorem logBytes_split (rs : List Rec) (k : Nat) :
    logBytes rs = logBytes (rs.take k) ++ logBytes (rs.drop k) := by
  rw [← logBytes_append, List.take_append_drop]

theorem drop_zipIdx {α : Type} (l : List α) (k s : Nat) :
    (l.zipIdx s).drop k = (l.drop k).zipIdx (s + k) := by
  induction l generalizing k s with
  | nil => simp
  | cons a l ih =>
    cases k with
    | zero => simp
    | succ k => simp [ih, Nat.add_assoc, Nat.add_comm 1 k]

theorem holds_empty : Holds emptyLog [] := ⟨[], by simp, rfl, rfl, rfl, by decide⟩

theorem holds_append {w : Wal} {ops : List Op} {op : Op} (h : Holds w ops) (hf : Fits op)
    (hn : ops.length + 1 < 2 ^ 64) : Holds (append w op) (ops ++ [op]) := by
  obtain ⟨rs, hg, hfile, hids, hid, hcrc⟩ := h
  have hmod : (w.id + 1) % 2 ^ 64 = ops.length + 1 := by rw [hid]; exact Nat.mod_eq_of_lt hn
  refine ⟨rs ++ [(w.lastCrc, ops.length + 1, op)], ?_, ?_, ?_, ?_, ?_⟩
  · intro r hr
    simp at hr
    rcases hr with hr | rfl
    · exact hg r hr
    · exact ⟨hcrc, by simp, by simpa using hn, hf.1, hf.2.1, payload_lt hcrc hf⟩
  · simp [append, nextRecord, hmod, hfile, logBytes, recBytes]
  · rw [List.map_append, hids, List.zipIdx_append]
    simp [Nat.add_comm]
  · simp [append, hmod]
  · exact Crc.crc32c_lt _

theorem ids_last {rs : List Rec} {ops : List Op}
    (hids : (rs.map fun r => (r.2.1, r.2.2)) = (ops.zipIdx 1).map (fun p => (p.2, p.1))) :
    (rs.map fun r => r.2.1).getLastD 0 = ops.length := by
  have h1 : (rs.map fun r => r.2.1) = List.range' 1 ops.length := by
    have := congrArg (List.map Prod.fst) hids
    simp only [List.map_map] at this
    have e1 : (rs.map fun r => r.2.1) = List.map (Prod.fst ∘ fun r : Rec => (r.2.1, r.2.2)) rs := rfl
    rw [e1, this]
    have e2 : (Prod.fst ∘ fun p : Op × Nat => (p.2, p.1)) = Prod.snd := rfl
    rw [e2]
    exact List.zipIdx_map_snd _ _
  rw [h1]
  cases hl : ops.length with
  | zero => rfl
  | succ n =>
    rw [List.range'_concat]
    simp [List.getLastD_eq_getLast?, Nat.add_comm]

theorem holds_reopen {w : Wal} {ops : List Op} (h : Holds w ops) :
    ∃ w', openLog w.file = .ok w' ∧ Holds w' ops := by
  obtain ⟨rs, hg, hfile, hids, hid, hcrc⟩ := h
  rw [hfile, openLog_records rs hg]
  exact ⟨_, rfl, rs, hg, rfl, hids, ids_last hids, by simp⟩

theorem holds_run {es : List Event} {w : Wal} {ops : List Op} (h : Holds w ops)
    (hf : ∀ op ∈ opsOf es, Fits op) (hn : ops.length + (opsOf es).length < 2 ^ 64) :
    ∃ w', runEvents w es = .ok w' ∧ Holds w' (ops ++ opsOf es) := by
  induction es generalizing w ops with
  | nil => exact ⟨w, rfl, by simpa [opsOf] using h⟩
  | cons e es ih =>
    cases e with
    | log op =>
      simp only [opsOf, List.mem_cons, List.length_cons] at hf hn
      have h1 := holds_append h (hf op (Or.inl rfl)) (by omega)
      obtain ⟨w', hr, hh⟩ := ih h1 (fun o ho => hf o (Or.inr ho)) (by simp; omega)
      refine ⟨w', ?_, ?_⟩
      · simpa [runEvents, stepEvent] using hr
      · simpa [opsOf] using hh
    | reopen =>
      simp only [opsOf] at hf hn ⊢
      obtain ⟨w1, hw1, hh1⟩ := holds_reopen h
      obtain ⟨w', hr, hh⟩ := ih hh1 hf hn
      exact ⟨w', by simpa [runEvents, stepEvent, hw1] using hr, hh⟩

theorem filter_zipIdx_gt (ops : List Op) (s k : Nat) (hk : s ≤ k + 1) :
    ((ops.zipIdx s).map (fun p => (p.2, p.1))).filter (fun p => decide (k < p.1)) =
      ((ops.drop (k + 1 - s)).zipIdx (k + 1)).map (fun p => (p.2, p.1)) := by
  induction ops generalizing s with
  | nil => simp
  | cons o ops ih =>
    simp only [List.zipIdx_cons, List.map_cons, List.filter_cons]
    by_cases h : k < s
    · have hs : s = k + 1 := by omega
      subst hs
      simp only [h, decide_true, if_true, Nat.sub_self, List.drop_zero, List.zipIdx_cons, List.map_cons]
      congr 1
      rw [List.filter_eq_self]
      intro p hp
      simp only [List.mem_map, Prod.exists] at hp
      obtain ⟨a, i, hm, rfl⟩ := hp
      have := List.le_snd_of_mem_zipIdx hm
      simp at this ⊢; omega
    · simp only [h, decide_false]
      rw [show k + 1 - s = (k + 1 - (s + 1)) + 1 by omega, List.drop_succ_cons, ← ih (s + 1) (by omega)]
      rfl

theorem entries_view {rs : List Rec} {l : List (Nat × Op)} (h : (rs.map fun r => (r.2.1, r.2.2)) = l) :
    (rs.map entryOf).map view = l.map some := by
  rw [← h]
  simp [entryOf, view]

theorem findStart_log (rs : List Rec) (hg : ∀ r ∈ rs, Good r) (T : Bytes) (ops : List Op)
    (hids : (rs.map fun r => (r.2.1, r.2.2)) = (ops.zipIdx 1).map (fun p => (p.2, p.1)))
    (k : Nat) (hk : k < ops.length) :
    findStartRecord (logBytes rs ++ T) (k + 1) = .ok (some (logBytes (rs.take k)).length) := by
  have hlen : rs.length = ops.length := by simpa using congrArg List.length hids
  have hget : ∀ i (hi : i < rs.length), rs[i].2.1 = i + 1 := by
    intro i hi
    have h2 := congrArg (fun l => l[i]?) hids
    simp [hi, hlen ▸ hi] at h2
    rw [h2.1, Nat.add_comm]
  unfold findStartRecord
  cases rs with
  | nil => simp at hlen; omega
  | cons r rs =>
    have hr := hg r (by simp)
    have h0 : r.2.1 = 1 := hget 0 (by simp)
    have hid0 : readId (logBytes (r :: rs) ++ T) 0 = .ok r.2.1 := by
      have := readId_rec (A := []) (B := logBytes rs ++ T) hr
      simpa [logBytes] using this
    rw [hid0]
    simp only [Res.ok_bind, h0]
    rw [if_pos (by decide)]
    have hs := skip_records (r :: rs) hg [] T k (by omega)
    simp only [List.nil_append, List.length_nil] at hs
    rw [Nat.add_sub_cancel, hs]
    simp only
    have hsplit : logBytes (r :: rs) ++ T =
        logBytes ((r :: rs).take k) ++ (recBytes ((r :: rs)[k]'(by omega)) ++ (logBytes ((r :: rs).drop (k + 1)) ++ T)) := by
      have e := (List.take_append_drop k (r :: rs)).symm
      have e2 : (r :: rs).drop k = (r :: rs)[k]'(by omega) :: (r :: rs).drop (k + 1) :=
        List.drop_eq_getElem_cons (by omega)
      rw [e2] at e
      conv => lhs; rw [e]
      simp [logBytes]
    have hk' : readId (logBytes (r :: rs) ++ T) (logBytes ((r :: rs).take k)).length =
        .ok ((r :: rs)[k]'(by omega)).2.1 := by
      rw [hsplit]
      exact readId_rec (hg _ (List.getElem_mem _))
    rw [hk', hget k (by omega)]
    simp

theorem load_log (rs : List Rec) (hg : ∀ r ∈ rs, Good r) (T : Bytes) (ops : List Op)
    (hids : (rs.map fun r => (r.2.1, r.2.2)) = (ops.zipIdx 1).map (fun p => (p.2, p.1)))
    (k : Nat) (hk : k < ops.length) (hn : ops.length < 2 ^ 64) :
    load (logBytes rs ++ T) k =
      prepend ((rs.drop k).map entryOf)
        (readAll (logBytes rs ++ T) ((logBytes rs ++ T).length + 1 - (rs.length - k)) (logBytes rs).length) := by
  have hlen : rs.length = ops.length := by simpa using congrArg List.length hids
  unfold load
  rw [Nat.mod_eq_of_lt (by omega), findStart_log rs hg T ops hids k hk]
  simp only [Res.ok_bind]
  have hl := logBytes_length_ge rs
  have e : logBytes rs ++ T = logBytes (rs.take k) ++ (logBytes (rs.drop k) ++ T) := by
    rw [logBytes_split rs k, List.append_assoc]
  obtain ⟨f, hf⟩ : ∃ f, (logBytes rs ++ T).length + 1 = f + (rs.drop k).length :=
    ⟨(logBytes rs ++ T).length + 1 - (rs.drop k).length, by simp; omega⟩
  rw [hf]
  have hf' : f + (rs.drop k).length - (rs.length - k) = f := by simp
  rw [hf', e, readAll_records _ (fun r hr => hg r (List.mem_of_mem_drop hr))]
  rw [← logBytes_split]

theorem load_none (rs : List Rec) (hg : ∀ r ∈ rs, Good r) (ops : List Op)
    (hids : (rs.map fun r => (r.2.1, r.2.2)) = (ops.zipIdx 1).map (fun p => (p.2, p.1)))
    (k : Nat) (hk : ops.length ≤ k) (hk64 : k < 2 ^ 64) :
    load (logBytes rs) k = .ok [] := by
  have hlen : rs.length = ops.length := by simpa using congrArg List.length hids
  have hget : ∀ i (hi : i < rs.length), rs[i].2.1 = i + 1 := by
    intro i hi
    have h2 := congrArg (fun l => l[i]?) hids
    simp [hi, hlen ▸ hi] at h2
    rw [h2.1, Nat.add_comm]
  have key : findStartRecord (logBytes rs) ((k + 1) % 2 ^ 64) = .ok none := by
    unfold findStartRecord
    cases rs with
    | nil => simp [logBytes, readId_past]
    | cons r rs =>
      have hr := hg r (by simp)
      have h0 : r.2.1 = 1 := hget 0 (by simp)
      have hid0 : readId (logBytes (r :: rs)) 0 = .ok r.2.1 := by
        have := readId_rec (A := []) (B := logBytes rs) hr
        simpa [logBytes] using this
      rw [hid0]
      simp only [Res.ok_bind, h0]
      rw [if_pos (by decide)]
      by_cases hw : k + 1 = 2 ^ 64
      · rw [hw]
        simp [skipRecords, hid0, h0]
      · rw [Nat.mod_eq_of_lt (by omega), Nat.add_sub_cancel]
        by_cases hkk : (r :: rs).length < k
        · have := skip_records_too_many (r :: rs) hg [] k hkk
          simp only [List.nil_append, List.length_nil] at this
          rw [this]
        · have hke : k = (r :: rs).length := by omega
          have hs := skip_records (r :: rs) hg [] [] k (by omega)
          simp only [List.nil_append, List.length_nil, List.append_nil] at hs
          rw [hs, hke, List.take_length]
          simp only
          rw [readId_past (Nat.le_refl _)]
          simp
  unfold load
  rw [key]
  rfl

theorem expected_eq (ops : List Op) (rs : List Rec)
    (hids : (rs.map fun r => (r.2.1, r.2.2)) = (ops.zipIdx 1).map (fun p => (p.2, p.1))) (k : Nat) :
    ((rs.drop k).map entryOf).map view =
      (((ops.zipIdx 1).map (fun p => (p.2, p.1))).filter (fun p => decide (k < p.1))).map some := by
  rw [filter_zipIdx_gt ops 1 k (by omega)]
  apply entries_view
  rw [List.map_drop, hids, ← List.map_drop]
  congr 1
  rw [drop_zipIdx, Nat.add_comm 1 k, Nat.add_sub_cancel]

end Verif.Wal
