import Verif.Wal.History
namespace Verif.Wal
open Verif

/-- File contents after a crash during `append w op`: only the first `k` bytes of the new
record reached the file. -/
def crashFile (w : Wal) (op : Op) (k : Nat) : Bytes := w.file ++ (nextRecord w op).take k

theorem preadLoop_one (b : UInt8) : preadLoop [b] 2 2 = [b, b] := by
  simp [preadLoop]

/-- The size field read at the start of a torn record: either 0 or so large that the next
record would start behind the end of the file. -/
theorem torn_size (A pl : Bytes) (k : Nat) (hpl : pl.length < 65536) (hk : k < (packBytes pl).length)
    (hpos : 0 < pl.length) :
    readSize (A ++ (packBytes pl).take k) A.length = 0 ∨
      (A ++ (packBytes pl).take k).length ≤
        nextIndex A.length (readSize (A ++ (packBytes pl).take k) A.length) := by
  rw [packBytes_length] at hk
  match k, hk with
  | 0, _ => left; exact readSize_past (by simp)
  | 1, _ =>
    by_cases h0 : readSize (A ++ (packBytes pl).take 1) A.length = 0
    · exact Or.inl h0
    · right
      have : ((packBytes pl).take 1).length ≤ 1 := by simp; omega
      simp only [List.length_append, nextIndex]; omega
  | k + 2, hk =>
    right
    have hs : readSize (A ++ (packBytes pl).take (k + 2)) A.length = pl.length := by
      unfold readSize
      rw [readBuffer_append (by simp [packBytes_length])]
      rw [List.take_take]
      rw [show min 2 (k + 2) = 2 by omega]
      unfold packBytes
      rw [List.append_assoc, List.take_left' (by simp)]
      exact beNat_beBytes_of_lt (by simpa using hpl)
    rw [hs]
    simp [nextIndex, packBytes_length]; omega

theorem readAll_torn (A pl : Bytes) (k fuel : Nat) (hpl : pl.length < 65536) (hpos : 0 < pl.length)
    (hk : k < (packBytes pl).length) (es : List Entry)
    (h : readAll (A ++ (packBytes pl).take k) (fuel + 2) A.length = .ok es) : es.length ≤ 1 := by
  rcases torn_size A pl k hpl hk hpos with h0 | hnext
  · rw [readAll] at h
    have : readRecord (A ++ (packBytes pl).take k) A.length = .ok (0, none) := by
      unfold readRecord; simp [h0]
    rw [this] at h
    simp at h
    subst h; simp
  · rw [readAll] at h
    cases hr : readRecord (A ++ (packBytes pl).take k) A.length with
    | ok p =>
      obtain ⟨size, e⟩ := p
      have hsize : size = readSize (A ++ (packBytes pl).take k) A.length := by
        unfold readRecord at hr
        simp only at hr
        split at hr
        · split at hr
          · split at hr
            · cases hr
            · cases hr; rfl
            · cases hr
          · cases hr; rfl
        · cases hr; rfl
      rw [hr] at h
      cases e with
      | none => simp at h; subst h; simp
      | some e =>
        simp only at h
        rw [hsize, readAll, readRecord_past hnext] at h
        simp at h
        subst h; simp
    | throws => rw [hr] at h; cases h
    | ub => rw [hr] at h; cases h
    | diverges => rw [hr] at h; cases h

/-- Loading a log whose last record is torn. -/
theorem load_torn (rs : List Rec) (hg : ∀ r ∈ rs, Good r) (ops : List Op)
    (hids : (rs.map fun r => (r.2.1, r.2.2)) = (ops.zipIdx 1).map (fun p => (p.2, p.1)))
    (pl : Bytes) (hpl : pl.length < 65536) (hpos : 0 < pl.length) (k : Nat) (hk : k < (packBytes pl).length)
    (m : Nat) (hm : m + 1 < 2 ^ 64) (hn : ops.length < 2 ^ 64) (es : List Entry)
    (h : load (logBytes rs ++ (packBytes pl).take k) m = .ok es) :
    ∃ tail : List (Option (Nat × Op)), tail.length ≤ 1 ∧
      es.map view =
        (((ops.zipIdx 1).map (fun p => (p.2, p.1))).filter (fun p => decide (m < p.1))).map some ++ tail := by
  have hlen : rs.length = ops.length := by simpa using congrArg List.length hids
  have hl := logBytes_length_ge rs
  by_cases hmo : m < ops.length
  · rw [load_log rs hg _ ops hids m hmo hn] at h
    by_cases hk0 : k = 0
    · subst hk0
      simp only [List.take_zero, List.append_nil] at h
      obtain ⟨f, hf⟩ : ∃ f, (logBytes rs).length + 1 - (rs.length - m) = f + 1 :=
        ⟨(logBytes rs).length - (rs.length - m), by omega⟩
      rw [hf, readAll, readRecord_past (Nat.le_refl _)] at h
      simp only [prepend, Res.ok.injEq, List.append_nil] at h
      refine ⟨[], by simp, ?_⟩
      rw [← h, List.append_nil]
      exact expected_eq ops rs hids m
    · obtain ⟨f, hf⟩ : ∃ f, (logBytes rs ++ (packBytes pl).take k).length + 1 - (rs.length - m) = f + 2 :=
        ⟨(logBytes rs ++ (packBytes pl).take k).length - 1 - (rs.length - m), by
          have : 0 < ((packBytes pl).take k).length := by simp; omega
          simp only [List.length_append]; omega⟩
      rw [hf] at h
      cases hr : readAll (logBytes rs ++ (packBytes pl).take k) (f + 2) (logBytes rs).length with
      | ok tl =>
        rw [hr] at h
        simp only [prepend, Res.ok.injEq] at h
        refine ⟨tl.map view, by simpa using readAll_torn _ pl k f hpl hpos hk tl hr, ?_⟩
        rw [← h, List.map_append, expected_eq ops rs hids m]
      | throws => rw [hr] at h; cases h
      | ub => rw [hr] at h; cases h
      | diverges => rw [hr] at h; cases h
  · -- nothing complete is expected: at most the torn record comes back
    have hexp : (((ops.zipIdx 1).map (fun p => (p.2, p.1))).filter (fun p => decide (m < p.1))) = [] := by
      rw [filter_zipIdx_gt ops 1 m (by omega), List.drop_eq_nil_of_le (by omega)]
      rfl
    rw [hexp]
    refine ⟨es.map view, ?_, by simp⟩
    rw [List.length_map]
    unfold load at h
    rw [Nat.mod_eq_of_lt hm] at h
    rw [Res.bind_eq_ok] at h
    obtain ⟨st, hst, h⟩ := h
    cases st with
    | none => simp at h; subst h; simp
    | some idx =>
      simp only at h
      -- the start index is the torn record or lies behind the file
      have hidx : (logBytes rs).length = idx ∨ (logBytes rs ++ (packBytes pl).take k).length ≤ idx := by
        unfold findStartRecord at hst
        rw [Res.bind_eq_ok] at hst
        obtain ⟨fid, hfid, hst⟩ := hst
        split at hst
        · rename_i hfpos
          cases hsk : skipRecords (logBytes rs ++ (packBytes pl).take k) (m + 1 - fid) 0 with
          | none => rw [hsk] at hst; cases hst
          | some idx' =>
            rw [hsk] at hst
            simp only at hst
            rw [Res.bind_eq_ok] at hst
            obtain ⟨id2, hid2, hst⟩ := hst
            have : idx' = idx := by
              split at hst
              · simp at hst; exact hst
              · cases hst
            subst this
            -- number of skipped records
            have hcase : ∀ n, rs.length ≤ n →
                skipRecords (logBytes rs ++ (packBytes pl).take k) n 0 = some idx' →
                (logBytes rs).length = idx' ∨ (logBytes rs ++ (packBytes pl).take k).length ≤ idx' := by
              intro n hnn hs
              obtain ⟨d, rfl⟩ : ∃ d, n = rs.length + d := ⟨n - rs.length, by omega⟩
              rw [skip_add] at hs
              have := skip_records rs hg [] ((packBytes pl).take k) rs.length (Nat.le_refl _)
              simp only [List.nil_append, List.length_nil, List.take_length] at this
              rw [this] at hs
              simp only [Option.bind_some] at hs
              cases d with
              | zero => simp [skipRecords] at hs; exact Or.inl hs
              | succ d =>
                right
                simp only [skipRecords] at hs
                split at hs
                · rename_i hsz
                  rcases torn_size (logBytes rs) pl k hpl hk hpos with h0 | hnext
                  · omega
                  · cases d with
                    | zero =>
                      simp only [skipRecords, Option.some.injEq] at hs
                      omega
                    | succ d =>
                      rw [skip_past hnext (by omega)] at hs
                      cases hs
                · cases hs
            cases rs with
            | nil =>
              exact hcase _ (by simp) hsk
            | cons r rs =>
              have hr := hg r (by simp)
              have hid0 : readId (logBytes (r :: rs) ++ (packBytes pl).take k) 0 = .ok r.2.1 := by
                have := readId_rec (A := []) (B := logBytes rs ++ (packBytes pl).take k) hr
                simpa [logBytes] using this
              have h1 : r.2.1 = 1 := by
                have h2 := congrArg (fun l => l[0]?) hids
                cases ops with
                | nil => simp at hlen
                | cons o ops => simp at h2; exact h2.1
              rw [hid0, h1] at hfid
              cases hfid
              exact hcase _ (by omega) hsk
        · cases hst
      rcases hidx with rfl | hpast
      · by_cases hk0 : k = 0
        · subst hk0
          simp only [List.take_zero, List.append_nil] at h
          rw [readAll, readRecord_past (Nat.le_refl _)] at h
          simp at h; subst h; simp
        · obtain ⟨f, hf⟩ : ∃ f, (logBytes rs ++ (packBytes pl).take k).length + 1 = f + 2 :=
            ⟨(logBytes rs ++ (packBytes pl).take k).length - 1, by
              have : 0 < ((packBytes pl).take k).length := by simp; omega
              simp only [List.length_append]; omega⟩
          rw [hf] at h
          exact readAll_torn _ pl k f hpl hpos hk es h
      · rw [readAll, readRecord_past hpast] at h
        simp at h; subst h; simp

/-- A crash right after the two length bytes: reopening the log is undefined behaviour. -/
theorem open_torn_ub (rs : List Rec) (hg : ∀ r ∈ rs, Good r) (pl : Bytes) (hpl : pl.length < 65536)
    (hpos : 0 < pl.length) : openLog (logBytes rs ++ (packBytes pl).take 2) = .ub := by
  unfold openLog
  have hlen := logBytes_length_ge rs
  have ht : (packBytes pl).take 2 = beBytes 2 pl.length := by
    unfold packBytes
    rw [List.append_assoc, List.take_left' (by simp)]
  obtain ⟨f, hf⟩ : ∃ f, (logBytes rs ++ (packBytes pl).take 2).length + 1 = (f + 1) + rs.length :=
    ⟨(logBytes rs ++ (packBytes pl).take 2).length - rs.length, by simp; omega⟩
  have := initIdLoop_records rs hg [] ((packBytes pl).take 2) (f + 1) 0
  simp only [List.nil_append, List.length_nil] at this
  rw [hf, this]
  have hid : readId (logBytes rs ++ (packBytes pl).take 2) (logBytes rs).length = .ub := by
    have hs : readSize (logBytes rs ++ (packBytes pl).take 2) (logBytes rs).length = pl.length := by
      unfold readSize
      rw [readBuffer_append (by rw [ht]; simp), ht, List.take_of_length_le (by simp)]
      exact beNat_beBytes_of_lt (by simpa using hpl)
    unfold readId
    simp only [hs]
    rw [if_pos hpos, readBuffer_past (by rw [ht]; simp)]
    obtain ⟨n, hn⟩ : ∃ n, pl.length = n + 1 := ⟨pl.length - 1, by omega⟩
    rw [hn, List.replicate_succ]
    rfl
  rw [initIdLoop, hid]
  rfl

end Verif.Wal
