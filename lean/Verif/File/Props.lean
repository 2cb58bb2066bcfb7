import Verif.File.Model
import Verif.Wal.Model
/-! C45: positioned reads and writes, for every file and every split into system calls. -/
namespace Verif.File
open Verif

/-- Specification: the `n` bytes of the file at `location`. -/
def bytesAt (file : Bytes) (location n : Nat) : Bytes := (file.drop location).take n

/-- The full C45 claim for reads: a successful read delivers the bytes at the offset. -/
def C45_read_claim : Prop := ∀ file location n sched buf,
  readAt file location sched n = (buf, true) → buf = bytesAt file location n ∧ location + n ≤ file.length

/-- **C45 fails** for reads: 5 bytes are "read" from a 3-byte file, even though each system call
delivers all it can. -/
theorem C45_short_read_fails : ¬ C45_read_claim := by
  intro h
  have := h [1, 2, 3] 0 5 [5, 5, 5] [1, 2, 3, 1, 2] (by decide)
  exact absurd this.1 (by decide)

/-- The full C45 claim for writes: a successful write leaves the data at the offset. -/
def C45_write_claim : Prop := ∀ file location data sched file',
  writeAt location sched file data = (file', true) → bytesAt file' location data.length = data

/-- **C45 fails** for writes interrupted after one byte. -/
theorem C45_short_write_fails : ¬ C45_write_claim := by
  intro h
  exact absurd (h [0, 0, 0, 0] 1 [7, 8] [1, 1] [0, 8, 0, 0] (by decide)) (by decide)

/-- **C45, partial (reads)**: if the range lies inside the file and the first call is not cut
short, the read succeeds and delivers exactly the bytes at the offset.
Missing: reads split into several calls (false, see above). -/
theorem C45_read_exact_partial (file : Bytes) (location n cap : Nat) (sched : List Nat) (hn : n ≤ cap)
    (hin : location + n ≤ file.length) :
    readAt file location (cap :: sched) n = (bytesAt file location n, true) := by
  unfold readAt pread bytesAt
  by_cases h0 : n = 0
  · simp [h0]
  · have hl : ((file.drop location).take (min cap n)).length = n := by simp; omega
    have hne : (file.drop location).take (min cap n) ≠ [] := by
      intro h; rw [h] at hl; simp at hl; omega
    simp only [h0, if_false, hne, hl, Nat.sub_self]
    have : readAt file location sched 0 = ([], true) := by cases sched <;> simp [readAt]
    simp [this, Nat.min_eq_right hn]

/-- A read that starts at or behind the end of the file fails. -/
theorem C45_read_past_end (file : Bytes) (location n : Nat) (sched : List Nat) (hn : 0 < n)
    (hout : file.length ≤ location) : (readAt file location sched n).2 = false := by
  cases sched with
  | nil => simp [readAt]; omega
  | cons cap s =>
    have : n ≠ 0 := by omega
    simp [readAt, pread, List.drop_eq_nil_of_le hout, this]

/-- Whatever the schedule, a successful read fills the whole buffer, and every byte in it is a
byte of the file at or behind the offset. -/
theorem C45_read_success_fills (file : Bytes) (location n : Nat) (sched : List Nat)
    (h : (readAt file location sched n).2 = true) :
    (readAt file location sched n).1.length = n ∧
      ∀ b ∈ (readAt file location sched n).1, b ∈ file.drop location := by
  induction sched generalizing n with
  | nil => simp [readAt] at h ⊢; exact h.symm
  | cons cap s ih =>
    unfold readAt at h ⊢
    by_cases h0 : n = 0
    · simp [h0]
    · simp only [h0, if_false] at h ⊢
      by_cases hg : pread file cap location n = []
      · simp [hg] at h
      · simp only [hg, if_false] at h ⊢
        obtain ⟨h1, h2⟩ := ih _ h
        have hl : (pread file cap location n).length ≤ n := by
          unfold pread; simp; omega
        refine ⟨by rw [List.length_append, h1]; omega, ?_⟩
        intro b hb
        rcases List.mem_append.mp hb with hb | hb
        · exact List.mem_of_mem_take hb
        · exact h2 b hb

/-- **C45, partial (writes)**: if the first call is not cut short, the write succeeds, the data
is at the offset afterwards, and no other byte of the file changes.
Missing: writes split into several calls (false, see above). -/
theorem C45_write_exact_partial (file data : Bytes) (location cap : Nat) (sched : List Nat)
    (hn : data.length ≤ cap) (hin : location ≤ file.length) :
    ∃ file', writeAt location (cap :: sched) file data = (file', true) ∧
      bytesAt file' location data.length = data ∧ file'.take location = file.take location ∧
      file'.drop (location + data.length) = file.drop (location + data.length) := by
  by_cases h0 : data = []
  · subst h0
    exact ⟨file, by simp [writeAt], by simp [bytesAt], rfl, rfl⟩
  · have ht : data.take cap = data := List.take_of_length_le hn
    refine ⟨overwrite file location data, ?_, ?_, ?_, ?_⟩
    · unfold writeAt
      simp only [h0, if_false, ht, List.drop_length]
      cases sched <;> simp [writeAt]
    all_goals
      have hz : location - file.length = 0 := by omega
      unfold overwrite
      simp only [hz, List.replicate_zero, List.append_nil]
      have hl : (file.take location).length = location := by simp; omega
    · unfold bytesAt
      rw [List.append_assoc, List.drop_left' hl, List.take_left]
    · rw [List.append_assoc, List.take_left' hl]
    · rw [List.drop_left' (by simp; omega)]

/-- Sequential writes are right under every schedule: if the call reports `count`, all bytes
were appended, in order, and `count` is their number. -/
theorem C45_sequential_write (sched : List Nat) (file data : Bytes) (done count : Nat) (file' : Bytes)
    (h : writeSeq sched file data done = (file', some count)) :
    file' = file ++ data ∧ count = done + data.length := by
  induction sched generalizing file data done with
  | nil =>
    simp only [writeSeq] at h
    by_cases h0 : data = []
    · simp [h0] at h ⊢; exact ⟨h.1.symm, h.2.symm⟩
    · simp [h0] at h
  | cons cap s ih =>
    unfold writeSeq at h
    by_cases h0 : data = []
    · simp [h0] at h ⊢; exact ⟨h.1.symm, h.2.symm⟩
    · simp only [h0, if_false] at h
      by_cases hp : data.take cap = []
      · simp [hp] at h
      · simp only [hp, if_false] at h
        obtain ⟨h1, h2⟩ := ih _ _ _ h
        refine ⟨?_, ?_⟩
        · rw [h1, List.append_assoc]
          congr 1
          simp only [List.length_take]
          conv => rhs; rw [← List.take_append_drop (min cap data.length) data]
          congr 1
          rw [List.take_eq_take_iff]; omega
        · rw [h2]; simp; omega

/-- The write-ahead log's `readBuffer` is this read under the schedule in which every call
delivers all it can, the unread rest of the (zero-filled) buffer staying zero. -/
theorem wal_readBuffer_eq (file : Bytes) (start n cap : Nat) (hcap : n ≤ cap) :
    Wal.readBuffer file start n =
      (readAt file start (List.replicate n cap) n).1 ++
        List.replicate (n - (readAt file start (List.replicate n cap) n).1.length) 0 := by
  unfold Wal.readBuffer
  suffices ∀ fuel n, n ≤ cap → n ≤ fuel → Wal.preadLoop (file.drop start) fuel n =
      (readAt file start (List.replicate fuel cap) n).1 ++
        List.replicate (n - (readAt file start (List.replicate fuel cap) n).1.length) 0 from
    this n n hcap (Nat.le_refl n)
  intro fuel
  induction fuel with
  | zero => intro n _ _; simp [Wal.preadLoop, readAt]
  | succ f ih =>
    intro n hn hf
    unfold Wal.preadLoop
    rw [List.replicate_succ]
    unfold readAt pread
    by_cases h0 : n = 0
    · simp [h0]
    · simp only [h0, if_false, Nat.min_eq_right hn]
      by_cases hg : (file.drop start).take n = []
      · simp [hg]
      · simp only [hg, if_false]
        have hpos : 0 < ((file.drop start).take n).length := List.length_pos_iff.mpr hg
        rw [ih _ (by omega) (by omega), List.append_assoc]
        congr 3
        simp only [List.length_append]
        omega

/-! Non-vacuity: the hypotheses of each theorem are met by non-trivial transfers. -/
example : readAt [9, 8, 7, 6] 1 [4, 2] 2 = ([8, 7], true) := C45_read_exact_partial [9, 8, 7, 6] 1 2 4 [2] (by decide) (by decide)
example : (readAt [1, 2, 3] 1 [1, 4, 4] 4).2 = true := by decide
example : ∃ f, writeAt 1 [2] [0, 0, 0, 0] [7, 8] = (f, true) ∧ bytesAt f 1 2 = [7, 8] :=
  ⟨[0, 7, 8, 0], by decide, by decide⟩
example : writeSeq [1, 2, 5] [1] [2, 3, 4, 5] 0 = ([1, 2, 3, 4, 5], some 4) := by decide

end Verif.File
