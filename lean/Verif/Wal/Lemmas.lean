import Verif.Wal.Spec
import Verif.Wal.CrcLemmas
import Verif.Msgpack.Lemmas
namespace Verif.Wal
open Verif

theorem preadLoop_exact (avail : Bytes) (fuel n : Nat) (h : n ≤ avail.length) (hf : n ≤ fuel) :
    preadLoop avail fuel n = avail.take n := by
  cases fuel with
  | zero =>
    have : n = 0 := by omega
    subst this; simp [preadLoop]
  | succ f =>
    unfold preadLoop
    split
    · rename_i h0; subst h0; simp
    · rename_i h0
      have hlen : (avail.take n).length = n := by simp; omega
      have hne : avail.take n ≠ [] := by
        intro e; rw [e] at hlen; simp at hlen; omega
      simp only [hne, if_false, hlen, Nat.sub_self]
      cases f with
      | zero => simp [preadLoop]
      | succ f => simp [preadLoop]

theorem readBuffer_append {A B : Bytes} {n : Nat} (h : n ≤ B.length) :
    readBuffer (A ++ B) A.length n = B.take n := by
  unfold readBuffer
  rw [List.drop_left, preadLoop_exact _ _ _ h (Nat.le_refl _)]

theorem preadLoop_nil (fuel n : Nat) : preadLoop [] fuel n = List.replicate n 0 := by
  cases fuel with
  | zero => rfl
  | succ f =>
    unfold preadLoop
    split
    · rename_i h; simp [h]
    · simp

theorem readBuffer_past {file : Bytes} {i n : Nat} (h : file.length ≤ i) :
    readBuffer file i n = List.replicate n 0 := by
  unfold readBuffer
  rw [List.drop_eq_nil_of_le h, preadLoop_nil]

theorem readSize_past {file : Bytes} {i : Nat} (h : file.length ≤ i) : readSize file i = 0 := by
  unfold readSize
  rw [readBuffer_past h]
  rfl

theorem readSize_record {A B pl : Bytes} (h : pl.length < 65536) :
    readSize (A ++ (packBytes pl ++ B)) A.length = pl.length := by
  unfold readSize
  rw [readBuffer_append (by simp [packBytes])]
  unfold packBytes
  rw [List.append_assoc, List.append_assoc, List.take_left' (by simp)]
  rw [beNat_beBytes_of_lt (by simpa using h)]

theorem packBytes_length (pl : Bytes) : (packBytes pl).length = pl.length + 6 := by
  simp [packBytes]; omega

theorem readBuffer_payload {A B pl : Bytes} :
    readBuffer (A ++ (packBytes pl ++ B)) (A.length + 2) pl.length = pl := by
  have : A ++ (packBytes pl ++ B) = (A ++ beBytes 2 pl.length) ++ (pl ++ beBytes 4 (Crc.crc32c pl) ++ B) := by
    simp [packBytes]
  rw [this]
  have hl : A.length + 2 = (A ++ beBytes 2 pl.length).length := by simp
  rw [hl, readBuffer_append (by simp)]
  simp

theorem readBuffer_payload_crc {A B pl : Bytes} :
    readBuffer (A ++ (packBytes pl ++ B)) (A.length + 2) (pl.length + 4) =
      pl ++ beBytes 4 (Crc.crc32c pl) := by
  have : A ++ (packBytes pl ++ B) = (A ++ beBytes 2 pl.length) ++ (pl ++ beBytes 4 (Crc.crc32c pl) ++ B) := by
    simp [packBytes]
  rw [this]
  have hl : A.length + 2 = (A ++ beBytes 2 pl.length).length := by simp
  rw [hl, readBuffer_append (by simp)]
  rw [List.take_left' (by simp)]

theorem encUInt_le9 (n : Nat) : (Msgpack.encUInt n).length ≤ 9 := by
  unfold Msgpack.encUInt Msgpack.tag; repeat' split
  all_goals simp

theorem encUInt_le5 {n : Nat} (h : n < 2 ^ 32) : (Msgpack.encUInt n).length ≤ 5 := by
  unfold Msgpack.encUInt Msgpack.tag; repeat' split
  all_goals first | (simp; done) | omega

theorem payload_length (c i : Nat) (op : Op) :
    (payload c i op).length = 1 + (Msgpack.encUInt c).length + (Msgpack.encUInt i).length +
      (Msgpack.encode op.node).length + (Msgpack.encode op.params).length := by
  simp [payload, Msgpack.encode, Msgpack.encodeList, Msgpack.encArrHdr, Msgpack.tag]; omega

theorem payload_lt {c i : Nat} {op : Op} (hc : c < 2 ^ 32) (h : Fits op) :
    (payload c i op).length < 65536 := by
  have := encUInt_le9 i
  have := encUInt_le5 hc
  have := h.2.2
  rw [payload_length]; omega

theorem payload_pos (c i : Nat) (op : Op) : 0 < (payload c i op).length := by
  rw [payload_length]; omega

theorem unpack_payload {c i : Nat} {op : Op} (hc : c < 2 ^ 32) (hi : i < 2 ^ 64)
    (hn : Msgpack.WF op.node) (hp : Msgpack.WF op.params) (r : Bytes) :
    Msgpack.unpack (payload c i op ++ r) = some (.arr [.uint c, .uint i, op.node, op.params]) := by
  unfold payload
  apply Msgpack.unpack_encode
  simp [Msgpack.WF, Msgpack.WFList, hn, hp, hi]
  omega

/-- A record as written: predecessor checksum, id, operation. -/
abbrev Rec := Nat × Nat × Op

def recBytes (r : Rec) : Bytes := packBytes (payload r.1 r.2.1 r.2.2)
def logBytes (rs : List Rec) : Bytes := rs.flatMap recBytes

def Good (r : Rec) : Prop := r.1 < 2 ^ 32 ∧ 0 < r.2.1 ∧ r.2.1 < 2 ^ 64 ∧
  Msgpack.WF r.2.2.node ∧ Msgpack.WF r.2.2.params ∧ (payload r.1 r.2.1 r.2.2).length < 65536

def entryOf (r : Rec) : Entry := .op r.1 r.2.1 r.2.2

theorem recBytes_length (r : Rec) : (recBytes r).length = (payload r.1 r.2.1 r.2.2).length + 6 :=
  packBytes_length _

theorem readSize_rec {A B : Bytes} {r : Rec} (h : Good r) :
    readSize (A ++ (recBytes r ++ B)) A.length = (payload r.1 r.2.1 r.2.2).length :=
  readSize_record h.2.2.2.2.2

theorem readId_rec {A B : Bytes} {r : Rec} (h : Good r) :
    readId (A ++ (recBytes r ++ B)) A.length = .ok r.2.1 := by
  unfold readId
  simp only [readSize_rec h]
  rw [if_pos (payload_pos _ _ _)]
  unfold recBytes
  rw [readBuffer_payload]
  unfold unpackWalId
  have := unpack_payload h.1 h.2.2.1 h.2.2.2.1 h.2.2.2.2.1 []
  rw [List.append_nil] at this
  rw [this]

theorem readRecord_rec {A B : Bytes} {r : Rec} (h : Good r) :
    readRecord (A ++ (recBytes r ++ B)) A.length =
      .ok ((payload r.1 r.2.1 r.2.2).length, some (entryOf r)) := by
  unfold readRecord
  simp only [readSize_rec h]
  rw [if_pos (payload_pos _ _ _)]
  unfold recBytes
  rw [readBuffer_payload_crc]
  rw [List.drop_left, List.take_of_length_le (by simp), List.take_left]
  rw [beNat_beBytes_of_lt (by have := Crc.crc32c_lt (payload r.1 r.2.1 r.2.2); omega)]
  simp only [if_true]
  rw [unpack_payload h.1 h.2.2.1 h.2.2.2.1 h.2.2.2.2.1]
  simp only [entryOf]
  rw [Nat.mod_eq_of_lt h.1]

theorem nextIndex_rec (A : Bytes) (r : Rec) :
    nextIndex A.length (payload r.1 r.2.1 r.2.2).length = (A ++ recBytes r).length := by
  simp [nextIndex, recBytes_length]; omega

/-- Prepend decoded entries to the outcome of the rest of the loop. -/
def prepend (es : List Entry) : Res (List Entry) → Res (List Entry)
  | .ok l => .ok (es ++ l)
  | r => r

theorem readAll_records (rs : List Rec) (h : ∀ r ∈ rs, Good r) (A T : Bytes) (fuel : Nat) :
    readAll (A ++ (logBytes rs ++ T)) (fuel + rs.length) A.length =
      prepend (rs.map entryOf) (readAll (A ++ (logBytes rs ++ T)) fuel (A ++ logBytes rs).length) := by
  induction rs generalizing A with
  | nil =>
    simp only [logBytes, List.flatMap_nil, List.nil_append, List.length_nil, Nat.add_zero, List.map_nil,
      List.append_nil]
    cases readAll (A ++ T) fuel A.length <;> simp [prepend]
  | cons r rs ih =>
    have hr := h r (by simp)
    have hfile : A ++ (logBytes (r :: rs) ++ T) = A ++ (recBytes r ++ (logBytes rs ++ T)) := by
      simp [logBytes]
    have hfile2 : A ++ (recBytes r ++ (logBytes rs ++ T)) = (A ++ recBytes r) ++ (logBytes rs ++ T) := by simp
    rw [hfile]
    simp only [List.length_cons, ← Nat.add_assoc]
    rw [readAll, readRecord_rec hr]
    simp only [nextIndex_rec]
    rw [hfile2, ih (fun r hr => h r (by simp [hr]))]
    have : (A ++ recBytes r ++ logBytes rs).length = (A ++ logBytes (r :: rs)).length := by simp [logBytes]
    rw [this]
    cases readAll (A ++ recBytes r ++ (logBytes rs ++ T)) fuel (A ++ logBytes (r :: rs)).length <;>
      simp [prepend]

theorem readRecord_past {file : Bytes} {i : Nat} (h : file.length ≤ i) : readRecord file i = .ok (0, none) := by
  unfold readRecord
  simp [readSize_past h]

theorem readId_past {file : Bytes} {i : Nat} (h : file.length ≤ i) : readId file i = .ok 0 := by
  unfold readId
  simp [readSize_past h]

theorem logBytes_length_ge (rs : List Rec) : rs.length ≤ (logBytes rs).length := by
  induction rs with
  | nil => simp
  | cons r rs ih => simp [logBytes, recBytes_length] at ih ⊢; omega

theorem skip_records (rs : List Rec) (h : ∀ r ∈ rs, Good r) (A T : Bytes) (n : Nat) (hn : n ≤ rs.length) :
    skipRecords (A ++ (logBytes rs ++ T)) n A.length = some (A ++ logBytes (rs.take n)).length := by
  induction n generalizing A rs with
  | zero => simp [skipRecords, logBytes]
  | succ n ih =>
    cases rs with
    | nil => simp at hn
    | cons r rs =>
      have hr := h r (by simp)
      have hfile : A ++ (logBytes (r :: rs) ++ T) = A ++ (recBytes r ++ (logBytes rs ++ T)) := by
        simp [logBytes]
      have hfile2 : A ++ (recBytes r ++ (logBytes rs ++ T)) = (A ++ recBytes r) ++ (logBytes rs ++ T) := by simp
      rw [hfile, skipRecords]
      simp only [readSize_rec hr]
      rw [if_pos (payload_pos _ _ _), nextIndex_rec, hfile2]
      rw [ih rs (fun r hr => h r (by simp [hr])) _ (by simpa using hn)]
      simp [logBytes]

theorem skip_past {file : Bytes} {i n : Nat} (h : file.length ≤ i) (hn : 0 < n) :
    skipRecords file n i = none := by
  cases n with
  | zero => omega
  | succ n => simp [skipRecords, readSize_past h]

theorem skip_add (file : Bytes) (m n i : Nat) :
    skipRecords file (m + n) i = (skipRecords file m i).bind (skipRecords file n) := by
  induction m generalizing i with
  | zero => simp [skipRecords]
  | succ m ih =>
    rw [show m + 1 + n = (m + n) + 1 by omega]
    simp only [skipRecords]
    split
    · exact ih _
    · rfl

theorem skip_records_too_many (rs : List Rec) (h : ∀ r ∈ rs, Good r) (A : Bytes) (n : Nat)
    (hn : rs.length < n) : skipRecords (A ++ logBytes rs) n A.length = none := by
  obtain ⟨m, rfl⟩ : ∃ m, n = rs.length + m := ⟨n - rs.length, by omega⟩
  rw [skip_add]
  have := skip_records rs h A [] rs.length (Nat.le_refl _)
  rw [List.append_nil] at this
  rw [this]
  simp only [Option.bind_some]
  apply skip_past
  · simp
  · omega

theorem initIdLoop_records (rs : List Rec) (h : ∀ r ∈ rs, Good r) (A T : Bytes) (fuel cur : Nat) :
    initIdLoop (A ++ (logBytes rs ++ T)) (fuel + rs.length) A.length cur =
      initIdLoop (A ++ (logBytes rs ++ T)) fuel (A ++ logBytes rs).length
        ((rs.map fun r => r.2.1).getLastD cur) := by
  induction rs generalizing A cur with
  | nil => simp [logBytes]
  | cons r rs ih =>
    have hr := h r (by simp)
    have hfile : A ++ (logBytes (r :: rs) ++ T) = A ++ (recBytes r ++ (logBytes rs ++ T)) := by
      simp [logBytes]
    have hfile2 : A ++ (recBytes r ++ (logBytes rs ++ T)) = (A ++ recBytes r) ++ (logBytes rs ++ T) := by simp
    rw [hfile]
    simp only [List.length_cons, ← Nat.add_assoc]
    rw [initIdLoop, readId_rec hr]
    simp only
    rw [if_pos hr.2.1, readSize_rec hr, nextIndex_rec, hfile2, ih (fun r hr => h r (by simp [hr]))]
    have : (A ++ recBytes r ++ logBytes rs).length = (A ++ logBytes (r :: rs)).length := by simp [logBytes]
    rw [this]
    congr 1
    cases rs with
    | nil => simp
    | cons x xs => simp [List.getLastD]

theorem initIdLoop_past {file : Bytes} {i fuel cur : Nat} (h : file.length ≤ i) :
    initIdLoop file (fuel + 1) i cur = .ok cur := by
  simp [initIdLoop, readId_past h]

theorem openLog_records (rs : List Rec) (h : ∀ r ∈ rs, Good r) :
    openLog (logBytes rs) = .ok ⟨logBytes rs, (rs.map fun r => r.2.1).getLastD 0, 0⟩ := by
  unfold openLog
  have hlen := logBytes_length_ge rs
  obtain ⟨f, hf⟩ : ∃ f, (logBytes rs).length + 1 = (f + 1) + rs.length :=
    ⟨(logBytes rs).length - rs.length, by omega⟩
  have := initIdLoop_records rs h [] [] (f + 1) 0
  simp only [List.nil_append, List.append_nil, List.length_nil] at this
  rw [hf, this, initIdLoop_past (Nat.le_refl _)]
  rfl

end Verif.Wal
