import Verif.IdxReg.FileSpec
/-!
# C115: the file of indexes is read as it was written
-/
namespace Verif.IdxFile

open Verif

theorem put8_length (n : Nat) : (put8 n).length = 8 := by simp [put8]

theorem get8_put8 {n : Nat} (h : n < 2 ^ 63 - 1) : get8 (put8 n) = n := by
  simp only [get8, put8, List.reverse_reverse]
  exact beNat_beBytes_of_lt (by omega)

/-- If enough follows, the buffer is what follows. -/
theorem fill_enough (a r : Bytes) : fill (a ++ r) a.length a.length = a := by
  cases a with
  | nil => rfl
  | cons x xs =>
    have : (x :: xs ++ r).take (x :: xs).length = x :: xs := by simp
    rw [List.length_cons, fill, if_neg (by simp), if_neg (by omega)]
    rw [List.length_cons] at this
    rw [this, List.length_cons, Nat.sub_self]
    cases xs with
    | nil => rfl
    | cons y ys => simp [fill]

/-- One record is read, with anything behind it. -/
theorem recs_frame {α : Type} (c : Codec α) (i : α) (h : c.Good i) (k : Nat) (r : Bytes) :
    recs c (k + 1) (frame c i ++ r) = (recs c k r).bind fun is => .ok (i :: is) := by
  have h8 := put8_length (c.enc i).length
  have hl : ¬ (frame c i ++ r).length < 8 := by simp [frame, h8]
  have ht : (frame c i ++ r).take 8 = put8 (c.enc i).length := by
    rw [frame, List.append_assoc, ← h8, List.take_left]
  have hd : (frame c i ++ r).drop 8 = c.enc i ++ r := by
    rw [frame, List.append_assoc]
    conv => lhs; rw [← h8]
    rw [List.drop_left]
  rw [recs, if_neg hl]
  simp only [ht, hd, get8_put8 h.2]
  rw [if_neg (by have := h.2; omega), fill_enough, h.1, List.drop_left]
  rfl

/-- The records of `is`. -/
def flat {α : Type} (c : Codec α) (is : List α) : Bytes := is.flatMap (frame c)

theorem writeAll_eq {α : Type} (c : Codec α) : ∀ (is : List α) (b : Bytes), writeAll c b is = b ++ flat c is
  | [], b => by simp [writeAll, flat]
  | i :: is, b => by
    have := writeAll_eq c is (write c b i)
    simp only [writeAll, List.foldl_cons] at this ⊢
    rw [this]; simp [flat, write]

theorem flat_length {α : Type} (c : Codec α) : ∀ is : List α, is.length ≤ (flat c is).length
  | [] => by simp
  | i :: is => by
    have := flat_length c is
    have h8 := put8_length (c.enc i).length
    simp only [flat, List.flatMap_cons, List.length_append, frame, h8, List.length_cons] at this ⊢
    omega

/-- Records and then anything. -/
theorem recs_flat {α : Type} (c : Codec α) : ∀ (is : List α) (_ : ∀ i ∈ is, c.Good i) (k : Nat) (r : Bytes),
    recs c (is.length + k) (flat c is ++ r) = (recs c k r).bind fun js => .ok (is ++ js)
  | [], _, k, r => by
    simp only [List.length_nil, Nat.zero_add, flat, List.flatMap_nil, List.nil_append]
    cases recs c k r <;> rfl
  | i :: is, h, k, r => by
    have ih := recs_flat c is (fun j hj => h j (by simp [hj])) k r
    have e : flat c (i :: is) ++ r = frame c i ++ (flat c is ++ r) := by simp [flat]
    rw [e, show (i :: is).length + k = (is.length + k) + 1 by simp; omega, recs_frame c i (h i (by simp)), ih]
    cases recs c k r <;> rfl

theorem recs_short {α : Type} (c : Codec α) (k : Nat) {r : Bytes} (h : r.length < 8) : recs c k r = .ok [] := by
  cases k with
  | zero => rfl
  | succ k => rw [recs, if_pos h]

/-- Records and a rest shorter than a size. -/
theorem read_flat {α : Type} (c : Codec α) (is : List α) (h : ∀ i ∈ is, c.Good i) (r : Bytes) (hr : r.length < 8) :
    read c (flat c is ++ r) = .ok is := by
  have hl := flat_length c is
  obtain ⟨k, hk⟩ : ∃ k, (flat c is ++ r).length + 1 = is.length + k :=
    ⟨(flat c is ++ r).length + 1 - is.length, by simp; omega⟩
  rw [read, hk, recs_flat c is h, recs_short c k hr]
  simp [Res.bind]

theorem there_mem {α : Type} (c : Codec α) : ∀ (ops : List (Op α)) (is : List α) (i : α),
    i ∈ there c is ops → i ∈ is ∨ Op.create i ∈ ops
  | [], _, _, h => .inl h
  | .create j :: ops, is, i, h => by
    rcases there_mem c ops _ i h with h | h
    · rcases List.mem_append.mp h with h | h
      · exact .inl h
      · simp only [List.mem_singleton] at h; subst h; exact .inr (by simp)
    · exact .inr (by simp [h])
  | .drop n :: ops, is, i, h => by
    rcases there_mem c ops _ i h with h | h
    · exact .inl (List.mem_filter.mp h).1
    · exact .inr (by simp [h])
  | .dropColl n :: ops, is, i, h => by
    rcases there_mem c ops _ i h with h | h
    · exact .inl (List.mem_filter.mp h).1
    · exact .inr (by simp [h])

theorem there_good {α : Type} (c : Codec α) {ops : List (Op α)} (h : c.GoodAll ops) : ∀ i ∈ there c [] ops, c.Good i :=
  fun i hi => (there_mem c ops [] i hi).elim (fun h => by simp at h) (h i)

theorem run_flat {α : Type} (c : Codec α) : ∀ (ops : List (Op α)) (_ : c.GoodAll ops) (is : List α) (_ : ∀ i ∈ is, c.Good i),
    run c (flat c is) ops = .ok (flat c (there c is ops))
  | [], _, is, _ => rfl
  | .create i :: ops, h, is, hi => by
    have : write c (flat c is) i = flat c (is ++ [i]) := by simp [write, flat]
    simp only [run, step, Res.bind, this]
    refine run_flat c ops (fun j hj => h j (by simp [hj])) _ fun j hj => ?_
    rcases List.mem_append.mp hj with hj | hj
    · exact hi j hj
    · simp only [List.mem_singleton] at hj; subst hj; exact h _ (by simp)
  | .drop n :: ops, h, is, hi => by
    have hr := read_flat c is hi [] (by decide)
    rw [List.append_nil] at hr
    simp only [run, step, dropIndex, hr, Res.bind, writeAll_eq, List.nil_append]
    exact run_flat c ops (fun j hj => h j (by simp [hj])) _ fun j hj => hi j (List.mem_filter.mp hj).1
  | .dropColl n :: ops, h, is, hi => by
    have hr := read_flat c is hi [] (by decide)
    rw [List.append_nil] at hr
    simp only [run, step, dropColl, hr, Res.bind, writeAll_eq, List.nil_append]
    exact run_flat c ops (fun j hj => h j (by simp [hj])) _ fun j hj => hi j (List.mem_filter.mp hj).1

/-- What the file is after any operations. -/
theorem run_eq {α : Type} (c : Codec α) {ops : List (Op α)} (h : c.GoodAll ops) {b : Bytes} (hb : run c [] ops = .ok b) :
    b = flat c (there c [] ops) := by
  have := run_flat c ops h [] (by simp)
  have e : flat c ([] : List α) = [] := rfl
  rw [e, hb] at this
  exact Res.ok.inj this

/-- **C115**: after any operations the file is read as the indexes there are, in the order they were made. -/
theorem C115_file {α : Type} (c : Codec α) (ops : List (Op α)) (h : c.GoodAll ops) :
    ∃ b, run c [] ops = .ok b ∧ read c b = .ok (there c [] ops) := by
  refine ⟨flat c (there c [] ops), run_flat c ops h [] (by simp), ?_⟩
  have := read_flat c (there c [] ops) (there_good c h) [] (by decide)
  rwa [List.append_nil] at this

/-- A codec for the examples: an index is a name and a collection of one byte each. -/
def pairs : Codec (UInt8 × UInt8) where
  enc i := [i.1, i.2]
  dec b := match b with
    | [x, y] => .ok (x, y)
    | _ => .throws
  name i := [i.1]
  coll i := [i.2]

theorem pairs_good (i : UInt8 × UInt8) : pairs.Good i := ⟨rfl, by simp [pairs]⟩

example : ∃ b, run pairs [] [.create (1, 9), .create (2, 9), .create (3, 8), .drop [2], .create (4, 9), .dropColl [8]] = .ok b ∧
    read pairs b = .ok [(1, 9), (4, 9)] := C115_file pairs _ fun i _ => pairs_good i

/-- **C115**: if the program stops while an index is made and less than its size or all of it is written, the others are
there, with or without the new one.
Partial: for stops in between see `C115_stop_text`, for what is written after a stop `C115_later_fails`. -/
theorem C115_stop_partial {α : Type} (c : Codec α) (ops : List (Op α)) (h : c.GoodAll ops) (b : Bytes) (i : α) (k : Nat)
    (hi : c.Good i) (hb : run c [] ops = .ok b) :
    (k < 8 → read c (stopped c b i k) = .ok (there c [] ops)) ∧
    (8 + (c.enc i).length ≤ k → read c (stopped c b i k) = .ok (there c [] ops ++ [i])) := by
  have hb' := run_eq c h hb
  subst hb'
  constructor
  · intro hk
    exact read_flat c _ (there_good c h) _ (by simp; omega)
  · intro hk
    have hl : (frame c i).length ≤ k := by simp [frame, put8_length]; omega
    have : stopped c (flat c (there c [] ops)) i k = flat c (there c [] ops ++ [i]) ++ [] := by
      simp [stopped, List.take_of_length_le hl, flat]
    rw [this]
    refine read_flat c _ (fun j hj => ?_) _ (by decide)
    rcases List.mem_append.mp hj with hj | hj
    · exact there_good c h j hj
    · simp only [List.mem_singleton] at hj; subst hj; exact hi

example : read pairs (stopped pairs [] (1, 9) 7) = .ok [] ∧ read pairs (stopped pairs [] (1, 9) 10) = .ok [(1, 9)] := by
  have := C115_stop_partial pairs [] (by simp [Codec.GoodAll]) [] (1, 9)
  exact ⟨(this 7 (pairs_good _) rfl).1 (by decide), (this 10 (pairs_good _) rfl).2 (by decide)⟩

/-- **C115**: if the program stops within the text of a new index, a text is read for it that is what was written over and
over again, or zeros; what becomes of it is up to the deserializer, and if that throws no index is read at all. -/
theorem C115_stop_text {α : Type} (c : Codec α) (ops : List (Op α)) (h : c.GoodAll ops) (b : Bytes) (i : α) (k : Nat)
    (hi : c.Good i) (hb : run c [] ops = .ok b) (hk : k < (c.enc i).length) :
    read c (stopped c b i (8 + k)) =
      (c.dec (fill ((c.enc i).take k) (c.enc i).length (c.enc i).length)).bind fun j => .ok (there c [] ops ++ [j]) := by
  have hb' := run_eq c h hb
  subst hb'
  have h8 := put8_length (c.enc i).length
  have hs : stopped c (flat c (there c [] ops)) i (8 + k) =
      flat c (there c [] ops) ++ (put8 (c.enc i).length ++ (c.enc i).take k) := by
    rw [stopped, frame]
    congr 1
    conv => lhs; rw [← h8]
    rw [List.take_length_add_append]
  have hl := flat_length c (there c [] ops)
  rw [hs]
  obtain ⟨m, hm⟩ : ∃ m, (flat c (there c [] ops) ++ (put8 (c.enc i).length ++ (c.enc i).take k)).length + 1 =
      (there c [] ops).length + (m + 1) :=
    ⟨(flat c (there c [] ops) ++ (put8 (c.enc i).length ++ (c.enc i).take k)).length - (there c [] ops).length, by
      simp only [List.length_append] at *; omega⟩
  rw [read, hm, recs_flat c _ (there_good c h), recs, if_neg (by simp [h8])]
  have ht : (put8 (c.enc i).length ++ (c.enc i).take k).take 8 = put8 (c.enc i).length := by
    conv => lhs; rw [← h8]
    rw [List.take_left]
  have hd : (put8 (c.enc i).length ++ (c.enc i).take k).drop 8 = (c.enc i).take k := by
    conv => lhs; rw [← h8]
    rw [List.drop_left]
  simp only [ht, hd, get8_put8 hi.2]
  rw [if_neg (by have := hi.2; omega), recs_short c m (by simp; omega)]
  cases c.dec (fill ((c.enc i).take k) (c.enc i).length (c.enc i).length) <;> rfl

/-- **C115 fails**: the program stops when the first byte of the text is written: an index is read that was never made. -/
theorem C115_stop_fails : read pairs (stopped pairs [] (1, 9) 9) = .ok [(1, 1)] := by decide +kernel

/-- **C115 fails**: only the size is written: zeros are read as an index. -/
theorem C115_zeros_fails : read pairs (stopped pairs [] (1, 9) 8) = .ok [(0, 0)] := by decide +kernel

/-- **C115 fails**: one byte of the size is written; the index made after the next start is not found, since its size is not
where it is looked for. -/
theorem C115_later_fails : read pairs (stopped pairs [] (1, 9) 1) = .ok [] ∧
    read pairs (write pairs (stopped pairs [] (1, 9) 1) (2, 9)) = .throws := by decide +kernel

/-- **C115**: if the program stops while an index is dropped, the others are lost but for the first `j`, those that were
written again. -/
theorem C115_drop_stop {α : Type} (c : Codec α) (ops : List (Op α)) (h : c.GoodAll ops) (b : Bytes) (n : Bytes) (j : Nat)
    (hb : run c [] ops = .ok b) :
    ∃ b', dropStopped c b n j = .ok b' ∧ read c b' = .ok ((there c [] (ops ++ [.drop n])).take j) := by
  have hb' := run_eq c h hb
  have ha : ∀ (a : List (Op α)) (is : List α), there c is (a ++ [.drop n]) = (there c is a).filter fun i => !(c.name i == n) := by
    intro a
    induction a with
    | nil => intro is; rfl
    | cons o os ih => intro is; cases o <;> exact ih _
  subst hb'
  have hr := read_flat c (there c [] ops) (there_good c h) [] (by decide)
  rw [List.append_nil] at hr
  refine ⟨writeAll c [] (((there c [] ops).filter fun i => !(c.name i == n)).take j), by rw [dropStopped, hr]; rfl, ?_⟩
  rw [writeAll_eq, List.nil_append, ha]
  have := read_flat c (((there c [] ops).filter fun i => !(c.name i == n)).take j)
    (fun i hi => there_good c h i (List.mem_filter.mp (List.mem_of_mem_take hi)).1) [] (by decide)
  rwa [List.append_nil] at this

/-- **C115 fails**: with three indexes of which one is dropped, a stop behind `truncate` leaves none. -/
theorem C115_drop_stop_fails : ∃ b b', run pairs [] [.create (1, 9), .create (2, 9), .create (3, 9)] = .ok b ∧
    dropStopped pairs b [2] 0 = .ok b' ∧ read pairs b' = .ok [] := by
  obtain ⟨b, hb, _⟩ := C115_file pairs [.create (1, 9), .create (2, 9), .create (3, 9)] fun i _ => pairs_good i
  obtain ⟨b', h1, h2⟩ := C115_drop_stop pairs _ (fun i _ => pairs_good i) b [2] 0 hb
  exact ⟨b, b', hb, h1, by simpa using h2⟩

/-- **C115 fails** in full. -/
theorem C115_fails : ¬ C115_file_claim := by
  intro h
  have := (h _ pairs [] (by simp [Codec.GoodAll])).2 [] (1, 9) 9 [] (pairs_good _) (by simp) rfl
  have e : writeAll pairs (stopped pairs [] (1, 9) 9) [] = stopped pairs [] (1, 9) 9 := rfl
  rw [e, C115_stop_fails] at this
  revert this
  decide

end Verif.IdxFile
