import Verif.Arrow.MetaSpec
/-!
C113: metadata of Arrow schemas are read as they were written.
-/
namespace Verif.ArrowMeta
open Verif

theorem get4_put4 (n : Nat) (h : n < 2 ^ 32) (bs : Bytes) :
    get4 (put4 n ++ bs) = .ok (if n < 2 ^ 31 then (n : Int) else (n : Int) - 2 ^ 32, bs) := by
  have e : n % 256 + 256 * (n / 256 % 256) + 65536 * (n / 65536 % 256) + 16777216 * (n / 16777216 % 256) = n := by omega
  show get4 (UInt8.ofNat (n % 256) :: UInt8.ofNat (n / 256 % 256) :: UInt8.ofNat (n / 65536 % 256) :: UInt8.ofNat (n / 16777216 % 256) :: bs) = _
  unfold get4
  have t : ∀ k : Nat, (UInt8.ofNat (k % 256)).toNat = k % 256 := by
    intro k
    rw [UInt8.toNat_ofNat']
    omega
  simp only [t]
  rw [e]

theorem getText_put (t : Bytes) (h : t.length < 2 ^ 31) (bs : Bytes) : getText (put4 t.length ++ t ++ bs) = .ok (t, bs) := by
  unfold getText
  rw [List.append_assoc, get4_put4 _ (by omega), if_pos h]
  show (if (t.length : Int) < 0 then Res.throws else if (t ++ bs).length < (t.length : Int).toNat then .ub
    else .ok ((t ++ bs).take (t.length : Int).toNat, (t ++ bs).drop (t.length : Int).toNat)) = _
  rw [if_neg (by omega), Int.toNat_natCast, if_neg (by simp)]
  simp

theorem add_new (k v : Bytes) (m : Meta) (h : k ∉ m.map Prod.fst) : add k v m = m ++ [(k, v)] := by
  induction m with
  | nil => rfl
  | cons e m ih =>
    simp only [List.map_cons, List.mem_cons, not_or] at h
    unfold add
    rw [if_neg (fun e => h.1 e.symm), ih h.2]
    rfl

theorem getPairs_put (m acc : Meta) (junk : Bytes) (hn : ((acc ++ m).map Prod.fst).Nodup)
    (hl : ∀ e ∈ m, e.1.length < 2 ^ 31 ∧ e.2.length < 2 ^ 31) : getPairs m.length (m.flatMap putPair ++ junk) acc = .ok (acc ++ m) := by
  induction m generalizing acc with
  | nil => rw [List.append_nil]; rfl
  | cons e m ih =>
    have he := hl e (by simp)
    have e1 : (e :: m).flatMap putPair ++ junk = put4 e.1.length ++ e.1 ++ (put4 e.2.length ++ e.2 ++ (m.flatMap putPair ++ junk)) := by
      simp [putPair]
    rw [e1]
    show ((getText _).bind fun k => (getText k.2).bind fun v => getPairs m.length v.2 (add k.1 v.1 acc)) = _
    rw [getText_put _ he.1]
    show ((getText (put4 e.2.length ++ e.2 ++ _)).bind fun v => getPairs m.length v.2 (add e.1 v.1 acc)) = _
    rw [getText_put _ he.2]
    show getPairs m.length _ (add e.1 e.2 acc) = _
    have hk : e.1 ∉ acc.map Prod.fst := by
      rw [List.map_append, List.nodup_append] at hn
      intro h
      exact hn.2.2 _ h e.1 (by simp) rfl
    rw [add_new _ _ _ hk, ih]
    · simp
    · simpa using hn
    · exact fun x hx => hl x (List.mem_cons_of_mem _ hx)

theorem read_some (bs : Bytes) : read (some bs) = (get4 bs).bind fun r => getPairs r.1.toNat r.2 [] := rfl

theorem read_serialize (m : Meta) (h : Small m) (junk : Bytes) : read (some (serialize m ++ junk)) = .ok m := by
  rw [read_some]
  unfold serialize
  rw [List.append_assoc, get4_put4 _ (by have := h.2.1; omega), if_pos h.2.1]
  show getPairs (m.length : Int).toNat _ [] = _
  rw [Int.toNat_natCast, getPairs_put m [] junk (by simpa using h.1) h.2.2]
  rfl

/-- C113: metadata that are written, in whatever order the map is walked, and whatever bytes follow in memory, are read as the same pairs. -/
theorem C113_round_trip (m : Meta) (h : Small m) (junk : Bytes) : ∃ m', read (some (serialize m ++ junk)) = .ok m' ∧ Same m m' := by
  exact ⟨m, read_serialize m h junk, fun _ => Iff.rfl⟩

theorem get_mem (m : Meta) (h : (m.map Prod.fst).Nodup) (k v : Bytes) (hm : (k, v) ∈ m) : get k m = v := by
  induction m with
  | nil => exact absurd hm (by simp)
  | cons e m ih =>
    unfold get
    rw [List.map_cons, List.nodup_cons] at h
    rw [List.mem_cons] at hm
    rcases hm with hm | hm
    · rw [← hm, if_pos rfl]
    · have hk : k ∈ m.map Prod.fst := List.mem_map_of_mem (f := Prod.fst) hm
      rw [if_neg (fun e2 => h.1 (by rw [e2]; exact hk)), ih h.2 hm]

/-- C113: each option of metadata that were written is read with its value. -/
theorem C113_options (m : Meta) (h : Small m) (junk k v : Bytes) (hm : (k, v) ∈ m) :
    ∃ m', read (some (serialize m ++ junk)) = .ok m' ∧ get k m' = v := by
  exact ⟨m, read_serialize m h junk, get_mem m h.1 k v hm⟩

/-- C113: an option that is set has the value it was set to, and the others keep theirs. -/
theorem C113_set (m : Meta) (k v : Bytes) : get k (add k v m) = v ∧ ∀ k', k' ≠ k → get k' (add k v m) = get k' m := by
  induction m with
  | nil =>
    refine ⟨by simp [add, get], ?_⟩
    intro k' hk
    exact if_neg (fun e : k = k' => hk e.symm)
  | cons e m ih =>
    unfold add
    by_cases he : e.1 = k
    · rw [if_pos he]
      refine ⟨by simp [get], ?_⟩
      intro k' hk
      unfold get
      rw [if_neg (fun e => hk e.symm), if_neg (fun e2 => hk (e2.symm.trans he))]
    · rw [if_neg he]
      refine ⟨by unfold get; rw [if_neg he]; exact ih.1, ?_⟩
      intro k' hk
      unfold get
      rw [ih.2 k' hk]

/-- Keys stay distinct, so that what options build up is `Small` as far as keys go. -/
theorem C113_keys (m : Meta) (k v : Bytes) (h : (m.map Prod.fst).Nodup) : ((add k v m).map Prod.fst).Nodup ∧
    ∀ x, x ∈ (add k v m).map Prod.fst ↔ x = k ∨ x ∈ m.map Prod.fst := by
  induction m with
  | nil => simp [add]
  | cons e m ih =>
    rw [List.map_cons, List.nodup_cons] at h
    unfold add
    by_cases he : e.1 = k
    · rw [if_pos he]
      refine ⟨by rw [List.map_cons, List.nodup_cons]; exact ⟨he ▸ h.1, h.2⟩, ?_⟩
      intro x
      simp [he]
    · rw [if_neg he]
      obtain ⟨i1, i2⟩ := ih h.2
      refine ⟨?_, ?_⟩
      · rw [List.map_cons, List.nodup_cons]
        refine ⟨?_, i1⟩
        rw [i2]
        rintro (e2 | e2)
        · exact he e2
        · exact h.1 e2
      · intro x
        rw [List.map_cons, List.mem_cons, i2, List.map_cons, List.mem_cons]
        constructor
        · rintro (h | h | h)
          · exact Or.inr (Or.inl h)
          · exact Or.inl h
          · exact Or.inr (Or.inr h)
        · rintro (h | h | h)
          · exact Or.inr (Or.inl h)
          · exact Or.inl h
          · exact Or.inr (Or.inr h)

theorem keys_ne : nameKey ≠ dataKey := by decide +kernel

/-- C113: who reads the metadata of a canonical type finds its name, and takes it for an extension unless the name is empty or begins with
`ogc`. -/
theorem C113_canonical (name junk : Bytes) (h : name.length < 2 ^ 31) : ∃ m, read (some (serialize (canonical name) ++ junk)) = .ok m ∧
    get nameKey m = name ∧ (hasExtension m = true ↔ name ≠ [] ∧ ¬ ∃ r, name = 111 :: 103 :: 99 :: r) := by
  have hc : canonical name = [(nameKey, name), (dataKey, [])] := by
    show add dataKey [] [(nameKey, name)] = _
    unfold add
    rw [if_neg keys_ne]
    rfl
  have hl : nameKey.length < 2 ^ 31 ∧ dataKey.length < 2 ^ 31 := by decide +kernel
  have hs : Small (canonical name) := by
    rw [hc]
    refine ⟨by simpa using keys_ne, by show 2 < 2 ^ 31; decide, ?_⟩
    intro e he
    simp only [List.mem_cons, List.not_mem_nil, or_false] at he
    rcases he with rfl | rfl
    · exact ⟨hl.1, h⟩
    · exact ⟨hl.2, by decide⟩
  have hg : get nameKey (canonical name) = name := by
    rw [hc]
    exact if_pos rfl
  refine ⟨canonical name, read_serialize _ hs junk, hg, ?_⟩
  unfold hasExtension
  rw [hg, Bool.and_eq_true, Bool.not_eq_true', Bool.not_eq_true', List.isEmpty_eq_false_iff, Bool.eq_false_iff]
  refine and_congr Iff.rfl (not_congr ?_)
  rw [List.isPrefixOf_iff_prefix]
  constructor
  · rintro ⟨r, e⟩; exact ⟨r, e.symm⟩
  · rintro ⟨r, e⟩; exact ⟨r, e.symm⟩

/-- C113: the claim without bounds on sizes. -/
def C113_round_trip_claim : Prop := ∀ m : Meta, (m.map Prod.fst).Nodup → ∃ m', read (some (serialize m)) = .ok m' ∧ Same m m'

/-- C113: with a key of 2 GiB the reader throws, whatever the key and its value are. -/
theorem C113_large_fails (k v : Bytes) (h1 : 2 ^ 31 ≤ k.length) (h2 : k.length < 2 ^ 32) : read (some (serialize [(k, v)])) = .throws := by
  rw [read_some]
  unfold serialize
  have e : put4 [(k, v)].length ++ [(k, v)].flatMap putPair = put4 1 ++ (put4 k.length ++ (k ++ (put4 v.length ++ v))) := by simp [putPair]
  rw [e, get4_put4 1 (by omega), if_pos (by omega)]
  show getPairs 1 _ [] = _
  show ((getText _).bind fun k => (getText k.2).bind fun v => getPairs 0 v.2 (add k.1 v.1 [])) = _
  unfold getText
  rw [get4_put4 _ h2, if_neg (by omega)]
  show Res.bind (if (k.length : Int) - 2 ^ 32 < 0 then Res.throws else _) _ = _
  rw [if_pos (by omega)]
  rfl

theorem text_of (n : Nat) : ∃ k : Bytes, k.length = n := ⟨List.replicate n 0, List.length_replicate⟩

/-- C113: so the claim without bounds fails. -/
theorem C113_fails : ¬ C113_round_trip_claim := by
  intro h
  obtain ⟨k, hk⟩ := text_of (2 ^ 31)
  obtain ⟨m', e, _⟩ := h [(k, [])] (by simp)
  rw [C113_large_fails k [] (by omega) (by omega)] at e
  exact absurd e (by simp)

/-- C113: an option that is set to the empty text cannot be told from one that is not set. -/
theorem C113_empty_fails (k : Bytes) : get k (add k [] []) = get k [] := by
  simp [add, get]

/-- C113: the metadata of a type of a vendor name neither the type nor the vendor: those of any two such types are the same. -/
theorem C113_non_canonical_fails (t1 v1 t2 v2 : Bytes) : serialize (nonCanonical t1 v1) = serialize (nonCanonical t2 v2) := rfl

/-- C113: if fewer bytes are there than the lengths say, the reader reads beyond them: with a count of one and nothing behind it. -/
theorem C113_short_is_ub : read (some [1, 0, 0, 0]) = .ub := by decide

/-- C113: a count below zero is read as no metadata. -/
theorem C113_negative (bs : Bytes) (a b c d : UInt8) (hd : 128 ≤ d.toNat) : read (some (a :: b :: c :: d :: bs)) = .ok [] := by
  unfold read get4
  have h1 := a.toNat_lt
  have h2 := b.toNat_lt
  have h3 := c.toNat_lt
  have h4 := d.toNat_lt
  show getPairs (if a.toNat + 256 * b.toNat + 65536 * c.toNat + 16777216 * d.toNat < 2 ^ 31
    then ((a.toNat + 256 * b.toNat + 65536 * c.toNat + 16777216 * d.toNat : Nat) : Int)
    else ((a.toNat + 256 * b.toNat + 65536 * c.toNat + 16777216 * d.toNat : Nat) : Int) - 2 ^ 32).toNat bs [] = _
  rw [if_neg (by omega)]
  have : (((a.toNat + 256 * b.toNat + 65536 * c.toNat + 16777216 * d.toNat : Nat) : Int) - 2 ^ 32).toNat = 0 := by omega
  rw [this]
  rfl

example : Small [([97], [98, 99]), ([100], [])] := by
  refine ⟨by decide, by decide, ?_⟩
  intro e he
  simp only [List.mem_cons, List.not_mem_nil, or_false] at he
  rcases he with rfl | rfl <;> decide

example : read (some (serialize [([97], [98, 99]), ([100], [])])) = .ok [([97], [98, 99]), ([100], [])] := by decide +kernel

end Verif.ArrowMeta
