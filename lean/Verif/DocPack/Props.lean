import Verif.DocPack.Lemmas
/-!
C33: a document written as MessagePack and read again.
-/
namespace Verif.DocPack

open Verif.Num Verif.PhysKey Verif.DocVal Verif.Json Verif.Msgpack

/-- The full claim: every document packed, and unpacked from a buffer, is equal to itself by `is_equals_documents`
(whatever the tolerance for numbers of floating point, as long as a number is close to itself). -/
def C33_claim : Prop :=
  ∀ (shrink : Bool) (c32 : UInt32 → UInt32 → Bool) (c64 : UInt64 → UInt64 → Bool) (fs : List (Bytes × Node)) (r : Bytes),
    (∀ a, c32 a a = true) → (∀ a, c64 a a = true) → Valid (.obj fs) →
    ∃ d, ofBytes (pack shrink (.obj fs) ++ r) = .ok d ∧ equalsN c32 c64 (.obj fs) d = true

/-- A document without 128-bit numbers and integers of 2^56 and more comes back with the same things in the same places:
the same objects, arrays, names and texts, and the same numbers (their types may be others). -/
theorem C33_same_partial (shrink : Bool) (fs : List (Bytes × Node)) (r : Bytes) (hv : Valid (.obj fs))
    (hc : Every (Carried shrink) (.obj fs)) :
    ∃ d, ofBytes (pack shrink (.obj fs) ++ r) = .ok d ∧ ∀ l, Alike (seen (.obj fs) l) (seen d l) :=
  ⟨_, ofBytes_pack shrink fs r hv hc, fun l => alike_back shrink l _ hc⟩

/-- A document whose integers are 64-bit unsigned below 2^56 or 64-bit signed and negative, and whose other numbers are
doubles, comes back as it was. -/
theorem C33_exact_partial (shrink : Bool) (fs : List (Bytes × Node)) (r : Bytes) (hv : Valid (.obj fs))
    (hk : Every (Kept shrink) (.obj fs)) : ofBytes (pack shrink (.obj fs) ++ r) = .ok (.obj fs) := by
  rw [ofBytes_pack shrink fs r hv (hk.mono (kept_carried shrink)), kept_node shrink _ hv hk]

/-- The same for a vector of documents: each comes back, in order. -/
theorem C33_documents_partial (shrink : Bool) (ds : List (List (Bytes × Node))) (r : Bytes) (hl : ds.length < 2 ^ 31)
    (hv : ∀ fs ∈ ds, Valid (.obj fs)) (hc : ∀ fs ∈ ds, Every (Carried shrink) (.obj fs)) :
    ∃ es, allOfBytes (packAll shrink (ds.map .obj) ++ r) = .ok es ∧ es.length = ds.length ∧
      ∀ i (h : i < ds.length), ∃ e, es[i]? = some e ∧ ∀ l, Alike (seen (.obj ds[i]) l) (seen e l) := by
  refine ⟨_, allOfBytes_pack shrink ds r hl hv hc, by simp, fun i h => ⟨backN shrink (.obj ds[i]), by simp [h], fun l => ?_⟩⟩
  exact alike_back shrink l _ (hc _ (List.getElem_mem h))

/-! ### a case -/

/-- `{"a": -1, "b": [0.5, null, "x"], "c": {"d": 7}}` with 7 of 32 bits. -/
def sample : List (Bytes × Node) :=
  [([97], .leaf (.int .i64 (-1))), ([98], .arr [.leaf (.double 0x3FE0000000000000), .leaf .na, .leaf (.str [120])]),
   ([99], .obj [([100], .leaf (.int .i32 7))])]

theorem half_not_int (n : Int) (h : decode64 0x3FE0000000000000 = .fin (n * one)) : False := by
  have h1 : decode64 0x3FE0000000000000 = .fin (2 ^ 1073) := by decide +kernel
  have h2 : one = 2 * 2 ^ 1073 := by unfold one; rw [show (1074 : Nat) = 1073 + 1 from rfl, pow_succ]; ring
  rw [h1] at h
  injection h with h
  rw [h2, ← Int.mul_assoc] at h
  have hp : (2 : Int) ^ 1073 ≠ 0 := pow_ne_zero _ (by norm_num)
  have : (1 : Int) * 2 ^ 1073 = n * 2 * 2 ^ 1073 := by rw [Int.one_mul]; exact h
  have := mul_right_cancel₀ hp this
  omega

theorem sample_valid : Valid (.obj sample) := by
  refine .obj _ (by decide) (by decide) (by decide) ?_
  intro p hp
  simp only [sample, List.mem_cons, List.not_mem_nil, or_false] at hp
  rcases hp with rfl | rfl | rfl
  · exact .leaf _ (by simp [V.valid]; decide) (by rintro s ⟨⟩)
  · refine .arr _ (by decide) fun x hx => ?_
    simp only [List.mem_cons, List.not_mem_nil, or_false] at hx
    rcases hx with rfl | rfl | rfl
    · exact .leaf _ trivial (by rintro s ⟨⟩)
    · exact .leaf _ trivial (by rintro s ⟨⟩)
    · exact .leaf _ trivial (by rintro s ⟨⟩; decide)
  · refine .obj _ (by decide) (by decide) (by decide) fun p hp => ?_
    simp only [List.mem_cons, List.not_mem_nil, or_false] at hp
    subst hp
    exact .leaf _ (by simp [V.valid]; decide) (by rintro s ⟨⟩)

theorem sample_carried (shrink : Bool) : Every (Carried shrink) (.obj sample) := by
  refine .obj _ fun p hp => ?_
  simp only [sample, List.mem_cons, List.not_mem_nil, or_false] at hp
  rcases hp with rfl | rfl | rfl
  · exact .leaf _ (by simp [Carried])
  · refine .arr _ fun x hx => ?_
    simp only [List.mem_cons, List.not_mem_nil, or_false] at hx
    rcases hx with rfl | rfl | rfl
    · exact .leaf _ fun _ n hn => (half_not_int n hn).elim
    · exact .leaf _ trivial
    · exact .leaf _ trivial
  · refine .obj _ fun p hp => ?_
    simp only [List.mem_cons, List.not_mem_nil, or_false] at hp
    subst hp
    exact .leaf _ (by simp [Carried])

example (shrink : Bool) (r : Bytes) : ∃ d, ofBytes (pack shrink (.obj sample) ++ r) = .ok d ∧ ∀ l, Alike (seen (.obj sample) l) (seen d l) :=
  C33_same_partial shrink sample r sample_valid (sample_carried shrink)

example (shrink : Bool) (r : Bytes) : ∃ es, allOfBytes (packAll shrink [.obj sample, .obj sample] ++ r) = .ok es ∧ es.length = 2 := by
  obtain ⟨es, h, hl, _⟩ := C33_documents_partial shrink [sample, sample] r (by decide)
    (by simp [sample_valid]) (by simp [sample_carried])
  exact ⟨es, h, hl⟩

/-- The part of it without the 32-bit number. -/
def sampleKept : List (Bytes × Node) :=
  [([97], .leaf (.int .i64 (-1))), ([98], .arr [.leaf (.double 0x3FE0000000000000), .leaf .na, .leaf (.str [120])]),
   ([99], .obj [([100], .leaf (.int .u64 7))])]

example (shrink : Bool) (r : Bytes) : ofBytes (pack shrink (.obj sampleKept) ++ r) = .ok (.obj sampleKept) := by
  refine C33_exact_partial shrink sampleKept r ?_ ?_
  · refine .obj _ (by decide) (by decide) (by decide) ?_
    intro p hp
    simp only [sampleKept, List.mem_cons, List.not_mem_nil, or_false] at hp
    rcases hp with rfl | rfl | rfl
    · exact .leaf _ (by simp [V.valid]; decide) (by rintro s ⟨⟩)
    · refine .arr _ (by decide) fun x hx => ?_
      simp only [List.mem_cons, List.not_mem_nil, or_false] at hx
      rcases hx with rfl | rfl | rfl
      · exact .leaf _ trivial (by rintro s ⟨⟩)
      · exact .leaf _ trivial (by rintro s ⟨⟩)
      · exact .leaf _ trivial (by rintro s ⟨⟩; decide)
    · refine .obj _ (by decide) (by decide) (by decide) fun p hp => ?_
      simp only [List.mem_cons, List.not_mem_nil, or_false] at hp
      subst hp
      exact .leaf _ (by simp [V.valid]; decide) (by rintro s ⟨⟩)
  · refine .obj _ fun p hp => ?_
    simp only [sampleKept, List.mem_cons, List.not_mem_nil, or_false] at hp
    rcases hp with rfl | rfl | rfl
    · exact .leaf _ (by simp [Kept])
    · refine .arr _ fun x hx => ?_
      simp only [List.mem_cons, List.not_mem_nil, or_false] at hx
      rcases hx with rfl | rfl | rfl
      · exact .leaf _ fun _ n hn => (half_not_int n hn).elim
      · exact .leaf _ trivial
      · exact .leaf _ trivial
    · refine .obj _ fun p hp => ?_
      simp only [List.mem_cons, List.not_mem_nil, or_false] at hp
      subst hp
      exact .leaf _ (by simp [Kept])

/-! ### what does not come back -/

theorem one_field_valid (v : V) (hv : v.valid) (hs : ∀ s, v ≠ .str s) : Valid (.obj [([97], .leaf v)]) := by
  refine .obj _ (by simp) (by simp) (by simp) fun p hp => ?_
  simp only [List.mem_cons, List.not_mem_nil, or_false] at hp
  subst hp
  exact .leaf _ hv fun s h => (hs s h).elim

/-- `{"a": 1}`, with 1 signed (as JSON and SQL numbers are), comes back with an unsigned 1: not equal to the original. -/
theorem C33_type_fails : ¬ C33_claim ∧ ∀ shrink,
    ofBytes (pack shrink (.obj [([97], .leaf (.int .i64 1))])) = .ok (.obj [([97], .leaf (.int .u64 1))]) := by
  have hv : Valid (.obj [([97], .leaf (.int .i64 1))]) := one_field_valid _ (by simp [V.valid]; decide) (by rintro s ⟨⟩)
  have h : ∀ shrink, ofBytes (pack shrink (.obj [([97], .leaf (.int .i64 1))])) = .ok (.obj [([97], .leaf (.int .u64 1))]) := by
    intro shrink
    have := ofBytes_pack shrink _ [] hv (.obj _ fun p hp => by
      simp only [List.mem_cons, List.not_mem_nil, or_false] at hp
      subst hp
      exact .leaf _ (by simp [Carried]))
    rw [List.append_nil] at this
    rw [this]
    rfl
  refine ⟨fun hc => ?_, h⟩
  obtain ⟨d, h1, h2⟩ := hc false (fun _ _ => true) (fun _ _ => true) _ [] (fun _ => rfl) (fun _ => rfl) hv
  rw [List.append_nil, h false] at h1
  injection h1 with h1
  subst h1
  exact absurd h2 (by decide)

/-- A 128-bit number is not written at all: `{"a": 5}` with such a 5 cannot be read; followed by another object in the
buffer, that is taken for the value. -/
theorem C33_big_fails : ¬ C33_claim ∧ ofBytes (pack false (.obj [([97], .leaf (.big 5))])) = .throws ∧
    ofBytes (pack false (.obj [([97], .leaf (.big 5))]) ++ encode (.uint 9)) = .ok (.obj [([97], .leaf (.int .u64 9))]) := by
  have h1 : ofBytes (pack false (.obj [([97], .leaf (.big 5))])) = .throws := by rfl
  refine ⟨fun hc => ?_, h1, by rfl⟩
  obtain ⟨d, h2, _⟩ := hc false (fun _ _ => true) (fun _ _ => true) _ [] (fun _ => rfl) (fun _ => rfl)
    (one_field_valid (.big 5) (by simp [V.valid]) (by rintro s ⟨⟩))
  rw [List.append_nil, h1] at h2
  cases h2

/-- 2^63, unsigned, comes back as a value of no type. -/
theorem C33_large_fails : ¬ C33_claim ∧
    ofBytes (pack false (.obj [([97], .leaf (.int .u64 (2 ^ 63)))])) = .ok (.obj [([97], .leaf (.other 136))]) := by
  have h1 : ofBytes (pack false (.obj [([97], .leaf (.int .u64 (2 ^ 63)))])) = .ok (.obj [([97], .leaf (.other 136))]) := by rfl
  refine ⟨fun hc => ?_, h1⟩
  obtain ⟨d, h2, h3⟩ := hc false (fun _ _ => true) (fun _ _ => true) _ [] (fun _ => rfl) (fun _ => rfl)
    (one_field_valid (.int .u64 (2 ^ 63)) (by simp [V.valid]; decide) (by rintro s ⟨⟩))
  rw [List.append_nil, h1] at h2
  injection h2 with h2
  subst h2
  exact absurd h3 (by decide)

end Verif.DocPack
