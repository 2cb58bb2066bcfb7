import Verif.Query.AggSpec
import Verif.DocVal.TapeProps
import Verif.Query.SortProps
/-!
C26: aggregates.
-/
namespace Verif.Query

open Verif.DocVal Verif.Num Verif.PhysKey Verif.LogVal

/-- The count, for inputs below 2^56 documents. -/
theorem C26_count_partial (fpu : Fpu) (docs : List Doc) (h : docs.length < 2 ^ 56) :
    Agg.run fpu docs .count = .ok (.scalar (.int .u64 docs.length)) := by
  have e : ((docs.length : Int) % 2 ^ 64) = docs.length := Int.emod_eq_of_lt (by omega) (by omega)
  unfold Agg.run
  rw [e]
  have hf : ITy.u64.fits (docs.length : Int) := ⟨Int.natCast_nonneg _, by show (docs.length : Int) < 2 ^ 64; omega⟩
  have : put (.int .u64 docs.length) = .ok (.int .u64 docs.length) :=
    C48_roundtrip_partial ⟨[], []⟩ 0 (.int .u64 docs.length) [] hf (by simp only [Fits, if_true]; omega)
  rw [this]; rfl

theorem put_i64 (n : Int) (h : ITy.i64.fits n) : put (.int .i64 n) = .ok (.int .i64 n) :=
  C48_roundtrip_partial ⟨[], []⟩ 0 (.int .i64 n) [] h (by simp [Fits])

theorem put_u64 (n : Int) (h0 : 0 ≤ n) (h : n < 2 ^ 56) : put (.int .u64 n) = .ok (.int .u64 n) :=
  C48_roundtrip_partial ⟨[], []⟩ 0 (.int .u64 n) [] ⟨h0, by show n < 2 ^ 64; omega⟩ (by simp only [Fits, if_true]; omega)

theorem put_double (b : UInt64) : put (.double b) = .ok (.double b) :=
  C48_roundtrip_partial ⟨[], []⟩ 0 (.double b) [] trivial trivial

theorem zero_fits (t : ITy) : t.fits 0 := by cases t <;> decide

/-- One more signed number, or none. -/
theorem sum_i64 (fpu : Fpu) (s n : Int) (x : Option V) (hn : ITy.i64.fits n) (hs : ITy.i64.fits s) (hsn : ITy.i64.fits (s + n))
    (hx : x = none ∧ n = 0 ∨ ∃ t : ITy, x = some (.int t n) ∧ t.fits n) :
    sumV fpu (some (.int .i64 s)) x = .ok (some (.int .i64 (s + n))) := by
  have h2 : operand 0 (V.getInt .i64) x = .ok n := by
    rcases hx with ⟨rfl, rfl⟩ | ⟨t, rfl, ht⟩
    · rfl
    · show noexc (castInt t .i64 n) = _
      rw [castInt_fits t .i64 n ht hn]; rfl
  have h1 : operand 0 (V.getInt .i64) (some (.int .i64 s)) = .ok s := rfl
  show plusOp 0 (V.getInt .i64) addI64 (some (.int .i64 s)) x = _
  unfold plusOp
  rw [h1, h2]
  simp only [Res.bind]
  unfold addI64
  rw [if_pos hsn]
  simp only
  rw [put_i64 _ hsn]

theorem sum_first_i64 (fpu : Fpu) (n : Int) (t : ITy) (ht : t.signed = true) (hf : t.fits n) (hn : ITy.i64.fits n) :
    sumV fpu none (some (.int t n)) = .ok (some (.int .i64 n)) := by
  have h2 : operand 0 (V.getInt .i64) (some (.int t n)) = .ok n := by
    show noexc (castInt t .i64 n) = _
    rw [castInt_fits t .i64 n hf hn]; rfl
  show (if t.signed then plusOp 0 (V.getInt .i64) addI64 none (some (.int t n)) else _) = _
  rw [if_pos ht]
  unfold plusOp
  rw [h2]
  simp only [operand, Res.bind]
  unfold addI64
  rw [Int.zero_add, if_pos hn]
  simp only
  rw [put_i64 _ hn]

theorem sumDocs_i64 (fpu : Fpu) (k : Bytes) : ∀ (docs : List Doc) (ns : List (ITy × Int)) (s : Int), valuesOf k docs = ints ns →
    (∀ p ∈ ns, p.1.fits p.2 ∧ ITy.i64.fits p.2) → (∀ i, ITy.i64.fits (s + total (ns.take i))) →
    sumDocs fpu k (some (.int .i64 s)) docs = .ok (some (.int .i64 (s + total ns))) := by
  intro docs
  induction docs with
  | nil =>
    intro ns s h _ _
    have : ns = [] := by cases ns with | nil => rfl | cons => simp [valuesOf, ints] at h
    subst this
    simp [sumDocs, total]
  | cons d ds ih =>
    intro ns s h hn hp
    have h0 : ITy.i64.fits s := by have := hp 0; simpa [total] using this
    unfold sumDocs
    cases hv : d.value k with
    | none =>
      have h' : valuesOf k ds = ints ns := by rw [← h]; simp [valuesOf, hv]
      rw [sum_i64 fpu s 0 none (zero_fits _) h0 (by simpa using h0) (Or.inl ⟨rfl, rfl⟩)]
      simp only [Res.bind, Int.add_zero]
      exact ih ns s h' hn hp
    | some v =>
      cases ns with
      | nil => simp [valuesOf, hv, ints] at h
      | cons p ns =>
        simp only [valuesOf, List.filterMap_cons, hv, ints, List.map_cons, List.cons.injEq] at h
        obtain ⟨rfl, h'⟩ := h
        have e : ∀ i, total ((p :: ns).take (i + 1)) = p.2 + total (ns.take i) := by intro i; simp [total]
        have h1 : ITy.i64.fits (s + p.2) := by
          have := hp 1
          rw [e 0] at this
          simpa [total] using this
        rw [sum_i64 fpu s p.2 _ (hn p List.mem_cons_self).2 h0 h1 (Or.inr ⟨p.1, rfl, (hn p List.mem_cons_self).1⟩)]
        simp only [Res.bind]
        rw [ih ns (s + p.2) h' (fun q hq => hn q (List.mem_cons_of_mem _ hq))]
        · simp [total, Int.add_assoc]
        · intro i
          have := hp (i + 1)
          rw [e i, ← Int.add_assoc] at this
          exact this

theorem sumDocs_signed (fpu : Fpu) (k : Bytes) : ∀ (docs : List Doc) (t : ITy) (n : Int) (ns : List (ITy × Int)),
    valuesOf k docs = ints ((t, n) :: ns) → t.signed = true →
    (∀ p ∈ (t, n) :: ns, p.1.fits p.2 ∧ ITy.i64.fits p.2) → (∀ i, ITy.i64.fits (total (((t, n) :: ns).take i))) →
    sumDocs fpu k none docs = .ok (some (.int .i64 (total ((t, n) :: ns)))) := by
  intro docs
  induction docs with
  | nil => intro t n ns h; simp [valuesOf, ints] at h
  | cons d ds ih =>
    intro t n ns h ht hn hp
    unfold sumDocs
    cases hv : d.value k with
    | none =>
      have h' : valuesOf k ds = ints ((t, n) :: ns) := by rw [← h]; simp [valuesOf, hv]
      exact ih t n ns h' ht hn hp
    | some v =>
      simp only [valuesOf, List.filterMap_cons, hv, ints, List.map_cons, List.cons.injEq] at h
      obtain ⟨rfl, h'⟩ := h
      have hh := hn (t, n) List.mem_cons_self
      rw [sum_first_i64 fpu n t ht hh.1 hh.2]
      simp only [Res.bind]
      rw [sumDocs_i64 fpu k ds ns n h' (fun q hq => hn q (List.mem_cons_of_mem _ hq))]
      · simp [total]
      · intro i
        have := hp (i + 1)
        simpa [total] using this

/-- The sum of integers of any types that start with a signed one: exact, as a 64-bit signed number, if each number and
each intermediate sum fits; documents without the field are left out. -/
theorem C26_sum_signed_partial (fpu : Fpu) (k : Bytes) (docs : List Doc) (t : ITy) (n : Int) (ns : List (ITy × Int))
    (h : valuesOf k docs = ints ((t, n) :: ns)) (ht : t.signed = true)
    (hn : ∀ p ∈ (t, n) :: ns, p.1.fits p.2 ∧ ITy.i64.fits p.2) (hp : ∀ i, ITy.i64.fits (total (((t, n) :: ns).take i))) :
    Agg.run fpu docs (.sum k) = .ok (.scalar (.int .i64 (total ((t, n) :: ns)))) := by
  have e : Agg.run fpu docs (.sum k) = (sumDocs fpu k none docs).bind fun s => (setValue s).bind fun v => .ok (.scalar v) := rfl
  rw [e, sumDocs_signed fpu k docs t n ns h ht hn hp]
  have hf : ITy.i64.fits (total ((t, n) :: ns)) := by
    have := hp (ns.length + 1)
    rwa [show ((t, n) :: ns).take (ns.length + 1) = (t, n) :: ns from by simp] at this
  show (put (.int .i64 (total ((t, n) :: ns)))).bind (fun v => Res.ok (Cell.scalar v)) = _
  rw [put_i64 _ hf]; rfl

/-- The mean of signed integers when every document has the field. -/
theorem C26_avg_partial (fpu : Fpu) (k : Bytes) (docs : List Doc) (t : ITy) (n : Int) (ns : List (ITy × Int))
    (h : docs.map (fun d => d.value k) = (ints ((t, n) :: ns)).map some) (ht : t.signed = true)
    (hn : ∀ p ∈ (t, n) :: ns, p.1.fits p.2 ∧ ITy.i64.fits p.2) (hp : ∀ i, ITy.i64.fits (total (((t, n) :: ns).take i))) :
    Agg.run fpu docs (.avg k) =
      .ok (.scalar (.double (fpu.div64 (ofInt 53 (total ((t, n) :: ns))) (ofInt 53 ((t, n) :: ns).length)))) := by
  have hv : valuesOf k docs = ints ((t, n) :: ns) := by
    have : valuesOf k docs = (docs.map fun d => d.value k).filterMap id := by
      rw [List.filterMap_map]; rfl
    rw [this, h, List.filterMap_map]
    simp
  have hl : docs.length = ((t, n) :: ns).length := by
    have := congrArg List.length h
    simpa [ints] using this
  have hne : docs ≠ [] := by intro e; subst e; simp at hl
  unfold Agg.run
  simp only
  rw [if_neg hne, sumDocs_signed fpu k docs t n ns hv ht hn hp]
  simp only [Res.bind, V.getDouble, noexc]
  rw [put_double, hl]

/-- One more unsigned number, or none. -/
theorem sum_u64 (fpu : Fpu) (s n : Int) (x : Option V) (h0 : 0 ≤ s) (hn : 0 ≤ n) (hsn : s + n < 2 ^ 56)
    (hx : x = none ∧ n = 0 ∨ ∃ t : ITy, x = some (.int t n) ∧ t.fits n) :
    sumV fpu (some (.int .u64 s)) x = .ok (some (.int .u64 (s + n))) := by
  have h2 : operand 0 (V.getInt .u64) x = .ok n := by
    rcases hx with ⟨rfl, rfl⟩ | ⟨t, rfl, ht⟩
    · rfl
    · show noexc (castInt t .u64 n) = _
      rw [castInt_fits t .u64 n ht ⟨hn, by show n < 2 ^ 64; omega⟩]; rfl
  have h1 : operand 0 (V.getInt .u64) (some (.int .u64 s)) = .ok s := rfl
  show plusOp 0 (V.getInt .u64) addU64 (some (.int .u64 s)) x = _
  unfold plusOp
  rw [h1, h2]
  simp only [Res.bind, addU64]
  rw [Int.emod_eq_of_lt (by omega) (by omega), put_u64 _ (by omega) hsn]

theorem sum_first_u64 (fpu : Fpu) (n : Int) (t : ITy) (ht : t.signed = false) (hf : t.fits n) (hn : n < 2 ^ 56) :
    sumV fpu none (some (.int t n)) = .ok (some (.int .u64 n)) := by
  have h0 : 0 ≤ n := by cases t <;> first | exact hf.1 | (exact absurd ht (by decide))
  have h2 : operand 0 (V.getInt .u64) (some (.int t n)) = .ok n := by
    show noexc (castInt t .u64 n) = _
    rw [castInt_fits t .u64 n hf ⟨h0, by show n < 2 ^ 64; omega⟩]; rfl
  show (if t.signed then _ else plusOp 0 (V.getInt .u64) addU64 none (some (.int t n))) = _
  rw [if_neg (by simp [ht])]
  unfold plusOp
  rw [h2]
  simp only [operand, Res.bind, addU64, Int.zero_add]
  rw [Int.emod_eq_of_lt (by omega) (by omega), put_u64 _ (by omega) hn]

theorem total_nonneg (ns : List (ITy × Int)) (h : ∀ p ∈ ns, 0 ≤ p.2) : 0 ≤ total ns := by
  induction ns with
  | nil => simp [total]
  | cons p ns ih =>
    have := ih fun q hq => h q (List.mem_cons_of_mem _ hq)
    have h1 := h p List.mem_cons_self
    simp only [total, List.map_cons, List.sum_cons] at this ⊢
    omega

theorem sumDocs_u64 (fpu : Fpu) (k : Bytes) : ∀ (docs : List Doc) (ns : List (ITy × Int)) (s : Int), valuesOf k docs = ints ns →
    (∀ p ∈ ns, p.1.fits p.2 ∧ 0 ≤ p.2) → 0 ≤ s → s + total ns < 2 ^ 56 →
    sumDocs fpu k (some (.int .u64 s)) docs = .ok (some (.int .u64 (s + total ns))) := by
  intro docs
  induction docs with
  | nil =>
    intro ns s h _ _ _
    have : ns = [] := by cases ns with | nil => rfl | cons => simp [valuesOf, ints] at h
    subst this
    simp [sumDocs, total]
  | cons d ds ih =>
    intro ns s h hn h0 hp
    unfold sumDocs
    cases hv : d.value k with
    | none =>
      have h' : valuesOf k ds = ints ns := by rw [← h]; simp [valuesOf, hv]
      have := total_nonneg ns fun p hp => (hn p hp).2
      rw [sum_u64 fpu s 0 none h0 (by omega) (by omega) (Or.inl ⟨rfl, rfl⟩)]
      simp only [Res.bind, Int.add_zero]
      exact ih ns s h' hn h0 hp
    | some v =>
      cases ns with
      | nil => simp [valuesOf, hv, ints] at h
      | cons p ns =>
        simp only [valuesOf, List.filterMap_cons, hv, ints, List.map_cons, List.cons.injEq] at h
        obtain ⟨rfl, h'⟩ := h
        have e : total (p :: ns) = p.2 + total ns := by simp [total]
        have t0 := total_nonneg ns fun q hq => (hn q (List.mem_cons_of_mem _ hq)).2
        have p0 := (hn p List.mem_cons_self).2
        rw [e] at hp ⊢
        rw [sum_u64 fpu s p.2 _ h0 p0 (by omega) (Or.inr ⟨p.1, rfl, (hn p List.mem_cons_self).1⟩)]
        simp only [Res.bind]
        rw [ih ns (s + p.2) h' (fun q hq => hn q (List.mem_cons_of_mem _ hq)) (by omega) (by omega), Int.add_assoc]

/-- The sum of nonnegative integers of any types that start with an unsigned one: exact below 2^56. -/
theorem C26_sum_unsigned_partial (fpu : Fpu) (k : Bytes) (docs : List Doc) (t : ITy) (n : Int) (ns : List (ITy × Int))
    (h : valuesOf k docs = ints ((t, n) :: ns)) (ht : t.signed = false)
    (hn : ∀ p ∈ (t, n) :: ns, p.1.fits p.2 ∧ 0 ≤ p.2) (hp : total ((t, n) :: ns) < 2 ^ 56) :
    Agg.run fpu docs (.sum k) = .ok (.scalar (.int .u64 (total ((t, n) :: ns)))) := by
  have key : ∀ docs : List Doc, valuesOf k docs = ints ((t, n) :: ns) →
      sumDocs fpu k none docs = .ok (some (.int .u64 (total ((t, n) :: ns)))) := by
    intro docs
    induction docs with
    | nil => intro h; simp [valuesOf, ints] at h
    | cons d ds ih =>
      intro h
      unfold sumDocs
      cases hv : d.value k with
      | none =>
        have h' : valuesOf k ds = ints ((t, n) :: ns) := by rw [← h]; simp [valuesOf, hv]
        exact ih h'
      | some v =>
        simp only [valuesOf, List.filterMap_cons, hv, ints, List.map_cons, List.cons.injEq] at h
        obtain ⟨rfl, h'⟩ := h
        have hh := hn (t, n) List.mem_cons_self
        have e : total ((t, n) :: ns) = n + total ns := by simp [total]
        have t0 := total_nonneg ns fun q hq => (hn q (List.mem_cons_of_mem _ hq)).2
        have h2 : (0 : Int) ≤ n := hh.2
        rw [e] at hp ⊢
        rw [sum_first_u64 fpu n t ht hh.1 (by omega)]
        simp only [Res.bind]
        exact sumDocs_u64 fpu k ds ns n h' (fun q hq => hn q (List.mem_cons_of_mem _ hq)) h2 hp
  have e : Agg.run fpu docs (.sum k) = (sumDocs fpu k none docs).bind fun s => (setValue s).bind fun v => .ok (.scalar v) := rfl
  rw [e, key docs h]
  show (put (.int .u64 (total ((t, n) :: ns)))).bind (fun v => Res.ok (Cell.scalar v)) = _
  rw [put_u64 _ (total_nonneg _ fun p hp => (hn p hp).2) hp]; rfl

/-- The sum of doubles: the machine additions in the order of the documents, starting from zero. -/
def addAll (fpu : Fpu) : UInt64 → List UInt64 → UInt64
  | s, [] => s
  | s, b :: bs => addAll fpu (fpu.add64 (decode64 s) (decode64 b)) bs

theorem sumDocs_double (fpu : Fpu) (k : Bytes) : ∀ (docs : List Doc) (bs : List UInt64) (s : UInt64),
    docs.map (fun d => d.value k) = bs.map (fun b => some (.double b)) →
    sumDocs fpu k (some (.double s)) docs = .ok (some (.double (addAll fpu s bs))) := by
  intro docs
  induction docs with
  | nil => intro bs s h; cases bs with | nil => rfl | cons => simp at h
  | cons d ds ih =>
    intro bs s h
    cases bs with
    | nil => simp at h
    | cons b bs =>
      simp only [List.map_cons, List.cons.injEq] at h
      unfold sumDocs
      rw [h.1]
      have : sumV fpu (some (.double s)) (some (.double b)) = .ok (some (.double (fpu.add64 (decode64 s) (decode64 b)))) := by
        show (put (.double (fpu.add64 (decode64 s) (decode64 b)))).bind (fun r => .ok (some r)) = _
        rw [put_double]; rfl
      rw [this]
      exact ih bs _ h.2

/-- All documents have a double in the field. -/
theorem C26_sum_double_partial (fpu : Fpu) (k : Bytes) (docs : List Doc) (b : UInt64) (bs : List UInt64)
    (h : docs.map (fun d => d.value k) = (b :: bs).map (fun b => some (.double b))) :
    Agg.run fpu docs (.sum k) = .ok (.scalar (.double (addAll fpu (fpu.add64 (.fin 0) (decode64 b)) bs))) := by
  cases docs with
  | nil => simp at h
  | cons d ds =>
    simp only [List.map_cons, List.cons.injEq] at h
    have e : Agg.run fpu (d :: ds) (.sum k) = (sumDocs fpu k none (d :: ds)).bind fun s => (setValue s).bind fun v => .ok (.scalar v) := rfl
    rw [e]
    unfold sumDocs
    rw [h.1]
    have : sumV fpu none (some (.double b)) = .ok (some (.double (fpu.add64 (.fin 0) (decode64 b)))) := by
      show (put (.double (fpu.add64 (.fin 0) (decode64 b)))).bind (fun r => .ok (some r)) = _
      rw [put_double]; rfl
    rw [this]
    simp only [Res.bind]
    rw [sumDocs_double fpu k ds bs _ h.2]
    show (put (.double (addAll fpu (fpu.add64 (.fin 0) (decode64 b)) bs))).bind (fun v => Res.ok (Cell.scalar v)) = _
    rw [put_double]; rfl

/-! ### greatest and least -/

theorem lessBy_below (kd : Kind) (k : Bytes) (a b : Doc) (ha : kd.cell (a.get k)) (hb : kd.cell (b.get k)) :
    ∃ r, lessBy k a b = .ok r ∧ (r = true ↔ Below kd (a.get k) (b.get k)) := by
  obtain ⟨o, h, -⟩ := (C32_kind_partial kd).1.swap _ _ ha hb
  refine ⟨o == .lt, by unfold lessBy; rw [h]; rfl, ?_⟩
  rw [← Below.compare kd _ _ ha hb, h]
  cases o <;> simp

theorem Below.trans {kd : Kind} {a b c : Cell} (ha : kd.cell a) (hb : kd.cell b) (hc : kd.cell c) (h1 : Below kd a b) (h2 : Below kd b c) :
    Below kd a c := by
  rw [← Below.compare kd _ _ ha hb] at h1
  rw [← Below.compare kd _ _ hb hc] at h2
  rw [← Below.compare kd _ _ ha hc]
  exact (C32_kind_partial kd).1.trans a b c ha hb hc h1 h2

theorem Below.split {kd : Kind} {a b c : Cell} (ha : kd.cell a) (hb : kd.cell b) (hc : kd.cell c) (h : Below kd a b) :
    Below kd a c ∨ Below kd c b := by
  have ho := (C32_kind_partial kd).1
  rw [← Below.compare kd _ _ ha hb] at h
  obtain ⟨o, h1, -⟩ := ho.swap a c ha hc
  cases o with
  | lt => exact Or.inl ((Below.compare kd _ _ ha hc).mp h1)
  | eq =>
    refine Or.inr ((Below.compare kd _ _ hc hb).mp ?_)
    rw [← ho.ties a c b ha hc hb h1]; exact h
  | gt =>
    refine Or.inr ((Below.compare kd _ _ hc hb).mp ?_)
    exact ho.trans c a b hc ha hb (Ordered.swapped ho ha hc h1) h

theorem maxElement_spec (kd : Kind) (k : Bytes) : ∀ (ds : List Doc) (best : Doc), kd.cell (best.get k) → (∀ d ∈ ds, kd.cell (d.get k)) →
    ∃ m, maxElement k best ds = .ok m ∧ m ∈ best :: ds ∧ ∀ d ∈ best :: ds, ¬ Below kd (m.get k) (d.get k) := by
  intro ds
  induction ds with
  | nil =>
    intro best hb _
    refine ⟨best, rfl, List.mem_cons_self, ?_⟩
    intro d hd
    simp only [List.mem_cons, List.not_mem_nil, or_false] at hd
    subst hd
    rw [← Below.compare kd _ _ hb hb, (C32_kind_partial kd).1.refl _ hb]
    simp
  | cons d ds ih =>
    intro best hb hd
    have hdd := hd d List.mem_cons_self
    obtain ⟨r, hr, hr2⟩ := lessBy_below kd k best d hb hdd
    unfold maxElement
    rw [hr]
    simp only [Res.bind]
    cases r with
    | true =>
      rw [if_pos rfl]
      obtain ⟨m, h1, h2, h3⟩ := ih d hdd fun e he => hd e (List.mem_cons_of_mem _ he)
      refine ⟨m, h1, List.mem_cons_of_mem _ h2, ?_⟩
      have hm : kd.cell (m.get k) := by
        rcases List.mem_cons.mp h2 with rfl | h2
        · exact hdd
        · exact hd m (List.mem_cons_of_mem _ h2)
      intro e he
      rcases List.mem_cons.mp he with rfl | he
      · intro hlt
        exact h3 d List.mem_cons_self (Below.trans hm hb hdd hlt (hr2.mp rfl))
      · exact h3 e he
    | false =>
      rw [if_neg (by simp)]
      obtain ⟨m, h1, h2, h3⟩ := ih best hb fun e he => hd e (List.mem_cons_of_mem _ he)
      have hm : kd.cell (m.get k) := by
        rcases List.mem_cons.mp h2 with rfl | h2
        · exact hb
        · exact hd m (List.mem_cons_of_mem _ h2)
      refine ⟨m, h1, ?_, ?_⟩
      · rcases List.mem_cons.mp h2 with rfl | h2
        · exact List.mem_cons_self
        · exact List.mem_cons_of_mem _ (List.mem_cons_of_mem _ h2)
      · intro e he
        rcases List.mem_cons.mp he with rfl | he
        · exact h3 e List.mem_cons_self
        · rcases List.mem_cons.mp he with rfl | he
          · intro hlt
            rcases Below.split hm hdd hb hlt with h | h
            · exact h3 best List.mem_cons_self h
            · have := hr2.mpr h; cases this
          · exact h3 e (List.mem_cons_of_mem _ he)

theorem minElement_spec (kd : Kind) (k : Bytes) : ∀ (ds : List Doc) (best : Doc), kd.cell (best.get k) → (∀ d ∈ ds, kd.cell (d.get k)) →
    ∃ m, minElement k best ds = .ok m ∧ m ∈ best :: ds ∧ ∀ d ∈ best :: ds, ¬ Below kd (d.get k) (m.get k) := by
  intro ds
  induction ds with
  | nil =>
    intro best hb _
    refine ⟨best, rfl, List.mem_cons_self, ?_⟩
    intro d hd
    simp only [List.mem_cons, List.not_mem_nil, or_false] at hd
    subst hd
    rw [← Below.compare kd _ _ hb hb, (C32_kind_partial kd).1.refl _ hb]
    simp
  | cons d ds ih =>
    intro best hb hd
    have hdd := hd d List.mem_cons_self
    obtain ⟨r, hr, hr2⟩ := lessBy_below kd k d best hdd hb
    unfold minElement
    rw [hr]
    simp only [Res.bind]
    cases r with
    | true =>
      rw [if_pos rfl]
      obtain ⟨m, h1, h2, h3⟩ := ih d hdd fun e he => hd e (List.mem_cons_of_mem _ he)
      refine ⟨m, h1, List.mem_cons_of_mem _ h2, ?_⟩
      have hm : kd.cell (m.get k) := by
        rcases List.mem_cons.mp h2 with rfl | h2
        · exact hdd
        · exact hd m (List.mem_cons_of_mem _ h2)
      intro e he
      rcases List.mem_cons.mp he with rfl | he
      · intro hlt
        exact h3 d List.mem_cons_self (Below.trans hdd hb hm (hr2.mp rfl) hlt)
      · exact h3 e he
    | false =>
      rw [if_neg (by simp)]
      obtain ⟨m, h1, h2, h3⟩ := ih best hb fun e he => hd e (List.mem_cons_of_mem _ he)
      have hm : kd.cell (m.get k) := by
        rcases List.mem_cons.mp h2 with rfl | h2
        · exact hb
        · exact hd m (List.mem_cons_of_mem _ h2)
      refine ⟨m, h1, ?_, ?_⟩
      · rcases List.mem_cons.mp h2 with rfl | h2
        · exact List.mem_cons_self
        · exact List.mem_cons_of_mem _ (List.mem_cons_of_mem _ h2)
      · intro e he
        rcases List.mem_cons.mp he with rfl | he
        · exact h3 e List.mem_cons_self
        · rcases List.mem_cons.mp he with rfl | he
          · intro hlt
            rcases Below.split hdd hm hb hlt with h | h
            · have := hr2.mpr h; cases this
            · exact h3 best List.mem_cons_self h
          · exact h3 e (List.mem_cons_of_mem _ he)

/-- C26 in full, for the greatest: the values of one kind, nulls and documents without the field left out. -/
def C26_max_claim : Prop := ∀ (fpu : Fpu) (kd : Kind) (k : Bytes) (docs : List Doc), (∀ d ∈ docs, kd.cell (d.get k)) →
  (∃ d ∈ docs, ∃ v, d.get k = .scalar v ∧ kd.has v) →
  ∃ v, Agg.run fpu docs (.max k) = .ok (.scalar v) ∧ IsGreatest kd ((valuesOf k docs).filter fun v => v != .na) v

theorem has_copied (kd : Kind) (v : V) (h : kd.has v) : copied (.scalar v) = .scalar v := by
  cases kd <;> cases v <;> first | exact absurd h id | rfl

theorem mem_valuesOf {k : Bytes} {docs : List Doc} {v : V} : v ∈ valuesOf k docs ↔ ∃ d ∈ docs, d.get k = .scalar v := by
  unfold valuesOf
  rw [List.mem_filterMap]
  constructor
  · rintro ⟨d, hd, h⟩
    refine ⟨d, hd, ?_⟩
    unfold Doc.value at h
    cases hc : d.get k <;> rw [hc] at h <;> simp_all
  · rintro ⟨d, hd, h⟩
    exact ⟨d, hd, by unfold Doc.value; rw [h]⟩

/-- The greatest value, when every document has a value of the kind in the field. -/
theorem C26_max_partial (fpu : Fpu) (kd : Kind) (k : Bytes) (docs : List Doc) (hne : docs ≠ [])
    (h : ∀ d ∈ docs, ∃ v, d.get k = .scalar v ∧ kd.has v) :
    ∃ v, Agg.run fpu docs (.max k) = .ok (.scalar v) ∧ IsGreatest kd (valuesOf k docs) v := by
  cases docs with
  | nil => exact absurd rfl hne
  | cons d ds =>
    have hc : ∀ e ∈ d :: ds, kd.cell (e.get k) := by
      intro e he
      obtain ⟨v, hv, hk⟩ := h e he
      rw [hv]; exact Or.inr hk
    obtain ⟨m, h1, h2, h3⟩ := maxElement_spec kd k ds d (hc d List.mem_cons_self) fun e he => hc e (List.mem_cons_of_mem _ he)
    obtain ⟨v, hv, hk⟩ := h m h2
    refine ⟨v, ?_, mem_valuesOf.mpr ⟨m, h2, hv⟩, ?_⟩
    · show (maxElement k d ds).bind _ = _
      rw [h1]
      show Res.ok (copied (m.get k)) = _
      rw [hv, has_copied kd v hk]
    · intro w hw
      obtain ⟨e, he, hev⟩ := mem_valuesOf.mp hw
      obtain ⟨w', hw', hkw⟩ := h e he
      rw [hev] at hw'
      cases hw'
      by_contra hlt
      have := h3 e he
      rw [hv, hev] at this
      exact this (.values v w hk hkw (by simpa using hlt))

/-- The least value, over documents whose field is of the kind, null or absent, one at least having a value. -/
theorem C26_min (fpu : Fpu) (kd : Kind) (k : Bytes) (docs : List Doc) (h : ∀ d ∈ docs, kd.cell (d.get k))
    (hx : ∃ d ∈ docs, ∃ v, d.get k = .scalar v ∧ kd.has v) :
    ∃ v, Agg.run fpu docs (.min k) = .ok (.scalar v) ∧ IsLeast kd ((valuesOf k docs).filter fun v => v != .na) v := by
  cases docs with
  | nil => obtain ⟨d, hd, _⟩ := hx; cases hd
  | cons d ds =>
    obtain ⟨m, h1, h2, h3⟩ := minElement_spec kd k ds d (h d List.mem_cons_self) fun e he => h e (List.mem_cons_of_mem _ he)
    obtain ⟨x, hx, u, hu, hku⟩ := hx
    have hm := h m h2
    have h3x := h3 x hx
    rw [hu] at h3x
    have : ∃ v, m.get k = .scalar v ∧ kd.has v := by
      cases hg : m.get k with
      | container => rw [hg] at hm; exact absurd hm id
      | missing => rw [hg] at h3x; exact absurd (.missing u hku) h3x
      | scalar v =>
        rw [hg] at hm
        rcases hm with rfl | hm
        · rw [hg] at h3x; exact absurd (.null u hku) h3x
        · exact ⟨v, rfl, hm⟩
    obtain ⟨v, hv, hk⟩ := this
    refine ⟨v, ?_, ?_, ?_⟩
    · show (minElement k d ds).bind _ = _
      rw [h1]
      show Res.ok (copied (m.get k)) = _
      rw [hv, has_copied kd v hk]
    · refine List.mem_filter.mpr ⟨mem_valuesOf.mpr ⟨m, h2, hv⟩, ?_⟩
      have : v ≠ .na := fun e => has_na kd (e ▸ hk)
      simpa using this
    · intro w hw
      obtain ⟨hw, hwn⟩ := List.mem_filter.mp hw
      obtain ⟨e, he, hev⟩ := mem_valuesOf.mp hw
      by_contra hlt
      have hc := h e he
      rw [hev] at hc
      rcases hc with rfl | hkw
      · simp at hwn
      have := h3 e he
      rw [hv, hev] at this
      exact this (.values w v hkw hk (by simpa using hlt))

def exM1 : Doc := ⟨1, [(exN, .scalar (.int .i64 4))]⟩
def exM2 : Doc := ⟨2, []⟩
def exM3 : Doc := ⟨3, [(exN, .scalar .na)]⟩

/-- One document without the field and the greatest is nothing. -/
theorem C26_max_fails (fpu : Fpu) : ¬ C26_max_claim ∧ Agg.run fpu [exM1, exM2] (.max exN) = .ok .missing := by
  have e : Agg.run fpu [exM1, exM2] (.max exN) = .ok .missing := by
    have : maxElement exN exM1 [exM2] = .ok exM2 := by decide +kernel
    show (maxElement exN exM1 [exM2]).bind (fun m => .ok (copied (m.get exN))) = _
    rw [this]; rfl
  refine ⟨fun hc => ?_, e⟩
  have h1 : ∀ d ∈ [exM1, exM2], (Kind.ints [.i64]).cell (d.get exN) := by
    intro d hd
    simp only [List.mem_cons, List.not_mem_nil, or_false] at hd
    rcases hd with rfl | rfl
    · exact Or.inr ⟨by simp, by intro u hu; simp at hu; subst hu; decide⟩
    · trivial
  have h2 : ∃ d ∈ [exM1, exM2], ∃ v, d.get exN = .scalar v ∧ (Kind.ints [.i64]).has v :=
    ⟨exM1, by simp, _, rfl, by simp, by intro u hu; simp at hu; subst hu; decide⟩
  obtain ⟨v, hv, -⟩ := hc fpu (.ints [.i64]) exN [exM1, exM2] h1 h2
  rw [e] at hv
  cases hv

/-- C26 in full, for sums of signed integers. -/
def C26_sum_claim : Prop := ∀ (fpu : Fpu) (k : Bytes) (docs : List Doc) (ns : List (ITy × Int)),
  (valuesOf k docs).filter (fun v => v != .na) = ints ns → (∀ p ∈ ns, p.1 = .i64 ∧ ITy.i64.fits p.2) →
  (∀ i, ITy.i64.fits (total (ns.take i))) → ∃ t, Agg.run fpu docs (.sum k) = .ok (.scalar (.int t (total ns)))

/-- A null after the first number ends the process; no values at all are undefined behaviour. -/
theorem C26_sum_null_fails (fpu : Fpu) : ¬ C26_sum_claim ∧ Agg.run fpu [exM1, exM3] (.sum exN) = .ub ∧
    Agg.run fpu [exM2] (.sum exN) = .ub ∧ Agg.run fpu [] (.sum exN) = .ub := by
  refine ⟨fun hc => ?_, rfl, rfl, rfl⟩
  obtain ⟨t, ht⟩ := hc fpu exN [] [] rfl (by simp) (by intro i; simp [total]; exact zero_fits _)
  have e : Agg.run fpu [] (.sum exN) = .ub := rfl
  rw [e] at ht
  cases ht

/-- Sums of two or more booleans and of strings end the process. -/
theorem C26_sum_other_fails (fpu : Fpu) (a b : Bool) (s : Bytes) (d : Doc) (ds : List Doc) :
    sumDocs fpu exN none [⟨1, [(exN, .scalar (.bool a))]⟩, ⟨2, [(exN, .scalar (.bool b))]⟩] = .ub ∧
    (d.get exN = .scalar (.str s) → Agg.run fpu (d :: ds) (.sum exN) = .ub) := by
  constructor
  · cases a <;> cases b <;> rfl
  · intro h
    have e : Agg.run fpu (d :: ds) (.sum exN) = (sumDocs fpu exN none (d :: ds)).bind fun s => (setValue s).bind fun v => .ok (.scalar v) := rfl
    rw [e]
    unfold sumDocs
    have : d.value exN = some (.str s) := by unfold Doc.value; rw [h]
    rw [this]
    rfl

/-- An unsigned sum of 2^56 is no longer unsigned. -/
theorem C26_sum_unsigned_fails (fpu : Fpu) :
    Agg.run fpu [⟨1, [(exN, .scalar (.int .u64 (2 ^ 55)))]⟩, ⟨2, [(exN, .scalar (.int .u64 (2 ^ 55)))]⟩] (.sum exN) = .ok (.scalar (.int .i64 (2 ^ 56))) :=
  rfl

/-- C26 in full, for means: the sum of the numbers divided by how many there are. -/
def C26_avg_claim : Prop := ∀ (fpu : Fpu) (k : Bytes) (docs : List Doc) (ns : List (ITy × Int)),
  valuesOf k docs = ints ns → ns ≠ [] → (∀ p ∈ ns, p.1 = .i64 ∧ ITy.i64.fits p.2) → (∀ i, ITy.i64.fits (total (ns.take i))) →
  Agg.run fpu docs (.avg k) = .ok (.scalar (.double (fpu.div64 (ofInt 53 (total ns)) (ofInt 53 ns.length))))

/-- A document without the field counts as zero in the mean. -/
theorem C26_avg_fails : ¬ C26_avg_claim ∧ ∀ fpu : Fpu, Agg.run fpu [exM1, exM2] (.avg exN) =
    .ok (.scalar (.double (fpu.div64 (ofInt 53 4) (ofInt 53 2)))) := by
  have e : ∀ fpu : Fpu, Agg.run fpu [exM1, exM2] (.avg exN) = .ok (.scalar (.double (fpu.div64 (ofInt 53 4) (ofInt 53 2)))) := by
    intro fpu
    show (put (.double (fpu.div64 (ofInt 53 4) (ofInt 53 2)))).bind (fun r => Res.ok (Cell.scalar r)) = _
    rw [put_double]; rfl
  refine ⟨fun hc => ?_, e⟩
  let fpu : Fpu := ⟨fun _ _ => 0, fun _ _ => 0, fun _ y => if y = ofInt 53 1 then 1 else 0⟩
  have := hc fpu exN [exM1, exM2] [(.i64, 4)] rfl (by simp) (by simp; decide) (by
    intro i
    cases i with
    | zero => exact zero_fits _
    | succ i => simp [total]; decide)
  rw [e fpu] at this
  revert this
  show Res.ok (Cell.scalar (V.double (if ofInt 53 2 = ofInt 53 1 then 1 else 0))) = Res.ok (Cell.scalar (V.double (if ofInt 53 1 = ofInt 53 1 then 1 else 0))) → False
  have hne : ofInt 53 2 ≠ ofInt 53 1 := by decide +kernel
  rw [if_neg hne, if_pos rfl]
  simp

example (fpu : Fpu) : Agg.run fpu [exM1, exM2, ⟨4, [(exN, .scalar (.int .u8 3))]⟩] (.sum exN) = .ok (.scalar (.int .i64 7)) := by
  refine C26_sum_signed_partial fpu exN _ .i64 4 [(.u8, 3)] rfl rfl (by decide) ?_
  intro i
  rcases i with _ | _ | i
  · exact zero_fits _
  · simp [total]; decide
  · simp [total]; decide

example (fpu : Fpu) : Agg.run fpu [exM1, ⟨4, [(exN, .scalar (.int .i64 3))]⟩] (.max exN) = .ok (.scalar (.int .i64 4)) ∧
    Agg.run fpu [exM2, exM1, ⟨4, [(exN, .scalar (.int .i64 3))]⟩] (.min exN) = .ok (.scalar (.int .i64 3)) := by
  exact ⟨rfl, rfl⟩

end Verif.Query
