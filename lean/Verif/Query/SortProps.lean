import Verif.Query.SortSpec
import Verif.Query.WriteProps
/-!
C25: sorting.
-/
namespace Verif.Query

open Verif.DocVal

/-- C25 in full: for all keys and documents the answer is the documents, each once, in the order of the keys. -/
def C25_claim : Prop := ∀ (keys : List SortKey) (docs : List Doc) (r : Res (List Doc)), sortOp keys docs r →
    ∃ out, r = .ok out ∧ out.Perm docs

theorem Below.compare (k : Kind) (a b : Cell) (ha : k.cell a) (hb : k.cell b) : compareCell a b = .ok .lt ↔ Below k a b := by
  obtain ⟨ho, hv, hm⟩ := C32_kind_partial k
  constructor
  · intro h
    cases a with
    | container => exact absurd ha id
    | missing => cases b <;> simp [compareCell] at h
    | scalar a => cases b with
      | container => exact absurd hb id
      | missing =>
        rcases ha with rfl | ha
        · exact .nullMissing
        · exact .missing a ha
      | scalar b =>
        rcases ha with rfl | ha
        · rcases hb with rfl | hb
          · have := ho.refl (.scalar .na) (Or.inl rfl)
            rw [this] at h; cases h
          · obtain ⟨o, h1, h2⟩ := ho.swap (.scalar .na) (.scalar b) (Or.inl rfl) (Or.inr hb)
            rw [h] at h1; cases h1
            rw [(hv b hb).1] at h2; cases h2
        · rcases hb with rfl | hb
          · exact .null a ha
          · refine .values a b ha hb ?_
            have h' : compareV a b = .ok .lt := h
            rw [kind_compare k a b ha hb] at h'
            unfold by3 at h'
            by_contra hc
            rw [if_neg hc] at h'
            split at h' <;> cases h'
  · intro h
    cases h with
    | values a b va vb h =>
      show compareV a b = _
      rw [kind_compare k a b va vb]
      unfold by3
      rw [if_pos h]
    | null a va => exact (hv a va).1
    | missing a va => exact (hv a va).2
    | nullMissing => exact hm

theorem _root_.Verif.DocVal.Ordered.swapped {α : Type} {S : α → Prop} {cmp : α → α → Res Ordering} (h : Ordered S cmp) {a b : α} (ha : S a) (hb : S b)
    {o : Ordering} (e : cmp a b = .ok o) : cmp b a = .ok o.swap := by
  obtain ⟨o', h1, h2⟩ := h.swap a b ha hb
  rw [e] at h1; cases h1; exact h2

theorem _root_.Verif.DocVal.Ordered.trans' {α : Type} {S : α → Prop} {cmp : α → α → Res Ordering} (h : Ordered S cmp) {a b c : α} (ha : S a) (hb : S b)
    (hc : S c) (e1 : cmp a b = .ok .gt) (e2 : cmp b c = .ok .gt) : cmp a c = .ok .gt := by
  have := h.trans c b a hc hb ha (h.swapped hb hc e2) (h.swapped ha hb e1)
  exact h.swapped hc ha this

theorem _root_.Verif.DocVal.Ordered.ties' {α : Type} {S : α → Prop} {cmp : α → α → Res Ordering} (h : Ordered S cmp) {a b c : α} (ha : S a) (hb : S b)
    (hc : S c) (e : cmp b c = .ok .eq) : cmp a b = cmp a c := by
  have e' := h.swapped hb hc e
  obtain ⟨o, h1, h2⟩ := h.swap a b ha hb
  obtain ⟨o', h1', h2'⟩ := h.swap a c ha hc
  have := h.ties b c a hb hc ha e
  rw [h2, h2'] at this
  rw [h1, h1']
  cases o <;> cases o' <;> simp_all [Ordering.swap]

/-- The comparison of all keys. -/
def lexCmp {α : Type} : List (α → α → Res Ordering) → α → α → Res Ordering
  | [], _, _ => .ok .eq
  | f :: fs, a, b => (f a b).bind fun
    | .lt => .ok .lt
    | .gt => .ok .gt
    | .eq => lexCmp fs a b

theorem lexCmp_ordered {α : Type} (S : α → Prop) (fs : List (α → α → Res Ordering)) (h : ∀ f ∈ fs, Ordered S f) : Ordered S (lexCmp fs) := by
  induction fs with
  | nil => exact ⟨fun _ _ => rfl, fun _ _ _ _ => ⟨.eq, rfl, rfl⟩, (fun _ _ _ _ _ _ h _ => by cases h), fun _ _ _ _ _ _ _ => rfl⟩
  | cons f fs ih =>
    have hf := h f List.mem_cons_self
    have ih := ih fun g hg => h g (List.mem_cons_of_mem _ hg)
    have key : ∀ a b o, f a b = .ok o → lexCmp (f :: fs) a b = match o with | .lt => .ok .lt | .gt => .ok .gt | .eq => lexCmp fs a b := by
      intro a b o e
      show (f a b).bind _ = _
      rw [e]
      cases o <;> rfl
    refine ⟨?_, ?_, ?_, ?_⟩
    · intro a ha
      rw [key a a _ (hf.refl a ha)]
      exact ih.refl a ha
    · intro a b ha hb
      obtain ⟨o, h1, h2⟩ := hf.swap a b ha hb
      rw [key a b _ h1, key b a _ h2]
      cases o with
      | lt => exact ⟨.lt, rfl, rfl⟩
      | gt => exact ⟨.gt, rfl, rfl⟩
      | eq => exact ih.swap a b ha hb
    · intro a b c ha hb hc e1 e2
      obtain ⟨o1, h1, -⟩ := hf.swap a b ha hb
      obtain ⟨o2, h2, -⟩ := hf.swap b c hb hc
      rw [key a b _ h1] at e1
      rw [key b c _ h2] at e2
      cases o1 with
      | gt => cases e1
      | lt => cases o2 with
        | gt => cases e2
        | lt => rw [key a c _ (hf.trans a b c ha hb hc h1 h2)]
        | eq => rw [key a c _ ((Ordered.ties' hf ha hb hc h2).symm.trans h1)]
      | eq => cases o2 with
        | gt => cases e2
        | lt => rw [key a c _ ((hf.ties a b c ha hb hc h1).trans h2)]
        | eq =>
          rw [key a c _ ((hf.ties a b c ha hb hc h1).trans h2)]
          exact ih.trans a b c ha hb hc e1 e2
    · intro a b c ha hb hc e
      obtain ⟨o1, h1, -⟩ := hf.swap a b ha hb
      rw [key a b _ h1] at e
      cases o1 with
      | lt => cases e
      | gt => cases e
      | eq =>
        obtain ⟨o2, h2, -⟩ := hf.swap b c hb hc
        rw [key b c _ h2, key a c _ ((hf.ties a b c ha hb hc h1).trans h2)]
        cases o2 with
        | lt => rfl
        | gt => rfl
        | eq => exact ih.ties a b c ha hb hc e

theorem sorter_lex (keys : List SortKey) (a b : Doc) :
    sorter keys a b = (lexCmp (keys.map SortKey.compare) a b).bind fun o => .ok (o == .lt) := by
  induction keys with
  | nil => rfl
  | cons k ks ih =>
    show (k.compare a b).bind _ = ((k.compare a b).bind _).bind _
    cases k.compare a b with
    | ok o => cases o with
      | lt => rfl
      | gt => rfl
      | eq => exact ih
    | throws => rfl
    | ub => rfl
    | diverges => rfl

/-- All documents have values of the kind, null or nothing in the fields of the keys. -/
def Fit (keys : List Keyed) (docs : List Doc) : Prop := ∀ k ∈ keys, ∀ d ∈ docs, k.2.cell (d.get k.1.key)

theorem key_ordered (k : Keyed) (docs : List Doc) (h : ∀ d ∈ docs, k.2.cell (d.get k.1.key)) : Ordered (· ∈ docs) k.1.compare := by
  have ho := (C32_kind_partial k.2).1
  have e : ∀ a b o, compareCell (a.get k.1.key) (b.get k.1.key) = .ok o → k.1.compare a b = .ok (if k.1.asc then o else o.swap) := by
    intro a b o h
    unfold SortKey.compare
    rw [h]; rfl
  have inv : ∀ a b o, a ∈ docs → b ∈ docs → k.1.compare a b = .ok o →
      compareCell (a.get k.1.key) (b.get k.1.key) = .ok (if k.1.asc then o else o.swap) := by
    intro a b o ha hb h1
    obtain ⟨o', h2, -⟩ := ho.swap _ _ (h a ha) (h b hb)
    rw [e a b o' h2] at h1
    rw [h2]
    cases h1
    cases k.1.asc <;> cases o' <;> rfl
  refine ⟨?_, ?_, ?_, ?_⟩
  · intro a ha
    rw [e a a _ (ho.refl _ (h a ha))]
    cases k.1.asc <;> rfl
  · intro a b ha hb
    obtain ⟨o, h1, h2⟩ := ho.swap _ _ (h a ha) (h b hb)
    refine ⟨_, e a b _ h1, ?_⟩
    rw [e b a _ h2]
    cases k.1.asc <;> rfl
  · intro a b c ha hb hc h1 h2
    have h1 := inv a b _ ha hb h1
    have h2 := inv b c _ hb hc h2
    cases hk : k.1.asc with
    | true =>
      rw [hk] at h1 h2
      rw [e a c _ (ho.trans _ _ _ (h a ha) (h b hb) (h c hc) h1 h2), hk]; rfl
    | false =>
      rw [hk] at h1 h2
      rw [e a c _ (Ordered.trans' ho (h a ha) (h b hb) (h c hc) h1 h2), hk]; rfl
  · intro a b c ha hb hc h1
    have h1 := inv a b _ ha hb h1
    have h1 : compareCell (a.get k.1.key) (b.get k.1.key) = .ok .eq := by rw [h1]; cases k.1.asc <;> rfl
    unfold SortKey.compare
    rw [ho.ties _ _ _ (h a ha) (h b hb) (h c hc) h1]

theorem key_before (k : Keyed) (docs : List Doc) (h : ∀ d ∈ docs, k.2.cell (d.get k.1.key)) (a b : Doc) (ha : a ∈ docs) (hb : b ∈ docs) :
    k.1.compare a b = .ok .lt ↔ k.before a b := by
  have ho := (C32_kind_partial k.2).1
  obtain ⟨o, h1, h2⟩ := ho.swap _ _ (h a ha) (h b hb)
  unfold Keyed.before SortKey.compare
  rw [h1]
  cases hk : k.1.asc with
  | true =>
    rw [if_pos rfl, ← Below.compare _ _ _ (h a ha) (h b hb), h1]
    rfl
  | false =>
    rw [if_neg (by simp), ← Below.compare _ _ _ (h b hb) (h a ha), h2]
    rfl

theorem lex_before (keys : List Keyed) (docs : List Doc) (h : Fit keys docs) (a b : Doc) (ha : a ∈ docs) (hb : b ∈ docs) :
    lexCmp (keys.map fun k => k.1.compare) a b = .ok .lt ↔ MustPrecede keys a b := by
  induction keys with
  | nil =>
    constructor
    · intro h; cases h
    · rintro ⟨i, hi, _⟩; exact absurd hi (Nat.not_lt_zero _)
  | cons k ks ih =>
    have hk := h k List.mem_cons_self
    have ih := ih fun g hg => h g (List.mem_cons_of_mem _ hg)
    have ho := key_ordered k docs hk
    have b1 := key_before k docs hk a b ha hb
    have b2 := key_before k docs hk b a hb ha
    obtain ⟨o, h1, h2⟩ := ho.swap a b ha hb
    rw [List.map_cons]
    unfold lexCmp
    rw [h1]
    rw [h1] at b1
    rw [h2] at b2
    cases o with
    | lt =>
      refine ⟨fun _ => ⟨0, by simp, b1.mp rfl, fun j hj => absurd hj (Nat.not_lt_zero _)⟩, fun _ => rfl⟩
    | gt =>
      refine ⟨fun hh => (by cases hh), ?_⟩
      rintro ⟨i, hi, hb, hpre⟩
      cases i with
      | zero => exact absurd (b1.mpr hb) (by simp)
      | succ i => exact absurd (b2.mp rfl) (hpre 0 (by omega)).2
    | eq =>
      show lexCmp (ks.map fun k => k.1.compare) a b = .ok .lt ↔ _
      rw [ih]
      have n1 : ¬ k.before a b := fun hh => by have := b1.mpr hh; cases this
      have n2 : ¬ k.before b a := fun hh => by have := b2.mpr hh; cases this
      constructor
      · rintro ⟨i, hi, hb, hpre⟩
        refine ⟨i + 1, by simpa using hi, hb, ?_⟩
        intro j hj
        cases j with
        | zero => exact ⟨n1, n2⟩
        | succ j => exact hpre j (by omega)
      · rintro ⟨i, hi, hb, hpre⟩
        cases i with
        | zero => exact absurd hb n1
        | succ i => exact ⟨i, by simpa using hi, hb, fun j hj => hpre (j + 1) (by omega)⟩

theorem sorter_sortable (keys : List Keyed) (docs : List Doc) (h : Fit keys docs) : Sortable (sorter (keys.map (·.1))) docs := by
  have ho : Ordered (· ∈ docs) (lexCmp ((keys.map (·.1)).map SortKey.compare)) := by
    apply lexCmp_ordered
    intro f hf
    simp only [List.map_map, List.mem_map] at hf
    obtain ⟨k, hk, rfl⟩ := hf
    exact key_ordered k docs (h k hk)
  have e : ∀ a b o, lexCmp ((keys.map (·.1)).map SortKey.compare) a b = .ok o → sorter (keys.map (·.1)) a b = .ok (o == .lt) := by
    intro a b o h
    rw [sorter_lex, h]; rfl
  have inv : ∀ a b r, a ∈ docs → b ∈ docs → sorter (keys.map (·.1)) a b = .ok r →
      ∃ o, lexCmp ((keys.map (·.1)).map SortKey.compare) a b = .ok o ∧ r = (o == .lt) := by
    intro a b r ha hb h1
    obtain ⟨o, h2, -⟩ := ho.swap a b ha hb
    rw [e a b o h2] at h1
    exact ⟨o, h2, by cases h1; rfl⟩
  refine ⟨?_, ?_, ?_, ?_⟩
  · intro a ha b hb
    obtain ⟨o, h1, -⟩ := ho.swap a b ha hb
    exact ⟨_, e a b o h1⟩
  · intro a ha
    exact e a a _ (ho.refl a ha)
  · intro a ha b hb c hc h1 h2
    obtain ⟨o1, h1, e1⟩ := inv a b _ ha hb h1
    obtain ⟨o2, h2, e2⟩ := inv b c _ hb hc h2
    cases o1 <;> first | cases e1 | skip
    cases o2 <;> first | cases e2 | skip
    exact e a c _ (ho.trans a b c ha hb hc h1 h2)
  · intro a ha b hb c hc h1 h2 h3 h4
    obtain ⟨o1, h1, e1⟩ := inv a b _ ha hb h1
    obtain ⟨o2, h2, e2⟩ := inv b a _ hb ha h2
    have q1 := Ordered.swapped ho ha hb h1
    have : o1 = .eq := by
      rw [h2] at q1; cases q1
      clear inv e h1 h2 h3 h4
      cases o1
      · exact absurd e1 (by decide)
      · rfl
      · exact absurd e2 (by decide)
    subst this
    obtain ⟨o3, h3, e3⟩ := inv b c _ hb hc h3
    rw [← ho.ties a b c ha hb hc h1] at h3
    rw [e a c _ h3, ← e3]

/-- Sorting by fields of one kind each, ascending or descending: whatever the sort of the library does within its
contract, the answer is the documents of the input, each as often as before, and no document has to come before one
that precedes it. -/
theorem C25_sort_partial (keys : List Keyed) (docs : List Doc) (h : Fit keys docs) (r : Res (List Doc))
    (hr : sortOp (keys.map (·.1)) docs r) :
    ∃ out, r = .ok out ∧ out.Perm docs ∧ out.Pairwise fun a b => ¬ MustPrecede keys b a := by
  have hs := sorter_sortable keys docs h
  cases r with
  | ok out =>
    obtain ⟨hp, hw⟩ := hr hs
    refine ⟨out, rfl, hp, ?_⟩
    refine List.Pairwise.imp_of_mem ?_ hw
    intro a b ha hb hlt hm
    have ha := hp.mem_iff.mp ha
    have hb := hp.mem_iff.mp hb
    rw [← lex_before keys docs h b a hb ha] at hm
    rw [sorter_lex, List.map_map] at hlt
    have hm' : lexCmp (keys.map (SortKey.compare ∘ (·.1))) b a = .ok .lt := hm
    rw [hm'] at hlt
    cases hlt
  | throws => exact absurd hs hr
  | ub => exact absurd hs hr
  | diverges => exact absurd hs hr

/-- No keys: nothing has to precede anything, the documents are all there. -/
theorem C25_no_keys (docs : List Doc) (r : Res (List Doc)) (hr : sortOp [] docs r) : ∃ out, r = .ok out ∧ out.Perm docs := by
  obtain ⟨out, h1, h2, -⟩ := C25_sort_partial [] docs (fun _ h => absurd h List.not_mem_nil) r hr
  exact ⟨out, h1, h2⟩

/-- Two outcomes differ only among documents that neither has to precede the other: for documents told apart by the
keys the answer is the same. -/
theorem C25_determined_partial (keys : List Keyed) (docs : List Doc) (h : Fit keys docs)
    (hd : ∀ a ∈ docs, ∀ b ∈ docs, a ≠ b → MustPrecede keys a b ∨ MustPrecede keys b a) (out out' : List Doc)
    (h1 : sortOp (keys.map (·.1)) docs (.ok out)) (h2 : sortOp (keys.map (·.1)) docs (.ok out')) : out = out' := by
  obtain ⟨_, e1, p1, w1⟩ := C25_sort_partial keys docs h _ h1
  cases e1
  obtain ⟨_, e2, p2, w2⟩ := C25_sort_partial keys docs h _ h2
  cases e2
  refine List.Perm.eq_of_pairwise (le := fun a b => ¬ MustPrecede keys b a) ?_ w1 w2 (p1.trans p2.symm)
  intro a b ha hb h1 h2
  by_contra hne
  rcases hd a (p1.mem_iff.mp ha) b (p2.mem_iff.mp hb) hne with h | h
  · exact h2 h
  · exact h1 h

/-- Field `n` of the documents. -/
def exN : Bytes := [110]

def exS1 : Doc := ⟨1, [(exN, .scalar (.int .i64 5))]⟩
def exS2 : Doc := ⟨2, [(exN, .scalar (.str [120]))]⟩
def exS3 : Doc := ⟨3, [(exN, .scalar (.int .i64 3))]⟩

/-- The hypotheses are met, and the relation is not empty: descending by integers, a document without the field. -/
example : Fit [(⟨exN, false⟩, .ints [.i64])] [exS3, exS1, ⟨4, []⟩] ∧
    sortOp [⟨exN, false⟩] [exS3, exS1, ⟨4, []⟩] (.ok [⟨4, []⟩, exS1, exS3]) ∧
    ¬ sortOp [⟨exN, false⟩] [exS3, exS1, ⟨4, []⟩] (.ok [exS3, exS1, ⟨4, []⟩]) := by
  have hf : Fit [(⟨exN, false⟩, .ints [.i64])] [exS3, exS1, ⟨4, []⟩] := by
    intro k hk d hd
    simp only [List.mem_cons, List.not_mem_nil, or_false] at hk hd
    subst hk
    rcases hd with rfl | rfl | rfl
    · exact Or.inr ⟨by simp, by intro u hu; simp at hu; subst hu; decide⟩
    · exact Or.inr ⟨by simp, by intro u hu; simp at hu; subst hu; decide⟩
    · trivial
  refine ⟨hf, fun _ => ⟨by decide, by decide +kernel⟩, fun hh => ?_⟩
  have := (hh (sorter_sortable _ _ hf)).2
  revert this
  decide +kernel

/-- Numbers and strings in one field: a string ties with every number, the comparison is not one `std::sort` accepts, and
its behaviour is undefined. -/
theorem C25_mixed_fails : ¬ C25_claim ∧ sortOp [⟨exN, true⟩] [exS1, exS2, exS3] .ub := by
  have hn : ¬ Sortable (sorter [⟨exN, true⟩]) [exS1, exS2, exS3] := by
    intro h
    have := h.ties exS1 (by decide) exS2 (by decide) exS3 (by decide) (by decide +kernel) (by decide +kernel) (by decide +kernel) (by decide +kernel)
    have h2 := h.ties exS3 (by decide) exS2 (by decide) exS1 (by decide) (by decide +kernel) (by decide +kernel) (by decide +kernel) (by decide +kernel)
    revert h2
    decide +kernel
  refine ⟨fun hc => ?_, hn⟩
  obtain ⟨out, h, -⟩ := hc _ _ .ub hn
  cases h

/-- An unsigned and a negative signed number in one field: the comparison throws, so can the query. -/
theorem C25_sign_fails : ¬ C25_claim ∧ sortOp [⟨exN, true⟩] [⟨1, [(exN, .scalar (.int .u64 1))]⟩, ⟨2, [(exN, .scalar (.int .i64 (-1)))]⟩] .throws := by
  have hn : ¬ Sortable (sorter [⟨exN, true⟩]) [⟨1, [(exN, .scalar (.int .u64 1))]⟩, ⟨2, [(exN, .scalar (.int .i64 (-1)))]⟩] := by
    intro h
    obtain ⟨r, hr⟩ := h.total ⟨1, [(exN, .scalar (.int .u64 1))]⟩ (by decide) ⟨2, [(exN, .scalar (.int .i64 (-1)))]⟩ (by decide)
    have : sorter [⟨exN, true⟩] ⟨1, [(exN, .scalar (.int .u64 1))]⟩ ⟨2, [(exN, .scalar (.int .i64 (-1)))]⟩ = .throws := by decide +kernel
    rw [this] at hr
    cases hr
  refine ⟨fun hc => ?_, hn⟩
  obtain ⟨out, h, -⟩ := hc _ _ .throws hn
  cases h

end Verif.Query
