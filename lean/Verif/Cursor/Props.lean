import Verif.Cursor.Spec
/-!
C53: walking through an answer.
-/
namespace Verif.Cursor

theorem calls_walk {α : Type} (xs : List (Call α)) : ∀ (docs : List α) (n : Nat), (∀ x ∈ xs, x.fine) → n + nexts xs < 2 ^ 31 - 1 →
    (Cur.mk docs.length docs ((n : Int) - 1)).calls xs = .ok ((Walk.mk docs n).outs xs) := by
  induction xs with
  | nil => intro docs n _ _; rfl
  | cons x xs ih =>
    intro docs n hf hn
    have hle : n + nexts xs < 2 ^ 31 - 1 := by
      cases x <;> simp only [nexts] at hn <;> omega
    have ht := ih docs n (fun y hy => hf y (by simp [hy])) hle
    have hafter : (Cur.mk docs.length docs ((n : Int) - 1)).after = .ok (n : Int) := by
      unfold Cur.after
      rw [if_neg (show ¬ ((n : Int) - 1 = 2 ^ 31 - 1) by omega)]
      congr 1
      show (n : Int) - 1 + 1 = n
      omega
    have hget : ∀ (k : Int) (i : Nat), (Cur.mk docs.length docs k).getAt i = .ok docs[i]? := by
      intro k i
      unfold Cur.getAt
      by_cases h : i < docs.length
      · simp [h]
      · simp [h]
    cases x with
    | hasNext =>
      simp only [Cur.calls, Cur.call, Cur.hasNext, hafter, Res.bind, ht, Walk.outs, Walk.out, Walk.after]
      rfl
    | next =>
      have h2 := ih docs (n + 1) (fun y hy => hf y (by simp [hy])) (by simp only [nexts] at hn; omega)
      have e : ((n + 1 : Nat) : Int) - 1 = (n : Int) := by omega
      rw [e] at h2
      simp only [Cur.calls, Cur.call, Cur.next, hafter, Res.bind, hget, Int.toNat_natCast, h2, Walk.outs, Walk.out, Walk.after]
    | get =>
      have hi : (if (n : Int) - 1 < 0 then 0 else ((n : Int) - 1).toNat) = n - 1 := by
        by_cases h : n = 0
        · subst h; rfl
        · rw [if_neg (by omega)]; omega
      simp only [Cur.calls, Cur.call, Cur.get, hi, hget, Res.bind, ht, Walk.outs, Walk.out, Walk.after]
    | getAt i => simp only [Cur.calls, Cur.call, hget, Res.bind, ht, Walk.outs, Walk.out, Walk.after]
    | sort f =>
      have hp : (f docs).length = docs.length := ((hf (.sort f) (by simp)) docs).length_eq
      have h2 := ih (f docs) 0 (fun y hy => hf y (by simp [hy])) (by simp only [nexts] at hn; omega)
      rw [hp] at h2
      simp only [Cur.calls, Cur.call, Cur.sort, Res.bind, Walk.outs, Walk.out, Walk.after]
      have e : ((0 : Nat) : Int) - 1 = -1 := rfl
      rw [e] at h2
      rw [h2]

/-- Every list of calls on an answer of documents, with fewer than 2^31 - 1 calls of `next`. -/
theorem C53_walk {α : Type} (docs : List α) (xs : List (Call α)) (hf : ∀ x ∈ xs, x.fine) (hn : nexts xs < 2 ^ 31 - 1) :
    (ofDocuments docs).calls xs = .ok ((Walk.mk docs 0).outs xs) :=
  calls_walk xs docs 0 hf (by omega)

/-- `while (has_next) next` with at most `fuel` rounds: the documents it gives. -/
def loop {α : Type} : Nat → Cur α → Res (List (Option α))
  | 0, _ => .ok []
  | n + 1, c => c.hasNext.bind fun b => if b then c.next.bind fun r => (loop n r.2).bind fun ds => .ok (r.1 :: ds) else .ok []

theorem loop_from {α : Type} (fuel : Nat) : ∀ (docs : List α) (n : Nat), docs.length < 2 ^ 31 - 1 → n ≤ docs.length → docs.length - n ≤ fuel →
    loop fuel (Cur.mk docs.length docs ((n : Int) - 1)) = .ok ((docs.drop n).map some) := by
  induction fuel with
  | zero =>
    intro docs n _ h1 h2
    rw [List.drop_eq_nil_of_le (by omega)]
    rfl
  | succ fuel ih =>
    intro docs n hb h1 h2
    have hafter : (Cur.mk docs.length docs ((n : Int) - 1)).after = .ok (n : Int) := by
      unfold Cur.after
      rw [if_neg (show ¬ ((n : Int) - 1 = 2 ^ 31 - 1) by omega)]
      congr 1
      show (n : Int) - 1 + 1 = n
      omega
    by_cases hlt : n < docs.length
    · have h3 := ih docs (n + 1) hb hlt (by omega)
      have e : ((n + 1 : Nat) : Int) - 1 = (n : Int) := by omega
      rw [e] at h3
      simp only [loop, Cur.hasNext, Cur.next, Cur.getAt, hafter, Res.bind, Int.toNat_natCast, hlt, decide_true, if_true, List.getElem?_eq_getElem hlt, h3]
      rw [List.drop_eq_getElem_cons hlt, List.map_cons]
    · have : n = docs.length := by omega
      subst this
      simp only [loop, Cur.hasNext, hafter, Res.bind, Int.toNat_natCast, Nat.lt_irrefl, decide_false, Bool.false_eq_true, if_false, List.drop_length, List.map_nil]

/-- The usual loop gives every document of the answer once, in order, and ends. -/
theorem C53_loop {α : Type} (docs : List α) (hb : docs.length < 2 ^ 31 - 1) (fuel : Nat) (hfuel : docs.length ≤ fuel) :
    loop fuel (ofDocuments docs) = .ok (docs.map some) := by
  have := loop_from fuel docs 0 hb (by omega) (by omega)
  simpa [ofDocuments] using this

example : (ofDocuments [10, 20, 30]).calls [.get, .hasNext, .next, .next, .get, .sort List.reverse, .next, .getAt 7] =
    .ok [.doc (some 10), .bool true, .doc (some 10), .doc (some 20), .doc (some 20), .nothing, .doc (some 30), .doc none] := by rfl

example : nexts ([.get, .hasNext, .next, .next, .get, .sort List.reverse, .next, .getAt 7] : List (Call Nat)) < 2 ^ 31 - 1 ∧
    ∀ x ∈ ([.get, .hasNext, .next, .next, .get, .sort List.reverse, .next, .getAt 7] : List (Call Nat)), x.fine := by
  refine ⟨by decide, ?_⟩
  simp only [List.mem_cons, List.not_mem_nil, or_false, forall_eq_or_imp, forall_eq, Call.fine, true_and, and_true]
  exact fun l => List.reverse_perm l

/-- The full claim, for the answers of tables too: walking never fails. -/
def C53_claim : Prop :=
  ∀ (α : Type) (c : Cur α), (∃ docs, c = ofDocuments docs) ∨ (∃ n, c = ofRows n) → ∀ xs : List (Call α), nexts xs < 2 ^ 31 - 1 → ∃ os, c.calls xs = .ok os

/-- An answer with rows of a table announces documents and throws when they are asked for. -/
theorem C53_rows_fails : ¬ C53_claim ∧ ∀ n, 0 < n → (ofRows n : Cur Nat).hasNext = .ok true ∧ (ofRows n : Cur Nat).next.bind (fun r => .ok r.1) = .throws := by
  have h : ∀ n, 0 < n → (ofRows n : Cur Nat).hasNext = .ok true ∧ (ofRows n : Cur Nat).next.bind (fun r => .ok r.1) = .throws := by
    intro n hn
    constructor
    · simp [Cur.hasNext, Cur.after, ofRows, Res.bind, hn]
    · simp [Cur.next, Cur.after, ofRows, Res.bind, Cur.getAt, hn]
  refine ⟨fun hc => ?_, h⟩
  obtain ⟨os, ho⟩ := hc Nat (ofRows 1) (.inr ⟨1, rfl⟩) [.next] (by decide)
  cases ho

end Verif.Cursor
