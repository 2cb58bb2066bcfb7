import Verif.Py.CurSpec
import Verif.Query.SortProps
/-!
C106: the cursor in Python.
-/
namespace Verif.Py
open Verif Verif.Cursor Verif.Query

/-- The cursor after `n` documents were asked for. -/
def cursorAt (docs : List Doc) (n : Nat) : PCur := ⟨docs.length, docs.map some, (n : Int) - 1⟩

theorem after_at (docs : List Doc) (n : Nat) (h : n < 2 ^ 31) : (cursorAt docs n).after = .ok (n : Int) := by
  unfold Cur.after cursorAt
  rw [if_neg (show ¬ ((n : Int) - 1 = 2 ^ 31 - 1) by omega)]
  congr 1
  show (n : Int) - 1 + 1 = n
  omega

theorem getAt_at (docs : List Doc) (k : Int) (i : Nat) : (Cur.mk docs.length (docs.map some) k).getAt i = .ok (docs[i]?.map some) := by
  unfold Cur.getAt
  by_cases h : i < docs.length
  · simp [h]
  · simp [h]

theorem get_at (docs : List Doc) (n : Nat) : (cursorAt docs n).get = .ok (docs[n - 1]?.map some) := by
  have hi : (if (n : Int) - 1 < 0 then 0 else ((n : Int) - 1).toNat) = n - 1 := by
    by_cases h : n = 0
    · subst h; rfl
    · rw [if_neg (by omega)]; omega
  unfold Cur.get
  rw [show (cursorAt docs n).cur = (n : Int) - 1 from rfl, hi]
  exact getAt_at docs _ _

theorem next_at {X : Type} (docs : List Doc) (n : Nat) (h : n < 2 ^ 31) :
    pnext (X := X) (cursorAt docs n) = .ok (if n < docs.length then .self else .stop, cursorAt docs (n + 1)) := by
  have e : (n : Int) = ((n + 1 : Nat) : Int) - 1 := by omega
  unfold pnext
  rw [after_at docs n h]
  simp only [Res.bind, Int.toNat_natCast]
  rw [show (cursorAt docs n).getAt n = .ok (docs[n]?.map some) from getAt_at docs _ _]
  by_cases hn : n < docs.length
  · simp only [List.getElem?_eq_getElem hn, Option.map_some, if_pos hn, cursorAt]
    rw [← e]
  · simp only [List.getElem?_eq_none (Nat.le_of_not_lt hn), Option.map_none, if_neg hn, cursorAt]
    rw [← e]

theorem given_eq {X : Type} (r : Res X) : given r = caught r := by cases r <;> rfl

theorem onDoc_some {X : Type} (p : Option Doc) (f : Doc → Res X) : onDoc (.ok (p.map some)) f = (p.map fun d => given (f d)).getD .ub := by
  simp only [given_eq]
  cases p <;> rfl

/-- Every call of which something is said gives what is said, and the position is what it should be. -/
theorem call_at {X : Type} (rd : Reader X) (docs : List Doc) (n : Nat) (x : PCall) (r : Res (POut X)) (h : (Pos.mk docs n).out rd x = some r)
    (hn : n + asks [x] < 2 ^ 31) (hl : docs.length < 2 ^ 64) :
    pcall rd (cursorAt docs n) x = r.bind fun o => .ok (o, cursorAt docs ((Pos.mk docs n).after x).asked) := by
  cases x with
  | next =>
    simp only [Pos.out, Option.some.injEq] at h
    subst h
    exact next_at docs n (by simp only [asks] at hn; omega)
  | len =>
    simp only [Pos.out, Option.some.injEq] at h
    subst h
    rfl
  | hasNext =>
    simp only [Pos.out, Option.some.injEq] at h
    subst h
    simp only [pcall, Cur.hasNext, after_at docs n (by simp only [asks] at hn; omega), Res.bind, Int.toNat_natCast]
    rfl
  | item k =>
    cases k with
    | text k =>
      simp only [Pos.out, Pos.here] at h
      simp only [pcall, item, get_at, onDoc_some, h, Option.getD_some]
      rfl
    | int i =>
      simp only [Pos.out] at h
      by_cases hi : i < 0
      · rw [if_pos hi] at h
        cases h
        simp only [pcall, item]
        rw [if_neg (by omega)]
        rfl
      · rw [if_neg hi] at h
        have hlt : i.toNat < docs.length := by
          by_contra hc
          rw [List.getElem?_eq_none (Nat.le_of_not_lt hc)] at h
          cases h
        simp only [pcall, item]
        rw [if_pos (by omega), show (cursorAt docs n).getAt i.toNat = _ from getAt_at docs _ _, onDoc_some, h]
        rfl
    | other =>
      simp only [Pos.out, Option.some.injEq] at h
      subst h
      rfl
  | repr =>
    simp only [Pos.out, Pos.here] at h
    simp only [pcall, get_at, onDoc_some, h, Option.getD_some]
    rfl
  | close =>
    simp only [Pos.out, Option.some.injEq] at h
    subst h
    rfl

theorem bind_assoc' {A B C : Type} (r : Res A) (f : A → Res B) (g : B → Res C) : (r.bind f).bind g = r.bind fun a => (f a).bind g := by
  cases r <;> rfl

theorem calls_at {X : Type} (rd : Reader X) : ∀ (xs : List PCall) (docs : List Doc) (n : Nat) (r : Res (List (POut X))),
    (Pos.mk docs n).outs rd xs = some r → n + asks xs < 2 ^ 31 → docs.length < 2 ^ 64 →
    (pcalls rd (cursorAt docs n) xs).bind (fun q => .ok q.1) = r := by
  intro xs
  induction xs with
  | nil => intro docs n r h _ _; simp only [Pos.outs, Option.some.injEq] at h; subst h; rfl
  | cons x xs ih =>
    intro docs n r h hn hl
    simp only [Pos.outs] at h
    cases ho : (Pos.mk docs n).out rd x with
    | none => rw [ho] at h; cases h
    | some o =>
      rw [ho] at h
      simp only [Option.bind_some, Option.map_eq_some_iff] at h
      obtain ⟨q, hq, rfl⟩ := h
      have hx : n + asks [x] < 2 ^ 31 := by cases x <;> simp only [asks] at hn ⊢ <;> omega
      have hp : (Pos.mk docs n).after x = ⟨docs, ((Pos.mk docs n).after x).asked⟩ := by cases x <;> rfl
      have ha : ((Pos.mk docs n).after x).asked + asks xs < 2 ^ 31 := by
        cases x <;> simp only [asks, Pos.after] at hn ⊢ <;> omega
      rw [hp] at hq
      have hi := ih docs _ q hq ha hl
      simp only [pcalls, call_at rd docs n x o ho hx hl]
      rw [← hi]
      cases o with
      | ok o => simp only [Res.bind]; cases pcalls rd (cursorAt docs ((Pos.mk docs n).after x).asked) xs <;> rfl
      | _ => rfl

/-- Whatever is called in whatever order, as long as only documents there are are read, every call gives what one expects of
a position in the list of documents. Missing: what is beyond the end, `C106_index_is_ub`, `C106_after_loop_is_ub`,
`C106_empty_is_ub`. -/
theorem C106_walk_partial {X : Type} (rd : Reader X) (docs : List Doc) (xs : List PCall) (r : Res (List (POut X)))
    (h : (Pos.mk docs 0).outs rd xs = some r) (hn : asks xs < 2 ^ 31) (hl : docs.length < 2 ^ 64) :
    (pcalls rd (answer docs) xs).bind (fun q => .ok q.1) = r := by
  have := calls_at rd xs docs 0 r h (by omega) hl
  simpa [cursorAt, answer, ofDocuments] using this

/-- The full claim: what is beyond the end is refused by an exception. -/
def C106_claim : Prop :=
  ∀ (X : Type) (rd : Reader X) (docs : List Doc) (xs : List PCall), (∀ d k, ∃ x, rd.field d k = .ok x) → (∀ d, ∃ x, rd.whole d = .ok x) →
    (∀ d, ∃ x, rd.json d = .ok x) → asks xs < 2 ^ 31 → docs.length < 2 ^ 64 → ∃ q, pcalls rd (answer docs) xs = .ok q

theorem readFields_at {X : Type} (rd : Reader X) (docs : List Doc) (n : Nat) (d : Doc) (hd : docs[n - 1]? = some d) :
    ∀ ks, readFields rd ks (cursorAt docs n) = fieldsOf rd d ks := by
  intro ks
  induction ks with
  | nil => rfl
  | cons k ks ih =>
    simp only [readFields, item, get_at, hd, Option.map_some, onDoc, fieldsOf, ih]
    cases rd.field d k <;> rfl

theorem forIn_at {X : Type} (rd : Reader X) (ks : List Bytes) (docs : List Doc) (hb : docs.length < 2 ^ 31) : ∀ (m fuel n : Nat),
    docs.length - n = m → n ≤ docs.length → m < fuel →
    forIn (readFields rd ks) fuel (cursorAt docs n) = (table rd ks (docs.drop n)).bind fun xs => .ok (xs, cursorAt docs (docs.length + 1)) := by
  intro m
  induction m with
  | zero =>
    intro fuel n hm hn hf
    obtain ⟨f, rfl⟩ : ∃ f, fuel = f + 1 := ⟨fuel - 1, by omega⟩
    have : n = docs.length := by omega
    subst this
    simp only [forIn, next_at docs docs.length hb, Res.bind, lt_irrefl, if_false, List.drop_length, table]
  | succ m ih =>
    intro fuel n hm hn hf
    obtain ⟨f, rfl⟩ : ∃ f, fuel = f + 1 := ⟨fuel - 1, by omega⟩
    have hlt : n < docs.length := by omega
    simp only [forIn, next_at docs n (by omega), Res.bind, if_pos hlt]
    rw [readFields_at rd docs (n + 1) docs[n] (by simp [hlt]) ks, ih f (n + 1) (by omega) (by omega) (by omega),
      List.drop_eq_getElem_cons hlt]
    simp only [table]
    cases fieldsOf rd docs[n] ks with
    | ok x => simp only [Res.bind]; cases table rd ks (docs.drop (n + 1)) <;> rfl
    | _ => rfl

/-- `for d in cursor` visits every document once, in the order of the answer, and `d[k]` reads from that document. -/
theorem C106_loop {X : Type} (rd : Reader X) (ks : List Bytes) (docs : List Doc) (fuel : Nat) (hb : docs.length < 2 ^ 31) (hf : docs.length < fuel) :
    forIn (readFields rd ks) fuel (answer docs) = (table rd ks docs).bind fun xs => .ok (xs, cursorAt docs (docs.length + 1)) := by
  have := forIn_at rd ks docs hb docs.length fuel 0 (by simp) (by omega) hf
  simpa [cursorAt, answer, ofDocuments] using this

/-- A second loop over it visits nothing; its length stays. -/
theorem C106_again {X : Type} (rd : Reader X) (ks : List Bytes) (docs : List Doc) (fuel : Nat) (hb : docs.length + 1 < 2 ^ 31) (hf : 0 < fuel) :
    forIn (readFields rd ks) fuel (cursorAt docs (docs.length + 1)) = .ok ([], cursorAt docs (docs.length + 2)) ∧
    pcall rd (cursorAt docs (docs.length + 1)) .len = .ok (.num docs.length, cursorAt docs (docs.length + 1)) := by
  obtain ⟨f, rfl⟩ : ∃ f, fuel = f + 1 := ⟨fuel - 1, by omega⟩
  refine ⟨?_, rfl⟩
  simp only [forIn, next_at docs (docs.length + 1) hb, Res.bind]
  rw [if_neg (by omega)]

/-! ### Sorting -/

/-- A direction below 0 is descending, every other one ascending. -/
theorem C106_order (num : PyObj → Option Int) (i : Int) (h : -2 ^ 31 ≤ i ∧ i < 2 ^ 31) :
    toOrder num (.scalar (.int i)) = .ok (decide (0 ≤ i)) := by
  simp only [toOrder, toInt]
  rw [if_pos h]
  congr 1
  simp only [decide_eq_decide]
  omega

theorem sortable_some (ks : List SortKey) (docs : List Doc) (h : Sortable (sorter ks) docs) : Sortable (sorterP ks) (docs.map some) where
  total := by
    intro a ha b hb
    obtain ⟨a, ia, rfl⟩ := List.mem_map.mp ha
    obtain ⟨b, ib, rfl⟩ := List.mem_map.mp hb
    exact h.total a ia b ib
  irrefl := by
    intro a ha
    obtain ⟨a, ia, rfl⟩ := List.mem_map.mp ha
    exact h.irrefl a ia
  trans := by
    intro a ha b hb c hc
    obtain ⟨a, ia, rfl⟩ := List.mem_map.mp ha
    obtain ⟨b, ib, rfl⟩ := List.mem_map.mp hb
    obtain ⟨c, ic, rfl⟩ := List.mem_map.mp hc
    exact h.trans a ia b ib c ic
  ties := by
    intro a ha b hb c hc
    obtain ⟨a, ia, rfl⟩ := List.mem_map.mp ha
    obtain ⟨b, ib, rfl⟩ := List.mem_map.mp hb
    obtain ⟨c, ic, rfl⟩ := List.mem_map.mp hc
    exact h.ties a ia b ib c ic

theorem all_some (docs : List Doc) : ∀ out : List (Option Doc), (∀ x ∈ out, x ∈ docs.map some) → ∃ out' : List Doc, out = out'.map some := by
  intro out
  induction out with
  | nil => intro _; exact ⟨[], rfl⟩
  | cons x xs ih =>
    intro h
    obtain ⟨d, _, rfl⟩ := List.mem_map.mp (h x (by simp))
    obtain ⟨o, rfl⟩ := ih (fun y hy => h y (by simp [hy]))
    exact ⟨d :: o, rfl⟩

/-- `sort` begins again with the same documents in the order of the keys: a loop after it visits them so. Missing: fields
with values of several kinds (`C25_mixed_fails`), and a key without a direction (`C106_direction_fails`). -/
theorem C106_sort_partial (num : PyObj → Option Int) (a : SortArg) (keys : List Keyed) (docs : List Doc) (n : Nat)
    (ha : sortKeys num a = .ok (keys.map (·.1))) (hf : Fit keys docs) (r : Res PCur) (hr : psort num a (cursorAt docs n) r) :
    ∃ out, r = .ok (answer out) ∧ out.Perm docs ∧ out.Pairwise fun x y => ¬ MustPrecede keys y x := by
  unfold psort at hr
  rw [ha] at hr
  obtain ⟨o, ho, rfl⟩ := hr
  have hs := sorter_sortable keys docs hf
  have hs' := sortable_some _ _ hs
  cases o with
  | ok out =>
    obtain ⟨hp, hw⟩ := ho hs'
    obtain ⟨out', rfl⟩ := all_some docs out (fun x hx => hp.subset hx)
    have hp' : out'.Perm docs := by
      have := hp.filterMap id
      simpa [List.filterMap_map, cursorAt] using this
    have hsort : sortOp (keys.map (·.1)) docs (.ok out') := by
      intro _
      refine ⟨hp', ?_⟩
      rw [List.pairwise_map] at hw
      exact hw
    obtain ⟨o2, e, _, hq⟩ := C25_sort_partial keys docs hf _ hsort
    cases e
    refine ⟨out', ?_, hp', hq⟩
    simp only [Res.bind, answer, ofDocuments, cursorAt, List.length_map, hp'.length_eq]
  | throws => exact absurd hs' ho
  | ub => exact absurd hs' ho
  | diverges => exact absurd hs' ho

/-- The keys of a dictionary of directions, in its order. -/
theorem C106_sort_dict (num : PyObj → Option Int) : ∀ es : List (Bytes × Int), (∀ e ∈ es, -2 ^ 31 ≤ e.2 ∧ e.2 < 2 ^ 31) →
    sortKeys num (.dict (es.map fun e => (e.1, .scalar (.int e.2)))) = .ok (es.map fun e => ⟨e.1, decide (0 ≤ e.2)⟩) := by
  intro es
  simp only [sortKeys]
  induction es with
  | nil => intro _; rfl
  | cons e es ih =>
    intro h
    have h1 := C106_order num e.2 (h e (by simp))
    have h2 := ih (fun x hx => h x (by simp [hx]))
    simp only [List.map_cons, toSorter, h1, Res.bind, h2]

/-! ### Cases that meet the hypotheses -/

def exRd : Reader Nat := ⟨fun d => .ok d.id, fun d k => .ok (d.id + 10 * k.length), fun d => .ok (100 + d.id)⟩
def exA : Doc := ⟨1, [([97], .scalar (.int .i64 7))]⟩
def exB : Doc := ⟨2, [([97], .scalar (.int .i64 3))]⟩

example : (Pos.mk [exA, exB] 0).outs exRd [.item (.text [97]), .next, .next, .item (.text [97]), .item (.int 0), .item (.int (-1)), .hasNext, .next, .next, .len] =
    some (.ok [.value 11, .self, .self, .value 12, .value 1, .raised, .bool false, .stop, .stop, .num 2]) := rfl

example : forIn (readFields exRd [[97], []]) 3 (answer [exA, exB]) = .ok ([[11, 1], [12, 2]], cursorAt [exA, exB] 3) := rfl

example : Fit [(⟨[97], true⟩, .ints [.i64])] [exA, exB] ∧ MustPrecede [(⟨[97], true⟩, .ints [.i64])] exB exA ∧
    sortKeys (fun _ => none) (.key [97] (.scalar (.int 1))) = .ok [⟨[97], true⟩] := by
  refine ⟨?_, ?_, rfl⟩
  · intro k hk d hd
    simp only [List.mem_cons, List.not_mem_nil, or_false] at hk hd
    subst hk
    rcases hd with rfl | rfl
    · exact .inr ⟨by simp, by decide⟩
    · exact .inr ⟨by simp, by decide⟩
  · refine ⟨0, by decide, ?_, fun j hj => absurd hj (Nat.not_lt_zero j)⟩
    exact .values _ _ ⟨by simp, by decide⟩ ⟨by simp, by decide⟩ (by decide +kernel)

/-! ### Where it fails -/

/-- `cursor[i]` behind the end is no `IndexError`: a null pointer is used. -/
theorem C106_index_is_ub {X : Type} (rd : Reader X) (docs : List Doc) (n i : Nat) (h : docs.length ≤ i) (hi : i < 2 ^ 64) :
    pcall rd (cursorAt docs n) (.item (.int i)) = .ub := by
  simp only [pcall, item]
  rw [if_pos (by omega), show (cursorAt docs n).getAt (i : Int).toNat = _ from getAt_at docs _ _, onDoc_some]
  rw [Int.toNat_natCast, List.getElem?_eq_none h]
  rfl

/-- After a loop nothing can be read: not `cursor["k"]`, not the elements of `list(cursor)`, which are all this cursor. -/
theorem C106_after_loop_is_ub {X : Type} (rd : Reader X) (docs : List Doc) (k : Bytes) :
    pcall rd (cursorAt docs (docs.length + 1)) (.item (.text k)) = .ub ∧ pcall rd (cursorAt docs (docs.length + 1)) .repr = .ub := by
  have h : docs[docs.length + 1 - 1]? = none := by simp
  constructor <;> simp only [pcall, item, get_at, onDoc_some, h] <;> rfl

/-- Showing the cursor of an answer without documents, as the interactive Python does, uses a null pointer. -/
theorem C106_empty_is_ub {X : Type} (rd : Reader X) (k : Bytes) :
    pcall rd (answer []) .repr = .ub ∧ pcall rd (answer []) (.item (.text k)) = .ub := ⟨rfl, rfl⟩

theorem C106_fails : ¬ C106_claim := by
  intro h
  obtain ⟨q, hq⟩ := h Nat exRd [] [.repr] (fun d k => ⟨_, rfl⟩) (fun d => ⟨_, rfl⟩) (fun d => ⟨_, rfl⟩) (by decide) (by decide)
  cases hq

/-- `sort("k")`, with the direction left out, raises an exception. -/
theorem C106_direction_fails (num : PyObj → Option Int) (k : Bytes) (c : PCur) (r : Res PCur) (h : psort num (.plain k) c r) : r = .throws := h

/-- The cursor of a delete of `n` documents has the length `n`, but a loop visits none and reading from it uses a null
pointer. -/
theorem C106_deleted_is_ub {X : Type} (rd : Reader X) (body : PCur → Res X) (n : Nat) (k : Bytes) (h : 0 < n) :
    (answerOfDelete n).size = n ∧ (∃ c, forIn body 1 (answerOfDelete n) = .ok ([], c)) ∧ pcall rd (answerOfDelete n) (.item (.text k)) = .ub ∧
    pcall rd (answerOfDelete n) (.item (.int 0)) = .ub := by
  obtain ⟨m, rfl⟩ : ∃ m, n = m + 1 := ⟨n - 1, by omega⟩
  refine ⟨by simp [answerOfDelete, ofDocuments], ?_, ?_, ?_⟩ <;>
  simp [answerOfDelete, ofDocuments, forIn, pnext, Cur.after, Cur.getAt, Cur.get, Res.bind, pcall, item, onDoc, List.replicate_succ]

/-- The cursor of the rows of a table counts them, but `next` and `cursor[0]` raise an exception. -/
theorem C106_rows_fails {X : Type} (rd : Reader X) (n : Nat) (h : 0 < n) :
    pcall rd (ofRows n) .hasNext = .ok (.bool true, ofRows n) ∧ (∃ c, pcall rd (ofRows n) .next = .ok (.raised, c)) ∧
    pcall rd (ofRows n) (.item (.int 0)) = .ok (.raised, ofRows n) := by
  refine ⟨?_, ?_, ?_⟩ <;> simp [pcall, pnext, item, onDoc, Cur.hasNext, Cur.after, ofRows, Res.bind, Cur.getAt, h]

/-- Three kinds of errors have no name, the others have one each. -/
theorem C106_error_fails : (Code.text .schemaError = "" ∧ Code.text .incompatibleStorageTypes = "" ∧ Code.text .indexCreateFail = "") ∧
    ∀ a b : Code, a.text ≠ "" → a.text = b.text → a = b := by
  refine ⟨⟨rfl, rfl, rfl⟩, ?_⟩
  intro a b
  cases a <;> cases b <;> simp [Code.text]

end Verif.Py
