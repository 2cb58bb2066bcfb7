import Verif.Py.FindLemmas
/-!
C92: `find` with a condition gives the documents that satisfy it.
-/
namespace Verif.Py

open Verif.DocVal Query

theorem bind_inv {α β : Type} {r : Res α} {f : α → Res β} {b : β} (h : r.bind f = .ok b) : ∃ a, r = .ok a ∧ f a = .ok b := by
  cases r with
  | ok a => exact ⟨a, rfl, h⟩
  | throws => cases h
  | ub => cases h
  | diverges => cases h

theorem normalize_idem (c : Expr) : normalize (normalize c) = normalize c := by
  obtain ⟨t, k, p, cs⟩ := c
  simp only [normalize]
  by_cases h : t = .invalid ∧ k ≠ none
  · rw [if_pos h]; simp [normalize]
  · rw [if_neg h]; simp only [normalize, if_neg h]

theorem leaf_normal (L : Lib) (x : Scalar) : ∀ (n : Nat) (prev word : Bytes) (st : Store) (r : List Expr × Store),
    parseLeaf L x n prev word st = .ok r → ∀ c ∈ r.1, normalize c = c
  | 0, _, _, _, _, h => by cases h
  | n + 1, prev, word, st, r, h => by
    simp only [parseLeaf] at h
    obtain ⟨v, _, h⟩ := bind_inv h
    obtain ⟨q, _, h⟩ := bind_inv h
    cases h
    intro c hc
    simp only [List.mem_singleton] at hc
    rw [hc, normalize_idem]

mutual
theorem cond_normal (L : Lib) : ∀ (o : PyObj) (prev word : Bytes) (st : Store) (r : List Expr × Store),
    parseCond L o prev word st = .ok r → ∀ c ∈ r.1, normalize c = c
  | .scalar x, prev, word, st, r, h => leaf_normal L x 3 prev word st r h
  | .list xs, prev, word, st, r, h => arr_normal L xs _ st r h
  | .tuple xs, prev, word, st, r, h => arr_normal L xs _ st r h
  | .dict es, prev, word, st, r, h => dict_normal L es _ st r h
theorem dict_normal (L : Lib) : ∀ (es : List (Scalar × PyObj)) (prev : Bytes) (st : Store) (r : List Expr × Store),
    parseDict L es prev st = .ok r → ∀ c ∈ r.1, normalize c = c
  | [], _, _, _, h => by cases h; simp
  | (k, v) :: es, prev, st, r, h => by
    simp only [parseDict] at h
    obtain ⟨key, _, h⟩ := bind_inv h
    obtain ⟨a, ha, h⟩ := bind_inv h
    obtain ⟨q, hq, h⟩ := bind_inv h
    cases h
    have h1 : ∀ c ∈ a.1, normalize c = c := by
      by_cases hp : prev = []
      · rw [if_pos hp] at ha; exact cond_normal L v key [] st a ha
      · rw [if_neg hp] at ha; exact cond_normal L v prev key st a ha
    intro c hc
    simp only [List.mem_append] at hc
    rcases hc with hc | hc
    · by_cases hu : (getType key).isUnion = true
      · rw [if_pos hu] at hc
        simp only [List.mem_singleton] at hc
        rw [hc]
        simp [normalize]
      · rw [if_neg hu] at hc
        exact h1 c hc
    · exact dict_normal L es prev a.2 q hq c hc
theorem arr_normal (L : Lib) : ∀ (xs : List PyObj) (prev : Bytes) (st : Store) (r : List Expr × Store),
    parseArr L xs prev st = .ok r → ∀ c ∈ r.1, normalize c = c
  | [], _, _, _, h => by cases h; simp
  | x :: xs, prev, st, r, h => by
    simp only [parseArr] at h
    obtain ⟨a, ha, h⟩ := bind_inv h
    obtain ⟨q, hq, h⟩ := bind_inv h
    cases h
    intro c hc
    simp only [List.mem_append] at hc
    rcases hc with hc | hc
    · exact cond_normal L x prev [] st a ha c hc
    · exact arr_normal L xs prev a.2 q hq c hc
end

theorem top_normal (L : Lib) : ∀ (es : List (Scalar × PyObj)) (st : Store) (r : List Expr × Store),
    parseTop L es st = .ok r → ∀ c ∈ r.1, normalize c = c
  | [], _, _, h => by cases h; simp
  | (k, v) :: es, st, r, h => by
    simp only [parseTop] at h
    obtain ⟨key, _, h⟩ := bind_inv h
    obtain ⟨a, ha, h⟩ := bind_inv h
    obtain ⟨q, hq, h⟩ := bind_inv h
    cases h
    intro c hc
    simp only [List.mem_append] at hc
    rcases hc with hc | hc
    · exact cond_normal L v key [] st a ha c hc
    · exact top_normal L es a.2 q hq c hc

/-- The type of the root of a condition. -/
def rootC : List Cond → CType
  | [e] => e.ctype
  | _ => .unionAnd

theorem rootType_eq (L : Lib) (es : List Cond) (hn : namedEntries es) :
    rootType L (entriesPy es) = .ok (rootC es) := by
  match es, hn with
  | [], _ => rfl
  | [e], hn =>
    obtain ⟨key, hk, hty⟩ := getType_cond hn.1
    have hpy : e.py = (.str key, e.py.2) := by rw [← hk]
    simp only [entriesPy]
    rw [hpy]
    simp only [rootType, keyStr, Res.bind, hty]
    rfl
  | e :: e' :: es, _ => rfl

/-- The children of a root without `$or` and `$not`. -/
theorem top_means (L : Lib) (rx : Bytes → Bytes → Res Bool) (d : Doc) : ∀ es : List Cond,
    (∀ e ∈ es, (∀ ds, e ≠ .or ds) ∧ ∀ d, e ≠ .not d) → shapedEntries es → eachEntries (decided L rx d) es →
    Means rx d (topKids L es) (entriesSat (truth L rx d) es)
  | [], _, _, _ => ⟨trivial, by simp [topKids, allHold, entriesSat]⟩
  | e :: es, hr, hs, h => by
    have h1 : Means rx d (e.inner L) (e.sat (truth L rx d)) := by
      cases e with
      | field k x => exact cond_means L rx d _ hs.1 h.1
      | ops k os => exact cond_means L rx d _ hs.1 h.1
      | and ds => exact dicts_means L rx d ds hs.1 h.1
      | or ds => exact absurd rfl ((hr _ (by simp)).1 ds)
      | not d' => exact absurd rfl ((hr _ (by simp)).2 d')
    obtain ⟨h1, h2⟩ := h1
    obtain ⟨g1, g2⟩ := top_means L rx d es (fun e he => hr e (by simp [he])) hs.2 h.2
    exact ⟨(allProper_append _ _ _).mpr ⟨h1, g1⟩, by rw [topKids, allHold_append, h2, g2]; rfl⟩

/-- The filter of a condition, whatever parameters are added later. -/
theorem find_filter_more (L : Lib) (es : List Cond) (hn : namedEntries es) (hv : eachEntries readable es)
    (hz : sizeEntries es < 2 ^ 16) :
    ∃ e st, parseFind L (entriesPy es) = .ok (e, st) ∧ Wf st ∧ st.counter = sizeEntries es ∧
      ∀ st', More st st' → ∀ (rx : Bytes → Bytes → Res Bool) (d : Doc), shapedEntries es → rootShaped es →
      eachEntries (decided L rx d) es → (toFilter st' e).proper (fun a => ∃ b, checkP rx d a = .ok b) ∧
      ((toFilter st' e).holds (fun a => checkP rx d a = .ok true) ↔ entriesSat (truth L rx d) es) := by
  obtain ⟨cs, st, h1, h2, h3, _, h5⟩ := top_ok L es ⟨0, []⟩ hn hv (by intro n _; rfl) (by simpa using hz)
  have hnorm := top_normal L _ _ _ h1
  simp only at hnorm
  refine ⟨finish (rootC es) cs, st, ?_, h2, by simpa using h3, ?_⟩
  · simp only [parseFind, rootType_eq L es hn, Res.bind, h1]
  · intro st' hm rx d hs hr h
    have h5 := h5 st' hm
    have hone : ∀ c, cs = [c] → ∀ t, finish t cs = c := by
      intro c hc t
      subst hc
      exact hnorm c (by simp)
    by_cases hor : ∃ ds, es = [.or ds]
    · obtain ⟨ds, rfl⟩ := hor
      have hk : topKids L [.or ds] = dictsKids L ds := by simp [topKids, Cond.inner]
      rw [hk] at h5
      obtain ⟨a1, a2⟩ := dicts_alts L rx d ds hs.1 h.1
      have hsat : entriesSat (truth L rx d) [.or ds] ↔ someSat (truth L rx d) ds := by simp [entriesSat, Cond.sat]
      rw [hsat, ← a2, ← h5]
      rw [← h5] at a1
      match cs, hone with
      | [], _ => exact ⟨trivial, by simp [finish, rootC, Cond.ctype, CType.isUnion, toFilter, toFilters, Filter.holds, anyHolds]⟩
      | [c], hone =>
        rw [hone c rfl]
        simp only [toFilters, allProper, and_true] at a1
        exact ⟨a1, by simp [toFilters, anyHolds]⟩
      | c :: c' :: cs, _ =>
        refine ⟨?_, ?_⟩
        · simpa only [finish, rootC, Cond.ctype, CType.isUnion, if_true, toFilter, Filter.proper] using a1
        · simp only [finish, rootC, Cond.ctype, CType.isUnion, if_true, toFilter, Filter.holds]
    · have hr' : ∀ e ∈ es, (∀ ds, e ≠ .or ds) ∧ ∀ d, e ≠ .not d := by
        match es, hr, hor with
        | [], _, _ => simp
        | [.or ds], _, hor => exact absurd ⟨ds, rfl⟩ hor
        | [.field _ _], hr, _ => simp
        | [.ops _ _], hr, _ => simp
        | [.and _], hr, _ => simp
        | [.not d'], hr, _ => exact hr
        | a :: _ :: _, hr, _ => cases a <;> exact hr
      obtain ⟨a1, a2⟩ := top_means L rx d es hr' hs h
      rw [← a2, ← h5]
      rw [← h5] at a1
      have ht : ∀ t, t = rootC es → (if t.isUnion then t else .unionAnd) = .unionAnd := by
        intro t ht
        subst ht
        match es, hr' with
        | [], _ => rfl
        | [.field _ _], _ => rfl
        | [.ops _ _], _ => rfl
        | [.and _], _ => rfl
        | [.or ds], hr' => exact absurd rfl ((hr' _ (by simp)).1 ds)
        | [.not d'], hr' => exact absurd rfl ((hr' _ (by simp)).2 d')
        | _ :: _ :: _, _ => rfl
      generalize hteq : rootC es = t
      have ht := ht t hteq.symm
      match cs, hone with
      | [], _ => exact ⟨by simp only [finish, ht, toFilter, toFilters, Filter.proper]; trivial, by simp [finish, ht, toFilter, toFilters, Filter.holds]⟩
      | [c], hone =>
        rw [hone c rfl]
        simp only [toFilters, allProper, and_true] at a1
        exact ⟨a1, by simp [toFilters, allHold]⟩
      | c :: c' :: cs, _ =>
        refine ⟨?_, ?_⟩
        · simpa only [finish, ht, toFilter, Filter.proper] using a1
        · simp only [finish, ht, toFilter, Filter.holds]

/-- The filter of a condition. -/
theorem find_filter (L : Lib) (es : List Cond) (hn : namedEntries es) (hv : eachEntries readable es)
    (hz : sizeEntries es < 2 ^ 16) :
    ∃ e st, parseFind L (entriesPy es) = .ok (e, st) ∧ ∀ (rx : Bytes → Bytes → Res Bool) (d : Doc), shapedEntries es → rootShaped es →
      eachEntries (decided L rx d) es → (toFilter st e).proper (fun a => ∃ b, checkP rx d a = .ok b) ∧
      ((toFilter st e).holds (fun a => checkP rx d a = .ok true) ↔ entriesSat (truth L rx d) es) := by
  obtain ⟨e, st, h1, _, _, h2⟩ := find_filter_more L es hn hv hz
  exact ⟨e, st, h1, h2 st (More.refl st)⟩

/-- The full claim: whatever condition of readable values and whatever document it can be compared with, `find` accepts the
document if it satisfies the condition, and only then. -/
def C92_claim : Prop :=
  ∀ (L : Lib) (rx : Bytes → Bytes → Res Bool) (es : List Cond) (d : Doc), (PyObj.dict (entriesPy es)).all (fun _ => True) →
    eachEntries readable es → eachEntries (decided L rx d) es →
    ∃ b, accepts L rx (entriesPy es) d = .ok b ∧ (b = true ↔ (Dict.mk es).sat (truth L rx d))

/-- It holds for conditions of less than 65536 values whose field names are ordinary, where `$not` is not at the root,
`$or` at the root is alone, and each alternative of an `$or` and each negated condition is one comparison, `$and`, `$or` or
`$not`. -/
theorem C92_accepts_partial (L : Lib) (rx : Bytes → Bytes → Res Bool) (es : List Cond) (d : Doc) (hn : namedEntries es)
    (hs : shapedEntries es) (hr : rootShaped es) (hv : eachEntries readable es) (hz : sizeEntries es < 2 ^ 16)
    (hd : eachEntries (decided L rx d) es) :
    ∃ b, accepts L rx (entriesPy es) d = .ok b ∧ (b = true ↔ (Dict.mk es).sat (truth L rx d)) := by
  obtain ⟨e, st, h1, h2⟩ := find_filter L es hn hv hz
  obtain ⟨h3, h4⟩ := h2 rx d hs hr hd
  obtain ⟨b, h5, h6⟩ := check_holds (checkP rx d) _ h3
  refine ⟨b, ?_, h6.trans h4⟩
  simp only [accepts, h1, Res.bind, h5]

/-- `find` then gives those documents of the collection that satisfy the condition, in their order. -/
theorem C92_find_partial (L : Lib) (rx : Bytes → Bytes → Res Bool) (es : List Cond) (store : List Doc) (hn : namedEntries es)
    (hs : shapedEntries es) (hr : rootShaped es) (hv : eachEntries readable es) (hz : sizeEntries es < 2 ^ 16)
    (hd : ∀ d ∈ store, eachEntries (decided L rx d) es) (hl : store.length < 2 ^ 31) :
    find L rx (entriesPy es) store =
      .ok (some (store.filter fun d => @decide ((Dict.mk es).sat (truth L rx d)) (Classical.propDecidable _))) := by
  obtain ⟨e, st, h1, h2⟩ := find_filter L es hn hv hz
  have hdef : Defined (fun d => Query.check (checkP rx d) (toFilter st e)) store := by
    intro d hm
    obtain ⟨b, h5, _⟩ := check_holds (checkP rx d) _ (h2 rx d hs hr (hd d hm)).1
    exact ⟨b, h5⟩
  simp only [find, h1, Res.bind]
  rw [fullScan_some _ _ hdef hl]
  congr 2
  rw [accepted]
  apply List.filter_congr
  intro d hm
  obtain ⟨h3, h4⟩ := h2 rx d hs hr (hd d hm)
  obtain ⟨b, h5, h6⟩ := check_holds (checkP rx d) _ h3
  have : Query.check (checkP rx d) (toFilter st e) = .ok true ↔ (Dict.mk es).sat (truth L rx d) := by
    rw [h5]
    have := h6.trans h4
    simpa [Dict.sat] using this
  simp only [decide_eq_decide]
  exact this

/-- `{"a": {"$gte": 1, "$lt": 5}, "$and": [{"$or": [{"b": 2}, {"$not": {"c": 3}}]}]}` -/
def exCond : List Cond :=
  [.ops [97] [(.cmp .gte, .int 1), (.cmp .lt, .int 5)],
   .and [.mk [.or [.mk [.field [98] (.int 2)], .mk [.not (.mk [.field [99] (.int 3)])]]]]]

/-- `{"a": 1, "b": 2}` and `{"a": 1, "b": 7, "c": 3}` -/
def exDoc : Doc := ⟨1, [([97], .scalar (.int .i64 1)), ([98], .scalar (.int .i64 2))]⟩
def exDoc2 : Doc := ⟨2, [([97], .scalar (.int .i64 1)), ([98], .scalar (.int .i64 7)), ([99], .scalar (.int .i64 3))]⟩

/-- A library and regular expressions for witnesses. -/
def noLib : Lib := ⟨fun b => b, fun _ => true, fun _ => 0, fun _ => []⟩
def noRx : Bytes → Bytes → Res Bool := fun _ _ => .ok false

theorem ordinary_of (k : Bytes) (h : (k ≠ [] ∧ k.drop 1 ∉ cNames.map Prod.fst ∧ k ≠ kAnd ∧ k ≠ kOr ∧ k ≠ kNot)) : Ordinary k := h

example : namedEntries exCond ∧ shapedEntries exCond ∧ rootShaped exCond ∧
    eachEntries readable exCond ∧ sizeEntries exCond < 2 ^ 16 ∧ (∀ d ∈ [exDoc, exDoc2], eachEntries (decided noLib noRx d) exCond) ∧
    find noLib noRx (entriesPy exCond) [exDoc, exDoc2] = .ok (some [exDoc]) := by
  have ha : Ordinary [97] := ordinary_of _ (by decide)
  have hb : Ordinary [98] := ordinary_of _ (by decide)
  have hc : Ordinary [99] := ordinary_of _ (by decide)
  refine ⟨⟨ha, ⟨⟨⟨⟨hb, trivial⟩, ⟨⟨hc, trivial⟩, trivial⟩, trivial⟩, trivial⟩, trivial⟩, trivial⟩,
    ⟨trivial, ⟨⟨⟨⟨trivial, trivial⟩, ⟨trivial, ⟨trivial, trivial⟩⟩, trivial⟩, trivial⟩, trivial⟩, trivial⟩, ?_, ?_, by decide, ?_, ?_⟩
  · simp [exCond, rootShaped]
  · simp [exCond, eachEntries, Cond.each, eachDicts, Dict.each, readable]
  · intro d hd
    simp only [List.mem_cons, List.not_mem_nil, or_false] at hd
    rcases hd with rfl | rfl
    · simp only [exCond, eachEntries, Cond.each, eachDicts, Dict.each, List.forall_mem_cons]
      exact ⟨⟨⟨true, by decide +kernel⟩, ⟨true, by decide +kernel⟩, by simp⟩, ⟨⟨⟨⟨⟨true, by decide +kernel⟩, trivial⟩, ⟨⟨⟨false, by decide +kernel⟩, trivial⟩, trivial⟩, trivial⟩, trivial⟩, trivial⟩, trivial⟩
    · simp only [exCond, eachEntries, Cond.each, eachDicts, Dict.each, List.forall_mem_cons]
      exact ⟨⟨⟨true, by decide +kernel⟩, ⟨true, by decide +kernel⟩, by simp⟩, ⟨⟨⟨⟨⟨false, by decide +kernel⟩, trivial⟩, ⟨⟨⟨true, by decide +kernel⟩, trivial⟩, trivial⟩, trivial⟩, trivial⟩, trivial⟩, trivial⟩
  · decide +kernel

/-- A field called `call`, `ball`, `tall`, `many`, ... (any character before `all` or `any`) is taken for an operator: the
condition accepts every document, and `delete_many` with it removes them all. -/
theorem C92_name_fails : ¬ C92_claim ∧ ∀ (L : Lib) (rx : Bytes → Bytes → Res Bool) (c : UInt8) (w : Bytes) (x : Scalar) (v : Option V) (d : Doc),
    w = [97, 108, 108] ∨ w = [97, 110, 121] → scalarV L x = .ok v → accepts L rx [(.str (c :: w), .scalar x)] d = .ok true := by
  have key : ∀ (L : Lib) (rx : Bytes → Bytes → Res Bool) (c : UInt8) (w : Bytes) (x : Scalar) (v : Option V) (d : Doc),
    w = [97, 108, 108] ∨ w = [97, 110, 121] → scalarV L x = .ok v → accepts L rx [(.str (c :: w), .scalar x)] d = .ok true := by
    intro L rx c w x v d hw hx
    rcases hw with rfl | rfl
    · have h1 : getType [c, 97, 108, 108] = .all := rfl
      have h2 : typeKey [c, 97, 108, 108] [] = (.all, []) := rfl
      simp [accepts, parseFind, rootType, keyStr, parseTop, parseCond, parseLeaf, hx, h1, h2, Res.bind, CType.isUnion, normalize,
        finish, toFilter, leafOf, Query.check, checkP]
    · have h1 : getType [c, 97, 110, 121] = .any := rfl
      have h2 : typeKey [c, 97, 110, 121] [] = (.any, []) := rfl
      simp [accepts, parseFind, rootType, keyStr, parseTop, parseCond, parseLeaf, hx, h1, h2, Res.bind, CType.isUnion, normalize,
        finish, toFilter, leafOf, Query.check, checkP]
  refine ⟨?_, key⟩
  intro h
  have hw := key noLib noRx 99 [97, 108, 108] (.int 5) (some (.int .i64 5)) exDoc (.inl rfl) rfl
  obtain ⟨b, h1, h2⟩ := h noLib noRx [.field [99, 97, 108, 108] (.int 5)] exDoc
    (by simp [entriesPy, Cond.py, PyObj.all, allFields]) (by simp [eachEntries, Cond.each, readable])
    ⟨⟨false, by decide +kernel⟩, trivial⟩
  rw [show entriesPy [.field [99, 97, 108, 108] (.int 5)] = [(.str [99, 97, 108, 108], .scalar (.int 5))] from rfl, hw] at h1
  cases h1
  have := (h2.mp rfl).1
  exact absurd this (by unfold Cond.sat truth; decide +kernel)

/-- `$or` beside another key is taken apart: `{"a": 1, "$or": [{"b": 2}, {"c": 3}]}` does not accept `{"a": 1, "b": 2}`, it
asks for all three. -/
theorem C92_or_fails : ¬ C92_claim ∧
    accepts noLib noRx (entriesPy [.field [97] (.int 1), .or [.mk [.field [98] (.int 2)], .mk [.field [99] (.int 3)]]]) exDoc = .ok false := by
  have hw : accepts noLib noRx (entriesPy [.field [97] (.int 1), .or [.mk [.field [98] (.int 2)], .mk [.field [99] (.int 3)]]]) exDoc = .ok false := by decide +kernel
  refine ⟨?_, hw⟩
  intro h
  obtain ⟨b, h1, h2⟩ := h noLib noRx [.field [97] (.int 1), .or [.mk [.field [98] (.int 2)], .mk [.field [99] (.int 3)]]] exDoc
    (by simp [entriesPy, dictsPy, Dict.py, Cond.py, PyObj.all, allFields, allItems, kOr])
    (by simp [eachEntries, Cond.each, eachDicts, Dict.each, readable])
    ⟨⟨true, by decide +kernel⟩, ⟨⟨⟨true, by decide +kernel⟩, trivial⟩, ⟨⟨false, by decide +kernel⟩, trivial⟩, trivial⟩, trivial⟩
  rw [hw] at h1
  cases h1
  have : (Dict.mk [.field [97] (.int 1), .or [.mk [.field [98] (.int 2)], .mk [.field [99] (.int 3)]]]).sat (truth noLib noRx exDoc) :=
    ⟨by unfold Cond.sat truth; decide +kernel, .inl ⟨by unfold Cond.sat truth; decide +kernel, trivial⟩, trivial⟩
  exact absurd (h2.mpr this) (by decide)

/-- An alternative of two entries is taken apart: `{"$or": [{"a": 1, "b": 2}]}` accepts `{"a": 1, "b": 7, "c": 3}`. -/
theorem C92_alternative_fails : ¬ C92_claim ∧
    accepts noLib noRx (entriesPy [.or [.mk [.field [97] (.int 1), .field [98] (.int 2)]]]) exDoc2 = .ok true := by
  have hw : accepts noLib noRx (entriesPy [.or [.mk [.field [97] (.int 1), .field [98] (.int 2)]]]) exDoc2 = .ok true := by decide +kernel
  refine ⟨?_, hw⟩
  intro h
  obtain ⟨b, h1, h2⟩ := h noLib noRx [.or [.mk [.field [97] (.int 1), .field [98] (.int 2)]]] exDoc2
    (by simp [entriesPy, dictsPy, Dict.py, Cond.py, PyObj.all, allFields, allItems])
    (by simp [eachEntries, Cond.each, eachDicts, Dict.each, readable])
    ⟨⟨⟨⟨true, by decide +kernel⟩, ⟨false, by decide +kernel⟩, trivial⟩, trivial⟩, trivial⟩
  rw [hw] at h1
  cases h1
  have := (h2.mp rfl).1
  simp only [Cond.sat, someSat, Dict.sat, entriesSat, or_false, and_true] at this
  exact absurd this.2 (by unfold truth; decide +kernel)

/-- `$not` at the root is dropped: `{"$not": {"k": x}}` accepts what `{"k": x}` accepts. -/
theorem C92_not_fails : ¬ C92_claim ∧ ∀ (L : Lib) (rx : Bytes → Bytes → Res Bool) (k : Bytes) (x : Scalar) (d : Doc), Ordinary k →
    accepts L rx (entriesPy [.not (.mk [.field k x])]) d = accepts L rx (entriesPy [.field k x]) d := by
  have key : ∀ (L : Lib) (rx : Bytes → Bytes → Res Bool) (k : Bytes) (x : Scalar) (d : Doc), Ordinary k →
    accepts L rx (entriesPy [.not (.mk [.field k x])]) d = accepts L rx (entriesPy [.field k x]) d := by
    intro L rx k x d hk
    have h1 := getType_ordinary hk
    have h0 : getType [] = .invalid := rfl
    have h2 : typeKey k [] = (.invalid, k) := by simp [typeKey, h0, h1]
    have h3 : (typeKey kNot []).2 = [] := rfl
    have h4 : getType kNot = .unionNot := rfl
    cases hx : scalarV L x with
    | ok v => simp [accepts, parseFind, entriesPy, Cond.py, Dict.py, rootType, keyStr, parseTop, parseCond, parseDict, parseLeaf, hx, h1, h2, h3, h4,
        Res.bind, CType.isUnion, normalize, finish]
    | throws => simp [accepts, parseFind, entriesPy, Cond.py, Dict.py, rootType, keyStr, parseTop, parseCond, parseDict, parseLeaf, hx, h1, h3, h4, Res.bind]
    | ub => simp [accepts, parseFind, entriesPy, Cond.py, Dict.py, rootType, keyStr, parseTop, parseCond, parseDict, parseLeaf, hx, h1, h3, h4, Res.bind]
    | diverges => simp [accepts, parseFind, entriesPy, Cond.py, Dict.py, rootType, keyStr, parseTop, parseCond, parseDict, parseLeaf, hx, h1, h3, h4, Res.bind]
  refine ⟨?_, key⟩
  intro h
  have ha : Ordinary [97] := ordinary_of _ (by decide)
  have hw : accepts noLib noRx (entriesPy [.not (.mk [.field [97] (.int 1)])]) exDoc = .ok true := by
    rw [key noLib noRx [97] (.int 1) exDoc ha]; decide +kernel
  obtain ⟨b, h1, h2⟩ := h noLib noRx [.not (.mk [.field [97] (.int 1)])] exDoc
    (by simp [entriesPy, Dict.py, Cond.py, PyObj.all, allFields])
    (by simp [eachEntries, Cond.each, Dict.each, readable])
    ⟨⟨⟨true, by decide +kernel⟩, trivial⟩, trivial⟩
  rw [hw] at h1
  cases h1
  have := (h2.mp rfl).1
  simp only [Cond.sat, Dict.sat, entriesSat, and_true] at this
  exact this (by unfold truth; decide +kernel)

/-- Beyond the claim: `None` is no value to compare with, `{"k": None}` accepts no document and `{"k": {"$ne": None}}` every
one, also where `k` is missing. -/
theorem C92_none_fails (L : Lib) (rx : Bytes → Bytes → Res Bool) (k : Bytes) (hk : Ordinary k) (d : Doc) :
    accepts L rx (entriesPy [.field k .none]) d = .ok false ∧ accepts L rx (entriesPy [.ops k [(.cmp .ne, .none)]]) d = .ok true := by
  have h1 := getType_ordinary hk
  have h0 : getType [] = .invalid := rfl
  have h2 : typeKey k [] = (.invalid, k) := by simp [typeKey, h0, h1]
  have h3 : getType (Op.name (.cmp .ne)) = .ne := rfl
  have h4 : typeKey k (Op.name (.cmp .ne)) = (.ne, k) := by simp [typeKey, h3]
  have hx : scalarV L .none = .ok none := rfl
  have hf : ∀ v : Option V, find? 0 [(0, v)] = some v := fun v => rfl
  constructor
  · simp [accepts, parseFind, entriesPy, Cond.py, rootType, keyStr, parseTop, parseCond, parseLeaf, hx, h1, h2,
      Res.bind, CType.isUnion, normalize, finish, Store.add, find?, toFilter, leafOf, Query.check, checkP, compareTo, Cmp.ok]
  · simp [accepts, parseFind, entriesPy, Cond.py, rootType, keyStr, parseTop, parseCond, parseDict, parseLeaf, hx, h1, h2, h3, h4, hk.1,
      Res.bind, CType.isUnion, normalize, finish, Store.add, find?, toFilter, leafOf, Query.check, checkP, compareTo, Cmp.ok]

/-- Beyond the claim: `$in` is unknown and its list is taken for several equalities that must all hold:
`{"a": {"$in": [1, 2]}}` does not accept `{"a": 1, "b": 2}`. -/
theorem C92_in_fails : accepts noLib noRx [(.str [97], .dict [(.str [36, 105, 110], .list [.scalar (.int 1), .scalar (.int 2)])])] exDoc = .ok false ∧
    accepts noLib noRx [(.str [97], .dict [(.str [36, 105, 110], .list [.scalar (.int 1)])])] exDoc = .ok true := ⟨by decide +kernel, by decide +kernel⟩

end Verif.Py
