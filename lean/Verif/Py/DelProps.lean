import Verif.Py.DelModel
import Verif.Py.FindProps
import Verif.Query.WriteProps
/-!
C105: what the Python calls that insert, find one and delete do.
-/
namespace Verif.Py
open Verif Verif.Query

/-- Whether a document satisfies a condition, as a test. -/
noncomputable def fits (L : Lib) (rx : Bytes → Bytes → Res Bool) (es : List Cond) (d : Doc) : Bool :=
  @decide ((Dict.mk es).sat (truth L rx d)) (Classical.propDecidable _)

/-- The conditions and documents of `C92_find_partial`. -/
structure Usual (L : Lib) (rx : Bytes → Bytes → Res Bool) (es : List Cond) (store : List Doc) : Prop where
  named : namedEntries es
  shaped : shapedEntries es
  root : rootShaped es
  readable : eachEntries readable es
  size : sizeEntries es < 2 ^ 16
  decided : ∀ d ∈ store, eachEntries (decided L rx d) es
  length : store.length < 2 ^ 31

/-- The full claim for deletes: `delete_many` removes the documents that satisfy the condition and no others, and its answer
is as long as there are such. -/
def C105_delete_claim : Prop :=
  ∀ (L : Lib) (rx : Bytes → Bytes → Res Bool) (es : List Cond) (store : List Doc), Sorted store →
    eachEntries readable es → (∀ d ∈ store, eachEntries (decided L rx d) es) → store.length < 2 ^ 31 →
    deleteMany L rx (.dict (entriesPy es)) store = .ok (store.filter (fun d => !fits L rx es d), (store.filter (fits L rx es)).length)

/-- The full claim for inserts: an insert that is refused says so. -/
def C105_insert_claim : Prop :=
  ∀ (d : Doc) (store : List Doc) (i : Nat), Sorted store → (insertOp [] store [d]).2 = none → ∀ s, insertOne d store ≠ .ok (s, some i)

theorem filter_of (L : Lib) (rx : Bytes → Bytes → Res Bool) (es : List Cond) (store : List Doc) (h : Usual L rx es store) :
    ∃ e st, parseFind L (entriesPy es) = .ok (e, st) ∧ Defined (fun d => Query.check (checkP rx d) (toFilter st e)) store ∧
      accepted (fun d => Query.check (checkP rx d) (toFilter st e)) store = store.filter (fits L rx es) := by
  obtain ⟨e, st, h1, h2⟩ := find_filter L es h.named h.readable h.size
  refine ⟨e, st, h1, ?_, ?_⟩
  · intro d hm
    obtain ⟨b, h5, _⟩ := check_holds (checkP rx d) _ (h2 rx d h.shaped h.root (h.decided d hm)).1
    exact ⟨b, h5⟩
  · rw [accepted]
    apply List.filter_congr
    intro d hm
    obtain ⟨h3, h4⟩ := h2 rx d h.shaped h.root (h.decided d hm)
    obtain ⟨b, h5, h6⟩ := check_holds (checkP rx d) _ h3
    have : Query.check (checkP rx d) (toFilter st e) = .ok true ↔ (Dict.mk es).sat (truth L rx d) := by
      rw [h5]
      have := h6.trans h4
      simpa [Dict.sat] using this
    simp only [fits, decide_eq_decide]
    exact this

/-- `find_one` gives the first document, by `_id`, that satisfies the condition, and the empty dictionary only if there is
none. Missing: the conditions of `C92_name_fails`, `C92_or_fails`, `C92_alternative_fails`, `C92_not_fails`. -/
theorem C105_find_one_partial (L : Lib) (rx : Bytes → Bytes → Res Bool) (es : List Cond) (store : List Doc) (h : Usual L rx es store) :
    findOne L rx (.dict (entriesPy es)) store = .ok (store.find? (fits L rx es)) := by
  have := C92_find_partial L rx es store h.named h.shaped h.root h.readable h.size h.decided h.length
  simp only [findOne, this, Res.bind, Option.bind]
  rw [List.head?_filter]
  rfl

theorem keep_not (q : Doc → Bool) (store : List Doc) (hs : Sorted store) :
    store.filter (fun d => decide (d.id ∉ (store.filter q).map Doc.id)) = store.filter (fun d => !q d) := by
  apply List.filter_congr
  intro d hd
  cases hq : q d with
  | true =>
    simp only [List.mem_map, List.mem_filter, Bool.not_true, decide_eq_false_iff_not, not_not]
    exact ⟨d, ⟨hd, hq⟩, rfl⟩
  | false =>
    simp only [List.mem_map, List.mem_filter, Bool.not_false, decide_eq_true_eq]
    rintro ⟨x, ⟨hx, hqx⟩, e⟩
    have := unique_eq (sorted_unique hs) hx hd e
    subst this
    rw [hq] at hqx; cases hqx

theorem keep_first (q : Doc → Bool) : ∀ (store : List Doc), Sorted store →
    store.filter (fun d => decide (d.id ∉ ((store.filter q).take 1).map Doc.id)) = store.eraseP q := by
  intro store
  induction store with
  | nil => intro _; rfl
  | cons d ds ih =>
    intro hs
    have hs' : Sorted ds := (List.pairwise_cons.mp hs).2
    have hlt := (List.pairwise_cons.mp hs).1
    cases hq : q d with
    | true =>
      rw [List.filter_cons_of_pos hq, List.eraseP_cons_of_pos hq]
      simp only [List.take_succ_cons, List.take_zero, List.map_cons, List.map_nil, List.mem_singleton]
      rw [List.filter_cons_of_neg (by simp), List.filter_eq_self]
      intro x hx
      have := hlt x hx
      simp only [decide_eq_true_eq]
      omega
    | false =>
      rw [List.eraseP_cons_of_neg (by simp [hq]), show (d :: ds).filter q = ds.filter q from List.filter_cons_of_neg (by simp [hq]),
        List.filter_cons_of_pos, ih hs']
      simp only [List.mem_map, decide_eq_true_eq]
      rintro ⟨x, hx, e⟩
      have := hlt x (List.mem_of_mem_filter (List.mem_of_mem_take hx))
      omega

/-- `delete_many` removes the documents that satisfy the condition and no others, and its answer is as long as there are
such. Missing: the same conditions, `C105_call_fails` and `C105_not_fails`. -/
theorem C105_delete_many_partial (L : Lib) (rx : Bytes → Bytes → Res Bool) (es : List Cond) (store : List Doc) (hs : Sorted store)
    (h : Usual L rx es store) :
    deleteMany L rx (.dict (entriesPy es)) store = .ok (store.filter (fun d => !fits L rx es d), (store.filter (fits L rx es)).length) := by
  obtain ⟨e, st, h1, h2, h3⟩ := filter_of L rx es store h
  obtain ⟨s', ids, a1, a2, a3, a4⟩ := C18_delete_partial (-1) _ store hs h2 h.length (.inl rfl)
  simp only [deleteMany, delete, h1, Res.bind, a1, a4]
  rw [a3, a2, firstN_all, h3, keep_not _ _ hs]

/-- `delete_one` removes the first document that satisfies the condition, if there is one, and nothing else; its answer has
length 1 or 0. -/
theorem C105_delete_one_partial (L : Lib) (rx : Bytes → Bytes → Res Bool) (es : List Cond) (store : List Doc) (hs : Sorted store)
    (h : Usual L rx es store) :
    deleteOne L rx (.dict (entriesPy es)) store = .ok (store.eraseP (fits L rx es), if store.any (fits L rx es) then 1 else 0) := by
  obtain ⟨e, st, h1, h2, h3⟩ := filter_of L rx es store h
  obtain ⟨s', ids, a1, a2, a3, a4⟩ := C18_delete_partial 1 _ store hs h2 h.length (.inr (by decide))
  have hf : ∀ ds : List Doc, firstN 1 ds = ds.take 1 := by intro ds; simp [firstN]
  simp only [deleteOne, delete, h1, Res.bind, a1, a4]
  rw [a3, a2, hf, h3, keep_first _ _ hs]
  congr 2
  rw [List.length_take]
  by_cases ha : store.any (fits L rx es) = true
  · rw [if_pos ha]
    obtain ⟨x, hx, hq⟩ := List.any_eq_true.mp ha
    have : 0 < (store.filter (fits L rx es)).length := List.length_pos_of_mem (List.mem_filter.mpr ⟨hx, hq⟩)
    omega
  · rw [if_neg ha]
    have : store.filter (fits L rx es) = [] := by
      rw [List.filter_eq_nil_iff]
      intro x hx hq
      exact ha (List.any_eq_true.mpr ⟨x, hx, hq⟩)
    simp [this]

/-- After `delete_many`, `find_one` with the same condition finds nothing. -/
theorem C105_gone_partial (L : Lib) (rx : Bytes → Bytes → Res Bool) (es : List Cond) (store : List Doc) (hs : Sorted store)
    (h : Usual L rx es store) :
    ∃ store' n, deleteMany L rx (.dict (entriesPy es)) store = .ok (store', n) ∧ n + store'.length = store.length ∧
      findOne L rx (.dict (entriesPy es)) store' = .ok none := by
  refine ⟨_, _, C105_delete_many_partial L rx es store hs h, ?_, ?_⟩
  · exact (List.length_eq_length_filter_add (l := store) (fits L rx es)).symm
  · have hsub : (store.filter (fun d => !fits L rx es d)).Sublist store := List.filter_sublist
    rw [C105_find_one_partial L rx es _ ⟨h.named, h.shaped, h.root, h.readable, h.size, fun d hd => h.decided d (hsub.subset hd),
      Nat.lt_of_le_of_lt hsub.length_le h.length⟩]
    congr 1
    rw [List.find?_eq_none]
    intro d hd
    have := (List.mem_filter.mp hd).2
    simpa using this

/-- Another object than a dictionary deletes nothing, and cannot be looked for. -/
theorem C105_no_dictionary (L : Lib) (rx : Bytes → Bytes → Res Bool) (o : PyObj) (store : List Doc) (h : ∀ es, o ≠ .dict es) :
    deleteOne L rx o store = .ok (store, 0) ∧ deleteMany L rx o store = .ok (store, 0) ∧ findOne L rx o store = .throws := by
  cases o with
  | dict es => exact absurd rfl (h es)
  | _ => exact ⟨rfl, rfl, rfl⟩

/-- `insert_many` of new documents, each once, stores them, leaves the others, and gives their `_id`s. Missing: documents with
an `_id` that is stored, or twice in the list. -/
theorem C105_insert_many_partial (batch store : List Doc) (hs : Sorted store) (h : ∀ d ∈ batch, byId store d.id = none) (hu : UniqueIds batch) :
    ∃ store', insertMany batch store = .ok (store', batch.map Doc.id) ∧ Sorted store' ∧ (∀ d ∈ batch, byId store' d.id = some d) ∧
      ∀ i, (∀ d ∈ batch, d.id ≠ i) → byId store' i = byId store i := by
  obtain ⟨h1, _, h3⟩ := C17_others [] store batch hs h
  refine ⟨_, ?_, h1, C17_stored_partial store batch hs h hu, h3⟩
  simp only [insertMany, C17_reply_partial store batch hs h hu, Res.bind]

/-- `insert_one` of a new document stores it, leaves the others, and gives its `_id`. -/
theorem C105_insert_one_partial (d : Doc) (store : List Doc) (hs : Sorted store) (h : byId store d.id = none) :
    ∃ store', insertOne d store = .ok (store', some d.id) ∧ Sorted store' ∧ byId store' d.id = some d ∧
      ∀ i, d.id ≠ i → byId store' i = byId store i := by
  have h' : ∀ x ∈ [d], byId store x.id = none := by simpa using h
  have hu : UniqueIds [d] := by simp [UniqueIds]
  obtain ⟨h1, _, h3⟩ := C17_others [] store [d] hs h'
  refine ⟨_, ?_, h1, C17_stored_partial store [d] hs h' hu d (by simp), fun i hi => h3 i (by simpa using hi)⟩
  simp only [insertOne, C17_reply_partial store [d] hs h' hu, Res.bind, List.map_cons, List.map_nil, List.head?_cons]

/-! ### Cases that meet the hypotheses -/

theorem usual_ex : Usual noLib noRx [.field [98] (.int 2)] [exDoc, exDoc2] where
  named := ⟨ordinary_of _ (by decide), trivial⟩
  shaped := ⟨trivial, trivial⟩
  root := by simp [rootShaped]
  readable := by simp [eachEntries, Cond.each, readable]
  size := by decide
  decided := by
    intro d hd
    simp only [List.mem_cons, List.not_mem_nil, or_false] at hd
    rcases hd with rfl | rfl
    · exact ⟨⟨true, by decide +kernel⟩, trivial⟩
    · exact ⟨⟨false, by decide +kernel⟩, trivial⟩
  length := by decide

example : Sorted [exDoc, exDoc2] ∧ deleteOne noLib noRx (.dict (entriesPy [.field [98] (.int 2)])) [exDoc, exDoc2] = .ok ([exDoc2], 1) ∧
    deleteMany noLib noRx (.dict (entriesPy [.field [97] (.int 1)])) [exDoc, exDoc2] = .ok ([], 2) ∧
    findOne noLib noRx (.dict (entriesPy [.field [98] (.int 7)])) [exDoc, exDoc2] = .ok (some exDoc2) := by
  refine ⟨by simp [Sorted, exDoc, exDoc2], by decide +kernel, by decide +kernel, by decide +kernel⟩

example : insertOne exDoc2 [exDoc] = .ok ([exDoc, exDoc2], some 2) ∧ insertMany [exDoc2, exDoc] [] = .ok ([exDoc, exDoc2], [2, 1]) := by
  constructor <;> decide +kernel

/-! ### Where it fails -/

/-- `delete_many({"call": x})` removes every document, and so does any name of one character before `all` or `any`. -/
theorem C105_call_fails (L : Lib) (rx : Bytes → Bytes → Res Bool) (c : UInt8) (w : Bytes) (x : Scalar) (v : Option DocVal.V) (store : List Doc)
    (hw : w = [97, 108, 108] ∨ w = [97, 110, 121]) (hx : scalarV L x = .ok v) (hs : Sorted store) (hn : store.length < 2 ^ 31) :
    deleteMany L rx (.dict [(.str (c :: w), .scalar x)]) store = .ok ([], store.length) := by
  have ha := fun d => (C92_name_fails.2 L rx c w x v d hw hx)
  unfold accepts at ha
  cases hp : parseFind L [(.str (c :: w), .scalar x)] with
  | ok r =>
    simp only [hp, Res.bind] at ha
    have hd : Defined (fun d => Query.check (checkP rx d) (toFilter r.2 r.1)) store := fun d _ => ⟨true, ha d⟩
    obtain ⟨s', ids, a1, a2, a3, a4⟩ := C18_delete_partial (-1) _ store hs hd hn (.inl rfl)
    have hacc : accepted (fun d => Query.check (checkP rx d) (toFilter r.2 r.1)) store = store := by
      rw [accepted, List.filter_eq_self]
      intro d _
      simpa using ha d
    simp only [deleteMany, delete, hp, Res.bind, a1, a4]
    rw [a3, a2, firstN_all, hacc]
    congr 2
    rw [List.filter_eq_nil_iff]
    intro d hd' hq
    simp only [decide_eq_true_eq, List.mem_map, not_exists, not_and] at hq
    exact hq d hd' rfl
  | throws => rw [hp] at ha; cases ha exDoc
  | ub => rw [hp] at ha; cases ha exDoc
  | diverges => rw [hp] at ha; cases ha exDoc

theorem C105_delete_fails : ¬ C105_delete_claim := by
  intro h
  have h1 := h noLib noRx [.field [99, 97, 108, 108] (.int 5)] [exDoc] (by simp [Sorted])
    (by simp [eachEntries, Cond.each, readable]) (by
      intro d hd
      simp only [List.mem_singleton] at hd
      subst hd
      exact ⟨⟨false, by decide +kernel⟩, trivial⟩) (by decide)
  have h2 := C105_call_fails noLib noRx 99 [97, 108, 108] (.int 5) (some (DocVal.V.int .i64 5)) [exDoc] (.inl rfl) rfl (by simp [Sorted]) (by decide)
  rw [show entriesPy [.field [99, 97, 108, 108] (.int 5)] = [(.str [99, 97, 108, 108], .scalar (.int 5))] from rfl, h2] at h1
  have hf : fits noLib noRx [.field [99, 97, 108, 108] (.int 5)] exDoc = false := by
    simp only [fits, decide_eq_false_iff_not]
    intro hsat
    exact absurd hsat.1 (by unfold Cond.sat truth; decide +kernel)
  simp [hf] at h1

/-- `delete_many({"$not": {"k": x}})` deletes what `{"k": x}` accepts: the opposite of what it says. -/
theorem C105_not_fails (L : Lib) (rx : Bytes → Bytes → Res Bool) (lim : Int) (k : Bytes) (x : Scalar) (store : List Doc) (hk : Ordinary k) :
    delete L rx lim (.dict (entriesPy [.not (.mk [.field k x])])) store = delete L rx lim (.dict (entriesPy [.field k x])) store := by
  have h1 := getType_ordinary hk
  have h0 : getType [] = .invalid := rfl
  have h2 : typeKey k [] = (.invalid, k) := by simp [typeKey, h0, h1]
  have h3 : (typeKey kNot []).2 = [] := rfl
  have h4 : getType kNot = .unionNot := rfl
  have : parseFind L (entriesPy [.not (.mk [.field k x])]) = parseFind L (entriesPy [.field k x]) := by
    cases hx : scalarV L x with
    | ok v => simp [parseFind, entriesPy, Cond.py, Dict.py, rootType, keyStr, parseTop, parseCond, parseDict, parseLeaf, hx, h1, h2, h3, h4,
        Res.bind, CType.isUnion, normalize, finish]
    | _ => simp [parseFind, entriesPy, Cond.py, Dict.py, rootType, keyStr, parseTop, parseCond, parseDict, parseLeaf, hx, h1, h3, h4, Res.bind]
  simp only [delete, this]

/-- `{"$not": {"b": 2}}` deletes `{"a": 1, "b": 2}` and leaves `{"a": 1, "b": 7, "c": 3}`. -/
example : deleteMany noLib noRx (.dict (entriesPy [.not (.mk [.field [98] (.int 2)])])) [exDoc, exDoc2] = .ok ([exDoc2], 1) := by decide +kernel

/-- `insert_one` of a document whose `_id` is stored already changes nothing and gives the `_id` of the first document of the
collection, another one or not, as if it had stored something; `insert_many` gives the `_id`s of all documents there are. -/
theorem C105_refused_fails (d : Doc) (batch store : List Doc) (h : (byId store d.id).isSome) (hb : d ∈ batch) :
    insertOne d store = .ok (store, (store.map Doc.id).head?) ∧ insertMany batch store = .ok (store, store.map Doc.id) := by
  have h1 : ∃ x ∈ [d], (byId store x.id).isSome := ⟨d, by simp, h⟩
  have h2 : ∃ x ∈ batch, (byId store x.id).isSome := ⟨d, hb, h⟩
  constructor
  · simp only [insertOne, C17_refused [] store [d] h1, insertReply, Res.bind]
  · simp only [insertMany, C17_refused [] store batch h2, insertReply, Res.bind]

/-- The `_id` 2 is refused, the answer is 1. -/
example : insertOne exDoc2 [exDoc, exDoc2] = .ok ([exDoc, exDoc2], some 1) := by decide +kernel

theorem C105_insert_fails : ¬ C105_insert_claim := by
  intro h
  exact h exDoc2 [exDoc, exDoc2] 1 (by simp [Sorted, exDoc, exDoc2]) (by decide +kernel) [exDoc, exDoc2] (by decide +kernel)

end Verif.Py
