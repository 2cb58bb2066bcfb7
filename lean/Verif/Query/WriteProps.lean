import Verif.Query.WriteSpec
import Verif.Query.Props
/-!
C17: insert.  C18: delete.
-/
namespace Verif.Query

open Verif.DocVal Verif.PhysKey

/-! ### the storage -/

theorem hasId_byId (ds : List Doc) (i : Nat) : hasId ds i = (byId ds i).isSome := by
  rw [Bool.eq_iff_iff]
  simp [hasId, byId]

theorem byId_cons (d : Doc) (ds : List Doc) (i : Nat) : byId (d :: ds) i = if d.id = i then some d else byId ds i := by
  unfold byId
  rw [List.find?_cons]
  by_cases h : d.id = i
  · simp [h]
  · have : (d.id == i) = false := by simpa using h
    rw [this, if_neg h]

theorem byId_none_iff (ds : List Doc) (i : Nat) : byId ds i = none ↔ ∀ d ∈ ds, d.id ≠ i := by
  simp [byId]

theorem byId_mem {ds : List Doc} {i : Nat} {d : Doc} (h : byId ds i = some d) : d ∈ ds ∧ d.id = i := by
  unfold byId at h
  exact ⟨List.mem_of_find?_eq_some h, by simpa using List.find?_some h⟩

theorem byId_of_mem {ds : List Doc} (hs : Sorted ds) {d : Doc} (h : d ∈ ds) : byId ds d.id = some d := by
  induction ds with
  | nil => cases h
  | cons e es ih =>
    rw [byId_cons]
    have hs' := List.pairwise_cons.mp hs
    rcases List.mem_cons.mp h with rfl | h
    · rw [if_pos rfl]
    · have := hs'.1 d h
      rw [if_neg (by omega)]
      exact ih hs'.2 h

/-- A key below all of a sorted list is not in it. -/
theorem byId_below {ds : List Doc} {i : Nat} (h : ∀ d ∈ ds, i < d.id) : byId ds i = none := by
  rw [byId_none_iff]
  intro d hd
  have := h d hd
  omega

theorem assign_spec (d : Doc) : ∀ ds : List Doc, Sorted ds →
    Sorted (assign d ds) ∧ (∀ x ∈ assign d ds, x = d ∨ x ∈ ds) ∧ ∀ i, byId (assign d ds) i = if d.id = i then some d else byId ds i := by
  intro ds
  induction ds with
  | nil => intro _; simp [assign, Sorted, byId_cons]
  | cons e es ih =>
    intro hs
    have hs' := List.pairwise_cons.mp hs
    simp only [assign]
    by_cases h1 : d.id < e.id
    · rw [if_pos h1]
      refine ⟨List.pairwise_cons.mpr ⟨?_, hs⟩, ?_, ?_⟩
      · intro x hx
        rcases List.mem_cons.mp hx with rfl | hx
        · exact h1
        · have := hs'.1 x hx; omega
      · intro x hx; simpa using hx
      · intro i; rw [byId_cons]
    · rw [if_neg h1]
      by_cases h2 : d.id = e.id
      · rw [if_pos h2]
        refine ⟨List.pairwise_cons.mpr ⟨fun x hx => by have := hs'.1 x hx; omega, hs'.2⟩, ?_, ?_⟩
        · intro x hx
          rcases List.mem_cons.mp hx with rfl | hx
          · simp
          · simp [hx]
        · intro i
          rw [byId_cons, byId_cons]
          by_cases h3 : d.id = i
          · rw [if_pos h3, if_pos h3]
          · rw [if_neg h3, if_neg h3, if_neg (by omega)]
      · rw [if_neg h2]
        obtain ⟨h3, h4, h5⟩ := ih hs'.2
        refine ⟨List.pairwise_cons.mpr ⟨?_, h3⟩, ?_, ?_⟩
        · intro x hx
          rcases h4 x hx with rfl | hx
          · omega
          · exact hs'.1 x hx
        · intro x hx
          rcases List.mem_cons.mp hx with rfl | hx
          · simp
          · rcases h4 x hx with rfl | h
            · simp
            · simp [h]
        · intro i
          rw [byId_cons, byId_cons, h5 i]
          by_cases h6 : e.id = i
          · rw [if_pos h6, if_pos h6, if_neg (by omega)]
          · rw [if_neg h6, if_neg h6]

theorem remove_eq (i : Nat) : ∀ ds : List Doc, Sorted ds → remove i ds = ds.filter fun d => decide (d.id ≠ i) := by
  intro ds
  induction ds with
  | nil => intro _; rfl
  | cons e es ih =>
    intro hs
    have hs' := List.pairwise_cons.mp hs
    simp only [remove]
    by_cases h : e.id = i
    · rw [if_pos h, List.filter_cons_of_neg (by simp [h])]
      symm
      apply List.filter_eq_self.mpr
      intro x hx
      have := hs'.1 x hx
      simp; omega
    · rw [if_neg h, List.filter_cons_of_pos (by simp [h]), ih hs'.2]

theorem sorted_filter (p : Doc → Bool) {ds : List Doc} (h : Sorted ds) : Sorted (ds.filter p) := h.sublist List.filter_sublist

theorem sorted_unique {ds : List Doc} (h : Sorted ds) : UniqueIds ds := by
  unfold UniqueIds
  rw [List.nodup_iff_pairwise_ne, List.pairwise_map]
  exact List.Pairwise.imp (fun {a b} hab => by omega) h

/-! ### insert -/

theorem primaryScan_eq (store : List Doc) : ∀ batch : List Doc,
    ((∃ d ∈ batch, (byId store d.id).isSome) → primaryScan store batch = none) ∧
    ((∀ d ∈ batch, byId store d.id = none) → primaryScan store batch = some batch) := by
  intro batch
  induction batch with
  | nil => simp [primaryScan]
  | cons d ds ih =>
    simp only [primaryScan, hasId_byId]
    constructor
    · rintro ⟨x, hx, h⟩
      by_cases hd : (byId store d.id).isSome = true
      · rw [if_pos hd]
      · rw [if_neg hd]
        rcases List.mem_cons.mp hx with rfl | hx
        · exact absurd h hd
        · rw [ih.1 ⟨x, hx, h⟩]; rfl
    · intro h
      rw [if_neg (by rw [h d (by simp)]; simp), ih.2 (fun x hx => h x (by simp [hx]))]
      rfl

theorem stored_id (tr : List (Bytes × Bytes)) (d : Doc) : (stored tr d).id = d.id := by unfold stored; split <;> rfl

theorem insertLoop_spec (tr : List (Bytes × Bytes)) : ∀ (ds store : List Doc), Sorted store →
    Sorted (insertLoop tr store ds).1 ∧ (insertLoop tr store ds).2 = ds.map Doc.id ∧
    (∀ i, (∀ d ∈ ds, d.id ≠ i) → byId (insertLoop tr store ds).1 i = byId store i) ∧
    (UniqueIds ds → ∀ d ∈ ds, byId (insertLoop tr store ds).1 d.id = some (stored tr d)) := by
  intro ds
  induction ds with
  | nil => intro store hs; simp [insertLoop, hs]
  | cons d ds ih =>
    intro store hs
    obtain ⟨h1, _, h3⟩ := assign_spec (stored tr d) store hs
    obtain ⟨g1, g2, g3, g4⟩ := ih _ h1
    simp only [insertLoop]
    refine ⟨g1, by rw [g2]; rfl, ?_, ?_⟩
    · intro i hi
      rw [g3 i (fun x hx => hi x (by simp [hx])), h3 i, if_neg (by rw [stored_id]; exact hi d (by simp))]
    · intro hu x hx
      unfold UniqueIds at hu
      rw [List.map_cons, List.nodup_cons] at hu
      rcases List.mem_cons.mp hx with rfl | hx
      · rw [g3 x.id ?_, h3, if_pos (stored_id tr x)]
        intro y hy e
        exact hu.1 (List.mem_map.mpr ⟨y, hy, e⟩)
      · exact g4 hu.2 x hx

/-- An insert of a batch with a stored `_id` changes nothing. -/
theorem C17_refused (tr : List (Bytes × Bytes)) (store batch : List Doc) (h : ∃ d ∈ batch, (byId store d.id).isSome) :
    insertOp tr store batch = (store, none) := by
  unfold insertOp
  rw [(primaryScan_eq store batch).1 h]

/-- An insert of a batch of new `_id`s changes no other document, and reports the `_id`s of the batch. -/
theorem C17_others (tr : List (Bytes × Bytes)) (store batch : List Doc) (hs : Sorted store) (h : ∀ d ∈ batch, byId store d.id = none) :
    Sorted (insertOp tr store batch).1 ∧ (insertOp tr store batch).2 = some (batch.map Doc.id) ∧
    ∀ i, (∀ d ∈ batch, d.id ≠ i) → byId (insertOp tr store batch).1 i = byId store i := by
  unfold insertOp
  rw [(primaryScan_eq store batch).2 h]
  obtain ⟨h1, h2, h3, _⟩ := insertLoop_spec tr batch store hs
  exact ⟨h1, by simp [h2], h3⟩

/-- An insert of a batch of new `_id`s, each once, stores every document of it.  Missing: a batch that repeats an `_id`
(`C17_repeat_fails`). -/
theorem C17_stored_partial (store batch : List Doc) (hs : Sorted store) (h : ∀ d ∈ batch, byId store d.id = none) (hu : UniqueIds batch) :
    ∀ d ∈ batch, byId (insertOp [] store batch).1 d.id = some d := by
  unfold insertOp
  rw [(primaryScan_eq store batch).2 h]
  exact (insertLoop_spec [] batch store hs).2.2.2 hu

theorem atAll_ok (store : List Doc) : ∀ ds : List Doc, (∀ d ∈ ds, byId store d.id = some d) → atAll store (ds.map Doc.id) = .ok ds := by
  intro ds
  induction ds with
  | nil => intro _; rfl
  | cons d ds ih =>
    intro h
    simp only [List.map_cons, atAll, atId]
    have hd := h d (by simp)
    unfold byId at hd
    rw [hd, ih (fun x hx => h x (by simp [hx]))]
    rfl

/-- The answer to such an insert has the documents of the batch. -/
theorem C17_reply_partial (store batch : List Doc) (hs : Sorted store) (h : ∀ d ∈ batch, byId store d.id = none) (hu : UniqueIds batch) :
    insertReply (insertOp [] store batch) = .ok batch := by
  have h1 := C17_stored_partial store batch hs h hu
  have h2 := (C17_others [] store batch hs h).2.1
  unfold insertReply
  rw [h2]
  exact atAll_ok _ _ h1

/-- The loop over a batch of a whole collection, `emplace`: what is stored stays, the rest is added. -/
theorem C17_load (d : Doc) (store : List Doc) (hs : Sorted store) :
    Sorted (emplace d store) ∧ ∀ i, byId (emplace d store) i = if (byId store i).isSome then byId store i else if d.id = i then some d else none := by
  unfold emplace
  rw [hasId_byId]
  by_cases h : (byId store d.id).isSome = true
  · rw [if_pos h]
    refine ⟨hs, fun i => ?_⟩
    by_cases hi : (byId store i).isSome = true
    · rw [if_pos hi]
    · rw [if_neg hi]
      by_cases e : d.id = i
      · subst e; exact absurd h hi
      · rw [if_neg e]; simpa using hi
  · rw [if_neg h]
    obtain ⟨h1, _, h3⟩ := assign_spec d store hs
    refine ⟨h1, fun i => ?_⟩
    rw [h3 i]
    by_cases e : d.id = i
    · subst e; rw [if_pos rfl, if_neg h, if_pos rfl]
    · rw [if_neg e, if_neg e]
      by_cases hi : (byId store i).isSome = true
      · rw [if_pos hi]
      · rw [if_neg hi]; simpa using hi

def exDocA : Doc := ⟨1, [([97], .scalar (.int .i64 1))]⟩
def exDocB : Doc := ⟨2, [([97], .scalar (.int .i64 2))]⟩
def exDocC : Doc := ⟨2, [([98], .container)]⟩

example : Sorted [exDocA] ∧ (∀ d ∈ [exDocB], byId [exDocA] d.id = none) ∧ UniqueIds [exDocB] ∧
    insertOp [] [exDocA] [exDocB] = ([exDocA, exDocB], some [2]) ∧ (∃ d ∈ [exDocB, exDocA], (byId [exDocA] d.id).isSome) := by
  refine ⟨by unfold Sorted; simp, by decide +kernel, by unfold UniqueIds; decide, by decide +kernel, by decide +kernel⟩

/-- A batch that repeats an `_id` stores the last of the documents only. -/
theorem C17_repeat_fails : ¬ C17_claim := by
  intro h
  have h1 := (h [] [exDocB, exDocC] (by simp [Sorted])).2 (by decide +kernel)
  have := h1.1 exDocB (by simp)
  revert this
  decide +kernel

/-- A refused insert is answered with all documents of the collection, as if they had been inserted. -/
theorem C17_refused_reply_fails (tr : List (Bytes × Bytes)) (store batch : List Doc) (h : ∃ d ∈ batch, (byId store d.id).isSome) :
    insertReply (insertOp tr store batch) = .ok store := by rw [C17_refused tr store batch h]; rfl

/-! Inserting under other names. -/

theorem look_setField (k : Bytes) (c : Cell) : ∀ (fs : List (Bytes × Cell)) (n : Bytes),
    look (setField k c fs) n = if n = k then c else look fs n := by
  intro fs
  induction fs with
  | nil => intro n; simp only [setField, look]; by_cases h : n = k
           · simp [h]
           · rw [if_neg (fun e => h e.symm), if_neg h]
  | cons f fs ih =>
    intro n
    obtain ⟨m, e⟩ := f
    simp only [setField]
    by_cases h : m = k
    · rw [if_pos h]
      simp only [look]
      by_cases h2 : n = k
      · simp [h2]
      · rw [if_neg h2, if_neg (fun x => h2 x.symm), if_neg (fun x => h2 (x.symm.trans h))]
    · rw [if_neg h]
      simp only [look, ih n]
      by_cases h2 : m = n
      · rw [if_pos h2, if_neg (fun x => h (h2.trans x)), if_pos h2]
      · rw [if_neg h2, if_neg h2]

/-- A value that a copy carries over. -/
def Copied : Cell → Prop
  | .scalar (.other _) => False
  | .scalar _ => True
  | _ => False

theorem copyField_look (fs : List (Bytes × Cell)) (k : Bytes) (d : Doc) (k2 n : Bytes) :
    (Copied (d.get k2) → look (copyField fs k d k2) n = if n = k then d.get k2 else look fs n) ∧
    (¬ Copied (d.get k2) → copyField fs k d k2 = fs) := by
  unfold copyField
  cases h : d.get k2 with
  | missing => simp [Copied]
  | container => simp [Copied]
  | scalar v => cases v <;> simp [Copied, look_setField]

theorem copyAll_look (d : Doc) : ∀ (tr : List (Bytes × Bytes)) (fs : List (Bytes × Cell)), (tr.map Prod.fst).Nodup →
    (∀ p ∈ tr, Copied (d.get p.2) → look (copyAll d tr fs) p.1 = d.get p.2) ∧
    (∀ p ∈ tr, ¬ Copied (d.get p.2) → look (copyAll d tr fs) p.1 = look fs p.1) ∧
    ∀ n, n ∉ tr.map Prod.fst → look (copyAll d tr fs) n = look fs n := by
  intro tr
  induction tr with
  | nil => intro fs _; simp [copyAll]
  | cons q tr ih =>
    intro fs hu
    rw [List.map_cons, List.nodup_cons] at hu
    simp only [copyAll]
    obtain ⟨h1, h2, h3⟩ := ih (copyField fs q.1 d q.2) hu.2
    refine ⟨?_, ?_, ?_⟩
    · intro p hp hc
      rcases List.mem_cons.mp hp with rfl | hp
      · rw [h3 p.1 hu.1, (copyField_look fs p.1 d p.2 p.1).1 hc, if_pos rfl]
      · exact h1 p hp hc
    · intro p hp hc
      rcases List.mem_cons.mp hp with rfl | hp
      · rw [h3 p.1 hu.1, (copyField_look fs p.1 d p.2 p.1).2 hc]
      · rw [h2 p hp hc]
        have hne : p.1 ≠ q.1 := fun e => hu.1 (by rw [← e]; exact List.mem_map.mpr ⟨p, hp, rfl⟩)
        by_cases hq : Copied (d.get q.2)
        · rw [(copyField_look fs q.1 d q.2 p.1).1 hq, if_neg hne]
        · rw [(copyField_look fs q.1 d q.2 p.1).2 hq]
    · intro n hn
      rw [List.map_cons, List.mem_cons, not_or] at hn
      rw [h3 n hn.2]
      by_cases hq : Copied (d.get q.2)
      · rw [(copyField_look fs q.1 d q.2 n).1 hq, if_neg hn.1]
      · rw [(copyField_look fs q.1 d q.2 n).2 hq]

/-- Inserted under other names, a document has under each new name the value of the field it was taken from, and no other
field.  Missing: objects and arrays are lost (`C17_translate_fails`). -/
theorem C17_translate_partial (tr : List (Bytes × Bytes)) (d : Doc) (hn : (tr.map Prod.fst).Nodup) (hs : simpleInsert tr = false) :
    (stored tr d).id = d.id ∧ (∀ p ∈ tr, Copied (d.get p.2) ∨ d.get p.2 = .missing → (stored tr d).get p.1 = d.get p.2) ∧
    ∀ n, n ∉ tr.map Prod.fst → (stored tr d).get n = .missing := by
  obtain ⟨h1, h2, h3⟩ := copyAll_look d tr [] hn
  have e : stored tr d = ⟨d.id, copyAll d tr []⟩ := by unfold stored; rw [if_neg (by rw [hs]; simp)]
  rw [e]
  refine ⟨rfl, ?_, ?_⟩
  · rintro p hp (hc | hm)
    · exact h1 p hp hc
    · have : ¬ Copied (d.get p.2) := by rw [hm]; simp [Copied]
      rw [hm]
      exact h2 p hp this
  · intro n hn'
    exact h3 n hn'

example : (stored [([120], [97])] exDocA) = ⟨1, [([120], .scalar (.int .i64 1))]⟩ ∧ simpleInsert [([120], [97])] = false := by decide +kernel

/-- An object or array is lost when its document is inserted under other names. -/
theorem C17_translate_fails : (stored [([120], [98])] exDocC).get [120] = .missing ∧ exDocC.get [98] = .container := by decide +kernel

/-- With names that stay as they are, all fields are stored, also those that are not named. -/
theorem C17_simple_fails : stored [([120], [120])] exDocA = exDocA ∧ exDocA.get [97] ≠ .missing := by decide +kernel

/-! ### delete -/

theorem deleteLoop_eq : ∀ (ds store : List Doc), Sorted store → UniqueIds ds → (∀ d ∈ ds, d ∈ store) →
    deleteLoop store ds = (store.filter (fun d => decide (d.id ∉ ds.map Doc.id)), ds.map Doc.id) := by
  intro ds
  induction ds with
  | nil =>
    intro store _ _ _
    simp only [deleteLoop, List.map_nil, List.not_mem_nil, not_false_eq_true, decide_true]
    rw [List.filter_eq_self.mpr (fun _ _ => rfl)]
  | cons d ds ih =>
    intro store hs hu hm
    unfold UniqueIds at hu
    rw [List.map_cons, List.nodup_cons] at hu
    simp only [deleteLoop]
    have hd : hasId store d.id = true := (hasId_iff _ _).mpr ⟨d, hm d (by simp), rfl⟩
    rw [if_pos hd, remove_eq d.id store hs, ih _ (sorted_filter _ hs) hu.2 ?_]
    · simp only [List.filter_filter, Prod.mk.injEq]
      refine ⟨?_, rfl⟩
      apply List.filter_congr
      intro x _
      simp only [List.map_cons, List.mem_cons, not_or, Bool.decide_and, Bool.and_comm]
    · intro x hx
      rw [List.mem_filter]
      refine ⟨hm x (by simp [hx]), ?_⟩
      simp only [ne_eq, decide_eq_true_eq]
      intro e
      exact hu.1 (List.mem_map.mpr ⟨x, hx, e⟩)

theorem firstN_sublist (lim : Int) (ds : List Doc) : (firstN lim ds).Sublist ds := by
  unfold firstN; split
  · exact List.Sublist.refl _
  · exact List.take_sublist _ _

/-- A delete removes exactly the documents the filter accepts, at most the limit of them, and reports their `_id`s.
Missing: limits that admit nothing (`C18_zero_fails`). -/
theorem C18_delete_partial (lim : Int) (p : Doc → Res Bool) (store : List Doc) (hs : Sorted store) (hd : Defined p store)
    (hn : store.length < 2 ^ 31) (hl : lim = -1 ∨ 0 < lim) :
    ∃ store' ids, deleteMatch lim p store = .ok (store', some ids) ∧ ids = (firstN lim (accepted p store)).map Doc.id ∧
      store' = store.filter (fun d => decide (d.id ∉ ids)) ∧ deleteReply (store', some ids) = .ok (firstN lim (accepted p store)).length := by
  have hs1 : (firstN lim (accepted p store)).Sublist store := (firstN_sublist _ _).trans List.filter_sublist
  refine ⟨_, _, ?_, rfl, rfl, by simp [deleteReply]⟩
  unfold deleteMatch
  rw [fullScan_eq lim p store hd hn, if_pos (by rw [limOk_iff]; exact hl.imp id (fun h => by simpa using h))]
  simp only [Res.bind, deleteOp]
  rw [deleteLoop_eq _ store hs ((hs1.map Doc.id).nodup (sorted_unique hs)) (fun d h => hs1.subset h)]

/-- In words of membership: a document stays iff it is not one of the removed, and the others are as they were. -/
theorem C18_exact (p : Doc → Res Bool) (store : List Doc) (hs : Sorted store) (hd : Defined p store) (hn : store.length < 2 ^ 31) :
    ∃ store' ids, deleteMatch (-1) p store = .ok (store', some ids) ∧ (∀ d, d ∈ store' ↔ d ∈ store ∧ p d = .ok false) ∧
      ∀ i, i ∈ ids ↔ ∃ d ∈ store, d.id = i ∧ p d = .ok true := by
  obtain ⟨s', ids, h1, h2, h3, _⟩ := C18_delete_partial (-1) p store hs hd hn (Or.inl rfl)
  have hi : ∀ i, i ∈ ids ↔ ∃ d ∈ store, d.id = i ∧ p d = .ok true := by
    intro i
    rw [h2]
    simp only [firstN_all, accepted, List.mem_map, List.mem_filter, decide_eq_true_eq]
    constructor
    · rintro ⟨d, ⟨h4, h5⟩, h6⟩; exact ⟨d, h4, h6, h5⟩
    · rintro ⟨d, h4, h6, h5⟩; exact ⟨d, ⟨h4, h5⟩, h6⟩
  refine ⟨s', ids, h1, ?_, hi⟩
  intro d
  rw [h3, List.mem_filter, decide_eq_true_eq, hi]
  constructor
  · rintro ⟨h4, h5⟩
    obtain ⟨b, hb⟩ := hd d h4
    cases b with
    | false => exact ⟨h4, hb⟩
    | true => exact absurd ⟨d, h4, rfl, hb⟩ h5
  · rintro ⟨h4, h5⟩
    refine ⟨h4, ?_⟩
    rintro ⟨x, hx, e, h6⟩
    have := unique_eq (sorted_unique hs) hx h4 e
    subst this
    rw [h5] at h6; cases h6

example : Sorted exStore ∧ deleteMatch 1 (pred exEnv exFilter) exStore =
    .ok ([⟨1, [([97], .scalar (.int .i64 1))]⟩, ⟨3, [([97], .scalar (.int .i64 3))]⟩], some [2]) := by
  refine ⟨by unfold Sorted exStore; simp, by decide +kernel⟩

/-- A delete with limit 0 has no list of removed documents, and the executor dereferences it. -/
theorem C18_zero_fails : ¬ C18_claim ∧ ∀ r, deleteMatch 0 (pred exEnv exFilter) exStore = .ok r → deleteReply r = .ub := by
  have e : deleteMatch 0 (pred exEnv exFilter) exStore = .ok (exStore, none) := by decide +kernel
  constructor
  · intro h
    obtain ⟨s, i, h1, _⟩ := h 0 (pred exEnv exFilter) exStore (by unfold Sorted exStore; simp) (fun d hd => by
      have h : ∀ d ∈ exStore, pred exEnv exFilter d = .ok true ∨ pred exEnv exFilter d = .ok false := by decide +kernel
      rcases h d hd with h | h <;> exact ⟨_, h⟩) (by decide +kernel)
    rw [e] at h1
    cases h1
  · intro r h
    rw [e] at h; injection h with h; subst h; rfl

/-! With another collection. -/

theorem anyMatch_eq (p : Doc → Doc → Res Bool) (l : Doc) : ∀ rs : List Doc, (∀ r ∈ rs, ∃ b, p l r = .ok b) →
    anyMatch p l rs = .ok (rs.any fun r => decide (p l r = .ok true)) := by
  intro rs
  induction rs with
  | nil => intro _; rfl
  | cons r rs ih =>
    intro h
    obtain ⟨b, hb⟩ := h r (by simp)
    simp only [anyMatch, hb, Res.bind, List.any_cons]
    cases b
    · simp only [Bool.false_eq_true, if_false]
      rw [ih (fun x hx => h x (by simp [hx]))]
      simp
    · simp

theorem deleteUsingLoop_eq (p : Doc → Doc → Res Bool) (rs : List Doc) : ∀ (ds store : List Doc),
    (∀ d ∈ ds, ∀ r ∈ rs, ∃ b, p d r = .ok b) → UniqueIds ds → (∀ d ∈ ds, d ∈ store) → Sorted store →
    deleteUsingLoop p rs store ds = .ok (deleteLoop store (ds.filter fun d => rs.any fun r => decide (p d r = .ok true))) := by
  intro ds
  induction ds with
  | nil => intro store _ _ _ _; rfl
  | cons d ds ih =>
    intro store hd hu hm hs
    unfold UniqueIds at hu
    rw [List.map_cons, List.nodup_cons] at hu
    have hi : hasId store d.id = true := (hasId_iff _ _).mpr ⟨d, hm d (by simp), rfl⟩
    simp only [deleteUsingLoop]
    rw [anyMatch_eq p d rs (hd d (by simp))]
    simp only [Res.bind, hi, Bool.and_true]
    by_cases h : (rs.any fun r => decide (p d r = .ok true)) = true
    · rw [if_pos h, List.filter_cons_of_pos (p := fun d => rs.any fun r => decide (p d r = .ok true)) h]
      simp only [deleteLoop, if_pos hi]
      rw [ih _ (fun x hx => hd x (by simp [hx])) hu.2 ?_ (by rw [remove_eq _ _ hs]; exact sorted_filter _ hs)]
      · rfl
      · intro x hx
        rw [remove_eq _ _ hs, List.mem_filter]
        refine ⟨hm x (by simp [hx]), ?_⟩
        simp only [ne_eq, decide_eq_true_eq]
        intro e
        exact hu.1 (List.mem_map.mpr ⟨x, hx, e⟩)
    · rw [if_neg h, List.filter_cons_of_neg (p := fun d => rs.any fun r => decide (p d r = .ok true)) h]
      exact ih store (fun x hx => hd x (by simp [hx])) hu.2 (fun x hx => hm x (by simp [hx])) hs

theorem accepted_true (ds : List Doc) : accepted (fun _ => .ok true) ds = ds := by simp [accepted]

/-- A delete with another collection and no limit removes exactly the documents that match one of the other collection.
Missing: limits (`C18_using_fails`). -/
theorem C18_using_partial (p : Doc → Doc → Res Bool) (store other : List Doc) (hs : Sorted store)
    (hd : ∀ l ∈ store, ∀ r ∈ other, ∃ b, p l r = .ok b) (hn : store.length < 2 ^ 31) (ho : other.length < 2 ^ 31) :
    ∃ store' ids, deleteUsing (-1) p store other = .ok (store', some ids) ∧
      ids = (store.filter fun l => other.any fun r => decide (p l r = .ok true)).map Doc.id ∧
      store' = store.filter fun d => decide (d.id ∉ ids) := by
  refine ⟨_, _, ?_, rfl, rfl⟩
  unfold deleteUsing
  have d1 : ∀ ds, Defined (fun _ : Doc => (.ok true : Res Bool)) ds := fun ds d _ => ⟨true, rfl⟩
  rw [fullScan_some _ _ (d1 _) hn, fullScan_some _ _ (d1 _) ho, accepted_true, accepted_true]
  simp only [Res.bind, deleteOp]
  rw [deleteUsingLoop_eq p other store store hd (sorted_unique hs) (fun _ h => h) hs]
  rw [deleteLoop_eq _ store hs (unique_filter _ (sorted_unique hs)) (fun d h => (List.mem_filter.mp h).1)]
  rfl

/-- Two documents have the same `a`. -/
def sameA : Filter Leaf := .leaf (.cmp .eq [97] (.key [97]))

example : deleteUsing (-1) (pred2 exEnv sameA) exStore [exDocB] = .ok ([⟨1, [([97], .scalar (.int .i64 1))]⟩, ⟨3, [([97], .scalar (.int .i64 3))]⟩], some [2]) := by
  decide +kernel

/-- With limit 1 only the first documents of the two collections are compared, and a match is not deleted. -/
theorem C18_using_fails : ¬ C18_using_claim := by
  intro h
  have hall : ∀ l ∈ exStore, ∀ r ∈ [exDocB], pred2 exEnv sameA l r = .ok true ∨ pred2 exEnv sameA l r = .ok false := by decide +kernel
  obtain ⟨s, i, h1, h2, _⟩ := h 1 (pred2 exEnv sameA) exStore [exDocB] (by unfold Sorted exStore; simp) (by simp)
    (fun l hl r hr => by rcases hall l hl r hr with h | h <;> exact ⟨_, h⟩) (by decide +kernel) (by decide +kernel)
  have e : deleteUsing 1 (pred2 exEnv sameA) exStore [exDocB] = .ok (exStore, some []) := by decide +kernel
  rw [e] at h1
  injection h1 with h1
  injection h1 with h1 h3
  injection h3 with h3
  rw [← h3] at h2
  revert h2
  decide +kernel

end Verif.Query
