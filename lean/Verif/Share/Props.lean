import Verif.Share.Valid
/-!
C84: an answer stays as it was given.  C85: collections, answers and documents of clients are separate: a statement on one
collection, or a client changing a document of its own, changes no other collection.
-/
namespace Verif.Share

variable {D : Type} (idOf : D → Nat)

theorem careful_run {used : List Nat} {s : St D} {w w' : World D} {own : Ref → Option Nat} (h : Owned idOf used s w own)
    (os more : List (Op D)) (hc : Careful idOf used (os ++ more)) (hw : World.run idOf w os = some w') :
    ∃ s' used' own', run idOf s os = .ok s' ∧ Owned idOf used' s' w' own' ∧ Careful idOf used' more := by
  induction os generalizing s w used own with
  | nil => cases hw; exact ⟨s, used, own, rfl, h, hc⟩
  | cons o os ih =>
    cases ho : w.step idOf o with
    | none => simp only [World.run, ho] at hw; cases hw
    | some w1 =>
      obtain ⟨s1, used1, own1, h1, h2, h3, _⟩ := careful_step idOf h o (os ++ more) hc ho
      simp only [World.run, ho, Option.bind_some] at hw
      obtain ⟨s', used', own', h4, h5, h6⟩ := ih h2 h3 hw
      exact ⟨s', used', own', by simp only [run, h1, Res.bind]; exact h4, h5, h6⟩

/-- If a careful client did not run into undefined behaviour, it had the documents it named. -/
theorem careful_defined {used : List Nat} {s s' : St D} {w : World D} {own : Ref → Option Nat} (h : Owned idOf used s w own)
    (o : Op D) (os : List (Op D)) (hc : Careful idOf used (o :: os)) (hs : step idOf s o = .ok s') :
    ∃ w', w.step idOf o = some w' := by
  have get : ∀ k, k ∉ used → ∀ r : Nat, s.made[k]? = some r → ∃ d, w.made[k]? = some d := by
    intro k hk r hr
    have hu := h.unused k hk
    rw [hr] at hu
    cases hd : w.made[k]? with
    | none => rw [hd] at hu; cases hu
    | some d => exact ⟨d, rfl⟩
  cases o with
  | write x f =>
    obtain ⟨⟨k, rfl, hk⟩, _⟩ := hc
    obtain ⟨r, h1, _⟩ := bindOk hs
    cases hm : s.made[k]? with
    | none => simp only [resolve, hm] at h1; cases h1
    | some q =>
      obtain ⟨d, hd⟩ := get k hk q hm
      simp only [World.step, World.held, hd, Option.map_some]
      exact ⟨_, rfl⟩
  | insert c hs' =>
    obtain ⟨ks, rfl, hnd, hku, hos⟩ := hc
    obtain ⟨rs, h1, h2⟩ := bindOk hs
    have : ∃ ds, (ks.map Held.made).mapM w.held = some ds := by
      clear hs hnd hos h2
      induction ks generalizing rs with
      | nil => exact ⟨[], rfl⟩
      | cons k ks ih =>
        rw [List.map_cons] at h1
        obtain ⟨r, h2, h3⟩ := bindOk h1
        obtain ⟨rs', h4, _⟩ := mapOk h3
        obtain ⟨ds, hds⟩ := ih (fun x hx => hku x (List.mem_cons_of_mem _ hx)) rs' h4
        cases hm : s.made[k]? with
        | none => simp only [resolve, hm] at h2; cases h2
        | some q =>
          obtain ⟨d, hd⟩ := get k (hku k List.mem_cons_self) q hm
          refine ⟨d :: ds, ?_⟩
          rw [List.map_cons, List.mapM_cons, hds]
          simp only [World.held, hd]
          rfl
    obtain ⟨ds, hds⟩ := this
    exact ⟨w.insert idOf c ds, by simp only [World.step, hds]; rfl⟩
  | insertAll _ _ _ => exact hc.elim
  | make _ => exact ⟨_, rfl⟩
  | insertCols _ _ _ _ => exact ⟨_, rfl⟩
  | select _ _ _ => exact ⟨_, rfl⟩
  | selectCols _ _ _ => exact ⟨_, rfl⟩
  | update _ _ _ _ _ => exact ⟨_, rfl⟩
  | delete _ _ _ => exact ⟨_, rfl⟩

theorem careful_run_defined {used : List Nat} {s s' : St D} {w : World D} {own : Ref → Option Nat} (h : Owned idOf used s w own)
    (os more : List (Op D)) (hc : Careful idOf used (os ++ more)) (hs : run idOf s os = .ok s') :
    ∃ w' used' own', Owned idOf used' s' w' own' ∧ Careful idOf used' more := by
  induction os generalizing s w used own with
  | nil => cases hs; exact ⟨w, used, own, h, hc⟩
  | cons o os ih =>
    obtain ⟨s1, h1, h2⟩ := bindOk hs
    obtain ⟨w1, hw1⟩ := careful_defined idOf h o (os ++ more) hc h1
    obtain ⟨s1', used1, own1, h3, h4, h5, _⟩ := careful_step idOf h o (os ++ more) hc hw1
    rw [h1] at h3
    cases h3
    exact ih h4 h5 h2

/-- An answer about a collection, while other collections are updated. -/
theorem other_run {used : List Nat} {s s' : St D} {w : World D} {own : Ref → Option Nat} (h : Owned idOf used s w own)
    (os : List (Op D)) (hc : Careful idOf used os) (hs : run idOf s os = .ok s') (c : Nat) (hu : ∀ o ∈ os, o.updates ≠ some c)
    (a : Nat) (l : List (Option Ref)) (ha : s.answers[a]? = some l)
    (hl : ∀ r : Nat, some r ∈ l → own r = some c ∨ own r = none) :
    s'.answers[a]? = some l ∧ ∀ r : Nat, some r ∈ l → s'.heap[r]? = s.heap[r]? := by
  induction os generalizing s w used own with
  | nil => cases hs; exact ⟨ha, fun _ _ => rfl⟩
  | cons o os ih =>
    obtain ⟨s1, h1, h2⟩ := bindOk hs
    obtain ⟨w1, hw1⟩ := careful_defined idOf h o os hc h1
    obtain ⟨s1', used1, own1, h3, h4, h5, h6⟩ := careful_step idOf h o os hc hw1
    rw [h1] at h3
    cases h3
    have hmem : l ∈ s.answers := List.mem_of_getElem? ha
    obtain ⟨ys, hys⟩ := h6.answers
    have ha1 : s1.answers[a]? = some l := by
      rw [hys, List.getElem?_append_left, ha]
      rcases Nat.lt_or_ge a s.answers.length with hlt | hge
      · exact hlt
      · rw [List.getElem?_eq_none hge] at ha; cases ha
    obtain ⟨h7, h8⟩ := ih h4 h5 h2 (fun x hx => hu x (List.mem_cons_of_mem _ hx)) ha1 (by
      intro r hr
      rw [h6.owns l hmem r hr]
      exact hl r hr)
    refine ⟨h7, fun r hr => ?_⟩
    rw [h8 r hr]
    rcases h6.heap l hmem r hr with h9 | ⟨c', hc', ho⟩
    · exact h9
    · exfalso
      rcases hl r hr with h10 | h10
      · rw [h10] at ho
        cases ho
        exact hu o List.mem_cons_self hc'
      · rw [h10] at ho; cases ho

/-! ### C84 -/

/-- A client that changes a document of an answer. -/
def Op.editsAnswer : Op D → Prop
  | .write (.answer _ _) _ => True
  | _ => False

/-- The full statement of C84: whatever happened before an answer was given and whatever is done after, as long as the
client does not change documents of answers itself, the answer reads as when it was given. -/
def C84_answers_stay_claim : Prop :=
  ∀ (D : Type) (idOf : D → Nat) (ops more : List (Op D)) (s s' : St D), run idOf init ops = .ok s → run idOf s more = .ok s' →
    (∀ o ∈ more, ¬ o.editsAnswer) → ∀ a < s.answers.length, readAnswer s' a = readAnswer s a

/-- Any history, then any calls other than UPDATE and clients changing documents: every answer given before reads as
before.  In particular INSERT, INSERT … SELECT and DELETE of the documents in it leave an answer alone.  Missing: UPDATE
(`C84_update_fails`), clients changing a document they inserted (`C84_client_fails`). -/
theorem C84_answers_silent_partial (ops more : List (Op D)) (s s' : St D) (hs : run idOf init ops = .ok s)
    (hm : run idOf s more = .ok s') (hq : ∀ o ∈ more, o.silent) (a : Nat) (ha : a < s.answers.length) :
    readAnswer s' a = readAnswer s a := by
  have hv := (run_valid idOf valid_init ops hs).1
  exact readAnswer_grows hv ((run_valid idOf hv more hm).2 hq) ha

/-- Clients that give each document away once: the answer of a statement about a collection reads as when it was given, as
long as no UPDATE is on the same collection; UPDATEs of other collections, and clients changing documents they have not
given away, do not matter.  Missing: UPDATE of the same collection, INSERT … SELECT *, documents inserted twice or changed
after they were inserted. -/
theorem C84_answers_other_partial (pre more : List (Op D)) (o : Op D) (c : Nat) (ho : o.about = some c) (s s' : St D)
    (hc : Careful idOf [] (pre ++ o :: more)) (hu : ∀ u ∈ more, u.updates ≠ some c)
    (hs : run idOf init (pre ++ [o]) = .ok s) (hm : run idOf s more = .ok s') :
    readAnswer s' (s.answers.length - 1) = readAnswer s (s.answers.length - 1) := by
  have split : ∃ s1, run idOf init pre = .ok s1 ∧ step idOf s1 o = .ok s := by
    clear hc hm
    generalize (init : St D) = s0 at hs
    induction pre generalizing s0 with
    | nil =>
      obtain ⟨s1, h1, h2⟩ := bindOk hs
      cases h2
      exact ⟨s0, rfl, h1⟩
    | cons x pre ih =>
      obtain ⟨s1, h1, h2⟩ := bindOk hs
      obtain ⟨s2, h3, h4⟩ := ih s1 h2
      exact ⟨s2, by simp only [run, h1, Res.bind]; exact h3, h4⟩
  obtain ⟨s1, h1, h2⟩ := split
  obtain ⟨w1, used1, own1, h3, h4⟩ := careful_run_defined idOf (owned_init idOf) pre (o :: more) hc h1
  obtain ⟨w2, hw2⟩ := careful_defined idOf h3 o more h4 h2
  obtain ⟨s2, used2, own2, h5, h6, h7, h8⟩ := careful_step idOf h3 o more h4 hw2
  rw [h2] at h5
  cases h5
  obtain ⟨rs, ans, h9, _, h10, h11⟩ := h8.said c ho
  have hlast : s.answers[s.answers.length - 1]? = some rs := by
    rw [h9, List.length_append, List.getElem?_append_right (by simp)]
    simp
  obtain ⟨h12, h13⟩ := other_run idOf h6 more h7 hm c hu _ rs hlast h11
  unfold readAnswer
  rw [h12, hlast]
  simp only [Option.map_some, Option.some.injEq]
  apply List.map_congr_left
  intro x hx
  cases x with
  | none => rfl
  | some r => simp only [Option.bind_some, h13 r hx]

/-! Examples: a document is its `_id` and a number. -/

abbrev Pair := Nat × Nat

/-- Any document. -/
def every : Pair → Bool := fun _ => true

/-- `SET x = 9`. -/
def setNine : Pair → Pair × Bool := fun d => ((d.1, 9), true)

/-- The theorems on answers apply: two documents are inserted, one is selected, the collection is copied with columns,
updated in the copy and emptied; the answer still has the document. -/
def story : List (Op Pair) :=
  [.make (1, 5), .make (2, 6), .insert 0 [.made 0, .made 1], .select 0 (fun d => d.2 == 6) none]

def storyMore : List (Op Pair) :=
  [.insertCols 1 0 every id, .update 1 every none setNine none, .make (3, 7), .write (.made 2) (fun d => (d.1, 8)),
   .insert 1 [.made 2], .delete 0 every none]

example : ∃ s s' : St Pair, run Prod.fst init story = .ok s ∧ run Prod.fst s storyMore = .ok s' ∧
    readAnswer s 1 = some [some (2, 6)] ∧ readAnswer s' 1 = some [some (2, 6)] ∧ readColl s' 0 = [] ∧
    readColl s' 1 = [some (1, 9), some (2, 9), some (3, 8)] := by
  refine ⟨_, _, rfl, rfl, ?_, ?_, ?_, ?_⟩ <;> decide +kernel

example : Careful (D := Pair) Prod.fst [] (story ++ storyMore) := by
  refine ⟨[0, 1], rfl, by decide, by decide, ?_⟩
  refine ⟨fun d => rfl, ⟨⟨2, rfl, by decide⟩, ⟨[2], rfl, by decide, by decide, ?_⟩⟩⟩
  exact ⟨nofun, trivial⟩

example : ∀ u ∈ storyMore, u.updates ≠ some 0 := by
  intro u hu
  simp only [storyMore, List.mem_cons, List.not_mem_nil, or_false] at hu
  rcases hu with rfl | rfl | rfl | rfl | rfl | rfl <;> simp [Op.updates]

/-- A silent continuation. -/
example : ∃ s s' : St Pair, run Prod.fst init story = .ok s ∧
    run Prod.fst s [.insertAll 1 0 every, .delete 0 every none] = .ok s' ∧
    (∀ o ∈ ([.insertAll 1 0 every, .delete 0 every none] : List (Op Pair)), o.silent) ∧ 1 < s.answers.length := by
  refine ⟨_, _, rfl, rfl, ?_, by decide +kernel⟩
  intro o ho
  simp only [List.mem_cons, List.not_mem_nil, or_false] at ho
  rcases ho with rfl | rfl <;> trivial

/-- UPDATE changes the documents of an answer given before it. -/
theorem C84_update_fails : ¬ C84_answers_stay_claim := by
  intro h
  have := h Pair Prod.fst story [.update 0 every none setNine none] _ _ rfl rfl (by
    intro o ho
    rw [List.mem_singleton.1 ho]
    exact fun q => q) 1 (by decide +kernel)
  revert this
  decide +kernel

/-- So does a client that changes a document it inserted. -/
theorem C84_client_fails : ∃ (s s' : St Pair), run Prod.fst init story = .ok s ∧
    run Prod.fst s [.write (.made 1) (fun d => (d.1, 9))] = .ok s' ∧
    readAnswer s 1 = some [some (2, 6)] ∧ readAnswer s' 1 = some [some (2, 9)] := by
  refine ⟨_, _, rfl, rfl, ?_, ?_⟩ <;> decide +kernel

/-! ### C85 -/

/-- The full statement of C85: after any history in which clients name documents they have, the collections are what they
would be if INSERT and SELECT copied. -/
def C85_separate_claim : Prop :=
  ∀ (D : Type) (idOf : D → Nat) (ops : List (Op D)) (w : World D), (∀ o ∈ ops, o.plain idOf) →
    World.run idOf World.init ops = some w → ∃ s, run idOf init ops = .ok s ∧ SameColls s w

/-- Histories without UPDATE and without clients changing documents: everything any client can read, in collections,
answers and its own documents, is as if INSERT and SELECT copied, also after INSERT … SELECT *.  Missing: UPDATE
(`C85_select_star_fails`, `C85_two_collections_fails`), clients changing documents (`C85_client_fails`). -/
theorem C85_quiet_partial (ops : List (Op D)) (w : World D) (hq : ∀ o ∈ ops, o.quiet)
    (hw : World.run idOf World.init ops = some w) : ∃ s, run idOf init ops = .ok s ∧ Same s w := by
  obtain ⟨s, h1, h2⟩ := quiet_run idOf (inv_init idOf) ops hq hw
  exact ⟨s, h1, h2.same idOf⟩

/-- Clients that give each document away once: with UPDATE, upsert and clients changing documents they have not given away,
the collections are as if INSERT and SELECT copied, and every statement is answered accordingly.  Missing: INSERT … SELECT *
(`C85_select_star_fails`), documents inserted twice (`C85_two_collections_fails`) or changed after they were inserted
(`C85_client_fails`). -/
theorem C85_careful_partial (ops : List (Op D)) (o : Op D) (w : World D) (hc : Careful idOf [] (ops ++ [o]))
    (hw : World.run idOf World.init (ops ++ [o]) = some w) :
    ∃ s, run idOf init (ops ++ [o]) = .ok s ∧ SameColls s w ∧
      (o.about ≠ none → ∃ ans, w.answers.getLast? = some ans ∧ readAnswer s (s.answers.length - 1) = some ans) := by
  have split : ∃ w1, World.run idOf World.init ops = some w1 ∧ w1.step idOf o = some w := by
    clear hc
    generalize (World.init : World D) = w0 at hw
    induction ops generalizing w0 with
    | nil =>
      cases h : w0.step idOf o with
      | none => simp only [List.nil_append, World.run, h] at hw; cases hw
      | some w1 =>
        simp only [List.nil_append, World.run, h, Option.bind_some, Option.some.injEq] at hw
        exact ⟨w0, rfl, by rw [h, hw]⟩
    | cons x ops ih =>
      cases h : w0.step idOf x with
      | none => simp only [List.cons_append, World.run, h] at hw; cases hw
      | some w1 =>
        simp only [List.cons_append, World.run, h, Option.bind_some] at hw ⊢
        exact ih w1 hw
  obtain ⟨w1, h1, h2⟩ := split
  obtain ⟨s1, used1, own1, h3, h4, h5⟩ := careful_run idOf (owned_init idOf) ops [o] hc h1
  obtain ⟨s2, used2, own2, h6, h7, _, h8⟩ := careful_step idOf h4 o [] h5 h2
  refine ⟨s2, ?_, h7.colls.same idOf, ?_⟩
  · clear hc hw h1
    generalize (init : St D) = s0 at h3 ⊢
    induction ops generalizing s0 with
    | nil => cases h3; simp only [List.nil_append, run, h6, Res.bind]
    | cons x ops ih =>
      obtain ⟨sx, h9, h10⟩ := bindOk h3
      simp only [List.cons_append, run, h9, Res.bind]
      exact ih sx h10
  · intro ho
    cases hc' : o.about with
    | none => exact absurd hc' ho
    | some c =>
      obtain ⟨rs, ans, h9, h10, h11, _⟩ := h8.said c hc'
      refine ⟨ans, by rw [h10]; simp, ?_⟩
      unfold readAnswer
      rw [h9, List.length_append, List.getElem?_append_right (by simp)]
      simp only [List.length_cons, List.length_nil, Nat.zero_add, Nat.add_sub_cancel, Nat.sub_self, List.getElem?_cons_zero,
        Option.map_some, Option.some.injEq]
      exact ans_read h11

/-- `C85_careful_partial` applies to the story, which ends with the collections read above. -/
example : ∃ w, World.run (D := Pair) Prod.fst World.init (story ++ storyMore) = some w ∧
    w.colls 1 = [(1, 9), (2, 9), (3, 8)] ∧ w.colls 0 = [] := by
  refine ⟨_, rfl, ?_, ?_⟩ <;> decide +kernel

/-- `C85_quiet_partial` applies: a document of an answer is inserted elsewhere, and the rest by SELECT *. -/
def quietStory : List (Op Pair) :=
  story ++ [.insert 1 [.answer 1 0], .insertAll 2 0 every, .delete 0 (fun d => d.1 == 1) (some 1), .select 2 every (some 1)]

example : (∀ o ∈ quietStory, o.quiet) ∧ ∃ w, World.run (D := Pair) Prod.fst World.init quietStory = some w ∧
    w.colls 0 = [(2, 6)] ∧ w.colls 1 = [(2, 6)] ∧ w.colls 2 = [(1, 5), (2, 6)] ∧ w.answers.getLast? = some [some (1, 5)] := by
  refine ⟨?_, _, rfl, ?_, ?_, ?_, ?_⟩
  · intro o ho
    simp only [quietStory, story, List.mem_append, List.mem_cons, List.not_mem_nil, or_false] at ho
    rcases ho with (rfl | rfl | rfl | rfl) | rfl | rfl | rfl | rfl <;> first | trivial | exact nofun
  all_goals decide +kernel

/-- After INSERT … SELECT *, an UPDATE of one collection changes the other. -/
theorem C85_select_star_fails : ¬ C85_separate_claim := by
  intro h
  obtain ⟨s, h1, h2⟩ := h Pair Prod.fst (story ++ [.insertAll 1 0 every, .update 0 every none setNine none]) _ (by
    intro o ho
    simp only [story, List.mem_append, List.mem_cons, List.not_mem_nil, or_false] at ho
    rcases ho with (rfl | rfl | rfl | rfl) | rfl | rfl <;> first | trivial | exact fun d => rfl) rfl
  cases h1
  have := h2 1
  revert this
  decide +kernel

/-- A document inserted into two collections is one document: an UPDATE of the first changes the second. -/
theorem C85_two_collections_fails : ∃ (s : St Pair) (w : World Pair),
    let ops : List (Op Pair) := [.make (1, 5), .insert 0 [.made 0], .insert 1 [.made 0], .update 0 every none setNine none]
    run Prod.fst init ops = .ok s ∧ World.run Prod.fst World.init ops = some w ∧
      readColl s 1 = [some (1, 9)] ∧ w.colls 1 = [(1, 5)] := by
  refine ⟨_, _, rfl, rfl, ?_, ?_⟩ <;> decide +kernel

/-- A client that changes a document it inserted changes the collection, past the statements: even its `_id`, so that
DELETE no longer finds it. -/
theorem C85_client_fails : ∃ s : St Pair,
    run Prod.fst init [.make (1, 5), .insert 0 [.made 0], .write (.made 0) (fun _ => (7, 9)), .delete 0 every none] = .ok s ∧
      readColl s 0 = [some (7, 9)] := by
  refine ⟨_, rfl, ?_⟩
  decide +kernel

end Verif.Share
