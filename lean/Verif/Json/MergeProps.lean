import Verif.Json.Props
/-!
C31: merging documents.
-/
namespace Verif.Json

open Verif.DocVal

/-- A place given by names only. -/
def names (l : List Bytes) : Loc := l.map Key.name

theorem who_first : ∀ (l : Loc) (c : Node), who c l = .first → seen c l = none := by
  intro l
  induction l with
  | nil => intro c h; cases c <;> cases h
  | cons k l ih =>
    intro c h
    cases c with
    | leaf v => cases h
    | del => cases h
    | arr xs => cases h
    | obj fs =>
      cases k with
      | index i => cases h
      | name k =>
        rw [seen_obj]
        unfold who at h
        simp only at h
        cases e : lookN fs k with
        | none => rfl
        | some d => rw [e] at h; exact ih d h

theorem who_nobody : ∀ (l : Loc) (c : Node), who c l = .nobody → seen c l = none ∨ (seen c l = some .deleted ∧ ∃ m, l = names m) := by
  intro l
  induction l with
  | nil => intro c h; cases c <;> cases h; exact .inr ⟨rfl, [], rfl⟩
  | cons k l ih =>
    intro c h
    cases c with
    | leaf v => cases h
    | del => left; cases k <;> rfl
    | arr xs => cases h
    | obj fs =>
      cases k with
      | index i => cases h
      | name k =>
        rw [seen_obj]
        unfold who at h
        simp only at h
        cases e : lookN fs k with
        | none => exact .inl rfl
        | some d =>
          rw [e] at h
          rcases ih d h with h1 | ⟨h1, m, h2⟩
          · exact .inl h1
          · exact .inr ⟨h1, k :: m, by rw [h2]; rfl⟩

/-- What the second document's object over something else, and its marks for deletion, have to meet. -/
structure Mergeable (n1 n2 : Node) : Prop where
  /-- An object of the second document is not over a value or an array of the first one. -/
  objects : ∀ l, seen n2 (names l) = some .object → seen n1 (names l) = some .object ∨ seen n1 (names l) = none
  /-- A mark for deletion is in an object the first document also has. -/
  marks : ∀ l k, seen n2 (names (l ++ [k])) = some .deleted → seen n1 (names l) = some .object

theorem Mergeable.child {fs1 fs2 : List (Bytes × Node)} (h : Mergeable (.obj fs1) (.obj fs2)) (k : Bytes) (c1 c2 : Node)
    (h1 : lookN fs1 k = some c1) (h2 : lookN fs2 k = some c2) : Mergeable c1 c2 := by
  constructor
  · intro l hl
    have := h.objects (k :: l) (by show seen _ (.name k :: names l) = _; rw [seen_obj, h2]; exact hl)
    have e : seen (.obj fs1) (names (k :: l)) = seen c1 (names l) := by
      show seen _ (.name k :: names l) = _; rw [seen_obj, h1]; rfl
    rw [e] at this; exact this
  · intro l x hl
    have := h.marks (k :: l) x (by show seen _ (.name k :: names (l ++ [x])) = _; rw [seen_obj, h2]; exact hl)
    have e : seen (.obj fs1) (names (k :: l)) = seen c1 (names l) := by
      show seen _ (.name k :: names l) = _; rw [seen_obj, h1]; rfl
    rw [e] at this; exact this

/-- What one field of the merged object shows. -/
def fieldSeen (n1 : Option Node) (c2 : Node) (l : Loc) : Option Shape :=
  match n1 with
  | none => seen c2 l
  | some c1 => mergedSeen c1 c2 l

theorem mergeFields_spec (fs1 : List (Bytes × Node)) : ∀ fs2 : List (Bytes × Node), (fs2.map Prod.fst).Nodup →
    (∀ p ∈ fs2, p.2 ≠ .del → ∀ c1, lookN fs1 p.1 = some c1 → ∃ m, merge c1 p.2 = .ok m ∧ ∀ l, seen m l = mergedSeen c1 p.2 l) →
    ∃ r, mergeFields fs1 fs2 = .ok r ∧ ∀ k, match lookN fs2 k with
      | none => lookN r k = none
      | some .del => lookN r k = none
      | some c2 => ∃ m, lookN r k = some m ∧ ∀ l, seen m l = fieldSeen (lookN fs1 k) c2 l := by
  intro fs2
  induction fs2 with
  | nil => intro _ _; exact ⟨[], by unfold mergeFields; rfl, fun k => rfl⟩
  | cons p fs2 ih =>
    intro hn hm
    obtain ⟨a, c2⟩ := p
    simp only [List.map_cons, List.nodup_cons] at hn
    obtain ⟨r, hr, hk⟩ := ih hn.2 (fun p hp => hm p (List.mem_cons_of_mem _ hp))
    have hnone : lookN fs2 a = none := lookN_none fs2 a hn.1
    have head : ∀ k, lookN ((a, c2) :: fs2) k = if a = k then some c2 else lookN fs2 k := fun k => rfl
    by_cases hd : c2 = .del
    · subst hd
      refine ⟨r, by unfold mergeFields; exact hr, ?_⟩
      intro k
      rw [head]
      by_cases e : a = k
      · subst e
        rw [if_pos rfl]
        have := hk a
        rw [hnone] at this
        exact this
      · rw [if_neg e]; exact hk k
    · obtain ⟨m, hmm, hms⟩ : ∃ m, mergeFields fs1 ((a, c2) :: fs2) = .ok ((a, m) :: r) ∧ ∀ l, seen m l = fieldSeen (lookN fs1 a) c2 l := by
        cases h1 : lookN fs1 a with
        | none =>
          refine ⟨c2, ?_, fun l => rfl⟩
          cases c2 with
          | del => exact absurd rfl hd
          | _ =>
            unfold mergeFields
            simp only [h1, hr, Res.bind]
        | some c1 =>
          obtain ⟨m, hm1, hm2⟩ := hm (a, c2) List.mem_cons_self hd c1 h1
          refine ⟨m, ?_, hm2⟩
          cases c2 with
          | del => exact absurd rfl hd
          | _ =>
            unfold mergeFields
            simp only [h1, hr, Res.bind, hm1]
      refine ⟨_, hmm, ?_⟩
      intro k
      rw [head]
      have head' : lookN ((a, m) :: r) k = if a = k then some m else lookN r k := rfl
      rw [head']
      by_cases e : a = k
      · subst e
        rw [if_pos rfl, if_pos rfl]
        cases c2 with
        | del => exact absurd rfl hd
        | _ => exact ⟨m, rfl, hms⟩
      · rw [if_neg e, if_neg e]; exact hk k

theorem lookN_append (a b : List (Bytes × Node)) (k : Bytes) : lookN (a ++ b) k = (lookN a k).orElse fun _ => lookN b k := by
  induction a with
  | nil => rfl
  | cons p a ih =>
    obtain ⟨m, x⟩ := p
    show (if m = k then some x else lookN (a ++ b) k) = (if m = k then some x else lookN a k).orElse _
    by_cases e : m = k
    · rw [if_pos e, if_pos e]; rfl
    · rw [if_neg e, if_neg e]; exact ih

theorem lookN_rest (fs1 fs2 : List (Bytes × Node)) (k : Bytes) :
    lookN (fs1.filter fun p => (lookN fs2 p.1).isNone) k = if (lookN fs2 k).isNone then lookN fs1 k else none := by
  induction fs1 with
  | nil => simp [lookN]
  | cons p fs1 ih =>
    obtain ⟨m, x⟩ := p
    have head : lookN ((m, x) :: fs1) k = if m = k then some x else lookN fs1 k := rfl
    by_cases hp : (lookN fs2 m).isNone = true
    · rw [List.filter_cons_of_pos (p := fun p : Bytes × Node => (lookN fs2 p.1).isNone) hp]
      show (if m = k then some x else lookN _ k) = _
      rw [ih, head]
      by_cases e : m = k
      · subst e; rw [if_pos rfl, if_pos hp, if_pos rfl]
      · rw [if_neg e, if_neg e]
    · rw [List.filter_cons_of_neg (p := fun p : Bytes × Node => (lookN fs2 p.1).isNone) hp, ih, head]
      by_cases e : m = k
      · subst e; rw [if_neg hp, if_neg hp]
      · rw [if_neg e]

theorem merge_spec (n2 : Node) (h2 : Tree n2) : ∀ n1, n2 ≠ .del → Mergeable n1 n2 →
    ∃ m, merge n1 n2 = .ok m ∧ ∀ l, seen m l = mergedSeen n1 n2 l := by
  induction h2 with
  | leaf v => intro n1 _ _; refine ⟨.leaf v, by unfold merge; rfl, fun l => by cases l <;> rfl⟩
  | del => intro n1 h _; exact absurd rfl h
  | arr xs hx ih => intro n1 _ _; refine ⟨.arr xs, by unfold merge; rfl, fun l => by cases l <;> rfl⟩
  | obj fs2 hn hx ih =>
    intro n1 _ hm
    have hobj : ∃ fs1, n1 = .obj fs1 := by
      rcases hm.objects [] rfl with h | h
      · cases n1 with
        | obj fs1 => exact ⟨fs1, rfl⟩
        | leaf v => cases h
        | arr v => cases h
        | del => cases h
      · cases h
    obtain ⟨fs1, rfl⟩ := hobj
    have lookOf : ∀ (fs : List (Bytes × Node)), (fs.map Prod.fst).Nodup → ∀ p ∈ fs, lookN fs p.1 = some p.2 := by
      intro fs
      induction fs with
      | nil => intro _ p hp; cases hp
      | cons q fs ihf =>
        intro hnd p hp
        obtain ⟨a, x⟩ := q
        simp only [List.map_cons, List.nodup_cons] at hnd
        show (if a = p.1 then some x else lookN fs p.1) = _
        rcases List.mem_cons.mp hp with rfl | hp
        · exact if_pos rfl
        · rw [if_neg]
          · exact ihf hnd.2 p hp
          · rintro e
            exact hnd.1 (e ▸ List.mem_map_of_mem hp)
    obtain ⟨r, hr, hk⟩ := mergeFields_spec fs1 fs2 hn (fun p hp hd c1 hc1 =>
      ih p hp c1 hd (hm.child p.1 c1 p.2 hc1 (lookOf fs2 hn p hp)))
    refine ⟨.obj (r ++ fs1.filter fun p => (lookN fs2 p.1).isNone), by
      unfold merge; simp only [hr, Res.bind], ?_⟩
    intro l
    cases l with
    | nil => rfl
    | cons k l =>
      cases k with
      | index i => rfl
      | name k =>
        rw [seen_obj, lookN_append, lookN_rest]
        unfold mergedSeen who
        simp only
        rw [seen_obj, seen_obj]
        have hkk := hk k
        cases e2 : lookN fs2 k with
        | none =>
          rw [e2] at hkk
          simp only at hkk
          rw [hkk]
          rfl
        | some c2 =>
          rw [e2] at hkk
          simp only
          by_cases hd : c2 = .del
          · subst hd
            simp only at hkk
            rw [hkk]
            cases l <;> rfl
          · have hkk' : ∃ m, lookN r k = some m ∧ ∀ l, seen m l = fieldSeen (lookN fs1 k) c2 l := by
              cases c2 with
              | del => exact absurd rfl hd
              | _ => exact hkk
            obtain ⟨m, hm1, hm2⟩ := hkk'
            rw [hm1]
            show seen m l = _
            rw [hm2 l]
            cases e1 : lookN fs1 k with
            | some c1 => rfl
            | none =>
              simp only [fieldSeen]
              show seen c2 l = match who c2 l with
                | .second => seen c2 l
                | .first => none
                | .nobody => none
              cases hw : who c2 l with
              | second => rfl
              | first => exact who_first l c2 hw
              | nobody =>
                simp only
                rcases who_nobody l c2 hw with h | ⟨h, m', rfl⟩
                · exact h
                · exfalso
                  rcases List.eq_nil_or_concat m' with rfl | ⟨m0, x, rfl⟩
                  · apply hd
                    cases c2 with
                    | del => rfl
                    | leaf v => cases h
                    | arr v => cases h
                    | obj v => cases h
                  · have := hm.marks (k :: m0) x (by
                      show seen _ (.name k :: names (m0 ++ [x])) = _
                      rw [seen_obj, e2]
                      rw [List.concat_eq_append] at h
                      exact h)
                    have e : seen (.obj fs1) (names (k :: m0)) = none := by
                      show seen _ (.name k :: names m0) = _; rw [seen_obj, e1]; rfl
                    rw [e] at this
                    cases this

/-- C31 in full: of two documents the merge exists and shows what the second one has, without what it marks for deletion,
and elsewhere what the first one has. -/
def C31_claim : Prop := ∀ fs1 fs2 : List (Bytes × Node), Tree (.obj fs1) → Tree (.obj fs2) →
  ∃ m, merge (.obj fs1) (.obj fs2) = .ok m ∧ ∀ l, seen m l = mergedSeen (.obj fs1) (.obj fs2) l

/-- C31 for a second document whose objects are over objects or nothing and whose marks are in objects of the first. -/
theorem C31_merge_partial (fs1 fs2 : List (Bytes × Node)) (h2 : Tree (.obj fs2)) (h : Mergeable (.obj fs1) (.obj fs2)) :
    ∃ m, merge (.obj fs1) (.obj fs2) = .ok m ∧ ∀ l, seen m l = mergedSeen (.obj fs1) (.obj fs2) l :=
  merge_spec _ h2 _ (by rintro ⟨⟩) h

/-- Merging with the empty document shows the first one. -/
theorem C31_empty (fs1 : List (Bytes × Node)) : merge (.obj fs1) (.obj []) = .ok (.obj fs1) := by
  unfold merge
  simp only
  unfold mergeFields
  simp [Res.bind, lookN]

def exOne : Node := .obj [([97], .leaf (.bool true)), ([98], .obj [([99], .leaf .na), ([100], .leaf .na)])]
def exTwo : Node := .obj [([98], .obj [([99], .del), ([101], .arr [])]), ([97], .leaf (.bool false))]

/-- The hypotheses are met: a replaced value, a nested object with a mark and a new field. -/
example : merge exOne exTwo = .ok (.obj [([98], .obj [([101], .arr []), ([100], .leaf .na)]), ([97], .leaf (.bool false))]) ∧
    Tree exTwo ∧ Mergeable exOne exTwo := by
  refine ⟨by unfold exOne exTwo; simp [merge, mergeFields, lookN, Res.bind], ?_, ?_⟩
  · refine .obj _ (by decide) ?_
    intro p hp
    simp only [List.mem_cons, List.not_mem_nil, or_false] at hp
    rcases hp with rfl | rfl
    · refine .obj _ (by decide) ?_
      intro p hp
      simp only [List.mem_cons, List.not_mem_nil, or_false] at hp
      rcases hp with rfl | rfl
      · exact .del
      · exact .arr _ (fun x hx => by cases hx)
    · exact .leaf _
  · have key : ∀ (l : List Bytes) (s : Shape), seen exTwo (names l) = some s →
        l = [] ∨ l = [[98]] ∨ (l = [[98], [99]] ∧ s = .deleted) ∨ (l = [[98], [101]] ∧ s = .array) ∨ (l = [[97]] ∧ s ≠ .object ∧ s ≠ .deleted) := by
      intro l s h
      cases l with
      | nil => exact .inl rfl
      | cons a l =>
        have h' : seen exTwo (.name a :: names l) = some s := h
        unfold exTwo at h'
        rw [seen_obj] at h'
        simp only [lookN] at h'
        by_cases ea : [98] = a
        · subst ea
          rw [if_pos rfl] at h'
          cases l with
          | nil => exact .inr (.inl rfl)
          | cons b l =>
            have h2 : seen (.obj [([99], .del), ([101], .arr [])]) (.name b :: names l) = some s := h'
            rw [seen_obj] at h2
            simp only [lookN] at h2
            by_cases eb : [99] = b
            · subst eb
              rw [if_pos rfl] at h2
              cases l with
              | nil => cases h2; exact .inr (.inr (.inl ⟨rfl, rfl⟩))
              | cons c l => cases h2
            · rw [if_neg eb] at h2
              by_cases ec : [101] = b
              · subst ec
                rw [if_pos rfl] at h2
                cases l with
                | nil => cases h2; exact .inr (.inr (.inr (.inl ⟨rfl, rfl⟩)))
                | cons c l => cases h2
              · rw [if_neg ec] at h2; cases h2
        · rw [if_neg ea] at h'
          by_cases eb : [97] = a
          · subst eb
            rw [if_pos rfl] at h'
            cases l with
            | nil => cases h'; exact .inr (.inr (.inr (.inr ⟨rfl, by rintro ⟨⟩, by rintro ⟨⟩⟩)))
            | cons c l => cases h'
          · rw [if_neg eb] at h'; cases h'
    constructor
    · intro l h
      rcases key l _ h with rfl | rfl | ⟨_, e⟩ | ⟨_, e⟩ | ⟨_, e, _⟩
      · exact .inl rfl
      · exact .inl rfl
      · cases e
      · cases e
      · exact absurd rfl e
    · intro l k h
      rcases key (l ++ [k]) _ h with e | e | ⟨e, _⟩ | ⟨_, e⟩ | ⟨_, _, e⟩
      · simp at e
      · have := List.append_eq_cons_iff.mp e
        rcases this with ⟨rfl, _⟩ | ⟨_, rfl, e2⟩
        · rfl
        · simp at e2
      · obtain ⟨rfl, _⟩ := List.append_inj' (show l ++ [k] = [[98]] ++ [[99]] from e) rfl
        rfl
      · cases e
      · exact absurd rfl e

/-- An object of the second document over a value of the first one reads the value as an object. -/
theorem C31_object_fails : ¬ C31_claim := by
  intro h
  obtain ⟨m, hm, _⟩ := h [([97], .leaf .na)] [([97], .obj [])]
    (.obj _ (by decide) (fun p hp => by simp only [List.mem_cons, List.not_mem_nil, or_false] at hp; subst hp; exact .leaf _))
    (.obj _ (by decide) (fun p hp => by simp only [List.mem_cons, List.not_mem_nil, or_false] at hp; subst hp; exact .obj _ (by decide) (fun p hp => by cases hp)))
  simp [merge, mergeFields, lookN, Res.bind] at hm

/-- A mark for deletion inside an object the first document does not have stays in the merged document. -/
theorem C31_marks_fails : ¬ C31_claim := by
  intro h
  obtain ⟨m, hm, hs⟩ := h [] [([97], .obj [([98], .del)])] (.obj _ (by decide) (fun p hp => by cases hp))
    (.obj _ (by decide) (fun p hp => by
      simp only [List.mem_cons, List.not_mem_nil, or_false] at hp; subst hp
      exact .obj _ (by decide) (fun p hp => by simp only [List.mem_cons, List.not_mem_nil, or_false] at hp; subst hp; exact .del)))
  have e : merge (.obj []) (.obj [([97], .obj [([98], .del)])]) = .ok (.obj [([97], .obj [([98], .del)])]) := by
    simp [merge, mergeFields, lookN, Res.bind]
  rw [e] at hm
  cases hm
  have := hs [.name [97], .name [98]]
  cases this

end Verif.Json
