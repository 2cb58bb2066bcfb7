import Verif.Share.Spec
/-! Lemmas: storages and scans against lists of values. -/
namespace Verif.Share

variable {D : Type} (idOf : D → Nat)

/-- The storage `l` holds the documents `ds`, each under its `_id`. -/
def Rep (heap : List D) (l : List (Nat × Ref)) (ds : List D) : Prop :=
  l.map (fun e => (e.1, heap[e.2]?)) = ds.map fun d => (idOf d, some d)

def Sorted (ds : List D) : Prop := ds.Pairwise fun a b => idOf a < idOf b

/-- The pointers of `es` point to the contents of `es`. -/
def Good (heap : List D) (es : List (Ref × D)) : Prop := ∀ e ∈ es, heap[e.1]? = some e.2

theorem Rep.cons_iff {heap : List D} {e : Nat × Ref} {l : List (Nat × Ref)} {d : D} {ds : List D} :
    Rep idOf heap (e :: l) (d :: ds) ↔ (e.1 = idOf d ∧ heap[e.2]? = some d) ∧ Rep idOf heap l ds := by
  unfold Rep
  simp only [List.map_cons, List.cons.injEq, Prod.mk.injEq]

theorem rep_nil_left {heap : List D} {ds : List D} : Rep idOf heap [] ds ↔ ds = [] := by
  unfold Rep; cases ds <;> simp

theorem rep_nil_right {heap : List D} {l : List (Nat × Ref)} : Rep idOf heap l [] ↔ l = [] := by
  unfold Rep; cases l <;> simp

/-- Cases of a representation. -/
theorem Rep.casesOn' {heap : List D} {e : Nat × Ref} {l : List (Nat × Ref)} {ds : List D} (h : Rep idOf heap (e :: l) ds) :
    ∃ d ds', ds = d :: ds' ∧ e.1 = idOf d ∧ heap[e.2]? = some d ∧ Rep idOf heap l ds' := by
  cases ds with
  | nil => rw [rep_nil_right] at h; cases h
  | cons d ds' =>
    rw [Rep.cons_iff] at h
    exact ⟨d, ds', rfl, h.1.1, h.1.2, h.2⟩

theorem Rep.mem {heap : List D} {l : List (Nat × Ref)} {ds : List D} (h : Rep idOf heap l ds) :
    ∀ e ∈ l, ∃ d ∈ ds, e.1 = idOf d ∧ heap[e.2]? = some d := by
  induction l generalizing ds with
  | nil => simp
  | cons e l ih =>
    obtain ⟨d, ds', rfl, h1, h2, h3⟩ := Rep.casesOn' idOf h
    intro x hx
    rcases List.mem_cons.1 hx with rfl | hx
    · exact ⟨d, List.mem_cons_self, h1, h2⟩
    · obtain ⟨y, hy, h4⟩ := ih h3 x hx
      exact ⟨y, List.mem_cons_of_mem _ hy, h4⟩

/-- Another heap that reads the same. -/
theorem Rep.congr {heap heap' : List D} {l : List (Nat × Ref)} {ds : List D} (h : Rep idOf heap l ds)
    (hh : ∀ e ∈ l, heap'[e.2]? = heap[e.2]?) : Rep idOf heap' l ds := by
  unfold Rep at *
  rw [← h]
  apply List.map_congr_left
  intro e he
  rw [hh e he]

theorem grow {heap : List D} {r : Nat} {d : D} (ds : List D) (h : heap[r]? = some d) : (heap ++ ds)[r]? = some d := by
  have hl : r < heap.length := by
    rcases Nat.lt_or_ge r heap.length with hl | hl
    · exact hl
    · rw [List.getElem?_eq_none hl] at h; cases h
  rw [List.getElem?_append_left hl, h]

theorem Rep.grow {heap : List D} {l : List (Nat × Ref)} {ds : List D} (h : Rep idOf heap l ds) (xs : List D) :
    Rep idOf (heap ++ xs) l ds := by
  refine h.congr idOf ?_
  intro e he
  obtain ⟨d, _, _, hd⟩ := h.mem idOf e he
  rw [Share.grow xs hd, hd]

theorem Good.grow {heap : List D} {es : List (Ref × D)} (h : Good heap es) (xs : List D) : Good (heap ++ xs) es :=
  fun e he => Share.grow xs (h e he)

/-! ### Scans -/

theorem fetch_good {heap : List D} {es : List (Ref × D)} (h : Good heap es) : fetch heap (es.map (·.1)) = .ok es := by
  induction es with
  | nil => rfl
  | cons e es ih =>
    have h1 := h e List.mem_cons_self
    have h2 := ih fun x hx => h x (List.mem_cons_of_mem _ hx)
    simp only [List.map_cons, fetch, h1, h2]
    rfl

theorem rep_fetch {heap : List D} {l : List (Nat × Ref)} {ds : List D} (h : Rep idOf heap l ds) :
    ∃ es : List (Ref × D), es.map (·.1) = l.map (·.2) ∧ es.map (·.2) = ds ∧ Good heap es := by
  induction l generalizing ds with
  | nil => rw [rep_nil_left] at h; exact ⟨[], rfl, h.symm ▸ rfl, nofun⟩
  | cons e l ih =>
    obtain ⟨d, ds', rfl, _, h2, h3⟩ := Rep.casesOn' idOf h
    obtain ⟨es, a, b, c⟩ := ih h3
    refine ⟨(e.2, d) :: es, by simp [a], by simp [b], ?_⟩
    intro x hx
    rcases List.mem_cons.1 hx with rfl | hx
    · exact h2
    · exact c x hx

theorem upTo_sub {α : Type} (lim : Option Nat) (l : List α) : (upTo lim l).Sublist l := by
  cases lim with
  | none => exact List.Sublist.refl _
  | some n => exact List.take_sublist n l

/-- A scan finds what the filter takes; the pointers are those of the storage. -/
theorem scan_rep {s : St D} {c : Nat} {ds : List D} (h : Rep idOf s.heap (s.colls c) ds) (p : D → Bool) (lim : Option Nat) :
    ∃ es : List (Ref × D), scan s c p lim = .ok es ∧ es.map (·.2) = found p lim ds ∧ Good s.heap es ∧
      (es.map (·.1)).Sublist ((s.colls c).map (·.2)) := by
  obtain ⟨es, h1, h2, h3⟩ := rep_fetch idOf h
  refine ⟨upTo lim (es.filter fun e => p e.2), ?_, ?_, ?_, ?_⟩
  · unfold scan
    rw [← h1, fetch_good h3]
    rfl
  · have hf : (es.filter fun e => p e.2).map (·.2) = ds.filter p := by
      rw [← h2, List.filter_map]; rfl
    cases lim with
    | none => exact hf
    | some n => simp only [upTo, found, List.map_take, hf]
  · intro e he
    exact h3 e ((List.mem_filter.1 ((upTo_sub lim _).subset he)).1)
  · rw [← h1]
    exact ((upTo_sub lim _).trans List.filter_sublist).map _

theorem found_sub (p : D → Bool) (lim : Option Nat) (ds : List D) : (found p lim ds).Sublist ds := by
  cases lim with
  | none => exact List.filter_sublist
  | some n => exact (List.take_sublist n _).trans List.filter_sublist

/-! ### Storing -/

/-- `put` as a walk. -/
def putWalk (d : D) : List D → List D
  | [] => [d]
  | e :: es => if idOf d < idOf e then d :: e :: es else if idOf d = idOf e then d :: es else e :: putWalk d es

theorem putWalk_eq (d : D) (ds : List D) (h : Sorted idOf ds) : putWalk idOf d ds = put idOf d ds := by
  induction ds with
  | nil => rfl
  | cons e es ih =>
    have hs := List.pairwise_cons.1 h
    have above : ∀ x, idOf x ≤ idOf e → es.filter (fun y => decide (idOf y < idOf x)) = [] := by
      intro x hx
      rw [List.filter_eq_nil_iff]
      intro y hy
      have := hs.1 y hy
      simp; omega
    have all : ∀ x, idOf x ≤ idOf e → es.filter (fun y => decide (idOf x < idOf y)) = es := by
      intro x hx
      rw [List.filter_eq_self]
      intro y hy
      have := hs.1 y hy
      simp; omega
    unfold putWalk put
    by_cases h1 : idOf d < idOf e
    · rw [if_pos h1]
      simp only [List.filter_cons]
      rw [if_neg (by simp; omega), if_pos (by simpa using h1), above d (by omega), all d (by omega)]
      rfl
    · rw [if_neg h1]
      by_cases h2 : idOf d = idOf e
      · rw [if_pos h2]
        simp only [List.filter_cons]
        rw [if_neg (by simp; omega), if_neg (by simp; omega), above d (by omega), all d (by omega)]
        rfl
      · rw [if_neg h2]
        simp only [List.filter_cons]
        rw [if_pos (by simp; omega), if_neg (by simp; omega), ih hs.2]
        rfl

theorem put_sorted (d : D) (ds : List D) (h : Sorted idOf ds) : Sorted idOf (put idOf d ds) := by
  unfold put Sorted
  rw [List.pairwise_append]
  refine ⟨h.sublist List.filter_sublist, ?_, ?_⟩
  · rw [List.pairwise_cons]
    refine ⟨?_, h.sublist List.filter_sublist⟩
    intro x hx
    simpa using (List.mem_filter.1 hx).2
  · intro a ha b hb
    have h1 : idOf a < idOf d := by simpa using (List.mem_filter.1 ha).2
    rcases List.mem_cons.1 hb with rfl | hb
    · exact h1
    · have h2 : idOf d < idOf b := by simpa using (List.mem_filter.1 hb).2
      omega

theorem assign_rep {heap : List D} {l : List (Nat × Ref)} {ds : List D} (h : Rep idOf heap l ds) (hs : Sorted idOf ds)
    {r : Ref} {d : D} (hr : heap[r]? = some d) : Rep idOf heap (assign (idOf d) r l) (put idOf d ds) := by
  rw [← putWalk_eq idOf d ds hs]
  clear hs
  induction l generalizing ds with
  | nil => rw [rep_nil_left] at h; subst h; simp [assign, putWalk, Rep, hr]
  | cons e l ih =>
    obtain ⟨x, ds', rfl, h1, h2, h3⟩ := Rep.casesOn' idOf h
    unfold assign putWalk
    rw [h1]
    by_cases a : idOf d < idOf x
    · rw [if_pos a, if_pos a, Rep.cons_iff]
      exact ⟨⟨rfl, hr⟩, h⟩
    · rw [if_neg a, if_neg a]
      by_cases b : idOf d = idOf x
      · rw [if_pos b, if_pos b, Rep.cons_iff]
        exact ⟨⟨rfl, hr⟩, h3⟩
      · rw [if_neg b, if_neg b, Rep.cons_iff]
        exact ⟨⟨h1, h2⟩, ih h3⟩

theorem find_rep {heap : List D} {l : List (Nat × Ref)} {ds : List D} (h : Rep idOf heap l ds) (k : Nat) :
    (find k l).map (fun r => heap[r]?) = (ds.find? fun e => idOf e == k).map some := by
  induction l generalizing ds with
  | nil => rw [rep_nil_left] at h; subst h; rfl
  | cons e l ih =>
    obtain ⟨x, ds', rfl, h1, h2, h3⟩ := Rep.casesOn' idOf h
    unfold find
    rw [h1]
    by_cases a : idOf x = k
    · rw [if_pos a, List.find?_cons_of_pos (by simpa using a)]
      simp [h2]
    · rw [if_neg a, List.find?_cons_of_neg (by simpa using a), ih h3]

theorem find_isSome {heap : List D} {l : List (Nat × Ref)} {ds : List D} (h : Rep idOf heap l ds) (k : Nat) :
    (find k l).isSome = ds.any fun e => idOf e == k := by
  have := congrArg Option.isSome (find_rep idOf h k)
  rw [Option.isSome_map, Option.isSome_map] at this
  rw [this, Bool.eq_iff_iff, List.find?_isSome, List.any_eq_true]

theorem find_some {heap : List D} {l : List (Nat × Ref)} {ds : List D} (h : Rep idOf heap l ds) {k : Nat} {d : D}
    (hd : (ds.find? fun e => idOf e == k) = some d) : ∃ r : Nat, find k l = some r ∧ heap[r]? = some d := by
  have := find_rep idOf h k
  rw [hd] at this
  cases hf : find k l with
  | none => rw [hf] at this; cases this
  | some r => rw [hf] at this; exact ⟨r, rfl, by simpa using this⟩

theorem find_mem {k : Nat} {l : List (Nat × Ref)} {r : Ref} (h : find k l = some r) : (k, r) ∈ l := by
  induction l with
  | nil => cases h
  | cons e l ih =>
    unfold find at h
    by_cases a : e.1 = k
    · rw [if_pos a] at h
      cases h
      subst a
      exact List.mem_cons_self
    · rw [if_neg a] at h
      exact List.mem_cons_of_mem _ (ih h)

theorem erase_rep {heap : List D} {l : List (Nat × Ref)} {ds : List D} (h : Rep idOf heap l ds) (hs : Sorted idOf ds)
    (k : Nat) : Rep idOf heap (erase k l) (ds.filter fun d => !(idOf d == k)) := by
  induction l generalizing ds with
  | nil => rw [rep_nil_left] at h; subst h; rfl
  | cons e l ih =>
    obtain ⟨x, ds', rfl, h1, h2, h3⟩ := Rep.casesOn' idOf h
    have hp := List.pairwise_cons.1 hs
    unfold erase
    rw [h1]
    by_cases a : idOf x = k
    · rw [if_pos a, List.filter_cons_of_neg (by simpa using a)]
      rw [List.filter_eq_self.2]
      · exact h3
      · intro y hy
        have := hp.1 y hy
        simp; omega
    · rw [if_neg a, List.filter_cons_of_pos (by simpa using a), Rep.cons_iff]
      exact ⟨⟨h1, h2⟩, ih h3 hp.2⟩

theorem allNew_rep {heap : List D} {l : List (Nat × Ref)} {ds : List D} (h : Rep idOf heap l ds) (es : List (Ref × D)) :
    allNew idOf l es = !(es.map (·.2)).any fun d => ds.any fun e => idOf e == idOf d := by
  induction es with
  | nil => rfl
  | cons e es ih =>
    unfold allNew
    rw [ih, ← Option.not_isSome, find_isSome idOf h]
    simp only [List.map_cons, List.any_cons, Bool.not_or]

theorem insertLoop_rep {heap : List D} {l : List (Nat × Ref)} {ds : List D} (h : Rep idOf heap l ds) (hs : Sorted idOf ds)
    {es : List (Ref × D)} (hg : Good heap es) :
    Rep idOf heap (insertLoop idOf l es) ((es.map (·.2)).foldl (fun l d => put idOf d l) ds) ∧
      Sorted idOf ((es.map (·.2)).foldl (fun l d => put idOf d l) ds) := by
  induction es generalizing l ds with
  | nil => exact ⟨h, hs⟩
  | cons e es ih =>
    unfold insertLoop
    simp only [List.map_cons, List.foldl_cons]
    exact ih (assign_rep idOf h hs (hg e List.mem_cons_self)) (put_sorted idOf _ _ hs)
      fun x hx => hg x (List.mem_cons_of_mem _ hx)

theorem put_any (d : D) (ds : List D) (k : Nat) :
    ((put idOf d ds).any fun e => idOf e == k) = (decide (idOf d = k) || ds.any fun e => idOf e == k) := by
  rw [Bool.eq_iff_iff]
  simp only [List.any_eq_true, put, List.mem_append, List.mem_cons, List.mem_filter, decide_eq_true_eq, beq_iff_eq,
    Bool.or_eq_true]
  constructor
  · rintro ⟨x, (⟨hx, _⟩ | rfl | ⟨hx, _⟩), rfl⟩
    · exact .inr ⟨x, hx, rfl⟩
    · exact .inl rfl
    · exact .inr ⟨x, hx, rfl⟩
  · rintro (rfl | ⟨x, hx, rfl⟩)
    · exact ⟨d, .inr (.inl rfl), rfl⟩
    · by_cases h1 : idOf x < idOf d
      · exact ⟨x, .inl ⟨hx, h1⟩, rfl⟩
      · by_cases h2 : idOf x = idOf d
        · exact ⟨d, .inr (.inl rfl), h2.symm⟩
        · exact ⟨x, .inr (.inr ⟨hx, by omega⟩), rfl⟩

theorem foldl_any (es : List D) (ds : List D) (k : Nat) (h : (ds.any fun e => idOf e == k) = true ∨ ∃ d ∈ es, idOf d = k) :
    ((es.foldl (fun l d => put idOf d l) ds).any fun e => idOf e == k) = true := by
  induction es generalizing ds with
  | nil => rcases h with h | ⟨d, hd, _⟩; exact h; cases hd
  | cons e es ih =>
    simp only [List.foldl_cons]
    apply ih
    rw [put_any]
    rcases h with h | ⟨d, hd, hk⟩
    · left; simp [h]
    · rcases List.mem_cons.1 hd with rfl | hd
      · left; simp [hk]
      · exact .inr ⟨d, hd, hk⟩

/-- What `at` gives for `_id`s that are stored. -/
theorem atAll_rep {heap : List D} {l : List (Nat × Ref)} {ds : List D} (h : Rep idOf heap l ds) (ks : List Nat)
    (hk : ∀ k ∈ ks, (ds.any fun e => idOf e == k) = true) :
    ∃ rs : List Nat, atAll l ks = .ok rs ∧
      rs.map (fun r => some (heap[r]?)) = ks.map (fun k => (ds.find? fun e => idOf e == k).map some) ∧ ∀ r ∈ rs, ∃ k, (k, r) ∈ l := by
  induction ks with
  | nil => exact ⟨[], rfl, rfl, nofun⟩
  | cons k ks ih =>
    obtain ⟨rs, h1, h2, h3⟩ := ih fun x hx => hk x (List.mem_cons_of_mem _ hx)
    have ha := hk k List.mem_cons_self
    rw [← find_isSome idOf h] at ha
    obtain ⟨r, hr⟩ := Option.isSome_iff_exists.1 ha
    refine ⟨r :: rs, ?_, ?_, ?_⟩
    · simp only [atAll, hr, h1]; rfl
    · have := find_rep idOf h k
      rw [hr] at this
      simp only [List.map_cons, h2]
      rw [← this]
      rfl
    · intro x hx
      rcases List.mem_cons.1 hx with rfl | hx
      · exact ⟨k, find_mem hr⟩
      · exact h3 x hx

/-! ### Deleting -/

theorem erase_sub (k : Nat) (l : List (Nat × Ref)) : ∀ e ∈ erase k l, e ∈ l := by
  induction l with
  | nil => exact nofun
  | cons x l ih =>
    intro e he
    unfold erase at he
    by_cases a : x.1 = k
    · rw [if_pos a] at he; exact List.mem_cons_of_mem _ he
    · rw [if_neg a] at he
      rcases List.mem_cons.1 he with rfl | he
      · exact List.mem_cons_self
      · exact List.mem_cons_of_mem _ (ih e he)

theorem deleteLoop_rep {heap : List D} {l : List (Nat × Ref)} {ds : List D} (h : Rep idOf heap l ds) (hs : Sorted idOf ds)
    (es : List (Ref × D)) (hin : ∀ e ∈ es, (ds.any fun d => idOf d == idOf e.2) = true) (hse : Sorted idOf (es.map (·.2))) :
    Rep idOf heap (deleteLoop idOf l es).1 (ds.filter fun d => !(es.map (·.2)).any fun e => idOf e == idOf d) ∧
      (deleteLoop idOf l es).2 = es.length ∧ ∀ e ∈ (deleteLoop idOf l es).1, e ∈ l := by
  induction es generalizing l ds with
  | nil =>
    refine ⟨?_, rfl, fun e he => he⟩
    have hf : (ds.filter fun d => !(([] : List (Ref × D)).map (·.2)).any fun e => idOf e == idOf d) = ds :=
      List.filter_eq_self.2 (fun _ _ => rfl)
    rw [hf]
    exact h
  | cons e es ih =>
    have hp := List.pairwise_cons.1 (show List.Pairwise _ (e.2 :: es.map (·.2)) from hse)
    have hin1 := hin e List.mem_cons_self
    unfold deleteLoop
    rw [find_isSome idOf h, if_pos hin1]
    have := ih (erase_rep idOf h hs (idOf e.2)) (hs.sublist List.filter_sublist) ?_ hp.2
    · obtain ⟨a, b, c⟩ := this
      refine ⟨?_, ?_, ?_⟩
      · simp only
        rw [List.filter_filter] at a
        refine Eq.mp (congrArg (Rep idOf heap _) ?_) a
        apply List.filter_congr
        intro x _
        simp only [List.map_cons, List.any_cons, Bool.not_or]
        rw [Bool.and_comm]
        congr 2
        rw [Bool.eq_iff_iff, beq_iff_eq, beq_iff_eq]
        exact eq_comm
      · simp only [b, List.length_cons]
      · intro x hx
        exact erase_sub _ _ x (c x hx)
    · intro x hx
      obtain ⟨d, hd, hk⟩ := List.any_eq_true.1 (hin x (List.mem_cons_of_mem _ hx))
      refine List.any_eq_true.2 ⟨d, List.mem_filter.2 ⟨hd, ?_⟩, hk⟩
      have h1 := hp.1 x.2 (List.mem_map.2 ⟨x, hx, rfl⟩)
      have h2 : idOf d = idOf x.2 := by simpa using hk
      simp; omega

end Verif.Share
