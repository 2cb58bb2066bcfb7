import Verif.Share.Lemmas
/-! Lemmas: what each statement does, against the world of values. -/
namespace Verif.Share

variable {D : Type} (idOf : D → Nat)

/-- An answer against its value, with no pointer to nothing. -/
def AnsRep (heap : List D) (rs : List (Option Ref)) (ans : List (Option D)) : Prop :=
  rs.map (Option.map fun r => heap[r]?) = ans.map (Option.map some)

def Colls (s : St D) (w : World D) : Prop := ∀ c, Rep idOf s.heap (s.colls c) (w.colls c) ∧ Sorted idOf (w.colls c)

/-- What a statement that changes no document does; `c0` is its collection, `new` the
pointers it stores. -/
structure Effect (c0 : Nat) (s s' : St D) (w w' : World D) (new : List (Ref × D)) : Prop where
  heap : ∃ xs, s'.heap = s.heap ++ xs
  made : s'.made = s.made ∧ w'.made = w.made
  said : ∃ rs ans, s'.answers = s.answers ++ [rs] ∧ w'.answers = w.answers ++ [ans] ∧ AnsRep s'.heap rs ans ∧
    ∀ r : Nat, some r ∈ rs → (∃ k : Nat, (k, r) ∈ s'.colls c0) ∨ s.heap.length ≤ r
  colls : Colls idOf s' w'
  src : (∀ c, c ≠ c0 → s'.colls c = s.colls c) ∧
    ∀ e ∈ s'.colls c0, e ∈ s.colls c0 ∨ ∃ x ∈ new, x.1 = e.2 ∧ idOf x.2 = e.1

theorem ansRep_good {heap : List D} {es : List (Ref × D)} (h : Good heap es) :
    AnsRep heap (es.map fun e => some e.1) ((es.map (·.2)).map some) := by
  unfold AnsRep
  simp only [List.map_map]
  apply List.map_congr_left
  intro e he
  simp [h e he]

theorem ansRep_rep {heap : List D} {l : List (Nat × Ref)} {ds : List D} (h : Rep idOf heap l ds) :
    AnsRep heap (l.map fun e => some e.2) (ds.map some) := by
  unfold Rep at h
  unfold AnsRep
  have := congrArg (List.map (fun x : Nat × Option D => some x.2)) h
  simp only [List.map_map, Function.comp_def] at this ⊢
  exact this

theorem assign_mem {k : Nat} {r : Ref} {l : List (Nat × Ref)} : ∀ e ∈ assign k r l, e ∈ l ∨ e = (k, r) := by
  induction l with
  | nil => intro e he; exact .inr (by simpa [assign] using he)
  | cons x l ih =>
    intro e he
    unfold assign at he
    by_cases a : k < x.1
    · rw [if_pos a] at he
      rcases List.mem_cons.1 he with rfl | he
      · exact .inr rfl
      · exact .inl he
    · rw [if_neg a] at he
      by_cases b : k = x.1
      · rw [if_pos b] at he
        rcases List.mem_cons.1 he with rfl | he
        · exact .inr rfl
        · exact .inl (List.mem_cons_of_mem _ he)
      · rw [if_neg b] at he
        rcases List.mem_cons.1 he with rfl | he
        · exact .inl List.mem_cons_self
        · rcases ih e he with h | h
          · exact .inl (List.mem_cons_of_mem _ h)
          · exact .inr h

theorem insertLoop_mem {l : List (Nat × Ref)} {es : List (Ref × D)} :
    ∀ e ∈ insertLoop idOf l es, e ∈ l ∨ ∃ x ∈ es, x.1 = e.2 ∧ idOf x.2 = e.1 := by
  induction es generalizing l with
  | nil => intro e he; exact .inl he
  | cons x es ih =>
    intro e he
    rcases ih e he with h | ⟨y, hy, h⟩
    · rcases assign_mem e h with h | rfl
      · exact .inl h
      · exact .inr ⟨x, List.mem_cons_self, rfl, rfl⟩
    · exact .inr ⟨y, List.mem_cons_of_mem _ hy, h⟩

theorem colls_set {s : St D} {w : World D} (h : Colls idOf s w) {heap : List D} {c : Nat} {l : List (Nat × Ref)} {ds : List D}
    (hr : Rep idOf heap l ds) (hs : Sorted idOf ds) (hh : ∀ x, x ≠ c → Rep idOf heap (s.colls x) (w.colls x))
    (m : List Ref) (a : List (List (Option Ref))) (b : List (List (Option D))) :
    Colls idOf ⟨heap, setColl s.colls c l, m, a⟩ { w.setColl c ds with answers := b } := by
  intro x
  by_cases hx : x = c
  · subst hx
    simp only [setColl, World.setColl, if_true]
    exact ⟨hr, hs⟩
  · simp only [setColl, World.setColl, if_neg hx]
    exact ⟨hh x hx, (h x).2⟩

/-- INSERT of pointers. -/
theorem store_effect {s : St D} {w : World D} (h : Colls idOf s w) {es : List (Ref × D)} (hg : Good s.heap es) (c : Nat) :
    ∃ s', store idOf s c (es.map (·.1)) = .ok s' ∧ Effect idOf c s s' w (w.insert idOf c (es.map (·.2))) es := by
  have hc := h c
  unfold store
  rw [fetch_good hg]
  simp only [Res.bind]
  rw [allNew_rep idOf hc.1]
  by_cases hn : ((es.map (·.2)).any fun d => (w.colls c).any fun e => idOf e == idOf d) = true
  · rw [hn]
    refine ⟨_, rfl, ?_⟩
    unfold World.insert
    rw [if_pos hn]
    refine ⟨⟨[], by simp [answer]⟩, ⟨rfl, rfl⟩, ⟨_, _, rfl, rfl, ansRep_rep idOf hc.1, ?_⟩, h,
      ⟨fun _ _ => rfl, fun e he => .inl he⟩⟩
    intro r hr
    obtain ⟨e, he, h1⟩ := List.mem_map.1 hr
    cases h1
    exact .inl ⟨e.1, he⟩
  · have hn' : ((es.map (·.2)).any fun d => (w.colls c).any fun e => idOf e == idOf d) = false := by
      simpa using hn
    rw [hn']
    obtain ⟨hl, hls⟩ := insertLoop_rep idOf hc.1 hc.2 hg
    obtain ⟨rs, h1, h2, h3⟩ := atAll_rep idOf hl (es.map fun e => idOf e.2) (by
      intro k hk
      obtain ⟨e, he, rfl⟩ := List.mem_map.1 hk
      exact foldl_any idOf _ _ _ (.inr ⟨e.2, List.mem_map.2 ⟨e, he, rfl⟩, rfl⟩))
    refine ⟨answer { s with colls := setColl s.colls c (insertLoop idOf (s.colls c) es) } (rs.map some), ?_, ?_⟩
    · simp only [Bool.not_false, if_true, h1]
      rfl
    · unfold World.insert
      rw [if_neg hn]
      refine ⟨⟨[], by simp [answer]⟩, ⟨rfl, rfl⟩, ⟨_, _, rfl, rfl, ?_, ?_⟩,
        colls_set idOf h hl hls (fun x _ => (h x).1) _ _ _, ⟨?_, ?_⟩⟩
      · unfold AnsRep
        simp only [List.map_map, Function.comp_def] at h2 ⊢
        exact h2
      · intro r hr
        obtain ⟨q, hq, h4⟩ := List.mem_map.1 hr
        cases h4
        obtain ⟨k, hk⟩ := h3 r hq
        refine .inl ⟨k, ?_⟩
        simp only [answer, setColl, if_true]
        exact hk
      · intro x hx
        simp only [answer, setColl, if_neg hx]
      · intro e he
        simp only [answer, setColl, if_true] at he
        exact insertLoop_mem idOf e he

/-- New documents. -/
theorem alloc_good (heap ds : List D) : Good (alloc heap ds).1 ((alloc heap ds).2.zip ds) := by
  intro e he
  obtain ⟨i, hi, hei⟩ := List.mem_iff_getElem.1 he
  subst hei
  simp only [alloc, List.getElem_zip, List.getElem_range', Nat.one_mul]
  rw [List.getElem?_append_right (by omega)]
  simp

theorem alloc_le (heap ds : List D) : ∀ r ∈ (alloc heap ds).2, heap.length ≤ r := by
  intro r hr
  simp only [alloc, List.mem_range'_1] at hr
  exact hr.1

theorem alloc_zip (heap ds : List D) :
    (((alloc heap ds).2.zip ds).map (·.1)) = (alloc heap ds).2 ∧ (((alloc heap ds).2.zip ds).map (·.2)) = ds := by
  constructor
  · exact List.map_fst_zip (by simp [alloc])
  · exact List.map_snd_zip (by simp [alloc])

theorem Colls.grow {s : St D} {w : World D} (h : Colls idOf s w) (xs : List D) :
    Colls idOf { s with heap := s.heap ++ xs } w := fun c => ⟨(h c).1.grow idOf xs, (h c).2⟩

theorem insertCols_effect {s : St D} {w : World D} (h : Colls idOf s w) (c src : Nat) (p : D → Bool) (g : List D → List D) :
    ∃ s', step idOf s (.insertCols c src p g) = .ok s' ∧
      ∃ xs, Effect idOf c s s' w (w.insert idOf c (g (found p none (w.colls src)))) ((alloc s.heap xs).2.zip xs) ∧
        ∃ ys, s'.heap = (s.heap ++ xs) ++ ys := by
  obtain ⟨es, h1, h2, _, _⟩ := scan_rep idOf (h src).1 p none
  have hz := alloc_zip s.heap (g (found p none (w.colls src)))
  obtain ⟨s', h3, h4⟩ := store_effect idOf (h.grow idOf (g (found p none (w.colls src)))) (alloc_good s.heap _) c
  rw [hz.1] at h3
  rw [hz.2] at h4
  refine ⟨s', ?_, g (found p none (w.colls src)), ?_⟩
  · simp only [step, h1, Res.bind, h2]
    exact h3
  · obtain ⟨xs, hx⟩ := h4.heap
    refine ⟨?_, xs, hx⟩
    refine ⟨⟨_, by rw [hx]; exact List.append_assoc _ _ _⟩, h4.made, ?_, h4.colls, h4.src⟩
    obtain ⟨rs, ans, a, b, d, f⟩ := h4.said
    refine ⟨rs, ans, a, b, d, fun r hr => ?_⟩
    rcases f r hr with h5 | h5
    · exact .inl h5
    · right
      simp only [List.length_append] at h5
      omega

theorem insertAll_effect {s : St D} {w : World D} (h : Colls idOf s w) (c src : Nat) (p : D → Bool) :
    ∃ s', step idOf s (.insertAll c src p) = .ok s' ∧
      ∃ es, Effect idOf c s s' w (w.insert idOf c (found p none (w.colls src))) es := by
  obtain ⟨es, h1, h2, h3, _⟩ := scan_rep idOf (h src).1 p none
  obtain ⟨s', h4, h5⟩ := store_effect idOf h h3 c
  refine ⟨s', ?_, es, ?_⟩
  · simp only [step, h1, Res.bind]; exact h4
  · rw [h2] at h5; exact h5

theorem select_effect {s : St D} {w : World D} (h : Colls idOf s w) (c : Nat) (p : D → Bool) (lim : Option Nat) :
    ∃ s', step idOf s (.select c p lim) = .ok s' ∧ Effect idOf c s s' w (w.say ((found p lim (w.colls c)).map some)) [] := by
  obtain ⟨es, h1, h2, h3, h4⟩ := scan_rep idOf (h c).1 p lim
  refine ⟨answer s (es.map fun e => some e.1), ?_, ?_⟩
  · simp only [step, h1]; rfl
  · refine ⟨⟨[], by simp [answer]⟩, ⟨rfl, rfl⟩, ⟨_, _, rfl, rfl, ?_, ?_⟩, h, ⟨fun _ _ => rfl, fun e he => .inl he⟩⟩
    · rw [← h2]
      exact ansRep_good h3
    · intro r hr
      obtain ⟨e, he, h5⟩ := List.mem_map.1 hr
      cases h5
      obtain ⟨x, hx, h6⟩ := List.mem_map.1 (h4.subset (List.mem_map.2 ⟨e, he, rfl⟩))
      refine .inl ⟨x.1, ?_⟩
      rw [← h6]
      exact hx

theorem selectCols_effect {s : St D} {w : World D} (h : Colls idOf s w) (c : Nat) (p : D → Bool) (g : List D → List D) :
    ∃ s', step idOf s (.selectCols c p g) = .ok s' ∧
      Effect idOf c s s' w (w.say ((g (found p none (w.colls c))).map some)) [] := by
  obtain ⟨es, h1, h2, h3, _⟩ := scan_rep idOf (h c).1 p none
  refine ⟨answer { s with heap := (alloc s.heap (g (found p none (w.colls c)))).1 }
      ((alloc s.heap (g (found p none (w.colls c)))).2.map some), ?_, ?_⟩
  · simp only [step, h1, Res.map', Res.bind, h2]
  · refine ⟨⟨_, rfl⟩, ⟨rfl, rfl⟩, ⟨_, _, rfl, rfl, ?_, ?_⟩, h.grow idOf _, ⟨fun _ _ => rfl, fun e he => .inl he⟩⟩
    rotate_left
    · intro r hr
      obtain ⟨q, hq, h5⟩ := List.mem_map.1 hr
      cases h5
      exact .inr (alloc_le s.heap _ r hq)
    have hz := alloc_zip s.heap (g (found p none (w.colls c)))
    have := ansRep_good (alloc_good s.heap (g (found p none (w.colls c))))
    rw [hz.2] at this
    have e : ((alloc s.heap (g (found p none (w.colls c)))).2.zip (g (found p none (w.colls c)))).map (fun e => some e.1)
        = (alloc s.heap (g (found p none (w.colls c)))).2.map some := by
      conv => rhs; rw [← hz.1]
      rw [List.map_map]; rfl
    rw [e] at this
    exact this

theorem delete_effect {s : St D} {w : World D} (h : Colls idOf s w) (c : Nat) (p : D → Bool) (lim : Option Nat)
    (hl : lim ≠ some 0) :
    ∃ s', step idOf s (.delete c p lim) = .ok s' ∧ Effect idOf c s s' w (w.delete idOf c p lim) [] := by
  obtain ⟨es, h1, h2, h3, _⟩ := scan_rep idOf (h c).1 p lim
  have hsub := found_sub p lim (w.colls c)
  have hin : ∀ e ∈ es, ((w.colls c).any fun d => idOf d == idOf e.2) = true := by
    intro e he
    refine List.any_eq_true.2 ⟨e.2, hsub.subset ?_, by simp⟩
    rw [← h2]
    exact List.mem_map.2 ⟨e, he, rfl⟩
  have hse : Sorted idOf (es.map (·.2)) := by rw [h2]; exact (h c).2.sublist hsub
  obtain ⟨a, b, d⟩ := deleteLoop_rep idOf (h c).1 (h c).2 es hin hse
  rw [h2] at a
  refine ⟨answer { s with colls := setColl s.colls c (deleteLoop idOf (s.colls c) es).1 }
      (List.replicate (deleteLoop idOf (s.colls c) es).2 none), ?_, ?_⟩
  · simp only [step, delete, if_neg hl, h1]
    rfl
  · have hlen : (found p lim (w.colls c)).length = es.length := by rw [← h2, List.length_map]
    refine ⟨⟨[], by simp [answer]⟩, ⟨rfl, rfl⟩, ⟨_, _, rfl, rfl, ?_, ?_⟩,
      colls_set idOf h a ((h c).2.sublist List.filter_sublist) (fun x _ => (h x).1) _ _ _, ⟨?_, ?_⟩⟩
    · unfold AnsRep
      rw [b, hlen]
      simp
    · intro r hr
      cases (List.mem_replicate.1 hr).2
    · intro x hx
      simp only [answer, setColl, if_neg hx]
    · intro e he
      simp only [answer, setColl, if_true] at he
      exact .inl (d e he)

end Verif.Share
