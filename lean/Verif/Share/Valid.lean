import Verif.Share.Run
/-! Lemmas: pointers point to documents, whatever clients do. -/
namespace Verif.Share

variable {D : Type} (idOf : D → Nat)

structure Valid (s : St D) : Prop where
  colls : ∀ c, ∀ e ∈ s.colls c, e.2 < s.heap.length
  made : ∀ r : Nat, r ∈ s.made → r < s.heap.length
  answers : ∀ l ∈ s.answers, ∀ r : Nat, some r ∈ l → r < s.heap.length

theorem valid_init : Valid (init : St D) := ⟨nofun, nofun, nofun⟩

theorem bindOk {α β : Type} {x : Res α} {f : α → Res β} {b : β} (h : Res.bind x f = .ok b) : ∃ a, x = .ok a ∧ f a = .ok b := by
  cases x with
  | ok a => exact ⟨a, rfl, h⟩
  | throws => cases h
  | ub => cases h
  | diverges => cases h

theorem mapOk {α β : Type} {x : Res α} {f : α → β} {b : β} (h : Res.map' f x = .ok b) : ∃ a, x = .ok a ∧ f a = b := by
  obtain ⟨a, h1, h2⟩ := bindOk h
  exact ⟨a, h1, Res.ok.inj h2⟩

theorem lt_of_get {heap : List D} {r : Nat} {d : D} (h : heap[r]? = some d) : r < heap.length := by
  rcases Nat.lt_or_ge r heap.length with hl | hl
  · exact hl
  · rw [List.getElem?_eq_none hl] at h; cases h

theorem fetch_inv {heap : List D} {rs : List Ref} {es : List (Ref × D)} (h : fetch heap rs = .ok es) :
    Good heap es ∧ es.map (·.1) = rs := by
  induction rs generalizing es with
  | nil => cases h; exact ⟨nofun, rfl⟩
  | cons r rs ih =>
    cases hr : heap[r]? with
    | none => simp only [fetch, hr] at h; cases h
    | some d =>
      simp only [fetch, hr] at h
      obtain ⟨a, h1, rfl⟩ := mapOk h
      obtain ⟨h2, h3⟩ := ih h1
      refine ⟨?_, by simp [h3]⟩
      intro e he
      rcases List.mem_cons.1 he with rfl | he
      · exact hr
      · exact h2 e he

theorem scan_inv {s : St D} {c : Nat} {p : D → Bool} {lim : Option Nat} {es : List (Ref × D)} (h : scan s c p lim = .ok es) :
    Good s.heap es := by
  obtain ⟨l, h1, rfl⟩ := mapOk h
  intro e he
  exact (fetch_inv h1).1 e (List.mem_filter.1 ((upTo_sub lim _).subset he)).1

theorem atAll_inv {l : List (Nat × Ref)} {ks : List Nat} {rs : List Ref} (h : atAll l ks = .ok rs) :
    ∀ r ∈ rs, ∃ k, (k, r) ∈ l := by
  induction ks generalizing rs with
  | nil => cases h; exact nofun
  | cons k ks ih =>
    cases hk : find k l with
    | none => simp only [atAll, hk] at h; cases h
    | some r =>
      simp only [atAll, hk] at h
      obtain ⟨a, h1, rfl⟩ := mapOk h
      intro x hx
      rcases List.mem_cons.1 hx with rfl | hx
      · exact ⟨k, find_mem hk⟩
      · exact ih h1 x hx

/-- Documents stay, answers are added. -/
def Grows (s s' : St D) : Prop := (∃ xs, s'.heap = s.heap ++ xs) ∧ ∃ ys, s'.answers = s.answers ++ ys

theorem Grows.trans {s s' s'' : St D} (h : Grows s s') (h' : Grows s' s'') : Grows s s'' := by
  obtain ⟨⟨a, ha⟩, b, hb⟩ := h
  obtain ⟨⟨c, hc⟩, d, hd⟩ := h'
  exact ⟨⟨a ++ c, by rw [hc, ha, List.append_assoc]⟩, b ++ d, by rw [hd, hb, List.append_assoc]⟩

theorem valid_answer {s : St D} (h : Valid s) {rs : List (Option Ref)} (hr : ∀ r : Nat, some r ∈ rs → r < s.heap.length) :
    Valid (answer s rs) := by
  refine ⟨h.colls, h.made, ?_⟩
  intro l hl r hrl
  rcases List.mem_append.1 hl with hl | hl
  · exact h.answers l hl r hrl
  · rw [List.mem_singleton.1 hl] at hrl
    exact hr r hrl

theorem valid_set {s : St D} (h : Valid s) {c : Nat} {l : List (Nat × Ref)} (hl : ∀ e ∈ l, e.2 < s.heap.length) :
    Valid { s with colls := setColl s.colls c l } := by
  refine ⟨?_, h.made, h.answers⟩
  intro x e he
  by_cases hx : x = c
  · simp only [setColl, if_pos hx] at he
    exact hl e he
  · simp only [setColl, if_neg hx] at he
    exact h.colls x e he

theorem valid_heap {s : St D} (h : Valid s) {heap : List D} (hl : s.heap.length ≤ heap.length) : Valid { s with heap := heap } :=
  ⟨fun c e he => Nat.lt_of_lt_of_le (h.colls c e he) hl, fun r hr => Nat.lt_of_lt_of_le (h.made r hr) hl,
    fun l hl' r hr => Nat.lt_of_lt_of_le (h.answers l hl' r hr) hl⟩

theorem mem_some {rs : List Ref} {r : Nat} (h : some r ∈ rs.map some) : r ∈ rs := by
  obtain ⟨q, hq, h1⟩ := List.mem_map.1 h
  cases h1
  exact hq

theorem store_valid {s s' : St D} (h : Valid s) {c : Nat} {rs : List Ref} (hs : store idOf s c rs = .ok s') :
    Valid s' ∧ Grows s s' := by
  obtain ⟨es, h1, h2⟩ := bindOk hs
  obtain ⟨hg, _⟩ := fetch_inv h1
  by_cases hn : allNew idOf (s.colls c) es = true
  · rw [if_pos hn] at h2
    obtain ⟨out, h3, rfl⟩ := mapOk h2
    have hl : ∀ e ∈ insertLoop idOf (s.colls c) es, e.2 < s.heap.length := by
      intro e he
      rcases insertLoop_mem idOf e he with h4 | ⟨x, hx, h4, _⟩
      · exact h.colls c e h4
      · rw [← h4]; exact lt_of_get (hg x hx)
    refine ⟨valid_answer (valid_set h hl) ?_, ⟨[], by simp [answer]⟩, _, rfl⟩
    intro r hr
    obtain ⟨k, hk⟩ := atAll_inv h3 r (mem_some hr)
    exact hl _ hk
  · rw [if_neg hn] at h2
    cases h2
    refine ⟨valid_answer h ?_, ⟨[], by simp [answer]⟩, _, rfl⟩
    intro r hr
    obtain ⟨e, he, h3⟩ := List.mem_map.1 hr
    cases h3
    exact h.colls c e he

theorem alloc_lt (heap ds : List D) : ∀ r ∈ (alloc heap ds).2, r < (alloc heap ds).1.length := by
  intro r hr
  simp only [alloc, List.mem_range'_1, List.length_append] at hr ⊢
  exact hr.2

theorem updateLoop_length (f : D → D × Bool) {heap : List D} {rs : List Ref} {x : List D × List Nat}
    (h : updateLoop idOf f heap rs = .ok x) : x.1.length = heap.length := by
  induction rs generalizing heap x with
  | nil => cases h; rfl
  | cons r rs ih =>
    cases hr : heap[r]? with
    | none => simp only [updateLoop, hr] at h; cases h
    | some d =>
      simp only [updateLoop, hr] at h
      obtain ⟨a, h1, rfl⟩ := mapOk h
      have := ih h1
      rw [List.length_set] at this
      exact this

theorem deleteLoop_sub {l : List (Nat × Ref)} {es : List (Ref × D)} : ∀ e ∈ (deleteLoop idOf l es).1, e ∈ l := by
  induction es generalizing l with
  | nil => exact fun e he => he
  | cons x es ih =>
    intro e he
    unfold deleteLoop at he
    by_cases hb : (find (idOf x.2) l).isSome = true
    · rw [if_pos hb] at he
      exact erase_sub _ _ e (ih e he)
    · rw [if_neg hb] at he
      exact ih e he

theorem step_valid {s s' : St D} (h : Valid s) (o : Op D) (hs : step idOf s o = .ok s') :
    Valid s' ∧ (o.silent → Grows s s') := by
  cases o with
  | make d =>
    cases hs
    have hv := valid_heap h (heap := (alloc s.heap [d]).1) (by simp [alloc])
    refine ⟨⟨hv.colls, ?_, hv.answers⟩, fun _ => ⟨⟨_, rfl⟩, [], by simp⟩⟩
    intro r hr
    rcases List.mem_append.1 hr with hr | hr
    · exact hv.made r hr
    · exact alloc_lt _ _ r hr
  | write x f =>
    obtain ⟨r, _, h2⟩ := bindOk hs
    cases hr : s.heap[r]? with
    | none => simp only [hr] at h2; cases h2
    | some d =>
      simp only [hr] at h2
      cases h2
      exact ⟨valid_heap h (by simp), fun hq => hq.elim⟩
  | insert c hs' =>
    obtain ⟨rs, _, h2⟩ := bindOk hs
    have := store_valid idOf h h2
    exact ⟨this.1, fun _ => this.2⟩
  | insertAll c src p =>
    obtain ⟨es, _, h2⟩ := bindOk hs
    have := store_valid idOf h h2
    exact ⟨this.1, fun _ => this.2⟩
  | insertCols c src p g =>
    obtain ⟨es, _, h2⟩ := bindOk hs
    have := store_valid idOf (valid_heap h (by simp [alloc])) h2
    exact ⟨this.1, fun _ => Grows.trans ⟨⟨_, rfl⟩, [], by simp⟩ this.2⟩
  | select c p lim =>
    obtain ⟨es, h1, rfl⟩ := mapOk hs
    refine ⟨valid_answer h ?_, fun _ => ⟨⟨[], by simp [answer]⟩, _, rfl⟩⟩
    intro r hr
    obtain ⟨e, he, h3⟩ := List.mem_map.1 hr
    cases h3
    exact lt_of_get (scan_inv h1 e he)
  | selectCols c p g =>
    obtain ⟨es, h1, rfl⟩ := mapOk hs
    refine ⟨valid_answer (valid_heap h (by simp [alloc])) ?_, fun _ => ⟨⟨_, rfl⟩, _, rfl⟩⟩
    intro r hr
    exact alloc_lt _ _ r (mem_some hr)
  | delete c p lim =>
    by_cases h0 : lim = some 0
    · simp only [step, delete, if_pos h0] at hs; cases hs
    · simp only [step, delete, if_neg h0] at hs
      obtain ⟨es, h1, rfl⟩ := mapOk hs
      refine ⟨valid_answer (valid_set h ?_) ?_, fun _ => ⟨⟨[], by simp [answer]⟩, _, rfl⟩⟩
      · intro e he
        exact h.colls c e (deleteLoop_sub idOf e he)
      · intro r hr
        cases (List.mem_replicate.1 hr).2
  | update c p lim f new =>
    refine ⟨?_, fun hq => hq.elim⟩
    by_cases h0 : lim = some 0
    · simp only [step, update, if_pos h0] at hs
      cases hs
      exact valid_answer h nofun
    · simp only [step, update, if_neg h0] at hs
      obtain ⟨es, h1, h2⟩ := bindOk hs
      by_cases he : es.isEmpty = true
      · rw [if_pos he] at h2
        cases new with
        | none => cases h2; exact valid_answer h nofun
        | some d =>
          cases h2
          have hv := valid_heap h (heap := (alloc s.heap [d]).1) (by simp [alloc])
          refine valid_answer (valid_set hv ?_) ?_
          · intro e he
            rcases insertLoop_mem idOf e he with h4 | ⟨x, hx, h4, _⟩
            · exact hv.colls c e h4
            · obtain ⟨r, hr, rfl⟩ := List.mem_map.1 hx
              rw [← h4]
              exact alloc_lt _ _ r hr
          · intro r hr
            exact alloc_lt _ _ r (mem_some hr)
      · rw [if_neg he] at h2
        obtain ⟨x, h3, h4⟩ := bindOk h2
        obtain ⟨out, h5, rfl⟩ := mapOk h4
        have hv := valid_heap h (heap := x.1) (by rw [updateLoop_length idOf f h3]; exact Nat.le_refl _)
        refine valid_answer hv ?_
        intro r hr
        obtain ⟨k, hk⟩ := atAll_inv h5 r (mem_some hr)
        exact hv.colls c _ hk

theorem run_valid {s s' : St D} (h : Valid s) (os : List (Op D)) (hs : run idOf s os = .ok s') :
    Valid s' ∧ ((∀ o ∈ os, o.silent) → Grows s s') := by
  induction os generalizing s with
  | nil => cases hs; exact ⟨h, fun _ => ⟨⟨[], by simp⟩, [], by simp⟩⟩
  | cons o os ih =>
    obtain ⟨s1, h1, h2⟩ := bindOk hs
    obtain ⟨h3, h4⟩ := step_valid idOf h o h1
    obtain ⟨h5, h6⟩ := ih h3 h2
    exact ⟨h5, fun hq => (h4 (hq o List.mem_cons_self)).trans (h6 fun x hx => hq x (List.mem_cons_of_mem _ hx))⟩

theorem readAnswer_grows {s s' : St D} (h : Valid s) (hg : Grows s s') {a : Nat} (ha : a < s.answers.length) :
    readAnswer s' a = readAnswer s a := by
  obtain ⟨⟨xs, hx⟩, ys, hy⟩ := hg
  unfold readAnswer
  rw [hy, List.getElem?_append_left ha, List.getElem?_eq_getElem ha]
  simp only [Option.map_some, Option.some.injEq]
  apply List.map_congr_left
  intro o ho
  cases o with
  | none => rfl
  | some r =>
    simp only [Option.bind_some]
    rw [hx, List.getElem?_append_left (h.answers _ (List.getElem_mem ha) r ho)]

end Verif.Share
