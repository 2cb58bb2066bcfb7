import Verif.Share.Steps
/-! Lemmas: histories in which no document changes. -/
namespace Verif.Share

variable {D : Type} (idOf : D → Nat)

structure Inv (s : St D) (w : World D) : Prop where
  colls : Colls idOf s w
  made : s.made.map (fun r => s.heap[r]?) = w.made.map some
  answers : s.answers.map (List.map (Option.map fun r => s.heap[r]?)) = w.answers.map (List.map (Option.map some))

theorem inv_init : Inv idOf (init : St D) World.init :=
  ⟨fun _ => ⟨rfl, List.Pairwise.nil⟩, rfl, rfl⟩

theorem read_grow {heap : List D} {rs : List Ref} {ds : List D} (h : rs.map (fun r => heap[r]?) = ds.map some) (xs : List D) :
    rs.map (fun r => (heap ++ xs)[r]?) = ds.map some := by
  rw [← h]
  apply List.map_congr_left
  intro r hr
  have hm : heap[r]? ∈ ds.map some := by rw [← h]; exact List.mem_map.2 ⟨r, hr, rfl⟩
  obtain ⟨d, _, hd⟩ := List.mem_map.1 hm
  rw [grow xs hd.symm, ← hd]

theorem ans_grow {heap : List D} {rs : List (Option Ref)} {ans : List (Option D)} (h : AnsRep heap rs ans) (xs : List D) :
    AnsRep (heap ++ xs) rs ans := by
  unfold AnsRep at *
  rw [← h]
  apply List.map_congr_left
  intro o ho
  cases o with
  | none => rfl
  | some r =>
    have hm : some (heap[r]?) ∈ ans.map (Option.map some) := by rw [← h]; exact List.mem_map.2 ⟨some r, ho, rfl⟩
    obtain ⟨x, _, hx⟩ := List.mem_map.1 hm
    cases x with
    | none => cases hx
    | some d =>
      have hd : heap[r]? = some d := by simpa using hx.symm
      simp only [Option.map_some, grow xs hd, hd]

theorem answers_grow {heap : List D} {l : List (List (Option Ref))} {m : List (List (Option D))}
    (h : l.map (List.map (Option.map fun r => heap[r]?)) = m.map (List.map (Option.map some))) (xs : List D) :
    l.map (List.map (Option.map fun r => (heap ++ xs)[r]?)) = m.map (List.map (Option.map some)) := by
  induction l generalizing m with
  | nil => cases m with
    | nil => rfl
    | cons _ _ => cases h
  | cons a l ih =>
    cases m with
    | nil => cases h
    | cons b m =>
      simp only [List.map_cons, List.cons.injEq] at h ⊢
      exact ⟨ans_grow h.1 xs, ih h.2⟩

theorem Effect.inv {s s' : St D} {w w' : World D} {new : List (Ref × D)} {c0 : Nat} (h : Inv idOf s w) (e : Effect idOf c0 s s' w w' new) :
    Inv idOf s' w' := by
  obtain ⟨xs, hx⟩ := e.heap
  obtain ⟨rs, ans, h1, h2, h3, _⟩ := e.said
  refine ⟨e.colls, ?_, ?_⟩
  · rw [e.made.1, e.made.2, hx]
    exact read_grow h.made xs
  · rw [h1, h2, List.map_append, List.map_append]
    have := answers_grow h.answers xs
    rw [← hx] at this
    rw [this]
    have h3' : rs.map (Option.map fun r => s'.heap[r]?) = ans.map (Option.map some) := h3
    simp only [List.map_cons, List.map_nil, h3']

theorem getElem_map {α β γ : Type} {f : α → γ} {g : β → γ} {l : List α} {m : List β} (h : l.map f = m.map g) (i : Nat) :
    (l[i]?).map f = (m[i]?).map g := by
  have := congrArg (fun x => x[i]?) h
  simpa using this

/-- The documents clients mean. -/
theorem resolve_held {s : St D} {w : World D} (h : Inv idOf s w) (x : Held) {d : D} (hd : w.held x = some d) :
    ∃ r : Nat, resolve s x = .ok r ∧ s.heap[r]? = some d := by
  cases x with
  | made k =>
    have hk := getElem_map h.made k
    have hd' : w.made[k]? = some d := hd
    rw [hd'] at hk
    cases hr : s.made[k]? with
    | none => rw [hr] at hk; cases hk
    | some r =>
      rw [hr] at hk
      exact ⟨r, by simp only [resolve, hr], by simpa using hk⟩
  | answer a i =>
    have ha := getElem_map h.answers a
    simp only [World.held] at hd
    cases hw : w.answers[a]? with
    | none => rw [hw] at hd; cases hd
    | some m =>
      rw [hw] at hd ha
      cases hs : s.answers[a]? with
      | none => rw [hs] at ha; cases ha
      | some l =>
        rw [hs] at ha
        have hi := getElem_map (show l.map (Option.map fun r => s.heap[r]?) = m.map (Option.map some) by simpa using ha) i
        cases hm : m[i]? with
        | none => rw [Option.bind_some, hm] at hd; cases hd
        | some o =>
          rw [Option.bind_some, hm] at hd
          have ho : o = some d := hd
          rw [hm, ho] at hi
          cases hl : l[i]? with
          | none => rw [hl] at hi; cases hi
          | some q =>
            rw [hl] at hi
            cases q with
            | none => cases hi
            | some r =>
              refine ⟨r, by simp only [resolve, hs, hl], ?_⟩
              simpa using hi

theorem resolveAll_held {s : St D} {w : World D} (h : Inv idOf s w) (hs : List Held) {ds : List D}
    (hd : hs.mapM w.held = some ds) :
    ∃ es : List (Ref × D), resolveAll s hs = .ok (es.map (·.1)) ∧ es.map (·.2) = ds ∧ Good s.heap es := by
  induction hs generalizing ds with
  | nil =>
    rw [List.mapM_nil] at hd
    cases hd
    exact ⟨[], rfl, rfl, nofun⟩
  | cons x xs ih =>
    rw [List.mapM_cons] at hd
    cases hx : w.held x with
    | none => rw [hx] at hd; cases hd
    | some d =>
      cases hxs : xs.mapM w.held with
      | none => rw [hx, hxs] at hd; cases hd
      | some ds' =>
        rw [hx, hxs] at hd
        cases hd
        obtain ⟨r, h1, h2⟩ := resolve_held idOf h x hx
        obtain ⟨es, h3, h4, h5⟩ := ih hxs
        refine ⟨(r, d) :: es, ?_, by simp [h4], ?_⟩
        · simp only [resolveAll, h1, Res.bind, h3]; rfl
        · intro e he
          rcases List.mem_cons.1 he with rfl | he
          · exact h2
          · exact h5 e he

theorem quiet_step {s : St D} {w w' : World D} (h : Inv idOf s w) (o : Op D) (hq : o.quiet) (hw : w.step idOf o = some w') :
    ∃ s', step idOf s o = .ok s' ∧ Inv idOf s' w' ∧ ∃ xs, s'.heap = s.heap ++ xs ∧ ∃ ys, s'.answers = s.answers ++ ys := by
  have fin : ∀ {s' : St D} {w'' : World D} {new : List (Ref × D)} {c0 : Nat}, Effect idOf c0 s s' w w'' new → w'' = w' →
      Inv idOf s' w' ∧ ∃ xs, s'.heap = s.heap ++ xs ∧ ∃ ys, s'.answers = s.answers ++ ys := by
    intro s' w'' new c0 e he
    subst he
    obtain ⟨xs, hx⟩ := e.heap
    obtain ⟨rs, _, hr, _⟩ := e.said
    exact ⟨e.inv idOf h, xs, hx, _, hr⟩
  cases o with
  | make d =>
    cases hw
    refine ⟨_, rfl, ⟨h.colls.grow idOf [d], ?_, answers_grow h.answers [d]⟩, [d], rfl, [], by simp⟩
    simp only [alloc, List.map_append]
    rw [read_grow h.made [d]]
    simp
  | write _ _ => exact hq.elim
  | update _ _ _ _ _ => exact hq.elim
  | insert c hs =>
    cases hm : hs.mapM w.held with
    | none => simp only [World.step, hm] at hw; cases hw
    | some ds =>
      obtain ⟨es, h1, h2, h3⟩ := resolveAll_held idOf h hs hm
      obtain ⟨s', h4, h5⟩ := store_effect idOf h.colls h3 c
      refine ⟨s', by simp only [step, h1, Res.bind]; exact h4, fin h5 ?_⟩
      simp only [World.step, hm, Option.map_some, Option.some.injEq] at hw
      rw [h2]; exact hw
  | insertAll c src p =>
    obtain ⟨s', h4, _, h5⟩ := insertAll_effect idOf h.colls c src p
    exact ⟨s', h4, fin h5 (Option.some.inj hw)⟩
  | insertCols c src p g =>
    obtain ⟨s', h4, _, h5, _⟩ := insertCols_effect idOf h.colls c src p g
    exact ⟨s', h4, fin h5 (Option.some.inj hw)⟩
  | select c p lim =>
    obtain ⟨s', h4, h5⟩ := select_effect idOf h.colls c p lim
    exact ⟨s', h4, fin h5 (Option.some.inj hw)⟩
  | selectCols c p g =>
    obtain ⟨s', h4, h5⟩ := selectCols_effect idOf h.colls c p g
    exact ⟨s', h4, fin h5 (Option.some.inj hw)⟩
  | delete c p lim =>
    obtain ⟨s', h4, h5⟩ := delete_effect idOf h.colls c p lim hq
    exact ⟨s', h4, fin h5 (Option.some.inj hw)⟩

theorem quiet_run {s : St D} {w w' : World D} (h : Inv idOf s w) (os : List (Op D)) (hq : ∀ o ∈ os, o.quiet)
    (hw : World.run idOf w os = some w') : ∃ s', run idOf s os = .ok s' ∧ Inv idOf s' w' := by
  induction os generalizing s w with
  | nil => cases hw; exact ⟨s, rfl, h⟩
  | cons o os ih =>
    cases ho : w.step idOf o with
    | none => simp only [World.run, ho] at hw; cases hw
    | some w1 =>
      obtain ⟨s1, h1, h2, _⟩ := quiet_step idOf h o (hq o List.mem_cons_self) ho
      simp only [World.run, ho, Option.bind_some] at hw
      obtain ⟨s', h3, h4⟩ := ih h2 (fun x hx => hq x (List.mem_cons_of_mem _ hx)) hw
      exact ⟨s', by simp only [run, h1, Res.bind]; exact h3, h4⟩

theorem Colls.same {s : St D} {w : World D} (h : Colls idOf s w) : SameColls s w := by
  intro c
  have := (h c).1
  unfold Rep at this
  have := congrArg (List.map Prod.snd) this
  simpa [readColl, List.map_map, Function.comp_def] using this

theorem ans_read {heap : List D} {rs : List (Option Ref)} {ans : List (Option D)} (h : AnsRep heap rs ans) :
    (rs.map fun o => o.bind fun r => heap[r]?) = ans := by
  unfold AnsRep at h
  have := congrArg (List.map Option.join) h
  simp only [List.map_map] at this
  have e : (Option.join ∘ Option.map some : Option D → Option D) = id := by
    funext x; cases x <;> rfl
  rw [e, List.map_id] at this
  rw [← this]
  apply List.map_congr_left
  intro o _
  cases o <;> rfl

theorem Inv.same {s : St D} {w : World D} (h : Inv idOf s w) : Same s w := by
  refine ⟨h.colls.same idOf, ?_, ?_⟩
  · intro a
    have := getElem_map h.answers a
    unfold readAnswer
    cases hs : s.answers[a]? with
    | none =>
      rw [hs] at this
      cases hw : w.answers[a]? with
      | none => rfl
      | some m => rw [hw] at this; cases this
    | some l =>
      rw [hs] at this
      cases hw : w.answers[a]? with
      | none => rw [hw] at this; cases this
      | some m =>
        rw [hw] at this
        simp only [Option.map_some, Option.some.injEq] at this ⊢
        exact ans_read this
  · intro k
    have := getElem_map h.made k
    unfold readMade
    cases hs : s.made[k]? with
    | none =>
      rw [hs] at this
      cases hw : w.made[k]? with
      | none => rfl
      | some m => rw [hw] at this; cases this
    | some r =>
      rw [hs] at this
      cases hw : w.made[k]? with
      | none => rw [hw] at this; cases this
      | some d => rw [hw] at this; simpa using this

end Verif.Share
