import Verif.DiskIdx.Inv
/-!
Schedules.
-/
namespace Verif.DiskIdx

open Verif.IndexDisk (Cmp rows Op want wants)
set_option linter.unusedSectionVars false

variable {K : Type} [LinearOrder K]

theorem run_append (q : List (K × Id) → Cmp → K → List Id) (st : State K) (a b : List (Event K)) :
    run q st (a ++ b) = (run q st a).bind fun st' => run q st' b := by
  induction a generalizing st with
  | nil => rfl
  | cons e a ih =>
    simp only [List.cons_append, run]
    cases step q st e with
    | ok st' => exact ih st'
    | throws => rfl
    | ub => rfl
    | diverges => rfl

theorem run_snoc (q : List (K × Id) → Cmp → K → List Id) (st : State K) (a : List (Event K)) (e : Event K) :
    run q st (a ++ [e]) = (run q st a).bind fun st' => step q st' e := by
  rw [run_append]
  congr 1
  funext st'
  simp only [run]
  cases step q st' e <;> rfl

theorem sessionsOf_append (a b : List (Event K)) : sessionsOf (a ++ b) = sessionsOf a ++ sessionsOf b := by
  induction a with
  | nil => rfl
  | cons e a ih => cases e <;> simp [sessionsOf, ih]

theorem asked_append (a b : List (Event K)) : asked (a ++ b) = (asked a || asked b) := by
  induction a with
  | nil => simp [asked]
  | cons e a ih =>
    cases e with
    | request s r => cases r <;> simp [asked, ih]
    | agent => simp [asked, ih]
    | reply => simp [asked, ih]

theorem Legal.prefix {q : List (K × Id) → Cmp → K → List Id} {st0 : State K} {a b : List (Event K)} (h : Legal q st0 (a ++ b)) : Legal q st0 a :=
  fun x e y hxy st hst => h x e (y ++ b) (by rw [hxy, List.append_assoc, List.cons_append]) st hst

theorem mem_sessions {s : Session} {r : Req K} {es : List (Event K)} (h : Event.request s r ∈ es) : s ∈ sessionsOf es := by
  induction es with
  | nil => cases h
  | cons e es ih =>
    rcases List.mem_cons.mp h with rfl | h
    · simp [sessionsOf]
    · have := ih h
      cases e <;> simp [sessionsOf, this]

/-- What an event may do to the documents and to what is written of them. -/
theorem filter_ids {S : List (Doc K)} (hS : (S.map Doc.id).Nodup) (p : Doc K → Bool) :
    S.filter (fun e => e.id ∉ (S.filter p).map Doc.id) = S.filter fun e => !p e := by
  refine List.filter_congr fun e he => ?_
  cases hp : p e with
  | true =>
    simp only [Bool.not_true, decide_eq_false_iff_not, not_not]
    exact List.mem_map_of_mem (List.mem_filter.mpr ⟨he, hp⟩)
  | false =>
    simp only [Bool.not_false, decide_eq_true_eq]
    intro h
    obtain ⟨x, hx, hi⟩ := List.mem_map.mp h
    obtain ⟨hx, hpx⟩ := List.mem_filter.mp hx
    rw [unique_id hS hx he hi, hp] at hpx
    cases hpx

theorem deleteIf_ok {past : List (Event K)} {g : Session → List (Doc K) × Plan K} {st : State K}
    (h : Inv (sessionsOf past) (asked past) g st) {s : Session} (hs : s ∉ sessionsOf past) (p : Doc K → Bool)
    (hp : (∀ d ∈ st.store, p d = true → d.key = none) ∨ asked past = false) :
    ∃ st', request s (.deleteIf p) st = .ok st' ∧ Inv (sessionsOf past ++ [s]) (asked past) g st' ∧
      st'.store = st.store.filter (fun e => !p e) ∧ st'.susp = st.susp ∧ st'.answers = st.answers ∧
      (st.saved = st.store → st'.saved = st'.store) := by
  have hss : s ∉ st.susp.map Prod.fst := fun hm => by
    obtain ⟨e, he, rfl⟩ := List.mem_map.mp hm
    exact hs (h.usedSusp e he)
  have hin : ∀ d ∈ st.store.filter p, d ∈ st.store := fun d hd => List.mem_of_mem_filter hd
  have hnd : ((st.store.filter p).map Doc.id).Nodup := (List.filter_sublist.map Doc.id).nodup h.ids
  have hfi := filter_ids h.ids p
  have hR : ∃ R, (st.mem.map Prod.fst).Perm ((st.store.filter p).filterMap Doc.key ++ R) ∧
      (asked past = false → R.Perm ((st.store.filter fun e => e.id ∉ (st.store.filter p).map Doc.id).filterMap Doc.key)) ∧
      ((∀ d ∈ st.store.filter p, d.key = none) ∨ st.susp = []) := by
    by_cases ha : asked past = false
    · refine ⟨(st.store.filter fun e => !p e).filterMap Doc.key, ?_, ?_, .inr (h.mem ha).1⟩
      · refine (h.mem ha).2.trans ?_
        rw [← List.filterMap_append]
        exact ((List.filter_append_perm p st.store).filterMap Doc.key).symm
      · intro _; rw [hfi]
    · have hp' := hp.resolve_right ha
      have hnone : (st.store.filter p).filterMap Doc.key = [] := by
        rw [List.filterMap_eq_nil_iff]
        intro d hd
        obtain ⟨h1, h2⟩ := List.mem_filter.mp hd
        exact hp' d h1 h2
      refine ⟨st.mem.map Prod.fst, by rw [hnone]; exact List.Perm.refl _, fun h1 => absurd h1 ha, .inl fun d hd => ?_⟩
      obtain ⟨h1, h2⟩ := List.mem_filter.mp hd
      exact hp' d h1 h2
  obtain ⟨R, r1, r2, r3⟩ := hR
  obtain ⟨m, e1, e2⟩ := deleteAll_ok s (st.store.filter p) st hnd hin R r1
  have hinv := h.delete (used' := sessionsOf past ++ [s]) (fun x hx => List.mem_append_left _ hx) (s := s) (by simp) hss
    (st.store.filter p) m hin r3 (fun hf => e1.trans (r2 hf)) (st.saved.filter fun e => e.id ∉ (st.store.filter p).map Doc.id)
  refine ⟨_, ?_, hinv, hfi, rfl, rfl, fun hsv => ?_⟩
  · unfold request
    rw [if_neg hss]
    simp only [e2, Res.map'_ok]
  · show st.saved.filter _ = st.store.filter _
    rw [hsv]

/-- Everything an event does. -/
theorem step_ok {q : List (K × Id) → Cmp → K → List Id} (hq : Honest q) {past : List (Event K)}
    {g : Session → List (Doc K) × Plan K} {st : State K} (h : Inv (sessionsOf past) (asked past) g st) (e : Event K) (hc : Calm past st e) :
    ∃ st' g', step q st e = .ok st' ∧ Inv (sessionsOf (past ++ [e])) (asked (past ++ [e])) g' st' ∧
      (∀ s ∈ sessionsOf past, g' s = g s) ∧ (∀ s p, e = .request s (.scan p) → g' s = (st.store, p) ∧ (s, p) ∈ st'.susp) ∧
      (∀ x ∈ st'.susp, x ∈ st.susp ∨ e = .request x.1 (.scan x.2)) ∧
      (∀ x ∈ st.susp, x ∈ st'.susp ∨ x.1 ∈ st'.answers.map Prod.fst) ∧ (∀ x ∈ st.answers, x ∈ st'.answers) := by
  rw [sessionsOf_append, asked_append]
  cases e with
  | agent =>
    refine ⟨agent q st, g, rfl, by simpa [sessionsOf, asked] using h.agent hq, fun _ _ => rfl, (fun _ _ h1 => nomatch h1), ?_, ?_, ?_⟩
    all_goals
      unfold agent
      split
      all_goals intro x hx
      all_goals first | exact .inl hx | exact hx
  | reply =>
    obtain ⟨st', e1, e2, -, -, e5, e6, -, e8⟩ := h.reply
    exact ⟨st', g, e1, by simpa [sessionsOf, asked] using e2, fun _ _ => rfl, (fun _ _ h1 => nomatch h1), fun x hx => .inl (e8 x hx), e5, e6⟩
  | request s r =>
    obtain ⟨hs, hr⟩ := hc
    have hss : s ∉ st.susp.map Prod.fst := fun hm => by
      obtain ⟨e, he, rfl⟩ := List.mem_map.mp hm
      exact hs (h.usedSusp e he)
    cases r with
    | insert ds =>
      obtain ⟨hn, hd⟩ := hr
      have hi := h.insert hs ds hn hd
      obtain ⟨m, sv, -, -, e3⟩ := insertAll_ok s ds st hn hd
      refine ⟨insertAll s ds st, g, ?_, by simpa [sessionsOf, asked] using hi, fun _ _ => rfl, (fun _ _ h1 => nomatch h1), ?_, ?_, ?_⟩
      · simp only [step, request, if_neg hss]
      all_goals rw [e3]; intro x hx
      all_goals first | exact .inl hx | exact hx
    | scan p =>
      have hi := h.scan hs p hr
      refine ⟨{ st with box := st.box ++ [.find s p.val p.cmp], susp := st.susp ++ [(s, p)] }, Function.update g s (st.store, p), ?_, by simpa [sessionsOf, asked] using hi, fun s' hs' => ?_, ?_, ?_, ?_, fun x hx => hx⟩
      · simp only [step, request, if_neg hss]
      · rw [Function.update_of_ne]; rintro rfl; exact hs hs'
      · intro s' p' he
        injection he with h1 h2
        injection h2 with h2
        subst h1; subst h2
        exact ⟨Function.update_self .., by simp⟩
      · intro x hx
        rcases List.mem_append.mp hx with hx | hx
        · exact .inl hx
        · rw [List.mem_singleton.mp hx]; exact .inr rfl
      · intro x hx; exact .inl (List.mem_append_left _ hx)
    | deleteIf p =>
      obtain ⟨st', e1, e2, -, e4, e5, -⟩ := deleteIf_ok h hs p hr
      refine ⟨st', g, e1, by simpa [sessionsOf, asked] using e2, fun _ _ => rfl, (fun _ _ h1 => nomatch h1), ?_, ?_, ?_⟩
      · rw [e4]; exact fun x hx => .inl hx
      · rw [e4]; exact fun x hx => .inl hx
      · rw [e5]; exact fun x hx => hx

/-- Everything about a schedule. -/
theorem run_ok [hK : Nonempty K] {q : List (K × Id) → Cmp → K → List Id} (hq : Honest q) {st0 : State K} (h0 : Clean st0) (es : List (Event K)) (hl : Legal q st0 es) :
    ∃ st g, run q st0 es = .ok st ∧ Inv (sessionsOf es) (asked es) g st ∧
      (∀ a s p b, es = a ++ .request s (.scan p) :: b → ∀ sa, run q st0 a = .ok sa → g s = (sa.store, p)) ∧
      (∀ x ∈ st.susp, .request x.1 (.scan x.2) ∈ es) ∧
      (∀ s p, .request s (.scan p) ∈ es → s ∈ st.susp.map Prod.fst ∨ s ∈ st.answers.map Prod.fst) := by
  induction es using List.reverseRecOn with
  | nil =>
    obtain ⟨k⟩ := hK
    refine ⟨st0, fun _ => ([], ⟨.other, k, 0, false⟩), rfl, Inv.init h0 _, ?_, ?_, fun _ _ h => nomatch h⟩
    · intro a s p b h; simp at h
    · intro x hx; rw [h0.susp] at hx; cases hx
  | append_singleton es e ih =>
    obtain ⟨st, g, r1, r2, r3, r4, r5⟩ := ih hl.prefix
    obtain ⟨st', g', s1, s2, s3, s4, s5, s6, s7⟩ := step_ok hq r2 e (hl es e [] rfl st r1)
    refine ⟨st', g', by rw [run_snoc, r1]; exact s1, s2, ?_, ?_, ?_⟩
    · intro a s p b hab sa hsa
      rcases List.eq_nil_or_concat b with rfl | ⟨b', z, rfl⟩
      · obtain ⟨h1, h2⟩ := List.append_inj' hab rfl
        subst h1
        injection h2 with h2
        rw [r1] at hsa
        injection hsa with hsa
        subst hsa
        exact (s4 s p h2).1
      · have hab' : es ++ [e] = (a ++ .request s (.scan p) :: b') ++ [z] := by rw [hab]; simp
        obtain ⟨h1, h2⟩ := List.append_inj' hab' rfl
        rw [s3 s (mem_sessions (r := .scan p) (by rw [h1]; simp))]
        exact r3 a s p b' h1 sa hsa
    · intro x hx
      rcases s5 x hx with h1 | h1
      · exact List.mem_append_left _ (r4 x h1)
      · rw [h1]; simp
    · intro s p hsp
      rcases List.mem_append.mp hsp with hsp | hsp
      · rcases r5 s p hsp with h1 | h1
        · obtain ⟨x, hx, rfl⟩ := List.mem_map.mp h1
          rcases s6 x hx with h2 | h2
          · exact .inl (List.mem_map_of_mem h2)
          · exact .inr h2
        · obtain ⟨x, hx, rfl⟩ := List.mem_map.mp h1
          exact .inr (List.mem_map_of_mem (s7 x hx))
      · exact .inl (List.mem_map_of_mem (f := Prod.fst) (s4 s p (List.mem_singleton.mp hsp).symm).2)

end Verif.DiskIdx
