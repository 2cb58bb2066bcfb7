import Verif.IdxReg.Inv
/-!
The invariant is kept by every event.
-/
namespace Verif.IdxReg

variable {b : Bool} {T : List Nat} {st : State} {s : Ideal} {past : List Event}

theorem Inv.mono (h : Inv b T st s) {T' : List Nat} (hT : ∀ x ∈ T, x ∈ T') : Inv b T' st s :=
  { h with agents := fun a ha => ⟨(h.agents a ha).1, (h.agents a ha).2.1, (h.agents a ha).2.2.imp_left (hT _)⟩ }

/-- Only the members of the list of indexes count. -/
theorem Inv.congr (h : Inv b T st s) {defs : List Def} (hd : ∀ d, d ∈ s.defs ↔ d ∈ defs) : Inv b T st ⟨s.colls, defs⟩ where
  mode := h.mode
  colls := h.colls
  engOk e he := ⟨(h.engOk e he).1, (hd _).mp (h.engOk e he).2⟩
  engAll d h1 := h.engAll d ((hd d).mpr h1)
  uniq d h1 e h2 := h.uniq d ((hd d).mpr h1) e ((hd e).mpr h2)
  uniqName hb d h1 e h2 := h.uniqName hb d ((hd d).mpr h1) e ((hd e).mpr h2)
  uniqKeys d h1 e h2 := h.uniqKeys d ((hd d).mpr h1) e ((hd e).mpr h2)
  used c k n := (h.used c k n).trans (hd _)
  known d h1 := h.known d ((hd d).mpr h1)
  off := h.off
  live hb d h1 := h.live hb d ((hd d).mpr h1)
  agents a ha := by
    obtain ⟨h1, h2, h3⟩ := h.agents a ha
    refine ⟨fun hh => ?_, h2, ?_⟩
    · obtain ⟨d, hd1, hd2⟩ := h1 hh
      exact ⟨d, (hd d).mp hd1, hd2⟩
    · rcases h3 with h3 | ⟨d, hd1, hd2⟩
      · exact .inl h3
      · exact .inr ⟨d, (hd d).mp hd1, hd2⟩

theorem Inv.empty (b : Bool) : Inv b [] { onDisk := b } {} where
  mode := rfl
  colls := rfl
  engOk _ h := nomatch h
  engAll _ h := nomatch h
  uniq _ h := nomatch h
  uniqName _ _ h := nomatch h
  uniqKeys _ h := nomatch h
  used _ _ _ := ⟨fun h => (nomatch h), fun h => (nomatch h)⟩
  known _ h := nomatch h
  off _ := rfl
  live _ _ h := nomatch h
  agents _ h := nomatch h

/-- The state in which the file is read at the start. -/
theorem Inv.fresh (colls : List Coll) (file : List Def) :
    Inv true [] { onDisk := true, colls := colls.zipIdx, next := colls.length, file := file } ⟨colls, []⟩ where
  mode := rfl
  colls := List.zipIdx_map_fst _ _
  engOk _ h := nomatch h
  engAll _ h := nomatch h
  uniq _ h := nomatch h
  uniqName _ _ h := nomatch h
  uniqKeys _ h := nomatch h
  used _ _ _ := ⟨fun h => (nomatch h), fun h => (nomatch h)⟩
  known _ h := nomatch h
  off _ := rfl
  live _ _ h := nomatch h
  agents _ h := nomatch h

/-- What makes a list of indexes one that can be created: see `Inv`. -/
structure Fits (s : Ideal) : Prop where
  uniqName : ∀ d ∈ s.defs, ∀ e ∈ s.defs, d.name = e.name → d = e
  uniqKeys : ∀ d ∈ s.defs, ∀ e ∈ s.defs, d.coll = e.coll → d.keys = e.keys → d = e
  known : ∀ d ∈ s.defs, d.coll ∈ s.colls

theorem Inv.fits (h : Inv true T st s) : Fits s := ⟨h.uniqName rfl, h.uniqKeys, h.known⟩

theorem reload_ok (hs : Fits s) (l : List Def) (hl : ∀ d ∈ l, d ∈ s.defs) (P : List Def) (hP : ∀ d ∈ P, d ∈ s.defs) (st : State)
    (h : Inv true [] st ⟨s.colls, P⟩) (hf : ∀ d ∈ st.file, d ∈ s.defs) :
    ∃ st', reload l st = .ok st' ∧ (∃ P', (∀ d, d ∈ P' ↔ d ∈ P ∨ d ∈ l) ∧ Inv true [] st' ⟨s.colls, P'⟩) ∧
      (∀ d ∈ st'.file, d ∈ s.defs) ∧ ∀ d ∈ st.file, d ∈ st'.file := by
  induction l generalizing P st with
  | nil => exact ⟨st, rfl, ⟨P, fun d => by simp, h⟩, hf, fun d hd => hd⟩
  | cons d l ih =>
    have hd := hl d (by simp)
    by_cases hp : d ∈ P
    · have h1 := h.refused hp rfl rfl
      obtain ⟨st', r1, ⟨P', r2, r3⟩, r4, r5⟩ := ih (fun x hx => hl x (by simp [hx])) P hP st h hf
      refine ⟨st', by simp only [reload, h1, Res.bind_ok]; exact r1, ⟨P', fun x => ?_, r3⟩, r4, r5⟩
      rw [r2, List.mem_cons]
      constructor
      · rintro (h2 | h2)
        · exact .inl h2
        · exact .inr (.inr h2)
      · rintro (h2 | rfl | h2)
        · exact .inl h2
        · exact .inl hp
        · exact .inr h2
    · have hne : ∀ e ∈ P, e.name ≠ d.name := fun e he hh => hp (hs.uniqName e (hP e he) d hd hh ▸ he)
      obtain ⟨st1, h1, h2, h3⟩ := h.made (d := d) (hs.known d hd) (fun e he hh => hne e he hh.2)
        (fun e he h4 h5 => by rw [hs.uniqKeys e (hP e he) d hd h4 h5]) (fun _ e he hh => absurd hh (hne e he))
      have h3' : st1.file = st.file ++ [d] := h3
      obtain ⟨st', r1, ⟨P', r2, r3⟩, r4, r5⟩ := ih (fun x hx => hl x (by simp [hx])) (P ++ [d]) (fun x hx => by
          rcases List.mem_append.mp hx with hx | hx
          · exact hP x hx
          · rw [List.mem_singleton.mp hx]; exact hd) st1 h2 (fun x hx => by
          rw [h3'] at hx
          rcases List.mem_append.mp hx with hx | hx
          · exact hf x hx
          · rw [List.mem_singleton.mp hx]; exact hd)
      refine ⟨st', by simp only [reload, h1, Res.bind_ok]; exact r1, ⟨P', fun x => ?_, r3⟩, r4, fun x hx => r5 x (by rw [h3']; simp [hx])⟩
      rw [r2, List.mem_append, List.mem_singleton, List.mem_cons, or_assoc]

/-- A restart with a file that lists the indexes. -/
theorem restart_ok (hs : Fits s) (hm : st.onDisk = true) (hc : st.colls.map Prod.fst = s.colls) (hf : FileOk st s) :
    ∃ st', restart st = .ok st' ∧ Inv true [] st' s ∧ FileOk st' s := by
  have hlen : st.colls.length = s.colls.length := by rw [← hc, List.length_map]
  obtain ⟨st', r1, ⟨P', r2, r3⟩, r4, r5⟩ := reload_ok hs st.file (fun d hd => (hf d).mp hd) [] (fun _ h => nomatch h) _
    (Inv.fresh s.colls st.file) (fun d hd => (hf d).mp hd)
  refine ⟨st', ?_, ?_, ?_⟩
  · unfold restart
    rw [if_pos hm, hc, hlen]
    exact r1
  · have := r3.congr (defs := s.defs) (fun d => by rw [r2, ← hf d]; simp)
    exact this
  · exact fun d => ⟨r4 d, fun hd => r5 d ((hf d).mpr hd)⟩

/-- One event. -/
theorem step_ok (h : Inv b (touched past) st s) (hf : b = true → FileOk st s) (e : Event) (hc : Calm b past s e) :
    ∃ st', step st e = .ok (st', (s.step b e).2) ∧ Inv b (touched (past ++ [e])) st' (s.step b e).1 ∧
      (b = true → FileOk st' (s.step b e).1) := by
  have htouch : ∀ e, touched (past ++ [e]) = (match e with
      | .mkIndex d => d.coll.name :: touched past
      | .rmIndex c _ => c.name :: touched past
      | .restart => []
      | .crashRm .. => []
      | _ => touched past : List Nat) := fun e => by
    unfold touched
    rw [List.foldl_append]
    cases e <;> rfl
  rw [htouch]
  cases e with
  | mkColl c =>
    by_cases hm : c ∈ s.colls
    · have hm' : c ∈ st.colls.map Prod.fst := by rw [h.colls]; exact hm
      refine ⟨st, ?_, ?_, ?_⟩
      · simp only [step, mkColl, Ideal.step, if_pos hm, if_pos hm']
      · simp only [Ideal.step, if_pos hm]; exact h
      · simp only [Ideal.step, if_pos hm]; exact hf
    · have hm' : c ∉ st.colls.map Prod.fst := by rw [h.colls]; exact hm
      refine ⟨{ st with colls := st.colls ++ [(c, st.next)], next := st.next + 1 }, ?_, ?_, ?_⟩
      · simp only [step, mkColl, Ideal.step, if_neg hm, if_neg hm']
      · simp only [Ideal.step, if_neg hm]
        exact { h with
          colls := by simp [h.colls]
          known := fun d hd => List.mem_append_left _ (h.known d hd)
          agents := fun a ha => ⟨(h.agents a ha).1, List.mem_append_left _ (h.agents a ha).2.1, (h.agents a ha).2.2⟩ }
      · simp only [Ideal.step, if_neg hm]; exact hf
  | rmColl c =>
    by_cases hm : c ∈ s.colls
    · have hm' : c ∈ st.colls.map Prod.fst := by rw [h.colls]; exact hm
      let st1 : State := { st with
        colls := st.colls.filter fun p => p.1 ≠ c
        eng := st.eng.filter fun e => e.coll ≠ c
        used := st.used.filter fun u => u.1 ≠ c }
      have hrm : rmColl c st = if !st.onDisk then .ok (st1, .ok)
          else if st1.agents.any fun a => a.ctx ∉ st1.colls.map Prod.snd then .ub else .ok (dropAgents c st1, .ok) := by
        unfold rmColl
        rw [if_pos hm']
      have hag : ∀ a ∈ st.agents, b = true → a.coll.name ≠ c.name := by
        intro a ha hb hh
        obtain ⟨c1, c2⟩ := hc hb
        rcases (h.agents a ha).2.2 with h1 | ⟨d, hd, h1⟩
        · exact c1 (hh ▸ h1)
        · exact c2 d hd (h1.trans hh)
      have hst1 : step st (.rmColl c) = .ok (st1, some .ok) := by
        cases b with
        | false => 
          show ((rmColl c st).map' fun r => (r.1, some r.2)) = _
          rw [hrm, if_pos (by rw [h.mode]; rfl)]; rfl
        | true =>
          have h1 : (st1.agents.any fun a => a.ctx ∉ st1.colls.map Prod.snd) = false := by
            rw [← Bool.not_eq_true, List.any_eq_true]
            rintro ⟨a, ha, h2⟩
            rw [decide_eq_true_eq] at h2
            refine h2 (List.mem_map.mpr ⟨(a.coll, a.ctx), List.mem_filter.mpr ⟨(h.agents a ha).2.1, ?_⟩, rfl⟩)
            refine decide_eq_true fun hh => hag a ha rfl ?_
            have hh' : a.coll = c := hh
            rw [hh']
          have h2 : (st1.agents.any fun a => a.coll.name = c.name) = false := by
            rw [← Bool.not_eq_true, List.any_eq_true]
            rintro ⟨a, ha, h2⟩
            exact hag a ha rfl (of_decide_eq_true h2)
          have h3 : dropAgents c st1 = st1 := by simp only [dropAgents, h2, if_false, Bool.false_eq_true]
          show ((rmColl c st).map' fun r => (r.1, some r.2)) = _
          rw [hrm, if_neg (by rw [h.mode]; decide), if_neg (by rw [h1]; decide), h3]; rfl
      have keep : ∀ d, d ∈ s.defs.filter (fun x => x.coll ≠ c) ↔ d ∈ s.defs ∧ d.coll ≠ c := fun d => by
        rw [List.mem_filter, decide_eq_true_eq]
      refine ⟨st1, ?_, ?_, ?_⟩
      · rw [hst1]; simp only [Ideal.step, if_pos hm]
      · simp only [Ideal.step, if_pos hm]
        exact {
          mode := h.mode
          colls := by
            show (st.colls.filter _).map Prod.fst = s.colls.filter _
            rw [← h.colls, List.filter_map]; rfl
          engOk := fun e he => by
            obtain ⟨h1, h2⟩ := List.mem_filter.mp he
            exact ⟨(h.engOk e h1).1, (keep _).mpr ⟨(h.engOk e h1).2, of_decide_eq_true h2⟩⟩
          engAll := fun d hd => by
            obtain ⟨h1, h2⟩ := (keep d).mp hd
            exact List.mem_filter.mpr ⟨h.engAll d h1, decide_eq_true h2⟩
          uniq := fun x hx y hy => h.uniq x ((keep x).mp hx).1 y ((keep y).mp hy).1
          uniqName := fun hb x hx y hy => h.uniqName hb x ((keep x).mp hx).1 y ((keep y).mp hy).1
          uniqKeys := fun x hx y hy => h.uniqKeys x ((keep x).mp hx).1 y ((keep y).mp hy).1
          used := fun x k n => by
            rw [keep]
            show (x, k, n) ∈ st.used.filter _ ↔ _
            rw [List.mem_filter, h.used, decide_eq_true_eq]
          known := fun d hd => by
            obtain ⟨h1, h2⟩ := (keep d).mp hd
            exact List.mem_filter.mpr ⟨h.known d h1, decide_eq_true h2⟩
          off := h.off
          live := fun hb d hd => h.live hb d ((keep d).mp hd).1
          agents := fun a ha => by
            obtain ⟨h1, h2, h3⟩ := h.agents a ha
            cases b with
            | false =>
              have ha' : a ∈ st.agents := ha
              rw [h.off rfl] at ha'; cases ha'
            | true =>
              obtain ⟨c1, c2⟩ := hc rfl
              refine ⟨fun hd => ?_, List.mem_filter.mpr ⟨h2, decide_eq_true fun hh => hag a ha rfl ?_⟩, ?_⟩
              · obtain ⟨d, hd1, hd2⟩ := h1 hd
                exact ⟨d, (keep d).mpr ⟨hd1, fun hh => c2 d hd1 (by rw [hh])⟩, hd2⟩
              · have hh' : a.coll = c := hh
                rw [hh']
              · rcases h3 with h3 | ⟨d, hd1, hd2⟩
                · exact .inl h3
                · exact .inr ⟨d, (keep d).mpr ⟨hd1, fun hh => c2 d hd1 (by rw [hh])⟩, hd2⟩ }
      · simp only [Ideal.step, if_pos hm]
        intro hb d
        obtain ⟨c1, c2⟩ := hc hb
        rw [keep]
        exact (hf hb d).trans ⟨fun hd => ⟨hd, fun hh => c2 d hd (by rw [hh])⟩, fun hd => hd.1⟩
    · have hm' : c ∉ st.colls.map Prod.fst := by rw [h.colls]; exact hm
      refine ⟨st, ?_, ?_, ?_⟩
      · simp only [step, rmColl, Ideal.step, if_neg hm, if_neg hm']; rfl
      · simp only [Ideal.step, if_neg hm]; exact h
      · simp only [Ideal.step, if_neg hm]; exact hf
  | mkIndex d =>
    obtain ⟨hk, hg⟩ := hc
    have mono := fun x (hx : x ∈ touched past) => (List.mem_cons_of_mem d.coll.name hx)
    by_cases hn : d.coll ∈ s.colls ∧ ∀ e ∈ s.defs, ¬ (e.coll = d.coll ∧ e.name = d.name)
    · obtain ⟨st', r1, r2, r3⟩ := h.made hn.1 hn.2 hk (fun hb => by rw [if_pos hb] at hg; exact hg)
      refine ⟨st', ?_, ?_, ?_⟩
      · simp only [step, r1, Ideal.step, if_pos hn]; rfl
      · simp only [Ideal.step, if_pos hn]; exact r2.mono mono
      · simp only [Ideal.step, if_pos hn]
        intro hb x
        rw [r3, if_pos hb, List.mem_append, List.mem_append, hf hb x]
    · have herr : mkIndex d st = .ok (st, .error) := by
        by_cases hcc : d.coll ∈ s.colls
        · have : ∃ e ∈ s.defs, e.coll = d.coll ∧ e.name = d.name := by
            by_contra hh
            exact hn ⟨hcc, fun e he h1 => hh ⟨e, he, h1⟩⟩
          obtain ⟨e, he, h1, h2⟩ := this
          cases b with
          | true => exact h.refused he h1 h2
          | false =>
            rw [if_neg (by simp)] at hg
            exact absurd ⟨h1, h2⟩ (hg hcc e he)
        · unfold mkIndex
          have : st.colls.find? (fun p => p.1 = d.coll) = none := by
            rw [List.find?_eq_none]
            intro p hp hh
            refine hcc ?_
            rw [← h.colls, ← of_decide_eq_true hh]
            exact List.mem_map_of_mem hp
          rw [this]
      refine ⟨st, ?_, ?_, ?_⟩
      · simp only [step, herr, Ideal.step, if_neg hn]; rfl
      · simp only [Ideal.step, if_neg hn]; exact h.mono mono
      · simp only [Ideal.step, if_neg hn]; exact hf
  | rmIndex c n =>
    by_cases hn : ∃ e ∈ s.defs, e.coll = c ∧ e.name = n
    · obtain ⟨d, hd, rfl, rfl⟩ := hn
      have hn : ∃ e ∈ s.defs, e.coll = d.coll ∧ e.name = d.name := ⟨d, hd, rfl, rfl⟩
      obtain ⟨st', r1, r2, -, r3⟩ := h.dropped hf hd
      refine ⟨st', ?_, ?_, ?_⟩
      · simp only [step, r1, Ideal.step, if_pos hn]
      · simp only [Ideal.step, if_pos hn]; exact r2
      · simp only [Ideal.step, if_pos hn]; exact r3
    · have hnone : st.eng.find? (fun e => e.coll = c && e.name = n) = none := by
        rw [List.find?_eq_none]
        intro e he hh
        simp only [Bool.and_eq_true, decide_eq_true_eq] at hh
        exact hn ⟨_, (h.engOk e he).2, hh.1, hh.2⟩
      refine ⟨st, ?_, ?_, ?_⟩
      · simp only [step, rmIndex, hnone, Ideal.step, if_neg hn]
      · simp only [Ideal.step, if_neg hn]; exact h.mono fun x hx => List.mem_cons_of_mem _ hx
      · simp only [Ideal.step, if_neg hn]; exact hf
  | insert c =>
    refine ⟨st, ?_, h, hf⟩
    have : ((st.eng.filter fun e => e.coll = c && e.disk).all fun e => taken st.agents e.name) = true := by
      rw [List.all_eq_true]
      intro e he
      obtain ⟨h1, h2⟩ := List.mem_filter.mp he
      simp only [Bool.and_eq_true] at h2
      have h3 := h.engOk e h1
      exact h.live (h3.1.symm.trans h2.2) _ h3.2
    simp only [step, insert, this, if_true]; rfl
  | restart =>
    cases b with
    | false =>
      refine ⟨{ onDisk := false }, ?_, Inv.empty false, fun hh => nomatch hh⟩
      simp only [step, restart, h.mode, Bool.false_eq_true, if_false]; rfl
    | true =>
      obtain ⟨st', r1, r2, r3⟩ := restart_ok h.fits h.mode h.colls (hf rfl)
      exact ⟨st', by simp only [step, r1]; rfl, r2, fun _ => r3⟩
  | crashRm c n k =>
    cases b with
    | false =>
      refine ⟨{ onDisk := false }, ?_, Inv.empty false, fun hh => nomatch hh⟩
      simp only [step, crashRm]
      split
      · simp only [restart, h.mode, Bool.false_eq_true, if_false]; rfl
      · rename_i e he
        have : e.disk = false := (h.engOk e (List.mem_of_find?_eq_some he)).1
        simp only [this, Bool.false_eq_true, if_false, restart, h.mode]; rfl
    | true =>
      by_cases hn : ∃ e ∈ s.defs, e.coll = c ∧ e.name = n
      · have hall := hc rfl hn
        have hempty : s.defs.filter (fun e => ¬ (e.coll = c ∧ e.name = n)) = [] := by
          rw [List.filter_eq_nil_iff]
          intro e he hh
          exact of_decide_eq_true hh (hall e he)
        have hfile : st.file.filter (fun d => d.name ≠ n) = [] := by
          rw [List.filter_eq_nil_iff]
          intro e he hh
          exact of_decide_eq_true hh (hall e ((hf rfl e).mp he)).2
        obtain ⟨d, hd, rfl, rfl⟩ := hn
        obtain ⟨e, he, hed⟩ : ∃ e, st.eng.find? (fun e => e.coll = d.coll && e.name = d.name) = some e ∧ e.disk = true := by
          cases hq : st.eng.find? (fun e => e.coll = d.coll && e.name = d.name) with
          | none =>
            have := List.find?_eq_none.mp hq _ (h.engAll d hd)
            simp at this
          | some e => exact ⟨e, rfl, (h.engOk e (List.mem_of_find?_eq_some hq)).1⟩
        obtain ⟨st', r1, r2, r3⟩ := restart_ok (st := { st with file := [] }) (s := ⟨s.colls, []⟩)
          ⟨fun _ h => (nomatch h), fun _ h => (nomatch h), fun _ h => (nomatch h)⟩ h.mode h.colls (fun d => Iff.rfl)
        refine ⟨st', ?_, ?_, ?_⟩
        · simp only [step, crashRm, he, hed, if_true, hfile, List.take_nil, r1]; rfl
        · simp only [Ideal.step, if_true, hempty]; exact r2
        · simp only [Ideal.step, if_true, hempty]; exact fun _ => r3
      · have hnone : st.eng.find? (fun e => e.coll = c && e.name = n) = none := by
          rw [List.find?_eq_none]
          intro e he hh
          simp only [Bool.and_eq_true, decide_eq_true_eq] at hh
          exact hn ⟨_, (h.engOk e he).2, hh.1, hh.2⟩
        have hsame : s.defs.filter (fun e => ¬ (e.coll = c ∧ e.name = n)) = s.defs := by
          rw [List.filter_eq_self]
          exact fun e he => decide_eq_true fun hh => hn ⟨e, he, hh⟩
        obtain ⟨st', r1, r2, r3⟩ := restart_ok h.fits h.mode h.colls (hf rfl)
        refine ⟨st', ?_, ?_, ?_⟩
        · simp only [step, crashRm, hnone, r1]; rfl
        · simp only [Ideal.step, if_true, hsame]; exact r2
        · simp only [Ideal.step, if_true, hsame]; exact fun _ => r3

theorem Ideal.run_append (b : Bool) (s : Ideal) (es fs : List Event) :
    Ideal.run b s (es ++ fs) = ((Ideal.run b (Ideal.run b s es).1 fs).1, (Ideal.run b s es).2 ++ (Ideal.run b (Ideal.run b s es).1 fs).2) := by
  induction es generalizing s with
  | nil => rfl
  | cons e es ih => simp only [List.cons_append, Ideal.run, ih]

theorem run_ok_aux (es past : List Event) (h : Inv b (touched past) st s) (hf : b = true → FileOk st s)
    (hs : (Ideal.run b {} past).1 = s) (hl : Legal b (past ++ es)) :
    ∃ st', run st es = .ok (st', (Ideal.run b s es).2) ∧ Inv b (touched (past ++ es)) st' (Ideal.run b s es).1 ∧
      (b = true → FileOk st' (Ideal.run b s es).1) := by
  induction es generalizing past st s with
  | nil => exact ⟨st, rfl, by rw [List.append_nil]; exact h, hf⟩
  | cons e es ih =>
    have hc := hl past e es rfl
    rw [hs] at hc
    obtain ⟨st1, r1, r2, r3⟩ := step_ok h hf e hc
    have hap : past ++ e :: es = (past ++ [e]) ++ es := by simp
    obtain ⟨st', q1, q2, q3⟩ := ih (past ++ [e]) r2 r3 (by rw [Ideal.run_append, hs]; rfl) (hap ▸ hl)
    refine ⟨st', ?_, ?_, q3⟩
    · simp only [run, r1, Res.bind_ok, q1]; rfl
    · rw [hap]; exact q2

theorem run_ok (es : List Event) (hl : Legal b es) :
    ∃ st', run { onDisk := b } es = .ok (st', (Ideal.run b {} es).2) ∧ Inv b (touched es) st' (Ideal.run b {} es).1 ∧
      (b = true → FileOk st' (Ideal.run b {} es).1) :=
  run_ok_aux es [] (Inv.empty b) (fun _ _ => Iff.rfl) rfl hl

end Verif.IdxReg
