import Verif.IdxReg.Spec
/-!
The invariant behind C79.
-/
namespace Verif.IdxReg

/-- The state agrees with the ideal; `T` are the names of collections that may have agents of dropped indexes. -/
structure Inv (b : Bool) (T : List Nat) (st : State) (s : Ideal) : Prop where
  mode : st.onDisk = b
  colls : st.colls.map Prod.fst = s.colls
  engOk : ∀ e ∈ st.eng, e.disk = b ∧ ⟨e.name, e.keys, e.coll⟩ ∈ s.defs
  engAll : ∀ d ∈ s.defs, ⟨d.coll, d.name, d.keys, b⟩ ∈ st.eng
  uniq : ∀ d ∈ s.defs, ∀ e ∈ s.defs, d.coll = e.coll → d.name = e.name → d = e
  uniqName : b = true → ∀ d ∈ s.defs, ∀ e ∈ s.defs, d.name = e.name → d = e
  uniqKeys : ∀ d ∈ s.defs, ∀ e ∈ s.defs, d.coll = e.coll → d.keys = e.keys → d = e
  used : ∀ c k n, (c, k, n) ∈ st.used ↔ ⟨n, k, c⟩ ∈ s.defs
  known : ∀ d ∈ s.defs, d.coll ∈ s.colls
  off : b = false → st.agents = []
  live : b = true → ∀ d ∈ s.defs, taken st.agents d.name = true
  agents : ∀ a ∈ st.agents, (a.dropped = false → ∃ d ∈ s.defs, d.name = a.name) ∧ (a.coll, a.ctx) ∈ st.colls ∧
    (a.coll.name ∈ T ∨ ∃ d ∈ s.defs, d.coll.name = a.coll.name)

/-- The file lists the indexes. -/
def FileOk (st : State) (s : Ideal) : Prop := ∀ d, d ∈ st.file ↔ d ∈ s.defs

theorem has_iff {eng : List Entry} {c : Coll} {n : Name} : has eng c n = true ↔ ∃ e ∈ eng, e.coll = c ∧ e.name = n := by
  simp [has]

theorem taken_iff {ag : List Agent} {n : Name} : taken ag n = true ↔ ∃ a ∈ ag, a.name = n ∧ a.dropped = false := by
  simp [taken]

variable {b : Bool} {T : List Nat} {st : State} {s : Ideal}

theorem Inv.has (h : Inv b T st s) (c : Coll) (n : Name) : has st.eng c n = true ↔ ∃ d ∈ s.defs, d.coll = c ∧ d.name = n := by
  rw [has_iff]
  constructor
  · rintro ⟨e, he, rfl, rfl⟩
    exact ⟨_, (h.engOk e he).2, rfl, rfl⟩
  · rintro ⟨d, hd, rfl, rfl⟩
    exact ⟨_, h.engAll d hd, rfl, rfl⟩

/-- An index that is there is refused. -/
theorem Inv.refused (h : Inv true T st s) {d e : Def} (he : e ∈ s.defs) (h1 : e.coll = d.coll) (h2 : e.name = d.name) :
    mkIndex d st = .ok (st, .error) := by
  have hh : IdxReg.has st.eng d.coll d.name = true := (h.has _ _).mpr ⟨e, he, h1, h2⟩
  have ht : taken st.agents d.name = true := h2 ▸ h.live rfl e he
  unfold mkIndex
  split
  · rfl
  · simp [createIndex, ensure, hh, h.mode, ht]

/-- An index is made. -/
theorem Inv.made (h : Inv b T st s) {d : Def} (hc : d.coll ∈ s.colls) (hn : ∀ e ∈ s.defs, ¬ (e.coll = d.coll ∧ e.name = d.name))
    (hk : ∀ e ∈ s.defs, e.coll = d.coll → e.keys = d.keys → e.name = d.name)
    (hg : b = true → ∀ e ∈ s.defs, e.name = d.name → e.coll = d.coll) :
    ∃ st', mkIndex d st = .ok (st', .ok) ∧ Inv b T st' ⟨s.colls, s.defs ++ [d]⟩ ∧ st'.file = (if b then st.file ++ [d] else st.file) := by
  have hh : IdxReg.has st.eng d.coll d.name = false := by
    rw [← Bool.not_eq_true, h.has]
    rintro ⟨e, he, h1, h2⟩
    exact hn e he ⟨h1, h2⟩
  have hnn : b = true → ∀ e ∈ s.defs, e.name ≠ d.name := fun hb e he hh' => hn e he ⟨hg hb e he hh', hh'⟩
  have hkk : ∀ e ∈ s.defs, e.coll = d.coll → e.keys ≠ d.keys := fun e he h1 h2 => hn e he ⟨h1, hk e he h1 h2⟩
  have ht : b = true → taken st.agents d.name = false := by
    intro hb
    rw [← Bool.not_eq_true, taken_iff]
    rintro ⟨a, ha, h1, h2⟩
    obtain ⟨e, he, h3⟩ := (h.agents a ha).1 h2
    exact hnn hb e he (h3.trans h1)
  obtain ⟨p, hp, hp1⟩ : ∃ p ∈ st.colls, p.1 = d.coll := by
    rw [← h.colls, List.mem_map] at hc
    obtain ⟨p, hp, hp1⟩ := hc
    exact ⟨p, hp, hp1⟩
  have hf : ∃ p ∈ st.colls, p.1 = d.coll ∧ st.colls.find? (fun p => p.1 = d.coll) = some p := by
    cases hq : st.colls.find? (fun p => p.1 = d.coll) with
    | none =>
      have := List.find?_eq_none.mp hq p hp
      simp [hp1] at this
    | some q =>
      exact ⟨q, List.mem_of_find?_eq_some hq, by simpa using List.find?_some hq, rfl⟩
  obtain ⟨q, hq1, hq2, hq3⟩ := hf
  have hu : st.used.any (fun u => u.1 = d.coll && u.2.1 = d.keys) = false := by
    rw [← Bool.not_eq_true, List.any_eq_true]
    rintro ⟨⟨c, k, n⟩, hu, h2⟩
    simp only [Bool.and_eq_true, decide_eq_true_eq] at h2
    exact hkk _ ((h.used c k n).mp hu) h2.1 h2.2
  let eng' : List Entry := (st.eng ++ [(⟨d.coll, d.name, d.keys, false⟩ : Entry)]).map fun (e : Entry) => if e.coll = d.coll && e.name = d.name then { e with disk := b } else e
  have heng : ∀ e ∈ eng', e.disk = b ∧ ⟨e.name, e.keys, e.coll⟩ ∈ s.defs ++ [d] := by
    intro e he
    obtain ⟨x, hx, rfl⟩ := List.mem_map.mp he
    rcases List.mem_append.mp hx with hx | hx
    · have hxx := h.engOk x hx
      split
      · exact ⟨rfl, List.mem_append_left _ hxx.2⟩
      · exact ⟨hxx.1, List.mem_append_left _ hxx.2⟩
    · rw [List.mem_singleton] at hx
      subst hx
      simp
  have hengA : ∀ e ∈ s.defs ++ [d], (⟨e.coll, e.name, e.keys, b⟩ : Entry) ∈ eng' := by
    intro e he
    rw [List.mem_map]
    rcases List.mem_append.mp he with he | he
    · refine ⟨_, List.mem_append_left _ (h.engAll e he), ?_⟩
      split <;> rfl
    · rw [List.mem_singleton] at he
      subst he
      exact ⟨_, List.mem_append_right _ (List.mem_singleton.mpr rfl), by simp⟩
  let st' : State := { st with
    eng := eng'
    used := st.used ++ [(d.coll, d.keys, d.name)]
    agents := if b then st.agents.filter (fun a => a.name ≠ d.name) ++ [⟨d.name, d.coll, q.2, false⟩] else st.agents
    file := if b then st.file ++ [d] else st.file }
  refine ⟨st', ?_, ?_, rfl⟩
  · unfold mkIndex
    rw [hq3]
    cases b with
    | true => simp [createIndex, ensure, hh, h.mode, addIndex, hu, ht rfl, finish, st', eng']
    | false => simp [createIndex, ensure, hh, h.mode, addIndex, hu, finish, st', eng']
  · exact {
      mode := h.mode
      colls := h.colls
      engOk := heng
      engAll := hengA
      uniq := by
        intro x hx y hy h1 h2
        rcases List.mem_append.mp hx with g | g <;> rcases List.mem_append.mp hy with i | i
        · exact h.uniq x g y i h1 h2
        · rw [List.mem_singleton.mp i] at h1 h2; exact absurd ⟨h1, h2⟩ (hn x g)
        · rw [List.mem_singleton.mp g] at h1 h2; exact absurd ⟨h1.symm, h2.symm⟩ (hn y i)
        · rw [List.mem_singleton.mp g, List.mem_singleton.mp i]
      uniqName := by
        intro hb x hx y hy h2
        rcases List.mem_append.mp hx with g | g <;> rcases List.mem_append.mp hy with i | i
        · exact h.uniqName hb x g y i h2
        · rw [List.mem_singleton.mp i] at h2; exact absurd h2 (hnn hb x g)
        · rw [List.mem_singleton.mp g] at h2; exact absurd h2.symm (hnn hb y i)
        · rw [List.mem_singleton.mp g, List.mem_singleton.mp i]
      uniqKeys := by
        intro x hx y hy h1 h2
        rcases List.mem_append.mp hx with g | g <;> rcases List.mem_append.mp hy with i | i
        · exact h.uniqKeys x g y i h1 h2
        · rw [List.mem_singleton.mp i] at h1 h2; exact absurd h2 (hkk x g h1)
        · rw [List.mem_singleton.mp g] at h1 h2; exact absurd h2.symm (hkk y i h1.symm)
        · rw [List.mem_singleton.mp g, List.mem_singleton.mp i]
      used := by
        intro c k n
        show (c, k, n) ∈ st.used ++ [(d.coll, d.keys, d.name)] ↔ _
        rw [List.mem_append, List.mem_append, h.used, List.mem_singleton, List.mem_singleton]
        refine or_congr_right ?_
        cases d
        simp only [Prod.mk.injEq, Def.mk.injEq]
        tauto
      known := by
        intro x hx
        rcases List.mem_append.mp hx with hx | hx
        · exact h.known x hx
        · rw [List.mem_singleton.mp hx]; exact hc
      off := by
        rintro rfl
        exact h.off rfl
      live := by
        intro hb x hx
        show taken (if b then _ else _) _ = true
        rw [if_pos hb, taken_iff]
        rcases List.mem_append.mp hx with hx | hx
        · obtain ⟨a, ha, h1, h2⟩ := taken_iff.mp (h.live hb x hx)
          exact ⟨a, List.mem_append_left _ (List.mem_filter.mpr ⟨ha, by simp [h1, hnn hb x hx]⟩), h1, h2⟩
        · rw [List.mem_singleton.mp hx]
          exact ⟨_, List.mem_append_right _ (List.mem_singleton.mpr rfl), rfl, rfl⟩
      agents := by
        intro a ha
        have old : a ∈ st.agents → (a.dropped = false → ∃ e ∈ s.defs ++ [d], e.name = a.name) ∧ (a.coll, a.ctx) ∈ st.colls ∧
            (a.coll.name ∈ T ∨ ∃ e ∈ s.defs ++ [d], e.coll.name = a.coll.name) := fun ha => by
          obtain ⟨h1, h2, h3⟩ := h.agents a ha
          refine ⟨fun hd => ?_, h2, ?_⟩
          · obtain ⟨e, he, h4⟩ := h1 hd
            exact ⟨e, List.mem_append_left _ he, h4⟩
          · rcases h3 with h3 | ⟨e, he, h4⟩
            · exact .inl h3
            · exact .inr ⟨e, List.mem_append_left _ he, h4⟩
        have ha' : a ∈ (if b then st.agents.filter (fun a => a.name ≠ d.name) ++ [⟨d.name, d.coll, q.2, false⟩] else st.agents) := ha
        split at ha'
        · rcases List.mem_append.mp ha' with h1 | h1
          · exact old (List.mem_filter.mp h1).1
          · rw [List.mem_singleton] at h1
            subst h1
            refine ⟨fun _ => ⟨d, by simp, rfl⟩, ?_, .inr ⟨d, by simp, rfl⟩⟩
            show (d.coll, q.2) ∈ st.colls
            rw [← hq2]; exact hq1
        · exact old ha' }

/-- An index is dropped. -/
theorem Inv.dropped (h : Inv b T st s) (hf : b = true → FileOk st s) {d : Def} (hd : d ∈ s.defs) :
    ∃ st', rmIndex d.coll d.name st = (st', .ok) ∧
      Inv b (d.coll.name :: T) st' ⟨s.colls, s.defs.filter fun e => ¬ (e.coll = d.coll ∧ e.name = d.name)⟩ ∧
      st'.colls = st.colls ∧
      (b = true → FileOk st' ⟨s.colls, s.defs.filter fun e => ¬ (e.coll = d.coll ∧ e.name = d.name)⟩) := by
  obtain ⟨e, he1, he2⟩ : ∃ e, st.eng.find? (fun e => e.coll = d.coll && e.name = d.name) = some e ∧ e = ⟨d.coll, d.name, d.keys, b⟩ := by
    cases hq : st.eng.find? (fun e => e.coll = d.coll && e.name = d.name) with
    | none =>
      have := List.find?_eq_none.mp hq _ (h.engAll d hd)
      simp at this
    | some e =>
      refine ⟨e, rfl, ?_⟩
      have h1 := List.find?_some hq
      simp only [Bool.and_eq_true, decide_eq_true_eq] at h1
      have h2 := h.engOk e (List.mem_of_find?_eq_some hq)
      have h3 := h.uniq _ h2.2 d hd h1.1 h1.2
      rw [← h3, ← h2.1]
  subst he2
  have keep : ∀ x : Def, x ∈ s.defs.filter (fun e => ¬ (e.coll = d.coll ∧ e.name = d.name)) ↔ x ∈ s.defs ∧ x ≠ d := by
    intro x
    rw [List.mem_filter, decide_eq_true_eq]
    refine and_congr_right fun hx => not_congr ⟨fun h1 => h.uniq x hx d hd h1.1 h1.2, fun h1 => by rw [h1]; exact ⟨rfl, rfl⟩⟩
  let st1 : State := if b then dropAgent d.name st else st
  have hst1 : (if b = true then (if (st.agents.any fun a => a.name = d.name) = true then dropAgent d.name st else st) else st) = st1 := by
    cases b with
    | false => rfl
    | true =>
      obtain ⟨a, ha, h1, -⟩ := taken_iff.mp (h.live rfl d hd)
      have : (st.agents.any fun a => a.name = d.name) = true := List.any_eq_true.mpr ⟨a, ha, by simp [h1]⟩
      simp [this, st1]
  have e1 : st1.eng = st.eng := by cases b <;> rfl
  have e2 : st1.used = st.used := by cases b <;> rfl
  have e3 : st1.colls = st.colls := by cases b <;> rfl
  have e4 : st1.onDisk = st.onDisk := by cases b <;> rfl
  refine ⟨dropEntry ⟨d.coll, d.name, d.keys, b⟩ st1, ?_, ?_, e3, ?_⟩
  · unfold rmIndex
    rw [he1]
    simp only
    rw [hst1]
  · exact {
      mode := by show st1.onDisk = b; rw [e4]; exact h.mode
      colls := by show st1.colls.map _ = _; rw [e3]; exact h.colls
      engOk := by
        intro x hx
        obtain ⟨h1, h2⟩ := List.mem_filter.mp hx
        rw [e1] at h1
        rw [decide_eq_true_eq] at h2
        refine ⟨(h.engOk x h1).1, List.mem_filter.mpr ⟨(h.engOk x h1).2, decide_eq_true h2⟩⟩
      engAll := by
        intro x hx
        obtain ⟨h1, h2⟩ := List.mem_filter.mp hx
        refine List.mem_filter.mpr ⟨by rw [e1]; exact h.engAll x h1, decide_eq_true (of_decide_eq_true h2)⟩
      uniq := fun x hx y hy => h.uniq x ((keep x).mp hx).1 y ((keep y).mp hy).1
      uniqName := fun hb x hx y hy => h.uniqName hb x ((keep x).mp hx).1 y ((keep y).mp hy).1
      uniqKeys := fun x hx y hy => h.uniqKeys x ((keep x).mp hx).1 y ((keep y).mp hy).1
      used := by
        intro c k n
        rw [keep]
        show (c, k, n) ∈ List.filter _ st1.used ↔ _
        rw [List.mem_filter, e2, h.used, decide_eq_true_eq]
        refine and_congr_right fun hx => not_congr ⟨fun h1 => h.uniqKeys _ hx d hd h1.1 h1.2, fun h1 => by rw [← h1]; exact ⟨rfl, rfl⟩⟩
      known := fun x hx => h.known x ((keep x).mp hx).1
      off := by
        rintro rfl
        exact h.off rfl
      live := by
        intro hb x hx
        obtain ⟨h1, h2⟩ := (keep x).mp hx
        obtain ⟨a, ha, h3, h4⟩ := taken_iff.mp (h.live hb x h1)
        have hne : a.name ≠ d.name := fun hh => h2 (h.uniqName hb x h1 d hd (h3.symm.trans hh))
        show taken st1.agents x.name = true
        rw [taken_iff]
        refine ⟨a, ?_, h3, h4⟩
        show a ∈ (if b then dropAgent d.name st else st).agents
        rw [if_pos hb]
        exact List.mem_map.mpr ⟨a, ha, by simp [hne]⟩
      agents := by
        intro a ha
        have ha' : a ∈ st1.agents := ha
        show _ ∧ (a.coll, a.ctx) ∈ st1.colls ∧ _
        rw [e3]
        have third : ∀ x : Agent, x ∈ st.agents → (x.coll.name ∈ d.coll.name :: T ∨
            ∃ e ∈ s.defs.filter (fun e => ¬ (e.coll = d.coll ∧ e.name = d.name)), e.coll.name = x.coll.name) := by
          intro x hx
          rcases (h.agents x hx).2.2 with h1 | ⟨e, he, h2⟩
          · exact .inl (List.mem_cons_of_mem _ h1)
          · by_cases hed : e = d
            · rw [hed] at h2; exact .inl (by rw [h2]; exact List.mem_cons_self)
            · exact .inr ⟨e, (keep e).mpr ⟨he, hed⟩, h2⟩
        cases b with
        | false =>
          have ha'' : a ∈ st.agents := ha'
          rw [h.off rfl] at ha''
          cases ha''
        | true =>
          obtain ⟨x, hx, rfl⟩ := List.mem_map.mp ha'
          split
          · refine ⟨fun hh => (nomatch hh), (h.agents x hx).2.1, third x hx⟩
          · rename_i hne
            refine ⟨fun hdr => ?_, (h.agents x hx).2.1, third x hx⟩
            obtain ⟨e, he, h1⟩ := (h.agents x hx).1 hdr
            exact ⟨e, (keep e).mpr ⟨he, fun hh => hne (by rw [← h1, hh])⟩, h1⟩ }
  · intro hb x
    subst hb
    rw [keep]
    show x ∈ List.filter _ st.file ↔ _
    rw [List.mem_filter, hf rfl x]
    refine and_congr_right fun hx => ?_
    simp only [decide_eq_true_eq]
    exact not_congr ⟨fun h1 => h.uniqName rfl x hx d hd h1, fun h1 => by rw [h1]⟩

end Verif.IdxReg
