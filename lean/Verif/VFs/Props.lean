import Verif.VFs.Spec
/-!
# C120: a path names one file, whichever system handles it, and a system that was disabled is not used
-/
namespace Verif.VFs

open Verif Spec

theorem bind_ok {α β : Type} {r : Res α} {f : α → Res β} {b : β} (h : r.bind f = .ok b) : ∃ a, r = .ok a ∧ f a = .ok b :=
  Res.bind_eq_ok.1 h

theorem find_names {cwd l} {p : Path} : find cwd p = some l ↔ Names cwd p l := by
  unfold find Names
  by_cases h : p.parts = []
  · simp [h]
  · cases ha : p.abs <;> simp [h, eq_comm]

theorem find_none {cwd} {p : Path} : find cwd p = none ↔ p.parts = [] := by
  unfold find
  by_cases h : p.parts = [] <;> simp [h]

theorem has_iff {cwd d} {p : Path} {l t} (h : find cwd p = some l) : Has cwd d p t ↔ d l = some t := by
  constructor
  · rintro ⟨k, hk, ht⟩
    rw [← find_names, h] at hk
    cases hk; exact ht
  · exact fun ht => ⟨l, find_names.1 h, ht⟩

theorem not_has {cwd d} {p : Path} (h : find cwd p = none) (t) : ¬ Has cwd d p t := by
  rintro ⟨k, hk, -⟩
  rw [← find_names, h] at hk
  cases hk

theorem expand_id {f : Fs} (h : f.home = ⟨false, []⟩) (p : Path) : f.expand p = p := by
  unfold Fs.expand Path.append
  rw [h]
  cases p with
  | mk a l => cases a <;> simp

theorem pick_chosen (subs : List Fs) (dflt : Fs) (p : Path) : Chosen subs dflt (pick subs dflt p) p := by
  induction subs with
  | nil => exact .inr ⟨rfl, by simp⟩
  | cons f fs ih =>
    unfold pick
    split
    · rename_i h
      exact .inl ⟨[], fs, rfl, h, by simp⟩
    · rename_i h
      rcases ih with ⟨b, a, hs, hh, hb⟩ | ⟨hd, hn⟩
      · refine .inl ⟨f :: b, a, ?_, hh, ?_⟩
        · rw [List.cons_append, ← hs]
        · simpa [h] using hb
      · exact .inr ⟨hd, by simpa [h] using hn⟩

theorem chosen_mem {subs : List Fs} {dflt f : Fs} {p : Path} (h : Chosen subs dflt f p) : f ∈ dflt :: subs := by
  rcases h with ⟨b, a, hs, -, -⟩ | ⟨hd, -⟩
  · rw [hs]; simp
  · rw [hd]; simp

theorem fs_ok {as : Bool} {v : Vfs} {p : Path} {f : Fs} (h : v.fs as p = .ok f) : f = pick v.subs v.dflt p := by
  unfold Vfs.fs check at h
  split at h
  · cases as <;> simp [Res.bind] at h
    exact h.symm
  · injection h with h; exact h.symm

theorem eraseName_sub {n : String} {l r : List Fs} (h : eraseName n l = some r) : ∀ f ∈ r, f ∈ l := by
  induction l generalizing r with
  | nil => cases h
  | cons g gs ih =>
    unfold eraseName at h
    split at h
    · cases h
      exact fun f hf => List.mem_cons_of_mem _ hf
    · cases he : eraseName n gs with
      | none => rw [he] at h; cases h
      | some r' =>
        rw [he] at h
        cases h
        intro f hf
        rcases List.mem_cons.1 hf with rfl | hf
        · simp
        · exact List.mem_cons_of_mem _ (ih he f hf)

theorem eraseName_names (n : String) (l : List Fs) :
    (match eraseName n l with | some r => r.map (·.name) | none => l.map (·.name)) = (l.map (·.name)).erase n := by
  induction l with
  | nil => rfl
  | cons g gs ih =>
    unfold eraseName
    by_cases h : g.name = n
    · simp [h]
    · simp only [if_neg h, List.map_cons]
      rw [List.erase_cons_tail (by simpa using h), ← ih]
      cases eraseName n gs <;> rfl

theorem disable_keeps {as : Bool} {v v' : Vfs} {ns} (h : v.disable as ns = .ok v') : v'.subs = v.subs ∧ v'.dflt = v.dflt := by
  obtain ⟨l, -, h⟩ := bind_ok h
  split at h
  · cases h; exact ⟨rfl, rfl⟩
  · obtain ⟨_, -, h⟩ := bind_ok h
    cases h; exact ⟨rfl, rfl⟩

/-- One request. -/
theorem step_does {as : Bool} {cwd : List String} {s s' : St} {o : Op} {a : Ans}
    (hh : ∀ f ∈ s.v.dflt :: s.v.subs, f.home = ⟨false, []⟩) (h : step as cwd s o = .ok (a, s')) : Does cwd s.d o a s'.d := by
  cases o with
  | register f => cases h; rfl
  | unregister n =>
    simp only [step] at h
    split at h
    · cases h; rfl
    · obtain ⟨_, -, h⟩ := bind_ok h
      cases h; rfl
  | disable ns =>
    obtain ⟨_, -, h⟩ := bind_ok h
    cases h; rfl
  | home p => cases h; rfl
  | names => cases h; rfl
  | which p =>
    obtain ⟨_, -, h⟩ := bind_ok h
    cases h; rfl
  | save p t =>
    obtain ⟨f, hf, h⟩ := bind_ok h
    have hm := hh f (by rw [fs_ok hf]; exact chosen_mem (pick_chosen ..))
    cases h
    unfold Fs.save
    rw [expand_id hm]
    cases hl : find cwd p with
    | none => exact .inr ⟨find_none.1 hl, rfl, rfl⟩
    | some l =>
      refine .inl ⟨l, find_names.1 hl, rfl, by simp [put], ?_⟩
      intro k hk
      have : k ≠ l := by simpa using hk
      simp [put, this]
  | load p =>
    obtain ⟨f, hf, h⟩ := bind_ok h
    have hm := hh f (by rw [fs_ok hf]; exact chosen_mem (pick_chosen ..))
    cases h
    refine ⟨rfl, _, rfl, fun t => ?_⟩
    unfold Fs.load
    rw [expand_id hm]
    cases hl : find cwd p with
    | none => simp [not_has hl]
    | some l => rw [has_iff hl]
  | fileExists p =>
    obtain ⟨f, hf, h⟩ := bind_ok h
    cases h
    refine ⟨rfl, _, rfl, ?_⟩
    unfold Fs.fileExists
    cases hl : find cwd p with
    | none => simp [not_has hl]
    | some l =>
      have : p.empty = false := by
        have : p.parts ≠ [] := fun h => by rw [find_none.2 h] at hl; cases hl
        simp [Path.empty, this]
      simp [this, has_iff hl, Option.isSome_iff_exists]
  | remove p =>
    obtain ⟨f, hf, h⟩ := bind_ok h
    cases h
    unfold Fs.remove
    cases hl : find cwd p with
    | none => exact .inr ⟨not_has hl, rfl, rfl⟩
    | some l =>
      cases hd : s.d l with
      | none => exact .inr ⟨fun t => by rw [has_iff hl, hd]; simp, by simp [hd], by simp [hd]⟩
      | some t =>
        refine .inl ⟨l, t, find_names.1 hl, hd, by simp [hd], by simp [hd, put], ?_⟩
        intro k hk
        have : k ≠ l := by simpa using hk
        simp [hd, put, this]
  | move p q =>
    obtain ⟨f, hf, h⟩ := bind_ok h
    cases h
    unfold Fs.move
    cases hl : find cwd p with
    | none => exact .inr ⟨.inl (not_has hl), rfl, rfl⟩
    | some l =>
      cases hk : find cwd q with
      | none => exact .inr ⟨.inr (find_none.1 hk), rfl, rfl⟩
      | some k =>
        cases hd : s.d l with
        | none => exact .inr ⟨.inl fun t => by rw [has_iff hl, hd]; simp, by simp [hd], by simp [hd]⟩
        | some t =>
          refine .inl ⟨l, k, t, find_names.1 hl, find_names.1 hk, hd, by simp [hd], ?_, ?_, ?_⟩
          · by_cases e : l = k
            · subst e; simp [hd]
            · simp [hd, e, put]
          · intro e
            simp [hd, e, put]
          · intro j hj
            have hj' : j ≠ l ∧ j ≠ k := by simpa using hj
            by_cases e : l = k
            · subst e; simp [hd]
            · simp [hd, e, put, hj'.1, hj'.2]

/-- No home directory comes in. -/
theorem step_home {as : Bool} {cwd : List String} {s s' : St} {o : Op} {os : List Op} {a : Ans} (hh : NoHome s.v (o :: os))
    (h : step as cwd s o = .ok (a, s')) : NoHome s'.v os := by
  obtain ⟨h1, h2⟩ := hh
  refine ⟨?_, fun o' ho => h2 o' (List.mem_cons_of_mem _ ho)⟩
  have ho := h2 o (by simp)
  cases o with
  | register f =>
    cases h
    intro g hg
    simp only [List.mem_cons, List.mem_append, List.not_mem_nil, or_false] at hg
    rcases hg with rfl | hg | rfl
    · exact h1 _ (by simp)
    · exact h1 _ (by simp [hg])
    · exact ho.1 _ rfl
  | unregister n =>
    simp only [step] at h
    split at h
    · rename_i l hl
      cases h
      intro g hg
      rcases List.mem_cons.1 hg with rfl | hg
      · exact h1 _ (by simp)
      · exact h1 _ (List.mem_cons_of_mem _ (eraseName_sub hl g hg))
    · obtain ⟨_, -, h⟩ := bind_ok h
      cases h; exact h1
  | disable ns =>
    obtain ⟨v, hv, h⟩ := bind_ok h
    cases h
    rw [(disable_keeps hv).1, (disable_keeps hv).2]; exact h1
  | home p =>
    cases h
    simpa [Fs.setHome, ho.2 p rfl] using h1
  | names => cases h; exact h1
  | which p | save p t | load p | fileExists p | remove p | move p q =>
    obtain ⟨_, -, h⟩ := bind_ok h
    cases h; exact h1

theorem collect_release (ns acc : List String) : ∃ l, collect false ns acc = .ok l := by
  induction ns generalizing acc with
  | nil => exact ⟨acc, rfl⟩
  | cons n ns ih =>
    unfold collect
    split
    · exact ih _
    · split
      · exact ih _
      · exact ih _

theorem step_release (cwd : List String) (s : St) (o : Op) : ∃ a s', step false cwd s o = .ok (a, s') := by
  have hf : ∀ p, s.v.fs false p = .ok (pick s.v.subs s.v.dflt p) := by
    intro p; unfold Vfs.fs check; split <;> rfl
  cases o with
  | unregister n =>
    simp only [step]
    split
    · exact ⟨_, _, rfl⟩
    · exact ⟨_, _, rfl⟩
  | disable ns =>
    obtain ⟨l, hl⟩ := collect_release ns []
    have hv : s.v.disable false ns = .ok { s.v with off := l } := by
      simp only [Vfs.disable, hl, check, Res.bind]
      split <;> rfl
    simp only [step, hv, Res.bind]
    exact ⟨_, _, rfl⟩
  | register f => exact ⟨_, _, rfl⟩
  | home p => exact ⟨_, _, rfl⟩
  | names => exact ⟨_, _, rfl⟩
  | which p | save p t | load p | fileExists p | remove p | move p q =>
    simp only [step, hf, Res.bind]
    exact ⟨_, _, rfl⟩

theorem run_cons {as : Bool} {cwd : List String} {s t : St} {o : Op} {os : List Op} {l : List Ans}
    (h : run as cwd s (o :: os) = .ok (l, t)) :
    ∃ a s' l', step as cwd s o = .ok (a, s') ∧ run as cwd s' os = .ok (l', t) ∧ l = a :: l' := by
  obtain ⟨⟨a, s'⟩, h1, h⟩ := bind_ok h
  obtain ⟨⟨l', t'⟩, h2, h⟩ := bind_ok h
  cases h
  exact ⟨a, s', l', h1, h2, rfl⟩

/-- **C120**, as it should hold: whatever homes the systems have, the files are as the history says. -/
def C120_files_claim : Prop :=
  ∀ (as : Bool) (cwd : List String) (s : St) (os : List Op) (l : List Ans) (t : St), run as cwd s os = .ok (l, t) → Hist cwd s.d os l t.d

/-- **C120**, as it should hold: no system serves a request after it was disabled. -/
def C120_disabled_claim : Prop :=
  ∀ (as : Bool) (cwd : List String) (s : St) (ns : List String) (os : List Op) (n : String) (p : Path) (l : List Ans) (t : St),
    n ∈ ns → n ≠ "" → run as cwd s (.disable ns :: os ++ [.which p]) = .ok (l, t) → l.getLast? ≠ some (.name n)

/-- **C120**: without home directories every history of requests, with sub systems coming, going and being disabled in between, treats the
files as one tree in which a path names one place. Without assertions every request is answered. Missing: home directories. -/
theorem C120_files_partial (as : Bool) (cwd : List String) (s : St) (os : List Op) (hh : NoHome s.v os) :
    (∀ l t, run as cwd s os = .ok (l, t) → Hist cwd s.d os l t.d) ∧ (as = false → ∃ l t, run as cwd s os = .ok (l, t)) := by
  induction os generalizing s with
  | nil => exact ⟨fun l t h => by cases h; exact .nil _, fun _ => ⟨_, _, rfl⟩⟩
  | cons o os ih =>
    constructor
    · intro l t h
      obtain ⟨a, s', l', h1, h2, rfl⟩ := run_cons h
      exact .cons (step_does hh.1 h1) ((ih s' (step_home hh h1)).1 _ _ h2)
    · rintro rfl
      obtain ⟨a, s', h1⟩ := step_release cwd s o
      obtain ⟨l, t, h2⟩ := (ih s' (step_home hh h1)).2 rfl
      exact ⟨a :: l, t, by simp [run, h1, h2, Res.bind]⟩

/-- A sub system for what is under `mem`. -/
def memFs : Fs := ⟨"mem", fun p => p.parts.head? = some "mem", ⟨false, []⟩⟩

example : NoHome new [.register memFs, .save ⟨false, ["mem", "a"]⟩ "x", .unregister "mem"] := by
  refine ⟨by simp [new, localFs], ?_⟩
  intro o ho
  simp only [List.mem_cons, List.not_mem_nil, or_false] at ho
  rcases ho with rfl | rfl | rfl <;> simp
  rfl

/-- **C120**: a request goes to the first sub system that handles its path, else to the default one, and the sub systems are those that were
registered and not taken away again, in this order. -/
theorem C120_route (as : Bool) (cwd : List String) (s : St) (os : List Op) (l : List Ans) (t : St)
    (h : run as cwd s os = .ok (l, t)) :
    (∀ r, step as cwd t .names = .ok r → r.1 = .names (live os (s.v.subs.map (·.name)))) ∧
    ∀ p r, step as cwd t (.which p) = .ok r → ∃ f, Chosen t.v.subs t.v.dflt f p ∧ r.1 = .name f.name := by
  constructor
  · intro r hr
    cases hr
    simp only [Ans.names.injEq]
    induction os generalizing s l with
    | nil => cases h; rfl
    | cons o os ih =>
      obtain ⟨a, s', l', h1, h2, rfl⟩ := run_cons h
      rw [ih s' l' h2]
      cases o with
      | register f => cases h1; simp [live]
      | unregister n =>
        have he := eraseName_names n s.v.subs
        simp only [step] at h1
        simp only [live, ← he]
        split at h1
        · rename_i r hr
          cases h1; simp only [hr]
        · rename_i hr
          obtain ⟨_, -, h1⟩ := bind_ok h1
          cases h1; simp only [hr]
      | disable ns =>
        obtain ⟨v, hv, h1⟩ := bind_ok h1
        cases h1
        simp only [live, (disable_keeps hv).1]
      | home p => cases h1; rfl
      | names => cases h1; rfl
      | which p | save p t | load p | fileExists p | remove p | move p q =>
        obtain ⟨_, -, h1⟩ := bind_ok h1
        cases h1; rfl
  · intro p r hr
    obtain ⟨f, hf, hr⟩ := bind_ok hr
    cases hr
    exact ⟨f, fs_ok hf ▸ pick_chosen .., rfl⟩

example : ∃ l t, run true [] ⟨new, fun _ => none⟩ [.register memFs, .which ⟨false, ["mem", "a"]⟩, .which ⟨false, ["b"]⟩, .names] = .ok (l, t) ∧
    l = [.done, .name "mem", .name "local_file_system_t", .names ["mem"]] := ⟨_, _, rfl, by decide⟩

theorem collect_mem {ns acc l : List String} (h : collect true ns acc = .ok l) {n : String} (hn : n ∈ acc ∨ (n ∈ ns ∧ n ≠ "")) : n ∈ l := by
  induction ns generalizing acc with
  | nil =>
    cases h
    rcases hn with hn | ⟨hn, -⟩
    · exact hn
    · cases hn
  | cons m ms ih =>
    unfold collect at h
    split at h
    · rename_i hm
      refine ih h ?_
      rcases hn with hn | ⟨hn, he⟩
      · exact .inl hn
      · rcases List.mem_cons.1 hn with rfl | hn
        · exact absurd hm he
        · exact .inr ⟨hn, he⟩
    · split at h
      · cases h
      · refine ih h ?_
        rcases hn with hn | ⟨hn, he⟩
        · exact .inl (List.mem_cons_of_mem _ hn)
        · rcases List.mem_cons.1 hn with rfl | hn
          · exact .inl (by simp)
          · exact .inr ⟨hn, he⟩

theorem disable_off {v v' : Vfs} {ns : List String} (h : v.disable true ns = .ok v') {n : String}
    (hn : n ∈ v.off ∨ (n ∈ ns ∧ n ≠ "")) : n ∈ v'.off := by
  obtain ⟨l, hl, h⟩ := bind_ok h
  split at h
  · rename_i ha
    cases h
    rcases hn with hn | hn
    · simpa using List.all_eq_true.1 ha n hn
    · exact collect_mem hl (.inr hn)
  · cases h

theorem step_off {cwd : List String} {s s' : St} {o : Op} {a : Ans} (h : step true cwd s o = .ok (a, s')) {n : String} (hn : n ∈ s.v.off) :
    n ∈ s'.v.off := by
  cases o with
  | register f => cases h; exact hn
  | unregister m =>
    simp only [step] at h
    split at h
    · cases h; exact hn
    · cases h
  | disable ns =>
    obtain ⟨v, hv, h⟩ := bind_ok h
    cases h
    exact disable_off hv (.inl hn)
  | home p => cases h; exact hn
  | names => cases h; exact hn
  | which p | save p t | load p | fileExists p | remove p | move p q =>
    obtain ⟨_, -, h⟩ := bind_ok h
    cases h; exact hn

theorem run_off {cwd : List String} {s t : St} {os : List Op} {l : List Ans} (h : run true cwd s os = .ok (l, t)) {n : String}
    (hn : n ∈ s.v.off) : n ∈ t.v.off := by
  induction os generalizing s l with
  | nil => cases h; exact hn
  | cons o os ih =>
    obtain ⟨a, s', l', h1, h2, rfl⟩ := run_cons h
    exact ih h2 (step_off h1 hn)

/-- **C120**: with assertions no request is served by a system that was ever disabled before: the program ends. Missing: without assertions. -/
theorem C120_disabled_partial (cwd : List String) (s : St) (ns : List String) (os : List Op) (n : String) (hn : n ∈ ns) (he : n ≠ "")
    (l : List Ans) (t : St) (h : run true cwd s (.disable ns :: os) = .ok (l, t)) (o : Op) (p : Path) (ho : asks o = some p)
    (f : Fs) (hc : Chosen t.v.subs t.v.dflt f p) (hf : f.name = n) : step true cwd t o = .throws := by
  obtain ⟨a, s', l', h1, h2, rfl⟩ := run_cons h
  obtain ⟨v, hv, h1⟩ := bind_ok h1
  cases h1
  have hoff := run_off h2 (disable_off hv (.inr ⟨hn, he⟩))
  have hp : pick t.v.subs t.v.dflt p = f := by
    rcases hc with ⟨b, c, hs, hh, hb⟩ | ⟨hd, hnone⟩
    · rw [hs]
      clear hs
      induction b with
      | nil => simp [pick, hh]
      | cons g gs ih =>
        have := hb g (by simp)
        simp only [List.cons_append, pick, this, Bool.false_eq_true, if_false]
        exact ih fun x hx => hb x (by simp [hx])
    · rw [hd]
      generalize t.v.subs = subs at hnone
      induction subs with
      | nil => rfl
      | cons g gs ih =>
        have := hnone g (by simp)
        simp only [pick, this, Bool.false_eq_true, if_false]
        exact ih fun x hx => hnone x (by simp [hx])
  have hfs : t.v.fs true p = .throws := by
    unfold Vfs.fs
    rw [hp, hf, if_pos hoff]; rfl
  cases o with
  | register _ | unregister _ | disable _ | home _ | names => cases ho
  | which _ | save _ _ | load _ | fileExists _ | remove _ | move _ _ =>
    cases ho
    simp only [step, hfs, Res.bind]

example : ∃ l t, run true [] ⟨new, fun _ => none⟩ [.disable ["mem"], .register memFs] = .ok (l, t) ∧
    Chosen t.v.subs t.v.dflt memFs ⟨false, ["mem", "a"]⟩ :=
  ⟨_, _, rfl, .inl ⟨[], [], rfl, rfl, by simp⟩⟩

/-- **C120** fails without assertions: whatever system a path is handled by, it still is after it was disabled. -/
theorem C120_disabled_fails (cwd : List String) (s : St) (p : Path) (f : Fs) (hc : s.v.fs false p = .ok f) (ns : List String) :
    ∃ l t, run false cwd s [.disable (f.name :: ns), .which p] = .ok (l, t) ∧ l = [.done, .name f.name] := by
  obtain ⟨a, s', h1⟩ := step_release cwd s (.disable (f.name :: ns))
  have h1' := h1
  obtain ⟨v, hv, h1⟩ := bind_ok h1
  cases h1
  have hk := disable_keeps hv
  have hf : v.fs false p = .ok f := by
    have : v.fs false p = .ok (pick v.subs v.dflt p) := by unfold Vfs.fs check; split <;> rfl
    rw [this, hk.1, hk.2, ← fs_ok hc]
  refine ⟨[.done, .name f.name], ⟨v, s.d⟩, ?_, rfl⟩
  have h2 : step false cwd ⟨v, s.d⟩ (.which p) = .ok (.name f.name, ⟨v, s.d⟩) := by simp only [step, hf, Res.bind]
  simp only [run, h1', h2, Res.bind]

example : (new.fs false ⟨false, ["a"]⟩) = .ok localFs := rfl

theorem collect_only {ns acc : List String} {n : String} (ha : n ∉ acc) (hn : n ∉ ns) :
    collect true ns acc = .throws ∨ ∃ l, collect true ns acc = .ok l ∧ n ∉ l := by
  induction ns generalizing acc with
  | nil => exact .inr ⟨acc, rfl, ha⟩
  | cons m ms ih =>
    have hm : n ≠ m ∧ n ∉ ms := by simpa using hn
    unfold collect
    split
    · exact ih ha hm.2
    · split
      · exact .inl rfl
      · exact ih (by simpa [hm.1] using ha) hm.2

/-- **C120**: with assertions a system that was ever disabled cannot be enabled again: the program ends. -/
theorem C120_enable (cwd : List String) (s : St) (ns : List String) (os : List Op) (n : String) (hn : n ∈ ns) (he : n ≠ "") (l : List Ans)
    (t : St) (h : run true cwd s (.disable ns :: os) = .ok (l, t)) (ms : List String) (hm : n ∉ ms) :
    step true cwd t (.disable ms) = .throws := by
  obtain ⟨a, s', l', h1, h2, rfl⟩ := run_cons h
  obtain ⟨v, hv, h1⟩ := bind_ok h1
  cases h1
  have hoff := run_off h2 (disable_off hv (.inr ⟨hn, he⟩))
  have hd : t.v.disable true ms = .throws := by
    unfold Vfs.disable
    rcases collect_only (acc := []) (by simp) hm with hc | ⟨r, hc, hr⟩
    · rw [hc]; rfl
    · rw [hc]
      have : t.v.off.all (fun x => decide (x ∈ r)) = false := by
        rw [List.all_eq_false]
        exact ⟨n, hoff, by simpa using hr⟩
      simp only [Res.bind, this, check, Bool.false_eq_true, if_false, if_true]
  simp only [step, hd, Res.bind]

example : ∃ l t, run true [] ⟨new, fun _ => none⟩ [.disable ["mem"], .register memFs, .disable ["mem", "net"]] = .ok (l, t) := ⟨_, _, rfl⟩

/-- **C120** fails with a home directory, for all homes but the directory of the process and all relative paths: a file that was saved is not
found under its name, is not removed and not moved under it, unless there is another file; it can be loaded. -/
theorem C120_home_fails (as : Bool) (cwd : List String) (d : Disk) (h : List String) (hne : h ≠ cwd) (p : Path) (hr : p.abs = false)
    (hp : p.parts ≠ []) (hd : d (cwd ++ p.parts) = none) (q : Path) (x : String) :
    ∃ l t, run as cwd ⟨new, d⟩ [.home ⟨true, h⟩, .save p x, .load p, .fileExists p, .remove p, .move p q] = .ok (l, t) ∧
      l = [.yes true, .yes true, .text (some x), .yes false, .yes false, .yes false] := by
  have hk : cwd ++ p.parts ≠ h ++ p.parts := fun e => hne (List.append_cancel_right e).symm
  have hf : find cwd p = some (cwd ++ p.parts) := by simp [find, hp, hr]
  have hfh : find cwd (Fs.expand { localFs with home := ⟨true, h⟩ } p) = some (h ++ p.parts) := by
    simp [Fs.expand, Path.empty, Path.append, hp, hr, find]
  have hem : p.empty = false := by simp [Path.empty, hp]
  have hput : put d (h ++ p.parts) (some x) (cwd ++ p.parts) = none := by simp only [put, if_neg hk, hd]
  have hself : put d (h ++ p.parts) (some x) (h ++ p.parts) = some x := by simp [put]
  refine ⟨_, ⟨⟨[], { localFs with home := ⟨true, h⟩ }, []⟩, put d (h ++ p.parts) (some x)⟩, ?_, rfl⟩
  have hmove : ∀ g : Fs, g.move cwd (put d (h ++ p.parts) (some x)) p q = (false, put d (h ++ p.parts) (some x)) := by
    intro g
    unfold Fs.move
    rw [hf]
    cases find cwd q with
    | none => rfl
    | some k => simp only [hput]
  simp [run, step, Res.bind, new, Fs.setHome, Vfs.fs, pick, Fs.save, Fs.load, Fs.fileExists, Fs.remove, hfh, hf, hem, hput, hself, hmove]

example : ∃ (cwd h : List String) (p : Path), h ≠ cwd ∧ p.abs = false ∧ p.parts ≠ [] := ⟨["w"], ["h"], ⟨false, ["a"]⟩, by decide, rfl, by decide⟩

/-- **C120** does not hold, neither for the files nor for disabled systems. -/
theorem C120_fails : ¬ C120_files_claim ∧ ¬ C120_disabled_claim := by
  constructor
  · intro h
    have hr := C120_home_fails false [] (fun _ => none) ["h"] (by decide) ⟨false, ["a"]⟩ rfl (by decide) rfl ⟨false, ["b"]⟩ "x"
    obtain ⟨l, t, hr, hl⟩ := hr
    have hh := h _ _ _ _ _ _ hr
    rw [hl] at hh
    cases hh with | cons _ hh => cases hh with | cons h1 hh => cases hh with | cons h2 hh => cases hh with | cons h3 hh =>
    rcases h1 with ⟨k, hk, -, hm, -⟩ | ⟨-, h1, -⟩
    · obtain ⟨rfl, -⟩ := h2
      obtain ⟨-, b, hb, hiff⟩ := h3
      cases hb
      exact absurd (hiff.2 ⟨_, k, hk, hm⟩) (by decide)
    · cases h1
  · intro h
    obtain ⟨l, t, hr, hl⟩ := C120_disabled_fails [] ⟨new, fun _ => none⟩ ⟨false, ["a"]⟩ localFs rfl []
    exact h false [] ⟨new, fun _ => none⟩ ["local_file_system_t"] [] "local_file_system_t" ⟨false, ["a"]⟩ l t (by simp) (by decide) hr
      (by rw [hl]; rfl)

end Verif.VFs
