import Verif.IdxReg.Run
/-!
C79: the indexes there are.  Specification: `Spec.lean`.
-/
namespace Verif.IdxReg

/-- In every history of CREATE and DROP of collections and indexes, INSERTs, restarts and crashes that is as described at `Calm`:
nothing is undefined, every statement is answered as the ideal database answers it, and the indexes there are, and those
queries go through, are the ones that were created and not dropped.  The full claim is `C79_claim`; what is missing: see the
theorems below. -/
theorem C79_indexes_partial (onDisk : Bool) (es : List Event) (hl : Legal onDisk es) :
    ∃ st rs, run { onDisk := onDisk } es = .ok (st, rs) ∧ rs = (Ideal.run onDisk {} es).2 ∧ Agrees st (Ideal.run onDisk {} es).1 := by
  obtain ⟨st, h1, h2, -⟩ := run_ok es hl
  exact ⟨st, _, h1, rfl, h2.colls, h2.has, fun c k => exists_congr fun n => h2.used c k n, fun c k n => (h2.used c k n).mp⟩

/-- With a disk, the file lists exactly these indexes, at every moment, so that they are there after every restart. -/
theorem C79_file_partial (es : List Event) (hl : Legal true es) (st : State) (rs : List (Option Reply))
    (h : run { onDisk := true } es = .ok (st, rs)) (d : Def) : d ∈ st.file ↔ d ∈ (Ideal.run true {} es).1.defs := by
  obtain ⟨st', h1, -, h3⟩ := run_ok es hl
  rw [h] at h1
  injection h1 with h1
  injection h1 with h1
  subst h1
  exact h3 rfl d

/-- Decidable form of `Calm`. -/
def calmB (onDisk : Bool) (past : List Event) (s : Ideal) : Event → Bool
  | .mkIndex d => (s.defs.all fun e => !(e.coll == d.coll && e.keys == d.keys) || e.name == d.name) &&
      if onDisk then s.defs.all fun e => e.name != d.name || e.coll == d.coll
      else d.coll ∉ s.colls || s.defs.all fun e => !(e.coll == d.coll && e.name == d.name)
  | .rmColl c => !onDisk || (c.name ∉ touched past && s.defs.all fun e => e.coll.name != c.name)
  | .crashRm c n _ => !onDisk || (s.defs.all fun e => !(e.coll == c && e.name == n)) || s.defs.all fun e => e.coll == c && e.name == n
  | _ => true

theorem calm_of (onDisk : Bool) (past : List Event) (s : Ideal) (e : Event) (h : calmB onDisk past s e = true) : Calm onDisk past s e := by
  cases e with
  | mkIndex d =>
    simp only [calmB, Bool.and_eq_true, List.all_eq_true] at h
    refine ⟨fun e he h1 h2 => ?_, ?_⟩
    · simpa [h1, h2] using h.1 e he
    · have h2 := h.2
      split at h2
      · rename_i hb
        rw [if_pos hb]
        intro e he h3
        simpa [h3] using List.all_eq_true.mp h2 e he
      · rename_i hb
        rw [if_neg hb]
        intro hc e he h3
        have := h2
        simp only [Bool.or_eq_true, decide_eq_true_eq, List.all_eq_true] at this
        rcases this with h4 | h4
        · exact h4 hc
        · simpa [h3.1, h3.2] using h4 e he
  | rmColl c =>
    intro hb
    subst hb
    simp only [calmB, Bool.not_true, Bool.false_or, Bool.and_eq_true, decide_eq_true_eq, List.all_eq_true] at h
    exact ⟨h.1, fun e he => by simpa using h.2 e he⟩
  | crashRm c n k =>
    intro hb
    subst hb
    rintro ⟨x, hx, h1, h2⟩ e he
    simp only [calmB, Bool.not_true, Bool.false_or, Bool.or_eq_true, List.all_eq_true] at h
    rcases h with h | h
    · simpa [h1, h2] using h x hx
    · simpa using h e he
  | _ => trivial

/-- Of a history. -/
def legalB (onDisk : Bool) (past : List Event) (s : Ideal) : List Event → Bool
  | [] => true
  | e :: es => calmB onDisk past s e && legalB onDisk (past ++ [e]) (s.step onDisk e).1 es

theorem legal_of (onDisk : Bool) (es past : List Event) (hp : Legal onDisk past)
    (h : legalB onDisk past (Ideal.run onDisk {} past).1 es = true) : Legal onDisk (past ++ es) := by
  induction es generalizing past with
  | nil => rw [List.append_nil]; exact hp
  | cons e es ih =>
    simp only [legalB, Bool.and_eq_true] at h
    have hap : past ++ e :: es = (past ++ [e]) ++ es := by simp
    rw [hap]
    refine ih (past ++ [e]) ?_ (by rw [Ideal.run_append]; exact h.2)
    intro a x b hab
    rcases List.eq_nil_or_concat b with rfl | ⟨b', z, rfl⟩
    · obtain ⟨h1, h2⟩ := List.append_inj' hab rfl
      subst h1
      injection h2 with h2
      subst h2
      exact calm_of _ _ _ _ h.1
    · have hab' : past ++ [e] = (a ++ x :: b') ++ [z] := by rw [hab]; simp
      exact hp a x b' (List.append_inj' hab' rfl).1

theorem legal (onDisk : Bool) (es : List Event) (h : legalB onDisk [] {} es = true) : Legal onDisk es :=
  legal_of onDisk es [] (fun a e b hab => by simp at hab) h

/-! Collection `a.t`, `b.t` and `a.u`. -/
def at' : Coll := ⟨1, 1⟩
def bt : Coll := ⟨2, 1⟩
def au : Coll := ⟨1, 2⟩

/-- A history with two collections, three indexes, one of them refused the second time, one dropped, two restarts, a crash
and a collection that is dropped. -/
def busy : List Event := [.mkColl at', .mkColl bt, .mkColl au, .mkIndex ⟨1, 10, at'⟩, .mkIndex ⟨2, 20, at'⟩, .mkIndex ⟨3, 10, bt⟩, .insert at',
  .mkIndex ⟨1, 10, at'⟩, .restart, .restart, .rmIndex at' 1, .insert at', .rmColl au, .rmIndex bt 3, .rmIndex bt 3, .insert bt, .restart, .rmIndex at' 2, .mkIndex ⟨2, 30, bt⟩,
  .crashRm bt 2 0, .rmColl at']

example : Legal true busy := legal true busy (by decide +kernel)
example : ((Ideal.run true {} busy).2, (Ideal.run true {} (busy.take 9)).1.defs) =
  ([some .ok, some .ok, some .ok, some .ok, some .ok, some .ok, none, some .error, none, none, some .ok, none, some .ok, some .ok, some .error, none, none,
    some .ok, some .ok, none, some .ok], [⟨1, 10, at'⟩, ⟨2, 20, at'⟩, ⟨3, 10, bt⟩]) := by decide +kernel
example : Legal false [.mkColl at', .mkColl bt, .mkIndex ⟨1, 10, at'⟩, .mkIndex ⟨1, 10, bt⟩, .rmIndex at' 1, .insert bt, .rmColl bt, .restart] :=
  legal false _ (by decide +kernel)

/-! ### where the full claim fails -/

/-- The history ends in undefined behaviour. -/
def undefinedB (r : Res (State × List (Option Reply))) : Bool := match r with
  | .ub => true
  | _ => false

/-- The replies and the queries that go through an index. -/
def seen (r : Res (State × List (Option Reply))) : Option (List (Option Reply) × List (Coll × Keys × Name)) := match r with
  | .ok (st, rs) => some (rs, st.used)
  | _ => none

/-- The number of entries of the file. -/
def fileLen (r : Res (State × List (Option Reply))) : Option Nat := match r with
  | .ok (st, _) => some st.file.length
  | _ => none

/-- The name of the index is in use in another collection: CREATE INDEX is refused, and yet queries go through it, over an
index that is empty. -/
theorem C79_refused_index_is_used_fails : seen (run { onDisk := true } [.mkColl at', .mkColl au, .mkIndex ⟨1, 10, at'⟩, .mkIndex ⟨1, 10, au⟩]) =
    some ([some .ok, some .ok, some .ok, some .error], [(at', 10, 1), (au, 10, 1)]) := by decide +kernel

/-- When the other index is dropped and this one created again, that is undefined. -/
theorem C79_create_after_refusal_is_ub : undefinedB (run { onDisk := true } [.mkColl at', .mkColl au, .mkIndex ⟨1, 10, at'⟩, .mkIndex ⟨1, 10, au⟩,
    .rmIndex at' 1, .mkIndex ⟨1, 10, au⟩]) = true := by decide +kernel

/-- Without a disk, creating an index that is there is undefined. -/
theorem C79_create_twice_is_ub : undefinedB (run { onDisk := false } [.mkColl at', .mkIndex ⟨1, 10, at'⟩, .mkIndex ⟨1, 10, at'⟩]) = true := by
  decide +kernel

/-- Two indexes on the same field: dropping one makes queries ignore the other, until the next restart. -/
theorem C79_same_field_fails : seen (run { onDisk := true } [.mkColl at', .mkIndex ⟨1, 10, at'⟩, .mkIndex ⟨2, 10, at'⟩, .rmIndex at' 2]) =
    some ([some .ok, some .ok, some .ok, some .ok], []) ∧
  seen (run { onDisk := true } [.mkColl at', .mkIndex ⟨1, 10, at'⟩, .mkIndex ⟨2, 10, at'⟩, .rmIndex at' 2, .restart]) =
    some ([some .ok, some .ok, some .ok, some .ok, none], [(at', 10, 1)]) := ⟨by decide +kernel, by decide +kernel⟩

/-- A collection with an index is dropped: undefined. -/
theorem C79_drop_collection_is_ub : undefinedB (run { onDisk := true } [.mkColl at', .mkIndex ⟨1, 10, at'⟩, .rmColl at']) = true := by decide +kernel

/-- Even if its index was dropped before. -/
theorem C79_drop_emptied_collection_is_ub : undefinedB (run { onDisk := true } [.mkColl at', .mkIndex ⟨1, 10, at'⟩, .rmIndex at' 1, .rmColl at']) =
    true := by decide +kernel

/-- A collection of the same name in another database is dropped: the index is gone after a restart. -/
theorem C79_other_database_fails : seen (run { onDisk := true } [.mkColl at', .mkColl bt, .mkIndex ⟨1, 10, bt⟩, .rmColl at', .restart]) =
    some ([some .ok, some .ok, some .ok, some .ok, none], []) := by decide +kernel

/-- And before it, an INSERT is undefined. -/
theorem C79_other_database_is_ub : undefinedB (run { onDisk := true } [.mkColl at', .mkColl bt, .mkIndex ⟨1, 10, bt⟩, .rmColl at', .insert bt]) =
    true := by decide +kernel

/-- A crash while one index is dropped: another one, on another collection, is gone too. -/
theorem C79_crash_fails : seen (run { onDisk := true } [.mkColl at', .mkColl au, .mkIndex ⟨1, 10, at'⟩, .mkIndex ⟨2, 10, au⟩, .crashRm at' 1 0]) =
    some ([some .ok, some .ok, some .ok, some .ok, none], []) := by decide +kernel

/-- A state with one index, with a file that lists it `n + 1` times. -/
def one (n : Nat) : State := {
  onDisk := true
  colls := [(at', 0)]
  next := 1
  eng := [⟨at', 1, 10, true⟩]
  used := [(at', 10, 1)]
  agents := [⟨1, at', 0, false⟩]
  file := List.replicate (n + 1) ⟨1, 10, at'⟩ }

theorem reload_again (k n : Nat) : reload (List.replicate k ⟨1, 10, at'⟩) (one n) = .ok (one n) := by
  induction k with
  | zero => rfl
  | succ k ih =>
    rw [List.replicate_succ]
    exact ih

theorem restart_one (n : Nat) : restart (one n) = .ok (one (n + 1)) := by
  have h0 : restart (one n) = reload (⟨1, 10, at'⟩ :: List.replicate n ⟨1, 10, at'⟩) { onDisk := true, colls := [(at', 0)], next := 1, file := List.replicate (n + 1) ⟨1, 10, at'⟩ } := by
    simp only [restart, one, if_true, List.replicate_succ]; rfl
  rw [h0]
  show reload (List.replicate n ⟨1, 10, at'⟩) { one n with file := List.replicate (n + 1) ⟨1, 10, at'⟩ ++ [⟨1, 10, at'⟩] } = _
  have : List.replicate (n + 1) (⟨1, 10, at'⟩ : Def) ++ [⟨1, 10, at'⟩] = List.replicate (n + 1 + 1) ⟨1, 10, at'⟩ := by
    rw [List.replicate_succ' (n := n + 1)]
  rw [this]
  exact reload_again n (n + 1)

/-- Every restart adds the indexes to the file once more: with one index, it has `n + 1` entries after `n` restarts. -/
theorem C79_file_grows (n : Nat) :
    fileLen (run { onDisk := true } ([.mkColl at', .mkIndex ⟨1, 10, at'⟩] ++ List.replicate n .restart)) = some (n + 1) := by
  have h : ∀ n k, fileLen (run (one k) (List.replicate n .restart)) = some (n + k + 1) := by
    intro n
    induction n with
    | zero => intro k; simp [run, fileLen, one]
    | succ n ih =>
      intro k
      have h1 := ih (k + 1)
      rw [List.replicate_succ]
      simp only [run, step, restart_one]
      show fileLen ((run (one (k + 1)) (List.replicate n .restart)).map' _) = _
      cases hr : run (one (k + 1)) (List.replicate n .restart) with
      | ok r =>
        rw [hr] at h1
        have h2 : some r.1.file.length = some (n + (k + 1) + 1) := h1
        show some r.1.file.length = _
        rw [h2]; congr 1; omega
      | throws => rw [hr] at h1; cases h1
      | ub => rw [hr] at h1; cases h1
      | diverges => rw [hr] at h1; cases h1
  have h0 := h n 0
  show fileLen (((run (one 0) (List.replicate n .restart)).map' _).map' _) = _
  cases hr : run (one 0) (List.replicate n .restart) with
  | ok r => rw [hr] at h0; exact h0
  | throws => rw [hr] at h0; cases h0
  | ub => rw [hr] at h0; cases h0
  | diverges => rw [hr] at h0; cases h0

/-- The full claim does not hold of the code. -/
theorem C79_fails : ¬ C79_claim := by
  intro h
  obtain ⟨st, rs, h1, -⟩ := h true [.mkColl at', .mkIndex ⟨1, 10, at'⟩, .rmColl at']
  have := C79_drop_collection_is_ub
  rw [h1] at this
  exact absurd this (by simp [undefinedB])

end Verif.IdxReg
