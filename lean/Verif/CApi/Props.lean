import Verif.CApi.Lemmas
/-!
C88: a C program that uses the handles it holds gets the results it may expect.  C89: a text or an error message read
through the C interface is the one stored.
-/
namespace Verif.CApi

open Verif.DocVal Verif.Num Verif.PhysKey Verif.LogVal

/-- C88: every program that uses only handles it holds, of databases not destroyed, gets the results it may expect. -/
def C88_claim : Prop := ∀ cs rs, Goes (fun _ _ => True) View.start cs rs → run St.init cs = .ok rs

/-- Such a program gets them if its calls are safe: answers of documents, fewer than 2^31 - 1 of them asked for, no question
about a document that is not there, no text of 40 bytes or error message of 32, none with a zero byte.
Missing: all of that. -/
theorem C88_calls_partial (cs : List Call) (rs : List Ret) (h : Goes Safe View.start cs rs) : run St.init cs = .ok rs :=
  goes_follows h (fun _ hw => by cases hw)

/-- What a program may expect of a safe call is one thing only. -/
theorem C88_unique (cs : List Call) (c : Call) (rs : List Ret) (r1 r2 : Ret) (h1 : Goes Safe View.start (cs ++ [c]) (rs ++ [r1]))
    (h2 : Goes Safe View.start (cs ++ [c]) (rs ++ [r2])) : r1 = r2 := by
  have e := (C88_calls_partial _ _ h1).symm.trans (C88_calls_partial _ _ h2)
  simpa using e

def exName : Bytes := [110]
def exTags : Bytes := [116]
/-- `{"_id": "aa...a", "n": "ab", "t": [7, null]}`. -/
def exDoc : Json.Node := .obj [(idName, .leaf (.str (List.replicate 24 97))), (exName, .leaf (.str [97, 98])), (exTags, .arr [.leaf (.int .i64 7), .leaf .na])]

def exCalls : List Call := [.create, .execute 0 (.documents [some exDoc, none]), .size 0, .hasNext 0, .next 0, .id 0,
  .getString 0 (.key exName), .getArray 0 (.key (Json.pointer [.name exTags])), .getLong 1 (.index 0), .is .null 1 (.index 1), .is .exist 1 (.index 2),
  .releaseDocument 0, .getBool 1 (.index 0), .releaseCursor 0, .destroy 0]
def exRets : List Ret := [.handle 0, .handle 0, .int 2, .bool true, .handle 0, .text (List.replicate 24 97), .text [97, 98], .handle 1,
  .int 7, .bool true, .bool false, .nothing, .bool false, .nothing, .nothing]

theorem ex_fits (k : Bytes) : Json.Fits exDoc [.name k] := fun _ _ => trivial

def exWalk (k : Nat) : Walk := ⟨0, some [some exDoc, none], 2, k, true, 0, []⟩
def exArr : Json.Node := .arr [.leaf (.int .i64 7), .leaf .na]

theorem ex_at (i : Int) (h0 : 0 ≤ i) (h1 : i < 2 ^ 31) : At exArr (.index i) (Json.reach exArr [.index i.toNat]) :=
  ⟨_, ⟨h0, h1, rfl, rfl⟩, rfl⟩

/-- A program for which the hypothesis holds: it walks, reads a text and an identifier, goes into an array, reads there
after releasing the document, and releases everything. -/
theorem ex_goes : Goes Safe View.start exCalls exRets := by
  have hn : ∀ n, (⟨[true], [some (exWalk 1)], [some ⟨0, some exDoc⟩]⟩ : View).HasTree 0 n → n = exDoc := by
    rintro n ⟨d, ⟨h1, -⟩, h2⟩
    cases h1; cases h2; rfl
  have hm : ∀ n, (⟨[true], [some (exWalk 1)], [some ⟨0, some exDoc⟩, some ⟨0, some exArr⟩]⟩ : View).HasTree 1 n → n = exArr := by
    rintro n ⟨d, ⟨h1, -⟩, h2⟩
    cases h1; cases h2; rfl
  have ha : ∀ o, At exArr (.index 0) o → o = some (.leaf (.int .i64 7)) := by
    rintro o ⟨l, ⟨-, -, -, rfl⟩, rfl⟩
    rfl
  have hb : ∀ o, At exDoc (.key exName) o → o = some (.leaf (.str [97, 98])) := by
    intro o ho
    have h1 := find_named ho
    have h2 := find_named (⟨[.name exName], ⟨ex_fits _, .inr ⟨by decide, by decide, by decide, rfl⟩⟩, rfl⟩ : At exDoc (.key exName) _)
    rw [h1] at h2
    cases o with
    | none => cases h2
    | some c => cases h2; rfl
  refine .cons _ ⟨[true], [], []⟩ _ _ _ _ ⟨rfl, rfl⟩ trivial ?_
  refine .cons _ ⟨[true], [some (exWalk 0)], []⟩ _ _ _ _ ⟨rfl, rfl, rfl⟩ trivial ?_
  refine .cons _ ⟨[true], [some (exWalk 0)], []⟩ _ _ _ _ ⟨_, ⟨rfl, rfl⟩, rfl, rfl⟩ ?_ ?_
  · rintro w ⟨h, -⟩; cases h; decide
  refine .cons _ ⟨[true], [some (exWalk 0)], []⟩ _ _ _ _ ⟨_, ⟨rfl, rfl⟩, rfl, rfl⟩ ?_ ?_
  · rintro w ⟨h, -⟩; cases h; decide
  refine .cons _ ⟨[true], [some (exWalk 1)], [some ⟨0, some exDoc⟩]⟩ _ _ _ _ ⟨_, _, ⟨rfl, rfl⟩, rfl, rfl, rfl⟩ ?_ ?_
  · rintro w ⟨h, -⟩; cases h; decide
  refine .cons _ _ _ _ _ _ ⟨exDoc, ⟨_, ⟨rfl, rfl⟩, rfl⟩, by decide, rfl⟩ ?_ ?_
  · intro n h; rw [hn n h]; exact ex_fits _
  refine .cons _ _ _ _ _ _ ⟨exDoc, _, ⟨_, ⟨rfl, rfl⟩, rfl⟩, ⟨[.name exName], ⟨ex_fits _, .inr ⟨by decide, by decide, by decide, rfl⟩⟩, rfl⟩, rfl, rfl⟩ ?_ ?_
  · intro n o h h'; rw [hn n h] at h'; rw [hb o h']; exact ⟨by decide, by decide⟩
  refine .cons _ ⟨[true], [some (exWalk 1)], [some ⟨0, some exDoc⟩, some ⟨0, some exArr⟩]⟩ _ _ _ _
    ⟨_, exDoc, _, ⟨rfl, rfl⟩, rfl, ⟨[.name exTags], ⟨ex_fits _, .inl rfl⟩, rfl⟩, rfl, rfl⟩ trivial ?_
  refine .cons _ _ _ _ _ _ ⟨exArr, _, _, ⟨_, ⟨rfl, rfl⟩, rfl⟩, ex_at 0 (by decide) (by decide), rfl, rfl, rfl⟩ ?_ ?_
  · intro n o h h'; rw [hm n h] at h'; rw [ha o h']; exact ⟨by decide, fun e => by cases e⟩
  refine .cons _ _ _ _ _ _ ⟨exArr, _, _, ⟨_, ⟨rfl, rfl⟩, rfl⟩, ex_at 1 (by decide) (by decide), rfl, rfl, rfl⟩ trivial ?_
  refine .cons _ _ _ _ _ _ ⟨exArr, _, _, ⟨_, ⟨rfl, rfl⟩, rfl⟩, ex_at 2 (by decide) (by decide), rfl, rfl, rfl⟩ trivial ?_
  refine .cons _ ⟨[true], [some (exWalk 1)], [none, some ⟨0, some exArr⟩]⟩ _ _ _ _ ⟨_, ⟨rfl, rfl⟩, rfl, rfl⟩ trivial ?_
  refine .cons _ _ _ _ _ _ ⟨exArr, _, ⟨_, ⟨rfl, rfl⟩, rfl⟩, ex_at 0 (by decide) (by decide), rfl, rfl⟩ trivial ?_
  refine .cons _ ⟨[true], [none], [none, some ⟨0, some exArr⟩]⟩ _ _ _ _ ⟨_, ⟨rfl, rfl⟩, rfl, rfl⟩ trivial ?_
  refine .cons _ ⟨[false], [none], [none, some ⟨0, some exArr⟩]⟩ _ _ _ _ ⟨rfl, rfl, rfl⟩ trivial ?_
  exact .nil _

example : run St.init exCalls = .ok exRets := C88_calls_partial _ _ ex_goes

/-- Asking whether there is a document behind the last one, or behind the null pointer among the documents a DELETE answers,
dereferences a null pointer. -/
theorem C88_absent_fails : ¬ C88_claim ∧
    run St.init [.create, .execute 0 (.documents []), .next 0, .isValid 0] = .ub ∧
    run St.init [.create, .execute 0 (.documents [none]), .next 0, .isValid 0] = .ub ∧
    run St.init [.create, .execute 0 (.documents [some exDoc]), .next 0, .getDict 0 (.key exName), .isValid 1] = .ub := by
  have e : run St.init [.create, .execute 0 (.documents []), .next 0, .isValid 0] = .ub := rfl
  refine ⟨?_, e, rfl, rfl⟩
  intro h
  have := h [.create, .execute 0 (.documents []), .next 0, .isValid 0] [.handle 0, .handle 0, .handle 0, .bool false] ?_
  · rw [e] at this; cases this
  · refine .cons _ ⟨[true], [], []⟩ _ _ _ _ ⟨rfl, rfl⟩ trivial ?_
    refine .cons _ ⟨[true], [some ⟨0, some [], 0, 0, true, 0, []⟩], []⟩ _ _ _ _ ⟨rfl, rfl, rfl⟩ trivial ?_
    refine .cons _ ⟨[true], [some ⟨0, some [], 0, 1, true, 0, []⟩], [some ⟨0, none⟩]⟩ _ _ _ _ ⟨_, _, ⟨rfl, rfl⟩, rfl, rfl, rfl⟩ trivial ?_
    exact .cons _ _ _ _ _ _ ⟨_, ⟨rfl, rfl⟩, rfl, rfl⟩ trivial (.nil _)

/-- The answer of rows says there is a next document, and asking for it throws through the C interface. -/
theorem C88_rows_fails (n : Nat) (h : 0 < n) :
    run St.init [.create, .execute 0 (.rows n), .hasNext 0] = .ok [.handle 0, .handle 0, .bool true] ∧
    run St.init [.create, .execute 0 (.rows n), .hasNext 0, .next 0] = .throws := by
  have e : (Cursor.ofRows n : Cursor.Cur (Option Json.Node)).hasNext = .ok true := by
    have : (Cursor.ofRows n : Cursor.Cur (Option Json.Node)).hasNext = .ok (decide (0 < n)) := rfl
    rw [this, decide_eq_true h]
  have e2 : (Cursor.ofRows n : Cursor.Cur (Option Json.Node)).next = .throws := by
    have : (Cursor.ofRows n : Cursor.Cur (Option Json.Node)).next =
      (Res.bind (if 0 < n then (match ([] : List (Option Json.Node))[0]? with | some d => .ok (some d) | none => .throws) else .ok none) fun d =>
        .ok (d, ({ Cursor.ofRows n with cur := 0 } : Cursor.Cur (Option Json.Node)))) := rfl
    rw [this, if_pos h]
    rfl
  constructor
  · simp only [run, step, St.init, St.cursor, St.space, List.nil_append, List.length_nil, Res.bind, Answer.cur, List.getElem?_cons_zero, e]
  · simp only [run, step, St.init, St.cursor, St.space, List.nil_append, List.length_nil, Res.bind, Answer.cur, List.getElem?_cons_zero, e, e2]

example : (0 : Nat) < 3 := by decide

/-- -1 in 8 bits, and 2^64 in 128 bits, are said to be unsigned 64-bit integers, and read as 2^64 - 1 and 0. -/
theorem C88_unsigned_fails :
    run St.init [.create, .execute 0 (.documents [some (.arr [.leaf (.int .i8 (-1)), .leaf (.big (2 ^ 64))])]), .next 0,
      .is .ulong 0 (.index 0), .getUlong 0 (.index 0), .is .ulong 0 (.index 1), .getUlong 0 (.index 1)]
      = .ok [.handle 0, .handle 0, .handle 0, .bool true, .int (2 ^ 64 - 1), .bool true, .int 0] := by
  decide +kernel

/-! ### texts -/

/-- The program that reads a text of a document. -/
def readText (n : Json.Node) (p : Path) : List Call := [.create, .execute 0 (.documents [some n]), .next 0, .getString 0 p]

/-- The program that reads an error message. -/
def readError (code : Int) (what : Bytes) : List Call := [.create, .execute 0 (.error code what), .getError 0]

/-- C89: a text read is the one in the document, an error message the one given. -/
def C89_claim : Prop :=
  (∀ n p s, At n p (some (.leaf (.str s))) → run St.init (readText n p) = .ok [.handle 0, .handle 0, .handle 0, .text s]) ∧
  (∀ (code : Int) what, -2 ^ 31 ≤ code → code < 2 ^ 31 → run St.init (readError code what) = .ok [.handle 0, .handle 0, .error code what])

theorem readText_run (n : Json.Node) (p : Path) (s : Bytes) (h : At n p (some (.leaf (.str s)))) :
    run St.init (readText n p) = (strcpy 40 s).bind fun m => .ok [.handle 0, .handle 0, .handle 0, .text m] := by
  obtain ⟨st, hst⟩ : ∃ st : St, st = ⟨[true], [some ⟨0, ⟨1, [some n], 0⟩, true, 0, []⟩], [some ⟨0, some n⟩]⟩ := ⟨_, rfl⟩
  have e : step st (.getString 0 p) = (strcpy 40 s).bind fun m => .ok (.text m, st) := by
    have ht : st.tree 0 = .ok n := by rw [hst]; rfl
    simp only [step]
    rw [ht]
    simp only [Res.bind, getStr_named h, textOf, show sizeofPmrString = 40 from rfl]
  have e2 : run St.init (readText n p) = (((run st [.getString 0 p]).bind fun rs => .ok (.handle 0 :: rs)).bind fun rs =>
      .ok (.handle 0 :: rs)).bind fun rs => .ok (.handle 0 :: rs) := by rw [hst]; rfl
  rw [e2]
  unfold run
  rw [e]
  cases strcpy 40 s <;> rfl

theorem readError_run (code : Int) (what : Bytes) (h0 : -2 ^ 31 ≤ code) (h1 : code < 2 ^ 31) :
    run St.init (readError code what) = (strcpy 32 what).bind fun m => .ok [.handle 0, .handle 0, .error code m] := by
  have e2 : run St.init (readError code what) = (((((strcpy 32 what).bind fun m => Res.ok (Ret.error (wrap .i32 code) m,
      (⟨[true], [some ⟨0, ⟨0, [], -1⟩, false, code, what⟩], []⟩ : St))).bind fun r => (run r.2 []).bind fun rs => .ok (r.1 :: rs)).bind fun rs =>
      .ok (.handle 0 :: rs)).bind fun rs => .ok (.handle 0 :: rs)) := rfl
  rw [e2, wrap_fits .i32 code (by unfold ITy.fits; simp only [ITy.signed, ITy.bits, if_true]; omega)]
  cases strcpy 32 what <;> rfl

/-- They are if the text is shorter than 40 bytes, the message shorter than 32, and none has a zero byte.
Missing: the others. -/
theorem C89_text_partial :
    (∀ n p s, At n p (some (.leaf (.str s))) → (0 : UInt8) ∉ s → s.length < 40 →
      run St.init (readText n p) = .ok [.handle 0, .handle 0, .handle 0, .text s]) ∧
    (∀ (code : Int) what, -2 ^ 31 ≤ code → code < 2 ^ 31 → (0 : UInt8) ∉ what → what.length < 32 →
      run St.init (readError code what) = .ok [.handle 0, .handle 0, .error code what]) := by
  constructor
  · intro n p s h h0 h1
    rw [readText_run n p s h, strcpy_short ⟨h0, h1⟩]
    rfl
  · intro code what h0 h1 h2 h3
    rw [readError_run code what h0 h1, strcpy_short ⟨h2, h3⟩]
    rfl

example : At exDoc (.key exName) (some (.leaf (.str [97, 98]))) ∧ (0 : UInt8) ∉ ([97, 98] : Bytes) ∧ ([97, 98] : Bytes).length < 40 :=
  ⟨⟨[.name exName], ⟨ex_fits _, .inr ⟨by decide, by decide, by decide, rfl⟩⟩, rfl⟩, by decide, by decide⟩

/-- Every longer text, and every longer message, is written beyond the memory allocated for it; what is behind a zero byte
is lost. -/
theorem C89_text_fails :
    (∀ n p s, At n p (some (.leaf (.str s))) → (0 : UInt8) ∉ s → 40 ≤ s.length → run St.init (readText n p) = .ub) ∧
    (∀ (code : Int) what, -2 ^ 31 ≤ code → code < 2 ^ 31 → (0 : UInt8) ∉ what → 32 ≤ what.length → run St.init (readError code what) = .ub) ∧
    (∀ n p s t, At n p (some (.leaf (.str (s ++ 0 :: t)))) → (0 : UInt8) ∉ s → s.length < 40 →
      run St.init (readText n p) = .ok [.handle 0, .handle 0, .handle 0, .text s]) := by
  refine ⟨?_, ?_, ?_⟩
  · intro n p s h h0 h1
    rw [readText_run n p s h]
    unfold strcpy
    simp only [takeWhile_short s h0]
    rw [if_pos (by omega)]
    rfl
  · intro code what h0 h1 h2 h3
    rw [readError_run code what h0 h1]
    unfold strcpy
    simp only [takeWhile_short what h2]
    rw [if_pos (by omega)]
    rfl
  · intro n p s t h h0 h1
    rw [readText_run n p _ h]
    have e : (s ++ 0 :: t).takeWhile (· != 0) = s := by
      rw [List.takeWhile_append_of_pos (fun x hx => by simp only [bne_iff_ne, ne_eq]; intro e; rw [e] at hx; exact h0 hx), List.takeWhile_cons, if_neg (by decide), List.append_nil]
    unfold strcpy
    simp only [e]
    rw [if_neg (by omega)]
    rfl

theorem C89_claim_fails : ¬ C89_claim := by
  intro h
  have h1 := h.2 0 (List.replicate 32 97) (by decide) (by decide)
  rw [C89_text_fails.2.1 0 (List.replicate 32 97) (by decide) (by decide) (by decide) (by decide)] at h1
  cases h1

end Verif.CApi
