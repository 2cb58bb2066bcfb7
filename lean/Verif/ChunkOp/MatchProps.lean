import Verif.ChunkOp.Cond
/-!
C70: a filter over the rows of a query returns the rows its condition is true of.
-/
namespace Verif.ChunkOp
open Verif Verif.Num Verif.PhysKey Verif.LogVal
open Verif.DocVal (V)

/-- Property C70 in full. -/
def C70_match_claim : Prop :=
  ∀ (ps : List V) (e : Ex) (limit : Int) (c : Ch), -1 ≤ limit → (∀ r ∈ c.rows, Typed c.cols r) → e.All (SoundOne ps c.cols) →
    Answers (matchOp ps e limit c) (firstN limit (c.rows.filter (selects ps e c.cols)))

/-! ### the loop -/

/-- The rows still admitted after `n`. -/
def rest {α : Type} (limit : Int) (n : Nat) (l : List α) : List α := if limit = -1 then l else l.take (limit.toNat - n)

theorem matchLoop_ok {p : Row → Res Bool} {q : Row → Bool} {cs : Cols} {limit : Int} (hl : -1 ≤ limit) :
    ∀ (rs : List Row) (n : Nat), (∀ r ∈ rs, Typed cs r ∧ p r = .ok (q (fill cs r))) → Query.limOk limit n = true →
      n + (rest limit n ((rs.map (fill cs)).filter q)).length ≤ CAP →
      matchLoop p cs limit rs n = .ok (rest limit n ((rs.map (fill cs)).filter q))
  | [], n, _, _, _ => by simp [matchLoop, rest]
  | r :: rs, n, h, hlim, hcap => by
    obtain ⟨ht, hp⟩ := h r List.mem_cons_self
    have hrs : ∀ r ∈ rs, Typed cs r ∧ p r = .ok (q (fill cs r)) := fun r hr => h r (List.mem_cons_of_mem _ hr)
    have hlim' : limit = -1 ∨ n < limit.toNat := by
      simp only [Query.limOk, Bool.or_eq_true, beq_iff_eq, decide_eq_true_eq] at hlim
      omega
    simp only [matchLoop, hp, Res.bind]
    cases hq : q (fill cs r) with
    | false =>
      simp only [List.map_cons, List.filter_cons, hq] at hcap ⊢
      simpa using matchLoop_ok hl rs n hrs hlim (by simpa using hcap)
    | true =>
      simp only [List.map_cons, List.filter_cons, hq, if_true] at hcap ⊢
      have hsplit : rest limit n (fill cs r :: (rs.map (fill cs)).filter q) = fill cs r :: rest limit (n + 1) ((rs.map (fill cs)).filter q) := by
        simp only [rest]
        split
        · rfl
        · rename_i hne
          have : limit.toNat - n = (limit.toNat - (n + 1)) + 1 := by omega
          rw [this, List.take_succ_cons]
      rw [hsplit] at hcap ⊢
      simp only [List.length_cons] at hcap
      have hn : ¬ CAP ≤ n := by omega
      simp only [hn, if_false, copied_fill ht]
      split
      · rename_i hlim2
        rw [matchLoop_ok hl rs (n + 1) hrs hlim2 (by omega)]
        rfl
      · rename_i hlim2
        have : rest limit (n + 1) ((rs.map (fill cs)).filter q) = [] := by
          simp only [Query.limOk, Bool.or_eq_true, beq_iff_eq, decide_eq_true_eq, not_or] at hlim2
          simp only [rest, hlim2.1, if_false]
          have : limit.toNat - (n + 1) = 0 := by omega
          rw [this]; rfl
        rw [this]

theorem matchLoop_ub {p : Row → Res Bool} {q : Row → Bool} {cs : Cols} :
    ∀ (rs : List Row) (n : Nat), (∀ r ∈ rs, Typed cs r ∧ p r = .ok (q (fill cs r))) → CAP < n + ((rs.map (fill cs)).filter q).length → n ≤ CAP →
      matchLoop p cs (-1) rs n = .ub
  | [], n, _, h, hn => by simp at h; omega
  | r :: rs, n, h, hcap, hn => by
    obtain ⟨ht, hp⟩ := h r List.mem_cons_self
    have hrs : ∀ r ∈ rs, Typed cs r ∧ p r = .ok (q (fill cs r)) := fun r hr => h r (List.mem_cons_of_mem _ hr)
    simp only [matchLoop, hp, Res.bind]
    cases hq : q (fill cs r) with
    | false =>
      simp only [List.map_cons, List.filter_cons, hq] at hcap ⊢
      simpa using matchLoop_ub rs n hrs (by simpa using hcap) hn
    | true =>
      simp only [List.map_cons, List.filter_cons, hq, if_true, List.length_cons] at hcap ⊢
      split
      · rfl
      · rename_i hn2
        have := matchLoop_ub rs (n + 1) hrs (by omega) (by omega)
        simp [Query.limOk, this, Res.map', Res.bind]

/-! ### C70 -/

/-- C70 up to NULLs: the filter returns, in order and up to the limit, the rows its condition is true of, if NULLs are
taken for zeros, both in the condition and in the rows returned. -/
theorem C70_match_zeros (ps : List V) (e : Ex) (limit : Int) (c : Ch) (hl : -1 ≤ limit) (ht : ∀ r ∈ c.rows, Typed c.cols r)
    (he : e.All (SuitOne ps c.cols)) (hp : e.Plain)
    (hcap : (firstN limit ((c.rows.map (fill c.cols)).filter (selects ps e c.cols))).length ≤ 1024) :
    Answers (matchOp ps e limit c) (firstN limit ((c.rows.map (fill c.cols)).filter (selects ps e c.cols))) := by
  have hr : ∀ l : List Row, rest limit 0 l = firstN limit l := fun l => rfl
  simp only [matchOp]
  split
  · rename_i h0
    left
    rw [matchLoop_ok (q := selects ps e c.cols) hl c.rows 0 (fun r hr => ⟨ht r hr, checkOne_ok (ht r hr) he hp⟩) h0
      (by rw [hr]; simpa [CAP] using hcap), hr]
    rfl
  · rename_i h0
    right
    refine ⟨?_, rfl⟩
    simp only [Query.limOk, Bool.or_eq_true, beq_iff_eq, decide_eq_true_eq, not_or] at h0
    have : limit.toNat = 0 := by omega
    simp [firstN, h0.1, this]

/-- C70 for rows without NULL: exactly the rows the condition is true of, unchanged, in order, up to the limit. Missing: NULLs,
more than 1024 rows, `all_true`, comparisons of two columns and with parameters of another kind (all false below). -/
theorem C70_match_partial (ps : List V) (e : Ex) (limit : Int) (c : Ch) (hl : -1 ≤ limit) (ht : ∀ r ∈ c.rows, Typed c.cols r)
    (hf : ∀ r ∈ c.rows, Full r) (he : e.All (SuitOne ps c.cols)) (hp : e.Plain)
    (hcap : (firstN limit (c.rows.filter (selects ps e c.cols))).length ≤ 1024) :
    Answers (matchOp ps e limit c) (firstN limit (c.rows.filter (selects ps e c.cols))) := by
  have hid : c.rows.map (fill c.cols) = c.rows := by
    conv_rhs => rw [← List.map_id c.rows]
    exact List.map_congr_left fun r hr => fill_full (ht r hr) (hf r hr)
  have := C70_match_zeros ps e limit c hl ht he hp
  rw [hid] at this
  exact this hcap

/-- More than 1024 rows to return: the output is written beyond its end. -/
theorem C70_match_too_many (ps : List V) (e : Ex) (c : Ch) (ht : ∀ r ∈ c.rows, Typed c.cols r) (he : e.All (SuitOne ps c.cols)) (hp : e.Plain)
    (hcap : 1024 < ((c.rows.map (fill c.cols)).filter (selects ps e c.cols)).length) : matchOp ps e (-1) c = .ub := by
  simp only [matchOp, Query.limOk, beq_self_eq_true, Bool.true_or, if_true]
  rw [matchLoop_ub (q := selects ps e c.cols) c.rows 0 (fun r hr => ⟨ht r hr, checkOne_ok (ht r hr) he hp⟩) (by simpa [CAP] using hcap) (by simp)]
  rfl

/-! ### examples -/

/-- Columns `x` of `int32_t` and `s` of strings. -/
def exCols : Cols := [([120], .int .i32), ([115], .str)]
def exRow (n : Int) (s : Bytes) : Row := [some (.int .i32 n), some (.str s)]
def exCh : Ch := { cols := exCols, rows := [exRow 1 [97], exRow 5 [98], exRow 7 [97], exRow 9 [97]], spare := [] }
/-- `x > #0 AND NOT s = #1`. -/
def exCond : Ex := .and [.cmp .gt [120] (.param 0), .not (.cmp .eq [115] (.param 1))]
def exPs : List V := [.int .i64 1, .str [98]]

theorem exRow_typed (n : Int) (s : Bytes) (h : ITy.i32.fits n) : Typed exCols (exRow n s) :=
  .cons (fun _ hv => by injection hv with hv; subst hv; exact ⟨rfl, h⟩) (.cons (fun _ hv => by injection hv with hv; subst hv; trivial) .nil)

example : (∀ r ∈ exCh.rows, Typed exCh.cols r) ∧ (∀ r ∈ exCh.rows, Full r) ∧ exCond.All (SuitOne exPs exCh.cols) ∧ exCond.Plain ∧
    exCh.rows.filter (selects exPs exCond exCh.cols) = [exRow 7 [97], exRow 9 [97]] ∧
    matchOp exPs exCond (-1) exCh = .ok (some [exRow 7 [97], exRow 9 [97]]) ∧ matchOp exPs exCond 1 exCh = .ok (some [exRow 7 [97]]) := by
  refine ⟨?_, ?_, ?_, by simp [exCond, Ex.Plain, Ex.PlainL], by decide +kernel, by decide +kernel, by decide +kernel⟩
  · intro r hr
    simp only [exCh, List.mem_cons, List.not_mem_nil, or_false] at hr
    rcases hr with rfl | rfl | rfl | rfl <;> exact exRow_typed _ _ (by decide)
  · intro r hr
    simp only [exCh, List.mem_cons, List.not_mem_nil, or_false] at hr
    rcases hr with rfl | rfl | rfl | rfl <;> simp [Full, exRow]
  · simp only [exCond, Ex.All, Ex.AllL, and_true]
    exact ⟨⟨.int .i32, 0, .int .i64 1, rfl, rfl, rfl, by decide, by decide⟩, ⟨.str, 1, .str [98], rfl, rfl, rfl, trivial⟩⟩

/-- More than 1024 rows: of any length. -/
example (n : Nat) (hn : 1024 < n) : matchOp [] .always (-1) { cols := exCols, rows := List.replicate n (exRow 1 []), spare := [] } = .ub := by
  refine C70_match_too_many [] .always _ (fun r hr => ?_) (by simp [Ex.All]) (by simp [Ex.Plain]) ?_
  · obtain rfl := List.eq_of_mem_replicate hr
    exact exRow_typed _ _ (by decide)
  · rw [List.filter_eq_self.mpr]
    · simpa using hn
    · intro r _; simp [selects, truth]

/-! ### where the claim fails -/

/-- NULL = 0 is true, and the row returned has 0 instead of NULL. -/
theorem C70_null_fails : ¬ C70_match_claim ∧
    matchOp [.int .i64 0] (.cmp .eq [120] (.param 0)) (-1) { cols := exCols, rows := [[none, none]], spare := [] } = .ok (some [exRow 0 []]) := by
  refine ⟨fun h => ?_, by decide +kernel⟩
  have := h [.int .i64 0] (.cmp .eq [120] (.param 0)) (-1) { cols := exCols, rows := [[none, none]], spare := [] } (by omega)
    (fun r hr => by simp at hr; subst hr; exact .cons nofun (.cons nofun .nil))
    (by simp only [Ex.All]; exact ⟨.int .i32, rfl, .int .i64 0, rfl, by simp only [Alike]; decide⟩)
  revert this
  simp only [Answers]
  decide +kernel

/-- The condition that is always true selects nothing. -/
theorem C70_all_true_fails : ¬ C70_match_claim ∧ ∀ (ps : List V) (c : Ch), matchOp ps .allTrue (-1) c = .ok (some []) := by
  have hrun : ∀ (ps : List V) (c : Ch), matchOp ps .allTrue (-1) c = .ok (some []) := by
    intro ps c
    have : ∀ (rs : List Row) (n : Nat), matchLoop (fun r => check (leafOne ps c.cols r) .allTrue) c.cols (-1) rs n = .ok [] := by
      intro rs
      induction rs with
      | nil => intro n; rfl
      | cons r rs ih => intro n; simpa [matchLoop, check, Res.bind] using ih n
    simp [matchOp, Query.limOk, this, Res.map', Res.bind]
  refine ⟨fun h => ?_, hrun⟩
  have := h [] .allTrue (-1) exCh (by omega) (fun r hr => by
    simp only [exCh, List.mem_cons, List.not_mem_nil, or_false] at hr
    rcases hr with rfl | rfl | rfl | rfl <;> exact exRow_typed _ _ (by decide)) (by simp [Ex.All])
  rw [hrun] at this
  revert this
  simp only [Answers]
  decide +kernel

/-- `x < 2.5` is false for 2: the parameter is truncated. -/
theorem C70_fraction_fails : ¬ C70_match_claim ∧
    matchOp [.double 0x4004000000000000] (.cmp .lt [120] (.param 0)) (-1) { cols := exCols, rows := [exRow 2 []], spare := [] } = .ok (some []) ∧
    selects [.double 0x4004000000000000] (.cmp .lt [120] (.param 0)) exCols (exRow 2 []) = true := by
  have h1 : matchOp [.double 0x4004000000000000] (.cmp .lt [120] (.param 0)) (-1) { cols := exCols, rows := [exRow 2 []], spare := [] } = .ok (some []) := by decide +kernel
  have h2 : selects [.double 0x4004000000000000] (.cmp .lt [120] (.param 0)) exCols (exRow 2 []) = true := by decide +kernel
  refine ⟨fun h => ?_, h1, h2⟩
  have := h [.double 0x4004000000000000] (.cmp .lt [120] (.param 0)) (-1) { cols := exCols, rows := [exRow 2 []], spare := [] } (by omega)
    (fun r hr => by simp at hr; subst hr; exact exRow_typed _ _ (by decide))
    (by simp only [Ex.All]; exact ⟨.int .i32, rfl, .double 0x4004000000000000, rfl, trivial⟩)
  rw [h1] at this
  simp [Answers, firstN, h2] at this

/-- A negative parameter for a column of unsigned integers ends the process. -/
theorem C70_negative_fails : ¬ C70_match_claim ∧
    matchOp [.int .i64 (-1)] (.cmp .gt [120] (.param 0)) (-1) { cols := [([120], .int .u32)], rows := [[some (.int .u32 2)]], spare := [] } = .ub := by
  have h1 : matchOp [.int .i64 (-1)] (.cmp .gt [120] (.param 0)) (-1) { cols := [([120], .int .u32)], rows := [[some (.int .u32 2)]], spare := [] } = .ub := by
    decide +kernel
  refine ⟨fun h => ?_, h1⟩
  have := h [.int .i64 (-1)] (.cmp .gt [120] (.param 0)) (-1) { cols := [([120], .int .u32)], rows := [[some (.int .u32 2)]], spare := [] } (by omega)
    (fun r hr => by simp at hr; subst hr; exact .cons (fun _ hv => by injection hv with hv; subst hv; exact ⟨rfl, by decide⟩) .nil)
    (by simp only [Ex.All]; exact ⟨.int .u32, rfl, .int .i64 (-1), rfl, by simp only [Alike]; decide⟩)
  rw [h1] at this
  simp [Answers] at this

/-- Two columns: `x = y` compares `x` with parameter 0, whatever that belongs to, or throws if there is none. -/
theorem C70_columns_fails : ¬ C70_match_claim ∧
    matchOp [] (.cmp .eq [120] (.key [121])) (-1) { cols := [([120], .int .i32), ([121], .int .i32)], rows := [[some (.int .i32 2), some (.int .i32 2)]], spare := [] } = .throws ∧
    matchOp [.int .i64 2] (.cmp .eq [120] (.key [121])) (-1) { cols := [([120], .int .i32), ([121], .int .i32)], rows := [[some (.int .i32 2), some (.int .i32 3)]], spare := [] } =
      .ok (some [[some (.int .i32 2), some (.int .i32 3)]]) := by
  refine ⟨fun h => ?_, by decide +kernel, by decide +kernel⟩
  have := h [] (.cmp .eq [120] (.key [121])) (-1) { cols := [([120], .int .i32), ([121], .int .i32)], rows := [[some (.int .i32 2), some (.int .i32 2)]], spare := [] } (by omega)
    (fun r hr => by
      simp at hr; subst hr
      exact .cons (fun _ hv => by injection hv with hv; subst hv; exact ⟨rfl, by decide⟩) (.cons (fun _ hv => by injection hv with hv; subst hv; exact ⟨rfl, by decide⟩) .nil))
    (by simp only [Ex.All]; exact ⟨.int .i32, rfl, rfl⟩)
  revert this
  simp only [Answers]
  decide +kernel

end Verif.ChunkOp
