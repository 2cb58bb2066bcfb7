import Verif.ChunkOp.Join
import Verif.ChunkOp.MatchProps
/-!
C71: a join of two tables returns the pairs its condition is true of, and for outer joins the rows without partner.
-/
namespace Verif.ChunkOp
open Verif Verif.Num Verif.PhysKey Verif.LogVal
open Verif.DocVal (V)

/-- Property C71 in full: up to their order, the rows of the join. -/
def C71_join_claim : Prop :=
  ∀ (conv : Ty → LV → LV) (ps : List V) (t : Query.JoinType) (e : Ex) (c d : Ch), Joinable c.cols d.cols →
    (∀ r ∈ c.rows, Typed c.cols r) → (∀ r ∈ d.rows, Typed d.cols r) → e.All (SoundTwo ps c.cols d.cols) →
    ∃ out, joinOp conv ps t e c d = .ok (joinedCols c.cols d.cols, out) ∧
      out.Perm ((expected t (pairs ps e c.cols d.cols) c.rows d.rows).map (besides c.cols d.cols))

/-- The rows of an inner join as the loops give them. -/
theorem expected_inner (q : Row → Row → Bool) (g : Option Row × Option Row → Row) (ls rs : List Row) :
    (expected .inner q ls rs).map g = ls.flatMap fun l => (rs.filter (q l)).map fun r => g (some l, some r) := by
  simp [expected, List.map_flatMap, Function.comp_def]

theorem expected_fill (cl cr : Cols) (q : Row → Row → Bool) (ls rs : List Row) :
    (expected .inner q (ls.map (fill cl)) (rs.map (fill cr))).map (besides cl cr) =
      ls.flatMap fun l => (rs.filter fun r => q (fill cl l) (fill cr r)).map fun r => besides cl cr (some (fill cl l), some (fill cr r)) := by
  rw [expected_inner]
  simp only [List.flatMap_map, List.filter_map, List.map_map]
  rfl

/-- C71 for inner joins up to NULLs: the pairs the condition is true of, by left and then by right row, if NULLs are taken
for zeros, both in the condition and in the rows returned. -/
theorem C71_inner_zeros (conv : Ty → LV → LV) (ps : List V) (e : Ex) (c d : Ch) (hj : Joinable c.cols d.cols)
    (hc : ∀ r ∈ c.rows, Typed c.cols r) (hd : ∀ r ∈ d.rows, Typed d.cols r) (he : e.All (SuitTwo ps c.cols d.cols)) (hp : e.Plain)
    (hcap : (expected .inner (pairs ps e c.cols d.cols) (c.rows.map (fill c.cols)) (d.rows.map (fill d.cols))).length ≤ 1024) :
    joinOp conv ps .inner e c d = .ok (joinedCols c.cols d.cols,
      (expected .inner (pairs ps e c.cols d.cols) (c.rows.map (fill c.cols)) (d.rows.map (fill d.cols))).map (besides c.cols d.cols)) := by
  have h := innerLoop_ok (p := fun l r => check (leafTwo ps c.cols d.cols l r) e)
    (mk := fun l r => joined conv c.cols d.cols (values c.cols l) (values d.cols r))
    (q := fun l r => pairs ps e c.cols d.cols (fill c.cols l) (fill d.cols r))
    (f := fun l r => besides c.cols d.cols (some (fill c.cols l), some (fill d.cols r)))
    (rs := d.rows) c.rows [] (fun l hl r hr => ⟨checkTwo_ok (hc l hl) (hd r hr) he hp, joined_ok hj (hc l hl) (hd r hr)⟩)
    (by
      rw [← expected_fill, List.length_map]
      simpa [CAP] using hcap)
  rw [← expected_fill] at h
  simp only [joinOp, h, Res.map', Res.bind, List.nil_append, joinCols_eq _ _ hj.right]

/-- C71 for inner joins of rows without NULL. Missing: the other kinds of joins, NULLs, more than 1024 rows, `all_true` and
parameters of another type than the column (all false below). -/
theorem C71_inner_partial (conv : Ty → LV → LV) (ps : List V) (e : Ex) (c d : Ch) (hj : Joinable c.cols d.cols)
    (hc : ∀ r ∈ c.rows, Typed c.cols r ∧ Full r) (hd : ∀ r ∈ d.rows, Typed d.cols r ∧ Full r) (he : e.All (SuitTwo ps c.cols d.cols)) (hp : e.Plain)
    (hcap : (expected .inner (pairs ps e c.cols d.cols) c.rows d.rows).length ≤ 1024) :
    joinOp conv ps .inner e c d = .ok (joinedCols c.cols d.cols,
      (expected .inner (pairs ps e c.cols d.cols) c.rows d.rows).map (besides c.cols d.cols)) := by
  have hid : ∀ {cs : Cols} {rows : List Row}, (∀ r ∈ rows, Typed cs r ∧ Full r) → rows.map (fill cs) = rows := by
    intro cs rows h
    conv_rhs => rw [← List.map_id rows]
    exact List.map_congr_left fun r hr => fill_full (h r hr).1 (h r hr).2
  have := C71_inner_zeros conv ps e c d hj (fun r hr => (hc r hr).1) (fun r hr => (hd r hr).1) he hp
  rw [hid hc, hid hd] at this
  exact this hcap

/-- More than 1024 pairs: the output is written beyond its end, in inner and in cross joins. -/
theorem C71_too_many (conv : Ty → LV → LV) (ps : List V) (e : Ex) (c d : Ch) (hj : Joinable c.cols d.cols)
    (hc : ∀ r ∈ c.rows, Typed c.cols r) (hd : ∀ r ∈ d.rows, Typed d.cols r) (he : e.All (SuitTwo ps c.cols d.cols)) (hp : e.Plain) :
    (1024 < (expected .inner (pairs ps e c.cols d.cols) (c.rows.map (fill c.cols)) (d.rows.map (fill d.cols))).length →
      joinOp conv ps .inner e c d = .ub) ∧
    (1024 < c.rows.length * d.rows.length → joinOp conv ps .cross e c d = .ub) := by
  constructor
  · intro hcap
    have h := innerLoop_ub (p := fun l r => check (leafTwo ps c.cols d.cols l r) e)
      (mk := fun l r => joined conv c.cols d.cols (values c.cols l) (values d.cols r))
      (q := fun l r => pairs ps e c.cols d.cols (fill c.cols l) (fill d.cols r))
      (f := fun l r => besides c.cols d.cols (some (fill c.cols l), some (fill d.cols r)))
      (rs := d.rows) c.rows [] (fun l hl r hr => ⟨checkTwo_ok (hc l hl) (hd r hr) he hp, joined_ok hj (hc l hl) (hd r hr)⟩) (by simp)
      (by
        rw [← expected_fill, List.length_map]
        simpa [CAP] using hcap)
    simp only [joinOp, h, Res.map', Res.bind]
  · intro hcap
    have h := innerLoop_ub (p := fun _ _ => .ok true)
      (mk := fun l r => joined conv c.cols d.cols (values c.cols l) (values d.cols r))
      (q := fun _ _ => true)
      (f := fun l r => besides c.cols d.cols (some (fill c.cols l), some (fill d.cols r)))
      (rs := d.rows) c.rows [] (fun l hl r hr => ⟨rfl, joined_ok hj (hc l hl) (hd r hr)⟩) (by simp)
      (by
        simp only [List.length_nil, Nat.zero_add, List.length_flatMap, List.length_map]
        have : ∀ l : List Row, (l.map fun _ => (d.rows.filter fun _ => true).length).sum = l.length * d.rows.length := by
          intro l
          induction l with
          | nil => simp
          | cons x l ih => rw [List.map_cons, List.sum_cons, ih]; simp [Nat.succ_mul, Nat.add_comm]
        rw [this]
        simpa [CAP] using hcap)
    simp only [joinOp, h, Res.map', Res.bind]

/-! ### examples -/

/-- A table of `id` and `name`, and one of `id` and `sum`. -/
def exL : Ch := { cols := [([105], .int .i64), ([110], .str)], rows := [[some (.int .i64 1), some (.str [97])], [some (.int .i64 2), some (.str [98])]], spare := [] }
def exR : Ch := { cols := [([105], .int .i64), ([115], .double)], rows := [[some (.int .i64 2), some (.double (.fin 7))], [some (.int .i64 3), some (.double (.fin 8))]], spare := [] }
/-- `l.id = r.id`. -/
def exOn : Ex := .cmp .eq [105] (.key [105])
def noConv : Ty → LV → LV := fun _ _ => .na

theorem exJoinable : Joinable exL.cols exR.cols := by
  refine ⟨by decide, by decide, fun k ty h ty' h' => ?_⟩
  simp only [exL, exR, tyOf] at h h'
  split at h <;> rename_i hk
  · subst hk
    simp only [if_true] at h'
    exact Option.some.inj (h.symm.trans h')
  · simp only [hk, if_false] at h'
    split at h <;> rename_i hk2
    · subst hk2
      simp at h'
    · exact nomatch h

theorem exL_ok : ∀ r ∈ exL.rows, Typed exL.cols r ∧ Full r := by
  intro r hr
  simp only [exL, List.mem_cons, List.not_mem_nil, or_false] at hr
  rcases hr with rfl | rfl
  all_goals exact ⟨.cons (fun _ hv => by injection hv with hv; subst hv; exact ⟨rfl, by decide⟩) (.cons (fun _ hv => by injection hv with hv; subst hv; trivial) .nil), by simp [Full]⟩

theorem exR_ok : ∀ r ∈ exR.rows, Typed exR.cols r ∧ Full r := by
  intro r hr
  simp only [exR, List.mem_cons, List.not_mem_nil, or_false] at hr
  rcases hr with rfl | rfl
  all_goals exact ⟨.cons (fun _ hv => by injection hv with hv; subst hv; exact ⟨rfl, by decide⟩) (.cons (fun _ hv => by injection hv with hv; subst hv; trivial) .nil), by simp [Full]⟩

theorem exOn_suits : exOn.All (SuitTwo [] exL.cols exR.cols) := by
  simp only [exOn, Ex.All]; exact ⟨.int .i64, rfl, rfl⟩

theorem exOn_sound : exOn.All (SoundTwo [] exL.cols exR.cols) := by
  simp only [exOn, Ex.All]; exact ⟨.int .i64, rfl, rfl⟩

/-- The inner join of the two tables has one row, of three columns. -/
example : exOn.Plain ∧ joinedCols exL.cols exR.cols = [([105], .int .i64), ([110], .str), ([115], .double)] ∧
    joinOp noConv [] .inner exOn exL exR =
      .ok (joinedCols exL.cols exR.cols, [[some (.int .i64 2), some (.str [98]), some (.double (.fin 7))]]) := by
  refine ⟨by simp [exOn, Ex.Plain], by decide, ?_⟩
  rw [C71_inner_partial noConv [] exOn exL exR exJoinable exL_ok exR_ok exOn_suits (by simp [exOn, Ex.Plain]) (by decide +kernel)]
  decide +kernel

/-- More than 1024 pairs, of any number. -/
example (n : Nat) (hn : 1024 < n) : joinOp noConv [] .cross .always { exL with rows := List.replicate n [some (.int .i64 1), some (.str [97])] } { exR with rows := [[some (.int .i64 2), some (.double (.fin 7))]] } = .ub := by
  refine (C71_too_many noConv [] .always { exL with rows := List.replicate n [some (.int .i64 1), some (.str [97])] } { exR with rows := [[some (.int .i64 2), some (.double (.fin 7))]] } exJoinable (fun r hr => ?_) (fun r hr => ?_) (by simp [Ex.All]) (by simp [Ex.Plain])).2 (by simpa using hn)
  · obtain rfl := List.eq_of_mem_replicate hr
    exact (exL_ok _ List.mem_cons_self).1
  · simp at hr; subst hr
    exact (exR_ok _ List.mem_cons_self).1

/-! ### where the claim fails -/

/-- No join but an inner one ever returns a row. -/
theorem C71_outer_empty_fails : ¬ C71_join_claim ∧
    ∀ (conv : Ty → LV → LV) (ps : List V) (t : Query.JoinType) (e : Ex) (c d : Ch) (cols : Cols) (out : List Row), t ≠ .inner →
      joinOp conv ps t e c d = .ok (cols, out) → out = [] := by
  have hrun : ∀ (conv : Ty → LV → LV) (ps : List V) (t : Query.JoinType) (e : Ex) (c d : Ch) (cols : Cols) (out : List Row), t ≠ .inner →
      joinOp conv ps t e c d = .ok (cols, out) → out = [] := by
    intro conv ps t e c d cols out ht h
    cases t with
    | inner => exact absurd rfl ht
    | full =>
      simp only [joinOp, Res.bind_ok_iff, Res.map'_ok_iff] at h
      obtain ⟨_, _, _, _, h⟩ := h
      exact (Prod.mk.inj h).2.symm
    | left =>
      simp only [joinOp, Res.map'_ok_iff] at h
      obtain ⟨_, _, h⟩ := h
      exact (Prod.mk.inj h).2.symm
    | right =>
      simp only [joinOp, Res.map'_ok_iff] at h
      obtain ⟨_, _, h⟩ := h
      exact (Prod.mk.inj h).2.symm
    | cross =>
      simp only [joinOp, Res.map'_ok_iff] at h
      obtain ⟨_, _, h⟩ := h
      exact (Prod.mk.inj h).2.symm
  refine ⟨fun h => ?_, hrun⟩
  obtain ⟨out, h1, h2⟩ := h noConv [] .left exOn exL exR exJoinable (fun r hr => (exL_ok r hr).1) (fun r hr => (exR_ok r hr).1) exOn_sound
  obtain rfl := hrun _ _ _ _ _ _ _ _ (by decide) h1
  have := h2.length_eq
  revert this
  decide +kernel

/-- NULL = NULL is true, and the row has zeros instead. -/
theorem C71_null_fails : ¬ C71_join_claim ∧
    joinOp noConv [] .inner exOn { exL with rows := [[none, none]] } { exR with rows := [[none, none]] } =
      .ok (joinedCols exL.cols exR.cols, [[some (.int .i64 0), some (.str []), some (.double (.fin 0))]]) := by
  have h0 : joinOp noConv [] .inner exOn { exL with rows := [[none, none]] } { exR with rows := [[none, none]] } =
      .ok (joinedCols exL.cols exR.cols, [[some (.int .i64 0), some (.str []), some (.double (.fin 0))]]) := by decide +kernel
  refine ⟨fun h => ?_, h0⟩
  obtain ⟨out, h1, h2⟩ := h noConv [] .inner exOn { exL with rows := [[none, none]] } { exR with rows := [[none, none]] } exJoinable
    (fun r hr => by simp at hr; subst hr; exact .cons nofun (.cons nofun .nil))
    (fun r hr => by simp at hr; subst hr; exact .cons nofun (.cons nofun .nil)) exOn_sound
  rw [h0] at h1
  have := (Prod.mk.inj (Res.ok.inj h1)).2
  subst this
  have := h2.length_eq
  revert this
  decide +kernel

/-- A parameter of another integer type than the column throws. -/
theorem C71_type_fails : ¬ C71_join_claim ∧ joinOp noConv [.int .i32 1] .inner (.cmp .eq [105] (.param 0)) exL exR = .throws := by
  have h0 : joinOp noConv [.int .i32 1] .inner (.cmp .eq [105] (.param 0)) exL exR = .throws := by decide +kernel
  refine ⟨fun h => ?_, h0⟩
  obtain ⟨out, h1, h2⟩ := h noConv [.int .i32 1] .inner (.cmp .eq [105] (.param 0)) exL exR exJoinable (fun r hr => (exL_ok r hr).1) (fun r hr => (exR_ok r hr).1)
    (by simp only [Ex.All]; exact ⟨.int .i64, rfl, .int .i32 1, rfl, by simp only [Alike]; decide⟩)
  rw [h0] at h1
  exact nomatch h1

end Verif.ChunkOp
