import Verif.Table.UpdateModel
import Verif.Table.OpsProps
/-! Lemmas for UPDATE: what the expressions compute, and that values written in place are covered by the
update that follows. -/
namespace Verif.Table
open Verif
open Verif.Mvcc (CAP)
variable {α : Type} {tys : List (ColTy α)} {t t' : Table α} {s : Ideal α} {u : Nat → Bool}

/-! ### Expressions -/

theorem eval_ok (row : List (Cell α)) : ∀ e : UEx α, (∀ j ∈ e.reads, j < row.length) → e.eval row = .ok (e.value row)
  | .get j, h => by
    have := h j (by simp [UEx.reads])
    simp [UEx.eval, UEx.value, List.getElem?_eq_getElem this]
  | .val c, _ => rfl
  | .calc f l r, h => by
    have h1 := eval_ok row l (fun j hj => h j (by simp [UEx.reads, hj]))
    have h2 := eval_ok row r (fun j hj => h j (by simp [UEx.reads, hj]))
    simp [UEx.eval, UEx.value, h1, h2, Res.bind, Res.map']

theorem value_congr {row row' : List (Cell α)} : ∀ e : UEx α, (∀ j ∈ e.reads, row[j]? = row'[j]?) → e.value row = e.value row'
  | .get j, h => by simp [UEx.value, h j (by simp [UEx.reads])]
  | .val c, _ => rfl
  | .calc f l r, h => by
    simp only [UEx.value]
    rw [value_congr l (fun j hj => h j (by simp [UEx.reads, hj])), value_congr r (fun j hj => h j (by simp [UEx.reads, hj]))]

theorem foldl_set_length (row : List (Cell α)) : ∀ (sets : List (SetEx α)) (r : List (Cell α)),
    (sets.foldl (fun r x => r.set x.col (x.rhs.value row)) r).length = r.length
  | [], r => rfl
  | x :: xs, r => by rw [List.foldl_cons, foldl_set_length row xs, List.length_set]

theorem newRow_length (sets : List (SetEx α)) (row : List (Cell α)) : (newRow sets row).length = row.length := foldl_set_length row sets row

/-- The expressions on a row `r` that is the row `row` where it matters. -/
theorem runSets_ok [DecidableEq α] (row : List (Cell α)) : ∀ (sets : List (SetEx α)) (r : List (Cell α)), SetsFit sets r.length →
    Separate sets → (∀ x ∈ sets, row[x.col]? = r[x.col]? ∧ ∀ j ∈ x.rhs.reads, row[j]? = r[j]?) →
    ∃ o, runSets sets r = .ok o ∧ o.row = sets.foldl (fun r x => r.set x.col (x.rhs.value row)) r ∧
      (∀ p ∈ o.writes, p.1 < r.length) ∧ (o.modified = true ↔ ∃ x ∈ sets, row[x.col]? ≠ some (x.rhs.value row))
  | [], r, _, _, _ => ⟨_, rfl, rfl, by simp, by simp⟩
  | x :: xs, r, hf, hs, ha => by
    have hx := hf.cols x (by simp)
    have hold := List.getElem?_eq_getElem hx
    have hv : x.rhs.value r = x.rhs.value row := (value_congr x.rhs (fun j hj => ((ha x (by simp)).2 j hj))).symm
    have honce := hf.once
    rw [List.map_cons, List.nodup_cons] at honce
    unfold Separate at hs
    rw [List.pairwise_cons] at hs
    obtain ⟨o, h1, h2, h3, h4⟩ := runSets_ok row xs (r.set x.col (x.rhs.value row))
      ⟨fun y hy => by rw [List.length_set]; exact hf.cols y (by simp [hy]),
        fun y hy j hj => by rw [List.length_set]; exact hf.reads y (by simp [hy]) j hj, honce.2⟩ hs.2 (by
      intro y hy
      have h5 := ha y (by simp [hy])
      constructor
      · rw [h5.1, List.getElem?_set_ne]
        intro e
        exact honce.1 (by rw [e]; exact List.mem_map.mpr ⟨y, hy, rfl⟩)
      · intro j hj
        rw [h5.2 j hj, List.getElem?_set_ne]
        intro e
        exact hs.1 y hy (by rw [e]; exact hj))
    unfold runSets
    rw [eval_ok r x.rhs (hf.reads x (by simp)), Res.bind_ok, hv]
    simp only [hold, h1, Res.map'_ok]
    refine ⟨_, rfl, by simp only [List.foldl_cons]; exact h2, ?_, ?_⟩
    · intro p hp
      simp only [List.mem_append, List.mem_map] at hp
      rcases hp with ⟨a, _, rfl⟩ | hp
      · exact hx
      · have := h3 p hp
        rwa [List.length_set] at this
    · simp only [Bool.or_eq_true, decide_eq_true_eq, h4, List.mem_cons, exists_eq_or_imp]
      rw [(ha x (by simp)).1, hold]
      simp

/-- Whether a row changes. -/
theorem newRow_ne [DecidableEq α] (sets : List (SetEx α)) (row : List (Cell α)) (hf : SetsFit sets row.length) :
    (∃ x ∈ sets, row[x.col]? ≠ some (x.rhs.value row)) ↔ newRow sets row ≠ row := by
  have key : ∀ (sets : List (SetEx α)) (r : List (Cell α)), SetsFit sets r.length → ∀ j,
      (sets.foldl (fun r x => r.set x.col (x.rhs.value row)) r)[j]? =
        match sets.find? (fun x => decide (x.col = j)) with
        | some x => some (x.rhs.value row)
        | none => r[j]? := by
    intro sets
    induction sets with
    | nil => intro r _ j; rfl
    | cons x xs ih =>
      intro r hf j
      have honce := hf.once
      rw [List.map_cons, List.nodup_cons] at honce
      rw [List.foldl_cons, ih _ ⟨fun y hy => by rw [List.length_set]; exact hf.cols y (by simp [hy]),
        fun y hy j hj => by rw [List.length_set]; exact hf.reads y (by simp [hy]) j hj, honce.2⟩, List.find?_cons]
      by_cases hxj : x.col = j
      · have hnone : xs.find? (fun x => decide (x.col = j)) = none := by
          rw [List.find?_eq_none]
          intro y hy
          simp only [decide_eq_true_eq]
          intro e
          exact honce.1 (by rw [hxj, ← e]; exact List.mem_map.mpr ⟨y, hy, rfl⟩)
        rw [hnone]
        have := hf.cols x (by simp)
        simp only [hxj, decide_true]
        rw [List.getElem?_set_self (by rw [← hxj]; exact this)]
      · simp only [hxj, decide_false]
        cases hfd : xs.find? (fun x => decide (x.col = j)) with
        | some y => rfl
        | none => simp only; rw [List.getElem?_set_ne hxj]
  constructor
  · rintro ⟨x, hx, hne⟩ heq
    have h1 := key sets row hf x.col
    have h2 : sets.find? (fun y => decide (y.col = x.col)) = some x := by
      have hnd := hf.once
      clear h1 heq hf key hne
      induction sets with
      | nil => simp at hx
      | cons y ys ih =>
        rw [List.map_cons, List.nodup_cons] at hnd
        rw [List.find?_cons]
        rw [List.mem_cons] at hx
        rcases hx with rfl | hx
        · simp
        · have : y.col ≠ x.col := fun e => hnd.1 (by rw [e]; exact List.mem_map.mpr ⟨x, hx, rfl⟩)
          simp only [this, decide_false]
          exact ih hx hnd.2
    rw [h2] at h1
    unfold newRow at heq
    rw [heq] at h1
    exact hne h1
  · intro hne
    by_contra hno
    apply hne
    apply List.ext_getElem?
    intro j
    unfold newRow
    rw [key sets row hf j]
    cases hfd : sets.find? (fun x => decide (x.col = j)) with
    | none => rfl
    | some y =>
      have hy := List.mem_of_find?_eq_some hfd
      have hj := List.find?_some hfd
      simp only [decide_eq_true_eq] at hj
      simp only
      by_contra h3
      exact hno ⟨y, hy, by rw [hj]; exact fun e => h3 e.symm⟩

/-! ### The rows of the chunk -/

theorem rowAt_ok : ∀ (cols : List (List (Cell α))) (full : List (List (Cell α))) (ids : List Nat) (k i : Nat), cols.length = full.length →
    (∀ l ∈ full, i < l.length) → ids[k]? = some i →
    (∀ (j : Nat) (c l : List (Cell α)), cols[j]? = some c → full[j]? = some l → c.map some = ids.map fun i => l[i]?) →
    rowAt k cols = .ok (full.map fun l => (l[i]?).join)
  | [], [], _, _, _, _, _, _, _ => rfl
  | [], _ :: _, _, _, _, h, _, _, _ => by simp at h
  | _ :: _, [], _, _, _, h, _, _, _ => by simp at h
  | c :: cols, l :: full, ids, k, i, h, hi, hk, hc => by
    have h0 := hc 0 c l rfl rfl
    have h1 : (c.map some)[k]? = some (l[i]?) := by rw [h0, List.getElem?_map, hk]; rfl
    have hl := List.getElem?_eq_getElem (hi l (by simp))
    rw [List.getElem?_map] at h1
    unfold rowAt
    cases hck : c[k]? with
    | none => rw [hck] at h1; simp at h1
    | some x =>
      rw [hck, hl] at h1
      simp only [Option.map_some, Option.some.injEq] at h1
      simp only
      rw [rowAt_ok cols full ids k i (by simpa using h) (fun l hl => hi l (by simp [hl])) hk
        (fun j c l h2 h3 => hc (j + 1) c l h2 h3), Res.map'_ok, List.map_cons, hl]
      subst h1
      rfl

/-- The outcome of the loop for the row `i`. -/
def RowGood (s : Ideal α) (sets : List (SetEx α)) (w i : Nat) (r : RowUpd α) : Prop :=
  r.row = newRow sets (s.row i) ∧ (∀ p ∈ r.writes, p.1 < w) ∧ (r.modified = true ↔ newRow sets (s.row i) ≠ s.row i)

theorem runRows_ok [DecidableEq α] {w : Nat} (hs : s.Ok u w) {sets : List (SetEx α)} (hf : SetsFit sets w) (hsep : Separate sets)
    {ids : List Nat} (hids : ∀ i ∈ ids, i < s.rows) {cols : List (List (Cell α))} (hw : cols.length = w)
    (hc : ∀ (j : Nat) (c l : List (Cell α)), cols[j]? = some c → s.cols[j]? = some l → c.map some = ids.map fun i => l[i]?) :
    ∀ (ks is : List Nat), List.Forall₂ (fun k i => ids[k]? = some i) ks is →
      ∃ rs, runRows sets cols ks = .ok rs ∧ List.Forall₂ (RowGood s sets w) is rs := by
  intro ks is h
  induction h with
  | nil => exact ⟨[], rfl, .nil⟩
  | @cons k i ks is h1 _ ih =>
    obtain ⟨rs, h2, h3⟩ := ih
    have hi := hids i (List.mem_of_getElem? h1)
    have hlen : (s.row i).length = w := by unfold Ideal.row; rw [List.length_map, hs.width]
    obtain ⟨o, h4, h5, h6, h7⟩ := runSets_ok (s.row i) sets (s.row i) (by rw [hlen]; exact hf) hsep (fun x _ => ⟨rfl, fun _ _ => rfl⟩)
    refine ⟨o :: rs, ?_, .cons ⟨h5, fun p hp => by have := h6 p hp; omega, ?_⟩ h3⟩
    · unfold runRows
      rw [rowAt_ok cols s.cols ids k i (by rw [hw, hs.width]) (fun l hl => by rw [hs.len l hl]; exact hi) h1 hc, Res.bind_ok]
      have : (s.cols.map fun l => (l[i]?).join) = s.row i := rfl
      rw [this, h4, Res.bind_ok, h2]
      rfl
    · rw [h7]
      exact newRow_ne sets (s.row i) (by rw [hlen]; exact hf)

/-! ### Values written in place -/

/-- Two tables that differ at most in the cells of the rows `ids`. -/
structure Near (s s' : Ideal α) (ids : List Nat) : Prop where
  rows : s'.rows = s.rows
  dead : s'.dead = s.dead
  width : s'.cols.length = s.cols.length
  cells : ∀ (j : Nat) (l l' : List (Cell α)), s.cols[j]? = some l → s'.cols[j]? = some l' → l'.length = l.length ∧
    ∀ i, i ∉ ids → l'[i]? = l[i]?

theorem Near.refl (s : Ideal α) (ids : List Nat) : Near s s ids :=
  ⟨rfl, rfl, rfl, fun j l l' h1 h2 => by rw [h1] at h2; cases h2; exact ⟨rfl, fun _ _ => rfl⟩⟩

theorem Near.trans {s s' s'' : Ideal α} {ids : List Nat} (h : Near s s' ids) (h' : Near s' s'' ids) : Near s s'' ids := by
  refine ⟨h'.rows.trans h.rows, h'.dead.trans h.dead, h'.width.trans h.width, ?_⟩
  intro j l l'' h1 h3
  have hlt : j < s'.cols.length := by rw [h.width]; exact (List.getElem?_eq_some_iff.mp h1).1
  have h2 := List.getElem?_eq_getElem hlt
  have a := h.cells j _ _ h1 h2
  have b := h'.cells j _ _ h2 h3
  exact ⟨b.1.trans a.1, fun i hi => (b.2 i hi).trans (a.2 i hi)⟩

theorem Near.mono {s s' : Ideal α} {ids ids' : List Nat} (h : Near s s' ids) (hsub : ∀ i ∈ ids, i ∈ ids') : Near s s' ids' :=
  ⟨h.rows, h.dead, h.width, fun j l l' h1 h2 => ⟨(h.cells j l l' h1 h2).1, fun i hi => (h.cells j l l' h1 h2).2 i (fun e => hi (hsub i e))⟩⟩

theorem flat_false {c : Col α} {st : Scan} {n : Nat} (h : c.flat st n = .ok false) :
    c.upd = none ∧ ∃ seg, c.segs[st.cur]? = some seg ∧ n ≤ seg.start + seg.cells.length - st.row := by
  unfold Col.flat at h
  split at h
  · cases h
  · next hu =>
    refine ⟨by cases hx : c.upd with
      | none => rfl
      | some _ => rw [hx] at hu; simp at hu, ?_⟩
    cases hseg : c.segs[st.cur]? with
    | none => rw [hseg] at h; cases h
    | some seg =>
      rw [hseg] at h
      simp only [Res.ok.injEq, decide_eq_false_iff_not] at h
      exact ⟨seg, rfl, by omega⟩

theorem aliased_iff {s : Std α} (h : s.aliased = true) : s.data.upd = none ∧
    ∃ seg rest, s.data.segs = seg :: rest ∧ s.data.vectorCount 0 ≤ seg.cells.length := by
  unfold Std.aliased at h
  split at h
  · next h1 _ =>
    obtain ⟨h2, seg, h3, h4⟩ := flat_false h1
    refine ⟨h2, ?_⟩
    unfold Col.initScan at h3 h4
    simp only at h3 h4
    cases hsegs : s.data.segs with
    | nil => rw [hsegs] at h3; simp at h3
    | cons seg' rest =>
      rw [hsegs] at h3 h4
      simp only [List.getElem?_cons_zero, Option.some.injEq] at h3
      subst h3
      exact ⟨seg', rest, rfl, by simp only at h4; omega⟩
  · cases h

theorem cells_set_value (v : List α) (f : List Bool) (i : Nat) (a : α) :
    cells (v.set i a) f = (cells v f).set i (((cells v f)[i]?).join.map fun _ => a) := by
  apply List.ext_getElem?
  intro k
  unfold cells
  by_cases hk : i = k
  · subst hk
    rw [List.getElem?_zipWith]
    by_cases hi : i < v.length
    · rw [List.getElem?_set_self hi]
      by_cases hj : i < f.length
      · rw [List.getElem?_eq_getElem hj, List.getElem?_set_self (by simp; omega), List.getElem?_zipWith,
          List.getElem?_eq_getElem hi, List.getElem?_eq_getElem hj]
        by_cases hb : f[i] <;> simp [hb]
      · rw [List.getElem?_eq_none (by omega), List.getElem?_eq_none (l := (List.zipWith _ v f).set i _) (by simp; omega)]
    · rw [List.getElem?_eq_none (by simp; omega), List.getElem?_eq_none (l := (List.zipWith _ v f).set i _) (by simp; omega)]
  · rw [List.getElem?_set_ne hk, List.getElem?_zipWith, List.getElem?_set_ne hk, List.getElem?_zipWith]

theorem Holds.poke {std : Std α} {a : Nat} {l : List (Cell α)} (h : Holds std a l u) (hl : l.length ≤ CAP) (hal : std.aliased = true) {i : Nat}
    (hi : i < l.length) (x : α) : Holds (std.poke i x) a (l.set i ((l[i]?).join.map fun _ => x)) u := by
  obtain ⟨vals, flags, h⟩ := h
  obtain ⟨hu, seg, rest, hsegs, hlen⟩ := aliased_iff hal
  have hvc := h.data.vectorCount (by rw [h.lenD]; exact hl)
  rw [hvc, h.lenD] at hlen
  have hups : std.data.ups = [] := by unfold Col.ups; rw [hu]; rfl
  have hvals := h.data.vals
  rw [hups, hsegs, flat_cons] at hvals
  have hvals' : vals = seg.cells ++ flat rest := hvals
  have hpoke : std.poke i x = { std with data := { std.data with segs := { seg with cells := seg.cells.set i x } :: rest } } := by
    unfold Std.poke
    rw [hsegs]
  rw [hpoke]
  have hset : vals.set i x = seg.cells.set i x ++ flat rest := by
    rw [hvals', List.set_append, if_pos (by omega)]
  refine ⟨vals.set i x, flags, ⟨?_, h.valid, by rw [List.length_set, List.length_set]; exact h.lenD, by rw [List.length_set]; exact h.lenV, ?_, ?_, ?_⟩⟩
  · have hd := h.data
    refine ⟨hd.start, by rw [List.length_set]; exact hd.count, hd.ty, ?_, ?_, ?_, by rw [List.length_set]; exact hd.small, ?_, hd.other, hd.set, ?_⟩
    · have := hd.chain
      rw [hsegs] at this
      refine ⟨this.1, ?_⟩
      simp only [List.length_set]
      exact this.2
    · have := hd.nonempty
      rw [hsegs] at this
      intro y hy
      cases rest with
      | nil => simp at hy
      | cons r rs =>
        simp only [List.dropLast_cons₂, List.mem_cons] at this hy
        rcases hy with rfl | hy
        · have h1 := this seg (Or.inl rfl)
          intro e
          apply h1
          have := congrArg List.length e
          simp only [List.length_set, List.length_nil] at this
          exact List.length_eq_zero_iff.mp this
        · exact this y (Or.inr hy)
    · rw [List.length_set, flat_cons, List.length_append, List.length_set, hvals', List.length_append]
    · rw [List.length_set]; exact hd.upd
    · have : Col.ups { std.data with segs := { seg with cells := seg.cells.set i x } :: rest } = [] := hups
      rw [this, flat_cons]
      exact hset
  · rw [cells_set_value, h.cells]
  · rw [List.length_set]; exact h.markD
  · rw [List.length_set]; exact h.markV

/-- Replacing a column of the ideal table. -/
def Ideal.setCol (s : Ideal α) (j : Nat) (l : List (Cell α)) : Ideal α := { s with cols := s.cols.set j l }

theorem poke_ok (fixed : Nat → Bool) (h : Inv tys t s u) (hrg : t.rgSize = CAP) {r j : Nat} (hr : r < s.rows) (hj : j < tys.length) (x : α) :
    ∃ t1 s1, t.poke fixed r j x = .ok t1 ∧ Inv tys t1 s1 u ∧ t1.rgSize = CAP ∧ Near s s1 [r] := by
  rcases h.groupOf r with ⟨gi, g, h1, h2, h3, h4, _⟩ | ⟨_, h2⟩
  · obtain ⟨hg, hcnt⟩ := h.groups g (List.mem_of_getElem? h2)
    have hjg : j < g.cols.length := by rw [hg.width, h.ok.width]; exact hj
    have hstd := List.getElem?_eq_getElem hjg
    have hjs : j < s.cols.length := by rw [h.ok.width]; exact hj
    have hcol := List.getElem?_eq_getElem hjs
    generalize hstdd : g.cols[j] = std at hstd
    generalize hl : s.cols[j] = l at hcol
    have hlen := h.ok.len l (List.mem_of_getElem? hcol)
    have hb := gchain_bounds h.chain g (List.mem_of_getElem? h2)
    unfold Table.poke
    rw [h1, Res.bind_ok]
    simp only [h2, hstd]
    by_cases hal : (fixed j && std.aliased) = true
    · rw [if_pos hal]
      rw [Bool.and_eq_true] at hal
      have hsl : (slice l g.start g.count).length = g.count := slice_length (by omega)
      have hgl : (slice l g.start g.count)[r - g.start]? = l[r]? := by
        rw [slice_get (by omega)]
        congr 1
        omega
      have hh := (hg.cols j std l hstd hcol).poke (by rw [hsl]; omega) hal.2 (i := r - g.start) (by rw [hsl]; omega) x
      rw [hgl, ← slice_set_inside _ _ _ _ _ h3] at hh
      generalize hl1 : l.set r ((l[r]?).join.map fun _ => x) = l1 at hh
      refine ⟨_, s.setCol j l1, rfl, ?_, hrg, ?_⟩
      · apply h.replace h2
        · refine ⟨by unfold Ideal.setCol; rw [List.length_set]; exact h.ok.width, ?_, h.ok.dead, h.ok.upd, h.ok.small⟩
          intro y hy
          rcases List.mem_or_eq_of_mem_set hy with hy | rfl
          · exact h.ok.len y hy
          · rw [← hl1, List.length_set]; exact hlen
        · rfl
        · refine ⟨?_, ?_, hg.vers⟩
          · unfold Ideal.setCol
            rw [List.length_set, List.length_set]; exact hg.width
          · intro j' std' l' hs' hl'
            unfold Ideal.setCol at hl'
            simp only [List.getElem?_set] at hs' hl'
            by_cases hjj : j = j'
            · subst hjj
              simp only [if_true, hjg, hjs, Option.some.injEq] at hs' hl'
              subst hs' hl'
              exact hh
            · rw [if_neg hjj] at hs' hl'
              exact hg.cols j' std' l' hs' hl'
        · rfl
        · rfl
        · intro k y hk hy
          obtain ⟨hgy, _⟩ := h.groups y (List.mem_of_getElem? hy)
          have hap := h.apart h2 hy (fun e => hk e.symm) r h3 h4
          refine ⟨by unfold Ideal.setCol; rw [List.length_set]; exact hgy.width, ?_, hgy.vers⟩
          intro j' std' l' hs' hl'
          unfold Ideal.setCol at hl'
          simp only [List.getElem?_set] at hl'
          by_cases hjj : j = j'
          · subst hjj
            simp only [if_true, hjs, Option.some.injEq] at hl'
            subst hl'
            have := hgy.cols j std' l hs' hcol
            rw [← hl1, slice_set_outside _ _ _ _ _ hap]
            exact this
          · rw [if_neg hjj] at hl'
            exact hgy.cols j' std' l' hs' hl'
      · refine ⟨rfl, rfl, by unfold Ideal.setCol; rw [List.length_set], ?_⟩
        intro j' y y' hy hy'
        unfold Ideal.setCol at hy'
        simp only [List.getElem?_set] at hy'
        by_cases hjj : j = j'
        · subst hjj
          simp only [if_true, hjs, Option.some.injEq] at hy'
          rw [hcol] at hy
          cases hy
          subst hy'
          rw [← hl1]
          refine ⟨List.length_set, ?_⟩
          intro i hi
          rw [List.mem_singleton] at hi
          rw [List.getElem?_set_ne (fun e => hi e.symm)]
        · rw [if_neg hjj, hy] at hy'
          cases hy'
          exact ⟨rfl, fun _ _ => rfl⟩
    · rw [if_neg hal]
      exact ⟨t, s, rfl, h, hrg, Near.refl s _⟩
  · omega

theorem pokeRow_ok (fixed : Nat → Bool) {r : Nat} : ∀ (ws : List (Nat × α)) (t : Table α) (s : Ideal α), Inv tys t s u → t.rgSize = CAP → r < s.rows →
    (∀ p ∈ ws, p.1 < tys.length) → ∃ t1 s1, pokeRow fixed r t ws = .ok t1 ∧ Inv tys t1 s1 u ∧ t1.rgSize = CAP ∧ Near s s1 [r]
  | [], t, s, h, hrg, _, _ => ⟨t, s, rfl, h, hrg, Near.refl s _⟩
  | p :: ps, t, s, h, hrg, hr, hw => by
    obtain ⟨t1, s1, h1, h2, h3, h4⟩ := poke_ok fixed h hrg hr (hw p (by simp)) p.2
    obtain ⟨t2, s2, h5, h6, h7, h8⟩ := pokeRow_ok fixed ps t1 s1 h2 h3 (by rw [h4.rows]; exact hr) (fun q hq => hw q (by simp [hq]))
    refine ⟨t2, s2, ?_, h6, h7, h4.trans h8⟩
    unfold pokeRow
    rw [h1, Res.bind_ok, h5]

theorem pokeRows_ok (fixed : Nat → Bool) : ∀ (ids : List Nat) (rs : List (RowUpd α)) (t : Table α) (s : Ideal α), Inv tys t s u → t.rgSize = CAP →
    (∀ i ∈ ids, i < s.rows) → (∀ r ∈ rs, ∀ p ∈ r.writes, p.1 < tys.length) →
    ∃ t1 s1, pokeRows fixed t (ids.zip rs) = .ok t1 ∧ Inv tys t1 s1 u ∧ t1.rgSize = CAP ∧ Near s s1 ids
  | [], rs, t, s, h, hrg, _, _ => by rw [List.zip_nil_left]; exact ⟨t, s, rfl, h, hrg, Near.refl s _⟩
  | i :: ids, [], t, s, h, hrg, _, _ => by rw [List.zip_nil_right]; exact ⟨t, s, rfl, h, hrg, Near.refl s _⟩
  | i :: ids, r :: rs, t, s, h, hrg, hi, hw => by
    obtain ⟨t1, s1, h1, h2, h3, h4⟩ := pokeRow_ok fixed r.writes t s h hrg (hi i (by simp)) (hw r (by simp))
    obtain ⟨t2, s2, h5, h6, h7, h8⟩ := pokeRows_ok fixed ids rs t1 s1 h2 h3 (fun k hk => by rw [h4.rows]; exact hi k (by simp [hk]))
      (fun q hq => hw q (by simp [hq]))
    refine ⟨t2, s2, ?_, h6, h7, (h4.mono (by simp)).trans (h8.mono (fun k hk => by simp [hk]))⟩
    rw [List.zip_cons_cons]
    unfold pokeRows
    rw [h1, Res.bind_ok, h5]

/-! ### The update -/

theorem rows_eq (sets : List (SetEx α)) (w : Nat) {is : List Nat} {rs : List (RowUpd α)} (h : List.Forall₂ (RowGood s sets w) is rs) :
    rs.map RowUpd.row = is.map fun i => newRow sets (s.row i) := by
  induction h with
  | nil => rfl
  | cons h1 _ ih => rw [List.map_cons, List.map_cons, h1.1, ih]

theorem modified_length (sets : List (SetEx α)) (w : Nat) [DecidableEq α] {is : List Nat} {rs : List (RowUpd α)} (h : List.Forall₂ (RowGood s sets w) is rs) :
    ∀ ks : List Nat, ks.length = rs.length → ((ks.zip rs).filterMap fun q => if q.2.modified then some q.1 else none).length =
      (is.filter fun i => decide (newRow sets (s.row i) ≠ s.row i)).length := by
  induction h with
  | nil => intro ks _; rw [List.zip_nil_right]; rfl
  | @cons i r is rs h1 _ ih =>
    intro ks hk
    cases ks with
    | nil => simp at hk
    | cons k ks =>
      have ih' := ih ks (by simpa using hk)
      rw [List.zip_cons_cons, List.filterMap_cons, List.filter_cons]
      by_cases hm : r.modified = true
      · have := h1.2.2.mp hm
        simp only [hm, if_true, List.length_cons, ih', decide_eq_true_eq]
        rw [if_pos this, List.length_cons]
      · have : ¬ newRow sets (s.row i) ≠ s.row i := fun e => hm (h1.2.2.mpr e)
        simp only [hm, decide_eq_true_eq]
        rw [if_neg this]
        exact ih'

theorem setRows_eq (sets : List (SetEx α)) {w : Nat} (hs : s.Ok u w) {s1 : Ideal α} {ids : List Nat} (hn : Near s s1 ids)
    (hasc : ids.Pairwise (· < ·)) (hids : ∀ i ∈ ids, i < s.rows) (n : Nat) :
    s1.update ids ⟨n, colsOf w (ids.map fun i => newRow sets (s.row i))⟩ = s.setRows sets ids := by
  unfold Ideal.update Ideal.setRows
  simp only
  have hcols : List.zipWith (fun l new => assign l ids new) s1.cols (colsOf w (ids.map fun i => newRow sets (s.row i))) =
      s.cols.mapIdx fun j l => l.mapIdx fun i c => if i ∈ ids then ((newRow sets (s.row i))[j]?).join else c := by
    apply List.ext_getElem?
    intro j
    rw [List.getElem?_zipWith, List.getElem?_mapIdx]
    by_cases hj : j < w
    · have hj1 : j < s.cols.length := by rw [hs.width]; exact hj
      have hj2 : j < s1.cols.length := by rw [hn.width]; exact hj1
      have e1 := List.getElem?_eq_getElem hj1
      have e2 := List.getElem?_eq_getElem hj2
      obtain ⟨c1, c2⟩ := hn.cells j _ _ e1 e2
      rw [e1, e2]
      generalize s.cols[j] = l at *
      generalize s1.cols[j] = l1 at *
      unfold colsOf
      rw [List.getElem?_map, List.getElem?_range hj]
      simp only [Option.map_some, Option.some.injEq]
      rw [assign_eq]
      have hll := hs.len l (List.mem_of_getElem? e1)
      have hpw : (ids.zip ((ids.map fun i => newRow sets (s.row i)).map fun r => (r[j]?).join)).Pairwise fun p q => p.1 < q.1 := by
        rw [List.map_map]
        clear c2 hids hn
        induction ids with
        | nil => simp
        | cons a as ih =>
          rw [List.pairwise_cons] at hasc
          rw [List.map_cons, List.zip_cons_cons, List.pairwise_cons]
          exact ⟨fun q hq => hasc.1 q.1 (List.of_mem_zip (a := q.1) (b := q.2) hq).1, ih hasc.2⟩
      apply List.ext_getElem?
      intro i
      rw [List.getElem?_mapIdx]
      by_cases hi : i < l.length
      · have e3 := List.getElem?_eq_getElem hi
        have hi1 : i < l1.length := by omega
        have e4 := List.getElem?_eq_getElem hi1
        rw [overlay_look _ hpw l1 i e4, e3, Option.map_some]
        have hlook : look (ids.zip ((ids.map fun i => newRow sets (s.row i)).map fun r => (r[j]?).join)) i =
            if i ∈ ids then some (i, ((newRow sets (s.row i))[j]?).join) else none := by
          rw [List.map_map]
          clear hpw c2 hids hn hasc
          unfold look
          induction ids with
          | nil => simp
          | cons a as ih =>
            rw [List.map_cons, List.zip_cons_cons, List.find?_cons]
            by_cases ha : a = i
            · subst ha
              simp
            · simp only [ha, decide_false, ih, List.mem_cons]
              have : (i = a) = False := by simp only [eq_iff_iff, iff_false]; exact fun e => ha e.symm
              simp only [this, false_or]
        rw [hlook]
        by_cases him : i ∈ ids
        · simp [him]
        · have := c2 i him
          rw [e3, e4] at this
          simp only [Option.some.injEq] at this
          simp [him, this]
      · rw [overlay_none _ _ _ (by omega), List.getElem?_eq_none (l := l) (by omega)]
        rfl
    · rw [List.getElem?_eq_none (l := s.cols) (by rw [hs.width]; omega), List.getElem?_eq_none (l := s1.cols) (by rw [hn.width, hs.width]; omega)]
      rfl
  rw [hcols, hn.rows, hn.dead]

theorem forall₂_range (ids : List Nat) : List.Forall₂ (fun k i => ids[k]? = some i) (List.range ids.length) ids := by
  rw [List.forall₂_iff_get]
  refine ⟨by simp, ?_⟩
  intro k h1 h2
  simp only [List.get_eq_getElem, List.getElem_range]
  exact List.getElem?_eq_getElem h2

/-- Where the ids are right the UPDATE is right. -/
theorem updateOp_ok [DecidableEq α] (cmp : α → α → Ordering) (fixed : Nat → Bool) (hi : Inv tys t s u) (hrg : t.rgSize = CAP) {e : Option (Ex α)} {limit : Int}
    {p : Picked α} {ids : List Nat} (h1 : t.scanOp cmp e limit = .ok (some p)) (hsh : Shows s tys.length ids (some p))
    (hrow : p.rowIds = ids) (hasc : ids.Pairwise (· < ·)) (hids : ∀ i ∈ ids, i < s.rows) (hopen : ∀ i ∈ ids, Open u i)
    {sets : List (SetEx α)} (hf : SetsFit sets tys.length) (hsep : Separate sets) :
    ∃ t' m, t.updateOp cmp fixed e sets limit = .ok (t', ids.map (fun i => newRow sets (s.row i)), m) ∧
      m.length = (ids.filter fun i => decide (newRow sets (s.row i) ≠ s.row i)).length ∧
      Inv tys t' (s.setRows sets ids) (marked u ids) ∧ t'.rgSize = CAP := by
  obtain ⟨hs1, hs2, hs3⟩ := hsh
  have hnil : ids = [] → s.setRows sets ids = s ∧ marked u ids = u := by
    rintro rfl
    refine ⟨?_, marked_nil⟩
    unfold Ideal.setRows
    have : (s.cols.mapIdx fun j l => l.mapIdx fun i c => if i ∈ ([] : List Nat) then ((newRow sets (s.row i))[j]?).join else c) = s.cols := by
      apply List.ext_getElem?
      intro j
      rw [List.getElem?_mapIdx]
      cases s.cols[j]? with
      | none => rfl
      | some l =>
        simp only [Option.map_some, Option.some.injEq, List.not_mem_nil, if_false]
        apply List.ext_getElem?
        intro i
        rw [List.getElem?_mapIdx]
        cases l[i]? <;> rfl
    rw [this]
  unfold Table.updateOp
  rw [h1, Res.bind_ok]
  simp only
  rw [hs1]
  by_cases h0 : ids.length = 0
  · have hz := List.length_eq_zero_iff.mp h0
    obtain ⟨e1, e2⟩ := hnil hz
    rw [if_pos h0, e1, e2]
    subst hz
    exact ⟨t, [], rfl, rfl, hi, hrg⟩
  · rw [if_neg h0]
    obtain ⟨rs, r1, r2⟩ := runRows_ok hi.ok hf hsep hids hs2 hs3 (List.range ids.length) ids (forall₂_range ids)
    rw [r1, Res.bind_ok]
    have hwr : ∀ r ∈ rs, ∀ q ∈ r.writes, q.1 < tys.length := by
      clear hs3 hs1 hrow hasc hids hopen hnil h0 r1
      induction r2 with
      | nil => simp
      | cons g _ ih =>
        intro r hr
        rw [List.mem_cons] at hr
        rcases hr with rfl | hr
        · exact g.2.1
        · exact ih r hr
    obtain ⟨t1, s1, q1, q2, q3, q4⟩ := pokeRows_ok fixed ids rs t s hi hrg hids hwr
    rw [q1, Res.bind_ok, hrow, rows_eq sets _ r2, hs2]
    have hfor : (⟨ids.length, colsOf tys.length (ids.map fun i => newRow sets (s.row i))⟩ : Chunk α).For tys.length := by
      refine ⟨by simp [colsOf], ?_⟩
      intro c hc
      unfold colsOf at hc
      simp only [List.mem_map] at hc
      obtain ⟨j, _, rfl⟩ := hc
      simp
    have hrun := (updateLoop_runs (ids.length + 1) t1 s1 u ids _ q2 q3 hfor rfl hasc (by omega) (fun i him => by rw [q4.rows]; exact hids i him)).1 hopen
    obtain ⟨t2, hrun⟩ := hrun
    have hupd : t1.update ids ⟨ids.length, colsOf tys.length (ids.map fun i => newRow sets (s.row i))⟩ = .ok t2 := by
      unfold Table.update
      rw [if_neg h0, if_neg (by simp), List.take_of_length_le (by simp)]
      exact hrun
    rw [hupd, Res.map'_ok]
    refine ⟨t2, _, rfl, modified_length sets _ r2 _ (by simp), ?_, ?_⟩
    · have := (q2.update hfor rfl (hasc.imp (fun h => Nat.ne_of_lt h)) hupd).1
      rw [setRows_eq sets hi.ok q4 hasc hids] at this
      exact this
    · rw [updateLoop_rgSize _ _ _ _ _ hrun]; exact q3

end Verif.Table
