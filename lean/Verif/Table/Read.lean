import Verif.Table.Calls
/-! Scans, fetches and sizes of a table that satisfies the invariant. -/
namespace Verif.Table
open Verif.Mvcc (CAP Mgr Txn NOT_DELETED)
variable {α : Type} {tys : List (ColTy α)} {t t' : Table α} {s : Ideal α} {u : Nat → Bool}

theorem rowsIn_add (keep : Nat → Bool) (a n m : Nat) : rowsIn keep a (n + m) = rowsIn keep a n ++ rowsIn keep (a + n) m := by
  unfold rowsIn
  rw [List.range_add, List.filter_append, List.map_append]
  congr 1
  rw [List.filter_map, List.map_map]
  apply congrArg₂
  · funext x; simp [Nat.add_assoc]
  · apply List.filter_congr; intro x _; simp [Nat.add_assoc]

theorem rowsIn_length (keep : Nat → Bool) (a n : Nat) : (rowsIn keep a n).length ≤ n := by
  unfold rowsIn
  rw [List.length_map]
  have := List.length_filter_le (fun i => keep (a + i)) (List.range n)
  simpa using this

/-- The rows to be kept from row `a` on. -/
def from' (s : Ideal α) (keep : Nat → Bool) (a : Nat) : List Nat := rowsIn keep a (s.rows - a)

theorem from_step (keep : Nat → Bool) {a n : Nat} (h : a + n ≤ s.rows) : from' s keep a = rowsIn keep a n ++ from' s keep (a + n) := by
  unfold from'
  rw [← rowsIn_add]
  congr 1
  omega

theorem from_end (keep : Nat → Bool) {a : Nat} (h : s.rows ≤ a) : from' s keep a = [] := by
  unfold from'
  rw [Nat.sub_eq_zero_of_le h]
  rfl

theorem from_zero (P : Nat → Bool) : from' s (fun i => !s.dead i && P i) 0 = s.live.filter P := by
  unfold from' rowsIn Ideal.live
  simp only [Nat.zero_add, Nat.sub_zero, List.filter_filter]
  rw [List.map_id']
  apply List.filter_congr
  intro i _
  rw [Bool.and_comm]

/-- A scan stands in front of row `a`. -/
def At (t : Table α) (s : Ideal α) (refs : List Nat) (st : ScanSt) (a : Nat) : Prop :=
  st.endRow = s.rows ∧
    match st.grp with
    | none => s.rows ≤ a
    | some gi => ∃ g, t.groups[gi]? = some g ∧
        ((st.maxRow ≤ st.vec * CAP ∧ a = g.start + g.count) ∨
         (st.vec = 0 ∧ st.maxRow = g.count ∧ 0 < g.count ∧ Fresh g refs st.cols ∧ a = g.start))

theorem initScan_ok (h : Inv tys t s u) {refs : List Nat} (hj : ∀ j ∈ refs, j < tys.length) {g : RowGroup α} (hg : g ∈ t.groups)
    {st : ScanSt} (he : st.endRow = s.rows) (h0 : 0 < g.count) (gi : Nat) :
    ∃ st', g.initScan gi refs st = .ok (st', true) ∧ st'.grp = some gi ∧ st'.vec = 0 ∧ st'.maxRow = g.count ∧
      st'.endRow = s.rows ∧ Fresh g refs st'.cols := by
  have hb := gchain_bounds h.chain g hg
  obtain ⟨sts, h1, h2, h3⟩ := initCols_ok g refs (fun j hjm => by
    rw [(h.groups g hg).1.width, h.ok.width]; exact hj j hjm)
  unfold RowGroup.initScan
  simp only
  rw [he, if_neg (show ¬ s.rows < g.start by omega), show min g.count (s.rows - g.start) = g.count by omega, if_neg (show ¬ g.count = 0 by omega), h1]
  exact ⟨_, rfl, rfl, rfl, rfl, rfl, h2, h3⟩

theorem initScan_skip {refs : List Nat} {g : RowGroup α} {st : ScanSt} (h0 : g.count = 0) (gi : Nat) :
    g.initScan gi refs st = .ok ({ st with grp := some gi, vec := 0, maxRow := 0 }, false) := by
  unfold RowGroup.initScan
  simp [h0]

theorem drop_chain (h : Inv tys t s u) {gi : Nat} {g : RowGroup α} (hg : t.groups[gi]? = some g) :
    GChain (g.start + g.count) (t.groups.drop (gi + 1)) s.rows := by
  have hlt := (List.getElem?_eq_some_iff.mp hg).1
  have hsplit : t.groups = t.groups.take gi ++ (g :: t.groups.drop (gi + 1)) := by
    have h1 := (List.getElem?_eq_some_iff.mp hg).2
    conv_lhs => rw [← List.take_append_drop gi t.groups]
    rw [List.drop_eq_getElem_cons hlt, h1]
  have hc := h.chain
  rw [hsplit, gchain_append] at hc
  obtain ⟨m, _, h2, h3⟩ := hc
  rw [h2]
  exact h3

/-- From the end of one group to the next. -/
theorem nextGroup_ok (h : Inv tys t s u) {refs : List Nat} (hj : ∀ j ∈ refs, j < tys.length) {gi : Nat} {g : RowGroup α}
    (hg : t.groups[gi]? = some g) (hlt : g.start + g.count < s.rows) {st : ScanSt} (he : st.endRow = s.rows) :
    ∃ st', nextGroup refs (t.groups.drop (gi + 1)) (gi + 1) st = .ok st' ∧ At t s refs st' (g.start + g.count) ∧
      st'.grp = some (gi + 1) ∧ gi + 1 < t.groups.length := by
  have hc := drop_chain h hg
  cases hd : t.groups.drop (gi + 1) with
  | nil =>
    rw [hd] at hc
    have : g.start + g.count = s.rows := hc
    omega
  | cons x rest =>
    rw [hd] at hc
    obtain ⟨hx, hrest⟩ := hc
    have hlen : gi + 1 < t.groups.length := by
      by_contra hn
      rw [List.drop_eq_nil_of_le (by omega)] at hd
      cases hd
    have hxg : t.groups[gi + 1]? = some x := by
      have := congrArg (fun l => l[0]?) hd
      simpa using this
    have hx0 : 0 < x.count := by
      cases hr : rest with
      | nil =>
        rw [hr] at hrest
        have : g.start + g.count + x.count = s.rows := hrest
        omega
      | cons y ys =>
        have : x ∈ t.groups.dropLast := by
          rw [List.dropLast_eq_take]
          apply List.mem_of_getElem? (i := gi + 1)
          rw [List.getElem?_take, if_pos, hxg]
          have := congrArg List.length hd
          rw [hr] at this
          simp at this
          omega
        have := h.full x this
        have := h.pos
        omega
    obtain ⟨st', h1, h2, h3, h4, h5, h6⟩ := initScan_ok h hj (List.mem_of_getElem? hxg) he hx0 (gi + 1)
    refine ⟨st', ?_, ⟨h5, ?_⟩, h2, hlen⟩
    · unfold nextGroup
      rw [he, if_neg (by omega), h1]
      rfl
    · rw [h2]
      exact ⟨x, hxg, .inr ⟨h3, h4, hx0, h6, hx.symm⟩⟩

/-- The filter decides the rows of every group. -/
def DecidesAll (cmp : α → α → Ordering) (t : Table α) (s : Ideal α) (flt : Option (Flt α)) (P : Nat → Bool) : Prop :=
  ∀ g ∈ t.groups, Decides cmp g g.count flt (fun i => !s.dead i) P

theorem scanLoop_ok' (cmp : α → α → Ordering) (h : Inv tys t s u) {refs : List Nat} (hj : ∀ j ∈ refs, j < tys.length)
    {flt : Option (Flt α)} {P : Nat → Bool} (hP : DecidesAll cmp t s flt P) :
    ∀ (fuel : Nat) (st : ScanSt) (a : Nat), At t s refs st a → 0 < fuel →
      (∀ gi, st.grp = some gi → t.groups.length < gi + fuel) →
      ∃ st' o b, t.scanLoop cmp refs flt fuel st = .ok (st', o) ∧ At t s refs st' b ∧
        from' s (fun i => !s.dead i && P i) a = o.ids ++ from' s (fun i => !s.dead i && P i) b ∧
        (o.ids = [] → from' s (fun i => !s.dead i && P i) b = []) ∧ OutOk s refs o.ids o ∧ o.ids.length ≤ CAP ∧
        (o.ids ≠ [] → ∃ gi g, st'.grp = some gi ∧ t.groups[gi]? = some g ∧ st'.vec = 1 ∧ st'.maxRow = g.count ∧
          o.ids = rowsIn (fun i => !s.dead i && P i) g.start g.count) := by
  intro fuel
  induction fuel with
  | zero => intros; omega
  | succ f ih =>
    intro st a hat _ hfuel
    obtain ⟨he, hm⟩ := hat
    unfold Table.scanLoop
    have hnil : OutOk s refs [] ⟨[], refs.map fun _ => ([] : List (Cell α))⟩ := by
      refine ⟨rfl, by simp, ?_⟩
      intro k j col l _ hc _
      simp only [List.getElem?_map, Option.map_eq_some_iff] at hc
      obtain ⟨_, _, rfl⟩ := hc
      rfl
    cases hgrp : st.grp with
    | none =>
      rw [hgrp] at hm
      simp only at hm ⊢
      exact ⟨st, _, a, rfl, ⟨he, by rw [hgrp]; exact hm⟩, rfl, fun _ => from_end _ hm, hnil, by simp, fun e => (e rfl).elim⟩
    | some gi =>
      rw [hgrp] at hm
      simp only at hm ⊢
      obtain ⟨g, hg, hm⟩ := hm
      have hgm := List.mem_of_getElem? hg
      have hb := gchain_bounds h.chain g hgm
      have hlast := (h.groups g hgm).2
      have hle := h.le
      rw [hg]
      simp only
      -- the scan of this group
      obtain ⟨st1, o, h1, h2, h3, h4, h5, h6⟩ : ∃ st1 o, g.scan cmp refs flt (rounds st.maxRow) st = .ok (st1, o) ∧ OutOk s refs o.ids o ∧
          (from' s (fun i => !s.dead i && P i) a = o.ids ++ from' s (fun i => !s.dead i && P i) (g.start + g.count)) ∧
          (st1.grp = some gi ∧ st1.endRow = s.rows ∧ st1.maxRow ≤ st1.vec * CAP) ∧ o.ids.length ≤ CAP ∧
          (o.ids ≠ [] → st1.vec = 1 ∧ st1.maxRow = g.count ∧ o.ids = rowsIn (fun i => !s.dead i && P i) g.start g.count) := by
        rcases hm with ⟨hm1, rfl⟩ | ⟨hm1, hm2, hm3, hm4, rfl⟩
        · unfold rounds RowGroup.scan
          rw [if_pos hm1]
          exact ⟨st, _, rfl, hnil, rfl, ⟨hgrp, he, hm1⟩, by simp, fun e => (e rfl).elim⟩
        · obtain ⟨st1, o, k1, k2, k3, k4, k5, k6⟩ := (h.groups g hgm).1.scan cmp h.ok hm3 (by omega) hb.2 (hP g hgm) hj hm4 hm1 hm2
            (st.maxRow / CAP)
          refine ⟨st1, o, k1, ?_, ?_, ⟨by rw [k3, hgrp], by rw [k6, he], by rw [k4, k5]; omega⟩, ?_, fun _ => ⟨k4, k5, k2.ids⟩⟩
          · have := k2.ids
            rw [this]; exact k2
          · rw [k2.ids]; exact from_step _ hb.2
          · rw [k2.ids]
            have := rowsIn_length (fun i => !s.dead i && P i) g.start g.count
            omega
      rw [h1, Res.bind_ok]
      have hat1 : At t s refs st1 (g.start + g.count) := ⟨h4.2.1, by rw [h4.1]; exact ⟨g, hg, .inl ⟨h4.2.2, rfl⟩⟩⟩
      by_cases hids : o.ids = []
      · simp only [hids, ne_eq, not_true, if_false]
        rw [hids, List.nil_append] at h3
        by_cases hend : st.endRow ≤ g.start + g.count
        · rw [if_pos hend]
          rw [he] at hend
          refine ⟨_, o, g.start + g.count, rfl, ⟨h4.2.1, hend⟩, ?_, fun _ => from_end _ hend, ?_, h5, fun e => (e hids).elim⟩
          · rw [h3, hids]; rfl
          · exact h2
        · rw [if_neg hend]
          rw [he] at hend
          obtain ⟨st2, n1, n2, n3, n4⟩ := nextGroup_ok h hj hg (by omega) h4.2.1
          rw [n1, Res.bind_ok]
          have hf1 := hfuel gi hgrp
          have hlt := (List.getElem?_eq_some_iff.mp hg).1
          obtain ⟨st3, o3, b, r1, r2, r3, r4, r5, r6, r7⟩ := ih st2 _ n2 (by omega) (by
            intro gj hgj
            rw [n3] at hgj
            cases hgj
            omega)
          exact ⟨st3, o3, b, r1, r2, by rw [h3]; exact r3, r4, r5, r6, r7⟩
      · simp only [hids, ne_eq, not_false_eq_true, if_true]
        exact ⟨st1, o, g.start + g.count, rfl, hat1, h3, fun e => (hids e).elim, h2, h5, fun e => ⟨gi, g, h4.1, hg, h6 e⟩⟩

theorem scanMany_ok (cmp : α → α → Ordering) (h : Inv tys t s u) {refs : List Nat} (hj : ∀ j ∈ refs, j < tys.length)
    {flt : Option (Flt α)} {P : Nat → Bool} (hP : DecidesAll cmp t s flt P) :
    ∀ (fuel : Nat) (st : ScanSt) (a : Nat), At t s refs st a → (from' s (fun i => !s.dead i && P i) a).length < fuel →
      ∃ outs, t.scanMany cmp refs flt fuel st = .ok outs ∧ Reads s (from' s (fun i => !s.dead i && P i) a) refs outs := by
  intro fuel
  induction fuel with
  | zero => intros; omega
  | succ f ih =>
    intro st a hat hf
    obtain ⟨st', o, b, h1, h2, h3, h4, h5, h6, _⟩ := scanLoop_ok' cmp h hj hP (t.groups.length + 1) st a hat (by omega) (by intro gi _; omega)
    unfold Table.scanMany Table.scan
    rw [h1, Res.bind_ok]
    by_cases hids : o.ids = []
    · simp only [hids, if_true]
      rw [hids, h4 hids] at h3
      rw [h3]
      exact ⟨[], rfl, rfl, by simp, by simp, by simp⟩
    · simp only [hids, if_false]
      have hpos : 0 < o.ids.length := List.length_pos_iff.mpr hids
      obtain ⟨outs, r1, r2⟩ := ih st' b h2 (by
        rw [h3, List.length_append] at hf
        omega)
      rw [r1, Res.map'_ok]
      refine ⟨_, rfl, ?_, ?_, ?_, ?_⟩
      · rw [List.flatMap_cons, r2.ids, h3]
      · intro x hx
        rw [List.mem_cons] at hx
        rcases hx with rfl | hx
        · exact ⟨hids, h6⟩
        · exact r2.size x hx
      · intro x hx
        rw [List.mem_cons] at hx
        rcases hx with rfl | hx
        · exact h5.width
        · exact r2.width x hx
      · intro x hx
        rw [List.mem_cons] at hx
        rcases hx with rfl | hx
        · exact h5.cells
        · exact r2.cells x hx

theorem initScan_at (h : Inv tys t s u) {refs : List Nat} (hj : ∀ j ∈ refs, j < tys.length) :
    ∃ st, t.initScan refs = .ok st ∧ At t s refs st 0 := by
  unfold Table.initScan
  rw [h.total]
  have hc := h.chain
  cases hg : t.groups with
  | nil =>
    rw [hg] at hc
    have : 0 = s.rows := hc
    exact ⟨_, rfl, rfl, by simp only; omega⟩
  | cons g gs =>
    rw [hg] at hc
    have hgm : g ∈ t.groups := by rw [hg]; simp
    have h0 : t.groups[0]? = some g := by rw [hg]; rfl
    by_cases hz : g.count = 0
    · -- the only group, without rows
      have hgs : gs = [] := by
        by_contra hne
        have := h.full g (by rw [hg, List.dropLast_cons_of_ne_nil hne]; simp)
        have := h.pos
        omega
      subst hgs
      unfold findFirst
      rw [initScan_skip hz]
      refine ⟨_, rfl, rfl, ?_⟩
      simp only
      exact ⟨g, h0, .inl ⟨by simp, by have := hc.1; omega⟩⟩
    · obtain ⟨st', h1, h2, h3, h4, h5, h6⟩ := initScan_ok h hj hgm (st := ⟨none, 0, 0, [], s.rows⟩) rfl (by omega) 0
      unfold findFirst
      rw [h1]
      refine ⟨st', rfl, h5, ?_⟩
      rw [h2]
      exact ⟨g, h0, .inr ⟨h3, h4, by omega, h6, hc.1.symm⟩⟩

/-- Reading the whole table. -/
theorem Inv.read (cmp : α → α → Ordering) (h : Inv tys t s u) {refs : List Nat} (hj : ∀ j ∈ refs, j < tys.length)
    {flt : Option (Flt α)} {P : Nat → Bool} (hP : DecidesAll cmp t s flt P) :
    ∃ outs, t.read cmp refs flt = .ok outs ∧ Reads s (s.live.filter P) refs outs := by
  obtain ⟨st, h1, h2⟩ := initScan_at h hj
  obtain ⟨outs, r1, r2⟩ := scanMany_ok cmp h hj hP (t.total + 1) st 0 h2 (by
    unfold from'
    have := rowsIn_length (fun i => !s.dead i && P i) 0 (s.rows - 0)
    rw [h.total]
    omega)
  rw [from_zero] at r2
  unfold Table.read
  rw [h1, Res.bind_ok]
  exact ⟨outs, r1, r2⟩

/-- Reading rows by id. -/
theorem Inv.fetch (h : Inv tys t s u) {refs : List Nat} (hj : ∀ j ∈ refs, j < tys.length) : ∀ ids : List Nat,
    ∃ rows, t.fetch refs ids = .ok rows ∧
      rows.map (fun r => r.map some) = (ids.filter fun i => decide (i < s.rows)).map fun i => refs.map fun j => (s.cols[j]?).bind fun l => l[i]?
  | [] => ⟨[], rfl, rfl⟩
  | id :: ids => by
    obtain ⟨rows, h1, h2⟩ := Inv.fetch h hj ids
    unfold Table.fetch
    rcases h.tryIndex id with ⟨gi, g, k1, k2, k3, k4, k5⟩ | ⟨k1, k2⟩
    · rw [k1, Res.bind_ok]
      simp only
      rw [k2]
      simp only
      have hgm := List.mem_of_getElem? k2
      obtain ⟨r, r1, r2⟩ := (h.groups g hgm).1.fetchRow h.ok (by have := (h.groups g hgm).2; have := h.le; omega)
        (gchain_bounds h.chain g hgm).2 k3 k4 refs hj
      rw [r1, Res.bind_ok, h1, Res.map'_ok]
      refine ⟨_, rfl, ?_⟩
      rw [List.map_cons, h2, r2, List.filter_cons, if_pos (by simpa using k5), List.map_cons]
    · rw [k1, Res.bind_ok]
      simp only
      refine ⟨rows, h1, ?_⟩
      rw [h2, List.filter_cons, if_neg (by simp; omega)]

/-- The number of rows. -/
theorem Inv.size (h : Inv tys t s u) : t.size = .ok s.live.length := by
  have key : ∀ (gs : List (RowGroup α)) (a : Nat), GChain a gs s.rows → (∀ g ∈ gs, GroupOk g s u g.count ∧ g.count ≤ t.rgSize) →
      sizeLoop gs = .ok (from' s (fun i => !s.dead i && true) a).length := by
    intro gs
    induction gs with
    | nil =>
      intro a hc _
      have : a = s.rows := hc
      rw [from_end _ (by omega)]; rfl
    | cons g gs ih =>
      intro a hc hg
      have hb := gchain_bounds hc g (by simp)
      obtain ⟨sel, s1, s2, s3⟩ := (hg g (by simp)).1.vers.select (by have := (hg g (by simp)).2; have := h.le; omega)
      unfold sizeLoop
      have hst := from_step (s := s) (a := a) (n := g.count) (fun i => !s.dead i && true) (by have := hc.1; omega)
      rw [s1, Res.bind_ok, ih _ hc.2 (fun x hx => hg x (by simp [hx])), Res.map'_ok, hst, List.length_append, s3]
      congr 2
      unfold rowsIn
      rw [List.length_map, hc.1]
      simp
  have := key t.groups 0 h.chain h.groups
  rw [from_zero] at this
  unfold Table.size
  rw [this]
  congr 2
  simp

end Verif.Table
