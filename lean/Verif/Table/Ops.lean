import Verif.Table.OpsModel
import Verif.Table.Props
/-! Lemmas on the table operators. -/
namespace Verif.Table
open Verif
open Verif.Mvcc (CAP)
variable {α : Type} {tys : List (ColTy α)} {t t' : Table α} {s : Ideal α} {h : List (Call α)} {u : Nat → Bool}

mutual
theorem flt_holds (cmp : α → α → Ordering) (row : List (Cell α)) {p : Nat → Prop} : ∀ e : Ex α, e.On p → e.flt.holds cmp row = e.holds cmp row
  | .allTrue, h => h.elim
  | .cmp op col c, _ => rfl
  | .and l, h => flts_all cmp row l h
  | .or l, h => flts_any cmp row l h
theorem flts_all (cmp : α → α → Ordering) (row : List (Cell α)) {p : Nat → Prop} : ∀ l : List (Ex α), Ex.AllOn p l →
    Flt.all cmp row (Ex.flts l) = Ex.all cmp row l
  | [], _ => rfl
  | e :: es, h => by
    show (e.flt.holds cmp row && Flt.all cmp row (Ex.flts es)) = (e.holds cmp row && Ex.all cmp row es)
    rw [flt_holds cmp row e h.1, flts_all cmp row es h.2]
theorem flts_any (cmp : α → α → Ordering) (row : List (Cell α)) {p : Nat → Prop} : ∀ l : List (Ex α), Ex.AllOn p l →
    Flt.any cmp row (Ex.flts l) = Ex.any cmp row l
  | [], _ => rfl
  | e :: es, h => by
    show (e.flt.holds cmp row || Flt.any cmp row (Ex.flts es)) = (e.holds cmp row || Ex.any cmp row es)
    rw [flt_holds cmp row e h.1, flts_any cmp row es h.2]
end

mutual
theorem flt_on {p : Nat → Prop} : ∀ e : Ex α, e.On p → e.flt.On p
  | .allTrue, h => h.elim
  | .cmp _ _ _, h => h
  | .and l, h => flts_on l h
  | .or l, h => flts_on l h
theorem flts_on {p : Nat → Prop} : ∀ l : List (Ex α), Ex.AllOn p l → Flt.AllOn p (Ex.flts l)
  | [], _ => trivial
  | e :: es, h => ⟨flt_on e h.1, flts_on es h.2⟩
end

theorem transform_on {p : Nat → Prop} (e : Ex α) (h : e.On p) : transform (some e) = some e.flt := by
  cases e with
  | allTrue => exact h.elim
  | _ => rfl

/-- The rows in the same block of 1024 rows as the first one. -/
def firstBlock : List Nat → List Nat
  | [] => []
  | i :: l => (i :: l).filter fun k => decide (k / 1024 = i / 1024)

theorem firstBlock_sub (l : List Nat) : ∀ i ∈ firstBlock l, i ∈ l := by
  cases l with
  | nil => simp [firstBlock]
  | cons a l => intro i hi; exact (List.mem_filter.mp hi).1

theorem firstBlock_small (l : List Nat) (h : ∀ i ∈ l, i < 1024) : firstBlock l = l := by
  cases l with
  | nil => rfl
  | cons a l =>
    unfold firstBlock
    rw [List.filter_eq_self]
    intro i hi
    rw [Nat.div_eq_of_lt (h i hi), Nat.div_eq_of_lt (h a (by simp))]
    rfl

theorem mem_rowsIn {keep : Nat → Bool} {a n i : Nat} : i ∈ rowsIn keep a n ↔ a ≤ i ∧ i < a + n ∧ keep i = true := by
  unfold rowsIn
  rw [List.mem_map]
  constructor
  · rintro ⟨j, hj, rfl⟩
    rw [List.mem_filter, List.mem_range] at hj
    exact ⟨by omega, by omega, hj.2⟩
  · rintro ⟨h1, h2, h3⟩
    refine ⟨i - a, ?_, by omega⟩
    rw [List.mem_filter, List.mem_range]
    refine ⟨by omega, ?_⟩
    rw [show a + (i - a) = i by omega]
    exact h3

theorem cut_ids (limit : Int) (o : Out α) (hl : Query.limOk limit 0 = true) : (cut limit o).ids = first limit o.ids := by
  unfold Query.limOk at hl
  unfold cut first
  by_cases h1 : limit = -1
  · rw [h1]; rfl
  · have : 0 ≤ limit := by
      simp [h1] at hl
      omega
    rw [if_pos this, if_neg h1]

theorem first_sub (limit : Int) (l : List Nat) : ∀ i ∈ first limit l, i ∈ l := by
  intro i hi
  unfold first at hi
  split at hi
  · exact hi
  · exact List.mem_of_mem_take hi

theorem cut_shows (limit : Int) (hl : Query.limOk limit 0 = true) {w : Nat} {rows : List Nat} {o : Out α} (ho : OutOk s (List.range w) rows o)
    (d : Bool) (b : Nat) : Shows s w (first limit rows) (some ⟨cut limit o, d, b⟩) := by
  refine ⟨by rw [cut_ids limit o hl, ho.ids], ?_, ?_⟩
  · have := ho.width
    rw [List.length_range] at this
    unfold cut
    split
    · rw [List.length_map, this]
    · exact this
  · intro j col l hc hs
    have hw := ho.width
    rw [List.length_range] at hw
    unfold Query.limOk at hl
    unfold cut at hc
    by_cases h1 : limit = -1
    · subst h1
      exact ho.cells j j col l (by rw [List.getElem?_range]; rw [← hw]; exact (List.getElem?_eq_some_iff.mp hc).1) hc hs
    · have h0 : 0 ≤ limit := by
        simp [h1] at hl
        omega
      rw [if_pos h0] at hc
      simp only [List.getElem?_map, Option.map_eq_some_iff] at hc
      obtain ⟨c, hc, rfl⟩ := hc
      have := ho.cells j j c l (by rw [List.getElem?_range]; rw [← hw]; exact (List.getElem?_eq_some_iff.mp hc).1) hc hs
      unfold first
      rw [if_neg h1, List.map_take, this, List.map_take]

/-- One scan. -/
theorem scanOp_ok (cmp : α → α → Ordering) (hi : Inv tys t s u) (hrg : t.rgSize = CAP) (e : Option (Ex α)) {P : Nat → Bool}
    (hP : DecidesAll cmp t s (transform e) P) (limit : Int) (hl : Query.limOk limit 0 = true) :
    ∃ p, t.scanOp cmp e limit = .ok (some p) ∧ Shows s tys.length (first limit (firstBlock (s.live.filter P))) (some p) ∧
      (s.live.filter P ≠ [] → p.dict = ((transform e).isSome || decide ((firstBlock (s.live.filter P)).length ≠
        min 1024 (s.rows - p.base)))) ∧ ∀ i ∈ p.out.ids, i / 1024 * 1024 = p.base := by
  have hrefs : ∀ j ∈ List.range tys.length, j < tys.length := fun j hj => List.mem_range.mp hj
  obtain ⟨st, h1, h2⟩ := initScan_at hi hrefs
  obtain ⟨st', o, b, r1, r2, r3, r4, r5, r6, r7⟩ := scanLoop_ok' cmp hi hrefs hP (t.groups.length + 1) st 0 h2 (by omega) (by intro gi _; omega)
  unfold Table.scanOp
  rw [if_pos hl, hi.same, h1, Res.bind_ok]
  unfold Table.scan
  rw [r1, Res.bind_ok]
  rw [from_zero] at r3
  by_cases hids : o.ids = []
  · rw [hids, r4 hids] at r3
    have hfb : firstBlock (s.live.filter P) = o.ids := by rw [r3, hids]; rfl
    have hsh := cut_shows limit hl r5
    rw [hfb]
    unfold pickedOf
    have hnone : ∀ i ∈ (cut limit o).ids, False := by
      rw [cut_ids limit o hl, hids]
      intro i hi
      have := first_sub limit [] i hi
      simp at this
    cases hg : st'.grp with
    | none => exact ⟨_, rfl, hsh _ _, fun e => (e (by rw [r3]; rfl)).elim, fun i hi => (hnone i hi).elim⟩
    | some gi =>
      obtain ⟨g, hgg, _⟩ := by
        have := r2.2
        rw [hg] at this
        exact this
      simp only [hgg]
      exact ⟨_, rfl, hsh _ _, fun e => (e (by rw [r3]; rfl)).elim, fun i hi => (hnone i hi).elim⟩
  · obtain ⟨gi, g, g1, g2, g3, g4, g5⟩ := r7 hids
    have hgm := List.mem_of_getElem? g2
    have hst := gchain_start hi.chain hi.full g2
    rw [hrg, Nat.zero_add] at hst
    have hb := gchain_bounds hi.chain g hgm
    have hcap : g.count ≤ CAP := by have := (hi.groups g hgm).2; omega
    unfold CAP at hst hcap
    have hblock : ∀ i ∈ o.ids, i / 1024 = gi := by
      intro i him
      rw [g5, mem_rowsIn] at him
      omega
    have hlast : g.start + g.count < s.rows → g.count = 1024 := by
      intro hlt
      have hlen := (List.getElem?_eq_some_iff.mp g2).1
      by_cases hend : gi + 1 = t.groups.length
      · have hc := drop_chain hi g2
        rw [List.drop_eq_nil_of_le (by omega)] at hc
        have : g.start + g.count = s.rows := hc
        omega
      · have : g ∈ t.groups.dropLast := by
          rw [List.dropLast_eq_take]
          apply List.mem_of_getElem? (i := gi)
          rw [List.getElem?_take, if_pos (by omega), g2]
        rw [hi.full g this, hrg]
        rfl
    have hfb : firstBlock (s.live.filter P) = o.ids := by
      obtain ⟨i, l, hil⟩ := List.exists_cons_of_ne_nil hids
      have hgi := hblock i (by rw [hil]; simp)
      have hall : s.live.filter P = rowsIn (fun i => !s.dead i && P i) 0 g.start ++ (rowsIn (fun i => !s.dead i && P i) g.start g.count ++
          from' s (fun i => !s.dead i && P i) (g.start + g.count)) := by
        rw [← from_zero, from_step (n := g.start) _ (by omega), Nat.zero_add, from_step (n := g.count) _ hb.2]
      have hhead : firstBlock (s.live.filter P) = (s.live.filter P).filter fun k => decide (k / 1024 = gi) := by
        rw [r3, hil, List.cons_append]
        simp only [firstBlock, hgi]
      rw [hhead, hall, List.filter_append, List.filter_append, ← g5]
      rw [List.filter_eq_nil_iff.mpr, List.filter_eq_self.mpr, List.filter_eq_nil_iff.mpr, List.nil_append, List.append_nil]
      · intro k hk
        unfold from' at hk
        rw [mem_rowsIn] at hk
        have := hlast (by omega)
        simp only [decide_eq_true_eq]
        omega
      · intro k hk
        simpa using hblock k hk
      · intro k hk
        rw [mem_rowsIn] at hk
        simp only [decide_eq_true_eq]
        omega
    rw [hfb]
    unfold pickedOf
    simp only [g1, g2]
    refine ⟨_, rfl, cut_shows limit hl r5 _ _, fun _ => ?_, ?_⟩
    · simp only
      rw [g3, g4, Nat.sub_self, Nat.zero_mul, Nat.sub_zero, Nat.add_zero]
      congr 1
      have : min CAP g.count = min 1024 (s.rows - g.start) := by
        unfold CAP
        by_cases hlt : g.start + g.count < s.rows
        · have := hlast hlt
          omega
        · omega
      rw [this]
    · intro i him
      simp only at him ⊢
      rw [cut_ids limit o hl] at him
      have := hblock i (first_sub limit _ i him)
      rw [g3, this, hst]
      omega

/-- The conditions under which a filter is applied right. -/
theorem decides_where (cmp : α → α → Ordering) (hty : ∀ ty ∈ tys, ty.Ok) (ha : After tys h t s) (hr : s.rows ≤ 1024)
    (hu : ∀ i, touched h i = false) (e : Ex α) (hf : ∀ i ∈ s.live, e.On fun c => ∃ x, (s.row i)[c]? = some (some x))
    (hne : e.On fun _ => True) : DecidesAll cmp t s (transform (some e)) fun i => e.holds cmp (s.row i) := by
  obtain ⟨hi, hrg⟩ := ha.inv hty (by omega)
  rw [transform_on e hne]
  intro g hg p hp hlive
  obtain ⟨gi, hgi⟩ := List.getElem?_of_mem hg
  have hst := gchain_start hi.chain hi.full hgi
  have hb := gchain_bounds hi.chain g hg
  have h0 : g.start = 0 := by
    rw [hrg] at hst
    unfold CAP at hst
    omega
  rw [h0, Nat.zero_add] at hlive ⊢
  have hl := hf p (mem_live.mpr ⟨by omega, by simpa using hlive⟩)
  have := check_ok cmp (hi.groups g hg).1 hi.ok h0 hu hp (by omega) e.flt (flt_on e hl)
  rw [this]
  simp only [flt_holds cmp _ e hl]

end Verif.Table
