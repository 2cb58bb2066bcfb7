import Verif.NestCol.Spec
import Verif.Table.Column
/-! Facts about plain columns and about vectors. -/
namespace Verif.NestCol
open Verif
open Verif.Table
open Verif.Mvcc (CAP)

variable {α β : Type}

/-- A column from row `a` on with the elements `vals` that was never updated. -/
structure Plain (c : Col β) (a : Nat) (vals : List β) : Prop where
  start : c.start = a
  count : c.count = vals.length
  ty : c.ty.Ok
  chain : Chain a c.segs
  nonempty : ∀ s ∈ c.segs.dropLast, s.cells ≠ []
  vals : Table.flat c.segs = vals
  upd : c.upd = none

theorem Plain.colOk {c : Col β} {a : Nat} {vals : List β} (h : Plain c a vals) (hs : a + vals.length < 2 ^ 62) :
    ColOk c a vals := by
  refine ⟨h.start, h.count, h.ty, h.chain, h.nonempty, by rw [h.vals], hs, ⟨?_, ?_⟩, ?_, ?_, ?_⟩
  · simp [Col.ups, updNode, h.upd]
  · simp [Col.ups, updNode, h.upd]
  · simp [updNode, h.upd]
  · simp [updNode, h.upd]
  · simp [Col.ups, updNode, h.upd, overlay, h.vals]

theorem Plain.empty {ty : Ty β} (hty : ty.Ok) (a : Nat) : Plain (Col.empty ty a) a [] :=
  ⟨rfl, rfl, hty, trivial, by simp [Col.empty], rfl, rfl⟩

theorem Plain.initAppend {c : Col β} {a : Nat} {vals : List β} (h : Plain c a vals) :
    Plain c.initAppend a vals ∧ c.initAppend.segs ≠ [] := by
  unfold Col.initAppend
  cases hs : c.segs with
  | nil =>
    rw [List.isEmpty_nil, if_pos rfl]
    refine ⟨⟨h.start, h.count, h.ty, ⟨h.start, trivial⟩, by simp, ?_, h.upd⟩, by simp⟩
    have := h.vals; rw [hs] at this; simpa using this
  | cons s r => simp only [List.isEmpty_cons]; exact ⟨h, by simp [hs]⟩

theorem Plain.append {c : Col β} {a : Nat} {vals : List β} (h : Plain c a vals) (hs : c.segs ≠ []) (batch : List β) :
    ∃ c', c.append batch = .ok c' ∧ Plain c' a (vals ++ batch) ∧ c'.segs ≠ [] ∧ c'.ty = c.ty := by
  obtain ⟨pre, cur, hpc⟩ := List.eq_nil_or_concat c.segs |>.resolve_left hs
  rw [List.concat_eq_append] at hpc
  have hpre : ∀ s ∈ pre, s.cells ≠ [] := by have := h.nonempty; rw [hpc] at this; simpa using this
  obtain ⟨segs, h1, h2, h3, h4, h5⟩ := appendLoop_ok h.ty (batch.length + 2) pre cur batch
    (by split <;> omega) (by rw [← hpc]; exact h.chain) hpre
  have hfl : Table.flat segs = Table.flat c.segs ++ batch := by rw [h3, hpc]; simp
  refine ⟨{ c with count := c.count + batch.length, segs := segs }, ?_, ?_, h4, rfl⟩
  · unfold Col.append
    rw [hpc]
    simp only [List.getLast?_concat, List.dropLast_concat, h1]
  · exact ⟨h.start, by simp [h.count], h.ty, h2, h5, by simp only [hfl, h.vals], h.upd⟩

/-- A scan set up at `pos` starts at element `off` of `len`. -/
def At (a off len : Nat) : Pos → Prop
  | none => off = 0
  | some row => row = a + off ∧ off < len

theorem At.fromStart {a off len : Nat} {pos : Pos} (h : At a off len pos) : At a off len (fromStart pos) := by
  match pos, h with
  | none, h => exact h
  | some 0, h => show off = 0; have := h.1; omega
  | some (n + 1), h => exact h

theorem segOf_index {c : Col β} {row : Nat} {s : Seg β} (h : c.segOf row = .ok s) :
    ∃ i, SegLookup.segmentIndex c.nodes row = .ok i ∧ c.segs[i]? = some s := by
  unfold Col.segOf at h
  cases hi : SegLookup.segmentIndex c.nodes row with
  | ok i =>
    rw [hi] at h
    simp only at h
    cases hs : c.segs[i]? with
    | none => rw [hs] at h; simp at h
    | some x => rw [hs] at h; simp at h; exact ⟨i, rfl, by rw [← h, hs]⟩
  | throws => rw [hi] at h; simp at h
  | ub => rw [hi] at h; simp at h
  | diverges => rw [hi] at h; simp at h

theorem scanCount_ok {c : Col β} {a off n : Nat} {vals : List β} {pos : Pos} (h : Plain c a vals)
    (hs : a + vals.length < 2 ^ 62) (hp : At a off vals.length pos) (hn : off + n ≤ vals.length) :
    scanCount c pos n = .ok ((vals.drop off).take n) := by
  unfold scanCount
  match pos, hp with
  | none, hp =>
    have hp : off = 0 := hp
    subst hp
    simp only [scanSt, Res.bind_ok]
    by_cases h0 : n = 0
    · rw [if_pos h0, h0]; simp
    · rw [if_neg h0]
      have hne : c.segs ≠ [] := by
        intro he
        have := h.vals
        rw [he] at this
        simp at this
        rw [this] at hn
        simp at hn
        omega
      obtain ⟨s, r, hsr⟩ := List.exists_cons_of_ne_nil hne
      have hst : c.initScan = ⟨0, a⟩ := by
        unfold Col.initScan
        rw [hsr]
        have := h.chain.first s (by simp [hsr])
        simp only [this]
      obtain ⟨st, h1⟩ := scanLoop_ok c.segs 0 a a n hne h.chain (by omega) (by omega)
      rw [hst]
      simp only [List.drop_zero]
      rw [h1]
      simp [h.vals]
  | some row, hp =>
    obtain ⟨rfl, hlt⟩ := hp
    have hco := h.colOk hs
    rcases hco.segOf (row := a + off) (by omega) with ⟨s, hm, hso, h1, h2, _⟩ | ⟨h1, _⟩
    · obtain ⟨i, hi, hgi⟩ := segOf_index hso
      simp only [scanSt, hi, Res.map'_ok, Res.bind_ok]
      by_cases h0 : n = 0
      · rw [if_pos h0, h0]; simp
      · rw [if_neg h0]
        have hil : i < c.segs.length := (List.getElem?_eq_some_iff.mp hgi).1
        have hdrop : c.segs.drop i = s :: c.segs.drop (i + 1) := by
          rw [List.drop_eq_getElem_cons hil, (List.getElem?_eq_some_iff.mp hgi).2]
        have hch := h.chain
        rw [← List.take_append_drop i c.segs, chain_append] at hch
        have hb := hch.2
        rw [hdrop] at hb
        have hst : s.start = a + (Table.flat (c.segs.take i)).length := hb.1
        obtain ⟨st, hl⟩ := scanLoop_ok (c.segs.drop i) i _ (a + off) n (by rw [hdrop]; simp) hch.2 (by omega)
          (by rw [hdrop]; simp only; omega)
        rw [hl]
        simp only [Res.map'_ok]
        congr 1
        have hv : vals = Table.flat (c.segs.take i) ++ Table.flat (c.segs.drop i) := by
          rw [← flat_append, List.take_append_drop, h.vals]
        have hz : List.drop off (Table.flat (c.segs.take i)) = [] := List.drop_eq_nil_of_le (by omega)
        rw [hv, List.drop_append, hz, List.nil_append]
        congr 2
        omega
    · omega

theorem listOffset_ok {c : Col Nat} {a i e : Nat} {vals : List Nat} (h : Plain c a vals)
    (hs : a + vals.length < 2 ^ 62) (he : vals[i]? = some e) : listOffset c (a + i) = .ok e := by
  have hi : i < vals.length := (List.getElem?_eq_some_iff.mp he).1
  have hco := h.colOk hs
  rcases hco.segOf (row := a + i) (by omega) with ⟨s, hm, hso, h1, h2, _⟩ | ⟨h1, _⟩
  · unfold listOffset
    rw [hso]
    simp only [Res.bind_ok, Seg.at]
    have hget := chain_get h.chain hm h1 h2
    rw [Nat.add_sub_cancel_left, h.vals, he] at hget
    rw [hget]
  · omega

/-! ## Lists of positions -/

theorem take_iff {l : List β} {idx : List Nat} {xs : List β} :
    take l idx = .ok xs ↔ List.Forall₂ (fun i x => l[i]? = some x) idx xs := by
  induction idx generalizing xs with
  | nil => cases xs <;> simp [take]
  | cons i is ih =>
    unfold take
    cases hx : l[i]? with
    | none =>
      constructor
      · intro h; simp at h
      · intro h; cases h with
        | cons h1 _ => rw [hx] at h1; simp at h1
    | some x =>
      simp only [Res.map'_ok_iff]
      constructor
      · rintro ⟨ys, hy, rfl⟩
        exact .cons hx (ih.mp hy)
      · intro h
        cases h with
        | cons h1 h2 =>
          rw [hx] at h1
          simp only [Option.some.injEq] at h1
          exact ⟨_, ih.mpr h2, by rw [h1]⟩

theorem take_range {l : List β} {n : Nat} (hn : n ≤ l.length) : take l (List.range n) = .ok (l.take n) := by
  rw [take_iff, List.forall₂_iff_get]
  refine ⟨by simp [hn], ?_⟩
  intro i h1 h2
  simp only [List.length_range] at h1
  simp only [List.get_eq_getElem, List.getElem_range, List.getElem_take]
  exact List.getElem?_eq_getElem (by omega)

theorem take_total {l : List β} {idx : List Nat} (h : ∀ i ∈ idx, i < l.length) : ∃ xs, take l idx = .ok xs := by
  induction idx with
  | nil => exact ⟨[], rfl⟩
  | cons i is ih =>
    obtain ⟨xs, hx⟩ := ih fun j hj => h j (List.mem_cons_of_mem _ hj)
    refine ⟨l[i]'(h i (by simp)) :: xs, ?_⟩
    unfold take
    rw [List.getElem?_eq_getElem (h i (by simp))]
    simp [hx]

theorem take_length {l : List β} {idx : List Nat} {xs : List β} (h : take l idx = .ok xs) : xs.length = idx.length :=
  (List.Forall₂.length_eq (take_iff.mp h)).symm

theorem collect_iff {f : Nat → Res (NVal α)} {o n : Nat} {xs : List (NVal α)} :
    collect f o n = .ok xs ↔ List.Forall₂ (fun i x => f i = .ok x) (List.range' o n) xs := by
  induction n generalizing o xs with
  | zero => cases xs <;> simp [collect]
  | succ n ih =>
    unfold collect
    rw [List.range'_succ, Res.bind_ok_iff]
    constructor
    · rintro ⟨x, hx, h⟩
      rw [Res.map'_ok_iff] at h
      obtain ⟨ys, hy, rfl⟩ := h
      exact .cons hx (ih.mp hy)
    · intro h
      cases h with
      | cons h1 h2 => exact ⟨_, h1, by rw [Res.map'_ok_iff]; exact ⟨_, ih.mpr h2, rfl⟩⟩

theorem Shows.length {v : NVec α} {idx : List Nat} {xs : List (NVal α)} (h : Shows v idx xs) : xs.length = idx.length :=
  (List.Forall₂.length_eq h).symm

theorem forall₂_exists {γ δ : Type} {R : γ → δ → Prop} {l : List γ} (h : ∀ x ∈ l, ∃ y, R x y) : ∃ ys, List.Forall₂ R l ys := by
  induction l with
  | nil => exact ⟨[], .nil⟩
  | cons x l ih =>
    obtain ⟨ys, hy⟩ := ih fun z hz => h z (List.mem_cons_of_mem _ hz)
    obtain ⟨y, h1⟩ := h x (by simp)
    exact ⟨y :: ys, .cons h1 hy⟩

theorem forall₂_unique {γ δ : Type} {R : γ → δ → Prop} (hR : ∀ x y z, R x y → R x z → y = z) {l : List γ} {ys zs : List δ}
    (h1 : List.Forall₂ R l ys) (h2 : List.Forall₂ R l zs) : ys = zs := by
  induction h1 generalizing zs with
  | nil => cases h2; rfl
  | cons h _ ih => cases h2 with
    | cons h3 h4 => rw [hR _ _ _ h h3, ih h4]

theorem Shows.unique {v : NVec α} {idx : List Nat} {xs ys : List (NVal α)} (h1 : Shows v idx xs) (h2 : Shows v idx ys) :
    xs = ys :=
  forall₂_unique (fun _ _ _ a b => by rw [a] at b; simpa using b) h1 h2

mutual
/-- Every row of a vector of a type has a value. -/
theorem Has.value : ∀ (t : NTy α) (v : NVec α) (i : Nat), v.Has t → i < v.len → ∃ x, v.value i = .ok x
  | .prim _, .prim cells, i, _, hi => by
    have hi : i < cells.length := hi
    simp only [NVec.value, List.getElem?_eq_getElem hi]
    exact ⟨_, rfl⟩
  | .list t, .list rows c, i, h, hi => by
    have hi : i < rows.length := hi
    obtain ⟨hc, hr⟩ := h
    simp only [NVec.value, List.getElem?_eq_getElem hi]
    cases hx : rows[i] with
    | none => exact ⟨_, rfl⟩
    | some p =>
      obtain ⟨o, n⟩ := p
      have hb := hr o n (by rw [← hx]; exact List.getElem_mem hi)
      obtain ⟨xs, hxs⟩ := forall₂_exists (R := fun i x => c.value i = .ok x) (l := List.range' o n) fun j hj =>
        Has.value t c j hc (by simp only [List.mem_range'_1] at hj; omega)
      exact ⟨.list xs, by simp only [collect_iff.mpr hxs, Res.map'_ok]⟩
  | .array k t, .array k' valid c, i, h, hi => by
    have hi : i < valid.length := hi
    obtain ⟨rfl, hc, hl⟩ := h
    simp only [NVec.value, List.getElem?_eq_getElem hi]
    cases hx : valid[i] with
    | false => exact ⟨_, rfl⟩
    | true =>
      have hle : i * k' + k' ≤ valid.length * k' := by
        have := Nat.mul_le_mul_right k' (Nat.succ_le_of_lt hi); rw [Nat.succ_mul] at this; exact this
      obtain ⟨xs, hxs⟩ := forall₂_exists (R := fun i x => c.value i = .ok x) (l := List.range' (i * k') k') fun j hj =>
        Has.value t c j hc (by simp only [List.mem_range'_1] at hj; omega)
      exact ⟨.array xs, by simp only [collect_iff.mpr hxs, Res.map'_ok]⟩
  | .struct ts, .struct valid fs, i, h, hi => by
    have hi : i < valid.length := hi
    simp only [NVec.value, List.getElem?_eq_getElem hi]
    cases hx : valid[i] with
    | false => exact ⟨_, rfl⟩
    | true =>
      obtain ⟨xs, hxs⟩ := Has.values ts fs _ i h hi
      exact ⟨.struct xs, by simp only [hxs, Res.map'_ok]⟩
  | .prim _, .list _ _, _, h, _ => h.elim
  | .prim _, .array _ _ _, _, h, _ => h.elim
  | .prim _, .struct _ _, _, h, _ => h.elim
  | .list _, .prim _, _, h, _ => h.elim
  | .list _, .array _ _ _, _, h, _ => h.elim
  | .list _, .struct _ _, _, h, _ => h.elim
  | .array _ _, .prim _, _, h, _ => h.elim
  | .array _ _, .list _ _, _, h, _ => h.elim
  | .array _ _, .struct _ _, _, h, _ => h.elim
  | .struct _, .prim _, _, h, _ => h.elim
  | .struct _, .list _ _, _, h, _ => h.elim
  | .struct _, .array _ _ _, _, h, _ => h.elim
theorem Has.values : ∀ (ts : NTys α) (vs : NVecs α) (n i : Nat), vs.Has ts n → i < n → ∃ x, vs.values i = .ok x
  | .nil, .nil, _, _, _, _ => ⟨[], rfl⟩
  | .cons t ts, .cons v vs, n, i, h, hi => by
    obtain ⟨h1, h2, h3⟩ := h
    obtain ⟨x, hx⟩ := Has.value t v i h1 (by omega)
    obtain ⟨xs, hxs⟩ := Has.values ts vs n i h3 hi
    exact ⟨x :: xs, by simp only [NVecs.values, hx, hxs, Res.bind_ok, Res.map'_ok]⟩
  | .nil, .cons _ _, _, _, h, _ => h.elim
  | .cons _ _, .nil, _, _, h, _ => h.elim
end

theorem Has.shows {t : NTy α} {v : NVec α} (h : v.Has t) {idx : List Nat} (hi : ∀ i ∈ idx, i < v.len) : ∃ xs, Shows v idx xs :=
  forall₂_exists fun i hm => Has.value t v i h (hi i hm)

end Verif.NestCol
