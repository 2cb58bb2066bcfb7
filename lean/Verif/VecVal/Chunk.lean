import Verif.VecVal.ChunkSpec
import Verif.VecVal.Slice
namespace Verif.VecVal
open Res

structure CInv {ts : List Ty} (c : Chunk ts) (rows : List (Vals ts)) : Prop where
  fits : Fitss ts c.cols c.cap
  pos : 0 < c.cap
  room : c.count ≤ c.cap
  count : c.count = rows.length
  row : ∀ i x, rows[i]? = some x → Lives ts c.cols i ∧ gets ts c.cols i = .ok x

structure SInv {ts : List Ty} (c : Sliced ts) (rows : List (Vals ts)) : Prop where
  wide : Wides ts c.cols c.count
  count : c.count = rows.length
  row : ∀ i x, rows[i]? = some x → VOks ts c.cols i ∧ views ts c.cols i = .ok x

theorem chosen_some {α : Type} (rows : List α) : ∀ (sel : List Nat), (∀ r ∈ sel, r < rows.length) →
    (chosen rows (some sel)).length = sel.length ∧ ∀ (i : Nat) (x : α), (chosen rows (some sel))[i]? = some x → ∃ p : Nat, sel[i]? = some p ∧ rows[p]? = some x
  | [], _ => ⟨rfl, fun i x h => by simp [chosen] at h⟩
  | r :: sel, h => by
    obtain ⟨h1, h2⟩ := chosen_some rows sel fun r hr => h r (List.mem_cons_of_mem _ hr)
    have hr := h r (List.mem_cons_self ..)
    have e : chosen rows (some (r :: sel)) = rows[r] :: chosen rows (some sel) := by
      simp only [chosen, List.filterMap_cons, List.getElem?_eq_getElem hr]
    refine ⟨by rw [e, List.length_cons, h1, List.length_cons], fun i x hx => ?_⟩
    rw [e] at hx
    cases i with
    | zero => exact ⟨r, rfl, by simpa [List.getElem?_eq_getElem hr] using hx⟩
    | succ i => simpa using h2 i x (by simpa using hx)

theorem chosen_get {α : Type} {rows : List α} {sel : List Nat} (h : ∀ r ∈ sel, r < rows.length) {i p : Nat} (hp : sel[i]? = some p) :
    (chosen rows (some sel))[i]? = rows[p]? := by
  obtain ⟨h1, h2⟩ := chosen_some rows sel h
  have hi : i < (chosen rows (some sel)).length := by rw [h1]; exact (List.getElem?_eq_some_iff.1 hp).1
  obtain ⟨q, hq, hx⟩ := h2 i _ (List.getElem?_eq_getElem hi)
  rw [hp] at hq; injection hq with hq; subst hq
  rw [List.getElem?_eq_getElem hi, hx]

/-- A slice of rows that are there. -/
theorem slice_inv {ts : List Ty} {c : Sliced ts} {rows : List (Vals ts)} (h : SInv c rows) (sel : List Nat) (hs : ∀ r ∈ sel, r < rows.length) :
    ∃ w, c.slice sel sel.length = .ok w ∧ SInv w (chosen rows (some sel)) := by
  have hs' : ∀ r ∈ sel, r < c.count := fun r hr => by rw [h.count]; exact hs r hr
  obtain ⟨w, h1, h2, h3⟩ := slices_spec ts h.wide hs'
  obtain ⟨w', h1', h4⟩ := voks_slices ts h.wide hs'
  rw [h1] at h1'; injection h1' with h1'; subst h1'
  obtain ⟨k1, k2⟩ := chosen_some rows sel hs
  refine ⟨⟨w, sel.length⟩, by simp only [Sliced.slice]; rw [bindOk _ h1], h2, k1.symm, fun i x hx => ?_⟩
  obtain ⟨p, hp, hpx⟩ := k2 i x hx
  obtain ⟨a, b⟩ := h.row p x hpx
  exact ⟨h4 i p hp a, by simp only; rw [h3 i p hp, b]⟩

theorem part_eq {α : Type} (rows : List α) (off n : Nat) (h : off + n ≤ rows.length) :
    chosen rows (some ((List.range n).map (off + ·))) = (rows.drop off).take n := by
  have hr : ∀ r ∈ (List.range n).map (off + ·), r < rows.length := fun r hr => by
    obtain ⟨k, hk, rfl⟩ := List.mem_map.1 hr
    have := List.mem_range.1 hk; omega
  obtain ⟨h1, h2⟩ := chosen_some rows _ hr
  rw [List.length_map, List.length_range] at h1
  apply List.ext_getElem?
  intro i
  by_cases hi : i < n
  · have : ((List.range n).map (off + ·))[i]? = some (off + i) := by simp [hi]
    rw [chosen_get hr this, List.getElem?_take_of_lt hi, List.getElem?_drop]
  · rw [List.getElem?_eq_none (by omega), List.getElem?_eq_none (by rw [List.length_take, List.length_drop]; omega)]

/-- What the indexes of an append or copy pick. -/
theorem picks {ts : List Ty} {o : Sliced ts} {rows : List (Vals ts)} (h : SInv o rows) (sel : Option (List Nat)) (hs : ∀ s, sel = some s → ∀ r ∈ s, r < rows.length) :
    ∃ Q : Nat → Nat, howMany sel ((sel.map List.length).getD 0) o.count = (chosen rows sel).length ∧
      ∀ i, i < (chosen rows sel).length → pick? sel i = .ok (Q i) ∧ VOks ts o.cols (Q i) ∧ ∀ x, (chosen rows sel)[i]? = some x → views ts o.cols (Q i) = .ok x := by
  cases sel with
  | none =>
    refine ⟨id, h.count, fun i hi => ⟨rfl, ?_⟩⟩
    have := List.getElem?_eq_getElem hi
    exact ⟨(h.row i _ this).1, fun x hx => (h.row i x hx).2⟩
  | some s =>
    have hs := hs s rfl
    obtain ⟨k1, k2⟩ := chosen_some rows s hs
    refine ⟨fun i => s.getD i 0, by simp [howMany, k1], fun i hi => ?_⟩
    rw [k1] at hi
    have e : s.getD i 0 = s[i] := by simp [List.getD, hi]
    have hp : s[i]? = some s[i] := List.getElem?_eq_getElem hi
    have hlt := hs _ (List.getElem_mem hi)
    simp only [e]
    refine ⟨pick_ok.2 hp, (h.row _ _ (List.getElem?_eq_getElem hlt)).1, fun x hx => ?_⟩
    rw [chosen_get hs hp] at hx
    exact (h.row _ x hx).2

theorem resizes_spec : (ts : List Ty) → noArrays ts = true → ∀ {v : Vecs ts} {c old new : Nat}, Fitss ts v c → 0 < c → old ≤ c → c < new →
    ∃ v', resizes ts old new v = .ok v' ∧ Growns ts v v' old new
  | [], _, v, c, old, new, _, _, _, _ => ⟨(), by simp only [resizes], by simp only [Fitss], fun j _ _ => by simp only [Lives, gets]; exact ⟨trivial, trivial⟩⟩
  | t :: ts, ht, v, c, old, new, hf, h0, ho, hn => by
    simp only [noArrays, Bool.and_eq_true] at ht
    simp only [Fitss] at hf
    obtain ⟨a, ha, hga⟩ := resize_spec t ht.1 (new := new) hf.1 h0 ho (by omega) (by omega)
    obtain ⟨b, hb, hgb⟩ := resizes_spec ts ht.2 hf.2 h0 ho hn
    refine ⟨(a, b), by simp only [resizes]; rw [bindOk _ ha, bindOk _ hb], by simp only [Fitss]; exact ⟨hga.fits, hgb.fits⟩, ?_⟩
    intro j hj hl
    simp only [Lives] at hl ⊢
    obtain ⟨h1, h2⟩ := hga.keep j hj hl.1
    obtain ⟨h3, h4⟩ := hgb.keep j hj hl.2
    exact ⟨⟨h1, h3⟩, by simp only [gets, h2, h4]⟩

theorem plains_sized : (ts : List Ty) → plains ts = true → sizeds ts = true := by
  have hk : ∀ k : Kind, k.usable = true → k.sized = true := by intro k; cases k <;> simp [Kind.usable, Kind.sized]
  intro ts
  exact go ts hk
where
  go1 (t : Ty) (hk : ∀ k : Kind, k.usable = true → k.sized = true) : plain t = true → sized t = true :=
    match t with
    | .leaf k => by simp only [plain, sized]; exact hk k
    | .list t => by simp only [plain, sized, Bool.and_eq_true]; exact fun h => go1 t hk h.1
    | .array t n => by simp only [plain, sized]; exact go1 t hk
    | .struct ts => by simp only [plain, sized]; exact go ts hk
  go (ts : List Ty) (hk : ∀ k : Kind, k.usable = true → k.sized = true) : plains ts = true → sizeds ts = true :=
    match ts with
    | [] => by simp only [sizeds]; exact fun _ => trivial
    | t :: ts => by simp only [plains, sizeds, Bool.and_eq_true]; exact fun h => ⟨go1 t hk h.1, go ts hk h.2⟩

/-- Rows appended where there is room. -/
theorem copies_inv {ts : List Ty} (ht : plains ts = true) (hna : noArrays ts = true) {o : Sliced ts} {cols : Vecs ts} {cap cnt : Nat} {rows new : List (Vals ts)} {sel : Option (List Nat)}
    {off : Nat} {Q : Nat → Nat} (hf : Fitss ts cols cap) (h0 : 0 < cap) (hc : cnt = rows.length) (hr : ∀ i x, rows[i]? = some x → Lives ts cols i ∧ gets ts cols i = .ok x)
    (hoff : off ≤ new.length) (hroom : cnt + (new.length - off) ≤ cap)
    (hQ : ∀ i, i < new.length → pick? sel i = .ok (Q i) ∧ VOks ts o.cols (Q i) ∧ ∀ x, new[i]? = some x → views ts o.cols (Q i) = .ok x) :
    ∃ w, copies ts o.cols cols sel new.length off cnt (new.length - off) = .ok w ∧ CInv ⟨w, cnt + (new.length - off), cap⟩ (rows ++ new.drop off) := by
  obtain ⟨w, h1, h2⟩ := copies_spec ts ht hna o.cols cols sel new.length off cnt (new.length - off) cap Q (fun i hi => ⟨(hQ i hi).1, (hQ i hi).2.1⟩) (by omega) hf h0 hroom
  refine ⟨w, h1, h2.fits, h0, hroom, by simp [hc], fun i x hx => ?_⟩
  by_cases hi : i < rows.length
  · rw [List.getElem?_append_left hi] at hx
    obtain ⟨a, b⟩ := hr i x hx
    obtain ⟨c, d⟩ := h2.keep i (by omega) a
    exact ⟨c, by simp only; rw [d, b]⟩
  · rw [List.getElem?_append_right (by omega), List.getElem?_drop] at hx
    have hlt := (List.getElem?_eq_some_iff.1 hx).1
    obtain ⟨a, b⟩ := h2.new (i - cnt) (by omega)
    rw [show cnt + (i - cnt) = i by omega] at a b
    refine ⟨a, ?_⟩
    simp only
    rw [b]
    rw [hc]
    exact (hQ _ hlt).2.2 x hx

mutual
theorem build_inv {ts : List Ty} (ht : plains ts = true) (hna : noArrays ts = true) : (b : Build ts) → b.Legal → ∃ c, b.eval = .ok c ∧ CInv c b.rows
  | .new cap, h => by
    simp only [Build.Legal] at h
    refine ⟨Chunk.new ts cap, by simp only [Build.eval, plains_sized ts ht, if_true], ?_, h, Nat.zero_le _, rfl, fun i x hx => ?_⟩
    · exact makes_fits ts cap
    · simp [Build.rows] at hx
  | .add b x, h => by
    simp only [Build.Legal] at h
    obtain ⟨c, hc, hi⟩ := build_inv ht hna b h.1
    have hroom := h.2.2 c hc
    obtain ⟨v, h1, h2⟩ := sets_spec ts ht hi.fits hroom h.2.1
    refine ⟨{ c with cols := v, count := c.count + 1 }, by simp only [Build.eval]; rw [bindOk _ hc]; simp only [Chunk.addRow]; rw [bindOk _ h1], h2.fits, hi.pos, hroom,
      by simp [Build.rows, hi.count], fun i y hy => ?_⟩
    simp only [Build.rows] at hy
    by_cases hlt : i < b.rows.length
    · rw [List.getElem?_append_left hlt] at hy
      obtain ⟨a, e⟩ := hi.row i y hy
      obtain ⟨a', e'⟩ := h2.keep i (by rw [hi.count]; omega) a
      exact ⟨a', by simp only; rw [e', e]⟩
    · rw [List.getElem?_append_right (by omega)] at hy
      have : i = b.rows.length := by
        have := (List.getElem?_eq_some_iff.1 hy).1
        simp at this; omega
      subst this
      simp at hy
      subst hy
      rw [← hi.count]
      exact ⟨h2.live, h2.read⟩
  | .append b c g sel, h => by
    simp only [Build.Legal] at h
    obtain ⟨hb, hc, hsel, hg⟩ := h
    obtain ⟨x, hx, ix⟩ := build_inv ht hna b hb
    obtain ⟨y, hy, iy⟩ := cut_inv ht hna c hc
    obtain ⟨Q, hn, hQ⟩ := picks iy sel hsel
    simp only [Build.eval, Build.rows]
    rw [bindOk _ hx, bindOk _ hy]
    simp only [Chunk.append]
    rw [hn]
    by_cases h0 : y.count = 0
    · refine ⟨x, by rw [if_pos h0], ?_⟩
      have : chosen c.rows sel = [] := by
        rw [iy.count] at h0
        cases sel with
        | none => exact List.eq_nil_of_length_eq_zero h0
        | some s =>
          cases s with
          | nil => rfl
          | cons r s => have := hsel _ rfl r (List.mem_cons_self ..); omega
      rw [this, List.append_nil]; exact ix
    · rw [if_neg h0]
      by_cases hroom : x.cap < x.count + (chosen c.rows sel).length
      · have hg' : g = true := by
          cases g with
          | true => rfl
          | false => have := hg rfl x hx; omega
        rw [if_pos hroom, if_pos hg']
        have hp := le_nextPow2 (x.count + (chosen c.rows sel).length)
        obtain ⟨v, h1, h2⟩ := resizes_spec ts hna (new := nextPow2 (x.count + (chosen c.rows sel).length)) ix.fits ix.pos ix.room (by omega)
        obtain ⟨w, h3, h4⟩ := copies_inv ht hna (off := 0) h2.fits (by omega) ix.count (fun i z hz => by
          obtain ⟨a, e⟩ := ix.row i z hz
          obtain ⟨a', e'⟩ := h2.keep i (by rw [ix.count]; exact (List.getElem?_eq_some_iff.1 hz).1) a
          exact ⟨a', by rw [e', e]⟩) (Nat.zero_le _) (by omega) hQ
        rw [Nat.sub_zero] at h3 h4
        rw [List.drop_zero] at h4
        exact ⟨_, by rw [bindOk _ h1, bindOk _ h3], h4⟩
      · rw [if_neg hroom]
        obtain ⟨w, h3, h4⟩ := copies_inv ht hna (off := 0) ix.fits ix.pos ix.count ix.row (Nat.zero_le _) (by omega) hQ
        rw [Nat.sub_zero] at h3 h4
        rw [List.drop_zero] at h4
        exact ⟨_, by rw [bindOk _ h3], h4⟩
  | .copy cap c sel off, h => by
    simp only [Build.Legal] at h
    obtain ⟨hcap, hc, hsel, hoff, hroom⟩ := h
    obtain ⟨y, hy, iy⟩ := cut_inv ht hna c hc
    obtain ⟨Q, hn, hQ⟩ := picks iy sel hsel
    simp only [Build.eval, Build.rows, plains_sized ts ht, if_true]
    rw [bindOk _ hy]
    simp only [Sliced.copyTo]
    rw [hn]
    obtain ⟨w, h3, h4⟩ := copies_inv ht hna (off := off) (rows := []) (cnt := 0) (makes_fits ts cap) hcap rfl (fun i z hz => by simp at hz) hoff (by omega) hQ
    rw [List.nil_append, Nat.zero_add] at h4
    exact ⟨_, by simp only [Chunk.new]; rw [bindOk _ h3], h4⟩
theorem cut_inv {ts : List Ty} (ht : plains ts = true) (hna : noArrays ts = true) : (c : Cut ts) → c.Legal → ∃ s, c.eval = .ok s ∧ SInv s c.rows
  | .all b, h => by
    simp only [Cut.Legal] at h
    obtain ⟨c, hc, hi⟩ := build_inv ht hna b h
    refine ⟨c.all, by simp only [Cut.eval]; rw [bindOk _ hc], wides_flats ts _ _, hi.count, fun i x hx => ?_⟩
    obtain ⟨a, e⟩ := hi.row i x hx
    exact ⟨voks_flats ts c.cols c.cap i hi.fits a, by simp only [Chunk.all]; rw [views_flats, e]⟩
  | .slice c sel, h => by
    simp only [Cut.Legal] at h
    obtain ⟨s, hs, hi⟩ := cut_inv ht hna c h.1
    obtain ⟨w, h1, h2⟩ := slice_inv hi sel h.2
    exact ⟨w, by simp only [Cut.eval]; rw [bindOk _ hs]; exact h1, h2⟩
  | .part c off n, h => by
    simp only [Cut.Legal] at h
    obtain ⟨s, hs, hi⟩ := cut_inv ht hna c h.1
    obtain ⟨w, h1, h2⟩ := slice_inv hi ((List.range n).map (off + ·)) (fun r hr => by
      obtain ⟨k, hk, rfl⟩ := List.mem_map.1 hr
      have := List.mem_range.1 hk; omega)
    rw [part_eq _ _ _ h.2] at h2
    rw [List.length_map, List.length_range] at h1
    exact ⟨w, by simp only [Cut.eval]; rw [bindOk _ hs]; exact h1, h2⟩
end
end Verif.VecVal
