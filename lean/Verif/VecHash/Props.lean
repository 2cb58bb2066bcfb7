import Verif.VecHash.Spec
import Verif.Validity.Props
/-!
# C117: rows with the same cells have the same hash
-/
namespace Verif.VecHash

open Verif Verif.Validity Verif.VecSel

mutual
/-- The hash of a cell of a first column. -/
def cellHash {T : Type} (h : T → Word) : Cell T → Word
  | .null => nullHash
  | .val x => h x
  | .nullList => nullHash
  | .list cs => match cellHashes h cs with
    | [] => nullHash
    | w :: ws => ws.foldl comb w
def cellHashes {T : Type} (h : T → Word) : List (Cell T) → List Word
  | [] => []
  | c :: cs => cellHash h c :: cellHashes h cs
end

/-- The hash of a row with one more cell. -/
def combCell {T : Type} (h : T → Word) (w : Word) : Cell T → Word
  | .null => comb w nullHash
  | .val x => comb w (h x)
  | .nullList => w
  | .list cs => (cellHashes h cs).foldl comb w

theorem cellHashes_eq {T : Type} (h : T → Word) : ∀ cs : List (Cell T), cellHashes h cs = cs.map (cellHash h)
  | [] => by simp [cellHashes]
  | c :: cs => by simp [cellHashes, cellHashes_eq h cs]

theorem same_hash {T : Type} {eq : T → T → Prop} {h : T → Word} (he : ∀ x y, eq x y → h x = h y) {x y : Cell T}
    (hs : Cell.Same eq x y) : cellHash h x = cellHash h y ∧ ∀ w, combCell h w x = combCell h w y := by
  induction hs with
  | null => exact ⟨rfl, fun _ => rfl⟩
  | val hxy => simp [cellHash, combCell, he _ _ hxy]
  | nullList => exact ⟨rfl, fun _ => rfl⟩
  | @list xs ys hl _ ih =>
    have : cellHashes h xs = cellHashes h ys := by
      rw [cellHashes_eq, cellHashes_eq]
      refine List.ext_getElem (by simpa using hl) fun i h1 h2 => ?_
      simp only [List.getElem_map]
      exact (ih i (by simpa using h1) (by simpa using h2)).1
    simp [cellHash, combCell, this]

theorem valid_at {d : Head} {count : Nat} (hf : d.Fit count) {i : Nat} (hi : i < count) :
    rowIsValid d.mask (d.index i) = .ok (d.mask.valid (d.index i)) :=
  rowIsValid_spec d.mask hf.1 _ (hf.2.2 i hi)

theorem none_valid {d : Head} (hn : d.mask.words.isNone) (i : Nat) : d.mask.valid i = true := by
  cases hw : d.mask.words with
  | none => simp [Mask.valid, hw]
  | some ws => simp [hw] at hn

/-- The loops over rows. -/
theorem tight_eq {T : Type} (h : T → Word) (f : Word → Word → Word) (d : Head) (data : Nat → T) (count : Nat) (hf : d.Fit count) :
    ∀ (n i : Nat) (out : Nat → Word), i + n = count → ∃ o, tight h f d data n i out = .ok o ∧
      ∀ k, o k = if i ≤ k ∧ k < count then f (out k) (operation h (data (d.index k)) (!d.mask.valid (d.index k))) else out k
  | 0, i, out, hc => ⟨out, rfl, fun k => by rw [if_neg (by omega)]⟩
  | n + 1, i, out, hc => by
    obtain ⟨o, h1, h2⟩ := tight_eq h f d data count hf n (i + 1)
      (put out i (f (out i) (operation h (data (d.index i)) (!d.mask.valid (d.index i))))) (by omega)
    refine ⟨o, ?_, fun k => ?_⟩
    · rw [tight]
      by_cases hn : d.mask.words.isNone
      · rw [if_pos hn, ← h1, none_valid hn]; simp [operation]
      · rw [if_neg hn, valid_at hf (by omega)]; exact h1
    · rw [h2]
      by_cases hk : k = i
      · subst hk; rw [if_neg (by omega), if_pos (by omega)]; simp [put]
      · by_cases hk2 : i ≤ k ∧ k < count
        · rw [if_pos (by omega), if_pos hk2]; simp [put, hk]
        · rw [if_neg (by omega), if_neg hk2]; simp [put, hk]

/-- A fold of steps over different rows. -/
theorem steps_eq (f : Word → Word → Word) (ch : Nat → Word) (len : Nat → Nat) (pos : Nat) : ∀ (l : List Nat) (s : St), l.Nodup →
    l.foldl (step f ch len pos) s =
      ⟨s.rows ++ l.filter (fun r => decide (len r > pos)),
       fun r => if r ∈ l ∧ len r > pos then s.cursor r + 1 else s.cursor r,
       fun r => if r ∈ l then f (s.out r) (ch (s.cursor r)) else s.out r⟩
  | [], s, _ => by simp
  | x :: l, s, hn => by
    rw [List.nodup_cons] at hn
    rw [List.foldl_cons, steps_eq f ch len pos l _ hn.2]
    by_cases hx : len x > pos
    · simp only [step, hx, if_true, St.mk.injEq]
      refine ⟨by simp [hx], funext fun r => ?_, funext fun r => ?_⟩
      · by_cases hr : r = x
        · subst hr; simp [put, hn.1, hx]
        · simp [put, hr]
      · by_cases hr : r = x
        · subst hr; simp [put, hn.1]
        · simp [put, hr]
    · simp only [step, hx, if_false, St.mk.injEq]
      refine ⟨by simp [hx], funext fun r => ?_, funext fun r => ?_⟩
      · by_cases hr : r = x
        · subst hr; simp [hx]
        · simp [hr]
      · by_cases hr : r = x
        · subst hr; simp [put, hn.1]
        · simp [put, hr]

theorem round_eq (f : Word → Word → Word) (ch : Nat → Word) (len : Nat → Nat) (pos : Nat) (s : St) (hn : s.rows.Nodup) :
    round f ch len pos s =
      ⟨s.rows.filter (fun r => decide (len r > pos)),
       fun r => if r ∈ s.rows ∧ len r > pos then s.cursor r + 1 else s.cursor r,
       fun r => if r ∈ s.rows then f (s.out r) (ch (s.cursor r)) else s.out r⟩ := by
  rw [round, steps_eq f ch len pos _ _ hn]; simp

/-- The rounds take in all elements left, in order. -/
theorem rounds_eq (ch : Nat → Word) (len : Nat → Nat) : ∀ (fuel pos : Nat) (s : St), s.rows.Nodup →
    0 < fuel → (∀ r ∈ s.rows, pos ≤ len r ∧ len r < pos + fuel) →
    ∃ o, rounds ch len fuel pos s = .ok o ∧
      ∀ r, o r = if r ∈ s.rows then ((List.range' (s.cursor r) (len r + 1 - pos)).map ch).foldl comb (s.out r) else s.out r
  | 0, _, _, _, h0, _ => absurd h0 (by omega)
  | fuel + 1, pos, s, hn, _, hb => by
    rw [rounds, round_eq comb ch len pos s hn]
    by_cases hk : s.rows.filter (fun r => decide (len r > pos)) = []
    · refine ⟨fun r => if r ∈ s.rows then comb (s.out r) (ch (s.cursor r)) else s.out r, by simp only [hk, if_true], fun r => ?_⟩
      by_cases hr : r ∈ s.rows
      · have hl := hb r hr
        have : ¬ len r > pos := by
          intro hp
          have : r ∈ s.rows.filter (fun r => decide (len r > pos)) := by simp [hr, hp]
          rw [hk] at this; simp at this
        have e : len r + 1 - pos = 1 := by omega
        simp [hr, e]
      · simp [hr]
    · have hf : 0 < fuel := by
        obtain ⟨x, hx⟩ := List.exists_mem_of_ne_nil _ hk
        simp only [List.mem_filter, decide_eq_true_eq] at hx
        have := hb x hx.1
        omega
      obtain ⟨o, h1, h2⟩ := rounds_eq ch len fuel (pos + 1)
        ⟨s.rows.filter (fun r => decide (len r > pos)),
         fun r => if r ∈ s.rows ∧ len r > pos then s.cursor r + 1 else s.cursor r,
         fun r => if r ∈ s.rows then comb (s.out r) (ch (s.cursor r)) else s.out r⟩ (hn.filter _) hf (by
          intro r hr
          simp only [List.mem_filter, decide_eq_true_eq] at hr
          have := hb r hr.1
          omega)
      refine ⟨o, by simp only [hk, if_false]; exact h1, fun r => ?_⟩
      rw [h2]
      by_cases hr : r ∈ s.rows
      · have hl := hb r hr
        by_cases hp : len r > pos
        · have e : len r + 1 - pos = (len r + 1 - (pos + 1)) + 1 := by omega
          simp only [List.mem_filter, hr, hp, decide_true, and_self, if_true]
          rw [e, List.range'_succ]
          simp
        · have e : len r + 1 - pos = 1 := by omega
          simp [hr, hp, e]
      · simp [hr]

/-- The rows that are started. -/
theorem start_eq (first : Bool) (d : Head) (off len : Nat → Nat) (count : Nat) (hf : d.Fit count) :
    ∀ (n i : Nat) (s : St), i + n = count → ∃ s', start first d off len n i s = .ok s' ∧
      s'.rows = s.rows ++ (List.range' i n).filter (fun r => d.mask.valid (d.index r) && decide (0 < len (d.index r))) ∧
      (∀ r, s'.cursor r = if i ≤ r ∧ r < count ∧ d.mask.valid (d.index r) ∧ 0 < len (d.index r) then off (d.index r) else s.cursor r) ∧
      (∀ r, s'.out r = if i ≤ r ∧ r < count ∧ ¬(d.mask.valid (d.index r) ∧ 0 < len (d.index r)) ∧ first then nullHash else s.out r)
  | 0, i, s, hc => ⟨s, rfl, by simp, fun r => by rw [if_neg (by omega)], fun r => by rw [if_neg (by omega)]⟩
  | n + 1, i, s, hc => by
    obtain ⟨s', h1, h2, h3, h4⟩ := start_eq first d off len count hf n (i + 1)
      (if d.mask.valid (d.index i) ∧ 0 < len (d.index i) then
          { s with rows := s.rows ++ [i], cursor := put s.cursor i (off (d.index i)) }
       else if first then { s with out := put s.out i nullHash } else s) (by omega)
    refine ⟨s', ?_, ?_, fun r => ?_, fun r => ?_⟩
    · rw [start, valid_at hf (by omega)]; exact h1
    · rw [h2, List.range'_succ, List.filter_cons]
      by_cases hv : d.mask.valid (d.index i) ∧ 0 < len (d.index i)
      · simp [hv]
      · have hv' : ¬(d.mask.valid (d.index i) && decide (0 < len (d.index i))) = true := by simpa using hv
        rw [if_neg hv, if_neg hv']
        cases first <;> rfl
    · rw [h3]
      by_cases hv : d.mask.valid (d.index i) ∧ 0 < len (d.index i)
      · rw [if_pos hv]
        by_cases hr : r = i
        · subst hr; rw [if_neg (by omega), if_pos ⟨by omega, by omega, hv⟩]; simp [put]
        · have : (i + 1 ≤ r) ↔ (i ≤ r) := by omega
          simp only [this, put, hr, if_false]
      · rw [if_neg hv]
        have e : (if first = true then { s with out := put s.out i nullHash } else s).cursor r = s.cursor r := by
          cases first <;> simp
        rw [e]
        by_cases hr : r = i
        · subst hr; rw [if_neg (by omega), if_neg (fun h => hv h.2.2)]
        · have : (i + 1 ≤ r) ↔ (i ≤ r) := by omega
          simp only [this]
    · rw [h4]
      by_cases hv : d.mask.valid (d.index i) ∧ 0 < len (d.index i)
      · rw [if_pos hv]
        by_cases hr : r = i
        · subst hr; rw [if_neg (by omega), if_neg (fun h => h.2.2.1 hv)]
        · have : (i + 1 ≤ r) ↔ (i ≤ r) := by omega
          simp only [this]
      · rw [if_neg hv]
        by_cases hr : r = i
        · subst hr
          rw [if_neg (by omega)]
          cases first with
          | false => simp
          | true =>
            have hp : r ≤ r ∧ r < count ∧ ¬(d.mask.valid (d.index r) = true ∧ 0 < len (d.index r)) ∧ true = true :=
              ⟨by omega, by omega, hv, rfl⟩
            rw [if_pos hp, if_pos rfl]; simp [put]
        · have : (i + 1 ≤ r) ↔ (i ≤ r) := by omega
          cases first <;> simp [this, put, hr]

theorem le_sum : ∀ (l : List Nat) (x : Nat), x ∈ l → x ≤ l.sum
  | [], _, h => by simp at h
  | y :: l, x, h => by
    simp only [List.mem_cons] at h
    rw [List.sum_cons]
    rcases h with h | h
    · omega
    · have := le_sum l x h; omega

/-- What the loop over lists gives in a row. -/
def listRow (first : Bool) (d : Head) (off len : Nat → Nat) (ch : Nat → Word) (w : Word) (i : Nat) : Word :=
  let es := (List.range' (off (d.index i)) (len (d.index i))).map ch
  if d.mask.valid (d.index i) then
    if first then match es with
      | [] => nullHash
      | e :: es => es.foldl comb e
    else es.foldl comb w
  else if first then nullHash else w

theorem listRows_eq (first : Bool) (d : Head) (off len : Nat → Nat) (ch : Nat → Word) (count : Nat) (out : Nat → Word)
    (hf : d.Fit count) : ∃ o, listRows first d off len ch count (enough d len count) out = .ok o ∧
      ∀ i, i < count → o i = listRow first d off len ch (out i) i := by
  obtain ⟨s, h1, h2, h3, h4⟩ := start_eq first d off len count hf count 0 ⟨[], fun _ => 0, out⟩ (by omega)
  simp only [List.nil_append] at h2
  have hmem : ∀ r, r ∈ s.rows ↔ r < count ∧ d.mask.valid (d.index r) = true ∧ 0 < len (d.index r) := by
    intro r; rw [h2]; simp [List.mem_range'_1]
  have hnd : s.rows.Nodup := by rw [h2]; exact (List.nodup_range' ).filter _
  have hen : ∀ r, r < count → len (d.index r) < enough d len count := by
    intro r hr
    have := le_sum ((List.range count).map fun i => len (d.index i)) (len (d.index r))
      (List.mem_map.2 ⟨r, List.mem_range.2 hr, rfl⟩)
    unfold enough; omega
  have hpos : 0 < enough d len count := by unfold enough; omega
  -- rows without elements
  have hout : ∀ i, i < count → i ∉ s.rows → s.out i = listRow first d off len ch (out i) i := by
    intro i hi hs
    rw [hmem] at hs
    rw [h4]
    simp only [listRow]
    by_cases hv : d.mask.valid (d.index i) = true
    · have hl : len (d.index i) = 0 := by
        by_cases h0 : 0 < len (d.index i)
        · exact absurd ⟨hi, hv, h0⟩ hs
        · omega
      cases first <;> simp [hv, hl, hi]
    · cases first <;> simp [hv, hi]
  have hcur : ∀ i, i ∈ s.rows → s.cursor i = off (d.index i) := by
    intro i hi
    rw [h3, if_pos ⟨by omega, (hmem i).1 hi⟩]
  have hold : ∀ i, i ∈ s.rows → s.out i = out i := by
    intro i hi
    rw [h4, if_neg (fun h => h.2.2.1 ((hmem i).1 hi).2)]
  rw [listRows, h1]
  simp only [Res.bind]
  by_cases he : s.rows = []
  · exact ⟨s.out, by simp [he], fun i hi => hout i hi (by simp [he])⟩
  · rw [if_neg he]
    cases first with
    | false =>
      obtain ⟨o, g1, g2⟩ := rounds_eq ch (fun r => len (d.index r)) (enough d len count) 1 s hnd hpos (by
        intro r hr
        have hm := (hmem r).1 hr
        have := hen r hm.1
        omega)
      refine ⟨o, by simpa using g1, fun i hi => ?_⟩
      rw [g2]
      by_cases hs : i ∈ s.rows
      · rw [if_pos hs, hcur i hs, hold i hs]
        simp [listRow, ((hmem i).1 hs).2.1]
      · rw [if_neg hs]; exact hout i hi hs
    | true =>
      rw [if_pos rfl, round_eq _ ch _ 1 s hnd]
      by_cases hk : s.rows.filter (fun r => decide (len (d.index r) > 1)) = []
      · refine ⟨fun r => if r ∈ s.rows then ch (s.cursor r) else s.out r, by simp only [hk, if_true], fun i hi => ?_⟩
        by_cases hs : i ∈ s.rows
        · have hm := (hmem i).1 hs
          have : ¬ len (d.index i) > 1 := by
            intro hp
            have : i ∈ s.rows.filter (fun r => decide (len (d.index r) > 1)) := by simp [hs, hp]
            rw [hk] at this; simp at this
          have e : len (d.index i) = 1 := by omega
          simp [hs, listRow, hm.2.1, e, hcur i hs]
        · simp only [hs, if_false]; exact hout i hi hs
      · simp only [hk, if_false]
        obtain ⟨o, g1, g2⟩ := rounds_eq ch (fun r => len (d.index r)) (enough d len count) 2
          ⟨s.rows.filter (fun r => decide (len (d.index r) > 1)),
           fun r => if r ∈ s.rows ∧ len (d.index r) > 1 then s.cursor r + 1 else s.cursor r,
           fun r => if r ∈ s.rows then ch (s.cursor r) else s.out r⟩ (hnd.filter _) hpos (by
            intro r hr
            simp only [List.mem_filter, decide_eq_true_eq] at hr
            have hm := (hmem r).1 hr.1
            have := hen r hm.1
            omega)
        refine ⟨o, g1, fun i hi => ?_⟩
        rw [g2]
        by_cases hs : i ∈ s.rows
        · have hm := (hmem i).1 hs
          by_cases hp : len (d.index i) > 1
          · have e : len (d.index i) = (len (d.index i) + 1 - 2) + 1 := by omega
            simp only [List.mem_filter, hs, hp, decide_true, and_self, if_true, listRow, hm.2.1, hcur i hs]
            rw [e, List.range'_succ]
            simp
          · have e : len (d.index i) = 1 := by omega
            simp [hs, listRow, hm.2.1, e, hcur i hs]
        · simp only [List.mem_filter, hs, false_and, if_false]; exact hout i hi hs

theorem flatten_row (s : Hashes) (count : Nat) {i : Nat} (hi : i < count) : (s.flatten count).at_ i = s.row i := by
  cases hc : s.const <;> simp [Hashes.flatten, Hashes.row, hc, hi]

/-- What hashing a column gives in a row. -/
def colRow {T : Type} (h : T → Word) (first : Bool) (w : Word) (c : Cell T) : Word :=
  if first then cellHash h c else combCell h w c

theorem op_eq {T : Type} (h : T → Word) (d : Head) (data : Nat → T) (first : Bool) (w : Word) (i : Nat) :
    (if first then operation h (data (d.index i)) (!d.mask.valid (d.index i))
      else comb w (operation h (data (d.index i)) (!d.mask.valid (d.index i)))) =
    colRow h first w ((Col.simple d data).cell i) := by
  have hp : d.place i = d.index i := rfl
  cases first <;> cases hv : d.mask.valid (d.index i) <;> simp [colRow, Col.cell, hp, hv, operation, cellHash, combCell]

theorem simple_eq {T : Type} (h : T → Word) (first : Bool) (d : Head) (data : Nat → T) (s : Hashes) (count : Nat) (hf : d.Fit count) :
    ∃ u, hashCol h first (.simple d data) s count = .ok u ∧
      ∀ i, i < count → u.row i = colRow h first (s.row i) ((Col.simple d data).cell i) := by
  have hconst : d.kind = .constant → ∀ i, d.index i = 0 := fun hk i => by simp [Head.index, hk]
  have hv0 : d.kind = .constant → rowIsValid d.mask 0 = .ok (d.mask.valid 0) := fun hk =>
    rowIsValid_spec d.mask hf.1 0 (by simpa using hf.2.1 hk)
  cases first with
  | true =>
    simp only [hashCol, if_true]
    by_cases hk : d.kind = .constant
    · refine ⟨⟨true, put s.at_ 0 (operation h (data 0) (!d.mask.valid 0))⟩, by simp only [simpleHash, hk, hv0 hk, Res.bind],
        fun i _ => ?_⟩
      rw [← op_eq, hconst hk]; simp [Hashes.row, put]
    · obtain ⟨o, h1, h2⟩ := tight_eq h (fun _ x => x) d data count hf count 0 s.at_ (by omega)
      refine ⟨⟨false, o⟩, ?_, fun i hi => ?_⟩
      · unfold simpleHash
        split
        · contradiction
        · rw [h1]; rfl
      · rw [← op_eq]
        simp only [Hashes.row]
        simp [h2, hi]
  | false =>
    simp only [hashCol, simpleCombine]
    by_cases hk : d.kind = .constant ∧ s.const = true
    · refine ⟨⟨true, put s.at_ 0 (comb (s.at_ 0) (operation h (data 0) (!d.mask.valid 0)))⟩, by simp only [hk.1, hk.2, hv0 hk.1, Res.bind, and_self, if_true, if_false, Bool.false_eq_true], fun i _ => ?_⟩
      rw [← op_eq, hconst hk.1]; simp [Hashes.row, put, hk.2]
    · by_cases hs : s.const = true
      · obtain ⟨o, h1, h2⟩ := tight_eq h (fun _ x => comb (s.at_ 0) x) d data count hf count 0 s.at_ (by omega)
        refine ⟨⟨false, o⟩, ?_, fun i hi => ?_⟩
        · rw [if_neg (by simp), if_neg hk, if_pos hs, h1]; rfl
        · rw [← op_eq]; simp [Hashes.row, h2, hi, hs]
      · obtain ⟨o, h1, h2⟩ := tight_eq h comb d data count hf count 0 s.at_ (by omega)
        refine ⟨⟨false, o⟩, ?_, fun i hi => ?_⟩
        · rw [if_neg (by simp), if_neg hk, if_neg hs, h1]; rfl
        · rw [← op_eq]; simp [Hashes.row, h2, hi, hs]

/-- The hash of a column in a row depends on the cell, and on the hash so far, alone. -/
theorem hashCol_eq {T : Type} (h : T → Word) : ∀ (c : Col T) (first : Bool) (s : Hashes) (count : Nat), c.Fit count → c.Known →
    ∃ u, hashCol h first c s count = .ok u ∧ ∀ i, i < count → u.row i = colRow h first (s.row i) (c.cell i)
  | .simple d data, first, s, count, hf, _ => simple_eq h first d data s count hf
  | .list d off len child size, first, s, count, hf, hk => by
    obtain ⟨hd, hin, hc⟩ := hf
    have hch : ∃ ch : Nat → Word, (if 0 < size then (hashCol h true child ⟨false, fun _ => 0#64⟩ size).bind fun c =>
        .ok (c.flatten size).at_ else (.ok fun _ => 0#64 : Res (Nat → Word))) = .ok ch ∧
        ∀ i, i < size → ch i = cellHash h (child.cell i) := by
      by_cases h0 : 0 < size
      · obtain ⟨u, h1, h2⟩ := hashCol_eq h child true ⟨false, fun _ => 0#64⟩ size hc (hk h0)
        refine ⟨(u.flatten size).at_, by rw [if_pos h0, h1]; rfl, fun i hi => ?_⟩
        rw [flatten_row u size hi, h2 i hi]; rfl
      · exact ⟨fun _ => 0#64, by rw [if_neg h0], fun i hi => absurd hi (by omega)⟩
    obtain ⟨ch, g1, g2⟩ := hch
    obtain ⟨o, e1, e2⟩ := listRows_eq first d off len ch count (s.flatten count).at_ hd
    refine ⟨⟨false, o⟩, by rw [hashCol, g1]; simp only [Res.bind, e1], fun i hi => ?_⟩
    have : (⟨false, o⟩ : Hashes).row i = o i := by simp [Hashes.row]
    rw [this, e2 i hi, flatten_row s count hi]
    have hp : d.place i = d.index i := rfl
    simp only [listRow, Col.cell, hp]
    by_cases hv : d.mask.valid (d.index i) = true
    · have hb := hin i hi hv
      rw [hp] at hb
      have hes : (List.range' (off (d.index i)) (len (d.index i))).map ch =
          cellHashes h ((List.range (len (d.index i))).map fun j => child.cell (off (d.index i) + j)) := by
        rw [cellHashes_eq, List.map_map]
        refine List.ext_getElem (by simp) fun k k1 k2 => ?_
        simp only [List.length_map, List.length_range'] at k1
        simp only [List.getElem_map, List.getElem_range', List.getElem_range, Function.comp]
        rw [g2 _ (by omega)]
        simp
      cases first with
      | true => simp only [hv, if_true, colRow, cellHash, hes]
      | false => simp [hv, colRow, combCell, hes]
    · cases first <;> simp [hv, colRow, combCell, cellHash]
  | .other, _, _, _, _, hk => absurd hk (by simp [Col.Known])

theorem hashRest_eq {T : Type} (h : T → Word) (count : Nat) : ∀ (cs : List (Col T)) (s : Hashes), (∀ c ∈ cs, c.Fit count) →
    (∀ c ∈ cs, c.Known) → ∃ u, hashRest h cs s count = .ok u ∧
      ∀ i, i < count → u.row i = (cs.map fun c => c.cell i).foldl (combCell h) (s.row i)
  | [], s, _, _ => ⟨s, rfl, fun _ _ => rfl⟩
  | c :: cs, s, hf, hk => by
    obtain ⟨u, h1, h2⟩ := hashCol_eq h c false s count (hf c (by simp)) (hk c (by simp))
    obtain ⟨v, h3, h4⟩ := hashRest_eq h count cs u (fun c hc => hf c (by simp [hc])) (fun c hc => hk c (by simp [hc]))
    refine ⟨v, by rw [hashRest, h1]; exact h3, fun i hi => ?_⟩
    rw [h4 i hi, h2 i hi]; simp [colRow]

theorem hashChunk_eq {T : Type} (h : T → Word) (count : Nat) (c : Col T) (cs : List (Col T)) (s : Hashes)
    (hf : ∀ x ∈ c :: cs, x.Fit count) (hk : ∀ x ∈ c :: cs, x.Known) :
    ∃ u, hashChunk h (c :: cs) s count = .ok u ∧
      ∀ i, i < count → u.row i = (cs.map fun c => c.cell i).foldl (combCell h) (cellHash h (c.cell i)) := by
  obtain ⟨u, h1, h2⟩ := hashCol_eq h c true s count (hf c (by simp)) (hk c (by simp))
  obtain ⟨v, h3, h4⟩ := hashRest_eq h count cs u (fun c hc => hf c (by simp [hc])) (fun c hc => hk c (by simp [hc]))
  refine ⟨v, by rw [hashChunk, h1]; exact h3, fun i hi => ?_⟩
  rw [h4 i hi, h2 i hi]; simp [colRow]

theorem fold_same {T : Type} {eq : T → T → Prop} {h : T → Word} (he : ∀ x y, eq x y → h x = h y) :
    ∀ (xs ys : List (Cell T)) (w : Word), xs.length = ys.length →
      (∀ (k : Nat) (hx : k < xs.length) (hy : k < ys.length), Cell.Same eq xs[k] ys[k]) →
      xs.foldl (combCell h) w = ys.foldl (combCell h) w
  | [], [], _, _, _ => rfl
  | [], _ :: _, _, hl, _ => by simp at hl
  | _ :: _, [], _, hl, _ => by simp at hl
  | x :: xs, y :: ys, w, hl, hs => by
    have h0 : Cell.Same eq x y := hs 0 (by simp) (by simp)
    rw [List.foldl_cons, List.foldl_cons, (same_hash he h0).2 w]
    exact fold_same he xs ys _ (by simpa using hl) fun k hx hy => hs (k + 1) (by simpa using hx) (by simpa using hy)

/-- **C117**, if all types in the columns have a hash: every row has one, and rows with the same cells have the same, whether their
columns are flat, constant or dictionaries, with null masks or without, and whatever was in the vectors of hashes before. -/
theorem C117_hash_partial {T : Type} (eq : T → T → Prop) (h : T → Word) (he : ∀ x y, eq x y → h x = h y)
    (a b : List (Col T)) (n m : Nat) (s t : Hashes) (hne : a ≠ []) (hl : a.length = b.length)
    (hfa : ∀ c ∈ a, c.Fit n) (hfb : ∀ c ∈ b, c.Fit m) (hka : ∀ c ∈ a, c.Known) (hkb : ∀ c ∈ b, c.Known) :
    ∃ u v, hashChunk h a s n = .ok u ∧ hashChunk h b t m = .ok v ∧
      ∀ i j, i < n → j < m → (∀ (k : Nat) (ha : k < a.length) (hb : k < b.length), Cell.Same eq (a[k].cell i) (b[k].cell j)) →
        u.row i = v.row j := by
  match a, b, hne, hl with
  | x :: xs, y :: ys, _, hl =>
    obtain ⟨u, h1, h2⟩ := hashChunk_eq h n x xs s hfa hka
    obtain ⟨v, h3, h4⟩ := hashChunk_eq h m y ys t hfb hkb
    refine ⟨u, v, h1, h3, fun i j hi hj hs => ?_⟩
    have h0 : Cell.Same eq (x.cell i) (y.cell j) := hs 0 (by simp) (by simp)
    rw [h2 i hi, h4 j hj, (same_hash he h0).1]
    refine fold_same he _ _ _ (by simpa using hl) fun k hx hy => ?_
    simp only [List.getElem_map]
    exact hs (k + 1) (by simpa using hx) (by simpa using hy)

/-- The factor is odd, so nothing is lost by it. -/
theorem comb_inj {a b w : Word} (h : comb a w = comb b w) : a = b := by
  have h1 : ∀ x : Word, ((x * 0xbf58476d1ce4e5b9#64) ^^^ w) ^^^ w = x * 0xbf58476d1ce4e5b9#64 := fun x => by
    rw [BitVec.xor_assoc, BitVec.xor_self, BitVec.xor_zero]
  have h2 : a * 0xbf58476d1ce4e5b9#64 = b * 0xbf58476d1ce4e5b9#64 := by
    rw [← h1 a, ← h1 b]; exact congrArg (· ^^^ w) h
  have h3 : ∀ x : Word, x * 0xbf58476d1ce4e5b9#64 * 0x96de1b173f119089#64 = x := fun x => by
    rw [BitVec.mul_assoc, show (0xbf58476d1ce4e5b9#64 * 0x96de1b173f119089#64 : Word) = 1#64 by decide, BitVec.mul_one]
  rw [← h3 a, h2, h3]

theorem comb_inj_right {a u v : Word} (h : comb a u = comb a v) : u = v := by
  unfold comb at h
  have h1 : ∀ x c : Word, c ^^^ (c ^^^ x) = x := fun x c => by
    rw [← BitVec.xor_assoc, BitVec.xor_self, BitVec.zero_xor]
  rw [← h1 u (a * 0xbf58476d1ce4e5b9#64), h, h1]

theorem foldl_comb_inj : ∀ (ws : List Word) (a b : Word), ws.foldl comb a = ws.foldl comb b → a = b
  | [], _, _, h => h
  | _ :: ws, _, _, h => comb_inj (foldl_comb_inj ws _ _ h)

theorem combCell_inj {T : Type} (h : T → Word) : ∀ (c : Cell T) (a b : Word), combCell h a c = combCell h b c → a = b
  | .null, _, _, hh => comb_inj hh
  | .val _, _, _, hh => comb_inj hh
  | .nullList, _, _, hh => hh
  | .list _, _, _, hh => foldl_comb_inj _ _ _ hh

theorem fold_inj {T : Type} (h : T → Word) : ∀ (cs : List (Cell T)) (a b : Word),
    cs.foldl (combCell h) a = cs.foldl (combCell h) b → a = b
  | [], _, _, hh => hh
  | c :: cs, _, _, hh => combCell_inj h c _ _ (fold_inj h cs _ _ hh)

theorem simple_differs {T : Type} (h : T → Word) {o p : Option T} (hne : o.elim nullHash h ≠ p.elim nullHash h) :
    cellHash h (.simple o) ≠ cellHash h (.simple p) ∧ ∀ w, combCell h w (.simple o) ≠ combCell h w (.simple p) := by
  cases o <;> cases p <;> exact ⟨hne, fun w hh => hne (comb_inj_right hh)⟩

theorem fold_differs {T : Type} {eq : T → T → Prop} {h : T → Word} (he : ∀ x y, eq x y → h x = h y) {o p : Option T}
    (hne : o.elim nullHash h ≠ p.elim nullHash h) :
    ∀ (xs ys : List (Cell T)) (k : Nat) (w : Word), xs.length = ys.length → xs[k]? = some (.simple o) → ys[k]? = some (.simple p) →
      (∀ (q : Nat) (hx : q < xs.length) (hy : q < ys.length), q ≠ k → Cell.Same eq xs[q] ys[q]) →
      xs.foldl (combCell h) w ≠ ys.foldl (combCell h) w
  | [], _, _, _, _, h1, _, _ => by simp at h1
  | _ :: _, [], _, _, hl, _, _, _ => by simp at hl
  | x :: xs, y :: ys, 0, w, hl, h1, h2, hs => by
    simp only [List.getElem?_cons_zero, Option.some.injEq] at h1 h2
    subst h1 h2
    rw [List.foldl_cons, List.foldl_cons, fold_same he xs ys _ (by simpa using hl) fun q hx hy =>
      hs (q + 1) (by simpa using hx) (by simpa using hy) (by omega)]
    exact fun hh => (simple_differs h hne).2 w (fold_inj h ys _ _ hh)
  | x :: xs, y :: ys, k + 1, w, hl, h1, h2, hs => by
    have h0 : Cell.Same eq x y := hs 0 (by simp) (by simp) (by omega)
    rw [List.foldl_cons, List.foldl_cons, (same_hash he h0).2 w]
    exact fold_differs he hne xs ys k _ (by simpa using hl) (by simpa using h1) (by simpa using h2) fun q hx hy hq =>
      hs (q + 1) (by simpa using hx) (by simpa using hy) (by omega)

/-- Every column counts: rows with the same cells but for one of a simple type, whose hashes are different, have different hashes. -/
theorem C117_differs {T : Type} (eq : T → T → Prop) (h : T → Word) (he : ∀ x y, eq x y → h x = h y)
    (a b : List (Col T)) (n m : Nat) (s t u v : Hashes) (hl : a.length = b.length)
    (hfa : ∀ c ∈ a, c.Fit n) (hfb : ∀ c ∈ b, c.Fit m) (hka : ∀ c ∈ a, c.Known) (hkb : ∀ c ∈ b, c.Known)
    (hu : hashChunk h a s n = .ok u) (hv : hashChunk h b t m = .ok v) (i j : Nat) (hi : i < n) (hj : j < m)
    (k : Nat) (ha : k < a.length) (hb : k < b.length) (o p : Option T) (ho : a[k].cell i = .simple o) (hp : b[k].cell j = .simple p)
    (hne : o.elim nullHash h ≠ p.elim nullHash h)
    (hs : ∀ (q : Nat) (ha : q < a.length) (hb : q < b.length), q ≠ k → Cell.Same eq (a[q].cell i) (b[q].cell j)) :
    u.row i ≠ v.row j := by
  match a, b, hl with
  | [], _, _ => simp at ha
  | x :: xs, y :: ys, hl =>
    obtain ⟨u', h1, h2⟩ := hashChunk_eq h n x xs s hfa hka
    obtain ⟨v', h3, h4⟩ := hashChunk_eq h m y ys t hfb hkb
    rw [hu] at h1; rw [hv] at h3
    cases h1; cases h3
    rw [h2 i hi, h4 j hj]
    match k, ha, hb, ho, hp, hs with
    | 0, _, _, ho, hp, hs =>
      simp only [List.getElem_cons_zero] at ho hp
      rw [ho, hp, fold_same he (xs.map fun c => c.cell i) (ys.map fun c => c.cell j) _ (by simpa using hl) fun q hx hy => by
        simp only [List.getElem_map]
        exact hs (q + 1) (by simpa using hx) (by simpa using hy) (by omega)]
      exact fun hh => (simple_differs h hne).1 (fold_inj h _ _ _ hh)
    | k + 1, ha, hb, ho, hp, hs =>
      have h0 : Cell.Same eq (x.cell i) (y.cell j) := hs 0 (by simp) (by simp) (by omega)
      rw [(same_hash he h0).1]
      have ha' : k < xs.length := by simpa using ha
      have hb' : k < ys.length := by simpa using hb
      refine fold_differs he hne _ _ k _ (by simpa using hl) (by simpa [ha'] using ho) (by simpa [hb'] using hp) fun q hx hy hq => ?_
      simp only [List.getElem_map]
      exact hs (q + 1) (by simpa using hx) (by simpa using hy) (by omega)

/-- The hash of a row of one cell is the hash of its value: the one of `std::hash`. -/
theorem C117_value {T : Type} (h : T → Word) (d : Head) (data : Nat → T) (s : Hashes) (n : Nat) (hf : d.Fit n) :
    ∃ u, hashChunk h [.simple d data] s n = .ok u ∧ ∀ i x, i < n → (Col.simple d data).cell i = .val x → u.row i = h x := by
  obtain ⟨u, h1, h2⟩ := hashChunk_eq h n (.simple d data) [] s (by simpa [Col.Fit] using hf) (by simp [Col.Known])
  exact ⟨u, h1, fun i x hi hx => by rw [h2 i hi, hx]; rfl⟩

/-- A chunk without columns: the first is read all the same. -/
theorem C117_no_columns_is_ub {T : Type} (h : T → Word) (s : Hashes) (n : Nat) : hashChunk h [] s n = .ub := rfl

/-- A column of a type without a hash, after any others: an exception. -/
theorem C117_type_throws {T : Type} (h : T → Word) (s : Hashes) (n : Nat) (a b : List (Col T)) (hf : ∀ c ∈ a, c.Fit n)
    (hk : ∀ c ∈ a, c.Known) : hashChunk h (a ++ .other :: b) s n = .throws := by
  match a with
  | [] => rfl
  | x :: xs =>
    obtain ⟨u, h1, _⟩ := hashCol_eq h x true s n (hf x (by simp)) (hk x (by simp))
    have hr : ∀ (cs : List (Col T)) (u : Hashes), (∀ c ∈ cs, c.Fit n) → (∀ c ∈ cs, c.Known) →
        hashRest h (cs ++ .other :: b) u n = .throws := by
      intro cs
      induction cs with
      | nil => intro u _ _; rfl
      | cons c cs ih =>
        intro u hf hk
        obtain ⟨v, g1, _⟩ := hashCol_eq h c false u n (hf c (by simp)) (hk c (by simp))
        rw [List.cons_append, hashRest, g1]
        exact ih v (fun c hc => hf c (by simp [hc])) (fun c hc => hk c (by simp [hc]))
    rw [List.cons_append, hashChunk, h1]
    exact hr xs u (fun c hc => hf c (by simp [hc])) (fun c hc => hk c (by simp [hc]))

/-- **C117** in full does not hold. -/
theorem C117_fails : ¬ C117_hash_claim := by
  intro hc
  obtain ⟨u, v, h1, _⟩ := hc Nat (· = ·) (fun _ => 0#64) (fun _ _ _ => rfl) [.other] [.other] 0 0 ⟨false, fun _ => 0#64⟩
    ⟨false, fun _ => 0#64⟩ (by simp) rfl (by simp [Col.Fit]) (by simp [Col.Fit])
  have : hashChunk (fun _ => 0#64) [(.other : Col Nat)] ⟨false, fun _ => 0#64⟩ 0 = .throws := rfl
  rw [this] at h1; cases h1

/-! A concrete case: a list stored flat and the same list in a constant, next to a value of a dictionary and a flat one. -/

def hd (k : Kind) (sel : Nat → Nat) : Head := ⟨k, ⟨some [7#64], 1⟩, sel⟩
def ex1 : List (Col Nat) :=
  [.list (hd .flat id) (fun i => 2 * i) (fun _ => 2) (.simple (hd .flat id) fun i => i) 6, .simple (hd .dictionary fun i => 2 - i) fun i => i]
def ex2 : List (Col Nat) :=
  [.list (hd .constant id) (fun _ => 0) (fun _ => 2) (.simple (hd .flat id) fun i => i) 2, .simple (hd .flat id) fun _ => 2]

example : (∀ c ∈ ex1, c.Fit 3) ∧ (∀ c ∈ ex2, c.Fit 3) ∧ (∀ c ∈ ex1, c.Known) ∧ (∀ c ∈ ex2, c.Known) := by
  have hw : ∀ k sel, (hd k sel).mask.WF := by intro k sel ws h; cases h; rfl
  refine ⟨?_, ?_, by simp [ex1, Col.Known], by simp [ex2, Col.Known]⟩ <;>
  · simp only [ex1, ex2, List.forall_mem_cons, Col.Fit, Head.Fit, hw, true_and]
    simp [hd, Head.place]
    refine ⟨?_, fun i hi => by omega⟩
    first | exact fun i hi => by omega | exact ⟨fun i hi => by omega, fun i hi _ => by omega, fun i hi => by omega⟩

/-- The masks above have null rows too: row 3 of the elements. -/
example : (hd .flat id).mask.valid 3 = false ∧ (hd .flat id).mask.valid 2 = true := by decide

example : ∀ (k : Nat) (ha : k < ex1.length) (hb : k < ex2.length), Cell.Same (· = ·) (ex1[k].cell 0) (ex2[k].cell 1) := by
  intro k ha hb
  have h2 : k < 2 := ha
  match k, h2 with
  | 0, _ =>
    refine Cell.Same.list (xs := [.val 0, .val 1]) (ys := [.val 0, .val 1]) rfl fun i hx hy => ?_
    have h2 : i < 2 := hx
    match i, h2 with
    | 0, _ => exact .val rfl
    | 1, _ => exact .val rfl
  | 1, _ => exact Cell.Same.val rfl

/-- For `C117_differs`: rows 0 and 1 of the second chunk's second column against the first's. -/
example : (ex1[1].cell 0 = .simple (some 2)) ∧ (ex1[1].cell 1 = .simple (some 1)) ∧
    (some 2).elim nullHash (fun x : Nat => BitVec.ofNat 64 x) ≠ (some 1).elim nullHash (fun x : Nat => BitVec.ofNat 64 x) :=
  ⟨rfl, rfl, by decide⟩

end Verif.VecHash
