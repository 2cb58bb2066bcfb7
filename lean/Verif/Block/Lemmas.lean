import Verif.Block.Spec
import Mathlib.Data.Finset.Insert
import Mathlib.Tactic.Common
/-!
Helper lemmas for the page model: byte moves, key ranges, the page invariant, `append`, `remove`.
-/
namespace Verif.Block
variable {K : Type} [LinearOrder K]

set_option linter.unusedSectionVars false

theorem mem_takeWhile_imp {α : Type} {p : α → Bool} {a : α} : ∀ {l : List α}, a ∈ l.takeWhile p → p a = true := by
  intro l
  induction l with
  | nil => intro h; cases h
  | cons b l ih =>
    intro h
    rw [List.takeWhile_cons] at h
    split at h
    · next hb =>
      rcases List.mem_cons.mp h with h | h
      · rw [h]; exact hb
      · exact ih h
    · cases h

/-! ### bytes -/

@[simp] theorem slice_length (mem : Mem) (off n : Nat) : (slice mem off n).length = n := by simp [slice]

theorem slice_congr {mem mem' : Mem} {off off' n : Nat} (h : ∀ i < n, mem (off + i) = mem' (off' + i)) :
    slice mem off n = slice mem' off' n := by
  unfold slice
  refine List.map_congr_left ?_
  intro i hi
  exact h i (List.mem_range.mp hi)

theorem slice_write_self (mem : Mem) (off : Nat) (x : Bytes) : slice (write mem off x) off x.length = x := by
  refine List.ext_getElem (by simp) ?_
  intro i h1 h2
  simp only [slice, List.getElem_map, List.getElem_range, write]
  rw [dif_pos (by omega)]
  simp

theorem write_other {mem : Mem} {off : Nat} {x : Bytes} {y : Nat} (h : y < off ∨ off + x.length ≤ y) :
    write mem off x y = mem y := by
  unfold write; rw [dif_neg (by omega)]

theorem slice_write_other {mem : Mem} {off a n : Nat} {x : Bytes} (h : a + n ≤ off) :
    slice (write mem off x) a n = slice mem a n :=
  slice_congr fun i hi => write_other (Or.inl (by omega))

theorem hit_iff {b : Block K} {x : Bytes} {m : Meta K} : hit b x m = true ↔ item b m = x := by
  unfold hit item
  simp only [Bool.and_eq_true, beq_iff_eq]
  constructor
  · exact fun h => h.2
  · intro h; exact ⟨by rw [← h]; simp, h⟩

/-! ### key ranges -/

/-- By descending key. -/
def SortedM (ms : List (Meta K)) : Prop := ms.Pairwise fun m n => n.key ≤ m.key

theorem metas_split (b : Block K) (k : K) : b.metas = before b k ++ (range b k ++ after b k) := by
  unfold before range after fromBegin
  rw [List.takeWhile_append_dropWhile, List.takeWhile_append_dropWhile]

theorem fromBegin_eq (b : Block K) (k : K) : fromBegin b k = range b k ++ after b k := by
  unfold range after; rw [List.takeWhile_append_dropWhile]

theorem before_gt {b : Block K} {k : K} {m : Meta K} (h : m ∈ before b k) : k < m.key := by
  have := mem_takeWhile_imp h
  simpa using this

theorem fromBegin_le {b : Block K} (hs : SortedM b.metas) {k : K} {m : Meta K} (h : m ∈ fromBegin b k) : m.key ≤ k := by
  unfold fromBegin at h
  have key : ∀ (l : List (Meta K)), SortedM l → m ∈ l.dropWhile (fun m => decide (k < m.key)) → m.key ≤ k := by
    intro l
    induction l with
    | nil => intro _ h; cases h
    | cons a l ih =>
      intro hs h
      obtain ⟨h1, h2⟩ := List.pairwise_cons.mp hs
      rw [List.dropWhile_cons] at h
      split at h
      · exact ih h2 h
      · next hn =>
        have ha : a.key ≤ k := by simpa using hn
        rcases List.mem_cons.mp h with h | h
        · subst h; exact ha
        · exact le_trans (h1 m h) ha
  exact key _ hs h

theorem range_key {b : Block K} (hs : SortedM b.metas) {k : K} {m : Meta K} (h : m ∈ range b k) : m.key = k := by
  have h1 : k ≤ m.key := by simpa using mem_takeWhile_imp h
  have h2 : m.key ≤ k := fromBegin_le hs (by rw [fromBegin_eq]; exact List.mem_append_left _ h)
  exact le_antisymm h2 h1

theorem after_lt {b : Block K} (hs : SortedM b.metas) {k : K} {m : Meta K} (h : m ∈ after b k) : m.key < k := by
  have hs' : SortedM (fromBegin b k) := by
    unfold fromBegin
    exact hs.sublist (List.dropWhile_sublist _)
  have key : ∀ (l : List (Meta K)), SortedM l → m ∈ l.dropWhile (fun m => decide (k ≤ m.key)) → m.key < k := by
    intro l
    induction l with
    | nil => intro _ h; cases h
    | cons a l ih =>
      intro hs h
      obtain ⟨h1, h2⟩ := List.pairwise_cons.mp hs
      rw [List.dropWhile_cons] at h
      split at h
      · exact ih h2 h
      · next hn =>
        have ha : a.key < k := by simpa using hn
        rcases List.mem_cons.mp h with h | h
        · subst h; exact ha
        · exact lt_of_le_of_lt (h1 m h) ha
  exact key _ hs' h

theorem mem_range_iff {b : Block K} (hs : SortedM b.metas) {k : K} {m : Meta K} :
    m ∈ range b k ↔ m ∈ b.metas ∧ m.key = k := by
  constructor
  · intro h
    exact ⟨by rw [metas_split b k]; simp [h], range_key hs h⟩
  · rintro ⟨h, hk⟩
    rw [metas_split b k] at h
    rcases List.mem_append.mp h with h | h
    · have := before_gt h; rw [hk] at this; exact absurd this (lt_irrefl _)
    · rcases List.mem_append.mp h with h | h
      · exact h
      · have := after_lt hs h; rw [hk] at this; exact absurd this (lt_irrefl _)

theorem mem_entries {b : Block K} {e : K × Bytes} : e ∈ entries b ↔ ∃ m ∈ b.metas, m.key = e.1 ∧ item b m = e.2 := by
  unfold entries
  rw [List.mem_map]
  constructor
  · rintro ⟨m, hm, rfl⟩; exact ⟨m, hm, rfl, rfl⟩
  · rintro ⟨m, hm, h1, h2⟩; exact ⟨m, hm, by rw [h1, h2]⟩

theorem contains_iff {b : Block K} (hs : SortedM b.metas) {k : K} {x : Bytes} :
    (range b k).any (hit b x) = true ↔ (k, x) ∈ entries b := by
  rw [List.any_eq_true, mem_entries]
  constructor
  · rintro ⟨m, hm, hh⟩
    obtain ⟨h1, h2⟩ := (mem_range_iff hs).mp hm
    exact ⟨m, h1, h2, hit_iff.mp hh⟩
  · rintro ⟨m, hm, h1, h2⟩
    exact ⟨m, (mem_range_iff hs).mpr ⟨hm, h1⟩, hit_iff.mpr h2⟩

theorem range_nil_iff {b : Block K} (hs : SortedM b.metas) {k : K} : range b k = [] ↔ k ∉ b.metas.map (·.key) := by
  constructor
  · intro h hm
    obtain ⟨m, hm', rfl⟩ := List.mem_map.mp hm
    have := (mem_range_iff hs).mpr ⟨hm', rfl⟩
    rw [h] at this; cases this
  · intro h
    by_contra hne
    obtain ⟨m, hm⟩ := List.exists_mem_of_ne_nil _ hne
    obtain ⟨h1, h2⟩ := (mem_range_iff hs).mp hm
    exact h (List.mem_map.mpr ⟨m, h1, h2⟩)

/-! ### the invariant -/

/-- Number of different keys. -/
def distinctKeys (ms : List (Meta K)) : Nat := (ms.map (·.key)).toFinset.card

/-- What holds of a page between calls. -/
structure Inv (b : Block K) : Prop where
  cnt : b.count = b.metas.length
  unq : b.uniq = distinctKeys b.metas
  sorted : SortedM b.metas
  pos : ∀ m ∈ b.metas, 0 < m.size
  lo : ∀ m ∈ b.metas, HSZ ≤ m.off
  hi : ∀ m ∈ b.metas, m.off + m.size ≤ b.buf
  disj : b.metas.Pairwise fun m n => m.off + m.size ≤ n.off ∨ n.off + n.size ≤ m.off
  sum : HSZ + (b.metas.map (·.size)).sum = b.buf
  room : b.avail + b.buf + MSZ * b.count = b.full
  nodup : (entries b).Nodup

theorem empty_inv {full : Nat} (h : HSZ ≤ full) : Inv (empty full : Block K) := by
  refine ⟨rfl, rfl, List.Pairwise.nil, ?_, ?_, ?_, List.Pairwise.nil, rfl, ?_, List.nodup_nil⟩
  · intro m hm; cases hm
  · intro m hm; cases hm
  · intro m hm; cases hm
  · simp only [empty]; omega

theorem used_eq (b : Block K) : used (entries b) = (b.metas.map (·.size)).sum + 24 * b.metas.length := by
  unfold used entries
  rw [List.map_map]
  induction b.metas with
  | nil => rfl
  | cons m ms ih =>
    simp only [List.map_cons, List.sum_cons, List.length_cons, Function.comp_apply] at ih ⊢
    rw [ih]
    simp only [item, slice_length]
    omega

theorem memOk_iff {b : Block K} (h : Inv b) (n : Nat) : memOk b n = true ↔ 16 + used (entries b) + n + 24 ≤ b.full := by
  have h1 := h.sum; have h2 := h.room; have h3 := h.cnt
  rw [used_eq]
  unfold memOk
  rw [decide_eq_true_eq]
  unfold MSZ HSZ at *
  omega

/-! ### append -/

/-- The page after a successful append. -/
def appended (b : Block K) (k : K) (x : Bytes) : Block K :=
  { b with
    mem := write b.mem b.buf x
    buf := b.buf + x.length
    avail := b.avail - (x.length + MSZ)
    metas := before b k ++ ⟨b.buf, x.length, k⟩ :: fromBegin b k
    count := b.count + 1
    uniq := b.uniq + (if (range b k).isEmpty then 1 else 0) }

theorem append_cases {b : Block K} (h : Inv b) (k : K) (x : Bytes) :
    append b k x = (b, false) ∧ ((k, x) ∈ entries b ∨ b.full < 16 + used (entries b) + x.length + 24) ∨
    append b k x = (appended b k x, true) ∧ (k, x) ∉ entries b ∧ 16 + used (entries b) + x.length + 24 ≤ b.full := by
  unfold append
  by_cases hm : memOk b x.length = true
  · rw [hm]
    by_cases hr : (range b k).any (hit b x) = true
    · left
      rw [hr]
      exact ⟨rfl, Or.inl ((contains_iff h.sorted).mp hr)⟩
    · right
      have hr' : (range b k).any (hit b x) = false := by simpa using hr
      rw [hr']
      exact ⟨rfl, fun hc => hr ((contains_iff h.sorted).mpr hc), (memOk_iff h _).mp hm⟩
  · left
    have hm' : memOk b x.length = false := by simpa using hm
    rw [hm']
    refine ⟨rfl, Or.inr ?_⟩
    by_contra hc
    exact hm ((memOk_iff h _).mpr (by omega))

theorem appended_item {b : Block K} (h : Inv b) {k : K} {x : Bytes} {m : Meta K} (hm : m ∈ b.metas) :
    item (appended b k x) m = item b m := by
  unfold item appended
  exact slice_write_other (h.hi m hm)

theorem appended_entries {b : Block K} (h : Inv b) (k : K) (x : Bytes) :
    entries (appended b k x) = (before b k).map (fun m => (m.key, item b m)) ++ (k, x) ::
      (fromBegin b k).map (fun m => (m.key, item b m)) := by
  have hb : ∀ m ∈ before b k, m ∈ b.metas := fun m hm => by rw [metas_split b k]; simp [hm]
  have ha : ∀ m ∈ fromBegin b k, m ∈ b.metas := fun m hm => by
    rw [metas_split b k, ← fromBegin_eq]; simp [hm]
  have e : (appended b k x).metas = before b k ++ ⟨b.buf, x.length, k⟩ :: fromBegin b k := rfl
  unfold entries
  rw [e, List.map_append, List.map_cons]
  congr 1
  · refine List.map_congr_left fun m hm => ?_
    rw [appended_item h (hb m hm)]
  · congr 1
    · refine Prod.ext rfl ?_
      exact slice_write_self _ _ _
    · refine List.map_congr_left fun m hm => ?_
      rw [appended_item h (ha m hm)]

theorem appended_perm {b : Block K} (h : Inv b) (k : K) (x : Bytes) :
    (entries (appended b k x)).Perm ((k, x) :: entries b) := by
  rw [appended_entries h]
  have e : entries b = (before b k).map (fun m => (m.key, item b m)) ++
      (fromBegin b k).map (fun m => (m.key, item b m)) := by
    unfold entries
    rw [← List.map_append]
    congr 1
    rw [fromBegin_eq]; exact metas_split b k
  rw [e]
  exact List.perm_middle

theorem distinctKeys_perm {a b : List (Meta K)} (h : a.Perm b) : distinctKeys a = distinctKeys b := by
  unfold distinctKeys
  rw [List.toFinset_eq_of_perm _ _ (h.map _)]

theorem distinctKeys_cons (m : Meta K) (ms : List (Meta K)) :
    distinctKeys (m :: ms) = distinctKeys ms + (if m.key ∈ ms.map (·.key) then 0 else 1) := by
  unfold distinctKeys
  rw [List.map_cons, List.toFinset_cons]
  by_cases hm : m.key ∈ ms.map (·.key)
  · rw [if_pos hm, Finset.insert_eq_self.mpr (List.mem_toFinset.mpr hm)]; rfl
  · rw [if_neg hm, Finset.card_insert_of_notMem (fun hc => hm (List.mem_toFinset.mp hc))]

theorem appended_inv {b : Block K} (h : Inv b) {k : K} {x : Bytes} (hx : 0 < x.length) (hn : (k, x) ∉ entries b)
    (hroom : 16 + used (entries b) + x.length + 24 ≤ b.full) : Inv (appended b k x) := by
  have hb : ∀ m ∈ before b k, m ∈ b.metas := fun m hm => by rw [metas_split b k]; simp [hm]
  have ha : ∀ m ∈ fromBegin b k, m ∈ b.metas := fun m hm => by
    rw [metas_split b k, ← fromBegin_eq]; simp [hm]
  have hms : b.metas = before b k ++ fromBegin b k := by rw [fromBegin_eq]; exact metas_split b k
  have hperm : (appended b k x).metas.Perm (⟨b.buf, x.length, k⟩ :: b.metas) := by
    rw [hms]; exact List.perm_middle
  have hmem : ∀ m, m ∈ (appended b k x).metas ↔ m = ⟨b.buf, x.length, k⟩ ∨ m ∈ b.metas := by
    intro m; rw [hperm.mem_iff, List.mem_cons]
  have hbuf : (appended b k x).buf = b.buf + x.length := rfl
  have hsum := h.sum
  have hroom' := h.room
  have hcnt := h.cnt
  rw [used_eq] at hroom
  refine ⟨?_, ?_, ?_, ?_, ?_, ?_, ?_, ?_, ?_, ?_⟩
  · rw [hperm.length_eq, List.length_cons, ← h.cnt]; rfl
  · rw [distinctKeys_perm hperm, distinctKeys_cons, ← h.unq]
    show b.uniq + _ = _
    congr 1
    by_cases hr : range b k = []
    · rw [hr, if_neg ((range_nil_iff h.sorted).mp hr)]; rfl
    · have : k ∈ b.metas.map (·.key) := by
        by_contra hc; exact hr ((range_nil_iff h.sorted).mpr hc)
      rw [if_pos this]
      cases hq : range b k with
      | nil => exact absurd hq hr
      | cons _ _ => rfl
  · show SortedM (before b k ++ ⟨b.buf, x.length, k⟩ :: fromBegin b k)
    have hs := h.sorted
    rw [hms] at hs
    obtain ⟨s1, s2, s3⟩ := List.pairwise_append.mp hs
    refine List.pairwise_append.mpr ⟨s1, List.pairwise_cons.mpr ⟨?_, s2⟩, ?_⟩
    · intro m hm; exact fromBegin_le h.sorted hm
    · intro m hm n hn
      rcases List.mem_cons.mp hn with hn | hn
      · subst hn; exact le_of_lt (before_gt hm)
      · exact s3 m hm n hn
  · intro m hm
    rcases (hmem m).mp hm with hm | hm
    · subst hm; exact hx
    · exact h.pos m hm
  · intro m hm
    rcases (hmem m).mp hm with hm | hm
    · subst hm; simp only; omega
    · exact h.lo m hm
  · intro m hm
    rw [hbuf]
    rcases (hmem m).mp hm with hm | hm
    · subst hm; simp only; omega
    · have := h.hi m hm; omega
  · refine (hperm.pairwise_iff (fun hab => Or.symm hab)).mpr (List.pairwise_cons.mpr ⟨?_, h.disj⟩)
    intro m hm
    right
    exact h.hi m hm
  · rw [hbuf, (hperm.map (·.size)).sum_nat, List.map_cons, List.sum_cons]
    simp only
    omega
  · show b.avail - (x.length + MSZ) + (b.buf + x.length) + MSZ * (b.count + 1) = b.full
    unfold MSZ HSZ at *
    omega
  · rw [(appended_perm h k x).nodup_iff, List.nodup_cons]
    exact ⟨hn, h.nodup⟩

/-! ### remove -/

theorem shiftMeta_key (off n : Nat) (m : Meta K) : (shiftMeta off n m).key = m.key := by
  unfold shiftMeta; split <;> rfl

theorem shiftMeta_size (off n : Nat) (m : Meta K) : (shiftMeta off n m).size = m.size := by
  unfold shiftMeta; split <;> rfl

/-- An invariant for the layout of the item area, without the counters. -/
structure Lay (b : Block K) : Prop where
  pos : ∀ m ∈ b.metas, 0 < m.size
  lo : ∀ m ∈ b.metas, HSZ ≤ m.off
  hi : ∀ m ∈ b.metas, m.off + m.size ≤ b.buf
  disj : b.metas.Pairwise fun m n => m.off + m.size ≤ n.off ∨ n.off + n.size ≤ m.off
  sum : HSZ + (b.metas.map (·.size)).sum = b.buf

theorem Inv.lay {b : Block K} (h : Inv b) : Lay b := ⟨h.pos, h.lo, h.hi, h.disj, h.sum⟩

theorem delMeta_item {b : Block K} {m n : Meta K} {pre post : List (Meta K)} 
    (hm : m.off + m.size ≤ b.buf) (hn : n.off + n.size ≤ b.buf)
    (hd : m.off + m.size ≤ n.off ∨ n.off + n.size ≤ m.off) (hp : 0 < m.size) (hp' : 0 < n.size) :
    item (delMeta b pre m post) (shiftMeta m.off m.size n) = item b n := by
  unfold item
  rw [shiftMeta_size]
  refine slice_congr ?_
  intro i hi
  simp only [delMeta, shiftMeta, move]
  split
  · next hlt =>
    simp only
    rw [if_pos (by omega)]
    congr 1
    omega
  · next hlt => rw [if_neg (by omega)]

theorem delMeta_entries {b : Block K} (h : Lay b) {m : Meta K} {pre post : List (Meta K)} (hms : b.metas = pre ++ m :: post) :
    entries (delMeta b pre m post) = (pre ++ post).map (fun n => (n.key, item b n)) := by
  have hperm : b.metas.Perm (m :: (pre ++ post)) := by rw [hms]; exact List.perm_middle
  have hd := (hperm.pairwise_iff (fun hab => Or.symm hab)).mp h.disj
  obtain ⟨hd1, _⟩ := List.pairwise_cons.mp hd
  have hmm : m ∈ b.metas := hperm.mem_iff.mpr (List.mem_cons_self ..)
  unfold entries
  show ((pre ++ post).map (shiftMeta m.off m.size)).map _ = _
  rw [List.map_map]
  refine List.map_congr_left ?_
  intro n hn
  have hnm : n ∈ b.metas := hperm.mem_iff.mpr (List.mem_cons_of_mem _ hn)
  simp only [Function.comp_apply, shiftMeta_key]
  rw [delMeta_item (h.hi m hmm) (h.hi n hnm) (hd1 n hn) (h.pos m hmm) (h.pos n hnm)]

theorem delMeta_lay {b : Block K} (h : Lay b) {m : Meta K} {pre post : List (Meta K)} (hms : b.metas = pre ++ m :: post) :
    Lay (delMeta b pre m post) := by
  have hperm : b.metas.Perm (m :: (pre ++ post)) := by rw [hms]; exact List.perm_middle
  have hd := (hperm.pairwise_iff (fun hab => Or.symm hab)).mp h.disj
  obtain ⟨hd1, hd2⟩ := List.pairwise_cons.mp hd
  have hmm : m ∈ b.metas := hperm.mem_iff.mpr (List.mem_cons_self ..)
  have hsub : ∀ n ∈ pre ++ post, n ∈ b.metas := fun n hn => hperm.mem_iff.mpr (List.mem_cons_of_mem _ hn)
  have e : (delMeta b pre m post).metas = (pre ++ post).map (shiftMeta m.off m.size) := rfl
  have ebuf : (delMeta b pre m post).buf = b.buf - m.size := rfl
  have hmh := h.hi m hmm
  have hml := h.lo m hmm
  refine ⟨?_, ?_, ?_, ?_, ?_⟩
  · intro n' hn'
    rw [e] at hn'
    obtain ⟨n, hn, rfl⟩ := List.mem_map.mp hn'
    rw [shiftMeta_size]; exact h.pos n (hsub n hn)
  · intro n' hn'
    rw [e] at hn'
    obtain ⟨n, hn, rfl⟩ := List.mem_map.mp hn'
    have h1 := h.lo n (hsub n hn); have h2 := hd1 n hn; have h3 := h.pos n (hsub n hn)
    unfold shiftMeta
    split
    · simp only; omega
    · exact h1
  · intro n' hn'
    rw [e] at hn'
    obtain ⟨n, hn, rfl⟩ := List.mem_map.mp hn'
    have h1 := h.hi n (hsub n hn); have h2 := hd1 n hn; have h3 := h.pos m hmm; have h4 := h.pos n (hsub n hn)
    rw [shiftMeta_size, ebuf]
    unfold shiftMeta
    split
    · simp only; omega
    · omega
  · rw [e, List.pairwise_map]
    refine hd2.imp_of_mem ?_
    intro n p hn hp hnp
    have h1 := hd1 n hn; have h2 := hd1 p hp
    have h3 := h.pos n (hsub n hn); have h4 := h.pos p (hsub p hp); have h5 := h.pos m hmm
    rw [shiftMeta_size, shiftMeta_size]
    unfold shiftMeta
    split <;> split <;> (try simp only) <;> omega
  · rw [e, ebuf, List.map_map]
    have hsz : (pre ++ post).map ((fun m => m.size) ∘ shiftMeta m.off m.size) = (pre ++ post).map (·.size) := by
      refine List.map_congr_left ?_
      intro n _
      simp [shiftMeta_size]
    rw [hsz]
    have := h.sum
    rw [(hperm.map (·.size)).sum_nat, List.map_cons, List.sum_cons] at this
    omega

/-- With distinct entries the loop of `remove` deletes exactly the match. -/
theorem removeLoop_none {x : Bytes} : ∀ (n : Nat) (b : Block K) (pre todo post : List (Meta K)),
    (∀ m ∈ todo, hit b x m = false) → removeLoop x n b pre todo post = b := by
  intro n
  induction n with
  | zero => intro b pre todo post _; rfl
  | succ n ih =>
    intro b pre todo post h
    cases todo with
    | nil => rfl
    | cons m todo =>
      unfold removeLoop
      rw [h m (List.mem_cons_self ..)]
      simp only [Bool.false_eq_true, if_false]
      exact ih b _ _ _ (fun m' hm' => h m' (List.mem_cons_of_mem _ hm'))

theorem removeLoop_hit {x : Bytes} {k : K} : ∀ (b : Block K) (pre todo post : List (Meta K)), Lay b → b.metas = pre ++ (todo ++ post) →
    (∀ m ∈ todo, m.key = k) → (entries b).Nodup → (∃ m ∈ todo, hit b x m = true) →
    ∃ p m q, todo = p ++ m :: q ∧ hit b x m = true ∧ removeLoop x todo.length b pre todo post = delMeta b (pre ++ p) m (q ++ post) := by
  intro b pre todo
  induction todo generalizing pre with
  | nil => intro post _ _ _ _ ⟨m, hm, _⟩; cases hm
  | cons m todo ih =>
    intro post hl hms hk hnd hex
    by_cases hh : hit b x m = true
    · refine ⟨[], m, todo, rfl, hh, ?_⟩
      rw [List.length_cons]
      unfold removeLoop
      rw [if_pos hh, List.append_nil]
      refine removeLoop_none _ _ _ _ _ ?_
      intro n' hn'
      obtain ⟨n, hn, rfl⟩ := List.mem_map.mp hn'
      rw [Bool.eq_false_iff]
      intro hc
      rw [hit_iff] at hc hh
      have hms' : b.metas = pre ++ m :: (todo ++ post) := hms
      have hperm : b.metas.Perm (m :: (pre ++ (todo ++ post))) := by rw [hms']; exact List.perm_middle
      have hd := (hperm.pairwise_iff (fun hab => Or.symm hab)).mp hl.disj
      obtain ⟨hd1, _⟩ := List.pairwise_cons.mp hd
      have hn1 : n ∈ pre ++ (todo ++ post) := by simp [hn]
      have hmm : m ∈ b.metas := hperm.mem_iff.mpr (List.mem_cons_self ..)
      have hnm : n ∈ b.metas := hperm.mem_iff.mpr (List.mem_cons_of_mem _ hn1)
      rw [delMeta_item (hl.hi m hmm) (hl.hi n hnm) (hd1 n hn1) (hl.pos m hmm) (hl.pos n hnm)] at hc
      -- two equal entries
      have hnd' : ((m :: (pre ++ (todo ++ post))).map fun m => (m.key, item b m)).Nodup :=
        ((hperm.map _).nodup_iff).mp hnd
      rw [List.map_cons, List.nodup_cons] at hnd'
      refine hnd'.1 (List.mem_map.mpr ⟨n, hn1, ?_⟩)
      rw [hk m (List.mem_cons_self ..), hk n (List.mem_cons_of_mem _ hn), hh, hc]
    · obtain ⟨p, m', q, h1, h2, h3⟩ := ih (pre ++ [m]) post hl (by rw [hms]; simp)
        (fun m' hm' => hk m' (List.mem_cons_of_mem _ hm')) hnd (by
          obtain ⟨m', hm', hh'⟩ := hex
          rcases List.mem_cons.mp hm' with e | e
          · subst e; exact absurd hh' hh
          · exact ⟨m', e, hh'⟩)
      refine ⟨m :: p, m', q, by rw [h1]; rfl, h2, ?_⟩
      rw [List.length_cons]
      unfold removeLoop
      rw [if_neg hh, h3]
      congr 1
      simp

end Verif.Block
