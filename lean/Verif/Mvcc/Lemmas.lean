import Verif.Mvcc.Spec
namespace Verif.Mvcc
open Verif

/-- The id that represents a stamp. -/
def Stamp.enc : Stamp → Nat
  | .pending tx => tx
  | .at c => c

def encD : Option Stamp → Nat
  | none => NOT_DELETED
  | some d => d.enc

def Stamp.ok : Stamp → Prop
  | .pending tx => TXN_START ≤ tx ∧ tx < NOT_DELETED
  | .at c => c < TXN_START

theorem txn_lt : TXN_START < NOT_DELETED := by decide

theorem enc_lt {s : Stamp} (h : s.ok) : s.enc < NOT_DELETED := by
  have := txn_lt
  cases s <;> simp only [Stamp.ok, Stamp.enc] at * <;> omega

theorem encD_eq_none {d : Option Stamp} (h : ∀ s, d = some s → s.ok) : encD d = NOT_DELETED ↔ d = none := by
  cases d with
  | none => simp [encD]
  | some s =>
    have := enc_lt (h s rfl)
    simp only [encD, reduceCtorEq, iff_false]
    omega

theorem enc_eq_pending {s : Stamp} {tx : Nat} (h : s.ok) (ht : TXN_START ≤ tx) : s.enc = tx ↔ s = .pending tx := by
  cases s with
  | pending x => simp [Stamp.enc]
  | «at» c => simp only [Stamp.ok, Stamp.enc, reduceCtorEq, iff_false] at *; omega

theorem encD_eq_pending {d : Option Stamp} {tx : Nat} (h : ∀ s, d = some s → s.ok) (ht : TXN_START ≤ tx)
    (ht' : tx < NOT_DELETED) : encD d = tx ↔ d = some (.pending tx) := by
  cases d with
  | none => simp only [encD, reduceCtorEq, iff_false]; omega
  | some s => simp only [encD, Option.some.injEq]; exact enc_eq_pending (h s rfl) ht

/-- A transaction as the system creates them. -/
structure Txn.ok (t : Txn) : Prop where
  id_ge : TXN_START ≤ t.id
  id_lt : t.id < NOT_DELETED
  start_le : t.start ≤ TXN_START

theorem useVersion_enc {t : Txn} (ht : t.ok) {s : Stamp} (h : s.ok) : useVersion t s.enc = true ↔ s.seen t := by
  have h1 := ht.id_ge; have h2 := ht.start_le
  cases s with
  | pending x =>
    change (decide (x < t.start) || x == t.id) = true ↔ _
    simp only [Stamp.seen, Stamp.ok, Bool.or_eq_true, decide_eq_true_eq, beq_iff_eq] at h ⊢
    omega
  | «at» x =>
    change (decide (x < t.start) || x == t.id) = true ↔ _
    simp only [Stamp.seen, Stamp.ok, Bool.or_eq_true, decide_eq_true_eq, beq_iff_eq] at h ⊢
    omega

theorem useVersion_not_deleted {t : Txn} (ht : t.ok) : useVersion t NOT_DELETED = false := by
  have h1 := ht.id_lt; have h2 := ht.start_le; have := txn_lt
  simp only [useVersion, Bool.or_eq_false_iff, decide_eq_false_iff_not, beq_eq_false_iff_ne]
  omega

theorem useVersion_encD {t : Txn} (ht : t.ok) {d : Option Stamp} (h : ∀ s, d = some s → s.ok) :
    useVersion t (encD d) = true ↔ ∃ s, d = some s ∧ s.seen t := by
  cases d with
  | none => simp [encD, useVersion_not_deleted ht]
  | some s => simp [encD, useVersion_enc ht (h s rfl)]

/-- What the arrays of vector `i` say about the rows. -/
def VecInv (t : Txn) (a : Table) (i : Nat) (v : Vec) : Prop :=
  ∀ p, p < CAP →
    (∀ row, a[i * CAP + p]? = some row →
      (v.inserted p = row.ins.enc ∨ (v.inserted p = 0 ∧ ∃ c, row.ins = .at c ∧ c < t.start)) ∧
      v.deleted p = encD row.del ∧ (v.same = true → v.inserted p = v.insertId)) ∧
    (a[i * CAP + p]? = none → v.deleted p = NOT_DELETED) ∧
    (v.anyDel = false → v.deleted p = NOT_DELETED)

def ChunkInv (t : Txn) (a : Table) (i : Nat) : Option Info → Prop
  | none => ∀ p row, p < CAP → a[i * CAP + p]? = some row → row.del = none ∧ ∃ c, row.ins = .at c ∧ c < t.start
  | some (.const ins del) => del = NOT_DELETED ∧ a[i * CAP + (CAP - 1)]? ≠ none ∧
      ∀ p row, p < CAP → a[i * CAP + p]? = some row → row.ins.enc = ins ∧ row.del = none
  | some (.vec v) => VecInv t a i v

def WF (a : Table) : Prop := ∀ (r : Nat) (row : Row), a[r]? = some row → row.ins.ok ∧ ∀ d, row.del = some d → d.ok

structure Inv (t : Txn) (m : Mgr) (a : Table) : Prop where
  wf : WF a
  tail : ∀ i, a.length ≤ i * CAP → m.chunk i = none
  chunks : ∀ i, ChunkInv t a i (m.chunk i)

theorem ChunkInv.congr {t : Txn} {a a' : Table} {i : Nat} {c : Option Info}
    (h : ∀ p, p < CAP → a'[i * CAP + p]? = a[i * CAP + p]?) (hc : ChunkInv t a i c) : ChunkInv t a' i c := by
  cases c with
  | none => intro p row hp hr; rw [h p hp] at hr; exact hc p row hp hr
  | some c =>
    cases c with
    | const ins del =>
      refine ⟨hc.1, ?_, ?_⟩
      · rw [h _ (by decide)]; exact hc.2.1
      · intro p row hp hr; rw [h p hp] at hr; exact hc.2.2 p row hp hr
    | vec v => intro p hp; rw [h p hp]; exact hc p hp

/-! ### list access -/

theorem chunk_fill (m : Mgr) (i j : Nat) : (m.fill i).chunk j = m.chunk j := by
  unfold Mgr.fill Mgr.chunk
  split
  · rfl
  · rcases Nat.lt_or_ge j m.length with hj | hj
    · rw [List.getElem?_append_left hj]
    · rw [List.getElem?_append_right hj, List.getElem?_eq_none (l := m) hj, List.getElem?_replicate]
      split <;> rfl

theorem length_fill (m : Mgr) (i : Nat) : i < (m.fill i).length := by
  unfold Mgr.fill
  split
  · assumption
  · simp only [List.length_append, List.length_replicate]; omega

theorem length_fill_le (m : Mgr) (i : Nat) : m.length ≤ (m.fill i).length := by
  unfold Mgr.fill
  split
  · exact Nat.le_refl _
  · simp only [List.length_append, List.length_replicate]; omega

theorem chunk_set (m : Mgr) (i j : Nat) (c : Option Info) (h : i < m.length) :
    (Mgr.chunk (m.set i c) j) = if j = i then c else m.chunk j := by
  unfold Mgr.chunk
  split
  · next he => subst he; rw [List.getElem?_set_self h]; rfl
  · next he => rw [List.getElem?_set_ne (by omega)]

/-- The loop over vectors: every touched entry is replaced by its own result. -/
theorem forChunks_ok (skip : Bool) (f : Nat → Option Info → Res (Option Info)) (g : Nat → Option Info → Option Info) :
    ∀ (k i : Nat) (m : Mgr), (skip = false → i + k ≤ m.length) →
      (skip = true → ∀ j, g j none = none) →
      (∀ j, i ≤ j → j < i + k → f j (m.chunk j) = .ok (g j (m.chunk j))) →
      ∃ m', forChunks skip f i k m = .ok m' ∧
        ∀ j, m'.chunk j = if i ≤ j ∧ j < i + k then g j (m.chunk j) else m.chunk j := by
  intro k
  induction k with
  | zero => intro i m _ _ _; refine ⟨m, rfl, fun j => ?_⟩; rw [if_neg (by omega)]
  | succ k ih =>
    intro i m hlen hskip hf
    unfold forChunks
    cases hi : m[i]? with
    | none =>
      have hil : m.length ≤ i := List.getElem?_eq_none_iff.mp hi
      have hs : skip = true := by
        cases skip with
        | true => rfl
        | false => have := hlen rfl; omega
      subst hs
      simp only [if_true]
      obtain ⟨m', h1, h2⟩ := ih (i + 1) m (by simp) hskip (fun j hj hj' => hf j (by omega) (by omega))
      refine ⟨m', h1, fun j => ?_⟩
      rw [h2 j]
      have hn : ∀ j, i ≤ j → m.chunk j = none := by
        intro j hj
        unfold Mgr.chunk
        rw [List.getElem?_eq_none (by omega)]; rfl
      by_cases hj : j = i
      · subst hj
        rw [if_neg (by omega), if_pos (by omega), hn j (by omega), hskip rfl]
      · by_cases hj2 : i + 1 ≤ j ∧ j < i + 1 + k
        · rw [if_pos hj2, if_pos (by omega)]
        · rw [if_neg hj2, if_neg (by omega)]
    | some c =>
      have hil : i < m.length := by
        rcases Nat.lt_or_ge i m.length with h | h
        · exact h
        · rw [List.getElem?_eq_none h] at hi; cases hi
      have hc : m.chunk i = c := by unfold Mgr.chunk; rw [hi]; rfl
      have hfi := hf i (Nat.le_refl _) (by omega)
      rw [hc] at hfi
      simp only [hfi]
      have hother : ∀ j, j ≠ i → Mgr.chunk (m.set i (g i c)) j = m.chunk j := by
        intro j hj; rw [chunk_set _ _ _ _ hil, if_neg hj]
      obtain ⟨m', h1, h2⟩ := ih (i + 1) (m.set i (g i c))
        (by intro hs; have := hlen hs; simp only [List.length_set]; omega) hskip
        (fun j hj hj' => by rw [hother j (by omega)]; exact hf j (by omega) (by omega))
      refine ⟨m', h1, fun j => ?_⟩
      rw [h2 j]
      by_cases hj : j = i
      · subst hj
        rw [if_neg (by omega), if_pos (by omega), chunk_set _ _ _ _ hil, if_pos rfl, hc]
      · rw [hother j hj]
        by_cases hj2 : i + 1 ≤ j ∧ j < i + 1 + k
        · rw [if_pos hj2, if_pos (by omega)]
        · rw [if_neg hj2, if_neg (by omega)]

/-! ### reading -/

theorem fetch_iff {t : Txn} (ht : t.ok) {m : Mgr} {a : Table} (h : Inv t m a) {r : Nat} {row : Row}
    (hr : a[r]? = some row) : m.fetch t r = true ↔ row.visible t := by
  have hwf := h.wf r row hr
  have hpos : r - r / CAP * CAP < CAP := by unfold CAP; omega
  have hrow : a[r / CAP * CAP + (r - r / CAP * CAP)]? = some row := by
    rw [show r / CAP * CAP + (r - r / CAP * CAP) = r by unfold CAP; omega]; exact hr
  have hc := h.chunks (r / CAP)
  unfold Mgr.fetch
  cases hch : m.chunk (r / CAP) with
  | none =>
    rw [hch] at hc
    obtain ⟨hd, c, hi, hlt⟩ := hc _ row hpos hrow
    simp only [true_iff]
    refine ⟨?_, ?_⟩
    · rw [hi]; exact hlt
    · intro d hdd; rw [hd] at hdd; cases hdd
  | some c =>
    rw [hch] at hc
    cases c with
    | const ins del =>
      obtain ⟨hd, _, hrows⟩ := hc
      obtain ⟨hi, hdn⟩ := hrows _ row hpos hrow
      subst hd; subst hi
      simp only [Info.fetch, useVersion_not_deleted ht, Bool.not_false, Bool.and_true,
        useVersion_enc ht hwf.1, Row.visible, hdn]
      simp
    | vec v =>
      obtain ⟨h1, h2, h3⟩ := (hc _ hpos).1 row hrow
      simp only [Info.fetch, Bool.and_eq_true, Bool.not_eq_true']
      have hins : useVersion t (v.inserted (r - r / CAP * CAP)) = true ↔ row.ins.seen t := by
        rcases h1 with h1 | ⟨h1, c, hc1, hc2⟩
        · rw [h1]; exact useVersion_enc ht hwf.1
        · rw [h1, hc1]
          simp only [useVersion, Bool.or_eq_true, decide_eq_true_eq, Stamp.seen]
          constructor
          · intro _; exact hc2
          · intro _; left; omega
      rw [hins, h2, ← Bool.not_eq_true, useVersion_encD ht hwf.2]
      simp only [Row.visible, not_exists, not_and]

/-- A filter that keeps everything. -/
theorem filter_range_all {n : Nat} {p : Nat → Bool} (h : ∀ i, i < n → p i = true) : (List.range n).filter p = List.range n := by
  rw [List.filter_eq_self]
  intro i hi
  exact h i (List.mem_range.mp hi)

theorem filter_range_none {n : Nat} {p : Nat → Bool} (h : ∀ i, i < n → p i = false) : (List.range n).filter p = [] := by
  rw [List.filter_eq_nil_iff]
  intro i hi
  simp [h i (List.mem_range.mp hi)]

/-- A selection loop keeps exactly the rows with the predicate. -/
theorem selectLoop_rows {p : Nat → Bool} {n : Nat} (hn : n ≤ CAP) :
    ∃ s, selectLoop p n = .ok s ∧ s.rows n = (List.range n).filter p := by
  refine ⟨⟨((List.range n).filter p).length, (List.range n).filter p⟩, ?_, ?_⟩
  · unfold selectLoop; rw [if_neg (by omega)]
  · unfold Sel.rows
    simp only
    split
    · next h =>
      have hall : ∀ x ∈ List.range n, p x = true := by
        apply List.length_filter_eq_length_iff.mp
        rw [h, List.length_range]
      exact (List.filter_eq_self.mpr hall).symm
    · exact List.take_length

/-- A scan of a vector selects the positions a row-by-row fetch accepts. -/
theorem select_eq_fetch {t : Txn} (ht : t.ok) {m : Mgr} {a : Table} (h : Inv t m a) {i n : Nat} (hn : n ≤ CAP)
    (hlen : i * CAP + n ≤ a.length) :
    ∃ s, m.select t i n = .ok s ∧ s.rows n = (List.range n).filter fun p => m.fetch t (i * CAP + p) := by
  have hdiv : ∀ p, p < n → (i * CAP + p) / CAP = i ∧ i * CAP + p - i * CAP = p := by
    intro p hp; unfold CAP at *; omega
  have hrow : ∀ p, p < n → ∃ row, a[i * CAP + p]? = some row := by
    intro p hp
    exact ⟨a[i * CAP + p]'(by omega), List.getElem?_eq_getElem (by omega)⟩
  have hc := h.chunks i
  have hallsel : ∀ (p : Nat → Bool), (∀ k, k < n → p k = true) → (⟨n, []⟩ : Sel).rows n = (List.range n).filter p := by
    intro p hp; rw [filter_range_all hp]; simp [Sel.rows]
  have hnosel : ∀ (p : Nat → Bool), (∀ k, k < n → p k = false) → (⟨0, []⟩ : Sel).rows n = (List.range n).filter p := by
    intro p hp; rw [filter_range_none hp]; simp only [Sel.rows]
    split
    · next h0 => rw [← h0]; rfl
    · rfl
  have hfetch : ∀ p, p < n → m.fetch t (i * CAP + p) = (match m.chunk i with | none => true | some c => c.fetch t p) := by
    intro p hp
    unfold Mgr.fetch
    rw [(hdiv p hp).1, (hdiv p hp).2]
    cases m.chunk i <;> rfl
  have hfilter : (List.range n).filter (fun p => m.fetch t (i * CAP + p))
      = (List.range n).filter (fun p => match m.chunk i with | none => true | some c => c.fetch t p) := by
    apply List.filter_congr
    intro p hp
    exact hfetch p (List.mem_range.mp hp)
  rw [hfilter]
  unfold Mgr.select
  cases hch : m.chunk i with
  | none => exact ⟨_, rfl, hallsel _ (fun _ _ => rfl)⟩
  | some c =>
    rw [hch] at hc
    cases c with
    | const ins del =>
      simp only [Info.select]
      by_cases hv : useVersion t ins && useDeleted t del
      · rw [if_pos hv]; exact ⟨_, rfl, hallsel _ (fun _ _ => hv)⟩
      · rw [if_neg hv]; exact ⟨_, rfl, hnosel _ (fun _ _ => by simpa [Info.fetch, useDeleted] using hv)⟩
    | vec v =>
      have hinv : ∀ p, p < n → (v.same = true → v.inserted p = v.insertId) ∧ (v.anyDel = false → v.deleted p = NOT_DELETED) := by
        intro p hp
        obtain ⟨row, hr⟩ := hrow p hp
        have := hc p (by omega)
        exact ⟨(this.1 row hr).2.2, this.2.2⟩
      simp only [Info.select, Vec.select]
      by_cases hs : v.same = true
      · by_cases hd : v.anyDel = true
        · rw [if_neg (by simp [hs, hd]), if_pos hs]
          by_cases hu : useVersion t v.insertId = true
          · rw [if_neg (by simp [hu])]
            obtain ⟨s, h1, h2⟩ := selectLoop_rows (p := fun k => useDeleted t (v.deleted k)) hn
            refine ⟨s, h1, ?_⟩
            rw [h2]
            apply List.filter_congr
            intro p hp
            have := (hinv p (List.mem_range.mp hp)).1 hs
            simp [Info.fetch, this, hu, useDeleted]
          · rw [if_pos (by simp [hu])]
            refine ⟨_, rfl, hnosel _ ?_⟩
            intro p hp
            have := (hinv p hp).1 hs
            simp [Info.fetch, this, hu]
        · simp only [Bool.not_eq_true] at hd
          rw [if_pos (by simp [hs, hd])]
          by_cases hu : useVersion t v.insertId = true
          · rw [if_pos hu]
            refine ⟨_, rfl, hallsel _ ?_⟩
            intro p hp
            obtain ⟨i1, i2⟩ := hinv p hp
            simp [Info.fetch, i1 hs, i2 hd, hu, useVersion_not_deleted ht]
          · rw [if_neg hu]
            refine ⟨_, rfl, hnosel _ ?_⟩
            intro p hp
            obtain ⟨i1, i2⟩ := hinv p hp
            simp [Info.fetch, i1 hs, hu]
      · rw [if_neg (by simp [hs]), if_neg hs]
        by_cases hd : v.anyDel = true
        · rw [if_neg (by simp [hd])]
          obtain ⟨s, h1, h2⟩ := selectLoop_rows (p := fun k => useVersion t (v.inserted k) && useDeleted t (v.deleted k)) hn
          exact ⟨s, h1, h2⟩
        · simp only [Bool.not_eq_true] at hd
          rw [if_pos (by simp [hd])]
          obtain ⟨s, h1, h2⟩ := selectLoop_rows (p := fun k => useVersion t (v.inserted k)) hn
          refine ⟨s, h1, ?_⟩
          rw [h2]
          apply List.filter_congr
          intro p hp
          have := (hinv p (List.mem_range.mp hp)).2 hd
          simp [Info.fetch, this, useVersion_not_deleted ht]

end Verif.Mvcc
