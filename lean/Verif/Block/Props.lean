import Verif.Block.SplitAppend
/-!
C13: the page of the on-disk index.

Reading the statements needs: `entries` (what a page holds), `specStep`/`specRun` (what calls are supposed
to do and answer) from Spec.lean, and the calls themselves from Model.lean.
-/
namespace Verif.Block
variable {K : Type} [LinearOrder K]
set_option linter.unusedSectionVars false

/-- One call on the modelled page. `none`: the code runs into undefined behaviour. -/
def step (b : Block K) : Op K → Option (Block K × Bool)
  | .append k x => some (append b k x)
  | .remove k x => some (remove b k x)
  | .removeIndex k => removeIndex b k

/-- A history of calls. -/
def run : Block K → List (Op K) → Option (Block K × List Bool)
  | b, [] => some (b, [])
  | b, op :: ops => (step b op).bind fun (b1, r) => (run b1 ops).map fun (b2, rs) => (b2, r :: rs)

/-- The calls the theorem covers: items are not empty (an assertion, block.cpp:93), and an item that is not
in the page is only removed under a key that is not in the page either (see `C13_remove_absent_fails`). -/
def allowed (es : List (K × Bytes)) : Op K → Prop
  | .append _ x => x ≠ []
  | .remove k x => (k, x) ∈ es ∨ k ∉ es.map Prod.fst
  | .removeIndex _ => True

def allowedRun (full : Nat) : List (K × Bytes) → List (Op K) → Prop
  | _, [] => True
  | es, op :: ops => allowed es op ∧ allowedRun full (specStep full es op).1 ops

theorem step_ok {b : Block K} (h : Inv b) {es : List (K × Bytes)} (hp : (entries b).Perm es) {op : Op K} (ha : allowed es op) :
    ∃ b', step b op = some (b', (specStep b.full es op).2) ∧ Inv b' ∧ (entries b').Perm (specStep b.full es op).1 ∧
      b'.full = b.full := by
  have hmem : ∀ e, e ∈ es ↔ e ∈ entries b := fun e => hp.mem_iff.symm
  have hused := used_perm hp
  cases op with
  | append k x =>
    have hx : 0 < x.length := List.length_pos_iff.mpr ha
    simp only [step, specStep]
    rcases append_cases h k x with ⟨e, hc⟩ | ⟨e, h1, h2⟩
    · rw [if_pos (by rw [hmem, ← hused]; exact hc), e]
      exact ⟨b, rfl, h, hp, rfl⟩
    · rw [if_neg (by rw [hmem, ← hused]; rintro (hc | hc); exacts [h1 hc, by omega]), e]
      exact ⟨_, rfl, appended_inv h hx h1 h2, (appended_perm h k x).trans (hp.cons _), rfl⟩
  | remove k x =>
    simp only [step, specStep]
    rcases ha with ha | ha
    · rw [if_pos ha]
      obtain ⟨b', e1, e2, e3, e4⟩ := remove_present h ((hmem _).mp ha)
      refine ⟨b', by rw [e1], e2, ?_, e4⟩
      rw [e3]
      exact hp.filter _
    · rw [if_neg (fun hc => ha (List.mem_map.mpr ⟨_, hc, rfl⟩))]
      refine ⟨b, ?_, h, hp, rfl⟩
      rw [remove_absent_key h (fun hc => ha ((hp.map _).mem_iff.mp (by rw [entries_keys]; exact hc)))]
  | removeIndex k =>
    simp only [step, specStep]
    have hk : k ∈ es.map Prod.fst ↔ k ∈ b.metas.map (·.key) := by
      rw [← entries_keys]; exact (hp.map _).mem_iff.symm
    by_cases hc : k ∈ es.map Prod.fst
    · rw [if_pos hc]
      obtain ⟨b', e1, e2, e3, e4⟩ := removeIndex_ok h (hk.mp hc)
      refine ⟨b', by rw [e1], e2, ?_, e4⟩
      rw [e3]
      exact hp.filter _
    · rw [if_neg hc]
      exact ⟨b, removeIndex_absent h (fun hcc => hc (hk.mpr hcc)), h, hp, rfl⟩

theorem run_ok : ∀ (ops : List (Op K)) (b : Block K) (es : List (K × Bytes)), Inv b → (entries b).Perm es →
    allowedRun b.full es ops → ∃ b', run b ops = some (b', (specRun b.full es ops).2) ∧ Inv b' ∧
      (entries b').Perm (specRun b.full es ops).1 ∧ b'.full = b.full := by
  intro ops
  induction ops with
  | nil => intro b es h hp _; exact ⟨b, rfl, h, hp, rfl⟩
  | cons op ops ih =>
    intro b es h hp ha
    obtain ⟨b1, e1, i1, p1, f1⟩ := step_ok h hp ha.1
    obtain ⟨b2, e2, i2, p2, f2⟩ := ih b1 _ i1 p1 (by rw [f1]; exact ha.2)
    rw [f1] at e2 p2
    refine ⟨b2, ?_, i2, p2, by rw [f2, f1]⟩
    simp only [run, e1, Option.bind_some, e2, Option.map_some, specRun]

/-- **C13**, histories of one page.  Whatever calls are made on a new page of `full` bytes (non-empty items;
no removal of an absent item under a present key), no call runs into undefined behaviour, each call answers
what the specification says (an entry is accepted exactly if it is not there and fits), and afterwards the
page holds exactly the specified entries, without duplicates, in key order, with right counters.
Partial: see `C13_remove_absent_fails` for the removals left out. -/
theorem C13_page_history_partial {full : Nat} (hf : 16 ≤ full) (ops : List (Op K)) (ha : allowedRun full [] ops) :
    ∃ b, run (empty full) ops = some (b, (specRun full [] ops).2) ∧
      (iterate b).Perm (specRun full [] ops).1 ∧ (iterate b).Nodup ∧
      ((iterate b).map Prod.fst).Pairwise (· ≤ ·) ∧
      b.count = (specRun full [] ops).1.length ∧
      b.uniq = ((specRun full [] ops).1.map Prod.fst).toFinset.card ∧
      b.avail + 16 + used (specRun full [] ops).1 = full := by
  obtain ⟨b, e, i, p, f⟩ := run_ok ops (empty full) [] (empty_inv hf) (List.Perm.refl _) ha
  refine ⟨b, e, ?_, ?_, iterate_sorted i, ?_, ?_, ?_⟩
  · rw [iterate_eq]; exact (List.reverse_perm _).trans p
  · rw [iterate_eq]; exact List.nodup_reverse.mpr i.nodup
  · have := p.length_eq
    unfold entries at this
    rw [List.length_map] at this
    rw [i.cnt, this]; rfl
  · rw [i.unq]
    unfold distinctKeys
    rw [← entries_keys]
    exact congrArg _ (List.toFinset_eq_of_perm _ _ (p.map _))
  · have h1 := inv_used i
    have h2 := used_perm p
    have h3 : b.full = full := f
    have h4 : (empty full : Block K).full = full := rfl
    rw [h4] at h2
    omega

/-- A history in the theorem's domain: two items under one key, one of them removed, then the key. -/
example : allowedRun 4096 ([] : List (Nat × Bytes))
    [.append 5 [1], .append 7 [2], .append 5 [3], .append 5 [1], .remove 5 [1], .remove 9 [1], .removeIndex 5, .append 5 [4]] := by
  refine ⟨?_, ?_, ?_, ?_, ?_, ?_, ?_, ?_, trivial⟩
  all_goals first
    | exact trivial
    | exact List.cons_ne_nil _ _
    | exact Or.inl (by decide +kernel)
    | exact Or.inr (by decide +kernel)

/-- The full claim for removals: whatever item is removed, the answer and the entries are as specified. -/
def C13_remove_claim : Prop := ∀ (full : Nat) (b : Block Nat), Inv b → b.full = full → ∀ (k : Nat) (x : Bytes),
  (remove b k x).2 = (specStep full (entries b) (.remove k x)).2 ∧
  (remove b k x).1.count = (specStep full (entries b) (.remove k x)).1.length

/-- It fails: removing an item that is not there, under a key that is, answers `true` and decreases the
counters although the page is unchanged (block.cpp:143-147). -/
theorem C13_remove_absent_fails : ¬ C13_remove_claim := by
  intro h
  have hi : Inv (append (empty 4096) 5 [1] : Block Nat × Bool).1 := by
    obtain ⟨b', e, i, _⟩ := append_ok (empty_inv (K := Nat) (full := 4096) (by decide)) (k := 5) (x := [1]) (by decide)
      (by intro hc; cases hc) (by decide)
    rw [e]; exact i
  exact absurd (h 4096 _ hi rfl 5 [2]).1 (by decide +kernel)

/-- **C13**, questions.  In every state a page can be in (`Inv`, which `C13_inv_reachable` ties to
histories) the questions are answered according to its entries. -/
theorem C13_questions {b : Block K} (h : Inv b) (k : K) (x : Bytes) :
    (contains b k x = true ↔ (k, x) ∈ iterate b) ∧
    (containsIndex b k = true ↔ ∃ y, (k, y) ∈ iterate b) ∧
    (getItems b k).Perm (((iterate b).filter (·.1 = k)).map Prod.snd) ∧
    itemCount b k = ((iterate b).filter (·.1 = k)).length ∧
    (∀ i, getItem b k i = (getItems b k)[i]?) ∧
    minIndex b = ((iterate b).map Prod.fst).head? ∧
    maxIndex b = ((iterate b).map Prod.fst).getLast? := by
  have hmem : ∀ e, e ∈ iterate b ↔ e ∈ entries b := fun e => by rw [iterate_eq, List.mem_reverse]
  have hfil : (entries b).filter (fun e => decide (e.1 = k)) = (range b k).map fun m => (m.key, item b m) := by
    unfold entries
    conv_lhs => rw [metas_split b k]
    rw [List.map_append, List.map_append, List.filter_append, List.filter_append]
    have h1 : ((before b k).map fun m => (m.key, item b m)).filter (fun e => decide (e.1 = k)) = [] := by
      rw [List.filter_eq_nil_iff]
      intro e he
      obtain ⟨m, hm, rfl⟩ := List.mem_map.mp he
      simpa using (ne_of_gt (before_gt hm))
    have h2 : ((range b k).map fun m => (m.key, item b m)).filter (fun e => decide (e.1 = k)) =
        (range b k).map fun m => (m.key, item b m) := by
      rw [List.filter_eq_self]
      intro e he
      obtain ⟨m, hm, rfl⟩ := List.mem_map.mp he
      simpa using range_key h.sorted hm
    have h3 : ((after b k).map fun m => (m.key, item b m)).filter (fun e => decide (e.1 = k)) = [] := by
      rw [List.filter_eq_nil_iff]
      intro e he
      obtain ⟨m, hm, rfl⟩ := List.mem_map.mp he
      simpa using (ne_of_lt (after_lt h.sorted hm))
    rw [h1, h2, h3, List.nil_append, List.append_nil]
  have hfil2 : ((iterate b).filter (fun e => decide (e.1 = k))).Perm ((range b k).map fun m => (m.key, item b m)) := by
    rw [← hfil, iterate_eq]
    exact (List.reverse_perm _).filter _
  refine ⟨?_, ?_, ?_, ?_, ?_, ?_, ?_⟩
  · rw [hmem]; exact contains_iff h.sorted
  · unfold containsIndex
    constructor
    · intro hc
      cases hq : range b k with
      | nil => rw [hq] at hc; cases hc
      | cons m l =>
        have hm : m ∈ range b k := by rw [hq]; exact List.mem_cons_self ..
        refine ⟨item b m, (hmem _).mpr (mem_entries.mpr ⟨m, ?_, range_key h.sorted hm, rfl⟩)⟩
        rw [metas_split b k]; simp [hm]
    · rintro ⟨y, hy⟩
      cases hq : range b k with
      | nil =>
        have := (range_nil_iff h.sorted).mp hq
        rw [← entries_keys] at this
        exact absurd (List.mem_map.mpr ⟨_, (hmem _).mp hy, rfl⟩) this
      | cons m l => rfl
  · refine List.Perm.trans ?_ (hfil2.map _).symm
    rw [List.map_map]
    exact List.Perm.refl _
  · rw [hfil2.length_eq, List.length_map]; rfl
  · intro i
    unfold getItem getItems
    rw [List.getElem?_map]
  · rw [iterate_eq, List.map_reverse, List.head?_reverse, entries_keys]
    unfold minIndex
    rw [List.getLast?_map]
  · rw [iterate_eq, List.map_reverse, List.getLast?_reverse, entries_keys]
    unfold maxIndex
    rw [List.head?_map]

/-- `Inv` holds in every state an allowed history leads to. -/
theorem C13_inv_reachable {full : Nat} (hf : 16 ≤ full) (ops : List (Op K)) (ha : allowedRun full [] ops)
    {b : Block K} {rs : List Bool} (hr : run (empty full) ops = some (b, rs)) : Inv b := by
  obtain ⟨b', e, i, _⟩ := run_ok ops (empty full) [] (empty_inv hf) (List.Perm.refl _) ha
  rw [e] at hr
  simp only [Option.some.injEq, Prod.mk.injEq] at hr
  rw [← hr.1]; exact i

example : ∃ b rs, run (empty 4096) [Op.append 5 [1], .append 7 [2], .append 5 [3]] = some (b, rs) ∧
    iterate b = [((5 : Nat), [1]), (5, [3]), (7, [2])] := ⟨_, _, rfl, by decide +kernel⟩

/-- **C13**, splitting.  Splitting off `n` entries divides the page's scan: the upper `n` entries go to the
new page, the others stay, in the same order. -/
theorem C13_split {b : Block K} (h : Inv b) (hf : 16 ≤ b.full) {n : Nat} (hn : n ≤ b.count) :
    ∃ b1 b2, split b n = some (b1, b2) ∧ Inv b1 ∧ Inv b2 ∧ (iterate b2).length = n ∧
      iterate b1 ++ iterate b2 = iterate b := by
  obtain ⟨b1, b2, e, i1, i2, e2, e1, _, _⟩ := split_ok h hf (n := n) (by rw [← h.cnt]; exact hn)
  refine ⟨b1, b2, e, i1, i2, ?_, ?_⟩
  · rw [iterate_eq, List.length_reverse, e2, List.length_take]
    have := h.cnt
    unfold entries
    rw [List.length_map]
    omega
  · rw [iterate_eq, iterate_eq, iterate_eq, e1, e2, ← List.reverse_append, List.take_append_drop]

/-- **C13**, merging with the page above (keys not below this page's keys, room enough): the scan of the
result is the two scans one after the other. -/
theorem C13_merge_above_partial {b o : Block K} (h : Inv b) (ho : Inv o) (hb : iterate b ≠ []) (hoo : iterate o ≠ [])
    (hroom : used (iterate o) ≤ b.avail) (hk : ∀ e ∈ iterate b, ∀ f ∈ iterate o, e.1 ≤ f.1)
    (hdis : ∀ e ∈ iterate o, e ∉ iterate b) :
    ∃ b', merge b o = some b' ∧ Inv b' ∧ iterate b' = iterate b ++ iterate o := by
  have hmem : ∀ (p : Block K) e, e ∈ iterate p ↔ e ∈ entries p := fun p e => by rw [iterate_eq, List.mem_reverse]
  have hne : ∀ p : Block K, iterate p ≠ [] → p.metas ≠ [] := by
    intro p hp hc
    exact hp (by unfold iterate; rw [hc]; rfl)
  obtain ⟨b', e1, e2, e3, _⟩ := merge_upper h ho (hne b hb) (hne o hoo)
    (by rw [← used_perm (show (iterate o).Perm (entries o) by rw [iterate_eq]; exact List.reverse_perm _)]; exact hroom)
    (by
      intro m hm n hn
      exact hk (m.key, item b m) ((hmem _ _).mpr (List.mem_map.mpr ⟨m, hm, rfl⟩)) (n.key, item o n)
        ((hmem _ _).mpr (List.mem_map.mpr ⟨n, hn, rfl⟩)))
    (fun e he hc => hdis e ((hmem _ _).mpr he) ((hmem _ _).mpr hc))
  refine ⟨b', e1, e2, ?_⟩
  rw [iterate_eq, e3, List.reverse_append, ← iterate_eq, ← iterate_eq]

/-- A page built by appends, for the examples. -/
def build (full : Nat) (es : List (Nat × Bytes)) : Block Nat := es.foldl (fun b e => (append b e.1 e.2).1) (empty full)

theorem build_inv {full : Nat} (hf : HSZ ≤ full) (es : List (Nat × Bytes)) (hx : ∀ e ∈ es, e.2 ≠ []) : Inv (build full es) := by
  have : ∀ (es : List (Nat × Bytes)) (b : Block Nat), Inv b → (∀ e ∈ es, e.2 ≠ []) →
      Inv (es.foldl (fun b e => (append b e.1 e.2).1) b) := by
    intro es
    induction es with
    | nil => intro b hb _; exact hb
    | cons e es ih =>
      intro b hb hx
      refine ih _ ?_ (fun f hf => hx f (List.mem_cons_of_mem _ hf))
      have hpos : 0 < e.2.length := List.length_pos_iff.mpr (hx e (List.mem_cons_self ..))
      show Inv (append b e.1 e.2).1
      rcases append_cases hb e.1 e.2 with ⟨ee, _⟩ | ⟨ee, h1, h2⟩
      · rw [ee]; exact hb
      · rw [ee]; exact appended_inv hb hpos h1 h2
  exact this es _ (empty_inv hf) hx

/-- Non-vacuity of the merge theorem (with a key shared by both pages). -/
example : ∃ b', merge (build 4096 [(1, [1]), (3, [2])]) (build 4096 [(3, [7]), (9, [8]), (3, [9])]) = some b' ∧
    iterate b' = [(1, [1]), (3, [2]), (3, [7]), (3, [9]), (9, [8])] ∧ b'.uniq = 3 := ⟨_, rfl, by decide +kernel⟩

/-- The full claim for merging: whatever the key ranges, a merge that has room keeps all entries of both. -/
def C13_merge_claim : Prop := ∀ (b o : Block Nat), Inv b → Inv o → used (iterate o) ≤ b.avail →
  (∀ e ∈ iterate o, e ∉ iterate b) → ∃ b', merge b o = some b' ∧ (iterate b').Perm (iterate b ++ iterate o)

/-- It fails when the other page lies below this one and holds a different number of entries: the metadata
are moved by the wrong count (block.cpp:530-535). -/
theorem C13_merge_below_fails : ¬ C13_merge_claim := by
  intro h
  obtain ⟨b', e, p⟩ := h (build 4096 [(5, [1]), (6, [2])]) (build 4096 [(1, [7])])
    (build_inv (by decide) _ (by decide)) (build_inv (by decide) _ (by decide)) (by decide +kernel) (by decide +kernel)
  have e' : merge (build 4096 [(5, [1]), (6, [2])]) (build 4096 [(1, [7])]) = some b' := e
  have hm : (5, [1]) ∈ iterate b' := p.mem_iff.mpr (by decide +kernel)
  have : ∀ q, merge (build 4096 [(5, [1]), (6, [2])]) (build 4096 [(1, [7])]) = some q → (5, [1]) ∉ iterate q := by
    intro q hq
    have : q = (merge (build 4096 [(5, [1]), (6, [2])]) (build 4096 [(1, [7])])).get (by rfl) := by
      simp [hq]
    rw [this]
    decide +kernel
  exact this b' e' hm

/-- It also fails when the ranges overlap: the items are read from the wrong page (block.cpp:548-551), so
the other page's item is replaced by bytes of this page. -/
theorem C13_merge_overlap_fails : ¬ C13_merge_claim := by
  intro h
  obtain ⟨b', e, p⟩ := h (build 4096 [(1, [1]), (6, [2])]) (build 4096 [(3, [7])])
    (build_inv (by decide) _ (by decide)) (build_inv (by decide) _ (by decide)) (by decide +kernel) (by decide +kernel)
  have hm : (3, [7]) ∈ iterate b' := p.mem_iff.mpr (by decide +kernel)
  have : b' = (merge (build 4096 [(1, [1]), (6, [2])]) (build 4096 [(3, [7])])).get (by rfl) := by simp [e]
  rw [this] at hm
  revert hm
  decide +kernel

/-- **C13**, splitting to make room.  If an entry does not fit and no item takes more than a quarter of the
page, `split_append` leaves two or three pages whose scans, one after the other, are in key order and hold
exactly the old entries and the new one. -/
theorem C13_split_append_partial {kmin : K} {b : Block K} (h : Inv b) (hf : 16 ≤ b.full) {k : K} {x : Bytes}
    (hx : x ≠ []) (hn : (k, x) ∉ iterate b) (hfull : b.avail < x.length + 24)
    (hsmall : ∀ e ∈ iterate b, e.2.length + 32 ≤ b.full / 4) (hxs : x.length + 32 ≤ b.full / 4) :
    ∃ r, splitAppend kmin b k x = some r ∧ (∀ p ∈ pages r, Inv p) ∧
      ((pages r).flatMap iterate).Perm ((k, x) :: iterate b) ∧
      (((pages r).flatMap iterate).map Prod.fst).Pairwise (· ≤ ·) := by
  have hmem : ∀ e, e ∈ iterate b ↔ e ∈ entries b := fun e => by rw [iterate_eq, List.mem_reverse]
  have hinv := inv_used h
  obtain ⟨r, e, g⟩ := splitAppend_ok (kmin := kmin) h hf (k := k) (x := x) (List.length_pos_iff.mpr hx)
    (fun hc => hn ((hmem _).mpr hc)) (by omega) (fun e he => hsmall e ((hmem _).mpr he)) hxs
  refine ⟨r, e, g.inv, g.perm.trans ?_, g.order⟩
  rw [iterate_eq]
  exact (List.reverse_perm _).symm.cons _

/-- The full claim: without the bound on the item sizes. -/
def C13_split_append_claim : Prop := ∀ (b : Block Nat), Inv b → 16 ≤ b.full → ∀ (k : Nat) (x : Bytes),
  x ≠ [] → 0 < k → (k, x) ∉ iterate b → b.avail < x.length + 24 →
  ∃ r, splitAppend 0 b k x = some r ∧ ((pages r).flatMap iterate).Perm ((k, x) :: iterate b)

theorem claim_mem (h : C13_split_append_claim) (b : Block Nat) (hi : Inv b) (hf : 16 ≤ b.full) (k : Nat) (x : Bytes)
    (hx : x ≠ []) (hk : 0 < k) (hn : k ∉ (iterate b).map Prod.fst) (hr : b.avail < x.length + 24) :
    ((splitAppend 0 b k x).any fun r => decide (k ∈ (pages r).flatMap fun p => p.metas.map (·.key))) = true := by
  obtain ⟨r, e, p⟩ := h b hi hf k x hx hk (fun hc => hn (List.mem_map.mpr ⟨_, hc, rfl⟩)) hr
  rw [e, Option.any_some, decide_eq_true_eq]
  have hm : (k, x) ∈ (pages r).flatMap iterate := p.mem_iff.mpr (List.mem_cons_self ..)
  obtain ⟨q, hq, hq'⟩ := List.mem_flatMap.mp hm
  refine List.mem_flatMap.mpr ⟨q, hq, ?_⟩
  rw [iterate_eq, List.mem_reverse] at hq'
  rw [← entries_keys]
  exact List.mem_map.mpr ⟨_, hq', rfl⟩

/-- It fails when the scan for the middle reaches the end of the page and the new item would fill the page
up to less than the 16 bytes of the header: the test in block.cpp:365 forgets the header, all entries go
to the new page, the new item does not fit there either, and nobody looks at the answer.  The item is lost. -/
theorem C13_split_append_header_fails : ¬ C13_split_append_claim := by
  intro h
  have hm := claim_mem h (build 512 [(5, List.replicate 232 1)])
    (build_inv (by decide) _ (by simp)) (by decide +kernel) 9 (List.replicate 220 2) (by simp) (by decide) (by decide +kernel)
    (by decide +kernel)
  exact absurd hm (by decide +kernel)

/-- It also fails when the new item goes to the lower part: the entry at the splitting point is counted as
moved although it stays (block.cpp:354-355, 370), so a big item may not fit, and it is lost. -/
theorem C13_split_append_lower_fails : ¬ C13_split_append_claim := by
  intro h
  have hm := claim_mem h (build 512 [(5, List.replicate 100 1), (6, List.replicate 10 1), (7, List.replicate 240 1)])
    (build_inv (by decide) _ (by intro e he; simp only [List.mem_cons, List.not_mem_nil, or_false] at he; rcases he with rfl | rfl | rfl <;> exact List.cons_ne_nil _ _)) (by decide +kernel) 4 (List.replicate 330 2) (List.cons_ne_nil _ _) (by decide) (by decide +kernel)
    (by decide +kernel)
  exact absurd hm (by decide +kernel)

/-- Non-vacuity of the positive theorem: a page with five entries, to which a sixth is added. -/
example : let b := build 512 [(5, List.replicate 90 1), (6, List.replicate 80 1), (7, List.replicate 90 1), (8, List.replicate 90 1)]
    b.avail < 60 + 24 ∧ (∀ e ∈ iterate b, e.2.length + 32 ≤ b.full / 4) ∧ b.count = 4 ∧
    (splitAppend 0 b 6 (List.replicate 60 2)).map (fun r => (pages r).map fun p => p.metas.reverse.map (·.key)) = some [[5, 6, 6], [7, 8]] := by
  decide +kernel

end Verif.Block
