import Verif.Buf.Spec
/-! Lemmas for C94: counters, queues and blocks against the objects of the specification. -/
namespace Verif.Buf

open Function

/-! ### Sums -/

theorem sumN_congr {f g : Nat → Nat} : ∀ {n}, (∀ i, i < n → f i = g i) → sumN f n = sumN g n
  | 0, _ => rfl
  | n + 1, h => by
    rw [sumN, sumN, sumN_congr (fun i hi => h i (by omega)), h n (by omega)]

theorem sumN_le {f g : Nat → Nat} : ∀ {n}, (∀ i, i < n → f i ≤ g i) → sumN f n ≤ sumN g n
  | 0, _ => Nat.le_refl _
  | n + 1, h => by
    rw [sumN, sumN]
    exact Nat.add_le_add (sumN_le (fun i hi => h i (by omega))) (h n (by omega))

theorem sumN_update {f : Nat → Nat} {i v : Nat} : ∀ {n}, i < n → sumN (update f i v) n + f i = sumN f n + v
  | 0, h => by omega
  | n + 1, h => by
    rw [sumN, sumN]
    by_cases e : i = n
    · subst e
      rw [sumN_congr (g := f) (fun j hj => update_of_ne (by omega) _ _), update_self]; omega
    · have := sumN_update (f := f) (v := v) (show i < n by omega)
      rw [update_of_ne (by omega)]; omega

theorem sumN_update_ge {f : Nat → Nat} {i v n : Nat} (h : n ≤ i) : sumN (update f i v) n = sumN f n :=
  sumN_congr fun _ hj => update_of_ne (by omega) _ _

theorem sumN_pos {f : Nat → Nat} {i : Nat} : ∀ {n}, i < n → f i ≤ sumN f n
  | 0, h => by omega
  | n + 1, h => by
    rw [sumN]
    by_cases e : i = n
    · subst e; omega
    · have := sumN_pos (f := f) (show i < n by omega); omega

theorem sumN_zero {f : Nat → Nat} : ∀ {n}, (∀ i, i < n → f i = 0) → sumN f n = 0
  | 0, _ => rfl
  | n + 1, h => by rw [sumN, sumN_zero (fun i hi => h i (by omega)), h n (by omega)]

theorem sumZ_congr {f g : Nat → Int} : ∀ {n}, (∀ i, i < n → f i = g i) → sumZ f n = sumZ g n
  | 0, _ => rfl
  | n + 1, h => by
    rw [sumZ, sumZ, sumZ_congr (fun i hi => h i (by omega)), h n (by omega)]

theorem sumZ_update {f : Nat → Int} {i : Nat} {v : Int} : ∀ {n}, i < n → sumZ (update f i v) n = sumZ f n - f i + v
  | 0, h => by omega
  | n + 1, h => by
    rw [sumZ, sumZ]
    by_cases e : i = n
    · subst e
      rw [sumZ_congr (g := f) (fun j hj => update_of_ne (by omega) _ _), update_self]; omega
    · have := sumZ_update (f := f) (v := v) (show i < n by omega)
      rw [update_of_ne (by omega)]; omega

theorem sumZ_zero {f : Nat → Int} : ∀ {n}, (∀ i, i < n → f i = 0) → sumZ f n = 0
  | 0, _ => rfl
  | n + 1, h => by rw [sumZ, sumZ_zero (fun i hi => h i (by omega)), h n (by omega)]; rfl

theorem sumZ_bound {f : Nat → Int} {k : Nat} : ∀ {n}, (∀ i, i < n → (f i).natAbs ≤ k) → (sumZ f n).natAbs ≤ n * k
  | 0, _ => by simp [sumZ]
  | n + 1, h => by
    have h1 := sumZ_bound (f := f) (k := k) (n := n) (fun i hi => h i (by omega))
    have h2 := h n (by omega)
    rw [sumZ, Nat.succ_mul]; omega

/-! ### Counters -/

/-- The memory a block is charged with, counted under `ix`. -/
def wt (ix : Nat) (b : Option Block) : Nat := b.elim 0 fun b => if ix = TOTAL ∨ b.tag = ix then b.charge else 0

def W (blk : Nat → Option Block) (n ix : Nat) : Nat := sumN (fun i => wt ix (blk i)) n

theorem W_update {blk : Nat → Option Block} {n ix i : Nat} {b : Option Block} (h : i < n) :
    W (update blk i b) n ix + wt ix (blk i) = W blk n ix + wt ix b := by
  have e : (fun j => wt ix (update blk i b j)) = update (fun j => wt ix (blk j)) i (wt ix b) := by
    funext j
    by_cases hj : j = i
    · subst hj; simp
    · simp [update_of_ne hj]
  unfold W
  rw [e]
  exact sumN_update (f := fun j => wt ix (blk j)) h

def dl (tag : Nat) (d : Int) (ix : Nat) : Int := if ix = TOTAL ∨ ix = tag then d else 0

/-- What the counter of `ix` says with its caches. -/
def says (s : Pool) (ix : Nat) : Int := s.main ix + sumZ (fun c => s.cache c ix) caches

structure Cnt (s : Pool) (p : Nat → Int) : Prop where
  acc : ∀ ix, says s ix = W s.blk s.next ix + p ix
  small : ∀ c ix, (s.cache c ix).natAbs < threshold

theorem cache_update (s : Pool) (cpu ix jx : Nat) (v : Int) :
    (fun c => update s.cache cpu (update (s.cache cpu) ix v) c jx) =
      if jx = ix then update (fun c => s.cache c jx) cpu v else fun c => s.cache c jx := by
  funext c
  by_cases hc : c = cpu
  · subst hc
    by_cases hj : jx = ix
    · subst hj; simp
    · simp [hj]
  · by_cases hj : jx = ix
    · subst hj; simp [hc]
    · simp [hj, hc]

theorem says_bump (s : Pool) {cpu : Nat} (ix : Nat) (d : Int) (jx : Nat) (hc : cpu < caches) :
    says (bump cpu ix d s) jx = says s jx + if jx = ix then d else 0 := by
  simp only [says, bump]
  split
  · simp only [cache_update]
    by_cases hj : jx = ix
    · subst hj; simp only [if_true, update_self, sumZ_update hc]; omega
    · simp only [if_neg hj, update_of_ne hj]; omega
  · simp only [cache_update]
    by_cases hj : jx = ix
    · subst hj; simp only [if_true, sumZ_update hc]; omega
    · simp only [if_neg hj]; omega

theorem bump_small {s : Pool} {cpu ix : Nat} {d : Int} (h : ∀ c jx, (s.cache c jx).natAbs < threshold) (c jx : Nat) :
    ((bump cpu ix d s).cache c jx).natAbs < threshold := by
  simp only [bump]
  split
  · rename_i hn
    by_cases hc : c = cpu
    · subst hc
      by_cases hj : jx = ix
      · subst hj; simp [threshold]
      · simp [hj, h]
    · simp [hc, h]
  · rename_i hn
    by_cases hc : c = cpu
    · subst hc
      by_cases hj : jx = ix
      · subst hj; simp; omega
      · simp [hj, h]
    · simp [hc, h]

/-- Everything of a pool but its counters. -/
structure SameRest (s s' : Pool) : Prop where
  limit : s'.limit = s.limit
  blk : s'.blk = s.blk
  queue : s'.queue = s.queue
  next : s'.next = s.next
  handle : s'.handle = s.handle
  nextH : s'.nextH = s.nextH
  reserved : s'.reserved = s.reserved

theorem SameRest.refl (s : Pool) : SameRest s s := ⟨rfl, rfl, rfl, rfl, rfl, rfl, rfl⟩

theorem SameRest.trans {a b c : Pool} (h : SameRest a b) (g : SameRest b c) : SameRest a c :=
  ⟨g.limit.trans h.limit, g.blk.trans h.blk, g.queue.trans h.queue, g.next.trans h.next, g.handle.trans h.handle,
    g.nextH.trans h.nextH, g.reserved.trans h.reserved⟩

theorem bump_rest (cpu ix : Nat) (d : Int) (s : Pool) : SameRest s (bump cpu ix d s) := by
  simp only [bump]; split <;> exact ⟨rfl, rfl, rfl, rfl, rfl, rfl, rfl⟩

theorem account_rest (t tag : Nat) (d : Int) (s : Pool) : SameRest s (account t tag d s) := by
  simp only [account]
  split
  · exact (bump_rest _ _ _ _).trans (bump_rest _ _ _ _)
  · exact ⟨rfl, rfl, rfl, rfl, rfl, rfl, rfl⟩

theorem addDead_rest (q : Nat) (d : Int) (s : Pool) : SameRest s (addDead q d s) := ⟨rfl, rfl, rfl, rfl, rfl, rfl, rfl⟩

theorem says_account (s : Pool) (t : Nat) {tag : Nat} (d : Int) (h : tag < TOTAL) (ix : Nat) :
    says (account t tag d s) ix = says s ix + dl tag d ix := by
  have hc : t % caches < caches := Nat.mod_lt _ (by decide)
  simp only [account]
  split
  · rw [says_bump _ _ _ _ hc, says_bump _ _ _ _ hc, dl]
    by_cases h1 : ix = tag
    · subst h1
      have : ix ≠ TOTAL := by omega
      simp [this]
    · by_cases h2 : ix = TOTAL
      · simp [h2, show TOTAL ≠ tag by omega]
      · simp [h1, h2]
  · simp only [says, dl]
    by_cases h1 : ix = tag
    · subst h1
      have : ix ≠ TOTAL := by omega
      simp [this]; omega
    · by_cases h2 : ix = TOTAL
      · subst h2; simp [h1]; omega
      · simp [h1, h2]

theorem account_small {s : Pool} {t tag : Nat} {d : Int} (h : ∀ c jx, (s.cache c jx).natAbs < threshold) (c jx : Nat) :
    ((account t tag d s).cache c jx).natAbs < threshold := by
  simp only [account]
  split
  · exact bump_small (bump_small h) c jx
  · exact h c jx

theorem Cnt.account {s : Pool} {p : Nat → Int} (h : Cnt s p) (t : Nat) {tag : Nat} (d : Int) (ht : tag < TOTAL) :
    Cnt (account t tag d s) (fun ix => p ix + dl tag d ix) := by
  have r := account_rest t tag d s
  refine ⟨fun ix => ?_, account_small h.small⟩
  rw [says_account s t d ht, h.acc, r.blk, r.next]; omega

theorem Cnt.dead {s : Pool} {p : Nat → Int} (h : Cnt s p) (q : Nat) (d : Int) : Cnt (addDead q d s) p := ⟨h.acc, h.small⟩

/-- The total counter is not far from the truth. -/
theorem Cnt.near {s : Pool} {p : Nat → Int} (h : Cnt s p) :
    ((W s.blk s.next TOTAL : Int) + p TOTAL - s.main TOTAL).natAbs ≤ slack := by
  have h1 := h.acc TOTAL
  have h2 : (sumZ (fun c => s.cache c TOTAL) caches).natAbs ≤ caches * 32767 :=
    sumZ_bound fun c _ => by have := h.small c TOTAL; simp only [threshold] at this; omega
  simp only [says] at h1
  simp only [caches] at h1 h2
  simp only [slack]
  omega

/-! ### Blocks and queues -/

structure BOk (b : Block) : Prop where
  tag : b.tag < TOTAL
  charge : b.charge = if b.data.isSome then b.alloc else 0
  tiny : b.tiny = true → b.data.isSome = true
  readers : b.tiny = false → b.data.isSome = true → b.readers = b.pins
  pinned : b.data = none → b.pins = 0

def Bks (s : Pool) : Prop := ∀ i b, s.blk i = some b → i < s.next ∧ BOk b

/-- Nobody has pinned it and it is in memory. -/
def Block.idle (b : Block) : Prop := b.tiny = false ∧ b.data.isSome = true ∧ b.pins = 0

structure Qs (s : Pool) (Q : Nat → List Node) : Prop where
  queued : ∀ i b, s.blk i = some b → b.idle → (⟨i, b.seq⟩ : Node) ∈ Q 1
  nodes : ∀ q n, n ∈ Q q → q = 1 ∧ n.block < s.next ∧ ∀ b, s.blk n.block = some b → b.tiny = false

structure Inv (s : Pool) (p : Nat → Int) (Q : Nat → List Node) : Prop where
  cnt : Cnt s p
  bks : Bks s
  qs : Qs s Q

/-- A block unchanged, or one nobody had pinned unloaded. -/
def Ev (a b : Option Block) : Prop :=
  b = a ∨ ∃ x, a = some x ∧ x.idle ∧ b = some { x with data := none, charge := 0 }

theorem Ev.trans {a b c : Option Block} (h : Ev a b) (g : Ev b c) : Ev a c := by
  rcases h with rfl | ⟨x, rfl, hx, rfl⟩
  · exact g
  · rcases g with rfl | ⟨y, hy, hi, rfl⟩
    · exact .inr ⟨x, rfl, hx, rfl⟩
    · cases hy; exact absurd hi.2.1 (by simp)

structure Frame (s s' : Pool) : Prop where
  limit : s'.limit = s.limit
  next : s'.next = s.next
  handle : s'.handle = s.handle
  nextH : s'.nextH = s.nextH
  reserved : s'.reserved = s.reserved
  blk : ∀ i, Ev (s.blk i) (s'.blk i)

theorem Frame.refl (s : Pool) : Frame s s := ⟨rfl, rfl, rfl, rfl, rfl, fun _ => .inl rfl⟩

theorem Frame.trans {a b c : Pool} (h : Frame a b) (g : Frame b c) : Frame a c :=
  ⟨g.limit.trans h.limit, g.next.trans h.next, g.handle.trans h.handle, g.nextH.trans h.nextH,
    g.reserved.trans h.reserved, fun i => (h.blk i).trans (g.blk i)⟩

theorem SameRest.frame {a b : Pool} (h : SameRest a b) : Frame a b :=
  ⟨h.limit, h.next, h.handle, h.nextH, h.reserved, fun _ => .inl (by rw [h.blk])⟩

theorem SameRest.bks {a b : Pool} (h : SameRest a b) (g : Bks a) : Bks b := by
  intro i x hx
  rw [h.blk] at hx; rw [h.next]; exact g i x hx

theorem SameRest.qs {a b : Pool} {Q : Nat → List Node} (h : SameRest a b) (g : Qs a Q) : Qs b Q := by
  constructor
  · intro i x hx; rw [h.blk] at hx; exact g.queued i x hx
  · intro q n hn; rw [h.blk, h.next]; exact g.nodes q n hn

theorem Inv.account {s : Pool} {p : Nat → Int} {Q : Nat → List Node} (h : Inv s p Q) (t : Nat) {tag : Nat} (d : Int)
    (ht : tag < TOTAL) : Inv (account t tag d s) (fun ix => p ix + dl tag d ix) Q :=
  ⟨h.cnt.account t d ht, (account_rest t tag d s).bks h.bks, (account_rest t tag d s).qs h.qs⟩

theorem Inv.congr {s : Pool} {p p' : Nat → Int} {Q : Nat → List Node} (h : Inv s p Q) (e : ∀ ix, p' ix = p ix) : Inv s p' Q :=
  ⟨⟨fun ix => by rw [e]; exact h.cnt.acc ix, h.cnt.small⟩, h.bks, h.qs⟩

theorem Inv.noNode {s : Pool} {p : Nat → Int} {Q Q' : Nat → List Node} {n : Node} (h : Inv s p Q)
    (hQ : ∀ q m, m ∈ Q q → m = n ∨ m ∈ Q' q) (hQ' : ∀ q m, m ∈ Q' q → m ∈ Q q)
    (hn : ∀ b, s.blk n.block = some b → b.idle → n.seq ≠ b.seq) : Inv s p Q' := by
  refine ⟨h.cnt, h.bks, ⟨fun i b hb hi => ?_, fun q m hm => h.qs.nodes q m (hQ' q m hm)⟩⟩
  rcases hQ 1 _ (h.qs.queued i b hb hi) with e | e
  · subst e
    exact absurd rfl (hn b hb hi)
  · exact e

theorem unload_inv {s : Pool} {p : Nat → Int} {Q : Nat → List Node} (h : Inv s p Q) (t : Nat) {i : Nat} {b : Block}
    (hb : s.blk i = some b) (hi : b.idle) : Inv (unload t i b s) p Q := by
  obtain ⟨hlt, ok⟩ := h.bks i b hb
  have r := account_rest t b.tag (-b.charge) s
  have g := h.cnt.account t (-(b.charge : Int)) ok.tag
  refine ⟨⟨fun ix => ?_, g.small⟩, ?_, ?_⟩
  · have e := g.acc ix
    have e2 : says (unload t i b s) ix = says (account t b.tag (-b.charge) s) ix := rfl
    rw [e2, e, r.blk, r.next]
    have u := W_update (blk := s.blk) (ix := ix) (b := some { b with data := none, charge := 0 }) hlt
    simp only [unload, r.blk, r.next]
    rw [hb] at u
    simp only [wt, Option.elim, dl] at u ⊢
    by_cases c1 : ix = TOTAL
    · simp only [c1, true_or, if_true] at u ⊢; omega
    · by_cases c2 : ix = b.tag
      · subst c2; simp only [or_true, if_true] at u ⊢; omega
      · simp only [c1, c2, Ne.symm c2, or_self, if_false] at u ⊢; omega
  · intro j x hx
    simp only [unload, r.blk] at hx
    simp only [unload, r.next]
    by_cases hj : j = i
    · subst hj
      rw [update_self] at hx
      cases hx
      refine ⟨hlt, ⟨ok.tag, by simp, fun e => ?_, fun _ e => by simp at e, fun _ => hi.2.2⟩⟩
      simp [hi.1] at e
    · rw [update_of_ne hj] at hx; exact h.bks j x hx
  · constructor
    · intro j x hx hxi
      simp only [unload, r.blk] at hx
      by_cases hj : j = i
      · subst hj
        rw [update_self] at hx
        cases hx
        exact absurd hxi.2.1 (by simp)
      · rw [update_of_ne hj] at hx; exact h.qs.queued j x hx hxi
    · intro q n hn
      obtain ⟨h1, h2, h3⟩ := h.qs.nodes q n hn
      simp only [unload, r.blk, r.next]
      refine ⟨h1, h2, fun x hx => ?_⟩
      by_cases hj : n.block = i
      · rw [hj, update_self] at hx
        cases hx; exact hi.1
      · rw [update_of_ne hj] at hx; exact h3 x hx

theorem unload_frame (s : Pool) (t : Nat) {i : Nat} {b : Block} (hb : s.blk i = some b) (hi : b.idle) :
    Frame s (unload t i b s) := by
  have r := account_rest t b.tag (-b.charge) s
  refine ⟨r.limit, r.next, r.handle, r.nextH, r.reserved, fun j => ?_⟩
  simp only [unload, r.blk]
  by_cases hj : j = i
  · subst hj; rw [update_self]; exact .inr ⟨b, hb, hi, rfl⟩
  · rw [update_of_ne hj]; exact .inl rfl

theorem unload_W (s : Pool) (t : Nat) {i : Nat} {b : Block} (hb : s.blk i = some b) (hlt : i < s.next) (ix : Nat) :
    W (unload t i b s).blk (unload t i b s).next ix + wt ix (some b) = W s.blk s.next ix := by
  have r := account_rest t b.tag (-b.charge) s
  have u := W_update (blk := s.blk) (ix := ix) (b := some { b with data := none, charge := 0 }) hlt
  simp only [unload, r.blk, r.next]
  rw [hb] at u
  have : wt ix (some { b with data := none, charge := 0 }) = 0 := by simp [wt]
  omega

theorem setQueue_inv {s : Pool} {p : Nat → Int} {Q : Nat → List Node} (h : Inv s p Q) :
    Inv { s with queue := Q } p Q := ⟨⟨h.cnt.acc, h.cnt.small⟩, h.bks, ⟨h.qs.queued, h.qs.nodes⟩⟩

/-- A node that can be used is that of an idle block. -/
theorem get_some {s : Pool} {p : Nat → Int} {Q : Nat → List Node} (h : Inv s p Q) {q : Nat} {n : Node} (hn : n ∈ Q q) {b : Block}
    (hg : n.get s = some b) : s.blk n.block = some b ∧ b.idle := by
  simp only [Node.get] at hg
  split at hg
  · cases hg
  · rename_i x hx
    split at hg
    · rename_i hc
      obtain rfl : x = b := by simpa using hg
      have ht := (h.qs.nodes q n hn).2.2 x hx
      obtain ⟨_, hu⟩ := hc
      simp only [Block.canUnload, Bool.and_eq_true, beq_iff_eq] at hu
      refine ⟨hx, ht, hu.1, ?_⟩
      rw [← (h.bks n.block x hx).2.readers ht hu.1]; exact hu.2
    · cases hg

theorem get_none {s : Pool} {n : Node} (hb : Bks s) (hg : n.get s = none) (b : Block) (h : s.blk n.block = some b) (hi : b.idle) :
    n.seq ≠ b.seq := by
  intro e
  have hr := (hb _ _ h).2.readers hi.1 hi.2.1
  simp [Node.get, h, e, Block.canUnload, hi.2.1, hr, hi.2.2] at hg

/-- Nothing is idle. -/
def Tight (s : Pool) : Prop := ∀ i b, s.blk i = some b → ¬ b.idle

theorem iterate_spec (t extra lim : Nat) (want : Bool) (l : List Node) :
    ∀ (s : Pool) (p : Nat → Int) (s' : Pool) (r : Option (Option Data)), Inv s p (update s.queue 1 l) →
      iterate t extra lim want 1 l s = (s', r) →
      Frame s s' ∧ Inv s' p s'.queue ∧
      (r = none → Tight s' ∧ (lim < used s → lim < used s')) ∧
      (r = some none → used s' ≤ lim) ∧
      (∀ d, r = some (some d) → want = true ∧ W s'.blk s'.next TOTAL + extra ≤ W s.blk s.next TOTAL) := by
  induction l with
  | nil =>
    intro s p s' r h e
    simp only [iterate, Prod.mk.injEq] at e
    obtain ⟨rfl, rfl⟩ := e
    refine ⟨⟨rfl, rfl, rfl, rfl, rfl, fun _ => .inl rfl⟩, setQueue_inv h, fun _ => ⟨fun i b hb hi => ?_, id⟩, by simp, by simp⟩
    simpa using h.qs.queued i b hb hi
  | cons n ns ih =>
    intro s p s' r h e
    have sub : ∀ q m, m ∈ update s.queue 1 (n :: ns) q → m = n ∨ m ∈ update s.queue 1 ns q := by
      intro q m hm
      by_cases hq : q = 1
      · subst hq; simpa using hm
      · simp only [update_of_ne hq] at hm ⊢; exact .inr hm
    have sub' : ∀ q m, m ∈ update s.queue 1 ns q → m ∈ update s.queue 1 (n :: ns) q := by
      intro q m hm
      by_cases hq : q = 1
      · subst hq; simp only [update_self] at hm ⊢; exact List.mem_cons_of_mem _ hm
      · simp only [update_of_ne hq] at hm ⊢; exact hm
    simp only [iterate] at e
    cases hg : n.get s with
    | none =>
      simp only [hg] at e
      have h1 : Inv (addDead 1 (-1) s) p (update (addDead 1 (-1) s).queue 1 ns) := by
        have h2 := h.noNode sub sub' (fun b hb hi => get_none h.bks hg b hb hi)
        exact ⟨h2.cnt.dead 1 (-1), h2.bks, ⟨h2.qs.queued, h2.qs.nodes⟩⟩
      obtain ⟨f, i1, i2, i3, i4⟩ := ih _ _ _ _ h1 e
      exact ⟨(addDead_rest 1 (-1) s).frame.trans f, i1, i2, i3, i4⟩
    | some b =>
      simp only [hg] at e
      obtain ⟨hb, hi⟩ := get_some h (q := 1) (n := n) (by simp) hg
      have hu := unload_inv h t hb hi
      have hf := unload_frame s t hb hi
      have hblk := (h.bks _ _ hb)
      have hW := unload_W s t hb hblk.1 TOTAL
      have r1 := account_rest t b.tag (-b.charge) s
      have hq : (unload t n.block b s).queue = s.queue := r1.queue
      have hu2 : Inv (unload t n.block b s) p (update (unload t n.block b s).queue 1 ns) := by
        refine hu.noNode (n := n) ?_ ?_ ?_
        · rw [hq]; exact sub
        · rw [hq]; exact sub'
        · intro x hx hxi
          simp only [unload, update_self] at hx
          cases hx
          exact absurd hxi.2.1 (by simp)
      split at e
      · rename_i hw
        simp only [Prod.mk.injEq] at e
        obtain ⟨rfl, rfl⟩ := e
        refine ⟨⟨hf.limit, hf.next, hf.handle, hf.nextH, hf.reserved, hf.blk⟩, setQueue_inv hu2, ?_, ?_, ?_⟩
        · intro e; cases e
        · intro e
          have e' : b.data = none := by simpa using e
          simp [Block.idle, e'] at hi
        · intro d _
          refine ⟨hw.1, ?_⟩
          have : wt TOTAL (some b) = extra := by simp [wt, hblk.2.charge, hi.2.1, hw.2]
          simp only; omega
      · split at e
        · rename_i hlim
          simp only [Prod.mk.injEq] at e
          obtain ⟨rfl, rfl⟩ := e
          exact ⟨⟨hf.limit, hf.next, hf.handle, hf.nextH, hf.reserved, hf.blk⟩, setQueue_inv hu2, by simp, fun _ => hlim, by simp⟩
        · rename_i hlim
          obtain ⟨f, i1, i2, i3, i4⟩ := ih _ _ _ _ hu2 e
          refine ⟨hf.trans f, i1, fun hr => ⟨(i2 hr).1, fun _ => (i2 hr).2 (by omega)⟩, i3, fun d hd => ?_⟩
          have := i4 d hd
          exact ⟨this.1, by omega⟩

theorem Tight.frame {s s' : Pool} (h : Tight s) (f : Frame s s') : s'.blk = s.blk := by
  funext i
  rcases f.blk i with e | ⟨x, hx, hi, _⟩
  · exact e
  · exact absurd hi (h i x hx)

theorem evictFrom_spec (t tag extra lim : Nat) (want : Bool) (ht : tag < TOTAL) (qs : List Nat) :
    ∀ (s : Pool) (p : Nat → Int) (s' : Pool) (r : Option (Option Data)), Inv s p s.queue →
      evictFrom t tag extra lim want qs s = (s', r) →
      Frame s s' ∧
      (r = none → Inv s' p s'.queue ∧ ((1 ∈ qs ∨ (Tight s ∧ (lim : Int) < W s.blk s.next TOTAL + p TOTAL + extra + slack)) →
        Tight s' ∧ (lim : Int) < W s'.blk s'.next TOTAL + p TOTAL + extra + slack)) ∧
      (∀ x, r = some x → Inv s' (fun ix => p ix + dl tag extra ix) s'.queue) ∧
      (r = some none → used s' ≤ lim) ∧
      (∀ d, r = some (some d) → want = true ∧ W s'.blk s'.next TOTAL + extra ≤ W s.blk s.next TOTAL) := by
  induction qs with
  | nil =>
    intro s p s' r h e
    simp only [evictFrom, Prod.mk.injEq] at e
    obtain ⟨rfl, rfl⟩ := e
    exact ⟨.refl _, fun _ => ⟨h, fun g => g.elim (fun g => by simp at g) id⟩, by simp, by simp, by simp⟩
  | cons q qs ih =>
    intro s p s' r h e
    have a := h.account t (extra : Int) ht
    have ar := account_rest t tag extra s
    simp only [evictFrom] at e
    split at e
    · rename_i hl
      simp only [Prod.mk.injEq] at e
      obtain ⟨rfl, rfl⟩ := e
      refine ⟨ar.frame, by simp, fun _ _ => ?_, fun _ => hl, by simp⟩
      rw [ar.queue]; exact a
    · rename_i hl
      -- the pool after looking through queue `q`
      have key : ∀ s2 r2, iterate t extra lim want q ((account t tag extra s).queue q) (account t tag extra s) = (s2, r2) →
          Frame (account t tag extra s) s2 ∧ Inv s2 (fun ix => p ix + dl tag extra ix) s2.queue ∧
          (r2 = none → lim < used s2 ∧ (q = 1 → Tight s2)) ∧
          (r2 = some none → used s2 ≤ lim) ∧
          (∀ d, r2 = some (some d) → want = true ∧
            W s2.blk s2.next TOTAL + extra ≤ W (account t tag extra s).blk (account t tag extra s).next TOTAL) := by
        intro s2 r2 e2
        by_cases hq : q = 1
        · subst hq
          have a' : Inv (account t tag extra s) (fun ix => p ix + dl tag extra ix)
              (update (account t tag extra s).queue 1 ((account t tag extra s).queue 1)) := by
            rw [update_eq_self, ar.queue]; exact a
          obtain ⟨f, i1, i2, i3, i4⟩ := iterate_spec t extra lim want _ _ _ _ _ a' e2
          exact ⟨f, i1, fun hr => ⟨(i2 hr).2 (by omega), fun _ => (i2 hr).1⟩, i3, i4⟩
        · have hn : (account t tag extra s).queue q = [] := by
            rw [ar.queue]
            cases hc : s.queue q with
            | nil => rfl
            | cons n ns => exact absurd (h.qs.nodes q n (by rw [hc]; simp)).1 hq
          rw [hn] at e2
          simp only [iterate, Prod.mk.injEq] at e2
          obtain ⟨rfl, rfl⟩ := e2
          have hu : update (account t tag extra s).queue q [] = (account t tag extra s).queue := by
            rw [← hn]; exact update_eq_self _ _
          refine ⟨⟨rfl, rfl, rfl, rfl, rfl, fun _ => .inl rfl⟩, ?_, fun _ => ⟨by simpa [used] using hl, fun e => absurd e hq⟩, by simp, by simp⟩
          simp only
          rw [hu]
          have a2 := a
          rw [← ar.queue] at a2
          exact a2
      cases hit : iterate t extra lim want q ((account t tag extra s).queue q) (account t tag extra s) with
      | mk s2 r2 =>
        obtain ⟨f, i1, i2, i3, i4⟩ := key s2 r2 hit
        rw [hit] at e
        cases r2 with
        | some x =>
          simp only [Prod.mk.injEq] at e
          obtain ⟨rfl, rfl⟩ := e
          refine ⟨ar.frame.trans f, by simp, fun _ _ => i1, fun hx => i3 hx, fun d hd => ?_⟩
          have := i4 d hd
          rwa [ar.blk, ar.next] at this
        | none =>
          simp only at e
          obtain ⟨j1, j2⟩ := i2 rfl
          have br := account_rest t tag (-extra) s2
          have b := (i1.account t (-(extra : Int)) ht).congr (p' := p) (fun ix => by simp only [dl]; split <;> omega)
          rw [← br.queue] at b
          obtain ⟨f2, k1, k2, k3, k4⟩ := ih _ _ _ _ b e
          refine ⟨(ar.frame.trans f).trans (br.frame.trans f2), fun hr => ⟨(k1 hr).1, fun hor => (k1 hr).2 ?_⟩, k2, k3, fun d hd => ?_⟩
          · by_cases hm : 1 ∈ qs
            · exact .inl hm
            · right
              rw [br.blk, br.next]
              have nr := i1.cnt.near
              have hdl : dl tag extra TOTAL = extra := by simp [dl]
              simp only [hdl] at nr
              simp only [used] at j1
              have tight : Tight s2 := by
                rcases hor with hm' | ⟨ht', _⟩
                · rcases List.mem_cons.1 hm' with e | e
                  · exact j2 e.symm
                  · exact absurd e hm
                · intro i x hx
                  rw [Tight.frame (s := account t tag extra s) (fun i b hb => ht' i b (by rw [ar.blk] at hb; exact hb)) f, ar.blk] at hx
                  exact ht' i x hx
              exact ⟨fun i x hx => tight i x (by rw [br.blk] at hx; exact hx), by omega⟩
          · have h4 := k4 d hd
            refine ⟨h4.1, ?_⟩
            have hle : W s2.blk s2.next TOTAL ≤ W s.blk s.next TOTAL := by
              have hfr := ar.frame.trans f
              unfold W
              rw [hfr.next]
              refine sumN_le fun i _ => ?_
              rcases hfr.blk i with e | ⟨x, hx, _, e⟩
              · rw [e]; exact Nat.le_refl _
              · rw [e]; simp [wt]
            rw [br.blk, br.next] at h4
            omega

end Verif.Buf
