import Verif.Buf.Lemmas
/-! Lemmas for C94: every call keeps a pool and the objects of the specification together. -/
namespace Verif.Buf

open Function

structure Match (b : Block) (o : Obj) : Prop where
  tag : o.tag = b.tag
  size : o.size = b.usable
  cost : o.cost = b.alloc
  small : o.small = b.tiny
  spare : o.spare = b.spare
  refs : o.refs = b.refs
  pins : o.pins = b.pins
  doubt : b.data = none → o.doubt = true
  cell : ∀ d, b.data = some d → ∀ k v, o.cell k = some v → d k = v

def Same : Option Block → Option Obj → Prop
  | none, none => True
  | some b, some o => Match b o
  | _, _ => False

/-- How many buffer handles hold block `i`. -/
def holds (handle : Nat → Option Nat) (i n : Nat) : Nat := sumN (fun h => if handle h = some i then 1 else 0) n

structure Hs (s : Pool) : Prop where
  live : ∀ h i, s.handle h = some i → h < s.nextH ∧ ∃ b, s.blk i = some b
  count : ∀ i b, s.blk i = some b → b.pins = holds s.handle i s.nextH

structure Core (s : Pool) (st : Ideal) (p : Nat → Int) : Prop where
  limit : st.limit = s.limit
  reserved : st.reserved = s.reserved
  next : st.next = s.next
  nextH : st.nextH = s.nextH
  handle : st.handle = s.handle
  same : ∀ i, Same (s.blk i) (st.obj i)
  inv : Inv s p s.queue
  hs : Hs s

structure Rel (s : Pool) (st : Ideal) : Prop where
  core : Core s st (dl extension s.reserved)
  bound : W s.blk s.next TOTAL + s.reserved ≤ s.limit + slack

theorem Core.some {s : Pool} {st : Ideal} {p : Nat → Int} (h : Core s st p) {i : Nat} {b : Block} (hb : s.blk i = some b) :
    ∃ o, st.obj i = some o ∧ Match b o := by
  have := h.same i
  rw [hb] at this
  cases ho : st.obj i with
  | none => rw [ho] at this; exact this.elim
  | some o => rw [ho] at this; exact ⟨o, rfl, this⟩

theorem Core.none {s : Pool} {st : Ideal} {p : Nat → Int} (h : Core s st p) {i : Nat} (hb : s.blk i = none) :
    st.obj i = none := by
  have := h.same i
  rw [hb] at this
  cases ho : st.obj i with
  | none => rfl
  | some o => rw [ho] at this; exact this.elim

/-! ### Totals -/

theorem total_cost {s : Pool} {st : Ideal} {p : Nat → Int} (h : Core s st p) (ix : Nat) :
    W s.blk s.next ix ≤ st.total (Obj.under ix) := by
  unfold W Ideal.total
  rw [h.next]
  refine sumN_le fun i _ => ?_
  cases hb : s.blk i with
  | none => simp [wt]
  | some b =>
    obtain ⟨o, ho, m⟩ := h.some hb
    have c := (h.inv.bks i b hb).2.charge
    simp only [ho, wt, Option.elim, Obj.under, m.tag, m.cost, c, TOTAL]
    split
    · split <;> omega
    · omega

theorem under_total (o : Obj) : Obj.under 13 o = o.cost := by simp [Obj.under]

theorem total_cost' {s : Pool} {st : Ideal} {p : Nat → Int} (h : Core s st p) : W s.blk s.next TOTAL ≤ st.total Obj.cost := by
  have := total_cost h TOTAL
  rwa [show Obj.under TOTAL = Obj.cost from funext under_total] at this

theorem total_stays {s : Pool} {st : Ideal} {p : Nat → Int} (h : Core s st p) (ix : Nat) :
    st.total (fun o => if o.stays then o.under ix else 0) ≤ W s.blk s.next ix := by
  unfold W Ideal.total
  rw [h.next]
  refine sumN_le fun i _ => ?_
  cases hb : s.blk i with
  | none => simp [h.none hb]
  | some b =>
    obtain ⟨o, ho, m⟩ := h.some hb
    obtain ⟨_, ok⟩ := h.inv.bks i b hb
    simp only [ho, wt, Option.elim, Obj.under, m.tag, m.cost, ok.charge, TOTAL]
    by_cases hs : o.stays = true
    · have hd : b.data.isSome = true := by
        simp only [Obj.stays, Bool.or_eq_true, decide_eq_true_eq, m.small, m.pins] at hs
        rcases hs with e | e
        · exact ok.tiny e
        · cases hd : b.data with
          | none => have := ok.pinned hd; omega
          | some _ => rfl
      simp [hs, hd]
    · simp [hs]

theorem tight_stays {s s' : Pool} {st : Ideal} {p : Nat → Int} (h : Core s st p) (f : Frame s s') (ht : Tight s') :
    W s'.blk s'.next TOTAL ≤ st.total (fun o => if o.stays then o.cost else 0) := by
  unfold W Ideal.total
  rw [f.next, h.next]
  refine sumN_le fun i _ => ?_
  rcases f.blk i with e | ⟨x, _, _, e⟩
  · rw [e]
    cases hb : s.blk i with
    | none => simp [wt]
    | some b =>
      obtain ⟨o, ho, m⟩ := h.some hb
      obtain ⟨_, ok⟩ := h.inv.bks i b hb
      simp only [ho, wt, Option.elim, m.cost, ok.charge]
      cases hd : b.data with
      | none => simp
      | some d =>
        have hs : o.stays = true := by
          by_contra hc
          refine ht i b (by rw [e, hb]) ⟨?_, by simp [hd], ?_⟩
          · simp only [Obj.stays, Bool.or_eq_true, decide_eq_true_eq, m.small, m.pins, not_or] at hc
            simpa using hc.1
          · simp only [Obj.stays, Bool.or_eq_true, decide_eq_true_eq, m.small, m.pins, not_or] at hc
            omega
        simp [hs]
  · rw [e]; simp [wt]

/-! ### Requests for memory -/

theorem request_same {s s' : Pool} {st : Ideal} {need lim : Nat} (h : ∀ i, Same (s.blk i) (st.obj i)) (f : Frame s s')
    (hr : ¬ st.short need lim → s'.blk = s.blk) (i : Nat) : Same (s'.blk i) ((st.request need lim).obj i) := by
  unfold Ideal.request
  by_cases hs : st.short need lim
  · rw [if_pos hs]
    have hi := h i
    cases hb : s.blk i with
    | none =>
      rw [hb] at hi
      cases ho : st.obj i with
      | some o => rw [ho] at hi; exact hi.elim
      | none =>
        rcases f.blk i with e | ⟨x, hx, _, _⟩
        · rw [e, hb]; simp only [ho, Option.map]; trivial
        · rw [hb] at hx; cases hx
    | some b =>
      rw [hb] at hi
      cases ho : st.obj i with
      | none => rw [ho] at hi; exact hi.elim
      | some o =>
        rw [ho] at hi
        have m : Match b o := hi
        simp only [ho, Option.map]
        rcases f.blk i with e | ⟨x, hx, hid, e⟩
        · rw [e, hb]
          by_cases hst : o.stays = true
          · rw [if_pos hst]; exact m
          · rw [if_neg hst]
            exact ⟨m.tag, m.size, m.cost, m.small, m.spare, m.refs, m.pins, fun _ => rfl, m.cell⟩
        · rw [hb] at hx
          obtain rfl : b = x := by simpa using hx
          have hst : ¬ o.stays = true := by
            simp [Obj.stays, m.small, m.pins, hid.1, hid.2.2]
          rw [if_neg hst, e]
          exact ⟨m.tag, m.size, m.cost, m.small, m.spare, m.refs, m.pins, fun _ => rfl, fun d hd => by cases hd⟩
  · rw [if_neg hs, hr hs]; exact h i

theorem request_limit (st : Ideal) (n l : Nat) : (st.request n l).limit = st.limit := by unfold Ideal.request; split <;> rfl
theorem request_reserved (st : Ideal) (n l : Nat) : (st.request n l).reserved = st.reserved := by
  unfold Ideal.request; split <;> rfl
theorem request_next (st : Ideal) (n l : Nat) : (st.request n l).next = st.next := by unfold Ideal.request; split <;> rfl
theorem request_nextH (st : Ideal) (n l : Nat) : (st.request n l).nextH = st.nextH := by unfold Ideal.request; split <;> rfl
theorem request_handle (st : Ideal) (n l : Nat) : (st.request n l).handle = st.handle := by unfold Ideal.request; split <;> rfl

theorem Frame.hs {s s' : Pool} (f : Frame s s') (h : Hs s) : Hs s' := by
  constructor
  · intro a i ha
    rw [f.handle] at ha
    obtain ⟨h1, b, hb⟩ := h.live a i ha
    refine ⟨by rw [f.nextH]; exact h1, ?_⟩
    rcases f.blk i with e | ⟨x, _, _, e⟩
    · exact ⟨b, by rw [e, hb]⟩
    · exact ⟨_, e⟩
  · intro i b hb
    rw [f.handle, f.nextH]
    rcases f.blk i with e | ⟨x, hx, _, e⟩
    · exact h.count i b (by rw [← e, hb])
    · rw [hb] at e
      cases e
      exact h.count i x hx

theorem evict_core {s : Pool} {st : Ideal} {p : Nat → Int} (h : Core s st p) (hp : p TOTAL = s.reserved) (t : Nat) {tag : Nat}
    (ht : tag < TOTAL) (extra lim : Nat) (want : Bool) {s' : Pool} {r : Option (Option Data)}
    (e : evict t tag extra lim want s = (s', r)) :
    Frame s s' ∧
    (r = none → Core s' (st.request extra lim) p ∧ st.exhausted extra lim) ∧
    (∀ x, r = some x → Core s' (st.request extra lim) (fun ix => p ix + dl tag extra ix)) ∧
    (r = some none → W s'.blk s'.next TOTAL + s.reserved + extra ≤ lim + slack) ∧
    (∀ d, r = some (some d) → want = true ∧ W s'.blk s'.next TOTAL + extra ≤ W s.blk s.next TOTAL) := by
  obtain ⟨f, a1, a2, a3, a4⟩ := evictFrom_spec t tag extra lim want ht _ _ _ _ _ h.inv e
  have roomy : ¬ st.short extra lim → s'.blk = s.blk := by
    intro hs
    have hs' : st.total Obj.cost + st.reserved + extra + slack ≤ lim := by
      unfold Ideal.short at hs; omega
    have near := (h.inv.account t (extra : Int) ht).cnt.near
    have ar := account_rest t tag extra s
    have hdl : dl tag extra TOTAL = extra := by simp [dl]
    simp only [hdl, hp, ar.blk, ar.next] at near
    have hc := total_cost' h
    have hu : used (account t tag extra s) ≤ lim := by
      unfold used; rw [h.reserved] at hs'; omega
    have : List.range queueSizes.sum = 0 :: [1, 2, 3, 4, 5, 6, 7] := by decide
    rw [evict, this] at e
    simp only [evictFrom, hu, if_true, Prod.mk.injEq] at e
    rw [← e.1, ar.blk]
  have core : ∀ p', Inv s' p' s'.queue → Core s' (st.request extra lim) p' := fun p' hi =>
    ⟨by rw [request_limit, h.limit, f.limit], by rw [request_reserved, h.reserved, f.reserved],
      by rw [request_next, h.next, f.next], by rw [request_nextH, h.nextH, f.nextH],
      by rw [request_handle, h.handle, f.handle], request_same h.same f roomy, hi, f.hs h.hs⟩
  refine ⟨f, fun hr => ?_, fun x hx => core _ (a2 x hx), fun hr => ?_, a4⟩
  · obtain ⟨i1, i2⟩ := a1 hr
    obtain ⟨t1, t2⟩ := i2 (.inl (by decide))
    refine ⟨core _ i1, ?_⟩
    have := tight_stays h f t1
    rw [hp] at t2
    unfold Ideal.exhausted
    rw [h.reserved]
    omega
  · have near := (a2 none hr).cnt.near
    have hu := a3 hr
    have hdl : dl tag extra TOTAL = extra := by simp [dl]
    simp only [hdl, hp] at near
    unfold used at hu
    omega

theorem frame_W {s s' : Pool} (f : Frame s s') (ix : Nat) : W s'.blk s'.next ix ≤ W s.blk s.next ix := by
  unfold W
  rw [f.next]
  refine sumN_le fun i _ => ?_
  rcases f.blk i with e | ⟨x, _, _, e⟩
  · rw [e]; exact Nat.le_refl _
  · rw [e]; simp [wt]

/-! ### One block changes -/

theorem inv_set {s s' : Pool} {p : Nat → Int} {Q Q' : Nat → List Node} (h : Inv s p Q) {i : Nat} {b b' : Block}
    (hb : s.blk i = some b) (hm : s'.main = s.main) (hc : s'.cache = s.cache) (hbk : s'.blk = update s.blk i (some b'))
    (hn : s'.next = s.next) (ok : BOk b') (htag : b'.tag = b.tag) (hch : b'.charge = b.charge) (hti : b'.tiny = b.tiny)
    (hq : b'.idle → (⟨i, b'.seq⟩ : Node) ∈ Q' 1) (hsub : ∀ n, n ∈ Q 1 → n ∈ Q' 1)
    (hnew : ∀ q n, n ∈ Q' q → n ∈ Q q ∨ (q = 1 ∧ n.block = i ∧ b'.tiny = false)) : Inv s' p Q' := by
  have hlt := (h.bks i b hb).1
  refine ⟨⟨fun ix => ?_, by rw [hc]; exact h.cnt.small⟩, ?_, ?_⟩
  · have e : says s' ix = says s ix := by simp [says, hm, hc]
    rw [e, h.cnt.acc, hbk, hn]
    have u := W_update (blk := s.blk) (ix := ix) (b := some b') hlt
    rw [hb] at u
    have : wt ix (some b') = wt ix (some b) := by simp [wt, htag, hch]
    omega
  · intro j x hx
    rw [hbk] at hx; rw [hn]
    by_cases hj : j = i
    · subst hj; rw [update_self] at hx; cases hx; exact ⟨hlt, ok⟩
    · rw [update_of_ne hj] at hx; exact h.bks j x hx
  · constructor
    · intro j x hx hxi
      rw [hbk] at hx
      by_cases hj : j = i
      · subst hj; rw [update_self] at hx; cases hx; exact hq hxi
      · rw [update_of_ne hj] at hx; exact hsub _ (h.qs.queued j x hx hxi)
    · intro q n hnq
      rw [hn, hbk]
      rcases hnew q n hnq with g | ⟨g1, g2, g3⟩
      · obtain ⟨a1, a2, a3⟩ := h.qs.nodes q n g
        refine ⟨a1, a2, fun x hx => ?_⟩
        by_cases hj : n.block = i
        · rw [hj, update_self] at hx; cases hx
          rw [hti]; exact a3 b (by rw [hj]; exact hb)
        · rw [update_of_ne hj] at hx; exact a3 x hx
      · refine ⟨g1, by rw [g2]; exact hlt, fun x hx => ?_⟩
        rw [g2, update_self] at hx; cases hx; exact g3

theorem same_set {s : Pool} {st : Ideal} (h : ∀ i, Same (s.blk i) (st.obj i)) (i : Nat) {b : Option Block} {o : Option Obj}
    (hm : Same b o) (j : Nat) : Same (update s.blk i b j) (update st.obj i o j) := by
  by_cases hj : j = i
  · subst hj; simpa using hm
  · simp only [update_of_ne hj]; exact h j

/-- A block changes in what neither handles nor eviction look at. -/
theorem core_set {s : Pool} {st : Ideal} {p : Nat → Int} (h : Core s st p) {i : Nat} {b b' : Block} {o' : Obj}
    (hb : s.blk i = some b) (ok : BOk b') (htag : b'.tag = b.tag) (hch : b'.charge = b.charge) (hti : b'.tiny = b.tiny)
    (hd : b'.data.isSome = b.data.isSome) (hp : b'.pins = b.pins) (hs : b'.seq = b.seq) (hm : Match b' o') :
    Core { s with blk := update s.blk i (some b') } (st.set i (some o')) p := by
  refine ⟨h.limit, h.reserved, h.next, h.nextH, h.handle, same_set h.same i (b := Option.some b') (o := Option.some o') hm, ?_, ?_⟩
  · refine inv_set h.inv hb rfl rfl rfl rfl ok htag hch hti (fun hi => ?_) (fun _ hn => hn) (fun _ _ hn => .inl hn)
    have := h.inv.qs.queued i b hb ⟨hti ▸ hi.1, hd ▸ hi.2.1, hp ▸ hi.2.2⟩
    rwa [← hs] at this
  · constructor
    · intro a j ha
      obtain ⟨h1, x, hx⟩ := h.hs.live a j ha
      refine ⟨h1, ?_⟩
      by_cases hj : j = i
      · subst hj; exact ⟨b', by simp⟩
      · exact ⟨x, by simpa [update_of_ne hj] using hx⟩
    · intro j x hx
      by_cases hj : j = i
      · subst hj
        simp only [update_self] at hx
        cases hx
        rw [hp]; exact h.hs.count j b hb
      · simp only [update_of_ne hj] at hx
        exact h.hs.count j x hx

theorem W_set {blk : Nat → Option Block} {n i : Nat} {b b' : Block} (hb : blk i = some b) (hlt : i < n) (htag : b'.tag = b.tag)
    (hch : b'.charge = b.charge) (ix : Nat) : W (update blk i (some b')) n ix = W blk n ix := by
  have u := W_update (blk := blk) (ix := ix) (b := some b') hlt
  rw [hb] at u
  have : wt ix (some b') = wt ix (some b) := by simp [wt, htag, hch]
  omega

theorem W_add (blk : Nat → Option Block) (n ix : Nat) (b : Block) :
    W (update blk n (some b)) (n + 1) ix = W blk n ix + wt ix (some b) := by
  unfold W
  rw [sumN, update_self]
  congr 1
  exact sumN_congr fun i hi => by rw [update_of_ne (by omega)]

/-- A block that takes its place uses up the memory reserved for it. -/
theorem inv_add {s : Pool} {p : Nat → Int} {b : Block} (h : Inv s (fun ix => p ix + dl b.tag b.alloc ix) s.queue) (ok : BOk b)
    (hd : b.data.isSome = true) (hi : ¬ b.idle) : Inv (addBlock b s) p (addBlock b s).queue := by
  refine ⟨⟨fun ix => ?_, h.cnt.small⟩, ?_, ?_⟩
  · have e : says (addBlock b s) ix = says s ix := rfl
    rw [e, h.cnt.acc]
    simp only [addBlock]
    rw [W_add]
    simp only [wt, Option.elim, ok.charge, hd, if_true, dl]
    by_cases c1 : ix = TOTAL
    · simp only [c1, true_or, if_true]; omega
    · by_cases c2 : ix = b.tag
      · subst c2; simp only [or_true, if_true]; omega
      · simp only [c1, c2, Ne.symm c2, or_self, if_false]; omega
  · intro j x hx
    simp only [addBlock] at hx ⊢
    by_cases hj : j = s.next
    · subst hj; rw [update_self] at hx; cases hx; exact ⟨by omega, ok⟩
    · rw [update_of_ne hj] at hx
      obtain ⟨h1, h2⟩ := h.bks j x hx
      exact ⟨by omega, h2⟩
  · constructor
    · intro j x hx hxi
      simp only [addBlock] at hx ⊢
      by_cases hj : j = s.next
      · subst hj; rw [update_self] at hx; cases hx; exact absurd hxi hi
      · rw [update_of_ne hj] at hx; exact h.qs.queued j x hx hxi
    · intro q n hn
      obtain ⟨a1, a2, a3⟩ := h.qs.nodes q n hn
      simp only [addBlock]
      refine ⟨a1, by omega, fun x hx => ?_⟩
      rw [update_of_ne (by omega)] at hx; exact a3 x hx

theorem holds_none {s : Pool} (h : Hs s) {i : Nat} (hi : s.blk i = none) (n : Nat) : holds s.handle i n = 0 :=
  sumN_zero fun a _ => by
    rw [if_neg]
    intro e
    obtain ⟨_, b, hb⟩ := h.live a i e
    rw [hi] at hb; cases hb

theorem next_none {s : Pool} (h : Bks s) : s.blk s.next = none := by
  cases hb : s.blk s.next with
  | none => rfl
  | some b => have := (h _ _ hb).1; omega

theorem nextH_none {s : Pool} (h : Hs s) : s.handle s.nextH = none := by
  cases hb : s.handle s.nextH with
  | none => rfl
  | some b => have := (h.live _ _ hb).1; omega

theorem core_add {s : Pool} {st : Ideal} {p : Nat → Int} {b : Block} {o : Obj}
    (h : Core s st (fun ix => p ix + dl b.tag b.alloc ix)) (ok : BOk b) (hd : b.data.isSome = true) (hm : Match b o)
    (hp : b.pins = 0) (hi : ¬ b.idle) : Core (addBlock b s) (st.add o) p := by
  refine ⟨h.limit, h.reserved, ?_, h.nextH, h.handle, ?_, inv_add h.inv ok hd hi, ?_⟩
  · simp [Ideal.add, addBlock, h.next]
  · intro j
    simp only [Ideal.add, addBlock, Ideal.set, h.next]
    exact same_set h.same _ (b := Option.some b) (o := Option.some o) hm j
  · constructor
    · intro a j ha
      obtain ⟨h1, x, hx⟩ := h.hs.live a j ha
      refine ⟨h1, x, ?_⟩
      have := (h.inv.bks j x hx).1
      simp only [addBlock]
      rw [update_of_ne (by omega)]; exact hx
    · intro j x hx
      simp only [addBlock] at hx ⊢
      by_cases hj : j = s.next
      · subst hj
        rw [update_self] at hx; cases hx
        rw [hp, holds_none h.hs (next_none h.inv.bks)]
      · rw [update_of_ne hj] at hx
        exact h.hs.count j x hx

/-- A buffer handle is made. -/
theorem holds_new (handle : Nat → Option Nat) (n i j : Nat) :
    holds (update handle n (some i)) j (n + 1) = holds handle j n + if j = i then 1 else 0 := by
  unfold holds
  rw [sumN, update_self]
  congr 1
  · exact sumN_congr fun a ha => by rw [update_of_ne (by omega)]
  · by_cases e : j = i
    · simp [e]
    · simp [e, Ne.symm e]

theorem holds_gone (handle : Nat → Option Nat) {n h i : Nat} (hh : h < n) (hi : handle h = some i) (j : Nat) :
    holds (update handle h none) j n + (if j = i then 1 else 0) = holds handle j n := by
  unfold holds
  have e : (fun a => if update handle h none a = some j then 1 else 0) =
      update (fun a => if handle a = some j then 1 else 0) h 0 := by
    funext a
    by_cases ha : a = h
    · subst ha; simp
    · simp [update_of_ne ha]
  rw [e]
  have u := sumN_update (f := fun a => if handle a = some j then 1 else 0) (v := 0) hh
  simp only [hi] at u
  by_cases c : j = i
  · subst c; simp only [if_true] at u ⊢; omega
  · simp only [c, if_false] at u ⊢
    rw [if_neg (by simpa using Ne.symm c)] at u; omega

/-! ### Calls -/

theorem guard_true {q : Prop} [Decidable q] (hq : q) (st : Ideal) : guard' q st = some st := if_pos hq

/-- A call, its answer and the state after it are allowed. -/
def Follows (st : Ideal) (op : Op) (r : Pool × Ans) : Prop := ∃ st', st.after false op r.2 = some st' ∧ Rel r.1 st'

theorem Rel.p {s : Pool} (r : Nat) : dl extension r TOTAL = r := by simp [dl]

theorem small_rel {s : Pool} {st : Ideal} (h : Rel s st) (t : Nat) (junk : Data) {tag : Nat} (size : Nat) (ht : tag < TOTAL) :
    ∃ st', (st.memory size (registerSmall t junk tag size s).2 fun st' => match (registerSmall t junk tag size s).2 with
        | .block i => guard' (i = st.next) (st'.add (smallObj tag size))
        | _ => none) = some st' ∧ Rel (registerSmall t junk tag size s).1 st' := by
  simp only [registerSmall]
  cases e : evict t tag size s.limit false s with
  | mk s' r =>
    obtain ⟨f, a1, a2, a3, a4⟩ := evict_core h.core (by simp [dl]) t ht size s.limit false e
    cases r with
    | none =>
      obtain ⟨c, x⟩ := a1 rfl
      refine ⟨st.request size st.limit, ?_, ?_, ?_⟩
      · simp only [Ideal.memory]
        rw [guard_true (by rw [h.core.limit]; exact x)]
      · rw [h.core.limit, f.reserved]; exact c
      · have := frame_W f TOTAL
        have := h.bound
        show W s'.blk s'.next TOTAL + s'.reserved ≤ s'.limit + slack
        rw [f.reserved, f.limit]; omega
    | some x =>
      have c := a2 x rfl
      have hx : x = none := by
        cases x with
        | none => rfl
        | some d => have := (a4 d rfl).1; cases this
      subst hx
      have a3 := a3 rfl
      refine ⟨(st.request size st.limit).add (smallObj tag size), ?_, ?_, ?_⟩
      · simp only [Ideal.memory]
        rw [guard_true (by rw [h.core.next, f.next])]
      · rw [h.core.limit]
        have hr : (addBlock ⟨tag, true, false, size, size, some junk, 0, 0, 1, 0⟩ s').reserved = s.reserved := f.reserved
        rw [hr]
        refine core_add c ⟨ht, rfl, fun _ => rfl, fun e => by simp at e, fun e => by simp at e⟩ rfl ?_ rfl (fun e => by simp [Block.idle] at e)
        exact ⟨rfl, rfl, rfl, rfl, rfl, rfl, rfl, fun e => by simp at e, fun d _ k v hk => by simp [smallObj] at hk⟩
      · simp only [addBlock]
        rw [W_add, f.reserved, f.limit]
        simp only [wt, Option.elim, true_or, if_true]
        omega

theorem blockCost_eq (n : Nat) : blockCost n = allocationSize n := by unfold blockCost allocationSize; rfl

def bytesObj (tag sz : Nat) (spare : Bool) (refs pins : Nat) : Obj := ⟨tag, sz - 8, sz, false, spare, fun _ => none, refs, pins, false⟩

theorem blockObj_eq (tag size : Nat) (spare : Bool) (refs pins : Nat) :
    blockObj tag size spare refs pins = bytesObj tag (allocationSize size) spare refs pins := by
  rw [← blockCost_eq]; unfold blockObj bytesObj; rfl

/-- The state after a successful `allocate`. -/
def allocState (st : Ideal) (tag sz : Nat) (cd : Bool) : Ideal :=
  ((st.request sz st.limit).add (bytesObj tag sz cd 0 1)).addHandle st.next

theorem allocate_rel {s : Pool} {st : Ideal} (h : Rel s st) (t : Nat) (junk : Data) {tag : Nat} (sz : Nat) (cd : Bool)
    (ht : tag < TOTAL) :
    ((allocateBytes t junk tag sz cd s).2 = .oom ∧ st.exhausted sz st.limit ∧
      Rel (allocateBytes t junk tag sz cd s).1 (st.request sz st.limit)) ∨
    ((allocateBytes t junk tag sz cd s).2 = .handle st.nextH st.next ∧
      Rel (allocateBytes t junk tag sz cd s).1 (allocState st tag sz cd)) := by
  simp only [allocateBytes, allocState, bytesObj]
  cases e : evict t tag sz s.limit true s with
  | mk s' r =>
    obtain ⟨f, a1, a2, a3, a4⟩ := evict_core h.core (by simp [dl]) t ht sz s.limit true e
    cases r with
    | none =>
      obtain ⟨c, x⟩ := a1 rfl
      left
      refine ⟨rfl, by rw [h.core.limit]; exact x, ?_, ?_⟩
      · rw [h.core.limit, f.reserved]; exact c
      · have := frame_W f TOTAL
        have := h.bound
        show W s'.blk s'.next TOTAL + s'.reserved ≤ s'.limit + slack
        rw [f.reserved, f.limit]; omega
    | some x =>
      right
      have c := a2 x rfl
      refine ⟨?_, ?_, ?_⟩
      · simp only [addBlock]
        rw [f.nextH, f.next, h.core.nextH, h.core.next]
      · have ok : BOk ⟨tag, false, cd, sz, sz, some (construct junk x), 1, 0, 0, 1⟩ :=
          ⟨ht, rfl, fun _ => rfl, fun _ _ => rfl, fun e => by simp at e⟩
        have ia := inv_add (b := ⟨tag, false, cd, sz, sz, some (construct junk x), 1, 0, 0, 1⟩)
          (p := dl extension s.reserved) c.inv ok rfl (fun e => by simp [Block.idle] at e)
        simp only [addBlock] at ia ⊢
        rw [f.reserved]
        refine ⟨?_, ?_, ?_, ?_, ?_, ?_, ?_, ?_⟩
        · simp only [Ideal.addHandle, Ideal.add, Ideal.set, request_limit]; rw [h.core.limit, f.limit]
        · simp only [Ideal.addHandle, Ideal.add, Ideal.set, request_reserved]; rw [h.core.reserved]
        · simp only [Ideal.addHandle, Ideal.add, Ideal.set, request_next]; rw [h.core.next, f.next]
        · simp only [Ideal.addHandle, Ideal.add, Ideal.set, request_nextH]; rw [h.core.nextH, f.nextH]
        · simp only [Ideal.addHandle, Ideal.add, Ideal.set, request_nextH, request_handle]
          rw [h.core.handle, f.handle, h.core.nextH, f.nextH, h.core.next, f.next]
        · intro j
          simp only [Ideal.addHandle, Ideal.add, Ideal.set, request_next]
          rw [h.core.limit, h.core.next, ← f.next]
          refine same_set c.same _ (b := Option.some _) (o := Option.some _) ?_ j
          exact ⟨rfl, rfl, rfl, rfl, rfl, rfl, rfl, fun e => by simp at e, fun d _ k v hk => by simp at hk⟩
        · exact ⟨⟨ia.cnt.acc, ia.cnt.small⟩, ia.bks, ⟨ia.qs.queued, ia.qs.nodes⟩⟩
        · constructor
          · intro a j ha
            simp only at ha ⊢
            by_cases he : a = s'.nextH
            · subst he
              rw [update_self] at ha
              cases ha
              exact ⟨by omega, _, update_self _ _ _⟩
            · rw [update_of_ne he] at ha
              obtain ⟨h1, y, hy⟩ := c.hs.live a j ha
              have hlt := (c.inv.bks j y hy).1
              refine ⟨by omega, y, ?_⟩
              rw [update_of_ne (by omega)]; exact hy
          · intro j y hy
            simp only at hy ⊢
            rw [holds_new]
            by_cases hj : j = s'.next
            · subst hj
              rw [update_self] at hy; cases hy
              rw [holds_none c.hs (next_none c.inv.bks)]; simp
            · rw [update_of_ne hj] at hy
              rw [c.hs.count j y hy, if_neg hj, Nat.add_zero]
      · simp only [addBlock]
        rw [W_add, f.reserved, f.limit]
        simp only [wt, Option.elim, true_or, if_true]
        cases x with
        | none => have := a3 rfl; omega
        | some d => have := (a4 d rfl).2; have := h.bound; omega

theorem share_rel {s : Pool} {st : Ideal} (h : Rel s st) {a i : Nat} {o : Obj} (ha : st.handle a = some i) (ho : st.obj i = some o) :
    (share a s).2 = .done ∧ Rel (share a s).1 (st.set i (some { o with refs := o.refs + 1 })) := by
  have ha' : s.handle a = some i := by rw [← h.core.handle]; exact ha
  obtain ⟨_, b, hb⟩ := h.core.hs.live a i ha'
  obtain ⟨o', ho', m⟩ := h.core.some hb
  rw [ho] at ho'
  obtain rfl : o = o' := by simpa using ho'
  obtain ⟨hlt, ok⟩ := h.core.inv.bks i b hb
  simp only [share, ha', hb]
  refine ⟨trivial, ?_, ?_⟩
  · exact core_set h.core hb ⟨ok.tag, ok.charge, ok.tiny, ok.readers, ok.pinned⟩ rfl rfl rfl rfl rfl rfl
      ⟨m.tag, m.size, m.cost, m.small, m.spare, by simp [m.refs], m.pins, m.doubt, m.cell⟩
  · simp only
    rw [W_set (b' := { b with refs := b.refs + 1 }) hb hlt rfl rfl]; exact h.bound

/-! ### Letting go -/

theorem purgeStep_inv {s : Pool} {p : Nat → Int} (h : Inv s p s.queue) :
    Inv (purgeStep 1 s) p (purgeStep 1 s).queue ∧ (purgeStep 1 s).blk = s.blk ∧ (purgeStep 1 s).limit = s.limit ∧
      (purgeStep 1 s).next = s.next ∧ (purgeStep 1 s).handle = s.handle ∧ (purgeStep 1 s).nextH = s.nextH ∧
      (purgeStep 1 s).reserved = s.reserved := by
  refine ⟨⟨⟨h.cnt.acc, h.cnt.small⟩, h.bks, ⟨fun i b hb hi => ?_, fun q n hn => ?_⟩⟩, rfl, rfl, rfl, rfl, rfl, rfl⟩
  · have hm := h.qs.queued i b hb hi
    simp only [purgeStep, addDead, update_self]
    rw [← List.take_append_drop 8192 (s.queue 1)] at hm
    rcases List.mem_append.1 hm with g | g
    · refine List.mem_append_right _ (List.mem_filter.2 ⟨g, ?_⟩)
      have hb' : s.blk i = some b := hb
      have hr := (h.bks _ _ hb').2.readers hi.1 hi.2.1
      simp [Node.get, hb', Block.canUnload, hi.2.1, hr, hi.2.2]
    · exact List.mem_append_left _ g
  · refine h.qs.nodes q n ?_
    simp only [purgeStep, addDead] at hn
    by_cases hq : q = 1
    · subst hq
      rw [update_self] at hn
      rcases List.mem_append.1 hn with g | g
      · exact List.mem_of_mem_drop g
      · exact List.mem_of_mem_take (List.mem_filter.1 g).1
    · rwa [update_of_ne hq] at hn

/-- Two pools with the same blocks, handles and limit. -/
def Keep (s s' : Pool) : Prop :=
  s'.blk = s.blk ∧ s'.limit = s.limit ∧ s'.next = s.next ∧ s'.handle = s.handle ∧ s'.nextH = s.nextH ∧ s'.reserved = s.reserved

theorem Keep.trans {a b c : Pool} (h : Keep a b) (g : Keep b c) : Keep a c :=
  ⟨g.1.trans h.1, g.2.1.trans h.2.1, g.2.2.1.trans h.2.2.1, g.2.2.2.1.trans h.2.2.2.1, g.2.2.2.2.1.trans h.2.2.2.2.1,
    g.2.2.2.2.2.trans h.2.2.2.2.2⟩

theorem purgeLoop_inv {p : Nat → Int} : ∀ k {s : Pool}, Inv s p s.queue →
    Inv (purgeLoop 1 k s) p (purgeLoop 1 k s).queue ∧ Keep s (purgeLoop 1 k s)
  | 0, s, h => ⟨h, rfl, rfl, rfl, rfl, rfl, rfl⟩
  | k + 1, s, h => by
    obtain ⟨h1, h2⟩ := purgeStep_inv h
    simp only [purgeLoop]
    split
    · exact ⟨h1, h2⟩
    · split
      · exact ⟨h1, h2⟩
      · obtain ⟨g1, g2⟩ := purgeLoop_inv k h1
        exact ⟨g1, Keep.trans h2 g2⟩

theorem purge_inv {p : Nat → Int} {s : Pool} (h : Inv s p s.queue) : Inv (purge 1 s) p (purge 1 s).queue ∧ Keep s (purge 1 s) := by
  simp only [purge]
  split
  · exact ⟨h, rfl, rfl, rfl, rfl, rfl, rfl⟩
  · exact purgeLoop_inv _ h

/-- The pool but for block `i`. -/
structure SetAt (s s' : Pool) (i : Nat) (b : Option Block) : Prop where
  blk : s'.blk = update s.blk i b
  limit : s'.limit = s.limit
  next : s'.next = s.next
  handle : s'.handle = s.handle
  nextH : s'.nextH = s.nextH
  reserved : s'.reserved = s.reserved

theorem queueOf_managed {b : Block} (h : b.tiny = false) : queueOf b = 1 := by simp [queueOf, h, queueSizes]

theorem enqueue_inv {s : Pool} {p : Nat → Int} (h : Inv s p s.queue) {i : Nat} {b b' : Block} (hb : s.blk i = some b) (ok : BOk b')
    (htag : b'.tag = b.tag) (hch : b'.charge = b.charge) (hti : b'.tiny = b.tiny) (ht : b.tiny = false) :
    Inv (enqueue i b' s) p (enqueue i b' s).queue ∧ SetAt s (enqueue i b' s) i (some { b' with seq := b'.seq + 1 }) := by
  have hq : queueOf b' = 1 := queueOf_managed (by rw [hti, ht])
  -- the pool before the purge
  have key : ∀ s1 : Pool, s1.main = s.main → s1.cache = s.cache → s1.blk = s.blk → s1.next = s.next → s1.queue = s.queue →
      s1.limit = s.limit → s1.handle = s.handle → s1.nextH = s.nextH → s1.reserved = s.reserved → ∀ ins,
      Inv { s1 with blk := update s1.blk i (some { b' with seq := b'.seq + 1 }), queue := update s1.queue 1 (s1.queue 1 ++ [⟨i, b'.seq + 1⟩]), inserted := ins } p
        (update s1.queue 1 (s1.queue 1 ++ [⟨i, b'.seq + 1⟩])) ∧
      SetAt s { s1 with blk := update s1.blk i (some { b' with seq := b'.seq + 1 }), queue := update s1.queue 1 (s1.queue 1 ++ [⟨i, b'.seq + 1⟩]), inserted := ins } i
        (some { b' with seq := b'.seq + 1 }) := by
    intro s1 e1 e2 e3 e4 e5 e6 e7 e8 e9 ins
    refine ⟨inv_set h hb (b' := { b' with seq := b'.seq + 1 }) e1 e2 (by simp only; rw [e3]) e4
      ⟨ok.tag, ok.charge, ok.tiny, ok.readers, ok.pinned⟩ htag hch hti ?_ ?_ ?_, ⟨by simp only; rw [e3], e6, e4, e7, e8, e9⟩⟩
    · intro _; simp
    · intro n hn; rw [update_self, e5]; exact List.mem_append_left _ hn
    · intro q n hn
      by_cases hq1 : q = 1
      · subst hq1
        rw [update_self, e5] at hn
        rcases List.mem_append.1 hn with g | g
        · exact .inl g
        · refine .inr ⟨rfl, ?_, by simp [hti, ht]⟩
          rw [List.mem_singleton.1 g]
      · rw [update_of_ne hq1, e5] at hn; exact .inl hn
  have before : Inv (push i b' s) p (push i b' s).queue ∧ SetAt s (push i b' s) i (some { b' with seq := b'.seq + 1 }) := by
    simp only [push, hq]
    split
    · exact key (addDead 1 1 s) rfl rfl rfl rfl rfl rfl rfl rfl rfl _
    · exact key s rfl rfl rfl rfl rfl rfl rfl rfl rfl _
  simp only [enqueue, hq]
  generalize push i b' s = s2 at before
  obtain ⟨h1, h2⟩ := before
  split
  · obtain ⟨g1, k1, k2, k3, k4, k5, k6⟩ := purge_inv h1
    exact ⟨g1, ⟨k1.trans h2.blk, k2.trans h2.limit, k3.trans h2.next, k4.trans h2.handle, k5.trans h2.nextH, k6.trans h2.reserved⟩⟩
  · exact ⟨h1, h2⟩

/-- The pool after `unpinBlock`, with one pin less: the block as it is there. -/
theorem unpinBlock_inv {s : Pool} {p : Nat → Int} (h : Inv s p s.queue) {i : Nat} {b : Block} (hb : s.blk i = some b) (hp : 0 < b.pins) :
    ∃ b2 : Block, Inv (unpinBlock i { b with pins := b.pins - 1 } s) p (unpinBlock i { b with pins := b.pins - 1 } s).queue ∧
      SetAt s (unpinBlock i { b with pins := b.pins - 1 } s) i (some b2) ∧ b2.tag = b.tag ∧ b2.charge = b.charge ∧
      b2.pins = b.pins - 1 ∧ ∀ o, Match b o → Match b2 { o with pins := o.pins - 1 } := by
  obtain ⟨hlt, ok⟩ := h.bks i b hb
  have hd : b.data.isSome = true := by
    cases hd : b.data with
    | none => have := ok.pinned hd; omega
    | some _ => rfl
  have hn : b.data ≠ none := by intro e; simp [e] at hd
  simp only [unpinBlock]
  by_cases ht : b.tiny = true
  · rw [if_pos (.inr ht)]
    refine ⟨{ b with pins := b.pins - 1 }, inv_set h hb (b' := { b with pins := b.pins - 1 }) rfl rfl rfl rfl
      ⟨ok.tag, ok.charge, ok.tiny, fun e => by simp [ht] at e, fun e => absurd e hn⟩ rfl rfl rfl (fun e => ?_) (fun _ x => x)
      (fun _ _ x => .inl x), ⟨rfl, rfl, rfl, rfl, rfl, rfl⟩, rfl, rfl, rfl, fun o m => ?_⟩
    · simp [Block.idle, ht] at e
    · exact ⟨m.tag, m.size, m.cost, m.small, m.spare, m.refs, by simp [m.pins], m.doubt, m.cell⟩
  · have ht' : b.tiny = false := by simpa using ht
    have hr := ok.readers ht' hd
    rw [if_neg (by simp [ht', hn])]
    have ok2 : BOk { b with pins := b.pins - 1, readers := b.readers - 1 } :=
      ⟨ok.tag, ok.charge, ok.tiny, fun _ _ => by simp [hr], fun e => absurd e hn⟩
    split
    · obtain ⟨g1, g2⟩ := enqueue_inv h hb ok2 rfl rfl rfl ht'
      refine ⟨_, g1, g2, rfl, rfl, rfl, fun o m => ?_⟩
      exact ⟨m.tag, m.size, m.cost, m.small, m.spare, m.refs, by simp [m.pins], m.doubt, m.cell⟩
    · rename_i hz
      refine ⟨_, inv_set h hb (b' := { b with pins := b.pins - 1, readers := b.readers - 1 }) rfl rfl rfl rfl ok2 rfl rfl rfl
        (fun e => ?_) (fun _ x => x) (fun _ _ x => .inl x), ⟨rfl, rfl, rfl, rfl, rfl, rfl⟩, rfl, rfl, rfl, fun o m => ?_⟩
      · have := e.2.2
        simp only at this hz
        omega
      · exact ⟨m.tag, m.size, m.cost, m.small, m.spare, m.refs, by simp [m.pins], m.doubt, m.cell⟩

theorem ite_rest {c : Prop} [Decidable c] {s s1 : Pool} (h : SameRest s s1) : SameRest s (if c then s1 else s) := by
  split
  · exact h
  · exact .refl s

/-- The last pointer is gone, or there are others. -/
theorem reap_core {s : Pool} {st : Ideal} {p : Nat → Int} (h : Core s st p) (t : Nat) {i : Nat} {b : Block} {o : Obj}
    (hb : s.blk i = some b) (ho : st.obj i = some o) (m : Match b o) :
    Core (reap t i s) (st.set i o.alive) p ∧ W (reap t i s).blk (reap t i s).next TOTAL ≤ W s.blk s.next TOTAL ∧
      (reap t i s).limit = s.limit ∧ (reap t i s).reserved = s.reserved := by
  obtain ⟨hlt, ok⟩ := h.inv.bks i b hb
  simp only [reap, hb]
  by_cases hz : b.refs + b.pins = 0
  · rw [if_pos hz]
    have hal : o.alive = none := by simp [Obj.alive, m.refs, m.pins, hz]
    rw [hal]
    -- the counters
    have step1 : ∃ s2, (if b.data.isSome then
        account t b.tag (-b.charge) (if b.data.isSome ∧ ¬ b.tiny then addDead (queueOf b) 1 s else s)
        else (if b.data.isSome ∧ ¬ b.tiny then addDead (queueOf b) 1 s else s)) = s2 ∧ SameRest s s2 ∧
        Cnt s2 (fun ix => p ix + dl b.tag (-b.charge) ix) := by
      have r1 : SameRest s (if b.data.isSome ∧ ¬ b.tiny then addDead (queueOf b) 1 s else s) := ite_rest (addDead_rest _ _ _)
      have c1 : Cnt (if b.data.isSome ∧ ¬ b.tiny then addDead (queueOf b) 1 s else s) p := by
        split
        · exact h.inv.cnt.dead _ _
        · exact h.inv.cnt
      refine ⟨_, rfl, ?_, ?_⟩
      · split
        · exact r1.trans (account_rest _ _ _ _)
        · exact r1
      · by_cases hd : b.data.isSome = true
        · rw [if_pos hd]; exact c1.account t _ ok.tag
        · rw [if_neg hd]
          have hc : b.charge = 0 := by rw [ok.charge, if_neg hd]
          refine ⟨fun ix => ?_, c1.small⟩
          rw [c1.acc, hc]; simp [dl]
    obtain ⟨s2, e2, r2, c2⟩ := step1
    rw [e2]
    have nohold : ∀ a, s.handle a ≠ some i := by
      intro a ha
      have h1 := (h.hs.live a i ha).1
      have h2 := h.hs.count i b hb
      have h3 : 1 ≤ holds s.handle i s.nextH := by
        have := sumN_pos (f := fun x => if s.handle x = some i then 1 else 0) h1
        simpa [holds, ha] using this
      omega
    have u := fun ix => W_update (blk := s.blk) (ix := ix) (b := none) hlt
    refine ⟨⟨?_, ?_, ?_, ?_, ?_, ?_, ⟨⟨fun ix => ?_, c2.small⟩, ?_, ?_⟩, ?_⟩, ?_, r2.limit, r2.reserved⟩
    · simpa [Ideal.set, r2.limit] using h.limit
    · simpa [Ideal.set, r2.reserved] using h.reserved
    · simpa [Ideal.set, r2.next] using h.next
    · simpa [Ideal.set, r2.nextH] using h.nextH
    · simpa [Ideal.set, r2.handle] using h.handle
    · intro j
      simp only [Ideal.set, r2.blk]
      exact same_set h.same i (b := Option.none) (o := Option.none) trivial j
    · have e : says { s2 with blk := update s2.blk i none } ix = says s2 ix := rfl
      rw [e, c2.acc, r2.blk, r2.next]
      have u := u ix
      rw [hb] at u
      simp only [wt, Option.elim, dl] at u ⊢
      by_cases x1 : ix = TOTAL
      · simp only [x1, true_or, if_true] at u ⊢; omega
      · by_cases x2 : ix = b.tag
        · subst x2; simp only [or_true, if_true] at u ⊢; omega
        · simp only [x1, x2, Ne.symm x2, or_self, if_false] at u ⊢; omega
    · intro j x hx
      simp only [r2.blk, r2.next] at hx ⊢
      by_cases hj : j = i
      · subst hj; simp at hx
      · rw [update_of_ne hj] at hx; exact h.inv.bks j x hx
    · constructor
      · intro j x hx hxi
        simp only [r2.blk, r2.queue] at hx ⊢
        by_cases hj : j = i
        · subst hj; simp at hx
        · rw [update_of_ne hj] at hx; exact h.inv.qs.queued j x hx hxi
      · intro q n hn
        simp only [r2.blk, r2.next, r2.queue] at hn ⊢
        obtain ⟨a1, a2, a3⟩ := h.inv.qs.nodes q n hn
        refine ⟨a1, a2, fun x hx => ?_⟩
        by_cases hj : n.block = i
        · rw [hj] at hx; simp at hx
        · rw [update_of_ne hj] at hx; exact a3 x hx
    · constructor
      · intro a j ha
        simp only [r2.handle, r2.nextH, r2.blk] at ha ⊢
        obtain ⟨h1, x, hx⟩ := h.hs.live a j ha
        refine ⟨h1, x, ?_⟩
        rw [update_of_ne (fun e => nohold a (by rw [← e]; exact ha))]; exact hx
      · intro j x hx
        simp only [r2.handle, r2.nextH, r2.blk] at hx ⊢
        by_cases hj : j = i
        · subst hj; simp at hx
        · rw [update_of_ne hj] at hx; exact h.hs.count j x hx
    · have := u TOTAL
      simp only [r2.blk, r2.next]
      simp only [wt, Option.elim] at this ⊢
      omega
  · rw [if_neg hz]
    have hal : o.alive = some o := by simp [Obj.alive, m.refs, m.pins]; omega
    have hst : st.set i o.alive = st := by
      rw [hal, ← ho]; simp [Ideal.set]
    rw [hst]
    exact ⟨h, Nat.le_refl _, rfl, rfl⟩

theorem pins_pos {s : Pool} (h : Hs s) {a i : Nat} {b : Block} (ha : s.handle a = some i) (hb : s.blk i = some b) : 0 < b.pins := by
  have h1 := (h.live a i ha).1
  have h2 := h.count i b hb
  have := sumN_pos (f := fun x => if s.handle x = some i then 1 else 0) h1
  simp only [ha, if_true] at this
  unfold holds at h2
  omega

theorem unpin_rel {s : Pool} {st : Ideal} (h : Rel s st) (t : Nat) {a i : Nat} {o : Obj} (ha : st.handle a = some i)
    (ho : st.obj i = some o) :
    (unpin t a s).2 = .done ∧
      Rel (unpin t a s).1 ({ st with handle := update st.handle a none }.set i { o with pins := o.pins - 1 }.alive) := by
  have ha' : s.handle a = some i := by rw [← h.core.handle]; exact ha
  obtain ⟨hlt, b, hb⟩ := h.core.hs.live a i ha'
  obtain ⟨o', ho', m⟩ := h.core.some hb
  rw [ho] at ho'
  obtain rfl : o = o' := by simpa using ho'
  have hpos := pins_pos h.core.hs ha' hb
  simp only [unpin, ha', hb]
  refine ⟨trivial, ?_⟩
  have i0 : Inv { s with handle := update s.handle a none } (dl extension s.reserved) { s with handle := update s.handle a none }.queue :=
    ⟨⟨h.core.inv.cnt.acc, h.core.inv.cnt.small⟩, h.core.inv.bks, ⟨h.core.inv.qs.queued, h.core.inv.qs.nodes⟩⟩
  obtain ⟨b2, g1, g2, g3, g4, g5, g6⟩ := unpinBlock_inv i0 (i := i) (b := b) hb hpos
  generalize unpinBlock i { b with pins := b.pins - 1 } { s with handle := update s.handle a none } = s1 at g1 g2
  have core1 : Core s1 ({ st with handle := update st.handle a none }.set i (some { o with pins := o.pins - 1 })) (dl extension s.reserved) := by
    refine ⟨?_, ?_, ?_, ?_, ?_, ?_, g1, ?_⟩
    · rw [g2.limit]; exact h.core.limit
    · rw [g2.reserved]; exact h.core.reserved
    · rw [g2.next]; exact h.core.next
    · rw [g2.nextH]; exact h.core.nextH
    · rw [g2.handle]; simp [Ideal.set, h.core.handle]
    · intro j
      rw [g2.blk]
      exact same_set h.core.same i (b := Option.some b2) (o := Option.some _) (g6 o m) j
    · constructor
      · intro x j hx
        rw [g2.handle] at hx
        simp only at hx
        by_cases hxa : x = a
        · subst hxa; simp at hx
        · rw [update_of_ne hxa] at hx
          obtain ⟨k1, y, hy⟩ := h.core.hs.live x j hx
          refine ⟨by rw [g2.nextH]; exact k1, ?_⟩
          rw [g2.blk]
          by_cases hj : j = i
          · subst hj; exact ⟨b2, update_self _ _ _⟩
          · exact ⟨y, by rw [update_of_ne hj]; exact hy⟩
      · intro j x hx
        rw [g2.blk] at hx
        rw [g2.handle, g2.nextH]
        have hg := holds_gone s.handle hlt ha' j
        simp only at hx ⊢
        by_cases hj : j = i
        · subst hj
          rw [update_self] at hx; cases hx
          have := h.core.hs.count j b hb
          simp only [if_true] at hg
          omega
        · rw [update_of_ne hj] at hx
          have := h.core.hs.count j x hx
          simp only [hj, if_false] at hg
          omega
  have hb2 : s1.blk i = some b2 := by rw [g2.blk, update_self]
  have ho2 : ({ st with handle := update st.handle a none }.set i (some { o with pins := o.pins - 1 })).obj i = some { o with pins := o.pins - 1 } := by
    simp [Ideal.set]
  obtain ⟨r1, r2, r3, r4⟩ := reap_core core1 t hb2 ho2 (g6 o m)
  have hset : ({ st with handle := update st.handle a none }.set i (some { o with pins := o.pins - 1 })).set i { o with pins := o.pins - 1 }.alive =
      { st with handle := update st.handle a none }.set i { o with pins := o.pins - 1 }.alive := by
    simp [Ideal.set]
  rw [hset] at r1
  refine ⟨?_, ?_⟩
  · rw [r4, g2.reserved]; exact r1
  · rw [r3, r4, g2.limit, g2.reserved]
    have hw : W s1.blk s1.next TOTAL = W s.blk s.next TOTAL := by
      rw [g2.blk, g2.next]
      exact W_set hb (h.core.inv.bks i b hb).1 g3 g4 TOTAL
    have := h.bound
    simp only
    omega

theorem drop_rel {s : Pool} {st : Ideal} (h : Rel s st) (t : Nat) {i : Nat} {o : Obj} (ho : st.pointed i = some o) :
    (drop t i s).2 = .done ∧ Rel (drop t i s).1 (st.set i { o with refs := o.refs - 1 }.alive) := by
  simp only [Ideal.pointed] at ho
  cases hb : s.blk i with
  | none => rw [h.core.none hb] at ho; cases ho
  | some b =>
    obtain ⟨o', ho', m⟩ := h.core.some hb
    rw [ho'] at ho
    simp only at ho
    split at ho
    · cases ho
    · rename_i hr
      obtain rfl : o' = o := by simpa using ho
      obtain ⟨hlt, ok⟩ := h.core.inv.bks i b hb
      have hr' : ¬ b.refs = 0 := by rw [← m.refs]; exact hr
      simp only [drop, hb, hr', if_false]
      refine ⟨trivial, ?_⟩
      have m2 : Match { b with refs := b.refs - 1 } { o' with refs := o'.refs - 1 } :=
        ⟨m.tag, m.size, m.cost, m.small, m.spare, by simp [m.refs], m.pins, m.doubt, m.cell⟩
      have c := core_set h.core hb (b' := { b with refs := b.refs - 1 }) (o' := { o' with refs := o'.refs - 1 })
        ⟨ok.tag, ok.charge, ok.tiny, ok.readers, ok.pinned⟩ rfl rfl rfl rfl rfl rfl m2
      obtain ⟨r1, r2, r3, r4⟩ := reap_core c t (i := i) (b := { b with refs := b.refs - 1 }) (o := { o' with refs := o'.refs - 1 })
        (by simp) (by simp [Ideal.set]) m2
      have hset : (st.set i (some { o' with refs := o'.refs - 1 })).set i { o' with refs := o'.refs - 1 }.alive =
          st.set i { o' with refs := o'.refs - 1 }.alive := by simp [Ideal.set]
      rw [hset] at r1
      refine ⟨?_, ?_⟩
      · rw [r4]; exact r1
      · rw [r3, r4]
        have hw : W (update s.blk i (some { b with refs := b.refs - 1 })) s.next TOTAL = W s.blk s.next TOTAL :=
          W_set (b' := { b with refs := b.refs - 1 }) hb hlt rfl rfl TOTAL
        have := h.bound
        simp only at r2 ⊢
        omega

end Verif.Buf
