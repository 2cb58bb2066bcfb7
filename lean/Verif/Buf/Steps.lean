import Verif.Buf.Refine
/-! Lemmas for C94: the answers of every call are allowed. -/
namespace Verif.Buf

open Function

theorem held_eq {s : Pool} {st : Ideal} {p : Nat → Int} (h : Core s st p) (a : Nat) :
    (s.handle a = none ∧ st.held a = none) ∨
    ∃ i b o, s.handle a = some i ∧ s.blk i = some b ∧ st.handle a = some i ∧ st.obj i = some o ∧ st.held a = some (i, o) ∧ Match b o := by
  cases ha : s.handle a with
  | none => exact .inl ⟨rfl, by simp [Ideal.held, h.handle, ha]⟩
  | some i =>
    obtain ⟨_, b, hb⟩ := h.hs.live a i ha
    obtain ⟨o, ho, m⟩ := h.some hb
    exact .inr ⟨i, b, o, rfl, hb, by rw [h.handle]; exact ha, ho, by simp [Ideal.held, h.handle, ha, ho], m⟩

theorem pointed_eq {s : Pool} {st : Ideal} {p : Nat → Int} (h : Core s st p) (i : Nat) :
    (st.pointed i = none ∧ (s.blk i = none ∨ ∃ b, s.blk i = some b ∧ b.refs = 0)) ∨
    ∃ b o, s.blk i = some b ∧ b.refs ≠ 0 ∧ st.obj i = some o ∧ st.pointed i = some o ∧ Match b o := by
  cases hb : s.blk i with
  | none => exact .inl ⟨by simp [Ideal.pointed, h.none hb], .inl rfl⟩
  | some b =>
    obtain ⟨o, ho, m⟩ := h.some hb
    by_cases hr : b.refs = 0
    · exact .inl ⟨by simp [Ideal.pointed, ho, m.refs, hr], .inr ⟨b, rfl, hr⟩⟩
    · exact .inr ⟨b, o, rfl, hr, ho, by simp [Ideal.pointed, ho, m.refs, hr], m⟩

theorem share_follows {s : Pool} {st : Ideal} (h : Rel s st) (a : Nat) : Follows st (.share a) (share a s) := by
  rcases held_eq h.core a with ⟨h1, h2⟩ | ⟨i, b, o, h1, h2, h3, h4, h5, m⟩
  · refine ⟨st, ?_, ?_⟩
    · simp only [share, h1, Ideal.after, h2, guard']; rfl
    · simp only [share, h1]; exact h
  · obtain ⟨g1, g2⟩ := share_rel h h3 h4
    refine ⟨_, ?_, g2⟩
    simp only [Ideal.after, h5, g1, guard_true]

theorem unpin_follows {s : Pool} {st : Ideal} (h : Rel s st) (t a : Nat) : Follows st (.unpin a) (unpin t a s) := by
  rcases held_eq h.core a with ⟨h1, h2⟩ | ⟨i, b, o, h1, h2, h3, h4, h5, m⟩
  · refine ⟨st, ?_, ?_⟩
    · simp only [unpin, h1, Ideal.after, h2, guard']; rfl
    · simp only [unpin, h1]; exact h
  · obtain ⟨g1, g2⟩ := unpin_rel h t h3 h4
    refine ⟨_, ?_, g2⟩
    simp only [Ideal.after, h5, g1, guard_true]

theorem drop_follows {s : Pool} {st : Ideal} (h : Rel s st) (t i : Nat) : Follows st (.drop i) (drop t i s) := by
  rcases pointed_eq h.core i with ⟨h1, h2⟩ | ⟨b, o, h1, h2, h3, h4, m⟩
  · have e : drop t i s = (s, .noSuch) := by
      rcases h2 with h2 | ⟨b, h2, h3⟩
      · simp only [drop, h2]
      · simp only [drop, h2, h3, if_true]
    rw [e]
    refine ⟨st, ?_, h⟩
    simp only [Ideal.after, h1, guard']; rfl
  · obtain ⟨g1, g2⟩ := drop_rel h t h4
    refine ⟨_, ?_, g2⟩
    simp only [Ideal.after, h4, g1, guard_true]

theorem write_follows {s : Pool} {st : Ideal} (h : Rel s st) (a k : Nat) (v : UInt8) : Follows st (.write a k v) (write a k v s) := by
  rcases held_eq h.core a with ⟨h1, h2⟩ | ⟨i, b, o, h1, h2, h3, h4, h5, m⟩
  · refine ⟨st, ?_, ?_⟩
    · simp only [write, h1, Ideal.after, h2, guard']; rfl
    · simp only [write, h1]; exact h
  · obtain ⟨hlt, ok⟩ := h.core.inv.bks i b h2
    have hp := pins_pos h.core.hs h1 h2
    cases hd : b.data with
    | none => have := ok.pinned hd; omega
    | some d =>
      by_cases hk : b.usable ≤ k
      · refine ⟨st, ?_, ?_⟩
        · simp only [write, h1, h2, hd, hk, if_true, Ideal.after, h5, m.size, Nat.not_lt.2 hk, if_false, guard']
        · simp only [write, h1, h2, hd, hk, if_true]; exact h
      · refine ⟨st.set i (some { o with cell := update o.cell k (some v) }), ?_, ?_, ?_⟩
        · simp only [write, h1, h2, hd, hk, if_false, Ideal.after, h5, m.size, Nat.not_le.1 hk, if_true, guard']
        · simp only [write, h1, h2, hd, hk, if_false]
          refine core_set h.core h2 (b' := { b with data := some (update d k v) })
            ⟨ok.tag, by simpa [hd] using ok.charge, fun _ => rfl, fun e _ => ok.readers e (by simp [hd]), fun e => by simp at e⟩ rfl rfl rfl
            (by simp [hd]) rfl rfl ⟨m.tag, m.size, m.cost, m.small, m.spare, m.refs, m.pins, fun e => by simp at e, ?_⟩
          intro d' hd' k' v' hv
          simp only [Option.some.injEq] at hd'
          subst hd'
          by_cases hkk : k' = k
          · subst hkk
            simp only [update_self, Option.some.injEq] at hv ⊢
            exact hv
          · simp only [update_of_ne hkk] at hv ⊢
            exact m.cell d hd k' v' hv
        · simp only [write, h1, h2, hd, hk, if_false]
          rw [W_set (b' := { b with data := some (update d k v) }) h2 hlt rfl rfl]
          exact h.bound

theorem read_follows {s : Pool} {st : Ideal} (h : Rel s st) (a k : Nat) : Follows st (.read a k) (readByte a k s) := by
  rcases held_eq h.core a with ⟨h1, h2⟩ | ⟨i, b, o, h1, h2, h3, h4, h5, m⟩
  · refine ⟨st, ?_, ?_⟩
    · simp only [readByte, h1, Ideal.after, h2, guard']; rfl
    · simp only [readByte, h1]; exact h
  · obtain ⟨hlt, ok⟩ := h.core.inv.bks i b h2
    have hp := pins_pos h.core.hs h1 h2
    cases hd : b.data with
    | none => have := ok.pinned hd; omega
    | some d =>
      by_cases hk : b.usable ≤ k
      · refine ⟨st, ?_, ?_⟩
        · simp only [readByte, h1, h2, hd, hk, if_true, Ideal.after, h5, m.size, Nat.not_lt.2 hk, if_false, guard']
        · simp only [readByte, h1, h2, hd, hk, if_true]; exact h
      · refine ⟨st, ?_, ?_⟩
        · simp only [readByte, h1, h2, hd, hk, if_false, Ideal.after, h5, m.size, Nat.not_le.1 hk, if_true]
          refine guard_true ?_ st
          cases hc : o.cell k with
          | none => exact .inl rfl
          | some v => exact .inr (by rw [m.cell d hd k v hc])
        · simp only [readByte, h1, h2, hd, hk, if_false]; exact h

theorem pin_follows {s : Pool} {st : Ideal} (h : Rel s st) (t i : Nat) : Follows st (.pin i) (pin t i s) := by
  rcases pointed_eq h.core i with ⟨h1, h2⟩ | ⟨b, o, h1, h2, h3, h4, m⟩
  · have e : pin t i s = (s, .noSuch) := by
      rcases h2 with h2 | ⟨b, h2, h3⟩
      · simp only [pin, h2]
      · simp only [pin, h2, h3, if_true]
    rw [e]
    refine ⟨st, ?_, h⟩
    simp only [Ideal.after, h1, guard']; rfl
  · obtain ⟨hlt, ok⟩ := h.core.inv.bks i b h1
    cases hd : b.data with
    | some d =>
      refine ⟨(st.set i (some { o with pins := o.pins + 1, doubt := false })).addHandle i, ?_, ?_, ?_⟩
      · simp only [pin, h1, h2, hd, if_false, Ideal.after, h4]
        exact guard_true ⟨h.core.nextH.symm, trivial⟩ _
      · simp only [pin, h1, h2, hd, if_false]
        have ok' : BOk { b with readers := b.readers + 1, pins := b.pins + 1, data := some d } :=
          ⟨ok.tag, by simpa [hd] using ok.charge, fun _ => rfl, fun e _ => by
            have := ok.readers e (by simp [hd]); simp [this], fun e => by simp at e⟩
        refine ⟨h.core.limit, h.core.reserved, h.core.next, ?_, ?_, ?_, ?_, ?_⟩
        · simp [Ideal.addHandle, Ideal.set, h.core.nextH]
        · simp [Ideal.addHandle, Ideal.set, h.core.nextH, h.core.handle]
        · intro j
          refine same_set h.core.same i (b := Option.some _) (o := Option.some _) ?_ j
          exact ⟨m.tag, m.size, m.cost, m.small, m.spare, m.refs, by simp [m.pins], fun e => by simp at e, fun d' hd' => m.cell d' (by rw [hd]; exact hd')⟩
        · refine inv_set h.core.inv h1 (b' := { b with readers := b.readers + 1, pins := b.pins + 1, data := some d }) rfl rfl rfl rfl ok' rfl rfl rfl
            (fun e => ?_) (fun _ x => x) (fun _ _ x => .inl x)
          have := e.2.2
          simp at this
        · constructor
          · intro x j hx
            simp only at hx ⊢
            by_cases hxa : x = s.nextH
            · subst hxa
              rw [update_self] at hx
              cases hx
              exact ⟨by omega, _, update_self _ _ _⟩
            · rw [update_of_ne hxa] at hx
              obtain ⟨k1, y, hy⟩ := h.core.hs.live x j hx
              refine ⟨by omega, ?_⟩
              by_cases hj : j = i
              · subst hj; exact ⟨_, update_self _ _ _⟩
              · exact ⟨y, by rw [update_of_ne hj]; exact hy⟩
          · intro j x hx
            simp only at hx ⊢
            rw [holds_new]
            by_cases hj : j = i
            · subst hj
              rw [update_self] at hx; cases hx
              have := h.core.hs.count j b h1
              simp only [if_true]; omega
            · rw [update_of_ne hj] at hx
              rw [h.core.hs.count j x hx, if_neg hj, Nat.add_zero]
      · simp only [pin, h1, h2, hd, if_false]
        rw [W_set (b' := { b with readers := b.readers + 1, pins := b.pins + 1, data := some d }) h1 hlt rfl rfl]
        exact h.bound
    | none =>
      simp only [Follows, pin, h1, h2, hd, if_false]
      cases e : evict t b.tag b.alloc s.limit true s with
      | mk s' r =>
        obtain ⟨f, a1, a2, a3, a4⟩ := evict_core h.core (by simp [dl]) t ok.tag b.alloc s.limit true e
        have hl := h.core.limit
        have hW := frame_W f TOTAL
        have hbd := h.bound
        cases r with
        | none =>
          obtain ⟨c, x⟩ := a1 rfl
          refine ⟨st.request o.cost st.limit, ?_, ?_, ?_⟩
          · simp only [Ideal.after, h4]
            exact guard_true ⟨m.doubt hd, by simp, by rw [m.cost, hl]; exact x⟩ _
          · simp only [m.cost, hl]
            rw [f.reserved]; exact c
          · simp only
            rw [f.reserved, f.limit]; omega
        | some x =>
          have c := a2 x rfl
          have ar := account_rest t b.tag (-b.alloc) s'
          refine ⟨st.request o.cost st.limit, ?_, ?_, ?_⟩
          · simp only [Ideal.after, h4]
            exact guard_true ⟨m.doubt hd, by simp⟩ _
          · simp only [m.cost, hl]
            rw [ar.reserved, f.reserved]
            refine ⟨by rw [c.limit, ar.limit], by rw [c.reserved, ar.reserved], by rw [c.next, ar.next], by rw [c.nextH, ar.nextH],
              by rw [c.handle, ar.handle], by rw [ar.blk]; exact c.same, ?_, ar.frame.hs c.hs⟩
            have := (c.inv.account t (-(b.alloc : Int)) ok.tag).congr (p' := dl extension s.reserved) (fun ix => by
              simp only [dl]; repeat' split
              all_goals omega)
            rw [ar.queue]; exact this
          · simp only
            rw [ar.reserved, ar.blk, ar.next, ar.limit, f.reserved, f.limit]; omega

theorem reserve_follows {s : Pool} {st : Ideal} (h : Rel s st) (t n : Nat) : Follows st (.reserve n) (reserve t n s) := by
  by_cases hn : n = 0
  · simp only [Follows, reserve, hn, if_true]
    exact ⟨st, by simp only [Ideal.after, if_true]; exact guard_true (by simp) st, h⟩
  · simp only [Follows, reserve, hn, if_false]
    cases e : evict t extension n s.limit false s with
    | mk s' r =>
      obtain ⟨f, a1, a2, a3, a4⟩ := evict_core h.core (by simp [dl]) t (by decide : extension < TOTAL) n s.limit false e
      have hl := h.core.limit
      have hW := frame_W f TOTAL
      have hbd := h.bound
      cases r with
      | none =>
        obtain ⟨c, x⟩ := a1 rfl
        refine ⟨st.request n st.limit, ?_, ?_, ?_⟩
        · simp only [Ideal.after, hn, if_false, Ideal.memory]
          exact guard_true (by rw [hl]; exact x) _
        · simp only [hl]; rw [f.reserved]; exact c
        · simp only; rw [f.reserved, f.limit]; omega
      | some x =>
        have c := a2 x rfl
        have hx : x = none := by
          cases x with
          | none => rfl
          | some d => have := (a4 d rfl).1; cases this
        subst hx
        have a3 := a3 rfl
        refine ⟨{ st.request n st.limit with reserved := st.reserved + n }, ?_, ?_, ?_⟩
        · simp only [Ideal.after, hn, if_false, Ideal.memory]
          exact guard_true (by simp) _
        · simp only [hl]
          have cc := c.inv.congr (p' := dl extension ((s.reserved + n : Nat) : Int)) (fun ix => by
            simp only [dl]; split <;> push_cast <;> omega)
          refine ⟨c.limit, ?_, c.next, c.nextH, c.handle, c.same, ?_, ⟨c.hs.live, c.hs.count⟩⟩
          · simp only; rw [f.reserved, h.core.reserved]
          · rw [f.reserved]
            exact ⟨⟨cc.cnt.acc, cc.cnt.small⟩, cc.bks, ⟨cc.qs.queued, cc.qs.nodes⟩⟩
        · simp only; rw [f.reserved, f.limit]; omega

theorem free_follows {s : Pool} {st : Ideal} (h : Rel s st) (t n : Nat) : Follows st (.free n) (free t n s) := by
  have hr := h.core.reserved
  by_cases h1 : s.reserved < n
  · simp only [Follows, free, h1, if_true]
    refine ⟨st, ?_, h⟩
    simp only [Ideal.after, hr, h1, if_true]; exact guard_true (by simp) st
  · simp only [Follows, free, h1, if_false]
    by_cases hn : n = 0
    · subst hn
      simp only [if_true]
      refine ⟨st, ?_, h⟩
      simp only [Ideal.after, hr, h1, if_false]
      rw [guard_true (by simp), ← hr]
      simp
    · simp only [hn, if_false]
      have ar := account_rest t extension (-n) s
      refine ⟨{ st with reserved := st.reserved - n }, ?_, ?_, ?_⟩
      · simp only [Ideal.after, hr, h1, if_false]; exact guard_true (by simp) _
      · have c := h.core
        have cc := (c.inv.account t (-(n : Int)) (by decide : extension < TOTAL)).congr (p' := dl extension ((s.reserved - n : Nat) : Int))
          (fun ix => by simp only [dl]; split <;> omega)
        refine ⟨by simp only; rw [c.limit, ar.limit], by simp only; rw [hr], by simp only; rw [c.next, ar.next],
          by simp only; rw [c.nextH, ar.nextH], by simp only; rw [c.handle, ar.handle], ?_, ?_, ?_⟩
        · simp only; rw [ar.blk]; exact c.same
        · simp only; rw [ar.queue]
          exact ⟨⟨cc.cnt.acc, cc.cnt.small⟩, cc.bks, ⟨cc.qs.queued, cc.qs.nodes⟩⟩
        · have g := ar.frame.hs c.hs
          exact ⟨g.live, g.count⟩
      · have := h.bound
        simp only; rw [ar.blk, ar.next, ar.limit]; omega

theorem usage_follows {s : Pool} {st : Ideal} (h : Rel s st) {ix : Nat} (hix : ix ≤ TOTAL) : Follows st (.usage ix) (usage ix s) := by
  have hsum : sumZ (fun c => (flush ix s).cache c ix) caches = 0 := sumZ_zero fun c hc => by simp [flush, hc]
  have says' : ∀ jx, says (flush ix s) jx = says s jx := by
    intro jx
    by_cases hj : jx = ix
    · subst hj
      simp only [says, hsum]
      simp [flush]
    · simp only [says]
      congr 1
      · simp [flush, hj]
      · exact sumZ_congr fun c hc => by simp [flush, hc, hj]
  have hmain : (flush ix s).main ix = W s.blk s.next ix + dl extension s.reserved ix := by
    have := says' ix
    rw [h.core.inv.cnt.acc ix] at this
    simp only [says, hsum] at this
    omega
  have hr := h.core.reserved
  have hru : dl extension s.reserved ix = (st.reservedUnder ix : Nat) := by
    by_cases c : ix = 13 ∨ ix = 11
    · have c' : ix = TOTAL ∨ ix = extension := c
      rw [dl, if_pos c', Ideal.reservedUnder, if_pos c, hr]
    · have c' : ¬ (ix = TOTAL ∨ ix = extension) := c
      rw [dl, if_neg c', Ideal.reservedUnder, if_neg c]; rfl
  have hn : ((flush ix s).main ix).toNat = W s.blk s.next ix + st.reservedUnder ix := by
    rw [hmain, hru]; omega
  simp only [Follows, usage]
  refine ⟨st, ?_, ?_, ?_⟩
  · have hix' : ix ≤ 13 := hix
    simp only [Ideal.after, hix', if_true]
    refine guard_true ?_ st
    rw [hn]
    refine ⟨by have := total_stays h.core ix; omega, by have := total_cost h.core ix; omega, fun e => ?_⟩
    subst e
    have hb := h.bound
    have hl := h.core.limit
    have : W s.blk s.next 13 = W s.blk s.next TOTAL := rfl
    simp only [Ideal.reservedUnder, true_or, if_true, hr]
    omega
  · have c := h.core
    refine ⟨c.limit, c.reserved, c.next, c.nextH, c.handle, c.same, ⟨⟨fun jx => ?_, fun a jx => ?_⟩, c.inv.bks, ⟨c.inv.qs.queued, c.inv.qs.nodes⟩⟩,
      ⟨c.hs.live, c.hs.count⟩⟩
    · rw [says']; exact c.inv.cnt.acc jx
    · simp only [flush]
      have h0 : (0 : Int).natAbs < threshold := by decide
      have := c.inv.cnt.small a jx
      split
      · by_cases hj : jx = ix
        · subst hj; simpa using h0
        · simpa [hj] using this
      · exact this
  · exact h.bound

theorem evict_zero {s : Pool} {p : Nat → Int} (h : Inv s p s.queue) (t : Nat) {lim : Nat} (hu : used s ≤ lim) :
    ∃ s', evict t extension 0 lim false s = (s', some none) ∧ SameRest s s' ∧ Inv s' p s'.queue := by
  have this : List.range queueSizes.sum = 0 :: [1, 2, 3, 4, 5, 6, 7] := by decide
  have ar := account_rest t extension 0 s
  have hc := (h.account t (0 : Int) (by decide : extension < TOTAL)).congr (p' := p) (fun ix => by simp [dl])
  have hm : (account t extension 0 s).main TOTAL = s.main TOTAL := by
    have hs : ∀ c ix, (s.cache c ix).natAbs < threshold := h.cnt.small
    have b1 : ∀ (s : Pool) (_ : ∀ c ix, (s.cache c ix).natAbs < threshold) cpu ix, (bump cpu ix 0 s).main = s.main := by
      intro s hs cpu ix
      simp only [bump, Int.add_zero]
      rw [if_neg (by have := hs cpu ix; omega)]
    simp only [account]
    rw [if_pos (by decide), b1 _ (bump_small hs), b1 _ hs]
  refine ⟨account t extension 0 s, ?_, ar, by rw [ar.queue]; exact hc⟩
  rw [evict, this]
  have hu' : used (account t extension 0 s) ≤ lim := by unfold used; rw [hm]; exact hu
  have hu2 : used (account t extension ((0 : Nat) : Int) s) ≤ lim := hu'
  simp only [evictFrom, hu2, if_true]
  rfl

theorem setLimit_follows {s : Pool} {st : Ideal} (h : Rel s st) (t n : Nat) : Follows st (.setLimit n) (setLimit t n s) := by
  simp only [Follows, setLimit]
  cases e : evict t extension 0 n false s with
  | mk s' r =>
    obtain ⟨f, a1, a2, a3, a4⟩ := evict_core h.core (by simp [dl]) t (by decide : extension < TOTAL) 0 n false e
    have hW := frame_W f TOTAL
    have hbd := h.bound
    cases r with
    | none =>
      obtain ⟨c, x⟩ := a1 rfl
      refine ⟨st.request 0 n, ?_, ?_, ?_⟩
      · simp only [Ideal.after]
        exact guard_true x _
      · simp only; rw [f.reserved]; exact c
      · simp only; rw [f.reserved, f.limit]; omega
    | some x =>
      have c := a2 x rfl
      have hx : x = none := by
        cases x with
        | none => rfl
        | some d => have := (a4 d rfl).1; cases this
      subst hx
      have a3 := a3 rfl
      have ci := c.inv.congr (p' := dl extension s.reserved) (fun ix => by simp [dl])
      have hu : used s' ≤ n := (evictFrom_spec t extension 0 n false (by decide) _ _ _ _ _ h.core.inv e).2.2.2.1 rfl
      obtain ⟨s2, e2, r2, i2⟩ := evict_zero (s := { s' with limit := n }) (p := dl extension s.reserved)
        ⟨⟨ci.cnt.acc, ci.cnt.small⟩, ci.bks, ⟨ci.qs.queued, ci.qs.nodes⟩⟩ t (lim := n) hu
      simp only [e2]
      refine ⟨{ st.request 0 n with limit := n }, by simp [Ideal.after], ?_, ?_⟩
      · rw [r2.reserved]
        simp only
        rw [f.reserved]
        refine ⟨r2.limit.symm, ?_, ?_, ?_, ?_, ?_, i2, ?_⟩
        · rw [r2.reserved]; exact c.reserved
        · rw [r2.next]; exact c.next
        · rw [r2.nextH]; exact c.nextH
        · rw [r2.handle]; exact c.handle
        · rw [r2.blk]; exact c.same
        · exact r2.frame.hs ⟨c.hs.live, c.hs.count⟩
      · rw [r2.blk, r2.next, r2.limit, r2.reserved]
        simp only
        rw [f.reserved]; omega

theorem blockOf_rel {s : Pool} {st : Ideal} (h : Rel s st) (t : Nat) (junk : Data) (sz : Nat) :
    ((blockOf t (allocateBytes t junk inMemoryTable sz false s)).2 = .oom ∧ st.exhausted sz st.limit ∧
      Rel (blockOf t (allocateBytes t junk inMemoryTable sz false s)).1 (st.request sz st.limit)) ∨
    ((blockOf t (allocateBytes t junk inMemoryTable sz false s)).2 = .block st.next ∧
      Rel (blockOf t (allocateBytes t junk inMemoryTable sz false s)).1
        { (st.request sz st.limit).add (bytesObj inMemoryTable sz false 1 0) with nextH := (st.request sz st.limit).nextH + 1 }) := by
  have key := allocate_rel h t junk sz false (by decide : inMemoryTable < TOTAL)
  generalize allocateBytes t junk inMemoryTable sz false s = X at key
  obtain ⟨s1, a⟩ := X
  rcases key with ⟨g1, g2, g3⟩ | ⟨g1, g2⟩
  · simp only at g1 g3
    subst g1
    exact .inl ⟨rfl, g2, g3⟩
  · simp only at g1 g2
    subst g1
    right
    simp only [blockOf]
    refine ⟨trivial, ?_⟩
    have hh : (allocState st inMemoryTable sz false).handle st.nextH = some st.next := by
      simp [allocState, Ideal.addHandle, Ideal.add, Ideal.set, request_nextH]
    have ho : (allocState st inMemoryTable sz false).obj st.next = some (bytesObj inMemoryTable sz false 0 1) := by
      simp [allocState, Ideal.addHandle, Ideal.add, Ideal.set, request_next]
    obtain ⟨_, k2⟩ := share_rel g2 hh ho
    obtain ⟨_, k4⟩ := unpin_rel k2 t (a := st.nextH) (i := st.next)
      (o := { bytesObj inMemoryTable sz false 0 1 with refs := (bytesObj inMemoryTable sz false 0 1).refs + 1 }) hh
      (by simp [Ideal.set])
    have hnone : st.handle st.nextH = none := by
      rw [h.core.handle, h.core.nextH]; exact nextH_none h.core.hs
    have hnh : update st.handle st.nextH none = st.handle := by rw [← hnone]; exact update_eq_self _ _
    refine Eq.mp (congrArg (Rel _) ?_) k4
    rw [← request_handle st sz st.limit, ← request_nextH st sz st.limit] at hnh
    have hn := request_next st sz st.limit
    have hnH := request_nextH st sz st.limit
    simp only [allocState]
    generalize st.request sz st.limit = st1 at hnh hn hnH ⊢
    simp only [Ideal.addHandle, Ideal.add, Ideal.set, Obj.alive, bytesObj, ← hn, ← hnH, update_idem, hnh, update_self]
    rfl

theorem transient_follows {s : Pool} {st : Ideal} (h : Rel s st) (t : Nat) (junk : Data) {size bs : Nat} (h1 : size ≤ bs) (h2 : 0 < size) :
    Follows st (.transient size bs) (transient t junk size bs s) := by
  by_cases hlt : size < bs
  · simp only [Follows, transient, Ideal.after, h1, h2, and_self, hlt, if_true]
    exact small_rel h t junk size (by decide : inMemoryTable < TOTAL)
  · simp only [Follows, transient, allocate, Ideal.after, h1, h2, and_self, hlt, if_true, if_false]
    rw [blockCost_eq, blockObj_eq]
    have key := blockOf_rel h t junk (allocationSize size)
    generalize allocationSize size = sz at key
    rcases key with ⟨g1, g2, g3⟩ | ⟨g1, g2⟩
    · refine ⟨_, ?_, g3⟩
      rw [g1]
      simp only [Ideal.memory]
      exact guard_true g2 _
    · refine ⟨_, ?_, g2⟩
      rw [g1]
      simp only [Ideal.memory]
      exact guard_true (by simp) _

theorem step_follows {s : Pool} {st : Ideal} (h : Rel s st) (e : Env) (op : Op) : Follows st op (step e op s) := by
  cases op with
  | small tag size =>
    by_cases ht : tag < 13
    · have ht' : tag < TOTAL := ht
      simp only [Follows, step, Ideal.after, ht, ht', if_true]
      exact small_rel h e.thread e.junk size ht'
    · have ht' : ¬ tag < TOTAL := ht
      simp only [Follows, step, Ideal.after, ht, ht', if_false]
      exact ⟨st, guard_true (by simp) st, h⟩
  | allocate tag size cd =>
    by_cases ht : tag < 13 ∧ 0 < size
    · have ht' : tag < TOTAL ∧ 0 < size := ht
      simp only [Follows, step]
      rw [if_pos ht']
      simp only [Ideal.after]
      rw [if_pos ht]
      rcases allocate_rel h e.thread e.junk (allocationSize size) cd ht'.1 with ⟨g1, g2, g3⟩ | ⟨g1, g2⟩
      · have g1' : (allocate e.thread e.junk tag size cd s).2 = .oom := g1
        refine ⟨st.request (blockCost size) st.limit, ?_, ?_⟩
        · rw [g1']
          simp only [Ideal.memory]
          exact guard_true (by rw [blockCost_eq]; exact g2) _
        · rw [blockCost_eq]; exact g3
      · have g1' : (allocate e.thread e.junk tag size cd s).2 = .handle st.nextH st.next := g1
        refine ⟨_, ?_, g2⟩
        rw [g1']
        simp only [Ideal.memory]
        rw [guard_true (by simp), blockCost_eq, blockObj_eq]
        rfl
    · have ht' : ¬ (tag < TOTAL ∧ 0 < size) := ht
      simp only [Follows, step]
      rw [if_neg ht']
      simp only [Ideal.after]
      rw [if_neg ht]
      exact ⟨st, guard_true (by simp) st, h⟩
  | transient size bs =>
    by_cases ht : size ≤ bs ∧ 0 < size
    · simp only [step, ht, and_self, if_true]
      exact transient_follows h e.thread e.junk ht.1 ht.2
    · simp only [Follows, step]
      rw [if_neg ht]
      simp only [Ideal.after]
      rw [if_neg ht]
      exact ⟨st, guard_true (by simp) st, h⟩
  | share a => exact share_follows h a
  | pin i => exact pin_follows h e.thread i
  | unpin a => exact unpin_follows h e.thread a
  | drop i => exact drop_follows h e.thread i
  | reserve n => exact reserve_follows h e.thread n
  | free n => exact free_follows h e.thread n
  | setLimit n => exact setLimit_follows h e.thread n
  | usage ix =>
    by_cases ht : ix ≤ 13
    · have ht' : ix ≤ TOTAL := ht
      simp only [step, ht', if_true]
      exact usage_follows h ht'
    · have ht' : ¬ ix ≤ TOTAL := ht
      simp only [Follows, step, Ideal.after, ht, ht', if_false]
      exact ⟨st, guard_true (by simp) st, h⟩
  | write a k v => exact write_follows h a k v
  | read a k => exact read_follows h a k

theorem start_rel (limit : Nat) : Rel (Pool.start limit) (Ideal.start limit) := by
  refine ⟨⟨rfl, rfl, rfl, rfl, rfl, fun _ => trivial, ⟨⟨fun ix => ?_, fun _ _ => (by decide : (0 : Int).natAbs < threshold)⟩, fun i b hb => by simp [Pool.start] at hb, ?_⟩, ?_⟩, ?_⟩
  · have : sumZ (fun _ => (0 : Int)) caches = 0 := sumZ_zero fun _ _ => rfl
    simp [says, Pool.start, this, W, sumN, dl]
  · exact ⟨fun i b hb => by simp [Pool.start] at hb, fun q n hn => by simp [Pool.start] at hn⟩
  · exact ⟨fun a i ha => by simp [Pool.start] at ha, fun i b hb => by simp [Pool.start] at hb⟩
  · simp [Pool.start, W, sumN]

theorem run_follows : ∀ (calls : List (Env × Op)) {s : Pool} {st : Ideal}, Rel s st →
    ∃ st', st.follow false ((calls.map Prod.snd).zip (run calls s).2) = some st' ∧ Rel (run calls s).1 st'
  | [], s, st, h => ⟨st, rfl, h⟩
  | (e, op) :: calls, s, st, h => by
    obtain ⟨st1, g1, g2⟩ := step_follows h e op
    obtain ⟨st2, k1, k2⟩ := run_follows calls g2
    refine ⟨st2, ?_, k2⟩
    simp only [run, List.map, List.zip_cons_cons, Ideal.follow, g1, Option.bind]
    exact k1

end Verif.Buf
