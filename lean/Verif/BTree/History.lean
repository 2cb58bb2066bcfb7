import Verif.BTree.Read
import Verif.BTree.Spec
/-!
Helper lemmas: histories.
-/
namespace Verif.BTree
open Verif.Seg
set_option linter.unusedSectionVars false
variable {K : Type} [LinearOrder K] [BoundedOrder K]

theorem TInv.empty' {mx : Nat} : TInv mx (empty : Tree K) := by
  refine ⟨⟨?_, ?_, ?_, List.Pairwise.nil, ?_⟩, ?_, Or.inl ⟨rfl, rfl⟩, rfl⟩
  all_goals intro l hl; cases hl

theorem answers_of {mx : Nat} (h12 : 12 ≤ mx) {t : Tree K} (h : RInv mx t) {S : List (K × Bytes)} (hp : (fl t.leaves).Perm S)
    (hc : t.count = S.length) : Answers t S := by
  have hk : ∀ k, ((fl t.leaves).filter (·.1 = k)).Perm (S.filter (·.1 = k)) := fun k => hp.filter _
  refine ⟨?_, ?_, ?_, ?_, ?_, ?_, hc⟩
  · intro k x; rw [h.contains h12]; simp only [hp.mem_iff]
  · intro k; rw [h.containsIndex h12]; simp only [(hp.map Prod.fst).mem_iff]
  · intro k; rw [h.itemCount h12, (hk k).length_eq]
  · intro k
    obtain ⟨l, h1, h2⟩ := h.getItems h12 k
    exact ⟨l, h1, h2.trans ((hk k).map _)⟩
  · intro k
    obtain ⟨l, h1, h2⟩ := h.getItem h12 k
    rw [(hk k).length_eq] at h1
    exact ⟨l, h1, h2.trans ((hk k).map _)⟩
  · exact ⟨fl t.leaves, hp, h.sorted, fun p => ⟨h.fullScan h12 p, fun lo hi n => ⟨h.scanAscending h12 lo hi n p, h.scanDecending h12 lo hi n p⟩⟩⟩

/-- `append` of an entry that is there. -/
theorem append_present {mx : Nat} (h12 : 12 ≤ mx) {t : Tree K} (h : TInv mx t) {k : K} {x : Bytes} (he : (k, x) ∈ fl t.leaves)
    (hlen : (fl t.leaves).length ≠ mx) :
    ∃ t', append mx t k x = .ok (t', false) ∧ TInv mx t' ∧ fl t'.leaves = fl t.leaves := by
  obtain ⟨ls, lv, cnt⟩ := t
  have hcnt : cnt = (fl ls).length := h.count
  simp only at he hlen ⊢
  cases ls with
  | nil => cases he
  | cons l0 ls0 =>
    obtain ⟨A, l, B, hAB, hdes, hA, hB⟩ := find_ok h12 h (List.cons_ne_nil l0 ls0) k
    have hL := h.leaf
    simp only at hAB hL
    rw [hAB] at hL hcnt he hlen
    have hlm : l ∈ A ++ l :: B := by simp
    have hul := hL.seg l hlm
    have hlo := hL.open' l hlm
    have hsz := h.size l (by simp only; rw [hAB]; exact hlm)
    have hfl : fl (A ++ l :: B) = fl A ++ lflat l ++ fl B := by rw [fl_append, fl_cons, List.append_assoc]
    have hel : (k, x) ∈ lflat l := by
      rw [hfl] at he
      rcases List.mem_append.mp he with he | he
      · rcases List.mem_append.mp he with he | he
        · exact absurd (hA _ he) (lt_irrefl _)
        · exact he
      · exact absurd (hB _ he) (lt_irrefl _)
    have hsh : Shape mx lv (A ++ l :: B).length := by
      rcases h.shape with ⟨hc, _⟩ | hs
      · simp at hc
      · simp only at hs; rwa [hAB] at hs
    have hold := append_old hul.sinv hel
    cases lv with
    | nil =>
      have h1 : (A ++ l :: B).length = 1 := hsh
      rw [List.length_append, List.length_cons] at h1
      have hA0 : A = [] := List.length_eq_zero_iff.mp (by omega)
      have hB0 : B = [] := List.length_eq_zero_iff.mp (by omega)
      subst hA0 hB0
      rw [List.nil_append] at hAB
      obtain ⟨rfl, rfl⟩ := List.cons.inj hAB
      obtain ⟨sg, lk⟩ := l0
      have hlk : lk = false := hlo
      subst hlk
      have hlt : sg.uniq < mx := by
        have h1 := hul.unq
        have h2 := hsz.1
        rw [List.nil_append, fl_cons, fl_nil, List.append_nil] at hlen
        have h3 : lflat (⟨sg, false⟩ : Leaf K) = flat sg.blocks := rfl
        rw [h3] at hlen
        simp only at h1 h2
        omega
      refine ⟨⟨[⟨sg, false⟩], [], cnt⟩, ?_, h, rfl⟩
      show (if sg.uniq < mx then (lift (Seg.append sg k x)).bind _ else _) = _
      rw [if_pos hlt]
      simp only at hold
      rw [hold]; rfl
    | cons cs up =>
      have hdes' : descend k (cs :: up) (leafMins (⟨l0 :: ls0, cs :: up, cnt⟩ : Tree K)) = A.length := hdes
      have hget : (l0 :: ls0)[A.length]? = some l := by rw [hAB]; exact get_mid
      have hun : append mx (⟨l0 :: ls0, cs :: up, cnt⟩ : Tree K) k x =
          (if l.locked then .diverges
          else if l.seg.uniq < mx then
            (lift (Seg.append l.seg k x)).bind fun r =>
              .ok (⟨(l0 :: ls0).set A.length ⟨r.1, false⟩, cs :: up, cnt + (if r.2 then 1 else 0)⟩, r.2)
          else
            (lift (Seg.split l.seg)).bind fun ab =>
              (if smin ab.2 ≤ k then (lift (Seg.append ab.2 k x)).bind fun r => .ok (ab.1, r.1, r.2)
               else (lift (Seg.append ab.1 k x)).bind fun r => .ok (r.1, ab.2, r.2)).bind fun (a, b, r) =>
                (lift (insertUp mx (cs :: up) (((l0 :: ls0).set A.length ⟨a, false⟩).map fun l => smin l.seg) A.length (smin b))).bind fun lv =>
                  .ok (⟨(l0 :: ls0).take A.length ++ ⟨a, false⟩ :: ⟨b, false⟩ :: (l0 :: ls0).drop (A.length + 1), lv, cnt + (if r then 1 else 0)⟩, r)) := by
        unfold append
        simp only [hdes', hget]
      have hsame : (⟨l.seg, false⟩ : Leaf K) = l := by rw [← hlo]
      rw [hun, hlo, if_neg (by simp), hAB, take_mid, drop_mid]
      by_cases hlt : l.seg.uniq < mx
      · refine ⟨⟨A ++ l :: B, cs :: up, cnt⟩, ?_, by rw [← hAB]; exact h, rfl⟩
        rw [if_pos hlt, hold]
        show (Res.ok _ : Res _) = _
        rw [set_at, hsame]; rfl
      · have hfull : l.seg.uniq = mx := by have := hsz.1; omega
        obtain ⟨a, c, e1, ha, hc, e2, u2, u1⟩ := split_ok hul
        have hna := flat_ne ha (by omega)
        have hnc := flat_ne hc (by omega)
        obtain ⟨⟨f, hf, hfk⟩, hge⟩ := smin_spec hc.pg hnc
        have hstr := useg_strict hul
        rw [← e2] at hstr
        have h3 := (Strict.append.mp hstr).2.2
        have hel : (k, x) ∈ flat l.seg.blocks := hel
        rw [← e2] at hel
        have hin : (if smin c ≤ k then (lift (Seg.append c k x)).bind fun r => Res.ok (a, r.1, r.2)
               else (lift (Seg.append a k x)).bind fun r => .ok (r.1, c, r.2)) = .ok (a, c, false) := by
          by_cases hck : smin c ≤ k
          · have : (k, x) ∈ flat c.blocks := by
              rcases List.mem_append.mp hel with he | he
              · exact absurd (h3 _ he f hf) (not_lt.mpr (by rw [hfk]; exact hck))
              · exact he
            rw [if_pos hck, append_old hc.sinv this]; rfl
          · have : (k, x) ∈ flat a.blocks := by
              rcases List.mem_append.mp hel with he | he
              · exact he
              · exact absurd (hge _ he) hck
            rw [if_neg hck, append_old ha.sinv this]; rfl
        have hL3 : LInv (A ++ [l] ++ B) := by simpa using hL
        obtain ⟨w1, w2⟩ := hL3.swap (M' := [⟨a, false⟩, ⟨c, false⟩]) (by
          intro q hq
          rcases List.mem_cons.mp hq with rfl | hq
          · exact ⟨ha, rfl, hna⟩
          · rw [List.mem_singleton.mp hq]
            exact ⟨hc, rfl, hnc⟩) (by
          simp only [fl_cons, fl_nil, List.append_nil]
          exact e2)
        have w1' : LInv (A ++ (⟨a, false⟩ : Leaf K) :: ⟨c, false⟩ :: B) := by simpa using w1
        have w2' : fl (A ++ (⟨a, false⟩ : Leaf K) :: ⟨c, false⟩ :: B) = fl (A ++ l :: B) := by simpa using w2
        have hms := mins_sorted w1'
        have hmseq : mins (A ++ (⟨a, false⟩ : Leaf K) :: ⟨c, false⟩ :: B) = mins A ++ smin a :: smin c :: mins B := by
          rw [mins_append]; rfl
        rw [hmseq] at hms
        have hms2 : mins (A ++ (⟨a, false⟩ : Leaf K) :: B) = mins A ++ smin a :: mins B := by
          rw [mins_append]; rfl
        obtain ⟨m1, m2, m3⟩ := List.pairwise_append.mp hms
        have m4 := List.pairwise_cons.mp m2
        have m5 := List.pairwise_cons.mp m4.2
        have hml : (mins A).length = A.length := by unfold mins; rw [List.length_map]
        have hml2 : (mins A ++ smin a :: mins B).length = (A ++ l :: B).length := by
          unfold mins; simp
        obtain ⟨lv', i1, i2, i3⟩ := insertUp_ok h12 (cs :: up) (mins A) (mins B) (smin a) (smin c)
          (by rw [hml2]; exact hsh)
          (hms.sublist (List.Sublist.append_left (List.Sublist.cons_cons _ (List.sublist_cons_self _ _)) _))
          (m4.1 _ (List.mem_cons_self ..)) m5.1
        rw [hml] at i1
        rw [hml2] at i3
        refine ⟨⟨A ++ ⟨a, false⟩ :: ⟨c, false⟩ :: B, lv', cnt⟩, ?_, ⟨w1', ?_, Or.inr ?_, ?_⟩, w2'⟩
        · rw [if_neg hlt, e1]
          show (Res.bind (if smin c ≤ k then _ else _) _) = _
          rw [hin]
          show (lift (insertUp mx (cs :: up) (mins ((A ++ l :: B).set A.length ⟨a, false⟩)) A.length (smin c))).bind _ = _
          rw [set_at, hms2, i1]
          rfl
        · have hother : ∀ q, q ∈ A ∨ q ∈ B → q.seg.uniq ≤ mx ∧ (lv' ≠ [] → mx / 4 ≤ q.seg.uniq) := by
            intro q hq
            have := h.size q (by
              simp only; rw [hAB]
              rcases hq with hq | hq
              · exact List.mem_append_left _ hq
              · exact List.mem_append_right _ (List.mem_cons_of_mem _ hq))
            exact ⟨this.1, fun _ => this.2 (List.cons_ne_nil _ _)⟩
          intro q hq
          rcases List.mem_append.mp hq with hq | hq
          · exact hother q (Or.inl hq)
          · rcases List.mem_cons.mp hq with rfl | hq
            · refine ⟨?_, fun _ => ?_⟩
              · show a.uniq ≤ mx; omega
              · show mx / 4 ≤ a.uniq; omega
            · rcases List.mem_cons.mp hq with rfl | hq
              · refine ⟨?_, fun _ => ?_⟩
                · show c.uniq ≤ mx; omega
                · show mx / 4 ≤ c.uniq; omega
              · exact hother q (Or.inr hq)
        · have : (A ++ (⟨a, false⟩ : Leaf K) :: ⟨c, false⟩ :: B).length = (A ++ l :: B).length + 1 := by simp; omega
          simp only
          rw [this]; exact i3
        · show cnt = _
          rw [w2', hcnt]

theorem two_leaves {mx : Nat} (h12 : 12 ≤ mx) {t : Tree K} (h : TInv mx t) (hlv : t.levels ≠ []) : 2 * (mx / 4) ≤ (fl t.leaves).length := by
  have hsh : Shape mx t.levels t.leaves.length := by
    rcases h.shape with ⟨_, hc⟩ | hs
    · exact absurd hc hlv
    · exact hs
  have h2 := (shape_pos h12 _ _ hsh).2 hlv
  match hq : t.leaves, h2 with
  | a :: b :: rest, _ =>
    have ha := h.size a (by rw [hq]; simp)
    have hb := h.size b (by rw [hq]; simp)
    have ha2 := (h.leaf.seg a (by rw [hq]; simp)).unq
    have hb2 := (h.leaf.seg b (by rw [hq]; simp)).unq
    have := ha.2 hlv
    have := hb.2 hlv
    rw [fl_cons, fl_cons, List.length_append, List.length_append]
    show 2 * (mx / 4) ≤ (flat a.seg.blocks).length + ((flat b.seg.blocks).length + _)
    omega

/-- `remove_index` of a key that is not there, in a small tree. -/
theorem removeIndex_missing {mx : Nat} (h12 : 12 ≤ mx) {t : Tree K} (h : TInv mx t) {k : K} (hk : k ∉ (fl t.leaves).map Prod.fst)
    (hlen : (fl t.leaves).length < 2 * (mx / 4)) : removeIndex mx t k = .ok (t, false) := by
  have hlv : t.levels = [] := by
    by_contra hc
    have := two_leaves h12 h hc
    omega
  obtain ⟨ls, lv, cnt⟩ := t
  simp only at hlv
  subst hlv
  match ls, h, hk with
  | [], _, _ => rfl
  | [l], h, hk =>
    have hul := h.leaf.seg l (List.mem_singleton.mpr rfl)
    have hlo := h.leaf.open' l (List.mem_singleton.mpr rfl)
    have hne := h.leaf.ne l (List.mem_singleton.mpr rfl)
    have hq := removeIndex_absent' hul.sinv (k := k) (by
      simp only [fl_cons, fl_nil, List.append_nil] at hk
      exact hk)
    show (lift (Seg.removeIndex l.seg k)).bind _ = _
    rw [hq]
    show (if l.seg.count = 0 then _ else _) = _
    rw [if_neg (by rw [hul.cnt]; exact fun hc => hne (List.length_eq_zero_iff.mp hc))]
    rfl
  | a :: b :: rest, h, _ =>
    rcases h.shape with ⟨hc, _⟩ | hs
    · cases hc
    · have : (a :: b :: rest).length = 1 := hs
      simp at this

theorem plain_step {mx : Nat} (h12 : 12 ≤ mx) {t : Tree K} (h : TInv mx t) {S : List (K × Bytes)} (hp : (fl t.leaves).Perm S) {o : Op K}
    (ho : PlainCall mx S o) : ∃ t', apply mx t o = .ok (t', (want S o).2) ∧ TInv mx t' ∧ (fl t'.leaves).Perm (want S o).1 := by
  cases o with
  | append k x =>
    obtain ⟨h1, h2, h3, h4⟩ := ho
    rcases h4 with h4 | ⟨h4, h5⟩
    · have hk : ∀ e ∈ fl t.leaves, e.1 ≠ k := fun e he hc => h4 (List.mem_map.mpr ⟨e, hp.mem_iff.mp he, hc⟩)
      obtain ⟨t', e1, e2, e3⟩ := append_ok h12 h h1 (by unfold QUARTER; exact h2) h3 hk
      have hn : (k, x) ∉ S := fun hc => h4 (List.mem_map.mpr ⟨_, hc, rfl⟩)
      have hw : want S (Op.append k x) = ((k, x) :: S, true) := if_neg hn
      rw [hw]
      exact ⟨t', e1, e2, e3.trans (hp.cons _)⟩
    · obtain ⟨t', e1, e2, e3⟩ := append_present h12 h (hp.mem_iff.mpr h4) (by rw [hp.length_eq]; exact h5)
      have hw : want S (Op.append k x) = (S, false) := if_pos h4
      rw [hw]
      exact ⟨t', e1, e2, by rw [e3]; exact hp⟩
  | remove k x =>
    have ho' : (k, x) ∈ S := ho
    obtain ⟨t', e1, e2, e3⟩ := remove_item_ok h12 h (hp.mem_iff.mpr ho')
    refine ⟨t', ?_, e2, ?_⟩
    · show remove mx t k x = _
      rw [e1]
      unfold want
      simp [ho']
    · rw [e3]
      exact hp.filter _
  | removeIndex k =>
    have ho' : k ∈ S.map Prod.fst ∨ S.length < 2 * (mx / 4) := ho
    by_cases hk : k ∈ S.map Prod.fst
    · obtain ⟨x, hx⟩ := mem_keys.mp hk
      obtain ⟨t', e1, e2, e3⟩ := remove_index_ok h12 h (hp.mem_iff.mpr hx)
      refine ⟨t', ?_, e2, ?_⟩
      · show removeIndex mx t k = _
        rw [e1]
        unfold want
        simp [hk]
      · rw [e3]
        exact hp.filter _
    · have hk' : k ∉ (fl t.leaves).map Prod.fst := fun hc => hk ((hp.map Prod.fst).mem_iff.mp hc)
      refine ⟨t, ?_, h, ?_⟩
      · show removeIndex mx t k = _
        rw [removeIndex_missing h12 h hk' (by rw [hp.length_eq]; exact ho'.resolve_left hk)]
        unfold want
        simp [hk]
      · show (fl t.leaves).Perm (S.filter (·.1 ≠ k))
        rw [filter_out (fun e he hc => hk (List.mem_map.mpr ⟨e, he, hc⟩))]
        exact hp

theorem plain_all {mx : Nat} (h12 : 12 ≤ mx) : ∀ (ops : List (Op K)) (t : Tree K) (S : List (K × Bytes)), TInv mx t → (fl t.leaves).Perm S →
    Along (PlainCall mx) S ops → ∃ t', applyAll mx t ops = .ok (t', (wants S ops).2) ∧ TInv mx t' ∧ (fl t'.leaves).Perm (wants S ops).1 := by
  intro ops
  induction ops with
  | nil => intro t S h hp _; exact ⟨t, rfl, h, hp⟩
  | cons o ops ih =>
    intro t S h hp ha
    obtain ⟨t1, e1, e2, e3⟩ := plain_step h12 h hp ha.1
    obtain ⟨t2, f1, f2, f3⟩ := ih t1 _ e2 e3 ha.2
    refine ⟨t2, ?_, f2, f3⟩
    show (apply mx t o).bind _ = _
    rw [e1]
    show (applyAll mx t1 ops).bind _ = _
    rw [f1]; rfl

/-! ### few distinct keys -/

/-- The tree is one leaf, or nothing. -/
inductive One (S : List (K × Bytes)) : Tree K → Prop where
  | none : S = [] → One S empty
  | leaf (s : Seg K) : SInv s → (flat s.blocks).Perm S → S ≠ [] → One S ⟨[⟨s, false⟩], [], S.length⟩

theorem One.rinv {mx : Nat} {S : List (K × Bytes)} {t : Tree K} (h : One S t) : RInv mx t ∧ (fl t.leaves).Perm S ∧ t.count = S.length := by
  cases h with
  | none hs =>
    subst hs
    refine ⟨⟨?_, ?_, ?_, List.Pairwise.nil, Or.inl ⟨rfl, rfl⟩⟩, List.Perm.nil, rfl⟩
    all_goals intro l hl; cases hl
  | leaf s hi hp hne =>
    have hfl : fl [(⟨s, false⟩ : Leaf K)] = flat s.blocks := by rw [fl_cons, fl_nil, List.append_nil]
    refine ⟨⟨?_, ?_, ?_, List.pairwise_singleton _ _, Or.inr rfl⟩, by simp only [hfl]; exact hp, rfl⟩
    · intro l hl; rw [List.mem_singleton.mp hl]; exact hi.pg
    · intro l hl; rw [List.mem_singleton.mp hl]
    · intro l hl; rw [List.mem_singleton.mp hl]
      intro hc
      apply hne
      have : flat s.blocks = [] := hc
      rw [this] at hp
      exact hp.nil_eq.symm

theorem one_remove {mx : Nat} {byItems : Bool} {s : Seg K} {S S' : List (K × Bytes)} {k : K} {op : Seg K → Option (Seg K × Bool)} {d : Seg K → Nat}
    {s' : Seg K} {r : Bool} (hop : op s = some (s', r)) (hi : SInv s') (hp : (flat s'.blocks).Perm S')
    (hd : S.length - (if r then d s else 0) = S'.length) :
    ∃ t', removeWith mx byItems (⟨[⟨s, false⟩], [], S.length⟩ : Tree K) k op d = .ok (t', r) ∧ One S' t' := by
  have hun : removeWith mx byItems (⟨[⟨s, false⟩], [], S.length⟩ : Tree K) k op d =
      (lift (op s)).bind fun r =>
        if r.1.count = 0 then .ok (⟨[], [], S.length - (if r.2 then d s else 0)⟩, r.2)
        else .ok (⟨[⟨r.1, false⟩], [], S.length - (if r.2 then d s else 0)⟩, r.2) := rfl
  rw [hun, hop]
  show ∃ t', (if s'.count = 0 then Res.ok ((⟨[], [], S.length - (if r then d s else 0)⟩ : Tree K), r)
    else .ok (⟨[⟨s', false⟩], [], S.length - (if r then d s else 0)⟩, r)) = .ok (t', r) ∧ _
  rw [hd]
  by_cases h0 : s'.count = 0
  · rw [if_pos h0]
    rw [hi.cnt] at h0
    have : S' = [] := by
      rw [List.length_eq_zero_iff.mp h0] at hp
      exact hp.nil_eq.symm
    refine ⟨_, rfl, ?_⟩
    rw [this]
    exact One.none rfl
  · rw [if_neg h0]
    refine ⟨_, rfl, One.leaf s' hi hp ?_⟩
    rintro rfl
    rw [hi.cnt, hp.length_eq] at h0
    exact h0 rfl

theorem few_step {mx : Nat} {t : Tree K} {S : List (K × Bytes)} (hn : S.Nodup) (h : One S t) {o : Op K} (ho : FewKeysCall mx S o) :
    ∃ t', apply mx t o = .ok (t', (want S o).2) ∧ One (want S o).1 t' := by
  cases h with
  | none hs =>
    subst hs
    cases o with
    | append k x =>
      obtain ⟨h1, h2, _⟩ := ho
      obtain ⟨s', e1, e2, e3⟩ := append_new SInv.empty h1 (k := k) (by unfold QUARTER; exact h2) (List.not_mem_nil)
      refine ⟨⟨[⟨s', false⟩], [], 1⟩, ?_, One.leaf s' e2 e3 (List.cons_ne_nil _ _)⟩
      show append mx empty k x = _
      unfold append
      simp only [empty, e1, lift, Res.bind, want, List.not_mem_nil, if_false]
    | remove k x => exact ⟨empty, rfl, One.none rfl⟩
    | removeIndex k => exact ⟨empty, rfl, One.none rfl⟩
  | leaf s hi hp hne =>
    cases o with
    | append k x =>
      obtain ⟨h1, h2, h3⟩ := ho
      have hu : s.uniq < mx := by
        rw [hi.unq]
        have : ((flat s.blocks).map Prod.fst).toFinset = (S.map Prod.fst).toFinset := List.toFinset_eq_of_perm _ _ (hp.map _)
        rw [this]; exact h3
      have hun : append mx (⟨[⟨s, false⟩], [], S.length⟩ : Tree K) k x =
          (if s.uniq < mx then
            (lift (Seg.append s k x)).bind fun r => .ok (⟨[⟨r.1, false⟩], [], S.length + (if r.2 then 1 else 0)⟩, r.2)
          else
            (lift (Seg.split s)).bind fun ab =>
              if smin ab.2 < k then
                (lift (Seg.append ab.2 k x)).bind fun r =>
                  .ok (⟨[⟨ab.1, false⟩, ⟨r.1, false⟩], [[2]], S.length + (if r.2 then 1 else 0)⟩, r.2)
              else
                (lift (Seg.append ab.1 k x)).bind fun r =>
                  .ok (⟨[⟨r.1, false⟩, ⟨ab.2, false⟩], [[2]], S.length + (if r.2 then 1 else 0)⟩, r.2)) := rfl
      have happ : apply mx (⟨[⟨s, false⟩], [], S.length⟩ : Tree K) (Op.append k x) = append mx (⟨[⟨s, false⟩], [], S.length⟩ : Tree K) k x := rfl
      rw [happ, hun, if_pos hu]
      by_cases hm : (k, x) ∈ S
      · rw [append_old hi (hp.mem_iff.mpr hm)]
        have hw : want S (Op.append k x) = (S, false) := if_pos hm
        rw [hw]
        exact ⟨_, rfl, One.leaf s hi hp hne⟩
      · obtain ⟨s', e1, e2, e3⟩ := append_new hi h1 (by unfold QUARTER; exact h2) (k := k) (fun hc => hm (hp.mem_iff.mp hc))
        rw [e1]
        have hw : want S (Op.append k x) = ((k, x) :: S, true) := if_neg hm
        rw [hw]
        exact ⟨_, rfl, One.leaf s' e2 (e3.trans (hp.cons _)) (List.cons_ne_nil _ _)⟩
    | remove k x =>
      have ho' : S.filter (·.1 = k) = [(k, x)] := ho
      have hmS : (k, x) ∈ S := List.mem_of_mem_filter (by rw [ho']; exact List.mem_singleton.mpr rfl)
      have hm : (k, x) ∈ flat s.blocks := hp.mem_iff.mpr hmS
      have hone : Seg.itemCount s k = 1 := by
        rw [itemCount_eq hi.pg, (hp.filter _).length_eq, ho']; rfl
      obtain ⟨s', e1, e2, e3⟩ := remove_ok hi hm (one_of_alone hi.pg hone)
      have hp' : (flat s'.blocks).Perm (S.filter (· ≠ (k, x))) := by rw [e3]; exact hp.filter _
      have hw : (want S (Op.remove k x)).2 = true := by simp [want, hmS]
      rw [hw]
      refine one_remove (mx := mx) (byItems := true) (k := k) (op := fun s => Seg.remove s k x) (d := fun _ => 1) e1 e2 hp' ?_
      have := length_filter_one hn hmS
      show _ = (S.filter (· ≠ (k, x))).length
      simp only [if_true]
      omega
    | removeIndex k =>
      by_cases hk : k ∈ S.map Prod.fst
      · obtain ⟨x, hx⟩ := mem_keys.mp hk
        obtain ⟨s', e1, e2, e3⟩ := removeIndex_present hi (mem_keys.mpr ⟨x, hp.mem_iff.mpr hx⟩)
        have hp' : (flat s'.blocks).Perm (S.filter (·.1 ≠ k)) := by rw [e3]; exact hp.filter _
        have hw : (want S (Op.removeIndex k)).2 = true := by simp [want, hk]
        rw [hw]
        refine one_remove (mx := mx) (byItems := false) (k := k) (op := fun s => Seg.removeIndex s k) (d := fun s => Seg.itemCount s k) e1 e2 hp' ?_
        have h1 := filter_split_length S k
        have h2 : Seg.itemCount s k = (S.filter (·.1 = k)).length := by rw [itemCount_eq hi.pg, (hp.filter _).length_eq]
        show _ = (S.filter (·.1 ≠ k)).length
        simp only [if_true]
        omega
      · have e1 := removeIndex_absent' hi (k := k) (fun hc => hk ((hp.map Prod.fst).mem_iff.mp hc))
        have hw : want S (Op.removeIndex k) = (S, false) := by
          show (S.filter (·.1 ≠ k), decide (k ∈ S.map Prod.fst)) = _
          rw [filter_out (fun e he hc => hk (List.mem_map.mpr ⟨e, he, hc⟩))]
          simp [hk]
        rw [hw]
        exact one_remove (mx := mx) (byItems := false) (k := k) (op := fun s => Seg.removeIndex s k) (d := fun s => Seg.itemCount s k) e1 hi hp (by simp)

theorem want_nodup {S : List (K × Bytes)} (h : S.Nodup) (o : Op K) : (want S o).1.Nodup := by
  cases o with
  | append k x =>
    by_cases hm : (k, x) ∈ S
    · rw [show want S (Op.append k x) = (S, false) from if_pos hm]; exact h
    · rw [show want S (Op.append k x) = ((k, x) :: S, true) from if_neg hm]; exact List.nodup_cons.mpr ⟨hm, h⟩
  | remove k x => exact h.filter _
  | removeIndex k => exact h.filter _

theorem few_all {mx : Nat} : ∀ (ops : List (Op K)) (t : Tree K) (S : List (K × Bytes)), S.Nodup → One S t →
    Along (FewKeysCall mx) S ops → ∃ t', applyAll mx t ops = .ok (t', (wants S ops).2) ∧ One (wants S ops).1 t' := by
  intro ops
  induction ops with
  | nil => intro t S _ h _; exact ⟨t, rfl, h⟩
  | cons o ops ih =>
    intro t S hn h ha
    obtain ⟨t1, e1, e2⟩ := few_step hn h ha.1
    obtain ⟨t2, f1, f2⟩ := ih t1 _ (want_nodup hn o) e2 ha.2
    refine ⟨t2, ?_, f2⟩
    show (apply mx t o).bind _ = _
    rw [e1]
    show (applyAll mx t1 ops).bind _ = _
    rw [f1]; rfl

end Verif.BTree
