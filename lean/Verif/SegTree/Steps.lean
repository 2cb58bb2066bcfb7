import Verif.SegTree.Queries
/-!
What the updates of a segment tree do.
-/
namespace Verif.Seg
open Verif.Block
set_option linter.unusedSectionVars false
variable {K : Type} [LinearOrder K] [BoundedOrder K]

/-- A quarter of a page. -/
def QUARTER : Nat := 65536

/-- The states of a segment tree between calls. -/
structure SInv (s : Seg K) : Prop where
  pg : Pg s.blocks
  small : ∀ e ∈ flat s.blocks, e.2.length + 32 ≤ QUARTER
  nodup : (flat s.blocks).Nodup
  cnt : s.count = (flat s.blocks).length
  unq : s.uniq = ((flat s.blocks).map Prod.fst).toFinset.card

theorem align_page {n : Nat} (h : 0 < n) : PAGE ≤ alignToBlock n := by
  unfold alignToBlock PAGE
  have : ∀ B, 0 < B → B ≤ (n + (B - 1)) / B * B := by
    intro B hB
    have : 1 ≤ (n + (B - 1)) / B := by
      rw [Nat.le_div_iff_mul_le hB]
      omega
    calc B = 1 * B := (Nat.one_mul B).symm
      _ ≤ _ := Nat.mul_le_mul_right B this
  exact this _ (by decide)

theorem quarter_le {f : Nat} (h : PAGE ≤ f) : QUARTER ≤ f / 4 := by
  unfold PAGE at h
  unfold QUARTER
  omega

theorem pg_fresh (k : K) {x : Bytes} (hx : 0 < x.length) : Pg [fresh k x] ∧ flat [fresh k x] = [(k, x)] := by
  obtain ⟨h1, h2⟩ := fresh_ok k hx
  refine ⟨Pg.single h1 (by rw [h2]; exact List.cons_ne_nil _ _) ?_, ?_⟩
  · rw [fresh_full]; exact align_page (by omega)
  · rw [flat_single, iterate_eq, h2]; rfl

theorem memOk_iff {b : Block K} (h : Inv b) (n : Nat) : memOk b n = true ↔ 16 + used (entries b) + n + 24 ≤ b.full := by
  have := inv_used h
  unfold memOk MSZ
  rw [decide_eq_true_iff]
  omega

theorem pg_append {b : Block K} (h : Pg [b]) {k : K} {x : Bytes} (hx : 0 < x.length) (hn : (k, x) ∉ flat [b])
    (hm : memOk b x.length = true) : Pg [(Block.append b k x).1] ∧ (flat [(Block.append b k x).1]).Perm ((k, x) :: flat [b]) := by
  have hib := h.inv b (List.mem_singleton.mpr rfl)
  have hn' : (k, x) ∉ entries b := fun hc => hn (by rw [flat_single]; exact mem_iterate.mpr hc)
  obtain ⟨b', e1, e2, e3, e4⟩ := append_ok hib hx hn' ((memOk_iff hib _).mp hm)
  rw [e1]
  refine ⟨Pg.single e2 ?_ ?_, ?_⟩
  · intro hc
    rw [hc] at e3
    exact absurd e3.length_eq (by simp)
  · rw [e4]; exact h.sz b (List.mem_singleton.mpr rfl)
  · rw [flat_single, flat_single]
    exact (iterate_perm b').trans (e3.trans ((iterate_perm b).symm.cons _))

theorem pg_splitAppend {b : Block K} (h : Pg [b]) {k : K} {x : Bytes} (hx : 0 < x.length) (hn : (k, x) ∉ flat [b])
    (hm : memOk b x.length ≠ true) (hs : ∀ e ∈ flat [b], e.2.length + 32 ≤ QUARTER) (hxs : x.length + 32 ≤ QUARTER) :
    ∃ r, splitAppend ⊥ b k x = some r ∧ Pg (pages r) ∧ (flat (pages r)).Perm ((k, x) :: flat [b]) := by
  have hib := h.inv b (List.mem_singleton.mpr rfl)
  have hsz := h.sz b (List.mem_singleton.mpr rfl)
  have hq := quarter_le hsz
  have hH : HSZ ≤ b.full := by
    unfold PAGE at hsz
    show 16 ≤ b.full
    omega
  have hn' : (k, x) ∉ entries b := fun hc => hn (by rw [flat_single]; exact mem_iterate.mpr hc)
  obtain ⟨r, e1, g⟩ := splitAppend_ok (kmin := ⊥) hib hH hx hn' (by
      have := (memOk_iff hib x.length).not.mp hm
      omega)
    (fun e he => le_trans (hs e (by rw [flat_single]; exact mem_iterate.mpr he)) hq) (le_trans hxs hq)
  refine ⟨r, e1, ⟨g.inv, g.ne, ?_, g.order⟩, ?_⟩
  · intro p hp
    rcases g.size p hp with hz | hz
    · rw [hz]; exact hsz
    · rw [hz]; exact align_page (by omega)
  · rw [flat_single]
    exact g.perm.trans ((iterate_perm b).symm.cons _)

theorem getLast_cases {α : Type} (l : List α) : l = [] ∨ ∃ a, l.getLast? = some a ∧ l = l.dropLast ++ [a] := by
  by_cases h : l = []
  · exact Or.inl h
  · right
    refine ⟨l.getLast h, List.getLast?_eq_some_getLast h, (List.dropLast_append_getLast h).symm⟩

/-- A new entry is placed. -/
theorem place_ok {pre post : List (Block K)} {b : Block K} {k : K} {x : Bytes} (h : Pg (pre ++ b :: post))
    (hx : 0 < x.length) (hn : (k, x) ∉ flat (pre ++ b :: post))
    (hs : ∀ e ∈ flat (pre ++ b :: post), e.2.length + 32 ≤ QUARTER) (hxs : x.length + 32 ≤ QUARTER)
    (hpre : ∀ e ∈ flat pre, e.1 ≤ k) (hpost : ∀ e ∈ flat post, k ≤ e.1) :
    ∃ bs, place pre b post k x = some bs ∧ Pg bs ∧ (flat bs).Perm ((k, x) :: flat (pre ++ b :: post)) := by
  obtain ⟨hp1, hp2, hp3⟩ := Pg.append.mp h
  have hp2' : Pg ([b] ++ post) := hp2
  obtain ⟨hb, hp4, hp5⟩ := Pg.append.mp hp2'
  have hib := hb.inv b (List.mem_singleton.mpr rfl)
  have hsub : ∀ {l : List (Block K)}, (∀ c ∈ l, c ∈ pre ++ b :: post) → (k, x) ∉ flat l := by
    intro l hl hc
    obtain ⟨c, hc1, hc2⟩ := mem_flat.mp hc
    exact hn (mem_flat.mpr ⟨c, hl c hc1, hc2⟩)
  have hsub2 : ∀ {l : List (Block K)}, (∀ c ∈ l, c ∈ pre ++ b :: post) → ∀ e ∈ flat l, e.2.length + 32 ≤ QUARTER := by
    intro l hl e hc
    obtain ⟨c, hc1, hc2⟩ := mem_flat.mp hc
    exact hs e (mem_flat.mpr ⟨c, hl c hc1, hc2⟩)
  have hbmem : ∀ c ∈ [b], c ∈ pre ++ b :: post := by
    intro c hc; rw [List.mem_singleton.mp hc]; simp
  have hsh : pre ++ b :: post = pre ++ [b] ++ post := by simp
  have h' := h
  rw [hsh] at h'
  unfold place
  by_cases hm : memOk b x.length = true
  · rw [if_pos hm]
    obtain ⟨a1, a2⟩ := pg_append hb hx (hsub hbmem) hm
    have := h'.grow a1 a2 hpre hpost
    refine ⟨_, rfl, ?_⟩
    rw [hsh]
    simpa using this
  · rw [if_neg hm]
    by_cases hmax : bmax b ≤ k
    · rw [if_pos hmax]
      have hbk : ∀ e ∈ flat (pre ++ [b]), e.1 ≤ k := by
        intro e he
        rw [flat_append, flat_single] at he
        rcases List.mem_append.mp he with he | he
        · exact hpre e he
        · exact le_trans (le_bmax hib he) hmax
      obtain ⟨f1, f2⟩ := pg_fresh k hx
      have hfp : (flat [fresh k x]).Perm ((k, x) :: flat ([] : List (Block K))) := by rw [f2]; exact List.Perm.refl _
      cases post with
      | nil =>
        have h2 : Pg (pre ++ [b] ++ [] ++ []) := by simpa using h'
        obtain ⟨g1, g2⟩ := h2.grow f1 hfp hbk (fun e he => absurd he (List.not_mem_nil))
        refine ⟨_, rfl, ?_⟩
        simpa using And.intro g1 g2
      | cons n post' =>
        have hnmem : ∀ c ∈ [n], c ∈ pre ++ b :: n :: post' := by
          intro c hc; rw [List.mem_singleton.mp hc]; simp
        have hn1 : Pg [n] := by
          have : Pg ([n] ++ post') := hp4
          exact (Pg.append.mp this).1
        by_cases hmn : memOk n x.length = true
        · refine ⟨_, if_pos hmn, ?_⟩
          obtain ⟨a1, a2⟩ := pg_append hn1 hx (hsub hnmem) hmn
          have h2 : Pg (pre ++ [b] ++ [n] ++ post') := by simpa using h'
          have := h2.grow a1 a2 hbk (fun e he => hpost e (by rw [flat_cons]; exact List.mem_append_right _ he))
          simpa using this
        · refine ⟨_, if_neg hmn, ?_⟩
          have h2 : Pg (pre ++ [b] ++ [] ++ (n :: post')) := by simpa using h'
          have := h2.grow f1 hfp hbk hpost
          simpa using this
    · rw [if_neg hmax]
      by_cases hmin : k ≤ bmin b
      · rw [if_pos hmin]
        have hbk : ∀ e ∈ flat (b :: post), k ≤ e.1 := by
          intro e he
          rw [flat_cons] at he
          rcases List.mem_append.mp he with he | he
          · exact le_trans hmin (bmin_le hib he)
          · exact hpost e he
        rcases getLast_cases pre with hnil | ⟨p, hl, hd⟩
        · subst hnil
          obtain ⟨f1, f2⟩ := pg_fresh k hx
          have hfp : (flat [fresh k x]).Perm ((k, x) :: flat ([] : List (Block K))) := by rw [f2]; exact List.Perm.refl _
          have h2 : Pg (([] : List (Block K)) ++ [] ++ (b :: post)) := by simpa using h
          have := h2.grow f1 hfp (fun e he => absurd he (List.not_mem_nil)) hbk
          exact ⟨_, rfl, by simpa using this⟩
        · rw [hl]
          simp only
          have hpm : p ∈ pre := by rw [hd]; simp
          have hpmem : ∀ c ∈ [p], c ∈ pre ++ b :: post := by
            intro c hc; rw [List.mem_singleton.mp hc]; simp [hpm]
          have h2 : Pg (pre.dropLast ++ [p] ++ (b :: post)) := by
            rw [← hd]; exact h
          have hpp : Pg [p] := (Pg.append.mp (Pg.append.mp h2).1).2.1
          have hdl : ∀ e ∈ flat pre.dropLast, e.1 ≤ k := by
            intro e he
            refine hpre e ?_
            rw [hd, flat_append]
            exact List.mem_append_left _ he
          have hback : flat (pre.dropLast ++ [p] ++ (b :: post)) = flat (pre ++ b :: post) := by rw [← hd]
          by_cases hmp : memOk p x.length = true
          · rw [if_pos hmp]
            obtain ⟨a1, a2⟩ := pg_append hpp hx (hsub hpmem) hmp
            have := h2.grow a1 a2 hdl hbk
            rw [hback] at this
            exact ⟨_, rfl, by simpa using this⟩
          · rw [if_neg hmp]
            obtain ⟨r, e1, a1, a2⟩ := pg_splitAppend hpp hx (hsub hpmem) hmp (hsub2 hpmem) hxs
            rw [e1]
            have := h2.grow a1 a2 hdl hbk
            rw [hback] at this
            exact ⟨_, rfl, by simpa using this⟩
      · rw [if_neg hmin]
        obtain ⟨r, e1, a1, a2⟩ := pg_splitAppend hb hx (hsub hbmem) hm (hsub2 hbmem) hxs
        rw [e1]
        have := h'.grow a1 a2 hpre hpost
        rw [← hsh] at this
        exact ⟨_, rfl, by simpa using this⟩

theorem mem_keys {l : List (K × Bytes)} {k : K} : k ∈ l.map Prod.fst ↔ ∃ y, (k, y) ∈ l := by
  constructor
  · intro h
    obtain ⟨e, he, hk⟩ := List.mem_map.mp h
    exact ⟨e.2, by rw [← hk]; exact he⟩
  · rintro ⟨y, hy⟩
    exact List.mem_map.mpr ⟨_, hy, rfl⟩

theorem card_cons_new {l : List (K × Bytes)} {k : K} {x : Bytes} :
    (((k, x) :: l).map Prod.fst).toFinset.card = (l.map Prod.fst).toFinset.card + (if k ∈ l.map Prod.fst then 0 else 1) := by
  rw [List.map_cons, List.toFinset_cons]
  by_cases h : k ∈ l.map Prod.fst
  · rw [if_pos h, Finset.insert_eq_of_mem (List.mem_toFinset.mpr h)]
    rfl
  · rw [if_neg h, Finset.card_insert_of_notMem (fun hc => h (List.mem_toFinset.mp hc))]

theorem card_perm {a c : List (K × Bytes)} (h : a.Perm c) : (a.map Prod.fst).toFinset.card = (c.map Prod.fst).toFinset.card := by
  rw [List.toFinset_eq_of_perm _ _ (h.map _)]

/-- The pages `append` searches for the entry hold it if any page does. -/
theorem seen_contains {s : Seg K} (h : Pg s.blocks) (k : K) (x : Bytes) :
    ((mid s k ++ (hi s k).take 1).any fun b => Block.contains b k x) = true ↔ (k, x) ∈ flat s.blocks := by
  rw [List.any_eq_true]
  constructor
  · rintro ⟨b, hb, hc⟩
    have hbb : b ∈ s.blocks := by
      rw [blocks_split s k, fromB_split]
      rcases List.mem_append.mp hb with hb | hb
      · simp [hb]
      · simp [List.mem_of_mem_take hb]
    exact mem_flat.mpr ⟨b, hbb, (C13_questions (h.inv b hbb) k x).1.mp hc⟩
  · intro hm
    obtain ⟨b, hb, hc⟩ := mem_flat.mp ((mem_key h).mp hm)
    exact ⟨b, List.mem_append_left _ hb, (C13_questions ((pg_mid h k).1.inv b hb) k x).1.mpr hc⟩

theorem seen_index {s : Seg K} (h : Pg s.blocks) (k : K) :
    ((mid s k ++ (hi s k).take 1).any fun b => Block.containsIndex b k) = true ↔ ∃ x, (k, x) ∈ flat s.blocks := by
  rw [List.any_eq_true]
  constructor
  · rintro ⟨b, hb, hc⟩
    have hbb : b ∈ s.blocks := by
      rw [blocks_split s k, fromB_split]
      rcases List.mem_append.mp hb with hb | hb
      · simp [hb]
      · simp [List.mem_of_mem_take hb]
    obtain ⟨y, hy⟩ := (C13_questions (h.inv b hbb) k []).2.1.mp hc
    exact ⟨y, mem_flat.mpr ⟨b, hbb, hy⟩⟩
  · rintro ⟨x, hm⟩
    obtain ⟨b, hb, hc⟩ := mem_flat.mp ((mem_key h).mp hm)
    exact ⟨b, List.mem_append_left _ hb, (C13_questions ((pg_mid h k).1.inv b hb) k x).2.1.mpr ⟨x, hc⟩⟩

theorem SInv.empty : SInv (⟨[], 0, 0⟩ : Seg K) :=
  ⟨Pg.nil, fun _ h => absurd h List.not_mem_nil, List.nodup_nil, rfl, rfl⟩

theorem SInv.grown {s : Seg K} (h : SInv s) {bs : List (Block K)} {k : K} {x : Bytes} (hp : Pg bs)
    (hf : (flat bs).Perm ((k, x) :: flat s.blocks)) (hn : (k, x) ∉ flat s.blocks) (hxs : x.length + 32 ≤ QUARTER) :
    SInv ⟨bs, s.count + 1, s.uniq + (if k ∈ (flat s.blocks).map Prod.fst then 0 else 1)⟩ := by
  refine ⟨hp, ?_, ?_, ?_, ?_⟩
  · intro e he
    rcases List.mem_cons.mp (hf.mem_iff.mp he) with rfl | he
    · exact hxs
    · exact h.small e he
  · rw [hf.nodup_iff]
    exact List.nodup_cons.mpr ⟨hn, h.nodup⟩
  · show s.count + 1 = _
    rw [hf.length_eq, List.length_cons, h.cnt]
  · show s.uniq + _ = _
    rw [card_perm hf, card_cons_new, h.unq]

theorem append_new {s : Seg K} (h : SInv s) {k : K} {x : Bytes} (hx : 0 < x.length) (hxs : x.length + 32 ≤ QUARTER)
    (hn : (k, x) ∉ flat s.blocks) :
    ∃ s', append s k x = some (s', true) ∧ SInv s' ∧ (flat s'.blocks).Perm ((k, x) :: flat s.blocks) := by
  unfold append
  by_cases he : s.blocks = []
  · obtain ⟨f1, f2⟩ := pg_fresh k hx
    have hp : (flat [fresh k x]).Perm ((k, x) :: flat s.blocks) := by rw [f2, he]; exact List.Perm.refl _
    have hg := h.grown f1 hp hn hxs
    rw [if_neg (by rw [he]; exact List.not_mem_nil)] at hg
    rw [if_pos (by rw [he]; rfl)]
    exact ⟨_, rfl, hg, hp⟩
  · rw [if_neg (by simpa using he)]
    simp only
    rw [if_neg (fun hc => hn ((seen_contains h.pg k x).mp hc))]
    have hu : (if ((mid s k ++ (hi s k).take 1).any fun b => Block.containsIndex b k) = true then 0 else 1) =
        (if k ∈ (flat s.blocks).map Prod.fst then 0 else 1) := by
      by_cases hc : k ∈ (flat s.blocks).map Prod.fst
      · rw [if_pos hc, if_pos ((seen_index h.pg k).mpr (mem_keys.mp hc))]
      · rw [if_neg hc, if_neg (fun hcc => hc (mem_keys.mpr ((seen_index h.pg k).mp hcc)))]
    rw [hu]
    have hsp := blocks_split s k
    cases hf : fromB s k with
    | cons b post =>
      rw [hf] at hsp
      have hpg := h.pg
      rw [hsp] at hpg
      obtain ⟨bs, e1, e2, e3⟩ := place_ok hpg hx (hsp ▸ hn) (hsp ▸ h.small) hxs (fun e he => le_of_lt (lo_lt h.pg he))
        (fun e he => fromB_tail_ge h.pg hf he)
      simp only [e1, Option.map_some]
      rw [← hsp] at e3
      exact ⟨_, rfl, h.grown e2 e3 hn hxs, e3⟩
    | nil =>
      rw [hf, List.append_nil] at hsp
      rcases getLast_cases (lo s k) with hnil | ⟨b, hl, hd⟩
      · exact absurd (hsp.trans hnil) he
      · have hsp2 : s.blocks = (lo s k).dropLast ++ b :: [] := hsp.trans hd
        have hpg := h.pg
        rw [hsp2] at hpg
        obtain ⟨bs, e1, e2, e3⟩ := place_ok hpg hx (hsp2 ▸ hn) (hsp2 ▸ h.small) hxs (fun e he => le_of_lt (lo_lt h.pg (by
            rw [hd, flat_append]; exact List.mem_append_left _ he)))
          (fun e he => absurd he List.not_mem_nil)
        simp only [hl, e1, Option.map_some]
        rw [← hsp2] at e3
        exact ⟨_, rfl, h.grown e2 e3 hn hxs, e3⟩

theorem append_old {s : Seg K} (h : SInv s) {k : K} {x : Bytes} (hn : (k, x) ∈ flat s.blocks) :
    append s k x = some (s, false) := by
  unfold append
  rw [if_neg (by
    intro hc
    rw [List.isEmpty_iff.mp hc] at hn
    cases hn)]
  simp only
  rw [if_pos ((seen_contains h.pg k x).mpr hn)]

/-! ### removal -/

theorem occupied_eq {b : Block K} (h : Inv b) : b.full - b.avail - HSZ = used (entries b) := by
  have := inv_used h
  show b.full - b.avail - 16 = _
  omega

theorem merge_two {a c : Block K} (h : Pg [a, c]) (hnd : (flat [a, c]).Nodup) (hroom : c.full - c.avail - HSZ ≤ a.avail) :
    ∃ m, merge a c = some m ∧ Pg [m] ∧ flat [m] = flat [a, c] := by
  have h' : Pg ([a] ++ [c]) := h
  obtain ⟨ha, hc, hac⟩ := Pg.append.mp h'
  have hia := ha.inv a (List.mem_singleton.mpr rfl)
  have hic := hc.inv c (List.mem_singleton.mpr rfl)
  have hea := ha.ne a (List.mem_singleton.mpr rfl)
  have hec := hc.ne c (List.mem_singleton.mpr rfl)
  have hf : flat [a, c] = iterate a ++ iterate c := by rw [flat_cons, flat_single]
  have hne : ∀ p : Block K, entries p ≠ [] → p.metas ≠ [] := by
    intro p hp hcc
    exact hp (by unfold entries; rw [hcc]; rfl)
  obtain ⟨m, e1, e2, e3, e4⟩ := merge_upper hia hic (hne a hea) (hne c hec) (by rw [← occupied_eq hic]; exact hroom)
    (by
      intro m hm n hn
      exact hac (m.key, item a m) (by rw [flat_single]; exact mem_iterate.mpr (List.mem_map.mpr ⟨m, hm, rfl⟩))
        (n.key, item c n) (by rw [flat_single]; exact mem_iterate.mpr (List.mem_map.mpr ⟨n, hn, rfl⟩)))
    (by
      intro e he hcc
      rw [hf, List.nodup_append] at hnd
      exact hnd.2.2 e (mem_iterate.mpr hcc) e (mem_iterate.mpr he) rfl)
  refine ⟨m, e1, Pg.single e2 ?_ ?_, ?_⟩
  · rw [e3]
    intro hcc
    exact hec (List.append_eq_nil_iff.mp hcc).1
  · rw [e4]; exact ha.sz a (List.mem_singleton.mpr rfl)
  · rw [flat_single, hf, iterate_eq, e3, List.reverse_append, iterate_eq, iterate_eq]

theorem Pg.same {L old new R : List (Block K)} (h : Pg (L ++ old ++ R)) (hn : Pg new) (he : flat new = flat old) :
    Pg (L ++ new ++ R) ∧ flat (L ++ new ++ R) = flat (L ++ old ++ R) := by
  obtain ⟨h1, h2, h3⟩ := Pg.append.mp h
  obtain ⟨h4, h5, h6⟩ := Pg.append.mp h1
  constructor
  · refine h.replace hn ?_ ?_
    · intro e hee f hf
      rw [he] at hee
      exact h6 f hf e hee
    · intro e hee f hf
      rw [he] at hee
      exact h3 e (by rw [flat_append]; exact List.mem_append_right _ hee) f hf
  · simp only [flat_append, he]

theorem shrink_ok {pre post : List (Block K)} {b : Block K} (h : Pg (pre ++ b :: post)) (hnd : (flat (pre ++ b :: post)).Nodup) :
    ∃ l, shrink pre b post = some l ∧ Pg l ∧ flat l = flat (pre ++ b :: post) := by
  unfold shrink
  have stay : ∃ l, some (pre ++ b :: post) = some l ∧ Pg l ∧ flat l = flat (pre ++ b :: post) := ⟨_, rfl, h, rfl⟩
  have left : ∀ l, pre.getLast? = some l → ∃ q, (if b.full - b.avail - HSZ ≤ l.avail then
      (merge l b).map fun l' => pre.dropLast ++ l' :: post else some (pre ++ b :: post)) = some q ∧ Pg q ∧
      flat q = flat (pre ++ b :: post) := by
    intro l hl
    by_cases hr : b.full - b.avail - HSZ ≤ l.avail
    · rw [if_pos hr]
      have hd : pre = pre.dropLast ++ [l] := by
        rcases getLast_cases pre with hc | ⟨a, ha, hd⟩
        · rw [hc] at hl; cases hl
        · rw [hl] at ha
          rw [Option.some.inj ha]; exact hd
      have hsh : pre ++ b :: post = pre.dropLast ++ [l, b] ++ post := by
        conv_lhs => rw [hd]
        simp
      rw [hsh] at h hnd
      have hlb := (Pg.append.mp (Pg.append.mp h).1).2.1
      obtain ⟨m, e1, e2, e3⟩ := merge_two hlb (by
        simp only [flat_append] at hnd
        exact (List.nodup_append.mp (List.nodup_append.mp hnd).1).2.1) hr
      rw [e1, hsh]
      obtain ⟨g1, g2⟩ := h.same e2 e3
      exact ⟨_, rfl, by simpa using g1, by simpa using g2⟩
    · rw [if_neg hr]; exact stay
  have left' : ∃ q, (match pre.getLast? with
      | some l => if b.full - b.avail - HSZ ≤ l.avail then
          (merge l b).map fun l' => pre.dropLast ++ l' :: post else some (pre ++ b :: post)
      | none => some (pre ++ b :: post)) = some q ∧ Pg q ∧ flat q = flat (pre ++ b :: post) := by
    cases hl : pre.getLast? with
    | none => exact stay
    | some l => exact left l hl
  by_cases hq : b.full * 4 < b.avail * 5
  · rw [if_pos hq]
    cases post with
    | nil => exact left'
    | cons r post' =>
      by_cases hr : r.full - r.avail - HSZ ≤ b.avail
      · simp only
        rw [if_pos hr]
        have hsh : pre ++ b :: r :: post' = pre ++ [b, r] ++ post' := by simp
        rw [hsh] at h hnd
        have hlb := (Pg.append.mp (Pg.append.mp h).1).2.1
        obtain ⟨m, e1, e2, e3⟩ := merge_two hlb (by
          simp only [flat_append] at hnd
          exact (List.nodup_append.mp (List.nodup_append.mp hnd).1).2.1) hr
        rw [e1, hsh]
        obtain ⟨g1, g2⟩ := h.same e2 e3
        exact ⟨_, rfl, by simpa using g1, by simpa using g2⟩
      · simp only
        rw [if_neg hr]
        exact left'
  · rw [if_neg hq]; exact stay

/-- Pages replaced by a part of them. -/
theorem Pg.part {L old new R : List (Block K)} (h : Pg (L ++ old ++ R)) (hn : Pg new) (he : ∀ e ∈ flat new, e ∈ flat old) :
    Pg (L ++ new ++ R) := by
  obtain ⟨h1, h2, h3⟩ := Pg.append.mp h
  obtain ⟨h4, h5, h6⟩ := Pg.append.mp h1
  refine h.replace hn ?_ ?_
  · intro e hee f hf
    exact h6 f hf e (he e hee)
  · intro e hee f hf
    exact h3 e (by rw [flat_append]; exact List.mem_append_right _ (he e hee)) f hf

theorem filter_ne_of_not_mem {l : List (K × Bytes)} {e : K × Bytes} (h : e ∉ l) : l.filter (· ≠ e) = l := by
  rw [List.filter_eq_self]
  intro f hf
  simpa using fun hc : f = e => h (hc ▸ hf)

theorem removeLoop_ok {k : K} {x : Bytes} {post : List (Block K)} : ∀ (bs pre : List (Block K)), Pg (pre ++ bs ++ post) →
    (flat (pre ++ bs ++ post)).Nodup → (k, x) ∈ flat bs →
    ∃ l b, b ∈ bs ∧ (k, x) ∈ iterate b ∧ removeLoop k x post pre bs = some (l, if Block.itemCount b k = 1 then 1 else 0) ∧ Pg l ∧
      flat l = (flat (pre ++ bs ++ post)).filter (· ≠ (k, x)) := by
  intro bs
  induction bs with
  | nil => intro pre _ _ hm; cases hm
  | cons b bs ih =>
    intro pre h hnd hm
    have hsh : pre ++ (b :: bs) ++ post = pre ++ [b] ++ (bs ++ post) := by simp
    have hpb : Pg [b] := by
      rw [hsh] at h
      exact (Pg.append.mp (Pg.append.mp h).1).2.1
    have hib := hpb.inv b (List.mem_singleton.mpr rfl)
    by_cases hc : Block.contains b k x = true
    · have hin := (C13_questions hib k x).1.mp hc
      obtain ⟨b', e1, e2, e3, e4⟩ := remove_present hib (mem_iterate.mp hin)
      have hit' : iterate b' = (iterate b).filter (· ≠ (k, x)) := by
        rw [iterate_eq, e3, iterate_eq, List.filter_reverse]
      rw [hsh, flat_append, flat_append, flat_single] at hnd
      have hnd1 := List.nodup_append.mp hnd
      have hnd2 := List.nodup_append.mp hnd1.1
      have hnotpre : (k, x) ∉ flat pre := fun hcc => hnd2.2.2 _ hcc _ hin rfl
      have hnotpost : (k, x) ∉ flat (bs ++ post) := fun hcc => hnd1.2.2 _ (List.mem_append_right _ hin) _ hcc rfl
      have hfil : (flat (pre ++ (b :: bs) ++ post)).filter (· ≠ (k, x)) = flat pre ++ iterate b' ++ flat (bs ++ post) := by
        rw [hsh, flat_append, flat_append, flat_single, List.filter_append, List.filter_append, filter_ne_of_not_mem hnotpre,
          filter_ne_of_not_mem hnotpost, hit']
      have hun : removeLoop k x post pre (b :: bs) = (if (Block.remove b k x).1.count = 0 then
          some (pre ++ bs ++ post, if Block.itemCount b k = 1 then 1 else 0)
          else (shrink pre (Block.remove b k x).1 (bs ++ post)).map fun l => (l, if Block.itemCount b k = 1 then 1 else 0)) := by
        show (if Block.contains b k x = true then _ else _) = _
        rw [if_pos hc]
      rw [hun, e1]
      have hcnt : b'.count = (entries b').length := by
        rw [e2.cnt]; unfold entries; rw [List.length_map]
      rw [hsh] at h
      by_cases hz : b'.count = 0
      · rw [if_pos hz]
        have hnil : iterate b' = [] := by
          rw [hcnt] at hz
          rw [iterate_eq, List.length_eq_zero_iff.mp hz]; rfl
        refine ⟨_, b, List.mem_cons_self .., hin, rfl, ?_, ?_⟩
        · have := h.part Pg.nil (fun e he => absurd he List.not_mem_nil)
          simpa using this
        · rw [hfil, hnil, List.append_nil, List.append_assoc, flat_append]
      · rw [if_neg hz]
        have hpb' : Pg [b'] := by
          refine Pg.single e2 ?_ (by rw [e4]; exact hpb.sz b (List.mem_singleton.mpr rfl))
          intro hcc
          rw [hcc] at hcnt
          exact hz hcnt
        have hp' := h.part hpb' (by
          intro e he
          rw [flat_single, hit'] at he
          rw [flat_single]
          exact (List.mem_filter.mp he).1)
        have hp'' : Pg (pre ++ b' :: (bs ++ post)) := by simpa using hp'
        have hf'' : flat (pre ++ b' :: (bs ++ post)) = flat pre ++ iterate b' ++ flat (bs ++ post) := by
          rw [flat_append, flat_cons, List.append_assoc]
        obtain ⟨l, s1, s2, s3⟩ := shrink_ok hp'' (by
          rw [hf'', ← hfil]
          rw [hsh, flat_append, flat_append, flat_single]
          exact hnd.filter _)
        rw [s1]
        exact ⟨l, b, List.mem_cons_self .., hin, rfl, s2, by rw [s3, hf'', hfil]⟩
    · have hnin : (k, x) ∉ iterate b := fun hcc => hc ((C13_questions hib k x).1.mpr hcc)
      rw [flat_cons] at hm
      have hm' : (k, x) ∈ flat bs := by
        rcases List.mem_append.mp hm with hm | hm
        · exact absurd hm hnin
        · exact hm
      have hbs : bs ≠ [] := by
        rintro rfl; cases hm'
      have hsh2 : pre ++ (b :: bs) ++ post = pre ++ [b] ++ bs ++ post := by simp
      rw [hsh2] at h hnd
      obtain ⟨l, c, c1, c2, c3, c4, c5⟩ := ih (pre ++ [b]) h hnd hm'
      refine ⟨l, c, List.mem_cons_of_mem _ c1, c2, ?_, c4, ?_⟩
      · rw [← c3]
        show (if Block.contains b k x = true then _ else if bs.isEmpty = true then _ else _) = _
        rw [if_neg hc, if_neg (by simpa using hbs)]
      · rw [hsh2]; exact c5

theorem card_filter_one {l : List (K × Bytes)} {k : K} {x : Bytes} (hnd : l.Nodup) (hm : (k, x) ∈ l) :
    ((l.filter (· ≠ (k, x))).map Prod.fst).toFinset.card =
      (l.map Prod.fst).toFinset.card - (if (l.filter (·.1 = k)).length = 1 then 1 else 0) := by
  have hperm : l.Perm ((k, x) :: l.filter (· ≠ (k, x))) := by
    have h1 := List.perm_cons_erase hm
    rw [hnd.erase_eq_filter] at h1
    refine h1.trans (List.Perm.cons _ ?_)
    rw [List.filter_congr (q := fun y => decide (y ≠ (k, x)))]
    intro y _
    by_cases hy : y = (k, x) <;> simp [hy]
  have h2 := card_perm hperm
  rw [card_cons_new] at h2
  have hlen : (l.filter (·.1 = k)).length = ((l.filter (· ≠ (k, x))).filter (·.1 = k)).length + 1 := by
    have := (hperm.filter (fun e => decide (e.1 = k))).length_eq
    rw [this, List.filter_cons_of_pos (by simp), List.length_cons]
  by_cases hc : k ∈ (l.filter (· ≠ (k, x))).map Prod.fst
  · rw [if_pos hc] at h2
    rw [if_neg, h2]
    · simp
    · rw [hlen]
      obtain ⟨y, hy⟩ := mem_keys.mp hc
      have : (k, y) ∈ (l.filter (· ≠ (k, x))).filter (·.1 = k) := List.mem_filter.mpr ⟨hy, by simp⟩
      have := List.length_pos_of_mem this
      omega
  · rw [if_neg hc] at h2
    rw [if_pos, h2]
    · simp
    · rw [hlen]
      have : (l.filter (· ≠ (k, x))).filter (·.1 = k) = [] := by
        rw [List.filter_eq_nil_iff]
        intro e he hk
        have hk' : e.1 = k := by simpa using hk
        exact hc (List.mem_map.mpr ⟨e, he, hk'⟩)
      rw [this]; rfl

theorem length_filter_one {l : List (K × Bytes)} {e : K × Bytes} (hnd : l.Nodup) (hm : e ∈ l) :
    (l.filter (· ≠ e)).length = l.length - 1 := by
  rw [← List.length_erase_of_mem hm, hnd.erase_eq_filter]
  congr 1
  apply List.filter_congr
  intro y _
  by_cases hy : y = e <;> simp [hy]

theorem SInv.without {s : Seg K} (h : SInv s) {bs : List (Block K)} (hp : Pg bs) {p : K × Bytes → Bool}
    (hf : flat bs = (flat s.blocks).filter p) {c u : Nat} (hc : c = ((flat s.blocks).filter p).length)
    (hu : u = (((flat s.blocks).filter p).map Prod.fst).toFinset.card) : SInv ⟨bs, c, u⟩ := by
  refine ⟨hp, ?_, ?_, ?_, ?_⟩
  · intro e he
    rw [show flat (Seg.mk bs c u).blocks = flat bs from rfl, hf] at he
    exact h.small e (List.mem_filter.mp he).1
  · show (flat bs).Nodup
    rw [hf]; exact h.nodup.filter _
  · show c = (flat bs).length
    rw [hf, hc]
  · show u = _
    rw [show flat (Seg.mk bs c u).blocks = flat bs from rfl, hf, hu]

/-- Removal of an item that is there; the counter of keys is right unless the key lies on several pages. -/
theorem remove_ok {s : Seg K} (h : SInv s) {k : K} {x : Bytes} (hm : (k, x) ∈ flat s.blocks)
    (hone : ∀ b ∈ mid s k, (k, x) ∈ iterate b → (Block.itemCount b k = 1 ↔ itemCount s k = 1)) :
    ∃ s', remove s k x = some (s', true) ∧ SInv s' ∧ flat s'.blocks = (flat s.blocks).filter (· ≠ (k, x)) := by
  have hne : s.blocks ≠ [] := by
    intro hc; rw [hc] at hm; cases hm
  have hm' := (mem_key h.pg).mp hm
  have hmid : mid s k ≠ [] := by
    intro hc; rw [hc] at hm'; cases hm'
  have hsp : s.blocks = lo s k ++ mid s k ++ hi s k := by
    rw [List.append_assoc, ← fromB_split, ← blocks_split]
  have hpg := h.pg
  have hnd := h.nodup
  rw [hsp] at hpg hnd
  obtain ⟨l, b, b1, b2, e1, e2, e3⟩ := removeLoop_ok (mid s k) (lo s k) hpg hnd hm'
  unfold remove
  rw [if_neg (by simpa using hne), if_neg (by simpa using hmid), e1]
  rw [← hsp] at e3
  refine ⟨_, rfl, h.without e2 e3 ?_ ?_, e3⟩
  · rw [length_filter_one h.nodup hm, h.cnt]
  · rw [card_filter_one h.nodup hm, h.unq, ← itemCount_eq h.pg k]
    congr 1
    by_cases hq : Block.itemCount b k = 1
    · rw [if_pos hq, if_pos ((hone b b1 b2).mp hq)]
    · rw [if_neg hq, if_neg (fun hcc => hq ((hone b b1 b2).mpr hcc))]

theorem le_sum_of_mem {l : List Nat} {n : Nat} (h : n ∈ l) : n ≤ l.sum := by
  induction l with
  | nil => cases h
  | cons a l ih =>
    rw [List.sum_cons]
    rcases List.mem_cons.mp h with rfl | h
    · omega
    · have := ih h; omega

/-- If the item is alone under its key the page sees that too. -/
theorem one_of_alone {s : Seg K} (h : Pg s.blocks) {k : K} {x : Bytes} (ha : itemCount s k = 1) :
    ∀ b ∈ mid s k, (k, x) ∈ iterate b → (Block.itemCount b k = 1 ↔ itemCount s k = 1) := by
  intro b hb hx
  have h1 : 0 < Block.itemCount b k := by
    rw [(C13_questions ((pg_mid h k).1.inv b hb) k x).2.2.2.1]
    exact List.length_pos_of_mem (List.mem_filter.mpr ⟨hx, by simp⟩)
  have h2 : Block.itemCount b k ≤ itemCount s k := by
    have : looked s k = mid s k := by
      rcases looked_cases h k with hl | ⟨hl, _⟩
      · exact hl
      · rw [hl] at hb; cases hb
    unfold itemCount
    rw [this]
    exact le_sum_of_mem (List.mem_map.mpr ⟨b, hb, rfl⟩)
  constructor
  · intro _; exact ha
  · intro _; omega

end Verif.Seg
