import Verif.BTree.ShapeRemove
/-!
Helper lemmas: the leaves of the tree, insertion.
-/
namespace Verif.BTree
open Verif.Seg
set_option linter.unusedSectionVars false
variable {K : Type} [LinearOrder K] [BoundedOrder K]

/-- The entries of a leaf. -/
abbrev lflat (l : Leaf K) : List (K × Bytes) := flat l.seg.blocks

/-- The entries of leaves, in order. -/
def fl (ls : List (Leaf K)) : List (K × Bytes) := ls.flatMap lflat

theorem fl_append (a b : List (Leaf K)) : fl (a ++ b) = fl a ++ fl b := by
  unfold fl; rw [List.flatMap_append]

theorem fl_cons (a : Leaf K) (b : List (Leaf K)) : fl (a :: b) = lflat a ++ fl b := by
  unfold fl; rw [List.flatMap_cons]

@[simp] theorem fl_nil : fl ([] : List (Leaf K)) = [] := rfl

theorem mem_fl {ls : List (Leaf K)} {e : K × Bytes} : e ∈ fl ls ↔ ∃ l ∈ ls, e ∈ lflat l := by
  unfold fl; rw [List.mem_flatMap]

/-- Entries with distinct keys, in key order. -/
def Strict (l : List (K × Bytes)) : Prop := l.Pairwise (fun a c => a.1 < c.1)

theorem Strict.append {a c : List (K × Bytes)} : Strict (a ++ c) ↔ Strict a ∧ Strict c ∧ ∀ e ∈ a, ∀ f ∈ c, e.1 < f.1 :=
  List.pairwise_append

theorem Strict.keys {l : List (K × Bytes)} (h : Strict l) : (l.map Prod.fst).Nodup := by
  have : (l.map Prod.fst).Pairwise (· < ·) := List.pairwise_map.mpr h
  exact this.imp fun h => ne_of_lt h

theorem Strict.one {l : List (K × Bytes)} (h : Strict l) {e f : K × Bytes} (he : e ∈ l) (hf : f ∈ l) (hk : e.1 = f.1) : e = f := by
  by_contra hne
  have hn := h.keys
  exact hne (List.inj_on_of_nodup_map hn he hf hk)

/-- Leaves as a tree of distinct keys keeps them. -/
structure LInv (ls : List (Leaf K)) : Prop where
  seg : ∀ l ∈ ls, UInv l.seg
  open' : ∀ l ∈ ls, l.locked = false
  ne : ∀ l ∈ ls, lflat l ≠ []
  strict : Strict (fl ls)
  top : ∀ e ∈ fl ls, e.1 ≠ ⊤

theorem LInv.append {a c : List (Leaf K)} (h : LInv (a ++ c)) : LInv a ∧ LInv c ∧ ∀ e ∈ fl a, ∀ f ∈ fl c, e.1 < f.1 := by
  have hs := h.strict
  have ht := h.top
  rw [fl_append] at hs ht
  obtain ⟨s1, s2, s3⟩ := Strict.append.mp hs
  exact ⟨⟨fun l hl => h.seg l (List.mem_append_left _ hl), fun l hl => h.open' l (List.mem_append_left _ hl),
      fun l hl => h.ne l (List.mem_append_left _ hl), s1, fun e he => ht e (List.mem_append_left _ he)⟩,
    ⟨fun l hl => h.seg l (List.mem_append_right _ hl), fun l hl => h.open' l (List.mem_append_right _ hl),
      fun l hl => h.ne l (List.mem_append_right _ hl), s2, fun e he => ht e (List.mem_append_right _ he)⟩, s3⟩

theorem Strict.uk {l : List (K × Bytes)} (h : Strict l) (ht : ∀ e ∈ l, e.1 ≠ ⊤) : Uk l := ⟨h.keys, ht⟩

/-- Building the invariant from parts. -/
theorem LInv.glue {A M B : List (Leaf K)} (ha : LInv A) (hb : LInv B) (hseg : ∀ l ∈ M, UInv l.seg ∧ l.locked = false ∧ lflat l ≠ [])
    (hs : Strict (fl A ++ fl M ++ fl B)) (ht : ∀ e ∈ fl M, e.1 ≠ ⊤) : LInv (A ++ M ++ B) := by
  refine ⟨?_, ?_, ?_, by rw [fl_append, fl_append]; exact hs, ?_⟩
  · intro l hl
    rcases List.mem_append.mp hl with hl | hl
    · rcases List.mem_append.mp hl with hl | hl
      · exact ha.seg l hl
      · exact (hseg l hl).1
    · exact hb.seg l hl
  · intro l hl
    rcases List.mem_append.mp hl with hl | hl
    · rcases List.mem_append.mp hl with hl | hl
      · exact ha.open' l hl
      · exact (hseg l hl).2.1
    · exact hb.open' l hl
  · intro l hl
    rcases List.mem_append.mp hl with hl | hl
    · rcases List.mem_append.mp hl with hl | hl
      · exact ha.ne l hl
      · exact (hseg l hl).2.2
    · exact hb.ne l hl
  · intro e he
    rw [fl_append, fl_append] at he
    rcases List.mem_append.mp he with he | he
    · rcases List.mem_append.mp he with he | he
      · exact ha.top e he
      · exact ht e he
    · exact hb.top e he

theorem useg_ne {s : Seg K} (hne : flat s.blocks ≠ []) : s.blocks ≠ [] := by
  intro hc; rw [hc] at hne; exact hne rfl

theorem smin_spec {s : Seg K} (h : Pg s.blocks) (hne : flat s.blocks ≠ []) :
    (∃ e ∈ flat s.blocks, e.1 = smin s) ∧ ∀ e ∈ flat s.blocks, smin s ≤ e.1 := by
  unfold smin
  cases hq : s.blocks with
  | nil => exact absurd hq (useg_ne hne)
  | cons b bs =>
    rw [hq] at h
    have hb := h.inv b (List.mem_cons_self ..)
    obtain ⟨e, he, hek⟩ := bmin_head hb (h.ne b (List.mem_cons_self ..))
    have hs := h.sorted
    rw [flat_cons] at hs ⊢
    refine ⟨⟨e, List.mem_append_left _ he, hek⟩, ?_⟩
    intro f hf
    rcases List.mem_append.mp hf with hf | hf
    · exact bmin_le hb hf
    · show bmin b ≤ f.1
      rw [← hek]
      exact (sorted_append.mp hs).2.2 e he f hf

theorem smax_spec {s : Seg K} (h : Pg s.blocks) (hne : flat s.blocks ≠ []) :
    (∃ e ∈ flat s.blocks, e.1 = smax s) ∧ ∀ e ∈ flat s.blocks, e.1 ≤ smax s := by
  unfold smax
  rcases last_cases s.blocks with hq | ⟨bs, b, hq⟩
  · exact absurd hq (useg_ne hne)
  · rw [hq] at h ⊢
    rw [List.getLast?_append, List.getLast?_singleton, Option.some_or]
    have hbm : b ∈ bs ++ [b] := by simp
    have hb := h.inv b hbm
    obtain ⟨e, he, hek⟩ := bmax_last hb (h.ne b hbm)
    have hs := h.sorted
    rw [flat_append, flat_single] at hs ⊢
    refine ⟨⟨e, List.mem_append_right _ he, hek⟩, ?_⟩
    intro f hf
    rcases List.mem_append.mp hf with hf | hf
    · show f.1 ≤ bmax b
      rw [← hek]
      exact (sorted_append.mp hs).2.2 f hf e he
    · exact le_bmax hb hf

def mins (ls : List (Leaf K)) : List K := ls.map fun l => smin l.seg

theorem mins_append (a b : List (Leaf K)) : mins (a ++ b) = mins a ++ mins b := by
  unfold mins; rw [List.map_append]

theorem mins_mem {ls : List (Leaf K)} (h : LInv ls) {m : K} (hm : m ∈ mins ls) : ∃ e ∈ fl ls, e.1 = m := by
  obtain ⟨l, hl, rfl⟩ := List.mem_map.mp hm
  obtain ⟨⟨e, he, hek⟩, _⟩ := smin_spec (h.seg l hl).pg (h.ne l hl)
  exact ⟨e, mem_fl.mpr ⟨l, hl, he⟩, hek⟩

theorem mins_sorted : ∀ {ls : List (Leaf K)}, LInv ls → (mins ls).Pairwise (· < ·) := by
  intro ls
  induction ls with
  | nil => intro _; exact List.Pairwise.nil
  | cons l ls ih =>
    intro h
    have h' : LInv ([l] ++ ls) := h
    obtain ⟨h1, h2, h3⟩ := h'.append
    refine List.pairwise_cons.mpr ⟨?_, ih h2⟩
    intro m hm
    obtain ⟨e, he, rfl⟩ := mins_mem h2 hm
    obtain ⟨⟨f, hf, hfk⟩, _⟩ := smin_spec (h.seg l (List.mem_cons_self ..)).pg (h.ne l (List.mem_cons_self ..))
    show smin l.seg < e.1
    rw [← hfk]
    exact h3 f (mem_fl.mpr ⟨l, List.mem_singleton.mpr rfl, hf⟩) e he

theorem bounds_sorted : ∀ {ls : List (Leaf K)}, LInv ls → BS (leafBounds ls) := by
  intro ls
  induction ls with
  | nil => intro _; exact ⟨fun b hb => absurd hb List.not_mem_nil, List.Pairwise.nil⟩
  | cons l ls ih =>
    intro h
    have h' : LInv ([l] ++ ls) := h
    obtain ⟨h1, h2, h3⟩ := h'.append
    have hl := List.mem_cons_self (a := l) (l := ls)
    obtain ⟨⟨f, hf, hfk⟩, hle⟩ := smax_spec (h.seg l hl).pg (h.ne l hl)
    obtain ⟨_, hge⟩ := smin_spec (h.seg l hl).pg (h.ne l hl)
    have hih := ih h2
    constructor
    · intro b hb
      rcases List.mem_cons.mp hb with rfl | hb
      · show smin l.seg ≤ smax l.seg
        rw [← hfk]
        exact hge f hf
      · exact hih.own b hb
    · refine List.pairwise_cons.mpr ⟨?_, hih.next⟩
      intro b hb
      obtain ⟨r, hr, rfl⟩ := List.mem_map.mp hb
      obtain ⟨⟨e, he, hek⟩, _⟩ := smin_spec (h2.seg r hr).pg (h2.ne r hr)
      show smax l.seg < smin r.seg
      rw [← hfk, ← hek]
      exact h3 f (mem_fl.mpr ⟨l, List.mem_singleton.mpr rfl, hf⟩) e (mem_fl.mpr ⟨r, hr, he⟩)

/-- A tree of distinct keys with at most `mx` keys in a leaf. -/
structure TInv (mx : Nat) (t : Tree K) : Prop where
  leaf : LInv t.leaves
  size : ∀ l ∈ t.leaves, l.seg.uniq ≤ mx ∧ (t.levels ≠ [] → mx / 4 ≤ l.seg.uniq)
  shape : (t.leaves = [] ∧ t.levels = []) ∨ Shape mx t.levels t.leaves.length
  count : t.count = (fl t.leaves).length

/-- The descent finds the only leaf that can hold the key. -/
theorem find_ok {mx : Nat} (h12 : 12 ≤ mx) {t : Tree K} (h : TInv mx t) (hne : t.leaves ≠ []) (k : K) :
    ∃ A l B, t.leaves = A ++ l :: B ∧ descend k t.levels (leafMins t) = A.length ∧
      (∀ e ∈ fl A, e.1 < k) ∧ ∀ e ∈ fl B, k < e.1 := by
  have hsh : Shape mx t.levels t.leaves.length := by
    rcases h.shape with ⟨hc, _⟩ | hs
    · exact absurd hc hne
    · exact hs
  have hms : (leafMins t).Pairwise (· < ·) := mins_sorted h.leaf
  have hlen : (leafMins t).length = t.leaves.length := by unfold leafMins; rw [List.length_map]
  have hd := descend_eq (k := k) h12 t.levels (leafMins t) (by rw [hlen]; exact hsh) hms
  obtain ⟨X, Y, hXY, hX, hXk, hYk⟩ := cntLe_split hms k
  have hpos : 0 < t.leaves.length := List.length_pos_iff.mpr hne
  have hlt : descend k t.levels (leafMins t) < t.leaves.length := by
    have : X.length ≤ t.leaves.length := by rw [← hlen, hXY]; simp
    omega
  refine ⟨t.leaves.take (descend k t.levels (leafMins t)), t.leaves[descend k t.levels (leafMins t)],
    t.leaves.drop (descend k t.levels (leafMins t) + 1), ?_, ?_, ?_, ?_⟩
  · rw [← List.drop_eq_getElem_cons hlt, List.take_append_drop]
  · rw [List.length_take]; omega
  all_goals
    generalize hdd : descend k t.levels (leafMins t) = d at *
  · -- leaves before
    intro e he
    have hd0 : 0 < d := by
      rcases Nat.eq_zero_or_pos d with h0 | h0
      · subst h0
        rw [List.take_zero] at he; cases he
      · exact h0
    have hsplit : t.leaves = t.leaves.take d ++ t.leaves.drop d := (List.take_append_drop _ _).symm
    have hL := h.leaf
    rw [hsplit] at hL
    obtain ⟨_, h2, h3⟩ := hL.append
    have hdr : t.leaves.drop d = t.leaves[d] :: t.leaves.drop (d + 1) := List.drop_eq_getElem_cons hlt
    have hm : t.leaves[d] ∈ t.leaves.drop d := by rw [hdr]; exact List.mem_cons_self ..
    obtain ⟨⟨f, hf, hfk⟩, _⟩ := smin_spec (h2.seg _ hm).pg (h2.ne _ hm)
    have h4 := h3 e he f (mem_fl.mpr ⟨_, hm, hf⟩)
    refine lt_of_lt_of_le h4 ?_
    rw [hfk]
    have hmX : smin t.leaves[d].seg ∈ X := by
      have hdX : d < X.length := by omega
      have hdl : d < (leafMins t).length := by rw [hlen]; exact hlt
      have h5 : (leafMins t)[d]? = some (smin t.leaves[d].seg) := by
        unfold leafMins; rw [List.getElem?_map, List.getElem?_eq_getElem hlt]; rfl
      have h6 : smin t.leaves[d].seg = X[d] := by
        rw [hXY, List.getElem?_append_left hdX, List.getElem?_eq_getElem hdX] at h5
        exact (Option.some.inj h5).symm
      rw [h6]
      exact List.getElem_mem hdX
    exact hXk _ hmX
  · -- leaves after
    intro e he
    obtain ⟨l, hl, hel⟩ := mem_fl.mp he
    obtain ⟨_, hge⟩ := smin_spec (h.leaf.seg l (List.mem_of_mem_drop hl)).pg (h.leaf.ne l (List.mem_of_mem_drop hl))
    refine lt_of_lt_of_le ?_ (hge e hel)
    refine hYk _ ?_
    have hmm : smin l.seg ∈ (leafMins t).drop (d + 1) := by
      unfold leafMins
      rw [← List.map_drop]
      exact List.mem_map.mpr ⟨l, hl, rfl⟩
    rw [hXY] at hmm
    have : X.length ≤ d + 1 := by omega
    rw [List.drop_append, List.drop_eq_nil_of_le this, List.nil_append] at hmm
    exact List.mem_of_mem_drop hmm

/-- A part of strictly sorted entries replaced by one that only adds the key `k`. -/
theorem strict_replace {A M M' B : List (K × Bytes)} {k : K} (h : Strict (A ++ M ++ B)) (hM' : Strict M')
    (hin : ∀ e ∈ M', e ∈ M ∨ e.1 = k) (hA : ∀ e ∈ A, e.1 < k) (hB : ∀ e ∈ B, k < e.1) : Strict (A ++ M' ++ B) := by
  rw [Strict.append, Strict.append] at h ⊢
  obtain ⟨⟨h1, h2, h3⟩, h4, h5⟩ := h
  refine ⟨⟨h1, hM', ?_⟩, h4, ?_⟩
  · intro e he f hf
    rcases hin f hf with hf | hf
    · exact h3 e he f hf
    · rw [hf]; exact hA e he
  · intro e he f hf
    rcases List.mem_append.mp he with he | he
    · exact h5 e (List.mem_append_left _ he) f hf
    · rcases hin e he with he | he
      · exact h5 e (List.mem_append_right _ he) f hf
      · rw [he]; exact hB f hf

theorem useg_strict {s : Seg K} (h : UInv s) : Strict (flat s.blocks) := strict_of h.pg.sorted h.uk.nodup

/-- Adding a new key to a leaf. -/
theorem put_ok {s : Seg K} (h : UInv s) {k : K} {x : Bytes} (hx : 0 < x.length) (hxs : x.length + 32 ≤ QUARTER) (hk : k ≠ ⊤)
    (hn : ∀ e ∈ flat s.blocks, e.1 ≠ k) :
    ∃ s', Seg.append s k x = some (s', true) ∧ UInv s' ∧ (flat s'.blocks).Perm ((k, x) :: flat s.blocks) ∧ s'.uniq = s.uniq + 1 := by
  obtain ⟨s', e1, e2, e3⟩ := append_new h.sinv hx hxs (k := k) (fun hc => hn _ hc rfl)
  have hu : Uk (flat s'.blocks) := by
    constructor
    · refine (e3.map Prod.fst).nodup_iff.mpr ?_
      rw [List.map_cons, List.nodup_cons]
      refine ⟨?_, h.uk.nodup⟩
      intro hc
      obtain ⟨e, he, hek⟩ := List.mem_map.mp hc
      exact hn e he hek
    · intro e he
      rcases List.mem_cons.mp (e3.mem_iff.mp he) with rfl | he
      · exact hk
      · exact h.uk.top e he
  have hi := e2.uinv hu
  refine ⟨s', e1, hi, e3, ?_⟩
  rw [hi.unq, h.unq, e3.length_eq, List.length_cons]

theorem flat_ne {s : Seg K} (h : UInv s) (hu : 0 < s.uniq) : flat s.blocks ≠ [] := by
  intro hc
  have := h.unq
  rw [hc, List.length_nil] at this
  omega

theorem put_ne {s s' : Seg K} {k : K} {x : Bytes} (h : (flat s'.blocks).Perm ((k, x) :: flat s.blocks)) : flat s'.blocks ≠ [] := by
  intro hc
  rw [hc] at h
  exact absurd h.length_eq (by simp)

theorem perm_in {l l' : List (K × Bytes)} {k : K} {x : Bytes} (h : l'.Perm ((k, x) :: l)) : ∀ e ∈ l', e ∈ l ∨ e.1 = k := by
  intro e he
  rcases List.mem_cons.mp (h.mem_iff.mp he) with rfl | he
  · exact Or.inr rfl
  · exact Or.inl he

theorem perm_mid {α : Type} {A M M' B : List α} {e : α} (h : M'.Perm (e :: M)) : (A ++ M' ++ B).Perm (e :: (A ++ M ++ B)) := by
  refine ((h.append_left A).append_right B).trans ?_
  have : A ++ e :: M ++ B = A ++ e :: (M ++ B) := by simp
  rw [this]
  exact List.perm_middle.trans (by rw [List.append_assoc])

/-- Splitting a full leaf and adding a new key to the half it belongs to; `lt` says which comparison is used. -/
theorem split_put {s : Seg K} (h : UInv s) (h2 : 2 ≤ s.uniq) {k : K} {x : Bytes} (hx : 0 < x.length)
    (hxs : x.length + 32 ≤ QUARTER) (hk : k ≠ ⊤) (hn : ∀ e ∈ flat s.blocks, e.1 ≠ k) :
    ∃ a c, Seg.split s = some (a, c) ∧ (smin c < k ↔ smin c ≤ k) ∧
      (∀ a' c' r, (if smin c < k then Seg.append c k x = some (c', r) ∧ a' = a else Seg.append a k x = some (a', r) ∧ c' = c) →
        r = true ∧ UInv a' ∧ UInv c' ∧ flat a'.blocks ≠ [] ∧ flat c'.blocks ≠ [] ∧
        Strict (flat a'.blocks ++ flat c'.blocks) ∧ (flat a'.blocks ++ flat c'.blocks).Perm ((k, x) :: flat s.blocks) ∧
        a'.uniq + c'.uniq = s.uniq + 1 ∧ s.uniq / 2 ≤ a'.uniq ∧ s.uniq / 2 ≤ c'.uniq) ∧
      (∃ a' c' r, if smin c < k then Seg.append c k x = some (c', r) ∧ a' = a else Seg.append a k x = some (a', r) ∧ c' = c) := by
  obtain ⟨a, c, e1, ha, hc, e2, u2, u1⟩ := split_ok h
  have hna := flat_ne ha (by omega)
  have hnc := flat_ne hc (by omega)
  obtain ⟨⟨f, hf, hfk⟩, hge⟩ := smin_spec hc.pg hnc
  have hstr := useg_strict h
  rw [← e2] at hstr hn
  obtain ⟨_, _, h3⟩ := Strict.append.mp hstr
  have hia := put_ok ha hx hxs hk (fun e he => hn e (List.mem_append_left _ he))
  have hic := put_ok hc hx hxs hk (fun e he => hn e (List.mem_append_right _ he))
  refine ⟨a, c, e1, ⟨le_of_lt, fun hle => lt_of_le_of_ne hle ?_⟩, ?_, ?_⟩
  · rw [← hfk]; exact hn f (List.mem_append_right _ hf)
  · intro a' c' r hr
    by_cases hlt : smin c < k
    · rw [if_pos hlt] at hr
      obtain ⟨hr, rfl⟩ := hr
      obtain ⟨c2, g1, g2, g3, g4⟩ := hic
      rw [g1] at hr
      obtain ⟨rfl, rfl⟩ := Prod.mk.inj (Option.some.inj hr)
      refine ⟨rfl, ha, g2, hna, put_ne g3, ?_, ?_, by omega, by omega, by omega⟩
      · have := strict_replace (A := flat a'.blocks) (M := flat c.blocks) (M' := flat c2.blocks) (B := []) (k := k)
          (by rw [List.append_nil]; exact hstr) (useg_strict g2) (perm_in g3)
          (fun e he => lt_trans (by rw [← hfk] at *; exact h3 e he f hf) hlt) (fun e he => absurd he List.not_mem_nil)
        rwa [List.append_nil] at this
      · have := perm_mid (A := flat a'.blocks) (B := []) g3
        rw [List.append_nil, List.append_nil, e2] at this
        exact this
    · rw [if_neg hlt] at hr
      obtain ⟨hr, rfl⟩ := hr
      obtain ⟨a2, g1, g2, g3, g4⟩ := hia
      rw [g1] at hr
      obtain ⟨rfl, rfl⟩ := Prod.mk.inj (Option.some.inj hr)
      refine ⟨rfl, g2, hc, put_ne g3, hnc, ?_, ?_, by omega, by omega, by omega⟩
      · have := strict_replace (A := []) (M := flat a.blocks) (M' := flat a2.blocks) (B := flat c'.blocks) (k := k)
          (by rw [List.nil_append]; exact hstr) (useg_strict g2) (perm_in g3)
          (fun e he => absurd he List.not_mem_nil)
          (fun e he => lt_of_lt_of_le (lt_of_le_of_ne (not_lt.mp hlt) (by
            rw [← hfk]; exact (hn f (List.mem_append_right _ hf)).symm)) (hge e he))
        rwa [List.nil_append] at this
      · have := perm_mid (A := []) (B := flat c'.blocks) g3
        rw [List.nil_append, List.nil_append, e2] at this
        exact this
  · by_cases hlt : smin c < k
    · obtain ⟨c2, g1, _⟩ := hic
      exact ⟨a, c2, true, by rw [if_pos hlt]; exact ⟨g1, rfl⟩⟩
    · obtain ⟨a2, g1, _⟩ := hia
      exact ⟨a2, c, true, by rw [if_neg hlt]; exact ⟨g1, rfl⟩⟩

theorem set_at {α : Type} {A B : List α} {l l' : α} : (A ++ l :: B).set A.length l' = A ++ l' :: B := by
  rw [List.set_append_right _ _ (Nat.le_refl _), Nat.sub_self]; rfl

/-- `append` of a new key. -/
theorem append_ok {mx : Nat} (h12 : 12 ≤ mx) {t : Tree K} (h : TInv mx t) {k : K} {x : Bytes} (hx : 0 < x.length)
    (hxs : x.length + 32 ≤ QUARTER) (hk : k ≠ ⊤) (hn : ∀ e ∈ fl t.leaves, e.1 ≠ k) :
    ∃ t', append mx t k x = .ok (t', true) ∧ TInv mx t' ∧ (fl t'.leaves).Perm ((k, x) :: fl t.leaves) := by
  obtain ⟨ls, lv, cnt⟩ := t
  have hcnt : cnt = (fl ls).length := h.count
  simp only at hn ⊢
  cases ls with
  | nil =>
    -- the first entry
    have hlv : lv = [] := by
      rcases h.shape with ⟨_, hl⟩ | hs
      · exact hl
      · by_contra hne
        have := (shape_pos h12 lv _ hs).1
        simp at this
    subst hlv
    have he : UInv (⟨[], 0, 0⟩ : Seg K) := SInv.empty.uinv ⟨by simp, fun e he => absurd he List.not_mem_nil⟩
    obtain ⟨s', g1, g2, g3, g4⟩ := put_ok he hx hxs hk (fun e he => absurd he List.not_mem_nil)
    refine ⟨⟨[⟨s', false⟩], [], cnt + 1⟩, ?_, ⟨⟨?_, ?_, ?_, ?_, ?_⟩, ?_, Or.inr rfl, ?_⟩, ?_⟩
    · unfold append
      simp only [g1, lift, Res.bind]
    · intro l hl; rw [List.mem_singleton.mp hl]; exact g2
    · intro l hl; rw [List.mem_singleton.mp hl]
    · intro l hl; rw [List.mem_singleton.mp hl]; exact put_ne g3
    · show Strict (fl [⟨s', false⟩])
      rw [fl_cons, fl_nil, List.append_nil]; exact useg_strict g2
    · intro e he
      rw [show fl [(⟨s', false⟩ : Leaf K)] = flat s'.blocks by rw [fl_cons, fl_nil, List.append_nil]] at he
      exact g2.uk.top e he
    · intro l hl; rw [List.mem_singleton.mp hl]
      refine ⟨?_, fun hc => absurd rfl hc⟩
      show s'.uniq ≤ mx
      rw [g4]; show 0 + 1 ≤ mx; omega
    · show cnt + 1 = (fl [⟨s', false⟩]).length
      rw [fl_cons, fl_nil, List.append_nil, g3.length_eq, hcnt]; rfl
    · show (fl [⟨s', false⟩]).Perm _
      rw [fl_cons, fl_nil, List.append_nil]; exact g3
  | cons l0 ls0 =>
    obtain ⟨A, l, B, hAB, hdes, hA, hB⟩ := find_ok h12 h (List.cons_ne_nil l0 ls0) k
    have hL := h.leaf
    simp only at hAB hL
    rw [hAB] at hL hcnt hn
    have hLapp : A ++ l :: B = A ++ [l] ++ B := by simp
    have hL3 : LInv (A ++ [l] ++ B) := by rw [← hLapp]; exact hL
    obtain ⟨hA1, hB1, _⟩ := hL3.append
    obtain ⟨hAi, _, _⟩ := hA1.append
    have hlm : l ∈ A ++ l :: B := by simp
    have hul := hL.seg l hlm
    have hlo := hL.open' l hlm
    have hsz := h.size l (by simp only; rw [hAB]; exact hlm)
    have hfl : fl (A ++ l :: B) = fl A ++ lflat l ++ fl B := by rw [fl_append, fl_cons, List.append_assoc]
    have hstr := hL.strict
    rw [hfl] at hstr hn hcnt
    have hnl : ∀ e ∈ lflat l, e.1 ≠ k := fun e he => hn e (List.mem_append_left _ (List.mem_append_right _ he))
    have hsh : Shape mx lv (A ++ l :: B).length := by
      rcases h.shape with ⟨hc, _⟩ | hs
      · simp at hc
      · simp only at hs; rwa [hAB] at hs
    -- a leaf that has room
    have room : ∀ s' : Seg K, UInv s' → (flat s'.blocks).Perm ((k, x) :: lflat l) → s'.uniq = l.seg.uniq + 1 → l.seg.uniq < mx →
        TInv mx (⟨A ++ ⟨s', false⟩ :: B, lv, cnt + 1⟩ : Tree K) ∧
          (fl (A ++ ⟨s', false⟩ :: B)).Perm ((k, x) :: fl (A ++ l :: B)) := by
      intro s' g2 g3 g4 hlt
      have hfl' : fl (A ++ (⟨s', false⟩ : Leaf K) :: B) = fl A ++ flat s'.blocks ++ fl B := by
        rw [fl_append, fl_cons, List.append_assoc]
      have hp : (fl (A ++ (⟨s', false⟩ : Leaf K) :: B)).Perm ((k, x) :: fl (A ++ l :: B)) := by
        rw [hfl', hfl]; exact perm_mid g3
      refine ⟨⟨?_, ?_, Or.inr ?_, ?_⟩, hp⟩
      · have := LInv.glue (M := [⟨s', false⟩]) hAi hB1 (by
          intro q hq; rw [List.mem_singleton.mp hq]; exact ⟨g2, rfl, put_ne g3⟩) (by
          rw [show fl [(⟨s', false⟩ : Leaf K)] = flat s'.blocks by rw [fl_cons, fl_nil, List.append_nil]]
          exact strict_replace hstr (useg_strict g2) (perm_in g3) hA hB) (by
          intro e he
          rw [show fl [(⟨s', false⟩ : Leaf K)] = flat s'.blocks by rw [fl_cons, fl_nil, List.append_nil]] at he
          exact g2.uk.top e he)
        simpa using this
      · intro q hq
        rcases List.mem_append.mp hq with hq | hq
        · exact h.size q (by simp only; rw [hAB]; exact List.mem_append_left _ hq)
        · rcases List.mem_cons.mp hq with rfl | hq
          · refine ⟨?_, fun hc => ?_⟩
            · show s'.uniq ≤ mx; omega
            · have := hsz.2 hc
              show mx / 4 ≤ s'.uniq; omega
          · exact h.size q (by simp only; rw [hAB]; exact List.mem_append_right _ (List.mem_cons_of_mem _ hq))
      · have : (A ++ (⟨s', false⟩ : Leaf K) :: B).length = (A ++ l :: B).length := by simp
        simp only
        rw [this]; exact hsh
      · show cnt + 1 = _
        rw [hp.length_eq, List.length_cons, hfl, hcnt]
    -- a leaf that is split
    have cut : ∀ (a' c' : Seg K) (lv' : List (List Nat)), UInv a' → UInv c' → flat a'.blocks ≠ [] → flat c'.blocks ≠ [] →
        Strict (flat a'.blocks ++ flat c'.blocks) → (flat a'.blocks ++ flat c'.blocks).Perm ((k, x) :: lflat l) →
        l.seg.uniq = mx → a'.uniq + c'.uniq = mx + 1 → mx / 2 ≤ a'.uniq → mx / 2 ≤ c'.uniq →
        (lv' ≠ [] → Shape mx lv' ((A ++ l :: B).length + 1) →
        (lv = [] → B = [] ∧ A = []) →
        TInv mx (⟨A ++ ⟨a', false⟩ :: ⟨c', false⟩ :: B, lv', cnt + 1⟩ : Tree K)) ∧
          (fl (A ++ ⟨a', false⟩ :: ⟨c', false⟩ :: B)).Perm ((k, x) :: fl (A ++ l :: B)) ∧
          LInv (A ++ ⟨a', false⟩ :: ⟨c', false⟩ :: B) := by
      intro a' c' lv' ha hc hna hnc hs hp hfull hsum ha2 hc2
      have hflM : fl [(⟨a', false⟩ : Leaf K), ⟨c', false⟩] = flat a'.blocks ++ flat c'.blocks := by
        rw [fl_cons, fl_cons, fl_nil, List.append_nil]
      have hfl' : fl (A ++ (⟨a', false⟩ : Leaf K) :: ⟨c', false⟩ :: B) = fl A ++ (flat a'.blocks ++ flat c'.blocks) ++ fl B := by
        rw [fl_append, fl_cons, fl_cons]; simp
      have hpp : (fl (A ++ (⟨a', false⟩ : Leaf K) :: ⟨c', false⟩ :: B)).Perm ((k, x) :: fl (A ++ l :: B)) := by
        rw [hfl', hfl]; exact perm_mid hp
      have hLI : LInv (A ++ (⟨a', false⟩ : Leaf K) :: ⟨c', false⟩ :: B) := by
        have := LInv.glue (M := [⟨a', false⟩, ⟨c', false⟩]) hAi hB1 (by
          intro q hq
          rcases List.mem_cons.mp hq with rfl | hq
          · exact ⟨ha, rfl, hna⟩
          · rw [List.mem_singleton.mp hq]; exact ⟨hc, rfl, hnc⟩) (by
          rw [hflM]
          exact strict_replace hstr hs (perm_in hp) hA hB) (by
          intro e he
          rw [hflM] at he
          rcases List.mem_append.mp he with he | he
          · exact ha.uk.top e he
          · exact hc.uk.top e he)
        simpa using this
      refine ⟨fun hlvne hshape hroot => ⟨hLI, ?_, Or.inr ?_, ?_⟩, hpp, hLI⟩
      · have hother : ∀ q, q ∈ A ∨ q ∈ B → q.seg.uniq ≤ mx ∧ (lv' ≠ [] → mx / 4 ≤ q.seg.uniq) := by
          intro q hq
          have := h.size q (by
            simp only; rw [hAB]
            rcases hq with hq | hq
            · exact List.mem_append_left _ hq
            · exact List.mem_append_right _ (List.mem_cons_of_mem _ hq))
          refine ⟨this.1, fun _ => this.2 ?_⟩
          intro hlv
          obtain ⟨h1, h2⟩ := hroot hlv
          rcases hq with hq | hq
          · rw [h2] at hq; cases hq
          · rw [h1] at hq; cases hq
        intro q hq
        rcases List.mem_append.mp hq with hq | hq
        · exact hother q (Or.inl hq)
        · rcases List.mem_cons.mp hq with rfl | hq
          · refine ⟨?_, fun _ => ?_⟩
            · show a'.uniq ≤ mx; omega
            · show mx / 4 ≤ a'.uniq; omega
          · rcases List.mem_cons.mp hq with rfl | hq
            · refine ⟨?_, fun _ => ?_⟩
              · show c'.uniq ≤ mx; omega
              · show mx / 4 ≤ c'.uniq; omega
            · exact hother q (Or.inr hq)
      · have : (A ++ (⟨a', false⟩ : Leaf K) :: ⟨c', false⟩ :: B).length = (A ++ l :: B).length + 1 := by simp; omega
        simp only
        rw [this]; exact hshape
      · show cnt + 1 = _
        rw [hpp.length_eq, List.length_cons, hfl, hcnt]
    obtain ⟨s', g1, g2, g3, g4⟩ := put_ok hul hx hxs hk hnl
    cases lv with
    | nil =>
      -- the root is a leaf
      have h1 : (A ++ l :: B).length = 1 := hsh
      rw [List.length_append, List.length_cons] at h1
      have hA0 : A = [] := List.length_eq_zero_iff.mp (by omega)
      have hB0 : B = [] := List.length_eq_zero_iff.mp (by omega)
      subst hA0 hB0
      rw [List.nil_append] at hAB
      obtain ⟨rfl, rfl⟩ := List.cons.inj hAB
      obtain ⟨sg, lk⟩ := l0
      have hlk : lk = false := hlo
      subst hlk
      by_cases hlt : sg.uniq < mx
      · obtain ⟨r1, r2⟩ := room s' g2 g3 g4 hlt
        refine ⟨_, ?_, r1, r2⟩
        show (if sg.uniq < mx then (lift (Seg.append sg k x)).bind _ else _) = _
        rw [if_pos hlt]
        simp only at g1
        rw [g1]; rfl
      · have hfull : sg.uniq = mx := by have := hsz.1; simp only at this; omega
        obtain ⟨a, c, q1, q2, q3, a', c', r, q4⟩ := split_put hul (by simp only; omega) hx hxs hk hnl
        obtain ⟨hr, p1, p2, p3, p4, p5, p6, p7, p8, p9⟩ := q3 a' c' r q4
        subst hr
        simp only at p7 p8 p9
        rw [hfull] at p7 p8 p9
        obtain ⟨r1, r2, _⟩ := cut a' c' [[2]] p1 p2 p3 p4 p5 p6 hfull p7 p8 p9
        refine ⟨_, ?_, r1 (List.cons_ne_nil _ _) ?_ (fun _ => ⟨rfl, rfl⟩), r2⟩
        · show (if sg.uniq < mx then _ else (lift (Seg.split sg)).bind _) = _
          rw [if_neg hlt]
          simp only at q1
          rw [q1]
          show (if smin c < k then (lift (Seg.append c k x)).bind _ else (lift (Seg.append a k x)).bind _) = _
          by_cases hc : smin c < k
          · rw [if_pos hc] at q4 ⊢
            rw [q4.1, q4.2]; rfl
          · rw [if_neg hc] at q4 ⊢
            rw [q4.1, q4.2]; rfl
        · refine ⟨rfl, ?_, ?_, rfl⟩
          · intro c hc; rw [List.mem_singleton.mp hc]; omega
          · intro c hc; rw [List.mem_singleton.mp hc]; simp
    | cons cs up =>
      have hdes' : descend k (cs :: up) (leafMins (⟨l0 :: ls0, cs :: up, cnt⟩ : Tree K)) = A.length := hdes
      have hget : (l0 :: ls0)[A.length]? = some l := by rw [hAB]; exact get_mid
      have hun : append mx (⟨l0 :: ls0, cs :: up, cnt⟩ : Tree K) k x =
          (if l.locked then .diverges
          else if l.seg.uniq < mx then
            (lift (Seg.append l.seg k x)).bind fun r =>
              .ok (⟨(l0 :: ls0).set A.length ⟨r.1, false⟩, cs :: up, cnt + (if r.2 then 1 else 0)⟩, r.2)
          else
            (lift (Seg.split l.seg)).bind fun ab =>
              (if smin ab.2 ≤ k then (lift (Seg.append ab.2 k x)).bind fun r => .ok (ab.1, r.1, r.2)
               else (lift (Seg.append ab.1 k x)).bind fun r => .ok (r.1, ab.2, r.2)).bind fun (a, b, r) =>
                (lift (insertUp mx (cs :: up) (((l0 :: ls0).set A.length ⟨a, false⟩).map fun l => smin l.seg) A.length (smin b))).bind fun lv =>
                  .ok (⟨(l0 :: ls0).take A.length ++ ⟨a, false⟩ :: ⟨b, false⟩ :: (l0 :: ls0).drop (A.length + 1), lv, cnt + (if r then 1 else 0)⟩, r)) := by
        unfold append
        simp only [hdes', hget]
      rw [hun, hlo, if_neg (by simp), hAB, take_mid, drop_mid]
      by_cases hlt : l.seg.uniq < mx
      · obtain ⟨r1, r2⟩ := room s' g2 g3 g4 hlt
        refine ⟨_, ?_, r1, r2⟩
        rw [if_pos hlt, g1]
        show (Res.ok _ : Res _) = _
        rw [set_at]; rfl
      · have hfull : l.seg.uniq = mx := by have := hsz.1; omega
        obtain ⟨a, c, q1, q2, q3, a', c', r, q4⟩ := split_put hul (by omega) hx hxs hk hnl
        obtain ⟨hr, p1, p2, p3, p4, p5, p6, p7, p8, p9⟩ := q3 a' c' r q4
        subst hr
        rw [hfull] at p7 p8 p9
        obtain ⟨r1, r2, r3⟩ := cut a' c' [] p1 p2 p3 p4 p5 p6 hfull p7 p8 p9
        have hms := mins_sorted r3
        have hmseq : mins (A ++ (⟨a', false⟩ : Leaf K) :: ⟨c', false⟩ :: B) = mins A ++ smin a' :: smin c' :: mins B := by
          rw [mins_append]; rfl
        rw [hmseq] at hms
        have hms2 : mins (A ++ (⟨a', false⟩ : Leaf K) :: B) = mins A ++ smin a' :: mins B := by
          rw [mins_append]; rfl
        obtain ⟨m1, m2, m3⟩ := List.pairwise_append.mp hms
        have m4 := List.pairwise_cons.mp m2
        have m5 := List.pairwise_cons.mp m4.2
        have hml : (mins A).length = A.length := by unfold mins; rw [List.length_map]
        have hml2 : (mins A ++ smin a' :: mins B).length = (A ++ l :: B).length := by
          unfold mins; simp
        obtain ⟨lv', i1, i2, i3⟩ := insertUp_ok h12 (cs :: up) (mins A) (mins B) (smin a') (smin c')
          (by rw [hml2]; exact hsh)
          (hms.sublist (List.Sublist.append_left (List.Sublist.cons_cons _ (List.sublist_cons_self _ _)) _))
          (m4.1 _ (List.mem_cons_self ..)) m5.1
        rw [hml] at i1
        rw [hml2] at i3
        have r1' := (cut a' c' lv' p1 p2 p3 p4 p5 p6 hfull p7 p8 p9).1
        refine ⟨_, ?_, r1' i2 i3 (fun hc => absurd hc (List.cons_ne_nil _ _)), r2⟩
        rw [if_neg hlt, q1]
        have hin : (if smin c ≤ k then (lift (Seg.append c k x)).bind fun r => Res.ok (a, r.1, r.2)
               else (lift (Seg.append a k x)).bind fun r => .ok (r.1, c, r.2)) = .ok (a', c', true) := by
          by_cases hc : smin c < k
          · rw [if_pos hc] at q4
            rw [if_pos (le_of_lt hc), q4.1, q4.2]; rfl
          · rw [if_neg hc] at q4
            rw [if_neg (fun hh => hc (q2.mpr hh)), q4.1, q4.2]; rfl
        show (Res.bind (if smin c ≤ k then _ else _) _) = _
        rw [hin]
        show (lift (insertUp mx (cs :: up) (mins ((A ++ l :: B).set A.length ⟨a', false⟩)) A.length (smin c'))).bind _ = _
        rw [set_at, hms2, i1]
        rfl

end Verif.BTree
