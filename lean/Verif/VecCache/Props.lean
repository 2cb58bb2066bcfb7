import Verif.VecCache.Spec
/-!
# C118: a slice of a chunk has the rows asked for, whatever memory its indexes share
-/
namespace Verif.VecCache

open Verif

/-- `wanted` as the code has it. -/
def want {V : Type} (c : Column V) (h : Heap) (idx : Ptr) (i : Nat) : Res V := (index h idx i).bind fun j => c.row h j

def Reach {V : Type} (c : Column V) (h : Heap) (idx : Ptr) (count : Nat) : Prop := ∀ i, i < count → ∃ v, want c h idx i = .ok v

theorem index_named {h : Heap} {p : Ptr} {i j : Nat} (hn : named h p i = some j) : index h p i = .ok j := by
  cases p with
  | none => simp only [named, Option.some.injEq] at hn; subst hn; rfl
  | some a => simp only [named] at hn; simp [index, hn]

theorem row_shows {V : Type} {c : Column V} {h : Heap} {i : Nat} {v : V} (hs : c.shows h i = some v) : c.row h i = .ok v := by
  unfold Column.shows at hs
  unfold Column.row
  cases hc : c.sel with
  | flat => simp only [hc, Option.some.injEq] at hs ⊢; rw [hs]
  | constant => simp only [hc, Option.some.injEq] at hs ⊢; rw [hs]
  | dict p =>
    simp only [hc, Option.map_eq_some_iff] at hs ⊢
    obtain ⟨k, h1, h2⟩ := hs
    rw [index_named h1]; simp [Res.bind, h2]

theorem want_of {V : Type} {c : Column V} {h : Heap} {idx : Ptr} {i : Nat} {v : V} (hw : wanted c h idx i = some v) :
    want c h idx i = .ok v := by
  unfold wanted at hw
  rw [Option.bind_eq_some_iff] at hw
  obtain ⟨j, h1, h2⟩ := hw
  rw [want, index_named h1]; exact row_shows h2

theorem reach_of {V : Type} {c : Column V} {h : Heap} {idx : Ptr} {count : Nat} (hi : InRange c h idx count) : Reach c h idx count :=
  fun i hc => by
    obtain ⟨v, hv⟩ := Option.isSome_iff_exists.1 (hi i hc)
    exact ⟨v, want_of hv⟩

theorem compose_ok (h : Heap) (p q : Ptr) : ∀ is : List Nat,
    (∀ i ∈ is, ∃ j k, index h q i = .ok j ∧ index h p j = .ok k) → ∃ l, compose h p q is = .ok l
  | [], _ => ⟨[], rfl⟩
  | i :: is, hh => by
    obtain ⟨j, k, h1, h2⟩ := hh i (by simp)
    obtain ⟨l, h3⟩ := compose_ok h p q is fun i hi => hh i (by simp [hi])
    exact ⟨k :: l, by simp [compose, h1, h2, h3, Res.bind]⟩

theorem compose_get (h : Heap) (p q : Ptr) : ∀ (is l : List Nat), compose h p q is = .ok l → ∀ n i : Nat, is[n]? = some i →
    ∃ j k, index h q i = .ok j ∧ index h p j = .ok k ∧ l[n]? = some k
  | [], _, _, n, i, hi => by simp at hi
  | x :: is, l, hc, n, i, hi => by
    rw [compose] at hc
    cases h1 : index h q x with
    | ok j =>
      cases h2 : index h p j with
      | ok k =>
        cases h3 : compose h p q is with
        | ok ks =>
          simp only [h1, h2, h3, Res.bind, Res.ok.injEq] at hc
          subst hc
          cases n with
          | zero =>
            simp only [List.getElem?_cons_zero, Option.some.injEq] at hi
            subst hi
            exact ⟨j, k, h1, h2, rfl⟩
          | succ n => exact compose_get h p q is ks h3 n i (by simpa using hi)
        | _ => simp [h1, h2, h3, Res.bind] at hc
      | _ => simp [h1, h2, Res.bind] at hc
    | _ => simp [h1, Res.bind] at hc

theorem index_congr {h g : Heap} {p : Ptr} (hh : ∀ a, p = some a → h a = g a) (i : Nat) : index h p i = index g p i := by
  cases p with
  | none => rfl
  | some a => simp [index, hh a rfl]

theorem compose_congr {h g : Heap} {p q : Ptr} (hp : ∀ a, p = some a → h a = g a) (hq : ∀ a, q = some a → h a = g a) :
    ∀ is : List Nat, compose h p q is = compose g p q is
  | [] => rfl
  | i :: is => by
    simp only [compose, index_congr hq, compose_congr hp hq is]
    congr 1; funext j; rw [index_congr hp]

theorem row_congr {V : Type} {h g : Heap} {c : Column V} (hh : ∀ a ∈ c.sel.addr, h a = g a) (i : Nat) : c.row h i = c.row g i := by
  unfold Column.row
  cases hs : c.sel with
  | dict p =>
    simp only
    rw [index_congr (g := g)]
    intro a ha; subst ha
    exact hh a (by simp [hs, Sel.addr])
  | _ => rfl

/-- A dictionary over composed indexes has the rows asked for. -/
theorem dict_row {V : Type} {h0 g : Heap} {c : Column V} {p idx : Ptr} {q count : Nat} {l : List Nat} (hs : c.sel = .dict p)
    (hl : compose h0 p idx (List.range count) = .ok l) (hg : g q = l) {i : Nat} (hi : i < count) :
    ({ c with sel := .dict (some q) } : Column V).row g i = want c h0 idx i := by
  obtain ⟨j, k, h1, h2, h3⟩ := compose_get h0 p idx _ l hl i i (by simp [hi])
  have hq : index g (some q) i = .ok k := by simp [index, hg, h3]
  simp only [want, Column.row, hs, h1, h2, hq, Res.bind]

theorem mem_addrs {V : Type} {cs : List (Column V)} {a : Nat} : a ∈ addrs cs ↔ ∃ c ∈ cs, a ∈ c.sel.addr := by
  simp [addrs]

/-- What the loop does with the columns left: `h0` is the memory at the start. -/
theorem sliceAll_eq {V : Type} (alloc : List Nat → Nat) (hfresh : ∀ l, alloc l ∉ l) (others : List (Column V)) (idx : Ptr)
    (count : Nat) (h0 : Heap) : ∀ (rest done : List (Column V)) (h : Heap) (cache : Cache),
    (∀ c ∈ rest, Reach c h0 idx count) →
    (∀ a, a ∈ addrs rest ∨ idx = some a → h a = h0 a) →
    (∀ p q, cache.lookup p = some q → q ∈ cache.map Prod.snd ∧ idx ≠ some q ∧
      ((∃ c ∈ rest, c.sel = .dict p) → compose h0 p idx (List.range count) = .ok (h q))) →
    ∃ h' rest', sliceAll alloc others idx count done rest h cache = .ok (h', done ++ rest') ∧ rest'.length = rest.length ∧
      (∀ a, a ∈ addrs others ∨ a ∈ addrs done ∨ idx = some a → h' a = h a) ∧
      ∀ (k : Nat) (hk : k < rest.length) (hk' : k < rest'.length) (g : Heap),
        (∀ a, idx ≠ some a ∨ rest[k].sel = .flat → g a = h' a) → ∀ i, i < count → rest'[k].row g i = want rest[k] h0 idx i
  | [], done, h, cache, _, _, _ => ⟨h, [], by simp [sliceAll], rfl, fun _ _ => rfl, fun k hk => by simp at hk⟩
  | c :: rest, done, h, cache, hin, hold, hcache => by
    have hin' : ∀ c ∈ rest, Reach c h0 idx count := fun c hc => hin c (by simp [hc])
    have hsub : ∀ a, a ∈ addrs rest → a ∈ addrs (c :: rest) := fun a ha => by
      rw [mem_addrs] at ha ⊢
      obtain ⟨c, h1, h2⟩ := ha
      exact ⟨c, by simp [h1], h2⟩
    have hdone : ∀ (c' : Column V) a, a ∈ addrs done → a ∈ addrs (done ++ [c']) := fun c' a ha => by
      rw [mem_addrs] at ha ⊢
      obtain ⟨c, h1, h2⟩ := ha
      exact ⟨c, by simp [h1], h2⟩
    have hlast : ∀ (c' : Column V) a, a ∈ c'.sel.addr → a ∈ addrs (done ++ [c']) := fun c' a ha => by
      rw [mem_addrs]; exact ⟨c', by simp, ha⟩
    -- the rest, once the column has become `c'`
    have key : ∀ (c' : Column V) (h1 : Heap) (cache1 : Cache),
        (∀ a, a ∈ addrs rest ∨ idx = some a → h1 a = h0 a) →
        (∀ p q, cache1.lookup p = some q → q ∈ cache1.map Prod.snd ∧ idx ≠ some q ∧
          ((∃ c ∈ rest, c.sel = .dict p) → compose h0 p idx (List.range count) = .ok (h1 q))) →
        (∀ a, a ∈ addrs others ∨ a ∈ addrs done ∨ idx = some a → h1 a = h a) →
        (∀ h' g : Heap, (∀ a, a ∈ addrs (done ++ [c']) ∨ idx = some a → h' a = h1 a) →
          (∀ a, idx ≠ some a ∨ c.sel = .flat → g a = h' a) → ∀ i, i < count → c'.row g i = want c h0 idx i) →
        sliceAll alloc others idx count done (c :: rest) h cache = sliceAll alloc others idx count (done ++ [c']) rest h1 cache1 →
        ∃ h' rest', sliceAll alloc others idx count done (c :: rest) h cache = .ok (h', done ++ rest') ∧
          rest'.length = (c :: rest).length ∧
          (∀ a, a ∈ addrs others ∨ a ∈ addrs done ∨ idx = some a → h' a = h a) ∧
          ∀ (k : Nat) (hk : k < (c :: rest).length) (hk' : k < rest'.length) (g : Heap),
            (∀ a, idx ≠ some a ∨ (c :: rest)[k].sel = .flat → g a = h' a) →
            ∀ i, i < count → rest'[k].row g i = want (c :: rest)[k] h0 idx i := by
      intro c' h1 cache1 a1 a2 a3 a4 a5
      obtain ⟨h', rest', e1, e2, e3, e4⟩ := sliceAll_eq alloc hfresh others idx count h0 rest (done ++ [c']) h1 cache1 hin' a1 a2
      refine ⟨h', c' :: rest', by rw [a5, e1]; simp, by simp [e2], fun a ha => ?_, fun k hk hk' g hg i hi => ?_⟩
      · rw [e3 a (by
          rcases ha with ha | ha | ha
          · exact .inl ha
          · exact .inr (.inl (hdone _ _ ha))
          · exact .inr (.inr ha))]
        exact a3 a ha
      · cases k with
        | zero => exact a4 h' g (fun a ha => e3 a (.inr ha)) hg i hi
        | succ k => exact e4 k (by simpa using hk) (by simpa using hk') g hg i hi
    have hold' : ∀ a, a ∈ addrs rest ∨ idx = some a → h a = h0 a := fun a ha => hold a (ha.imp_left (hsub a))
    have hcache' : ∀ p q, cache.lookup p = some q → q ∈ cache.map Prod.snd ∧ idx ≠ some q ∧
        ((∃ c ∈ rest, c.sel = .dict p) → compose h0 p idx (List.range count) = .ok (h q)) := fun p q hpq => by
      obtain ⟨b1, b2, b3⟩ := hcache p q hpq
      exact ⟨b1, b2, fun ⟨c, hc, hs⟩ => b3 ⟨c, by simp [hc], hs⟩⟩
    cases hs : c.sel with
    | constant =>
      refine key c h cache hold' hcache' (fun _ _ => rfl) (fun h' g _ _ i hi => ?_) (by rw [sliceAll, hs])
      obtain ⟨v, hv⟩ := hin c (by simp) i hi
      unfold want at hv ⊢
      cases hx : index h0 idx i with
      | ok j => simp [Column.row, hs, Res.bind]
      | _ => simp [hx, Res.bind] at hv
    | flat =>
      refine key { c with sel := .dict idx } h cache hold' hcache' (fun _ _ => rfl) (fun h' g hh hg i hi => ?_) (by rw [sliceAll, hs])
      have : index g idx i = index h0 idx i := index_congr (fun a ha => by
        rw [hg a (.inr hs), hh a (.inr ha), hold a (.inr ha)]) i
      simp [want, Column.row, hs, this]
    | dict p =>
      have hp : ∀ a, p = some a → a ∈ addrs (c :: rest) := fun a ha => by
        rw [mem_addrs]; exact ⟨c, by simp, by simp [hs, ha, Sel.addr]⟩
      cases hq : cache.lookup p with
      | some q =>
        obtain ⟨b1, b2, b3⟩ := hcache p q hq
        refine key { c with sel := .dict (some q) } h cache hold' hcache' (fun _ _ => rfl) (fun h' g hh hg i hi => ?_)
          (by rw [sliceAll, hs]; simp only [hq])
        refine dict_row hs (b3 ⟨c, by simp, hs⟩) ?_ hi
        rw [hg q (.inl b2), hh q (.inl (hlast _ q (by simp [Sel.addr])))]
      | none =>
        obtain ⟨l, hl⟩ := compose_ok h0 p idx (List.range count) (fun i hi => by
          obtain ⟨v, hv⟩ := hin c (by simp) i (by simpa using hi)
          unfold want at hv
          cases h1 : index h0 idx i with
          | ok j =>
            cases h2 : index h0 p j with
            | ok k => exact ⟨j, k, rfl, h2⟩
            | _ => simp [h1, h2, Column.row, hs, Res.bind] at hv
          | _ => simp [h1, Res.bind] at hv)
        have hl' : compose h p idx (List.range count) = .ok l := by
          rw [compose_congr (g := h0) (fun a ha => hold a (.inl (hp a ha))) (fun a ha => hold a (.inr ha))]; exact hl
        generalize ha : alloc (addrs others ++ addrs done ++ addrs (c :: rest) ++ idx.toList ++ cache.map Prod.snd) = a
        have hf := hfresh (addrs others ++ addrs done ++ addrs (c :: rest) ++ idx.toList ++ cache.map Prod.snd)
        rw [ha] at hf
        simp only [List.mem_append, not_or, Option.mem_toList] at hf
        obtain ⟨⟨⟨⟨f1, f2⟩, f3⟩, f4⟩, f5⟩ := hf
        have hne : ∀ b, b ≠ a → put h a l b = h b := fun b hb => by simp [put, hb]
        have hidx : ∀ b, idx = some b → b ≠ a := fun b hb he => f4 (by rw [hb, he])
        refine key { c with sel := .dict (some a) } (put h a l) ((p, a) :: cache) (fun b hb => ?_) (fun p' q hpq => ?_) (fun b hb => ?_)
          (fun h' g hh hg i hi => ?_) (by rw [sliceAll, hs]; simp only [hq, ha, hl', Res.bind])
        · rw [hne b]
          · exact hold' b hb
          · rcases hb with hb | hb
            · exact fun he => f3 (he ▸ hsub b hb)
            · exact hidx b hb
        · rw [List.lookup_cons] at hpq
          by_cases he : p' = p
          · subst he
            simp only [BEq.rfl, Option.some.injEq] at hpq
            subst hpq
            refine ⟨by simp, fun h => hidx _ h rfl, fun _ => ?_⟩
            rw [hl]; simp [put]
          · have hb : (p' == p) = false := by simpa using he
            simp only [hb] at hpq
            obtain ⟨b1, b2, b3⟩ := hcache' p' q hpq
            refine ⟨by simp only [List.map_cons, List.mem_cons]; exact .inr b1, b2, fun hx => ?_⟩
            rw [hne q (fun he => f5 (he ▸ b1))]
            exact b3 hx
        · refine hne b fun he => ?_
          subst he
          rcases hb with hb | hb | hb
          · exact f1 hb
          · exact f2 hb
          · exact hidx _ hb rfl
        · refine dict_row hs hl ?_ hi
          rw [hg a (.inl fun h => hidx _ h rfl), hh a (.inl (hlast _ a (by simp [Sel.addr])))]
          simp [put]

/-- **C118**, as long as the caller leaves the indexing as it is: the slice has the rows asked for, and the columns of others keep
theirs, whatever arrays are shared and addresses given out again. -/
theorem C118_slice {V : Type} (alloc : List Nat → Nat) (hfresh : ∀ l, alloc l ∉ l) (others cols : List (Column V)) (idx : Ptr)
    (count : Nat) (h : Heap) (hin : ∀ c ∈ cols, InRange c h idx count) :
    ∃ h' cols', sliceChunk alloc others cols idx count h = .ok (h', cols') ∧ cols'.length = cols.length ∧
      (∀ (k : Nat) (hk : k < cols.length) (hk' : k < cols'.length) (i : Nat) (v : V), i < count →
        wanted cols[k] h idx i = some v → cols'[k].row h' i = .ok v) ∧
      (∀ c ∈ others, ∀ i, c.row h' i = c.row h i) ∧ ∀ i, index h' idx i = index h idx i := by
  obtain ⟨h', cols', e1, e2, e3, e4⟩ := sliceAll_eq alloc hfresh others idx count h cols [] h []
    (fun c hc => reach_of (hin c hc)) (fun _ _ => rfl)
    (fun p q hpq => by simp at hpq)
  refine ⟨h', cols', by simpa [sliceChunk] using e1, e2, 
    fun k hk hk' i v hi hv => (e4 k hk hk' h' (fun _ _ => rfl) i hi).trans (want_of hv),
    fun c hc i => row_congr (fun a ha => e3 a (.inl (mem_addrs.2 ⟨c, hc, ha⟩))) i,
    fun i => index_congr (fun a ha => e3 a (.inr (.inr ha))) i⟩

/-- **C118** for the columns that were not flat, even if the caller goes on to use the indexing for something else.  Missing: the
flat columns, see `C118_reused_fails`. -/
theorem C118_slice_partial {V : Type} (alloc : List Nat → Nat) (hfresh : ∀ l, alloc l ∉ l) (others cols : List (Column V)) (a : Nat)
    (count : Nat) (h : Heap) (hin : ∀ c ∈ cols, InRange c h (some a) count) :
    ∃ h' cols', sliceChunk alloc others cols (some a) count h = .ok (h', cols') ∧ cols'.length = cols.length ∧
      ∀ (l : List Nat) (k : Nat) (hk : k < cols.length) (hk' : k < cols'.length) (i : Nat) (v : V), cols[k].sel ≠ .flat →
        i < count → wanted cols[k] h (some a) i = some v → cols'[k].row (put h' a l) i = .ok v := by
  obtain ⟨h', cols', e1, e2, _, e4⟩ := sliceAll_eq alloc hfresh others (some a) count h cols [] h []
    (fun c hc => reach_of (hin c hc)) (fun _ _ => rfl)
    (fun p q hpq => by simp at hpq)
  refine ⟨h', cols', by simpa [sliceChunk] using e1, e2, 
    fun l k hk hk' i v hne hi hv => (e4 k hk hk' _ (fun b hb => ?_) i hi).trans (want_of hv)⟩
  rcases hb with hb | hb
  · have : b ≠ a := fun he => hb (by rw [he])
    simp [put, this]
  · exact absurd hb hne

/-- The slice of a flat column looks its rows up in the caller's array: whatever the caller writes there next, the slice shows. -/
theorem C118_reused {V : Type} (alloc : List Nat → Nat) (others : List (Column V)) (base : Nat → V) (a count : Nat) (h : Heap) :
    ∃ c', sliceChunk alloc others [⟨.flat, base⟩] (some a) count h = .ok (h, [c']) ∧
      ∀ (l : List Nat) (i j : Nat), l[i]? = some j → c'.row (put h a l) i = .ok (base j) :=
  ⟨⟨.dict (some a), base⟩, rfl, fun l i j hl => by simp [Column.row, index, put, hl, Res.bind]⟩

/-- An allocator: one behind all addresses in use. -/
def next (l : List Nat) : Nat := l.foldl max 0 + 1

theorem le_foldl_max : ∀ (l : List Nat) (m : Nat), m ≤ l.foldl max m ∧ ∀ x ∈ l, x ≤ l.foldl max m
  | [], m => ⟨Nat.le_refl _, by simp⟩
  | y :: l, m => by
    obtain ⟨h1, h2⟩ := le_foldl_max l (max m y)
    refine ⟨by rw [List.foldl_cons]; omega, fun x hx => ?_⟩
    rw [List.foldl_cons]
    rcases List.mem_cons.1 hx with hx | hx
    · subst hx; omega
    · exact h2 x hx

theorem next_fresh (l : List Nat) : next l ∉ l := fun h => by
  have := (le_foldl_max l 0).2 _ h
  unfold next at this; omega

/-- **C118** in full does not hold: row 1 of a flat column is selected, then row 2 is written to the indexing. -/
theorem C118_reused_fails : ¬ C118_slice_claim := by
  intro hc
  obtain ⟨h', cols', h1, h2, h3⟩ := hc Nat next next_fresh [] [⟨.flat, id⟩] 0 1 (fun _ => [1]) (by
    intro c hc i hi
    simp only [List.mem_singleton] at hc
    subst hc
    have : i = 0 := by omega
    subst this
    rfl)
  obtain ⟨c', g1, g2⟩ := C118_reused next [] (id : Nat → Nat) 0 1 (fun _ => [1])
  rw [g1] at h1
  cases h1
  have e := h3 [2] 0 (by simp) (by simp) 0 1 (by omega) rfl
  have e2 : c'.row (put (fun _ => [1]) 0 [2]) 0 = .ok 2 := g2 [2] 0 2 rfl
  simp only [List.getElem_cons_zero] at e
  rw [e2] at e
  exact absurd e (by decide)

/-! A concrete case: two dictionaries with the same array, one of their own, a constant and a flat column; rows 2 and 0 are asked for. -/

def exHeap : Heap := fun a => if a = 5 then [2, 0] else if a = 1 then [3, 4, 5] else [6, 7, 8]
def exCols : List (Column Nat) :=
  [⟨.dict (some 1), id⟩, ⟨.dict (some 1), fun i => 10 * i⟩, ⟨.dict (some 2), id⟩, ⟨.constant, fun _ => 9⟩, ⟨.flat, id⟩]

example : ∀ c ∈ exCols, InRange c exHeap (some 5) 2 := by
  intro c hc i hi
  have h2 : i = 0 ∨ i = 1 := by omega
  simp only [exCols, List.mem_cons, List.not_mem_nil, or_false] at hc
  rcases hc with rfl | rfl | rfl | rfl | rfl <;> rcases h2 with rfl | rfl <;> rfl

/-- The first two share one new array, which the cache gave the second. -/
example : ∃ h' cols', sliceChunk next [] exCols (some 5) 2 exHeap = .ok (h', cols') ∧
    cols'.map (·.sel) = [.dict (some 6), .dict (some 6), .dict (some 7), .constant, .dict (some 5)] ∧ h' 6 = [5, 3] ∧ h' 7 = [8, 6] :=
  ⟨_, _, rfl, rfl, rfl, rfl⟩

end Verif.VecCache
