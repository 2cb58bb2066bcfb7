import Verif.Query.AggProps
/-!
C24: grouping.
-/
namespace Verif.Query

open Verif.DocVal Verif.Num Verif.PhysKey Verif.LogVal

/-! ### classes -/

theorem classes_cons {α : Type} (same : α → α → Bool) (a : α) (l : List α) :
    classes same (a :: l) = (a :: l.filter (same a)) :: classes same (l.filter fun b => !same a b) := by
  rw [classes]

theorem filter_split {α : Type} (p : α → Bool) (l : List α) : (l.filter p ++ l.filter fun a => !p a).Perm l :=
  List.filter_append_perm p l

/-- The classes of a relation are what the words say: together they are the list, related elements are in one class and
elements of different classes are unrelated. -/
theorem C24_classes {α : Type} (same : α → α → Bool) (sym : ∀ a b, same a b = true → same b a = true)
    (tr : ∀ a b c, same a b = true → same b c = true → same a c = true) : ∀ (n : Nat) (l : List α), l.length ≤ n →
    ((classes same l).flatten.Perm l) ∧
    (∀ m ∈ classes same l, ∃ a t, m = a :: t ∧ ∀ b ∈ t, same a b = true) ∧
    (classes same l).Pairwise (fun m m' => ∀ a ∈ m, ∀ b ∈ m', same a b = false) := by
  intro n
  induction n with
  | zero =>
    intro l hl
    have : l = [] := List.length_eq_zero_iff.mp (by omega)
    subst this
    simp [classes]
  | succ n ih =>
    intro l hl
    cases l with
    | nil => simp [classes]
    | cons a l =>
      have hlen : (l.filter fun b => !same a b).length ≤ n := by
        have := List.length_filter_le (fun b => !same a b) l
        simp only [List.length_cons] at hl
        omega
      obtain ⟨h1, h2, h3⟩ := ih _ hlen
      rw [classes_cons]
      refine ⟨?_, ?_, ?_⟩
      · rw [List.flatten_cons, List.cons_append]
        refine List.Perm.cons a ?_
        exact (List.Perm.append_left _ h1).trans (filter_split (same a) l)
      · intro m hm
        rcases List.mem_cons.mp hm with rfl | hm
        · exact ⟨a, _, rfl, fun b hb => (List.mem_filter.mp hb).2⟩
        · exact h2 m hm
      · rw [List.pairwise_cons]
        refine ⟨?_, h3⟩
        intro m hm x hx y hy
        have hy' : y ∈ l.filter fun b => !same a b := h1.mem_iff.mp (List.mem_flatten.mpr ⟨m, hm, hy⟩)
        have hay : same a y = false := by simpa using (List.mem_filter.mp hy').2
        by_contra hxy
        have hxy : same x y = true := by simpa using hxy
        rcases List.mem_cons.mp hx with rfl | hx
        · rw [hay] at hxy; cases hxy
        · have := tr a x y (List.mem_filter.mp hx).2 hxy
          rw [hay] at this; cases this

/-- The classes with their first elements. -/
def classesP {α : Type} (same : α → α → Bool) : List α → List (α × List α)
  | [] => []
  | a :: l => (a, l.filter (same a)) :: classesP same (l.filter fun b => !same a b)
termination_by l => l.length
decreasing_by
  simp only [List.length_unattach]
  exact Nat.lt_succ_of_le (Nat.le_trans (List.length_filter_le _ _) (by simp))

theorem classesP_cons {α : Type} (same : α → α → Bool) (a : α) (l : List α) :
    classesP same (a :: l) = (a, l.filter (same a)) :: classesP same (l.filter fun b => !same a b) := by
  rw [classesP]

theorem classesP_map {α : Type} (same : α → α → Bool) : ∀ (n : Nat) (l : List α), l.length ≤ n →
    (classesP same l).map (fun p => p.1 :: p.2) = classes same l := by
  intro n
  induction n with
  | zero =>
    intro l hl
    have : l = [] := List.length_eq_zero_iff.mp (by omega)
    subst this
    simp [classes, classesP]
  | succ n ih =>
    intro l hl
    cases l with
    | nil => simp [classes, classesP]
    | cons a l =>
      have hlen : (l.filter fun b => !same a b).length ≤ n := by
        have := List.length_filter_le (fun b => !same a b) l
        simp only [List.length_cons] at hl
        omega
      rw [classes_cons, classesP_cons, List.map_cons, ih _ hlen]

/-- Adding one element to the first class it belongs to, or as a new class. -/
def placeL {α : Type} (same : α → α → Bool) (d : α) : List (α × List α) → List (α × List α)
  | [] => [(d, [])]
  | p :: ps => if same p.1 d then (p.1, p.2 ++ [d]) :: ps else p :: placeL same d ps

theorem placeL_none {α : Type} (same : α → α → Bool) (d : α) (cls : List (α × List α)) (h : ∀ p ∈ cls, same p.1 d = false) :
    placeL same d cls = cls ++ [(d, [])] := by
  induction cls with
  | nil => rfl
  | cons p ps ih =>
    unfold placeL
    rw [if_neg (by rw [h p List.mem_cons_self]; simp), ih fun q hq => h q (List.mem_cons_of_mem _ hq)]
    rfl

theorem placeL_some {α : Type} (same : α → α → Bool) (sym : ∀ a b, same a b = true → same b a = true)
    (tr : ∀ a b c, same a b = true → same b c = true → same a c = true) (d : α) (cls : List (α × List α))
    (hp : cls.Pairwise fun p q => same p.1 q.1 = false) (h : ∃ p ∈ cls, same p.1 d = true) :
    placeL same d cls = cls.map fun p => if same p.1 d then (p.1, p.2 ++ [d]) else p := by
  induction cls with
  | nil => obtain ⟨p, hp, _⟩ := h; cases hp
  | cons p ps ih =>
    obtain ⟨h1, h2⟩ := List.pairwise_cons.mp hp
    unfold placeL
    rw [List.map_cons]
    by_cases hd : same p.1 d = true
    · rw [if_pos hd, if_pos hd]
      congr 1
      refine (List.map_id ps).symm.trans (List.map_congr_left ?_)
      intro q hq
      have : same q.1 d ≠ true := by
        intro hqd
        have := tr _ _ _ hd (sym _ _ hqd)
        rw [h1 q hq] at this; cases this
      rw [if_neg this]; rfl
    · rw [if_neg hd, if_neg hd]
      congr 1
      refine ih h2 ?_
      obtain ⟨q, hq, hqd⟩ := h
      rcases List.mem_cons.mp hq with rfl | hq
      · exact absurd hqd hd
      · exact ⟨q, hq, hqd⟩

/-- Adding all elements one by one. -/
def placeAll {α : Type} (same : α → α → Bool) : List (α × List α) → List α → List (α × List α)
  | cls, [] => cls
  | cls, d :: ds => placeAll same (placeL same d cls) ds

theorem placeAll_eq {α : Type} (same : α → α → Bool) (sym : ∀ a b, same a b = true → same b a = true)
    (tr : ∀ a b c, same a b = true → same b c = true → same a c = true) : ∀ (ds : List α) (cls : List (α × List α)),
    (cls.Pairwise fun p q => same p.1 q.1 = false) →
    placeAll same cls ds = (cls.map fun p => (p.1, p.2 ++ ds.filter (same p.1))) ++
      classesP same (ds.filter fun d => cls.all fun p => !same p.1 d) := by
  intro ds
  induction ds with
  | nil => intro cls _; simp [placeAll, classesP]
  | cons d ds ih =>
    intro cls hp
    unfold placeAll
    by_cases h : ∃ p ∈ cls, same p.1 d = true
    · rw [placeL_some same sym tr d cls hp h, ih]
      · rw [List.map_map]
        congr 1
        · apply List.map_congr_left
          intro p hpm
          simp only [Function.comp]
          by_cases hd : same p.1 d = true
          · rw [if_pos hd, List.filter_cons_of_pos hd]
            simp
          · rw [if_neg hd, List.filter_cons_of_neg (by simpa using hd)]
        · have e : (d :: ds).filter (fun d => cls.all fun p => !same p.1 d) = ds.filter (fun d => cls.all fun p => !same p.1 d) := by
            apply List.filter_cons_of_neg
            obtain ⟨p, hpm, hpd⟩ := h
            simp only [List.all_eq_true, not_forall]
            exact ⟨p, hpm, by simp [hpd]⟩
          rw [e]
          congr 1
          apply List.filter_congr
          intro x _
          rw [List.all_map]
          congr 1
          funext p
          simp only [Function.comp]
          split <;> rfl
      · rw [List.pairwise_map]
        refine hp.imp ?_
        intro p q hpq
        split <;> split <;> exact hpq
    · have hn : ∀ p ∈ cls, same p.1 d = false := by
        intro p hpm
        by_contra hc
        exact h ⟨p, hpm, by simpa using hc⟩
      rw [placeL_none same d cls hn, ih]
      · have e : (d :: ds).filter (fun d => cls.all fun p => !same p.1 d) = d :: ds.filter (fun d => cls.all fun p => !same p.1 d) := by
          apply List.filter_cons_of_pos
          simp only [List.all_eq_true]
          intro p hpm
          simp [hn p hpm]
        rw [e, classesP_cons, List.map_append, List.append_assoc]
        congr 1
        · apply List.map_congr_left
          intro p hpm
          rw [List.filter_cons_of_neg (by simp [hn p hpm])]
        · rw [List.map_cons, List.map_nil, List.singleton_append]
          congr 1
          · rw [List.nil_append, List.filter_filter]
            congr 1
            apply List.filter_congr
            intro x _
            by_cases hx : same d x = true
            · have : (cls.all fun p => !same p.1 x) = true := by
                rw [List.all_eq_true]
                intro p hpm
                by_contra hc
                have hpx : same p.1 x = true := by simpa using hc
                have := tr _ _ _ hpx (sym _ _ hx)
                rw [hn p hpm] at this; cases this
              rw [hx, this]; rfl
            · rw [show same d x = false by simpa using hx]; rfl
          · rw [List.filter_filter]
            congr 1
            apply List.filter_congr
            intro x _
            rw [List.all_append, Bool.and_comm]
            simp
      · rw [List.pairwise_append]
        refine ⟨hp, List.pairwise_singleton _ _, ?_⟩
        intro p hpm q hq
        simp only [List.mem_cons, List.not_mem_nil, or_false] at hq
        subst hq
        exact hn p hpm

/-! ### keys -/

theorem SameValue.sym (a b : V) (h : SameValue a b = true) : SameValue b a = true := by
  cases a <;> cases b <;> first | exact absurd h (by decide) | rfl | (cases h; done) | (simp only [SameValue, beq_iff_eq] at *; exact h.symm) | rfl

theorem SameValue.trans (a b c : V) (h1 : SameValue a b = true) (h2 : SameValue b c = true) : SameValue a c = true := by
  cases a <;> cases b <;> first | (cases h1; done) | skip
  all_goals cases c <;> first | (cases h2; done) | (simp only [SameValue, beq_iff_eq] at *; exact h1.trans h2) | rfl

theorem SameKeys.iff (keys : List Bytes) (a b : Doc) : SameKeys keys a b = true ↔
    ∀ k ∈ keys, ∃ x y, a.value k = some x ∧ b.value k = some y ∧ SameValue x y = true := by
  unfold SameKeys
  rw [List.all_eq_true]
  constructor
  · intro h k hk
    have := h k hk
    cases ha : a.value k <;> cases hb : b.value k <;> rw [ha, hb] at this <;> first | (cases this; done) | exact ⟨_, _, rfl, rfl, this⟩
  · intro h k hk
    obtain ⟨x, y, hx, hy, hxy⟩ := h k hk
    rw [hx, hy]; exact hxy

theorem SameKeys.sym (keys : List Bytes) (a b : Doc) (h : SameKeys keys a b = true) : SameKeys keys b a = true := by
  rw [SameKeys.iff] at *
  intro k hk
  obtain ⟨x, y, hx, hy, hxy⟩ := h k hk
  exact ⟨y, x, hy, hx, SameValue.sym x y hxy⟩

theorem SameKeys.trans (keys : List Bytes) (a b c : Doc) (h1 : SameKeys keys a b = true) (h2 : SameKeys keys b c = true) :
    SameKeys keys a c = true := by
  rw [SameKeys.iff] at *
  intro k hk
  obtain ⟨x, y, hx, hy, hxy⟩ := h1 k hk
  obtain ⟨y', z, hy', hz, hyz⟩ := h2 k hk
  rw [hy] at hy'; cases hy'
  exact ⟨x, z, hx, hz, SameValue.trans x y z hxy hyz⟩

/-- Values grouped by equality: no floating point numbers, unsigned numbers below 2^56, strings below 4 GiB. -/
def Plain : V → Prop
  | .int t v => t.fits v ∧ (t.signed = false → v < 2 ^ 56)
  | .big v => -2 ^ 127 ≤ v ∧ v < 2 ^ 127
  | .str s => s.length < 2 ^ 32
  | .na => True
  | .bool _ => True
  | _ => False

theorem put_widen (v : V) (h : Plain v) : put (widen v) = .ok (widen v) := by
  cases v with
  | na => rfl
  | bool b => cases b <;> rfl
  | float b => exact absurd h id
  | double b => exact absurd h id
  | other c => exact absurd h id
  | str s => exact C48_roundtrip_partial ⟨[], []⟩ 0 (.str s) [] trivial ⟨h, by simp⟩
  | big n => exact C48_roundtrip_partial ⟨[], []⟩ 0 (.big n) [] h trivial
  | int t n =>
    obtain ⟨hf, hu⟩ := h
    cases ht : t.signed with
    | true =>
      have hf' : ITy.i64.fits n := by
        cases t <;> first | (cases ht; done) | (simp only [ITy.fits, ITy.signed, ITy.bits, if_true] at *; omega)
      simp only [widen, ht, if_true]
      exact put_i64 n hf'
    | false =>
      have h0 : 0 ≤ n := by cases t <;> first | exact hf.1 | exact absurd ht (by decide)
      simp only [widen, ht]
      exact put_u64 n h0 (hu ht)

/-- The output document of the keys of a document. -/
def rowOf (keys : List (Bytes × Bytes)) (d : Doc) : List (Bytes × Cell) :=
  keys.filterMap fun p => (d.value p.2).map fun v => (p.1, .scalar (widen v))

theorem setField_new (k : Bytes) (c : Cell) (fs : List (Bytes × Cell)) (h : k ∉ fs.map Prod.fst) : setField k c fs = fs ++ [(k, c)] := by
  induction fs with
  | nil => rfl
  | cons p fs ih =>
    simp only [List.map_cons, List.mem_cons, not_or] at h
    unfold setField
    rw [if_neg (Ne.symm h.1), ih h.2]
    rfl

theorem keyDoc_some (d : Doc) : ∀ (keys : List (Bytes × Bytes)) (fs : List (Bytes × Cell)), (fs.map Prod.fst ++ keys.map Prod.fst).Nodup →
    (∀ p ∈ keys, ∃ v, d.value p.2 = some v ∧ Plain v) → keyDoc d keys fs = .ok (some (fs ++ rowOf keys d)) := by
  intro keys
  induction keys with
  | nil => intro fs _ _; simp [keyDoc, rowOf]
  | cons p ks ih =>
    intro fs hn h
    obtain ⟨v, hv, hp⟩ := h p List.mem_cons_self
    obtain ⟨name, key⟩ := p
    have hnew : name ∉ fs.map Prod.fst := by
      intro hm
      rw [List.nodup_append] at hn
      exact hn.2.2 name hm name (by simp) rfl
    have e : setValue (some v) = .ok (widen v) := put_widen v hp
    have hv' : d.value key = some v := hv
    unfold keyDoc
    rw [hv']
    simp only
    rw [e]
    simp only [Res.bind]
    rw [setField_new name _ fs hnew, ih _ (by simpa using hn) fun q hq => h q (List.mem_cons_of_mem _ hq)]
    simp [rowOf, hv']

theorem keyDoc_none (d : Doc) : ∀ (keys : List (Bytes × Bytes)) (fs : List (Bytes × Cell)),
    (∀ p ∈ keys, ∀ v, d.value p.2 = some v → Plain v) → (∃ p ∈ keys, d.value p.2 = none) → keyDoc d keys fs = .ok none := by
  intro keys
  induction keys with
  | nil => rintro fs _ ⟨p, hp, _⟩; cases hp
  | cons p ks ih =>
    intro fs h hx
    obtain ⟨name, key⟩ := p
    unfold keyDoc
    cases hv : d.value key with
    | none => rfl
    | some v =>
      have e : setValue (some v) = .ok (widen v) := put_widen v (h (name, key) List.mem_cons_self v hv)
      simp only
      rw [e]
      simp only [Res.bind]
      refine ih _ (fun q hq => h q (List.mem_cons_of_mem _ hq)) ?_
      obtain ⟨q, hq, hqn⟩ := hx
      rcases List.mem_cons.mp hq with rfl | hq
      · rw [hv] at hqn; cases hqn
      · exact ⟨q, hq, hqn⟩

/-- What grouping by equal keys needs: every key value is plain, and the integers of a key are all signed or all
unsigned. -/
structure Groupable (keys : List (Bytes × Bytes)) (docs : List Doc) : Prop where
  names : (keys.map Prod.fst).Nodup
  plain : ∀ p ∈ keys, ∀ d ∈ docs, ∀ v, d.value p.2 = some v → Plain v
  sign : ∀ p ∈ keys, ∀ d ∈ docs, ∀ e ∈ docs, ∀ t u m n, d.value p.2 = some (.int t m) → e.value p.2 = some (.int u n) → t.signed = u.signed

theorem eqV_widen (a b : V) (ha : Plain a) (hb : Plain b) (hs : ∀ t u m n, a = .int t m → b = .int u n → t.signed = u.signed) :
    eqV (widen a) (widen b) = SameValue b a := by
  cases a <;> cases b <;> first | exact absurd ha id | exact absurd hb id | rfl | skip
  · simp only [widen, eqV, SameValue]; exact Bool.beq_comm
  · rename_i t m u n
    simp only [widen, eqV, SameValue]
    rw [hs t u m n rfl rfl]
    simp only [BEq.rfl, Bool.true_and]
    exact Bool.beq_comm
  · simp only [widen, eqV, SameValue]; exact Bool.beq_comm
  · simp only [widen, eqV, SameValue]; exact Bool.beq_comm

theorem rowOf_names (keys : List (Bytes × Bytes)) (d : Doc) (h : ∀ p ∈ keys, ∃ v, d.value p.2 = some v) :
    (rowOf keys d).map Prod.fst = keys.map Prod.fst := by
  induction keys with
  | nil => rfl
  | cons p ks ih =>
    obtain ⟨v, hv⟩ := h p List.mem_cons_self
    have := ih fun q hq => h q (List.mem_cons_of_mem _ hq)
    simp only [rowOf, List.filterMap_cons, hv, Option.map_some, List.map_cons] at this ⊢
    rw [this]

theorem look_mem (fs : List (Bytes × Cell)) (hn : (fs.map Prod.fst).Nodup) (p : Bytes × Cell) (h : p ∈ fs) : look fs p.1 = p.2 := by
  induction fs with
  | nil => cases h
  | cons q fs ih =>
    obtain ⟨n, c⟩ := q
    simp only [List.map_cons, List.nodup_cons] at hn
    unfold look
    rcases List.mem_cons.mp h with rfl | h
    · rw [if_pos rfl]
    · rw [if_neg, ih hn.2 h]
      intro e
      exact hn.1 (List.mem_map.mpr ⟨p, h, e.symm⟩)

theorem look_rowOf (keys : List (Bytes × Bytes)) (d : Doc) (hn : (keys.map Prod.fst).Nodup) (h : ∀ p ∈ keys, ∃ v, d.value p.2 = some v)
    (p : Bytes × Bytes) (hp : p ∈ keys) (v : V) (hv : d.value p.2 = some v) : look (rowOf keys d) p.1 = .scalar (widen v) := by
  refine look_mem (rowOf keys d) ?_ (p.1, .scalar (widen v)) ?_
  · rw [rowOf_names keys d h]; exact hn
  · exact List.mem_filterMap.mpr ⟨p, hp, by rw [hv]; rfl⟩

theorem sameFields_rowOf (keys : List (Bytes × Bytes)) (docs : List Doc) (hg : Groupable keys docs) (a b : Doc) (ha : a ∈ docs) (hb : b ∈ docs)
    (hka : HasKeys (keys.map Prod.snd) a = true) (hkb : HasKeys (keys.map Prod.snd) b = true) :
    sameFields (rowOf keys a) (rowOf keys b) = SameKeys (keys.map Prod.snd) b a := by
  have va : ∀ p ∈ keys, ∃ v, a.value p.2 = some v := by
    intro p hp
    have := List.all_eq_true.mp hka p.2 (List.mem_map.mpr ⟨p, hp, rfl⟩)
    exact Option.isSome_iff_exists.mp this
  have vb : ∀ p ∈ keys, ∃ v, b.value p.2 = some v := by
    intro p hp
    have := List.all_eq_true.mp hkb p.2 (List.mem_map.mpr ⟨p, hp, rfl⟩)
    exact Option.isSome_iff_exists.mp this
  have hl : ((rowOf keys a).length == (rowOf keys b).length) = true := by
    have h1 := congrArg List.length (rowOf_names keys a va)
    have h2 := congrArg List.length (rowOf_names keys b vb)
    simp only [List.length_map] at h1 h2
    rw [h1, h2]; exact beq_self_eq_true _
  unfold sameFields
  rw [hl, Bool.true_and]
  rw [Bool.eq_iff_iff, SameKeys.iff, List.all_eq_true]
  constructor
  · intro h k hk
    obtain ⟨p, hp, rfl⟩ := List.mem_map.mp hk
    obtain ⟨x, hx⟩ := va p hp
    obtain ⟨y, hy⟩ := vb p hp
    have := h (p.1, .scalar (widen x)) (List.mem_filterMap.mpr ⟨p, hp, by rw [hx]; rfl⟩)
    rw [look_rowOf keys b hg.names vb p hp y hy] at this
    refine ⟨y, x, hy, hx, ?_⟩
    rw [← eqV_widen x y (hg.plain p hp a ha x hx) (hg.plain p hp b hb y hy)]
    · exact this
    · intro t u m n e1 e2
      exact hg.sign p hp a ha b hb t u m n (e1 ▸ hx) (e2 ▸ hy)
  · intro h q hq
    obtain ⟨p, hp, hq⟩ := List.mem_filterMap.mp hq
    obtain ⟨x, hx⟩ := va p hp
    rw [hx] at hq
    simp only [Option.map_some, Option.some.injEq] at hq
    subst hq
    obtain ⟨y, x', hy, hx', hxy⟩ := h p.2 (List.mem_map.mpr ⟨p, hp, rfl⟩)
    rw [hx] at hx'; cases hx'
    rw [look_rowOf keys b hg.names vb p hp y hy]
    show eqV (widen x) (widen y) = true
    rw [eqV_widen x y (hg.plain p hp a ha x hx) (hg.plain p hp b hb y hy)]
    · exact hxy
    · intro t u m n e1 e2
      exact hg.sign p hp a ha b hb t u m n (e1 ▸ hx) (e2 ▸ hy)

/-- The group of a class. -/
def toGroup (keys : List (Bytes × Bytes)) (p : Doc × List Doc) : Group := ⟨rowOf keys p.1, p.1 :: p.2⟩

theorem place_eq (keys : List (Bytes × Bytes)) (docs : List Doc) (hg : Groupable keys docs) (d : Doc) (hd : d ∈ docs)
    (hk : HasKeys (keys.map Prod.snd) d = true) : ∀ cls : List (Doc × List Doc),
    (∀ p ∈ cls, p.1 ∈ docs ∧ HasKeys (keys.map Prod.snd) p.1 = true) →
    place (rowOf keys d) d (cls.map (toGroup keys)) = (placeL (SameKeys (keys.map Prod.snd)) d cls).map (toGroup keys) := by
  intro cls
  induction cls with
  | nil => intro _; rfl
  | cons p ps ih =>
    intro h
    obtain ⟨h1, h2⟩ := h p List.mem_cons_self
    rw [List.map_cons]
    unfold place placeL
    have e : sameFields (rowOf keys d) (toGroup keys p).row = SameKeys (keys.map Prod.snd) p.1 d :=
      sameFields_rowOf keys docs hg d p.1 hd h1 hk h2
    rw [e]
    by_cases hs : SameKeys (keys.map Prod.snd) p.1 d = true
    · rw [if_pos hs, if_pos hs]
      rfl
    · rw [if_neg hs, if_neg hs, ih fun q hq => h q (List.mem_cons_of_mem _ hq)]
      rfl

theorem placeL_heads {α : Type} (same : α → α → Bool) (d : α) (P : α → Prop) (hd : P d) (cls : List (α × List α))
    (h : ∀ p ∈ cls, P p.1) : ∀ p ∈ placeL same d cls, P p.1 := by
  induction cls with
  | nil => intro p hp; simp only [placeL, List.mem_cons, List.not_mem_nil, or_false] at hp; subst hp; exact hd
  | cons q qs ih =>
    intro p hp
    unfold placeL at hp
    split at hp
    · rcases List.mem_cons.mp hp with rfl | hp
      · exact h q List.mem_cons_self
      · exact h p (List.mem_cons_of_mem _ hp)
    · rcases List.mem_cons.mp hp with rfl | hp
      · exact h p List.mem_cons_self
      · exact ih (fun r hr => h r (List.mem_cons_of_mem _ hr)) p hp

theorem hasKeys_false (keys : List (Bytes × Bytes)) (d : Doc) (h : HasKeys (keys.map Prod.snd) d = false) : ∃ p ∈ keys, d.value p.2 = none := by
  by_contra hc
  have : HasKeys (keys.map Prod.snd) d = true := by
    unfold HasKeys
    rw [List.all_eq_true]
    intro k hk
    obtain ⟨p, hp, rfl⟩ := List.mem_map.mp hk
    cases hv : d.value p.2 with
    | none => exact absurd ⟨p, hp, hv⟩ hc
    | some v => rfl
  rw [h] at this; cases this

theorem collect_eq (keys : List (Bytes × Bytes)) (docs : List Doc) (hg : Groupable keys docs) : ∀ (ds : List Doc) (cls : List (Doc × List Doc)),
    (∀ d ∈ ds, d ∈ docs) → (∀ p ∈ cls, p.1 ∈ docs ∧ HasKeys (keys.map Prod.snd) p.1 = true) →
    collect keys (cls.map (toGroup keys)) ds =
      .ok ((placeAll (SameKeys (keys.map Prod.snd)) cls (ds.filter (HasKeys (keys.map Prod.snd)))).map (toGroup keys)) := by
  intro ds
  induction ds with
  | nil => intro cls _ _; rfl
  | cons d ds ih =>
    intro cls hd hc
    have hdd := hd d List.mem_cons_self
    have hds : ∀ e ∈ ds, e ∈ docs := fun e he => hd e (List.mem_cons_of_mem _ he)
    unfold collect
    by_cases hk : HasKeys (keys.map Prod.snd) d = true
    · have hv : ∀ p ∈ keys, ∃ v, d.value p.2 = some v ∧ Plain v := by
        intro p hp
        have := List.all_eq_true.mp hk p.2 (List.mem_map.mpr ⟨p, hp, rfl⟩)
        obtain ⟨v, hv⟩ := Option.isSome_iff_exists.mp this
        exact ⟨v, hv, hg.plain p hp d hdd v hv⟩
      rw [keyDoc_some d keys [] (by simpa using hg.names) hv, List.filter_cons_of_pos hk]
      simp only [Res.bind, List.nil_append]
      rw [place_eq keys docs hg d hdd hk cls hc]
      exact ih _ hds (placeL_heads _ d (fun e => e ∈ docs ∧ HasKeys (keys.map Prod.snd) e = true) ⟨hdd, hk⟩ cls hc)
    · have hk' : HasKeys (keys.map Prod.snd) d = false := by simpa using hk
      rw [keyDoc_none d keys [] (fun p hp v hv => hg.plain p hp d hdd v hv) (hasKeys_false keys d hk'), List.filter_cons_of_neg hk]
      exact ih cls hds hc

/-- The groups before the aggregates. -/
theorem collect_classes (keys : List (Bytes × Bytes)) (docs : List Doc) (hg : Groupable keys docs) :
    collect keys [] docs = .ok ((classesP (SameKeys (keys.map Prod.snd)) (docs.filter (HasKeys (keys.map Prod.snd)))).map (toGroup keys)) := by
  have := collect_eq keys docs hg docs [] (fun _ h => h) (fun _ h => absurd h List.not_mem_nil)
  rw [List.map_nil] at this
  rw [this, placeAll_eq _ (SameKeys.sym _) (SameKeys.trans _) _ _ List.Pairwise.nil]
  simp

theorem calcOne_members (fpu : Fpu) (name : Bytes) (a : Agg) : ∀ gs out, calcOne fpu name a gs = .ok out → out.map Group.members = gs.map Group.members := by
  intro gs
  induction gs with
  | nil => intro out h; cases h; rfl
  | cons g gs ih =>
    intro out h
    unfold calcOne at h
    cases h1 : a.run fpu g.members with
    | ok c =>
      rw [h1] at h
      cases h2 : calcOne fpu name a gs with
      | ok o =>
        rw [h2] at h
        cases h
        simp [ih o h2]
      | throws => rw [h2] at h; cases h
      | ub => rw [h2] at h; cases h
      | diverges => rw [h2] at h; cases h
    | throws => rw [h1] at h; cases h
    | ub => rw [h1] at h; cases h
    | diverges => rw [h1] at h; cases h

theorem calcAll_members (fpu : Fpu) : ∀ aggs gs out, calcAll fpu aggs gs = .ok out → out.map Group.members = gs.map Group.members := by
  intro aggs
  induction aggs with
  | nil => intro gs out h; cases h; rfl
  | cons p as ih =>
    intro gs out h
    unfold calcAll at h
    cases h2 : calcOne fpu p.1 p.2 gs with
    | ok o =>
      rw [h2] at h
      rw [ih o out h, calcOne_members fpu p.1 p.2 gs o h2]
    | throws => rw [h2] at h; cases h
    | ub => rw [h2] at h; cases h
    | diverges => rw [h2] at h; cases h

/-- C24 in full: the groups are the classes of documents with the same key values, whatever the values. -/
def C24_claim : Prop := ∀ (fpu : Fpu) (keys : List (Bytes × Bytes)) (docs : List Doc), (keys.map Prod.fst).Nodup →
  ∀ (same : V → V → Bool), (∀ t u m n, same (.int t m) (.int u n) = (m == n)) → (∀ a b, same (.double a) (.double b) = true → decode64 a = decode64 b) →
  ∃ gs, groupOp fpu keys [] docs = .ok gs ∧ ∀ g ∈ gs, ∀ h ∈ gs, ∀ d ∈ g.members, ∀ e ∈ h.members,
    (∀ p ∈ keys, ∀ x y, d.value p.2 = some x → e.value p.2 = some y → same x y = true) → g = h

/-- The groups are the classes of the documents that have all key fields, by equal key values, in order of first
occurrence, each with its documents in the order of the input. -/
theorem C24_partition_partial (fpu : Fpu) (keys : List (Bytes × Bytes)) (docs : List Doc) (hg : Groupable keys docs) :
    (∃ gs, groupOp fpu keys [] docs = .ok gs) ∧ ∀ aggs gs, groupOp fpu keys aggs docs = .ok gs →
      gs.map Group.members = classes (SameKeys (keys.map Prod.snd)) (docs.filter (HasKeys (keys.map Prod.snd))) := by
  constructor
  · refine ⟨(classesP (SameKeys (keys.map Prod.snd)) (docs.filter (HasKeys (keys.map Prod.snd)))).map (toGroup keys), ?_⟩
    unfold groupOp
    rw [collect_classes keys docs hg]
    rfl
  · intro aggs gs h
    unfold groupOp at h
    rw [collect_classes keys docs hg] at h
    rw [calcAll_members fpu aggs _ gs h, List.map_map]
    exact classesP_map _ _ _ (Nat.le_refl _)

/-! ### output documents -/

/-- A property of each group and its row, kept by aggregates with other names. -/
theorem calcOne_rows (fpu : Fpu) (name : Bytes) (a : Agg) : ∀ gs out, calcOne fpu name a gs = .ok out →
    ∀ g' ∈ out, ∃ g ∈ gs, ∃ c, a.run fpu g.members = .ok c ∧ g' = ⟨setAgg name c g.row, g.members⟩ := by
  intro gs
  induction gs with
  | nil => intro out h g' hg'; cases h; cases hg'
  | cons g gs ih =>
    intro out h
    unfold calcOne at h
    cases h1 : a.run fpu g.members with
    | ok c =>
      rw [h1] at h
      cases h2 : calcOne fpu name a gs with
      | ok o =>
        rw [h2] at h
        cases h
        intro g' hg'
        rcases List.mem_cons.mp hg' with rfl | hg'
        · exact ⟨g, List.mem_cons_self, c, h1, rfl⟩
        · obtain ⟨x, hx, c, hc, e⟩ := ih o h2 g' hg'
          exact ⟨x, List.mem_cons_of_mem _ hx, c, hc, e⟩
      | throws => rw [h2] at h; cases h
      | ub => rw [h2] at h; cases h
      | diverges => rw [h2] at h; cases h
    | throws => rw [h1] at h; cases h
    | ub => rw [h1] at h; cases h
    | diverges => rw [h1] at h; cases h

theorem look_setAgg (name : Bytes) (c : Cell) (row : List (Bytes × Cell)) (k : Bytes) :
    look (setAgg name c row) k = if k = name then (match copied c with | .scalar v => .scalar v | _ => look row k) else look row k := by
  unfold setAgg
  cases copied c with
  | scalar v => simp only [look_setField]
  | missing => simp
  | container => simp

theorem calcAll_rows (fpu : Fpu) : ∀ aggs gs out, (aggs.map Prod.fst).Nodup → calcAll fpu aggs gs = .ok out →
    ∀ g' ∈ out, ∃ g ∈ gs, g'.members = g.members ∧ (∀ k, k ∉ aggs.map Prod.fst → look g'.row k = look g.row k) ∧
      ∀ p ∈ aggs, ∃ c, p.2.run fpu g.members = .ok c ∧
        look g'.row p.1 = match copied c with | .scalar v => .scalar v | _ => look g.row p.1 := by
  intro aggs
  induction aggs with
  | nil => intro gs out _ h g' hg'; cases h; exact ⟨g', hg', rfl, fun _ _ => rfl, fun _ h => absurd h List.not_mem_nil⟩
  | cons p as ih =>
    intro gs out hn h g' hg'
    simp only [List.map_cons, List.nodup_cons] at hn
    unfold calcAll at h
    cases h2 : calcOne fpu p.1 p.2 gs with
    | ok o =>
      rw [h2] at h
      obtain ⟨m, hm, e1, e2, e3⟩ := ih o out hn.2 h g' hg'
      obtain ⟨g, hgm, c, hc, rfl⟩ := calcOne_rows fpu p.1 p.2 gs o h2 m hm
      refine ⟨g, hgm, e1, ?_, ?_⟩
      · intro k hk
        simp only [List.map_cons, List.mem_cons, not_or] at hk
        rw [e2 k hk.2, look_setAgg, if_neg hk.1]
      · intro q hq
        rcases List.mem_cons.mp hq with rfl | hq
        · refine ⟨c, hc, ?_⟩
          rw [e2 q.1 hn.1, look_setAgg, if_pos rfl]
        · obtain ⟨c', hc', e⟩ := e3 q hq
          refine ⟨c', hc', ?_⟩
          rw [e, look_setAgg, if_neg]
          intro e'
          exact hn.1 (List.mem_map.mpr ⟨q, hq, e'⟩)
    | throws => rw [h2] at h; cases h
    | ub => rw [h2] at h; cases h
    | diverges => rw [h2] at h; cases h

theorem classesP_mem {α : Type} (same : α → α → Bool) (P : α → Prop) : ∀ (n : Nat) (l : List α), l.length ≤ n → (∀ a ∈ l, P a) →
    ∀ p ∈ classesP same l, P p.1 ∧ ∀ b ∈ p.2, P b ∧ same p.1 b = true := by
  intro n
  induction n with
  | zero =>
    intro l hl
    have : l = [] := List.length_eq_zero_iff.mp (by omega)
    subst this
    intro _ p hp
    simp [classesP] at hp
  | succ n ih =>
    intro l hl h p hp
    cases l with
    | nil => simp [classesP] at hp
    | cons a l =>
      have hlen : (l.filter fun b => !same a b).length ≤ n := by
        have := List.length_filter_le (fun b => !same a b) l
        simp only [List.length_cons] at hl
        omega
      rw [classesP_cons] at hp
      rcases List.mem_cons.mp hp with rfl | hp
      · refine ⟨h a List.mem_cons_self, fun b hb => ?_⟩
        obtain ⟨h1, h2⟩ := List.mem_filter.mp hb
        exact ⟨h b (List.mem_cons_of_mem _ h1), h2⟩
      · exact ih _ hlen (fun b hb => h b (List.mem_cons_of_mem _ (List.mem_filter.mp hb).1)) p hp

/-- The output document of a group: each key field holds the value its members have, each aggregate field the aggregate
over exactly the members. -/
theorem C24_rows_partial (fpu : Fpu) (keys : List (Bytes × Bytes)) (aggs : List (Bytes × Agg)) (docs : List Doc) (hg : Groupable keys docs)
    (hn : (keys.map Prod.fst ++ aggs.map Prod.fst).Nodup) (gs : List Group) (h : groupOp fpu keys aggs docs = .ok gs) (g : Group) (hgm : g ∈ gs) :
    (∀ p ∈ keys, ∀ d ∈ g.members, ∃ v w, d.value p.2 = some v ∧ look g.row p.1 = .scalar w ∧ SameValue v w = true) ∧
    (∀ p ∈ aggs, ∃ c, p.2.run fpu g.members = .ok c ∧ look g.row p.1 = copied c) := by
  unfold groupOp at h
  rw [collect_classes keys docs hg] at h
  have hna : (aggs.map Prod.fst).Nodup := (List.nodup_append.mp hn).2.1
  have hnk : (keys.map Prod.fst).Nodup := (List.nodup_append.mp hn).1
  have hdis := (List.nodup_append.mp hn).2.2
  obtain ⟨g0, hg0, e1, e2, e3⟩ := calcAll_rows fpu aggs _ gs hna h g hgm
  obtain ⟨cp, hcp, rfl⟩ := List.mem_map.mp hg0
  obtain ⟨c1, c2⟩ := classesP_mem (SameKeys (keys.map Prod.snd)) (fun d => d ∈ docs ∧ HasKeys (keys.map Prod.snd) d = true) _ _ (Nat.le_refl _)
    (fun a ha => List.mem_filter.mp ha) cp hcp
  have vals : ∀ p ∈ keys, ∃ v, cp.1.value p.2 = some v := by
    intro p hp
    have := List.all_eq_true.mp c1.2 p.2 (List.mem_map.mpr ⟨p, hp, rfl⟩)
    exact Option.isSome_iff_exists.mp this
  have wsame : ∀ v, Plain v → SameValue v (widen v) = true := by
    intro v hv
    cases v <;> first | exact absurd hv id | simp [SameValue, widen]
  constructor
  · intro p hp d hd
    obtain ⟨v, hv⟩ := vals p hp
    have hlook : look g.row p.1 = .scalar (widen v) := by
      rw [e2 p.1]
      · exact look_rowOf keys cp.1 hnk vals p hp v hv
      · intro hm
        exact hdis p.1 (List.mem_map.mpr ⟨p, hp, rfl⟩) p.1 hm rfl
    have hpl := hg.plain p hp cp.1 c1.1 v hv
    rw [e1] at hd
    rcases List.mem_cons.mp hd with rfl | hd
    · exact ⟨v, _, hv, hlook, wsame v hpl⟩
    · have hs := (c2 d hd).2
      rw [SameKeys.iff] at hs
      obtain ⟨x, y, hx, hy, hxy⟩ := hs p.2 (List.mem_map.mpr ⟨p, hp, rfl⟩)
      rw [hv] at hx; cases hx
      exact ⟨y, _, hy, hlook, SameValue.trans _ _ _ (SameValue.sym _ _ hxy) (wsame v hpl)⟩
  · intro p hp
    obtain ⟨c, hc, e⟩ := e3 p hp
    refine ⟨c, by rw [e1]; exact hc, ?_⟩
    have hmiss : look (toGroup keys cp).row p.1 = .missing := by
      have hnot : p.1 ∉ (rowOf keys cp.1).map Prod.fst := by
        rw [rowOf_names keys cp.1 vals]
        intro hm
        exact hdis p.1 hm p.1 (List.mem_map.mpr ⟨p, hp, rfl⟩) rfl
      show look (rowOf keys cp.1) p.1 = .missing
      generalize rowOf keys cp.1 = fs at hnot
      induction fs with
      | nil => rfl
      | cons q fs ih =>
        obtain ⟨n, c⟩ := q
        simp only [List.map_cons, List.mem_cons, not_or] at hnot
        unfold look
        rw [if_neg (Ne.symm hnot.1)]
        exact ih hnot.2
    rw [e, hmiss]
    cases c with
    | missing => rfl
    | container => rfl
    | scalar v => cases v <;> rfl

def exG1 : Doc := ⟨1, [(exN, .scalar (.int .i64 5))]⟩
def exG2 : Doc := ⟨2, [(exN, .scalar (.int .i8 3))]⟩
def exG3 : Doc := ⟨3, [(exN, .scalar (.int .i32 5))]⟩

/-- The hypotheses are met: three documents, two groups, the types differ. -/
example (fpu : Fpu) : Groupable [(exN, exN)] [exG1, exG2, ⟨4, []⟩, exG3] ∧
    groupOp fpu [(exN, exN)] [([99], .count)] [exG1, exG2, ⟨4, []⟩, exG3] =
      .ok [⟨[(exN, .scalar (.int .i64 5)), ([99], .scalar (.int .u64 2))], [exG1, exG3]⟩, ⟨[(exN, .scalar (.int .i64 3)), ([99], .scalar (.int .u64 1))], [exG2]⟩] := by
  constructor
  · refine ⟨by decide, ?_, ?_⟩
    · intro p hp d hd v hv
      simp only [List.mem_cons, List.not_mem_nil, or_false] at hp hd
      subst hp
      rcases hd with rfl | rfl | rfl | rfl <;> cases hv <;> exact ⟨by decide, by decide⟩
    · intro p hp d hd e he t u m n h1 h2
      simp only [List.mem_cons, List.not_mem_nil, or_false] at hp hd he
      subst hp
      rcases hd with rfl | rfl | rfl | rfl <;> cases h1 <;> rcases he with rfl | rfl | rfl | rfl <;> cases h2 <;> rfl
  · rfl

/-- The number five as a signed and as an unsigned number: two groups. -/
theorem C24_sign_fails : ¬ C24_claim := by
  intro hc
  let fpu : Fpu := ⟨fun _ _ => 0, fun _ _ => 0, fun _ _ => 0⟩
  obtain ⟨gs, h, hg⟩ := hc fpu [(exN, exN)] [exG1, ⟨2, [(exN, .scalar (.int .u64 5))]⟩] (by decide)
    (fun a b => match a, b with | .int _ m, .int _ n => m == n | _, _ => false) (fun _ _ _ _ => rfl) (fun _ _ h => by cases h)
  have e : groupOp fpu [(exN, exN)] [] [exG1, ⟨2, [(exN, .scalar (.int .u64 5))]⟩] =
      .ok [⟨[(exN, .scalar (.int .i64 5))], [exG1]⟩, ⟨[(exN, .scalar (.int .u64 5))], [⟨2, [(exN, .scalar (.int .u64 5))]⟩]⟩] := rfl
  rw [e] at h
  cases h
  have := hg ⟨[(exN, .scalar (.int .i64 5))], [exG1]⟩ (by simp) ⟨[(exN, .scalar (.int .u64 5))], [⟨2, [(exN, .scalar (.int .u64 5))]⟩]⟩ (by simp)
    exG1 (by simp) ⟨2, [(exN, .scalar (.int .u64 5))]⟩ (by simp) (by
      intro p hp x y hx hy
      simp only [List.mem_cons, List.not_mem_nil, or_false] at hp
      subst hp
      cases hx; cases hy; rfl)
  revert this
  decide

/-- Two different doubles in one group: they are nearer than the machine epsilon. -/
theorem C24_double_fails (fpu : Fpu) : decode64 0 ≠ decode64 1 ∧
    groupOp fpu [(exN, exN)] [] [⟨1, [(exN, .scalar (.double 0))]⟩, ⟨2, [(exN, .scalar (.double 1))]⟩] =
      .ok [⟨[(exN, .scalar (.double 0))], [⟨1, [(exN, .scalar (.double 0))]⟩, ⟨2, [(exN, .scalar (.double 1))]⟩]⟩] := by
  constructor
  · decide +kernel
  · have h1 : collect [(exN, exN)] [] [⟨1, [(exN, .scalar (.double 0))]⟩, ⟨2, [(exN, .scalar (.double 1))]⟩] =
        .ok [⟨[(exN, .scalar (.double 0))], [⟨1, [(exN, .scalar (.double 0))]⟩, ⟨2, [(exN, .scalar (.double 1))]⟩]⟩] := by decide +kernel
    unfold groupOp
    rw [h1]; rfl

end Verif.Query
