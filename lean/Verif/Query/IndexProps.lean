import Verif.Query.IndexSpec
import Verif.Query.WriteProps
import Verif.LogVal.Props
/-!
C20: an index scan and a full scan agree.  C21: the index follows the collection.
-/
namespace Verif.Query

open Verif.DocVal Verif.LogVal Verif.PhysKey Verif.Num

/-! ### keys of a kind -/

theorem common_mem (t u : ITy) : common t u = t ∨ common t u = u ∨ (∀ v, t.fits v → u.fits v → (common t u).fits v) := by
  cases t <;> cases u <;> simp [common, ITy.signed, ITy.bits, ITy.fits] <;> intros <;> omega

theorem common_fits (t u : ITy) (v : Int) (h1 : t.fits v) (h2 : u.fits v) : (common t u).fits v := by
  rcases common_mem t u with h | h | h
  · rw [h]; exact h1
  · rw [h]; exact h2
  · exact h v h1 h2

theorem lt_ints (t u : ITy) (v w : Int) (hv : (common t u).fits v) (hw : (common t u).fits w) :
    LV.lt (.int t v) (.int u w) = decide (v < w) := by
  have numT : ∀ t : ITy, isNumeric (tcode t) = true := by intro t; cases t <;> decide
  unfold LV.lt
  by_cases htu : tcode t = tcode u
  · simp only [LV.code, htu, if_true, ltSame]
  · simp only [LV.code]
    simp only [htu, if_false, numT, promote_common, cast_int t _ v hv, cast_int u _ w hw, Bool.and_self, if_true, ltSame]

/-- On the values of a kind the order of the index is the order of the values. -/
theorem logical_lt (k : Kind) (hk : k ≠ .bigs) (a b : V) (ha : k.has a) (hb : k.has b) : LV.lt (logical a) (logical b) = k.lt a b := by
  cases k with
  | bigs => exact absurd rfl hk
  | ints ts =>
    cases a <;> simp only [Kind.has] at ha
    cases b <;> simp only [Kind.has] at hb
    rename_i t v u w
    simp only [logical, Kind.lt]
    exact lt_ints t u v w (common_fits t u v (ha.2 t ha.1) (ha.2 u hb.1)) (common_fits t u w (hb.2 t ha.1) (hb.2 u hb.1))
  | floats =>
    cases a <;> simp only [Kind.has] at ha
    cases b <;> simp only [Kind.has] at hb
    rfl
  | doubles =>
    cases a <;> simp only [Kind.has] at ha
    cases b <;> simp only [Kind.has] at hb
    rfl
  | strs =>
    cases a <;> simp only [Kind.has] at ha
    cases b <;> simp only [Kind.has] at hb
    rfl
  | bools =>
    cases a <;> simp only [Kind.has] at ha
    cases b <;> simp only [Kind.has] at hb
    rfl

/-- A key of the kind. -/
def KeyIn (k : Kind) (l : LV) : Prop := ∃ v, k.has v ∧ l = logical v

theorem key_irrefl {k : Kind} (hk : k ≠ .bigs) {a : LV} (ha : KeyIn k a) : LV.lt a a = false := by
  obtain ⟨v, hv, rfl⟩ := ha
  rw [logical_lt k hk v v hv hv, kind_irrefl k v hv]

theorem key_trans {k : Kind} (hk : k ≠ .bigs) {a b c : LV} (ha : KeyIn k a) (hb : KeyIn k b) (hc : KeyIn k c)
    (h1 : LV.lt a b = true) (h2 : LV.lt b c = true) : LV.lt a c = true := by
  obtain ⟨u, hu, rfl⟩ := ha
  obtain ⟨v, hv, rfl⟩ := hb
  obtain ⟨w, hw, rfl⟩ := hc
  rw [logical_lt k hk _ _ ‹_› ‹_›] at h1 h2 ⊢
  exact kind_trans k u v w hu hv hw h1 h2

theorem key_cotrans {k : Kind} (hk : k ≠ .bigs) {a b c : LV} (ha : KeyIn k a) (hb : KeyIn k b) (hc : KeyIn k c)
    (h1 : LV.lt a b = true) : LV.lt a c = true ∨ LV.lt c b = true := by
  obtain ⟨u, hu, rfl⟩ := ha
  obtain ⟨v, hv, rfl⟩ := hb
  obtain ⟨w, hw, rfl⟩ := hc
  rw [logical_lt k hk _ _ hu hv] at h1
  rw [logical_lt k hk _ _ hu hw, logical_lt k hk _ _ hw hv]
  exact kind_cotrans k u v w hu hv hw h1

theorem key_asymm {k : Kind} (hk : k ≠ .bigs) {a b : LV} (ha : KeyIn k a) (hb : KeyIn k b) (h1 : LV.lt a b = true) : LV.lt b a = false := by
  cases h : LV.lt b a with
  | false => rfl
  | true =>
    have := key_trans hk ha hb ha h1 h
    rw [key_irrefl hk ha] at this; cases this

/-- All keys of the entries are of the kind. -/
def KeysIn (k : Kind) (es : List Entry) : Prop := ∀ e ∈ es, KeyIn k e.key

/-- Neither key is below the other. -/
def eqv (a b : LV) : Bool := !LV.lt a b && !LV.lt b a

/-! ### the multimap -/

theorem mmInsert_perm (k : LV) (d : Doc) (es : List Entry) : (mmInsert k d es).Perm (⟨k, d⟩ :: es) := by
  induction es with
  | nil => exact List.Perm.refl _
  | cons e es ih =>
    simp only [mmInsert]
    split
    · exact List.Perm.refl _
    · exact (List.Perm.cons e ih).trans (List.Perm.swap _ _ _)

theorem mmInsert_order {kd : Kind} (hk : kd ≠ .bigs) (k : LV) (hkk : KeyIn kd k) (d : Doc) (es : List Entry) (hi : KeysIn kd es) (ho : KeyOrder es) :
    KeyOrder (mmInsert k d es) := by
  induction es with
  | nil => exact List.pairwise_singleton _ _
  | cons e es ih =>
    have ho' := List.pairwise_cons.mp ho
    simp only [mmInsert]
    by_cases h : LV.lt k e.key = true
    · rw [if_pos h]
      refine List.pairwise_cons.mpr ⟨?_, ho⟩
      intro x hx
      rcases List.mem_cons.mp hx with rfl | hx
      · exact key_asymm hk hkk (hi x (by simp)) h
      · cases hlt : LV.lt x.key k with
        | false => rfl
        | true =>
          have := key_trans hk (hi x (by simp [hx])) hkk (hi e (by simp)) hlt h
          rw [ho'.1 x hx] at this; cases this
    · rw [if_neg h]
      refine List.pairwise_cons.mpr ⟨?_, ih (fun x hx => hi x (by simp [hx])) ho'.2⟩
      intro x hx
      rcases List.mem_cons.mp ((mmInsert_perm k d es).mem_iff.mp hx) with rfl | hx
      · simpa using h
      · exact ho'.1 x hx

theorem mmErase_spec {kd : Kind} (hk : kd ≠ .bigs) (k : LV) (hkk : KeyIn kd k) (es : List Entry) (hi : KeysIn kd es) (ho : KeyOrder es)
    (hex : ∃ e ∈ es, eqv k e.key = true) :
    ∃ e es', mmErase k es = .ok es' ∧ es.Perm (e :: es') ∧ eqv k e.key = true ∧ KeyOrder es' := by
  induction es with
  | nil => obtain ⟨e, he, _⟩ := hex; cases he
  | cons e es ih =>
    have ho' := List.pairwise_cons.mp ho
    simp only [mmErase]
    by_cases h1 : LV.lt e.key k = true
    · rw [if_pos h1]
      obtain ⟨x, hx, hxe⟩ := hex
      have hx' : x ∈ es := by
        rcases List.mem_cons.mp hx with rfl | hx
        · simp [eqv, h1] at hxe
        · exact hx
      obtain ⟨y, es', h2, h3, h4, h5⟩ := ih (fun x hx => hi x (by simp [hx])) ho'.2 ⟨x, hx', hxe⟩
      refine ⟨y, e :: es', by rw [h2]; rfl, (List.Perm.cons e h3).trans (List.Perm.swap _ _ _), h4, ?_⟩
      refine List.pairwise_cons.mpr ⟨?_, h5⟩
      intro z hz
      exact ho'.1 z (h3.mem_iff.mpr (by simp [hz]))
    · rw [if_neg h1]
      by_cases h2 : LV.lt k e.key = true
      · exfalso
        obtain ⟨x, hx, hxe⟩ := hex
        simp only [eqv, Bool.and_eq_true, Bool.not_eq_true'] at hxe
        rcases List.mem_cons.mp hx with rfl | hx
        · rw [hxe.1] at h2; cases h2
        · rcases key_cotrans hk hkk (hi e (by simp)) (hi x (by simp [hx])) h2 with h3 | h3
          · rw [hxe.1] at h3; cases h3
          · rw [ho'.1 x hx] at h3; cases h3
      · rw [if_neg h2]
        exact ⟨e, es, rfl, List.Perm.refl _, by simp [eqv, h1, h2], ho'.2⟩

/-- Elements after the first that fails a predicate fail it, if the predicate goes down along the list. -/
theorem dropWhile_all {α : Type} (p : α → Bool) (l : List α) (h : l.Pairwise fun a b => p b = true → p a = true) :
    ∀ x ∈ l.dropWhile p, p x = false := by
  induction l with
  | nil => intro x hx; cases hx
  | cons a l ih =>
    have h' := List.pairwise_cons.mp h
    intro x hx
    rw [List.dropWhile_cons] at hx
    split at hx
    · exact ih h'.2 x hx
    · rename_i hpa
      rcases List.mem_cons.mp hx with rfl | hx
      · simpa using hpa
      · cases hpx : p x with
        | false => rfl
        | true => exact absurd (h'.1 x hx hpx) hpa

theorem dropWhile_append_all {α : Type} (q : α → Bool) (l m : List α) (h : ∀ x ∈ l, q x = true) : (l ++ m).dropWhile q = m.dropWhile q := by
  induction l with
  | nil => rfl
  | cons a l ih =>
    rw [List.cons_append, List.dropWhile_cons, if_pos (h a (by simp))]
    exact ih (fun x hx => h x (by simp [hx]))

theorem takeWhile_all {α : Type} (p : α → Bool) (l : List α) : ∀ x ∈ l.takeWhile p, p x = true := by
  induction l with
  | nil => intro x hx; cases hx
  | cons a l ih =>
    intro x hx
    rw [List.takeWhile_cons] at hx
    split at hx
    · rcases List.mem_cons.mp hx with rfl | hx
      · assumption
      · exact ih x hx
    · cases hx

/-- The ranges below, equal and above cut the index in three. -/
theorem parts {kd : Kind} (hk : kd ≠ .bigs) (k : LV) (hkk : KeyIn kd k) (es : List Entry) (hi : KeysIn kd es) (ho : KeyOrder es) :
    es = below k es ++ (equalTo k es ++ above k es) ∧ (∀ e ∈ below k es, by3 LV.lt e.key k = .lt) ∧
    (∀ e ∈ equalTo k es, by3 LV.lt e.key k = .eq) ∧ ∀ e ∈ above k es, by3 LV.lt e.key k = .gt := by
  have hb : ∀ e ∈ below k es, LV.lt e.key k = true := fun e he => takeWhile_all _ _ e he
  have hsub : ∀ e ∈ below k es, e ∈ es := fun e he => (List.takeWhile_sublist _).subset he
  have hab : above k es = (es.dropWhile fun e => LV.lt e.key k).dropWhile fun e => !LV.lt k e.key := by
    have e1 : es = below k es ++ es.dropWhile fun e => LV.lt e.key k := (List.takeWhile_append_dropWhile).symm
    have : above k es = (below k es ++ es.dropWhile fun e => LV.lt e.key k).dropWhile fun e => !LV.lt k e.key := by
      rw [← e1]; rfl
    rw [this]
    apply dropWhile_append_all
    intro x hx
    rw [key_asymm hk (hi x (hsub x hx)) hkk (hb x hx)]; rfl
  have hnb : ∀ e ∈ es.dropWhile (fun e => LV.lt e.key k), LV.lt e.key k = false := by
    apply dropWhile_all
    apply List.Pairwise.imp_of_mem _ ho
    intro a b ha hb' hba hbk
    rcases key_cotrans hk (hi b hb') hkk (hi a ha) hbk with h | h
    · rw [hba] at h; cases h
    · exact h
  have hdsub : ∀ e ∈ es.dropWhile (fun e => LV.lt e.key k), e ∈ es := fun e he => (List.dropWhile_sublist _).subset he
  refine ⟨?_, ?_, ?_, ?_⟩
  · rw [hab]
    unfold equalTo below
    rw [List.takeWhile_append_dropWhile, List.takeWhile_append_dropWhile]
  · intro e he
    unfold by3; rw [if_pos (hb e he)]
  · intro e he
    have h1 := takeWhile_all _ _ e he
    have h2 := hnb e ((List.takeWhile_sublist _).subset he)
    have h3 : LV.lt k e.key = false := by simpa using h1
    unfold by3; rw [h2, h3]; rfl
  · intro e he
    rw [hab] at he
    have h2 := hnb e ((List.dropWhile_sublist _).subset he)
    have h3 := dropWhile_all (fun e : Entry => !LV.lt k e.key) (es.dropWhile fun e => LV.lt e.key k) ?_ e he
    · have h4 : LV.lt k e.key = true := by simpa using h3
      unfold by3; rw [h2, h4]; rfl
    · apply List.Pairwise.imp_of_mem _ (ho.sublist (List.dropWhile_sublist _))
      intro a b ha hb' hba hbk
      simp only [Bool.not_eq_true'] at hbk ⊢
      cases hka : LV.lt k a.key with
      | false => rfl
      | true =>
        rcases key_cotrans hk hkk (hi a (hdsub a ha)) (hi b (hdsub b hb')) hka with h | h
        · rw [hbk] at h; cases h
        · rw [hba] at h; cases h

theorem filter_const {α : Type} (p : α → Bool) (l : List α) (b : Bool) (h : ∀ x ∈ l, p x = b) : l.filter p = if b then l else [] := by
  cases b
  · rw [if_neg (by simp), List.filter_eq_nil_iff]; intro x hx; rw [h x hx]; simp
  · rw [if_pos rfl, List.filter_eq_self]; exact h

/-- The ranges of a comparison are the entries whose key compares so, in the order of the index. -/
theorem ranges_eq {kd : Kind} (hk : kd ≠ .bigs) (c : Cmp) (k : LV) (hkk : KeyIn kd k) (es : List Entry) (hi : KeysIn kd es) (ho : KeyOrder es) :
    ranges c k es = es.filter fun e => c.ok (by3 LV.lt e.key k) := by
  obtain ⟨h1, h2, h3, h4⟩ := parts hk k hkk es hi ho
  have f1 := filter_const (fun e : Entry => c.ok (by3 LV.lt e.key k)) (below k es) (c.ok .lt) (fun e he => by simp only [h2 e he])
  have f2 := filter_const (fun e : Entry => c.ok (by3 LV.lt e.key k)) (equalTo k es) (c.ok .eq) (fun e he => by simp only [h3 e he])
  have f3 := filter_const (fun e : Entry => c.ok (by3 LV.lt e.key k)) (above k es) (c.ok .gt) (fun e he => by simp only [h4 e he])
  have : es.filter (fun e => c.ok (by3 LV.lt e.key k)) =
      (below k es ++ (equalTo k es ++ above k es)).filter fun e => c.ok (by3 LV.lt e.key k) := by rw [← h1]
  rw [this, List.filter_append, List.filter_append, f1, f2, f3]
  cases c <;> simp [ranges, Cmp.ok]

/-! ### the scan -/

theorem searchLoop_eq (lim : Int) : ∀ (es : List Entry) (n : Nat), n + es.length < 2 ^ 31 →
    searchLoop lim es n = .ok (restN lim n (es.map Entry.doc)) := by
  intro es
  induction es with
  | nil => intro n _; simp [searchLoop, restN]
  | cons e es ih =>
    intro n hn
    rw [List.length_cons] at hn
    simp only [searchLoop]
    by_cases h : limOk lim n = true
    · rw [if_pos h, inc_ok (m := es.length) (by omega)]
      simp only [Res.bind]
      rw [ih (n + 1) (by omega), List.map_cons, restN_cons lim n _ _ h]
      by_cases h2 : limOk lim (n + 1) = true
      · rw [if_pos h2]
      · rw [if_neg h2]
        have : restN lim (n + 1) (es.map Entry.doc) = [] := by
          rw [limOk_iff] at h2 h
          unfold restN
          rw [if_neg (by omega), show lim.toNat - (n + 1) = 0 by omega]
          rfl
        rw [this]
    · rw [if_neg h]
      have : restN lim n ((e :: es).map Entry.doc) = [] := by
        rw [limOk_iff] at h
        unfold restN
        rw [if_neg (by omega), show lim.toNat - n = 0 by omega]
        rfl
      rw [this]

/-- A scan through the index with a limit answers with the first documents of the scan without one. -/
theorem C19_index (lim : Int) (env : Env) (c : Cmp) (n : Nat) (v : V) (es : List Entry) (hv : env.params n = some v)
    (hn : (ranges c (logical v) es).length < 2 ^ 31) :
    ∃ all, Answers (indexScan (-1) env c (.param n) es) all ∧ Answers (indexScan lim env c (.param n) es) (firstN lim all) := by
  have key : ∀ lim : Int, Answers (indexScan lim env c (.param n) es) (firstN lim ((ranges c (logical v) es).map Entry.doc)) := by
    intro lim
    unfold indexScan
    by_cases h : limOk lim 0 = true
    · rw [if_pos h]
      simp only [scanKey, hv, Res.bind]
      rw [searchLoop_eq lim _ 0 (by omega), restN_zero]
      exact Or.inl rfl
    · rw [if_neg h]; exact Or.inr ⟨firstN_none lim _ h, rfl⟩
  refine ⟨_, key (-1), ?_⟩
  rw [firstN_all]
  exact key lim

theorem keysIn_of_tracks {k : Kind} {f : Bytes} {ds : List Doc} (h : ∀ d ∈ ds, FieldIn k f d) : KeysIn k (entriesOf f ds) := by
  intro e he
  obtain ⟨d, hd, hed⟩ := List.mem_filterMap.mp he
  unfold entryOf at hed
  rcases h d hd with hm | ⟨v, hv, hkv⟩
  · rw [hm] at hed; cases hed
  · rw [hv] at hed
    injection hed with hed
    subst hed
    exact ⟨v, hkv, rfl⟩

/-- What the filter says of a document with a field of the kind. -/
theorem leaf_kind (k : Kind) (env : Env) (c : Cmp) (f : Bytes) (n : Nat) (v : V) (d : Doc) (hp : env.params n = some v) (hv : k.has v)
    (hd : FieldIn k f d) : pred env (.leaf (.cmp c f (.param n))) d = .ok (match d.get f with
      | .scalar w => c.ok (by3 k.lt w v)
      | _ => c.ok .gt) := by
  simp only [pred, check, checkLeaf, hp]
  rcases hd with h | ⟨w, h, hw⟩
  · rw [h]; rfl
  · rw [h]
    simp only [compareTo, kind_compare k w v hw hv, Res.bind]

theorem docs_filter (k : Kind) (hk : k ≠ .bigs) (f : Bytes) (c : Cmp) (v : V) (hv : k.has v) (env : Env) (n : Nat) (hp : env.params n = some v) :
    ∀ ds : List Doc, (∀ d ∈ ds, FieldIn k f d) → (c.ok .gt = false ∨ ∀ d ∈ ds, d.get f ≠ .missing) →
    ((entriesOf f ds).filter fun e => c.ok (by3 LV.lt e.key (logical v))).map Entry.doc = accepted (pred env (.leaf (.cmp c f (.param n)))) ds := by
  intro ds
  induction ds with
  | nil => intro _ _; rfl
  | cons d ds ih =>
    intro hd hm
    have ih' := ih (fun x hx => hd x (by simp [hx])) (hm.imp id fun h x hx => h x (by simp [hx]))
    have hl := leaf_kind k env c f n v d hp hv (hd d (by simp))
    rcases hd d (by simp) with h | ⟨w, h, hw⟩
    · have hc : c.ok .gt = false := by
        rcases hm with hm | hm
        · exact hm
        · exact absurd h (hm d (by simp))
      have e1 : entriesOf f (d :: ds) = entriesOf f ds := by simp [entriesOf, entryOf, h]
      rw [h] at hl
      simp only [hc] at hl
      have e2 : accepted (pred env (.leaf (.cmp c f (.param n)))) (d :: ds) = accepted (pred env (.leaf (.cmp c f (.param n)))) ds := by
        unfold accepted
        rw [List.filter_cons_of_neg (by rw [hl]; simp)]
      rw [e1, e2, ih']
    · have e1 : entriesOf f (d :: ds) = ⟨logical w, d⟩ :: entriesOf f ds := by simp [entriesOf, entryOf, h]
      rw [h] at hl
      simp only at hl
      have hb : by3 LV.lt (logical w) (logical v) = by3 k.lt w v := by
        unfold by3; rw [logical_lt k hk w v hw hv, logical_lt k hk v w hv hw]
      rw [e1, List.filter_cons]
      unfold accepted at ih' ⊢
      rw [List.filter_cons, hl]
      simp only [hb]
      cases hc : c.ok (by3 k.lt w v)
      · simpa using ih'
      · simpa using ih'

/-- Over fields of one kind, a scan through an index in step with the collection finds the documents a full scan finds,
for `=`, `<` and `<=` and, if every document has the field, for the other comparisons too.  Missing: the others when a
document lacks the field (`C20_missing_fails`), fields of different kinds and null (`C20_null_fails`), a field on the
right side (`C20_key_fails`). -/
theorem C20_scan_partial (k : Kind) (hk : k ≠ .bigs) (f : Bytes) (cl : IColl) (env : Env) (c : Cmp) (n : Nat) (v : V) (ht : Tracks f cl)
    (ho : KeyOrder cl.index) (hd : ∀ d ∈ cl.store, FieldIn k f d) (hp : env.params n = some v) (hv : k.has v) (hn : cl.store.length < 2 ^ 31)
    (hm : (c = .eq ∨ c = .lt ∨ c = .lte) ∨ ∀ d ∈ cl.store, d.get f ≠ .missing) :
    ∃ out, indexScan (-1) env c (.param n) cl.index = .ok (some out) ∧
      out.Perm (accepted (pred env (.leaf (.cmp c f (.param n)))) cl.store) ∧
      fullScan (-1) (pred env (.leaf (.cmp c f (.param n)))) cl.store = .ok (some (accepted (pred env (.leaf (.cmp c f (.param n)))) cl.store)) := by
  have hi : KeysIn k cl.index := fun e he => keysIn_of_tracks hd e (ht.mem_iff.mp he)
  have hr := ranges_eq hk c (logical v) ⟨v, hv, rfl⟩ cl.index hi ho
  have hlen : (ranges c (logical v) cl.index).length ≤ cl.store.length := by
    rw [hr]
    refine (List.length_filter_le _ _).trans ?_
    rw [ht.length_eq]
    exact List.length_filterMap_le _ _
  have hm' : c.ok .gt = false ∨ ∀ d ∈ cl.store, d.get f ≠ .missing := by
    rcases hm with (rfl | rfl | rfl) | h
    · exact Or.inl rfl
    · exact Or.inl rfl
    · exact Or.inl rfl
    · exact Or.inr h
  refine ⟨(ranges c (logical v) cl.index).map Entry.doc, ?_, ?_, ?_⟩
  · unfold indexScan
    rw [if_pos (by rfl)]
    simp only [scanKey, hp, Res.bind]
    rw [searchLoop_eq (-1) _ 0 (by omega), restN_zero, firstN_all]
  · rw [hr, ← docs_filter k hk f c v hv env n hp cl.store hd hm']
    exact (ht.filter _).map _
  · exact fullScan_some _ _ (fun d hd' => ⟨_, leaf_kind k env c f n v d hp hv (hd d hd')⟩) hn

/-- The documents come in the order of their keys. -/
theorem C20_order (k : Kind) (hk : k ≠ .bigs) (c : Cmp) (l : LV) (es : List Entry) (hl : KeyIn k l) (hi : KeysIn k es) (ho : KeyOrder es) :
    KeyOrder (ranges c l es) := by
  rw [ranges_eq hk c l hl es hi ho]
  exact ho.sublist List.filter_sublist

/-! ### histories -/

theorem entryOf_key {k : Kind} {f : Bytes} {d : Doc} (h : FieldIn k f d) :
    (keyOf f d = .ok none ∧ entryOf f d = none) ∨ ∃ v, k.has v ∧ d.get f = .scalar v ∧ keyOf f d = .ok (some (logical v)) ∧ entryOf f d = some ⟨logical v, d⟩ := by
  rcases h with h | ⟨v, h, hv⟩
  · left; simp [keyOf, entryOf, h]
  · right; exact ⟨v, hv, h, by simp [keyOf, h], by simp [entryOf, h]⟩

theorem assign_perm {ds : List Doc} (d : Doc) (hs : Sorted ds) (h : byId ds d.id = none) : (assign d ds).Perm (d :: ds) := by
  induction ds with
  | nil => exact List.Perm.refl _
  | cons e es ih =>
    have hs' := List.pairwise_cons.mp hs
    rw [byId_cons] at h
    have hne : ¬ e.id = d.id := by intro e1; rw [if_pos e1] at h; cases h
    rw [if_neg hne] at h
    simp only [assign]
    by_cases h1 : d.id < e.id
    · rw [if_pos h1]
    · rw [if_neg h1, if_neg (fun x => hne x.symm)]
      exact (List.Perm.cons e (ih hs'.2 h)).trans (List.Perm.swap _ _ _)

theorem remove_perm {ds : List Doc} {i : Nat} {d : Doc} (h : byId ds i = some d) : ds.Perm (d :: remove i ds) := by
  induction ds with
  | nil => cases h
  | cons e es ih =>
    rw [byId_cons] at h
    simp only [remove]
    by_cases h1 : e.id = i
    · rw [if_pos h1] at h ⊢
      injection h with h; subst h
      exact List.Perm.refl _
    · rw [if_neg h1] at h ⊢
      exact (List.Perm.cons e (ih h)).trans (List.Perm.swap _ _ _)

theorem assign_over {ds : List Doc} {d : Doc} (d' : Doc) (hs : Sorted ds) (h : byId ds d.id = some d) (hid : d'.id = d.id) :
    (assign d' ds).Perm (d' :: remove d.id ds) := by
  induction ds with
  | nil => cases h
  | cons e es ih =>
    have hs' := List.pairwise_cons.mp hs
    rw [byId_cons] at h
    simp only [assign, remove]
    by_cases h1 : e.id = d.id
    · rw [if_pos h1]
      rw [if_neg (by omega), if_pos (by omega)]
    · rw [if_neg h1] at h ⊢
      have hm := (byId_mem h).1
      have := hs'.1 d hm
      rw [if_neg (by omega), if_neg (by omega)]
      exact (List.Perm.cons e (ih hs'.2 h)).trans (List.Perm.swap _ _ _)

theorem sorted_remove {ds : List Doc} (i : Nat) (hs : Sorted ds) : Sorted (remove i ds) := by
  rw [remove_eq i ds hs]; exact sorted_filter _ hs

/-- What every history keeps. -/
structure Base (k : Kind) (f : Bytes) (c : IColl) : Prop where
  sorted : Sorted c.store
  fields : ∀ d ∈ c.store, FieldIn k f d
  keys : KeysIn k c.index
  order : KeyOrder c.index
  count : ∀ l, KeyIn k l → c.index.countP (fun e => eqv l e.key) = (entriesOf f c.store).countP (fun e => eqv l e.key)

theorem eqv_self {k : Kind} (hk : k ≠ .bigs) {l : LV} (h : KeyIn k l) : eqv l l = true := by simp [eqv, key_irrefl hk h]

theorem eqv_congr {k : Kind} (hk : k ≠ .bigs) {a b l : LV} (ha : KeyIn k a) (hb : KeyIn k b) (hl : KeyIn k l) (h : eqv a b = true) :
    eqv l a = eqv l b := by
  simp only [eqv, Bool.and_eq_true, Bool.not_eq_true'] at h
  have h1 : LV.lt l a = LV.lt l b := by
    rw [Bool.eq_iff_iff]
    constructor
    · intro x; rcases key_cotrans hk hl ha hb x with y | y
      · exact y
      · rw [h.2] at y; cases y
    · intro x; rcases key_cotrans hk hl hb ha x with y | y
      · exact y
      · rw [h.1] at y; cases y
  have h2 : LV.lt a l = LV.lt b l := by
    rw [Bool.eq_iff_iff]
    constructor
    · intro x; rcases key_cotrans hk ha hl hb x with y | y
      · rw [h.1] at y; cases y
      · exact y
    · intro x; rcases key_cotrans hk hb hl ha x with y | y
      · rw [h.2] at y; cases y
      · exact y
  simp only [eqv, h1, h2]

theorem entriesOf_cons_none {f : Bytes} {d : Doc} {ds : List Doc} (h : entryOf f d = none) : entriesOf f (d :: ds) = entriesOf f ds := by
  simp [entriesOf, h]

theorem entriesOf_cons_some {f : Bytes} {d : Doc} {ds : List Doc} {e : Entry} (h : entryOf f d = some e) :
    entriesOf f (d :: ds) = e :: entriesOf f ds := by simp [entriesOf, h]

theorem entriesOf_perm {f : Bytes} {a b : List Doc} (h : a.Perm b) : (entriesOf f a).Perm (entriesOf f b) := h.filterMap _

theorem rewrite_keys (d : Doc) (es : List Entry) : (rewrite d es).map Entry.key = es.map Entry.key := by
  unfold rewrite
  rw [List.map_map]
  apply List.map_congr_left
  intro e _
  simp only [Function.comp_apply]
  split <;> rfl

theorem keysIn_iff (k : Kind) (es : List Entry) : KeysIn k es ↔ ∀ l ∈ es.map Entry.key, KeyIn k l := by
  simp [KeysIn]

theorem keyOrder_iff (es : List Entry) : KeyOrder es ↔ (es.map Entry.key).Pairwise fun a b => LV.lt b a = false := by
  unfold KeyOrder; rw [List.pairwise_map]

theorem countP_key (p : LV → Bool) (es : List Entry) : es.countP (fun e => p e.key) = (es.map Entry.key).countP p := by
  rw [List.countP_map]; rfl

/-- Removing a stored document from the index: one entry with an equal key goes. -/
theorem idxDelete_spec {k : Kind} (hk : k ≠ .bigs) {f : Bytes} {c : IColl} (hb : Base k f c) {d : Doc} (hd : byId c.store d.id = some d) :
    ∃ es, idxDelete f d c.index = .ok es ∧ KeysIn k es ∧ KeyOrder es ∧
      (∀ l, KeyIn k l → es.countP (fun e => eqv l e.key) = (entriesOf f (remove d.id c.store)).countP fun e => eqv l e.key) ∧
      ((entryOf f d = none ∧ es = c.index) ∨ ∃ v e, d.get f = .scalar v ∧ k.has v ∧ c.index.Perm (e :: es) ∧ eqv (logical v) e.key = true) := by
  have hfd := hb.fields d (byId_mem hd).1
  have hperm := entriesOf_perm (f := f) (remove_perm hd)
  rcases entryOf_key hfd with ⟨h1, h2⟩ | ⟨v, hv, hg, h1, h2⟩
  · refine ⟨c.index, by simp [idxDelete, h1, Res.bind], hb.keys, hb.order, ?_, Or.inl ⟨h2, rfl⟩⟩
    intro l hl
    rw [hb.count l hl, hperm.countP_eq, entriesOf_cons_none h2]
  · have hkv : KeyIn k (logical v) := ⟨v, hv, rfl⟩
    have hex : ∃ e ∈ c.index, eqv (logical v) e.key = true := by
      have : 0 < c.index.countP fun e => eqv (logical v) e.key := by
        rw [hb.count _ hkv, hperm.countP_eq, entriesOf_cons_some h2]
        rw [List.countP_cons_of_pos (by exact eqv_self hk hkv)]
        omega
      exact List.countP_pos_iff.mp this
    obtain ⟨e, es, h3, h4, h5, h6⟩ := mmErase_spec hk (logical v) hkv c.index hb.keys hb.order hex
    have hek : KeyIn k e.key := hb.keys e (h4.mem_iff.mpr (by simp))
    refine ⟨es, by simp [idxDelete, h1, Res.bind, h3], fun x hx => hb.keys x (h4.mem_iff.mpr (by simp [hx])), h6, ?_,
      Or.inr ⟨v, e, hg, hv, h4, h5⟩⟩
    intro l hl
    have hc := hb.count l hl
    rw [h4.countP_eq, hperm.countP_eq, entriesOf_cons_some h2, List.countP_cons, List.countP_cons,
      eqv_congr hk hkv hek hl h5] at hc
    omega

theorem idxInsert_spec {k : Kind} (hk : k ≠ .bigs) {f : Bytes} {d : Doc} (hd : FieldIn k f d) {es : List Entry} {ds : List Doc} (hi : KeysIn k es)
    (ho : KeyOrder es) (hc : ∀ l, KeyIn k l → es.countP (fun e => eqv l e.key) = (entriesOf f ds).countP fun e => eqv l e.key) :
    ∃ es', idxInsert f d es = .ok es' ∧ KeysIn k es' ∧ KeyOrder es' ∧
      (∀ l, KeyIn k l → es'.countP (fun e => eqv l e.key) = (entriesOf f (d :: ds)).countP fun e => eqv l e.key) ∧
      (es.Perm (entriesOf f ds) → es'.Perm (entriesOf f (d :: ds))) := by
  rcases entryOf_key hd with ⟨h1, h2⟩ | ⟨v, hv, hg, h1, h2⟩
  · refine ⟨es, by simp [idxInsert, h1, Res.bind], hi, ho, ?_, ?_⟩
    · rw [entriesOf_cons_none h2]; exact hc
    · rw [entriesOf_cons_none h2]; exact id
  · have hkv : KeyIn k (logical v) := ⟨v, hv, rfl⟩
    have hp := mmInsert_perm (logical v) d es
    refine ⟨mmInsert (logical v) d es, by simp [idxInsert, h1, Res.bind], ?_, mmInsert_order hk _ hkv d es hi ho, ?_, ?_⟩
    · intro x hx
      rcases List.mem_cons.mp (hp.mem_iff.mp hx) with rfl | hx
      · exact hkv
      · exact hi x hx
    · intro l hl
      rw [hp.countP_eq, entriesOf_cons_some h2, List.countP_cons, List.countP_cons, hc l hl]
    · intro h
      rw [entriesOf_cons_some h2]
      exact hp.trans (List.Perm.cons _ h)

/-- One step of a legal history succeeds and keeps the base. -/
theorem step_base {k : Kind} (hk : k ≠ .bigs) {f : Bytes} {c : IColl} (hb : Base k f c) (o : IOp) (ho : okOp k f c o) :
    ∃ c', istep f c o = .ok c' ∧ Base k f c' := by
  cases o with
  | insert d =>
    obtain ⟨h1, h2⟩ := ho
    obtain ⟨es, g1, g2, g3, g4, _⟩ := idxInsert_spec hk h2 hb.keys hb.order hb.count
    have hp := assign_perm d hb.sorted h1
    refine ⟨⟨assign d c.store, es⟩, by simp [istep, g1, Res.bind], (assign_spec d c.store hb.sorted).1, ?_, g2, g3, ?_⟩
    · intro x hx
      rcases List.mem_cons.mp (hp.mem_iff.mp hx) with rfl | hx
      · exact h2
      · exact hb.fields x hx
    · intro l hl
      rw [g4 l hl, (entriesOf_perm hp).countP_eq]
  | delete d =>
    have ho : byId c.store d.id = some d := ho
    obtain ⟨es, g1, g2, g3, g4, _⟩ := idxDelete_spec hk hb ho
    refine ⟨⟨remove d.id c.store, es⟩, ?_, sorted_remove _ hb.sorted, ?_, g2, g3, g4⟩
    · simp only [istep]
      rw [if_pos (by rw [hasId_byId, ho]; rfl), g1]; rfl
    · intro x hx
      exact hb.fields x ((remove_perm ho).mem_iff.mpr (by simp [hx]))
  | update d d' =>
    obtain ⟨h1, h2, h3⟩ := ho
    obtain ⟨es, g1, g2, g3, g4, _⟩ := idxDelete_spec hk hb h1
    have r1 : KeysIn k (rewrite d' es) := by rw [keysIn_iff, rewrite_keys, ← keysIn_iff]; exact g2
    have r2 : KeyOrder (rewrite d' es) := by rw [keyOrder_iff, rewrite_keys, ← keyOrder_iff]; exact g3
    have r3 : ∀ l, KeyIn k l → (rewrite d' es).countP (fun e => eqv l e.key) = (entriesOf f (remove d.id c.store)).countP fun e => eqv l e.key := by
      intro l hl
      rw [countP_key (eqv l), rewrite_keys, ← countP_key (eqv l), g4 l hl]
    obtain ⟨es', q1, q2, q3, q4, _⟩ := idxInsert_spec hk h3 r1 r2 r3
    have hp := assign_over d' hb.sorted h1 h2
    refine ⟨⟨assign d' c.store, es'⟩, by simp [istep, g1, q1, Res.bind], (assign_spec d' c.store hb.sorted).1, ?_, q2, q3, ?_⟩
    · intro x hx
      rcases List.mem_cons.mp (hp.mem_iff.mp hx) with rfl | hx
      · exact h3
      · exact hb.fields x ((remove_perm h1).mem_iff.mpr (by simp [hx]))
    · intro l hl
      rw [q4 l hl, (entriesOf_perm hp).countP_eq]

theorem run_base {k : Kind} (hk : k ≠ .bigs) {f : Bytes} : ∀ (os : List IOp) (c : IColl), Base k f c → Legal k f c os →
    ∃ c', irun f c os = .ok c' ∧ Base k f c' := by
  intro os
  induction os with
  | nil => intro c hb _; exact ⟨c, rfl, hb⟩
  | cons o os ih =>
    intro c hb hl
    obtain ⟨c', h1, h2⟩ := step_base hk hb o hl.1
    obtain ⟨c'', h3, h4⟩ := ih c' h2 (hl.2 c' h1)
    exact ⟨c'', by simp [irun, h1, Res.bind, h3], h4⟩

theorem base_empty (k : Kind) (f : Bytes) : Base k f ⟨[], []⟩ :=
  ⟨List.Pairwise.nil, by simp, by simp [KeysIn], List.Pairwise.nil, by simp [entriesOf]⟩

theorem equalTo_eq {k : Kind} (hk : k ≠ .bigs) {l : LV} (hl : KeyIn k l) {es : List Entry} (hi : KeysIn k es) (ho : KeyOrder es) :
    equalTo l es = es.filter fun e => eqv l e.key := by
  have := ranges_eq hk .eq l hl es hi ho
  simp only [ranges] at this
  rw [this]
  apply List.filter_congr
  intro e _
  unfold by3 eqv Cmp.ok
  cases LV.lt e.key l <;> cases LV.lt l e.key <;> rfl

theorem hasValue_eqv {k : Kind} (hk : k ≠ .bigs) {v w : V} (hv : k.has v) (hw : k.has w) : compareV w v = .ok .eq ↔ eqv (logical v) (logical w) = true := by
  rw [kind_compare k w v hw hv]
  unfold eqv by3
  rw [logical_lt k hk v w hv hw, logical_lt k hk w v hw hv]
  cases k.lt w v <;> cases k.lt v w <;> simp

theorem entries_filter {k : Kind} (hk : k ≠ .bigs) {f : Bytes} {v : V} (hv : k.has v) : ∀ ds : List Doc, (∀ d ∈ ds, FieldIn k f d) →
    ((entriesOf f ds).filter fun e => eqv (logical v) e.key).map Entry.doc = ds.filter (HasValue f v ·) := by
  intro ds
  induction ds with
  | nil => intro _; rfl
  | cons d ds ih =>
    intro hd
    have ih' := ih fun x hx => hd x (by simp [hx])
    rcases entryOf_key (hd d (by simp)) with ⟨h1, h2⟩ | ⟨w, hw, hg, h1, h2⟩
    · rw [entriesOf_cons_none h2, ih']
      symm
      apply List.filter_cons_of_neg
      simp only [decide_eq_true_eq]
      rintro ⟨w, hw, _⟩
      rw [entryOf, hw] at h2
      cases h2
    · rw [entriesOf_cons_some h2, List.filter_cons, List.filter_cons]
      have : eqv (logical v) (logical w) = decide (HasValue f v d) := by
        rw [Bool.eq_iff_iff, ← hasValue_eqv hk hv hw, decide_eq_true_eq]
        constructor
        · intro h; exact ⟨w, hg, h⟩
        · rintro ⟨w', hg', h⟩
          rw [hg] at hg'; injection hg' with hg'; subst hg'; exact h
      simp only [this]
      by_cases hh : HasValue f v d
      · simp [hh, ih']
      · simp [hh, ih']

/-- After every history over fields of one kind, looking a value up in the index gives as many documents as the collection
has with that value. -/
theorem C21_count_partial (k : Kind) (hk : k ≠ .bigs) (f : Bytes) (os : List IOp) (hl : Legal k f ⟨[], []⟩ os) :
    ∃ c, irun f ⟨[], []⟩ os = .ok c ∧ KeyOrder c.index ∧ ∀ v, k.has v → (equalTo (logical v) c.index).length = (c.store.filter (HasValue f v ·)).length := by
  obtain ⟨c, h1, h2⟩ := run_base hk os _ (base_empty k f) hl
  refine ⟨c, h1, h2.order, ?_⟩
  intro v hv
  have hkv : KeyIn k (logical v) := ⟨v, hv, rfl⟩
  rw [equalTo_eq hk hkv h2.keys h2.order, ← entries_filter hk hv c.store h2.fields, List.length_map, ← List.countP_eq_length_filter,
    ← List.countP_eq_length_filter, h2.count _ hkv]

/-- With the right entries, and no equal value elsewhere, the entry of the document goes. -/
theorem delete_tracks {k : Kind} (hk : k ≠ .bigs) {f : Bytes} {c : IColl} (hb : Base k f c) (ht : Tracks f c) {d : Doc} (hd : byId c.store d.id = some d)
    (ha : ∀ v, d.get f = .scalar v → ∀ x ∈ c.store, HasValue f v x → x = d) {es : List Entry} (he : idxDelete f d c.index = .ok es) :
    es.Perm (entriesOf f (remove d.id c.store)) := by
  obtain ⟨es', g1, g2, g3, g4, g5⟩ := idxDelete_spec hk hb hd
  rw [he] at g1; injection g1 with g1; subst g1
  have hperm := entriesOf_perm (f := f) (remove_perm hd)
  rcases g5 with ⟨h1, rfl⟩ | ⟨v, e, hg, hv, h4, h5⟩
  · rw [entriesOf_cons_none h1] at hperm
    exact ht.trans hperm
  · have hem : e ∈ entriesOf f c.store := ht.mem_iff.mp (h4.mem_iff.mpr (by simp))
    obtain ⟨x, hx, hxe⟩ := List.mem_filterMap.mp hem
    have hxv : HasValue f v x := by
      rcases entryOf_key (hb.fields x hx) with ⟨_, q2⟩ | ⟨w, hw, q1, _, q2⟩
      · rw [q2] at hxe; cases hxe
      · rw [q2] at hxe; injection hxe with hxe; subst hxe
        exact ⟨w, q1, (hasValue_eqv hk hv hw).mpr h5⟩
    have := ha v hg x hx hxv
    subst this
    have e2 : entriesOf f (x :: remove x.id c.store) = e :: entriesOf f (remove x.id c.store) := entriesOf_cons_some hxe
    rw [e2] at hperm
    exact (List.Perm.cons_inv ((h4.symm.trans ht).trans hperm))

theorem rewrite_none {d' : Doc} {es : List Entry} (h : ∀ e ∈ es, e.doc.id ≠ d'.id) : rewrite d' es = es := by
  unfold rewrite
  conv_rhs => rw [← List.map_id es]
  apply List.map_congr_left
  intro e he
  rw [if_neg (h e he)]; rfl

theorem step_tracks {k : Kind} (hk : k ≠ .bigs) {f : Bytes} {c : IColl} (hb : Base k f c) (ht : Tracks f c) (o : IOp) (ho : okOp k f c o)
    (ha : aloneOp f c o) {c' : IColl} (hc : istep f c o = .ok c') : Tracks f c' := by
  cases o with
  | insert d =>
    obtain ⟨h1, h2⟩ := ho
    obtain ⟨es, g1, _, _, _, g5⟩ := idxInsert_spec hk h2 hb.keys hb.order hb.count
    simp only [istep, g1, Res.bind] at hc
    injection hc with hc; subst hc
    exact (g5 ht).trans (entriesOf_perm (assign_perm d hb.sorted h1)).symm
  | delete d =>
    have ho : byId c.store d.id = some d := ho
    obtain ⟨es, g1, _⟩ := idxDelete_spec hk hb ho
    simp only [istep] at hc
    rw [if_pos (by rw [hasId_byId, ho]; rfl), g1] at hc
    simp only [Res.bind] at hc
    injection hc with hc; subst hc
    exact delete_tracks hk hb ht ho ha g1
  | update d d' =>
    obtain ⟨h1, h2, h3⟩ := ho
    obtain ⟨es, g1, g2, g3, g4, _⟩ := idxDelete_spec hk hb h1
    have hes := delete_tracks hk hb ht h1 ha g1
    have hrw : rewrite d' es = es := by
      apply rewrite_none
      intro e he
      obtain ⟨x, hx, hxe⟩ := List.mem_filterMap.mp (hes.mem_iff.mp he)
      have hxd : e.doc = x := by
        unfold entryOf at hxe
        split at hxe
        · injection hxe with hxe; rw [← hxe]
        · cases hxe
      rw [remove_eq _ _ hb.sorted, List.mem_filter] at hx
      rw [hxd, h2]
      simpa using hx.2
    obtain ⟨es', q1, _, _, _, q5⟩ := idxInsert_spec hk h3 g2 g3 g4
    simp only [istep, g1, Res.bind, hrw, q1] at hc
    injection hc with hc; subst hc
    exact (q5 hes).trans (entriesOf_perm (assign_over d' hb.sorted h1 h2)).symm

/-- If no other document has the value of a document when it is deleted or updated, the index follows the collection:
looking a value up gives exactly the stored documents with it.  Missing: values shared by documents
(`C21_shared_fails`). -/
theorem C21_exact_partial (k : Kind) (hk : k ≠ .bigs) (f : Bytes) (os : List IOp) (hl : Legal k f ⟨[], []⟩ os) (ha : Alone f ⟨[], []⟩ os) :
    ∃ c, irun f ⟨[], []⟩ os = .ok c ∧ Tracks f c ∧ KeyOrder c.index ∧
      ∀ v, k.has v → ((equalTo (logical v) c.index).map Entry.doc).Perm (c.store.filter (HasValue f v ·)) := by
  have main : ∀ (os : List IOp) (c : IColl), Base k f c → Tracks f c → Legal k f c os → Alone f c os →
      ∃ c', irun f c os = .ok c' ∧ Base k f c' ∧ Tracks f c' := by
    intro os
    induction os with
    | nil => intro c hb ht _ _; exact ⟨c, rfl, hb, ht⟩
    | cons o os ih =>
      intro c hb ht hl ha
      obtain ⟨c', h1, h2⟩ := step_base hk hb o hl.1
      obtain ⟨c'', h3, h4⟩ := ih c' h2 (step_tracks hk hb ht o hl.1 ha.1 h1) (hl.2 c' h1) (ha.2 c' h1)
      exact ⟨c'', by simp [irun, h1, Res.bind, h3], h4⟩
  obtain ⟨c, h1, h2, h3⟩ := main os _ (base_empty k f) (by simp [Tracks, entriesOf]) hl ha
  refine ⟨c, h1, h3, h2.order, ?_⟩
  intro v hv
  rw [equalTo_eq hk ⟨v, hv, rfl⟩ h2.keys h2.order, ← entries_filter hk hv c.store h2.fields]
  exact (h3.filter _).map _

/-- Creating an index on a collection all of whose documents have a value of the kind or null in the field: it has the
entries of the documents with a value. -/
theorem C21_build_partial (k : Kind) (hk : k ≠ .bigs) (f : Bytes) : ∀ (ds : List Doc) (es : List Entry),
    (∀ d ∈ ds, d.get f = .scalar .na ∨ ∃ v, d.get f = .scalar v ∧ k.has v) →
    KeysIn k es → KeyOrder es → ∃ es', buildIndex f ds es = .ok es' ∧
      es'.Perm (entriesOf f (ds.filter fun d => decide (d.get f ≠ .scalar .na)) ++ es) ∧ KeyOrder es' := by
  intro ds
  induction ds with
  | nil => intro es _ _ ho; exact ⟨es, rfl, List.Perm.refl _, ho⟩
  | cons d ds ih =>
    intro es hd hi ho
    rcases hd d (by simp) with hna | ⟨v, hg, hv⟩
    · obtain ⟨es', h1, h2, h3⟩ := ih es (fun x hx => hd x (by simp [hx])) hi ho
      have hbk : buildKey f d = .ok none := by
        unfold buildKey
        rw [hna]
      refine ⟨es', by simp [buildIndex, hbk, Res.bind, h1], ?_, h3⟩
      rw [List.filter_cons_of_neg (by simp [hna])]
      exact h2
    have hkv : KeyIn k (logical v) := ⟨v, hv, rfl⟩
    have hp := mmInsert_perm (logical v) d es
    obtain ⟨es', h1, h2, h3⟩ := ih (mmInsert (logical v) d es) (fun x hx => hd x (by simp [hx]))
      (by intro x hx
          rcases List.mem_cons.mp (hp.mem_iff.mp hx) with rfl | hx
          · exact hkv
          · exact hi x hx) (mmInsert_order hk _ hkv d es hi ho)
    have hnn : v ≠ .na := by
      rintro rfl
      cases k <;> exact absurd hv id
    have hbk : buildKey f d = .ok (some (logical v)) := by
      unfold buildKey
      rw [hg]
      cases v <;> first | rfl | exact absurd rfl hnn
    refine ⟨es', by simp [buildIndex, hbk, Res.bind, h1], ?_, h3⟩
    have e1 : entriesOf f ((d :: ds).filter fun d => decide (d.get f ≠ .scalar .na)) =
        ⟨logical v, d⟩ :: entriesOf f (ds.filter fun d => decide (d.get f ≠ .scalar .na)) := by
      rw [List.filter_cons_of_pos (by simp [hg, hnn])]
      simp [entriesOf, entryOf, hg]
    rw [e1, List.cons_append]
    exact h2.trans ((List.Perm.append_left _ hp).trans List.perm_middle)

/-! ### witnesses -/

def exD1 : Doc := ⟨1, [([97], .scalar (.int .i64 5))]⟩
def exD2 : Doc := ⟨2, [([97], .scalar (.int .i64 5))]⟩
def exD3 : Doc := ⟨3, []⟩
def exD4 : Doc := ⟨4, [([97], .scalar .na)]⟩
def exD5 : Doc := ⟨2, [([97], .scalar (.int .i64 7))]⟩

theorem exKind : Kind.has (.ints [.i64]) (.int .i64 5) ∧ Kind.has (.ints [.i64]) (.int .i64 7) ∧ Kind.has (.ints [.i64]) (.int .i64 2) := by
  simp [Kind.has, ITy.fits, ITy.signed, ITy.bits]

theorem exIn1 : FieldIn (.ints [.i64]) [97] exD1 := Or.inr ⟨.int .i64 5, by decide +kernel, exKind.1⟩
theorem exIn2 : FieldIn (.ints [.i64]) [97] exD2 := Or.inr ⟨.int .i64 5, by decide +kernel, exKind.1⟩
theorem exIn5 : FieldIn (.ints [.i64]) [97] exD5 := Or.inr ⟨.int .i64 7, by decide +kernel, exKind.2.1⟩

/-- Documents 1 and 2 have the same value; 2 is deleted. -/
def exShared : List IOp := [.insert exD1, .insert exD2, .delete exD2]

theorem exShared_legal : Legal (.ints [.i64]) [97] ⟨[], []⟩ exShared := by
  have e1 : istep [97] ⟨[], []⟩ (.insert exD1) = .ok ⟨[exD1], [⟨.int .i64 5, exD1⟩]⟩ := by decide +kernel
  have e2 : istep [97] ⟨[exD1], [⟨.int .i64 5, exD1⟩]⟩ (.insert exD2) = .ok ⟨[exD1, exD2], [⟨.int .i64 5, exD1⟩, ⟨.int .i64 5, exD2⟩]⟩ := by decide +kernel
  refine ⟨⟨rfl, exIn1⟩, fun c hc => ?_⟩
  rw [e1] at hc; injection hc with hc; subst hc
  refine ⟨⟨by decide +kernel, exIn2⟩, fun c hc => ?_⟩
  rw [e2] at hc; injection hc with hc; subst hc
  exact ⟨by show byId _ _ = _; decide +kernel, fun _ _ => trivial⟩

/-- Deleting a document removes the entry of another one with the same value: the index then finds the deleted document and
not the stored one. -/
theorem C21_shared_fails : ¬ C21_claim ∧ irun [97] ⟨[], []⟩ exShared = .ok ⟨[exD1], [⟨.int .i64 5, exD2⟩]⟩ := by
  have e : irun [97] ⟨[], []⟩ exShared = .ok ⟨[exD1], [⟨.int .i64 5, exD2⟩]⟩ := by decide +kernel
  refine ⟨?_, e⟩
  intro h
  obtain ⟨c, h1, h2⟩ := h _ _ _ exShared_legal
  rw [e] at h1; injection h1 with h1; subst h1
  have h3 := (h2 (.int .i64 5) exKind.1).mem_iff (a := exD2)
  have h4 : exD2 ∈ (equalTo (logical (.int .i64 5)) [⟨.int .i64 5, exD2⟩]).map Entry.doc := by decide +kernel
  have h5 := h3.mp h4
  rw [List.mem_filter] at h5
  have h6 : exD2 ∉ [exD1] := by decide +kernel
  exact h6 h5.1

/-- A history to which `C21_exact_partial` applies: two documents, an update, a delete. -/
example : Legal (.ints [.i64]) [97] ⟨[], []⟩ [.insert exD1, .insert exD5, .delete exD5] ∧
    irun [97] ⟨[], []⟩ [.insert exD1, .insert exD5, .update exD5 exD2] = .ok ⟨[exD1, exD2], [⟨.int .i64 5, exD1⟩, ⟨.int .i64 5, exD2⟩]⟩ := by
  have e1 : istep [97] ⟨[], []⟩ (.insert exD1) = .ok ⟨[exD1], [⟨.int .i64 5, exD1⟩]⟩ := by decide +kernel
  have e2 : istep [97] ⟨[exD1], [⟨.int .i64 5, exD1⟩]⟩ (.insert exD5) = .ok ⟨[exD1, exD5], [⟨.int .i64 5, exD1⟩, ⟨.int .i64 7, exD5⟩]⟩ := by decide +kernel
  refine ⟨⟨⟨rfl, exIn1⟩, fun c hc => ?_⟩, by decide +kernel⟩
  rw [e1] at hc; injection hc with hc; subst hc
  refine ⟨⟨by decide +kernel, exIn5⟩, fun c hc => ?_⟩
  rw [e2] at hc; injection hc with hc; subst hc
  exact ⟨by show byId _ _ = _; decide +kernel, fun _ _ => trivial⟩

/-- `C21_build_partial` applies: a document with a value, one with null. -/
example : ∃ es, buildIndex [97] [exD1, exD4] [] = .ok es ∧ es = [⟨.int .i64 5, exD1⟩] := by
  obtain ⟨es, h1, h2, -⟩ := C21_build_partial (.ints [.i64]) (by simp) [97] [exD1, exD4] [] (by
    intro d hd
    simp only [List.mem_cons, List.not_mem_nil, or_false] at hd
    rcases hd with rfl | rfl
    · exact Or.inr ⟨.int .i64 5, by decide +kernel, exKind.1⟩
    · exact Or.inl (by decide +kernel)) (by intro x hx; cases hx) List.Pairwise.nil
  refine ⟨es, h1, ?_⟩
  have e : entriesOf [97] ([exD1, exD4].filter fun d => decide (d.get [97] ≠ .scalar .na)) ++ [] = [⟨.int .i64 5, exD1⟩] := by decide +kernel
  rw [e] at h2
  exact List.perm_singleton.mp h2

/-- Creating an index on a collection one of whose documents lacks the field reads through a null pointer. -/
theorem C21_build_fails : buildIndex [97] [exD1, exD3] [] = .ub := by decide +kernel

/-- Deleting a document with a null in the field removes the entry of another document; in an empty index it is undefined. -/
theorem C21_null_fails : idxDelete [97] exD4 [⟨.int .i64 5, exD1⟩] = .ok [] ∧ idxDelete [97] exD4 [] = .ub := by decide +kernel

/-- A batch that repeats an `_id` leaves a stale entry. -/
theorem C21_repeat_fails : irun [97] ⟨[], []⟩ [.insert exD2, .insert exD5] = .ok ⟨[exD5], [⟨.int .i64 5, exD2⟩, ⟨.int .i64 7, exD5⟩]⟩ := by decide +kernel

/-- `a > 2` through the index misses the document without `a`, which the full scan finds. -/
theorem C20_missing_fails : ¬ C20_claim := by
  intro h
  obtain ⟨out, h1, h2⟩ := h [97] ⟨[exD1, exD3], [⟨.int .i64 5, exD1⟩]⟩ exEnv .gt (.param 0) (.ints [.i64]) (by simp [Sorted, exD1, exD3])
    (by have : entriesOf [97] [exD1, exD3] = [⟨.int .i64 5, exD1⟩] := by decide +kernel
        unfold Tracks; rw [this]) (List.pairwise_singleton _ _)
    (by intro d hd
        rcases List.mem_cons.mp hd with rfl | hd
        · exact exIn1
        · rcases List.mem_cons.mp hd with rfl | hd
          · exact Or.inl (by decide +kernel)
          · cases hd)
    (by intro n v hn
        unfold exEnv at hn
        simp only at hn
        split at hn
        · injection hn with hn; subst hn; exact exKind.2.2
        · cases hn) (by decide +kernel)
  have e1 : indexScan (-1) exEnv .gt (.param 0) [⟨.int .i64 5, exD1⟩] = .ok (some [exD1]) := by decide +kernel
  rw [e1] at h1; injection h1 with h1; injection h1 with h1; subst h1
  have e2 : accepted (pred exEnv (.leaf (.cmp .gt [97] (.param 0)))) [exD1, exD3] = [exD1, exD3] := by decide +kernel
  rw [e2] at h2
  exact absurd h2.length_eq (by decide)

/-- A comparison with another field, through the index, compares with parameter 0. -/
theorem C20_key_fails : indexScan (-1) exEnv .eq (.key [97]) [⟨.int .i64 5, exD1⟩] = .ok (some []) ∧
    fullScan (-1) (pred exEnv (.leaf (.cmp .eq [97] (.key [97])))) [exD1] = .ok (some [exD1]) ∧
    indexScan (-1) ⟨fun _ => none, fun _ _ => .ok false⟩ .eq (.key [97]) [⟨.int .i64 5, exD1⟩] = .ub := by decide +kernel

/-- A document with a null in the field is found for every value through the index, and for none by the full scan. -/
theorem C20_null_fails : indexScan (-1) exEnv .eq (.param 0) [⟨.na, exD4⟩] = .ok (some [exD4]) ∧
    fullScan (-1) (pred exEnv (.leaf (.cmp .eq [97] (.param 0)))) [exD4] = .ok (some []) := by decide +kernel

/-- 128-bit numbers are all one key. -/
theorem C20_big_fails (a b : Int) : LV.lt (logical (.big a)) (logical (.big b)) = false ∧ eqv (logical (.big a)) (logical (.big b)) = true := by
  simp [logical, LV.lt, ltSame, eqv]

/-- A case to which `C20_scan_partial` applies. -/
example : Tracks [97] ⟨[exD1, exD3, exD5], [⟨.int .i64 5, exD1⟩, ⟨.int .i64 7, exD5⟩]⟩ ∧ KeyOrder [⟨.int .i64 5, exD1⟩, ⟨.int .i64 7, exD5⟩] ∧
    indexScan 1 exEnv .gte (.param 0) [⟨.int .i64 5, exD1⟩, ⟨.int .i64 7, exD5⟩] = .ok (some [exD1]) := by
  refine ⟨?_, ?_, by decide +kernel⟩
  · have : entriesOf [97] [exD1, exD3, exD5] = [⟨.int .i64 5, exD1⟩, ⟨.int .i64 7, exD5⟩] := by decide +kernel
    unfold Tracks; rw [this]
  · unfold KeyOrder
    decide +kernel

end Verif.Query
