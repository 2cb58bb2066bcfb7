import Verif.Py.FindSpec
import Verif.Query.Props
/-!
Lemmas for C92.
-/
namespace Verif.Py

open Verif.DocVal Query

theorem getType_ordinary {k : Bytes} (h : Ordinary k) : getType k = .invalid := by
  obtain ⟨h1, h2, h3, h4, h5⟩ := h
  have he : ∀ l : List (Bytes × CType), k.drop 1 ∉ l.map Prod.fst → enumCast (k.drop 1) l = none := by
    intro l
    induction l with
    | nil => intro _; rfl
    | cons a l ih =>
      intro hn
      obtain ⟨m, t⟩ := a
      simp only [List.map_cons, List.mem_cons, not_or] at hn
      rw [enumCast, if_neg (fun e => hn.1 e.symm), ih hn.2]
  rw [getType, if_neg h1, he _ h2]
  simp only [if_neg h3, if_neg h4, if_neg h5]

/-! ### parameters -/

/-- The ids below the counter are taken, those from it on are free. -/
def Wf (st : Store) : Prop := ∀ n, st.counter ≤ n → find? n st.vals = none

/-- More values. -/
def More (st st' : Store) : Prop := ∃ l, st'.vals = st.vals ++ l

theorem More.refl (st : Store) : More st st := ⟨[], by simp⟩

theorem More.trans {a b c : Store} (h : More a b) (g : More b c) : More a c := by
  obtain ⟨l, hl⟩ := h
  obtain ⟨m, hm⟩ := g
  exact ⟨l ++ m, by rw [hm, hl]; simp⟩

theorem find?_append (n : Nat) (l m : List (Nat × Option V)) :
    find? n (l ++ m) = match find? n l with | some v => some v | none => find? n m := by
  induction l with
  | nil => rfl
  | cons a l ih =>
    obtain ⟨i, v⟩ := a
    simp only [List.cons_append, find?]
    by_cases h : i = n
    · simp [h]
    · simp [h, ih]

theorem add_ok {st : Store} (h : Wf st) (hc : st.counter + 1 < 2 ^ 16) (v : Option V) :
    Wf (st.add v).2 ∧ (st.add v).1 = st.counter ∧ (st.add v).2.counter = st.counter + 1 ∧ More st (st.add v).2 ∧
      ∀ st'', More (st.add v).2 st'' → find? st.counter st''.vals = some v := by
  have hn := h st.counter (Nat.le_refl _)
  have hs : st.add v = (st.counter, ⟨st.counter + 1, st.vals ++ [(st.counter, v)]⟩) := by
    simp only [Store.add, hn, Nat.mod_eq_of_lt hc]
    rfl
  rw [hs]
  refine ⟨?_, rfl, rfl, ⟨_, rfl⟩, ?_⟩
  · intro n hle
    simp only at hle ⊢
    rw [find?_append, h n (by omega)]
    have : ¬ st.counter = n := by omega
    simp [find?, this]
  · rintro st'' ⟨l, hl⟩
    rw [hl]
    simp only
    rw [find?_append, find?_append, hn]
    simp [find?]

/-! ### what the children stand for -/

/-- The leaf of a comparison. -/
def leafC (L : Lib) (k : Bytes) (x : Scalar) : Op → PLeaf
  | .cmp c => .cmp c k (some (x.value L))
  | .regex => .regex k (some (x.value L))

mutual
def Cond.kids (L : Lib) : Cond → List (Filter PLeaf)
  | .field k x => [.leaf (leafC L k x (.cmp .eq))]
  | .ops k os => os.map fun o => .leaf (leafC L k o.2 o.1)
  | .and ds => [.and (dictsKids L ds)]
  | .or ds => [.or (dictsKids L ds)]
  | .not d => [.not (d.kids L)]
def Dict.kids (L : Lib) : Dict → List (Filter PLeaf)
  | .mk es => entriesKids L es
def entriesKids (L : Lib) : List Cond → List (Filter PLeaf)
  | [] => []
  | e :: es => e.kids L ++ entriesKids L es
def dictsKids (L : Lib) : List Dict → List (Filter PLeaf)
  | [] => []
  | d :: ds => d.kids L ++ dictsKids L ds
end

/-- Without the union around them. -/
def Cond.inner (L : Lib) : Cond → List (Filter PLeaf)
  | .and ds => dictsKids L ds
  | .or ds => dictsKids L ds
  | .not d => d.kids L
  | e => e.kids L

theorem toFilters_append (st : Store) (a b : List Expr) : toFilters st (a ++ b) = toFilters st a ++ toFilters st b := by
  induction a with
  | nil => rfl
  | cons c a ih => simp [toFilters, ih]

/-- The call succeeds, takes `n` ids and gives children that stand for `ks`. -/
def Parses (r : Res (List Expr × Store)) (st : Store) (n : Nat) (ks : List (Filter PLeaf)) : Prop :=
  ∃ cs st', r = .ok (cs, st') ∧ Wf st' ∧ st'.counter = st.counter + n ∧ More st st' ∧
    ∀ st'', More st' st'' → toFilters st'' cs = ks

theorem value_scalarV (L : Lib) (k : Bytes) (x : Scalar) (op : Op) (h : readable k x op) : scalarV L x = .ok (x.value L) := by
  obtain ⟨h1, h2, h3⟩ := h
  cases x with
  | none => exact absurd rfl h1
  | badStr => exact absurd rfl h2
  | int v =>
    have hv := h3 v rfl
    have hfit : PhysKey.ITy.i64.fits v := by
      simp only [PhysKey.ITy.fits, PhysKey.ITy.signed, PhysKey.ITy.bits, if_true]
      omega
    simp [scalarV, hfit, Scalar.value]
  | _ => rfl

/-- The type of an operator. -/
def Op.ctype : Op → CType
  | .cmp .eq => .eq
  | .cmp .ne => .ne
  | .cmp .gt => .gt
  | .cmp .gte => .gte
  | .cmp .lt => .lt
  | .cmp .lte => .lte
  | .regex => .regex

theorem getType_op (op : Op) : getType op.name = op.ctype := by
  cases op with
  | regex => rfl
  | cmp c => cases c <;> rfl

/-- A leaf: of the operator's type, or of none (then it is `$eq`). -/
theorem leaf_ok (L : Lib) (x : Scalar) (op : Op) (prev word k : Bytes) (t : CType)
    (ht : typeKey prev word = (t, k)) (ho : t = op.ctype ∨ (t = .invalid ∧ op = .cmp .eq)) (hr : readable k x op)
    (st : Store) (hw : Wf st) (hc : st.counter + 1 < 2 ^ 16) :
    Parses (parseLeaf L x 3 prev word st) st 1 [.leaf (leafC L k x op)] := by
  obtain ⟨a1, a2, a3, a4, a5⟩ := add_ok hw hc (x.value L)
  have hu : t.isUnion = false := by
    rcases ho with rfl | ⟨rfl, _⟩
    · cases op with
      | regex => rfl
      | cmp c => cases c <;> rfl
    · rfl
  refine ⟨[normalize (.mk t (some k) st.counter [])], (st.add (x.value L)).2, ?_, a1, a3, a4, ?_⟩
  · simp [parseLeaf, value_scalarV L k x op hr, ht, hu, Res.bind, a2]
  · intro st'' hm
    have hf := a5 st'' hm
    rcases ho with rfl | ⟨rfl, rfl⟩
    · cases op with
      | regex => simp [Op.ctype, normalize, toFilters, toFilter, leafOf, hf, leafC]
      | cmp c => cases c <;> simp [Op.ctype, normalize, toFilters, toFilter, leafOf, hf, leafC]
    · simp [normalize, toFilters, toFilter, leafOf, hf, leafC]

theorem ops_ok (L : Lib) (k : Bytes) (hk : Ordinary k) : ∀ (os : List (Op × Scalar)) (st : Store), (∀ o ∈ os, readable k o.2 o.1) →
    Wf st → st.counter + os.length < 2 ^ 16 →
    Parses (parseDict L (os.map fun o => (.str o.1.name, .scalar o.2)) k st) st os.length (os.map fun o => .leaf (leafC L k o.2 o.1))
  | [], st, _, hw, _ => ⟨[], st, rfl, hw, rfl, More.refl st, fun _ _ => rfl⟩
  | o :: os, st, hr, hw, hc => by
    simp only [List.length_cons] at hc
    have ht : typeKey k o.1.name = (o.1.ctype, k) := by
      simp only [typeKey, getType_op]
      rw [if_pos]
      rcases o with ⟨⟨c⟩ | _, x⟩
      · cases c <;> simp [Op.ctype]
      · simp [Op.ctype]
    have hu : (getType o.1.name).isUnion = false := by
      rw [getType_op]
      rcases o with ⟨⟨c⟩ | _, x⟩
      · cases c <;> rfl
      · rfl
    obtain ⟨cs, st1, h1, h2, h3, h4, h5⟩ := leaf_ok L o.2 o.1 k o.1.name k _ ht (.inl rfl) (hr o (by simp)) st hw (by omega)
    obtain ⟨cs2, st2, g1, g2, g3, g4, g5⟩ := ops_ok L k hk os st1 (fun o' ho => hr o' (by simp [ho])) h2 (by omega)
    refine ⟨cs ++ cs2, st2, ?_, g2, by simp only [List.length_cons]; omega, h4.trans g4, ?_⟩
    · simp only [List.map_cons, parseDict, keyStr, Res.bind, if_neg hk.1, parseCond, h1, g1, hu]
      simp
    · intro st'' hm
      rw [toFilters_append, h5 st'' (g4.trans hm), g5 st'' hm]
      rfl

/-- The type of an entry's key. -/
def Cond.ctype : Cond → CType
  | .and _ => .unionAnd
  | .or _ => .unionOr
  | .not _ => .unionNot
  | _ => .invalid

theorem getType_cond {e : Cond} (h : e.named) : ∃ key, e.py.1 = .str key ∧ getType key = e.ctype := by
  cases e with
  | field k x => exact ⟨k, rfl, getType_ordinary h⟩
  | ops k os => exact ⟨k, rfl, getType_ordinary h⟩
  | and ds => exact ⟨kAnd, rfl, rfl⟩
  | or ds => exact ⟨kOr, rfl, rfl⟩
  | not d => exact ⟨kNot, rfl, rfl⟩

mutual
theorem cond_ok (L : Lib) : ∀ (e : Cond) (key : Bytes) (st : Store), e.py.1 = .str key → e.named → e.each readable → Wf st →
    st.counter + e.size < 2 ^ 16 → Parses (parseCond L e.py.2 key [] st) st e.size (e.inner L)
  | .field k x, key, st, hk, hn, hr, hw, hc => by
    simp only [Cond.py, Scalar.str.injEq] at hk
    subst hk
    have ht : typeKey k [] = (.invalid, k) := by
      have hk := getType_ordinary (show Ordinary k from hn)
      have h0 : getType [] = .invalid := rfl
      simp [typeKey, h0, hk]
    exact leaf_ok L x (.cmp .eq) k [] k .invalid ht (.inr ⟨rfl, rfl⟩) hr st hw hc
  | .ops k os, key, st, hk, hn, hr, hw, hc => by
    simp only [Cond.py, Scalar.str.injEq] at hk
    subst hk
    have ht : (typeKey k []).2 = k := by
      have hk := getType_ordinary (show Ordinary k from hn)
      have h0 : getType [] = .invalid := rfl
      simp [typeKey, h0, hk]
    have := ops_ok L k hn os st hr hw hc
    simp only [Cond.py, parseCond, ht]
    exact this
  | .and ds, key, st, hk, hn, hr, hw, hc => by
    simp only [Cond.py, Scalar.str.injEq] at hk
    subst hk
    exact dicts_ok L ds st hn hr hw hc
  | .or ds, key, st, hk, hn, hr, hw, hc => by
    simp only [Cond.py, Scalar.str.injEq] at hk
    subst hk
    exact dicts_ok L ds st hn hr hw hc
  | .not d, key, st, hk, hn, hr, hw, hc => by
    simp only [Cond.py, Scalar.str.injEq] at hk
    subst hk
    exact dict_ok L d kNot st rfl hn hr hw hc
theorem dict_ok (L : Lib) : ∀ (d : Dict) (prev : Bytes) (st : Store), (typeKey prev []).2 = [] → d.named → d.each readable → Wf st →
    st.counter + d.size < 2 ^ 16 → Parses (parseCond L d.py prev [] st) st d.size (d.kids L)
  | .mk es, prev, st, hp, hn, hr, hw, hc => by
    have := entries_ok L es st hn hr hw hc
    simp only [Dict.py, parseCond, hp]
    exact this
theorem entries_ok (L : Lib) : ∀ (es : List Cond) (st : Store), namedEntries es → eachEntries readable es → Wf st →
    st.counter + sizeEntries es < 2 ^ 16 → Parses (parseDict L (entriesPy es) [] st) st (sizeEntries es) (entriesKids L es)
  | [], st, _, _, hw, _ => ⟨[], st, rfl, hw, rfl, More.refl st, fun _ _ => rfl⟩
  | e :: es, st, hn, hr, hw, hc => by
    rw [sizeEntries] at hc
    obtain ⟨key, hk, hty⟩ := getType_cond hn.1
    obtain ⟨cs, st1, h1, h2, h3, h4, h5⟩ := cond_ok L e key st hk hn.1 hr.1 hw (by omega)
    obtain ⟨cs2, st2, g1, g2, g3, g4, g5⟩ := entries_ok L es st1 hn.2 hr.2 h2 (by omega)
    have hpy : e.py = (.str key, e.py.2) := by rw [← hk]
    refine ⟨(if e.ctype.isUnion then [.mk e.ctype none 0 cs] else cs) ++ cs2, st2, ?_, g2, by rw [sizeEntries]; omega, h4.trans g4, ?_⟩
    · rw [entriesPy, hpy]
      simp only [parseDict, keyStr, Res.bind, if_true, h1, g1, hty]
    · intro st'' hm
      rw [toFilters_append, g5 st'' hm]
      have := h5 st'' (g4.trans hm)
      cases e with
      | field k x => simp only [Cond.ctype, CType.isUnion, Bool.false_eq_true, if_false, this, entriesKids]; rfl
      | ops k os => simp only [Cond.ctype, CType.isUnion, Bool.false_eq_true, if_false, this, entriesKids]; rfl
      | and ds => simp only [Cond.ctype, CType.isUnion, if_true, toFilters, toFilter, this, entriesKids]; rfl
      | or ds => simp only [Cond.ctype, CType.isUnion, if_true, toFilters, toFilter, this, entriesKids]; rfl
      | not d => simp only [Cond.ctype, CType.isUnion, if_true, toFilters, toFilter, this, entriesKids]; rfl
theorem dicts_ok (L : Lib) : ∀ (ds : List Dict) (st : Store), namedDicts ds → eachDicts readable ds → Wf st →
    st.counter + sizeDicts ds < 2 ^ 16 → Parses (parseArr L (dictsPy ds) [] st) st (sizeDicts ds) (dictsKids L ds)
  | [], st, _, _, hw, _ => ⟨[], st, rfl, hw, rfl, More.refl st, fun _ _ => rfl⟩
  | d :: ds, st, hn, hr, hw, hc => by
    rw [sizeDicts] at hc
    obtain ⟨cs, st1, h1, h2, h3, h4, h5⟩ := dict_ok L d [] st rfl hn.1 hr.1 hw (by omega)
    obtain ⟨cs2, st2, g1, g2, g3, g4, g5⟩ := dicts_ok L ds st1 hn.2 hr.2 h2 (by omega)
    refine ⟨cs ++ cs2, st2, ?_, g2, by rw [sizeDicts]; omega, h4.trans g4, ?_⟩
    · simp only [dictsPy, parseArr, Res.bind, h1, g1]
    · intro st'' hm
      rw [toFilters_append, h5 st'' (g4.trans hm), g5 st'' hm]
      rfl
end

/-- The children of the root. -/
def topKids (L : Lib) : List Cond → List (Filter PLeaf)
  | [] => []
  | e :: es => e.inner L ++ topKids L es

theorem top_ok (L : Lib) : ∀ (es : List Cond) (st : Store), namedEntries es → eachEntries readable es → Wf st →
    st.counter + sizeEntries es < 2 ^ 16 → Parses (parseTop L (entriesPy es) st) st (sizeEntries es) (topKids L es)
  | [], st, _, _, hw, _ => ⟨[], st, rfl, hw, rfl, More.refl st, fun _ _ => rfl⟩
  | e :: es, st, hn, hr, hw, hc => by
    rw [sizeEntries] at hc
    obtain ⟨key, hk, _⟩ := getType_cond hn.1
    obtain ⟨cs, st1, h1, h2, h3, h4, h5⟩ := cond_ok L e key st hk hn.1 hr.1 hw (by omega)
    obtain ⟨cs2, st2, g1, g2, g3, g4, g5⟩ := top_ok L es st1 hn.2 hr.2 h2 (by omega)
    have hpy : e.py = (.str key, e.py.2) := by rw [← hk]
    refine ⟨cs ++ cs2, st2, ?_, g2, by rw [sizeEntries]; omega, h4.trans g4, ?_⟩
    · rw [entriesPy, hpy]
      simp only [parseTop, keyStr, Res.bind, h1, g1]
    · intro st'' hm
      rw [toFilters_append, h5 st'' (g4.trans hm), g5 st'' hm]
      rfl

/-! ### what they accept -/

theorem check_leafC (L : Lib) (rx : Bytes → Bytes → Res Bool) (d : Doc) (k : Bytes) (x : Scalar) (op : Op) :
    checkP rx d (leafC L k x op) = test L rx d k x op := by
  cases op <;> rfl

theorem allHold_append {α : Type} (P : α → Prop) (a b : List (Filter α)) : allHold P (a ++ b) ↔ allHold P a ∧ allHold P b := by
  simp only [allHold_iff, List.mem_append]
  constructor
  · intro h; exact ⟨fun f hf => h f (.inl hf), fun f hf => h f (.inr hf)⟩
  · rintro ⟨h1, h2⟩ f (hf | hf)
    · exact h1 f hf
    · exact h2 f hf

theorem anyHolds_append {α : Type} (P : α → Prop) (a b : List (Filter α)) : anyHolds P (a ++ b) ↔ anyHolds P a ∨ anyHolds P b := by
  simp only [anyHolds_iff, List.mem_append]
  constructor
  · rintro ⟨f, hf | hf, h⟩
    · exact .inl ⟨f, hf, h⟩
    · exact .inr ⟨f, hf, h⟩
  · rintro (⟨f, hf, h⟩ | ⟨f, hf, h⟩)
    · exact ⟨f, .inl hf, h⟩
    · exact ⟨f, .inr hf, h⟩

theorem allProper_iff {α : Type} (Q : α → Prop) (fs : List (Filter α)) : allProper Q fs ↔ ∀ f ∈ fs, f.proper Q := by
  induction fs with
  | nil => simp [allProper]
  | cons f fs ih => simp [allProper, ih]

theorem allProper_append {α : Type} (P : α → Prop) (a b : List (Filter α)) : allProper P (a ++ b) ↔ allProper P a ∧ allProper P b := by
  simp only [allProper_iff, List.mem_append]
  constructor
  · intro h; exact ⟨fun f hf => h f (.inl hf), fun f hf => h f (.inr hf)⟩
  · rintro ⟨h1, h2⟩ f (hf | hf)
    · exact h1 f hf
    · exact h2 f hf

section
variable (L : Lib) (rx : Bytes → Bytes → Res Bool) (d : Doc)

/-- The children give an answer, and all hold iff `p`. -/
def Means (ks : List (Filter PLeaf)) (p : Prop) : Prop :=
  allProper (fun a => ∃ b, checkP rx d a = .ok b) ks ∧ (allHold (fun a => checkP rx d a = .ok true) ks ↔ p)

/-- One child. -/
def Single (ks : List (Filter PLeaf)) (p : Prop) : Prop :=
  ∃ f, ks = [f] ∧ f.proper (fun a => ∃ b, checkP rx d a = .ok b) ∧ (f.holds (fun a => checkP rx d a = .ok true) ↔ p)

theorem Single.means {ks : List (Filter PLeaf)} {p : Prop} (h : Single rx d ks p) : Means rx d ks p := by
  obtain ⟨f, rfl, h1, h2⟩ := h
  exact ⟨⟨h1, trivial⟩, by simp [allHold, h2]⟩

/-- One child of each alternative. -/
def Alts (ks : List (Filter PLeaf)) (p : Prop) : Prop :=
  allProper (fun a => ∃ b, checkP rx d a = .ok b) ks ∧ (anyHolds (fun a => checkP rx d a = .ok true) ks ↔ p)

theorem ops_means (k : Bytes) : ∀ os : List (Op × Scalar), (∀ o ∈ os, decided L rx d k o.2 o.1) →
    Means rx d (os.map fun o => .leaf (leafC L k o.2 o.1)) (∀ o ∈ os, truth L rx d k o.2 o.1)
  | [], _ => ⟨trivial, by simp [allHold]⟩
  | o :: os, h => by
    obtain ⟨h1, h2⟩ := ops_means k os (fun o' ho => h o' (by simp [ho]))
    refine ⟨⟨?_, h1⟩, ?_⟩
    · simp only [Filter.proper, check_leafC]
      exact h o (by simp)
    · simp only [List.map_cons, allHold, h2, Filter.holds, check_leafC, List.mem_cons, forall_eq_or_imp]
      rfl

theorem field_single (k : Bytes) (x : Scalar) (op : Op) (h : decided L rx d k x op) :
    Single rx d [.leaf (leafC L k x op)] (truth L rx d k x op) := by
  refine ⟨_, rfl, ?_, ?_⟩
  · simp only [Filter.proper, check_leafC]; exact h
  · simp only [Filter.holds, check_leafC]; rfl

mutual
theorem cond_means : ∀ e : Cond, e.shaped → e.each (decided L rx d) → Means rx d (e.kids L) (e.sat (truth L rx d))
  | .field k x, _, h => (field_single L rx d k x _ h).means
  | .ops k os, _, h => ops_means L rx d k os h
  | .and ds, hs, h => (and_single ds hs h).means
  | .or ds, hs, h => (or_single ds hs h).means
  | .not d', hs, h => (not_single d' hs h).means
theorem cond_single : ∀ e : Cond, e.one → e.shaped → e.each (decided L rx d) → Single rx d (e.kids L) (e.sat (truth L rx d))
  | .field k x, _, _, h => field_single L rx d k x _ h
  | .ops k os, h1, _, h => by
    obtain ⟨o, rfl⟩ := List.length_eq_one_iff.mp h1
    have := field_single L rx d k o.2 o.1 (h o (by simp))
    simp only [Cond.kids, Cond.sat, List.map_cons, List.map_nil, List.mem_singleton, forall_eq]
    exact this
  | .and ds, _, hs, h => and_single ds hs h
  | .or ds, _, hs, h => or_single ds hs h
  | .not d', _, hs, h => not_single d' hs h
theorem and_single : ∀ ds : List Dict, shapedDicts ds → eachDicts (decided L rx d) ds →
    Single rx d [.and (dictsKids L ds)] (allSat (truth L rx d) ds)
  | ds, hs, h => by
    obtain ⟨h1, h2⟩ := dicts_means ds hs h
    exact ⟨_, rfl, h1, h2⟩
theorem or_single : ∀ ds : List Dict, singleDicts ds → eachDicts (decided L rx d) ds →
    Single rx d [.or (dictsKids L ds)] (someSat (truth L rx d) ds)
  | ds, hs, h => by
    obtain ⟨h1, h2⟩ := dicts_alts ds hs h
    exact ⟨_, rfl, h1, h2⟩
theorem not_single : ∀ d' : Dict, d'.single → d'.each (decided L rx d) → Single rx d [.not (d'.kids L)] (¬ d'.sat (truth L rx d))
  | d', hs, h => by
    obtain ⟨f, h1, h2, h3⟩ := dict_single d' hs h
    refine ⟨_, rfl, ?_, ?_⟩
    · rw [h1]; exact h2
    · rw [h1]; simp only [Filter.holds, notHolds, h3]
theorem dict_single : ∀ d' : Dict, d'.single → d'.each (decided L rx d) → Single rx d (d'.kids L) (d'.sat (truth L rx d))
  | .mk [], hs, _ => hs.elim
  | .mk [e], hs, h => by
    have := cond_single e hs.1 hs.2 h.1
    simp only [Dict.kids, entriesKids, List.append_nil, Dict.sat, entriesSat, and_true]
    exact this
  | .mk (_ :: _ :: _), hs, _ => hs.elim
theorem dict_means : ∀ d' : Dict, d'.shaped → d'.each (decided L rx d) → Means rx d (d'.kids L) (d'.sat (truth L rx d))
  | .mk es, hs, h => entries_means es hs h
theorem entries_means : ∀ es : List Cond, shapedEntries es → eachEntries (decided L rx d) es →
    Means rx d (entriesKids L es) (entriesSat (truth L rx d) es)
  | [], _, _ => ⟨trivial, by simp [entriesKids, allHold, entriesSat]⟩
  | e :: es, hs, h => by
    obtain ⟨h1, h2⟩ := cond_means e hs.1 h.1
    obtain ⟨g1, g2⟩ := entries_means es hs.2 h.2
    exact ⟨(allProper_append _ _ _).mpr ⟨h1, g1⟩, by rw [entriesKids, allHold_append, h2, g2]; rfl⟩
theorem dicts_means : ∀ ds : List Dict, shapedDicts ds → eachDicts (decided L rx d) ds →
    Means rx d (dictsKids L ds) (allSat (truth L rx d) ds)
  | [], _, _ => ⟨trivial, by simp [dictsKids, allHold, allSat]⟩
  | d' :: ds, hs, h => by
    obtain ⟨h1, h2⟩ := dict_means d' hs.1 h.1
    obtain ⟨g1, g2⟩ := dicts_means ds hs.2 h.2
    exact ⟨(allProper_append _ _ _).mpr ⟨h1, g1⟩, by rw [dictsKids, allHold_append, h2, g2]; rfl⟩
theorem dicts_alts : ∀ ds : List Dict, singleDicts ds → eachDicts (decided L rx d) ds →
    Alts rx d (dictsKids L ds) (someSat (truth L rx d) ds)
  | [], _, _ => ⟨trivial, by simp [dictsKids, anyHolds, someSat]⟩
  | d' :: ds, hs, h => by
    obtain ⟨f, h0, h1, h2⟩ := dict_single d' hs.1 h.1
    obtain ⟨g1, g2⟩ := dicts_alts ds hs.2 h.2
    refine ⟨(allProper_append _ _ _).mpr ⟨by rw [h0]; exact ⟨h1, trivial⟩, g1⟩, ?_⟩
    rw [dictsKids, anyHolds_append, g2, h0]
    simp only [anyHolds, or_false, h2]
    rfl
end

end

end Verif.Py
