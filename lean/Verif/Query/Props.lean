import Verif.Query.Spec
import Verif.DocVal.Props
import Mathlib.Data.List.Nodup
import Mathlib.Data.List.Perm.Subperm
/-!
C19: limits.  C22: Boolean filters.
-/
namespace Verif.Query

open Verif.DocVal Verif.PhysKey

/-! ### limits -/

theorem limOk_iff (lim : Int) (n : Nat) : limOk lim n = true ↔ lim = -1 ∨ (n : Int) < lim := by simp [limOk]

/-- What is left after `n` documents. -/
def restN (lim : Int) (n : Nat) (ds : List Doc) : List Doc := if lim = -1 then ds else ds.take (lim.toNat - n)

theorem inc_ok {n m : Nat} (h : n + (m + 1) < 2 ^ 31) : inc n = .ok (n + 1) := by
  unfold inc; rw [if_pos (by omega)]

theorem restN_cons (lim : Int) (n : Nat) (d : Doc) (ds : List Doc) (h : limOk lim n = true) :
    restN lim n (d :: ds) = if limOk lim (n + 1) then d :: restN lim (n + 1) ds else [d] := by
  rw [limOk_iff] at h
  unfold restN
  by_cases hl : lim = -1
  · simp [hl, limOk]
  · have h2 : (n : Int) < lim := by rcases h with h | h; exact absurd h hl; exact h
    rw [if_neg hl, if_neg hl]
    have e : lim.toNat - n = (lim.toNat - (n + 1)) + 1 := by omega
    rw [e, List.take_succ_cons]
    by_cases h3 : limOk lim (n + 1) = true
    · rw [if_pos h3]
    · rw [if_neg h3]
      rw [limOk_iff] at h3
      have : lim.toNat - (n + 1) = 0 := by omega
      rw [this]; rfl

theorem scanLoop_eq (lim : Int) (p : Doc → Res Bool) : ∀ (ds : List Doc) (n : Nat), Defined p ds → limOk lim n = true →
    n + ds.length < 2 ^ 31 → scanLoop lim p ds n = .ok (restN lim n (accepted p ds)) := by
  intro ds
  induction ds with
  | nil => intro n _ _ _; simp [scanLoop, accepted, restN]
  | cons d ds ih =>
    intro n hd hl hn
    rw [List.length_cons] at hn
    obtain ⟨b, hb⟩ := hd d (by simp)
    have hd' : Defined p ds := fun x hx => hd x (by simp [hx])
    simp only [scanLoop, hb, Res.bind]
    cases b with
    | false =>
      have e : accepted p (d :: ds) = accepted p ds := by simp [accepted, hb]
      rw [e]
      exact ih n hd' hl (by omega)
    | true =>
      have e : accepted p (d :: ds) = d :: accepted p ds := by simp [accepted, hb]
      rw [e, restN_cons lim n d _ hl, inc_ok (m := ds.length) (by omega)]
      simp only [if_true]
      by_cases h3 : limOk lim (n + 1) = true
      · rw [if_pos h3, if_pos h3, ih (n + 1) hd' h3 (by omega)]
      · rw [if_neg h3, if_neg h3]

theorem restN_zero (lim : Int) (ds : List Doc) : restN lim 0 ds = firstN lim ds := by simp [restN, firstN]

theorem firstN_none (lim : Int) (ds : List Doc) (h : ¬ limOk lim 0 = true) : firstN lim ds = [] := by
  rw [limOk_iff] at h
  unfold firstN
  rw [if_neg (by omega), show lim.toNat = 0 by omega]
  rfl

theorem fullScan_eq (lim : Int) (p : Doc → Res Bool) (ds : List Doc) (hd : Defined p ds) (hn : ds.length < 2 ^ 31) :
    fullScan lim p ds = if limOk lim 0 then .ok (some (firstN lim (accepted p ds))) else .ok none := by
  unfold fullScan
  by_cases h : limOk lim 0 = true
  · rw [if_pos h, if_pos h, scanLoop_eq lim p ds 0 hd h (by omega), restN_zero]; rfl
  · rw [if_neg h, if_neg h]

/-- A scan with a limit answers with the first documents of the scan without one. -/
theorem C19_scan (lim : Int) (p : Doc → Res Bool) (ds : List Doc) (hd : Defined p ds) (hn : ds.length < 2 ^ 31) :
    Answers (fullScan lim p ds) (firstN lim (accepted p ds)) := by
  rw [fullScan_eq lim p ds hd hn]
  by_cases h : limOk lim 0 = true
  · rw [if_pos h]; exact Or.inl rfl
  · rw [if_neg h]; exact Or.inr ⟨firstN_none lim _ h, rfl⟩

theorem transferLoop_eq (lim : Int) : ∀ (ds : List Doc) (n : Nat), limOk lim n = true → n + ds.length < 2 ^ 31 →
    transferLoop lim ds n = .ok (restN lim n ds) := by
  intro ds
  induction ds with
  | nil => intro n _ _; simp [transferLoop, restN]
  | cons d ds ih =>
    intro n hl hn
    rw [List.length_cons] at hn
    simp only [transferLoop]
    rw [restN_cons lim n d _ hl, inc_ok (m := ds.length) (by omega)]
    simp only [Res.bind]
    by_cases h3 : limOk lim (n + 1) = true
    · rw [if_pos h3, if_pos h3, ih (n + 1) h3 (by omega)]
    · rw [if_neg h3, if_neg h3]

/-- A scan of the whole collection with a limit answers with its first documents. -/
theorem C19_transfer (lim : Int) (ds : List Doc) (hn : ds.length < 2 ^ 31) : Answers (transferScan lim ds) (firstN lim ds) := by
  unfold transferScan
  by_cases h : limOk lim 0 = true
  · rw [if_pos h, transferLoop_eq lim ds 0 h (by omega), restN_zero]; exact Or.inl rfl
  · rw [if_neg h]; exact Or.inr ⟨firstN_none lim _ h, rfl⟩

/-- Filtering the output of another operator, with a limit. -/
theorem C19_match (lim : Int) (p : Doc → Res Bool) (ds : List Doc) (hd : Defined p ds) (hn : ds.length < 2 ^ 31) :
    Answers (matchOp lim p (some ds)) (firstN lim (accepted p ds)) := C19_scan lim p ds hd hn

theorem accepted_ok (q : Doc → Bool) (ds : List Doc) : accepted (fun d => .ok (q d)) ds = ds.filter q := by
  unfold accepted
  congr 1
  funext d
  cases h : q d <;> simp [h]

theorem defined_ok (q : Doc → Bool) (ds : List Doc) : Defined (fun d => .ok (q d)) ds := fun d _ => ⟨q d, rfl⟩

theorem andOp_eq (lim : Int) (ls rs : List Doc) (hn : ls.length < 2 ^ 31) :
    Answers (andOp lim (some ls) (some rs)) (firstN lim (ls.filter fun d => hasId rs d.id)) := by
  have := C19_scan lim (fun d => .ok (hasId rs d.id)) ls (defined_ok _ ls) hn
  rwa [accepted_ok] at this

theorem notOp_eq (lim : Int) (store ls : List Doc) (hn : store.length < 2 ^ 31) :
    Answers (notOp lim store (some ls)) (firstN lim (store.filter fun d => !hasId ls d.id)) := by
  have := C19_scan lim (fun d => .ok (!hasId ls d.id)) store (defined_ok _ store) hn
  rwa [accepted_ok] at this

/-- Documents of the right list not yet in the output, each `_id` once. -/
def orRest : List Doc → List Doc → List Doc
  | _, [] => []
  | out, d :: ds => if hasId out d.id then orRest out ds else d :: orRest (out ++ [d]) ds

theorem restN_nil (lim : Int) (n : Nat) : restN lim n [] = [] := by simp [restN]

theorem orLoop_eq (lim : Int) : ∀ (ds out : List Doc) (n : Nat), limOk lim n = true → n + ds.length < 2 ^ 31 →
    orLoop lim out ds n = .ok (out ++ restN lim n (orRest out ds)) := by
  intro ds
  induction ds with
  | nil => intro out n _ _; simp [orLoop, orRest, restN_nil]
  | cons d ds ih =>
    intro out n hl hn
    rw [List.length_cons] at hn
    simp only [orLoop, orRest]
    by_cases h : hasId out d.id = true
    · rw [if_pos h, if_pos h]; exact ih out n hl (by omega)
    · rw [if_neg h, if_neg h, restN_cons lim n d _ hl, inc_ok (m := ds.length) (by omega)]
      simp only [Res.bind]
      by_cases h3 : limOk lim (n + 1) = true
      · rw [if_pos h3, if_pos h3, ih _ _ h3 (by omega)]; simp
      · rw [if_neg h3, if_neg h3]

theorem orRest_cons (d : Doc) (out ds : List Doc) : restN (-1) 0 (orRest (d :: out) ds) = orRest (d :: out) ds := by simp [restN]

theorem orFirst_eq (lim : Int) (rs : List Doc) : ∀ (ds out : List Doc) (n : Nat), limOk lim n = true → n + ds.length + rs.length < 2 ^ 31 →
    orFirst lim rs out ds n = .ok (out ++ restN lim n (ds ++ orRest (out ++ ds) rs)) := by
  intro ds
  induction ds with
  | nil => intro out n hl hn; simp only [orFirst]; rw [orLoop_eq lim rs out n hl (by simpa using hn)]; simp
  | cons d ds ih =>
    intro out n hl hn
    rw [List.length_cons] at hn
    simp only [orFirst]
    rw [List.cons_append, restN_cons lim n d _ hl, inc_ok (m := ds.length) (by omega)]
    simp only [Res.bind]
    by_cases h3 : limOk lim (n + 1) = true
    · rw [if_pos h3, if_pos h3, ih _ _ h3 (by omega)]; simp
    · rw [if_neg h3, if_neg h3]

theorem orOp_eq (lim : Int) (ls rs : List Doc) (hn : ls.length + rs.length < 2 ^ 31) :
    Answers (orOp lim (some ls) (some rs)) (firstN lim (ls ++ orRest ls rs)) := by
  unfold orOp
  by_cases h : limOk lim 0 = true
  · rw [if_pos h]
    simp only []
    rw [orFirst_eq lim rs ls [] 0 h (by omega), restN_zero]
    exact Or.inl rfl
  · rw [if_neg h]; exact Or.inr ⟨firstN_none lim _ h, rfl⟩

/-- Merges with a limit answer with the first documents of the merge without one. -/
theorem C19_merge (lim : Int) (store ls rs : List Doc) (hs : store.length < 2 ^ 31) (hn : ls.length + rs.length < 2 ^ 31) :
    (∃ all, Answers (andOp (-1) (some ls) (some rs)) all ∧ Answers (andOp lim (some ls) (some rs)) (firstN lim all)) ∧
    (∃ all, Answers (orOp (-1) (some ls) (some rs)) all ∧ Answers (orOp lim (some ls) (some rs)) (firstN lim all)) ∧
    (∃ all, Answers (notOp (-1) store (some ls)) all ∧ Answers (notOp lim store (some ls)) (firstN lim all)) := by
  refine ⟨⟨_, ?_, andOp_eq lim ls rs (by omega)⟩, ⟨_, ?_, orOp_eq lim ls rs hn⟩, ⟨_, ?_, notOp_eq lim store ls hs⟩⟩
  · exact andOp_eq (-1) ls rs (by omega)
  · exact orOp_eq (-1) ls rs hn
  · exact notOp_eq (-1) store ls hs

/-- What the limits let through: all, the first `n`, none. -/
theorem C19_firstN (ds : List Doc) : firstN (-1) ds = ds ∧ (∀ n : Nat, firstN n ds = ds.take n ∧ (firstN n ds).length = min n ds.length) ∧
    ∀ n : Int, n < -1 → firstN n ds = [] := by
  refine ⟨by simp [firstN], ?_, ?_⟩
  · intro n
    have : firstN n ds = ds.take n := by
      unfold firstN
      rw [if_neg (by omega)]
      simp
    exact ⟨this, by rw [this, List.length_take]⟩
  · intro n hn
    unfold firstN
    rw [if_neg (by omega), show n.toNat = 0 by omega]
    rfl

/-- A collection and a filter for the examples: `a` is 1, 2, 3 in three documents, the filter is `a ≥ 2`. -/
def exStore : List Doc := [⟨1, [([97], .scalar (.int .i64 1))]⟩, ⟨2, [([97], .scalar (.int .i64 2))]⟩, ⟨3, [([97], .scalar (.int .i64 3))]⟩]
def exEnv : Env := ⟨fun n => if n = 0 then some (.int .i64 2) else none, fun _ _ => .ok false⟩
def exFilter : Filter Leaf := .leaf (.cmp .gte [97] (.param 0))

example : Defined (pred exEnv exFilter) exStore ∧ accepted (pred exEnv exFilter) exStore = exStore.drop 1 ∧
    fullScan 1 (pred exEnv exFilter) exStore = .ok (some [⟨2, [([97], .scalar (.int .i64 2))]⟩]) := by
  have h : ∀ d ∈ exStore, pred exEnv exFilter d = .ok true ∨ pred exEnv exFilter d = .ok false := by decide +kernel
  refine ⟨fun d hd => ?_, by decide +kernel, by decide +kernel⟩
  rcases h d hd with h | h
  · exact ⟨_, h⟩
  · exact ⟨_, h⟩

/-! ### Boolean filters -/

/-- The full claim of C22: a filter is decided for every document, by the Boolean combination of its leaves. -/
def C22_claim : Prop := ∀ (env : Env) (f : Filter Leaf) (d : Doc), ∃ b, pred env f d = .ok b ∧ (b = true ↔ Sat env d f)

mutual
theorem check_holds {α : Type} (p : α → Res Bool) : ∀ f : Filter α, f.proper (fun a => ∃ b, p a = .ok b) →
    ∃ b, check p f = .ok b ∧ (b = true ↔ f.holds (fun a => p a = .ok true))
  | .leaf a => by
    intro h
    simp only [Filter.proper] at h
    obtain ⟨b, hb⟩ := h
    refine ⟨b, by simp [check, hb], ?_⟩
    simp [Filter.holds, hb]
  | .and fs => by
    intro h
    simp only [Filter.proper] at h
    obtain ⟨b, h1, h2⟩ := checkAnd_holds p fs h
    exact ⟨b, by simp [check, h1], by simp [Filter.holds, h2]⟩
  | .or fs => by
    intro h
    simp only [Filter.proper] at h
    obtain ⟨b, h1, h2⟩ := checkOr_holds p fs h
    exact ⟨b, by simp [check, h1], by simp [Filter.holds, h2]⟩
  | .not fs => by
    intro h
    simp only [Filter.proper] at h
    obtain ⟨b, h1, h2⟩ := checkNot_holds p fs h
    exact ⟨b, by simp [check, h1], by simp [Filter.holds, h2]⟩
theorem checkAnd_holds {α : Type} (p : α → Res Bool) : ∀ fs : List (Filter α), allProper (fun a => ∃ b, p a = .ok b) fs →
    ∃ b, checkAnd p fs = .ok b ∧ (b = true ↔ allHold (fun a => p a = .ok true) fs)
  | [] => fun _ => ⟨true, by simp [checkAnd], by simp [allHold]⟩
  | f :: fs => by
    intro h
    simp only [allProper] at h
    obtain ⟨b, h1, h2⟩ := check_holds p f h.1
    obtain ⟨c, h3, h4⟩ := checkAnd_holds p fs h.2
    refine ⟨b && c, ?_, ?_⟩
    · simp only [checkAnd, h1, Res.bind]; cases b <;> simp [h3]
    · simp only [allHold, Bool.and_eq_true, h2, h4]
theorem checkOr_holds {α : Type} (p : α → Res Bool) : ∀ fs : List (Filter α), allProper (fun a => ∃ b, p a = .ok b) fs →
    ∃ b, checkOr p fs = .ok b ∧ (b = true ↔ anyHolds (fun a => p a = .ok true) fs)
  | [] => fun _ => ⟨false, by simp [checkOr], by simp [anyHolds]⟩
  | f :: fs => by
    intro h
    simp only [allProper] at h
    obtain ⟨b, h1, h2⟩ := check_holds p f h.1
    obtain ⟨c, h3, h4⟩ := checkOr_holds p fs h.2
    refine ⟨b || c, ?_, ?_⟩
    · simp only [checkOr, h1, Res.bind]; cases b <;> simp [h3]
    · simp only [anyHolds, Bool.or_eq_true, h2, h4]
theorem checkNot_holds {α : Type} (p : α → Res Bool) : ∀ fs : List (Filter α), oneProper (fun a => ∃ b, p a = .ok b) fs →
    ∃ b, checkNot p fs = .ok b ∧ (b = true ↔ notHolds (fun a => p a = .ok true) fs)
  | [] => fun h => by simp [oneProper] at h
  | [f] => by
    intro h
    simp only [oneProper] at h
    obtain ⟨b, h1, h2⟩ := check_holds p f h
    refine ⟨!b, ?_, ?_⟩
    · simp [checkNot, h1, Res.bind]
    · simp only [notHolds, ← h2]; cases b <;> simp
  | f :: g :: fs => fun h => by simp [oneProper] at h
end

/-- A filter every leaf of which gives an answer, and every `not` of which has one child, is decided as the Boolean
combination of its leaves. -/
theorem C22_filter_partial (env : Env) (f : Filter Leaf) (d : Doc) (h : f.proper (leafDefined env d)) :
    ∃ b, pred env f d = .ok b ∧ (b = true ↔ Sat env d f) := check_holds _ f h

theorem allHold_iff {α : Type} (P : α → Prop) (fs : List (Filter α)) : allHold P fs ↔ ∀ f ∈ fs, f.holds P := by
  induction fs with
  | nil => simp [allHold]
  | cons f fs ih => simp [allHold, ih]

theorem anyHolds_iff {α : Type} (P : α → Prop) (fs : List (Filter α)) : anyHolds P fs ↔ ∃ f ∈ fs, f.holds P := by
  induction fs with
  | nil => simp [anyHolds]
  | cons f fs ih => simp [anyHolds, ih]

/-- What the combinations mean: every, some, not. -/
theorem C22_meaning (env : Env) (d : Doc) (f : Filter Leaf) (fs : List (Filter Leaf)) (a : Leaf) :
    (Sat env d (.leaf a) ↔ checkLeaf env d none a = .ok true) ∧ (Sat env d (.and fs) ↔ ∀ f ∈ fs, Sat env d f) ∧
    (Sat env d (.or fs) ↔ ∃ f ∈ fs, Sat env d f) ∧ (Sat env d (.not [f]) ↔ ¬ Sat env d f) := by
  refine ⟨?_, ?_, ?_, ?_⟩
  · simp [Sat, Filter.holds, leafTrue]
  · simp only [Sat, Filter.holds, allHold_iff]
  · simp only [Sat, Filter.holds, anyHolds_iff]
  · simp only [Sat, Filter.holds, notHolds]

/-- A comparison of an integer field with an integer parameter is the comparison of the numbers, if the type of the
field holds the parameter. -/
theorem C22_compare (env : Env) (d : Doc) (c : Cmp) (k : Bytes) (n : Nat) (t u : ITy) (a b : Int)
    (hf : d.get k = .scalar (.int t a)) (hp : env.params n = some (.int u b)) (ha : t.fits a) (hb : t.fits b) (hu : u.fits b) (hau : u.fits a) :
    checkLeaf env d none (.cmp c k (.param n)) = .ok true ↔ c.rel a b := by
  have hk : compareV (.int t a) (.int u b) = .ok (by3 (fun x y : Int => decide (x < y)) a b) := by
    have h1 : Kind.has (.ints [t, u]) (.int t a) := by simp [Kind.has, ha, hau]
    have h2 : Kind.has (.ints [t, u]) (.int u b) := by simp [Kind.has, hb, hu]
    rw [kind_compare _ _ _ h1 h2]; rfl
  simp only [checkLeaf, hp, hf, compareTo, hk, Res.bind, Res.ok.injEq]
  by_cases h1 : a < b
  · have h2 : ¬ b < a := by omega
    cases c <;> simp [Cmp.ok, Cmp.rel, by3, h1] <;> omega
  · by_cases h2 : b < a
    · cases c <;> simp [Cmp.ok, Cmp.rel, by3, h1, h2] <;> omega
    · cases c <;> simp [Cmp.ok, Cmp.rel, by3, h1, h2] <;> omega

example : Filter.proper (leafDefined exEnv ⟨2, [([97], .scalar (.int .i64 2))]⟩) (.not [.and [exFilter, .or [exFilter, .leaf .allFalse]]]) ∧
    pred exEnv (.not [.and [exFilter, .or [exFilter, .leaf .allFalse]]]) ⟨2, [([97], .scalar (.int .i64 2))]⟩ = .ok false := by
  have h1 : leafDefined exEnv ⟨2, [([97], .scalar (.int .i64 2))]⟩ (.cmp .gte [97] (.param 0)) := ⟨true, by decide +kernel⟩
  have h2 : leafDefined exEnv ⟨2, [([97], .scalar (.int .i64 2))]⟩ .allFalse := ⟨false, rfl⟩
  refine ⟨?_, by decide +kernel⟩
  simp only [Filter.proper, oneProper, allProper, exFilter]
  exact ⟨h1, ⟨h1, h2, trivial⟩, trivial⟩

/-- `not` without a child is undefined. -/
theorem C22_not_fails : ¬ C22_claim := by
  intro h
  obtain ⟨b, hb, _⟩ := h exEnv (.not []) ⟨1, []⟩
  cases hb

/-- A regular expression taken from another field of the same document dereferences a null pointer. -/
theorem C22_regex_fails : ¬ C22_claim := by
  intro h
  obtain ⟨b, hb, _⟩ := h exEnv (.leaf (.regex [97] (.key [98]))) ⟨1, [([97], .scalar (.str [120])), ([98], .scalar (.str [120]))]⟩
  have : pred exEnv (.leaf (.regex [97] (.key [98]))) ⟨1, [([97], .scalar (.str [120])), ([98], .scalar (.str [120]))]⟩ = .ub := by decide +kernel
  rw [this] at hb
  cases hb

/-- A document without the field passes `> 2`, `>= 2` and `!= 2`. -/
theorem C22_missing_fails (d : Doc) (k : Bytes) (h : d.get k = .missing) :
    checkLeaf exEnv d none (.cmp .gt k (.param 0)) = .ok true ∧ checkLeaf exEnv d none (.cmp .gte k (.param 0)) = .ok true ∧
    checkLeaf exEnv d none (.cmp .ne k (.param 0)) = .ok true ∧ checkLeaf exEnv d none (.cmp .lt k (.param 0)) = .ok false := by
  simp [checkLeaf, exEnv, h, compareTo, Res.bind, Cmp.ok]

/-! ### merges -/

theorem hasId_iff (ds : List Doc) (i : Nat) : hasId ds i = true ↔ ∃ d ∈ ds, d.id = i := by simp [hasId]

theorem unique_eq {ds : List Doc} (h : UniqueIds ds) {a b : Doc} (ha : a ∈ ds) (hb : b ∈ ds) (e : a.id = b.id) : a = b := by
  unfold UniqueIds at h
  exact List.inj_on_of_nodup_map h ha hb e

theorem unique_filter {ds : List Doc} (p : Doc → Bool) (h : UniqueIds ds) : UniqueIds (ds.filter p) :=
  (List.Sublist.map Doc.id List.filter_sublist).nodup h

theorem orRest_spec (ds : List Doc) : ∀ out : List Doc, UniqueIds out →
    UniqueIds (out ++ orRest out ds) ∧ (∀ x ∈ orRest out ds, x ∈ ds) ∧ ∀ x ∈ ds, hasId (out ++ orRest out ds) x.id = true := by
  induction ds with
  | nil => intro out h; simpa [orRest] using h
  | cons d ds ih =>
    intro out h
    simp only [orRest]
    by_cases hd : hasId out d.id = true
    · rw [if_pos hd]
      obtain ⟨h1, h2, h3⟩ := ih out h
      refine ⟨h1, fun x hx => by simp [h2 x hx], ?_⟩
      intro x hx
      rcases List.mem_cons.mp hx with rfl | hx
      · rw [hasId_iff] at hd ⊢
        obtain ⟨y, hy, e⟩ := hd
        exact ⟨y, by simp [hy], e⟩
      · exact h3 x hx
    · rw [if_neg hd]
      have hu : UniqueIds (out ++ [d]) := by
        unfold UniqueIds at h ⊢
        rw [List.map_append, List.nodup_append]
        refine ⟨h, by simp, ?_⟩
        intro a ha b hb e
        simp at hb
        subst hb
        apply hd
        rw [hasId_iff]
        obtain ⟨y, hy, e'⟩ := List.mem_map.mp ha
        exact ⟨y, hy, by rw [e', e]⟩
      obtain ⟨h1, h2, h3⟩ := ih (out ++ [d]) hu
      rw [List.append_assoc, List.singleton_append] at h1 h3
      refine ⟨h1, ?_, ?_⟩
      · intro x hx
        rcases List.mem_cons.mp hx with rfl | hx
        · simp
        · simp [h2 x hx]
      · intro x hx
        rcases List.mem_cons.mp hx with rfl | hx
        · rw [hasId_iff]; exact ⟨x, by simp, rfl⟩
        · exact h3 x hx

theorem firstN_all (ds : List Doc) : firstN (-1) ds = ds := by simp [firstN]

theorem unique_length {store ds : List Doc} (hu : UniqueIds ds) (h : ∀ d ∈ ds, d ∈ store) : ds.length ≤ store.length := by
  have : ds.Nodup := List.Nodup.of_map _ hu
  exact (List.subperm_of_subset this h).length_le

/-- Answer of an operator without limit is some output. -/
theorem answers_all {r : Res (Option (List Doc))} {ds : List Doc} (h : Answers r ds) (hr : r ≠ .ok none) : r = .ok (some ds) := by
  rcases h with h | ⟨_, h⟩
  · exact h
  · exact absurd h hr

theorem fullScan_some (p : Doc → Res Bool) (ds : List Doc) (hd : Defined p ds) (hn : ds.length < 2 ^ 31) :
    fullScan (-1) p ds = .ok (some (accepted p ds)) := by
  rw [fullScan_eq (-1) p ds hd hn, if_pos (by rfl), firstN_all]

theorem orOp_some (ls rs : List Doc) (hn : ls.length + rs.length < 2 ^ 31) :
    orOp (-1) (some ls) (some rs) = .ok (some (ls ++ orRest ls rs)) := by
  have := orOp_eq (-1) ls rs hn
  rw [firstN_all] at this
  apply answers_all this
  unfold orOp
  rw [if_pos (by rfl)]
  simp only []
  rw [orFirst_eq (-1) rs ls [] 0 rfl (by omega)]
  simp [Res.bind]

/-- Evaluating `and`, `or` and `not` by merging the lists of the sub-filters gives each document that satisfies the
filter once, and no other. -/
theorem C22_merge_partial (env : Env) (store : List Doc) (pl : Plan) (hu : UniqueIds store) (hn : store.length < 2 ^ 30)
    (hl : pl.unlimited) (hd : ∀ d ∈ store, pl.filter.proper (leafDefined env d)) :
    ∃ out, pl.run env store = .ok (some out) ∧ UniqueIds out ∧ ∀ d, d ∈ out ↔ d ∈ store ∧ Sat env d pl.filter := by
  induction pl with
  | scan lim f =>
    simp only [Plan.unlimited] at hl
    subst hl
    have hdef : Defined (pred env f) store := fun d hd' => by
      obtain ⟨b, hb, _⟩ := C22_filter_partial env f d (hd d hd'); exact ⟨b, hb⟩
    refine ⟨accepted (pred env f) store, ?_, unique_filter _ hu, ?_⟩
    · simp only [Plan.run]; exact fullScan_some _ _ hdef (by omega)
    · intro d
      simp only [accepted, List.mem_filter, decide_eq_true_eq, Plan.filter]
      constructor
      · rintro ⟨h1, h2⟩
        obtain ⟨b, hb, hs⟩ := C22_filter_partial env f d (hd d h1)
        rw [hb] at h2; injection h2 with h2
        exact ⟨h1, hs.mp h2⟩
      · rintro ⟨h1, h2⟩
        obtain ⟨b, hb, hs⟩ := C22_filter_partial env f d (hd d h1)
        rw [hb, hs.mpr h2]
        exact ⟨h1, rfl⟩
  | and lim l r ihl ihr =>
    obtain ⟨rfl, hl1, hl2⟩ := hl
    simp only [Plan.filter, Filter.proper, allProper] at hd
    obtain ⟨a, ra, ua, ma⟩ := ihl hl1 (fun d h => (hd d h).1)
    obtain ⟨b, rb, ub, mb⟩ := ihr hl2 (fun d h => (hd d h).2.1)
    have la : a.length ≤ store.length := unique_length ua (fun d h => ((ma d).mp h).1)
    refine ⟨a.filter fun d => hasId b d.id, ?_, unique_filter _ ua, ?_⟩
    · simp only [Plan.run, ra, rb, Res.bind, andOp]
      rw [fullScan_some _ _ (defined_ok _ _) (by omega), accepted_ok]
    · intro d
      simp only [List.mem_filter, hasId_iff, Plan.filter]
      rw [(C22_meaning env d l.filter [l.filter, r.filter] .allTrue).2.1]
      simp only [List.mem_cons, List.not_mem_nil, or_false, forall_eq_or_imp, forall_eq]
      rw [ma d]
      constructor
      · rintro ⟨⟨h1, h2⟩, y, hy, e⟩
        have hys := (mb y).mp hy
        have := unique_eq hu hys.1 h1 e
        subst this
        exact ⟨h1, h2, hys.2⟩
      · rintro ⟨h1, h2, h3⟩
        exact ⟨⟨h1, h2⟩, d, (mb d).mpr ⟨h1, h3⟩, rfl⟩
  | or lim l r ihl ihr =>
    obtain ⟨rfl, hl1, hl2⟩ := hl
    simp only [Plan.filter, Filter.proper, allProper] at hd
    obtain ⟨a, ra, ua, ma⟩ := ihl hl1 (fun d h => (hd d h).1)
    obtain ⟨b, rb, ub, mb⟩ := ihr hl2 (fun d h => (hd d h).2.1)
    have la : a.length ≤ store.length := unique_length ua (fun d h => ((ma d).mp h).1)
    have lb : b.length ≤ store.length := unique_length ub (fun d h => ((mb d).mp h).1)
    obtain ⟨h1, h2, h3⟩ := orRest_spec b a ua
    refine ⟨a ++ orRest a b, ?_, h1, ?_⟩
    · simp only [Plan.run, ra, rb, Res.bind]
      exact orOp_some a b (by omega)
    · intro d
      simp only [Plan.filter]
      rw [(C22_meaning env d l.filter [l.filter, r.filter] .allTrue).2.2.1]
      simp only [List.mem_cons, List.not_mem_nil, or_false, exists_eq_or_imp, exists_eq_left]
      have hin : ∀ x ∈ a ++ orRest a b, x ∈ store ∧ (Sat env x l.filter ∨ Sat env x r.filter) := by
        intro x hx
        rcases List.mem_append.mp hx with hx | hx
        · have := (ma x).mp hx; exact ⟨this.1, Or.inl this.2⟩
        · have := (mb x).mp (h2 x hx); exact ⟨this.1, Or.inr this.2⟩
      constructor
      · exact hin d
      · rintro ⟨hs, hsat | hsat⟩
        · exact List.mem_append.mpr (Or.inl ((ma d).mpr ⟨hs, hsat⟩))
        · have := h3 d ((mb d).mpr ⟨hs, hsat⟩)
          rw [hasId_iff] at this
          obtain ⟨y, hy, e⟩ := this
          have := unique_eq hu (hin y hy).1 hs e
          subst this
          exact hy
  | not lim l ihl =>
    obtain ⟨rfl, hl1⟩ := hl
    simp only [Plan.filter, Filter.proper, oneProper] at hd
    obtain ⟨a, ra, ua, ma⟩ := ihl hl1 hd
    refine ⟨store.filter fun d => !hasId a d.id, ?_, unique_filter _ hu, ?_⟩
    · simp only [Plan.run, ra, Res.bind, notOp]
      rw [fullScan_some _ _ (defined_ok _ _) (by omega), accepted_ok]
    · intro d
      simp only [List.mem_filter, Plan.filter]
      rw [(C22_meaning env d l.filter [] .allTrue).2.2.2]
      have : (!hasId a d.id) = true ↔ ¬ ∃ y ∈ a, y.id = d.id := by rw [← hasId_iff]; simp
      rw [this]
      constructor
      · rintro ⟨h1, h2⟩
        exact ⟨h1, fun hs => h2 ⟨d, (ma d).mpr ⟨h1, hs⟩, rfl⟩⟩
      · rintro ⟨h1, h2⟩
        refine ⟨h1, ?_⟩
        rintro ⟨y, hy, e⟩
        have hys := (ma y).mp hy
        have := unique_eq hu hys.1 h1 e
        subst this
        exact h2 hys.2

/-- The plan of the example: `a ≥ 2 and not (a ≥ 2 and false)`. -/
def exPlan : Plan := .and (-1) (.scan (-1) exFilter) (.not (-1) (.scan (-1) (.leaf .allFalse)))

example : UniqueIds exStore ∧ exPlan.unlimited ∧ exPlan.run exEnv exStore = .ok (some (exStore.drop 1)) := by
  refine ⟨by unfold UniqueIds; decide, ⟨rfl, rfl, rfl, rfl⟩, by decide +kernel⟩

/-- Limits inside a tree of merges change what it selects: the first match of one side need not be one of the other. -/
theorem C22_limit_fails : Plan.run exEnv exStore (.and 1 (.scan 1 (.leaf .allTrue)) (.scan 1 exFilter)) = .ok (some []) ∧
    Plan.run exEnv exStore (.and 1 (.scan (-1) (.leaf .allTrue)) (.scan (-1) exFilter)) = .ok (some [⟨2, [([97], .scalar (.int .i64 2))]⟩]) := by
  constructor <;> decide +kernel

end Verif.Query
