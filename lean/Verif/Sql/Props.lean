import Verif.Sql.Lemmas
import Verif.Query.SortProps
import Verif.Query.GroupProps
/-!
C54: the WHERE clause of a SELECT.
-/
namespace Verif.Sql

open Verif.DocVal Verif.Query Verif.Num Verif.LogVal Verif.PhysKey

theorem tr_plain (c : Cond) (hp : c.plain ∨ c.positive) : ∀ ps : List V, ∃ f ext, tr c ps = .ok (f, ps ++ ext) := by
  have lit : ∀ l : Lit, l ≠ .null → ∃ v, getValue (.lit l) = .ok v := by
    intro l hl
    cases l <;> first | exact absurd rfl hl | exact ⟨_, rfl⟩
  induction c with
  | op o x y =>
    intro ps
    cases o with
    | like => exact absurd hp (by cases x <;> cases y <;> simp [Cond.plain, Cond.positive])
    | other => exact absurd hp (by cases x <;> cases y <;> simp [Cond.plain, Cond.positive])
    | regexp =>
      cases x with
      | lit l => exact absurd hp (by simp [Cond.plain, Cond.positive])
      | expr l => exact absurd hp (by simp [Cond.plain, Cond.positive])
      | col t k => cases y with
        | col t' k' => exact absurd hp (by simp [Cond.plain, Cond.positive])
        | expr l => exact absurd hp (by simp [Cond.plain, Cond.positive])
        | lit l => cases l with
          | str p => exact ⟨.leaf (.regex k (.param (ps.length % 2 ^ 16))), [.str p], rfl⟩
          | _ => exact absurd hp (by simp [Cond.plain, Cond.positive])
    | cmp c =>
      cases x with
      | expr l => exact absurd hp (by cases y <;> simp [Cond.plain, Cond.positive])
      | col t k => cases y with
        | col t' k' => exact ⟨.leaf (.cmp c k (.key k')), [], by simp only [trOp, leafOf, Res.bind, List.append_nil, tr]⟩
        | expr l => exact absurd hp (by simp [Cond.plain, Cond.positive])
        | lit l =>
          obtain ⟨v, hv⟩ := lit l (by rcases hp with hp | hp; exact hp; exact hp.1)
          exact ⟨.leaf (.cmp c k (.param (ps.length % 2 ^ 16))), [v], by simp only [tr, trOp, hv, Res.bind, leafOf, addParam]⟩
      | lit l => cases y with
        | lit l' => exact absurd hp (by simp [Cond.plain, Cond.positive])
        | expr l => exact absurd hp (by simp [Cond.plain, Cond.positive])
        | col t k =>
          obtain ⟨v, hv⟩ := lit l (by rcases hp with hp | hp; exact hp.1; exact absurd hp id)
          exact ⟨.leaf (.cmp c k (.param (ps.length % 2 ^ 16))), [v], by simp only [tr, trOp, hv, Res.bind, leafOf, addParam]⟩
  | and l r ihl ihr =>
    intro ps
    obtain ⟨f, e, h⟩ := ihl (hp.imp (·.1) (·.1)) ps
    obtain ⟨g, e', h'⟩ := ihr (hp.imp (·.2) (·.2)) (ps ++ e)
    exact ⟨.and (andParts f ++ andParts g), e ++ e', by simp only [tr, h, Res.bind, h', List.append_assoc]⟩
  | or l r ihl ihr =>
    intro ps
    obtain ⟨f, e, h⟩ := ihl (hp.imp (·.1) (·.1)) ps
    obtain ⟨g, e', h'⟩ := ihr (hp.imp (·.2) (·.2)) (ps ++ e)
    exact ⟨.or (orParts f ++ orParts g), e ++ e', by simp only [tr, h, Res.bind, h', List.append_assoc]⟩
  | not c ih =>
    intro ps
    have hp' : c.plain := by
      rcases hp with hp | hp
      · cases c <;> first | exact absurd hp id | exact hp
      · exact absurd hp id
    obtain ⟨f, e, h⟩ := ih (Or.inl hp') ps
    exact ⟨.not (notParts f), e, by simp only [tr, h, Res.bind]⟩
  | kind => exact absurd hp (by simp [Cond.plain, Cond.positive])
  | func => exact absurd hp (by simp [Cond.plain, Cond.positive])
  | node => exact absurd hp (by simp [Cond.plain, Cond.positive])

theorem exact_plain (rx : Bytes → Bytes → Res Bool) (c : Cond) (ds : List Doc) (qs : List V) (hp : c.plain) (hc : qs.length + c.consts ≤ 2 ^ 16)
    (hr : ∀ d ∈ ds, c.ready rx (fieldsOf d)) : Exact rx c ds qs := by
  have one : ∀ d ∈ ds, _ := fun d hd => tr_sound true (fun ps => checkLeaf ⟨paramOf ps, rx⟩ d none) (DocOp rx d)
    (fun o x y => o.apply rx (x.value (fieldsOf d) d) (y.value (fieldsOf d) d)) (fun o x y ps => doc_op rx d o x y ps) c qs
    (good_doc rx d c hp (hr d hd)) hc
  obtain ⟨f, ext, h1⟩ := tr_plain c (Or.inl hp) qs
  refine ⟨f, ext, h1, plain_where c hp qs, ?_⟩
  intro d hd
  obtain ⟨g, e', k1, -, -, k4⟩ := one d hd
  obtain ⟨rfl, rfl⟩ := tr_det h1 k1
  obtain ⟨b, hb, hrel⟩ := k4 _ (List.prefix_refl _)
  refine ⟨b, hb, ?_⟩
  rw [Rel, if_pos rfl, ← truth_eq] at hrel
  rw [Selects, hrel]
  simp

theorem exact_lax (rx : Bytes → Bytes → Res Bool) (c : Cond) (ds : List Doc) (qs : List V) (hp : c.positive) (hc : qs.length + c.consts ≤ 2 ^ 16)
    (hr : ∀ d ∈ ds, c.lax (fieldsOf d)) : Exact rx c ds qs := by
  have one : ∀ d ∈ ds, _ := fun d hd => tr_sound false (fun ps => checkLeaf ⟨paramOf ps, rx⟩ d none) (LaxOp d)
    (fun o x y => o.apply rx (x.value (fieldsOf d) d) (y.value (fieldsOf d) d)) (fun o x y ps => lax_op rx d o x y ps) c qs
    (good_lax d c hp (hr d hd)) hc
  obtain ⟨f, ext, h1⟩ := tr_plain c (Or.inr hp) qs
  refine ⟨f, ext, h1, positive_where c hp qs, ?_⟩
  intro d hd
  obtain ⟨g, e', k1, -, -, k4⟩ := one d hd
  obtain ⟨rfl, rfl⟩ := tr_det h1 k1
  obtain ⟨b, hb, hrel⟩ := k4 _ (List.prefix_refl _)
  refine ⟨b, hb, ?_⟩
  rw [Rel, if_neg (by simp), ← truth_eq] at hrel
  exact hrel

theorem exact_scan (rx : Bytes → Bytes → Res Bool) (c : Cond) (ds : List Doc) (qs : List V) (hn : ds.length < 2 ^ 31) {f : Filter Leaf} {ext : List V}
    (h : ∀ d ∈ ds, ∃ b, pred ⟨paramOf (qs ++ ext), rx⟩ f d = .ok b ∧ (b = true ↔ Selects rx c d)) :
    Defined (pred ⟨paramOf (qs ++ ext), rx⟩ f) ds ∧ accepted (pred ⟨paramOf (qs ++ ext), rx⟩ f) ds = ds.filter (fun d => decide (Selects rx c d)) ∧
      fullScan (-1) (pred ⟨paramOf (qs ++ ext), rx⟩ f) ds = .ok (some (ds.filter fun d => decide (Selects rx c d))) := by
  have hd : Defined (pred ⟨paramOf (qs ++ ext), rx⟩ f) ds := fun d hd => by obtain ⟨b, hb, -⟩ := h d hd; exact ⟨b, hb⟩
  have ha : accepted (pred ⟨paramOf (qs ++ ext), rx⟩ f) ds = ds.filter (fun d => decide (Selects rx c d)) := by
    unfold accepted
    apply List.filter_congr
    intro d hd
    obtain ⟨b, hb, hs⟩ := h d hd
    rw [hb, decide_eq_decide, ← hs]
    simp
  refine ⟨hd, ha, ?_⟩
  rw [fullScan_eq _ _ _ hd hn, if_pos (show limOk (-1) 0 = true from rfl), ha]
  rfl

/-- The documents a SELECT with a WHERE clause goes on with. -/
theorem rows_where (fpu : Fpu) (rx : Bytes → Bytes → Res Bool) (store : List Doc) (c : Cond) (order : List SortKey) (hn : store.length < 2 ^ 31)
    (h : Exact rx c store []) (lim : Option Nat) :
    (trSelect ⟨[.star], some c, [], order, lim⟩).bind (rowsOf fpu rx store) = .ok (store.filter fun d => decide (Selects rx c d)) := by
  obtain ⟨f, ext, h1, h2, h3⟩ := h
  have hs := (exact_scan rx c store [] hn h3).2.2
  have e : trSelect ⟨[.star], some c, [], order, lim⟩ = .ok ⟨some f, [], order, [] ++ ext⟩ := by
    show ((trWhere c []).bind fun f => _) = _
    rw [h2, h1]
    rfl
  rw [e]
  show ((fullScan (-1) (pred ⟨paramOf ([] ++ ext), rx⟩ f) store).bind fun out => _) = _
  rw [hs]
  rfl

/-- C54 in full: for every condition made of comparisons, the answer is the documents for which SQL calls it true. -/
def C54_claim : Prop := ∀ (fpu : Fpu) (rx : Bytes → Bytes → Res Bool) (store : List Doc) (c : Cond), (∀ s p, ∃ b, rx s p = .ok b) →
  store.length < 2 ^ 31 → c.logical → ∀ r, runSelect fpu rx store (allWhere c) r → r = .ok (store.filter fun d => decide (Selects rx c d))

/-- The WHERE clause selects exactly the documents for which the condition is true, if the columns are on the left of `<`
and the like, no NOT is directly below a NOT, and the columns are present and of the type of what they are compared
with. -/
theorem C54_where_partial (fpu : Fpu) (rx : Bytes → Bytes → Res Bool) (store : List Doc) (c : Cond) (hn : store.length < 2 ^ 31)
    (hp : c.plain) (hc : c.consts ≤ 2 ^ 16) (hr : ∀ d ∈ store, c.ready rx (fieldsOf d)) (r : Res (List Doc)) :
    runSelect fpu rx store (allWhere c) r ↔ r = .ok (store.filter fun d => decide (Selects rx c d)) := by
  have h := rows_where fpu rx store c [] hn (exact_plain rx c store [] hp (by simpa using hc) hr) none
  unfold runSelect allWhere
  rw [h]
  rfl

/-- With `=`, `<`, `<=`, AND and OR only, documents without the column or with NULL in it are not selected. -/
theorem C54_nulls_partial (fpu : Fpu) (rx : Bytes → Bytes → Res Bool) (store : List Doc) (c : Cond) (hn : store.length < 2 ^ 31)
    (hp : c.positive) (hc : c.consts ≤ 2 ^ 16) (hr : ∀ d ∈ store, c.lax (fieldsOf d)) (r : Res (List Doc)) :
    runSelect fpu rx store (allWhere c) r ↔ r = .ok (store.filter fun d => decide (Selects rx c d)) := by
  have h := rows_where fpu rx store c [] hn (exact_lax rx c store [] hp (by simpa using hc) hr) none
  unfold runSelect allWhere
  rw [h]
  rfl

/-! ### examples -/

def exA : Bytes := [97]
def exB : Bytes := [98]

/-- A machine for the examples, where no sum is computed. -/
def exFpu : Fpu := ⟨fun _ _ => 0, fun _ _ => 0, fun _ _ => 0⟩

/-- A regular expression matches the same text only (enough for the examples). -/
def exRx : Bytes → Bytes → Res Bool := fun s p => .ok (s == p)

/-- A document with `a` and `b`. -/
def exD (i : Nat) (a : Int) (b : Bytes) : Doc := ⟨i, [(exA, .scalar (.int .i64 a)), (exB, .scalar (.str b))]⟩

/-- `(a > 2 AND NOT b = 'x') OR 7 = a`. -/
def exC : Cond := .or (.and (.op (.cmp .gt) (.col none exA) (.lit (.int 2))) (.not (.op (.cmp .eq) (.col none exB) (.lit (.str [120])))))
  (.op (.cmp .eq) (.lit (.int 7)) (.col none exA))

def exS : List Doc := [exD 1 1 [121], exD 2 3 [120], exD 3 5 [121], exD 4 7 [120]]

theorem i64_akin (m n : Int) (hm : ITy.i64.fits m) (hn : ITy.i64.fits n) : Akin (.int .i64 m) (.int .i64 n) := by
  refine ⟨.ints [.i64], ⟨by simp, ?_⟩, ⟨by simp, ?_⟩⟩
  · intro u hu; simp at hu; subst hu; exact hm
  · intro u hu; simp at hu; subst hu; exact hn

theorem exS_ready : ∀ d ∈ exS, exC.ready exRx (fieldsOf d) := by
  have one : ∀ i a b, ITy.i64.fits a → exC.ready exRx (fieldsOf (exD i a b)) := by
    intro i a b ha
    refine ⟨⟨⟨.int .i64 a, rfl, i64_akin a 2 ha (by decide)⟩, ⟨.str b, rfl, ⟨.strs, trivial, trivial⟩⟩⟩, ⟨.int .i64 a, rfl, i64_akin a 7 ha (by decide)⟩⟩
  intro d hd
  simp only [exS, List.mem_cons, List.not_mem_nil, or_false] at hd
  rcases hd with rfl | rfl | rfl | rfl <;> exact one _ _ _ (by decide)

theorem exC_plain : exC.plain := ⟨⟨nofun, nofun⟩, nofun, Or.inl rfl⟩

/-- `C54_where_partial` applies: two of four documents are selected. -/
example : runSelect exFpu exRx exS (allWhere exC) (.ok [exD 3 5 [121], exD 4 7 [120]]) := by
  rw [C54_where_partial exFpu exRx exS exC (by decide) exC_plain (by decide) exS_ready]
  decide +kernel

/-- `a <= 3`. -/
def exP : Cond := .op (.cmp .lte) (.col none exA) (.lit (.int 3))

/-- `C54_nulls_partial` applies: of a document with 2, one without the column and one with NULL, the first is selected. -/
example : runSelect exFpu exRx [exD 1 2 [], ⟨2, []⟩, ⟨3, [(exA, .scalar .na)]⟩] (allWhere exP) (.ok [exD 1 2 []]) := by
  rw [C54_nulls_partial exFpu exRx _ exP (by decide) ⟨by simp, Or.inr (Or.inr rfl)⟩ (by decide)]
  · decide +kernel
  · have ha : ∃ a, Comparable (fieldsOf (exD 1 2 [])) a (.lit (.int 3)) := ⟨.int .i64 3, i64_akin 3 3 (by decide) (by decide)⟩
    intro d hd
    simp only [List.mem_cons, List.not_mem_nil, or_false] at hd
    rcases hd with rfl | rfl | rfl
    · exact ⟨Or.inr (Or.inr ⟨_, rfl, i64_akin 2 3 (by decide) (by decide)⟩), ha⟩
    · exact ⟨Or.inl rfl, ha⟩
    · exact ⟨Or.inr (Or.inl rfl), ha⟩

/-! ### where the full claim fails -/

theorem exRx_total : ∀ s p, ∃ b, exRx s p = .ok b := fun _ _ => ⟨_, rfl⟩

/-- A way to refute the claim: an answer, other than the documents for which the condition is true. -/
theorem refute (store : List Doc) (c : Cond) (hn : store.length < 2 ^ 31) (hl : c.logical) (r : Res (List Doc))
    (h : (trSelect (allWhere c)).bind (rowsOf exFpu exRx store) = r) (hne : r ≠ .ok (store.filter fun d => decide (Selects exRx c d))) :
    runSelect exFpu exRx store (allWhere c) r ∧ ¬ C54_claim := by
  have hr : runSelect exFpu exRx store (allWhere c) r := by
    unfold runSelect
    rw [h]
    cases r <;> rfl
  exact ⟨hr, fun hc => hne (hc exFpu exRx store c exRx_total hn hl r hr)⟩

/-- `5 < a` is taken as `a < 5`: the document with 3 is selected, that with 7 is not. -/
theorem C54_reversed_fails : runSelect exFpu exRx [exD 1 3 [], exD 2 7 []] (allWhere (.op (.cmp .lt) (.lit (.int 5)) (.col none exA))) (.ok [exD 1 3 []]) ∧
    Selects exRx (.op (.cmp .lt) (.lit (.int 5)) (.col none exA)) (exD 2 7 []) ∧ ¬ C54_claim := by
  have := refute [exD 1 3 [], exD 2 7 []] (.op (.cmp .lt) (.lit (.int 5)) (.col none exA)) (by decide) (by simp [Cond.logical]) (.ok [exD 1 3 []])
    (by decide +kernel) (by decide +kernel)
  exact ⟨this.1, by decide +kernel, this.2⟩

/-- `NOT NOT a = 1` is taken as `NOT a = 1`. -/
theorem C54_not_not_fails : runSelect exFpu exRx [exD 1 1 [], exD 2 2 []]
      (allWhere (.not (.not (.op (.cmp .eq) (.col none exA) (.lit (.int 1)))))) (.ok [exD 2 2 []]) ∧ ¬ C54_claim :=
  refute [exD 1 1 [], exD 2 2 []] (.not (.not (.op (.cmp .eq) (.col none exA) (.lit (.int 1))))) (by decide) (by simp [Cond.logical]) _
    (by decide +kernel) (by decide +kernel)

/-- `a > 2` selects the documents without `a` and those with NULL in it. -/
theorem C54_missing_fails : runSelect exFpu exRx [⟨1, []⟩, ⟨2, [(exA, .scalar .na)]⟩] (allWhere (.op (.cmp .gt) (.col none exA) (.lit (.int 2))))
      (.ok [⟨1, []⟩, ⟨2, [(exA, .scalar .na)]⟩]) ∧ ¬ C54_claim :=
  refute [⟨1, []⟩, ⟨2, [(exA, .scalar .na)]⟩] (.op (.cmp .gt) (.col none exA) (.lit (.int 2))) (by decide) (by simp [Cond.logical]) _
    (by decide +kernel) (by decide +kernel)

/-- A comparison with NULL reads the constant as a column. -/
theorem C54_null_fails : runSelect exFpu exRx [exD 1 1 []] (allWhere (.op (.cmp .eq) (.col none exA) (.lit .null))) .ub ∧ ¬ C54_claim :=
  refute [exD 1 1 []] (.op (.cmp .eq) (.col none exA) (.lit .null)) (by decide) (by simp [Cond.logical]) _ rfl (by simp)

/-- The expression `a - 1` of an integer column. -/
def exMinus : Operand := .expr fun d => match d.get exA with | .scalar (.int t n) => .scalar (.int t (n - 1)) | _ => .missing

/-- An expression is taken as null: `a > a - 1` selects nothing. -/
theorem C54_expression_fails : runSelect exFpu exRx [exD 1 3 []] (allWhere (.op (.cmp .gt) (.col none exA) exMinus)) (.ok []) ∧ ¬ C54_claim :=
  refute [exD 1 3 []] (.op (.cmp .gt) (.col none exA) exMinus) (by decide) (by simp [Cond.logical]) _ (by decide +kernel) (by decide +kernel)

/-- A pattern of LIKE is taken as a regular expression: `b LIKE 'x%'` does not select 'xy' (a regular expression in which `%` is
no special character). -/
theorem C54_like_fails : runSelect exFpu exRx [exD 1 3 [120, 121]] (allWhere (.op .like (.col none exB) (.lit (.str [120, 37])))) (.ok []) ∧ ¬ C54_claim :=
  refute [exD 1 3 [120, 121]] (.op .like (.col none exB) (.lit (.str [120, 37]))) (by decide) (by simp [Cond.logical]) _ (by decide +kernel)
    (by decide +kernel)

/-- The numeral 3000000001: as `double`, and that as `float`, which is 3000000000. -/
def exBig : Lit := .num 0x41E65A0BC0200000 0x4F32D05E

/-- An integer beyond 32 bits is narrowed to `float`: `a = 3000000001` selects the document with 3000000000, not that with 3000000001. -/
theorem C54_numeral_fails : decode64 0x41E65A0BC0200000 = .fin (3000000001 * one) ∧
    runSelect exFpu exRx [exD 1 3000000000 [], exD 2 3000000001 []] (allWhere (.op (.cmp .eq) (.col none exA) (.lit exBig))) (.ok [exD 1 3000000000 []]) ∧
    ¬ C54_claim := by
  have := refute [exD 1 3000000000 [], exD 2 3000000001 []] (.op (.cmp .eq) (.col none exA) (.lit exBig)) (by decide) (by simp [Cond.logical])
    (.ok [exD 1 3000000000 []]) (by decide +kernel) (by decide +kernel)
  exact ⟨by decide +kernel, this⟩

/-- The numeral 0.1 as `double` and as `float`. -/
def exTenth : Lit := .num 0x3FB999999999999A 0x3DCCCCCD

/-- `a = 0.1` does not select a document with 0.1. -/
theorem C54_decimal_fails : runSelect exFpu exRx [⟨1, [(exA, .scalar (.double 0x3FB999999999999A))]⟩] (allWhere (.op (.cmp .eq) (.col none exA) (.lit exTenth)))
      (.ok []) ∧ ¬ C54_claim :=
  refute [⟨1, [(exA, .scalar (.double 0x3FB999999999999A))]⟩] (.op (.cmp .eq) (.col none exA) (.lit exTenth)) (by decide) (by simp [Cond.logical]) _
    (by decide +kernel) (by decide +kernel)

/-- A function below the outermost AND, OR or NOT is stored through a null pointer. -/
theorem C54_function_fails (store : List Doc) (c : Cond) (f : Filter Leaf) (ps : List V) (h : tr c [] = .ok (f, ps)) :
    runSelect exFpu exRx store (allWhere (.not (.and c .func))) .ub := by
  unfold runSelect
  have e : trSelect (allWhere (.not (.and c .func))) = .ub := by
    show (((tr c []).bind fun a => _).bind _).bind _ = Res.ub
    rw [h]
    rfl
  rw [e]
  rfl

/-- `a = 0`, `n + 1` times, joined by OR. -/
def exChain : Nat → Cond
  | 0 => .op (.cmp .eq) (.col none exA) (.lit (.int 0))
  | n + 1 => .or (exChain n) (.op (.cmp .eq) (.col none exA) (.lit (.int 0)))

theorem exChain_facts (n : Nat) : (exChain n).plain ∧ (exChain n).consts = n + 1 ∧ (exChain n).logical ∧
    (exChain n).ready exRx (fieldsOf (exD 1 1 [])) ∧ (exChain n).truth exRx (fieldsOf (exD 1 1 [])) (exD 1 1 []) = some false := by
  have h1 : (exChain 0).truth exRx (fieldsOf (exD 1 1 [])) (exD 1 1 []) = some false := by decide +kernel
  have h2 : (exChain 0).ready exRx (fieldsOf (exD 1 1 [])) := ⟨_, rfl, i64_akin 1 0 (by decide) (by decide)⟩
  induction n with
  | zero => exact ⟨nofun, rfl, nofun, h2, h1⟩
  | succ n ih =>
    obtain ⟨i1, i2, i3, i4, i5⟩ := ih
    refine ⟨⟨i1, nofun⟩, by show (exChain n).consts + 1 = _; rw [i2], ⟨i3, nofun⟩, ⟨i4, h2⟩, ?_⟩
    show or3 ((exChain n).truth _ _ _) ((exChain 0).truth _ _ _) = _
    rw [i5, h1]
    rfl

theorem chain_wrong (n : Nat) (hn : n = 65535) : runSelect exFpu exRx [exD 1 1 []]
      (allWhere (.or (exChain n) (.op (.cmp .eq) (.col none exA) (.lit (.int 1))))) (.ok []) ∧ ¬ C54_claim := by
  obtain ⟨i1, i2, i3, i4, i5⟩ := exChain_facts n
  obtain ⟨f, ext, h1, h2, h3, h4⟩ := tr_sound true (fun ps => checkLeaf ⟨paramOf ps, exRx⟩ (exD 1 1 []) none) (DocOp exRx (exD 1 1 []))
    (fun o x y => o.apply exRx (x.value (fieldsOf (exD 1 1 [])) (exD 1 1 [])) (y.value (fieldsOf (exD 1 1 [])) (exD 1 1 [])))
    (fun o x y ps => doc_op exRx (exD 1 1 []) o x y ps) (exChain n) [] (good_doc exRx (exD 1 1 []) _ i1 i4) (by rw [i2, hn]; simp)
  rw [List.nil_append] at h1 h4
  have hlen : ext.length = 65536 := by rw [h2, i2, hn]
  have first : ext[0]? = some (.int .i64 0) := by
    have : ∀ m g qs, tr (exChain m) [] = .ok (g, qs) → qs[0]? = some (.int .i64 0) := by
      intro m
      induction m with
      | zero => intro g qs h; cases h; rfl
      | succ m ih =>
        intro g qs h
        simp only [exChain, tr] at h
        cases hc : tr (exChain m) [] with
        | ok x =>
          rw [hc] at h
          have h0 := ih x.1 x.2 hc
          simp only [Res.bind, trOp, getValue, leafOf, addParam, Res.ok.injEq, Prod.mk.injEq] at h
          rw [← h.2]
          cases hx : x.2 with
          | nil => rw [hx] at h0; cases h0
          | cons a t => rw [hx] at h0; exact h0
        | throws => rw [hc] at h; cases h
        | ub => rw [hc] at h; cases h
        | diverges => rw [hc] at h; cases h
    exact this _ _ _ h1
  have e : tr (.or (exChain n) (.op (.cmp .eq) (.col none exA) (.lit (.int 1)))) [] =
      .ok (.or (orParts f ++ orParts (.leaf (.cmp .eq exA (.param 0)))), ext ++ [.int .i64 1]) := by
    simp only [tr, h1, Res.bind, trOp, getValue, leafOf, addParam, hlen]
    rfl
  obtain ⟨b, hb, hrel⟩ := h4 (ext ++ [.int .i64 1]) (List.prefix_append _ _)
  rw [Rel, if_pos rfl, ← truth_eq, i5] at hrel
  injection hrel with hrel
  subst hrel
  have hp : pred ⟨paramOf (ext ++ [.int .i64 1]), exRx⟩ (.or (orParts f ++ orParts (.leaf (.cmp .eq exA (.param 0))))) (exD 1 1 []) = .ok false := by
    unfold pred
    rw [check_or_parts, hb]
    show checkLeaf ⟨paramOf (ext ++ [.int .i64 1]), exRx⟩ (exD 1 1 []) none (.cmp .eq exA (.param 0)) = .ok false
    have : paramOf (ext ++ [.int .i64 1]) 0 = some (.int .i64 0) := by
      unfold paramOf
      rw [List.getElem?_append_left (by omega), first]
    simp only [checkLeaf, this]
    decide +kernel
  have hlog : (Cond.or (exChain n) (.op (.cmp .eq) (.col none exA) (.lit (.int 1)))).logical := ⟨i3, nofun⟩
  have hplain : (Cond.or (exChain n) (.op (.cmp .eq) (.col none exA) (.lit (.int 1)))).plain := ⟨i1, nofun⟩
  refine refute [exD 1 1 []] _ (by decide) hlog _ ?_ ?_
  · have e2 : trSelect (allWhere (.or (exChain n) (.op (.cmp .eq) (.col none exA) (.lit (.int 1))))) =
        .ok ⟨some (.or (orParts f ++ orParts (.leaf (.cmp .eq exA (.param 0))))), [], [], ext ++ [.int .i64 1]⟩ := by
      show ((trWhere (.or (exChain n) (.op (.cmp .eq) (.col none exA) (.lit (.int 1)))) []).bind fun f => _) = _
      rw [plain_where _ hplain, e]
      rfl
    rw [e2]
    show ((fullScan (-1) (pred ⟨paramOf (ext ++ [.int .i64 1]), exRx⟩ _) [exD 1 1 []]).bind fun out => _) = _
    have : fullScan (-1) (pred ⟨paramOf (ext ++ [.int .i64 1]), exRx⟩ (.or (orParts f ++ orParts (.leaf (.cmp .eq exA (.param 0)))))) [exD 1 1 []] = .ok (some []) := by
      simp only [fullScan, scanLoop, hp, Res.bind]
      rfl
    rw [this]
    rfl
  · have ht : Selects exRx (.or (exChain n) (.op (.cmp .eq) (.col none exA) (.lit (.int 1)))) (exD 1 1 []) := by
      show or3 ((exChain n).truth _ _ _) _ = some true
      rw [i5]
      decide +kernel
    simp only [List.filter_cons, ht, decide_true, if_true]
    simp

/-- The 65537th constant takes the number of the first: after 65536 comparisons with 0, `a = 1` is `a = 0`. -/
theorem C54_constants_fails : runSelect exFpu exRx [exD 1 1 []]
      (allWhere (.or (exChain 65535) (.op (.cmp .eq) (.col none exA) (.lit (.int 1))))) (.ok []) ∧ ¬ C54_claim :=
  chain_wrong _ rfl

end Verif.Sql
