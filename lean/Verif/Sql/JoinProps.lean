import Verif.Sql.SelectProps
import Verif.Query.JoinProps
/-!
C56: joins in SQL.
-/
namespace Verif.Sql

open Verif.DocVal Verif.Query Verif.Num Verif.LogVal Verif.PhysKey

/-- The comparisons `Cond.sided` and `Cond.ready` speak of. -/
def PairOp (rx : Bytes → Bytes → Res Bool) (tl tr : Bytes) (l r : Row) (o : Op) (x y : Operand) : Prop :=
  (Cond.op o x y).sided tl tr ∧ (Cond.op o x y).ready rx (pairOf tl l r)

theorem pair_op (rx : Bytes → Bytes → Res Bool) (tl tr : Bytes) (hne : tl ≠ tr) (l r : Row) (o : Op) (x y : Operand) (ps : List V) (hQ : PairOp rx tl tr l r o x y)
    (hl : ps.length + (Cond.op o x y).consts ≤ 2 ^ 16) :
    ∃ a ext, trOp o x y ps = .ok (.leaf a, ps ++ ext) ∧ ext.length = (Cond.op o x y).consts ∧
      ∀ qs, ps ++ ext <+: qs → ∃ b, checkLeaf ⟨paramOf qs, rx⟩ (asDoc l) (some (asDoc r)) a = .ok b ∧
        Rel true b (o.apply rx (x.value (pairOf tl l r) (asDoc l)) (y.value (pairOf tl l r) (asDoc l))) := by
  obtain ⟨hp, hr⟩ := hQ
  cases o with
  | like => exact absurd hp (by cases x <;> cases y <;> simp [Cond.sided])
  | other => exact absurd hp (by cases x <;> cases y <;> simp [Cond.sided])
  | regexp => exact absurd hp (by cases x <;> cases y <;> simp [Cond.sided])
  | cmp c =>
    cases x with
    | expr f => exact absurd hp (by cases y <;> simp [Cond.sided])
    | lit f => exact absurd hp (by cases y <;> simp [Cond.sided])
    | col t k =>
      cases y with
      | expr f => exact absurd hp (by simp [Cond.sided])
      | lit li =>
        obtain ⟨rfl, hnull⟩ := hp
        simp only [Cond.ready] at hr
        simp only [Cond.consts] at hl
        obtain ⟨a, hk, hc⟩ := hr
        have hk' : known (fieldsOf (asDoc l) (some tl) k) = some a := by rw [pairOf, if_pos rfl] at hk; exact hk
        have hc' : Comparable (fieldsOf (asDoc l)) a (.lit li) := by cases li <;> exact hc
        obtain ⟨v, h1, o, h2, h3⟩ := doc_lit rx (asDoc l) c (some tl) k li a hnull hk' hc'
        refine ⟨.cmp c k (.param (ps.length % 2 ^ 16)), [v], by simp only [trOp, h1, Res.bind, leafOf, addParam], rfl, ?_⟩
        intro qs hq
        refine ⟨c.ok o, by simp only [checkLeaf, param_new ps qs _ hl hq, h2, Res.bind], ?_⟩
        simp only [Rel, if_true, Operand.value, hk, h3]
      | col t' k' =>
        obtain ⟨rfl, rfl⟩ := hp
        simp only [Cond.ready, Comparable] at hr
        obtain ⟨a, hk, b, hk', hc⟩ := hr
        have e1 : (asDoc l).get k = .scalar a := by rw [pairOf, if_pos rfl] at hk; exact (known_some hk).1
        have e2 : (asDoc r).get k' = .scalar b := by
          rw [pairOf, if_neg (fun h => hne (Option.some.inj h).symm)] at hk'; exact (known_some hk').1
        obtain ⟨o, h1, h2⟩ := akin_compare rx c hc
        refine ⟨.cmp c k (.key k'), [], by simp only [trOp, leafOf, Res.bind, List.append_nil], rfl, ?_⟩
        intro qs hq
        refine ⟨c.ok o, by simp only [checkLeaf, e1, Doc.value, e2, compareTo, h1, Res.bind], ?_⟩
        simp only [Rel, if_true, Operand.value, hk, hk', h2]

theorem good_pair (rx : Bytes → Bytes → Res Bool) (tl tr : Bytes) (l r : Row) (c : Cond) (hp : c.sided tl tr) (hr : c.ready rx (pairOf tl l r)) :
    Good true (PairOp rx tl tr l r) c := by
  induction c with
  | op o x y => exact ⟨hp, hr⟩
  | and a b iha ihb => exact ⟨iha hp.1 hr.1, ihb hp.2 hr.2⟩
  | or a b iha ihb => exact ⟨iha hp.1 hr.1, ihb hp.2 hr.2⟩
  | not c ih => cases c <;> first | exact absurd hp id | exact ⟨rfl, ih hp hr⟩
  | kind => exact absurd hp id
  | func => exact absurd hp id
  | node => exact absurd hp id

theorem tr_sided (tl tr' : Bytes) (c : Cond) (hp : c.sided tl tr') : ∀ ps : List V, ∃ f ext, tr c ps = .ok (f, ps ++ ext) := by
  have : c.plain := by
    induction c with
    | op o x y =>
      cases o <;> cases x <;> cases y <;> first | exact absurd hp id | trivial | exact hp.2
    | and a b iha ihb => exact ⟨iha hp.1, ihb hp.2⟩
    | or a b iha ihb => exact ⟨iha hp.1, ihb hp.2⟩
    | not c ih => cases c <;> first | exact absurd hp id | exact ih hp
    | kind => exact absurd hp id
    | func => exact absurd hp id
    | node => exact absurd hp id
  exact tr_plain c (Or.inl this)

/-- C56 in full: a join gives a row for each pair of rows for which the condition is true. -/
def C56_claim : Prop := ∀ (rx : Bytes → Bytes → Res Bool) (text : Nat → Bytes) (tl tr : Bytes) (c : Cond) (ls rs : List Doc), tl ≠ tr →
  (∀ d ∈ ls, Flat (allFields text d)) → (∀ d ∈ rs, Flat (allFields text d)) → c.plain →
  (∀ l ∈ ls, ∀ r ∈ rs, c.ready rx (pairOf tl (allFields text l) (allFields text r))) →
  ∃ out, runJoin rx text .inner c ls rs = .ok out ∧
    out.map look = (pairs (fun l r => decide (Joins rx tl c l r)) (ls.map (allFields text)) (rs.map (allFields text))).map pairReads

/-- A join whose condition has the columns of the left table on the left gives a row for each pair for which the
condition is true, and a right join also each right document without partner. -/
theorem C56_join_partial (rx : Bytes → Bytes → Res Bool) (text : Nat → Bytes) (tl tr' : Bytes) (c : Cond) (ls rs : List Doc) (hne : tl ≠ tr')
    (hf : ∀ d ∈ rs, Flat (allFields text d)) (hp : c.sided tl tr') (hc : c.consts ≤ 2 ^ 16)
    (hr : ∀ l ∈ ls, ∀ r ∈ rs, c.ready rx (pairOf tl (allFields text l) (allFields text r))) :
    (∃ out, runJoin rx text .inner c ls rs = .ok out ∧
      out.map look = (pairs (fun l r => decide (Joins rx tl c l r)) (ls.map (allFields text)) (rs.map (allFields text))).map pairReads) ∧
    ∃ out, runJoin rx text .right c ls rs = .ok out ∧
      (out.map look).Perm ((pairs (fun l r => decide (Joins rx tl c l r)) (ls.map (allFields text)) (rs.map (allFields text))).map pairReads ++
        (lonelyR (fun l r => decide (Joins rx tl c l r)) (ls.map (allFields text)) (rs.map (allFields text))).map
          (ownReads (headNames (ls.map (allFields text))))) := by
  obtain ⟨f, ext, h1⟩ := tr_sided tl tr' c hp []
  have hp2 : ∀ l ∈ ls, ∀ r ∈ rs, pred2 ⟨paramOf ([] ++ ext), rx⟩ f (asDoc (allFields text l)) (asDoc (allFields text r)) =
      .ok (decide (Joins rx tl c (allFields text l) (allFields text r))) := by
    intro l hl r hrr
    obtain ⟨g, e', k1, -, -, k4⟩ := tr_sound true (fun ps => checkLeaf ⟨paramOf ps, rx⟩ (asDoc (allFields text l)) (some (asDoc (allFields text r))))
      (PairOp rx tl tr' (allFields text l) (allFields text r)) (fun o x y => o.apply rx (x.value (pairOf tl (allFields text l) (allFields text r)) (asDoc (allFields text l)))
        (y.value (pairOf tl (allFields text l) (allFields text r)) (asDoc (allFields text l))))
      (fun o x y ps => pair_op rx tl tr' hne _ _ o x y ps) c [] (good_pair rx tl tr' _ _ c hp (hr l hl r hrr)) (by simpa using hc)
    obtain ⟨rfl, rfl⟩ := tr_det h1 k1
    obtain ⟨b, hb, hrel⟩ := k4 _ (List.prefix_refl _)
    rw [Rel, if_pos rfl, ← truth_eq] at hrel
    have : decide (Joins rx tl c (allFields text l) (allFields text r)) = b := by
      have e : Joins rx tl c (allFields text l) (allFields text r) ↔ b = true := by
        unfold Joins
        rw [hrel, Option.some.injEq]
      rw [Bool.eq_iff_iff, decide_eq_true_iff, e]
    rw [this]
    exact hb
  have := C23_documents_partial ⟨paramOf ([] ++ ext), rx⟩ text f ls rs (fun l r => decide (Joins rx tl c l r)) hf hp2
  unfold runJoin
  rw [h1]
  exact this

/-! ### examples -/

def exL : Bytes := [108]
def exR : Bytes := [114]

/-- The text of an identifier, for the examples. -/
def exText (n : Nat) : Bytes := [n.toUInt8]

/-- `ON l.a = r.b AND l.a > 1`. -/
def exOn : Cond := .and (.op (.cmp .eq) (.col (some exL) exA) (.col (some exR) exB)) (.op (.cmp .gt) (.col (some exL) exA) (.lit (.int 1)))

/-- A document with a number under a name. -/
def exN1 (i : Nat) (k : Bytes) (n : Int) : Doc := ⟨i, [(k, .scalar (.int .i64 n))]⟩

theorem exN1_flat (i : Nat) (k : Bytes) (hk : k ≠ idKey) (n : Int) : Flat (allFields exText (exN1 i k n)) := by
  refine ⟨?_, ?_⟩
  · intro p hp
    simp only [allFields, exN1, List.mem_cons, List.not_mem_nil, or_false] at hp
    rcases hp with rfl | rfl <;> exact ⟨_, rfl⟩
  · show [idKey, k].Nodup
    simp [Ne.symm hk]

/-- `C56_join_partial` applies. -/
example : ∃ out, runJoin exRx exText .inner exOn [exN1 1 exA 1, exN1 2 exA 2] [exN1 3 exB 2, exN1 4 exB 1] = .ok out ∧
    out.map look = ([(allFields exText (exN1 2 exA 2), allFields exText (exN1 3 exB 2))] : List (Row × Row)).map pairReads := by
  have h := (C56_join_partial exRx exText exL exR exOn [exN1 1 exA 1, exN1 2 exA 2] [exN1 3 exB 2, exN1 4 exB 1] (by decide) (by
    intro d hd
    simp only [List.mem_cons, List.not_mem_nil, or_false] at hd
    rcases hd with rfl | rfl <;> exact exN1_flat _ _ (by decide) _) ⟨⟨rfl, rfl⟩, rfl, nofun⟩ (by decide) (by
    have one : ∀ i j m n, ITy.i64.fits m → ITy.i64.fits n → exOn.ready exRx (pairOf exL (allFields exText (exN1 i exA m)) (allFields exText (exN1 j exB n))) :=
      fun i j m n hm hn => ⟨⟨.int .i64 m, rfl, .int .i64 n, rfl, i64_akin m n hm hn⟩, ⟨.int .i64 m, rfl, i64_akin m 1 hm (by decide)⟩⟩
    intro l hl r hr
    simp only [List.mem_cons, List.not_mem_nil, or_false] at hl hr
    rcases hl with rfl | rfl <;> rcases hr with rfl | rfl <;> exact one _ _ _ _ (by decide) (by decide))).1
  rwa [show pairs (fun l r => decide (Joins exRx exL exOn l r)) ([exN1 1 exA 1, exN1 2 exA 2].map (allFields exText)) ([exN1 3 exB 2, exN1 4 exB 1].map (allFields exText)) =
    [(allFields exText (exN1 2 exA 2), allFields exText (exN1 3 exB 2))] from by decide +kernel] at h

/-! ### where the full claim fails -/

/-- `ON r.b = l.a`: the column of the right table is looked up in the left document and the other way round; no pair is found. -/
theorem C56_reversed_fails : runJoin exRx exText .inner (.op (.cmp .eq) (.col (some exR) exB) (.col (some exL) exA)) [exN1 1 exA 1] [exN1 2 exB 1] = .ok [] ∧ ¬ C56_claim := by
  have e : runJoin exRx exText .inner (.op (.cmp .eq) (.col (some exR) exB) (.col (some exL) exA)) [exN1 1 exA 1] [exN1 2 exB 1] = .ok [] := by decide +kernel
  refine ⟨e, fun hc => ?_⟩
  obtain ⟨out, h1, h2⟩ := hc exRx exText exL exR (.op (.cmp .eq) (.col (some exR) exB) (.col (some exL) exA)) [exN1 1 exA 1] [exN1 2 exB 1] (by decide)
    (by intro d hd; rw [List.mem_singleton.mp hd]; exact exN1_flat _ _ (by decide) _)
    (by intro d hd; rw [List.mem_singleton.mp hd]; exact exN1_flat _ _ (by decide) _) trivial
    (by
      intro l hl r hr
      rw [List.mem_singleton.mp hl, List.mem_singleton.mp hr]
      exact ⟨.int .i64 1, rfl, .int .i64 1, rfl, i64_akin 1 1 (by decide) (by decide)⟩)
  rw [e] at h1
  cases h1
  have : (pairs (fun l r => decide (Joins exRx exL (.op (.cmp .eq) (.col (some exR) exB) (.col (some exL) exA)) l r)) ([exN1 1 exA 1].map (allFields exText))
      ([exN1 2 exB 1].map (allFields exText))).length = 1 := by decide +kernel
  have h3 := congrArg List.length h2
  rw [List.length_map, List.length_map, this] at h3
  cases h3

/-- A comparison of a column of the right table with a constant is made in the left document: `ON r.b > 5` gives the pair whose
left document has no `b`. -/
theorem C56_constant_fails : ¬ C56_claim ∧ ∃ row, runJoin exRx exText .inner (.op (.cmp .gt) (.col (some exR) exB) (.lit (.int 5))) [exN1 1 exA 1] [exN1 2 exB 1] = .ok [row] := by
  have e : runJoin exRx exText .inner (.op (.cmp .gt) (.col (some exR) exB) (.lit (.int 5))) [exN1 1 exA 1] [exN1 2 exB 1] =
      .ok [[(idKey, .scalar (.str [2])), (exB, .scalar (.int .i64 1)), (exA, .scalar (.int .i64 1))]] := by decide +kernel
  refine ⟨fun hc => ?_, _, e⟩
  obtain ⟨out, h1, h2⟩ := hc exRx exText exL exR (.op (.cmp .gt) (.col (some exR) exB) (.lit (.int 5))) [exN1 1 exA 1] [exN1 2 exB 1] (by decide)
    (by intro d hd; rw [List.mem_singleton.mp hd]; exact exN1_flat _ _ (by decide) _)
    (by intro d hd; rw [List.mem_singleton.mp hd]; exact exN1_flat _ _ (by decide) _) nofun
    (by
      intro l hl r hr
      rw [List.mem_singleton.mp hl, List.mem_singleton.mp hr]
      exact ⟨.int .i64 1, rfl, i64_akin 1 5 (by decide) (by decide)⟩)
  rw [e] at h1
  cases h1
  have : (pairs (fun l r => decide (Joins exRx exL (.op (.cmp .gt) (.col (some exR) exB) (.lit (.int 5))) l r)) ([exN1 1 exA 1].map (allFields exText))
      ([exN1 2 exB 1].map (allFields exText))).length = 0 := by decide +kernel
  have h3 := congrArg List.length h2
  rw [List.length_map, List.length_map, this] at h3
  cases h3

end Verif.Sql
