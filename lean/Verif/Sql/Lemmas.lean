import Verif.Sql.Spec
import Mathlib.Tactic.ByContra
import Mathlib.Tactic.Linarith
/-!
The translation of conditions: helpers.
-/
namespace Verif.Sql

open Verif.DocVal Verif.Query Verif.Num

theorem checkAnd_append {α : Type} (p : α → Res Bool) (fs gs : List (Filter α)) :
    checkAnd p (fs ++ gs) = (checkAnd p fs).bind fun b => if b then checkAnd p gs else .ok false := by
  induction fs with
  | nil => rfl
  | cons f fs ih =>
    simp only [List.cons_append, checkAnd, ih]
    cases check p f with
    | ok b => cases b <;> rfl
    | _ => rfl

theorem checkOr_append {α : Type} (p : α → Res Bool) (fs gs : List (Filter α)) :
    checkOr p (fs ++ gs) = (checkOr p fs).bind fun b => if b then .ok true else checkOr p gs := by
  induction fs with
  | nil => rfl
  | cons f fs ih =>
    simp only [List.cons_append, checkOr, ih]
    cases check p f with
    | ok b => cases b <;> rfl
    | _ => rfl

theorem checkAnd_parts (p : Leaf → Res Bool) (f : Filter Leaf) : checkAnd p (andParts f) = check p f := by
  have h : ∀ g : Filter Leaf, checkAnd p [g] = check p g := by
    intro g
    simp only [checkAnd]
    cases check p g with
    | ok b => cases b <;> rfl
    | _ => rfl
  cases f with
  | and fs => simp only [andParts, check]
  | leaf a => exact h _
  | or fs => exact h _
  | not fs => exact h _

theorem checkOr_parts (p : Leaf → Res Bool) (f : Filter Leaf) : checkOr p (orParts f) = check p f := by
  have h : ∀ g : Filter Leaf, checkOr p [g] = check p g := by
    intro g
    simp only [checkOr]
    cases check p g with
    | ok b => cases b <;> rfl
    | _ => rfl
  cases f with
  | or fs => simp only [orParts, check]
  | leaf a => exact h _
  | and fs => exact h _
  | not fs => exact h _

theorem check_and_parts (p : Leaf → Res Bool) (f g : Filter Leaf) :
    check p (.and (andParts f ++ andParts g)) = (check p f).bind fun b => if b then check p g else .ok false := by
  simp only [check, checkAnd_append, checkAnd_parts]

theorem check_or_parts (p : Leaf → Res Bool) (f g : Filter Leaf) :
    check p (.or (orParts f ++ orParts g)) = (check p f).bind fun b => if b then .ok true else check p g := by
  simp only [check, checkOr_append, checkOr_parts]

/-- How the answer `b` of the engine stands to the truth value: the same, or (without NOT) true for true only. -/
def Rel (neg : Bool) (b : Bool) (t : Option Bool) : Prop := if neg then t = some b else (b = true ↔ t = some true)

theorem Rel.and {neg b c : Bool} {s t : Option Bool} (h : Rel neg b s) (k : Rel neg c t) : Rel neg (b && c) (and3 s t) := by
  unfold Rel at *
  cases neg with
  | true => simp only [if_true] at *; subst h; subst k; cases b <;> cases c <;> rfl
  | false =>
    simp only [Bool.false_eq_true, if_false] at *
    rw [Bool.and_eq_true, h, k]
    rcases s with _ | s <;> rcases t with _ | t <;> try cases s
    all_goals try cases t
    all_goals simp [and3]

theorem Rel.or {neg b c : Bool} {s t : Option Bool} (h : Rel neg b s) (k : Rel neg c t) : Rel neg (b || c) (or3 s t) := by
  unfold Rel at *
  cases neg with
  | true => simp only [if_true] at *; subst h; subst k; cases b <;> cases c <;> rfl
  | false =>
    simp only [Bool.false_eq_true, if_false] at *
    rw [Bool.or_eq_true, h, k]
    rcases s with _ | s <;> rcases t with _ | t <;> try cases s
    all_goals try cases t
    all_goals simp [or3]

/-- The comparisons of a condition satisfy `Q`; no NOT below a NOT, and no NOT at all unless `neg`. -/
def Good (neg : Bool) (Q : Op → Operand → Operand → Prop) : Cond → Prop
  | .op o x y => Q o x y
  | .and l r => Good neg Q l ∧ Good neg Q r
  | .or l r => Good neg Q l ∧ Good neg Q r
  | .not (.not _) => False
  | .not c => neg = true ∧ Good neg Q c
  | _ => False

/-- The truth value of a condition from those of its comparisons. -/
def truthBy (T : Op → Operand → Operand → Option Bool) : Cond → Option Bool
  | .op o x y => T o x y
  | .and l r => and3 (truthBy T l) (truthBy T r)
  | .or l r => or3 (truthBy T l) (truthBy T r)
  | .not c => (truthBy T c).map (!·)
  | _ => none

theorem truth_eq (rx : Bytes → Bytes → Res Bool) (row : Option Bytes → Bytes → Cell) (d : Doc) (c : Cond) :
    c.truth rx row d = truthBy (fun o x y => o.apply rx (x.value row d) (y.value row d)) c := by
  induction c with
  | op o x y => rfl
  | and l r ihl ihr => simp only [Cond.truth, truthBy, ihl, ihr]
  | or l r ihl ihr => simp only [Cond.truth, truthBy, ihl, ihr]
  | not c ih => simp only [Cond.truth, truthBy, ih]
  | kind => rfl
  | func => rfl
  | node => rfl

def isNot : Filter Leaf → Bool
  | .not _ => true
  | _ => false

def Cond.isNot : Cond → Bool
  | .not _ => true
  | _ => false

/-- The translation of a condition, given that of its comparisons. -/
theorem tr_sound (neg : Bool) (chk : List V → Leaf → Res Bool) (Q : Op → Operand → Operand → Prop) (T : Op → Operand → Operand → Option Bool)
    (hop : ∀ o x y (ps : List V), Q o x y → ps.length + (Cond.op o x y).consts ≤ 2 ^ 16 → ∃ a ext, trOp o x y ps = .ok (.leaf a, ps ++ ext) ∧
      ext.length = (Cond.op o x y).consts ∧ ∀ qs, ps ++ ext <+: qs → ∃ b, chk qs a = .ok b ∧ Rel neg b (T o x y)) (c : Cond) :
    ∀ ps : List V, Good neg Q c → ps.length + c.consts ≤ 2 ^ 16 →
    ∃ f ext, tr c ps = .ok (f, ps ++ ext) ∧ ext.length = c.consts ∧ isNot f = c.isNot ∧
      ∀ qs, ps ++ ext <+: qs → ∃ b, check (chk qs) f = .ok b ∧ Rel neg b (truthBy T c) := by
  induction c with
  | op o x y =>
    intro ps hg hl
    obtain ⟨a, ext, h1, h2, h3⟩ := hop o x y ps hg hl
    exact ⟨.leaf a, ext, h1, h2, rfl, h3⟩
  | and l r ihl ihr =>
    intro ps hg hl
    simp only [Cond.consts] at hl
    obtain ⟨f, e1, h1, h2, -, h3⟩ := ihl ps hg.1 (by omega)
    obtain ⟨g, e2, k1, k2, -, k3⟩ := ihr (ps ++ e1) hg.2 (by rw [List.length_append, h2]; omega)
    refine ⟨.and (andParts f ++ andParts g), e1 ++ e2, ?_, by rw [List.length_append, h2, k2]; rfl, rfl, ?_⟩
    · simp only [tr, h1, Res.bind, k1, List.append_assoc]
    · intro qs hq
      obtain ⟨b, hb, rb⟩ := h3 qs (by rw [← List.append_assoc] at hq; exact (List.prefix_append _ _).trans hq)
      obtain ⟨b', hb', rb'⟩ := k3 qs (by rw [List.append_assoc]; exact hq)
      refine ⟨b && b', ?_, rb.and rb'⟩
      rw [check_and_parts, hb]
      cases b
      · rfl
      · exact hb'
  | or l r ihl ihr =>
    intro ps hg hl
    simp only [Cond.consts] at hl
    obtain ⟨f, e1, h1, h2, -, h3⟩ := ihl ps hg.1 (by omega)
    obtain ⟨g, e2, k1, k2, -, k3⟩ := ihr (ps ++ e1) hg.2 (by rw [List.length_append, h2]; omega)
    refine ⟨.or (orParts f ++ orParts g), e1 ++ e2, ?_, by rw [List.length_append, h2, k2]; rfl, rfl, ?_⟩
    · simp only [tr, h1, Res.bind, k1, List.append_assoc]
    · intro qs hq
      obtain ⟨b, hb, rb⟩ := h3 qs (by rw [← List.append_assoc] at hq; exact (List.prefix_append _ _).trans hq)
      obtain ⟨b', hb', rb'⟩ := k3 qs (by rw [List.append_assoc]; exact hq)
      refine ⟨b || b', ?_, rb.or rb'⟩
      rw [check_or_parts, hb]
      cases b
      · exact hb'
      · rfl
  | not c ih =>
    intro ps hg hl
    have hn : c.isNot = false ∧ neg = true ∧ Good neg Q c := by
      cases c <;> first | exact absurd hg id | exact ⟨rfl, hg⟩
    obtain ⟨f, e1, h1, h2, h4, h3⟩ := ih ps hn.2.2 hl
    have hp : notParts f = [f] := by
      rw [hn.1] at h4
      cases f <;> first | rfl | cases h4
    refine ⟨.not [f], e1, by simp only [tr, h1, Res.bind, hp], h2, rfl, ?_⟩
    intro qs hq
    obtain ⟨b, hb, rb⟩ := h3 qs hq
    refine ⟨!b, by simp only [check, checkNot, hb, Res.bind], ?_⟩
    have hneg := hn.2.1
    subst hneg
    simp only [Rel, if_true] at rb ⊢
    simp only [truthBy, rb, Option.map_some]
  | kind => intro ps hg; exact absurd hg id
  | func => intro ps hg; exact absurd hg id
  | node => intro ps hg; exact absurd hg id

/-! ### comparisons -/

theorem le_one_mul (a b : Int) : decide (a * one < b * one) = decide (a < b) := by
  have h := Num.one_pos
  rw [decide_eq_decide]
  exact ⟨fun h1 => lt_of_mul_lt_mul_right h1 (le_of_lt h), fun h1 => mul_lt_mul_of_pos_right h1 h⟩

theorem akin_less {k : Kind} {a b : V} (ha : k.has a) (hb : k.has b) : less a b = some (k.lt a b) := by
  cases k <;> cases a <;> simp only [Kind.has] at ha <;> cases b <;> simp only [Kind.has] at hb <;>
    simp only [less, number, Kind.lt, FVal.lt, le_one_mul]

theorem accepts_by3 (c : Cmp) {α : Type} (lt : α → α → Bool) (x y : α) (h : lt x y = true → lt y x = false) :
    c.ok (by3 lt x y) = Cmp.accepts c (lt x y) (lt y x) := by
  unfold by3
  cases hxy : lt x y
  · cases hyx : lt y x <;> cases c <;> rfl
  · rw [h hxy]; cases c <;> rfl

theorem kind_asymm (k : Kind) (a b : V) (ha : k.has a) (hb : k.has b) (h : k.lt a b = true) : k.lt b a = false := by
  by_contra hc
  simp only [Bool.not_eq_false] at hc
  have := kind_trans k a b a ha hb ha h hc
  rw [kind_irrefl k a ha] at this
  cases this

/-- The engine's comparison of values of one kind is that of SQL. -/
theorem akin_compare (rx : Bytes → Bytes → Res Bool) (c : Cmp) {a b : V} (h : Akin a b) :
    ∃ o, compareV a b = .ok o ∧ (Op.cmp c).apply rx (some a) (some b) = some (c.ok o) := by
  obtain ⟨k, ha, hb⟩ := h
  refine ⟨_, kind_compare k a b ha hb, ?_⟩
  simp only [Op.apply, akin_less ha hb, akin_less hb ha]
  rw [accepts_by3 c k.lt a b (kind_asymm k a b ha hb)]

theorem Akin.symm {a b : V} (h : Akin a b) : Akin b a := by
  obtain ⟨k, ha, hb⟩ := h
  exact ⟨k, hb, ha⟩

theorem known_some {c : Cell} {a : V} (h : known c = some a) : c = .scalar a ∧ a ≠ .na := by
  cases c with
  | missing => cases h
  | container => cases h
  | scalar v => cases v <;> simp only [known, Option.some.injEq, reduceCtorEq] at h <;> subst h <;> exact ⟨rfl, by simp⟩

theorem akin_known {a b : V} (h : Akin a b) : known (.scalar b) = some b := by
  obtain ⟨k, -, hb⟩ := h
  cases b <;> first | rfl | exact absurd hb (has_na k)

theorem lt_asymm' (x y : FVal) (h : FVal.lt x y = true) : FVal.lt y x = false := by
  cases x <;> cases y <;> simp [FVal.lt] at h ⊢
  omega

/-- A number of a column and a numeral. -/
theorem num_compare (rx : Bytes → Bytes → Res Bool) (c : Cmp) {a : V} {d : UInt64} {f : UInt32} (h : NumAkin a d f) :
    ∃ o, compareV a (.float f) = .ok o ∧ (Op.cmp c).apply rx (some a) (some (.double d)) = some (c.ok o) := by
  obtain ⟨e, ht, h⟩ := h
  have num : ∀ (x y : Res Bool) (z : FVal), (∃ b, x = .ok b) → (∃ b, y = .ok b) → orElse x (orElse y (isT (.ok z))) = .ok true := by
    rintro x y z ⟨b, rfl⟩ ⟨c, rfl⟩
    cases b <;> cases c <;> rfl
  have n2 : (V.float f).isNumber = .ok true := by
    have := ofFloat_tame 24 (Or.inl rfl) (decode32 f) (by rw [e]; exact ht)
    exact num _ _ _ this.1 this.2
  rcases h with ⟨x, rfl, hx⟩ | ⟨x, rfl, hx⟩
  · refine ⟨by3 FVal.lt (decode64 x) (decode32 f), ?_, ?_⟩
    · have n1 : (V.double x).isNumber = .ok true := by
        have := ofFloat_tame 53 (Or.inr rfl) (decode64 x) hx
        exact num _ _ _ this.1 this.2
      simp [compareV, V.code, n1, n2, Res.bind, compareNum, equals, V.getDouble]
    · simp only [Op.apply, less, number]
      rw [accepts_by3 c FVal.lt _ _ (lt_asymm' _ _), e]
  · refine ⟨by3 FVal.lt (decode32 x) (decode32 f), ?_, ?_⟩
    · simp [compareV, V.code, Res.bind, compareNum, equals, V.getFloat]
    · simp only [Op.apply, less, number]
      rw [accepts_by3 c FVal.lt _ _ (lt_asymm' _ _), e]

/-- The same, the other way round, for `=` and `<>`. -/
theorem apply_symm (rx : Bytes → Bytes → Res Bool) (c : Cmp) (hc : c = .eq ∨ c = .ne) (a b : V) :
    (Op.cmp c).apply rx (some a) (some b) = (Op.cmp c).apply rx (some b) (some a) := by
  simp only [Op.apply]
  rcases less a b with _ | x <;> rcases less b a with _ | y <;> try rfl
  rcases hc with rfl | rfl <;> cases x <;> cases y <;> rfl

/-- The comparisons `Cond.plain` and `Cond.ready` speak of. -/
def DocOp (rx : Bytes → Bytes → Res Bool) (d : Doc) (o : Op) (x y : Operand) : Prop :=
  (Cond.op o x y).plain ∧ (Cond.op o x y).ready rx (fieldsOf d)

/-- A comparison with a constant, on a document with the column. -/
theorem doc_lit (rx : Bytes → Bytes → Res Bool) (d : Doc) (c : Cmp) (t : Option Bytes) (k : Bytes) (l : Lit) (a : V) (hl : l ≠ .null)
    (hk : known (fieldsOf d t k) = some a) (hc : Comparable (fieldsOf d) a (.lit l)) :
    ∃ v, getValue (.lit l) = .ok v ∧ ∃ o, compareTo (d.get k) (some v) = .ok o ∧
      (Op.cmp c).apply rx (some a) (known (.scalar l.value)) = some (c.ok o) := by
  have hd : d.get k = .scalar a := (known_some hk).1
  cases l with
  | null => exact absurd rfl hl
  | num dd f =>
    obtain ⟨o, h1, h2⟩ := num_compare rx c hc
    exact ⟨_, rfl, o, by rw [hd]; exact h1, h2⟩
  | bool b =>
    obtain ⟨o, h1, h2⟩ := akin_compare rx c hc
    exact ⟨_, rfl, o, by rw [hd]; exact h1, h2⟩
  | str b =>
    obtain ⟨o, h1, h2⟩ := akin_compare rx c hc
    exact ⟨_, rfl, o, by rw [hd]; exact h1, h2⟩
  | int b =>
    obtain ⟨o, h1, h2⟩ := akin_compare rx c hc
    exact ⟨_, rfl, o, by rw [hd]; exact h1, h2⟩

theorem param_new (ps qs : List V) (v : V) (h : ps.length + 1 ≤ 2 ^ 16) (hq : ps ++ [v] <+: qs) : paramOf qs (ps.length % 2 ^ 16) = some v := by
  rw [Nat.mod_eq_of_lt (by omega)]
  obtain ⟨t, rfl⟩ := hq
  simp [paramOf]

theorem doc_op (rx : Bytes → Bytes → Res Bool) (d : Doc) (o : Op) (x y : Operand) (ps : List V) (hQ : DocOp rx d o x y)
    (hl : ps.length + (Cond.op o x y).consts ≤ 2 ^ 16) :
    ∃ a ext, trOp o x y ps = .ok (.leaf a, ps ++ ext) ∧ ext.length = (Cond.op o x y).consts ∧
      ∀ qs, ps ++ ext <+: qs → ∃ b, checkLeaf ⟨paramOf qs, rx⟩ d none a = .ok b ∧
        Rel true b (o.apply rx (x.value (fieldsOf d) d) (y.value (fieldsOf d) d)) := by
  obtain ⟨hp, hr⟩ := hQ
  cases o with
  | like => cases x <;> cases y <;> exact absurd hp (by simp [Cond.plain])
  | other => cases x <;> cases y <;> exact absurd hp (by simp [Cond.plain])
  | regexp =>
    cases x with
    | lit l => exact absurd hp (by simp [Cond.plain])
    | expr f => exact absurd hp (by simp [Cond.plain])
    | col t k =>
      cases y with
      | col t' k' => exact absurd hp (by simp [Cond.plain])
      | expr f => exact absurd hp (by simp [Cond.plain])
      | lit l =>
        cases l with
        | str p =>
          simp only [Cond.ready] at hr
          obtain ⟨s, hs, b, hb⟩ := hr
          simp only [Cond.consts] at hl
          refine ⟨.regex k (.param (ps.length % 2 ^ 16)), [.str p], rfl, rfl, ?_⟩
          intro qs hq
          refine ⟨b, ?_, ?_⟩
          · simp only [fieldsOf] at hs
            simp only [checkLeaf, param_new ps qs _ hl hq, regexWith, hs, asText, hb]
          · simp only [Rel, if_true, Operand.value, hs, known, Lit.value, Op.apply, hb]
        | _ => exact absurd hp (by simp [Cond.plain])
  | cmp c =>
    cases x with
    | expr f => cases y <;> exact absurd hp (by simp [Cond.plain])
    | col t k =>
      cases y with
      | expr f => exact absurd hp (by simp [Cond.plain])
      | lit l =>
        simp only [Cond.plain] at hp
        simp only [Cond.ready] at hr
        simp only [Cond.consts] at hl
        obtain ⟨a, hk, hc⟩ := hr
        obtain ⟨v, h1, o, h2, h3⟩ := doc_lit rx d c t k l a hp hk hc
        refine ⟨.cmp c k (.param (ps.length % 2 ^ 16)), [v], ?_, rfl, ?_⟩
        · simp only [trOp, h1, Res.bind, leafOf, addParam]
        · intro qs hq
          refine ⟨c.ok o, by simp only [checkLeaf, param_new ps qs _ hl hq, h2, Res.bind], ?_⟩
          simp only [Rel, if_true, Operand.value, hk, h3]
      | col t' k' =>
        simp only [Cond.ready, Comparable] at hr
        obtain ⟨a, hk, b, hk', hc⟩ := hr
        have e1 : d.get k = .scalar a := (known_some hk).1
        have e2 : d.get k' = .scalar b := (known_some hk').1
        obtain ⟨o, h1, h2⟩ := akin_compare rx c hc
        refine ⟨.cmp c k (.key k'), [], ?_, rfl, ?_⟩
        · simp only [trOp, leafOf, Res.bind, List.append_nil]
        · intro qs hq
          refine ⟨c.ok o, by simp only [checkLeaf, e1, Doc.value, e2, compareTo, h1, Res.bind], ?_⟩
          simp only [Rel, if_true, Operand.value, hk, hk', h2]
    | lit l =>
      cases y with
      | lit l => exact absurd hp (by simp [Cond.plain])
      | expr f => exact absurd hp (by simp [Cond.plain])
      | col t k =>
        simp only [Cond.plain] at hp
        simp only [Cond.ready] at hr
        simp only [Cond.consts] at hl
        obtain ⟨a, hk, hc⟩ := hr
        obtain ⟨v, h1, o, h2, h3⟩ := doc_lit rx d c t k l a hp.1 hk hc
        refine ⟨.cmp c k (.param (ps.length % 2 ^ 16)), [v], ?_, rfl, ?_⟩
        · simp only [trOp, h1, Res.bind, leafOf, addParam]
        · intro qs hq
          refine ⟨c.ok o, by simp only [checkLeaf, param_new ps qs _ hl hq, h2, Res.bind], ?_⟩
          simp only [Rel, if_true, Operand.value, hk]
          rw [← h3]
          cases hv : known (.scalar l.value) with
          | none => rw [hv] at h3; cases h3
          | some w => exact apply_symm rx c hp.2 w a

theorem good_doc (rx : Bytes → Bytes → Res Bool) (d : Doc) (c : Cond) (hp : c.plain) (hr : c.ready rx (fieldsOf d)) : Good true (DocOp rx d) c := by
  induction c with
  | op o x y => exact ⟨hp, hr⟩
  | and l r ihl ihr => exact ⟨ihl hp.1 hr.1, ihr hp.2 hr.2⟩
  | or l r ihl ihr => exact ⟨ihl hp.1 hr.1, ihr hp.2 hr.2⟩
  | not c ih => cases c <;> first | exact absurd hp id | exact ⟨rfl, ih hp hr⟩
  | kind => exact absurd hp id
  | func => exact absurd hp id
  | node => exact absurd hp id

/-! ### missing and NULL columns -/

/-- The comparisons `Cond.positive` and `Cond.lax` speak of. -/
def LaxOp (d : Doc) (o : Op) (x y : Operand) : Prop := (Cond.op o x y).positive ∧ (Cond.op o x y).lax (fieldsOf d)

/-- NULL is greater than every constant for the engine. -/
theorem na_gt (l : Lit) (hl : l ≠ .null) (v : V) (hv : getValue (.lit l) = .ok v) (h : ∃ (row : Option Bytes → Bytes → Cell) (a : V), Comparable row a (.lit l)) :
    compareV .na v = .ok .gt := by
  have key : ∀ (k : Kind) (w : V), k.has w → compareV .na w = .ok .gt := by
    intro k w hw
    have hc := ((C32_kind_partial k).2.1 w hw).1
    obtain ⟨o, h1, h2⟩ := (C32_kind_partial k).1.swap (.scalar w) (.scalar .na) (Or.inr hw) (Or.inl rfl)
    rw [hc] at h1
    cases h1
    exact h2
  obtain ⟨row, a, h⟩ := h
  cases l with
  | null => exact absurd rfl hl
  | num dd f =>
    cases hv
    obtain ⟨e, ht, -⟩ := h
    exact key .floats (.float f) (by show tame (decode32 f); rw [e]; exact ht)
  | bool b => cases hv; obtain ⟨k, -, hb⟩ := h; exact key k _ hb
  | str b => cases hv; obtain ⟨k, -, hb⟩ := h; exact key k _ hb
  | int b => cases hv; obtain ⟨k, -, hb⟩ := h; exact key k _ hb

theorem lax_op (rx : Bytes → Bytes → Res Bool) (d : Doc) (o : Op) (x y : Operand) (ps : List V) (hQ : LaxOp d o x y)
    (hl : ps.length + (Cond.op o x y).consts ≤ 2 ^ 16) :
    ∃ a ext, trOp o x y ps = .ok (.leaf a, ps ++ ext) ∧ ext.length = (Cond.op o x y).consts ∧
      ∀ qs, ps ++ ext <+: qs → ∃ b, checkLeaf ⟨paramOf qs, rx⟩ d none a = .ok b ∧
        Rel false b (o.apply rx (x.value (fieldsOf d) d) (y.value (fieldsOf d) d)) := by
  obtain ⟨hp, hr⟩ := hQ
  cases o with
  | like => exact absurd hp id
  | other => exact absurd hp id
  | regexp => exact absurd hp id
  | cmp c =>
    cases x with
    | expr f => exact absurd hp id
    | lit l => exact absurd hp id
    | col t k =>
      cases y with
      | expr f => exact absurd hp id
      | col t' k' => exact absurd hp id
      | lit l =>
        obtain ⟨hnull, hc⟩ := hp
        obtain ⟨hr, a0, hc0⟩ := hr
        simp only [Cond.consts] at hl
        have hv : ∃ v, getValue (.lit l) = .ok v := by cases l <;> first | exact absurd rfl hnull | exact ⟨_, rfl⟩
        obtain ⟨v, hv⟩ := hv
        have hgt := na_gt l hnull v hv ⟨_, a0, hc0⟩
        refine ⟨.cmp c k (.param (ps.length % 2 ^ 16)), [v], by simp only [trOp, hv, Res.bind, leafOf, addParam], rfl, ?_⟩
        intro qs hq
        have none' : known (d.get k) = none → compareTo (d.get k) (some v) = .ok .gt →
            ∃ b, checkLeaf ⟨paramOf qs, rx⟩ d none (.cmp c k (.param (ps.length % 2 ^ 16))) = .ok b ∧
              Rel false b ((Op.cmp c).apply rx ((Operand.col t k).value (fieldsOf d) d) ((Operand.lit l).value (fieldsOf d) d)) := by
          intro h1 h2
          refine ⟨c.ok .gt, by simp only [checkLeaf, param_new ps qs _ hl hq, h2, Res.bind], ?_⟩
          have e : (Operand.col t k).value (fieldsOf d) d = none := h1
          rw [e]
          rcases hc with rfl | rfl | rfl <;> simp [Rel, Op.apply, Cmp.ok]
        rcases hr with hm | hm | ⟨a, hk, hcm⟩
        · have hm' : d.get k = .missing := hm
          exact none' (by rw [hm']; rfl) (by rw [hm']; rfl)
        · have hm' : d.get k = .scalar .na := hm
          exact none' (by rw [hm']; rfl) (by rw [hm']; exact hgt)
        · obtain ⟨v', h1, o, h2, h3⟩ := doc_lit rx d c t k l a hnull hk hcm
          rw [hv] at h1
          cases h1
          refine ⟨c.ok o, by simp only [checkLeaf, param_new ps qs _ hl hq, h2, Res.bind], ?_⟩
          simp only [Rel, Bool.false_eq_true, if_false, Operand.value, hk, h3, Option.some.injEq]

theorem good_lax (d : Doc) (c : Cond) (hp : c.positive) (hr : c.lax (fieldsOf d)) : Good false (LaxOp d) c := by
  induction c with
  | op o x y => exact ⟨hp, hr⟩
  | and l r ihl ihr => exact ⟨ihl hp.1 hr.1, ihr hp.2 hr.2⟩
  | or l r ihl ihr => exact ⟨ihl hp.1 hr.1, ihr hp.2 hr.2⟩
  | not c ih => exact absurd hp id
  | kind => exact absurd hp id
  | func => exact absurd hp id
  | node => exact absurd hp id

/-! ### the filter on documents -/

/-- The translation of a WHERE clause and what it answers, for the documents that `P` describes. -/
def Exact (rx : Bytes → Bytes → Res Bool) (c : Cond) (ds : List Doc) (qs : List V) : Prop :=
  ∃ f ext, tr c qs = .ok (f, qs ++ ext) ∧ trWhere c qs = tr c qs ∧
    ∀ d ∈ ds, ∃ b, pred ⟨paramOf (qs ++ ext), rx⟩ f d = .ok b ∧ (b = true ↔ Selects rx c d)

theorem tr_det {c : Cond} {ps : List V} {f g : Filter Leaf} {e e' : List V} (h : tr c ps = .ok (f, ps ++ e)) (h' : tr c ps = .ok (g, ps ++ e')) :
    f = g ∧ e = e' := by
  rw [h] at h'
  injection h' with h'
  injection h' with h1 h2
  exact ⟨h1, List.append_cancel_left h2⟩

theorem plain_where (c : Cond) (hp : c.plain) (ps : List V) : trWhere c ps = tr c ps := by
  cases c with
  | op o x y => rfl
  | and l r => cases l <;> first | exact absurd hp.1 id | (cases r <;> first | exact absurd hp.2 id | rfl)
  | or l r => cases l <;> first | exact absurd hp.1 id | (cases r <;> first | exact absurd hp.2 id | rfl)
  | not c => cases c <;> first | exact absurd hp id | rfl
  | kind => rfl
  | func => exact absurd hp id
  | node => rfl

theorem positive_where (c : Cond) (hp : c.positive) (ps : List V) : trWhere c ps = tr c ps := by
  cases c with
  | op o x y => rfl
  | and l r => cases l <;> first | exact absurd hp.1 id | (cases r <;> first | exact absurd hp.2 id | rfl)
  | or l r => cases l <;> first | exact absurd hp.1 id | (cases r <;> first | exact absurd hp.2 id | rfl)
  | not c => exact absurd hp id
  | kind => rfl
  | func => exact absurd hp id
  | node => rfl

end Verif.Sql
