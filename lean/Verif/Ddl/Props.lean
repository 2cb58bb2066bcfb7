import Verif.Ddl.Spec
/-!
C75: CREATE TABLE makes a table with exactly the declared columns.
C76: the statements act on exactly the collections and indexes they name.
-/
namespace Verif.Ddl
open Verif Verif.TableId

/-! ## C75 -/

/-- A CREATE TABLE statement as far as the table it makes. -/
def made (s : CreateTable) : Res Kept := (createTable s).map' keep

/-- C75 in full: a statement that lists columns makes a table with exactly those columns, in that order,
with their names and the types they are declared with; when some column's type is not one the engine has,
the statement is rejected. -/
def C75_create_claim : Prop :=
  ∀ (s : CreateTable) (cs : List ColumnDef), s.elements = cs.map .column → cs ≠ [] →
    (∀ sch, made s = .ok (.table sch) ↔ Declares cs sch) ∧
    ((∀ sch, ¬ Declares cs sch) → made s = .throws)

theorem toByte_of {n : Int} (h0 : 0 ≤ n) (h : n < 256) : toByte n = n.toNat := by
  unfold toByte; rw [Int.emod_eq_of_lt h0 h]

theorem toSize_of {n : Nat} (h : n < 18446744073709551616) : toSize (n : Int) = n := by
  unfold toSize
  rw [Int.emod_eq_of_lt (by omega) (by omega)]
  rfl

theorem logical_known {n : String} (h : n ∈ lookup.map (·.1)) :
    (n ≠ "numeric" → named n = if logical n = .na then none else some (.plain (logical n))) ∧
      (logical n = .decimal ↔ n = "numeric") := by
  simp only [lookup, List.map_cons, List.map_nil, List.mem_cons, List.not_mem_nil, or_false] at h
  rcases h with rfl | rfl | rfl | rfl | rfl | rfl | rfl | rfl | rfl | rfl | rfl | rfl | rfl | rfl | rfl | rfl | rfl | rfl | rfl | rfl | rfl | rfl | rfl | rfl | rfl <;> decide +kernel

theorem lookup_none {n : String} : ∀ {l : List (String × Logical)}, n ∉ l.map (·.1) → l.lookup n = none
  | [], _ => rfl
  | (k, v) :: l, h => by
    simp only [List.map_cons, List.mem_cons, not_or] at h
    have hk : (n == k) = false := by simpa using h.1
    simp only [List.lookup, hk]
    exact lookup_none h.2

theorem logical_unknown {n : String} (h : n ∉ lookup.map (·.1)) : logical n = .na ∧ named n = none := by
  constructor
  · simp only [logical, lookup_none h]
  · simp only [lookup, List.map_cons, List.map_nil, List.mem_cons, List.not_mem_nil, or_false, not_or] at h
    simp only [named, h, or_self, if_false]

theorem logical_named (n : String) (hn : n ≠ "numeric") :
    named n = if logical n = .na then none else some (.plain (logical n)) := by
  by_cases h : n ∈ lookup.map (·.1)
  · exact (logical_known h).1 hn
  · simp [logical_unknown h]

theorem logical_numeric (n : String) : logical n = .decimal ↔ n = "numeric" := by
  by_cases h : n ∈ lookup.map (·.1)
  · exact (logical_known h).2
  · constructor
    · intro c; rw [(logical_unknown h).1] at c; cases c
    · rintro rfl; exact absurd (by decide +kernel) h

/-- How a fitting declaration of a known type is read. -/
theorem elem_some {b : Base} (h : b.Fits) {l : LType} (hl : b.meaning = some l) :
    ∃ n m, b.parse = .ok (n, m) ∧ (∀ bs, elemType ⟨n, m, bs⟩ = .ok l) ∧ l ≠ .plain .na := by
  have hn : ∀ n, namedWith n [] = some l →
      logical n ≠ .decimal ∧ l = .plain (logical n) ∧ l ≠ .plain .na := by
    intro n hw
    unfold namedWith at hw
    by_cases e : n = "numeric"
    · rw [if_pos e] at hw; simp [decimalMeans] at hw
    · rw [if_neg e, if_pos rfl, logical_named n e] at hw
      split at hw
      · cases hw
      · rename_i ne
        cases hw
        exact ⟨fun c => e ((logical_numeric n).1 c), rfl, fun c => ne (by injection c)⟩
  have hs : ∀ k : Logical, l = .plain k → k ≠ .na → l ≠ .plain .na := by
    rintro k rfl hk c; cases c; exact hk rfl
  have sys : ∀ n, logical n ≠ .decimal → l = .plain (logical n) → l ≠ .plain .na →
      ∃ ns m, Res.ok (system n, []) = .ok (ns, m) ∧ (∀ bs, elemType ⟨ns, m, bs⟩ = .ok l) ∧ l ≠ .plain .na := by
    intro n h1 h2 h3
    exact ⟨_, _, rfl, fun bs => by simp [elemType, system, h1, h2], h3⟩
  cases b with
  | int => cases hl; exact sys _ (by decide +kernel) (by decide +kernel) (by decide)
  | integer => cases hl; exact sys _ (by decide +kernel) (by decide +kernel) (by decide)
  | smallint => cases hl; exact sys _ (by decide +kernel) (by decide +kernel) (by decide)
  | bigint => cases hl; exact sys _ (by decide +kernel) (by decide +kernel) (by decide)
  | real => cases hl; exact sys _ (by decide +kernel) (by decide +kernel) (by decide)
  | doublePrecision => cases hl; exact sys _ (by decide +kernel) (by decide +kernel) (by decide)
  | boolean => cases hl; exact sys _ (by decide +kernel) (by decide +kernel) (by decide)
  | float p =>
    cases p with
    | none => cases hl; exact sys _ (by decide +kernel) (by decide +kernel) (by decide)
    | some p =>
      simp only [Base.meaning] at hl
      simp only [Base.parse]
      split at hl
      · rename_i hp
        rw [if_neg (by omega), if_pos hp.2]
        cases hl; exact sys _ (by decide +kernel) (by decide +kernel) (by decide)
      · split at hl
        · rename_i hp
          rw [if_neg (by omega), if_neg (by omega), if_pos hp.2]
          cases hl; exact sys _ (by decide +kernel) (by decide +kernel) (by decide)
        · cases hl
  | decimal m =>
    simp only [Base.meaning] at hl
    unfold decimalMeans at hl
    split at hl
    · rename_i w s
      have := h.2 w s rfl
      rw [if_pos ⟨this.1, this.2.1⟩] at hl
      cases hl
      refine ⟨_, _, rfl, fun bs => ?_, by simp⟩
      simp [elemType, system, (logical_numeric _).2 rfl, decimalOf]
      exact ⟨toByte_of (by omega) (by omega), toByte_of (by omega) (by omega)⟩
    · cases hl
  | bit m =>
    have hm : m = [] := h
    subst hm
    cases hl
    exact ⟨_, _, rfl, fun bs => by
      have : logical "bit" = .bit := by decide +kernel
      simp [elemType, system, this], by decide⟩
  | named q r m =>
    obtain ⟨rfl, ⟨rfl, n, rfl⟩ | ⟨h1, h2, rfl⟩⟩ := h
    · simp only [Base.meaning, if_pos] at hl
      obtain ⟨a, b, c⟩ := hn n hl
      exact ⟨_, _, rfl, fun bs => by simp [elemType, a, b], c⟩
    · simp only [Base.meaning] at hl
      obtain ⟨a, b, c⟩ := hn q hl
      exact ⟨_, _, rfl, fun bs => by simp [elemType, h1, b], c⟩
  | _ => cases hl

/-- How a fitting declaration of an unknown type is read: as NA, or not at all. -/
theorem elem_none {b : Base} (h : b.Fits) (hl : b.meaning = none) :
    b.parse = .throws ∨ ∃ n m, b.parse = .ok (n, m) ∧
      ((∀ bs, elemType ⟨n, m, bs⟩ = .throws) ∨ ∀ bs, elemType ⟨n, m, bs⟩ = .ok (.plain .na)) := by
  have hn : ∀ n, n ≠ "numeric" → namedWith n [] = none → logical n = .na := by
    intro n e hw
    unfold namedWith at hw
    rw [if_neg e, if_pos rfl, logical_named n e] at hw
    split at hw
    · assumption
    · cases hw
  have sys : ∀ n m, logical n = .na →
      ∃ ns ms, Res.ok (system n, m) = .ok (ns, ms) ∧
        ((∀ bs, elemType ⟨ns, ms, bs⟩ = .throws) ∨ ∀ bs, elemType ⟨ns, ms, bs⟩ = .ok (.plain .na)) := by
    intro n m h1
    exact ⟨_, _, rfl, .inr fun bs => by simp [elemType, system, h1]⟩
  cases b with
  | float p =>
    cases p with
    | none => cases hl
    | some p =>
      simp only [Base.meaning] at hl
      left
      simp only [Base.parse]
      split at hl
      · cases hl
      · split at hl
        · cases hl
        · by_cases h1 : p < 1
          · rw [if_pos h1]
          · rw [if_neg h1, if_neg (by omega), if_neg (by omega)]
  | decimal m =>
    refine .inr ⟨_, _, rfl, .inl fun bs => ?_⟩
    simp only [Base.meaning] at hl
    simp only [elemType, system, if_pos, (logical_numeric _).2 rfl]
    unfold decimalMeans at hl
    unfold decimalOf
    obtain ⟨h1, h2⟩ := h
    split
    · rename_i w s
      have := h2 w s rfl
      simp only [if_pos (show 0 ≤ s ∧ s ≤ w from ⟨this.1, this.2.1⟩)] at hl
      cases hl
    · simp at h1
    · simp at h1
    · rfl
  | bit m =>
    have hm : m = [] := h
    subst hm
    cases hl
  | named q r m =>
    right
    obtain ⟨rfl, ⟨rfl, n, rfl⟩ | ⟨h1, h2, rfl⟩⟩ := h
    · simp only [Base.meaning, if_pos] at hl
      by_cases e : n = "numeric"
      · subst e
        exact ⟨_, _, rfl, .inl fun bs => by
          simp [elemType, (logical_numeric _).2 rfl, decimalOf]⟩
      · exact ⟨_, _, rfl, .inr fun bs => by simp [elemType, hn n e hl]⟩
    · simp only [Base.meaning] at hl
      exact ⟨_, _, rfl, .inr fun bs => by simp [elemType, h1, hn q h2 hl]⟩
  | varbit m => exact .inr (sys _ _ (by decide +kernel))
  | char m => exact .inr (sys _ _ (by decide +kernel))
  | varchar m => exact .inr (sys _ _ (by decide +kernel))
  | timestamp z m => right; cases z <;> exact sys _ _ (by decide +kernel)
  | time z m => right; cases z <;> exact sys _ _ (by decide +kernel)
  | interval m => exact .inr (sys _ _ (by decide +kernel))
  | _ => cases hl

/-- One column. -/
theorem element_fits {c : ColumnDef} (h : c.type.Fits) :
    element (.column c) =
      match c.type.meaning with
      | some l => .ok (c.name, l)
      | none => .throws := by
  obtain ⟨hb, hd⟩ := h
  simp only [element, Written.parse]
  cases hm : c.type.base.meaning with
  | some l =>
    obtain ⟨n, m, hp, he, hna⟩ := elem_some hb hm
    have hw : c.type.meaning = some (c.type.dims.foldr dim l) := by simp [Written.meaning, hm]
    rw [hw, hp]
    simp only [Res.map', Res.bind, getType, he]
    rcases hd with hd | ⟨⟨k, hd, hk⟩, -⟩
    · simp [hd, hna]
    · simp [hd, dim, bound, toSize_of hk]
  | none =>
    have hw : c.type.meaning = none := by simp [Written.meaning, hm]
    have hd : c.type.dims = [] := by
      rcases hd with hd | ⟨-, hd⟩
      · exact hd
      · exact absurd hm hd
    rw [hw]
    rcases elem_none hb hm with hp | ⟨n, m, hp, he | he⟩
    · rw [hp]; rfl
    · rw [hp]; simp [Res.map', Res.bind, getType, he]
    · rw [hp]; simp [Res.map', Res.bind, getType, he, hd]

/-- The columns of a list of fitting declarations. -/
theorem columns_fits : ∀ {cs : List ColumnDef}, (∀ c ∈ cs, c.type.Fits) →
    (∀ sch, columns (cs.map .column) = .ok sch ↔ Declares cs sch) ∧
    ((∀ sch, ¬ Declares cs sch) → columns (cs.map .column) = .throws)
  | [], _ => by
    constructor
    · intro sch
      cases sch <;> simp [columns, Declares]
    · intro h; exact absurd rfl (h [])
  | c :: cs, h => by
    obtain ⟨i1, i2⟩ := columns_fits (cs := cs) fun x hx => h x (List.mem_cons_of_mem _ hx)
    have he := element_fits (h c (List.mem_cons_self ..))
    simp only [List.map_cons, columns]
    rw [he]
    cases hm : c.type.meaning with
    | none =>
      constructor
      · intro sch
        constructor
        · intro c; cases c
        · intro hd
          cases sch with
          | nil => cases hd
          | cons p ps => simp [Declares, hm] at hd
      · intro _; rfl
    | some l =>
      simp only [Res.bind]
      constructor
      · intro sch
        cases hc : columns (cs.map .column) with
        | ok ps =>
          have hp := (i1 ps).1 hc
          simp only [Res.ok.injEq]
          constructor
          · rintro rfl
            simpa [Declares, hm] using hp
          · intro hd
            cases sch with
            | nil => cases hd
            | cons q qs =>
              simp [Declares, hm] at hd
              have := (i1 qs).2 hd.2
              rw [hc] at this
              cases this
              obtain ⟨a, b⟩ := q
              simp at hd
              rw [hd.1.1, hd.1.2]
        | _ =>
          constructor
          · intro c; cases c
          · intro hd
            cases sch with
            | nil => cases hd
            | cons q qs =>
              simp [Declares, hm] at hd
              have := (i1 qs).2 hd.2
              rw [hc] at this
              cases this
      · intro hno
        have : columns (cs.map .column) = .throws := i2 fun sch hs => by
          refine hno ((c.name, l) :: sch) ?_
          simpa [Declares, hm] using hs
        rw [this]

/-- C75, the part that holds: for every statement whose elements are columns and whose types are read as
they are meant (`Written.Fits`: at most one pair of brackets, with a size; DECIMAL(w, s) with
0 ≤ s ≤ w ≤ 255; no length on BIT and no modifiers on other names; no qualifier but pg_catalog). -/
theorem C75_create_partial (s : CreateTable) (cs : List ColumnDef) (hs : s.elements = cs.map .column)
    (hne : cs ≠ []) (hf : ∀ c ∈ cs, c.type.Fits) :
    (∀ sch, made s = .ok (.table sch) ↔ Declares cs sch) ∧
    ((∀ sch, ¬ Declares cs sch) → made s = .throws) := by
  obtain ⟨h1, h2⟩ := columns_fits hf
  unfold made createTable
  rw [hs]
  constructor
  · intro sch
    rw [← h1 sch]
    cases hc : columns (cs.map .column) with
    | ok ps =>
      have hp := (h1 ps).1 hc
      have : ps ≠ [] := by
        rintro rfl
        cases cs with
        | nil => exact hne rfl
        | cons c cs => simp [Declares] at hp
      simp [Res.map', Res.bind, keep, List.isEmpty_iff, this]
    | _ => simp [Res.map', Res.bind]
  · intro hno
    rw [h2 hno]; rfl

/-- `CREATE TABLE db.t (a INTEGER NOT NULL, b DECIMAL(10, 2)[4], c string)` meets the hypotheses. -/
example :
    let cs : List ColumnDef :=
      [⟨['a'], ⟨.integer, []⟩, [.notNull]⟩, ⟨['b'], ⟨.decimal [.int 10, .int 2], [some 4]⟩, []⟩,
        ⟨['c'], ⟨.named "string" [] [], []⟩, []⟩]
    (∀ c ∈ cs, c.type.Fits) ∧
      made ⟨false, ['d', 'b'], [['t']], cs.map .column⟩ =
        .ok (.table [(['a'], .plain .integer), (['b'], .array (.decimal 10 2) 4), (['c'], .plain .string)]) := by
  refine ⟨?_, by decide +kernel⟩
  intro c hc
  simp only [List.mem_cons, List.not_mem_nil, or_false] at hc
  rcases hc with rfl | rfl | rfl
  · exact ⟨trivial, .inl rfl⟩
  · refine ⟨⟨by decide, ?_⟩, .inr ⟨⟨4, rfl, by decide⟩, by decide +kernel⟩⟩
    intro w s h
    simp only [List.cons.injEq, Mod.int.injEq, and_true] at h
    omega
  · exact ⟨⟨rfl, .inr ⟨by decide, by decide, rfl⟩⟩, .inl rfl⟩

/-- `CREATE TABLE t (a VARCHAR)`: rejected, as text has the name `string` here. -/
example : (∀ sch, ¬ Declares [⟨['a'], ⟨.varchar [], []⟩, []⟩] sch) ∧
    made ⟨false, ['t'], [], [.column ⟨['a'], ⟨.varchar [], []⟩, []⟩]⟩ = .throws := by
  constructor
  · intro sch h
    cases sch with
    | nil => cases h
    | cons p ps => simp [Declares, Written.meaning, Base.meaning] at h
  · decide +kernel

/-- A statement with one column named `a`. -/
def one (w : Written) : CreateTable := ⟨false, ['t'], [], [.column ⟨['a'], w, []⟩]⟩

/-- What the full claim says of a statement with one column. -/
theorem one_claim (h : C75_create_claim) (w : Written) :
    made (one w) = match w.meaning with
      | some l => .ok (.table [(['a'], l)])
      | none => .throws := by
  obtain ⟨h1, h2⟩ := h (one w) [⟨['a'], w, []⟩] rfl (by simp)
  cases hm : w.meaning with
  | some l => exact (h1 _).2 (by simp [Declares, hm])
  | none =>
    refine h2 fun sch hd => ?_
    cases sch with
    | nil => cases hd
    | cons p ps => simp [Declares, hm] at hd

/-- `DECIMAL(300, 2)` becomes a decimal of width 44: the modifiers are cut to a byte. -/
theorem C75_decimal_width_fails : ¬ C75_create_claim ∧
    made (one ⟨.decimal [.int 300, .int 2], []⟩) = .ok (.table [(['a'], .decimal 44 2)]) := by
  have h : made (one ⟨.decimal [.int 300, .int 2], []⟩) = .ok (.table [(['a'], .decimal 44 2)]) := by
    decide +kernel
  refine ⟨fun c => ?_, h⟩
  have := one_claim c ⟨.decimal [.int 300, .int 2], []⟩
  rw [h] at this
  revert this
  decide +kernel

/-- `DECIMAL(2, 10)`, with more digits behind the point than there are in all, is accepted. -/
theorem C75_decimal_scale_fails : ¬ C75_create_claim ∧
    made (one ⟨.decimal [.int 2, .int 10], []⟩) = .ok (.table [(['a'], .decimal 2 10)]) := by
  have h : made (one ⟨.decimal [.int 2, .int 10], []⟩) = .ok (.table [(['a'], .decimal 2 10)]) := by
    decide +kernel
  refine ⟨fun c => ?_, h⟩
  have := one_claim c ⟨.decimal [.int 2, .int 10], []⟩
  rw [h] at this
  revert this
  decide +kernel

/-- `INT[3][4]` becomes an array of three integers, for every size of the first pair of brackets and
whatever follows it. -/
theorem C75_matrix_fails : ¬ C75_create_claim ∧
    ∀ (n : Nat) (ds : List (Option Nat)), n < 18446744073709551616 →
      made (one ⟨.int, some n :: ds⟩) = .ok (.table [(['a'], .array (.plain .integer) n)]) := by
  have h : ∀ (n : Nat) (ds : List (Option Nat)), n < 18446744073709551616 →
      made (one ⟨.int, some n :: ds⟩) = .ok (.table [(['a'], .array (.plain .integer) n)]) := by
    intro n ds hn
    have hi : logical "int4" = .integer := by decide +kernel
    have hs : toSize (n : Int) = n := toSize_of hn
    simp [made, one, createTable, columns, element, Written.parse, Base.parse, Res.map', Res.bind, getType,
      elemType, system, hi, bound, hs, keep]
  refine ⟨fun c => ?_, h⟩
  have := one_claim c ⟨.int, [some 3, some 4]⟩
  rw [h _ _ (by decide)] at this
  revert this
  decide +kernel

/-- `INT[]` becomes an array of 2^64 - 1 integers. -/
theorem C75_unsized_fails : ¬ C75_create_claim ∧
    made (one ⟨.int, [none]⟩) = .ok (.table [(['a'], .array (.plain .integer) 18446744073709551615)]) := by
  have h : made (one ⟨.int, [none]⟩) =
      .ok (.table [(['a'], .array (.plain .integer) 18446744073709551615)]) := by
    decide +kernel
  refine ⟨fun c => ?_, h⟩
  have := one_claim c ⟨.int, [none]⟩
  rw [h] at this
  revert this
  decide +kernel

/-- `BIT(8)` and `BIT` make the same column, the length is dropped. -/
theorem C75_bit_length_fails : ¬ C75_create_claim ∧
    ∀ m, made (one ⟨.bit m, []⟩) = .ok (.table [(['a'], .plain .bit)]) := by
  have h : ∀ m, made (one ⟨.bit m, []⟩) = .ok (.table [(['a'], .plain .bit)]) := by
    intro m
    have hi : logical "bit" = .bit := by decide +kernel
    simp [made, one, createTable, columns, element, Written.parse, Base.parse, Res.map', Res.bind, getType,
      elemType, system, hi, keep]
  refine ⟨fun c => ?_, h⟩
  have := one_claim c ⟨.bit [.int 8], []⟩
  rw [h] at this
  revert this
  decide +kernel

/-- An array of a type that does not exist is accepted: the check sees the array. -/
theorem C75_unknown_array_fails : ¬ C75_create_claim ∧
    made (one ⟨.varchar [], [some 3]⟩) = .ok (.table [(['a'], .array (.plain .na) 3)]) := by
  have h : made (one ⟨.varchar [], [some 3]⟩) = .ok (.table [(['a'], .array (.plain .na) 3)]) := by
    decide +kernel
  refine ⟨fun c => ?_, h⟩
  have := one_claim c ⟨.varchar [], [some 3]⟩
  rw [h] at this
  revert this
  decide +kernel

/-- A qualifier is read as the type: `tinyint.point` is a tinyint. -/
theorem C75_qualifier_fails : ¬ C75_create_claim ∧
    made (one ⟨.named "tinyint" ["point"] [], []⟩) = .ok (.table [(['a'], .plain .tinyint)]) := by
  have h : made (one ⟨.named "tinyint" ["point"] [], []⟩) = .ok (.table [(['a'], .plain .tinyint)]) := by
    decide +kernel
  refine ⟨fun c => ?_, h⟩
  have := one_claim c ⟨.named "tinyint" ["point"] [], []⟩
  rw [h] at this
  revert this
  decide +kernel

/-- The name written in quotes, `"numeric"(10, 2)`, makes a decimal that has neither width nor scale. -/
theorem C75_quoted_numeric_fails : ¬ C75_create_claim ∧
    made (one ⟨.named "numeric" [] [.int 10, .int 2], []⟩) = .ok (.table [(['a'], .plain .decimal)]) := by
  have h : made (one ⟨.named "numeric" [] [.int 10, .int 2], []⟩) =
      .ok (.table [(['a'], .plain .decimal)]) := by
    decide +kernel
  refine ⟨fun c => ?_, h⟩
  have := one_claim c ⟨.named "numeric" [] [.int 10, .int 2], []⟩
  rw [h] at this
  revert this
  decide +kernel

/-- A column whose type is `pg_catalog` alone, and a decimal whose modifier is an expression, are undefined
behaviour. -/
theorem C75_type_is_ub : ¬ C75_create_claim ∧
    (∀ m ds, made (one ⟨.named "pg_catalog" [] m, ds⟩) = .ub) ∧
    (∀ m ds, made (one ⟨.decimal [m, .expr], ds⟩) = .ub) := by
  have h : ∀ m ds, made (one ⟨.named "pg_catalog" [] m, ds⟩) = .ub := by
    intro m ds
    simp [made, one, createTable, columns, element, Written.parse, Base.parse, Res.map', Res.bind, getType,
      elemType]
  refine ⟨fun c => ?_, h, ?_⟩
  · have := one_claim c ⟨.named "pg_catalog" [] [], []⟩
    rw [h] at this
    revert this
    decide +kernel
  · intro m ds
    have hi : logical "numeric" = .decimal := by decide +kernel
    cases m <;>
      simp [made, one, createTable, columns, element, Written.parse, Base.parse, Res.map', Res.bind, getType,
        elemType, system, hi, decimalOf]

/-- A table constraint, a LIKE clause or a storage directive is read as a column: for every statement in
which the columns in front of it are accepted, that is undefined behaviour. -/
theorem C75_table_constraint_is_ub (s : CreateTable) (cs : List ColumnDef) (e : Element) (es : List Element)
    (hs : s.elements = cs.map .column ++ e :: es) (hf : ∀ c ∈ cs, c.type.Fits)
    (hd : ∃ sch, Declares cs sch) (he : e = .constraint ∨ e = .like ∨ e = .storage) : made s = .ub := by
  obtain ⟨sch, hd⟩ := hd
  have hc := ((columns_fits hf).1 sch).2 hd
  have key : ∀ (l : List Element) (ps : List (Str × LType)), columns l = .ok ps →
      columns (l ++ e :: es) = .ub := by
    intro l
    induction l with
    | nil =>
      intro ps _
      rcases he with rfl | rfl | rfl <;> rfl
    | cons x xs ih =>
      intro ps h
      simp only [columns] at h
      simp only [List.cons_append, columns]
      cases hx : element x with
      | ok y =>
        rw [hx] at h
        simp only [Res.bind] at h ⊢
        cases hxs : columns xs with
        | ok ys => rw [ih ys hxs]
        | _ => rw [hxs] at h; cases h
      | _ => rw [hx] at h; cases h
  unfold made createTable
  rw [hs, key _ _ hc]
  rfl

/-- `CREATE TABLE t (a INTEGER, PRIMARY KEY (a))`. -/
example : made ⟨false, ['t'], [], [.column ⟨['a'], ⟨.integer, []⟩, []⟩, .constraint]⟩ = .ub := by
  refine C75_table_constraint_is_ub _ [⟨['a'], ⟨.integer, []⟩, []⟩] .constraint [] rfl ?_
    ⟨[(['a'], .plain .integer)], rfl⟩ (.inl rfl)
  intro c hc
  simp only [List.mem_cons, List.not_mem_nil, or_false] at hc
  subst hc
  exact ⟨trivial, .inl rfl⟩

/-- The constraints of the columns are dropped and IF NOT EXISTS is not seen: a statement means the same
without them. -/
theorem C75_constraints_are_dropped (s : CreateTable) :
    createTable s = createTable { s with
      ifNotExists := false
      elements := s.elements.map fun e => match e with
        | .column c => .column { c with constraints := [] }
        | e => e } := by
  have : ∀ es : List Element, columns es = columns (es.map fun e => match e with
        | .column c => .column { c with constraints := [] }
        | e => e) := by
    intro es
    induction es with
    | nil => rfl
    | cons e es ih =>
      simp only [List.map_cons, columns]
      rw [ih]
      cases e <;> rfl
  unfold createTable
  rw [this s.elements]

/-- C75 also means that no two columns have the same name. -/
def C75_distinct_claim : Prop :=
  ∀ (s : CreateTable) sch, made s = .ok (.table sch) → (sch.map (·.1)).Nodup

/-- Two columns of one name are accepted. -/
theorem C75_distinct_fails : ¬ C75_distinct_claim ∧
    made ⟨false, ['t'], [], [.column ⟨['a'], ⟨.int, []⟩, []⟩, .column ⟨['a'], ⟨.boolean, []⟩, []⟩]⟩ =
      .ok (.table [(['a'], .plain .integer), (['a'], .plain .boolean)]) := by
  have h : made ⟨false, ['t'], [], [.column ⟨['a'], ⟨.int, []⟩, []⟩, .column ⟨['a'], ⟨.boolean, []⟩, []⟩]⟩ =
      .ok (.table [(['a'], .plain .integer), (['a'], .plain .boolean)]) := by decide +kernel
  exact ⟨fun c => absurd (c _ _ h) (by decide), h⟩

/-- A statement without columns makes a collection of documents, and only such a statement does. -/
theorem C75_documents (s : CreateTable) : made s = .ok .documents ↔ s.elements = [] := by
  unfold made createTable
  constructor
  · intro h
    cases he : s.elements with
    | nil => rfl
    | cons e es =>
      rw [he] at h
      simp only [columns] at h
      cases hx : element e with
      | ok y =>
        rw [hx] at h
        simp only [Res.bind] at h
        cases hxs : columns es with
        | ok ys => rw [hxs] at h; simp [Res.map', Res.bind, keep] at h
        | _ => rw [hxs] at h; cases h
      | _ => rw [hx] at h; cases h
  · intro h; rw [h]; rfl

/-! ## C76 -/

/-- C76 in full, for DROP TABLE: when every name in the list denotes a collection, every one of them is
dropped. -/
def C76_drop_claim : Prop :=
  ∀ (s : Drop), s.kind = .table → (∀ p ∈ s.head :: s.tail, ∃ n, Denotes p n) →
    ∀ p ∈ s.head :: s.tail, ∀ n, Denotes p n → drop s = .ok (.dropTable n)

/-- The part that holds: a statement with one name acts on the collection that name denotes and on no
other. -/
theorem C76_drop_partial (s : Drop) (hk : s.kind = .table) (ht : s.tail = []) :
    (∀ n, drop s = .ok (.dropTable n) ↔ Denotes s.head n) ∧
      ((∀ n, ¬ Denotes s.head n) → drop s = .throws) := by
  obtain ⟨k, b, p, t⟩ := s
  simp only at hk ht ⊢
  subst hk
  simp only [drop]
  constructor
  · intro n
    constructor
    · intro h
      split at h <;> cases h <;> constructor
    · intro h
      cases h <;> rfl
  · intro h
    split
    · exact absurd (.table _) (h _)
    · exact absurd (.inDatabase _ _) (h _)
    · exact absurd (.inSchema _ _ _) (h _)
    · exact absurd (.full _ _ _ _) (h _)
    · rfl

/-- `DROP TABLE a, b` drops `a` alone, without an error. -/
theorem C76_drop_list_fails : ¬ C76_drop_claim ∧
    ∀ a b, drop ⟨.table, false, [a], [[b]]⟩ = .ok (.dropTable ⟨[], [], [], a⟩) := by
  refine ⟨fun c => ?_, fun _ _ => rfl⟩
  have := c ⟨.table, false, [['a']], [[['b']]]⟩ rfl (by
    intro p hp
    simp only [List.mem_cons, List.not_mem_nil, or_false] at hp
    rcases hp with rfl | rfl
    · exact ⟨_, .table _⟩
    · exact ⟨_, .table _⟩) [['b']] (by simp) _ (.table _)
  revert this
  decide

/-- C76 for CREATE TABLE, in full: the collection made is the one the name denotes, and a name that denotes
none is rejected. -/
def C76_create_claim : Prop :=
  ∀ (s : CreateTable) c, createTable s = .ok c → Denotes (s.first :: s.rest) c.name

/-- With up to four parts the collection made is the one the name denotes; DROP TABLE with the same name is
about the same collection. -/
theorem C76_create_partial (s : CreateTable) (c : Created) (h : createTable s = .ok c)
    (hl : s.rest.length ≤ 3) :
    Denotes (s.first :: s.rest) c.name ∧
      ∀ b t, drop ⟨.table, b, s.first :: s.rest, t⟩ = .ok (.dropTable c.name) := by
  have hn : c.name = toCollection (qualified s.first s.rest) := by
    unfold createTable at h
    cases hc : columns s.elements with
    | ok cs => rw [hc] at h; simp only [Res.map', Res.bind, Res.ok.injEq] at h; rw [← h]
    | _ => rw [hc] at h; cases h
  rw [hn]
  match hr : s.rest, hl with
  | [], _ => exact ⟨.table _, fun _ _ => rfl⟩
  | [_], _ => exact ⟨.inDatabase _ _, fun _ _ => rfl⟩
  | [_, _], _ => exact ⟨.inSchema _ _ _, fun _ _ => rfl⟩
  | [_, _, _], _ => exact ⟨.full _ _ _ _, fun _ _ => rfl⟩
  | _ :: _ :: _ :: _ :: _, hl => simp at hl

/-- `CREATE TABLE u.d.s.t ()` and `DROP TABLE u.d.s.t`. -/
example : createTable ⟨false, ['u'], [['d'], ['s'], ['t']], []⟩ = .ok ⟨⟨['u'], ['d'], ['s'], ['t']⟩, []⟩ ∧
    drop ⟨.table, true, [['u'], ['d'], ['s'], ['t']], []⟩ = .ok (.dropTable ⟨['u'], ['d'], ['s'], ['t']⟩) := by
  decide

/-- With five parts or more a collection without a name is made, whatever the parts are; DROP TABLE with the
same name is rejected. -/
theorem C76_long_name_fails : ¬ C76_create_claim ∧
    (∀ (s : CreateTable) c, createTable s = .ok c → 4 ≤ s.rest.length →
      c.name = ⟨[], [], [], []⟩ ∧ ∀ b t, drop ⟨.table, b, s.first :: s.rest, t⟩ = .throws) := by
  have key : ∀ (s : CreateTable) c, createTable s = .ok c → 4 ≤ s.rest.length →
      c.name = ⟨[], [], [], []⟩ ∧ ∀ b t, drop ⟨.table, b, s.first :: s.rest, t⟩ = .throws := by
    intro s c h hl
    have hn : c.name = toCollection (qualified s.first s.rest) := by
      unfold createTable at h
      cases hc : columns s.elements with
      | ok cs => rw [hc] at h; simp only [Res.map', Res.bind, Res.ok.injEq] at h; rw [← h]
      | _ => rw [hc] at h; cases h
    rw [hn]
    match hr : s.rest, hl with
    | _ :: _ :: _ :: _ :: _, _ => exact ⟨rfl, fun _ _ => rfl⟩
  refine ⟨fun c => ?_, key⟩
  have := c ⟨false, ['a'], [['b'], ['c'], ['d'], ['e']], []⟩ ⟨⟨[], [], [], []⟩, []⟩ (by decide)
  nomatch this

/-- Different names denote different collections, when no part is empty, as the lexer makes sure. -/
theorem C76_names_distinct {p q : List Str} {n : FullName} (hp : Denotes p n) (hq : Denotes q n)
    (ep : [] ∉ p) (eq : [] ∉ q) : p = q := by
  cases hp <;> cases hq <;> simp_all

example : Denotes [['d'], ['t']] ⟨[], ['d'], [], ['t']⟩ ∧ [] ∉ [['d'], ['t']] := ⟨.inDatabase _ _, by decide⟩

/-- CREATE INDEX and DROP INDEX agree on what they name: for every index name and every dotted name of a
collection, the one makes that index of that collection exactly when the other drops it. -/
theorem C76_index_names (unique filtered b : Bool) (i first : Str) (rest : List Str) (ks : List Str)
    (t : List (List Str)) (n : FullName) :
    createIndex ⟨unique, some i, first, rest, ks.map .column, filtered⟩ = .ok ⟨n, i, ks⟩ ↔
      drop ⟨.index, b, first :: rest ++ [i], t⟩ = .ok (.dropIndex n i) := by
  have hk : ∀ ks : List Str, indexKeys (ks.map .column) = .ok ks := by
    intro ks
    induction ks with
    | nil => rfl
    | cons k ks ih => simp only [List.map_cons, indexKeys, ih]; rfl
  match rest with
  | [] => simp [createIndex, qualified, drop]
  | [_] => simp [createIndex, qualified, drop, hk, Res.map', Res.bind, toCollection, construct]
  | [_, _] => simp [createIndex, qualified, drop, hk, Res.map', Res.bind, toCollection, construct]
  | [_, _, _] => simp [createIndex, qualified, drop, hk, Res.map', Res.bind, toCollection, construct]
  | _ :: _ :: _ :: _ :: _ => simp [createIndex, qualified, drop]

/-- C76 for CREATE INDEX: an index that is made is on the collection its name denotes, which is in a
database, and has exactly the listed columns, in that order. -/
theorem C76_index_made (s : CreateIndex) (m : IndexMade) (h : createIndex s = .ok m) :
    Denotes (s.first :: s.rest) m.name ∧ s.rest ≠ [] ∧ s.name = some m.index ∧
      s.elements = m.keys.map .column := by
  have hk : ∀ (es : List IndexElem) ks, indexKeys es = .ok ks → es = ks.map .column := by
    intro es
    induction es with
    | nil => intro ks h; cases h; rfl
    | cons e es ih =>
      intro ks h
      cases e with
      | expr => cases h
      | column n =>
        simp only [indexKeys] at h
        cases hx : indexKeys es with
        | ok ys =>
          rw [hx] at h
          simp only [Res.map', Res.bind, Res.ok.injEq] at h
          rw [← h, ih ys hx]; rfl
        | _ => rw [hx] at h; cases h
  unfold createIndex at h
  simp only at h
  split at h
  · rename_i i hr hc hn
    cases hx : indexKeys s.elements with
    | ok ys =>
      rw [hx] at h
      simp only [Res.map', Res.bind, Res.ok.injEq] at h
      subst h
      refine ⟨?_, ?_, hn, hk _ _ hx⟩
      · simp only
        match hq : s.rest with
        | [] => rw [hq] at hc; cases hc
        | [_] => exact .inDatabase _ _
        | [_, _] => exact .inSchema _ _ _
        | [_, _, _] => exact .full _ _ _ _
        | _ :: _ :: _ :: _ :: _ => rw [hq] at hc; cases hc
      · intro hq; rw [hq] at hc; cases hc
    | _ => rw [hx] at h; cases h
  · cases h

/-- `CREATE INDEX i ON d.t (a, b)`. -/
example : createIndex ⟨false, some ['i'], ['d'], [['t']], [.column ['a'], .column ['b']], false⟩ =
    .ok ⟨⟨[], ['d'], [], ['t']⟩, ['i'], [['a'], ['b']]⟩ := by decide

/-- An index on an expression is undefined behaviour, in every statement that names a database and an
index. -/
theorem C76_index_expression_is_ub (s : CreateIndex) (cols : List Str) (es : List IndexElem)
    (he : s.elements = cols.map .column ++ .expr :: es) (hr : s.rest.length = 1 ∨ s.rest.length = 2 ∨
      s.rest.length = 3) (hn : s.name ≠ none) : createIndex s = .ub := by
  have hk : ∀ cs : List Str, indexKeys (cs.map .column ++ .expr :: es) = .ub := by
    intro cs
    induction cs with
    | nil => rfl
    | cons c cs ih => simp only [List.map_cons, List.cons_append, indexKeys, ih]; rfl
  obtain ⟨i, hi⟩ := Option.ne_none_iff_exists'.1 hn
  have hc : (qualified s.first s.rest).catalog ≠ none ∧ (qualified s.first s.rest).rel ≠ none := by
    match hq : s.rest, hr with
    | [_], _ => simp [qualified]
    | [_, _], _ => simp [qualified]
    | [_, _, _], _ => simp [qualified]
    | [], h => simp at h
    | _ :: _ :: _ :: _ :: _, h => simp at h
  obtain ⟨a, ha⟩ := Option.ne_none_iff_exists'.1 hc.1
  obtain ⟨b, hb⟩ := Option.ne_none_iff_exists'.1 hc.2
  simp only [createIndex, ha, hb, hi, he, hk]
  rfl

/-- `CREATE INDEX i ON d.t (lower(a))`. -/
example : createIndex ⟨false, some ['i'], ['d'], [['t']], [.expr], false⟩ = .ub :=
  C76_index_expression_is_ub _ [] [] rfl (.inl rfl) (by simp)

/-- UNIQUE and WHERE are dropped: a unique index and a partial one are made like any other. -/
theorem C76_unique_is_dropped (s : CreateIndex) (u f : Bool) :
    createIndex { s with unique := u, filtered := f } = createIndex s := rfl

end Verif.Ddl
