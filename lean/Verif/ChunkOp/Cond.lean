import Verif.ChunkOp.Spec
import Verif.PhysKey.Props
import Verif.DocVal.Props
import Verif.Table.Column
/-!
Lemmas about conditions on chunks.
-/
namespace Verif.ChunkOp
open Verif Verif.Num Verif.PhysKey Verif.LogVal
open Verif.DocVal (V)

theorem fill_eq : ∀ (cs : Cols) (r : Row), fill cs r = (values cs r).map some
  | [], _ => rfl
  | _ :: _, [] => rfl
  | (_, _) :: cs, _ :: r => by simp [fill, values, read, fill_eq cs r]

theorem zero_has (ty : Ty) : ty.has ty.zero := by
  cases ty with
  | int t => exact ⟨rfl, by cases t <;> simp [ITy.fits, ITy.signed, ITy.bits]⟩
  | _ => trivial

theorem code_of_has {ty : Ty} {v : LV} (h : ty.has v) : v.code = ty.code ∧ v ≠ .na := by
  cases ty <;> cases v <;> simp_all [Ty.has, Ty.code, Ty.zero, LV.code]

theorem read_has {ty : Ty} {c : Cell} (h : ∀ v, c = some v → ty.has v) : ty.has (read ty c) := by
  cases c with
  | none => exact zero_has ty
  | some v => exact h v rfl

theorem write_has {conv : Ty → LV → LV} {ty : Ty} {v : LV} (h : ty.has v) : write conv ty v = some v := by
  have := code_of_has h
  simp [write, this.1, this.2]

theorem copied_fill {cs : Cols} {r : Row} (h : Typed cs r) : copied cs (values cs r) = fill cs r := by
  induction h with
  | nil => rfl
  | cons hc _ ih =>
    simp only [values, copied, fill_eq, List.map_cons] at ih ⊢
    rw [write_has (read_has hc), ih]

theorem fill_full {cs : Cols} {r : Row} (h : Typed cs r) (hf : Full r) : fill cs r = r := by
  induction h with
  | nil => rfl
  | @cons n ty cs c r hc _ ih =>
    have h1 := ih fun c hc => hf c (List.mem_cons_of_mem _ hc)
    have h2 := hf c List.mem_cons_self
    obtain ⟨v, rfl⟩ := Option.ne_none_iff_exists'.mp h2
    simp only [fill, Option.getD_some]
    rw [h1]

theorem typed_fill {cs : Cols} {r : Row} (h : Typed cs r) : Typed cs (fill cs r) := by
  induction h with
  | nil => exact .nil
  | cons hc _ ih =>
    exact .cons (fun v hv => by injection hv with hv; exact hv ▸ read_has hc) ih

theorem full_fill (cs : Cols) (r : Row) : Full (fill cs r) := by
  intro c hc
  simp only [fill_eq, List.mem_map] at hc
  obtain ⟨v, _, rfl⟩ := hc
  exact nofun

theorem values_length {cs : Cols} {r : Row} (h : Typed cs r) : (values cs r).length = cs.length := by
  induction h with
  | nil => rfl
  | cons _ _ ih => simp [values, ih]

theorem lookup_ok {cs : Cols} {r : Row} {k : Bytes} {ty : Ty} (h : Typed cs r) (hk : tyOf cs k = some ty) :
    ∃ v, lookup cs r k = .ok v ∧ ty.has v ∧ cell cs (fill cs r) k = some (some v) := by
  induction h with
  | nil => simp [tyOf] at hk
  | @cons n t cs c r hc _ ih =>
    simp only [tyOf] at hk
    by_cases hn : n = k
    · simp only [hn, if_true, Option.some.injEq] at hk
      subst hk
      exact ⟨read t c, by simp [lookup, index, hn, values, Res.bind], read_has hc, by simp [cell, fill, read, hn]⟩
    · simp only [hn, if_false] at hk
      obtain ⟨v, h1, h2, h3⟩ := ih hk
      refine ⟨v, ?_, h2, ?_⟩
      · simp only [lookup] at h1 ⊢
        simp only [index, hn, if_false, values]
        cases hi : index cs k with
        | ok i => rw [hi] at h1; simpa [Res.map', Res.bind] using h1
        | throws => rw [hi] at h1; simp [Res.bind] at h1
        | ub => rw [hi] at h1; simp [Res.bind] at h1
        | diverges => rw [hi] at h1; simp [Res.bind] at h1
      · simpa [cell, fill, hn] using h3

theorem lookup_some {cs : Cols} {r : Row} {k : Bytes} {v : LV} (h : Typed cs r) (hv : lookup cs r k = .ok v) : ∃ ty, tyOf cs k = some ty := by
  induction h generalizing v with
  | nil => simp [lookup, index, Res.bind] at hv
  | @cons n t cs c r _ _ ih =>
    simp only [tyOf]
    split
    · exact ⟨_, rfl⟩
    · rename_i hn
      simp only [lookup, index, hn, if_false, values] at hv
      cases hi : index cs k with
      | ok i => rw [hi] at hv; exact ih (v := v) (by simpa [lookup, hi, Res.map', Res.bind] using hv)
      | throws => rw [hi] at hv; simp [Res.map', Res.bind] at hv
      | ub => rw [hi] at hv; simp [Res.map', Res.bind] at hv
      | diverges => rw [hi] at hv; simp [Res.map', Res.bind] at hv

/-! ### comparisons -/

theorem one_pos : 0 < one := by unfold one; positivity

theorem mul_one_inj {a b : Int} : (a * one = b * one) ↔ a = b :=
  ⟨fun h => Int.eq_of_mul_eq_mul_right (ne_of_gt one_pos) h, fun h => h ▸ rfl⟩

theorem mul_one_lt {a b : Int} : (a * one < b * one) ↔ a < b :=
  ⟨fun h => Int.lt_of_mul_lt_mul_right h (le_of_lt one_pos), fun h => Int.mul_lt_mul_of_pos_right h one_pos⟩

theorem opInt_says (op : Op) (a b : Int) : opInt op a b = op.says (.n (.fin (a * one))) (.n (.fin (b * one))) := by
  have hle : ∀ x y : Int, decide (x ≤ y) = (decide (x < y) || decide (x = y)) := by
    intro x y; rw [← Bool.decide_or]; exact decide_eq_decide.mpr Int.le_iff_lt_or_eq
  cases op <;> simp only [opInt, Op.says, before, same, FVal.lt, Sc.n.injEq, FVal.fin.injEq, mul_one_inj, mul_one_lt, hle, decide_not]
  rw [show decide (a = b) = decide (b = a) from decide_eq_decide.mpr eq_comm]

theorem opBool_says (op : Op) (a b : Bool) : opInt op (bit a) (bit b) = op.says (.b a) (.b b) := by
  cases op <;> cases a <;> cases b <;> rfl

theorem feq_same (a b : FVal) : feq a b = same (.n a) (.n b) := by
  cases a <;> cases b <;> simp [feq, same]

theorem feq_comm (a b : FVal) : feq a b = feq b a := by
  cases a <;> cases b <;> simp [feq, eq_comm]

theorem opF_says (op : Op) (a b : FVal) : opF op a b = op.says (.n a) (.n b) := by
  cases op <;> simp [opF, Op.says, before, feq_same]

theorem bytes_le (a b : Bytes) : (!bytesLt b a) = (bytesLt a b || decide (a = b)) := by
  cases h : bytesLt a b with
  | true => simp [bytesLt_asymm _ _ h]
  | false =>
    by_cases he : a = b
    · subst he; simp [h]
    · cases h2 : bytesLt b a with
      | true => simp [he]
      | false => exact absurd (bytesLt_total _ _ h h2) he

theorem opS_says (op : Op) (a b : Bytes) : opS op a b = op.says (.s a) (.s b) := by
  have h1 := bytes_le a b
  have h2 := bytes_le b a
  cases op <;> simp only [opS, Op.says, before, same, Sc.s.injEq, decide_not]
  · rw [h2, show decide (b = a) = decide (a = b) from decide_eq_decide.mpr eq_comm]
  · rw [h1]

/-- A parameter read as an integer of 64 bits. -/
theorem getInt_i64 {s : ITy} {v : Int} (h : s.fits v) (hv : v < 2 ^ 63) : (V.int s v).getInt .i64 = .ok v := by
  exact DocVal.C49_fits_partial s .i64 v h (by cases s <;> simp_all [ITy.fits, ITy.signed, ITy.bits] <;> omega)

theorem getInt_u64 {s : ITy} {v : Int} (h : s.fits v) (hv : 0 ≤ v) : (V.int s v).getInt .u64 = .ok v := by
  exact DocVal.C49_fits_partial s .u64 v h (by cases s <;> simp_all [ITy.fits, ITy.signed, ITy.bits] <;> omega)

theorem getDouble_int (s : ITy) (v : Int) (h : v.natAbs ≤ 2 ^ 53) : (V.int s v).getDouble = .ok (.fin (v * one)) := by
  simp only [V.getDouble, ofInt, rnd_exact 53 v (by omega) h]

theorem cmpOne_ok {ty : Ty} {x : LV} {v : V} (op : Op) (hx : ty.has x) (hv : Suits ty v) :
    ∃ a b, meaning x = some a ∧ pmeaning v = some b ∧ cmpOne op x v = .ok (op.says a b) := by
  cases ty with
  | bool =>
    cases x <;> simp only [Ty.has] at hx
    cases v <;> simp only [Suits] at hv
    exact ⟨_, _, rfl, rfl, by simp [cmpOne, V.getBool, hard, Res.map', Res.bind, opBool_says]⟩
  | int t =>
    cases x <;> simp only [Ty.has] at hx
    cases v <;> simp only [Suits] at hv
    obtain ⟨rfl, hx⟩ := hx
    refine ⟨_, _, rfl, rfl, ?_⟩
    simp only [cmpOne]
    split
    · rename_i hs
      simp only [hs, if_true] at hv
      rw [getInt_i64 hv.1 hv.2]
      simp [hard, Res.map', Res.bind, opInt_says]
    · rename_i hs
      simp only [hs] at hv
      rw [getInt_u64 hv.1 hv.2]
      simp [hard, Res.map', Res.bind, opInt_says]
  | float =>
    cases x <;> simp only [Ty.has] at hx
    cases v <;> simp only [Suits] at hv
    exact ⟨_, _, rfl, rfl, by simp [cmpOne, V.getFloat, hard, Res.map', Res.bind, opF_says]⟩
  | double =>
    cases x <;> simp only [Ty.has] at hx
    cases v <;> simp only [Suits] at hv
    · exact ⟨_, _, rfl, rfl, by simp [cmpOne, getDouble_int _ _ hv, hard, Res.map', Res.bind, opF_says]⟩
    · exact ⟨_, _, rfl, rfl, by simp [cmpOne, V.getDouble, hard, Res.map', Res.bind, opF_says]⟩
    · exact ⟨_, _, rfl, rfl, by simp [cmpOne, V.getDouble, hard, Res.map', Res.bind, opF_says]⟩
  | str =>
    cases x <;> simp only [Ty.has] at hx
    cases v <;> simp only [Suits] at hv
    exact ⟨_, _, rfl, rfl, by simp [cmpOne, V.getStr, hard, Res.map', Res.bind, opS_says]⟩

theorem cmpTwo_ok {ty : Ty} {x y : LV} (op : Op) (hx : ty.has x) (hy : ty.has y) :
    ∃ a b, meaning x = some a ∧ meaning y = some b ∧ cmpTwo op x y = .ok (op.says a b) := by
  cases ty <;> cases x <;> simp only [Ty.has] at hx <;> cases y <;> simp only [Ty.has] at hy
  · exact ⟨_, _, rfl, rfl, by simp [cmpTwo, opBool_says]⟩
  · obtain ⟨rfl, _⟩ := hx; obtain ⟨rfl, _⟩ := hy
    exact ⟨_, _, rfl, rfl, by simp [cmpTwo, opInt_says]⟩
  · exact ⟨_, _, rfl, rfl, by simp [cmpTwo, opF_says]⟩
  · exact ⟨_, _, rfl, rfl, by simp [cmpTwo, opF_says]⟩
  · exact ⟨_, _, rfl, rfl, by simp [cmpTwo, opS_says]⟩

/-! ### conditions -/

variable {leaf : Op → Bytes → Rhs → Res Bool} {m : Names} {P : Op → Bytes → Rhs → Prop}

mutual
/-- A condition is decided as SQL does if its comparisons are. -/
theorem check_truth (hl : ∀ op l r, P op l r → ∃ b, leaf op l r = .ok b ∧ truth m (.cmp op l r) = some b) :
    ∀ e : Ex, e.All P → e.Plain → ∃ b, check leaf e = .ok b ∧ truth m e = some b
  | .always, _, _ => ⟨true, by simp [check], by simp [truth]⟩
  | .cmp op l r, ha, _ => by
    simp only [Ex.All] at ha
    obtain ⟨b, h1, h2⟩ := hl op l r ha
    exact ⟨b, by simpa [check] using h1, h2⟩
  | .and l, ha, hp => by
    simp only [Ex.All] at ha; simp only [Ex.Plain] at hp
    obtain ⟨b, h1, h2⟩ := checkAll_truth hl l ha hp
    exact ⟨b, by simpa [check] using h1, by simpa [truth] using h2⟩
  | .or l, ha, hp => by
    simp only [Ex.All] at ha; simp only [Ex.Plain] at hp
    obtain ⟨b, h1, h2⟩ := checkAny_truth hl l ha hp
    exact ⟨b, by simpa [check] using h1, by simpa [truth] using h2⟩
  | .not e, ha, hp => by
    simp only [Ex.All] at ha; simp only [Ex.Plain] at hp
    obtain ⟨b, h1, h2⟩ := check_truth hl e ha hp
    exact ⟨!b, by simp [check, h1, Res.map', Res.bind], by simp [truth, h2]⟩
  | .allTrue, _, hp => by simp [Ex.Plain] at hp
  | .allFalse, _, _ => ⟨false, by simp [check], by simp [truth]⟩
  | .member, ha, _ => by simp [Ex.All] at ha
  | .other, ha, _ => by simp [Ex.All] at ha
theorem checkAll_truth (hl : ∀ op l r, P op l r → ∃ b, leaf op l r = .ok b ∧ truth m (.cmp op l r) = some b) :
    ∀ es : List Ex, Ex.AllL P es → Ex.PlainL es → ∃ b, checkAll leaf es = .ok b ∧ truthAll m es = some b
  | [], _, _ => ⟨true, by simp [checkAll], by simp [truthAll]⟩
  | e :: es, ha, hp => by
    simp only [Ex.AllL] at ha; simp only [Ex.PlainL] at hp
    obtain ⟨b, h1, h2⟩ := check_truth hl e ha.1 hp.1
    obtain ⟨c, h3, h4⟩ := checkAll_truth hl es ha.2 hp.2
    refine ⟨b && c, ?_, ?_⟩
    · cases b <;> simp [checkAll, h1, h3, Res.bind]
    · cases b <;> cases c <;> simp [truthAll, h2, h4]
theorem checkAny_truth (hl : ∀ op l r, P op l r → ∃ b, leaf op l r = .ok b ∧ truth m (.cmp op l r) = some b) :
    ∀ es : List Ex, Ex.AllL P es → Ex.PlainL es → ∃ b, checkAny leaf es = .ok b ∧ truthAny m es = some b
  | [], _, _ => ⟨false, by simp [checkAny], by simp [truthAny]⟩
  | e :: es, ha, hp => by
    simp only [Ex.AllL] at ha; simp only [Ex.PlainL] at hp
    obtain ⟨b, h1, h2⟩ := check_truth hl e ha.1 hp.1
    obtain ⟨c, h3, h4⟩ := checkAny_truth hl es ha.2 hp.2
    refine ⟨b || c, ?_, ?_⟩
    · cases b <;> simp [checkAny, h1, h3, Res.bind]
    · cases b <;> cases c <;> simp [truthAny, h2, h4]
end

theorem leafOne_ok {ps : List V} {cs : Cols} {r : Row} (h : Typed cs r) (op : Op) (l : Bytes) (x : Rhs) (hs : SuitOne ps cs op l x) :
    ∃ b, leafOne ps cs r op l x = .ok b ∧ truth (oneRow ps cs (fill cs r)) (.cmp op l x) = some b := by
  obtain ⟨ty, n, v, hty, rfl, hv, hsu⟩ := hs
  obtain ⟨w, h1, h2, h3⟩ := lookup_ok h hty
  obtain ⟨a, b, ha, hb, hc⟩ := cmpOne_ok op h2 hsu
  refine ⟨op.says a b, ?_, ?_⟩
  · simp [leafOne, h1, Res.bind, param, hv, hc]
  · simp [truth, oneRow, holds, h3, ha, hv, hb]

/-- The condition of a filter on a row says what SQL says on the row with zeros for NULLs. -/
theorem checkOne_ok {ps : List V} {cs : Cols} {r : Row} {e : Ex} (h : Typed cs r) (he : e.All (SuitOne ps cs)) (hp : e.Plain) :
    check (leafOne ps cs r) e = .ok (selects ps e cs (fill cs r)) := by
  obtain ⟨b, h1, h2⟩ := check_truth (leafOne_ok h) e he hp
  rw [h1]
  cases b <;> simp [selects, h2]

end Verif.ChunkOp
