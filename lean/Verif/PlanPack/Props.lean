import Verif.PlanPack.Lemmas
import Verif.DocPack.Props
/-!
C44: a plan and its parameters, packed in a record of the log and unpacked.
-/
namespace Verif.PlanPack

open Verif.Num Verif.PhysKey Verif.DocVal Verif.Json Verif.Msgpack Verif.DocPack

/-- The full claim: what is unpacked is what was packed. -/
def C44_claim : Prop :=
  ∀ (shrink : Bool) (crc id : Nat) (p : Plan) (ps : Params), crc < 2 ^ 32 → id < 2 ^ 64 → p.ok anything → Params.ok anything ps →
    ∃ b, writeEntry shrink crc id p ps = .ok b ∧ ∀ r, readEntry (b ++ r) = .ok ⟨crc, id, p, ps⟩

/-- A plan without the things that are lost, with documents and parameters whose numbers are carried, comes back as the
same plan on alike documents with alike parameters. -/
theorem C44_alike_partial (shrink : Bool) (crc id : Nat) (p : Plan) (ps : Params) (hc : crc < 2 ^ 32) (hi : id < 2 ^ 64)
    (hp : p.ok (carried shrink)) (hps : Params.ok (carried shrink) ps) :
    ∃ b q qs, writeEntry shrink crc id p ps = .ok b ∧ (∀ r, readEntry (b ++ r) = .ok ⟨crc, id, q, qs⟩) ∧
      p.Alike q ∧ Params.Alike ps qs := by
  obtain ⟨b, h1, h2⟩ := works_entry shrink _ (lets_carried shrink) crc id p ps hc hi hp hps
  refine ⟨b, _, _, h1, h2, ⟨backN shrink, rfl, fun d hd l => ?_⟩, params_alike shrink ps fun x hx => (hps.2.2 x hx).2.2.2⟩
  exact alike_back shrink l d (docs_ok _ p hp d hd).2

/-- A plan without the things that are lost, with documents and parameters whose numbers are kept (integers 64-bit
unsigned below 2^56 or 64-bit negative, else doubles), comes back as it was. -/
theorem C44_exact_partial (shrink : Bool) (crc id : Nat) (p : Plan) (ps : Params) (hc : crc < 2 ^ 32) (hi : id < 2 ^ 64)
    (hp : p.ok (kept shrink)) (hps : Params.ok (kept shrink) ps) :
    ∃ b, writeEntry shrink crc id p ps = .ok b ∧ ∀ r, readEntry (b ++ r) = .ok ⟨crc, id, p, ps⟩ := by
  obtain ⟨b, h1, h2⟩ := works_entry shrink _ (lets_kept shrink) crc id p ps hc hi hp hps
  refine ⟨b, h1, fun r => ?_⟩
  rw [h2 r, mapDocs_same _ p fun d hd => kept_node shrink d (docs_ok _ p hp d hd).1 (docs_ok _ p hp d hd).2,
    params_same shrink ps fun x hx => ⟨(hps.2.2 x hx).2.1, (hps.2.2 x hx).2.2.2⟩]

/-! ### cases -/

/-- `db.c`. -/
def dbc : Coll := ⟨[], [100], [], [99]⟩

/-- `(a = #0 and b > c) or not (a = #1)`. -/
def cond : Expr :=
  .compare 11 .none .none 0
    [.compare 10 .none .none 0 [.compare 1 (.str [97]) .none 0 [], .compare 3 (.str [98]) (.str [99]) 0 []],
     .compare 12 .none .none 0 [.compare 1 (.str [97]) .none 1 []]]

theorem cond_ok (R : Rules) (hk : ∀ k, Key.kept k → R.key k) : cond.ok R := by
  have h0 : R.key .none := hk _ trivial
  have h1 : R.key (.str [97]) := hk _ (by simp [Key.kept])
  have h2 : R.key (.str [98]) := hk _ (by simp [Key.kept])
  have h3 : R.key (.str [99]) := hk _ (by simp [Key.kept])
  simp [cond, Expr.ok, Expr.oks, Formed, h0, h1, h2, h3]

theorem dbc_ok (R : Rules) : dbc.ok R := ⟨by decide, by decide, .inl ⟨rfl, rfl⟩⟩

/-- Update `db.c` where `cond`, setting `a` to `b + #2`. -/
def anUpdate : Plan :=
  .update dbc Coll.nothing ⟨dbc, [cond]⟩ ⟨dbc, -1⟩ [.set (.str [97]) (.arith 3 (.get (.str [98]) 1) (.const 2))] true

theorem nothing_ok (R : Rules) : Coll.nothing.ok R := ⟨by decide, by decide, .inl ⟨rfl, rfl⟩⟩

example (shrink : Bool) : ∃ b, writeEntry shrink 7 8 anUpdate [(0, .str [120]), (1, .na), (2, .int .u64 5)] = .ok b ∧
    ∀ r, readEntry (b ++ r) = .ok ⟨7, 8, anUpdate, [(0, .str [120]), (1, .na), (2, .int .u64 5)]⟩ := by
  refine C44_exact_partial shrink 7 8 _ _ (by decide) (by decide) ?_ ⟨by decide, by decide, ?_⟩
  · simp only [anUpdate, Plan.ok, Match.ok, Limit.ok]
    refine ⟨dbc_ok _, nothing_ok _, ⟨dbc_ok _, .inl rfl, cond_ok _ fun _ h => h, trivial⟩, ⟨dbc_ok _, by decide, by decide⟩, by decide, ?_⟩
    intro u hu
    simp only [List.mem_cons, List.not_mem_nil, or_false] at hu
    subst hu
    simp [Upd.ok, kept, Key.kept]
  · intro p hp
    simp only [List.mem_cons, List.not_mem_nil, or_false] at hp
    rcases hp with rfl | rfl | rfl
    · exact ⟨by decide, trivial, by rintro s ⟨⟩; decide, trivial⟩
    · exact ⟨by decide, trivial, by rintro s ⟨⟩, trivial⟩
    · exact ⟨by decide, by simp [V.valid]; decide, by rintro s ⟨⟩, by simp [kept, Kept]⟩

/-- Insert two documents into `db.c`. -/
def anInsert : Plan := .insert dbc [.data [.obj sample, .obj sample]] [(.str [97], .str [98])]

theorem anInsert_ok (shrink : Bool) : anInsert.ok (carried shrink) := by
  simp only [anInsert, Plan.ok, Plan.oks]
  refine ⟨dbc_ok _, by decide, ⟨⟨by decide, ?_⟩, trivial⟩, by decide, ?_⟩
  · intro d hd
    simp only [List.mem_cons, List.not_mem_nil, or_false, or_self] at hd
    subst hd
    exact ⟨⟨_, rfl⟩, sample_valid, sample_carried shrink⟩
  · intro p hp
    simp only [List.mem_cons, List.not_mem_nil, or_false] at hp
    subst hp
    simp [carried, Key.kept]

example (shrink : Bool) : ∃ b q qs, writeEntry shrink 7 8 anInsert [] = .ok b ∧ (∀ r, readEntry (b ++ r) = .ok ⟨7, 8, q, qs⟩) ∧
    anInsert.Alike q ∧ Params.Alike [] qs :=
  C44_alike_partial shrink 7 8 _ _ (by decide) (by decide) (anInsert_ok shrink) ⟨by decide, by decide, by simp⟩

/-! ### what does not come back -/

/-- A plan that cannot be written, or is read as another one, against the claim. -/
theorem claim_fails (p : Plan) (hp : p.ok anything) (h : ∀ b, writeEntry false 0 1 p [] = .ok b → readEntry b ≠ .ok ⟨0, 1, p, []⟩) :
    ¬ C44_claim := by
  intro hc
  obtain ⟨b, h1, h2⟩ := hc false 0 1 p [] (by decide) (by decide) hp ⟨by decide, by decide, by simp⟩
  refine h b h1 ?_
  have := h2 []
  rw [List.append_nil] at this
  exact this

/-- What a plan is read as, for plans that can be written and read. -/
def roundTrip (p : Plan) : Res Entry := (writeEntry false 0 1 p []).bind readEntry

theorem claim_fails' (p q : Plan) (hp : p.ok anything) (h : roundTrip p = .ok ⟨0, 1, q, []⟩) (hne : p ≠ q) : ¬ C44_claim := by
  refine claim_fails p hp fun b hb hr => ?_
  unfold roundTrip at h
  rw [hb] at h
  simp only [Res.bind] at h
  rw [hr] at h
  injection h with h
  injection h with _ _ h _
  exact hne h

/-- A parameter as an operand comes back as the name of a field: grouping by `a + #1` becomes grouping by `a + 1st field`. -/
theorem C44_operand_fails : ¬ C44_claim ∧
    roundTrip (.group dbc [.scalar 2 (.str [115]) [.key (.str [97]), .id 1]]) =
      .ok ⟨0, 1, .group dbc [.scalar 2 (.str [115]) [.key (.str [97]), .key (.i32 1)]], []⟩ := by
  have h : roundTrip (.group dbc [.scalar 2 (.str [115]) [.key (.str [97]), .id 1]]) =
      .ok ⟨0, 1, .group dbc [.scalar 2 (.str [115]) [.key (.str [97]), .key (.i32 1)]], []⟩ := by rfl
  refine ⟨claim_fails' _ _ ?_ h (by simp), h⟩
  simp [Plan.ok, dbc_ok, Expr.oks, Expr.ok, Arg.oks, Arg.ok, anything, Key.valid]

/-- A place counted from the end (-1) comes back as the place 2^32 - 1. -/
theorem C44_place_fails : ¬ C44_claim ∧
    roundTrip (.sort dbc [.sort 1 (.i32 (-1))]) = .ok ⟨0, 1, .sort dbc [.sort 1 (.u32 4294967295)], []⟩ := by
  have h : roundTrip (.sort dbc [.sort 1 (.i32 (-1))]) = .ok ⟨0, 1, .sort dbc [.sort 1 (.u32 4294967295)], []⟩ := by rfl
  refine ⟨claim_fails' _ _ ?_ h (by simp), h⟩
  simp [Plan.ok, dbc_ok, Expr.oks, Expr.ok, anything, Key.valid]

/-- `delete from db.c using db.d where c.a = d.a`: the second collection is forgotten. -/
theorem C44_source_fails : ¬ C44_claim ∧
    roundTrip (.delete dbc ⟨[], [100], [], [100]⟩ ⟨dbc, [.compare 1 (.str [97]) (.str [97]) 0 []]⟩ ⟨dbc, -1⟩) =
      .ok ⟨0, 1, .delete dbc Coll.nothing ⟨dbc, [.compare 1 (.str [97]) (.str [97]) 0 []]⟩ ⟨dbc, -1⟩, []⟩ := by
  have h : roundTrip (.delete dbc ⟨[], [100], [], [100]⟩ ⟨dbc, [.compare 1 (.str [97]) (.str [97]) 0 []]⟩ ⟨dbc, -1⟩) =
      .ok ⟨0, 1, .delete dbc Coll.nothing ⟨dbc, [.compare 1 (.str [97]) (.str [97]) 0 []]⟩ ⟨dbc, -1⟩, []⟩ := by rfl
  refine ⟨claim_fails' _ _ ?_ h (by simp [Coll.nothing]), h⟩
  simp [Plan.ok, Expr.oks, Expr.ok, anything, Key.valid, Match.ok, Limit.ok, Formed, Coll.ok, dbc]

/-- `create table db.c (a)`: the columns are forgotten. -/
theorem C44_columns_fails : ¬ C44_claim ∧
    roundTrip (.createCollection dbc [[97]]) = .ok ⟨0, 1, .createCollection dbc [], []⟩ := by
  have h : roundTrip (.createCollection dbc [[97]]) = .ok ⟨0, 1, .createCollection dbc [], []⟩ := by rfl
  refine ⟨claim_fails' _ _ ?_ h (by simp), h⟩
  simp [Plan.ok, dbc_ok, anything]

/-- A join forgets its condition. -/
theorem C44_condition_fails : ¬ C44_claim ∧
    roundTrip (.join 0 dbc [.aggregate dbc [], .aggregate dbc []] [.compare 1 (.str [97]) (.str [97]) 0 []]) =
      .ok ⟨0, 1, .join 0 dbc [.aggregate dbc [], .aggregate dbc []] [], []⟩ := by
  have h : roundTrip (.join 0 dbc [.aggregate dbc [], .aggregate dbc []] [.compare 1 (.str [97]) (.str [97]) 0 []]) =
      .ok ⟨0, 1, .join 0 dbc [.aggregate dbc [], .aggregate dbc []] [], []⟩ := by rfl
  refine ⟨claim_fails' _ _ ?_ h (by simp), h⟩
  simp [Plan.ok, Plan.oks, dbc_ok, Expr.oks, Expr.ok, anything, Key.valid, Formed]

/-- A name loses its schema. -/
theorem C44_schema_fails : ¬ C44_claim ∧
    roundTrip (.dropCollection ⟨[], [100], [115], [99]⟩) = .ok ⟨0, 1, .dropCollection dbc, []⟩ := by
  have h : roundTrip (.dropCollection ⟨[], [100], [115], [99]⟩) = .ok ⟨0, 1, .dropCollection dbc, []⟩ := by rfl
  refine ⟨claim_fails' _ _ ?_ h (by simp [dbc]), h⟩
  simp [Plan.ok, Coll.ok, anything]

/-- `update db.c set a = ~a`: writing the record dereferences a null pointer. -/
theorem C44_unary_fails : ¬ C44_claim ∧
    roundTrip (.update dbc Coll.nothing ⟨dbc, [.compare 13 .none .none 0 []]⟩ ⟨dbc, -1⟩
      [.set (.str [97]) (.arith 16 (.get (.str [97]) 1) .null)] false) = .ub := by
  have h : roundTrip (.update dbc Coll.nothing ⟨dbc, [.compare 13 .none .none 0 []]⟩ ⟨dbc, -1⟩
      [.set (.str [97]) (.arith 16 (.get (.str [97]) 1) .null)] false) = .ub := by rfl
  refine ⟨claim_fails (.update dbc Coll.nothing ⟨dbc, [.compare 13 .none .none 0 []]⟩ ⟨dbc, -1⟩
      [.set (.str [97]) (.arith 16 (.get (.str [97]) 1) .null)] false) ?_ (fun b hb hr => ?_), h⟩
  · simp [Plan.ok, dbc_ok, nothing_ok, Expr.oks, Expr.ok, anything, Key.valid, Match.ok, Limit.ok, Formed, Upd.ok]
  · unfold roundTrip at h
    rw [hb] at h
    simp only [Res.bind, hr] at h
    cases h

/-- A filter without an expression, and a chunk of columns, cannot be written. -/
theorem C44_unwritten_fails : ¬ C44_claim ∧ roundTrip (.filter ⟨dbc, []⟩) = .ub ∧ roundTrip (.insert dbc [.chunk] []) = .throws := by
  have h : roundTrip (.filter ⟨dbc, []⟩) = .ub := by rfl
  refine ⟨claim_fails (.filter ⟨dbc, []⟩) ?_ (fun b hb hr => ?_), h, by rfl⟩
  · simp [Plan.ok, dbc_ok, anything, Match.ok, Expr.oks]
  · unfold roundTrip at h
    rw [hb] at h
    simp only [Res.bind, hr] at h
    cases h

/-- Inserting `{"a": 1}` with a signed 1 comes back as inserting an unsigned 1. -/
theorem C44_number_fails : ¬ C44_claim ∧
    roundTrip (.insert dbc [.data [.obj [([97], .leaf (.int .i64 1))]]] []) =
      .ok ⟨0, 1, .insert dbc [.data [.obj [([97], .leaf (.int .u64 1))]]] [], []⟩ := by
  have h : roundTrip (.insert dbc [.data [.obj [([97], .leaf (.int .i64 1))]]] []) =
      .ok ⟨0, 1, .insert dbc [.data [.obj [([97], .leaf (.int .u64 1))]]] [], []⟩ := by rfl
  refine ⟨claim_fails' _ _ ?_ h (by simp), h⟩
  have hv : Valid (.obj [([97], .leaf (.int .i64 1))]) := one_field_valid _ (by simp [V.valid]; decide) (by rintro s ⟨⟩)
  simp [Plan.ok, Plan.oks, dbc_ok, anything, hv]

end Verif.PlanPack
