import Verif.Sql.UpdateLemmas
import Verif.Sql.JoinProps
/-!
C58: UPDATE in SQL.
-/
namespace Verif.Sql

open Verif.DocVal Verif.Query Verif.Num Verif.LogVal Verif.PhysKey

/-- C58 in full: UPDATE gives the assigned columns of the chosen documents the values the expressions have for the old
document, and changes nothing else. -/
def C58_claim : Prop := ∀ (m : Update.Math) (wf : UInt32 → UInt64) (rx : Bytes → Bytes → Res Bool) (tbl : Bytes) (sets : List (Bytes × SExpr))
  (c : Option Cond) (store : List UDoc), (store.map UDoc.id).Nodup → store.length < 2 ^ 31 → (∀ s p, ∃ b, rx s p = .ok b) →
  (∀ x, c = some x → x.logical) → (∀ d ∈ store, Chosen rx c d.doc → Assignable tbl sets d.node) →
  ∃ store' ids, runUpdate m wf rx tbl sets c store = .ok (store', ids) ∧ List.Forall₂ (Updated rx tbl sets c) store store'

theorem mem_chosen {store : List UDoc} (hu : (store.map UDoc.id).Nodup) (P : Doc → Prop) [DecidablePred P] {d : UDoc} (hd : d ∈ store) :
    (((store.map UDoc.doc).filter fun e => decide (P e)).any fun e => e.id == d.id) = true ↔ P d.doc := by
  rw [List.any_eq_true]
  constructor
  · rintro ⟨e, he, hid⟩
    obtain ⟨h1, h2⟩ := List.mem_filter.mp he
    obtain ⟨d', hd', rfl⟩ := List.mem_map.mp h1
    have hid : d'.id = d.id := by simpa [UDoc.doc] using hid
    have : d' = d := List.inj_on_of_nodup_map hu hd' hd hid
    subst this
    simpa using h2
  · intro h
    exact ⟨d.doc, List.mem_filter.mpr ⟨List.mem_map.mpr ⟨d, hd, rfl⟩, by simpa using h⟩, by simp [UDoc.doc]⟩

/-- UPDATE without FROM: for the documents the WHERE clause is true for, every assigned column has the value of its
expression for the old document, everything else is as before, and exactly the changed documents are reported as
modified.  The expressions are constants, columns and arithmetic of integers that does not overflow, no assignment reads
a column assigned before it, and the assigned columns are there and of the kind of the new value. -/
theorem C58_update_partial (m : Update.Math) (wf : UInt32 → UInt64) (rx : Bytes → Bytes → Res Bool) (tbl : Bytes) (sets : List (Bytes × SExpr))
    (c : Option Cond) (store : List UDoc) (hu : (store.map UDoc.id).Nodup) (hn : store.length < 2 ^ 31) (hc : Clear rx (store.map UDoc.doc) c)
    (hk : constsOf sets c ≤ 2 ^ 16) (hp : ∀ p ∈ sets, p.2.plain tbl) (hi : Independent sets)
    (ha : ∀ d ∈ store, Chosen rx c d.doc → Assignable tbl sets d.node ∧ Kindred tbl sets d.node) :
    ∃ store' ids, runUpdate m wf rx tbl sets c store = .ok (store', ids) ∧ List.Forall₂ (Updated rx tbl sets c) store store' ∧
      ∀ i, i ∈ ids ↔ ∃ d ∈ store, Chosen rx c d.doc ∧ d.id = i ∧ Altered tbl sets d.node := by
  have hk' : (sets.map fun p => p.2.consts).sum ≤ 2 ^ 16 := by
    unfold constsOf at hk
    omega
  have len := buildSets_length tbl sets hp .undefined []
  rw [List.length_nil, Nat.zero_add] at len
  -- the filter
  obtain ⟨f, ext, h1, h2⟩ : ∃ f ext, trFilter c (buildSets .undefined sets []).2 = .ok (f, (buildSets .undefined sets []).2 ++ ext) ∧
      ∃ ds, fullScan (-1) (pred ⟨paramOf ((buildSets .undefined sets []).2 ++ ext), rx⟩ f) (store.map UDoc.doc) = .ok (some ds) ∧
        ∀ d ∈ store, (ds.any fun e => e.id == d.id) = true ↔ Chosen rx c d.doc := by
    cases c with
    | none =>
      refine ⟨.leaf .allTrue, [], by rw [List.append_nil]; rfl, store.map UDoc.doc, ?_, ?_⟩
      · have hd : Defined (pred ⟨paramOf ((buildSets .undefined sets []).2 ++ []), rx⟩ (.leaf .allTrue)) (store.map UDoc.doc) := fun d _ => ⟨true, rfl⟩
        rw [fullScan_eq _ _ _ hd (by simpa using hn), if_pos (show limOk (-1) 0 = true from rfl)]
        have : accepted (pred ⟨paramOf ((buildSets .undefined sets []).2 ++ []), rx⟩ (.leaf .allTrue)) (store.map UDoc.doc) = store.map UDoc.doc := by
          unfold accepted
          exact List.filter_eq_self.mpr fun d _ => rfl
        rw [this]
        rfl
      · intro d hd
        have e := mem_chosen hu (fun _ => True) hd
        simp only [decide_true, List.filter_true] at e
        rw [e]
        simp [Chosen]
    | some c =>
      have hx : Exact rx c (store.map UDoc.doc) (buildSets .undefined sets []).2 := by
        have hl : (buildSets .undefined sets []).2.length + c.consts ≤ 2 ^ 16 := by
          rw [len]
          exact hk
        obtain ⟨-, h | h⟩ := hc
        · exact exact_plain rx c _ _ h.1 hl h.2
        · exact exact_lax rx c _ _ h.1 hl h.2
      obtain ⟨f, ext, e1, -, e3⟩ := hx
      obtain ⟨-, -, e4⟩ := exact_scan rx c _ _ (by simpa using hn) e3
      refine ⟨f, ext, e1, _, e4, ?_⟩
      intro d hd
      rw [mem_chosen hu (fun e => Selects rx c e) hd]
      constructor
      · intro h x hx
        cases hx
        exact h
      · intro h
        exact h c rfl
  obtain ⟨ds, h2, h3⟩ := h2
  have hq : (buildSets .own sets []).2 <+: (buildSets .undefined sets []).2 ++ ext := by
    rw [(buildSets_params sets .own .undefined []).1]
    exact List.prefix_append _ _
  obtain ⟨rs, k1, k2⟩ := run_docs m wf tbl ((buildSets .undefined sets []).2 ++ ext) sets hp hi hq hk'
    ((store.filter fun d => ds.any fun e => e.id == d.id).map UDoc.node) (by
      intro n hn
      obtain ⟨d, hd, rfl⟩ := List.mem_map.mp hn
      obtain ⟨hd1, hd2⟩ := List.mem_filter.mp hd
      exact ha d hd1 ((h3 d hd1).mp hd2)) .undefined (Or.inl rfl)
  obtain ⟨p1, p2⟩ := place_spec (fun d => ds.any fun e => e.id == d.id) (Assigned tbl sets) (Altered tbl sets) store rs k2
  have run : runUpdate m wf rx tbl sets c store = .ok (place (fun d => ds.any fun e => e.id == d.id) store rs,
      (((store.filter fun d => ds.any fun e => e.id == d.id).zip rs).filter fun (x : UDoc × (Json.Node × Bool)) => x.2.2).map fun x => x.1.id) := by
    unfold runUpdate
    rw [tr_sets tbl sets hp]
    simp only [Res.bind]
    rw [h1]
    simp only
    rw [h2]
    simp only [updateDocs]
    rw [k1]
    rfl
  refine ⟨_, _, run, ?_, ?_⟩
  · have all : ∀ d ∈ store, ∀ d', (d'.id = d.id ∧ ((ds.any fun e => e.id == d.id) = true → Assigned tbl sets d.node d'.node) ∧
        ((ds.any fun e => e.id == d.id) = false → d' = d)) → Updated rx tbl sets c d d' := by
      intro d hd d' h
      refine ⟨h.1, fun hc => h.2.1 ((h3 d hd).mpr hc), fun hc => h.2.2 ?_⟩
      cases hb : ds.any fun e => e.id == d.id with
      | false => rfl
      | true => exact absurd ((h3 d hd).mp hb) hc
    have lift : ∀ (l : List UDoc) (l' : List UDoc), (∀ d ∈ l, d ∈ store) →
        List.Forall₂ (fun d d' => d'.id = d.id ∧ ((ds.any fun e => e.id == d.id) = true → Assigned tbl sets d.node d'.node) ∧
        ((ds.any fun e => e.id == d.id) = false → d' = d)) l l' → List.Forall₂ (Updated rx tbl sets c) l l' := by
      intro l l' hl h
      induction h with
      | nil => exact .nil
      | cons h _ ih => exact .cons (all _ (hl _ List.mem_cons_self) _ h) (ih fun d hd => hl d (List.mem_cons_of_mem _ hd))
    exact lift store _ (fun _ h => h) p1
  · intro i
    rw [p2 i]
    constructor
    · rintro ⟨d, hd, g1, g2, g3⟩
      exact ⟨d, hd, (h3 d hd).mp g1, g2, g3⟩
    · rintro ⟨d, hd, g1, g2, g3⟩
      exact ⟨d, hd, (h3 d hd).mpr g1, g2, g3⟩

/-! ### cases -/

def exT : Bytes := [116]
/-- `{a: x, b: y}`. -/
def exU (i : Nat) (x y : V) : UDoc := ⟨i, .obj [(exA, .leaf x), (exB, .leaf y)]⟩
def exInt (n : Int) : V := .int .i64 n
/-- `UPDATE t SET a = b + 10 * a, b = 7 WHERE a > 1` on two documents. -/
def exSets : List (Bytes × SExpr) := [(exA, .op [43] (.col none exB) (.op [42] (.lit (.int 10)) (.col (some exT) exA))), (exB, .lit (.int 7))]
def exWhere : Option Cond := some (.op (.cmp .gt) (.col none exA) (.lit (.int 1)))
def exUs : List UDoc := [exU 1 (exInt 1) (exInt 5), exU 2 (exInt 2) (exInt 5)]

theorem exA_name : Name exA := by unfold Name; decide
theorem exB_name : Name exB := by unfold Name; decide

/-- `C58_update_partial` applies. -/
example : ∃ store' ids, runUpdate Update.noMath (fun _ => 0) exRx exT exSets exWhere exUs = .ok (store', ids) ∧
    List.Forall₂ (Updated exRx exT exSets exWhere) exUs store' ∧ ∀ i, i ∈ ids ↔ ∃ d ∈ exUs, Chosen exRx exWhere d.doc ∧ d.id = i ∧ Altered exT exSets d.node := by
  apply C58_update_partial
  · decide
  · decide
  · refine ⟨by decide, Or.inl ⟨nofun, ?_⟩⟩
    intro d hd
    simp only [exUs, List.map_cons, List.map_nil, List.mem_cons, List.not_mem_nil, or_false] at hd
    rcases hd with rfl | rfl
    · exact ⟨exInt 1, rfl, i64_akin 1 1 (by decide) (by decide)⟩
    · exact ⟨exInt 2, rfl, i64_akin 2 1 (by decide) (by decide)⟩
  · decide
  · intro p hp
    simp only [exSets, List.mem_cons, List.not_mem_nil, or_false] at hp
    rcases hp with rfl | rfl
    · exact ⟨by decide, ⟨Or.inl rfl, exB_name⟩, by decide, by show ITy.i64.fits 10; decide, Or.inr rfl, exA_name⟩
    · show ITy.i64.fits 7; decide
  · exact ⟨by simp [SExpr.reads], by simp, trivial⟩
  · intro d hd _
    have e : ∀ x y, ITy.i64.fits x → ITy.i64.fits y → ∀ r, evalOp [43] (exInt y) (exInt (10 * x)) = some (exInt r) → evalOp [42] (exInt 10) (exInt x) = some (exInt (10 * x)) →
        ITy.i64.fits r → Assignable exT exSets (exU 0 (exInt x) (exInt y)).node ∧ Kindred exT exSets (exU 0 (exInt x) (exInt y)).node := by
      intro x y hx hy r h1 h2 hr
      have v1 : SExpr.value exT (exU 0 (exInt x) (exInt y)).node (.op [43] (.col none exB) (.op [42] (.lit (.int 10)) (.col (some exT) exA))) = some (exInt r) := by
        have c1 : column (exU 0 (exInt x) (exInt y)).node exA = some (exInt x) := rfl
        have c2 : column (exU 0 (exInt x) (exInt y)).node exB = some (exInt y) := rfl
        simp only [SExpr.value, c1, c2, if_true]
        rw [show (Lit.int 10).value = exInt 10 from rfl, h2]
        exact h1
      refine ⟨⟨rfl, by decide, ?_⟩, ?_, ?_⟩
      · intro p hp
        simp only [exSets, List.mem_cons, List.not_mem_nil, or_false] at hp
        rcases hp with rfl | rfl
        · exact ⟨exA_name, _, v1, hr, nofun⟩
        · exact ⟨exB_name, exInt 7, rfl, by show ITy.i64.fits 7; decide, nofun⟩
      · intro k s a h
        have hs := column_seen h
        unfold Json.seen exU Json.reach Json.lookN at hs
        simp only at hs
        split at hs
        · cases hs; exact hx
        · unfold Json.lookN at hs
          split at hs
          · cases hs; exact hy
          · cases hs
      · intro p hp
        simp only [exSets, List.mem_cons, List.not_mem_nil, or_false] at hp
        rcases hp with rfl | rfl
        · exact ⟨_, exInt x, v1, rfl, ⟨rfl, hx⟩, nofun⟩
        · exact ⟨exInt 7, exInt y, rfl, rfl, ⟨rfl, hy⟩, nofun⟩
    simp only [exUs, List.mem_cons, List.not_mem_nil, or_false] at hd
    rcases hd with rfl | rfl
    · exact e 1 5 (by decide) (by decide) 15 (by decide +kernel) (by decide +kernel) (by decide)
    · exact e 2 5 (by decide) (by decide) 25 (by decide +kernel) (by decide +kernel) (by decide)

/-- The statement does not give the documents what C58 says. -/
def Breaks (tbl : Bytes) (sets : List (Bytes × SExpr)) (store : List UDoc) : Prop :=
  (store.map UDoc.id).Nodup ∧ store.length < 2 ^ 31 ∧ (∀ d ∈ store, Assignable tbl sets d.node) ∧
  ¬ ∃ store' ids, runUpdate Update.noMath (fun _ => 0) exRx tbl sets none store = .ok (store', ids) ∧
    List.Forall₂ (Updated exRx tbl sets none) store store'

theorem breaks_claim {tbl : Bytes} {sets : List (Bytes × SExpr)} {store : List UDoc} (h : Breaks tbl sets store) : ¬ C58_claim := fun hc =>
  h.2.2.2 (hc Update.noMath (fun _ => 0) exRx tbl sets none store h.1 h.2.1 exRx_total nofun fun d hd _ => h.2.2.1 d hd)

theorem breaks_one (tbl : Bytes) (sets : List (Bytes × SExpr)) (d d' : UDoc) (ids : List Nat) (ha : Assignable tbl sets d.node)
    (hr : runUpdate Update.noMath (fun _ => 0) exRx tbl sets none [d] = .ok ([d'], ids)) (hn : ¬ Assigned tbl sets d.node d'.node) :
    Breaks tbl sets [d] := by
  refine ⟨by simp, by rw [List.length_singleton]; decide, by simpa using ha, ?_⟩
  rintro ⟨s', i', h1, h2⟩
  rw [hr] at h1
  injection h1 with h1
  injection h1 with h1 _
  subst h1
  cases h2 with
  | cons h _ => exact hn (h.2.1 nofun)

theorem breaks_ub (tbl : Bytes) (sets : List (Bytes × SExpr)) (d : UDoc) (ha : Assignable tbl sets d.node)
    (hr : runUpdate Update.noMath (fun _ => 0) exRx tbl sets none [d] = .ub) : Breaks tbl sets [d] := by
  refine ⟨by simp, by rw [List.length_singleton]; decide, by simpa using ha, ?_⟩
  rintro ⟨s', i', h1, -⟩
  rw [hr] at h1
  cases h1

theorem not_assigned {tbl : Bytes} {sets : List (Bytes × SExpr)} {n n' : Json.Node} {k : Bytes} {e : SExpr} {v w : V} (hm : (k, e) ∈ sets)
    (h1 : e.value tbl n = some v) (h2 : Json.seen n' [.name k] = some (.value w)) (h3 : ¬ Update.Same w v) : ¬ Assigned tbl sets n n' := by
  rintro ⟨h, -⟩
  obtain ⟨v', w', g1, g2, g3⟩ := h _ hm
  rw [h1] at g1
  rw [h2] at g2
  cases g1
  cases g2
  exact h3 g3

theorem assignable_one {tbl : Bytes} {k : Bytes} {e : SExpr} {n : Json.Node} {v : V} (ho : Json.seen n [] = some .object) (hk : Name k)
    (hv : e.value tbl n = some v) (hs : Update.Sound v) : Assignable tbl [(k, e)] n :=
  ⟨ho, by simp, fun p hp => by cases List.mem_singleton.mp hp; exact ⟨hk, v, hv, hs⟩⟩

/-- `UPDATE t SET a = b, b = a` does not swap: the second assignment reads the new `a`. -/
theorem C58_swap_fails : Breaks exT [(exA, .col none exB), (exB, .col none exA)] [exU 1 (exInt 1) (exInt 2)] := by
  refine breaks_one _ _ _ (exU 1 (exInt 2) (exInt 2)) [1] ⟨rfl, by decide, ?_⟩ rfl ?_
  · intro p hp
    simp only [List.mem_cons, List.not_mem_nil, or_false] at hp
    rcases hp with rfl | rfl
    · exact ⟨exA_name, exInt 2, rfl, by show ITy.i64.fits 2; decide, nofun⟩
    · exact ⟨exB_name, exInt 1, rfl, by show ITy.i64.fits 1; decide, nofun⟩
  · exact not_assigned (k := exB) (v := exInt 1) (w := exInt 2) (List.mem_cons_of_mem _ List.mem_cons_self) rfl rfl (show ¬ (2 : Int) = 1 by decide)

/-- `UPDATE t SET a = a || 'x'`: the operator is taken for the cube root, the text stays. -/
theorem C58_concat_fails : Breaks exT [(exA, .op [124, 124] (.col none exA) (.lit (.str [120])))] [exU 1 (.str [97]) (exInt 0)] :=
  breaks_one _ _ _ (exU 1 (.str [97]) (exInt 0)) [] (assignable_one rfl exA_name rfl (by show (2 : Nat) < 2 ^ 32; decide)) rfl
    (not_assigned (k := exA) (v := .str [97, 120]) (w := .str [97]) List.mem_cons_self rfl rfl (show ¬ ([97] : Bytes) = [97, 120] by decide))

/-- `UPDATE t SET a = b <= 3`: the operator is taken for a shift to the left. -/
theorem C58_compare_fails : Breaks exT [(exA, .op [60, 61] (.col none exB) (.lit (.int 3)))] [exU 1 (.bool false) (exInt 1)] :=
  breaks_one _ _ _ (exU 1 (exInt 8) (exInt 1)) [1] (assignable_one rfl exA_name rfl trivial) rfl
    (not_assigned (k := exA) (v := .bool true) (w := exInt 8) List.mem_cons_self rfl rfl id)

/-- `UPDATE t SET a = -a` reads the missing operand through a null pointer. -/
theorem C58_negate_fails : Breaks exT [(exA, .un [45] (.col none exA))] [exU 1 (exInt 1) (exInt 2)] :=
  breaks_ub _ _ _ (assignable_one rfl exA_name (v := exInt (-1)) rfl (by show ITy.i64.fits (-1) ∧ _; exact ⟨by decide, nofun⟩)) rfl

/-- `UPDATE t SET a = 0` on a document without `a` does nothing. -/
theorem C58_absent_fails : Breaks exT [(exA, .lit (.int 0))] [⟨1, .obj [(exB, .leaf (exInt 2))]⟩] := by
  refine breaks_one _ _ _ ⟨1, .obj [(exB, .leaf (exInt 2))]⟩ [] (assignable_one rfl exA_name rfl (by show ITy.i64.fits 0 ∧ _; exact ⟨by decide, nofun⟩)) rfl ?_
  rintro ⟨h, -⟩
  obtain ⟨v, w, -, h2, -⟩ := h (exA, .lit (.int 0)) (by simp)
  exact nomatch h2

theorem C58_claim_fails : ¬ C58_claim := breaks_claim C58_swap_fails

/-- `UPDATE t SET a = NULL` uses an uninitialised number for the constant. -/
theorem C58_null_fails (m : Update.Math) (wf : UInt32 → UInt64) (rx : Bytes → Bytes → Res Bool) (tbl k : Bytes) (c : Option Cond) (store : List UDoc) :
    runUpdate m wf rx tbl [(k, .lit .null)] c store = .ub := rfl

/-- `UPDATE t SET a = b` on a document without `b`, where `a` should become null: the missing value is read. -/
theorem C58_missing_fails : runUpdate Update.noMath (fun _ => 0) exRx exT [(exA, .col none exB)] none [⟨1, .obj [(exA, .leaf (exInt 2))]⟩] = .ub := rfl

end Verif.Sql
