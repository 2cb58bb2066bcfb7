import Mathlib.Data.List.Perm.Basic
import Verif.Py.NodeLemmas
import Verif.Py.FindProps
import Verif.Py.UpdSpec
import Verif.Sql.UpdateLemmas
/-!
Lemmas for C93.
-/
namespace Verif.Py

open Verif.DocVal Verif.PhysKey Verif.Num

/-! ### reading the update -/

theorem fieldOf_node (d : Tape) (k : Bytes) : ∀ (fs : List (Nat × Trie)) (es : List (Bytes × Json.Node)), toFields d fs = .ok es →
    (fieldOf d k fs = .ok none ∧ Json.lookN es k = none) ∨
    ∃ t n, fieldOf d k fs = .ok (some t) ∧ toNode d t = .ok n ∧ Json.lookN es k = some n
  | [], es, h => by
    cases h
    exact Or.inl ⟨rfl, rfl⟩
  | (i, t) :: fs, es, h => by
    simp only [toFields] at h
    obtain ⟨a, h1, h⟩ := bind_ok_inv h
    obtain ⟨n, h2, h⟩ := bind_ok_inv h
    obtain ⟨es', h3, h⟩ := bind_ok_inv h
    cases h
    simp only [fieldOf, h1, Res.bind, Json.lookN]
    by_cases ha : a = k
    · rw [if_pos ha, if_pos ha]
      exact Or.inr ⟨t, n, rfl, h2, rfl⟩
    · rw [if_neg ha, if_neg ha]
      exact fieldOf_node d k fs es' h3

theorem lookN_entry (L : Lib) (k : Bytes) : ∀ es : List (Scalar × PyObj), allFields (Scalar.plain L) es →
    Json.lookN (nodeFields L es) k = (entry k es).map (PyObj.node L)
  | [], _ => rfl
  | (x, o) :: es, h => by
    obtain ⟨⟨_, s, rfl⟩, _, h3⟩ := h
    simp only [nodeFields, Json.lookN, entry]
    by_cases hs : s = k
    · subst hs
      simp
    · rw [if_neg hs, if_neg (by simpa using hs)]
      exact lookN_entry L k es h3

theorem entry_plain (L : Lib) (k : Bytes) (o : PyObj) : ∀ es : List (Scalar × PyObj), allFields (Scalar.plain L) es → entry k es = some o →
    o.all (Scalar.plain L)
  | [], _, h => by cases h
  | (x, v) :: es, h, he => by
    simp only [entry] at he
    split at he
    · cases he; exact h.2.1
    · exact entry_plain L k o es h.2.2 he

theorem set_text : text "$set" = kSet := by decide +kernel

theorem inc_text : text "$inc" = kInc := by decide +kernel

/-- A field of the update: its name and its value. -/
def Stands (L : Lib) (d : Tape) (g : Nat × Trie) (p : Bytes × Scalar) : Prop :=
  keyText d g.1 = .ok p.1 ∧ ∃ v, p.2.value L = some v ∧ leafV d g.2 = .ok v

theorem scalars_stand (L : Lib) (d : Tape) : ∀ (ps : List (Bytes × Scalar)) (gs : List (Nat × Trie)),
    allFields (Scalar.plain L) (ps.map fun p => (.str p.1, .scalar p.2)) →
    toFields d gs = .ok (nodeFields L (ps.map fun p => (.str p.1, .scalar p.2))) → List.Forall₂ (Stands L d) gs ps
  | [], gs, _, h => by
    cases gs with
    | nil => exact .nil
    | cons g gs =>
      simp only [toFields] at h
      obtain ⟨a, h1, h⟩ := bind_ok_inv h
      obtain ⟨n, h2, h⟩ := bind_ok_inv h
      obtain ⟨es', h3, h⟩ := bind_ok_inv h
      cases h
  | p :: ps, gs, hp, h => by
    cases gs with
    | nil => cases h
    | cons g gs =>
      simp only [toFields, List.map_cons, nodeFields, PyObj.node] at h
      obtain ⟨a, h1, h⟩ := bind_ok_inv h
      obtain ⟨n, h2, h⟩ := bind_ok_inv h
      obtain ⟨es', h3, h⟩ := bind_ok_inv h
      simp only [Res.ok.injEq, List.cons.injEq, Prod.mk.injEq] at h
      obtain ⟨⟨rfl, rfl⟩, rfl⟩ := h
      refine .cons ⟨h1, ?_⟩ (scalars_stand L d ps gs hp.2.2 h3)
      have hx : p.2.plain L := hp.2.1
      obtain ⟨v, hv⟩ : ∃ v, p.2.value L = some v := by
        obtain ⟨b1, b2, b3⟩ := hx
        cases hs : p.2 with
        | none => exact absurd hs b2
        | badStr => rw [hs] at b1; exact b1.elim
        | int i => exact ⟨_, rfl⟩
        | bool i => exact ⟨_, rfl⟩
        | float i => exact ⟨_, rfl⟩
        | bytes i => exact ⟨_, rfl⟩
        | str i => exact ⟨_, rfl⟩
      refine ⟨v, hv, ?_⟩
      rw [hv] at h2
      obtain ⟨gi, gt⟩ := g
      cases gt with
      | el i =>
        simp only [toNode] at h2
        obtain ⟨w, h4, h5⟩ := bind_ok_inv h2
        cases h5
        exact h4
      | obj fs =>
        simp only [toNode] at h2
        obtain ⟨w, h4, h5⟩ := bind_ok_inv h2
        cases h5
      | arr fs =>
        simp only [toNode] at h2
        obtain ⟨w, h4, h5⟩ := bind_ok_inv h2
        cases h5

/-- An assignment with its parameter. -/
def Given (L : Lib) (mk : Bytes → Nat → Update.Expr) (st : Store) (e : Update.Expr) (p : Bytes × Scalar) : Prop :=
  ∃ id v, e = mk p.1 id ∧ p.2.value L = some v ∧ paramsOf st id = some v

theorem assignments_ok (L : Lib) (mk : Bytes → Nat → Update.Expr) (d : Tape) : ∀ (gs : List (Nat × Trie)) (ps : List (Bytes × Scalar)) (st : Store),
    List.Forall₂ (Stands L d) gs ps → Wf st → st.counter + ps.length < 2 ^ 16 →
    ∃ es st', assignments mk d gs st = .ok (es, st') ∧ Wf st' ∧ st'.counter = st.counter + ps.length ∧ More st st' ∧
      ∀ st'', More st' st'' → List.Forall₂ (Given L mk st'') es ps
  | _, _, st, .nil, hw, _ => ⟨[], st, rfl, hw, rfl, More.refl st, fun _ _ => .nil⟩
  | _, _, st, .cons (a := g) (b := p) (l₁ := gs) (l₂ := ps) hg h, hw, hc => by
    obtain ⟨h1, v, h2, h3⟩ := hg
    simp only [List.length_cons] at hc
    obtain ⟨a1, a2, a3, a4, a5⟩ := add_ok hw (by omega) (some v)
    obtain ⟨es, st', b1, b2, b3, b4, b5⟩ := assignments_ok L mk d gs ps _ h a1 (by omega)
    refine ⟨mk p.1 st.counter :: es, st', ?_, b2, by simp only [List.length_cons]; omega, a4.trans b4, ?_⟩
    · obtain ⟨gi, gt⟩ := g
      simp only [assignments, h1, h3, b1, a2, Res.bind]
    · intro st'' hm
      refine .cons ⟨st.counter, v, rfl, h2, ?_⟩ (b5 st'' hm)
      rw [paramsOf, a5 st'' (b4.trans hm)]
      rfl

theorem part_ok (L : Lib) (ord : List (Nat × Trie) → List (Nat × Trie)) (hord : ∀ l, (ord l).Perm l) (mk : Bytes → Nat → Update.Expr) (name : Bytes)
    (d : Tape) (fs : List (Nat × Trie)) (fields : List (Scalar × PyObj)) (hp : allFields (Scalar.plain L) fields)
    (hf : toFields d fs = .ok (nodeFields L fields)) (ps : List (Bytes × Scalar)) (hl : Lists fields name ps)
    (st : Store) (hw : Wf st) (hc : st.counter + ps.length < 2 ^ 16) :
    ∃ es st' ps', part ord mk name d fs st = .ok (es, st') ∧ ps'.Perm ps ∧ Wf st' ∧ st'.counter = st.counter + ps.length ∧ More st st' ∧
      ∀ st'', More st' st'' → List.Forall₂ (Given L mk st'') es ps' := by
  rcases fieldOf_node d name fs _ hf with ⟨h1, h2⟩ | ⟨t, n, h1, h2, h3⟩
  · rw [lookN_entry L name fields hp] at h2
    rcases hl with hl | ⟨_, rfl⟩
    · rw [hl] at h2; cases h2
    · exact ⟨[], st, [], by simp only [part, h1, Res.bind], List.Perm.refl _, hw, rfl, More.refl st, fun _ _ => .nil⟩
  · rw [lookN_entry L name fields hp] at h3
    rcases hl with hl | ⟨hl, _⟩
    · rw [hl] at h3
      simp only [Option.map_some, Option.some.injEq, PyObj.node] at h3
      subst h3
      have hpl := entry_plain L name _ fields hp hl
      cases t with
      | el i =>
        simp only [toNode] at h2
        obtain ⟨w, h4, h5⟩ := bind_ok_inv h2
        cases h5
      | arr i =>
        simp only [toNode] at h2
        obtain ⟨w, h4, h5⟩ := bind_ok_inv h2
        cases h5
      | obj gs =>
        simp only [toNode] at h2
        obtain ⟨w, h4, h5⟩ := bind_ok_inv h2
        cases h5
        have hs := scalars_stand L d ps gs hpl.1 h4
        obtain ⟨ps', k1, k2⟩ := List.perm_comp_forall₂ (hord gs) hs
        have hlen : ps'.length = ps.length := k2.length_eq
        obtain ⟨es, st', b1, b2, b3, b4, b5⟩ := assignments_ok L mk d _ ps' st k1 hw (by omega)
        exact ⟨es, st', ps', by simp only [part, h1, Res.bind, b1], k2, b2, by omega, b4, b5⟩
    · rw [hl] at h3; cases h3

theorem parseUpdate_ok (rtl : Bool) (L : Lib) (ord : List (Nat × Trie) → List (Nat × Trie)) (hord : ∀ l, (ord l).Perm l)
    (fields : List (Scalar × PyObj)) (sets incs : List (Bytes × Scalar)) (h : Wellformed L fields sets incs) (st : Store) (hw : Wf st)
    (hc : st.counter + sets.length + incs.length < 2 ^ 16) :
    ∃ es1 es2 st' sets' incs', parseUpdate rtl L ord fields st = .ok (es1 ++ es2, st') ∧ sets'.Perm sets ∧ incs'.Perm incs ∧ More st st' ∧
      List.Forall₂ (Given L setE st') es1 sets' ∧ List.Forall₂ (Given L incE st') es2 incs' := by
  obtain ⟨fs, d, h1, h2⟩ := document_node rtl L fields h.plain h.weight
  obtain ⟨es1, st1, sets', a1, a2, a3, a4, a5, a6⟩ := part_ok L ord hord setE kSet d fs fields h.plain.1 h2 sets (set_text ▸ h.listsSet) st hw (by omega)
  obtain ⟨es2, st2, incs', b1, b2, b3, b4, b5, b6⟩ := part_ok L ord hord incE kInc d fs fields h.plain.1 h2 incs (inc_text ▸ h.listsInc) st1 a3 (by omega)
  refine ⟨es1, es2, st2, sets', incs', ?_, a2, b2, a5.trans b5, a6 st2 b5, b6 st2 (More.refl _)⟩
  simp only [parseUpdate, h1, Res.bind, a1, b1]

/-! ### running it -/

theorem getValue_field {n : Json.Node} (ho : Json.seen n [] = some .object) {k : Bytes} (hk : Sql.Name k) :
    Json.getValue n k = .ok (fieldV n k) := by
  have := Json.C30_value n [] (.name k) (Sql.object_fits ho k) (by intro i xs e; cases e)
  unfold Json.getValue at this ⊢
  rw [Sql.findKey_name n k hk]
  rw [List.nil_append] at this
  rw [this]
  rfl

/-- An assignment of `v` to `k`, whatever else changes in the document. -/
def Assigns (c : Update.Ctx) (n : Json.Node) (e : Update.Expr) (op : Bytes × V) : Prop :=
  ∃ f, e = .set op.1 (some f) ∧ Update.Reads f ∧ ∀ n', Json.seen n' [] = some .object → fieldV n' op.1 = fieldV n op.1 → Update.Means c n' none f (some op.2)

theorem fieldV_congr {n n' : Json.Node} {k : Bytes} (h : Json.seen n' [.name k] = Json.seen n [.name k]) : fieldV n' k = fieldV n k := by
  unfold fieldV
  rw [h]

theorem fieldV_some {n : Json.Node} {k : Bytes} {w : V} : fieldV n k = some w ↔ Json.seen n [.name k] = some (.value w) := by
  unfold fieldV
  split
  · rename_i v e; rw [e]; simp
  · rename_i h
    constructor
    · intro e; cases e
    · intro e; exact absurd e (h w)

theorem run_ops (c : Update.Ctx) : ∀ (es : List Update.Expr) (ops : List (Bytes × V)) (n : Json.Node), Json.seen n [] = some .object →
    (ops.map Prod.fst).Nodup → (∀ op ∈ ops, Sql.Name op.1 ∧ Over n op.1 op.2) → List.Forall₂ (Assigns c n) es ops →
    ∃ n' b, Update.runAll c none es n = .ok (es, n', b) ∧
      (∀ op ∈ ops, ∃ w, fieldV n' op.1 = some w ∧ Update.Same w op.2) ∧
      (∀ l, (∀ op ∈ ops, ¬ [Json.Key.name op.1] <+: l) → Json.seen n' l = Json.seen n l) ∧
      (b = true ↔ ∃ op ∈ ops, ∀ w, fieldV n op.1 = some w → ¬ Update.Same w op.2)
  | [], [], n, _, _, _, .nil => ⟨n, false, rfl, by simp, fun _ _ => rfl, by simp⟩
  | e :: es, (k, v) :: ops, n, ho, hnd, hop, .cons he h => by
    obtain ⟨f, rfl, hf, hmean⟩ := he
    obtain ⟨hname, hsound, hover⟩ := hop _ List.mem_cons_self
    simp only at hname hsound hover hmean
    simp only [List.map_cons, List.nodup_cons] at hnd
    have hmeans := hmean n ho rfl
    have hb : ∃ old, Update.Before n ([] ++ [.name k]) old ∧ (∀ w, old = some w → Update.Kin w v ∧ ∀ b, w = .double b → decode64 b ≠ .nan) ∧
        (Update.Changes old v ↔ ∀ w, fieldV n k = some w → ¬ Update.Same w v) := by
      rcases hover with ⟨h1, h2⟩ | ⟨w, h1, h2, h3⟩
      · refine ⟨none, h1, by simp, ?_⟩
        simp only [Update.Changes, h2, not_false_eq_true, true_iff]
        intro w hw
        rw [fieldV_some, h1] at hw
        cases hw
      · refine ⟨some w, h1, by rintro w' ⟨⟩; exact ⟨h2, h3⟩, ?_⟩
        simp only [Update.Changes]
        rw [(fieldV_some (w := w)).mpr h1]
        simp
    obtain ⟨old, o1, o2, o3⟩ := hb
    obtain ⟨n1, b1, u1, u2, u3, u4⟩ := Update.updateAt_spec c.widenF n [] (.name k) old v (Sql.object_fits ho k) (by unfold Json.InRange; trivial)
      (Or.inl ho) hsound o1 o2
    rw [List.nil_append, ← Sql.updateAt_name c.widenF n k hname] at u1
    have hx1 : Update.exec c n none (.set k (some f)) = .ok ⟨.set k (some f), n1, b1, none⟩ := by
      unfold Update.exec
      simp only [Update.execOpt, (Update.C34_operand c n none f hf).2 _ hmeans, Res.bind, u1]
    have far : ∀ l, ¬ [Json.Key.name k] <+: l → Json.seen n1 l = Json.seen n l := by
      intro l hl
      cases hb : b1 with
      | false => rw [u4 hb]
      | true =>
        rw [u3 hb l, List.nil_append]
        unfold Json.withAt
        rw [if_neg hl]
    have near : ∃ x, fieldV n1 k = some x ∧ Update.Same x v := by
      cases hb : b1 with
      | true =>
        refine ⟨Update.kept v, fieldV_some.mpr ?_, Sql.same_kept v hsound⟩
        rw [u3 hb, List.nil_append]
        unfold Json.withAt
        rw [if_pos (List.prefix_refl _)]
        simp [Json.seen, Json.reach, Json.Node.shape]
      | false =>
        rw [u4 hb]
        have : ¬ Update.Changes old v := fun hc => by rw [u2.mpr hc] at hb; cases hb
        rw [o3] at this
        push Not at this
        exact this
    have ho1 : Json.seen n1 [] = some .object := by
      rw [far [] (by simp)]
      exact ho
    have other : ∀ op ∈ ops, Json.seen n1 [.name op.1] = Json.seen n [.name op.1] := by
      intro op hm
      apply far
      apply Sql.name_prefix
      rintro rfl
      exact hnd.1 (List.mem_map.mpr ⟨op, hm, rfl⟩)
    have hrest : List.Forall₂ (Assigns c n1) es ops := by
      have : ∀ (es : List Update.Expr) (ops' : List (Bytes × V)), List.Forall₂ (Assigns c n) es ops' → (∀ op ∈ ops', op ∈ ops) →
          List.Forall₂ (Assigns c n1) es ops' := by
        intro es ops' h
        induction h with
        | nil => intro _; exact .nil
        | cons he _ ih =>
          intro hs
          obtain ⟨f, e1, e2, e3⟩ := he
          refine .cons ⟨f, e1, e2, fun n' a b => e3 n' a ?_⟩ (ih fun op hm => hs op (List.mem_cons_of_mem _ hm))
          rw [b]
          exact fieldV_congr (other _ (hs _ List.mem_cons_self))
      exact this es ops h fun _ => id
    obtain ⟨n2, b2, r1, r2, r3, r4⟩ := run_ops c es ops n1 ho1 hnd.2 (by
      intro op hm
      obtain ⟨q1, q2, q3⟩ := hop op (List.mem_cons_of_mem _ hm)
      refine ⟨q1, q2, ?_⟩
      rw [other op hm]
      exact q3) hrest
    refine ⟨n2, b1 || b2, ?_, ?_, ?_, ?_⟩
    · unfold Update.runAll
      simp only [hx1, r1, Res.bind]
    · intro op hm
      rcases List.mem_cons.mp hm with rfl | hm
      · obtain ⟨x, x1, x2⟩ := near
        refine ⟨x, ?_, x2⟩
        rw [← x1]
        apply fieldV_congr
        apply r3
        intro op hm
        apply Sql.name_prefix
        intro e
        exact hnd.1 (List.mem_map.mpr ⟨op, hm, e⟩)
      · exact r2 op hm
    · intro l hl
      rw [r3 l fun op hm => hl op (List.mem_cons_of_mem _ hm)]
      exact far l (hl (k, v) List.mem_cons_self)
    · rw [Bool.or_eq_true, u2, o3, r4]
      simp only [List.mem_cons, exists_eq_or_imp]
      refine or_congr Iff.rfl ?_
      constructor
      · rintro ⟨op, hm, hw⟩
        exact ⟨op, hm, by rw [← fieldV_congr (other op hm)]; exact hw⟩
      · rintro ⟨op, hm, hw⟩
        exact ⟨op, hm, by rw [fieldV_congr (other op hm)]; exact hw⟩

theorem incTo_binary (m : Update.Math) (old : Option V) (x : Scalar) (L : Lib) (v y : V) (h : IncTo m old x v) (hy : x.value L = some y)
    (hx : ∀ i, x = .int i → ITy.i64.fits i) : Update.binary m .add old (some y) = .ok (some v) := by
  cases h with
  | int s a b hs ha hr =>
    cases hy
    exact Update.C34_arithmetic m .add s .i64 a b (a + b) hs rfl ha (hx b rfl) rfl hr
  | float a b =>
    cases hy
    unfold Update.binary
    simp only [Update.Bin.onFloat, if_true, Update.op2, Query.operand, V.getDouble, Query.noexc, Res.bind, Query.put_double]
  | fresh b =>
    cases hy
    have hb := hx b rfl
    have g2 : V.getInt .i64 (.int .i64 b) = .ok b := castInt_fits .i64 .i64 b hb hb
    have : ITy.i64.fits (0 + b) := by rwa [Int.zero_add]
    unfold Update.binary
    simp only [ITy.signed, if_true, Update.op2, Query.operand, g2, Query.noexc, Update.orPow]
    have hs : Update.signedOp 64 .add 0 b = .ok (0 + b) := Update.signedOp_exact .add 0 b (0 + b) (by decide) rfl this
    simp only [Res.bind, if_neg (show ¬ Update.Bin.add = Update.Bin.exp by decide), hs, Int.zero_add, Query.put_i64 b hb]

end Verif.Py
