import Verif.Sql.UpdateSpec
import Verif.Sql.SelectProps
/-!
Lemmas on UPDATE.
-/
namespace Verif.Sql

open Verif.DocVal Verif.Query Verif.PhysKey

/-! ### names as paths -/

theorem escape_name : ∀ k : Bytes, Json.slash ∉ k → Json.tilde ∉ k → Json.escape k = k := by
  intro k
  induction k with
  | nil => intro _ _; rfl
  | cons c k ih =>
    intro h1 h2
    simp only [List.mem_cons, not_or] at h1 h2
    unfold Json.escape
    rw [if_neg (Ne.symm h2.1), if_neg (Ne.symm h1.1), ih h1.2 h2.2]

theorem pointer_name (k : Bytes) (h : Name k) : Json.pointer [.name k] = Json.slash :: k := by
  unfold Json.pointer
  show Json.slash :: Json.escape k ++ [] = _
  rw [escape_name k h.2.1 h.2.2, List.append_nil]

theorem lastSlash_none : ∀ k : Bytes, Json.slash ∉ k → Json.lastSlash k = none := by
  intro k
  induction k with
  | nil => intro _; rfl
  | cons c k ih =>
    intro h
    simp only [List.mem_cons, not_or] at h
    unfold Json.lastSlash
    rw [ih h.2]
    exact if_neg (Ne.symm h.1)

theorem findNode_name (n : Json.Node) (k : Bytes) (h : Name k) : Json.findNode n k = Json.findNode n (Json.pointer [.name k]) := by
  rw [pointer_name k h]
  obtain ⟨h0, h1, -⟩ := h
  cases k with
  | nil => exact absurd rfl h0
  | cons c k =>
    simp only [List.mem_cons, not_or] at h1
    unfold Json.findNode
    simp only [Json.strip, if_true]
    rw [if_neg (Ne.symm h1.1)]

theorem findKey_name (n : Json.Node) (k : Bytes) (h : Name k) : Json.findKey n k = Json.findKey n (Json.pointer [.name k]) := by
  rw [pointer_name k h]
  obtain ⟨h0, h1, -⟩ := h
  have e1 : Json.lastSlash (Json.slash :: k) = some 0 := by
    unfold Json.lastSlash
    rw [lastSlash_none k h1]
    exact if_pos rfl
  unfold Json.findKey
  rw [lastSlash_none k h1, e1]
  cases k with
  | nil => exact absurd rfl h0
  | cons c k =>
    simp only [List.mem_cons, not_or] at h1
    simp only [Option.getD_none, Option.getD_some, List.take_zero, List.getElem?_cons_zero, if_true, Nat.zero_add, List.drop_succ_cons, List.drop_zero]
    rw [if_neg (Ne.symm h1.1)]

theorem updateAt_name (wf : UInt32 → UInt64) (n : Json.Node) (k : Bytes) (h : Name k) (v : Option V) :
    Update.updateAt wf n k v = Update.updateAt wf n (Json.pointer [.name k]) v := by
  have e1 : ∀ {α : Type} (zero : α) (get : V → Res α), Update.getAs zero get n k = Update.getAs zero get n (Json.pointer [.name k]) := by
    intro α zero get
    unfold Update.getAs
    rw [findNode_name n k h]
  have e2 : ∀ w, Update.assignV n k w = Update.assignV n (Json.pointer [.name k]) w := by
    intro w
    unfold Update.assignV Json.setAt
    rw [findKey_name n k h]
  cases v with
  | none => rfl
  | some v => cases v <;> simp only [Update.updateAt, Update.assignIf, e1, e2]

theorem object_fits {n : Json.Node} (h : Json.seen n [] = some .object) (k : Bytes) : Json.Fits n [.name k] := by
  cases n with
  | obj fs => intro c _; trivial
  | arr xs => cases h
  | leaf v => cases h
  | del => cases h

/-- Reading a column that is there. -/
theorem get_column {n : Json.Node} (ho : Json.seen n [] = some .object) {k : Bytes} (hk : Name k) {v : V} (h : column n k = some v) :
    Json.seen n [.name k] = some (.value v) ∧ Json.getValue n k = .ok (some v) ∧ Json.exists? n k = .ok true := by
  have hs : Json.seen n [.name k] = some (.value v) := by
    unfold column at h
    split at h
    · cases h
    · rename_i w _ e; cases h; exact e
    · cases h
  refine ⟨hs, ?_, ?_⟩
  · have := Json.C30_value n [] (.name k) (object_fits ho k) (by intro i xs e; cases e)
    unfold Json.getValue at this ⊢
    rw [findKey_name n k hk]
    rw [List.nil_append] at this
    rw [this, hs]
  · unfold Json.exists?
    rw [findNode_name n k hk, Json.C29_address n [.name k] (object_fits ho k)]
    unfold Json.seen at hs
    cases hr : Json.reach n [.name k] with
    | none => rw [hr] at hs; cases hs
    | some c => rfl

/-! ### expressions -/

/-- The translation of a plain expression, with the side its unqualified columns have. -/
def build (s : Update.Side) : SExpr → List V → Update.Expr × List V
  | .lit l, ps => (.param (ps.length % 2 ^ 16), ps ++ [l.value])
  | .col none k, ps => (.field k s, ps)
  | .col (some _) k, ps => (.field k .own, ps)
  | .op o x y, ps => match arith o with
    | some f => (.bin f (some (build s x ps).1) (some (build s y (build s x ps).2).1), (build s y (build s x ps).2).2)
    | none => (.param 0, ps)
  | _, ps => (.param 0, ps)

theorem arith_kind {o : Bytes} {f : Update.Bin} (h : arith o = some f) : kindOf o = some (.inl f) := by
  unfold arith at h
  split at h <;> first | (cases h; rfl) | cases h

theorem build_params (e : SExpr) : ∀ s t ps, (build s e ps).2 = (build t e ps).2 ∧ ∃ ext, (build s e ps).2 = ps ++ ext := by
  induction e with
  | lit l => intro s t ps; exact ⟨rfl, _, rfl⟩
  | col c k => intro s t ps; cases c <;> exact ⟨rfl, [], (List.append_nil _).symm⟩
  | op o x y ihx ihy =>
    intro s t ps
    unfold build
    cases arith o with
    | none => exact ⟨rfl, [], (List.append_nil _).symm⟩
    | some f =>
      simp only
      obtain ⟨h1, e1, h2⟩ := ihx s t ps
      obtain ⟨h3, e2, h4⟩ := ihy s t (build s x ps).2
      refine ⟨by rw [h3, h1], e1 ++ e2, ?_⟩
      rw [h4, h2, List.append_assoc]
  | un o x _ => intro s t ps; exact ⟨rfl, [], (List.append_nil _).symm⟩
  | other => intro s t ps; exact ⟨rfl, [], (List.append_nil _).symm⟩

theorem build_length (e : SExpr) (tbl : Bytes) (hp : e.plain tbl) : ∀ s ps, (build s e ps).2.length = ps.length + e.consts := by
  induction e with
  | lit l => intro s ps; simp [build, SExpr.consts]
  | col c k => intro s ps; cases c <;> simp [build, SExpr.consts]
  | op o x y ihx ihy =>
    intro s ps
    obtain ⟨h0, hx, hy⟩ := hp
    unfold build
    cases ha : arith o with
    | none => exact absurd ha h0
    | some f =>
      simp only
      rw [ihy hy, ihx hx]
      simp only [SExpr.consts]
      omega
  | un o x _ => exact absurd hp id
  | other => exact absurd hp id

theorem tr_build (tbl : Bytes) (e : SExpr) (hp : e.plain tbl) : ∀ ps, trExpr tbl e ps = .ok (build .undefined e ps) := by
  induction e with
  | lit l =>
    intro ps
    cases l with
    | num d f => exact absurd hp id
    | null => exact absurd hp id
    | bool b => rfl
    | str s => rfl
    | int n => rfl
  | col c k =>
    intro ps
    obtain ⟨h | h, -⟩ := hp
    · subst h; rfl
    · subst h
      unfold trExpr
      exact if_pos rfl
  | op o x y ihx ihy =>
    intro ps
    obtain ⟨h0, hx, hy⟩ := hp
    unfold trExpr build
    cases ha : arith o with
    | none => exact absurd ha h0
    | some f =>
      rw [arith_kind ha]
      simp only [ihx hx, Res.bind, ihy hy]
  | un o x _ => exact absurd hp id
  | other => exact absurd hp id

/-- The value of an expression depends on the columns it reads only. -/
theorem value_congr (tbl : Bytes) (n m : Json.Node) (e : SExpr) (h : ∀ k ∈ e.reads, column n k = column m k) : e.value tbl n = e.value tbl m := by
  induction e with
  | lit l => cases l <;> rfl
  | col c k =>
    have hk := h k List.mem_cons_self
    cases c with
    | none => exact hk
    | some t => unfold SExpr.value; rw [hk]
  | op o x y ihx ihy =>
    unfold SExpr.value
    rw [ihx fun k hk => h k (List.mem_append_left _ hk), ihy fun k hk => h k (List.mem_append_right _ hk)]
  | un o x ih =>
    unfold SExpr.value
    rw [ih h]
  | other => rfl

theorem evalOp_arith {o : Bytes} {f : Update.Bin} (ha : arith o = some f) {a b v : V} (h : evalOp o a b = some v) :
    ∃ s t x y r, a = .int s x ∧ b = .int t y ∧ s.signed = true ∧ t.signed = true ∧ Update.exact f x y = some r ∧ ITy.i64.fits r ∧ v = .int .i64 r := by
  have hs : o ≠ [124, 124] := by rintro rfl; cases ha
  unfold evalOp at h
  split at h
  · rename_i s x t y
    split at h
    · rename_i hst
      rw [ha] at h
      simp only at h
      cases he : Update.exact f x y with
      | none => rw [he] at h; cases h
      | some r =>
        rw [he] at h
        simp only at h
        split at h
        · rename_i hr; cases h; exact ⟨s, t, x, y, r, rfl, rfl, hst.1, hst.2, he, hr, rfl⟩
        · cases h
    · cases h
  · rw [if_neg hs] at h; cases h
  · cases h

/-- A plain expression has its value, leaves the document alone, and is itself with its columns settled. -/
theorem exec_build (m : Update.Math) (wf : UInt32 → UInt64) (tbl : Bytes) (n : Json.Node) (ho : Json.seen n [] = some .object)
    (hi : ∀ k s a, column n k = some (.int s a) → s.fits a) (sd : Update.Side) (hs : sd = .undefined ∨ sd = .own) (qs : List V) (e : SExpr)
    (hp : e.plain tbl) : ∀ ps v, e.value tbl n = some v → (build sd e ps).2 <+: qs → ps.length + e.consts ≤ 2 ^ 16 →
      Update.exec ⟨m, wf, paramOf qs⟩ n none (build sd e ps).1 = .ok ⟨(build .own e ps).1, n, false, some v⟩ ∧ (∀ s a, v = .int s a → s.fits a) := by
  induction e with
  | lit l =>
    intro ps v hv hq hl
    have hv' : v = l.value := by cases l <;> first | exact absurd hp id | (cases hv; rfl)
    subst hv'
    refine ⟨?_, ?_⟩
    · show Update.exec _ n none (.param _) = _
      unfold Update.exec
      show (match paramOf qs (ps.length % 2 ^ 16) with | some v => Res.ok _ | none => _) = _
      rw [param_new ps qs l.value hl hq]
      rfl
    · intro s a h
      cases l <;> first | exact absurd hp id | cases h
      exact hp
  | col c k =>
    intro ps v hv hq hl
    obtain ⟨hc, hk⟩ := hp
    have hcol : column n k = some v := by
      cases c with
      | none => exact hv
      | some t =>
        unfold SExpr.value at hv
        split at hv
        · exact hv
        · cases hv
    obtain ⟨-, h1, h2⟩ := get_column ho hk hcol
    refine ⟨?_, fun s a h => hi k s a (h ▸ hcol)⟩
    cases c with
    | some t =>
      show Update.runField k .own n none = _
      unfold Update.runField
      simp only [h1, Res.bind]
      rfl
    | none =>
      rcases hs with rfl | rfl
      · show Update.runField k .undefined n none = _
        unfold Update.runField
        simp only [h2, h1, Res.bind, if_true]
        rfl
      · show Update.runField k .own n none = _
        unfold Update.runField
        simp only [h1, Res.bind]
        rfl
  | op o x y ihx ihy =>
    intro ps v hv hq hl
    obtain ⟨h0, hx, hy⟩ := hp
    cases ha : arith o with
    | none => exact absurd ha h0
    | some f =>
      unfold SExpr.value at hv
      cases hvx : x.value tbl n with
      | none => rw [hvx] at hv; cases hv
      | some a =>
        cases hvy : y.value tbl n with
        | none => rw [hvx, hvy] at hv; cases hv
        | some b =>
          rw [hvx, hvy] at hv
          simp only at hv
          obtain ⟨s, t, i, j, r, rfl, rfl, es, et, ex, fr, rfl⟩ := evalOp_arith ha hv
          simp only [build, ha] at hq ⊢
          simp only [SExpr.consts] at hl
          obtain ⟨ext, hext⟩ := (build_params y sd sd (build sd x ps).2).2
          have hqx : (build sd x ps).2 <+: qs := by
            refine List.IsPrefix.trans ?_ hq
            rw [hext]
            exact List.prefix_append _ _
          obtain ⟨k1, k2⟩ := ihx hx ps _ hvx hqx (by omega)
          obtain ⟨k3, k4⟩ := ihy hy (build sd x ps).2 _ hvy hq (by rw [build_length x tbl hx]; omega)
          refine ⟨?_, fun s a h => by cases h; exact fr⟩
          unfold Update.exec
          simp only [Update.execOpt, k1, k3, Res.bind]
          rw [Update.C34_arithmetic m f s t i j r es et (k2 s i rfl) (k4 t j rfl) ex fr]
          simp only
          rw [(build_params x .own sd ps).1]
  | un o x _ => exact absurd hp id
  | other => exact absurd hp id

/-! ### assignments -/

def buildSets (s : Update.Side) : List (Bytes × SExpr) → List V → List Update.Expr × List V
  | [], ps => ([], ps)
  | (k, e) :: ss, ps => (.set k (some (build s e ps).1) :: (buildSets s ss (build s e ps).2).1, (buildSets s ss (build s e ps).2).2)

theorem buildSets_params (ss : List (Bytes × SExpr)) : ∀ s t ps, (buildSets s ss ps).2 = (buildSets t ss ps).2 ∧ ∃ ext, (buildSets s ss ps).2 = ps ++ ext := by
  induction ss with
  | nil => intro s t ps; exact ⟨rfl, [], (List.append_nil _).symm⟩
  | cons p ss ih =>
    intro s t ps
    obtain ⟨k, e⟩ := p
    unfold buildSets
    simp only
    obtain ⟨h1, e1, h2⟩ := build_params e s t ps
    obtain ⟨h3, e2, h4⟩ := ih s t (build s e ps).2
    refine ⟨by rw [h3, h1], e1 ++ e2, ?_⟩
    rw [h4, h2, List.append_assoc]

theorem buildSets_length (tbl : Bytes) (ss : List (Bytes × SExpr)) (hp : ∀ p ∈ ss, p.2.plain tbl) :
    ∀ s ps, (buildSets s ss ps).2.length = ps.length + (ss.map fun p => p.2.consts).sum := by
  induction ss with
  | nil => intro s ps; rfl
  | cons p ss ih =>
    intro s ps
    obtain ⟨k, e⟩ := p
    unfold buildSets
    simp only
    rw [ih (fun p h => hp p (List.mem_cons_of_mem _ h)), build_length e tbl (hp _ List.mem_cons_self), List.map_cons, List.sum_cons]
    simp only
    omega

theorem tr_sets (tbl : Bytes) (ss : List (Bytes × SExpr)) (hp : ∀ p ∈ ss, p.2.plain tbl) : ∀ ps, trSets tbl ss ps = .ok (buildSets .undefined ss ps) := by
  induction ss with
  | nil => intro ps; rfl
  | cons p ss ih =>
    intro ps
    obtain ⟨k, e⟩ := p
    unfold trSets buildSets
    rw [tr_build tbl e (hp _ List.mem_cons_self)]
    simp only [Res.bind]
    rw [ih fun p h => hp p (List.mem_cons_of_mem _ h)]

theorem same_kept (v : V) (h : Update.Sound v) : Update.Same (Update.kept v) v := by
  cases v <;> first | exact absurd h id | rfl

theorem column_congr {n m : Json.Node} {k : Bytes} (h : Json.seen m [.name k] = Json.seen n [.name k]) : column n k = column m k := by
  unfold column
  rw [h]

theorem column_seen {n : Json.Node} {k : Bytes} {v : V} (h : column n k = some v) : Json.seen n [.name k] = some (.value v) := by
  unfold column at h
  split at h
  · cases h
  · rename_i w _ e; cases h; exact e
  · cases h

theorem name_prefix {a b : Bytes} (h : a ≠ b) : ¬ [Json.Key.name a] <+: [Json.Key.name b] := by
  rintro ⟨t, ht⟩
  injection ht with h1 _
  injection h1 with h1
  exact h h1

/-- The assignments one after the other. -/
theorem run_sets (m : Update.Math) (wf : UInt32 → UInt64) (tbl : Bytes) (sd : Update.Side) (hs : sd = .undefined ∨ sd = .own) (qs : List V)
    (ss : List (Bytes × SExpr)) (hp : ∀ p ∈ ss, p.2.plain tbl) (hind : Independent ss) (hnd : (ss.map Prod.fst).Nodup) :
    ∀ ps n, Json.seen n [] = some .object → Kindred tbl ss n → (∀ p ∈ ss, Name p.1 ∧ ∃ v, p.2.value tbl n = some v ∧ Update.Sound v) →
      (buildSets sd ss ps).2 <+: qs → ps.length + (ss.map fun p => p.2.consts).sum ≤ 2 ^ 16 →
      ∃ n' b, Update.runAll ⟨m, wf, paramOf qs⟩ none (buildSets sd ss ps).1 n = .ok ((buildSets .own ss ps).1, n', b) ∧
        Assigned tbl ss n n' ∧ (b = true ↔ Altered tbl ss n) := by
  induction ss with
  | nil =>
    intro ps n _ _ _ _ _
    refine ⟨n, false, rfl, ⟨by simp, fun l _ => rfl⟩, by simp [Altered]⟩
  | cons p ss ih =>
    intro ps n ho hk hv hq hl
    obtain ⟨k, e⟩ := p
    obtain ⟨hname, v, hev, hsv⟩ := hv _ List.mem_cons_self
    obtain ⟨v', w, hev', hw, hkin, hnan⟩ := hk.2 _ List.mem_cons_self
    simp only at hname hev hev' hw
    rw [hev] at hev'
    cases hev'
    have hpe := hp _ List.mem_cons_self
    simp only at hpe
    simp only [buildSets] at hq ⊢
    rw [List.map_cons, List.sum_cons] at hl
    simp only at hl
    have hq1 : (build sd e ps).2 <+: qs := by
      obtain ⟨ext, hext⟩ := (buildSets_params ss sd sd (build sd e ps).2).2
      refine List.IsPrefix.trans ?_ hq
      rw [hext]
      exact List.prefix_append _ _
    obtain ⟨k1, -⟩ := exec_build m wf tbl n ho hk.1 sd hs qs e hpe ps v hev hq1 (by omega)
    have hws := column_seen hw
    obtain ⟨n1, b1, u1, u2, u3, u4⟩ := Update.updateAt_spec wf n [] (.name k) (some w) v (object_fits ho k) (by unfold Json.InRange; trivial)
      (Or.inl ho) hsv hws (by intro x hx; cases hx; exact ⟨hkin, hnan⟩)
    rw [List.nil_append, ← updateAt_name wf n k hname] at u1
    have hx1 : Update.exec ⟨m, wf, paramOf qs⟩ n none (.set k (some (build sd e ps).1)) = .ok ⟨.set k (some (build .own e ps).1), n1, b1, none⟩ := by
      unfold Update.exec
      simp only [Update.execOpt, k1, Res.bind, u1]
    -- the document after the first assignment
    have far : ∀ l, ¬ [Json.Key.name k] <+: l → Json.seen n1 l = Json.seen n l := by
      intro l hl
      cases hb : b1 with
      | false => rw [u4 hb]
      | true =>
        rw [u3 hb l, List.nil_append]
        unfold Json.withAt
        rw [if_neg hl]
    have near : ∃ x, Json.seen n1 [.name k] = some (.value x) ∧ Update.Same x v := by
      cases hb : b1 with
      | false =>
        refine ⟨w, by rw [u4 hb]; exact hws, ?_⟩
        by_contra hc
        have := u2.mpr hc
        rw [hb] at this
        cases this
      | true =>
        refine ⟨Update.kept v, ?_, same_kept v hsv⟩
        rw [u3 hb, List.nil_append]
        unfold Json.withAt
        rw [if_pos (List.prefix_refl _)]
        rfl
    have ho1 : Json.seen n1 [] = some .object := by rw [far [] (by simp)]; exact ho
    have col : ∀ k', k' ≠ k → column n1 k' = column n k' := by
      intro k' hk'
      exact (column_congr (far _ (name_prefix (Ne.symm hk')))).symm
    have hnd' := List.nodup_cons.mp hnd
    simp only at hnd'
    have hval : ∀ p ∈ ss, p.2.value tbl n1 = p.2.value tbl n := by
      intro p hp'
      apply value_congr
      intro k' hk'
      apply col
      rintro rfl
      exact hind.1 p hp' hk'
    have hkey : ∀ p ∈ ss, column n1 p.1 = column n p.1 := by
      intro p hp'
      apply col
      rintro rfl
      exact hnd'.1 (List.mem_map.mpr ⟨p, hp', rfl⟩)
    have hkin1 : Kindred tbl ss n1 := by
      refine ⟨?_, ?_⟩
      · intro k' s a h
        by_cases hkk : k' = k
        · subst hkk
          obtain ⟨x, hx1, hx2⟩ := near
          have hxs := column_seen h
          rw [hx1] at hxs
          cases hxs
          cases hb : b1 with
          | false => rw [u4 hb] at h; exact hk.1 _ s a h
          | true =>
            have := u3 hb [.name k']
            rw [hx1, List.nil_append] at this
            unfold Json.withAt at this
            rw [if_pos (List.prefix_refl _)] at this
            have e' : V.int s a = Update.kept v := by
              have : some (Json.Shape.value (V.int s a)) = some (.value (Update.kept v)) := this
              injection this with this
              injection this
            cases v with
            | int t z =>
              cases e'
              exact Update.fits64 t a hsv.1
            | _ => cases e'
        · rw [col k' hkk] at h
          exact hk.1 _ s a h
      · intro p hp'
        obtain ⟨v', w', g1, g2, g3⟩ := hk.2 p (List.mem_cons_of_mem _ hp')
        exact ⟨v', w', (hval p hp').trans g1, (hkey p hp').trans g2, g3⟩
    have hv1 : ∀ p ∈ ss, Name p.1 ∧ ∃ v, p.2.value tbl n1 = some v ∧ Update.Sound v := by
      intro p hp'
      obtain ⟨g1, v', g2, g3⟩ := hv p (List.mem_cons_of_mem _ hp')
      exact ⟨g1, v', (hval p hp').trans g2, g3⟩
    obtain ⟨n', b, r1, r2, r3⟩ := ih (fun p h => hp p (List.mem_cons_of_mem _ h)) hind.2 hnd'.2 (build sd e ps).2 n1 ho1 hkin1 hv1 hq
      (by rw [build_length e tbl hpe]; omega)
    refine ⟨n', b1 || b, ?_, ⟨?_, ?_⟩, ?_⟩
    · unfold Update.runAll
      rw [hx1]
      simp only [Res.bind]
      rw [r1]
      simp only
      rw [(build_params e .own sd ps).1]
    · intro p hp'
      rcases List.mem_cons.mp hp' with rfl | hp'
      · obtain ⟨x, hx, hsx⟩ := near
        refine ⟨v, x, hev, ?_, hsx⟩
        rw [r2.2 [.name k] (fun q hq' => name_prefix (fun e => hnd'.1 (List.mem_map.mpr ⟨q, hq', e⟩)))]
        exact hx
      · obtain ⟨v', w', g1, g2⟩ := r2.1 p hp'
        exact ⟨v', w', (hval p hp').symm.trans g1, g2⟩
    · intro l hl
      rw [r2.2 l fun p hp' => hl p (List.mem_cons_of_mem _ hp')]
      exact far l (hl _ List.mem_cons_self)
    · rw [Bool.or_eq_true, u2, r3]
      constructor
      · rintro (h | ⟨p, hp', v', w', g1, g2, g3⟩)
        · exact ⟨_, List.mem_cons_self, v, w, hev, hw, h⟩
        · exact ⟨p, List.mem_cons_of_mem _ hp', v', w', (hval p hp').symm.trans g1, (hkey p hp').symm.trans g2, g3⟩
      · rintro ⟨p, hp', v', w', g1, g2, g3⟩
        rcases List.mem_cons.mp hp' with rfl | hp'
        · left
          simp only at g1 g2
          rw [hev] at g1
          rw [hw] at g2
          cases g1
          cases g2
          exact g3
        · exact Or.inr ⟨p, hp', v', w', (hval p hp').trans g1, (hkey p hp').trans g2, g3⟩

/-- The documents one after the other. -/
theorem run_docs (m : Update.Math) (wf : UInt32 → UInt64) (tbl : Bytes) (qs : List V) (ss : List (Bytes × SExpr)) (hp : ∀ p ∈ ss, p.2.plain tbl)
    (hind : Independent ss) (hq : (buildSets .own ss []).2 <+: qs) (hl : (ss.map fun p => p.2.consts).sum ≤ 2 ^ 16) (ns : List Json.Node)
    (hn : ∀ n ∈ ns, Assignable tbl ss n ∧ Kindred tbl ss n) : ∀ sd, sd = Update.Side.undefined ∨ sd = .own →
    ∃ rs, Update.runDocs ⟨m, wf, paramOf qs⟩ (buildSets sd ss []).1 ns = .ok rs ∧
      List.Forall₂ (fun n r => Assigned tbl ss n r.1 ∧ (r.2 = true ↔ Altered tbl ss n)) ns rs := by
  induction ns with
  | nil => intro sd _; exact ⟨[], rfl, .nil⟩
  | cons n ns ih =>
    intro sd hs
    obtain ⟨⟨h1, h2, h3⟩, h4⟩ := hn n List.mem_cons_self
    obtain ⟨n', b, r1, r2, r3⟩ := run_sets m wf tbl sd hs qs ss hp hind h2 [] n h1 h4 h3
      (by rw [(buildSets_params ss sd .own []).1]; exact hq) (by simpa using hl)
    obtain ⟨rs, k1, k2⟩ := ih (fun n h => hn n (List.mem_cons_of_mem _ h)) .own (Or.inr rfl)
    refine ⟨(n', b) :: rs, ?_, .cons ⟨r2, r3⟩ k2⟩
    unfold Update.runDocs
    rw [r1]
    simp only [Res.bind]
    rw [k1]

theorem place_spec (p : UDoc → Bool) (A : Json.Node → Json.Node → Prop) (Q : Json.Node → Prop) (store : List UDoc) :
    ∀ rs, List.Forall₂ (fun n (r : Json.Node × Bool) => A n r.1 ∧ (r.2 = true ↔ Q n)) ((store.filter p).map UDoc.node) rs →
    List.Forall₂ (fun d d' => d'.id = d.id ∧ (p d = true → A d.node d'.node) ∧ (p d = false → d' = d)) store (place p store rs) ∧
    ∀ i, i ∈ ((((store.filter p).zip rs).filter fun (x : UDoc × (Json.Node × Bool)) => x.2.2).map fun x => x.1.id) ↔
      ∃ d ∈ store, p d = true ∧ d.id = i ∧ Q d.node := by
  induction store with
  | nil => intro rs h; cases h; exact ⟨.nil, by simp⟩
  | cons d ds ih =>
    intro rs h
    cases hp : p d with
    | false =>
      rw [List.filter_cons_of_neg (by simp [hp])] at h
      obtain ⟨i1, i2⟩ := ih rs h
      rw [List.filter_cons_of_neg (by simp [hp])]
      refine ⟨?_, fun i => ?_⟩
      · have e : place p (d :: ds) rs = d :: place p ds rs := by
          cases rs with
          | nil => cases ds <;> rfl
          | cons r rs => simp [place, hp]
        rw [e]
        exact .cons ⟨rfl, by simp [hp], fun _ => rfl⟩ i1
      · rw [i2 i]
        simp [hp]
    | true =>
      rw [List.filter_cons_of_pos hp, List.map_cons] at h
      cases h with
      | cons h1 h2 =>
        rename_i r rs
        obtain ⟨i1, i2⟩ := ih rs h2
        rw [List.filter_cons_of_pos hp]
        refine ⟨?_, fun i => ?_⟩
        · have e : place p (d :: ds) (r :: rs) = ⟨d.id, r.1⟩ :: place p ds rs := by simp [place, hp]
          rw [e]
          exact .cons ⟨rfl, fun _ => h1.1, by simp [hp]⟩ i1
        · rw [List.zip_cons_cons]
          cases hr : r.2 with
          | false =>
            have hq : ¬ Q d.node := fun h => by have := h1.2.mpr h; rw [hr] at this; cases this
            rw [List.filter_cons_of_neg (by simp [hr]), i2 i]
            simp [hq]
          | true =>
            have hq : Q d.node := h1.2.mp hr
            rw [List.filter_cons_of_pos (by simpa using hr), List.map_cons, List.mem_cons, i2 i]
            constructor
            · rintro (rfl | ⟨x, hx, h⟩)
              · exact ⟨d, List.mem_cons_self, hp, rfl, hq⟩
              · exact ⟨x, List.mem_cons_of_mem _ hx, h⟩
            · rintro ⟨x, hx, h⟩
              rcases List.mem_cons.mp hx with rfl | hx
              · exact Or.inl h.2.1.symm
              · exact Or.inr ⟨x, hx, h⟩

end Verif.Sql
