import Verif.Sql.UpdateFromSpec
import Verif.Sql.UpdateLemmas
import Verif.Sql.InsertProps
import Verif.Sql.JoinProps
/-!
Lemmas on UPDATE with FROM.
-/
namespace Verif.Sql

open Verif.DocVal Verif.Query Verif.PhysKey

/-! ### expressions -/

/-- The translation of a plain expression. -/
def buildF (tl : Bytes) : SExpr → List V → Update.Expr × List V
  | .lit l, ps => (.param (ps.length % 2 ^ 16), ps ++ [l.value])
  | .col t k, ps => (.field k (if t = some tl then .own else .other), ps)
  | .op o x y, ps => match arith o with
    | some f => (.bin f (some (buildF tl x ps).1) (some (buildF tl y (buildF tl x ps).2).1), (buildF tl y (buildF tl x ps).2).2)
    | none => (.param 0, ps)
  | _, ps => (.param 0, ps)

theorem buildF_ext (tl : Bytes) (e : SExpr) : ∀ ps, ∃ ext, (buildF tl e ps).2 = ps ++ ext := by
  induction e with
  | lit l => intro ps; exact ⟨_, rfl⟩
  | col c k => intro ps; exact ⟨[], (List.append_nil _).symm⟩
  | op o x y ihx ihy =>
    intro ps
    unfold buildF
    cases arith o with
    | none => exact ⟨[], (List.append_nil _).symm⟩
    | some f =>
      simp only
      obtain ⟨e1, h1⟩ := ihx ps
      obtain ⟨e2, h2⟩ := ihy (buildF tl x ps).2
      exact ⟨e1 ++ e2, by rw [h2, h1, List.append_assoc]⟩
  | un o x _ => intro ps; exact ⟨[], (List.append_nil _).symm⟩
  | other => intro ps; exact ⟨[], (List.append_nil _).symm⟩

theorem buildF_length (tl ts : Bytes) (e : SExpr) (hp : e.plainFrom tl ts) : ∀ ps, (buildF tl e ps).2.length = ps.length + e.consts := by
  induction e with
  | lit l => intro ps; simp [buildF, SExpr.consts]
  | col c k => intro ps; simp [buildF, SExpr.consts]
  | op o x y ihx ihy =>
    intro ps
    obtain ⟨h0, hx, hy⟩ := hp
    unfold buildF
    cases ha : arith o with
    | none => exact absurd ha h0
    | some f =>
      simp only
      rw [ihy hy, ihx hx]
      simp only [SExpr.consts]
      omega
  | un o x _ => exact absurd hp id
  | other => exact absurd hp id

theorem tr_buildF (tl ts : Bytes) (hne : tl ≠ ts) (e : SExpr) (hp : e.plainFrom tl ts) : ∀ ps, trExprFrom tl ts e ps = .ok (buildF tl e ps) := by
  induction e with
  | lit l =>
    intro ps
    cases l with
    | num d f => exact absurd hp id
    | null => exact absurd hp id
    | bool b => rfl
    | str s => rfl
    | int n => rfl
  | col c k =>
    intro ps
    obtain ⟨h | h, -⟩ := hp
    · subst h
      simp [trExprFrom, buildF]
    · subst h
      simp [trExprFrom, buildF, Ne.symm hne]
  | op o x y ihx ihy =>
    intro ps
    obtain ⟨h0, hx, hy⟩ := hp
    unfold trExprFrom buildF
    cases ha : arith o with
    | none => exact absurd ha h0
    | some f =>
      rw [arith_kind ha]
      simp only [ihx hx, Res.bind, ihy hy]
  | un o x _ => exact absurd hp id
  | other => exact absurd hp id

/-- The value of an expression depends on the columns it reads only. -/
theorem valueFrom_congr (tl ts : Bytes) (n m s : Json.Node) (e : SExpr) (h : ∀ k ∈ e.readsOf tl, column n k = column m k) :
    e.valueFrom tl ts n s = e.valueFrom tl ts m s := by
  induction e with
  | lit l => cases l <;> rfl
  | col c k =>
    cases c with
    | none => rfl
    | some t =>
      unfold SExpr.valueFrom
      by_cases ht : t = tl
      · rw [if_pos ht, if_pos ht]
        exact h k (by simp [SExpr.readsOf, ht])
      · rw [if_neg ht, if_neg ht]
  | op o x y ihx ihy =>
    unfold SExpr.valueFrom
    rw [ihx fun k hk => h k (List.mem_append_left _ hk), ihy fun k hk => h k (List.mem_append_right _ hk)]
  | un o x ih => rfl
  | other => rfl

/-- A plain expression has its value and leaves itself and the document alone. -/
theorem exec_buildF (m : Update.Math) (wf : UInt32 → UInt64) (tl ts : Bytes) (hne : tl ≠ ts) (n s : Json.Node) (ho : Json.seen n [] = some .object)
    (hos : Json.seen s [] = some .object) (hi : ∀ k s a, column n k = some (.int s a) → s.fits a) (hj : ∀ k t a, column s k = some (.int t a) → t.fits a)
    (qs : List V) (e : SExpr) (hp : e.plainFrom tl ts) : ∀ ps v, e.valueFrom tl ts n s = some v → (buildF tl e ps).2 <+: qs → ps.length + e.consts ≤ 2 ^ 16 →
      Update.exec ⟨m, wf, paramOf qs⟩ n (some s) (buildF tl e ps).1 = .ok ⟨(buildF tl e ps).1, n, false, some v⟩ ∧ (∀ s a, v = .int s a → s.fits a) := by
  induction e with
  | lit l =>
    intro ps v hv hq hl
    have hv' : v = l.value := by cases l <;> first | exact absurd hp id | (cases hv; rfl)
    subst hv'
    refine ⟨?_, ?_⟩
    · show Update.exec _ n _ (.param _) = _
      unfold Update.exec
      show (match paramOf qs (ps.length % 2 ^ 16) with | some v => Res.ok _ | none => _) = _
      rw [param_new ps qs l.value hl hq]
      rfl
    · intro s a h
      cases l <;> first | exact absurd hp id | cases h
      exact hp
  | col c k =>
    intro ps v hv hq hl
    obtain ⟨hc, hk⟩ := hp
    rcases hc with rfl | rfl
    · have hcol : column n k = some v := by
        unfold SExpr.valueFrom at hv
        rwa [if_pos rfl] at hv
      obtain ⟨-, h1, h2⟩ := get_column ho hk hcol
      refine ⟨?_, fun s a h => hi k s a (h ▸ hcol)⟩
      simp only [buildF, if_true]
      show Update.runField k .own n (some s) = _
      unfold Update.runField
      simp only [h1, Res.bind]
    · have hcol : column s k = some v := by
        unfold SExpr.valueFrom at hv
        rwa [if_neg (Ne.symm hne), if_pos rfl] at hv
      obtain ⟨-, h1, h2⟩ := get_column hos hk hcol
      refine ⟨?_, fun s a h => hj k s a (h ▸ hcol)⟩
      have hn : ¬ some ts = some tl := fun h => hne (Option.some.inj h).symm
      simp only [buildF, if_neg hn]
      show Update.runField k .other n (some s) = _
      unfold Update.runField
      simp only [h1, Res.bind]
  | op o x y ihx ihy =>
    intro ps v hv hq hl
    obtain ⟨h0, hx, hy⟩ := hp
    cases ha : arith o with
    | none => exact absurd ha h0
    | some f =>
      unfold SExpr.valueFrom at hv
      cases hvx : x.valueFrom tl ts n s with
      | none => rw [hvx] at hv; cases hv
      | some a =>
        cases hvy : y.valueFrom tl ts n s with
        | none => rw [hvx, hvy] at hv; cases hv
        | some b =>
          rw [hvx, hvy] at hv
          simp only at hv
          obtain ⟨s, t, i, j, r, rfl, rfl, es, et, ex, fr, rfl⟩ := evalOp_arith ha hv
          simp only [buildF, ha] at hq ⊢
          simp only [SExpr.consts] at hl
          obtain ⟨ext, hext⟩ := buildF_ext tl y (buildF tl x ps).2
          have hqx : (buildF tl x ps).2 <+: qs := by
            refine List.IsPrefix.trans ?_ hq
            rw [hext]
            exact List.prefix_append _ _
          obtain ⟨k1, k2⟩ := ihx hx ps _ hvx hqx (by omega)
          obtain ⟨k3, k4⟩ := ihy hy (buildF tl x ps).2 _ hvy hq (by rw [buildF_length tl ts x hx]; omega)
          refine ⟨?_, fun s a h => by cases h; exact fr⟩
          unfold Update.exec
          simp only [Update.execOpt, k1, k3, Res.bind]
          rw [Update.C34_arithmetic m f s t i j r es et (k2 s i rfl) (k4 t j rfl) ex fr]
  | un o x _ => exact absurd hp id
  | other => exact absurd hp id

/-! ### assignments -/

def buildSetsF (tl : Bytes) : List (Bytes × SExpr) → List V → List Update.Expr × List V
  | [], ps => ([], ps)
  | (k, e) :: ss, ps => (.set k (some (buildF tl e ps).1) :: (buildSetsF tl ss (buildF tl e ps).2).1, (buildSetsF tl ss (buildF tl e ps).2).2)

theorem buildSetsF_ext (tl : Bytes) (ss : List (Bytes × SExpr)) : ∀ ps, ∃ ext, (buildSetsF tl ss ps).2 = ps ++ ext := by
  induction ss with
  | nil => intro ps; exact ⟨[], (List.append_nil _).symm⟩
  | cons p ss ih =>
    intro ps
    obtain ⟨k, e⟩ := p
    unfold buildSetsF
    simp only
    obtain ⟨e1, h2⟩ := buildF_ext tl e ps
    obtain ⟨e2, h4⟩ := ih (buildF tl e ps).2
    exact ⟨e1 ++ e2, by rw [h4, h2, List.append_assoc]⟩

theorem buildSetsF_length (tl ts : Bytes) (ss : List (Bytes × SExpr)) (hp : ∀ p ∈ ss, p.2.plainFrom tl ts) :
    ∀ ps, (buildSetsF tl ss ps).2.length = ps.length + (ss.map fun p => p.2.consts).sum := by
  induction ss with
  | nil => intro ps; rfl
  | cons p ss ih =>
    intro ps
    obtain ⟨k, e⟩ := p
    unfold buildSetsF
    simp only
    rw [ih (fun p h => hp p (List.mem_cons_of_mem _ h)), buildF_length tl ts e (hp _ List.mem_cons_self), List.map_cons, List.sum_cons]
    simp only
    omega

theorem tr_setsF (tl ts : Bytes) (hne : tl ≠ ts) (ss : List (Bytes × SExpr)) (hp : ∀ p ∈ ss, p.2.plainFrom tl ts) :
    ∀ ps, trSetsFrom tl ts ss ps = .ok (buildSetsF tl ss ps) := by
  induction ss with
  | nil => intro ps; rfl
  | cons p ss ih =>
    intro ps
    obtain ⟨k, e⟩ := p
    unfold trSetsFrom buildSetsF
    rw [tr_buildF tl ts hne e (hp _ List.mem_cons_self)]
    simp only [Res.bind]
    rw [ih fun p h => hp p (List.mem_cons_of_mem _ h)]

/-- The assignments one after the other. -/
theorem run_setsF (m : Update.Math) (wf : UInt32 → UInt64) (tl ts : Bytes) (hne : tl ≠ ts) (qs : List V) (s : Json.Node) (hos : Json.seen s [] = some .object)
    (ss : List (Bytes × SExpr)) (hp : ∀ p ∈ ss, p.2.plainFrom tl ts) (hind : IndependentFrom tl ss) (hnd : (ss.map Prod.fst).Nodup) (hnm : ∀ p ∈ ss, Name p.1) :
    ∀ ps n, Json.seen n [] = some .object → KindredFrom tl ts ss s n →
      (buildSetsF tl ss ps).2 <+: qs → ps.length + (ss.map fun p => p.2.consts).sum ≤ 2 ^ 16 →
      ∃ n' b, Update.runAll ⟨m, wf, paramOf qs⟩ (some s) (buildSetsF tl ss ps).1 n = .ok ((buildSetsF tl ss ps).1, n', b) ∧
        AssignedFrom tl ts ss s n n' ∧ (b = true ↔ AlteredFrom tl ts ss s n) := by
  induction ss with
  | nil =>
    intro ps n _ _ _ _
    refine ⟨n, false, rfl, ⟨by simp, fun l _ => rfl⟩, by simp [AlteredFrom]⟩
  | cons p ss ih =>
    intro ps n ho hk hq hl
    obtain ⟨k, e⟩ := p
    have hname := hnm _ List.mem_cons_self
    obtain ⟨v, w, hev, hsv, hw, hkin, hnan⟩ := hk.2.2 _ List.mem_cons_self
    simp only at hname hev hw
    have hpe := hp _ List.mem_cons_self
    simp only at hpe
    simp only [buildSetsF] at hq ⊢
    rw [List.map_cons, List.sum_cons] at hl
    simp only at hl
    have hq1 : (buildF tl e ps).2 <+: qs := by
      obtain ⟨ext, hext⟩ := buildSetsF_ext tl ss (buildF tl e ps).2
      refine List.IsPrefix.trans ?_ hq
      rw [hext]
      exact List.prefix_append _ _
    obtain ⟨k1, -⟩ := exec_buildF m wf tl ts hne n s ho hos hk.1 hk.2.1 qs e hpe ps v hev hq1 (by omega)
    have hws := column_seen hw
    obtain ⟨n1, b1, u1, u2, u3, u4⟩ := Update.updateAt_spec wf n [] (.name k) (some w) v (object_fits ho k) (by unfold Json.InRange; trivial)
      (Or.inl ho) hsv hws (by intro x hx; cases hx; exact ⟨hkin, hnan⟩)
    rw [List.nil_append, ← updateAt_name wf n k hname] at u1
    have hx1 : Update.exec ⟨m, wf, paramOf qs⟩ n (some s) (.set k (some (buildF tl e ps).1)) = .ok ⟨.set k (some (buildF tl e ps).1), n1, b1, none⟩ := by
      unfold Update.exec
      simp only [Update.execOpt, k1, Res.bind, u1]
    have far : ∀ l, ¬ [Json.Key.name k] <+: l → Json.seen n1 l = Json.seen n l := by
      intro l hl
      cases hb : b1 with
      | false => rw [u4 hb]
      | true =>
        rw [u3 hb l, List.nil_append]
        unfold Json.withAt
        rw [if_neg hl]
    have near : ∃ x, Json.seen n1 [.name k] = some (.value x) ∧ Update.Same x v := by
      cases hb : b1 with
      | false =>
        refine ⟨w, by rw [u4 hb]; exact hws, ?_⟩
        by_contra hc
        have := u2.mpr hc
        rw [hb] at this
        cases this
      | true =>
        refine ⟨Update.kept v, ?_, same_kept v hsv⟩
        rw [u3 hb, List.nil_append]
        unfold Json.withAt
        rw [if_pos (List.prefix_refl _)]
        rfl
    have ho1 : Json.seen n1 [] = some .object := by rw [far [] (by simp)]; exact ho
    have col : ∀ k', k' ≠ k → column n1 k' = column n k' := by
      intro k' hk'
      exact (column_congr (far _ (name_prefix (Ne.symm hk')))).symm
    have hnd' := List.nodup_cons.mp hnd
    simp only at hnd'
    have hval : ∀ p ∈ ss, p.2.valueFrom tl ts n1 s = p.2.valueFrom tl ts n s := by
      intro p hp'
      apply valueFrom_congr
      intro k' hk'
      apply col
      rintro rfl
      exact hind.1 p hp' hk'
    have hkey : ∀ p ∈ ss, column n1 p.1 = column n p.1 := by
      intro p hp'
      apply col
      rintro rfl
      exact hnd'.1 (List.mem_map.mpr ⟨p, hp', rfl⟩)
    have hkin1 : KindredFrom tl ts ss s n1 := by
      refine ⟨?_, hk.2.1, ?_⟩
      · intro k' s' a h
        by_cases hkk : k' = k
        · subst hkk
          obtain ⟨x, hx1, hx2⟩ := near
          have hxs := column_seen h
          rw [hx1] at hxs
          cases hxs
          cases hb : b1 with
          | false => rw [u4 hb] at h; exact hk.1 _ s' a h
          | true =>
            have := u3 hb [.name k']
            rw [hx1, List.nil_append] at this
            unfold Json.withAt at this
            rw [if_pos (List.prefix_refl _)] at this
            have e' : V.int s' a = Update.kept v := by
              have : some (Json.Shape.value (V.int s' a)) = some (.value (Update.kept v)) := this
              injection this with this
              injection this
            cases v with
            | int t z =>
              cases e'
              exact Update.fits64 t a hsv.1
            | _ => cases e'
        · rw [col k' hkk] at h
          exact hk.1 _ s' a h
      · intro p hp'
        obtain ⟨v', w', g1, g0, g2, g3⟩ := hk.2.2 p (List.mem_cons_of_mem _ hp')
        exact ⟨v', w', (hval p hp').trans g1, g0, (hkey p hp').trans g2, g3⟩
    obtain ⟨n', b, r1, r2, r3⟩ := ih (fun p h => hp p (List.mem_cons_of_mem _ h)) hind.2 hnd'.2 (fun p h => hnm p (List.mem_cons_of_mem _ h)) (buildF tl e ps).2 n1 ho1 hkin1 hq
      (by rw [buildF_length tl ts e hpe]; omega)
    refine ⟨n', b1 || b, ?_, ⟨?_, ?_⟩, ?_⟩
    · unfold Update.runAll
      rw [hx1]
      simp only [Res.bind]
      rw [r1]
    · intro p hp'
      rcases List.mem_cons.mp hp' with rfl | hp'
      · obtain ⟨x, hx, hsx⟩ := near
        refine ⟨v, x, hev, ?_, hsx⟩
        rw [r2.2 [.name k] (fun q hq' => name_prefix (fun e => hnd'.1 (List.mem_map.mpr ⟨q, hq', e⟩)))]
        exact hx
      · obtain ⟨v', w', g1, g2⟩ := r2.1 p hp'
        exact ⟨v', w', (hval p hp').symm.trans g1, g2⟩
    · intro l hl
      rw [r2.2 l fun p hp' => hl p (List.mem_cons_of_mem _ hp')]
      exact far l (hl _ List.mem_cons_self)
    · rw [Bool.or_eq_true, u2, r3]
      constructor
      · rintro (h | ⟨p, hp', v', w', g1, g2, g3⟩)
        · exact ⟨_, List.mem_cons_self, v, w, hev, hw, h⟩
        · exact ⟨p, List.mem_cons_of_mem _ hp', v', w', (hval p hp').symm.trans g1, (hkey p hp').symm.trans g2, g3⟩
      · rintro ⟨p, hp', v', w', g1, g2, g3⟩
        rcases List.mem_cons.mp hp' with rfl | hp'
        · left
          simp only at g1 g2
          rw [hev] at g1
          rw [hw] at g2
          cases g1
          cases g2
          exact g3
        · exact Or.inr ⟨p, hp', v', w', (hval p hp').trans g1, (hkey p hp').trans g2, g3⟩

/-! ### the condition -/

theorem look_seen (n : Json.Node) (k : Bytes) : look (fieldsIn n) k = match Json.seen n [.name k] with
    | some (.value v) => .scalar v
    | some _ => .container
    | none => .missing := by
  cases n with
  | obj fs =>
    rw [fieldsIn, look_fields]
    unfold Json.seen Json.reach
    simp only
    cases Json.lookN fs k with
    | none => rfl
    | some c => cases c <;> rfl
  | arr xs => rfl
  | leaf v => rfl
  | del => rfl

/-- A condition of two documents sees the columns it names only. -/
theorem sided_congr (rx : Bytes → Bytes → Res Bool) (tl ts : Bytes) (hne : tl ≠ ts) (l l' r : Row) (c : Cond) (hp : c.sided tl ts)
    (h : ∀ k ∈ c.colsOf tl, look l' k = look l k) :
    (c.ready rx (pairOf tl l r) → c.ready rx (pairOf tl l' r)) ∧ c.truth rx (pairOf tl l' r) (asDoc l') = c.truth rx (pairOf tl l r) (asDoc l) := by
  induction c with
  | op o x y =>
    cases o with
    | like => exact absurd hp (by cases x <;> cases y <;> simp [Cond.sided])
    | other => exact absurd hp (by cases x <;> cases y <;> simp [Cond.sided])
    | regexp => exact absurd hp (by cases x <;> cases y <;> simp [Cond.sided])
    | cmp c =>
      cases x with
      | expr f => exact absurd hp (by cases y <;> simp [Cond.sided])
      | lit f => exact absurd hp (by cases y <;> simp [Cond.sided])
      | col t k =>
        cases y with
        | expr f => exact absurd hp (by simp [Cond.sided])
        | lit li =>
          obtain ⟨rfl, hnull⟩ := hp
          have e : pairOf tl l' r (some tl) k = pairOf tl l r (some tl) k := by
            simp only [pairOf, if_true]
            exact h k (by simp [Cond.colsOf, Cond.colsOf.side])
          refine ⟨?_, by simp only [Cond.truth, Operand.value, e]⟩
          simp only [Cond.ready, e]
          rintro ⟨a, h1, h2⟩
          exact ⟨a, h1, by cases li <;> exact h2⟩
        | col t' k' =>
          obtain ⟨rfl, rfl⟩ := hp
          have e : pairOf tl l' r (some tl) k = pairOf tl l r (some tl) k := by
            simp only [pairOf, if_true]
            exact h k (by simp [Cond.colsOf, Cond.colsOf.side])
          have e' : pairOf tl l' r (some ts) k' = pairOf tl l r (some ts) k' := by
            unfold pairOf
            rw [if_neg (fun h => hne (Option.some.inj h).symm), if_neg (fun h => hne (Option.some.inj h).symm)]
          refine ⟨?_, by simp only [Cond.truth, Operand.value, e, e']⟩
          simp only [Cond.ready, Comparable, e, e']
          exact fun h => h
  | and a b iha ihb =>
    obtain ⟨h1, h2⟩ := iha hp.1 fun k hk => h k (List.mem_append_left _ hk)
    obtain ⟨h3, h4⟩ := ihb hp.2 fun k hk => h k (List.mem_append_right _ hk)
    exact ⟨fun g => ⟨h1 g.1, h3 g.2⟩, by simp only [Cond.truth, h2, h4]⟩
  | or a b iha ihb =>
    obtain ⟨h1, h2⟩ := iha hp.1 fun k hk => h k (List.mem_append_left _ hk)
    obtain ⟨h3, h4⟩ := ihb hp.2 fun k hk => h k (List.mem_append_right _ hk)
    exact ⟨fun g => ⟨h1 g.1, h3 g.2⟩, by simp only [Cond.truth, h2, h4]⟩
  | not c ih =>
    have hp' : c.sided tl ts := by cases c <;> first | exact absurd hp id | exact hp
    obtain ⟨h1, h2⟩ := ih hp' h
    exact ⟨h1, by simp only [Cond.truth, h2]⟩
  | kind => exact absurd hp id
  | func => exact absurd hp id
  | node => exact absurd hp id

/-- The predicate the condition is translated to decides it. -/
theorem pred_sided (rx : Bytes → Bytes → Res Bool) (tl ts : Bytes) (hne : tl ≠ ts) (c : Cond) (hp : c.sided tl ts) (ps : List V) (hc : ps.length + c.consts ≤ 2 ^ 16) :
    ∃ f ext, tr c ps = .ok (f, ps ++ ext) ∧ ∀ l r : Doc, c.ready rx (pairOf tl l.fields r.fields) →
      pred2 ⟨paramOf (ps ++ ext), rx⟩ f l r = .ok (decide (Joins rx tl c l.fields r.fields)) := by
  obtain ⟨f, ext, h1⟩ := tr_sided tl ts c hp ps
  refine ⟨f, ext, h1, ?_⟩
  intro l r hr
  obtain ⟨g, e', k1, -, -, k4⟩ := tr_sound true (fun ps => checkLeaf ⟨paramOf ps, rx⟩ (asDoc l.fields) (some (asDoc r.fields)))
    (PairOp rx tl ts l.fields r.fields) (fun o x y => o.apply rx (x.value (pairOf tl l.fields r.fields) (asDoc l.fields))
      (y.value (pairOf tl l.fields r.fields) (asDoc l.fields)))
    (fun o x y ps => pair_op rx tl ts hne _ _ o x y ps) c ps (good_pair rx tl ts _ _ c hp hr) hc
  obtain ⟨rfl, he⟩ := tr_det h1 k1
  rw [he]
  obtain ⟨b, hb, hrel⟩ := k4 _ (List.prefix_refl _)
  rw [Rel, if_pos rfl, ← truth_eq] at hrel
  have e : checkLeaf ⟨paramOf (ps ++ e'), rx⟩ (asDoc l.fields) (some (asDoc r.fields)) = checkLeaf ⟨paramOf (ps ++ e'), rx⟩ l (some r) := by
    funext a
    rcases a with ⟨c, k, n | k'⟩ | ⟨k, n | k'⟩ | _ | _ <;> rfl
  have hd : decide (Joins rx tl c l.fields r.fields) = b := by
    have e : Joins rx tl c l.fields r.fields ↔ b = true := by
      unfold Joins
      rw [hrel, Option.some.injEq]
    rw [Bool.eq_iff_iff, decide_eq_true_iff, e]
  unfold pred2
  rw [← e, hd]
  exact hb

/-! ### the loops -/

theorem at_most_one {α : Type} (P : α → Prop) [DecidablePred P] (l : List α) (h : (l.filter fun r => decide (P r)).length ≤ 1) :
    (∀ r ∈ l, ¬ P r) ∨ ∃ xs r ys, l = xs ++ r :: ys ∧ P r ∧ (∀ x ∈ xs, ¬ P x) ∧ ∀ y ∈ ys, ¬ P y := by
  induction l with
  | nil => left; simp
  | cons a l ih =>
    by_cases ha : P a
    · rw [List.filter_cons_of_pos (by simpa using ha), List.length_cons] at h
      have : (l.filter fun r => decide (P r)) = [] := List.eq_nil_of_length_eq_zero (by omega)
      right
      refine ⟨[], a, l, rfl, ha, by simp, ?_⟩
      intro y hy hP
      have := List.filter_eq_nil_iff.mp this y hy
      simp [hP] at this
    · rw [List.filter_cons_of_neg (by simpa using ha)] at h
      rcases ih h with h | ⟨xs, r, ys, rfl, h1, h2, h3⟩
      · left
        intro r hr
        rcases List.mem_cons.mp hr with rfl | hr
        · exact ha
        · exact h r hr
      · right
        refine ⟨a :: xs, r, ys, rfl, h1, ?_, h3⟩
        intro x hx
        rcases List.mem_cons.mp hx with rfl | hx
        · exact ha
        · exact h2 x hx

theorem fromOne_none (c : Update.Ctx) (p : UDoc → UDoc → Res Bool) (es : List Update.Expr) (d : UDoc) (rs : List UDoc) (h : ∀ r ∈ rs, p d r = .ok false) :
    fromOne c p es d rs = .ok (es, d, []) := by
  induction rs with
  | nil => rfl
  | cons r rs ih =>
    unfold fromOne
    rw [h r List.mem_cons_self]
    exact ih fun x hx => h x (List.mem_cons_of_mem _ hx)

theorem fromOne_one (c : Update.Ctx) (p : UDoc → UDoc → Res Bool) (es : List Update.Expr) (d : UDoc) (n' : Json.Node) (b : Bool) (r : UDoc) (ys xs : List UDoc)
    (h1 : ∀ r ∈ xs, p d r = .ok false) (h2 : p d r = .ok true) (h3 : Update.runAll c (some r.node) es d.node = .ok (es, n', b))
    (h4 : ∀ r ∈ ys, p ⟨d.id, n'⟩ r = .ok false) :
    fromOne c p es d (xs ++ r :: ys) = .ok (es, ⟨d.id, n'⟩, if b then [d.id] else []) := by
  induction xs with
  | nil =>
    simp only [List.nil_append, fromOne, h2, Res.bind, if_true, h3, fromOne_none c p es _ ys h4]
  | cons x xs ih =>
    rw [List.cons_append, fromOne, h1 x List.mem_cons_self]
    exact ih fun x hx => h1 x (List.mem_cons_of_mem _ hx)

theorem fromAll_spec (c : Update.Ctx) (p : UDoc → UDoc → Res Bool) (other : List UDoc) (es : List Update.Expr) (R : UDoc → UDoc → List Nat → Prop) (ds : List UDoc)
    (h : ∀ d ∈ ds, ∃ d' ids, fromOne c p es d other = .ok (es, d', ids) ∧ R d d' ids) :
    ∃ out : List (UDoc × List Nat), fromAll c p other es ds = .ok (out.map Prod.fst, (out.map Prod.snd).flatten) ∧
      List.Forall₂ (fun d x => R d x.1 x.2) ds out := by
  induction ds with
  | nil => exact ⟨[], rfl, .nil⟩
  | cons d ds ih =>
    obtain ⟨d', ids, h1, h2⟩ := h d List.mem_cons_self
    obtain ⟨out, k1, k2⟩ := ih fun x hx => h x (List.mem_cons_of_mem _ hx)
    refine ⟨(d', ids) :: out, ?_, .cons h2 k2⟩
    unfold fromAll
    rw [h1]
    simp only [Res.bind]
    rw [k1]
    rfl

end Verif.Sql
