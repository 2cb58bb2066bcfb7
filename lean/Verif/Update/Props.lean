import Verif.Update.Spec
import Verif.Json.Props
import Verif.Query.AggProps
/-!
C34: updates.
-/
namespace Verif.Update

open Verif.DocVal Verif.Num Verif.PhysKey Verif.LogVal Verif.Json Verif.Query

/-! ### reading -/

theorem runField_reads (k : Bytes) (s : Side) (h : s ≠ .undefined) (n : Node) (src : Option Node) (o : Out)
    (e : runField k s n src = .ok o) : o.expr = .field k s ∧ o.doc = n ∧ o.modified = false := by
  cases s with
  | undefined => exact absurd rfl h
  | own =>
    simp only [runField] at e
    cases hv : getValue n k with
    | ok v => rw [hv] at e; cases e; exact ⟨rfl, rfl, rfl⟩
    | throws => rw [hv] at e; cases e
    | ub => rw [hv] at e; cases e
    | diverges => rw [hv] at e; cases e
  | other =>
    cases src with
    | none => cases e
    | some d =>
      simp only [runField] at e
      cases hv : getValue d k with
      | ok v => rw [hv] at e; cases e; exact ⟨rfl, rfl, rfl⟩
      | throws => rw [hv] at e; cases e
      | ub => rw [hv] at e; cases e
      | diverges => rw [hv] at e; cases e

/-- C34: an expression that only reads leaves the document and itself as they are, and its output is its meaning. -/
theorem C34_operand (c : Ctx) (n : Node) (src : Option Node) (e : Expr) (h : Reads e) :
    (∀ o, exec c n src e = .ok o → o.expr = e ∧ o.doc = n ∧ o.modified = false ∧ Means c n src e o.value) ∧
    ∀ v, Means c n src e v → exec c n src e = .ok ⟨e, n, false, v⟩ := by
  induction h with
  | param id =>
    constructor
    · intro o ho
      unfold exec at ho
      cases hp : c.params id with
      | none => rw [hp] at ho; cases ho
      | some v => rw [hp] at ho; cases ho; exact ⟨rfl, rfl, rfl, .param id v hp⟩
    · intro v hv
      cases hv with
      | param _ w hp => unfold exec; rw [hp]
  | field k s hs =>
    constructor
    · intro o ho
      unfold exec at ho
      obtain ⟨h1, h2, h3⟩ := runField_reads k s hs n src o ho
      refine ⟨h1, h2, h3, ?_⟩
      cases s with
      | undefined => exact absurd rfl hs
      | own =>
        simp only [runField] at ho
        cases hv : getValue n k with
        | ok v => rw [hv] at ho; cases ho; exact .own k v hv
        | throws => rw [hv] at ho; cases ho
        | ub => rw [hv] at ho; cases ho
        | diverges => rw [hv] at ho; cases ho
      | other =>
        cases src with
        | none => cases ho
        | some d =>
          simp only [runField] at ho
          cases hv : getValue d k with
          | ok v => rw [hv] at ho; cases ho; exact .other k d v rfl hv
          | throws => rw [hv] at ho; cases ho
          | ub => rw [hv] at ho; cases ho
          | diverges => rw [hv] at ho; cases ho
    · intro v hv
      unfold exec
      cases hv with
      | own _ w hw => simp only [runField, hw, Res.bind]
      | other _ d w hd hw => subst hd; simp only [runField, hw, Res.bind]
  | bin o l r hl hr ihl ihr =>
    constructor
    · intro x hx
      unfold exec at hx
      simp only [execOpt] at hx
      cases el : exec c n src l with
      | ok a =>
        rw [el] at hx
        simp only [Res.bind] at hx
        obtain ⟨a1, a2, a3, a4⟩ := ihl.1 a el
        rw [a2] at hx
        cases er : exec c n src r with
        | ok b =>
          rw [er] at hx
          simp only at hx
          obtain ⟨b1, b2, b3, b4⟩ := ihr.1 b er
          cases hb : binary c.math o a.value b.value with
          | ok v =>
            rw [hb] at hx
            cases hx
            exact ⟨by rw [a1, b1], b2, rfl, .bin o l r _ _ v a4 b4 hb⟩
          | throws => rw [hb] at hx; cases hx
          | ub => rw [hb] at hx; cases hx
          | diverges => rw [hb] at hx; cases hx
        | throws => rw [er] at hx; cases hx
        | ub => rw [er] at hx; cases hx
        | diverges => rw [er] at hx; cases hx
      | throws => rw [el] at hx; cases hx
      | ub => rw [el] at hx; cases hx
      | diverges => rw [el] at hx; cases hx
    · intro v hv
      cases hv with
      | bin _ _ _ x y _ hx hy hb =>
        unfold exec
        simp only [execOpt, ihl.2 x hx, ihr.2 y hy, Res.bind, hb]
  | un o l hl ihl =>
    constructor
    · intro x hx
      unfold exec at hx
      simp only [execOpt] at hx
      cases el : exec c n src l with
      | ok a =>
        rw [el] at hx
        simp only [Res.bind] at hx
        obtain ⟨a1, a2, a3, a4⟩ := ihl.1 a el
        cases hb : unary c.math o a.value with
        | ok v =>
          rw [hb] at hx
          cases hx
          exact ⟨by rw [a1], a2, rfl, .un o l _ v a4 hb⟩
        | throws => rw [hb] at hx; cases hx
        | ub => rw [hb] at hx; cases hx
        | diverges => rw [hb] at hx; cases hx
      | throws => rw [el] at hx; cases hx
      | ub => rw [el] at hx; cases hx
      | diverges => rw [el] at hx; cases hx
    · intro v hv
      cases hv with
      | un _ _ x _ hx hb =>
        unfold exec
        simp only [execOpt, ihl.2 x hx, Res.bind, hb]

/-! ### assigning -/

theorem getAs_at {α : Type} (zero : α) (get : V → Res α) (n : Node) (t : Loc) (h : Json.Fits n t) :
    (seen n t = none → getAs zero get n (pointer t) = .ok zero) ∧
    ∀ w x, seen n t = some (.value w) → get w = .ok x → getAs zero get n (pointer t) = .ok x := by
  have ha := C29_address n t h
  unfold getAs
  rw [ha]
  unfold seen
  cases hr : reach n t with
  | none => exact ⟨fun _ => rfl, fun w x hw => by cases hw⟩
  | some d =>
    refine ⟨fun hn => (by cases hn), ?_⟩
    intro w x hw hg
    cases d with
    | leaf v =>
      have : v = w := by cases hw; rfl
      subst this
      simp only [answer, Res.bind, hg]
    | obj _ => cases hw
    | arr _ => cases hw
    | del => cases hw

theorem put_sound (v : V) (h : Sound v) : put (kept v) = .ok (kept v) := by
  cases v with
  | bool b => exact C48_roundtrip_partial ⟨[], []⟩ 0 (.bool b) [] trivial trivial
  | int t v =>
    have hk : kept (.int t v) = .int (if t.signed then .i64 else .u64) v := rfl
    rw [hk]
    cases ht : t.signed with
    | true =>
      rw [if_pos rfl]
      apply put_i64
      have := h.1
      unfold ITy.fits at this ⊢
      cases t <;> simp [ITy.signed, ITy.bits] at this ht ⊢ <;> omega
    | false =>
      rw [if_neg (by simp)]
      have h2 := h.2 ht
      have := h.1
      apply put_u64 v _ h2
      unfold ITy.fits at this
      cases t <;> simp [ITy.signed, ITy.bits] at this ht ⊢ <;> omega
  | big v => exact C48_roundtrip_partial ⟨[], []⟩ 0 (.big v) [] h trivial
  | double b => exact put_double b
  | str s => exact C48_roundtrip_partial ⟨[], []⟩ 0 (.str s) [] trivial ⟨h, by decide⟩
  | na => exact absurd h id
  | float b => exact absurd h id
  | other c => exact absurd h id

theorem fits64 (t : ITy) (v : Int) (h : t.fits v) : ITy.fits (if t.signed then .i64 else .u64) v := by
  unfold ITy.fits at h ⊢
  cases t <;> simp [ITy.signed, ITy.bits] at h ⊢ <;> omega

/-- The result of an assignment that compared `old` with `x`. -/
theorem assign_result (n n' : Node) (l0 : Loc) (k : Json.Key) (v : V) (hf : Json.Fits n (l0 ++ [k])) (hr : InRange n l0 k)
    (hset : setAt n (pointer (l0 ++ [k])) (.leaf (kept v)) = .ok (n', none)) (hv : Sound v)
    {α : Type} (zero : α) (get : V → Res α) (neq : α → α → Bool) (back : α → V) (x old : α)
    (hx : get v = .ok x) (ho : getAs zero get n (pointer (l0 ++ [k])) = .ok old) (hb : back x = kept v) :
    ∃ m, assignIf zero get neq back n (pointer (l0 ++ [k])) v = .ok (m, neq old x) ∧
      (neq old x = true → ∀ l, seen m l = withAt n (l0 ++ [k]) (.leaf (kept v)) l) ∧ (neq old x = false → m = n) := by
  unfold assignIf
  rw [hx]
  show ∃ m, (getAs zero get n (pointer (l0 ++ [k]))).bind (fun old => if neq old x then assignV n (pointer (l0 ++ [k])) (back x) else .ok (n, false)) = _ ∧ _
  rw [ho]
  simp only [Res.bind]
  cases hn : neq old x with
  | false => exact ⟨n, by rw [if_neg (by simp)], fun h => (by cases h), fun _ => rfl⟩
  | true =>
    refine ⟨n', ?_, ?_, fun h => by cases h⟩
    · rw [if_pos rfl]
      unfold assignV
      rw [hb, put_sound v hv]
      simp only [Res.bind]
      rw [hset]
    · intro _
      obtain ⟨t, _, h2, h3⟩ := C30_set n _ _ n' hset
      rw [h3 l0 k hf hr rfl] at h2
      exact h2

/-- The value in the place, or none. -/
def Before (n : Node) (t : Loc) (old : Option V) : Prop :=
  match old with
  | none => seen n t = none
  | some w => seen n t = some (.value w)

/-- Assigning `v` over `old` is a change. -/
def Changes (old : Option V) (v : V) : Prop :=
  match old with
  | none => ¬ Zero v
  | some w => ¬ Same w v

theorem updateAt_spec (wf : UInt32 → UInt64) (n : Node) (l0 : Loc) (k : Json.Key) (old : Option V) (v : V)
    (hf : Json.Fits n (l0 ++ [k])) (hr : InRange n l0 k) (hc : seen n l0 = some .object ∨ seen n l0 = some .array) (hv : Sound v)
    (hb : Before n (l0 ++ [k]) old) (hk : ∀ w, old = some w → Kin w v ∧ (∀ b, w = .double b → decode64 b ≠ .nan)) :
    ∃ m b, updateAt wf n (pointer (l0 ++ [k])) (some v) = .ok (m, b) ∧ (b = true ↔ Changes old v) ∧
      (b = true → ∀ l, seen m l = withAt n (l0 ++ [k]) (.leaf (kept v)) l) ∧ (b = false → m = n) := by
  obtain ⟨n', e, hset, he, _⟩ := C30_accepted n l0 k (.leaf (kept v)) hf
  have he' := he.mpr hc
  subst he'
  have go : ∀ {α : Type} (zero : α) (get : V → Res α) (neq : α → α → Bool) (back : α → V) (x old' : α), get v = .ok x →
      getAs zero get n (pointer (l0 ++ [k])) = .ok old' → back x = kept v → (neq old' x = true ↔ Changes old v) →
      ∃ m b, assignIf zero get neq back n (pointer (l0 ++ [k])) v = .ok (m, b) ∧ (b = true ↔ Changes old v) ∧
        (b = true → ∀ l, seen m l = withAt n (l0 ++ [k]) (.leaf (kept v)) l) ∧ (b = false → m = n) := by
    intro α zero get neq back x old' h1 h2 h3 h4
    obtain ⟨m, m1, m2, m3⟩ := assign_result n n' l0 k v hf hr hset hv zero get neq back x old' h1 h2 h3
    exact ⟨m, neq old' x, m1, h4, m2, m3⟩
  have ga := fun {α : Type} (zero : α) (get : V → Res α) => getAs_at zero get n (l0 ++ [k]) hf
  cases v with
  | na => exact absurd hv id
  | float b => exact absurd hv id
  | other b => exact absurd hv id
  | bool b =>
    cases old with
    | none => exact go false V.getBool (fun x y => x != y) .bool b false rfl ((ga false V.getBool).1 hb) rfl (by simp [Changes, Zero])
    | some w =>
      have kw := (hk w rfl).1
      cases w with
      | bool a => exact go false V.getBool (fun x y => x != y) .bool b a rfl ((ga false V.getBool).2 _ a hb rfl) rfl (by simp [Changes, Same])
      | _ => exact absurd kw id
  | big b =>
    cases old with
    | none => exact go 0 V.getBig (fun x y => x != y) .big b 0 rfl ((ga 0 V.getBig).1 hb) rfl (by simp [Changes, Zero, @eq_comm _ (0 : Int)])
    | some w =>
      have kw := (hk w rfl).1
      cases w with
      | big a => exact go 0 V.getBig (fun x y => x != y) .big b a rfl ((ga 0 V.getBig).2 _ a hb rfl) rfl (by simp [Changes, Same])
      | _ => exact absurd kw id
  | str b =>
    cases old with
    | none => exact go [] V.getStr (fun x y => x != y) .str b [] rfl ((ga [] V.getStr).1 hb) rfl (by simp [Changes, Zero, @eq_comm _ ([] : Bytes)])
    | some w =>
      have kw := (hk w rfl).1
      cases w with
      | str a => exact go [] V.getStr (fun x y => x != y) .str b a rfl ((ga [] V.getStr).2 _ a hb rfl) rfl (by simp [Changes, Same])
      | _ => exact absurd kw id
  | double b =>
    have hb0 : decode64 b ≠ .nan := hv
    cases old with
    | none =>
      refine go (.fin 0) V.getDouble fneq (fun _ => .double b) (decode64 b) (.fin 0) rfl ((ga _ V.getDouble).1 hb) rfl ?_
      unfold fneq
      simp [Changes, Zero, hb0, @eq_comm _ (FVal.fin 0)]
    | some w =>
      have kw := (hk w rfl).1
      cases w with
      | double a =>
        have ha0 := (hk _ rfl).2 a rfl
        refine go (.fin 0) V.getDouble fneq (fun _ => .double b) (decode64 b) (decode64 a) rfl ((ga _ V.getDouble).2 _ _ hb rfl) rfl ?_
        unfold fneq
        simp [Changes, Same, ha0, hb0]
      | _ => exact absurd kw id
  | int t b =>
    have f1 := hv.1
    have f2 := fits64 t b f1
    cases ht : t.signed with
    | true =>
      rw [ht, if_pos rfl] at f2
      have hu : updateAt wf n (pointer (l0 ++ [k])) (some (.int t b)) = assignIf 0 (V.getInt .i64) (fun x y => x != y) (.int .i64) n (pointer (l0 ++ [k])) (.int t b) := by
        unfold updateAt; simp only; rw [ht, if_pos rfl]
      rw [hu]
      have hk' : kept (.int t b) = .int .i64 b := by show V.int (if t.signed then .i64 else .u64) b = _; rw [ht, if_pos rfl]
      cases old with
      | none => exact go 0 (V.getInt .i64) (fun x y => x != y) (.int .i64) b 0 (castInt_fits t .i64 b f1 f2) ((ga 0 _).1 hb) hk'.symm (by simp [Changes, Zero, @eq_comm _ (0 : Int)])
      | some w =>
        have kw := (hk w rfl).1
        cases w with
        | int s a =>
          have g2 := fits64 s a kw.2
          rw [kw.1, ht, if_pos rfl] at g2
          exact go 0 (V.getInt .i64) (fun x y => x != y) (.int .i64) b a (castInt_fits t .i64 b f1 f2)
            ((ga 0 _).2 _ a hb (castInt_fits s .i64 a kw.2 g2)) hk'.symm (by simp [Changes, Same])
        | _ => exact absurd kw id
    | false =>
      rw [ht, if_neg (by simp)] at f2
      have hu : updateAt wf n (pointer (l0 ++ [k])) (some (.int t b)) = assignIf 0 (V.getInt .u64) (fun x y => x != y) (.int .u64) n (pointer (l0 ++ [k])) (.int t b) := by
        unfold updateAt; simp only; rw [ht, if_neg (by simp)]
      rw [hu]
      have hk' : kept (.int t b) = .int .u64 b := by show V.int (if t.signed then .i64 else .u64) b = _; rw [ht, if_neg (by simp)]
      cases old with
      | none => exact go 0 (V.getInt .u64) (fun x y => x != y) (.int .u64) b 0 (castInt_fits t .u64 b f1 f2) ((ga 0 _).1 hb) hk'.symm (by simp [Changes, Zero, @eq_comm _ (0 : Int)])
      | some w =>
        have kw := (hk w rfl).1
        cases w with
        | int s a =>
          have g2 := fits64 s a kw.2
          rw [kw.1, ht, if_neg (by simp)] at g2
          exact go 0 (V.getInt .u64) (fun x y => x != y) (.int .u64) b a (castInt_fits t .u64 b f1 f2)
            ((ga 0 _).2 _ a hb (castInt_fits s .u64 a kw.2 g2)) hk'.symm (by simp [Changes, Same])
        | _ => exact absurd kw id

/-- C34 for one assignment to a place that is empty or holds a value of the same kind: the result is `modified` if and
only if this is a change, then the place holds the value and all others what they held, otherwise the document is as it
was.  Missing from the full claim: the cases of the `_fails` theorems below. -/
theorem C34_set_partial (c : Ctx) (n : Node) (src : Option Node) (e : Expr) (he : Reads e) (l0 : Loc) (k : Json.Key) (old : Option V) (v : V)
    (hm : Means c n src e (some v)) (hf : Json.Fits n (l0 ++ [k])) (hr : InRange n l0 k)
    (hc : seen n l0 = some .object ∨ seen n l0 = some .array) (hv : Sound v)
    (hb : Before n (l0 ++ [k]) old) (hk : ∀ w, old = some w → Kin w v ∧ (∀ b, w = .double b → decode64 b ≠ .nan)) :
    ∃ m b, exec c n src (.set (pointer (l0 ++ [k])) (some e)) = .ok ⟨.set (pointer (l0 ++ [k])) (some e), m, b, none⟩ ∧
      (b = true ↔ Changes old v) ∧ (b = true → ∀ l, seen m l = withAt n (l0 ++ [k]) (.leaf (kept v)) l) ∧ (b = false → m = n) := by
  obtain ⟨m, b, h1, h2⟩ := updateAt_spec c.widenF n l0 k old v hf hr hc hv hb hk
  refine ⟨m, b, ?_, h2⟩
  unfold exec
  simp only [execOpt, (C34_operand c n src e he).2 _ hm, Res.bind, h1]

/-! ### several assignments -/

theorem updateAt_change (wf : UInt32 → UInt64) (n : Node) (ptr : Bytes) (v : Option V) (m : Node) (b : Bool)
    (h : updateAt wf n ptr v = .ok (m, b)) : (b = false ∧ m = n) ∨ (b = true ∧ ∃ w e, setAt n ptr (.leaf w) = .ok (m, e)) := by
  have aV : ∀ w, assignV n ptr w = .ok (m, b) → b = true ∧ ∃ w e, setAt n ptr (.leaf w) = .ok (m, e) := by
    intro w hw
    unfold assignV at hw
    cases hp : put w with
    | ok u =>
      rw [hp] at hw
      simp only [Res.bind] at hw
      cases hs : setAt n ptr (.leaf u) with
      | ok r => rw [hs] at hw; cases hw; exact ⟨rfl, u, r.2, hs⟩
      | throws => rw [hs] at hw; cases hw
      | ub => rw [hs] at hw; cases hw
      | diverges => rw [hs] at hw; cases hw
    | throws => rw [hp] at hw; cases hw
    | ub => rw [hp] at hw; cases hw
    | diverges => rw [hp] at hw; cases hw
  have aI : ∀ {α : Type} (zero : α) (get : V → Res α) (neq : α → α → Bool) (back : α → V) (w : V),
      assignIf zero get neq back n ptr w = .ok (m, b) → (b = false ∧ m = n) ∨ (b = true ∧ ∃ w e, setAt n ptr (.leaf w) = .ok (m, e)) := by
    intro α zero get neq back w hw
    unfold assignIf at hw
    cases hg : noexc (get w) with
    | ok x =>
      rw [hg] at hw
      simp only [Res.bind] at hw
      cases ho : getAs zero get n ptr with
      | ok o =>
        rw [ho] at hw
        simp only at hw
        by_cases hn : neq o x = true
        · rw [if_pos hn] at hw; exact .inr (aV _ hw)
        · rw [if_neg hn] at hw; cases hw; exact .inl ⟨rfl, rfl⟩
      | throws => rw [ho] at hw; cases hw
      | ub => rw [ho] at hw; cases hw
      | diverges => rw [ho] at hw; cases hw
    | throws => rw [hg] at hw; cases hw
    | ub => rw [hg] at hw; cases hw
    | diverges => rw [hg] at hw; cases hw
  cases v with
  | none => cases h
  | some v =>
    cases v with
    | na => cases h; exact .inl ⟨rfl, rfl⟩
    | other _ => cases h; exact .inl ⟨rfl, rfl⟩
    | bool _ => exact aI _ _ _ _ _ h
    | big _ => exact aI _ _ _ _ _ h
    | float _ => exact aI _ _ _ _ _ h
    | double _ => exact aI _ _ _ _ _ h
    | str _ => exact aI _ _ _ _ _ h
    | int t v =>
      unfold updateAt at h
      simp only at h
      split at h
      · exact aI _ _ _ _ _ h
      · exact aI _ _ _ _ _ h

theorem exec_assigns (c : Ctx) (n : Node) (src : Option Node) (k : Bytes) (e : Expr) (he : Reads e) (o : Out)
    (h : exec c n src (.set k (some e)) = .ok o) : o.expr = .set k (some e) ∧ ∃ v, updateAt c.widenF n k v = .ok (o.doc, o.modified) := by
  unfold exec at h
  simp only [execOpt] at h
  cases el : exec c n src e with
  | ok a =>
    rw [el] at h
    simp only [Res.bind] at h
    obtain ⟨a1, a2, _, _⟩ := (C34_operand c n src e he).1 a el
    cases hu : updateAt c.widenF a.doc k a.value with
    | ok r =>
      rw [hu] at h
      cases h
      refine ⟨by rw [a1], a.value, ?_⟩
      rw [← a2]; exact hu
    | throws => rw [hu] at h; cases h
    | ub => rw [hu] at h; cases h
    | diverges => rw [hu] at h; cases h
  | throws => rw [el] at h; cases h
  | ub => rw [el] at h; cases h
  | diverges => rw [el] at h; cases h

theorem runAll_cons (c : Ctx) (src : Option Node) (e : Expr) (es : List Expr) (n : Node) (r : List Expr × Node × Bool)
    (h : runAll c src (e :: es) n = .ok r) : ∃ o q, exec c n src e = .ok o ∧ runAll c src es o.doc = .ok q ∧ r = (o.expr :: q.1, q.2.1, o.modified || q.2.2) := by
  unfold runAll at h
  cases he : exec c n src e with
  | ok o =>
    rw [he] at h
    simp only [Res.bind] at h
    cases hq : runAll c src es o.doc with
    | ok q => rw [hq] at h; cases h; exact ⟨o, q, rfl, hq, rfl⟩
    | throws => rw [hq] at h; cases h
    | ub => rw [hq] at h; cases h
    | diverges => rw [hq] at h; cases h
  | throws => rw [he] at h; cases h
  | ub => rw [he] at h; cases h
  | diverges => rw [he] at h; cases h

/-- C34: the assignments are applied in order, each to the document the ones before it left. -/
theorem C34_order (c : Ctx) (src : Option Node) (es fs : List Expr) (n n1 n2 : Node) (es' fs' : List Expr) (b1 b2 : Bool)
    (h1 : runAll c src es n = .ok (es', n1, b1)) (h2 : runAll c src fs n1 = .ok (fs', n2, b2)) :
    runAll c src (es ++ fs) n = .ok (es' ++ fs', n2, b1 || b2) := by
  induction es generalizing n es' b1 with
  | nil => cases h1; simpa using h2
  | cons e es ih =>
    obtain ⟨o, q, q1, q2, q3⟩ := runAll_cons c src e es n _ h1
    cases q3
    have := ih o.doc q.1 q.2.2 (by rw [q2]) 
    rw [List.cons_append]
    unfold runAll
    rw [q1]
    simp only [Res.bind]
    rw [this]
    simp [Bool.or_assoc]

/-- C34: an update that reports no change has changed nothing. -/
theorem C34_unmodified (c : Ctx) (src : Option Node) (es es' : List Expr) (n n' : Node) (ha : ∀ e ∈ es, Assigns e)
    (h : runAll c src es n = .ok (es', n', false)) : n' = n := by
  induction es generalizing n es' with
  | nil => cases h; rfl
  | cons e es ih =>
    obtain ⟨o, q, q1, q2, q3⟩ := runAll_cons c src e es n _ h
    simp only [Prod.mk.injEq, Bool.false_eq, Bool.or_eq_false_iff] at q3
    obtain ⟨_, e1, m1, m2⟩ := q3
    cases ha e List.mem_cons_self with
    | set k e he =>
      obtain ⟨_, v, hv⟩ := exec_assigns c n src k e he o q1
      rcases updateAt_change _ _ _ _ _ _ hv with ⟨_, hd⟩ | ⟨ht, _⟩
      · have := ih q.1 o.doc (fun e he => ha e (List.mem_cons_of_mem _ he)) (by rw [q2, e1, ← m2])
        rw [this, hd]
      · rw [m1] at ht; cases ht

/-! ### places that are not assigned -/

/-- A path of names through the document meets no array. -/
def Clear (n : Node) (l : List Bytes) : Prop := ∀ p q, l = p ++ q → q ≠ [] → seen n (p.map Key.name) ≠ some .array

theorem clear_fits : ∀ (l : List Bytes) (n : Node), Clear n l → Json.Fits n (l.map Key.name) := by
  intro l
  induction l with
  | nil => intro n _; trivial
  | cons k l ih =>
    intro n h
    cases n with
    | leaf v => trivial
    | del => trivial
    | arr xs => exact absurd rfl (h [] (k :: l) rfl (by simp))
    | obj fs =>
      intro d hd
      apply ih d
      intro p q e hq
      have := h (k :: p) q (by rw [e]; rfl) hq
      rw [List.map_cons, seen_obj, hd] at this
      exact this

theorem setAt_seen (n : Node) (key : List Bytes) (hne : key ≠ []) (hcl : Clear n key) (w m : Node) (e : Option Err)
    (h : setAt n (pointer (key.map Key.name)) w = .ok (m, e)) :
    m = n ∨ ∀ l, seen m l = withAt n (key.map Key.name) w l := by
  cases e with
  | some e => exact .inl ((C30_failed n _ w m e).1 h)
  | none =>
    obtain ⟨t, _, h2, h3⟩ := C30_set n _ w m h
    right
    rcases List.eq_nil_or_concat key with rfl | ⟨k0, k, rfl⟩
    · exact absurd rfl hne
    · rw [List.concat_eq_append] at *
      have hf := clear_fits _ n hcl
      have e1 : (k0 ++ [k]).map Key.name = k0.map Key.name ++ [.name k] := by simp
      rw [e1] at hf ⊢ h3
      rw [← h3 (k0.map Key.name) (.name k) hf trivial rfl]
      exact h2

theorem clear_set (n m : Node) (key l : List Bytes) (w : V) (hm : m = n ∨ ∀ l, seen m l = withAt n (key.map Key.name) (.leaf w) l)
    (h : Clear n l) : Clear m l := by
  rcases hm with rfl | hm
  · exact h
  · intro p q e hq
    rw [hm]
    unfold withAt
    split
    · intro hh
      generalize (p.map Key.name).drop (key.map Key.name).length = d at hh
      cases d with
      | nil => cases hh
      | cons a b => cases a <;> cases hh
    · exact h p q e hq

/-- C34: an update changes no place but those its assignments name, and those under them. -/
theorem C34_untouched (c : Ctx) (src : Option Node) (es es' : List Expr) (n n' : Node) (b : Bool) (ha : ∀ e ∈ es, Assigns e)
    (keys : List (List Bytes)) (hk : ∀ e ∈ es, ∃ key ∈ keys, keyOf e = some (pointer (key.map Key.name)))
    (hne : ∀ key ∈ keys, key ≠ []) (hcl : ∀ key ∈ keys, Clear n key) (h : runAll c src es n = .ok (es', n', b))
    (l : Loc) (hl : ∀ key ∈ keys, ¬ key.map Key.name <+: l) : seen n' l = seen n l := by
  induction es generalizing n es' b with
  | nil => cases h; rfl
  | cons e es ih =>
    obtain ⟨o, q, q1, q2, q3⟩ := runAll_cons c src e es n _ h
    have e1 : n' = q.2.1 := by cases q3; rfl
    obtain ⟨key, hkey, hko⟩ := hk e List.mem_cons_self
    have step : o.doc = n ∨ ∃ w, ∀ l, seen o.doc l = withAt n (key.map Key.name) (.leaf w) l := by
      cases ha e List.mem_cons_self with
      | set k e he =>
        obtain ⟨_, v, hv⟩ := exec_assigns c n src k e he o q1
        cases hko
        rcases updateAt_change _ _ _ _ _ _ hv with ⟨_, hd⟩ | ⟨_, w, er, hs⟩
        · exact .inl hd
        · rcases setAt_seen n key (hne key hkey) (hcl key hkey) _ _ _ hs with h | h
          · exact .inl h
          · exact .inr ⟨w, h⟩
    have hcl' : ∀ key' ∈ keys, Clear o.doc key' := by
      intro key' hkey'
      rcases step with hd | ⟨w, hw⟩
      · rw [hd]; exact hcl key' hkey'
      · exact clear_set n o.doc key key' w (.inr hw) (hcl key' hkey')
    rw [ih q.1 o.doc q.2.2 (fun e he => ha e (List.mem_cons_of_mem _ he)) (fun e he => hk e (List.mem_cons_of_mem _ he)) hcl' (by rw [q2, e1])]
    rcases step with hd | ⟨w, hw⟩
    · rw [hd]
    · rw [hw]
      unfold withAt
      rw [if_neg (hl key hkey)]

/-- C34: each document of an update is updated alone. -/
theorem C34_each (c : Ctx) (es : List Expr) (ha : ∀ e ∈ es, Assigns e) (ds : List Node) (rs : List (Node × Bool)) (h : runDocs c es ds = .ok rs) :
    List.Forall₂ (fun d r => runAll c none es d = .ok (es, r.1, r.2)) ds rs := by
  have same : ∀ (es : List Expr) (n : Node) (r : List Expr × Node × Bool), (∀ e ∈ es, Assigns e) → runAll c none es n = .ok r → r.1 = es := by
    intro es
    induction es with
    | nil => intro n r _ h; cases h; rfl
    | cons e es ih =>
      intro n r ha h
      obtain ⟨o, q, q1, q2, q3⟩ := runAll_cons c none e es n _ h
      rw [q3]
      cases ha e List.mem_cons_self with
      | set k e he =>
        rw [(exec_assigns c n none k e he o q1).1, ih o.doc q (fun e he => ha e (List.mem_cons_of_mem _ he)) q2]
  induction ds generalizing rs with
  | nil => cases h; exact .nil
  | cons d ds ih =>
    unfold runDocs at h
    cases hr : runAll c none es d with
    | ok r =>
      rw [hr] at h
      simp only [Res.bind] at h
      have e1 := same es d r ha hr
      rw [e1] at h
      cases hq : runDocs c es ds with
      | ok q =>
        rw [hq] at h
        cases h
        refine .cons ?_ (ih q hq)
        rw [hr, ← e1]
      | throws => rw [hq] at h; cases h
      | ub => rw [hq] at h; cases h
      | diverges => rw [hq] at h; cases h
    | throws => rw [hr] at h; cases h
    | ub => rw [hr] at h; cases h
    | diverges => rw [hr] at h; cases h

/-! ### arithmetic -/

theorem signedOp_exact (o : Bin) (a b r : Int) (ha : ITy.i64.fits a) (h : exact o a b = some r) (hr : ITy.i64.fits r) : signedOp 64 o a b = .ok r := by
  have bound : -2 ^ (64 - 1) ≤ r ∧ r < 2 ^ (64 - 1) := hr
  cases o with
  | add => cases h; exact if_pos bound
  | sub => cases h; exact if_pos bound
  | mult => cases h; exact if_pos bound
  | div =>
    unfold exact at h
    simp only at h
    by_cases hb : b = 0
    · rw [if_pos hb] at h; cases h
    · rw [if_neg hb] at h
      cases h
      unfold signedOp
      simp only
      rw [if_neg hb, if_pos bound]
  | mod =>
    unfold exact at h
    simp only at h
    by_cases hb : b = 0 ∨ b = -1
    · rw [if_pos hb] at h; cases h
    · rw [if_neg hb] at h
      cases h
      unfold signedOp
      simp only
      have hq : -2 ^ (64 - 1) ≤ a.tdiv b ∧ a.tdiv b < 2 ^ (64 - 1) := by
        have ha' : -2 ^ 63 ≤ a ∧ a < 2 ^ 63 := ha
        have h1 : (a.tdiv b).natAbs = a.natAbs / b.natAbs := Int.natAbs_tdiv a b
        have h2 : a.natAbs / b.natAbs ≤ a.natAbs / 2 ∨ b = 1 := by
          by_cases e : b = 1
          · exact .inr e
          · left
            exact Nat.div_le_div_left (by omega) (by omega)
        rcases h2 with h2 | h2
        · rw [← h1] at h2
          constructor <;> omega
        · subst h2
          rw [Int.tdiv_one]
          exact ha'
      rw [if_neg (fun e => hb (.inl e)), if_pos hq]
      simp only [Res.bind]
      rw [Int.tmod_def]
  | exp => cases h
  | and => cases h
  | or => cases h
  | xor => cases h
  | shl => cases h
  | shr => cases h

/-- C34: an operation on two signed integers whose result has 64 bits gives it. -/
theorem C34_arithmetic (m : Math) (o : Bin) (s t : ITy) (a b r : Int) (hs : s.signed = true) (ht : t.signed = true) (ha : s.fits a) (hb : t.fits b)
    (h : exact o a b = some r) (hr : ITy.i64.fits r) : binary m o (some (.int s a)) (some (.int t b)) = .ok (some (.int .i64 r)) := by
  have fa := fits64 s a ha
  have fb := fits64 t b hb
  rw [hs, if_pos rfl] at fa
  rw [ht, if_pos rfl] at fb
  have hexp : o ≠ .exp := by rintro rfl; cases h
  unfold binary
  simp only
  rw [hs, if_pos rfl]
  unfold op2 operand
  simp only
  have g1 : V.getInt .i64 (.int s a) = .ok a := castInt_fits s .i64 a ha fa
  have g2 : V.getInt .i64 (.int t b) = .ok b := castInt_fits t .i64 b hb fb
  rw [g1, g2]
  simp only [noexc, Res.bind, orPow]
  rw [if_neg hexp, signedOp_exact o a b r fa h hr]
  simp only [Res.bind]
  rw [put_i64 r hr]

theorem unsignedOp_exact (o : Bin) (a b r : Int) (ha : ITy.u64.fits a) (hb : ITy.u64.fits b) (h : exact o a b = some r) (hr : ITy.u64.fits r) :
    unsignedOp o a b = .ok r := by
  have bound : 0 ≤ r ∧ r < 2 ^ 64 := hr
  have ba : 0 ≤ a ∧ a < 2 ^ 64 := ha
  have bb : 0 ≤ b ∧ b < 2 ^ 64 := hb
  cases o with
  | add => cases h; exact congrArg Res.ok (Int.emod_eq_of_lt bound.1 bound.2)
  | sub => cases h; exact congrArg Res.ok (Int.emod_eq_of_lt bound.1 bound.2)
  | mult => cases h; exact congrArg Res.ok (Int.emod_eq_of_lt bound.1 bound.2)
  | div =>
    unfold exact at h
    simp only at h
    by_cases hz : b = 0
    · rw [if_pos hz] at h; cases h
    · rw [if_neg hz] at h
      cases h
      unfold unsignedOp
      simp only
      rw [if_neg hz, Int.tdiv_eq_ediv_of_nonneg ba.1]
  | mod =>
    unfold exact at h
    simp only at h
    by_cases hz : b = 0 ∨ b = -1
    · rw [if_pos hz] at h; cases h
    · rw [if_neg hz] at h
      cases h
      unfold unsignedOp
      simp only
      rw [if_neg (fun e => hz (.inl e)), Int.tdiv_eq_ediv_of_nonneg ba.1, Int.emod_def]
  | exp => cases h
  | and => cases h
  | or => cases h
  | xor => cases h
  | shl => cases h
  | shr => cases h

/-- C34: an operation on two unsigned integers whose result is not negative and below 2^56 (`C48_unsigned_fails`) gives it. -/
theorem C34_unsigned (m : Math) (o : Bin) (s t : ITy) (a b r : Int) (hs : s.signed = false) (ht : t.signed = false) (ha : s.fits a) (hb : t.fits b)
    (h : exact o a b = some r) (hr : 0 ≤ r) (hp : r < 2 ^ 56) :
    binary m o (some (.int s a)) (some (.int t b)) = .ok (some (.int .u64 r)) := by
  have fa := fits64 s a ha
  have fb := fits64 t b hb
  rw [hs, if_neg (by simp)] at fa
  rw [ht, if_neg (by simp)] at fb
  have hexp : o ≠ .exp := by rintro rfl; cases h
  unfold binary
  simp only
  rw [hs, if_neg (by simp)]
  unfold op2 operand
  simp only
  have g1 : V.getInt .u64 (.int s a) = .ok a := castInt_fits s .u64 a ha fa
  have g2 : V.getInt .u64 (.int t b) = .ok b := castInt_fits t .u64 b hb fb
  rw [g1, g2]
  simp only [noexc, Res.bind, orPow]
  rw [if_neg hexp, unsignedOp_exact o a b r fa fb h ⟨hr, by show r < 2 ^ 64; omega⟩]
  simp only [Res.bind]
  rw [put_u64 r hr hp]

/-! ### cases -/

def noMath : Math := ⟨fun _ _ _ => 0, fun _ _ _ => 0, fun _ _ => .ub, fun _ _ => .ub⟩
def exCtx (v : V) : Ctx := ⟨noMath, fun _ => 0, fun _ => some v⟩
def exN (v : V) : Node := .obj [([97], .leaf v), ([98], .leaf (.str [120]))]

/-- `C34_unsigned` applies: a product of more than 32 bits. -/
example : binary noMath .mult (some (.int .u32 4000000000)) (some (.int .u8 200)) = .ok (some (.int .u64 800000000000)) :=
  C34_unsigned noMath .mult .u32 .u8 4000000000 200 800000000000 rfl rfl (by decide) (by decide) (by decide) (by decide) (by decide)

/-- The hypotheses are met: `a = a + 2` where `a` is 40. -/
example : exec (exCtx (.int .i64 2)) (exN (.int .i32 40)) none (.set [97] (some (.bin .add (some (.field [97] .own)) (some (.param 0))))) =
      .ok ⟨.set [97] (some (.bin .add (some (.field [97] .own)) (some (.param 0)))), exN (.int .i64 42), true, none⟩ ∧
    Means (exCtx (.int .i64 2)) (exN (.int .i32 40)) none (.bin .add (some (.field [97] .own)) (some (.param 0))) (some (.int .i64 42)) ∧
    Before (exN (.int .i32 40)) [.name [97]] (some (.int .i32 40)) ∧ Kin (.int .i32 40) (.int .i64 42) ∧ Sound (.int .i64 42) ∧
    Changes (some (.int .i32 40)) (.int .i64 42) ∧ Clear (exN (.int .i32 40)) [[97]] ∧ exact .mod (-7) 3 = some (-1) := by
  refine ⟨rfl, ?_, rfl, ⟨rfl, by decide⟩, ⟨by decide, by decide⟩, (fun h : (40 : Int) = 42 => by omega), ?_, by decide⟩
  · exact .bin _ _ _ (some (.int .i32 40)) (some (.int .i64 2)) _ (.own _ _ rfl) (.param _ _ rfl) rfl
  · intro p q e hq
    cases p with
    | nil => intro h; cases h
    | cons x p =>
      exfalso
      apply hq
      have := congrArg List.length e
      simp only [List.length_cons, List.length_nil, List.length_append] at this
      exact List.eq_nil_of_length_eq_zero (by omega)

/-- C34 in full, for one assignment of a parameter: afterwards the place holds the value, and the result tells whether the
document changed. -/
def C34_claim : Prop := ∀ (v : V) (n : Node) (k : Bytes) (o : Out), Sound v → exec (exCtx v) n none (.set k (some (.param 0))) = .ok o →
  (∃ w, findNode o.doc k = .ok (.node (.leaf w)) ∧ Same w v) ∧ (o.modified = false ↔ o.doc = n)

/-- Assigning zero to a field that is not there does nothing. -/
theorem C34_zero_fails : ¬ C34_claim := by
  intro h
  obtain ⟨⟨w, hw, _⟩, _⟩ := h (.int .i64 0) (.obj []) [97] ⟨_, .obj [], false, none⟩ ⟨by decide, by decide⟩ rfl
  have e : findNode (.obj []) [97] = .ok .noElement := rfl
  rw [e] at hw
  cases hw

/-- Assigning `false` to a text does nothing. -/
theorem C34_kind_fails : ¬ C34_claim := by
  intro h
  obtain ⟨⟨w, hw, hs⟩, _⟩ := h (.bool false) (exN .na) [98] ⟨_, exN .na, false, none⟩ trivial rfl
  have e : findNode (exN .na) [98] = .ok (.node (.leaf (.str [120]))) := rfl
  rw [e] at hw
  cases hw
  exact hs

/-- A refused assignment is reported as a change. -/
theorem C34_refused_fails : ¬ C34_claim := by
  intro h
  obtain ⟨_, h2⟩ := h (.int .i64 1) (.obj []) [97, 47, 98] ⟨_, .obj [], true, none⟩ ⟨by decide, by decide⟩ rfl
  cases h2.mpr rfl

/-- Assigning 3 to 3.5 does nothing: the old value is read as an integer first. -/
theorem C34_fraction_fails : exec (exCtx (.int .i64 3)) (exN (.double 0x400C000000000000)) none (.set [97] (some (.param 0))) =
    .ok ⟨.set [97] (some (.param 0)), exN (.double 0x400C000000000000), false, none⟩ := by
  have e : getAs 0 (V.getInt .i64) (exN (.double 0x400C000000000000)) [97] = .ok 3 := by decide +kernel
  have u : updateAt (fun _ => 0) (exN (.double 0x400C000000000000)) [97] (some (.int .i64 3)) = .ok (exN (.double 0x400C000000000000), false) := by
    unfold updateAt
    simp only
    rw [if_pos (by decide)]
    unfold assignIf
    rw [e]
    rfl
  unfold exec
  simp only [execOpt, exec, exCtx, Res.bind, u]

/-- Assigning null does nothing, and a value that is not there dereferences null. -/
theorem C34_null_fails : exec (exCtx .na) (exN (.bool true)) none (.set [97] (some (.param 0))) = .ok ⟨.set [97] (some (.param 0)), exN (.bool true), false, none⟩ ∧
    exec (exCtx .na) (exN (.bool true)) none (.set [97] (some (.field [99] .own))) = .ub ∧
    exec (exCtx .na) (exN (.bool true)) none (.set [97] (some (.field [99] .undefined))) = .ub := ⟨rfl, rfl, rfl⟩

/-- An assignment inside an operation is made but not reported. -/
theorem C34_nested_fails : runAll (exCtx (.int .i64 7)) none [.bin .add (some (.set [97] (some (.param 0)))) (some (.param 0))] (exN .na) =
    .ok ([.bin .add (some (.set [97] (some (.param 0)))) (some (.param 0))], exN (.int .i64 7), false) := rfl

/-- The side found for the first document is kept for the next one: with a second document, a field the first document has
and the second only on the other side. -/
theorem C34_side_fails :
    (∃ es b, runAll (exCtx .na) (some (exN (.bool true))) [.set [100] (some (.field [97] .undefined))] (exN (.bool true)) = .ok (es, .obj [([97], .leaf (.bool true)), ([98], .leaf (.str [120])), ([100], .leaf (.bool true))], b) ∧
      runAll (exCtx .na) (some (exN (.bool true))) es (.obj []) = .ub) ∧
    ∃ es, runAll (exCtx .na) (some (exN (.bool true))) [.set [100] (some (.field [97] .undefined))] (.obj []) = .ok (es, .obj [([100], .leaf (.bool true))], true) :=
  ⟨⟨_, true, rfl, rfl⟩, _, rfl⟩

end Verif.Update
