import Verif.ChunkOp.GroupSpec
import Verif.ChunkOp.Join
/-!
Lemmas about grouping.
-/
namespace Verif.ChunkOp
open Verif Verif.Num Verif.PhysKey Verif.LogVal

/-! ### `firsts` -/

section Firsts
variable {α β : Type} [DecidableEq α] [DecidableEq β]

theorem mem_firsts {l : List α} {x : α} : x ∈ firsts l ↔ x ∈ l := by
  induction l with
  | nil => simp [firsts]
  | cons y l ih =>
    simp only [firsts, List.mem_cons, List.mem_filter, ih, decide_eq_true_eq]
    by_cases h : x = y
    · simp [h]
    · simp [h]

theorem nodup_firsts (l : List α) : (firsts l).Nodup := by
  induction l with
  | nil => simp [firsts]
  | cons y l ih =>
    simp only [firsts, List.nodup_cons]
    exact ⟨by simp, ih.filter _⟩

theorem firsts_concat (l : List α) (x : α) : firsts (l ++ [x]) = if x ∈ l then firsts l else firsts l ++ [x] := by
  induction l with
  | nil => simp [firsts]
  | cons y l ih =>
    simp only [List.cons_append, firsts, ih]
    by_cases hxy : x = y
    · subst hxy
      by_cases hx : x ∈ l <;> simp [hx, List.filter_append]
    · by_cases hx : x ∈ l <;> simp [hx, List.filter_append, hxy]

theorem firsts_map {f : α → β} {l : List α} (h : ∀ a ∈ l, ∀ b ∈ l, f a = f b → a = b) : firsts (l.map f) = (firsts l).map f := by
  induction l with
  | nil => simp [firsts]
  | cons y l ih =>
    rw [List.map_cons, firsts, firsts, ih fun a ha b hb => h a (List.mem_cons_of_mem _ ha) b (List.mem_cons_of_mem _ hb), List.map_cons, List.filter_map]
    congr 2
    apply List.filter_congr
    intro x hx
    have hx : x ∈ l := mem_firsts.mp hx
    simp only [Function.comp_apply, decide_eq_decide]
    exact not_congr ⟨fun e => h x (List.mem_cons_of_mem _ hx) y List.mem_cons_self e, fun e => e ▸ rfl⟩
end Firsts

/-! ### values -/

theorem colTy_eq (cs : Cols) (k : Bytes) : colTy cs k = tyOf cs k := by
  induction cs with
  | nil => rfl
  | cons c cs ih => obtain ⟨n, ty⟩ := c; simp [colTy, tyOf, ih]

theorem valueOf_ok {cs : Cols} {r : Row} {k : Bytes} {ty : Ty} (h : Typed cs r) (hk : tyOf cs k = some ty) :
    ∃ v, valueOf cs (values cs r) k = some v ∧ ty.has v ∧ cell cs (fill cs r) k = some (some v) := by
  induction h with
  | nil => simp [tyOf] at hk
  | @cons n t cs c r hc _ ih =>
    simp only [tyOf] at hk
    by_cases hn : n = k
    · simp only [hn, if_true, Option.some.injEq] at hk
      subst hk
      exact ⟨read t c, by simp [valueOf, values, hn], read_has hc, by simp [cell, fill, read, hn]⟩
    · simp only [hn, if_false] at hk
      obtain ⟨v, h1, h2, h3⟩ := ih hk
      exact ⟨v, by simpa [valueOf, values, hn] using h1, h2, by simpa [cell, fill, hn] using h3⟩

theorem col_eq {cs : Cols} {f : Bytes} {ty : Ty} (hk : tyOf cs f = some ty) : ∀ (rows : List Row), (∀ r ∈ rows, Typed cs r) →
    col cs f (rows.map (values cs)) = colVals cs f (rows.map (fill cs)) ∧ (col cs f (rows.map (values cs))).length = rows.length ∧
      ∀ v ∈ col cs f (rows.map (values cs)), ty.has v
  | [], _ => by simp [col, colVals]
  | r :: rows, h => by
    obtain ⟨h1, h2, h3⟩ := col_eq hk rows fun r hr => h r (List.mem_cons_of_mem _ hr)
    obtain ⟨v, h4, h5, h6⟩ := valueOf_ok (h r List.mem_cons_self) hk
    have e1 : col cs f ((r :: rows).map (values cs)) = v :: col cs f (rows.map (values cs)) := by simp [col, h4]
    have e2 : colVals cs f ((r :: rows).map (fill cs)) = v :: colVals cs f (rows.map (fill cs)) := by simp [colVals, h6]
    rw [e1, e2, h1]
    refine ⟨rfl, by simp [← h1, h2], ?_⟩
    intro w hw
    rcases List.mem_cons.mp hw with rfl | hw
    · exact h5
    · exact h3 w (h1 ▸ hw)

theorem eq_exact {ty : Ty} (he : ty.exact) {v w : LV} (hv : ty.has v) (hw : ty.has w) : v.eq w = decide (v = w) := by
  cases ty <;> simp only [Ty.exact] at he <;> cases v <;> simp only [Ty.has] at hv <;> cases w <;> simp only [Ty.has] at hw
  · simp [LV.eq, LV.code, eqSame]
    rw [Bool.eq_iff_iff]; simp
  · obtain ⟨rfl, _⟩ := hv; obtain ⟨rfl, _⟩ := hw
    simp [LV.eq, LV.code, eqSame]
  · simp [LV.eq, LV.code, eqSame]

theorem lt_exact {ty : Ty} (he : ty.exact) {v w : LV} (hv : ty.has v) (hw : ty.has w) :
    ∃ a b, meaning v = some a ∧ meaning w = some b ∧ v.lt w = before a b := by
  cases ty <;> simp only [Ty.exact] at he <;> cases v <;> simp only [Ty.has] at hv <;> cases w <;> simp only [Ty.has] at hw
  · exact ⟨_, _, rfl, rfl, by simp [LV.lt, LV.code, ltSame, before]⟩
  · obtain ⟨rfl, _⟩ := hv; obtain ⟨rfl, _⟩ := hw
    exact ⟨_, _, rfl, rfl, by simp [LV.lt, LV.code, ltSame, before, FVal.lt, mul_one_lt]⟩
  · exact ⟨_, _, rfl, rfl, by simp [LV.lt, LV.code, ltSame, before]⟩

theorem less_iff {ty : Ty} (he : ty.exact) {v w : LV} (hv : ty.has v) (hw : ty.has w) : less v w ↔ v.lt w = true := by
  obtain ⟨a, b, h1, h2, h3⟩ := lt_exact he hv hw
  rw [h3]
  constructor
  · rintro ⟨a', b', h1', h2', h⟩
    rw [h1] at h1'; rw [h2] at h2'
    rwa [Option.some.inj h1', Option.some.inj h2']
  · intro h; exact ⟨a, b, h1, h2, h⟩

theorem lt_order {ty : Ty} (he : ty.exact) {u v w : LV} (hu : ty.has u) (hv : ty.has v) (hw : ty.has w) :
    v.lt v = false ∧ (u.lt v = true → v.lt u = false) ∧ (u.lt v = false → v.lt w = false → u.lt w = false) := by
  cases ty <;> simp only [Ty.exact] at he <;> cases u <;> simp only [Ty.has] at hu <;> cases v <;> simp only [Ty.has] at hv <;> cases w <;> simp only [Ty.has] at hw
  · rename_i a b c; cases a <;> cases b <;> cases c <;> simp [LV.lt, LV.code, ltSame]
  · obtain ⟨rfl, _⟩ := hu; obtain ⟨rfl, _⟩ := hv; obtain ⟨rfl, _⟩ := hw
    simp only [LV.lt, LV.code, if_true, ltSame, decide_eq_true_eq, decide_eq_false_iff_not]
    omega
  · rename_i a b c
    simp only [LV.lt, LV.code, if_true, ltSame]
    refine ⟨bytesLt_irrefl b, bytesLt_asymm a b, fun h1 h2 => ?_⟩
    cases h3 : bytesLt a c with
    | false => rfl
    | true =>
      rcases DocVal.bytesLt_cotrans a c b h3 with h | h
      · rw [h] at h1; exact nomatch h1
      · rw [h] at h2; exact nomatch h2

/-! ### aggregates -/

theorem minOf_ok {ty : Ty} (he : ty.exact) : ∀ (vs : List LV) (m : LV), ty.has m → (∀ v ∈ vs, ty.has v) →
    minOf m vs ∈ m :: vs ∧ ∀ w ∈ m :: vs, w.lt (minOf m vs) = false
  | [], m, hm, _ => by
    refine ⟨by simp [minOf], fun w hw => ?_⟩
    simp only [List.mem_singleton] at hw
    subst hw
    exact (lt_order he hm hm hm).1
  | v :: vs, m, hm, hvs => by
    have hv := hvs v List.mem_cons_self
    have hvs' : ∀ v ∈ vs, ty.has v := fun w hw => hvs w (List.mem_cons_of_mem _ hw)
    simp only [minOf]
    by_cases h : v.lt m = true
    · simp only [h, if_true]
      obtain ⟨h1, h2⟩ := minOf_ok he vs v hv hvs'
      refine ⟨List.mem_cons_of_mem _ h1, fun w hw => ?_⟩
      rcases List.mem_cons.mp hw with rfl | hw
      · have hr : ty.has (minOf v vs) := by
          rcases List.mem_cons.mp h1 with h3 | h3
          · rw [h3]; exact hv
          · exact hvs' _ h3
        exact (lt_order he hm hv hr).2.2 ((lt_order he hv hm hm).2.1 h) (h2 v List.mem_cons_self)
      · exact h2 w hw
    · have h : v.lt m = false := by simpa using h
      simp only [h, Bool.false_eq_true, if_false]
      obtain ⟨h1, h2⟩ := minOf_ok he vs m hm hvs'
      refine ⟨?_, fun w hw => ?_⟩
      · rcases List.mem_cons.mp h1 with h3 | h3
        · rw [h3]; simp
        · exact List.mem_cons_of_mem _ (List.mem_cons_of_mem _ h3)
      · have hr : ty.has (minOf m vs) := by
          rcases List.mem_cons.mp h1 with h3 | h3
          · rw [h3]; exact hm
          · exact hvs' _ h3
        rcases List.mem_cons.mp hw with rfl | hw
        · exact h2 w List.mem_cons_self
        · rcases List.mem_cons.mp hw with rfl | hw
          · exact (lt_order he hv hm hr).2.2 h (h2 m List.mem_cons_self)
          · exact h2 w (List.mem_cons_of_mem _ hw)

theorem maxOf_ok {ty : Ty} (he : ty.exact) : ∀ (vs : List LV) (m : LV), ty.has m → (∀ v ∈ vs, ty.has v) →
    maxOf m vs ∈ m :: vs ∧ ∀ w ∈ m :: vs, (maxOf m vs).lt w = false
  | [], m, hm, _ => by
    refine ⟨by simp [maxOf], fun w hw => ?_⟩
    simp only [List.mem_singleton] at hw
    subst hw
    exact (lt_order he hm hm hm).1
  | v :: vs, m, hm, hvs => by
    have hv := hvs v List.mem_cons_self
    have hvs' : ∀ v ∈ vs, ty.has v := fun w hw => hvs w (List.mem_cons_of_mem _ hw)
    simp only [maxOf]
    by_cases h : m.lt v = true
    · simp only [h, if_true]
      obtain ⟨h1, h2⟩ := maxOf_ok he vs v hv hvs'
      refine ⟨List.mem_cons_of_mem _ h1, fun w hw => ?_⟩
      rcases List.mem_cons.mp hw with rfl | hw
      · have hr : ty.has (maxOf v vs) := by
          rcases List.mem_cons.mp h1 with h3 | h3
          · rw [h3]; exact hv
          · exact hvs' _ h3
        exact (lt_order he hr hv hm).2.2 (h2 v List.mem_cons_self) ((lt_order he hm hv hv).2.1 h)
      · exact h2 w hw
    · have h : m.lt v = false := by simpa using h
      simp only [h, Bool.false_eq_true, if_false]
      obtain ⟨h1, h2⟩ := maxOf_ok he vs m hm hvs'
      refine ⟨?_, fun w hw => ?_⟩
      · rcases List.mem_cons.mp h1 with h3 | h3
        · rw [h3]; simp
        · exact List.mem_cons_of_mem _ (List.mem_cons_of_mem _ h3)
      · have hr : ty.has (maxOf m vs) := by
          rcases List.mem_cons.mp h1 with h3 | h3
          · rw [h3]; exact hm
          · exact hvs' _ h3
        rcases List.mem_cons.mp hw with rfl | hw
        · exact h2 w List.mem_cons_self
        · rcases List.mem_cons.mp hw with rfl | hw
          · exact (lt_order he hr hm hv).2.2 (h2 m List.mem_cons_self) h
          · exact h2 w (List.mem_cons_of_mem _ hw)

theorem addV_ok (fl : Fl) {t : ITy} (hw : 32 ≤ t.bits) {a b : Int} (h : t.fits (a + b)) : addV fl (.int t a) (.int t b) = .ok (.int t (a + b)) := by
  have ht : arithTy t = t := by cases t <;> first | rfl | (simp [ITy.bits] at hw)
  have hs : LogVal.arith .sum t a b = .ok (a + b) := by
    simp only [LogVal.arith]
    split
    · simp [h]
    · rw [wrap_fits t _ h]
  simp [addV, LV.arith, ht, hs, Res.bind]

theorem sumOf_ok (fl : Fl) {t : ITy} (hw : 32 ≤ t.bits) : ∀ (ns : List Int) (acc : Int), (∀ k, t.fits (acc + (ns.take k).sum)) →
    sumOf fl (.int t acc) (ns.map (LV.int t)) = .ok (.int t (acc + ns.sum))
  | [], acc, _ => by simp [sumOf]
  | n :: ns, acc, h => by
    have h1 := h 1
    simp only [List.take_succ_cons, List.take_zero, List.sum_cons, List.sum_nil, Int.add_zero] at h1
    simp only [List.map_cons, sumOf, addV_ok fl hw h1, Res.bind]
    rw [sumOf_ok fl hw ns (acc + n) fun k => by
      have := h (k + 1)
      simpa [List.take_succ_cons, Int.add_assoc] using this]
    simp [Int.add_assoc]

theorem all_ints {t : ITy} : ∀ (vs : List LV), (∀ v ∈ vs, (Ty.int t).has v) → ∃ ns : List Int, vs = ns.map (LV.int t)
  | [], _ => ⟨[], rfl⟩
  | v :: vs, h => by
    obtain ⟨ns, rfl⟩ := all_ints vs fun w hw => h w (List.mem_cons_of_mem _ hw)
    have hv := h v List.mem_cons_self
    cases v <;> simp only [Ty.has] at hv
    obtain ⟨rfl, _⟩ := hv
    rename_i n _
    exact ⟨n :: ns, rfl⟩

/-- The type of a result. -/
def Agg.code (cs : Cols) : Agg → Nat
  | .count => tcode .u64
  | .sum f => ((tyOf cs f).map Ty.code).getD 0
  | .avg _ => 24
  | .min f => ((tyOf cs f).map Ty.code).getD 0
  | .max f => ((tyOf cs f).map Ty.code).getD 0

theorem asDouble_int (t : ITy) (n : Int) : asDouble (.int t n) = .ok (ofInt 53 n) := by
  have : tcode t ≠ 24 := by cases t <;> decide
  simp [asDouble, LV.cast, LV.code, this, LV.asInt]

/-- An aggregate over the rows of a group. -/
theorem run_ok (fl : Fl) {cs : Cols} {a : Agg} (hs : a.Sound cs) (hw : a.Wide cs) {rows : List Row} (ht : ∀ r ∈ rows, Typed cs r)
    (hsm : a.Small cs (rows.map (fill cs))) (hne : rows ≠ []) :
    ∃ v, a.run fl cs (rows.map (values cs)) = .ok v ∧ a.is fl cs (rows.map (fill cs)) v ∧ v.code = a.code cs ∧ v ≠ .na := by
  cases a with
  | count => exact ⟨_, rfl, by simp [Agg.is], by simp [LV.code, Agg.code], by simp⟩
  | sum f =>
    obtain ⟨t, hty⟩ := hs
    obtain ⟨h1, _, h3⟩ := col_eq hty rows ht
    obtain ⟨ns, hns⟩ := all_ints _ h3
    have hfit := hsm t ns (h1 ▸ hns)
    have hsum := sumOf_ok fl (hw t hty) ns 0 fun k => by rw [Int.zero_add]; exact hfit k
    refine ⟨.int t ns.sum, ?_, ⟨t, t, ns, h1 ▸ hns, rfl⟩, by simp [Agg.code, hty, Ty.code, Ty.zero, LV.code], by simp⟩
    simp only [Agg.run, colTy_eq, hty, hns]
    simpa [Ty.zero] using hsum
  | avg f =>
    obtain ⟨t, hty⟩ := hs
    obtain ⟨h1, h2, h3⟩ := col_eq hty rows ht
    obtain ⟨ns, hns⟩ := all_ints _ h3
    have hfit := hsm t ns (h1 ▸ hns)
    have hsum : sumOf fl (Ty.int t).zero (ns.map (LV.int t)) = .ok (.int t ns.sum) := by
      simpa [Ty.zero] using sumOf_ok fl (hw t hty) ns 0 fun k => by rw [Int.zero_add]; exact hfit k
    have hlen : ns.length = rows.length := by rw [← h2, hns]; simp
    refine ⟨.double (fl.div (ofInt 53 ns.sum) (ofInt 53 ns.length)), ?_, ⟨t, ns, h1 ▸ hns, rfl⟩, by simp [Agg.code, LV.code], by simp⟩
    simp only [Agg.run, colTy_eq, hty, hns, hsum, Res.bind, asDouble_int, Res.map', List.length_map, hlen]
  | min f =>
    obtain ⟨ty, hty, he⟩ := hs
    obtain ⟨h1, h2, h3⟩ := col_eq hty rows ht
    cases hc : col cs f (rows.map (values cs)) with
    | nil => rw [hc] at h2; exact absurd (List.length_eq_zero_iff.mp h2.symm) hne
    | cons v vs =>
      rw [hc] at h3
      obtain ⟨h4, h5⟩ := minOf_ok he vs v (h3 v List.mem_cons_self) fun w hw => h3 w (List.mem_cons_of_mem _ hw)
      have hh := h3 _ h4
      refine ⟨minOf v vs, by simp [Agg.run, colTy_eq, hty, hc], ⟨by rw [← h1, hc]; exact h4, fun w hw => ?_⟩, by simp [Agg.code, hty, (code_of_has hh).1], (code_of_has hh).2⟩
      rw [← h1, hc] at hw
      rw [less_iff he (h3 w hw) hh, h5 w hw]
      simp
  | max f =>
    obtain ⟨ty, hty, he⟩ := hs
    obtain ⟨h1, h2, h3⟩ := col_eq hty rows ht
    cases hc : col cs f (rows.map (values cs)) with
    | nil => rw [hc] at h2; exact absurd (List.length_eq_zero_iff.mp h2.symm) hne
    | cons v vs =>
      rw [hc] at h3
      obtain ⟨h4, h5⟩ := maxOf_ok he vs v (h3 v List.mem_cons_self) fun w hw => h3 w (List.mem_cons_of_mem _ hw)
      have hh := h3 _ h4
      refine ⟨maxOf v vs, by simp [Agg.run, colTy_eq, hty, hc], ⟨by rw [← h1, hc]; exact h4, fun w hw => ?_⟩, by simp [Agg.code, hty, (code_of_has hh).1], (code_of_has hh).2⟩
      rw [← h1, hc] at hw
      rw [less_iff he hh (h3 w hw), h5 w hw]
      simp

/-! ### groups -/

/-- The key of a row with its names. -/
def keyOf (cs : Cols) (keys : List GKey) (r : Row) : List (Bytes × LV) := keys.map fun k => (k.name, (valueOf cs (values cs r) k.field).getD .na)

theorem keyRow_ok {cs : Cols} {r : Row} (h : Typed cs r) : ∀ (keys : List GKey), (∀ k ∈ keys, ∃ ty, tyOf cs k.field = some ty) →
    keyRow cs keys (values cs r) = some (keyOf cs keys r) ∧ (keyOf cs keys r).map (fun p => some p.2) = keyCells cs keys (fill cs r)
  | [], _ => ⟨rfl, rfl⟩
  | k :: ks, hk => by
    obtain ⟨h1, h2⟩ := keyRow_ok h ks fun k' hk' => hk k' (List.mem_cons_of_mem _ hk')
    obtain ⟨ty, hty⟩ := hk k List.mem_cons_self
    obtain ⟨v, h3, h4, h5⟩ := valueOf_ok h hty
    have hna := (code_of_has h4).2
    refine ⟨by simp [keyRow, h3, hna, h1, keyOf], ?_⟩
    simp only [keyOf, keyCells, List.map_cons, h3, Option.getD_some, h5] at h2 ⊢
    rw [h2]

theorem rowEq_ok {cs : Cols} {r s : Row} (hr : Typed cs r) (hs : Typed cs s) : ∀ (keys : List GKey), (∀ k ∈ keys, ∃ ty, tyOf cs k.field = some ty ∧ ty.exact) →
    rowEq (keyOf cs keys r) (keyOf cs keys s) = decide (keyOf cs keys r = keyOf cs keys s)
  | [], _ => rfl
  | k :: ks, hk => by
    have ih := rowEq_ok hr hs ks fun k' hk' => hk k' (List.mem_cons_of_mem _ hk')
    obtain ⟨ty, hty, he⟩ := hk k List.mem_cons_self
    obtain ⟨v, h1, h2, _⟩ := valueOf_ok hr hty
    obtain ⟨w, h3, h4, _⟩ := valueOf_ok hs hty
    have e1 : keyOf cs (k :: ks) r = (k.name, v) :: keyOf cs ks r := by simp [keyOf, h1]
    have e2 : keyOf cs (k :: ks) s = (k.name, w) :: keyOf cs ks s := by simp [keyOf, h3]
    rw [e1, e2]
    simp only [rowEq, ih, eq_exact he h2 h4, List.cons.injEq, Prod.mk.injEq, true_and, Bool.decide_and]

theorem addRow_new {key : List (Bytes × LV)} {r : List LV} : ∀ (gs : List G), (∀ g ∈ gs, rowEq key g.out = false) → addRow key r gs = gs ++ [⟨key, [r]⟩]
  | [], _ => rfl
  | g :: gs, h => by
    simp [addRow, h g List.mem_cons_self, addRow_new gs fun g' hg' => h g' (List.mem_cons_of_mem _ hg')]

theorem addRow_old {key : List (Bytes × LV)} {r : List LV} {I : List (Bytes × LV) → List (List LV)} : ∀ (ks : List (List (Bytes × LV))),
    ks.Nodup → key ∈ ks → (∀ k ∈ ks, rowEq key k = decide (key = k)) →
    addRow key r (ks.map fun k => ⟨k, I k⟩) = ks.map fun k => ⟨k, if key = k then I k ++ [r] else I k⟩
  | [], _, hm, _ => nomatch hm
  | k :: ks, hn, hm, h => by
    simp only [List.nodup_cons] at hn
    by_cases hk : key = k
    · subst hk
      have hrest : ks.map (fun k => (⟨k, if key = k then I k ++ [r] else I k⟩ : G)) = ks.map fun k => ⟨k, I k⟩ := by
        apply List.map_congr_left
        intro k' hk'
        have : key ≠ k' := fun e => hn.1 (e ▸ hk')
        simp [this]
      simp only [List.map_cons, addRow, h key List.mem_cons_self, decide_true, if_true, hrest]
    · have hm' : key ∈ ks := by
        rcases List.mem_cons.mp hm with e | e
        · exact absurd e hk
        · exact e
      have ih := addRow_old (r := r) (I := I) ks hn.2 hm' fun k' hk' => h k' (List.mem_cons_of_mem _ hk')
      simp only [List.map_cons, addRow, h k List.mem_cons_self, hk, decide_false, Bool.false_eq_true, if_false, ih]

theorem groupRows_ok {cs : Cols} {keys : List GKey} (hk : ∀ k ∈ keys, ∃ ty, tyOf cs k.field = some ty ∧ ty.exact) :
    ∀ (rs done : List Row), (∀ r ∈ done ++ rs, Typed cs r) →
      groupRows cs keys (rs.map (values cs)) ((firsts (done.map (keyOf cs keys))).map fun k => ⟨k, (done.filter fun r => decide (keyOf cs keys r = k)).map (values cs)⟩)
        = (firsts ((done ++ rs).map (keyOf cs keys))).map fun k => ⟨k, ((done ++ rs).filter fun r => decide (keyOf cs keys r = k)).map (values cs)⟩
  | [], done, _ => by simp [groupRows]
  | r :: rs, done, h => by
    have hr : Typed cs r := h r (by simp)
    have hkr := (keyRow_ok hr keys fun k hk' => (hk k hk').imp fun _ h => h.1).1
    have hstep : addRow (keyOf cs keys r) (values cs r) ((firsts (done.map (keyOf cs keys))).map fun k => ⟨k, (done.filter fun r => decide (keyOf cs keys r = k)).map (values cs)⟩)
        = (firsts ((done ++ [r]).map (keyOf cs keys))).map fun k => ⟨k, ((done ++ [r]).filter fun r => decide (keyOf cs keys r = k)).map (values cs)⟩ := by
      have heq : ∀ k ∈ firsts (done.map (keyOf cs keys)), rowEq (keyOf cs keys r) k = decide (keyOf cs keys r = k) := by
        intro k hk'
        obtain ⟨s, hs, rfl⟩ := List.mem_map.mp (mem_firsts.mp hk')
        exact rowEq_ok hr (h s (by simp [hs])) keys hk
      rw [List.map_append, List.map_cons, List.map_nil, firsts_concat]
      by_cases hm : keyOf cs keys r ∈ done.map (keyOf cs keys)
      · rw [if_pos hm, addRow_old _ (nodup_firsts _) (mem_firsts.mpr hm) heq]
        apply List.map_congr_left
        intro k _
        by_cases hkk : keyOf cs keys r = k
        · simp [hkk, List.filter_append]
        · simp [hkk, List.filter_append]
      · rw [if_neg hm, addRow_new]
        · rw [List.map_append, List.map_cons, List.map_nil]
          congr 1
          · apply List.map_congr_left
            intro k hk'
            have hkk : keyOf cs keys r ≠ k := fun e => hm (e ▸ mem_firsts.mp hk')
            simp [hkk, List.filter_append]
          · have : done.filter (fun s => decide (keyOf cs keys s = keyOf cs keys r)) = [] := by
              rw [List.filter_eq_nil_iff]
              intro s hs he
              exact hm (List.mem_map.mpr ⟨s, hs, by simpa using he⟩)
            simp [List.filter_append, this]
        · intro g hg
          obtain ⟨k, hk', rfl⟩ := List.mem_map.mp hg
          rw [heq k hk']
          simp only [decide_eq_false_iff_not]
          exact fun e => hm (e ▸ mem_firsts.mp hk')
    simp only [List.map_cons, groupRows, hkr]
    rw [hstep, groupRows_ok hk rs (done ++ [r]) (by simpa using h)]
    simp

/-! ### results -/

theorem setValue_new {kind : Bytes} {v : LV} : ∀ (out : List (Bytes × LV)), (∀ p ∈ out, p.1 ≠ kind) → setValue kind v out = out ++ [(kind, v)]
  | [], _ => rfl
  | p :: out, h => by
    simp [setValue, h p List.mem_cons_self, setValue_new out fun q hq => h q (List.mem_cons_of_mem _ hq)]

theorem aggGroups_ok {α : Type} (fl : Fl) (cs : Cols) (a : Agg) {O : α → List (Bytes × LV)} {I : α → List (List LV)} {W : α → LV} :
    ∀ (ks : List α) (last : LV), (∀ k ∈ ks, a.run fl cs (I k) = .ok (W k) ∧ ∀ p ∈ O k, p.1 ≠ a.kind) →
      aggGroups fl cs a (ks.map fun k => ⟨O k, I k⟩) last =
        .ok (ks.map fun k => ⟨O k ++ [(a.kind, W k)], I k⟩, ((ks.map W).getLast?).getD last)
  | [], last, _ => by simp [aggGroups]
  | k :: ks, last, h => by
    obtain ⟨h1, h2⟩ := h k List.mem_cons_self
    have ih := aggGroups_ok fl cs a ks (W k) fun k' hk' => h k' (List.mem_cons_of_mem _ hk')
    simp only [List.map_cons, aggGroups, h1, Res.bind, ih, Res.map', setValue_new _ h2]
    cases ks with
    | nil => rfl
    | cons k' ks => simp [List.getLast?_eq_some_getLast]

theorem aggAll_ok {α : Type} (fl : Fl) (cs : Cols) {I : α → List (List LV)} {W : Agg → α → LV} {ks : List α} :
    ∀ (as : List Agg) (O : α → List (Bytes × LV)), (as.map Agg.kind).Nodup → (∀ a ∈ as, ∀ k ∈ ks, a.run fl cs (I k) = .ok (W a k) ∧ ∀ p ∈ O k, p.1 ≠ a.kind) →
      aggAll fl cs as (ks.map fun k => ⟨O k, I k⟩) =
        .ok (ks.map fun k => ⟨O k ++ as.map fun a => (a.kind, W a k), I k⟩, as.map fun a => (a.kind, (((ks.map (W a)).getLast?).getD .na).code))
  | [], O, _, _ => by simp [aggAll]
  | a :: as, O, hn, h => by
    simp only [List.map_cons, List.nodup_cons] at hn
    have h1 := aggGroups_ok fl cs a (O := O) (I := I) (W := W a) ks .na (h a List.mem_cons_self)
    have ih := aggAll_ok fl cs (I := I) (W := W) (ks := ks) as (fun k => O k ++ [(a.kind, W a k)]) hn.2 (fun b hb k hk => by
      obtain ⟨h2, h3⟩ := h b (List.mem_cons_of_mem _ hb) k hk
      refine ⟨h2, fun p hp => ?_⟩
      rcases List.mem_append.mp hp with hp | hp
      · exact h3 p hp
      · simp only [List.mem_singleton] at hp
        subst hp
        intro e
        have e' : a.kind = b.kind := e
        exact hn.1 (e' ▸ List.mem_map_of_mem hb))
    simp only [aggAll, h1, Res.bind, ih, Res.map', List.append_assoc, List.cons_append, List.nil_append, List.map_cons]

theorem outRow_ok {conv : Nat → LV → LV} : ∀ (ts : List (Bytes × Nat)) (vs : List (Bytes × LV)),
    List.Forall₂ (fun t v => v.2.code = t.2 ∧ v.2 ≠ .na) ts vs → outRow conv ts vs = .ok (vs.map fun p => some p.2)
  | [], _, h => by cases h; rfl
  | t :: ts, vs, h => by
    cases h with
    | cons h1 h2 =>
      simp [outRow, outRow_ok ts _ h2, Res.map', Res.bind, store, h1.1, h1.2]

theorem outRows_ok {α : Type} {conv : Nat → LV → LV} {ts : List (Bytes × Nat)} {O : α → List (Bytes × LV)} {I : α → List (List LV)} :
    ∀ (ks : List α), (∀ k ∈ ks, List.Forall₂ (fun t v => v.2.code = t.2 ∧ v.2 ≠ .na) ts (O k)) →
      outRows conv ts (ks.map fun k => ⟨O k, I k⟩) = .ok (ks.map fun k => (O k).map fun p => some p.2)
  | [], _ => rfl
  | k :: ks, h => by
    simp [outRows, outRow_ok ts _ (h k List.mem_cons_self), Res.bind, outRows_ok ks fun k' hk' => h k' (List.mem_cons_of_mem _ hk'), Res.map']

theorem keyTypes_ok {cs : Cols} {r : Row} (h : Typed cs r) (rs : List (List LV)) : ∀ (keys : List GKey), (∀ k ∈ keys, ∃ ty, tyOf cs k.field = some ty) →
    keyTypes cs keys (values cs r :: rs) = keys.map fun k => (k.field, ((tyOf cs k.field).map Ty.code).getD 0)
  | [], _ => rfl
  | k :: ks, hk => by
    obtain ⟨ty, hty⟩ := hk k List.mem_cons_self
    obtain ⟨v, h1, h2, _⟩ := valueOf_ok h hty
    have hc := code_of_has h2
    have ih := keyTypes_ok h rs ks fun k' hk' => hk k' (List.mem_cons_of_mem _ hk')
    simp only [keyTypes] at ih ⊢
    simp [h1, hc.1, hc.2, hty, ih]

end Verif.ChunkOp
