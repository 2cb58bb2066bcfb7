import Verif.Sql.Props
import Verif.Query.AggProps
/-!
C55: the rows of a SELECT.
-/
namespace Verif.Sql

open Verif.DocVal Verif.Query Verif.Num Verif.LogVal Verif.PhysKey

theorem clear_exact {rx : Bytes → Bytes → Res Bool} {store : List Doc} {c : Cond} (h : Clear rx store (some c)) : Exact rx c store [] := by
  obtain ⟨hc, h | h⟩ := h
  · exact exact_plain rx c store [] h.1 (by simpa using hc) h.2
  · exact exact_lax rx c store [] h.1 (by simpa using hc) h.2

/-- What a SELECT without constants in its list goes on with. -/
theorem rows_clear (fpu : Fpu) (rx : Bytes → Bytes → Res Bool) (store : List Doc) (s : Select) (g : List GExpr) (hg : trTargets s.targets [] = .ok (g, []))
    (hn : store.length < 2 ^ 31) (hc : Clear rx store s.cond) :
    (trSelect s).bind (rowsOf fpu rx store) = match g with
      | [] => .ok (selected rx store s.cond)
      | g :: gs => (groupPlan (g :: gs)).bind fun k => (groupOp fpu k.1 k.2 (selected rx store s.cond)).bind fun rs => .ok (rs.map fun (x : Group) => ⟨0, x.row⟩) := by
  unfold trSelect
  rw [hg]
  cases hcond : s.cond with
  | none =>
    simp only [Res.bind, rowsOf]
    have : transferScan (-1) store = .ok (some store) := by
      unfold transferScan
      rw [if_pos (show limOk (-1) 0 = true from rfl), transferLoop_eq (-1) store 0 rfl (by omega)]
      rfl
    rw [this]
    cases g <;> rfl
  | some c =>
    rw [hcond] at hc
    obtain ⟨f, ext, h1, h2, h3⟩ := clear_exact hc
    have hs := (exact_scan rx c store [] hn h3).2.2
    simp only [Res.bind, h2, h1, rowsOf]
    rw [hs]
    cases g <;> rfl

/-- `SELECT *` with WHERE and ORDER BY: exactly the documents the condition is true for, in the order of the keys. -/
theorem C55_order_partial (fpu : Fpu) (rx : Bytes → Bytes → Res Bool) (store : List Doc) (c : Option Cond) (keys : List Keyed) (hn : store.length < 2 ^ 31)
    (hc : Clear rx store c) (hf : Fit keys (selected rx store c)) (group : List Bytes) (r : Res (List Doc))
    (hr : runSelect fpu rx store ⟨[.star], c, group, keys.map (·.1), none⟩ r) :
    ∃ out, r = .ok out ∧ out.Perm (selected rx store c) ∧ out.Pairwise fun a b => ¬ MustPrecede keys b a := by
  unfold runSelect at hr
  rw [rows_clear fpu rx store ⟨[.star], c, group, keys.map (·.1), none⟩ [] rfl hn hc] at hr
  simp only at hr
  cases keys with
  | nil =>
    simp only [List.map_nil, if_true] at hr
    subst hr
    refine ⟨_, rfl, List.Perm.refl _, ?_⟩
    exact List.pairwise_of_forall fun a b h => by obtain ⟨i, hi, -⟩ := h; exact absurd hi (Nat.not_lt_zero _)
  | cons k ks =>
    rw [if_neg (by simp)] at hr
    exact C25_sort_partial (k :: ks) _ hf r hr

/-! ### columns -/

theorem trTargets_columns (cols : List (Bytes × Bytes)) : trTargets (columns cols) [] = .ok (cols.map fun p => .key p.1 p.2, []) := by
  induction cols with
  | nil => rfl
  | cons p ps ih =>
    show ((trTargets (columns ps) []).bind fun r => _) = _
    rw [ih]
    rfl

theorem groupPlan_columns (cols : List (Bytes × Bytes)) : groupPlan (cols.map fun p => .key p.1 p.2) = .ok (cols, []) := by
  induction cols with
  | nil => rfl
  | cons p ps ih =>
    show ((groupPlan (ps.map fun p => .key p.1 p.2)).bind fun r => _) = _
    rw [ih]
    rfl

/-- Documents told apart are classes of their own. -/
theorem classes_single {α : Type} (same : α → α → Bool) : ∀ (n : Nat) (l : List α), l.length ≤ n → l.Pairwise (fun a b => same a b = false) →
    classes same l = l.map fun a => [a] := by
  intro n
  induction n with
  | zero =>
    intro l hl _
    have : l = [] := List.length_eq_zero_iff.mp (by omega)
    subst this
    simp [classes]
  | succ n ih =>
    intro l hl hp
    cases l with
    | nil => simp [classes]
    | cons a l =>
      rw [List.pairwise_cons] at hp
      have h1 : l.filter (same a) = [] := List.filter_eq_nil_iff.mpr fun b hb => by simp [hp.1 b hb]
      have h2 : l.filter (fun b => !same a b) = l := List.filter_eq_self.mpr fun b hb => by simp [hp.1 b hb]
      rw [classes, h1, h2, ih l (by simp at hl; omega) hp.2]
      rfl

theorem sameValue_known {v w : V} (h : SameValue v w = true) : (v = .na ∧ w = .na) ∨ (known (.scalar v) = some v ∧ known (.scalar w) = some w) := by
  cases v <;> cases w <;> first | exact Or.inl ⟨rfl, rfl⟩ | exact Or.inr ⟨rfl, rfl⟩ | exact absurd h (by simp [SameValue])

theorem value_get {d : Doc} {k : Bytes} {v : V} (h : d.value k = some v) : d.get k = .scalar v := by
  unfold Doc.value at h
  cases hg : d.get k <;> rw [hg] at h <;> cases h
  rfl

/-- C55 in full for columns: one row for each selected document, at most the limit, that shows its columns. -/
def C55_claim : Prop := ∀ (fpu : Fpu) (rx : Bytes → Bytes → Res Bool) (store : List Doc) (cols : List (Bytes × Bytes)) (lim : Option Nat),
  store.length < 2 ^ 31 → (cols.map Prod.fst).Nodup → ∀ r, runSelect fpu rx store ⟨columns cols, none, [], [], lim⟩ r →
  ∃ sel rows, r = .ok rows ∧ List.Subperm sel store ∧ sel.length = (match lim with | none => store.length | some n => min n store.length) ∧
    List.Forall₂ (Shows cols) sel rows

/-- A list of columns: one row for each selected document, in order, if each has all the columns, no two have the same
values in them, and the values are no floating point numbers. -/
theorem C55_columns_partial (fpu : Fpu) (rx : Bytes → Bytes → Res Bool) (store : List Doc) (c : Option Cond) (cols : List (Bytes × Bytes)) (hne : cols ≠ [])
    (hn : store.length < 2 ^ 31) (hc : Clear rx store c) (hg : Groupable cols (selected rx store c))
    (hk : ∀ d ∈ selected rx store c, HasKeys (cols.map Prod.snd) d = true)
    (hd : (selected rx store c).Pairwise fun a b => SameKeys (cols.map Prod.snd) a b = false) (r : Res (List Doc))
    (hr : runSelect fpu rx store ⟨columns cols, c, [], [], none⟩ r) :
    ∃ rows, r = .ok rows ∧ List.Forall₂ (Shows cols) (selected rx store c) rows := by
  obtain ⟨⟨gs, h1⟩, h2⟩ := C24_partition_partial fpu cols _ hg
  have h3 := h2 [] gs h1
  rw [List.filter_eq_self.mpr hk, classes_single _ _ _ (Nat.le_refl _) hd] at h3
  have hrow := C24_rows_partial fpu cols [] _ hg (by simpa using hg.names) gs h1
  unfold runSelect at hr
  rw [rows_clear fpu rx store ⟨columns cols, c, [], [], none⟩ _ (trTargets_columns cols) hn hc] at hr
  have hr : r = .ok (gs.map fun (x : Group) => (⟨0, x.row⟩ : Doc)) := by
    cases cols with
    | nil => exact absurd rfl hne
    | cons p ps =>
      simp only [List.map_cons] at hr
      rw [show GExpr.key p.1 p.2 :: ps.map (fun p => GExpr.key p.1 p.2) = (p :: ps).map fun p => GExpr.key p.1 p.2 from rfl, groupPlan_columns] at hr
      simp only [Res.bind, h1, if_true] at hr
      exact hr
  refine ⟨_, hr, ?_⟩
  have key : ∀ (ds : List Doc) (gs : List Group), gs.map Group.members = ds.map (fun a => [a]) →
      (∀ g ∈ gs, ∀ p ∈ cols, ∀ d ∈ g.members, ∃ v w, d.value p.2 = some v ∧ look g.row p.1 = .scalar w ∧ SameValue v w = true) →
      List.Forall₂ (Shows cols) ds (gs.map fun (x : Group) => (⟨0, x.row⟩ : Doc)) := by
    intro ds
    induction ds with
    | nil => intro gs h _; simp only [List.map_nil, List.map_eq_nil_iff] at h; subst h; exact .nil
    | cons d ds ih =>
      intro gs h hh
      cases gs with
      | nil => cases h
      | cons g gs =>
        simp only [List.map_cons, List.cons.injEq] at h
        refine .cons ?_ (ih gs h.2 fun g hg => hh g (List.mem_cons_of_mem _ hg))
        intro p hp
        obtain ⟨v, w, e1, e2, e3⟩ := hh g List.mem_cons_self p hp d (by rw [h.1]; exact List.mem_singleton.mpr rfl)
        have e4 : Doc.get ⟨0, g.row⟩ p.1 = .scalar w := e2
        rw [value_get e1, e4]
        rcases sameValue_known e3 with ⟨rfl, rfl⟩ | ⟨k1, k2⟩
        · exact Or.inl ⟨rfl, rfl⟩
        · exact Or.inr ⟨v, w, k1, k2, e3⟩
  exact key _ gs h3 fun g hg => (hrow g hg).1

/-! ### functions -/

theorem trTargets_calls (as : List (Bytes × Fn × Bytes)) : trTargets (calls as) [] = .ok (as.map fun a => aggOf a.2.1 a.1 a.2.2, []) := by
  induction as with
  | nil => rfl
  | cons p ps ih =>
    show ((trTargets (calls ps) []).bind fun r => _) = _
    rw [ih]
    rfl

theorem trTargets_both (cols : List (Bytes × Bytes)) (as : List (Bytes × Fn × Bytes)) :
    trTargets (columns cols ++ calls as) [] = .ok ((cols.map fun p => .key p.1 p.2) ++ as.map fun a => aggOf a.2.1 a.1 a.2.2, []) := by
  induction cols with
  | nil => exact trTargets_calls as
  | cons p ps ih =>
    show ((trTargets (columns ps ++ calls as) []).bind fun r => _) = _
    rw [ih]
    rfl

/-- The aggregate of a function. -/
def toAgg (a : Bytes × Fn × Bytes) : Bytes × Agg :=
  (a.1, match a.2.1 with | .count => .count | .sum => .sum a.2.2 | .min => .min a.2.2 | .max => .max a.2.2 | _ => .avg a.2.2)

theorem groupPlan_calls (as : List (Bytes × Fn × Bytes)) (h : ∀ a ∈ as, a.2.1 ≠ .other) :
    groupPlan (as.map fun a => aggOf a.2.1 a.1 a.2.2) = .ok ([], as.map toAgg) := by
  induction as with
  | nil => rfl
  | cons p ps ih =>
    obtain ⟨l, f, k⟩ := p
    have ih := ih fun a ha => h a (List.mem_cons_of_mem _ ha)
    have hf := h (l, f, k) List.mem_cons_self
    cases f with
    | other => exact absurd rfl hf
    | _ =>
      show (groupPlan (ps.map fun a => aggOf a.2.1 a.1 a.2.2)).bind _ = _
      rw [ih]
      rfl

theorem groupPlan_both (cols : List (Bytes × Bytes)) (as : List (Bytes × Fn × Bytes)) (h : ∀ a ∈ as, a.2.1 ≠ .other) :
    groupPlan ((cols.map fun p => .key p.1 p.2) ++ as.map fun a => aggOf a.2.1 a.1 a.2.2) = .ok (cols, as.map toAgg) := by
  induction cols with
  | nil => exact groupPlan_calls as h
  | cons p ps ih =>
    simp only [List.map_cons, List.cons_append, groupPlan, ih, Res.bind]

theorem means_run (fpu : Fpu) (m : List Doc) (hne : m ≠ []) (hm : m.length < 2 ^ 56) (a : Bytes × Fn × Bytes) (c : Cell) (h : (toAgg a).2.run fpu m = .ok c) :
    Means m a (copied c) := by
  obtain ⟨l, f, k⟩ := a
  unfold Means
  cases f with
  | count =>
    rw [show (toAgg (l, Fn.count, k)).2 = .count from rfl, C26_count_partial fpu m hm] at h
    cases h
    rfl
  | sum =>
    intro ns h1 h2 h3
    cases ns with
    | nil => simp only [List.map_nil, List.map_eq_nil_iff] at h1; exact absurd h1 hne
    | cons n ns =>
      have hv : valuesOf k m = ints ((ITy.i64, n) :: ns.map fun n => (ITy.i64, n)) := by
        have : valuesOf k m = (m.map fun d => d.value k).filterMap id := by rw [List.filterMap_map]; rfl
        rw [this, h1, List.filterMap_map]
        have e : ∀ xs : List Int, xs.filterMap (id ∘ fun n => some (V.int .i64 n)) = ints (xs.map fun n => (ITy.i64, n)) := by
          intro xs
          induction xs with
          | nil => rfl
          | cons x xs ih =>
            show V.int .i64 x :: xs.filterMap (id ∘ fun n => some (V.int .i64 n)) = _
            rw [ih]
            rfl
        exact e (n :: ns)
      have ht : ∀ xs : List Int, total (xs.map fun n => (ITy.i64, n)) = xs.sum := by
        intro xs
        unfold total
        rw [List.map_map]
        congr 1
        exact List.map_id _
      have hr := C26_sum_signed_partial fpu k m .i64 n _ hv rfl (by
        intro p hp
        rw [show (ITy.i64, n) :: ns.map (fun n => (ITy.i64, n)) = (n :: ns).map fun n => (ITy.i64, n) from rfl] at hp
        obtain ⟨x, hx, rfl⟩ := List.mem_map.mp hp
        exact ⟨h2 x hx, h2 x hx⟩) (by
        intro i
        rw [show (ITy.i64, n) :: ns.map (fun n => (ITy.i64, n)) = (n :: ns).map fun n => (ITy.i64, n) from rfl, ← List.map_take, ht]
        exact h3 i)
      rw [show (toAgg (l, Fn.sum, k)).2 = .sum k from rfl, hr] at h
      cases h
      rw [show (ITy.i64, n) :: ns.map (fun n => (ITy.i64, n)) = (n :: ns).map fun n => (ITy.i64, n) from rfl, ht]
      rfl
  | min =>
    intro kd hk
    obtain ⟨d, hd⟩ := List.exists_mem_of_ne_nil m hne
    obtain ⟨v, h1, h2⟩ := C26_min fpu kd k m (fun d hd => by obtain ⟨v, hv, hh⟩ := hk d hd; rw [hv]; exact Or.inr hh)
      ⟨d, hd, hk d hd⟩
    rw [show (toAgg (l, Fn.min, k)).2 = .min k from rfl, h1] at h
    cases h
    have e : (valuesOf k m).filter (fun v => v != .na) = valuesOf k m := by
      apply List.filter_eq_self.mpr
      intro w hw
      obtain ⟨d, hd, hw⟩ := List.mem_filterMap.mp hw
      obtain ⟨u, hu, hk'⟩ := hk d hd
      have := value_get hw
      rw [hu] at this
      cases this
      rw [bne_iff_ne]
      rintro rfl
      exact has_na kd hk'
    rw [e] at h2
    refine ⟨v, ?_, h2⟩
    obtain ⟨d, hd, hw⟩ := List.mem_filterMap.mp h2.1
    obtain ⟨u, hu, hk'⟩ := hk d hd
    have := value_get hw
    rw [hu] at this
    cases this
    cases v <;> first | rfl | (cases kd <;> exact absurd hk' id)
  | max =>
    intro kd hk
    obtain ⟨v, h1, h2⟩ := C26_max_partial fpu kd k m hne hk
    rw [show (toAgg (l, Fn.max, k)).2 = .max k from rfl, h1] at h
    cases h
    refine ⟨v, ?_, h2⟩
    obtain ⟨d, hd, hw⟩ := List.mem_filterMap.mp h2.1
    obtain ⟨u, hu, hk'⟩ := hk d hd
    have := value_get hw
    rw [hu] at this
    cases this
    cases v <;> first | rfl | (cases kd <;> exact absurd hk' id)
  | avg => trivial
  | other => trivial

/-- Columns and functions, with the columns in GROUP BY: one row for each combination of values, that shows the values
and the functions of the documents with them, if each selected document has the columns and the values are no floating
point numbers. -/
theorem C55_group_partial (fpu : Fpu) (rx : Bytes → Bytes → Res Bool) (store : List Doc) (c : Option Cond) (cols : List (Bytes × Bytes))
    (as : List (Bytes × Fn × Bytes)) (hne : cols ++ as.map (fun a => (a.1, a.2.2)) ≠ []) (ho : ∀ a ∈ as, a.2.1 ≠ .other)
    (hl : (cols.map Prod.fst ++ as.map Prod.fst).Nodup)
    (hn : store.length < 2 ^ 31) (hc : Clear rx store c) (hg : Groupable cols (selected rx store c))
    (hk : ∀ d ∈ selected rx store c, HasKeys (cols.map Prod.snd) d = true) (rows : List Doc)
    (hr : runSelect fpu rx store ⟨columns cols ++ calls as, c, cols.map Prod.snd, [], none⟩ (.ok rows)) :
    List.Forall₂ (fun m row => (∀ d ∈ m, Shows cols d row) ∧ ∀ a ∈ as, Means m a (row.get a.1))
      (classes (SameKeys (cols.map Prod.snd)) (selected rx store c)) rows := by
  unfold runSelect at hr
  rw [rows_clear fpu rx store ⟨columns cols ++ calls as, c, cols.map Prod.snd, [], none⟩ _ (trTargets_both cols as) hn hc] at hr
  have hx : ∃ gs, groupOp fpu cols (as.map toAgg) (selected rx store c) = .ok gs ∧ rows = gs.map fun (x : Group) => (⟨0, x.row⟩ : Doc) := by
    have e := groupPlan_both cols as ho
    cases hh : (cols.map fun p => GExpr.key p.1 p.2) ++ as.map fun a => aggOf a.2.1 a.1 a.2.2 with
    | nil =>
      simp only [List.append_eq_nil_iff, List.map_eq_nil_iff] at hh
      simp [hh.1, hh.2] at hne
    | cons g gs =>
      rw [hh] at e hr
      simp only [e, Res.bind] at hr
      cases hop : groupOp fpu cols (as.map toAgg) (selected rx store c) with
      | ok gs =>
        rw [hop] at hr
        simp only [if_true] at hr
        injection hr with hr
        exact ⟨gs, rfl, hr⟩
      | throws => rw [hop] at hr; cases hr
      | ub => rw [hop] at hr; cases hr
      | diverges => rw [hop] at hr; cases hr
  obtain ⟨gs, h1, rfl⟩ := hx
  have h3 := (C24_partition_partial fpu cols _ hg).2 (as.map toAgg) gs h1
  rw [List.filter_eq_self.mpr hk] at h3
  have hrow := C24_rows_partial fpu cols (as.map toAgg) _ hg (by
    rw [List.map_map, show (Prod.fst ∘ toAgg) = Prod.fst from rfl]; exact hl) gs h1
  rw [← h3]
  have hmem : ∀ g ∈ gs, g.members ≠ [] ∧ g.members.length < 2 ^ 56 := by
    intro g hgm
    have hin : g.members ∈ classes (SameKeys (cols.map Prod.snd)) (selected rx store c) := by rw [← h3]; exact List.mem_map_of_mem hgm
    have hcl := C24_classes (SameKeys (cols.map Prod.snd)) (SameKeys.sym _) (SameKeys.trans _) _ (selected rx store c) (Nat.le_refl _)
    obtain ⟨a, t, e, -⟩ := hcl.2.1 _ hin
    refine ⟨by rw [e]; simp, ?_⟩
    have h4 : g.members.length ≤ (classes (SameKeys (cols.map Prod.snd)) (selected rx store c)).flatten.length :=
      (List.sublist_flatten_of_mem hin).length_le
    rw [hcl.1.length_eq] at h4
    have h5 : (selected rx store c).length ≤ store.length := by
      cases c with
      | none => exact Nat.le_refl _
      | some c => exact List.length_filter_le _ _
    omega
  rw [List.forall₂_map_left_iff, List.forall₂_map_right_iff]
  have key : ∀ gs' : List Group, (∀ g ∈ gs', g ∈ gs) → List.Forall₂ (fun (g : Group) (x : Group) => (∀ d ∈ g.members, Shows cols d ⟨0, x.row⟩) ∧
      ∀ a ∈ as, Means g.members a (Doc.get ⟨0, x.row⟩ a.1)) gs' gs' := by
    intro gs' hs
    rw [List.forall₂_same]
    intro g hg'
    obtain ⟨r1, r2⟩ := hrow g (hs g hg')
    obtain ⟨m1, m2⟩ := hmem g (hs g hg')
    refine ⟨?_, ?_⟩
    · intro d hd p hp
      obtain ⟨v, w, e1, e2, e3⟩ := r1 p hp d hd
      have e4 : Doc.get ⟨0, g.row⟩ p.1 = .scalar w := e2
      rw [value_get e1, e4]
      rcases sameValue_known e3 with ⟨rfl, rfl⟩ | ⟨k1, k2⟩
      · exact Or.inl ⟨rfl, rfl⟩
      · exact Or.inr ⟨v, w, k1, k2, e3⟩
    · intro a ha
      obtain ⟨c', e1, e2⟩ := r2 (toAgg a) (List.mem_map_of_mem ha)
      have e3 : Doc.get ⟨0, g.row⟩ a.1 = copied c' := e2
      rw [e3]
      exact means_run fpu g.members m1 m2 a c' e1
  exact key gs fun _ h => h

/-! ### examples -/

/-- `C55_order_partial` applies to `exS` of C54: the two selected documents, the greater `a` first. -/
example (r : Res (List Doc)) (hr : runSelect exFpu exRx exS ⟨[.star], some exC, [], [⟨exA, false⟩], none⟩ r) :
    ∃ out, r = .ok out ∧ out.Perm [exD 3 5 [121], exD 4 7 [120]] ∧ out.Pairwise fun a b => ¬ MustPrecede [(⟨exA, false⟩, .ints [.i64])] b a := by
  have e : selected exRx exS (some exC) = [exD 3 5 [121], exD 4 7 [120]] := by decide +kernel
  have hc : Clear exRx exS (some exC) := ⟨by decide, Or.inl ⟨exC_plain, exS_ready⟩⟩
  have hf : Fit [(⟨exA, false⟩, .ints [.i64])] (selected exRx exS (some exC)) := by
    rw [e]
    intro k hk d hd
    simp only [List.mem_cons, List.not_mem_nil, or_false] at hk hd
    subst hk
    have one : ∀ i a b, ITy.i64.fits a → (Kind.ints [.i64]).cell ((exD i a b).get exA) := by
      intro i a b ha
      exact Or.inr ⟨by simp, by intro u hu; simp at hu; subst hu; exact ha⟩
    rcases hd with rfl | rfl <;> exact one _ _ _ (by decide)
  have := C55_order_partial exFpu exRx exS (some exC) [(⟨exA, false⟩, .ints [.i64])] (by decide) hc hf [] r hr
  rw [e] at this
  exact this

theorem exS_groupable (cols : List (Bytes × Bytes)) (hn : (cols.map Prod.fst).Nodup) (hc : ∀ p ∈ cols, p.2 = exA ∨ p.2 = exB) :
    Groupable cols (selected exRx exS none) := by
  have vals : ∀ i a b, (exD i a b).value exA = some (.int .i64 a) ∧ (exD i a b).value exB = some (.str b) := fun _ _ _ => ⟨rfl, rfl⟩
  have all : ∀ d ∈ exS, ∃ i a b, d = exD i a b ∧ ITy.i64.fits a ∧ b.length < 2 := by
    intro d hd
    simp only [exS, List.mem_cons, List.not_mem_nil, or_false] at hd
    rcases hd with rfl | rfl | rfl | rfl <;> exact ⟨_, _, _, rfl, by decide, by decide⟩
  refine ⟨hn, ?_, ?_⟩
  · intro p hp d hd v hv
    obtain ⟨i, a, b, rfl, ha, hb⟩ := all d hd
    rcases hc p hp with h | h <;> rw [h] at hv
    · rw [(vals i a b).1] at hv; cases hv; exact ⟨ha, nofun⟩
    · rw [(vals i a b).2] at hv; cases hv; exact (by show b.length < 2 ^ 32; omega)
  · intro p hp d hd e he t u m n h1 h2
    obtain ⟨i, a, b, rfl, -, -⟩ := all d hd
    obtain ⟨j, a', b', rfl, -, -⟩ := all e he
    rcases hc p hp with h | h <;> rw [h] at h1 h2
    · rw [(vals i a b).1] at h1; rw [(vals j a' b').1] at h2; cases h1; cases h2; rfl
    · rw [(vals i a b).2] at h1; cases h1

/-- `C55_columns_partial` applies: `SELECT a AS x, b AS y`. -/
example (r : Res (List Doc)) (hr : runSelect exFpu exRx exS ⟨columns [([120], exA), ([121], exB)], none, [], [], none⟩ r) :
    ∃ rows, r = .ok rows ∧ List.Forall₂ (Shows [([120], exA), ([121], exB)]) exS rows :=
  C55_columns_partial exFpu exRx exS none [([120], exA), ([121], exB)] (by simp) (by decide) trivial (exS_groupable _ (by decide) (by simp))
    (by decide) (by decide +kernel) r hr

/-- `C55_group_partial` applies: `SELECT b, count(a) AS n, sum(a) AS s, min(a) AS m GROUP BY b`. -/
example (rows : List Doc) (hr : runSelect exFpu exRx exS ⟨columns [(exB, exB)] ++ calls [([110], .count, exA), ([115], .sum, exA), ([109], .min, exA)],
      none, [exB], [], none⟩ (.ok rows)) :
    List.Forall₂ (fun m row => (∀ d ∈ m, Shows [(exB, exB)] d row) ∧ ∀ a ∈ [([110], Fn.count, exA), ([115], .sum, exA), ([109], .min, exA)], Means m a (row.get a.1))
      [[exD 1 1 [121], exD 3 5 [121]], [exD 2 3 [120], exD 4 7 [120]]] rows := by
  have := C55_group_partial exFpu exRx exS none [(exB, exB)] [([110], .count, exA), ([115], .sum, exA), ([109], .min, exA)] (by simp) (by simp)
    (by decide) (by decide) trivial (exS_groupable _ (by decide) (by simp)) (by decide) rows hr
  rw [show classes (SameKeys ([(exB, exB)].map Prod.snd)) (selected exRx exS none) =
    [[exD 1 1 [121], exD 3 5 [121]], [exD 2 3 [120], exD 4 7 [120]]] from by decide +kernel] at this
  exact this

/-- There is such an answer. -/
example : runSelect exFpu exRx exS ⟨columns [(exB, exB)] ++ calls [([110], .count, exA), ([115], .sum, exA), ([109], .min, exA)], none, [exB], [], none⟩
    (.ok [⟨0, [(exB, .scalar (.str [121])), ([110], .scalar (.int .u64 2)), ([115], .scalar (.int .i64 6)), ([109], .scalar (.int .i64 1))]⟩,
      ⟨0, [(exB, .scalar (.str [120])), ([110], .scalar (.int .u64 2)), ([115], .scalar (.int .i64 10)), ([109], .scalar (.int .i64 3))]⟩]) := by
  have h : (trSelect ⟨columns [(exB, exB)] ++ calls [([110], .count, exA), ([115], .sum, exA), ([109], .min, exA)], none, [exB], [], none⟩).bind
      (rowsOf exFpu exRx exS) =
    .ok [⟨0, [(exB, .scalar (.str [121])), ([110], .scalar (.int .u64 2)), ([115], .scalar (.int .i64 6)), ([109], .scalar (.int .i64 1))]⟩,
      ⟨0, [(exB, .scalar (.str [120])), ([110], .scalar (.int .u64 2)), ([115], .scalar (.int .i64 10)), ([109], .scalar (.int .i64 3))]⟩] := by decide +kernel
  unfold runSelect
  rw [h]
  rfl

/-! ### where the full claim fails -/

/-- The answer of a SELECT without ORDER BY. -/
theorem run_of (store : List Doc) (s : Select) (ho : s.order = []) (r : Res (List Doc)) (h : (trSelect s).bind (rowsOf exFpu exRx store) = r) :
    runSelect exFpu exRx store s r := by
  unfold runSelect
  rw [h]
  cases r <;> simp [ho]

/-- Rows that look the same are merged: `SELECT b` of three documents with two texts gives two rows. -/
theorem C55_duplicates_fails : runSelect exFpu exRx [exD 1 1 [120], exD 2 2 [121], exD 3 3 [120]] ⟨columns [(exB, exB)], none, [], [], none⟩
      (.ok [⟨0, [(exB, .scalar (.str [120]))]⟩, ⟨0, [(exB, .scalar (.str [121]))]⟩]) ∧ ¬ C55_claim := by
  have h := run_of [exD 1 1 [120], exD 2 2 [121], exD 3 3 [120]] ⟨columns [(exB, exB)], none, [], [], none⟩ rfl
    (.ok [⟨0, [(exB, .scalar (.str [120]))]⟩, ⟨0, [(exB, .scalar (.str [121]))]⟩]) (by decide +kernel)
  refine ⟨h, fun hc => ?_⟩
  obtain ⟨sel, rows, e1, -, e2, e3⟩ := hc exFpu exRx [exD 1 1 [120], exD 2 2 [121], exD 3 3 [120]] [(exB, exB)] none (by decide) (by decide) _ h
  cases e1
  have := e3.length_eq
  rw [e2] at this
  cases this

/-- A document without one of the columns gives no row. -/
theorem C55_missing_fails : runSelect exFpu exRx [exD 1 1 [120], ⟨2, [(exA, .scalar (.int .i64 2))]⟩] ⟨columns [(exA, exA), (exB, exB)], none, [], [], none⟩
      (.ok [⟨0, [(exA, .scalar (.int .i64 1)), (exB, .scalar (.str [120]))]⟩]) ∧ ¬ C55_claim := by
  have h := run_of [exD 1 1 [120], ⟨2, [(exA, .scalar (.int .i64 2))]⟩] ⟨columns [(exA, exA), (exB, exB)], none, [], [], none⟩ rfl
    (.ok [⟨0, [(exA, .scalar (.int .i64 1)), (exB, .scalar (.str [120]))]⟩]) (by decide +kernel)
  refine ⟨h, fun hc => ?_⟩
  obtain ⟨sel, rows, e1, -, e2, e3⟩ := hc exFpu exRx [exD 1 1 [120], ⟨2, [(exA, .scalar (.int .i64 2))]⟩] [(exA, exA), (exB, exB)] none (by decide) (by decide) _ h
  cases e1
  have := e3.length_eq
  rw [e2] at this
  cases this

/-- LIMIT is not looked at: for every statement the answers are those of the statement without it; `SELECT a LIMIT 1` of
two documents gives two rows. -/
theorem C55_limit_fails : (∀ fpu rx store s lim r, runSelect fpu rx store { s with limit := lim } r ↔ runSelect fpu rx store s r) ∧
    runSelect exFpu exRx [exD 1 1 [], exD 2 2 []] ⟨columns [(exA, exA)], none, [], [], some 1⟩
      (.ok [⟨0, [(exA, .scalar (.int .i64 1))]⟩, ⟨0, [(exA, .scalar (.int .i64 2))]⟩]) ∧ ¬ C55_claim := by
  have h := run_of [exD 1 1 [], exD 2 2 []] ⟨columns [(exA, exA)], none, [], [], some 1⟩ rfl
    (.ok [⟨0, [(exA, .scalar (.int .i64 1))]⟩, ⟨0, [(exA, .scalar (.int .i64 2))]⟩]) (by decide +kernel)
  refine ⟨fun _ _ _ _ _ _ => Iff.rfl, h, fun hc => ?_⟩
  obtain ⟨sel, rows, e1, -, e2, e3⟩ := hc exFpu exRx [exD 1 1 [], exD 2 2 []] [(exA, exA)] (some 1) (by decide) (by decide) _ h
  cases e1
  have := e3.length_eq
  rw [e2] at this
  cases this

/-- GROUP BY is not looked at: for every statement the answers are those of the statement without it.
`SELECT count(a) AS n GROUP BY b` gives one row for documents with two texts in `b`. -/
theorem C55_group_by_fails : (∀ fpu rx store s g r, runSelect fpu rx store { s with group := g } r ↔ runSelect fpu rx store s r) ∧
    runSelect exFpu exRx [exD 1 1 [120], exD 2 2 [121]] ⟨calls [([110], .count, exA)], none, [exB], [], none⟩
      (.ok [⟨0, [([110], .scalar (.int .u64 2))]⟩]) :=
  ⟨fun _ _ _ _ _ _ => Iff.rfl, run_of _ _ rfl _ (by decide +kernel)⟩

/-- `count(a)` counts the documents without `a` too, and over no documents there is no row at all. -/
theorem C55_count_fails : runSelect exFpu exRx [exD 1 1 [], ⟨2, []⟩] ⟨calls [([110], .count, exA)], none, [], [], none⟩ (.ok [⟨0, [([110], .scalar (.int .u64 2))]⟩]) ∧
    runSelect exFpu exRx [] ⟨calls [([110], .count, exA)], none, [], [], none⟩ (.ok []) :=
  ⟨run_of _ _ rfl _ (by decide +kernel), run_of _ _ rfl _ (by decide +kernel)⟩

/-- `count(*)` reads an argument that is not there, a constant in the list throws, an unknown function is left out. -/
theorem C55_target_fails (store : List Doc) : runSelect exFpu exRx store ⟨[.callStar .count], none, [], [], none⟩ .ub ∧
    runSelect exFpu exRx [exD 1 1 []] ⟨[.col none exA none, .lit (.int 1) exB], none, [], [], none⟩ .throws ∧
    runSelect exFpu exRx [exD 1 1 []] ⟨[.col none exA none, .call .other none exA exB], none, [], [], none⟩ (.ok [⟨0, [(exA, .scalar (.int .i64 1))]⟩]) :=
  ⟨run_of _ _ rfl _ rfl, run_of _ _ rfl _ (by decide +kernel), run_of _ _ rfl _ (by decide +kernel)⟩

/-- In `sum(b.a)`, of the column `a` of the table `b`, the name of the table is taken for the column: if a column has it, that is summed. -/
theorem C55_qualified_fails : runSelect exFpu exRx [⟨1, [(exA, .scalar (.int .i64 1)), (exB, .scalar (.int .i64 5))]⟩]
      ⟨[.call .sum (some exB) exA [115]], none, [], [], none⟩ (.ok [⟨0, [([115], .scalar (.int .i64 5))]⟩]) :=
  run_of _ _ rfl _ (by decide +kernel)

/-- Rows are sorted after the columns are chosen: by a column that is not among them they are not sorted. -/
theorem C55_order_hidden_fails : runSelect exFpu exRx [⟨1, [(exA, .scalar (.int .i64 1)), (exB, .scalar (.int .i64 5))]⟩, ⟨2, [(exA, .scalar (.int .i64 2)), (exB, .scalar (.int .i64 4))]⟩]
      ⟨columns [(exA, exA)], none, [], [⟨exB, true⟩], none⟩ (.ok [⟨0, [(exA, .scalar (.int .i64 1))]⟩, ⟨0, [(exA, .scalar (.int .i64 2))]⟩]) := by
  have h : (trSelect ⟨columns [(exA, exA)], none, [], [⟨exB, true⟩], none⟩).bind (rowsOf exFpu exRx
      [⟨1, [(exA, .scalar (.int .i64 1)), (exB, .scalar (.int .i64 5))]⟩, ⟨2, [(exA, .scalar (.int .i64 2)), (exB, .scalar (.int .i64 4))]⟩]) =
      .ok [⟨0, [(exA, .scalar (.int .i64 1))]⟩, ⟨0, [(exA, .scalar (.int .i64 2))]⟩] := by decide +kernel
  unfold runSelect
  rw [h]
  show sortOp [⟨exB, true⟩] _ (.ok [_, _])
  unfold sortOp StdSort
  intro _
  refine ⟨List.Perm.refl _, ?_⟩
  decide +kernel

end Verif.Sql
