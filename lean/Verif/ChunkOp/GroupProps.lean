import Verif.ChunkOp.Group
/-!
C73: GROUP BY on a table.
-/
namespace Verif.ChunkOp
open Verif Verif.Num Verif.PhysKey Verif.LogVal

/-- The full claim: one row for each key, in the order of first appearance, with the key and the aggregates over the rows with
that key; without columns to group by, one row. -/
def C73_group_claim : Prop := ∀ (fl : Fl) (conv : Nat → LV → LV) (keys : List GKey) (aggs : List Agg) (c : Ch),
  (∀ r ∈ c.rows, Typed c.cols r) → (∀ k ∈ keys, ∃ ty, tyOf c.cols k.field = some ty ∧ ty.exact) → (∀ a ∈ aggs, a.Sound c.cols) →
  (∀ a ∈ aggs, ∀ key, a.Small c.cols (members c.cols keys c.rows key)) →
  ∃ out, groupOp fl conv keys aggs c = .ok out ∧ List.Forall₂ (GroupRow fl c.cols keys aggs c.rows) (groupKeys c.cols keys c.rows) out.2

/-- Grouping of rows whose NULLs count as zeros. -/
theorem C73_group_zeros (fl : Fl) (conv : Nat → LV → LV) (keys : List GKey) (aggs : List Agg) (c : Ch)
    (ht : ∀ r ∈ c.rows, Typed c.cols r) (hk : ∀ k ∈ keys, ∃ ty, tyOf c.cols k.field = some ty ∧ ty.exact)
    (hs : ∀ a ∈ aggs, a.Sound c.cols) (hw : ∀ a ∈ aggs, a.Wide c.cols)
    (hsm : ∀ a ∈ aggs, ∀ key, a.Small c.cols (members c.cols keys (c.rows.map (fill c.cols)) key))
    (hkind : (aggs.map Agg.kind).Nodup) (hname : ∀ k ∈ keys, ∀ a ∈ aggs, k.name ≠ a.kind) (hrows : keys = [] → c.rows ≠ []) :
    ∃ out, groupOp fl conv keys aggs c = .ok out ∧ (c.rows ≠ [] → out.1.map Prod.fst = keys.map GKey.field ++ aggs.map Agg.kind) ∧
      List.Forall₂ (GroupRow fl c.cols keys aggs (c.rows.map (fill c.cols))) (groupKeys c.cols keys (c.rows.map (fill c.cols))) out.2 := by
  obtain ⟨cs, rows, spare⟩ := c
  simp only at ht hk hs hw hsm hrows
  have hk' : ∀ k ∈ keys, ∃ ty, tyOf cs k.field = some ty := fun k h => (hk k h).imp fun _ h => h.1
  have hg := groupRows_ok hk rows [] (by simpa using ht)
  simp only [List.map_nil, firsts, List.nil_append] at hg
  -- the keys with and without names
  have hinj : ∀ r ∈ rows, ∀ s ∈ rows, keyCells cs keys (fill cs r) = keyCells cs keys (fill cs s) ↔ keyOf cs keys r = keyOf cs keys s := by
    intro r hr s hs'
    rw [← (keyRow_ok (ht r hr) keys hk').2, ← (keyRow_ok (ht s hs') keys hk').2]
    constructor
    · intro e
      simp only [keyOf, List.map_map] at e ⊢
      rw [List.map_inj_left] at e ⊢
      intro k hk''
      have := e k hk''
      simp only [Function.comp_apply, Option.some.injEq] at this
      rw [this]
    · intro e; rw [e]
  have hmem : ∀ r ∈ rows, members cs keys (rows.map (fill cs)) (keyCells cs keys (fill cs r)) = (rows.filter fun s => decide (keyOf cs keys s = keyOf cs keys r)).map (fill cs) := by
    intro r hr
    rw [members, List.filter_map]
    congr 1
    apply List.filter_congr
    intro s hs'
    simp only [Function.comp_apply, decide_eq_decide]
    exact hinj s hs' r hr
  -- the aggregates
  have hrun : ∀ a ∈ aggs, ∀ k ∈ firsts (rows.map (keyOf cs keys)), ∃ v,
      a.run fl cs ((rows.filter fun s => decide (keyOf cs keys s = k)).map (values cs)) = .ok v ∧
      a.is fl cs ((rows.filter fun s => decide (keyOf cs keys s = k)).map (fill cs)) v ∧ v.code = a.code cs ∧ v ≠ .na := by
    intro a ha k hkk
    obtain ⟨r, hr, rfl⟩ := List.mem_map.mp (mem_firsts.mp hkk)
    refine run_ok fl (hs a ha) (hw a ha) (fun s hs' => ht s (List.mem_of_mem_filter hs')) ?_ ?_
    · rw [← hmem r hr]; exact hsm a ha _
    · intro e
      have : r ∈ rows.filter fun s => decide (keyOf cs keys s = keyOf cs keys r) := by simp [hr]
      rw [e] at this
      exact nomatch this
  classical
  let W : Agg → List (Bytes × LV) → LV := fun a k =>
    if h : ∃ v, a.run fl cs ((rows.filter fun s => decide (keyOf cs keys s = k)).map (values cs)) = .ok v then h.choose else .na
  have hW : ∀ a ∈ aggs, ∀ k ∈ firsts (rows.map (keyOf cs keys)),
      a.run fl cs ((rows.filter fun s => decide (keyOf cs keys s = k)).map (values cs)) = .ok (W a k) ∧
      a.is fl cs ((rows.filter fun s => decide (keyOf cs keys s = k)).map (fill cs)) (W a k) ∧ (W a k).code = a.code cs ∧ W a k ≠ .na := by
    intro a ha k hkk
    obtain ⟨v, h1, h2⟩ := hrun a ha k hkk
    have he : ∃ v, a.run fl cs ((rows.filter fun s => decide (keyOf cs keys s = k)).map (values cs)) = .ok v := ⟨v, h1⟩
    have hv : W a k = v := by
      have hc := h1.symm.trans he.choose_spec
      show (if h : _ then _ else _) = _
      rw [dif_pos he]
      injection hc with hc
      exact hc.symm
    rw [hv]
    exact ⟨h1, h2⟩
  have hagg := aggAll_ok fl cs (W := W) (ks := firsts (rows.map (keyOf cs keys))) (I := fun k => (rows.filter fun s => decide (keyOf cs keys s = k)).map (values cs))
    aggs (fun k => k) hkind (fun a ha k hkk => ⟨(hW a ha k hkk).1, fun p hp => by
      obtain ⟨r, _, rfl⟩ := List.mem_map.mp (mem_firsts.mp hkk)
      obtain ⟨g, hg', rfl⟩ := List.mem_map.mp hp
      exact hname g hg' a ha⟩)
  -- the rows of the result
  have hout := outRows_ok (conv := conv) (ts := keyTypes cs keys (rows.map (values cs)) ++
      aggs.map fun a => (a.kind, (((((firsts (rows.map (keyOf cs keys)))).map (W a)).getLast?).getD .na).code))
    (O := fun k => k ++ aggs.map fun a => (a.kind, W a k)) (I := fun k => (rows.filter fun s => decide (keyOf cs keys s = k)).map (values cs))
    (firsts (rows.map (keyOf cs keys))) (fun k hkk => by
      obtain ⟨r, hr, rfl⟩ := List.mem_map.mp (mem_firsts.mp hkk)
      obtain ⟨r0, rows', rfl⟩ : ∃ r0 rows', rows = r0 :: rows' := by
        cases rows with
        | nil => exact nomatch hr
        | cons r0 rows' => exact ⟨r0, rows', rfl⟩
      rw [List.map_cons, keyTypes_ok (ht r0 List.mem_cons_self) _ keys hk']
      apply List.rel_append
      · rw [keyOf, List.forall₂_map_left_iff, List.forall₂_map_right_iff, List.forall₂_same]
        intro g hg'
        obtain ⟨ty, hty⟩ := hk' g hg'
        obtain ⟨v, h1, h2, _⟩ := valueOf_ok (ht r hr) hty
        have := code_of_has h2
        simp [h1, hty, this.1, this.2]
      · rw [List.forall₂_map_left_iff, List.forall₂_map_right_iff, List.forall₂_same]
        intro a ha
        refine ⟨?_, (hW a ha _ hkk).2.2.2⟩
        rw [(hW a ha _ hkk).2.2.1]
        have hne : ((firsts (((r0 :: rows')).map (keyOf cs keys))).map (W a)) ≠ [] := by
          intro e
          rw [List.map_eq_nil_iff] at e
          rw [e] at hkk
          exact nomatch hkk
        rw [List.getLast?_eq_some_getLast hne, Option.getD_some]
        obtain ⟨k', hk1, hk2⟩ := List.mem_map.mp (List.getLast_mem hne)
        rw [← hk2]
        exact (hW a ha k' hk1).2.2.1.symm)
  refine ⟨_, by simp only [groupOp, hg, hagg, Res.bind, hout, Res.map']; rfl, ?_, ?_⟩
  · intro hne
    obtain ⟨r0, rows', rfl⟩ : ∃ r0 rows', rows = r0 :: rows' := by
      cases rows with
      | nil => exact absurd rfl hne
      | cons r0 rows' => exact ⟨r0, rows', rfl⟩
    simp only [List.map_append]
    rw [List.map_cons, keyTypes_ok (ht r0 List.mem_cons_self) _ keys hk']
    simp [Function.comp_def]
  · have hkeys : groupKeys cs keys (rows.map (fill cs)) = (firsts (rows.map (keyOf cs keys))).map fun k => k.map fun p => some p.2 := by
      have e1 : (rows.map (fill cs)).map (keyCells cs keys) = (rows.map (keyOf cs keys)).map fun k => k.map fun p => some p.2 := by
        rw [List.map_map, List.map_map]
        apply List.map_congr_left
        intro r hr
        exact (keyRow_ok (ht r hr) keys hk').2.symm
      have e2 : firsts ((rows.map (fill cs)).map (keyCells cs keys)) = (firsts (rows.map (keyOf cs keys))).map fun k => k.map fun p => some p.2 := by
        rw [e1, firsts_map]
        intro a ha b hb e
        obtain ⟨r, hr, rfl⟩ := List.mem_map.mp ha
        obtain ⟨s, hs', rfl⟩ := List.mem_map.mp hb
        rw [(keyRow_ok (ht r hr) keys hk').2, (keyRow_ok (ht s hs') keys hk').2] at e
        exact (hinj r hr s hs').mp e
      rw [groupKeys]
      by_cases hkn : keys = []
      · rw [if_pos hkn]
        subst hkn
        have hne := hrows rfl
        obtain ⟨r0, rows', rfl⟩ : ∃ r0 rows', rows = r0 :: rows' := by
          cases rows with
          | nil => exact absurd rfl hne
          | cons r0 rows' => exact ⟨r0, rows', rfl⟩
        have : ∀ l : List Row, (firsts (l.map (keyOf cs []))).filter (fun y => decide (y ≠ [])) = [] := by
          intro l
          rw [List.filter_eq_nil_iff]
          intro x hx
          obtain ⟨r, _, rfl⟩ := List.mem_map.mp (mem_firsts.mp hx)
          simp [keyOf]
        simp only [List.map_cons, firsts]
        have h0 : keyOf cs [] r0 = [] := rfl
        rw [h0, this]
        rfl
      · rw [if_neg hkn, e2]
    rw [hkeys, List.forall₂_map_left_iff, List.forall₂_map_right_iff, List.forall₂_same]
    intro k hkk
    refine ⟨aggs.map fun a => W a k, by simp, ?_⟩
    rw [List.forall₂_map_right_iff, List.forall₂_same]
    intro a ha
    have := (hW a ha k hkk).2.1
    obtain ⟨r, hr, rfl⟩ := List.mem_map.mp (mem_firsts.mp hkk)
    rw [(keyRow_ok (ht r hr) keys hk').2, hmem r hr]
    exact this

/-- Grouping of rows without NULLs. Missing: NULLs, columns under 32 bits in sums, two aggregates of one kind, a key with the
name of an aggregate, and aggregates over no rows. -/
theorem C73_group_partial (fl : Fl) (conv : Nat → LV → LV) (keys : List GKey) (aggs : List Agg) (c : Ch)
    (ht : ∀ r ∈ c.rows, Typed c.cols r) (hfull : ∀ r ∈ c.rows, Full r) (hk : ∀ k ∈ keys, ∃ ty, tyOf c.cols k.field = some ty ∧ ty.exact)
    (hs : ∀ a ∈ aggs, a.Sound c.cols) (hw : ∀ a ∈ aggs, a.Wide c.cols)
    (hsm : ∀ a ∈ aggs, ∀ key, a.Small c.cols (members c.cols keys c.rows key))
    (hkind : (aggs.map Agg.kind).Nodup) (hname : ∀ k ∈ keys, ∀ a ∈ aggs, k.name ≠ a.kind) (hrows : keys = [] → c.rows ≠ []) :
    ∃ out, groupOp fl conv keys aggs c = .ok out ∧ (c.rows ≠ [] → out.1.map Prod.fst = keys.map GKey.field ++ aggs.map Agg.kind) ∧
      List.Forall₂ (GroupRow fl c.cols keys aggs c.rows) (groupKeys c.cols keys c.rows) out.2 := by
  have he : c.rows.map (fill c.cols) = c.rows := by
    conv_rhs => rw [← List.map_id c.rows]
    apply List.map_congr_left
    intro r hr
    exact fill_full (ht r hr) (hfull r hr)
  have := C73_group_zeros fl conv keys aggs c ht hk hs hw (he.symm ▸ hsm) hkind hname hrows
  rwa [he] at this

/-! ### A concrete case -/

/-- Two columns: a text `k` and an integer `n`. -/
def gCols : Cols := [([107], .str), ([110], .int .i64)]
def gRow (k : UInt8) (n : Int) : Row := [some (.str [k]), some (.int .i64 n)]
def gCh : Ch := ⟨gCols, [gRow 1 10, gRow 2 20, gRow 1 30], []⟩
def gFl : Fl := ⟨fun _ _ => .throws, fun a _ => a⟩
def gConv : Nat → LV → LV := fun _ _ => .na
def gKey : GKey := ⟨[107], [107]⟩

example : ∃ out, groupOp gFl gConv [gKey] [.count, .sum [110], .max [110]] gCh = .ok out ∧
    (gCh.rows ≠ [] → out.1.map Prod.fst = [[107], Agg.count.kind, (Agg.sum [110]).kind, (Agg.max [110]).kind]) ∧
    List.Forall₂ (GroupRow gFl gCh.cols [gKey] [.count, .sum [110], .max [110]] gCh.rows) (groupKeys gCh.cols [gKey] gCh.rows) out.2 := by
  have hcol : ∀ rows : List Row, (∀ r ∈ rows, r ∈ gCh.rows) → ∀ (t : ITy) (ns : List Int), colVals gCols [110] rows = ns.map (LV.int t) →
      ∀ n ∈ ns, t = .i64 ∧ (n = 10 ∨ n = 20 ∨ n = 30) := by
    intro rows hr t ns e n hn
    have : LV.int t n ∈ colVals gCols [110] rows := e ▸ List.mem_map_of_mem hn
    simp only [colVals, List.mem_filterMap] at this
    obtain ⟨r, h1, h2⟩ := this
    have := hr r h1
    simp only [gCh, List.mem_cons, List.not_mem_nil, or_false] at this
    rcases this with rfl | rfl | rfl <;> simp [cell, gCols, gRow] at h2 <;> exact ⟨h2.1.symm, by omega⟩
  have hsum : ∀ (ns : List Int), (∀ n ∈ ns, n = 10 ∨ n = 20 ∨ n = 30) → 0 ≤ ns.sum ∧ ns.sum ≤ 30 * ns.length := by
    intro ns h
    induction ns with
    | nil => simp
    | cons n ns ih =>
      have h1 := ih fun m hm => h m (List.mem_cons_of_mem _ hm)
      have h2 := h n List.mem_cons_self
      simp only [List.sum_cons, List.length_cons]
      omega
  refine C73_group_partial gFl gConv [gKey] [.count, .sum [110], .max [110]] gCh ?_ ?_ ?_ ?_ ?_ ?_ (by decide) (by decide) (by simp)
  · intro r hr
    simp only [gCh, List.mem_cons, List.not_mem_nil, or_false] at hr
    rcases hr with rfl | rfl | rfl <;>
      exact .cons (by intro v hv; simp at hv; subst hv; simp [Ty.has]) (.cons (by intro v hv; simp at hv; subst hv; simp [Ty.has]; decide) .nil)
  · intro r hr
    simp only [gCh, List.mem_cons, List.not_mem_nil, or_false] at hr
    rcases hr with rfl | rfl | rfl <;> simp [Full, gRow]
  · simp [gKey, gCh, gCols, tyOf, Ty.exact]
  · simp [Agg.Sound, gCh, gCols, tyOf, Ty.exact]
  · simp [Agg.Wide, gCh, gCols, tyOf, ITy.bits]
  · intro a ha key
    simp only [List.mem_cons, List.not_mem_nil, or_false] at ha
    rcases ha with rfl | rfl | rfl
    · trivial
    · intro t ns e k
      have hsub : ∀ r ∈ members gCh.cols [gKey] gCh.rows key, r ∈ gCh.rows := fun r hr => List.mem_of_mem_filter hr
      have hn := hcol _ hsub t ns e
      have hlen : ns.length ≤ 3 := by
        have h1 : (colVals gCols [110] (members gCh.cols [gKey] gCh.rows key)).length = ns.length := by
          have e' : colVals gCols [110] (members gCh.cols [gKey] gCh.rows key) = ns.map (LV.int t) := e
          rw [e']; simp
        have h2 : (colVals gCols [110] (members gCh.cols [gKey] gCh.rows key)).length ≤ (members gCh.cols [gKey] gCh.rows key).length := List.length_filterMap_le ..
        have h3 : (members gCh.cols [gKey] gCh.rows key).length ≤ gCh.rows.length := List.length_filter_le ..
        have h4 : gCh.rows.length = 3 := rfl
        omega
      have hs := hsum (ns.take k) fun n h => (hn n (List.mem_of_mem_take h)).2
      have hl : (ns.take k).length ≤ 3 := by rw [List.length_take]; omega
      cases hns : ns.take k with
      | nil => cases t <;> decide
      | cons n l =>
        have ht : t = .i64 := (hn n (List.mem_of_mem_take (hns ▸ List.mem_cons_self))).1
        subst ht
        rw [← hns]
        have : ∀ x : Int, 0 ≤ x → x ≤ 100 → ITy.fits .i64 x := by
          intro x h1 h2
          simp only [ITy.fits, ITy.signed, ITy.bits, if_true]
          omega
        apply this <;>
        omega
    · trivial

/-! ### Where the code differs -/

/-- `SELECT count(*)` of an empty table returns no row. -/
theorem C73_empty_fails : ¬ C73_group_claim := by
  intro h
  obtain ⟨out, h1, h2⟩ := h gFl gConv [] [.count] ⟨gCols, [], []⟩ (by simp) (by simp) (by simp [Agg.Sound]) (by simp [Agg.Small])
  have : out = ([([99, 111, 117, 110, 116], 0)], []) := by
    have e : groupOp gFl gConv [] [.count] ⟨gCols, [], []⟩ = .ok ([([99, 111, 117, 110, 116], 0)], []) := by decide +kernel
    rw [e] at h1
    injection h1 with h1
    exact h1.symm
  subst this
  simp only [groupKeys, if_true] at h2
  exact nomatch h2

/-- A NULL is a 0 for an aggregate: the least of NULL and 5 is 0; and a NULL key is in the group of the empty text. -/
theorem C73_null_fails :
    groupOp gFl gConv [] [.min [110]] ⟨gCols, [[some (.str [1]), none], gRow 1 5], []⟩ = .ok ([((Agg.min [110]).kind, tcode .i64)], [[some (.int .i64 0)]]) ∧
    ¬ (Agg.min [110]).is gFl gCols [[some (.str [1]), none], gRow 1 5] (.int .i64 0) ∧
    groupOp gFl gConv [gKey] [.count] ⟨gCols, [[none, none], gRow 1 5, [some (.str []), none]], []⟩ =
      .ok ([([107], (LV.str []).code), (Agg.count.kind, tcode .u64)], [[some (.str []), some (.int .u64 2)], [some (.str [1]), some (.int .u64 1)]]) ∧
    groupKeys gCols [gKey] [[none, none], gRow 1 5, [some (.str []), none]] = [[none], [some (.str [1])], [some (.str [])]] := by
  refine ⟨by decide +kernel, ?_, by decide +kernel, by decide +kernel⟩
  intro h
  have : colVals gCols [110] [[some (.str [1]), none], gRow 1 5] = [.int .i64 5] := by decide +kernel
  have h1 := h.1
  rw [this] at h1
  exact absurd h1 (by decide)

/-- Two aggregates of one kind: the second one takes the place of the first one, and the result is read beyond its end. -/
theorem C73_kinds_fails : groupOp gFl gConv [gKey] [.sum [110], .sum [110]] gCh = .ub := by decide +kernel

/-- A key that is called like an aggregate is lost in the same way: `SELECT k AS sum, sum(n) … GROUP BY k`. -/
theorem C73_key_name_fails : groupOp gFl gConv [⟨Agg.kind (.sum []), [107]⟩] [.sum [110]] gCh = .ub := by decide +kernel

/-- A sum over two rows of a column of 8 bits throws: the sum with the first row has 32 bits, and values of 32 and 8 bits are not added. -/
theorem C73_narrow_fails : groupOp gFl gConv [] [.sum [110]] ⟨[([110], .int .i8)], [[some (.int .i8 1)], [some (.int .i8 2)]], []⟩ = .throws := by
  decide +kernel

/-- The name asked for a column is not used: `SELECT k AS x, … GROUP BY k` returns a column `k`. -/
theorem C73_alias_fails : ¬ ∀ (fl : Fl) (conv : Nat → LV → LV) (keys : List GKey) (aggs : List Agg) (c : Ch) (out : List (Bytes × Nat) × List Row),
    groupOp fl conv keys aggs c = .ok out → c.rows ≠ [] → (out.1.map Prod.fst).take keys.length = keys.map GKey.name := by
  intro h
  have := h gFl gConv [⟨[120], [107]⟩] [] gCh _ rfl (by simp [gCh])
  exact absurd this (by decide +kernel)

end Verif.ChunkOp
