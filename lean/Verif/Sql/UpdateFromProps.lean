import Verif.Sql.UpdateFromLemmas
import Verif.Sql.UpdateProps
/-!
C87: UPDATE ... FROM in SQL.
-/
namespace Verif.Sql

open Verif.DocVal Verif.Query Verif.Num Verif.LogVal Verif.PhysKey

/-- C87 in full: UPDATE ... FROM assigns to each document that has partners in the other collection the values the
expressions have for the old document and one of its partners, changes nothing else, and reports no document twice. -/
def C87_claim : Prop := ∀ (m : Update.Math) (wf : UInt32 → UInt64) (rx : Bytes → Bytes → Res Bool) (tl ts : Bytes) (sets : List (Bytes × SExpr))
  (c : Cond) (store other : List UDoc), UpdatableFrom rx tl ts sets c store other →
  DoneFrom rx tl ts sets c store other (runUpdateFrom m wf rx tl ts sets (some c) store other)

theorem nodup_reported (f : UDoc → UDoc → List Nat → Prop) (store : List UDoc) (hu : (store.map UDoc.id).Nodup) (out : List (UDoc × List Nat))
    (h : List.Forall₂ (fun d (x : UDoc × List Nat) => (x.2 = [] ∨ x.2 = [d.id]) ∧ f d x.1 x.2) store out) :
    ((out.map Prod.snd).flatten).Nodup ∧ ∀ i ∈ (out.map Prod.snd).flatten, i ∈ store.map UDoc.id := by
  induction h with
  | nil => exact ⟨List.nodup_nil, by simp⟩
  | cons h _ ih =>
    rename_i d x ds out _
    obtain ⟨hd, hu⟩ := List.nodup_cons.mp hu
    obtain ⟨i1, i2⟩ := ih hu
    rw [List.map_cons, List.flatten_cons]
    rcases h.1 with h | h
    · rw [h, List.nil_append]
      exact ⟨i1, fun i hi => List.mem_cons_of_mem _ (i2 i hi)⟩
    · rw [h, List.singleton_append]
      refine ⟨List.nodup_cons.mpr ⟨fun hm => hd (i2 _ hm), i1⟩, ?_⟩
      intro i hi
      rcases List.mem_cons.mp hi with rfl | hi
      · exact List.mem_cons_self
      · exact List.mem_cons_of_mem _ (i2 i hi)

theorem mem_reported (Q : UDoc → Prop) (f : UDoc → UDoc → List Nat → Prop) (store : List UDoc) (out : List (UDoc × List Nat))
    (h : List.Forall₂ (fun d (x : UDoc × List Nat) => (x.2 = [] ∨ x.2 = [d.id]) ∧ (x.2 ≠ [] ↔ Q d) ∧ f d x.1 x.2) store out) (i : Nat) :
    i ∈ (out.map Prod.snd).flatten ↔ ∃ d ∈ store, d.id = i ∧ Q d := by
  induction h with
  | nil => simp
  | cons h _ ih =>
    rename_i d x ds out _
    rw [List.map_cons, List.flatten_cons, List.mem_append, ih]
    constructor
    · rintro (hi | ⟨e, he, h'⟩)
      · rcases h.1 with h1 | h1
        · rw [h1] at hi; cases hi
        · have hq := h.2.1.mp (by rw [h1]; simp)
          rw [h1] at hi
          exact ⟨d, List.mem_cons_self, (List.mem_singleton.mp hi).symm, hq⟩
      · exact ⟨e, List.mem_cons_of_mem _ he, h'⟩
    · rintro ⟨e, he, rfl, hq⟩
      rcases List.mem_cons.mp he with rfl | he
      · left
        rcases h.1 with h1 | h1
        · exact absurd h1 (h.2.1.mpr hq)
        · rw [h1]; exact List.mem_cons_self
      · exact Or.inr ⟨e, he, rfl, hq⟩

/-- UPDATE ... FROM where no document has two partners and no column the condition compares is assigned to: every document
with a partner has the values for its old contents and the partner, everything else is as before, and exactly the changed
documents are reported, once. -/
theorem C87_update_partial (m : Update.Math) (wf : UInt32 → UInt64) (rx : Bytes → Bytes → Res Bool) (tl ts : Bytes) (sets : List (Bytes × SExpr))
    (c : Cond) (store other : List UDoc) (h : UpdatableFrom rx tl ts sets c store other)
    (hone : ∀ d ∈ store, (other.filter fun r => decide (Partners rx tl c d r)).length ≤ 1) (hcol : ∀ p ∈ sets, p.1 ∉ c.colsOf tl) :
    ∃ store' ids, runUpdateFrom m wf rx tl ts sets (some c) store other = .ok (store', ids) ∧
      List.Forall₂ (UpdatedFrom rx tl ts sets c other) store store' ∧ ids.Nodup ∧
      ∀ i, i ∈ ids ↔ ∃ d ∈ store, d.id = i ∧ ∃ r ∈ other, Partners rx tl c d r ∧ AlteredFrom tl ts sets r.node d.node := by
  have len := buildSetsF_length tl ts sets h.exprs.1 []
  rw [List.length_nil, Nat.zero_add] at len
  obtain ⟨f, ext, h1, h2⟩ := pred_sided rx tl ts h.tables c h.cond (buildSetsF tl sets []).2 (by rw [len]; exact h.consts)
  have scan : ∀ l : List UDoc, l.length < 2 ^ 31 → ∃ x, fullScan (-1) (fun _ => Res.ok true) (l.map UDoc.doc) = .ok x := by
    intro l hl
    refine ⟨_, fullScan_eq (-1) (fun _ => Res.ok true) (l.map UDoc.doc) (fun d _ => ⟨true, rfl⟩) (by simpa using hl)⟩
  obtain ⟨x1, s1⟩ := scan store h.small.1
  obtain ⟨x2, s2⟩ := scan other h.small.2
  have one : ∀ d ∈ store, ∃ d' ids, fromOne ⟨m, wf, paramOf ((buildSetsF tl sets []).2 ++ ext)⟩
      (fun l r => pred2 ⟨paramOf ((buildSetsF tl sets []).2 ++ ext), rx⟩ f l.doc r.doc) (buildSetsF tl sets []).1 d other = .ok ((buildSetsF tl sets []).1, d', ids) ∧
      ((ids = [] ∨ ids = [d.id]) ∧ (ids ≠ [] ↔ ∃ r ∈ other, Partners rx tl c d r ∧ AlteredFrom tl ts sets r.node d.node) ∧ UpdatedFrom rx tl ts sets c other d d') := by
    intro d hd
    have dec : ∀ r ∈ other, ¬ Partners rx tl c d r → pred2 ⟨paramOf ((buildSetsF tl sets []).2 ++ ext), rx⟩ f d.doc r.doc = .ok false := by
      intro r hr hn
      rw [h2 d.doc r.doc (h.ready d hd r hr)]
      exact congrArg Res.ok (decide_eq_false hn)
    rcases at_most_one (fun r => Partners rx tl c d r) other (hone d hd) with hno | ⟨xs, r, ys, ho, hP, hx, hy⟩
    · refine ⟨d, [], fromOne_none _ _ _ d other fun r hr => dec r hr (hno r hr), Or.inl rfl, ?_, rfl, ?_, fun _ => rfl⟩
      · refine ⟨fun hn => absurd rfl hn, ?_⟩
        rintro ⟨r, hr, hP, -⟩
        exact absurd hP (hno r hr)
      · rintro ⟨r, hr, hP⟩
        exact absurd hP (hno r hr)
    · have hr : r ∈ other := by rw [ho]; simp
      obtain ⟨n', b, r1, r2, r3⟩ := run_setsF m wf tl ts h.tables ((buildSetsF tl sets []).2 ++ ext) r.node (h.objects.2 r hr) sets h.exprs.1 h.exprs.2 h.names.1 h.names.2 [] d.node
        (h.objects.1 d hd) (h.kin d hd r hr hP) (List.prefix_append _ _) (by
          have := h.consts
          simp only [List.length_nil]
          omega)
      have same : ∀ k ∈ c.colsOf tl, look (fieldsIn n') k = look (fieldsIn d.node) k := by
        intro k hk
        rw [look_seen, look_seen, r2.2 [.name k]]
        intro p hp
        exact name_prefix fun e => hcol p hp (e ▸ hk)
      have hn : ∀ y ∈ ys, pred2 ⟨paramOf ((buildSetsF tl sets []).2 ++ ext), rx⟩ f (UDoc.mk d.id n').doc y.doc = .ok false := by
        intro y hyy
        have hyo : y ∈ other := by rw [ho]; simp [hyy]
        obtain ⟨g1, g2⟩ := sided_congr rx tl ts h.tables d.doc.fields (UDoc.mk d.id n').doc.fields y.doc.fields c h.cond same
        rw [h2 _ y.doc (g1 (h.ready d hd y hyo)), decide_eq_false]
        unfold Joins
        rw [g2]
        exact hy y hyy
      have only : ∀ r' ∈ other, Partners rx tl c d r' → r' = r := by
        intro r' hr' hP'
        rw [ho] at hr'
        rcases List.mem_append.mp hr' with h' | h'
        · exact absurd hP' (hx r' h')
        · rcases List.mem_cons.mp h' with h' | h'
          · exact h'
          · exact absurd hP' (hy r' h')
      refine ⟨⟨d.id, n'⟩, if b then [d.id] else [], ?_, by cases b <;> simp, ?_, rfl, fun _ => ⟨r, hr, hP, r2⟩, fun hno => absurd hP (hno r hr)⟩
      · rw [ho]
        refine fromOne_one _ _ _ d n' b r ys xs (fun x hxx => dec x (by rw [ho]; simp [hxx]) (hx x hxx)) ?_ r1 hn
        show pred2 _ f d.doc r.doc = _
        rw [h2 d.doc r.doc (h.ready d hd r hr)]
        exact congrArg Res.ok (decide_eq_true hP)
      · have : (if b = true then [d.id] else []) ≠ [] ↔ b = true := by cases b <;> simp
        rw [this, r3]
        constructor
        · exact fun ha => ⟨r, hr, hP, ha⟩
        · rintro ⟨r', hr', hP', ha⟩
          rwa [only r' hr' hP'] at ha
  obtain ⟨out, k1, k2⟩ := fromAll_spec _ _ other _ _ store one
  refine ⟨out.map Prod.fst, (out.map Prod.snd).flatten, ?_, ?_, ?_, ?_⟩
  · unfold runUpdateFrom
    rw [tr_setsF tl ts h.tables sets h.exprs.1]
    simp only [Res.bind, trFilter, h1, s1, s2]
    exact k1
  · have lift : ∀ (l : List UDoc) (o : List (UDoc × List Nat)), List.Forall₂ (fun d (x : UDoc × List Nat) => (x.2 = [] ∨ x.2 = [d.id]) ∧
        (x.2 ≠ [] ↔ ∃ r ∈ other, Partners rx tl c d r ∧ AlteredFrom tl ts sets r.node d.node) ∧ UpdatedFrom rx tl ts sets c other d x.1) l o →
        List.Forall₂ (UpdatedFrom rx tl ts sets c other) l (o.map Prod.fst) := by
      intro l o h
      induction h with
      | nil => exact .nil
      | cons h _ ih => exact .cons h.2.2 ih
    exact lift store out k2
  · exact (nodup_reported (fun d x ids => (ids ≠ [] ↔ ∃ r ∈ other, Partners rx tl c d r ∧ AlteredFrom tl ts sets r.node d.node) ∧
      UpdatedFrom rx tl ts sets c other d x) store h.ids out k2).1
  · intro i
    exact mem_reported _ (fun d x _ => UpdatedFrom rx tl ts sets c other d x) store out k2 i

/-! ### cases -/

/-- `UPDATE l SET b = l.b + r.b * 10 FROM r WHERE l.a = r.a` -/
def exFromSets : List (Bytes × SExpr) := [(exB, .op [43] (.col (some exL) exB) (.op [42] (.col (some exR) exB) (.lit (.int 10))))]
def exFromOn : Cond := .op (.cmp .eq) (.col (some exL) exA) (.col (some exR) exA)

theorem exU_fits (x y : Int) (hx : ITy.i64.fits x) (hy : ITy.i64.fits y) (i : Nat) : ∀ k s a, column (exU i (exInt x) (exInt y)).node k = some (.int s a) → s.fits a := by
  intro k s a h
  have hs := column_seen h
  unfold Json.seen exU Json.reach Json.lookN at hs
  simp only at hs
  split at hs
  · cases hs; exact hx
  · unfold Json.lookN at hs
    split at hs
    · cases hs; exact hy
    · cases hs

theorem exFrom_ready (i j : Nat) (a b x y : Int) (ha : ITy.i64.fits a) (hx : ITy.i64.fits x) :
    exFromOn.ready exRx (pairOf exL (exU i (exInt a) (exInt b)).doc.fields (exU j (exInt x) (exInt y)).doc.fields) :=
  ⟨exInt a, rfl, exInt x, rfl, i64_akin a x ha hx⟩

theorem exFrom_updatable (sets : List (Bytes × SExpr)) (store other : List (Nat × Int × Int)) (hs : ∀ p ∈ store ++ other, ITy.i64.fits p.2.1 ∧ ITy.i64.fits p.2.2)
    (hl : store.length < 2 ^ 31 ∧ other.length < 2 ^ 31) (hi : (store.map Prod.fst).Nodup) (hn : (sets.map Prod.fst).Nodup ∧ ∀ p ∈ sets, Name p.1)
    (he : (∀ p ∈ sets, p.2.plainFrom exL exR) ∧ IndependentFrom exL sets) (hc : (sets.map fun p => p.2.consts).sum + 0 ≤ 2 ^ 16)
    (hk : ∀ d ∈ store, ∀ r ∈ other, ∀ p ∈ sets, ∃ v w, p.2.valueFrom exL exR (exU d.1 (exInt d.2.1) (exInt d.2.2)).node (exU r.1 (exInt r.2.1) (exInt r.2.2)).node = some (exInt v) ∧ ITy.i64.fits v ∧
      column (exU d.1 (exInt d.2.1) (exInt d.2.2)).node p.1 = some (exInt w) ∧ ITy.i64.fits w) :
    UpdatableFrom exRx exL exR sets exFromOn (store.map fun p => exU p.1 (exInt p.2.1) (exInt p.2.2)) (other.map fun p => exU p.1 (exInt p.2.1) (exInt p.2.2)) where
  tables := by decide
  small := by simpa using hl
  consts := hc
  cond := ⟨rfl, rfl⟩
  names := hn
  exprs := he
  objects := by
    refine ⟨?_, ?_⟩ <;>
    · intro d hd
      obtain ⟨p, -, rfl⟩ := List.mem_map.mp hd
      rfl
  ready := by
    intro d hd r hr
    obtain ⟨p, hp, rfl⟩ := List.mem_map.mp hd
    obtain ⟨q, hq, rfl⟩ := List.mem_map.mp hr
    exact exFrom_ready _ _ _ _ _ _ (hs p (List.mem_append_left _ hp)).1 (hs q (List.mem_append_right _ hq)).1
  kin := by
    intro d hd r hr hP
    obtain ⟨p, hp, rfl⟩ := List.mem_map.mp hd
    obtain ⟨q, hq, rfl⟩ := List.mem_map.mp hr
    have hpf := hs p (List.mem_append_left _ hp)
    have hqf := hs q (List.mem_append_right _ hq)
    refine ⟨exU_fits _ _ hpf.1 hpf.2 _, exU_fits _ _ hqf.1 hqf.2 _, ?_⟩
    intro s hss
    obtain ⟨v, w, g1, g2, g3, g4⟩ := hk p hp q hq s hss
    exact ⟨_, _, g1, ⟨g2, nofun⟩, g3, ⟨rfl, g4⟩, nofun⟩
  ids := by
    rw [List.map_map]
    exact hi

/-- `C87_update_partial` applies: the second document has a partner. -/
example : ∃ store', runUpdateFrom Update.noMath (fun _ => 0) exRx exL exR exFromSets (some exFromOn) [exU 1 (exInt 1) (exInt 5), exU 2 (exInt 2) (exInt 6)]
      [exU 7 (exInt 4) (exInt 9), exU 8 (exInt 2) (exInt 3)] = .ok (store', [2]) ∧
    List.Forall₂ (UpdatedFrom exRx exL exR exFromSets exFromOn [exU 7 (exInt 4) (exInt 9), exU 8 (exInt 2) (exInt 3)]) [exU 1 (exInt 1) (exInt 5), exU 2 (exInt 2) (exInt 6)] store' ∧
    store' = [exU 1 (exInt 1) (exInt 5), exU 2 (exInt 2) (exInt 36)] := by
  obtain ⟨s', i, h1, h2, -⟩ := C87_update_partial Update.noMath (fun _ => 0) exRx exL exR exFromSets exFromOn _ _
    (exFrom_updatable exFromSets [(1, 1, 5), (2, 2, 6)] [(7, 4, 9), (8, 2, 3)] (by decide) (by decide) (by decide) ⟨by decide, by intro p hp; cases List.mem_singleton.mp hp; exact exB_name⟩
      ⟨by intro p hp; cases List.mem_singleton.mp hp; exact ⟨by decide, ⟨Or.inl rfl, exB_name⟩, by decide, ⟨Or.inr rfl, exB_name⟩, by show ITy.i64.fits 10; decide⟩, by simp, trivial⟩ (by decide) (by
        intro d hd r hr p hp
        cases List.mem_singleton.mp hp
        simp only [List.mem_cons, List.not_mem_nil, or_false] at hd hr
        rcases hd with rfl | rfl <;> rcases hr with rfl | rfl
        · exact ⟨95, 5, by rfl, by decide, by rfl, by decide⟩
        · exact ⟨35, 5, by rfl, by decide, by rfl, by decide⟩
        · exact ⟨96, 6, by rfl, by decide, by rfl, by decide⟩
        · exact ⟨36, 6, by rfl, by decide, by rfl, by decide⟩)) (by decide +kernel) (by decide)
  have e : runUpdateFrom Update.noMath (fun _ => 0) exRx exL exR exFromSets (some exFromOn) [exU 1 (exInt 1) (exInt 5), exU 2 (exInt 2) (exInt 6)]
      [exU 7 (exInt 4) (exInt 9), exU 8 (exInt 2) (exInt 3)] = .ok ([exU 1 (exInt 1) (exInt 5), exU 2 (exInt 2) (exInt 36)], [2]) := rfl
  have h1' := e.symm.trans h1
  cases h1'
  exact ⟨_, e, h2, rfl⟩

theorem not_assignedFrom {tl ts : Bytes} {sets : List (Bytes × SExpr)} {s n n' : Json.Node} {k : Bytes} {e : SExpr} {v w : V} (hm : (k, e) ∈ sets)
    (h1 : e.valueFrom tl ts n s = some v) (h2 : Json.seen n' [.name k] = some (.value w)) (h3 : ¬ Update.Same w v) : ¬ AssignedFrom tl ts sets s n n' := by
  rintro ⟨h, -⟩
  obtain ⟨v', w', g1, g2, g3⟩ := h _ hm
  rw [h1] at g1
  rw [h2] at g2
  cases g1
  cases g2
  exact h3 g3

/-- The statement does not do what C87 says. -/
def BreaksFrom (sets : List (Bytes × SExpr)) (store other : List UDoc) : Prop :=
  UpdatableFrom exRx exL exR sets exFromOn store other ∧
  ¬ DoneFrom exRx exL exR sets exFromOn store other (runUpdateFrom Update.noMath (fun _ => 0) exRx exL exR sets (some exFromOn) store other)

/-- `UPDATE l SET a = r.b FROM r WHERE l.a = r.a` with `r` = (1, 2), (2, 3) makes 3 of 1: after the first partner the document
is compared again. -/
theorem C87_chain_fails : BreaksFrom [(exA, .col (some exR) exB)] [exU 1 (exInt 1) (exInt 0)] [exU 7 (exInt 1) (exInt 2), exU 8 (exInt 2) (exInt 3)] ∧
    runUpdateFrom Update.noMath (fun _ => 0) exRx exL exR [(exA, .col (some exR) exB)] (some exFromOn) [exU 1 (exInt 1) (exInt 0)]
      [exU 7 (exInt 1) (exInt 2), exU 8 (exInt 2) (exInt 3)] = .ok ([exU 1 (exInt 3) (exInt 0)], [1, 1]) := by
  have e : runUpdateFrom Update.noMath (fun _ => 0) exRx exL exR [(exA, .col (some exR) exB)] (some exFromOn) [exU 1 (exInt 1) (exInt 0)]
      [exU 7 (exInt 1) (exInt 2), exU 8 (exInt 2) (exInt 3)] = .ok ([exU 1 (exInt 3) (exInt 0)], [1, 1]) := rfl
  refine ⟨⟨exFrom_updatable [(exA, .col (some exR) exB)] [(1, 1, 0)] [(7, 1, 2), (8, 2, 3)] (by decide) (by decide) (by decide)
      ⟨by decide, by intro p hp; cases List.mem_singleton.mp hp; exact exA_name⟩
      ⟨by intro p hp; cases List.mem_singleton.mp hp; exact ⟨Or.inr rfl, exB_name⟩, by simp, trivial⟩ (by decide) (by
        intro d hd r hr p hp
        cases List.mem_singleton.mp hp
        cases List.mem_singleton.mp hd
        simp only [List.mem_cons, List.not_mem_nil, or_false] at hr
        rcases hr with rfl | rfl
        · exact ⟨2, 1, by rfl, by decide, by rfl, by decide⟩
        · exact ⟨3, 1, by rfl, by decide, by rfl, by decide⟩), ?_⟩, e⟩
  rintro ⟨s', i, h1, -, h3⟩
  have h1' := e.symm.trans h1
  cases h1'
  exact absurd h3 (by decide)

/-- `UPDATE l SET b = l.b + r.b FROM r WHERE l.a = r.a` with two partners assigns for both, one after the other. -/
theorem C87_twice_fails : BreaksFrom [(exB, .op [43] (.col (some exL) exB) (.col (some exR) exB))] [exU 1 (exInt 1) (exInt 0)] [exU 7 (exInt 1) (exInt 2), exU 8 (exInt 1) (exInt 3)] ∧
    runUpdateFrom Update.noMath (fun _ => 0) exRx exL exR [(exB, .op [43] (.col (some exL) exB) (.col (some exR) exB))] (some exFromOn) [exU 1 (exInt 1) (exInt 0)]
      [exU 7 (exInt 1) (exInt 2), exU 8 (exInt 1) (exInt 3)] = .ok ([exU 1 (exInt 1) (exInt 5)], [1, 1]) := by
  have e : runUpdateFrom Update.noMath (fun _ => 0) exRx exL exR [(exB, .op [43] (.col (some exL) exB) (.col (some exR) exB))] (some exFromOn) [exU 1 (exInt 1) (exInt 0)]
      [exU 7 (exInt 1) (exInt 2), exU 8 (exInt 1) (exInt 3)] = .ok ([exU 1 (exInt 1) (exInt 5)], [1, 1]) := rfl
  refine ⟨⟨exFrom_updatable [(exB, .op [43] (.col (some exL) exB) (.col (some exR) exB))] [(1, 1, 0)] [(7, 1, 2), (8, 1, 3)] (by decide) (by decide) (by decide)
      ⟨by decide, by intro p hp; cases List.mem_singleton.mp hp; exact exB_name⟩
      ⟨by intro p hp; cases List.mem_singleton.mp hp; exact ⟨by decide, ⟨Or.inl rfl, exB_name⟩, Or.inr rfl, exB_name⟩, by simp, trivial⟩ (by decide) (by
        intro d hd r hr p hp
        cases List.mem_singleton.mp hp
        cases List.mem_singleton.mp hd
        simp only [List.mem_cons, List.not_mem_nil, or_false] at hr
        rcases hr with rfl | rfl
        · exact ⟨2, 0, by rfl, by decide, by rfl, by decide⟩
        · exact ⟨3, 0, by rfl, by decide, by rfl, by decide⟩), ?_⟩, e⟩
  rintro ⟨s', i, h1, h2, -⟩
  have h1' := e.symm.trans h1
  cases h1'
  cases h2 with
  | cons h _ =>
    obtain ⟨r, hr, -, ha⟩ := h.2.1 ⟨exU 7 (exInt 1) (exInt 2), by simp, by decide +kernel⟩
    simp only [List.mem_cons, List.not_mem_nil, or_false] at hr
    rcases hr with rfl | rfl
    · exact not_assignedFrom (k := exB) (v := exInt 2) (w := exInt 5) List.mem_cons_self rfl rfl (show ¬ (5 : Int) = 2 by decide) ha
    · exact not_assignedFrom (k := exB) (v := exInt 3) (w := exInt 5) List.mem_cons_self rfl rfl (show ¬ (5 : Int) = 3 by decide) ha

theorem C87_claim_fails : ¬ C87_claim := fun h => C87_twice_fails.1.2 (h Update.noMath (fun _ => 0) exRx exL exR _ exFromOn _ _ C87_twice_fails.1.1)

/-- A column without its table is looked up in the updated document first, for the first pair, and from then on where it was
found: with a first document that has `b` of its own, `SET a = b` never reads `r`. -/
theorem C87_unqualified_fails : runUpdateFrom Update.noMath (fun _ => 0) exRx exL exR [(exA, .col none exB)] none
      [exU 1 (exInt 1) (exInt 9), ⟨2, .obj [(exA, .leaf (exInt 1))]⟩] [exU 7 (exInt 1) (exInt 2)] = .ub ∧
    ∃ s', runUpdateFrom Update.noMath (fun _ => 0) exRx exL exR [(exA, .col none exB)] none [⟨2, .obj [(exA, .leaf (exInt 1))]⟩] [exU 7 (exInt 1) (exInt 2)] =
      .ok ([s'], [2]) ∧ column s'.node exA = some (exInt 2) := ⟨rfl, ⟨2, .obj [(exA, .leaf (exInt 2))]⟩, rfl, rfl⟩

end Verif.Sql
