import Verif.Json.DecEq
import Verif.Py.UpdLemmas
/-!
C93: `update_one` and `update_many` with `$set` and `$inc`.
-/
namespace Verif.Py

open Verif.DocVal Verif.PhysKey Verif.Num Query

theorem forall₂_left {α β : Type} {R : α → β → Prop} {as : List α} {bs : List β} (h : List.Forall₂ R as bs) : ∀ a ∈ as, ∃ b ∈ bs, R a b := by
  induction h with
  | nil => simp
  | cons h _ ih =>
    rintro a (_ | ⟨_, ha⟩)
    · exact ⟨_, List.mem_cons_self, h⟩
    · obtain ⟨b, h1, h2⟩ := ih a ha
      exact ⟨b, List.mem_cons_of_mem _ h1, h2⟩

theorem forall₂_right {α β : Type} {R : α → β → Prop} {as : List α} {bs : List β} (h : List.Forall₂ R as bs) : ∀ b ∈ bs, ∃ a ∈ as, R a b := by
  induction h with
  | nil => simp
  | cons h _ ih =>
    rintro a (_ | ⟨_, ha⟩)
    · exact ⟨_, List.mem_cons_self, h⟩
    · obtain ⟨b, h1, h2⟩ := ih a ha
      exact ⟨b, List.mem_cons_of_mem _ h1, h2⟩

theorem forall₂_comp {α β γ : Type} {R : α → β → Prop} {S : β → γ → Prop} {T : α → γ → Prop} (hT : ∀ a b c, R a b → S b c → T a c) :
    ∀ {as : List α} {bs : List β} {cs : List γ}, List.Forall₂ R as bs → List.Forall₂ S bs cs → List.Forall₂ T as cs
  | _, _, _, .nil, .nil => .nil
  | _, _, _, .cons h1 h2, .cons h3 h4 => .cons (hT _ _ _ h1 h3) (forall₂_comp hT h2 h4)

/-- The fields with their new values. -/
theorem new_values (P : Bytes × Scalar → V → Prop) : ∀ ps : List (Bytes × Scalar), (∀ p ∈ ps, ∃ v, P p v) →
    ∃ ops : List (Bytes × V), List.Forall₂ (fun p op => op.1 = p.1 ∧ P p op.2) ps ops ∧ ops.map Prod.fst = ps.map Prod.fst
  | [], _ => ⟨[], .nil, rfl⟩
  | p :: ps, h => by
    obtain ⟨v, hv⟩ := h p List.mem_cons_self
    obtain ⟨ops, h1, h2⟩ := new_values P ps fun q hq => h q (List.mem_cons_of_mem _ hq)
    exact ⟨(p.1, v) :: ops, .cons ⟨rfl, hv⟩ h1, by simp [h2]⟩

theorem incTo_det {m : Update.Math} {o : Option V} {x : Scalar} {v w : V} (h1 : IncTo m o x v) (h2 : IncTo m o x w) : v = w := by
  cases h1 <;> cases h2 <;> rfl

theorem setTo_det {L : Lib} {x : Scalar} {v w : V} (h1 : SetTo L x v) (h2 : SetTo L x w) : v = w := by
  unfold SetTo at h1 h2
  rw [h1] at h2
  cases h2
  rfl

theorem scalar_fits (L : Lib) : ∀ (ps : List (Bytes × Scalar)), allFields (Scalar.plain L) (ps.map fun p => (.str p.1, .scalar p.2)) →
    ∀ p ∈ ps, ∀ i, p.2 = .int i → ITy.i64.fits i
  | [], _, p, hp, _, _ => by cases hp
  | q :: ps, h, p, hp, i, hi => by
    rcases List.mem_cons.mp hp with rfl | hp
    · have := h.2.1.2.2 i hi
      exact this
    · exact scalar_fits L ps h.2.2 p hp i hi

theorem lists_fits (L : Lib) (fields : List (Scalar × PyObj)) (hp : allFields (Scalar.plain L) fields) (k : Bytes) (ps : List (Bytes × Scalar))
    (h : Lists fields k ps) : ∀ p ∈ ps, ∀ i, p.2 = .int i → ITy.i64.fits i := by
  rcases h with h | ⟨_, rfl⟩
  · exact scalar_fits L ps (entry_plain L k _ fields hp h).1
  · intro p hp; cases hp

/-- The assignments run on one document. -/
theorem run_one (m : Update.Math) (wf : UInt32 → UInt64) (L : Lib) (fields : List (Scalar × PyObj)) (sets incs sets' incs' : List (Bytes × Scalar))
    (h : Wellformed L fields sets incs) (st : Store) (es1 es2 : List Update.Expr) (hs : sets'.Perm sets) (hi : incs'.Perm incs)
    (h1 : List.Forall₂ (Given L setE st) es1 sets') (h2 : List.Forall₂ (Given L incE st) es2 incs') (n : Json.Node) (hr : Ready m L sets incs n) :
    ∃ n' b, Update.runAll ⟨m, wf, paramsOf st⟩ none (es1 ++ es2) n = .ok (es1 ++ es2, n', b) ∧ Becomes m L sets incs n n' ∧
      (b = true ↔ Differs m L sets incs n) := by
  obtain ⟨ho, r1, r2⟩ := hr
  obtain ⟨ops1, a1, a2⟩ := new_values (fun p v => SetTo L p.2 v ∧ Over n p.1 v) sets' fun p hp => r1 p (hs.mem_iff.mp hp)
  obtain ⟨ops2, b1, b2⟩ := new_values (fun p v => IncTo m (fieldV n p.1) p.2 v ∧ Over n p.1 v) incs' fun p hp => r2 p (hi.mem_iff.mp hp)
  have hfit := lists_fits L fields h.plain.1 kInc incs (inc_text ▸ h.listsInc)
  have g1 : List.Forall₂ (Assigns ⟨m, wf, paramsOf st⟩ n) es1 ops1 := by
    refine forall₂_comp ?_ h1 a1
    rintro e ⟨k, x⟩ ⟨k', v⟩ ⟨id, y, rfl, hy, hp⟩ ⟨rfl, hv, _⟩
    refine ⟨.param id, rfl, .param id, fun n' _ _ => .param id v ?_⟩
    have : y = v := setTo_det (L := L) (x := x) hy hv
    rw [← this]; exact hp
  have b1' : List.Forall₂ (fun (p : Bytes × Scalar) (op : Bytes × V) => (op.1 = p.1 ∧ IncTo m (fieldV n p.1) p.2 op.2 ∧ Over n p.1 op.2) ∧
      (∀ i, p.2 = .int i → ITy.i64.fits i) ∧ Sql.Name p.1) incs' ops2 := by
    have : ∀ (ps : List (Bytes × Scalar)) (ops : List (Bytes × V)), (∀ p ∈ ps, p ∈ incs) →
        List.Forall₂ (fun (p : Bytes × Scalar) (op : Bytes × V) => op.1 = p.1 ∧ IncTo m (fieldV n p.1) p.2 op.2 ∧ Over n p.1 op.2) ps ops →
        List.Forall₂ (fun (p : Bytes × Scalar) (op : Bytes × V) => (op.1 = p.1 ∧ IncTo m (fieldV n p.1) p.2 op.2 ∧ Over n p.1 op.2) ∧
          (∀ i, p.2 = .int i → ITy.i64.fits i) ∧ Sql.Name p.1) ps ops := by
      intro ps ops hsub hf
      induction hf with
      | nil => exact .nil
      | cons h' _ ih =>
        exact .cons ⟨h', hfit _ (hsub _ List.mem_cons_self), h.names _ (List.mem_append_right _ (hsub _ List.mem_cons_self))⟩
          (ih fun p hp => hsub p (List.mem_cons_of_mem _ hp))
    exact this _ _ (fun p hp => hi.mem_iff.mp hp) b1
  have g2 : List.Forall₂ (Assigns ⟨m, wf, paramsOf st⟩ n) es2 ops2 := by
    refine forall₂_comp ?_ h2 b1'
    rintro e ⟨k, x⟩ ⟨k', v⟩ ⟨id, y, rfl, hy, hp⟩ ⟨⟨rfl, hv, _⟩, hx, hk⟩
    refine ⟨.bin .add (some (.field k' .own)) (some (.param id)), rfl, .bin _ _ _ (.field _ _ (by decide)) (.param _), fun n' ho' he => ?_⟩
    refine .bin _ _ _ (fieldV n k') (some y) (some v) (.own _ _ ?_) (.param id y hp) (incTo_binary m _ x L v y hv hy hx)
    rw [getValue_field ho' hk, he]
  have hnd : ((ops1 ++ ops2).map Prod.fst).Nodup := by
    rw [List.map_append, a2, b2, ← List.map_append]
    exact ((hs.append hi).map Prod.fst).nodup_iff.mpr h.distinct
  obtain ⟨n', b, q1, q2, q3, q4⟩ := run_ops ⟨m, wf, paramsOf st⟩ (es1 ++ es2) (ops1 ++ ops2) n ho hnd (by
      intro op hop
      rcases List.mem_append.mp hop with hop | hop
      · obtain ⟨p, hp, e, _, hov⟩ := forall₂_right a1 op hop
        rw [e]
        exact ⟨h.names p (List.mem_append_left _ (hs.mem_iff.mp hp)), hov⟩
      · obtain ⟨p, hp, e, _, hov⟩ := forall₂_right b1 op hop
        rw [e]
        exact ⟨h.names p (List.mem_append_right _ (hi.mem_iff.mp hp)), hov⟩) (List.rel_append g1 g2)
  refine ⟨n', b, q1, ⟨?_, ?_, ?_⟩, q4.trans ⟨?_, ?_⟩⟩
  · intro p hp
    obtain ⟨op, hop, e, hv, _⟩ := forall₂_left a1 p (hs.mem_iff.mpr hp)
    obtain ⟨w, w1, w2⟩ := q2 op (List.mem_append_left _ hop)
    rw [e] at w1
    exact ⟨op.2, w, hv, w1, w2⟩
  · intro p hp
    obtain ⟨op, hop, e, hv, _⟩ := forall₂_left b1 p (hi.mem_iff.mpr hp)
    obtain ⟨w, w1, w2⟩ := q2 op (List.mem_append_right _ hop)
    rw [e] at w1
    exact ⟨op.2, w, hv, w1, w2⟩
  · intro l hl
    apply q3
    intro op hop
    rcases List.mem_append.mp hop with hop | hop
    · obtain ⟨p, hp, e, _, _⟩ := forall₂_right a1 op hop
      rw [e]
      exact hl p (List.mem_append_left _ (hs.mem_iff.mp hp))
    · obtain ⟨p, hp, e, _, _⟩ := forall₂_right b1 op hop
      rw [e]
      exact hl p (List.mem_append_right _ (hi.mem_iff.mp hp))
  · rintro ⟨op, hop, hd⟩
    rcases List.mem_append.mp hop with hop | hop
    · obtain ⟨p, hp, e, hv, _⟩ := forall₂_right a1 op hop
      rw [e] at hd
      exact .inl ⟨p, hs.mem_iff.mp hp, op.2, hv, hd⟩
    · obtain ⟨p, hp, e, hv, _⟩ := forall₂_right b1 op hop
      rw [e] at hd
      exact .inr ⟨p, hi.mem_iff.mp hp, op.2, hv, hd⟩
  · rintro (⟨p, hp, v, hv, hd⟩ | ⟨p, hp, v, hv, hd⟩)
    · obtain ⟨op, hop, e, hv', _⟩ := forall₂_left a1 p (hs.mem_iff.mpr hp)
      refine ⟨op, List.mem_append_left _ hop, ?_⟩
      rw [e, setTo_det hv' hv]
      exact hd
    · obtain ⟨op, hop, e, hv', _⟩ := forall₂_left b1 p (hi.mem_iff.mpr hp)
      refine ⟨op, List.mem_append_right _ hop, ?_⟩
      rw [e, incTo_det hv' hv]
      exact hd

theorem run_docs (c : Update.Ctx) (es : List Update.Expr) (A : Json.Node → Json.Node → Prop) (Q R : Json.Node → Prop)
    (h : ∀ n, R n → ∃ n' b, Update.runAll c none es n = .ok (es, n', b) ∧ A n n' ∧ (b = true ↔ Q n)) :
    ∀ ds : List Json.Node, (∀ n ∈ ds, R n) → ∃ rs, Update.runDocs c es ds = .ok rs ∧
      List.Forall₂ (fun n (r : Json.Node × Bool) => A n r.1 ∧ (r.2 = true ↔ Q n)) ds rs
  | [], _ => ⟨[], rfl, .nil⟩
  | n :: ds, hr => by
    obtain ⟨n', b, h1, h2, h3⟩ := h n (hr n List.mem_cons_self)
    obtain ⟨rs, h4, h5⟩ := run_docs c es A Q R h ds fun n hn => hr n (List.mem_cons_of_mem _ hn)
    exact ⟨(n', b) :: rs, by simp only [Update.runDocs, h1, h4, Res.bind], .cons ⟨h2, h3⟩ h5⟩

/-- What is required of the condition (C92), of the update and of the documents: their `_id`s are different, and the update
has a meaning for those that satisfy the condition. -/
structure Fit (m : Update.Math) (L : Lib) (rx : Bytes → Bytes → Res Bool) (ord : List (Nat × Trie) → List (Nat × Trie)) (cond : List Cond)
    (fields : List (Scalar × PyObj)) (sets incs : List (Bytes × Scalar)) (store : List Sql.UDoc) : Prop where
  order : ∀ l, (ord l).Perm l
  named : namedEntries cond
  shaped : shapedEntries cond
  root : rootShaped cond
  values : eachEntries readable cond
  size : sizeEntries cond + sets.length + incs.length < 2 ^ 16
  decided : ∀ d ∈ store, eachEntries (decided L rx d.doc) cond
  wellformed : Wellformed L fields sets incs
  length : store.length < 2 ^ 31
  ids : (store.map Sql.UDoc.id).Nodup
  ready : ∀ d ∈ store, (Dict.mk cond).sat (truth L rx d.doc) → Ready m L sets incs d.node

/-- An update: `P` says which documents are changed. -/
def Updates (m : Update.Math) (L : Lib) (sets incs : List (Bytes × Scalar)) (P : Sql.UDoc → Prop) (store : List Sql.UDoc)
    (r : Res (List Sql.UDoc × List Nat)) : Prop :=
  ∃ store' ids, r = .ok (store', ids) ∧
    List.Forall₂ (fun d d' => d'.id = d.id ∧ (P d → Becomes m L sets incs d.node d'.node) ∧ (¬ P d → d' = d)) store store' ∧
    ∀ i, i ∈ ids ↔ ∃ d ∈ store, P d ∧ d.id = i ∧ Differs m L sets incs d.node

theorem forall₂_same {α : Type} {R : α → α → Prop} : ∀ l : List α, (∀ a ∈ l, R a a) → List.Forall₂ R l l
  | [], _ => .nil
  | a :: l, h => .cons (h a List.mem_cons_self) (forall₂_same l fun b hb => h b (List.mem_cons_of_mem _ hb))

theorem forall₂_mem {α β : Type} {R S : α → β → Prop} {as : List α} {bs : List β} (h : List.Forall₂ R as bs) (hS : ∀ a ∈ as, ∀ b, R a b → S a b) :
    List.Forall₂ S as bs := by
  induction h with
  | nil => exact .nil
  | cons h1 _ ih => exact .cons (hS _ List.mem_cons_self _ h1) (ih fun a ha => hS a (List.mem_cons_of_mem _ ha))

theorem ids_inj {store : List Sql.UDoc} (h : (store.map Sql.UDoc.id).Nodup) {d e : Sql.UDoc} (hd : d ∈ store) (he : e ∈ store) (hi : d.id = e.id) : d = e :=
  List.inj_on_of_nodup_map h hd he hi

/-- The updates, given which documents the scan finds. -/
theorem update_found (m : Update.Math) (wf : UInt32 → UInt64) (rtl : Bool) (L : Lib) (rx : Bytes → Bytes → Res Bool)
    (ord : List (Nat × Trie) → List (Nat × Trie)) (lim : Int) (hlim : limOk lim 0 = true) (upsert : Bool) (cond : List Cond) (fields : List (Scalar × PyObj))
    (sets incs : List (Bytes × Scalar)) (store : List Sql.UDoc) (h : Fit m L rx ord cond fields sets incs store)
    (hup : upsert = true → ∃ d ∈ store, (Dict.mk cond).sat (truth L rx d.doc))
    (P : Sql.UDoc → Prop) (hP : ∀ d ∈ store, P d → (Dict.mk cond).sat (truth L rx d.doc))
    (hsel : ∀ p : Sql.UDoc → Bool, (∀ d ∈ store, (p d = true ↔ (Dict.mk cond).sat (truth L rx d.doc))) →
      ∀ d ∈ store, (d ∈ (if lim = -1 then store.filter p else (store.filter p).take lim.toNat) ↔ P d)) :
    Updates m L sets incs P store (update m wf rtl L rx ord lim upsert (entriesPy cond) fields store) := by
  have hz := h.size
  obtain ⟨e, st, f1, f2, f3, f4⟩ := find_filter_more L cond h.named h.values (by omega)
  obtain ⟨es1, es2, st', sets', incs', u1, u2, u3, u4, u5, u6⟩ := parseUpdate_ok rtl L ord h.order fields sets incs h.wellformed st f2 (by omega)
  have hchk : ∀ d ∈ store, ∃ b, Query.check (checkP rx d.doc) (toFilter st' e) = .ok b ∧ (b = true ↔ (Dict.mk cond).sat (truth L rx d.doc)) := by
    intro d hd
    obtain ⟨h3, h4⟩ := f4 st' u4 rx d.doc h.shaped h.root (h.decided d hd)
    obtain ⟨b, h5, h6⟩ := check_holds (checkP rx d.doc) _ h3
    exact ⟨b, h5, h6.trans h4⟩
  have hdef : Defined (fun d => Query.check (checkP rx d) (toFilter st' e)) (store.map Sql.UDoc.doc) := by
    intro d hd
    obtain ⟨u, hu, rfl⟩ := List.mem_map.mp hd
    obtain ⟨b, hb, _⟩ := hchk u hu
    exact ⟨b, hb⟩
  have hscan := fullScan_eq lim _ _ hdef (by simpa using h.length)
  rw [if_pos hlim] at hscan
  let p : Sql.UDoc → Bool := fun d => decide (Query.check (checkP rx d.doc) (toFilter st' e) = .ok true)
  have hp : ∀ d ∈ store, (p d = true ↔ (Dict.mk cond).sat (truth L rx d.doc)) := by
    intro d hd
    obtain ⟨b, h1, h2⟩ := hchk d hd
    simp only [p, h1, decide_eq_true_eq, Res.ok.injEq]
    exact h2
  let sel := if lim = -1 then store.filter p else (store.filter p).take lim.toNat
  have hacc : firstN lim (accepted (fun d => Query.check (checkP rx d) (toFilter st' e)) (store.map Sql.UDoc.doc)) = sel.map Sql.UDoc.doc := by
    have : accepted (fun d => Query.check (checkP rx d) (toFilter st' e)) (store.map Sql.UDoc.doc) = (store.filter p).map Sql.UDoc.doc := by
      rw [accepted, List.filter_map]
      rfl
    rw [this]
    simp only [firstN, sel]
    split
    · rfl
    · rw [List.map_take]
  rw [hacc] at hscan
  have hmem := hsel p hp
  change ∀ d ∈ store, (d ∈ sel ↔ P d) at hmem
  have hsub : ∀ d ∈ sel, d ∈ store := by
    intro d hd
    simp only [sel] at hd
    split at hd
    · exact (List.mem_filter.mp hd).1
    · exact (List.mem_filter.mp (List.mem_of_mem_take hd)).1
  by_cases hsl : sel = []
  · have hupf : upsert = false := by
      cases hu : upsert with
      | false => rfl
      | true =>
        exfalso
        obtain ⟨d, hd, hsat⟩ := hup hu
        have : d ∈ store.filter p := List.mem_filter.mpr ⟨hd, (hp d hd).mpr hsat⟩
        simp only [sel] at hsl
        split at hsl
        · rw [hsl] at this; cases this
        · rename_i hne
          rcases List.take_eq_nil_iff.mp hsl with h0 | h0
          · simp only [limOk, Bool.or_eq_true, beq_iff_eq, decide_eq_true_eq] at hlim
            omega
          · rw [h0] at this; cases this
    have hnone : ∀ d ∈ store, ¬ P d := by
      intro d hd hPd
      have := (hmem d hd).mpr hPd
      rw [hsl] at this
      cases this
    refine ⟨store, [], ?_, forall₂_same store fun d hd => ⟨rfl, fun hPd => absurd hPd (hnone d hd), fun _ => rfl⟩, ?_⟩
    · rw [hsl] at hscan
      simp only [update, f1, u1, Res.bind, hscan, List.map_nil, hupf]
      rfl
    · intro i
      constructor
      · intro hi; cases hi
      · rintro ⟨d, hd, hPd, _⟩
        exact absurd hPd (hnone d hd)
  · let q : Sql.UDoc → Bool := fun d => (sel.map Sql.UDoc.doc).any fun e => e.id == d.id
    have hq : ∀ d ∈ store, (q d = true ↔ P d) := by
      intro d hd
      rw [← hmem d hd]
      simp only [q, List.any_map, List.any_eq_true, Function.comp, beq_iff_eq]
      constructor
      · rintro ⟨x, hx, hxd⟩
        have : x.id = d.id := hxd
        rw [← ids_inj h.ids (hsub x hx) hd this]
        exact hx
      · intro hx; exact ⟨d, hx, rfl⟩
    obtain ⟨rs, r1, r2⟩ := run_docs ⟨m, wf, paramsOf st'⟩ (es1 ++ es2) (Becomes m L sets incs) (Differs m L sets incs) (Ready m L sets incs)
      (fun n hn => run_one m wf L fields sets incs sets' incs' h.wellformed st' es1 es2 u2 u3 u5 u6 n hn) ((store.filter q).map Sql.UDoc.node) (by
        intro n hn
        obtain ⟨d, hd, rfl⟩ := List.mem_map.mp hn
        obtain ⟨hd1, hd2⟩ := List.mem_filter.mp hd
        exact h.ready d hd1 (hP d hd1 ((hq d hd1).mp hd2)))
    obtain ⟨s1, s2⟩ := Sql.place_spec q _ _ store rs r2
    refine ⟨Sql.place q store rs, (((store.filter q).zip rs).filter fun (x : Sql.UDoc × (Json.Node × Bool)) => x.2.2).map fun x => x.1.id,
      ?_, forall₂_mem s1 ?_, ?_⟩
    · have hne : ∃ x xs, sel.map Sql.UDoc.doc = x :: xs := by
        cases hsd : sel with
        | nil => exact absurd hsd hsl
        | cons x xs => exact ⟨_, _, rfl⟩
      obtain ⟨x, xs, hx⟩ := hne
      have hupd : Sql.updateDocs ⟨m, wf, paramsOf st'⟩ (es1 ++ es2) q store =
          .ok (Sql.place q store rs, (((store.filter q).zip rs).filter fun (x : Sql.UDoc × (Json.Node × Bool)) => x.2.2).map fun x => x.1.id) := by
        simp only [Sql.updateDocs, r1, Res.bind]
      rw [← hupd]
      simp only [update, f1, u1, Res.bind, hscan, q, hx]
    · rintro d hd d' ⟨a1, a2, a3⟩
      refine ⟨a1, fun hPd => a2 ((hq d hd).mpr hPd), fun hn => a3 ?_⟩
      cases hqd : q d with
      | false => rfl
      | true => exact absurd ((hq d hd).mp hqd) hn
    · intro i
      rw [s2 i]
      constructor
      · rintro ⟨d, hd, b1, b2⟩
        exact ⟨d, hd, (hq d hd).mp b1, b2⟩
      · rintro ⟨d, hd, b1, b2⟩
        exact ⟨d, hd, (hq d hd).mpr b1, b2⟩

/-- The full claim for `update_many` with `$set`: every document that satisfies the condition gets the new values, the other
documents and fields stay as they are, and the documents reported are those with a field that got another value. -/
def C93_claim : Prop :=
  ∀ (m : Update.Math) (wf : UInt32 → UInt64) (rtl : Bool) (L : Lib) (rx : Bytes → Bytes → Res Bool) (ord : List (Nat × Trie) → List (Nat × Trie))
    (cond : List Cond) (fields : List (Scalar × PyObj)) (sets : List (Bytes × Scalar)) (store : List Sql.UDoc),
    (∀ l, (ord l).Perm l) → namedEntries cond → shapedEntries cond → rootShaped cond → eachEntries readable cond →
    sizeEntries cond + sets.length < 2 ^ 16 → (∀ d ∈ store, eachEntries (decided L rx d.doc) cond) → Wellformed L fields sets [] →
    store.length < 2 ^ 31 → (store.map Sql.UDoc.id).Nodup → (∀ d ∈ store, Json.seen d.node [] = some .object) →
    Updates m L sets [] (fun d => (Dict.mk cond).sat (truth L rx d.doc)) store (update m wf rtl L rx ord (-1) false (entriesPy cond) fields store)

/-- `update_many` changes the documents that satisfy the condition, and only these: their fields are set and increased as
the update says, all else in them stays, and those are reported in which some field got another value.  Without `upsert`, or
if some document satisfies the condition. -/
theorem C93_update_many_partial (m : Update.Math) (wf : UInt32 → UInt64) (rtl : Bool) (L : Lib) (rx : Bytes → Bytes → Res Bool)
    (ord : List (Nat × Trie) → List (Nat × Trie)) (upsert : Bool) (cond : List Cond) (fields : List (Scalar × PyObj))
    (sets incs : List (Bytes × Scalar)) (store : List Sql.UDoc) (h : Fit m L rx ord cond fields sets incs store)
    (hup : upsert = true → ∃ d ∈ store, (Dict.mk cond).sat (truth L rx d.doc)) :
    Updates m L sets incs (fun d => (Dict.mk cond).sat (truth L rx d.doc)) store
      (update m wf rtl L rx ord (-1) upsert (entriesPy cond) fields store) := by
  refine update_found m wf rtl L rx ord (-1) rfl upsert cond fields sets incs store h hup _ (fun _ _ hd => hd) ?_
  intro p hp d hd
  rw [if_pos rfl, List.mem_filter, hp d hd]
  exact ⟨fun x => x.2, fun x => ⟨hd, x⟩⟩

theorem first_unique {P : Sql.UDoc → Prop} : ∀ {store : List Sql.UDoc} {d e : Sql.UDoc}, firstOf P store d → firstOf P store e → d = e
  | [], d, e, ⟨a, b, h, _, _⟩, _ => by simp at h
  | x :: store, d, e, ⟨a, b, h1, h2, h3⟩, ⟨a', b', g1, g2, g3⟩ => by
    cases a with
    | nil =>
      cases h1
      cases a' with
      | nil => cases g1; rfl
      | cons y a' =>
        cases g1
        exact absurd h2 (g3 _ List.mem_cons_self)
    | cons y a =>
      cases h1
      cases a' with
      | nil =>
        cases g1
        exact absurd g2 (h3 _ List.mem_cons_self)
      | cons z a' =>
        simp only [List.cons_append, List.cons.injEq] at g1
        obtain ⟨rfl, g1⟩ := g1
        exact first_unique ⟨a, b, rfl, h2, fun e he => h3 e (List.mem_cons_of_mem _ he)⟩
          ⟨a', b', g1, g2, fun e he => g3 e (List.mem_cons_of_mem _ he)⟩

/-- `update_one` does this with the first document that satisfies the condition, and with no other. -/
theorem C93_update_one_partial (m : Update.Math) (wf : UInt32 → UInt64) (rtl : Bool) (L : Lib) (rx : Bytes → Bytes → Res Bool)
    (ord : List (Nat × Trie) → List (Nat × Trie)) (upsert : Bool) (cond : List Cond) (fields : List (Scalar × PyObj))
    (sets incs : List (Bytes × Scalar)) (store : List Sql.UDoc) (h : Fit m L rx ord cond fields sets incs store)
    (hup : upsert = true → ∃ d ∈ store, (Dict.mk cond).sat (truth L rx d.doc)) :
    Updates m L sets incs (firstOf (fun d => (Dict.mk cond).sat (truth L rx d.doc)) store) store
      (update m wf rtl L rx ord 1 upsert (entriesPy cond) fields store) := by
  refine update_found m wf rtl L rx ord 1 rfl upsert cond fields sets incs store h hup _ ?_ ?_
  · rintro d _ ⟨_, _, _, hd, _⟩
    exact hd
  · intro p hp d hd
    rw [if_neg (by decide), show (1 : Int).toNat = 1 from rfl]
    have key : ∀ x, x ∈ (store.filter p).take 1 → firstOf (fun d => (Dict.mk cond).sat (truth L rx d.doc)) store x := by
      intro x hx
      cases hf : store.filter p with
      | nil => rw [hf] at hx; cases hx
      | cons y ys =>
        rw [hf] at hx
        simp only [List.take_succ_cons, List.take_zero, List.mem_singleton] at hx
        subst hx
        obtain ⟨a, b, h1, h2, h3, _⟩ := List.filter_eq_cons_iff.mp hf
        refine ⟨a, b, h1, (hp x (by rw [h1]; simp)).mp h3, ?_⟩
        intro e he hse
        exact h2 e he ((hp e (by rw [h1]; simp [he])).mpr hse)
    constructor
    · exact key d
    · intro hfirst
      have hsat : p d = true := by
        obtain ⟨_, _, _, hs, _⟩ := hfirst
        exact (hp d hd).mpr hs
      have hin : d ∈ store.filter p := List.mem_filter.mpr ⟨hd, hsat⟩
      cases hf : store.filter p with
      | nil => rw [hf] at hin; cases hin
      | cons y ys =>
        have := key y (by rw [hf]; simp)
        rw [first_unique hfirst this]
        simp

/-! ### cases -/

deriving instance DecidableEq for Sql.UDoc

def kUnset : Bytes := [36, 117, 110, 115, 101, 116]

/-- `{"$set": {"a": 5}, "$inc": {"b": 10, "d": 2}}` -/
def exUpd : List (Scalar × PyObj) :=
  [(.str kSet, .dict [(.str [97], .scalar (.int 5))]), (.str kInc, .dict [(.str [98], .scalar (.int 10)), (.str [100], .scalar (.int 2))])]

def exU1 : Sql.UDoc := ⟨1, .obj [([97], .leaf (.int .i64 1)), ([98], .leaf (.int .i64 2))]⟩
def exU2 : Sql.UDoc := ⟨2, .obj [([97], .leaf (.int .i64 1)), ([98], .leaf (.int .i64 7)), ([99], .leaf (.int .i64 3))]⟩
def exU3 : Sql.UDoc := ⟨3, .obj [([97], .leaf (.int .i64 5)), ([98], .leaf (.int .i64 2))]⟩

/-- `{"b": 2}` -/
def exB2 : List Cond := [.field [98] (.int 2)]

theorem exUpd_wellformed : Wellformed noLib exUpd [([97], .int 5)] [([98], .int 10), ([100], .int 2)] where
  plain := by
    simp only [exUpd, PyObj.all, allFields, Scalar.plain, Scalar.known]
    simp
    decide
  weight := by decide
  listsSet := .inl (set_text ▸ rfl)
  listsInc := .inl (inc_text ▸ rfl)
  names := by
    simp only [List.cons_append, List.nil_append, List.forall_mem_cons, Sql.Name]
    decide
  distinct := by decide

example : Fit Update.noMath noLib noRx id exB2 exUpd [([97], .int 5)] [([98], .int 10), ([100], .int 2)] [exU1, exU2, exU3] ∧
    update Update.noMath (fun _ => 0) true noLib noRx id (-1) false (entriesPy exB2) exUpd [exU1, exU2, exU3] =
      .ok ([⟨1, .obj [([97], .leaf (.int .i64 5)), ([98], .leaf (.int .i64 12)), ([100], .leaf (.int .i64 2))]⟩, exU2,
            ⟨3, .obj [([97], .leaf (.int .i64 5)), ([98], .leaf (.int .i64 12)), ([100], .leaf (.int .i64 2))]⟩], [1, 3]) ∧
    update Update.noMath (fun _ => 0) true noLib noRx id 1 false (entriesPy exB2) exUpd [exU1, exU2, exU3] =
      .ok ([⟨1, .obj [([97], .leaf (.int .i64 5)), ([98], .leaf (.int .i64 12)), ([100], .leaf (.int .i64 2))]⟩, exU2, exU3], [1]) := by
  refine ⟨⟨fun _ => List.Perm.refl _, ⟨ordinary_of _ (by decide), trivial⟩, ⟨trivial, trivial⟩, ?_, ?_, by decide, ?_, exUpd_wellformed, by decide, by decide, ?_⟩, by decide +kernel, by decide +kernel⟩
  · simp [exB2, rootShaped]
  · simp [exB2, eachEntries, Cond.each, readable]
  · simp only [List.forall_mem_cons]
    exact ⟨⟨⟨true, by decide +kernel⟩, trivial⟩, ⟨⟨false, by decide +kernel⟩, trivial⟩, ⟨⟨true, by decide +kernel⟩, trivial⟩, by simp⟩
  · have key : ∀ d : Sql.UDoc, d = exU1 ∨ d = exU3 → Ready Update.noMath noLib [([97], .int 5)] [([98], .int 10), ([100], .int 2)] d.node := by
      have hf : ∀ i : Int, -100 < i → i < 100 → ITy.i64.fits i := by
        intro i h1 h2
        have : (-2 : Int) ^ 63 ≤ i ∧ i < 2 ^ 63 := by omega
        exact this
      intro d hd
      have hb : fieldV d.node [98] = some (.int .i64 2) := by rcases hd with rfl | rfl <;> rfl
      have hd' : fieldV d.node [100] = none := by rcases hd with rfl | rfl <;> rfl
      refine ⟨by rcases hd with rfl | rfl <;> rfl, ?_, ?_⟩
      · simp only [List.forall_mem_cons]
        refine ⟨⟨.int .i64 5, rfl, ⟨hf _ (by decide) (by decide), by simp [ITy.signed]⟩, .inr ?_⟩, by simp⟩
        rcases hd with rfl | rfl
        · exact ⟨_, rfl, ⟨rfl, by decide⟩, by simp⟩
        · exact ⟨_, rfl, ⟨rfl, by decide⟩, by simp⟩
      · simp only [List.forall_mem_cons, hb, hd']
        refine ⟨⟨.int .i64 12, .int .i64 2 10 rfl (hf _ (by decide) (by decide)) (hf _ (by decide) (by decide)), ⟨hf _ (by decide) (by decide), by simp [ITy.signed]⟩, .inr ?_⟩,
          ⟨.int .i64 2, .fresh 2, ⟨hf _ (by decide) (by decide), by simp [ITy.signed]⟩, .inl ?_⟩, by simp⟩
        · rcases hd with rfl | rfl
          · exact ⟨_, rfl, ⟨rfl, by decide⟩, by simp⟩
          · exact ⟨_, rfl, ⟨rfl, by decide⟩, by simp⟩
        · rcases hd with rfl | rfl
          · exact ⟨rfl, by simp [Update.Zero]⟩
          · exact ⟨rfl, by simp [Update.Zero]⟩
    intro d hd hs
    simp only [List.mem_cons, List.not_mem_nil, or_false] at hd
    rcases hd with rfl | rfl | rfl
    · exact key _ (.inl rfl)
    · exact absurd hs.1 (by unfold Cond.sat truth; decide +kernel)
    · exact key _ (.inr rfl)

/-- `$set` of zero, `False` or the empty text adds no field: `{"$set": {"a": 0}}` leaves `{}` as it is. -/
theorem C93_zero_fails : ¬ C93_claim ∧
    update Update.noMath (fun _ => 0) true noLib noRx id (-1) false [] [(.str kSet, .dict [(.str [97], .scalar (.int 0))])] [⟨1, .obj []⟩] =
      .ok ([⟨1, .obj []⟩], []) := by
  have hw : update Update.noMath (fun _ => 0) true noLib noRx id (-1) false [] [(.str kSet, .dict [(.str [97], .scalar (.int 0))])] [⟨1, .obj []⟩] =
      .ok ([⟨1, .obj []⟩], []) := by decide +kernel
  refine ⟨?_, hw⟩
  intro h
  have := h Update.noMath (fun _ => 0) true noLib noRx id [] [(.str kSet, .dict [(.str [97], .scalar (.int 0))])] [([97], .int 0)] [⟨1, .obj []⟩]
    (fun _ => List.Perm.refl _) trivial trivial (by simp [rootShaped]) trivial (by decide) (fun _ _ => trivial)
    ⟨by simp [PyObj.all, allFields, Scalar.plain, Scalar.known]; decide, by decide, .inl (by rw [set_text]; rfl), .inr ⟨by rw [inc_text]; rfl, rfl⟩, by simp [Sql.Name]; decide, by decide⟩
    (by decide) (by decide) (by simp [Json.seen, Json.reach, Json.Node.shape])
  obtain ⟨store', ids, h1, h2, _⟩ := this
  rw [show entriesPy [] = [] from rfl, hw] at h1
  cases h1
  cases h2 with
  | cons h2 _ =>
    obtain ⟨v, w, _, h4, _⟩ := (h2.2.1 trivial).1 _ List.mem_cons_self
    cases h4

/-- Beyond the claim: a `dict` or `list` in `$set`, and a `$set` that is no `dict`, dereference a null pointer. -/
theorem C93_nested_is_ub :
    update Update.noMath (fun _ => 0) true noLib noRx id (-1) false [] [(.str kSet, .dict [(.str [97], .dict [])])] [⟨1, .obj []⟩] = .ub ∧
    update Update.noMath (fun _ => 0) true noLib noRx id (-1) false [] [(.str kSet, .dict [(.str [97], .list [.scalar (.int 1)])])] [⟨1, .obj []⟩] = .ub ∧
    update Update.noMath (fun _ => 0) true noLib noRx id (-1) false [] [(.str kSet, .scalar (.int 1))] [⟨1, .obj []⟩] = .ub := ⟨by decide +kernel, by decide +kernel, by decide +kernel⟩

/-- Beyond the claim: other operators, and fields without one, are passed over without a word. -/
theorem C93_unset_fails :
    update Update.noMath (fun _ => 0) true noLib noRx id (-1) false [] [(.str kUnset, .dict [(.str [97], .scalar (.int 1))])] [exU1] = .ok ([exU1], []) ∧
    update Update.noMath (fun _ => 0) true noLib noRx id (-1) false [] [(.str [97], .scalar (.int 7))] [exU1] = .ok ([exU1], []) := ⟨by decide +kernel, by decide +kernel⟩

/-- Beyond the claim: with `upsert` the new document has none of the fields of the condition and no `_id`, so that the next
one takes its place: after `update_one({"b": 1}, {"$set": {"a": 1}}, True)` and `update_one({"b": 2}, {"$set": {"a": 2}}, True)`
there is one document, `{"a": 2}`. -/
theorem C93_upsert_fails :
    ((update Update.noMath (fun _ => 0) true noLib noRx id 1 true (entriesPy [.field [98] (.int 1)]) [(.str kSet, .dict [(.str [97], .scalar (.int 1))])] []).bind fun r =>
      update Update.noMath (fun _ => 0) true noLib noRx id 1 true (entriesPy [.field [98] (.int 2)]) [(.str kSet, .dict [(.str [97], .scalar (.int 2))])] r.1) =
    .ok ([⟨0, .obj [([97], .leaf (.int .i64 2))]⟩], []) := by decide +kernel

end Verif.Py
