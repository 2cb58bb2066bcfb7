import Verif.Share.Careful
/-! Lemmas: UPDATE, and whole histories in which every document is given away once. -/
namespace Verif.Share

variable {D : Type} (idOf : D → Nat)

theorem keys_inj {heap : List D} {l : List (Nat × Ref)} {ds : List D} (h : Rep idOf heap l ds) (hs : Sorted idOf ds) :
    ∀ a ∈ l, ∀ b ∈ l, a.1 = b.1 → a = b := by
  induction l generalizing ds with
  | nil => exact nofun
  | cons e l ih =>
    obtain ⟨d, ds', rfl, h1, h2, h3⟩ := Rep.casesOn' idOf h
    have hp := List.pairwise_cons.1 hs
    have far : ∀ x ∈ l, e.1 < x.1 := by
      intro x hx
      obtain ⟨y, hy, h4, _⟩ := h3.mem idOf x hx
      have := hp.1 y hy
      omega
    intro a ha b hb hab
    rcases List.mem_cons.1 ha with h4 | ha
    · rcases List.mem_cons.1 hb with h5 | hb
      · exact h4.trans h5.symm
      · have := far b hb
        rw [h4] at hab
        omega
    · rcases List.mem_cons.1 hb with h5 | hb
      · have := far a ha
        rw [h5] at hab
        omega
      · exact ih h3 hp.2 a ha b hb hab

/-- The pointers of a storage are different. -/
theorem refs_nodup {heap : List D} {l : List (Nat × Ref)} {ds : List D} (h : Rep idOf heap l ds) (hs : Sorted idOf ds)
    (hi : ∀ a ∈ l, ∀ b ∈ l, a.2 = b.2 → a = b) : (l.map (·.2)).Nodup := by
  have hk : (l.map (·.1)).Pairwise (· < ·) := by
    have : l.map (·.1) = ds.map idOf := by
      unfold Rep at h
      have := congrArg (List.map Prod.fst) h
      simpa [List.map_map, Function.comp_def] using this
    rw [this, List.pairwise_map]
    exact hs
  rw [List.pairwise_map] at hk
  unfold List.Nodup
  rw [List.pairwise_map]
  refine hk.imp_of_mem ?_
  intro a b ha hb hab hr
  rw [hi a ha b hb hr] at hab
  omega

theorem updateLoop_ok (f : D → D × Bool) {heap : List D} (es : List (Ref × D)) (hg : Good heap es) (hn : (es.map (·.1)).Nodup) :
    ∃ heap' : List D, updateLoop idOf f heap (es.map (·.1)) =
        .ok (heap', (es.filter fun e => (f e.2).2).map fun e => idOf (f e.2).1) ∧
      heap'.length = heap.length ∧ (∀ r : Nat, r ∉ es.map (·.1) → heap'[r]? = heap[r]?) ∧
      ∀ e ∈ es, heap'[e.1]? = some (f e.2).1 := by
  induction es generalizing heap with
  | nil => exact ⟨heap, rfl, rfl, fun _ _ => rfl, nofun⟩
  | cons e es ih =>
    have he := hg e List.mem_cons_self
    have hn' := List.nodup_cons.1 (show (e.1 :: es.map (·.1)).Nodup from hn)
    have hne : ∀ x ∈ es, x.1 ≠ e.1 := by
      intro x hx hxe
      exact hn'.1 (hxe ▸ List.mem_map.2 ⟨x, hx, rfl⟩)
    have hlt : e.1 < heap.length := by
      rcases Nat.lt_or_ge e.1 heap.length with hl | hl
      · exact hl
      · rw [List.getElem?_eq_none hl] at he; cases he
    obtain ⟨heap', h1, h2, h3, h4⟩ := ih (heap := heap.set e.1 (f e.2).1) (by
      intro x hx
      rw [List.getElem?_set_ne (Ne.symm (hne x hx))]
      exact hg x (List.mem_cons_of_mem _ hx)) hn'.2
    refine ⟨heap', ?_, by rw [h2, List.length_set], ?_, ?_⟩
    · simp only [List.map_cons, updateLoop, he, h1, Res.map', Res.bind, List.filter_cons]
      by_cases hb : (f e.2).2 = true
      · rw [if_pos hb, if_pos hb]; rfl
      · rw [if_neg hb, if_neg hb]
    · intro r hr
      simp only [List.map_cons, List.mem_cons, not_or] at hr
      rw [h3 r hr.2, List.getElem?_set_ne (Ne.symm hr.1)]
    · intro x hx
      rcases List.mem_cons.1 hx with rfl | hx
      · rw [h3 _ hn'.1, List.getElem?_set_self hlt]
      · exact h4 x hx

theorem sorted_find {ds : List D} (hs : Sorted idOf ds) {d : D} (hd : d ∈ ds) :
    (ds.find? fun e => idOf e == idOf d) = some d := by
  induction ds with
  | nil => cases hd
  | cons x ds ih =>
    have hp := List.pairwise_cons.1 hs
    rcases List.mem_cons.1 hd with rfl | hd
    · rw [List.find?_cons_of_pos (by simp)]
    · have := hp.1 d hd
      rw [List.find?_cons_of_neg (by simp; omega)]
      exact ih hp.2 hd

/-- UPDATE of documents that are found. -/
theorem update_owned {used : List Nat} {s : St D} {w : World D} {own : Ref → Option Nat} (h : Owned idOf used s w own)
    (c : Nat) (p : D → Bool) (lim : Option Nat) (f : D → D × Bool) (new : Option D) (hf : ∀ d, idOf (f d).1 = idOf d)
    (hl : lim ≠ some 0) (hh : found p lim (w.colls c) ≠ []) :
    ∃ s', step idOf s (.update c p lim f new) = .ok s' ∧ Owned idOf used s' (w.update idOf c p lim f new) own ∧
      Passed (.update c p lim f new) s s' w (w.update idOf c p lim f new) own own := by
  obtain ⟨es, h1, h2, h3, h4⟩ := scan_rep idOf (h.colls c).1 p lim
  have hnd : (es.map (·.1)).Nodup := (refs_nodup idOf (h.colls c).1 (h.colls c).2 (h.inj c)).sublist h4
  obtain ⟨heap', h5, h6, h7, h8⟩ := updateLoop_ok idOf f es h3 hnd
  have ref_own : ∀ r ∈ es.map (·.1), own r = some c := by
    intro r hr
    obtain ⟨x, hx, rfl⟩ := List.mem_map.1 (h4.subset hr)
    exact h.owns c x hx
  have same : ∀ r : Nat, own r ≠ some c → heap'[r]? = s.heap[r]? := fun r hr => h7 r fun q => hr (ref_own r q)
  let upd : D → D := fun d => if (found p lim (w.colls c)).any (fun e => idOf e == idOf d) then (f d).1 else d
  have upd_id : ∀ d, idOf (upd d) = idOf d := by
    intro d
    show idOf (if _ then (f d).1 else d) = idOf d
    split
    · exact hf d
    · rfl
  have hrep : Rep idOf heap' (s.colls c) ((w.colls c).map upd) := by
    have hr := (h.colls c).1
    have hs := (h.colls c).2
    have key : ∀ e ∈ s.colls c, ∀ d, s.heap[e.2]? = some d → e.1 = idOf d → heap'[e.2]? = some (upd d) := by
      intro e he d hd hk
      show heap'[e.2]? = some (if _ then (f d).1 else d)
      by_cases hm : e.2 ∈ es.map (·.1)
      · obtain ⟨x, hx, hxe⟩ := List.mem_map.1 hm
        have hxd : x.2 = d := by
          have := h3 x hx
          rw [hxe, hd] at this
          exact (Option.some.inj this).symm
        have ha : (found p lim (w.colls c)).any (fun e => idOf e == idOf d) = true := by
          refine List.any_eq_true.2 ⟨d, ?_, by simp⟩
          rw [← h2, ← hxd]
          exact List.mem_map.2 ⟨x, hx, rfl⟩
        rw [if_pos ha, ← hxe, h8 x hx, hxd]
      · have ha : ¬ (found p lim (w.colls c)).any (fun e => idOf e == idOf d) = true := by
          intro ha
          obtain ⟨y, hy, hyd⟩ := List.any_eq_true.1 ha
          rw [← h2] at hy
          obtain ⟨x, hx, rfl⟩ := List.mem_map.1 hy
          obtain ⟨e', he', hee⟩ := List.mem_map.1 (h4.subset (List.mem_map.2 ⟨x, hx, rfl⟩))
          obtain ⟨z, _, hz1, hz2⟩ := hr.mem idOf e' he'
          have hzx : z = x.2 := by
            have := h3 x hx
            rw [← hee, hz2] at this
            exact Option.some.inj this
          have hid : idOf x.2 = idOf d := by simpa using hyd
          have : e' = e := keys_inj idOf hr hs e' he' e he (by rw [hz1, hzx, hid, hk])
          subst this
          exact hm (hee ▸ List.mem_map.2 ⟨x, hx, rfl⟩)
        rw [if_neg ha, h7 _ hm, hd]
    clear hnd h4 h5
    generalize hup : upd = u at key upd_id
    generalize s.colls c = l at hr key
    generalize w.colls c = ds at hr hs
    clear hs
    induction l generalizing ds with
    | nil => rw [rep_nil_left] at hr; subst hr; rfl
    | cons e l ih =>
      obtain ⟨d, ds', rfl, k1, k2, k3⟩ := Rep.casesOn' idOf hr
      simp only [List.map_cons]
      rw [Rep.cons_iff]
      refine ⟨⟨by rw [k1, upd_id], key e List.mem_cons_self d k2 k1⟩,
        ih (fun x hx => key x (List.mem_cons_of_mem _ hx)) _ k3⟩
  have hsort : Sorted idOf ((w.colls c).map upd) := by
    unfold Sorted
    rw [List.pairwise_map]
    refine (h.colls c).2.imp ?_
    intro a b hab
    rw [upd_id, upd_id]; exact hab
  have hother : ∀ x, x ≠ c → Rep idOf heap' (s.colls x) (w.colls x) := by
    intro x hx
    refine (h.colls x).1.congr idOf ?_
    intro e he
    apply same
    rw [h.owns x e he]
    simpa using hx
  have hid : ∀ e ∈ es, (((w.colls c).map upd).find? fun y => idOf y == idOf (f e.2).1) = some (f e.2).1 := by
    intro e he
    have hm : e.2 ∈ found p lim (w.colls c) := by rw [← h2]; exact List.mem_map.2 ⟨e, he, rfl⟩
    have hu : upd e.2 = (f e.2).1 := by
      show (if _ then (f e.2).1 else e.2) = _
      rw [if_pos (List.any_eq_true.2 ⟨e.2, hm, by simp⟩)]
    have := sorted_find idOf hsort (List.mem_map.2 ⟨e.2, (found_sub p lim _).subset hm, rfl⟩)
    rw [hu] at this
    exact this
  obtain ⟨rs, h9, h10, h11⟩ := atAll_rep idOf hrep ((es.filter fun e => (f e.2).2).map fun e => idOf (f e.2).1) (by
    intro k hk
    obtain ⟨e, he, rfl⟩ := List.mem_map.1 hk
    have := hid e (List.mem_filter.1 he).1
    refine List.any_eq_true.2 ⟨(f e.2).1, List.mem_of_find?_eq_some this, by simp⟩)
  have hne : es.isEmpty = false := by
    cases es with
    | nil => exact absurd h2.symm hh
    | cons _ _ => rfl
  have hne' : (found p lim (w.colls c)).isEmpty = false := by
    cases hq : found p lim (w.colls c) with
    | nil => exact absurd hq hh
    | cons _ _ => rfl
  have hw : w.update idOf c p lim f new = (w.setColl c ((w.colls c).map upd)).say
      (((found p lim (w.colls c)).filter fun d => (f d).2).map fun d => some (f d).1) := by
    unfold World.update
    simp only [if_neg hl, hne']
    rfl
  have hans : AnsRep heap' (rs.map some)
      (((found p lim (w.colls c)).filter fun d => (f d).2).map fun d => some (f d).1) := by
    unfold AnsRep
    rw [List.map_map, List.map_map]
    have e1 : rs.map (Option.map (fun r => heap'[r]?) ∘ some) = rs.map fun r => some (heap'[r]?) := rfl
    rw [e1, h10, ← h2, List.filter_map, List.map_map, List.map_map]
    apply List.map_congr_left
    intro e he
    have := hid e (List.mem_filter.1 he).1
    simp only [Function.comp_apply, this, Option.map_some]
  have seen : ∀ r : Nat, some r ∈ rs.map some → own r = some c := by
    intro r hr
    obtain ⟨q, hq, h12⟩ := List.mem_map.1 hr
    cases h12
    obtain ⟨k, hk⟩ := h11 r hq
    exact h.owns c _ hk
  refine ⟨answer { s with heap := heap' } (rs.map some), ?_, ?_, ?_⟩
  · simp only [step, update, if_neg hl, h1, Res.bind, hne, h5, h9]
    rfl
  · rw [hw]
    refine ⟨?_, h.owns, h.inj, ?_, ?_, h.nodup, h.len, ?_, h.free, ?_, ?_⟩
    · intro x
      by_cases hx : x = c
      · subst hx
        simp only [World.say, World.setColl, answer, if_true]
        exact ⟨hrep, hsort⟩
      · simp only [World.say, World.setColl, answer, if_neg hx]
        exact ⟨hother x hx, (h.colls x).2⟩
    · intro r x hr
      show r < heap'.length
      rw [h6]; exact h.lt r x hr
    · intro r hr
      show r < heap'.length
      rw [h6]; exact h.madeLt r hr
    · intro k hk
      refine Eq.trans ?_ (h.unused k hk)
      cases hm : s.made[k]? with
      | none => simp only [answer, hm]; rfl
      | some r =>
        simp only [answer, hm, Option.map_some]
        rw [same r (by rw [h.free k r hk hm]; nofun)]
    · intro l hla r hr
      show r < heap'.length
      rw [h6]
      rcases List.mem_append.1 hla with hla | hla
      · exact h.ansLt l hla r hr
      · rw [List.mem_singleton.1 hla] at hr
        exact h.lt r c (seen r hr)
    · intro l hla r hr k hk hmk
      rcases List.mem_append.1 hla with hla | hla
      · exact h.ansUsed l hla r hr k hk hmk
      · rw [List.mem_singleton.1 hla] at hr
        have a := seen r hr
        rw [h.free k r hk hmk] at a
        cases a
  · rw [hw]
    refine ⟨fun _ _ _ _ => rfl, ?_, ⟨_, rfl⟩, ?_⟩
    · intro l hla r hr
      by_cases ho : own r = some c
      · exact .inr ⟨c, rfl, ho⟩
      · exact .inl (same r ho)
    · intro x hx
      cases hx
      exact ⟨_, _, rfl, rfl, hans, fun r hr => .inl (seen r hr)⟩

/-- The other outcomes of UPDATE. -/
theorem upsert_effect {s : St D} {w : World D} (h : Colls idOf s w)
    (c : Nat) (p : D → Bool) (lim : Option Nat) (f : D → D × Bool) (new : Option D)
    (hl : lim = some 0 ∨ found p lim (w.colls c) = []) :
    ∃ s', step idOf s (.update c p lim f new) = .ok s' ∧
      ∃ ds : List D, Effect idOf c s s' w (w.update idOf c p lim f new) ((alloc s.heap ds).2.zip ds) ∧
        s'.heap = s.heap ++ ds := by
  by_cases h0 : lim = some 0
  · refine ⟨answer s [], by simp only [step, update, if_pos h0], [], ?_, by simp [answer]⟩
    unfold World.update
    simp only [if_pos h0]
    exact ⟨⟨[], by simp [answer]⟩, ⟨rfl, rfl⟩, ⟨_, _, rfl, rfl, rfl, nofun⟩, h, ⟨fun _ _ => rfl, fun e he => .inl he⟩⟩
  · have hh : found p lim (w.colls c) = [] := hl.resolve_left h0
    obtain ⟨es, h1, h2, _, _⟩ := scan_rep idOf (h c).1 p lim
    have hes : es = [] := by
      rw [hh] at h2
      exact List.map_eq_nil_iff.1 h2
    subst hes
    cases new with
    | none =>
      refine ⟨answer s [], by simp only [step, update, if_neg h0, h1, Res.bind, List.isEmpty_nil, if_true], [], ?_,
        by simp [answer]⟩
      unfold World.update
      simp only [if_neg h0, hh, List.isEmpty_nil, if_true]
      exact ⟨⟨[], by simp [answer]⟩, ⟨rfl, rfl⟩, ⟨_, _, rfl, rfl, rfl, nofun⟩, h, ⟨fun _ _ => rfl, fun e he => .inl he⟩⟩
    | some d =>
      have hz := alloc_zip s.heap [d]
      have hgood := alloc_good s.heap [d]
      obtain ⟨k1, k2⟩ := insertLoop_rep idOf ((h c).1.grow idOf [d]) (h c).2 hgood
      rw [hz.2] at k1 k2
      have hzip : (alloc s.heap [d]).2.map (fun r => (r, d)) = (alloc s.heap [d]).2.zip [d] := rfl
      refine ⟨_, by simp only [step, update, if_neg h0, h1, Res.bind, List.isEmpty_nil, if_true]; rfl, [d], ?_, rfl⟩
      unfold World.update
      simp only [if_neg h0, hh, List.isEmpty_nil, if_true]
      refine ⟨⟨[d], rfl⟩, ⟨rfl, rfl⟩, ⟨_, _, rfl, rfl, ?_, ?_⟩,
        colls_set idOf h k1 k2 (fun x _ => (h x).1.grow idOf [d]) _ _ _, ⟨?_, ?_⟩⟩
      · have := ansRep_good hgood
        rw [hz.2] at this
        exact this
      · intro r hr
        right
        obtain ⟨q, hq, h5⟩ := List.mem_map.1 hr
        cases h5
        exact alloc_le s.heap _ r hq
      · intro x hx
        simp only [answer, setColl, if_neg hx]
      · intro e he
        simp only [answer, setColl, if_true] at he
        exact insertLoop_mem idOf e he

theorem zip_fresh (heap ds : List D) : ∀ x ∈ (alloc heap ds).2.zip ds,
    heap.length ≤ x.1 ∧ x.1 < (heap ++ ds).length := by
  intro x hx
  have := (List.of_mem_zip hx).1
  simp only [alloc, List.mem_range'_1] at this
  rw [List.length_append]
  exact this

theorem zip_inj (heap ds : List D) : ∀ x ∈ (alloc heap ds).2.zip ds, ∀ y ∈ (alloc heap ds).2.zip ds, x.1 = y.1 → x = y := by
  intro x hx y hy hxy
  have h1 := alloc_good heap ds x hx
  have h2 := alloc_good heap ds y hy
  rw [hxy, h2] at h1
  exact Prod.ext hxy (Option.some.inj h1).symm

/-- The documents of an INSERT by a careful client. -/
theorem resolveAll_made {used : List Nat} {s : St D} {w : World D} {own : Ref → Option Nat} (h : Owned idOf used s w own)
    (ks : List Nat) (hk : ∀ k ∈ ks, k ∉ used) {ds : List D} (hd : (ks.map Held.made).mapM w.held = some ds) :
    ∃ es : List (Ref × D), resolveAll s (ks.map .made) = .ok (es.map (·.1)) ∧ es.map (·.2) = ds ∧ Good s.heap es ∧
      ∀ x ∈ es, ∃ k ∈ ks, s.made[k]? = some x.1 := by
  induction ks generalizing ds with
  | nil =>
    rw [List.map_nil, List.mapM_nil] at hd
    cases hd
    exact ⟨[], rfl, rfl, nofun, nofun⟩
  | cons k ks ih =>
    rw [List.map_cons, List.mapM_cons] at hd
    cases hx : w.held (.made k) with
    | none => rw [hx] at hd; cases hd
    | some d =>
      cases hxs : (ks.map Held.made).mapM w.held with
      | none => rw [hx, hxs] at hd; cases hd
      | some ds' =>
        rw [hx, hxs] at hd
        cases hd
        obtain ⟨es, h3, h4, h5, h6⟩ := ih (fun x hx => hk x (List.mem_cons_of_mem _ hx)) hxs
        have hu := h.unused k (hk k List.mem_cons_self)
        have hx' : w.made[k]? = some d := hx
        rw [hx'] at hu
        cases hm : s.made[k]? with
        | none => rw [hm] at hu; cases hu
        | some r =>
          rw [hm] at hu
          refine ⟨(r, d) :: es, ?_, by simp [h4], ?_, ?_⟩
          · simp only [List.map_cons, resolveAll, resolve, hm, Res.bind, h3]; rfl
          · intro e he
            rcases List.mem_cons.1 he with rfl | he
            · simpa using hu
            · exact h5 e he
          · intro e he
            rcases List.mem_cons.1 he with rfl | he
            · exact ⟨k, List.mem_cons_self, hm⟩
            · obtain ⟨q, hq, h7⟩ := h6 e he
              exact ⟨q, List.mem_cons_of_mem _ hq, h7⟩

theorem careful_step {used : List Nat} {s : St D} {w w' : World D} {own : Ref → Option Nat} (h : Owned idOf used s w own)
    (o : Op D) (os : List (Op D)) (hc : Careful idOf used (o :: os)) (hw : w.step idOf o = some w') :
    ∃ s' used' own', step idOf s o = .ok s' ∧ Owned idOf used' s' w' own' ∧ Careful idOf used' os ∧
      Passed o s s' w w' own own' := by
  cases o with
  | make d =>
    cases hw
    refine ⟨_, used, own, rfl, ⟨h.colls.grow idOf [d], h.owns, h.inj, ?_, ?_, ?_, ?_, ?_, ?_, ?_, ?_⟩, hc,
      ⟨fun _ _ _ _ => rfl, ?_, ⟨[], by simp⟩, nofun⟩⟩
    · intro r c hr
      have := h.lt r c hr
      simp only [alloc, List.length_append]; omega
    · intro r hr
      rcases List.mem_append.1 hr with hr | hr
      · have := h.madeLt r hr
        simp only [alloc, List.length_append]; omega
      · have : r = s.heap.length := by simpa [alloc] using hr
        subst this
        simp [alloc]
    · simp only [alloc]
      rw [List.nodup_append]
      refine ⟨h.nodup, by simp, ?_⟩
      intro a ha b hb hab
      have h1 := h.madeLt a ha
      have h2 : b = s.heap.length := by simpa using hb
      rw [hab, h2] at h1
      exact Nat.lt_irrefl _ h1
    · simp [alloc, h.len]
    · intro k hk
      simp only [alloc]
      rcases Nat.lt_trichotomy k s.made.length with hlt | heq | hgt
      · rw [List.getElem?_append_left hlt, List.getElem?_append_left (h.len ▸ hlt)]
        rw [← h.unused k hk, List.getElem?_eq_getElem hlt]
        simp only [Option.map_some]
        rw [List.getElem?_append_left (h.madeLt _ (List.getElem_mem hlt))]
      · subst heq
        rw [List.getElem?_append_right (Nat.le_refl _), List.getElem?_append_right (by rw [h.len]; exact Nat.le_refl _), h.len]
        simp
      · rw [List.getElem?_eq_none (by simp; omega), List.getElem?_eq_none (by simp [← h.len]; omega)]
        rfl
    · intro k r hk hr
      simp only [alloc] at hr
      rcases Nat.lt_or_ge k s.made.length with hlt | hge
      · rw [List.getElem?_append_left hlt] at hr
        exact h.free k r hk hr
      · rw [List.getElem?_append_right hge] at hr
        have : r = s.heap.length := by
          have := mem_of_get hr
          simpa using this
        subst this
        cases ho : own s.heap.length with
        | none => rfl
        | some c => exact absurd (h.lt _ _ ho) (Nat.lt_irrefl _)
    · intro l hl r hr
      have := h.ansLt l hl r hr
      simp only [alloc, List.length_append]; omega
    · intro l hl r hr k hk hmk
      simp only [alloc] at hmk
      rcases Nat.lt_or_ge k s.made.length with hlt | hge
      · rw [List.getElem?_append_left hlt] at hmk
        exact h.ansUsed l hl r hr k hk hmk
      · rw [List.getElem?_append_right hge] at hmk
        have h1 := h.ansLt l hl r hr
        have : r = s.heap.length := by
          have := mem_of_get hmk
          simpa using this
        omega
    · intro l hl r hr
      left
      simp only [alloc]
      rw [List.getElem?_append_left (h.ansLt l hl r hr)]
  | write x f =>
    obtain ⟨⟨k, rfl, hk⟩, hos⟩ := hc
    have hu := h.unused k hk
    cases hx : w.made[k]? with
    | none =>
      simp only [World.step, World.held, hx] at hw
      cases hw
    | some d =>
      simp only [World.step, World.held, hx, Option.map_some, Option.some.injEq] at hw
      subst hw
      rw [hx] at hu
      cases hm : s.made[k]? with
      | none => rw [hm] at hu; cases hu
      | some r =>
        rw [hm] at hu
        have hd : s.heap[r]? = some d := by simpa using hu
        have hfree := h.free k r hk hm
        have hlt := h.madeLt r (mem_of_get hm)
        have same : ∀ q : Nat, q ≠ r → (s.heap.set r (f d))[q]? = s.heap[q]? := fun q hq => List.getElem?_set_ne (Ne.symm hq)
        refine ⟨{ s with heap := s.heap.set r (f d) }, used, own, ?_,
          ⟨?_, h.owns, h.inj, ?_, ?_, h.nodup, ?_, ?_, h.free, ?_, h.ansUsed⟩, hos,
          ⟨fun _ _ _ _ => rfl, ?_, ⟨[], by simp⟩, nofun⟩⟩
        · simp only [step, resolve, hm, Res.bind, hd]
        · intro c
          refine ⟨(h.colls c).1.congr idOf ?_, (h.colls c).2⟩
          intro e he
          apply same
          intro hq
          have := h.owns c e he
          rw [hq, hfree] at this
          cases this
        · intro q c hq
          show q < (s.heap.set r (f d)).length
          rw [List.length_set]; exact h.lt q c hq
        · intro q hq
          show q < (s.heap.set r (f d)).length
          rw [List.length_set]; exact h.madeLt q hq
        · simp [World.change, h.len]
        · intro j hj
          simp only [World.change]
          by_cases hjk : j = k
          · subst hjk
            have hjl : j < w.made.length := by
              rw [← h.len]
              rcases Nat.lt_or_ge j s.made.length with hl | hl
              · exact hl
              · rw [List.getElem?_eq_none hl] at hm; cases hm
            rw [hm, List.getElem?_set_self hjl]
            simp only [Option.map_some, List.getElem?_set_self hlt]
          · rw [List.getElem?_set_ne (Ne.symm hjk), ← h.unused j hj]
            cases hmj : s.made[j]? with
            | none => rfl
            | some q =>
              simp only [Option.map_some]
              rw [same q]
              rintro rfl
              exact hjk (made_inj h.nodup hmj hm)
        · intro l hl q hq
          show q < (s.heap.set r (f d)).length
          rw [List.length_set]; exact h.ansLt l hl q hq
        · intro l hl q hq
          left
          apply same
          rintro rfl
          exact h.ansUsed l hl q hq k hk hm
  | insert c hs =>
    obtain ⟨ks, rfl, hkn, hku, hos⟩ := hc
    cases hm : (ks.map Held.made).mapM w.held with
    | none => simp only [World.step, hm] at hw; cases hw
    | some ds =>
      simp only [World.step, hm, Option.map_some, Option.some.injEq] at hw
      obtain ⟨es, h1, h2, h3, h4⟩ := resolveAll_made idOf h ks hku hm
      obtain ⟨s', h5, h6⟩ := store_effect idOf h.colls h3 c
      rw [h2, hw] at h6
      obtain ⟨xs, hxs⟩ := h6.heap
      obtain ⟨own', h7, h8⟩ := effect_owned idOf h h6 (used' := ks ++ used) (fun k hk => List.mem_append_right _ hk)
        (by
          intro x hx
          obtain ⟨k, hk, hkx⟩ := h4 x hx
          exact .inr ⟨k, hku k hk, List.mem_append_left _ hk, hkx⟩)
        (by
          intro x hx
          obtain ⟨k, hk, hkx⟩ := h4 x hx
          have := h.madeLt _ (mem_of_get hkx)
          rw [hxs, List.length_append]
          exact Nat.lt_of_lt_of_le this (Nat.le_add_right _ _))
        (by
          intro x hx y hy hxy
          have a := h3 x hx
          have b := h3 y hy
          rw [hxy, b] at a
          exact Prod.ext hxy (Option.some.inj a).symm)
        (.insert c (ks.map .made)) rfl
      exact ⟨s', _, own', by simp only [step, h1, Res.bind]; exact h5, h7, hos, h8⟩
  | insertAll _ _ _ => exact hc.elim
  | insertCols c src p g =>
    cases hw
    obtain ⟨s', h5, xs, h6, ys, hx⟩ := insertCols_effect idOf h.colls c src p g
    obtain ⟨own', h7, h8⟩ := effect_owned idOf h h6 (fun _ hk => hk) (fun x hx => .inl (zip_fresh s.heap xs x hx).1)
      (fun x hxm => by
        rw [hx, List.length_append]
        exact Nat.lt_of_lt_of_le (zip_fresh s.heap xs x hxm).2 (Nat.le_add_right _ _))
      (zip_inj s.heap xs) (.insertCols c src p g) rfl
    exact ⟨s', used, own', h5, h7, hc, h8⟩
  | select c p lim =>
    cases hw
    obtain ⟨s', h5, h6⟩ := select_effect idOf h.colls c p lim
    obtain ⟨own', h7, h8⟩ := effect_owned idOf h h6 (fun _ hk => hk) nofun nofun nofun (.select c p lim) rfl
    exact ⟨s', used, own', h5, h7, hc, h8⟩
  | selectCols c p g =>
    cases hw
    obtain ⟨s', h5, h6⟩ := selectCols_effect idOf h.colls c p g
    obtain ⟨own', h7, h8⟩ := effect_owned idOf h h6 (fun _ hk => hk) nofun nofun nofun (.selectCols c p g) rfl
    exact ⟨s', used, own', h5, h7, hc, h8⟩
  | delete c p lim =>
    cases hw
    obtain ⟨s', h5, h6⟩ := delete_effect idOf h.colls c p lim hc.1
    obtain ⟨own', h7, h8⟩ := effect_owned idOf h h6 (fun _ hk => hk) nofun nofun nofun (.delete c p lim) rfl
    exact ⟨s', used, own', h5, h7, hc.2, h8⟩
  | update c p lim f new =>
    cases hw
    by_cases hh : lim = some 0 ∨ found p lim (w.colls c) = []
    · obtain ⟨s', h5, ds, h6, hx⟩ := upsert_effect idOf h.colls c p lim f new hh
      obtain ⟨own', h7, h8⟩ := effect_owned idOf h h6 (fun _ hk => hk) (fun x hx => .inl (zip_fresh s.heap ds x hx).1)
        (fun x hxm => by rw [hx]; exact (zip_fresh s.heap ds x hxm).2) (zip_inj s.heap ds) (.update c p lim f new) rfl
      exact ⟨s', used, own', h5, h7, hc.2, h8⟩
    · rw [not_or] at hh
      obtain ⟨s', h5, h6, h7⟩ := update_owned idOf h c p lim f new hc.1 hh.1 hh.2
      exact ⟨s', used, own, h5, h6, hc.2, h7⟩

end Verif.Share
