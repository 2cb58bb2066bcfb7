import Verif.Share.Quiet
/-! Lemmas: histories in which every document is given away once. -/
namespace Verif.Share

variable {D : Type} (idOf : D → Nat)

/-- Every stored document belongs to one collection; documents clients made and did not give away belong to none. -/
structure Owned (used : List Nat) (s : St D) (w : World D) (own : Ref → Option Nat) : Prop where
  colls : Colls idOf s w
  owns : ∀ c, ∀ e ∈ s.colls c, own e.2 = some c
  inj : ∀ c, ∀ e1 ∈ s.colls c, ∀ e2 ∈ s.colls c, e1.2 = e2.2 → e1 = e2
  lt : ∀ r c : Nat, own r = some c → r < s.heap.length
  madeLt : ∀ r : Nat, r ∈ s.made → r < s.heap.length
  nodup : s.made.Nodup
  len : s.made.length = w.made.length
  unused : ∀ k : Nat, k ∉ used → (s.made[k]?).map (fun r => s.heap[r]?) = (w.made[k]?).map some
  free : ∀ k r : Nat, k ∉ used → s.made[k]? = some r → own r = none
  ansLt : ∀ l ∈ s.answers, ∀ r : Nat, some r ∈ l → r < s.heap.length
  ansUsed : ∀ l ∈ s.answers, ∀ r : Nat, some r ∈ l → ∀ k : Nat, k ∉ used → s.made[k]? ≠ some r

theorem owned_init : Owned idOf [] (init : St D) World.init fun _ => none :=
  ⟨fun _ => ⟨rfl, List.Pairwise.nil⟩, nofun, nofun, nofun, nofun, List.nodup_nil, rfl, fun _ _ => rfl, nofun, nofun, nofun⟩

/-- What a call leaves as it was. -/
structure Passed (o : Op D) (s s' : St D) (w w' : World D) (own own' : Ref → Option Nat) : Prop where
  owns : ∀ l ∈ s.answers, ∀ r : Nat, some r ∈ l → own' r = own r
  heap : ∀ l ∈ s.answers, ∀ r : Nat, some r ∈ l → s'.heap[r]? = s.heap[r]? ∨ ∃ c, o.updates = some c ∧ own r = some c
  answers : ∃ ys, s'.answers = s.answers ++ ys
  said : ∀ c, o.about = some c → ∃ rs ans, s'.answers = s.answers ++ [rs] ∧ w'.answers = w.answers ++ [ans] ∧
    AnsRep s'.heap rs ans ∧ ∀ r : Nat, some r ∈ rs → own' r = some c ∨ own' r = none

theorem made_inj {l : List Ref} (h : l.Nodup) {k k' r : Nat} (h1 : l[k]? = some r) (h2 : l[k']? = some r) : k = k' := by
  have hk : k < l.length := by
    rcases Nat.lt_or_ge k l.length with hl | hl
    · exact hl
    · rw [List.getElem?_eq_none hl] at h1; cases h1
  exact (List.getElem?_inj hk h).1 (h1.trans h2.symm)

theorem mem_of_get {l : List Ref} {k r : Nat} (h : l[k]? = some r) : r ∈ l := List.mem_of_getElem? h

open Classical in
/-- A statement that changes no document and stores pointers nobody stores. -/
theorem effect_owned {used used' : List Nat} {s s' : St D} {w w' : World D} {own : Ref → Option Nat} {c0 : Nat}
    {new : List (Ref × D)} (h : Owned idOf used s w own) (e : Effect idOf c0 s s' w w' new) (hu : ∀ k ∈ used, k ∈ used')
    (hnew : ∀ x ∈ new, s.heap.length ≤ x.1 ∨ ∃ k : Nat, k ∉ used ∧ k ∈ used' ∧ s.made[k]? = some x.1)
    (hlt : ∀ x ∈ new, x.1 < s'.heap.length) (hnd : ∀ x ∈ new, ∀ y ∈ new, x.1 = y.1 → x = y)
    (o : Op D) (ho : o.about = some c0) :
    ∃ own', Owned idOf used' s' w' own' ∧ Passed o s s' w w' own own' := by
  obtain ⟨xs, hx⟩ := e.heap
  have hlen : s.heap.length ≤ s'.heap.length := by rw [hx]; simp
  have keep : ∀ r : Nat, r < s.heap.length → s'.heap[r]? = s.heap[r]? := by
    intro r hr
    rw [hx, List.getElem?_append_left hr]
  have old : ∀ r c, own r = some c → r ∉ new.map (·.1) := by
    intro r c hr hm
    obtain ⟨x, hxn, rfl⟩ := List.mem_map.1 hm
    rcases hnew x hxn with h1 | ⟨k, h1, _, h2⟩
    · exact absurd (h.lt _ _ hr) (Nat.not_lt.2 h1)
    · rw [h.free k x.1 h1 h2] at hr; cases hr
  obtain ⟨rs, ans, h1, h2, h3, h4⟩ := e.said
  let own' : Ref → Option Nat := fun r => if r ∈ new.map (·.1) then some c0 else own r
  have own'_old : ∀ r, r ∉ new.map (·.1) → own' r = own r := fun r hr => if_neg hr
  have own'_new : ∀ r, r ∈ new.map (·.1) → own' r = some c0 := fun r hr => if_pos hr
  have hown : ∀ c, ∀ x ∈ s'.colls c, own' x.2 = some c := by
    intro c x hxc
    by_cases hc : c = c0
    · subst hc
      rcases e.src.2 x hxc with h5 | ⟨y, hy, h5, _⟩
      · rw [own'_old _ (old _ _ (h.owns c x h5))]
        exact h.owns c x h5
      · exact own'_new _ (List.mem_map.2 ⟨y, hy, h5⟩)
    · rw [e.src.1 c hc] at hxc
      rw [own'_old _ (old _ _ (h.owns c x hxc))]
      exact h.owns c x hxc
  have freshNone : ∀ r : Nat, s.heap.length ≤ r → own r = none := by
    intro r hr
    cases ho' : own r with
    | none => rfl
    | some c => exact absurd (h.lt _ _ ho') (Nat.not_lt.2 hr)
  have hfree : ∀ k r : Nat, k ∉ used' → s'.made[k]? = some r → own' r = none := by
    intro k r hk hr
    rw [e.made.1] at hr
    rw [own'_old, h.free k r (fun q => hk (hu k q)) hr]
    intro hm
    obtain ⟨x, hxn, rfl⟩ := List.mem_map.1 hm
    rcases hnew x hxn with h5 | ⟨k', _, h6, h7⟩
    · exact absurd (h.madeLt _ (mem_of_get hr)) (Nat.not_lt.2 h5)
    · rw [made_inj h.nodup hr h7] at hk
      exact hk h6
  have newOwn : ∀ r : Nat, some r ∈ rs → own' r = some c0 ∨ own' r = none := by
    intro r hr
    rcases h4 r hr with ⟨k, hk⟩ | hf
    · exact .inl (hown c0 _ hk)
    · by_cases hm : r ∈ new.map (·.1)
      · exact .inl (own'_new r hm)
      · right; rw [own'_old r hm]; exact freshNone r hf
  refine ⟨own', ⟨e.colls, hown, ?_, ?_, ?_, ?_, ?_, ?_, hfree, ?_, ?_⟩, ⟨?_, ?_, ⟨_, h1⟩, ?_⟩⟩
  · intro c a ha b hb hab
    by_cases hc : c = c0
    · subst hc
      rcases e.src.2 a ha with h5 | ⟨x, hxn, h5, h6⟩
      · rcases e.src.2 b hb with h7 | ⟨y, hyn, h7, h8⟩
        · exact h.inj c a h5 b h7 hab
        · exfalso
          refine old _ _ (h.owns c a h5) ?_
          rw [hab]
          exact List.mem_map.2 ⟨y, hyn, h7⟩
      · rcases e.src.2 b hb with h7 | ⟨y, hyn, h7, h8⟩
        · exfalso
          refine old _ _ (h.owns c b h7) ?_
          rw [← hab]
          exact List.mem_map.2 ⟨x, hxn, h5⟩
        · have hxy := hnd x hxn y hyn (by rw [h5, h7, hab])
          subst hxy
          exact Prod.ext (h6.symm.trans h8) hab
    · rw [e.src.1 c hc] at ha hb
      exact h.inj c a ha b hb hab
  · intro r c hr
    by_cases hm : r ∈ new.map (·.1)
    · obtain ⟨x, hxn, rfl⟩ := List.mem_map.1 hm
      exact hlt x hxn
    · rw [own'_old r hm] at hr
      exact Nat.lt_of_lt_of_le (h.lt r c hr) hlen
  · intro r hr
    rw [e.made.1] at hr
    exact Nat.lt_of_lt_of_le (h.madeLt r hr) hlen
  · rw [e.made.1]; exact h.nodup
  · rw [e.made.1, e.made.2]; exact h.len
  · intro k hk
    rw [e.made.1, e.made.2, ← h.unused k fun q => hk (hu k q)]
    cases hm : s.made[k]? with
    | none => rfl
    | some r => simp only [Option.map_some, keep r (h.madeLt r (mem_of_get hm))]
  · intro l hl r hr
    rw [h1] at hl
    rcases List.mem_append.1 hl with hl | hl
    · exact Nat.lt_of_lt_of_le (h.ansLt l hl r hr) hlen
    · rw [List.mem_singleton.1 hl] at hr
      have hm : some (s'.heap[r]?) ∈ ans.map (Option.map some) := by
        have h3' : rs.map (Option.map fun r => s'.heap[r]?) = ans.map (Option.map some) := h3
        rw [← h3']; exact List.mem_map.2 ⟨some r, hr, rfl⟩
      obtain ⟨q, _, hq⟩ := List.mem_map.1 hm
      rcases Nat.lt_or_ge r s'.heap.length with hl | hl
      · exact hl
      · rw [List.getElem?_eq_none hl] at hq
        cases q <;> simp at hq
  · intro l hl r hr k hk hmk
    rw [h1] at hl
    have hmk' := hmk
    rw [e.made.1] at hmk'
    rcases List.mem_append.1 hl with hl | hl
    · exact h.ansUsed l hl r hr k (fun q => hk (hu k q)) hmk'
    · rw [List.mem_singleton.1 hl] at hr
      rcases h4 r hr with ⟨k', hk'⟩ | hf
      · have := hown c0 _ hk'
        rw [hfree k r hk hmk] at this
        cases this
      · exact absurd (h.madeLt r (mem_of_get hmk')) (Nat.not_lt.2 hf)
  · intro l hl r hr
    apply own'_old
    intro hm
    obtain ⟨x, hxn, rfl⟩ := List.mem_map.1 hm
    rcases hnew x hxn with h5 | ⟨k, h5, _, h6⟩
    · exact absurd (h.ansLt l hl _ hr) (Nat.not_lt.2 h5)
    · exact h.ansUsed l hl _ hr k h5 h6
  · intro l hl r hr
    exact .inl (keep r (h.ansLt l hl r hr))
  · intro c hc
    rw [ho] at hc
    cases hc
    exact ⟨rs, ans, h1, h2, h3, newOwn⟩

end Verif.Share
