import Verif.CompSchema.Spec
import Verif.Trie.Lemmas
import Mathlib.Data.List.Induction
import Mathlib.Data.List.Nodup
/-!
C36: the computed schema lists a field type exactly while a live document contributes it.
-/
namespace Verif.CompSchema
set_option linter.unusedSectionVars false
open Verif.Trie
variable {E V : Type} [LinearOrder E] [DecidableEq V]

/-- What holds between two calls, when the names (`N`: those of the history) keep their distance. -/
structure SInv (N : List E → Prop) (s : Schema E V) (c : List E → V → Nat) : Prop where
  inv : Inv s.fields
  ids : ∀ p, ((s.fields.versions p).map Ver.id).Nodup
  old : ∀ p, ∀ v ∈ s.fields.versions p, v.id < s.fields.version
  vals : ∀ p, ((s.fields.versions p).map Ver.val).Nodup
  refs : ∀ p, ∀ v ∈ s.fields.versions p, v.refs = c p v.val
  all : ∀ p ty, 0 < c p ty → ∃ v ∈ s.fields.versions p, v.val = ty
  names : ∀ p, p ∈ s.names ↔ s.fields.versions p ≠ []
  alive : ∀ p, s.fields.versions p ≠ [] → ∃ v ∈ s.fields.versions p, 0 < v.refs
  nodup : s.names.Nodup
  known : ∀ p, s.fields.versions p ≠ [] → N p

def Far (N : List E → Prop) : Prop := ∀ p q, N p → N q → p.dropLast <+: q → q.length = p.length

theorem far_leaf {N : List E → Prop} {t : Trie E V} (hf : Far N) (hi : Inv t) (hk : ∀ p, t.versions p ≠ [] → N p) (p : List E)
    (hv : t.versions p ≠ []) : t.leaf p = true := by
  have hr0 : ∃ r m, t.root = some r ∧ r.at p = some m := by
    unfold Trie.versions at hv
    cases hr : t.root with
    | none => rw [hr] at hv; exact absurd rfl hv
    | some r =>
      rw [hr] at hv
      simp only at hv
      cases ha : r.at p with
      | none => rw [ha] at hv; exact absurd rfl hv
      | some m => exact ⟨r, m, rfl, ha⟩
  obtain ⟨r, m, hr, ha⟩ := hr0
  unfold Trie.leaf
  rw [hr]
  show leafAt r p = true
  unfold leafAt
  rw [ha]
  show m.kids.isNil = true
  by_contra hn
  unfold Trie.Inv at hi
  rw [hr] at hi
  have hw := at_WF p r m hi.1 ha
  have hkw : m.kids.WF := by cases m; exact hw
  obtain ⟨e, s, hs⟩ := klive_obs m.kids hkw (by simpa using hn)
  have hq : t.versions (p ++ e :: s) ≠ [] := by
    unfold Trie.versions
    rw [hr]
    simp only
    rw [at_append, ha]
    have : obs m (e :: s) = obs' (m.kids.find e) s := by cases m; exact obs_cons _ _ e s
    rw [← this] at hs
    exact hs
  have := hf p (p ++ e :: s) (hk p hv) (hk _ hq) ((List.dropLast_prefix p).trans (List.prefix_append _ _))
  simp at this

theorem far_quiet {N : List E → Prop} {t : Trie E V} (hf : Far N) (hi : Inv t) (hk : ∀ p, t.versions p ≠ [] → N p) (p : List E) (ty : V)
    (hp : N p) : t.insertThrows p ty = false := by
  unfold Trie.insertThrows
  cases hpe : p with
  | nil => rfl
  | cons a p' =>
    simp only
    rw [← hpe]
    obtain ⟨i1, i2⟩ := insert_ok t hi p ty
    cases hr : (t.insert p ty).root with
    | none => simp
    | some r =>
      simp only
      cases ha : r.at p.dropLast with
      | none => simp
      | some m =>
        cases m with
        | mk vs ks =>
          cases ks with
          | nil => simp
          | cons e n rest =>
            simp only
            unfold Trie.Inv at i1
            rw [hr] at i1
            have hmw := at_WF _ r _ i1.1 ha
            rw [WF_iff] at hmw
            have hfn : (Kids.cons e n rest).find e = some n := by simp [Kids.find]
            obtain ⟨cw, cl⟩ := find_WF _ e n hmw hfn
            obtain ⟨s, hs⟩ := live_obs n cw cl
            have hq : (t.insert p ty).versions (p.dropLast ++ e :: s) = obs n s := by
              unfold Trie.versions
              rw [hr]
              simp only
              rw [at_append, ha]
              show (match (Node.mk vs (Kids.cons e n rest)).at (e :: s) with | none => [] | some n => n.vers) = _
              rw [at_cons, hfn]
              rfl
            have hN : N (p.dropLast ++ e :: s) := by
              rw [← hq, i2] at hs
              by_cases hqp : p.dropLast ++ e :: s = p
              · rw [hqp]; exact hp
              · rw [if_neg hqp] at hs
                exact hk _ hs
            have hl := hf p _ hp hN (List.prefix_append _ _)
            have hpos : 0 < p.length := by rw [hpe]; simp
            rw [List.length_append, List.length_dropLast, List.length_cons] at hl
            have hs0 : s = [] := List.length_eq_zero_iff.mp (by omega)
            rw [hs0] at hs
            have h3 : n.vers ≠ [] := by
              intro hn
              apply hs
              cases n
              exact hn
            simp [h3]

theorem versionOf_some {N : List E → Prop} {s : Schema E V} {c : List E → V → Nat} (h : SInv N s c) {p : List E} {ty : V} {i : Nat}
    (hv : s.versionOf p ty = some i) : ∃ v ∈ s.fields.versions p, v.val = ty ∧ v.id = i := by
  unfold Schema.versionOf at hv
  split at hv
  · rw [Option.map_eq_some_iff] at hv
    obtain ⟨v, h1, h2⟩ := hv
    exact ⟨v, List.mem_of_find?_eq_some h1, by simpa using List.find?_some h1, h2⟩
  · cases hv

theorem versionOf_none {N : List E → Prop} {s : Schema E V} {c : List E → V → Nat} (h : SInv N s c) {p : List E} {ty : V}
    (hv : s.versionOf p ty = none) : ∀ v ∈ s.fields.versions p, v.val ≠ ty := by
  unfold Schema.versionOf at hv
  split at hv
  · rw [Option.map_eq_none_iff, List.find?_eq_none] at hv
    intro v hm hc
    exact hv v hm (by simpa using hc)
  · rename_i hn
    intro v hm
    have : s.fields.versions p = [] := by
      by_contra hc
      exact hn ((h.names p).mpr hc)
    rw [this] at hm
    cases hm

theorem id_iff {N : List E → Prop} {s : Schema E V} {c : List E → V → Nat} (h : SInv N s c) {p : List E} {v0 v : Ver V}
    (h0 : v0 ∈ s.fields.versions p) (hv : v ∈ s.fields.versions p) : v.id = v0.id ↔ v.val = v0.val := by
  constructor
  · intro he
    rw [List.inj_on_of_nodup_map (h.ids p) hv h0 he]
  · intro he
    rw [List.inj_on_of_nodup_map (h.vals p) hv h0 he]

/-- The effect of a change of the reference count of one version. -/
theorem touch_inv {N : List E → Prop} {s : Schema E V} {c : List E → V → Nat} (h : SInv N s c) {p : List E} {v0 : Ver V}
    (h0 : v0 ∈ s.fields.versions p) (g : Nat → Nat) (f : Ver V → Ver V) (hf : f = fun v => if v.id = v0.id then ⟨v.id, g v.refs, v.val⟩ else v)
    (c' : List E → V → Nat) (hc : ∀ q u, c' q u = if q = p ∧ u = v0.val then g (c q u) else c q u) :
    Inv (s.fields.touch p f) ∧ (∀ q, q ≠ p → (s.fields.touch p f).versions q = s.fields.versions q) ∧
    ((s.fields.touch p f).versions p).map Ver.id = (s.fields.versions p).map Ver.id ∧
    ((s.fields.touch p f).versions p).map Ver.val = (s.fields.versions p).map Ver.val ∧
    ((s.fields.touch p f).versions p ≠ []) ∧
    (∀ q, ∀ v ∈ (s.fields.touch p f).versions q, v.refs = c' q v.val) := by
  obtain ⟨t1, t2⟩ := touch_ok s.fields h.inv p f
  refine ⟨t1, fun q hq => by rw [t2 q, if_neg hq], ?_, ?_, ?_, ?_⟩
  · rw [t2 p, if_pos rfl, List.map_map]
    apply List.map_congr_left
    intro v _
    rw [hf]
    show (if v.id = v0.id then (⟨v.id, g v.refs, v.val⟩ : Ver V) else v).id = v.id
    split <;> rfl
  · rw [t2 p, if_pos rfl, List.map_map]
    apply List.map_congr_left
    intro v _
    rw [hf]
    show (if v.id = v0.id then (⟨v.id, g v.refs, v.val⟩ : Ver V) else v).val = v.val
    split <;> rfl
  · rw [t2 p, if_pos rfl, Ne, List.map_eq_nil_iff]
    exact List.ne_nil_of_mem h0
  · intro q v hv
    rw [t2 q] at hv
    by_cases hq : q = p
    · rw [if_pos hq, List.mem_map] at hv
      obtain ⟨w, hw, rfl⟩ := hv
      by_cases hi : w.id = v0.id
      · have hfw : f w = ⟨w.id, g w.refs, w.val⟩ := by rw [hf]; exact if_pos hi
        have := (id_iff h h0 hw).mp hi
        rw [hfw, hc, if_pos ⟨hq, this⟩, hq]
        show g w.refs = _
        rw [h.refs p w hw]
      · have hfw : f w = w := by rw [hf]; exact if_neg hi
        rw [hfw, hc, if_neg (fun hc => hi ((id_iff h h0 hw).mpr hc.2)), hq]
        exact h.refs p w hw
    · rw [if_neg hq] at hv
      rw [hc, if_neg (fun hc => hq hc.1)]
      exact h.refs q v hv

theorem append_inv {N : List E → Prop} (hf : Far N) {s : Schema E V} {c : List E → V → Nat} (h : SInv N s c) (p : List E) (ty : V) (hp : N p) :
    SInv N (s.append p ty).1 (countStep c (.append p ty)) ∧ (s.append p ty).2 = false := by
  unfold Schema.append
  cases hv : s.versionOf p ty with
  | some i =>
    simp only
    refine ⟨?_, trivial⟩
    obtain ⟨v0, h0, hval, hid⟩ := versionOf_some h hv
    subst hid
    obtain ⟨t1, t2, t3, t4, t5, t6⟩ := touch_inv h h0 (· + 1) _ rfl (countStep c (.append p ty)) (fun q u => by rw [hval]; rfl)
    have hne : ∀ q, (s.fields.touch p fun v => if v.id = v0.id then ⟨v.id, v.refs + 1, v.val⟩ else v).versions q ≠ [] ↔ s.fields.versions q ≠ [] := by
      intro q
      by_cases hq : q = p
      · rw [hq]
        exact ⟨fun _ => List.ne_nil_of_mem h0, fun _ => t5⟩
      · rw [t2 q hq]
    refine ⟨t1, ?_, ?_, ?_, t6, ?_, ?_, ?_, h.nodup, ?_⟩
    · intro q
      by_cases hq : q = p
      · rw [hq, t3]; exact h.ids p
      · rw [t2 q hq]; exact h.ids q
    · intro q v hm
      by_cases hq : q = p
      · subst hq
        have : v.id ∈ ((s.fields.touch q fun v => if v.id = v0.id then ⟨v.id, v.refs + 1, v.val⟩ else v).versions q).map Ver.id := List.mem_map_of_mem hm
        rw [t3, List.mem_map] at this
        obtain ⟨w, hw, he⟩ := this
        rw [← he]
        exact h.old q w hw
      · rw [t2 q hq] at hm; exact h.old q v hm
    · intro q
      by_cases hq : q = p
      · rw [hq, t4]; exact h.vals p
      · rw [t2 q hq]; exact h.vals q
    · intro q u hu
      have hex : ∃ v ∈ s.fields.versions q, v.val = u := by
        simp only [countStep] at hu
        split at hu
        · rename_i hh
          rw [hh.1, hh.2]
          exact ⟨v0, h0, hval⟩
        · exact h.all q u hu
      by_cases hq : q = p
      · subst hq
        obtain ⟨v, hm, he⟩ := hex
        have : u ∈ (s.fields.versions q).map Ver.val := by rw [← he]; exact List.mem_map_of_mem hm
        rw [← t4, List.mem_map] at this
        exact this
      · rw [t2 q hq]; exact hex
    · intro q
      rw [hne q]
      exact h.names q
    · intro q hq0
      by_cases hq : q = p
      · subst hq
        have : ty ∈ (s.fields.versions q).map Ver.val := by rw [← hval]; exact List.mem_map_of_mem h0
        rw [← t4, List.mem_map] at this
        obtain ⟨w, hw, he⟩ := this
        refine ⟨w, hw, ?_⟩
        rw [t6 q w hw, he]
        have : countStep c (.append q ty) q ty = c q ty + 1 := if_pos ⟨rfl, rfl⟩
        omega
      · rw [t2 q hq] at hq0 ⊢
        exact h.alive q hq0
    · intro q hq0
      exact h.known q ((hne q).mp hq0)
  | none =>
    simp only
    have hnv := versionOf_none h hv
    rw [far_quiet hf h.inv h.known p ty hp]
    simp only [Bool.false_eq_true, if_false, and_true]
    obtain ⟨i1, i2⟩ := insert_ok s.fields h.inv p ty
    have hlast : ((s.fields.insert p ty).versions p).getLast?.map Ver.id = some s.fields.version := by
      rw [i2 p, if_pos rfl]; simp
    rw [hlast]
    obtain ⟨t1, t2⟩ := touch_ok (s.fields.insert p ty) i1 p (fun v => if some v.id = some s.fields.version then ⟨v.id, v.refs + 1, v.val⟩ else v)
    have hvp : ((s.fields.insert p ty).touch p fun v => if some v.id = some s.fields.version then ⟨v.id, v.refs + 1, v.val⟩ else v).versions p =
        s.fields.versions p ++ [⟨s.fields.version, 1, ty⟩] := by
      rw [t2 p, if_pos rfl, i2 p, if_pos rfl, List.map_append]
      congr 1
      · apply (List.map_congr_left _).trans (List.map_id _)
        intro v hm
        have := h.old p v hm
        show (if some v.id = some s.fields.version then (⟨v.id, v.refs + 1, v.val⟩ : Ver V) else v) = v
        rw [if_neg (by simp; omega)]
      · simp
    have hvq : ∀ q, q ≠ p → ((s.fields.insert p ty).touch p fun v => if some v.id = some s.fields.version then ⟨v.id, v.refs + 1, v.val⟩ else v).versions q =
        s.fields.versions q := by
      intro q hq
      rw [t2 q, if_neg hq, i2 q, if_neg hq]
    have hzero : c p ty = 0 := by
      by_contra hc
      obtain ⟨v, hm, he⟩ := h.all p ty (by omega)
      exact hnv v hm he
    have hpn : p ∈ s.names ↔ s.fields.versions p ≠ [] := h.names p
    refine ⟨t1, ?_, ?_, ?_, ?_, ?_, ?_, ?_, ?_, ?_⟩
    · intro q
      by_cases hq : q = p
      · rw [hq, hvp, List.map_append, List.nodup_append]
        refine ⟨h.ids p, by simp, ?_⟩
        intro a ha b hb
        obtain ⟨v, hm, rfl⟩ := List.mem_map.mp ha
        have hb : b = s.fields.version := by simpa using hb
        have := h.old p v hm
        omega
      · rw [hvq q hq]; exact h.ids q
    · intro q v hm
      show v.id < s.fields.version + 1
      by_cases hq : q = p
      · rw [hq, hvp, List.mem_append] at hm
        rcases hm with hm | hm
        · have := h.old p v hm; omega
        · have : v = ⟨s.fields.version, 1, ty⟩ := by simpa using hm
          rw [this]; simp
      · rw [hvq q hq] at hm
        have := h.old q v hm; omega
    · intro q
      by_cases hq : q = p
      · rw [hq, hvp, List.map_append, List.nodup_append]
        refine ⟨h.vals p, by simp, ?_⟩
        intro a ha b hb
        obtain ⟨v, hm, rfl⟩ := List.mem_map.mp ha
        have hb : b = ty := by simpa using hb
        rw [hb]
        exact hnv v hm
      · rw [hvq q hq]; exact h.vals q
    · intro q v hm
      simp only [countStep]
      by_cases hq : q = p
      · rw [hq, hvp, List.mem_append] at hm
        rcases hm with hm | hm
        · rw [if_neg (fun hc => hnv v hm hc.2), hq]
          exact h.refs p v hm
        · have : v = ⟨s.fields.version, 1, ty⟩ := by simpa using hm
          rw [this, if_pos ⟨hq, rfl⟩, hq]
          show 1 = c p ty + 1
          omega
      · rw [if_neg (fun hc => hq hc.1)]
        rw [hvq q hq] at hm
        exact h.refs q v hm
    · intro q u hu
      simp only [countStep] at hu
      by_cases hq : q = p
      · subst hq
        rw [hvp]
        by_cases hut : u = ty
        · exact ⟨⟨s.fields.version, 1, ty⟩, List.mem_append_right _ (List.mem_singleton.mpr rfl), hut.symm⟩
        · rw [if_neg (fun hc => hut hc.2)] at hu
          obtain ⟨v, hm, he⟩ := h.all q u hu
          exact ⟨v, List.mem_append_left _ hm, he⟩
      · rw [if_neg (fun hc => hq hc.1)] at hu
        rw [hvq q hq]
        exact h.all q u hu
    · intro q
      by_cases hq : q = p
      · rw [hq, hvp]
        constructor
        · intro _; simp
        · intro _
          split
          · assumption
          · simp
      · rw [hvq q hq, ← h.names q]
        split
        · exact Iff.rfl
        · simp [hq]
    · intro q hq0
      by_cases hq : q = p
      · rw [hq, hvp]
        exact ⟨⟨s.fields.version, 1, ty⟩, by simp, by simp⟩
      · rw [hvq q hq] at hq0 ⊢
        exact h.alive q hq0
    · show (if p ∈ s.names then s.names else s.names ++ [p]).Nodup
      split
      · exact h.nodup
      · rename_i hn
        rw [List.nodup_append]
        refine ⟨h.nodup, by simp, ?_⟩
        intro a ha b hb
        have : b = p := by simpa using hb
        rw [this]
        rintro rfl
        exact hn ha
    · intro q hq0
      by_cases hq : q = p
      · rw [hq]; exact hp
      · rw [hvq q hq] at hq0
        exact h.known q hq0

theorem drop_inv {N : List E → Prop} (hf : Far N) {s : Schema E V} {c : List E → V → Nat} (h : SInv N s c) (p : List E) (ty : V) (n : Nat) :
    SInv N (s.dropN p ty n) (countStep c (.drop p ty n)) := by
  unfold Schema.dropN
  cases hv : s.versionOf p ty with
  | none =>
    have hnv := versionOf_none h hv
    have hzero : c p ty = 0 := by
      by_contra hc
      obtain ⟨v, hm, he⟩ := h.all p ty (by omega)
      exact hnv v hm he
    have hcc : countStep c (.drop p ty n) = c := by
      funext q u
      simp only [countStep]
      split
      · rename_i hh
        rw [hh.1, hh.2, hzero]; omega
      · rfl
    rw [hcc]
    exact h
  | some i =>
    simp only
    obtain ⟨v0, h0, hval, hid⟩ := versionOf_some h hv
    subst hid
    have hcs : ∀ q u, countStep c (.drop p ty n) q u = if q = p ∧ u = v0.val then (fun k => max k n - n) (c q u) else c q u := by
      intro q u
      rw [hval]
      simp only [countStep]
      split
      · omega
      · rfl
    obtain ⟨t1, t2, t3, t4, t5, t6⟩ := touch_inv h h0 (fun k => max k n - n) _ rfl (countStep c (.drop p ty n)) hcs
    have hmono : ∀ q u, 0 < countStep c (.drop p ty n) q u → 0 < c q u := by
      intro q u hu
      simp only [countStep] at hu
      split at hu <;> omega
    generalize hgt : (s.fields.touch p fun v => if v.id = v0.id then ⟨v.id, max v.refs n - n, v.val⟩ else v) = t at t1 t2 t3 t4 t5 t6 ⊢
    have hver : t.version = s.fields.version := by rw [← hgt]; rfl
    have hall : ∀ q u, 0 < countStep c (.drop p ty n) q u → ∃ v ∈ t.versions q, v.val = u := by
      intro q u hu
      obtain ⟨v, hm, he⟩ := h.all q u (hmono q u hu)
      by_cases hq : q = p
      · subst hq
        have : u ∈ (s.fields.versions q).map Ver.val := by rw [← he]; exact List.mem_map_of_mem hm
        rw [← t4, List.mem_map] at this
        exact this
      · rw [t2 q hq]; exact ⟨v, hm, he⟩
    have hold : ∀ q, ∀ v ∈ t.versions q, v.id < s.fields.version := by
      intro q v hm
      by_cases hq : q = p
      · subst hq
        have : v.id ∈ (t.versions q).map Ver.id := List.mem_map_of_mem hm
        rw [t3, List.mem_map] at this
        obtain ⟨w, hw, he⟩ := this
        rw [← he]
        exact h.old q w hw
      · rw [t2 q hq] at hm; exact h.old q v hm
    have hknown : ∀ q, t.versions q ≠ [] → N q := by
      intro q hq0
      by_cases hq : q = p
      · rw [hq]; exact h.known p (List.ne_nil_of_mem h0)
      · rw [t2 q hq] at hq0; exact h.known q hq0
    by_cases ha : (t.versions p).any Ver.alive = true
    · rw [if_pos ha]
      refine ⟨t1, ?_, ?_, ?_, t6, hall, ?_, ?_, h.nodup, hknown⟩
      · intro q
        by_cases hq : q = p
        · rw [hq, t3]; exact h.ids p
        · rw [t2 q hq]; exact h.ids q
      · intro q v hm
        show v.id < t.version
        rw [hver]; exact hold q v hm
      · intro q
        by_cases hq : q = p
        · rw [hq, t4]; exact h.vals p
        · rw [t2 q hq]; exact h.vals q
      · intro q
        rw [h.names q]
        by_cases hq : q = p
        · rw [hq]
          exact ⟨fun _ => t5, fun _ => List.ne_nil_of_mem h0⟩
        · rw [t2 q hq]
      · intro q hq0
        by_cases hq : q = p
        · rw [hq]
          obtain ⟨v, hm, hv⟩ := List.any_eq_true.mp ha
          exact ⟨v, hm, by simpa [Ver.alive] using hv⟩
        · rw [t2 q hq] at hq0 ⊢
          exact h.alive q hq0
    · rw [if_neg ha]
      obtain ⟨e1, e2⟩ := erase_ok t t1 p
      have hleaf := far_leaf hf t1 hknown p t5
      have hvp : (t.erase p).1.versions p = [] := by
        rw [e2 p, if_pos ⟨rfl, t5⟩, hleaf]
        unfold leftOver
        simp only [Bool.not_true, Bool.false_eq_true, if_false]
        rw [if_neg]
        intro hc
        obtain ⟨v, hm, hv⟩ := List.any_eq_true.mp hc
        exact ha (List.any_eq_true.mpr ⟨v, List.dropLast_subset _ hm, hv⟩)
      have hvq : ∀ q, q ≠ p → (t.erase p).1.versions q = s.fields.versions q := by
        intro q hq
        rw [e2 q, if_neg (fun hc => hq hc.1), t2 q hq]
      have hver' : (t.erase p).1.version = s.fields.version := by
        rw [← hver]
        unfold Trie.erase
        cases t.root with
        | none => rfl
        | some r => simp only; cases t.find p <;> rfl
      have hdead : ∀ u, countStep c (.drop p ty n) p u = 0 := by
        intro u
        by_contra hc
        obtain ⟨v, hm, he⟩ := hall p u (by omega)
        apply ha
        refine List.any_eq_true.mpr ⟨v, hm, ?_⟩
        have := t6 p v hm
        rw [he] at this
        simp only [Ver.alive, decide_eq_true_eq]
        omega
      refine ⟨e1, ?_, ?_, ?_, ?_, ?_, ?_, ?_, ?_, ?_⟩
      · intro q
        by_cases hq : q = p
        · rw [hq, hvp]; simp
        · rw [hvq q hq]; exact h.ids q
      · intro q v hm
        show v.id < (t.erase p).1.version
        rw [hver']
        by_cases hq : q = p
        · rw [hq, hvp] at hm; cases hm
        · rw [hvq q hq] at hm; exact h.old q v hm
      · intro q
        by_cases hq : q = p
        · rw [hq, hvp]; simp
        · rw [hvq q hq]; exact h.vals q
      · intro q v hm
        by_cases hq : q = p
        · rw [hq, hvp] at hm; cases hm
        · rw [hvq q hq] at hm
          simp only [countStep]
          rw [if_neg (fun hc => hq hc.1)]
          exact h.refs q v hm
      · intro q u hu
        by_cases hq : q = p
        · rw [hq, hdead] at hu; omega
        · rw [hvq q hq]
          exact h.all q u (hmono q u hu)
      · intro q
        show q ∈ s.names.erase p ↔ _
        rw [h.nodup.mem_erase_iff]
        by_cases hq : q = p
        · rw [hq, hvp]; simp
        · rw [hvq q hq, ← h.names q]
          simp [hq]
      · intro q hq0
        by_cases hq : q = p
        · rw [hq, hvp] at hq0; exact absurd rfl hq0
        · rw [hvq q hq] at hq0 ⊢; exact h.alive q hq0
      · exact h.nodup.erase p
      · intro q hq0
        by_cases hq : q = p
        · rw [hq, hvp] at hq0; exact absurd rfl hq0
        · rw [hvq q hq] at hq0; exact h.known q hq0

theorem after_snoc (ops : List (Op E V)) (o : Op E V) : after (ops ++ [o]) = step (after ops) o := by
  unfold after; rw [List.foldl_append]; rfl

theorem count_snoc (ops : List (Op E V)) (o : Op E V) : count (ops ++ [o]) = countStep (count ops) o := by
  unfold count; rw [List.foldl_append]; rfl

theorem sinv_after {N : List E → Prop} (hf : Far N) (ops : List (Op E V)) : (∀ o ∈ ops, N o.name) →
    SInv N (after ops) (count ops) := by
  induction ops using List.reverseRecOn with
  | nil =>
    intro _
    refine ⟨inv_empty, ?_, ?_, ?_, ?_, ?_, ?_, ?_, List.nodup_nil, ?_⟩
    · intro p; exact List.nodup_nil
    · intro p v hv; cases hv
    · intro p; exact List.nodup_nil
    · intro p v hv; cases hv
    · intro p ty hc; exact absurd hc (Nat.lt_irrefl 0)
    · intro p
      constructor
      · intro hp; cases hp
      · intro hp; exact absurd rfl hp
    · intro p hp; exact absurd rfl hp
    · intro p hp; exact absurd rfl hp
  | append_singleton ops o ih =>
    intro hN
    have ih := ih (fun x hx => hN x (List.mem_append_left _ hx))
    rw [after_snoc, count_snoc]
    cases o with
    | append p ty => exact (append_inv hf ih p ty (hN (.append p ty) (by simp))).1
    | drop p ty n => exact drop_inv hf ih p ty n

theorem far_of_spread {ops : List (Op E V)} (h : Spread ops) : Far (fun p => ∃ o ∈ ops, o.name = p) := by
  rintro p q ⟨o, ho, rfl⟩ ⟨o', ho', rfl⟩ hpq
  exact h o ho o' ho' hpq

/-- The full claim: after any history, no call threw, and asking for a field gives each type with a live document once;
the field is known exactly if there is one; and the latest types name exactly the fields that have one. -/
def C36_claim (E V : Type) [LinearOrder E] [DecidableEq V] : Prop :=
  ∀ ops : List (Op E V), NoThrow ops ∧
    (∀ name, (∃ ty, 0 < count ops name ty) → ∃ l, (after ops).fieldVersions name = .ok l ∧ l.Nodup ∧ ∀ ty, ty ∈ l ↔ 0 < count ops name ty) ∧
    (∀ name, name ∈ (after ops).names ↔ ∃ ty, 0 < count ops name ty) ∧
    (∀ name, (∃ ty, (name, ty) ∈ (after ops).latestTypes) ↔ ∃ ty, 0 < count ops name ty)

/-- Names that keep their distance: everything but the last part. -/
theorem C36_versions_partial (ops : List (Op E V)) (h : Spread ops) :
    NoThrow ops ∧
    (∀ name, (∃ ty, 0 < count ops name ty) → ∃ l, (after ops).fieldVersions name = .ok l ∧ l.Nodup ∧ ∀ ty, ty ∈ l ↔ 0 < count ops name ty) ∧
    (∀ name, name ∈ (after ops).names ↔ ∃ ty, 0 < count ops name ty) := by
  have hf := far_of_spread h
  have hs := sinv_after hf ops (fun o ho => ⟨o, ho, rfl⟩)
  have hnames : ∀ name, name ∈ (after ops).names ↔ ∃ ty, 0 < count ops name ty := by
    intro name
    rw [hs.names]
    constructor
    · intro hv
      obtain ⟨v, hm, hr⟩ := hs.alive name hv
      exact ⟨v.val, by rw [← hs.refs name v hm]; exact hr⟩
    · rintro ⟨ty, hty⟩
      obtain ⟨v, hm, _⟩ := hs.all name ty hty
      exact List.ne_nil_of_mem hm
  refine ⟨?_, ?_, hnames⟩
  · intro pre post p ty he
    have hpre := sinv_after hf pre (fun o ho => ⟨o, by rw [he]; exact List.mem_append_left _ ho, rfl⟩)
    exact (append_inv hf hpre p ty ⟨.append p ty, by rw [he]; simp, rfl⟩).2
  · intro name hex
    refine ⟨_, if_pos ((hnames name).mpr hex), ?_, ?_⟩
    · exact (hs.vals name).sublist (List.Sublist.map _ List.filter_sublist)
    · intro ty
      rw [List.mem_map]
      constructor
      · rintro ⟨v, hm, rfl⟩
        obtain ⟨hm1, hm2⟩ := List.mem_filter.mp hm
        rw [← hs.refs name v hm1]
        simpa [Ver.alive] using hm2
      · intro hty
        obtain ⟨v, hm, hv⟩ := hs.all name ty hty
        refine ⟨v, List.mem_filter.mpr ⟨hm, ?_⟩, hv⟩
        have := hs.refs name v hm
        rw [hv] at this
        simp only [Ver.alive, decide_eq_true_eq]
        omega

theorem one_version {N : List E → Prop} (hf : Far N) (ops : List (Op E V)) : (∀ o ∈ ops, N o.name) → OneType ops →
    ∀ name u w, 0 < count ops name u → 0 < count ops name w → u = w := by
  induction ops using List.reverseRecOn with
  | nil => intro _ _ name u w hu; exact absurd hu (Nat.lt_irrefl 0)
  | append_singleton ops o ih =>
    intro hN h1 name u w hu hw
    have ih := ih (fun x hx => hN x (List.mem_append_left _ hx)) (fun pre post p ty he => h1 pre (post ++ [o]) p ty (by rw [he]; simp))
    rw [count_snoc] at hu hw
    cases o with
    | append p ty =>
      have hx := h1 ops [] p ty rfl
      simp only [countStep] at hu hw
      by_cases hn : name = p
      · subst hn
        have hone : ∀ x, 0 < (if name = name ∧ x = ty then count ops name x + 1 else count ops name x) → x = ty := by
          intro x hx'
          by_cases hxt : x = ty
          · exact hxt
          · rw [if_neg (fun hc => hxt hc.2)] at hx'
            exact hx x hx'
        rw [hone u hu, hone w hw]
      · rw [if_neg (fun hc => hn hc.1)] at hu hw
        exact ih name u w hu hw
    | drop p ty n =>
      refine ih name u w ?_ ?_
      · simp only [countStep] at hu; split at hu <;> omega
      · simp only [countStep] at hw; split at hw <;> omega

/-- In a history of `OneType` a node holds at most one version. -/
theorem one_len {N : List E → Prop} (hf : Far N) (ops : List (Op E V)) : (∀ o ∈ ops, N o.name) → OneType ops →
    ∀ name, ∀ v ∈ (after ops).fields.versions name, 0 < v.refs := by
  induction ops using List.reverseRecOn with
  | nil => intro _ _ name v hv; cases hv
  | append_singleton ops o ih =>
    intro hN h1
    have hN' : ∀ x ∈ ops, N x.name := fun x hx => hN x (List.mem_append_left _ hx)
    have h1' : OneType ops := fun pre post p ty he => h1 pre (post ++ [o]) p ty (by rw [he]; simp)
    have ih := ih hN' h1'
    have hs := sinv_after hf ops hN'
    have hs' := sinv_after hf (ops ++ [o]) hN
    have hsing : ∀ name, ∀ v ∈ (after ops).fields.versions name, ∀ w ∈ (after ops).fields.versions name, v.val = w.val := by
      intro name v hv w hw
      refine one_version hf ops hN' h1' name v.val w.val ?_ ?_
      · rw [← hs.refs name v hv]; exact ih name v hv
      · rw [← hs.refs name w hw]; exact ih name w hw
    intro name v hv
    rw [hs'.refs name v hv]
    -- every version of the new state has a value known before, or the new one
    cases o with
    | append p ty =>
      rw [count_snoc]
      simp only [countStep]
      by_cases hc : name = p ∧ v.val = ty
      · rw [if_pos hc]; omega
      · rw [if_neg hc]
        rw [after_snoc] at hv
        have hold : ∃ w ∈ (after ops).fields.versions name, w.val = v.val := by
          by_contra hcon
          have hz : count ops name v.val = 0 := by
            by_contra hz
            exact hcon (hs.all name v.val (by omega))
          -- then the count after is zero and the version is dead: only possible if it was there before
          revert hv
          show v ∈ ((after ops).append p ty).1.fields.versions name → False
          unfold Schema.append
          cases hvo : (after ops).versionOf p ty with
          | some i =>
            simp only
            obtain ⟨_, t2⟩ := touch_ok (after ops).fields hs.inv p (fun v => if v.id = i then ⟨v.id, v.refs + 1, v.val⟩ else v)
            rw [t2 name]
            intro hm
            split at hm
            · rename_i hnp
              obtain ⟨w, hw, he⟩ := List.mem_map.mp hm
              refine hcon ⟨w, by rw [hnp]; exact hw, ?_⟩
              rw [← he]
              split <;> rfl
            · exact hcon ⟨v, hm, rfl⟩
          | none =>
            simp only
            rw [far_quiet hf hs.inv hs.known p ty (hN (.append p ty) (by simp))]
            simp only [Bool.false_eq_true, if_false]
            obtain ⟨i1, i2⟩ := insert_ok (after ops).fields hs.inv p ty
            intro hm
            rw [(touch_ok _ i1 p _).2 name] at hm
            split at hm
            · rename_i hnp
              obtain ⟨w, hw, he⟩ := List.mem_map.mp hm
              rw [i2 p, if_pos rfl, List.mem_append] at hw
              have hval : w.val = v.val := by rw [← he]; split <;> rfl
              rcases hw with hw | hw
              · exact hcon ⟨w, by rw [hnp]; exact hw, hval⟩
              · have : w = ⟨(after ops).fields.version, 0, ty⟩ := by simpa using hw
                rw [this] at hval
                exact hc ⟨hnp, hval.symm⟩
            · rename_i hnp
              rw [i2 name, if_neg hnp] at hm
              exact hcon ⟨v, hm, rfl⟩
        obtain ⟨w, hw, he⟩ := hold
        rw [← he, ← hs.refs name w hw]
        exact ih name w hw
    | drop p ty n =>
      by_contra hz
      have hne : (after (ops ++ [.drop p ty n])).fields.versions name ≠ [] := List.ne_nil_of_mem hv
      obtain ⟨w, hw, hr⟩ := hs'.alive name hne
      have hcw : 0 < count (ops ++ [.drop p ty n]) name w.val := by rw [← hs'.refs name w hw]; exact hr
      -- w was live before; so was v's value, and they agree
      have hbefore : ∃ x ∈ (after ops).fields.versions name, x.val = v.val := by
        rw [after_snoc] at hv
        revert hv
        show v ∈ ((after ops).dropN p ty n).fields.versions name → _
        unfold Schema.dropN
        cases hvo : (after ops).versionOf p ty with
        | none => simp only; exact fun hm => ⟨v, hm, rfl⟩
        | some i =>
          simp only
          obtain ⟨t1, t2⟩ := touch_ok (after ops).fields hs.inv p (fun v => if v.id = i then ⟨v.id, max v.refs n - n, v.val⟩ else v)
          have hback : ∀ q, ∀ y ∈ ((after ops).fields.touch p fun v => if v.id = i then ⟨v.id, max v.refs n - n, v.val⟩ else v).versions q,
              ∃ x ∈ (after ops).fields.versions q, x.val = y.val := by
            intro q y hm
            rw [t2 q] at hm
            split at hm
            · rename_i hnp
              obtain ⟨x, hx, he⟩ := List.mem_map.mp hm
              refine ⟨x, by rw [hnp]; exact hx, ?_⟩
              rw [← he]
              split <;> rfl
            · exact ⟨y, hm, rfl⟩
          split
          · intro hm
            exact hback name v hm
          · intro hm
            rw [(erase_ok _ t1 p).2 name] at hm
            split at hm
            · rename_i hh
              have : v ∈ ((after ops).fields.touch p fun v => if v.id = i then ⟨v.id, max v.refs n - n, v.val⟩ else v).versions p := by
                unfold leftOver at hm
                split at hm
                · exact List.dropLast_subset _ hm
                · split at hm
                  · exact List.dropLast_subset _ (List.mem_filter.mp hm).1
                  · cases hm
              rw [hh.1]
              exact hback p v this
            · exact hback name v hm
      obtain ⟨x, hx, hxe⟩ := hbefore
      have hcw' : 0 < count ops name w.val := by
        rw [count_snoc] at hcw
        simp only [countStep] at hcw
        split at hcw <;> omega
      obtain ⟨y, hy, hye⟩ := hs.all name w.val hcw'
      have := hsing name x hx y hy
      rw [hxe, hye] at this
      rw [this] at hz
      exact hz hcw

/-- Names that keep their distance and fields with one type at a time: the whole claim. -/
theorem C36_latest_partial (ops : List (Op E V)) (h : Spread ops) (h1 : OneType ops) :
    ∀ name ty, (name, ty) ∈ (after ops).latestTypes ↔ 0 < count ops name ty := by
  have hf := far_of_spread h
  have hN : ∀ o ∈ ops, ∃ o' ∈ ops, o'.name = o.name := fun o ho => ⟨o, ho, rfl⟩
  have hs := sinv_after hf ops hN
  have hlive := one_len hf ops hN h1
  intro name ty
  unfold Schema.latestTypes
  rw [List.mem_filterMap]
  constructor
  · rintro ⟨name', _, he⟩
    cases hl : ((after ops).fields.versions name').getLast? with
    | none => rw [hl] at he; cases he
    | some v =>
      rw [hl] at he
      simp only at he
      split at he
      · rename_i ha
        have hm := List.mem_of_getLast? hl
        cases he
        rw [← hs.refs _ v hm]
        simpa [Ver.alive] using ha
      · cases he
  · intro hc
    obtain ⟨v, hm, hv⟩ := hs.all name ty hc
    have hne : (after ops).fields.versions name ≠ [] := List.ne_nil_of_mem hm
    refine ⟨name, (hs.names name).mpr hne, ?_⟩
    cases hl : ((after ops).fields.versions name).getLast? with
    | none => rw [List.getLast?_eq_none_iff] at hl; exact absurd hl hne
    | some w =>
      simp only
      have hw := List.mem_of_getLast? hl
      have hrw := hlive name w hw
      have heq : w.val = ty := by
        refine one_version hf ops hN h1 name w.val ty ?_ hc
        rw [← hs.refs name w hw]
        exact hrw
      rw [if_pos (by simpa [Ver.alive] using hrw), heq]

/-- Two fields, two types, documents come and go. -/
def sample : List (Op Nat Nat) := [.append [1, 2] 7, .append [1, 2] 8, .append [1, 3] 7, .append [1, 2] 7, .drop [1, 2] 8 1,
  .drop [1, 3] 7 1, .append [1, 3] 9, .drop [1, 2] 7 1]

example : Spread sample ∧ (after sample).fieldVersions [1, 2] = .ok [7] ∧ (after sample).fieldVersions [1, 3] = .ok [9] ∧
    count sample [1, 2] 7 = 1 := by
  refine ⟨?_, by decide +kernel, by decide +kernel, by decide +kernel⟩
  intro o ho o' ho' _
  simp only [sample, List.mem_cons, List.not_mem_nil, or_false] at ho ho'
  rcases ho with rfl | rfl | rfl | rfl | rfl | rfl | rfl | rfl <;> rcases ho' with rfl | rfl | rfl | rfl | rfl | rfl | rfl | rfl <;> rfl

def sample1 : List (Op Nat Nat) := [.append [1] 7, .append [2] 7, .append [1] 7, .drop [2] 7 1, .append [2] 8]

example : Spread sample1 ∧ OneType sample1 ∧ (after sample1).latestTypes = [([1], 7), ([2], 8)] := by
  refine ⟨?_, ?_, by decide +kernel⟩
  · intro o ho o' ho' _
    simp only [sample1, List.mem_cons, List.not_mem_nil, or_false] at ho ho'
    rcases ho with rfl | rfl | rfl | rfl | rfl <;> rcases ho' with rfl | rfl | rfl | rfl | rfl <;> rfl
  · intro pre post p ty h u hu
    unfold sample1 at h
    rcases pre with _ | ⟨_, _ | ⟨_, _ | ⟨_, _ | ⟨_, _ | ⟨_, pre⟩⟩⟩⟩⟩ <;> simp at h
    · exact absurd hu (Nat.lt_irrefl 0)
    · obtain ⟨rfl, ⟨rfl, rfl⟩, _⟩ := h
      simp [count, countStep] at hu
    · obtain ⟨rfl, rfl, ⟨rfl, rfl⟩, _⟩ := h
      by_contra hn
      simp [count, countStep, hn] at hu
    · obtain ⟨rfl, rfl, rfl, rfl, ⟨rfl, rfl⟩, _⟩ := h
      by_cases hn : u = 7 <;> simp [count, countStep, hn] at hu

/-- The last type to appear goes, an earlier one is still used: the field is not listed. -/
theorem C36_latest_fails : (after [.append [1] 7, .append [1] 8, .drop [1] 8 1] : Schema Nat Nat).latestTypes = [] ∧
    count ([.append [1] 7, .append [1] 8, .drop [1] 8 1] : List (Op Nat Nat)) [1] 7 = 1 := by decide +kernel

/-- Fields "abc" and "b": the second one throws, and is not recorded. -/
theorem C36_append_throws_fails : ¬ NoThrow ([.append [1, 2, 3] 7, .append [2] 7] : List (Op Nat Nat)) ∧
    [2] ∉ (after [.append [1, 2, 3] 7, .append [2] 7] : Schema Nat Nat).names := by
  refine ⟨fun h => ?_, by decide +kernel⟩
  have := h [.append [1, 2, 3] 7] [] [2] 7 rfl
  revert this
  decide +kernel

/-- A field whose name begins another one: all its documents are gone, it is still listed. -/
theorem C36_prefix_fails : (after [.append [1, 2] 7, .append [1] 7, .append [1] 8, .drop [1] 7 1, .drop [1] 8 1, .append [1] 7, .append [1] 7,
      .drop [1] 7 1, .drop [1] 7 1] : Schema Nat Nat).fieldVersions [1] = .ok [7] ∧
    NoThrow ([.append [1, 2] 7, .append [1] 7, .append [1] 8, .drop [1] 7 1, .drop [1] 8 1, .append [1] 7, .append [1] 7,
      .drop [1] 7 1, .drop [1] 7 1] : List (Op Nat Nat)) ∧
    count ([.append [1, 2] 7, .append [1] 7, .append [1] 8, .drop [1] 7 1, .drop [1] 8 1, .append [1] 7, .append [1] 7,
      .drop [1] 7 1, .drop [1] 7 1] : List (Op Nat Nat)) [1] 7 = 0 := by
  refine ⟨by decide +kernel, ?_, by decide +kernel⟩
  intro pre post p ty h
  rcases pre with _ | ⟨_, _ | ⟨_, _ | ⟨_, _ | ⟨_, _ | ⟨_, _ | ⟨_, _ | ⟨_, _ | ⟨_, _ | ⟨_, pre⟩⟩⟩⟩⟩⟩⟩⟩⟩ <;> simp at h
  · obtain ⟨⟨rfl, rfl⟩, _⟩ := h; decide +kernel
  · obtain ⟨rfl, ⟨rfl, rfl⟩, _⟩ := h; decide +kernel
  · obtain ⟨rfl, rfl, ⟨rfl, rfl⟩, _⟩ := h; decide +kernel
  · obtain ⟨rfl, rfl, rfl, rfl, rfl, ⟨rfl, rfl⟩, _⟩ := h; decide +kernel
  · obtain ⟨rfl, rfl, rfl, rfl, rfl, rfl, ⟨rfl, rfl⟩, _⟩ := h; decide +kernel

/-- So the claim does not hold. -/
theorem C36_fails : ¬ C36_claim Nat Nat := fun h => C36_append_throws_fails.1 (h _).1

end Verif.CompSchema
