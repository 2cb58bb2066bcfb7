import Verif.Trie.Model
import Mathlib.Data.List.Basic
import Mathlib.Order.Lattice
import Mathlib.Data.List.Lex
/-!
Helper lemmas about the versioned trie.
-/
namespace Verif.Trie
set_option linter.unusedSectionVars false
variable {E V : Type} [LinearOrder E]

/-- The versions at a path. -/
def obs (n : Node E V) (p : List E) : List (Ver V) := match n.at p with
  | none => []
  | some m => m.vers

def obs' : Option (Node E V) → List E → List (Ver V)
  | none, _ => []
  | some n, p => obs n p

theorem at_nil (n : Node E V) : n.at [] = some n := by cases n; rfl

theorem at_cons (vs : List (Ver V)) (ks : Kids E V) (e : E) (p : List E) :
    (Node.mk vs ks).at (e :: p) = (ks.find e).bind fun c => c.at p := by
  simp only [Node.at]
  cases ks.find e <;> rfl

theorem obs_nil (vs : List (Ver V)) (ks : Kids E V) : obs (.mk vs ks) [] = vs := rfl

theorem obs_cons (vs : List (Ver V)) (ks : Kids E V) (e : E) (p : List E) : obs (.mk vs ks) (e :: p) = obs' (ks.find e) p := by
  unfold obs
  rw [at_cons]
  cases ks.find e <;> rfl

/-! ### children -/

theorem find_ins (m : Node E V) : ∀ (ks : Kids E V) (e e' : E), ks.find e = none →
    (ks.ins e m).find e' = if e' = e then some m else ks.find e'
  | .nil, e, e', _ => by
    simp only [Kids.ins, Kids.find]
    rcases lt_trichotomy e e' with h | h | h
    · rw [if_pos h, if_neg (ne_of_gt h)]
    · subst h; rw [if_neg (lt_irrefl _), if_neg (lt_irrefl _), if_pos rfl]
    · rw [if_neg (not_lt.mpr (le_of_lt h)), if_pos h, if_neg (ne_of_lt h)]
  | .cons k n r, e, e', hf => by
    simp only [Kids.find] at hf
    simp only [Kids.ins]
    by_cases hk : k < e
    · rw [if_pos hk] at hf ⊢
      simp only [Kids.find]
      rw [find_ins m r e e' hf]
      by_cases he : e' = e
      · subst he
        rw [if_pos hk, if_pos rfl]
        simp
      · rw [if_neg he, if_neg he]
    · rw [if_neg hk] at hf ⊢
      have hek : e < k := by
        by_contra hc
        rw [if_neg hc] at hf
        cases hf
      simp only [Kids.find]
      rcases lt_trichotomy e e' with h | h | h
      · rw [if_pos h, if_neg (ne_of_gt h)]
      · subst h; rw [if_neg (lt_irrefl _), if_neg (lt_irrefl _), if_pos rfl]
      · rw [if_neg (not_lt.mpr (le_of_lt h)), if_pos h, if_neg (ne_of_lt h), if_neg (not_lt.mpr (le_of_lt (lt_trans h hek))),
          if_pos (lt_trans h hek)]

theorem find_set (m : Node E V) : ∀ (ks : Kids E V) (e e' : E) (c : Node E V), ks.find e = some c →
    (ks.set e m).find e' = if e' = e then some m else ks.find e'
  | .nil, e, e', c, hf => by cases hf
  | .cons k n r, e, e', c, hf => by
    simp only [Kids.find] at hf
    simp only [Kids.set]
    by_cases hk : k < e
    · rw [if_pos hk] at hf ⊢
      simp only [Kids.find]
      rw [find_set m r e e' c hf]
      by_cases he : e' = e
      · subst he
        rw [if_pos hk, if_pos rfl]
        simp
      · rw [if_neg he, if_neg he]
    · rw [if_neg hk] at hf ⊢
      have hek : ¬ e < k := by
        intro hc
        rw [if_pos hc] at hf
        cases hf
      have hq : k = e := le_antisymm (not_lt.mp hek) (not_lt.mp hk)
      subst hq
      simp only [Kids.find]
      by_cases he : e' = k
      · subst he
        simp
      · rw [if_neg he]
        rcases lt_or_gt_of_ne he with h | h
        · rw [if_neg (not_lt.mpr (le_of_lt h)), if_pos h, if_neg (not_lt.mpr (le_of_lt h)), if_pos h]
        · rw [if_pos h, if_pos h]

theorem keys_set (m : Node E V) : ∀ (ks : Kids E V) (e : E), (ks.set e m).keys = ks.keys
  | .nil, _ => rfl
  | .cons k n r, e => by
    simp only [Kids.set]
    by_cases hk : k < e
    · rw [if_pos hk]; simp only [Kids.keys]; rw [keys_set m r e]
    · rw [if_neg hk]; rfl

theorem keys_ins (m : Node E V) : ∀ (ks : Kids E V) (e x : E), x ∈ (ks.ins e m).keys ↔ x = e ∨ x ∈ ks.keys
  | .nil, e, x => by simp [Kids.ins, Kids.keys]
  | .cons k n r, e, x => by
    simp only [Kids.ins]
    by_cases hk : k < e
    · rw [if_pos hk]
      simp only [Kids.keys, List.mem_cons]
      rw [keys_ins m r e x]
      tauto
    · rw [if_neg hk]
      simp only [Kids.keys, List.mem_cons]

theorem keys_del : ∀ (ks : Kids E V) (e x : E), x ∈ (ks.del e).keys → x ∈ ks.keys
  | .nil, e, x, h => h
  | .cons k n r, e, x, h => by
    simp only [Kids.del] at h
    by_cases hk : k < e
    · rw [if_pos hk] at h
      simp only [Kids.keys, List.mem_cons] at h ⊢
      rcases h with h | h
      · exact Or.inl h
      · exact Or.inr (keys_del r e x h)
    · rw [if_neg hk] at h
      simp only [Kids.keys, List.mem_cons]
      exact Or.inr h

theorem find_keys : ∀ (ks : Kids E V) (e : E) (c : Node E V), ks.find e = some c → e ∈ ks.keys
  | .nil, e, c, h => by cases h
  | .cons k n r, e, c, h => by
    simp only [Kids.find] at h
    simp only [Kids.keys, List.mem_cons]
    by_cases hk : k < e
    · rw [if_pos hk] at h
      exact Or.inr (find_keys r e c h)
    · rw [if_neg hk] at h
      by_cases hek : e < k
      · rw [if_pos hek] at h; cases h
      · exact Or.inl (le_antisymm (not_lt.mp hk) (not_lt.mp hek))

/-- A node is kept only for a reason. -/
def Node.live (n : Node E V) : Prop := n.vers ≠ [] ∨ n.kids.isNil = false

mutual
/-- Well formed: children sorted, none of them without versions and children. -/
def Node.WF : Node E V → Prop
  | .mk _ ks => ks.WF
def Kids.WF : Kids E V → Prop
  | .nil => True
  | .cons e n r => n.WF ∧ n.live ∧ (∀ k ∈ r.keys, e < k) ∧ r.WF
end

theorem WF_iff (vs : List (Ver V)) (ks : Kids E V) : (Node.mk vs ks).WF ↔ ks.WF := by simp only [Node.WF]

theorem find_lt : ∀ (ks : Kids E V) (e : E), (∀ k ∈ ks.keys, e < k) → ks.find e = none
  | .nil, _, _ => rfl
  | .cons k n r, e, h => by
    have := h k (by simp [Kids.keys])
    simp only [Kids.find]
    rw [if_neg (not_lt.mpr (le_of_lt this)), if_pos this]

theorem find_WF : ∀ (ks : Kids E V) (e : E) (c : Node E V), ks.WF → ks.find e = some c → c.WF ∧ c.live
  | .nil, e, c, _, h => by cases h
  | .cons k n r, e, c, hw, h => by
    simp only [Kids.WF] at hw
    simp only [Kids.find] at h
    by_cases hk : k < e
    · rw [if_pos hk] at h
      exact find_WF r e c hw.2.2.2 h
    · rw [if_neg hk] at h
      by_cases hek : e < k
      · rw [if_pos hek] at h; cases h
      · rw [if_neg hek] at h
        cases h
        exact ⟨hw.1, hw.2.1⟩

theorem keys_find : ∀ (ks : Kids E V) (e : E), ks.WF → e ∈ ks.keys → ∃ c, ks.find e = some c
  | .nil, e, _, h => by cases h
  | .cons k n r, e, hw, h => by
    simp only [Kids.WF] at hw
    simp only [Kids.find]
    simp only [Kids.keys, List.mem_cons] at h
    rcases h with rfl | h
    · exact ⟨n, by simp⟩
    · rw [if_pos (hw.2.2.1 e h)]
      exact keys_find r e hw.2.2.2 h

theorem find_del : ∀ (ks : Kids E V) (e e' : E) (c : Node E V), ks.WF → ks.find e = some c →
    (ks.del e).find e' = if e' = e then none else ks.find e'
  | .nil, e, e', c, _, h => by cases h
  | .cons k n r, e, e', c, hw, hf => by
    simp only [Kids.WF] at hw
    simp only [Kids.find] at hf
    simp only [Kids.del]
    by_cases hk : k < e
    · rw [if_pos hk] at hf ⊢
      simp only [Kids.find]
      rw [find_del r e e' c hw.2.2.2 hf]
      by_cases he : e' = e
      · subst he
        rw [if_pos hk, if_pos rfl]
        simp
      · rw [if_neg he, if_neg he]
    · rw [if_neg hk] at hf ⊢
      have hek : ¬ e < k := by
        intro hc
        rw [if_pos hc] at hf
        cases hf
      have hq : k = e := le_antisymm (not_lt.mp hek) (not_lt.mp hk)
      subst hq
      by_cases he : e' = k
      · subst he
        rw [if_pos rfl, find_lt r e' hw.2.2.1]
      · rw [if_neg he]
        simp only [Kids.find]
        rcases lt_or_gt_of_ne he with h | h
        · rw [if_neg (not_lt.mpr (le_of_lt h)), if_pos h, find_lt r e' (fun x hx => lt_trans h (hw.2.2.1 x hx))]
        · rw [if_pos h]

theorem WF_set (m : Node E V) (hm : m.WF) (hl : m.live) : ∀ (ks : Kids E V) (e : E), ks.WF → (ks.set e m).WF
  | .nil, _, _ => trivial
  | .cons k n r, e, hw => by
    simp only [Kids.WF] at hw
    simp only [Kids.set]
    by_cases hk : k < e
    · rw [if_pos hk]
      simp only [Kids.WF]
      exact ⟨hw.1, hw.2.1, by rw [keys_set]; exact hw.2.2.1, WF_set m hm hl r e hw.2.2.2⟩
    · rw [if_neg hk]
      simp only [Kids.WF]
      exact ⟨hm, hl, hw.2.2⟩

theorem WF_ins (m : Node E V) (hm : m.WF) (hl : m.live) : ∀ (ks : Kids E V) (e : E), ks.WF → ks.find e = none → (ks.ins e m).WF
  | .nil, e, _, _ => by simp only [Kids.ins, Kids.WF, Kids.keys]; exact ⟨hm, hl, by simp, trivial⟩
  | .cons k n r, e, hw, hf => by
    simp only [Kids.WF] at hw
    simp only [Kids.find] at hf
    simp only [Kids.ins]
    by_cases hk : k < e
    · rw [if_pos hk] at hf ⊢
      simp only [Kids.WF]
      refine ⟨hw.1, hw.2.1, ?_, WF_ins m hm hl r e hw.2.2.2 hf⟩
      intro x hx
      rcases (keys_ins m r e x).mp hx with rfl | hx
      · exact hk
      · exact hw.2.2.1 x hx
    · rw [if_neg hk] at hf ⊢
      have hek : e < k := by
        by_contra hc
        rw [if_neg hc] at hf
        cases hf
      simp only [Kids.WF, Kids.keys, List.mem_cons]
      refine ⟨hm, hl, ?_, hw⟩
      rintro x (rfl | hx)
      · exact hek
      · exact lt_trans hek (hw.2.2.1 x hx)

theorem WF_del : ∀ (ks : Kids E V) (e : E), ks.WF → (ks.del e).WF
  | .nil, _, _ => trivial
  | .cons k n r, e, hw => by
    simp only [Kids.WF] at hw
    simp only [Kids.del]
    by_cases hk : k < e
    · rw [if_pos hk]
      simp only [Kids.WF]
      exact ⟨hw.1, hw.2.1, fun x hx => hw.2.2.1 x (keys_del r e x hx), WF_del r e hw.2.2.2⟩
    · rw [if_neg hk]
      exact hw.2.2.2

theorem isNil_iff (ks : Kids E V) : ks.isNil = true ↔ ks = .nil := by
  cases ks <;> simp [Kids.isNil]

theorem isNil_set (m : Node E V) (ks : Kids E V) (e : E) : (ks.set e m).isNil = ks.isNil := by
  cases ks with
  | nil => rfl
  | cons k n r =>
    simp only [Kids.set]
    by_cases hk : k < e
    · rw [if_pos hk]; rfl
    · rw [if_neg hk]; rfl

theorem isNil_ins (m : Node E V) (ks : Kids E V) (e : E) : (ks.ins e m).isNil = false := by
  cases ks with
  | nil => rfl
  | cons k n r =>
    simp only [Kids.ins]
    by_cases hk : k < e
    · rw [if_pos hk]; rfl
    · rw [if_neg hk]; rfl

theorem find_not_nil {ks : Kids E V} {e : E} {c : Node E V} (h : ks.find e = some c) : ks.isNil = false := by
  cases ks with
  | nil => cases h
  | cons _ _ _ => rfl

/-! ### insert -/

theorem obs_chain (v : Ver V) : ∀ (p q : List E), obs (chain v p) q = if q = p then [v] else []
  | [], [] => rfl
  | [], e :: q => by simp only [chain, obs_cons, Kids.find, obs']; rfl
  | e :: p, [] => by simp only [chain, obs_nil]; rfl
  | e :: p, e' :: q => by
    simp only [chain, obs_cons, Kids.find]
    rcases lt_trichotomy e e' with h | h | h
    · rw [if_pos h, if_neg (by simp; intro hc; exact absurd hc (ne_of_gt h))]; rfl
    · subst h
      rw [if_neg (lt_irrefl _), if_neg (lt_irrefl _)]
      show obs (chain v p) q = _
      rw [obs_chain v p q]
      simp
    · rw [if_neg (not_lt.mpr (le_of_lt h)), if_pos h, if_neg (by simp; intro hc; exact absurd hc (ne_of_lt h))]; rfl

theorem obs_insertAt (v : Ver V) : ∀ (p q : List E) (n : Node E V), obs (insertAt v n p) q = if q = p then obs n p ++ [v] else obs n q
  | [], [], .mk vs ks => rfl
  | [], e :: q, .mk vs ks => by simp only [insertAt, obs_cons]; rfl
  | e :: p, q, .mk vs ks => by
    simp only [insertAt]
    cases hf : ks.find e with
    | none =>
      simp only
      cases q with
      | nil => rfl
      | cons e' q =>
        rw [obs_cons, find_ins _ _ _ _ hf]
        by_cases he : e' = e
        · subst he
          rw [if_pos rfl]
          show obs (chain v p) q = _
          rw [obs_chain, obs_cons, hf, obs_cons, hf]
          by_cases hq : q = p
          · simp [hq, obs']
          · simp [hq, obs']
        · rw [if_neg he, if_neg (by simp [he]), obs_cons]
    | some c =>
      simp only
      cases q with
      | nil => rfl
      | cons e' q =>
        rw [obs_cons, find_set _ _ _ _ _ hf]
        by_cases he : e' = e
        · subst he
          rw [if_pos rfl]
          show obs (insertAt v c p) q = _
          rw [obs_insertAt v p q c, obs_cons, hf, obs_cons, hf]
          by_cases hq : q = p
          · simp [hq, obs']
          · simp [hq, obs']
        · rw [if_neg he, if_neg (by simp [he]), obs_cons]

theorem chain_WF (v : Ver V) : ∀ p : List E, (chain v p).WF ∧ (chain v p).live
  | [] => ⟨trivial, Or.inl (by simp [chain, Node.vers])⟩
  | e :: p => by
    obtain ⟨h1, h2⟩ := chain_WF v p
    refine ⟨?_, Or.inr rfl⟩
    simp only [chain, Node.WF, Kids.WF, Kids.keys]
    exact ⟨h1, h2, by simp, trivial⟩

theorem insertAt_WF (v : Ver V) : ∀ (p : List E) (n : Node E V), n.WF → (insertAt v n p).WF ∧ (insertAt v n p).live
  | [], .mk vs ks, h => ⟨h, Or.inl (by simp [insertAt, Node.vers])⟩
  | e :: p, .mk vs ks, h => by
    rw [WF_iff] at h
    simp only [insertAt]
    cases hf : ks.find e with
    | none =>
      simp only
      rw [WF_iff]
      exact ⟨WF_ins _ (chain_WF v p).1 (chain_WF v p).2 ks e h hf, Or.inr (isNil_ins _ _ _)⟩
    | some c =>
      simp only
      rw [WF_iff]
      have hc := find_WF ks e c h hf
      have hi := insertAt_WF v p c hc.1
      exact ⟨WF_set _ hi.1 hi.2 ks e h, Or.inr (by show (ks.set e _).isNil = false; rw [isNil_set]; exact find_not_nil hf)⟩

/-! ### changes in place -/

theorem touchAt_nil (f : Ver V → Ver V) (p : List E) (n : Node E V) : ((touchAt f n p).vers = [] ↔ n.vers = []) ∧ (touchAt f n p).kids.isNil = n.kids.isNil := by
  cases p with
  | nil =>
    cases n with
    | mk vs ks => exact ⟨by simp [touchAt, Node.vers], rfl⟩
  | cons e p =>
    cases n with
    | mk vs ks =>
      simp only [touchAt]
      cases hf : ks.find e with
      | none => exact ⟨Iff.rfl, rfl⟩
      | some c => exact ⟨Iff.rfl, isNil_set _ _ _⟩

theorem touchAt_live (f : Ver V → Ver V) (p : List E) {n : Node E V} (h : n.live) : (touchAt f n p).live := by
  obtain ⟨h1, h2⟩ := touchAt_nil f p n
  unfold Node.live
  rw [Ne, h1, h2]
  exact h

theorem touchAt_WF (f : Ver V → Ver V) : ∀ (p : List E) (n : Node E V), n.WF → (touchAt f n p).WF
  | [], .mk vs ks, h => h
  | e :: p, .mk vs ks, h => by
    rw [WF_iff] at h
    simp only [touchAt]
    cases hf : ks.find e with
    | none => exact h
    | some c =>
      simp only
      rw [WF_iff]
      have hc := find_WF ks e c h hf
      exact WF_set _ (touchAt_WF f p c hc.1) (touchAt_live f p hc.2) ks e h

theorem obs_touchAt (f : Ver V → Ver V) : ∀ (p q : List E) (n : Node E V), obs (touchAt f n p) q = if q = p then (obs n p).map f else obs n q
  | [], [], .mk vs ks => rfl
  | [], e :: q, .mk vs ks => by simp only [touchAt, obs_cons]; rfl
  | e :: p, q, .mk vs ks => by
    simp only [touchAt]
    cases hf : ks.find e with
    | none =>
      simp only
      by_cases hq : q = e :: p
      · rw [if_pos hq, hq, obs_cons, hf]; rfl
      · rw [if_neg hq]
    | some c =>
      simp only
      cases q with
      | nil => rfl
      | cons e' q =>
        rw [obs_cons, find_set _ _ _ _ _ hf]
        by_cases he : e' = e
        · subst he
          rw [if_pos rfl]
          show obs (touchAt f c p) q = _
          rw [obs_touchAt f p q c, obs_cons, hf, obs_cons, hf]
          by_cases hq : q = p
          · simp [hq, obs']
          · simp [hq, obs']
        · rw [if_neg he, if_neg (by simp [he]), obs_cons]

/-! ### erase -/

/-- What is left of the versions of a node; `leaf`: it has no children. -/
def leftOver (leaf : Bool) (vs : List (Ver V)) : List (Ver V) :=
  if !leaf then vs.dropLast else if vs.dropLast.any Ver.alive then vs.dropLast.filter Ver.alive else []

/-- The node at the path has no children. -/
def leafAt (n : Node E V) (p : List E) : Bool := match n.at p with
  | none => false
  | some m => m.kids.isNil

theorem leafAt_cons (vs : List (Ver V)) (ks : Kids E V) (e : E) (p : List E) (c : Node E V) (h : ks.find e = some c) :
    leafAt (.mk vs ks) (e :: p) = leafAt c p := by
  unfold leafAt
  rw [at_cons, h]
  rfl

theorem eraseAt_ok : ∀ (p : List E) (n : Node E V), n.WF → n.at p ≠ none →
    (∀ q, obs' (eraseAt n p).1 q = if q = p then leftOver (leafAt n p) (obs n p) else obs n q) ∧
    (∀ m, (eraseAt n p).1 = some m → m.WF ∧ m.live)
  | [], .mk vs ks, hw, _ => by
    have hl : leafAt (.mk vs ks) [] = ks.isNil := rfl
    simp only [eraseAt, hl, obs_nil]
    cases hn : ks.isNil with
    | false =>
      simp only [Bool.not_false, if_true, leftOver]
      refine ⟨?_, ?_⟩
      · intro q
        cases q with
        | nil => rfl
        | cons e q =>
          show obs (.mk _ _) (e :: q) = _
          rw [obs_cons, if_neg (by simp), obs_cons]
      · intro m hm
        cases hm
        exact ⟨hw, Or.inr hn⟩
    | true =>
      have hk : ks = .nil := (isNil_iff ks).mp hn
      subst hk
      simp only [Bool.not_true, Bool.false_eq_true, if_false, leftOver]
      by_cases ha : vs.dropLast.any Ver.alive
      · rw [if_pos ha]
        refine ⟨?_, ?_⟩
        · intro q
          cases q with
          | nil => rw [if_pos rfl, if_pos ha]; rfl
          | cons e q =>
            rw [if_neg (by simp), obs_cons]
            show obs (Node.mk (vs.dropLast.filter Ver.alive) Kids.nil) (e :: q) = _
            rw [obs_cons]
        · intro m hm
          cases hm
          refine ⟨trivial, Or.inl ?_⟩
          obtain ⟨x, hx, hy⟩ := List.any_eq_true.mp ha
          intro hc
          have : x ∈ vs.dropLast.filter Ver.alive := List.mem_filter.mpr ⟨hx, hy⟩
          have hc : vs.dropLast.filter Ver.alive = [] := hc
          rw [hc] at this
          cases this
      · rw [if_neg ha]
        refine ⟨?_, fun m hm => by cases hm⟩
        intro q
        cases q with
        | nil => rw [if_pos rfl, if_neg ha]; rfl
        | cons e q => rw [if_neg (by simp), obs_cons]; rfl
  | e :: p, .mk vs ks, hw, hat => by
    rw [WF_iff] at hw
    rw [at_cons] at hat
    cases hf : ks.find e with
    | none => rw [hf] at hat; exact absurd rfl hat
    | some c =>
      rw [hf] at hat
      have hc := find_WF ks e c hw hf
      obtain ⟨i1, i2⟩ := eraseAt_ok p c hc.1 hat
      rw [leafAt_cons vs ks e p c hf, obs_cons, hf]
      simp only [eraseAt, hf]
      cases hr : eraseAt c p with
      | mk r k =>
        rw [hr] at i1 i2
        cases r with
        | some c' =>
          simp only
          obtain ⟨j1, j2⟩ := i2 c' rfl
          refine ⟨?_, ?_⟩
          · intro q
            cases q with
            | nil => rfl
            | cons e' q =>
              show obs (.mk _ _) (e' :: q) = _
              rw [obs_cons, find_set _ _ _ _ _ hf]
              by_cases he : e' = e
              · subst he
                rw [if_pos rfl, i1 q, obs_cons, hf]
                by_cases hq : q = p
                · simp [hq, obs']
                · simp [hq, obs']
              · rw [if_neg he, if_neg (by simp [he]), obs_cons]
          · intro m hm
            cases hm
            rw [WF_iff]
            exact ⟨WF_set _ j1 j2 ks e hw, Or.inr (by show (ks.set e c').isNil = false; rw [isNil_set]; exact find_not_nil hf)⟩
        | none =>
          simp only
          have hob : ∀ q, obs (.mk vs (ks.del e)) q = if q = e :: p then leftOver (leafAt c p) (obs' (some c) p) else obs (.mk vs ks) q := by
            intro q
            cases q with
            | nil => rfl
            | cons e' q =>
              rw [obs_cons, find_del _ _ _ _ hw hf]
              by_cases he : e' = e
              · subst he
                rw [if_pos rfl, obs_cons, hf]
                have := i1 q
                by_cases hq : q = p
                · rw [if_pos hq] at this
                  rw [if_pos (by rw [hq])]
                  exact this
                · rw [if_neg hq] at this
                  rw [if_neg (by simp [hq])]
                  exact this
              · rw [if_neg he, if_neg (by simp [he]), obs_cons]
          by_cases hn : ((ks.del e).isNil && vs.isEmpty) = true
          · rw [if_pos hn]
            refine ⟨?_, fun m hm => by cases hm⟩
            intro q
            rw [Bool.and_eq_true, isNil_iff, List.isEmpty_iff] at hn
            rw [← hob q, hn.1, hn.2]
            cases q with
            | nil => rfl
            | cons e' q => rw [obs_cons]; rfl
          · rw [if_neg hn]
            refine ⟨hob, ?_⟩
            intro m hm
            cases hm
            rw [WF_iff]
            refine ⟨WF_del ks e hw, ?_⟩
            rw [Bool.and_eq_true, not_and_or, List.isEmpty_iff] at hn
            rcases hn with hn | hn
            · exact Or.inr (by show (ks.del e).isNil = false; simpa using hn)
            · exact Or.inl hn

/-! ### the number of versions -/

mutual
def Node.total : Node E V → Nat
  | .mk vs ks => vs.length + ks.total
def Kids.total : Kids E V → Nat
  | .nil => 0
  | .cons _ n r => n.total + r.total
end

theorem total_mk (vs : List (Ver V)) (ks : Kids E V) : (Node.mk vs ks).total = vs.length + ks.total := by simp only [Node.total]

theorem total_set (m : Node E V) : ∀ (ks : Kids E V) (e : E) (c : Node E V), ks.find e = some c → (ks.set e m).total + c.total = ks.total + m.total
  | .nil, e, c, hf => by cases hf
  | .cons k n r, e, c, hf => by
    simp only [Kids.find] at hf
    simp only [Kids.set]
    by_cases hk : k < e
    · rw [if_pos hk] at hf ⊢
      have := total_set m r e c hf
      simp only [Kids.total]
      omega
    · rw [if_neg hk] at hf ⊢
      by_cases hek : e < k
      · rw [if_pos hek] at hf; cases hf
      · rw [if_neg hek] at hf
        cases hf
        simp only [Kids.total]
        omega

theorem total_del : ∀ (ks : Kids E V) (e : E) (c : Node E V), ks.find e = some c → (ks.del e).total + c.total = ks.total
  | .nil, e, c, hf => by cases hf
  | .cons k n r, e, c, hf => by
    simp only [Kids.find] at hf
    simp only [Kids.del]
    by_cases hk : k < e
    · rw [if_pos hk] at hf ⊢
      have := total_del r e c hf
      simp only [Kids.total]
      omega
    · rw [if_neg hk] at hf ⊢
      by_cases hek : e < k
      · rw [if_pos hek] at hf; cases hf
      · rw [if_neg hek] at hf
        cases hf
        simp only [Kids.total]
        omega

theorem total_ins (m : Node E V) : ∀ (ks : Kids E V) (e : E), (ks.ins e m).total = ks.total + m.total
  | .nil, e => by simp only [Kids.ins, Kids.total]; omega
  | .cons k n r, e => by
    simp only [Kids.ins]
    by_cases hk : k < e
    · rw [if_pos hk]
      have := total_ins m r e
      simp only [Kids.total]
      omega
    · rw [if_neg hk]
      simp only [Kids.total]
      omega

theorem total_chain (v : Ver V) : ∀ p : List E, (chain v p).total = 1
  | [] => by simp only [chain, total_mk, Kids.total]; rfl
  | e :: p => by simp only [chain, total_mk, Kids.total, total_chain v p]; rfl

theorem total_insertAt (v : Ver V) : ∀ (p : List E) (n : Node E V), (insertAt v n p).total = n.total + 1
  | [], .mk vs ks => by simp only [insertAt, total_mk, List.length_append, List.length_singleton]; omega
  | e :: p, .mk vs ks => by
    simp only [insertAt]
    cases hf : ks.find e with
    | none => simp only [total_mk, total_ins, total_chain]; omega
    | some c =>
      have h1 := total_set (insertAt v c p) ks e c hf
      have h2 := total_insertAt v p c
      simp only [total_mk]
      omega

theorem total_touchAt (f : Ver V → Ver V) : ∀ (p : List E) (n : Node E V), (touchAt f n p).total = n.total
  | [], .mk vs ks => by simp only [touchAt, total_mk, List.length_map]
  | e :: p, .mk vs ks => by
    simp only [touchAt]
    cases hf : ks.find e with
    | none => rfl
    | some c =>
      have h1 := total_set (touchAt f c p) ks e c hf
      have h2 := total_touchAt f p c
      simp only [total_mk]
      omega

def total' : Option (Node E V) → Nat
  | none => 0
  | some n => n.total

theorem filter_not_length (l : List (Ver V)) (q : Ver V → Bool) : (l.filter q).length + (l.filter fun v => !q v).length = l.length := by
  induction l with
  | nil => rfl
  | cons a l ih =>
    cases h : q a <;> simp [h] <;> omega

theorem total_eraseAt : ∀ (p : List E) (n : Node E V), obs n p ≠ [] → total' (eraseAt n p).1 + (eraseAt n p).2 = n.total
  | [], .mk vs ks, h => by
    rw [obs_nil] at h
    have hl : vs.dropLast.length + 1 = vs.length := by
      rw [List.length_dropLast]
      have := List.length_pos_of_ne_nil h
      omega
    simp only [eraseAt]
    cases hn : ks.isNil with
    | false =>
      simp only [Bool.not_false, if_true, total', total_mk]
      omega
    | true =>
      have hk : ks = .nil := (isNil_iff ks).mp hn
      subst hk
      simp only [Bool.not_true, Bool.false_eq_true, if_false]
      by_cases ha : vs.dropLast.any Ver.alive
      · rw [if_pos ha]
        have := filter_not_length vs.dropLast Ver.alive
        simp only [total', total_mk, Kids.total]
        omega
      · rw [if_neg ha]
        simp only [total', total_mk, Kids.total]
        omega
  | e :: p, .mk vs ks, h => by
    rw [obs_cons] at h
    simp only [eraseAt]
    cases hf : ks.find e with
    | none => rw [hf] at h; exact absurd rfl h
    | some c =>
      rw [hf] at h
      have ih := total_eraseAt p c h
      cases hr : eraseAt c p with
      | mk r k =>
        rw [hr] at ih
        simp only [hr]
        cases r with
        | some c' =>
          have h1 := total_set c' ks e c hf
          simp only [total', total_mk] at ih ⊢
          omega
        | none =>
          have h1 := total_del ks e c hf
          simp only [total'] at ih
          simp only
          by_cases hn : ((ks.del e).isNil && vs.isEmpty) = true
          · rw [if_pos hn]
            rw [Bool.and_eq_true, isNil_iff, List.isEmpty_iff] at hn
            rw [hn.1] at h1
            simp only [total', total_mk, hn.2, List.length_nil, Kids.total] at h1 ⊢
            omega
          · rw [if_neg hn]
            simp only [total', total_mk]
            omega

mutual
theorem total_pos : ∀ (n : Node E V), n.WF → n.live → 0 < n.total
  | .mk vs ks, hw, hl => by
    rw [WF_iff] at hw
    rw [total_mk]
    rcases hl with h | h
    · have := List.length_pos_of_ne_nil (show vs ≠ [] from h)
      omega
    · have := totalKids_pos ks hw h
      omega
theorem totalKids_pos : ∀ (ks : Kids E V), ks.WF → ks.isNil = false → 0 < ks.total
  | .nil, _, h => by cases h
  | .cons e n r, hw, _ => by
    simp only [Kids.WF] at hw
    have := total_pos n hw.1 hw.2.1
    simp only [Kids.total]
    omega
end

/-! ### iteration -/

mutual
theorem mem_elems : ∀ (n : Node E V), n.WF → ∀ (p : List E) (x : V), (p, x) ∈ n.elems ↔ (obs n p).getLast?.map Ver.val = some x
  | .mk vs ks, hw, p, x => by
    rw [WF_iff] at hw
    simp only [Node.elems, List.mem_append]
    cases p with
    | nil =>
      rw [obs_nil]
      constructor
      · rintro (h | h)
        · cases hv : vs.getLast? with
          | none => rw [hv] at h; cases h
          | some v =>
            rw [hv] at h
            have : ([], x) = (([] : List E), v.val) := by simpa using h
            cases this; rfl
        · exact absurd h (nil_not_mem ks x)
      · intro h
        left
        cases hv : vs.getLast? with
        | none => rw [hv] at h; cases h
        | some v =>
          rw [hv] at h
          have : v.val = x := by simpa using h
          simp [this]
    | cons e p =>
      rw [obs_cons]
      constructor
      · rintro (h | h)
        · cases hv : vs.getLast? with
          | none => rw [hv] at h; cases h
          | some v => rw [hv] at h; simp at h
        · exact (mem_kelems ks hw e p x).mp h
      · intro h
        exact Or.inr ((mem_kelems ks hw e p x).mpr h)
theorem nil_not_mem : ∀ (ks : Kids E V) (x : V), ([], x) ∉ ks.elems
  | .nil, x => by simp [Kids.elems]
  | .cons e n r, x => by
    simp only [Kids.elems, List.mem_append, not_or]
    refine ⟨?_, nil_not_mem r x⟩
    intro h
    obtain ⟨q, _, hq⟩ := List.mem_map.mp h
    cases hq
theorem mem_kelems : ∀ (ks : Kids E V), ks.WF → ∀ (e : E) (p : List E) (x : V), (e :: p, x) ∈ ks.elems ↔ (obs' (ks.find e) p).getLast?.map Ver.val = some x
  | .nil, _, e, p, x => by simp [Kids.elems, Kids.find, obs']
  | .cons k n r, hw, e, p, x => by
    simp only [Kids.WF] at hw
    have ih1 := mem_elems n hw.1 p x
    have ih2 := mem_kelems r hw.2.2.2 e p x
    simp only [Kids.elems, List.mem_append, Kids.find]
    have hm : (e :: p, x) ∈ (n.elems.map fun q => (k :: q.1, q.2)) ↔ e = k ∧ (p, x) ∈ n.elems := by
      constructor
      · intro h
        obtain ⟨q, hq1, hq2⟩ := List.mem_map.mp h
        cases hq2
        exact ⟨rfl, hq1⟩
      · rintro ⟨rfl, h⟩
        exact List.mem_map.mpr ⟨_, h, rfl⟩
    rw [hm, ih1, ih2]
    rcases lt_trichotomy k e with h | h | h
    · rw [if_pos h]
      constructor
      · rintro (⟨rfl, _⟩ | h2)
        · exact absurd h (lt_irrefl _)
        · exact h2
      · exact Or.inr
    · subst h
      rw [if_neg (lt_irrefl _), if_neg (lt_irrefl _), find_lt r k hw.2.2.1]
      simp [obs']
    · rw [if_neg (not_lt.mpr (le_of_lt h)), if_pos h, find_lt r e (fun y hy => lt_trans h (hw.2.2.1 y hy))]
      simp only [obs', List.getLast?_nil, Option.map_none]
      constructor
      · rintro (⟨rfl, _⟩ | h2)
        · exact absurd h (lt_irrefl _)
        · exact h2
      · exact Or.inr
end

theorem kelems_keys : ∀ (ks : Kids E V) (q : List E × V), q ∈ ks.elems → ∃ e p, q.1 = e :: p ∧ e ∈ ks.keys
  | .nil, q, h => by simp [Kids.elems] at h
  | .cons k n r, q, h => by
    simp only [Kids.elems, List.mem_append] at h
    simp only [Kids.keys, List.mem_cons]
    rcases h with h | h
    · obtain ⟨y, _, rfl⟩ := List.mem_map.mp h
      exact ⟨k, y.1, rfl, Or.inl rfl⟩
    · obtain ⟨e, p, h1, h2⟩ := kelems_keys r q h
      exact ⟨e, p, h1, Or.inr h2⟩

mutual
theorem elems_sorted : ∀ (n : Node E V), n.WF → (n.elems.map Prod.fst).Pairwise (· < ·)
  | .mk vs ks, hw => by
    rw [WF_iff] at hw
    have ih := kelems_sorted ks hw
    simp only [Node.elems, List.map_append]
    rw [List.pairwise_append]
    refine ⟨?_, ih, ?_⟩
    · cases vs.getLast? <;> simp
    · intro a ha b hb
      obtain ⟨q, hq, rfl⟩ := List.mem_map.mp hb
      obtain ⟨e, p, h1, _⟩ := kelems_keys ks q hq
      have ha : a = [] := by
        cases hv : vs.getLast? with
        | none => rw [hv] at ha; cases ha
        | some v => rw [hv] at ha; simpa using ha
      rw [ha, h1]
      exact List.nil_lt_cons e p
theorem kelems_sorted : ∀ (ks : Kids E V), ks.WF → (ks.elems.map Prod.fst).Pairwise (· < ·)
  | .nil, _ => by simp [Kids.elems]
  | .cons k n r, hw => by
    simp only [Kids.WF] at hw
    have ih1 := elems_sorted n hw.1
    have ih2 := kelems_sorted r hw.2.2.2
    simp only [Kids.elems, List.map_append]
    rw [List.pairwise_append]
    refine ⟨?_, ih2, ?_⟩
    · rw [List.map_map]
      rw [List.pairwise_map] at ih1 ⊢
      apply ih1.imp
      intro a b hab
      exact List.cons_lt_cons_iff.mpr (Or.inr ⟨rfl, hab⟩)
    · intro a ha b hb
      obtain ⟨q, hq, rfl⟩ := List.mem_map.mp ha
      obtain ⟨y, _, rfl⟩ := List.mem_map.mp hq
      obtain ⟨q', hq', rfl⟩ := List.mem_map.mp hb
      obtain ⟨e, p, h1, h2⟩ := kelems_keys r q' hq'
      rw [h1]
      exact List.cons_lt_cons_iff.mpr (Or.inl (hw.2.2.1 e h2))
end

mutual
theorem elems_length : ∀ (n : Node E V), n.WF → (∀ p, (obs n p).length ≤ 1) → n.elems.length = n.total
  | .mk vs ks, hw, h => by
    rw [WF_iff] at hw
    have h1 := kelems_length ks hw (fun e p => by have := h (e :: p); rwa [obs_cons] at this)
    have h0 := h []
    rw [obs_nil] at h0
    simp only [Node.elems, List.length_append, total_mk]
    rw [h1]
    cases vs with
    | nil => rfl
    | cons v vs =>
      cases vs with
      | nil => rfl
      | cons w vs => simp at h0
theorem kelems_length : ∀ (ks : Kids E V), ks.WF → (∀ e p, (obs' (ks.find e) p).length ≤ 1) → ks.elems.length = ks.total
  | .nil, _, _ => rfl
  | .cons k n r, hw, h => by
    simp only [Kids.WF] at hw
    have h1 := elems_length n hw.1 (fun p => by
      have := h k p
      simp only [Kids.find] at this
      rw [if_neg (lt_irrefl _), if_neg (lt_irrefl _)] at this
      exact this)
    have h2 := kelems_length r hw.2.2.2 (fun e p => by
      cases hf : r.find e with
      | none => exact Nat.zero_le _
      | some c =>
        have := h e p
        simp only [Kids.find] at this
        rw [if_pos (hw.2.2.1 e (find_keys r e c hf)), hf] at this
        exact this)
    simp only [Kids.elems, List.length_append, List.length_map, Kids.total]
    omega
end

mutual
theorem live_obs : ∀ (n : Node E V), n.WF → n.live → ∃ p, obs n p ≠ []
  | .mk vs ks, hw, hl => by
    rw [WF_iff] at hw
    by_cases hv : vs = []
    · rcases hl with h | h
      · exact absurd hv h
      · obtain ⟨e, p, hp⟩ := klive_obs ks hw h
        exact ⟨e :: p, by rw [obs_cons]; exact hp⟩
    · exact ⟨[], hv⟩
theorem klive_obs : ∀ (ks : Kids E V), ks.WF → ks.isNil = false → ∃ e p, obs' (ks.find e) p ≠ []
  | .nil, _, h => by cases h
  | .cons k n r, hw, _ => by
    simp only [Kids.WF] at hw
    obtain ⟨p, hp⟩ := live_obs n hw.1 hw.2.1
    refine ⟨k, p, ?_⟩
    simp only [Kids.find]
    rw [if_neg (lt_irrefl _), if_neg (lt_irrefl _)]
    exact hp
end

theorem at_append : ∀ (p q : List E) (n : Node E V), n.at (p ++ q) = (n.at p).bind fun m => m.at q
  | [], q, n => by rw [at_nil]; rfl
  | e :: p, q, .mk vs ks => by
    rw [List.cons_append, at_cons, at_cons]
    cases ks.find e with
    | none => rfl
    | some c => exact at_append p q c

theorem at_WF : ∀ (p : List E) (n m : Node E V), n.WF → n.at p = some m → m.WF
  | [], n, m, hw, h => by rw [at_nil] at h; cases h; exact hw
  | e :: p, .mk vs ks, m, hw, h => by
    rw [at_cons] at h
    rw [WF_iff] at hw
    cases hf : ks.find e with
    | none => rw [hf] at h; cases h
    | some c =>
      rw [hf] at h
      exact at_WF p c m (find_WF ks e c hw hf).1 h

theorem matchFrom_at : ∀ (p : List E) (up : Option (Node E V)) (n m : Node E V), n.at p = some m →
    (matchFrom up n p).2 = m.kids.isNil ∧ (m.vers ≠ [] → (matchFrom up n p).1 = some m)
  | [], up, .mk vs ks, m, h => by
    rw [at_nil] at h
    cases h
    refine ⟨rfl, fun hv => ?_⟩
    simp only [matchFrom]
    have hv : vs ≠ [] := hv
    rw [if_neg (by simpa [List.isEmpty_iff] using hv)]
  | e :: p, up, .mk vs ks, m, h => by
    rw [at_cons] at h
    simp only [matchFrom]
    cases hf : ks.find e with
    | none => rw [hf] at h; cases h
    | some c =>
      rw [hf] at h
      exact matchFrom_at p _ c m h

theorem keys_sorted : ∀ (ks : Kids E V), ks.WF → ks.keys.Pairwise (· < ·)
  | .nil, _ => List.Pairwise.nil
  | .cons k n r, hw => by
    simp only [Kids.WF] at hw
    exact List.Pairwise.cons hw.2.2.1 (keys_sorted r hw.2.2.2)

/-! ### the whole trie -/

/-- The state of a trie between two calls. -/
def Inv (t : Trie E V) : Prop := match t.root with
  | none => t.size = 0
  | some r => r.WF ∧ r.live ∧ t.size = r.total

theorem inv_empty : Inv (Trie.empty : Trie E V) := rfl

theorem versions_eq (t : Trie E V) (p : List E) : t.versions p = obs' t.root p := by
  unfold Trie.versions
  cases t.root <;> rfl

theorem find_eq (t : Trie E V) (p : List E) : t.find p = (t.versions p).getLast?.map Ver.val := by
  unfold Trie.find Trie.versions
  cases t.root with
  | none => rfl
  | some r => simp only; cases r.at p <;> rfl

theorem insert_ok (t : Trie E V) (h : Inv t) (p : List E) (v : V) :
    Inv (t.insert p v) ∧ ∀ q, (t.insert p v).versions q = if q = p then t.versions p ++ [⟨t.version, 0, v⟩] else t.versions q := by
  unfold Inv at h
  cases hr : t.root with
  | none =>
    rw [hr] at h
    have h : t.size = 0 := h
    have hroot : (t.insert p v).root = some (insertAt ⟨t.version, 0, v⟩ (.mk [] .nil) p) := by
      unfold Trie.insert
      rw [if_pos h]
      rfl
    have hw : (Node.mk [] Kids.nil : Node E V).WF := trivial
    constructor
    · unfold Inv
      rw [hroot]
      refine ⟨(insertAt_WF _ p _ hw).1, (insertAt_WF _ p _ hw).2, ?_⟩
      rw [total_insertAt]
      show t.size + 1 = _
      rw [h]
      simp [total_mk, Kids.total]
    · intro q
      simp only [versions_eq, hroot, hr]
      show obs _ q = _
      rw [obs_insertAt]
      have hnil : ∀ x, obs (Node.mk [] Kids.nil : Node E V) x = [] := by
        intro x
        cases x with
        | nil => rfl
        | cons e x => rw [obs_cons]; rfl
      rw [hnil, hnil]
      rfl
  | some r =>
    rw [hr] at h
    obtain ⟨h1, h2, h3⟩ := (h : r.WF ∧ r.live ∧ t.size = r.total)
    have hne : t.size ≠ 0 := by have := total_pos r h1 h2; omega
    have hroot : (t.insert p v).root = some (insertAt ⟨t.version, 0, v⟩ r p) := by
      unfold Trie.insert
      rw [if_neg hne, hr]
      rfl
    constructor
    · unfold Inv
      rw [hroot]
      refine ⟨(insertAt_WF _ p _ h1).1, (insertAt_WF _ p _ h1).2, ?_⟩
      rw [total_insertAt]
      show t.size + 1 = _
      rw [h3]
      simp
    · intro q
      simp only [versions_eq, hroot, hr]
      exact obs_insertAt _ _ _ _

theorem touch_ok (t : Trie E V) (h : Inv t) (p : List E) (f : Ver V → Ver V) :
    Inv (t.touch p f) ∧ ∀ q, (t.touch p f).versions q = if q = p then (t.versions p).map f else t.versions q := by
  unfold Inv at h
  cases hr : t.root with
  | none =>
    rw [hr] at h
    have hroot : (t.touch p f).root = none := by unfold Trie.touch; rw [hr]; rfl
    constructor
    · unfold Inv; rw [hroot]; exact h
    · intro q
      simp only [versions_eq, hroot, hr, obs']
      split <;> rfl
  | some r =>
    rw [hr] at h
    obtain ⟨h1, h2, h3⟩ := (h : r.WF ∧ r.live ∧ t.size = r.total)
    have hroot : (t.touch p f).root = some (touchAt f r p) := by unfold Trie.touch; rw [hr]; rfl
    constructor
    · unfold Inv
      rw [hroot]
      exact ⟨touchAt_WF f p r h1, touchAt_live f p h2, by rw [total_touchAt]; exact h3⟩
    · intro q
      simp only [versions_eq, hroot, hr]
      exact obs_touchAt _ _ _ _

/-- There is a path below this one. -/
def Trie.leaf (t : Trie E V) (p : List E) : Bool := t.root.any fun r => leafAt r p

theorem getLast_none {α β : Type} (l : List α) (f : α → β) : l.getLast?.map f = none ↔ l = [] := by
  cases l with
  | nil => simp
  | cons a l => simp [List.getLast?_cons]

theorem find_none (t : Trie E V) (p : List E) : t.find p = none ↔ t.versions p = [] := by
  rw [find_eq, getLast_none]

theorem obs_at {n : Node E V} {p : List E} (h : obs n p ≠ []) : n.at p ≠ none := by
  intro hc
  unfold obs at h
  rw [hc] at h
  exact h rfl

theorem erase_ok (t : Trie E V) (h : Inv t) (p : List E) :
    Inv (t.erase p).1 ∧ ∀ q, (t.erase p).1.versions q = if q = p ∧ t.versions p ≠ [] then leftOver (t.leaf p) (t.versions p) else t.versions q := by
  by_cases hf : t.find p = none
  · have he : (t.erase p).1 = t := by
      unfold Trie.erase
      cases t.root with
      | none => rfl
      | some r => simp only [hf]
    rw [he]
    refine ⟨h, fun q => ?_⟩
    rw [if_neg]
    rintro ⟨_, hn⟩
    exact hn ((find_none t p).mp hf)
  · have hv : t.versions p ≠ [] := fun hc => hf ((find_none t p).mpr hc)
    unfold Inv at h
    cases hr : t.root with
    | none => rw [versions_eq, hr] at hv; exact absurd rfl hv
    | some r =>
      rw [hr] at h
      obtain ⟨h1, h2, h3⟩ := (h : r.WF ∧ r.live ∧ t.size = r.total)
      have he : (t.erase p).1 = ⟨(eraseAt r p).1, t.size - (eraseAt r p).2, t.version⟩ := by
        unfold Trie.erase
        rw [hr]
        cases hx : t.find p with
        | none => exact absurd hx hf
        | some y => simp only
      have ho : obs r p ≠ [] := by rw [versions_eq, hr] at hv; exact hv
      obtain ⟨e1, e2⟩ := eraseAt_ok p r h1 (obs_at ho)
      have e3 := total_eraseAt p r ho
      rw [he]
      constructor
      · unfold Inv
        cases hx : (eraseAt r p).1 with
        | none =>
          rw [hx] at e3
          show t.size - ((eraseAt r p).2 : Int) = 0
          rw [h3]
          simp only [total'] at e3
          omega
        | some m =>
          rw [hx] at e3
          refine ⟨(e2 m hx).1, (e2 m hx).2, ?_⟩
          show t.size - ((eraseAt r p).2 : Int) = m.total
          rw [h3]
          simp only [total'] at e3
          omega
      · intro q
        have hl : t.leaf p = leafAt r p := by unfold Trie.leaf; rw [hr]; rfl
        have hv' : t.versions p = obs r p := by rw [versions_eq, hr]; rfl
        have hq' : t.versions q = obs r q := by rw [versions_eq, hr]; rfl
        rw [versions_eq, hl, hv', hq']
        show obs' (eraseAt r p).1 q = _
        rw [e1 q]
        by_cases hq : q = p
        · rw [if_pos hq, if_pos ⟨hq, ho⟩]
        · rw [if_neg hq, if_neg (fun hc => hq hc.1)]

end Verif.Trie
