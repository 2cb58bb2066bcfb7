import Verif.Arrow.SchemaSpec
import Verif.Table.Column
import Mathlib.Data.List.Perm.Subperm
import Mathlib.Data.List.Nodup
/-! Lemmas about names and formats of Arrow schemas. -/
namespace Verif.Arrow
open Verif
open Verif.Text (showNat natOf isDigit isDigits showNat_digits natOf_showNat)

/-! ### Names -/

theorem withCount_inj {n : Name} {a b : Nat} (h : withCount n a = withCount n b) : a = b := by
  have h1 := List.append_cancel_left h
  simp only [List.cons.injEq, true_and] at h1
  have := congrArg natOf h1
  rwa [natOf_showNat, natOf_showNat] at this

theorem withCount_ne_nil (n : Name) (c : Nat) : withCount n c ≠ [] := by simp [withCount]

theorem freshName_new {m : Seen} {n : Name} : ∀ {fuel c r : Nat}, freshName m n fuel c = .ok r → withCount n r ∉ m.map Prod.fst
  | 0, _, _, h => by simp [freshName] at h
  | fuel + 1, c, r, h => by
    unfold freshName at h
    split at h
    · exact freshName_new h
    · cases h; assumption

theorem freshName_total_or {m : Seen} {n : Name} : ∀ (fuel c : Nat), (∃ r, freshName m n fuel c = .ok r) ∨
    ∀ j < fuel, withCount n (c + j) ∈ m.map Prod.fst
  | 0, _ => .inr (by omega)
  | fuel + 1, c => by
    unfold freshName
    split
    · rename_i hm
      rcases freshName_total_or (m := m) (n := n) fuel (c + 1) with h | h
      · exact .inl h
      · refine .inr fun j hj => ?_
        rcases j with _ | j
        · exact hm
        · have := h j (by omega); rwa [show c + 1 + j = c + (j + 1) by omega] at this
    · exact .inl ⟨c, rfl⟩

theorem freshName_total (m : Seen) (n : Name) (c : Nat) : ∃ r, freshName m n (m.length + 1) c = .ok r := by
  rcases freshName_total_or (m := m) (n := n) (m.length + 1) c with h | h
  · exact h
  · exfalso
    have hn : ((List.range (m.length + 1)).map fun j => withCount n (c + j)).Nodup :=
      List.Nodup.map (fun a b e => by have := withCount_inj e; omega) List.nodup_range
    have hs : ((List.range (m.length + 1)).map fun j => withCount n (c + j)) ⊆ m.map Prod.fst := by
      intro x hx
      obtain ⟨j, hj, rfl⟩ := List.mem_map.mp hx
      exact h j (List.mem_range.mp hj)
    have := (List.subperm_of_subset hn hs).length_le
    simp at this

theorem put_keys (m : Seen) (n : Name) (c : Nat) : (m.put n c).map Prod.fst = m.map Prod.fst := by
  unfold Seen.put
  rw [List.map_map]
  apply List.map_congr_left
  intro p _
  simp only [Function.comp]
  split
  · rename_i h; exact h.symm
  · rfl

theorem find_none {m : Seen} {n : Name} (h : (m.find? fun p => p.1 = n) = none) : n ∉ m.map Prod.fst := by
  rw [List.find?_eq_none] at h
  intro hm
  obtain ⟨p, hp, rfl⟩ := List.mem_map.mp hm
  exact h p hp (by simp)

theorem find_none_of {m : Seen} {n : Name} (h : n ∉ m.map Prod.fst) : (m.find? fun p => p.1 = n) = none := by
  rw [List.find?_eq_none]
  intro p hp
  simp only [decide_eq_true_eq]
  rintro rfl
  exact h (List.mem_map.mpr ⟨p, hp, rfl⟩)

/-- All what `deduplicate` promises: it ends, with one name for every column, all of them different
from one another and from those seen before. -/
theorem deduplicate_ok : ∀ (ns : List Name) (m : Seen), ∃ r, deduplicate m ns = .ok r ∧ r.length = ns.length ∧ r.Nodup ∧
    (∀ x ∈ r, x ∉ m.map Prod.fst) ∧ ((∀ x ∈ ns, x ≠ []) → ∀ x ∈ r, x ≠ [])
  | [], m => ⟨[], rfl, rfl, List.nodup_nil, by simp, by simp⟩
  | n :: ns, m => by
    unfold deduplicate
    split
    · rename_i hf
      obtain ⟨r, hr, hl, hd, hm, he⟩ := deduplicate_ok ns ((n, 1) :: m)
      refine ⟨n :: r, by rw [hr]; rfl, by simp [hl], List.nodup_cons.mpr ⟨fun h => hm n h (by simp), hd⟩, ?_, ?_⟩
      · intro x hx
        rcases List.mem_cons.mp hx with rfl | hx
        · exact find_none hf
        · have := hm x hx; simp only [List.map_cons, List.mem_cons, not_or] at this; exact this.2
      · intro h x hx
        rcases List.mem_cons.mp hx with rfl | hx
        · exact h x (by simp)
        · exact he (fun y hy => h y (by simp [hy])) x hx
    · rename_i p hf
      obtain ⟨c, hc⟩ := freshName_total m n p.2
      obtain ⟨r, hr, hl, hd, hm, he⟩ := deduplicate_ok ns ((withCount n c, 1) :: m.put n c)
      rw [hc, Res.bind_ok, hr]
      have hnew := freshName_new hc
      refine ⟨withCount n c :: r, rfl, by simp [hl], List.nodup_cons.mpr ⟨fun h => hm _ h (by simp), hd⟩, ?_, ?_⟩
      · intro x hx
        rcases List.mem_cons.mp hx with rfl | hx
        · exact hnew
        · have := hm x hx; simp only [List.map_cons, List.mem_cons, not_or, put_keys] at this; exact this.2
      · intro h x hx
        rcases List.mem_cons.mp hx with rfl | hx
        · exact withCount_ne_nil _ _
        · exact he (fun y hy => h y (by simp [hy])) x hx

theorem deduplicate_distinct : ∀ (ns : List Name) (m : Seen), ns.Nodup → (∀ x ∈ ns, x ∉ m.map Prod.fst) → deduplicate m ns = .ok ns
  | [], _, _, _ => rfl
  | n :: ns, m, hd, hm => by
    unfold deduplicate
    rw [find_none_of (hm n (by simp))]
    rw [List.nodup_cons] at hd
    simp only
    rw [deduplicate_distinct ns ((n, 1) :: m) hd.2]
    · rfl
    · intro x hx
      simp only [List.map_cons, List.mem_cons, not_or]
      exact ⟨fun e => hd.1 (e ▸ hx), hm x (by simp [hx])⟩

/-- The first column with a name keeps it. -/
theorem deduplicate_prefix : ∀ (ns ms : List Name) (m : Seen) (r : List Name), ns.Nodup → (∀ x ∈ ns, x ∉ m.map Prod.fst) →
    deduplicate m (ns ++ ms) = .ok r → ns <+: r
  | [], _, _, _, _, _, _ => List.nil_prefix
  | n :: ns, ms, m, r, hd, hm, h => by
    rw [List.cons_append] at h
    unfold deduplicate at h
    rw [find_none_of (hm n (by simp))] at h
    rw [List.nodup_cons] at hd
    simp only at h
    obtain ⟨r', hr, rfl⟩ := Res.map'_ok_iff.mp h
    obtain ⟨t, ht⟩ := deduplicate_prefix ns ms ((n, 1) :: m) r' hd.2 (by
      intro x hx
      simp only [List.map_cons, List.mem_cons, not_or]
      exact ⟨fun e => hd.1 (e ▸ hx), hm x (by simp [hx])⟩) hr
    exact ⟨t, by rw [← ht]; rfl⟩

theorem columnNames_named : ∀ (cs : List Sch) (i : Nat), (∀ c ∈ cs, c.name ≠ []) → columnNames i cs = cs.map Sch.name
  | [], _, _ => rfl
  | c :: cs, i, h => by
    unfold columnNames
    rw [if_neg (h c (by simp)), columnNames_named cs (i + 1) fun x hx => h x (by simp [hx])]; rfl

theorem columnNames_length : ∀ (cs : List Sch) (i : Nat), (columnNames i cs).length = cs.length
  | [], _ => rfl
  | c :: cs, i => by unfold columnNames; simp [columnNames_length cs (i + 1)]

theorem columnNames_ne_nil : ∀ (cs : List Sch) (i : Nat), ∀ x ∈ columnNames i cs, x ≠ []
  | [], _, x, h => by simp [columnNames] at h
  | c :: cs, i, x, h => by
    unfold columnNames at h
    rcases List.mem_cons.mp h with rfl | h
    · split
      · simp
      · assumption
    · exact columnNames_ne_nil cs (i + 1) x h

/-! ### Numbers in formats -/

theorem showNat_all (n : Nat) : ∀ c ∈ showNat n, isDigit c = true := by
  have := showNat_digits n
  simp only [isDigits, Bool.and_eq_true, List.all_eq_true] at this
  exact this.2

theorem showNat_ne_nil (n : Nat) : showNat n ≠ [] := by
  have := showNat_digits n
  intro e; rw [e] at this; simp [isDigits] at this

theorem stoN_showNat (max n : Nat) (h : n ≤ max) : stoN max (showNat n) = .ok n := by
  unfold stoN
  have hw : (showNat n).takeWhile isDigit = showNat n := List.takeWhile_eq_self_iff.mpr (showNat_all n)
  cases e : showNat n with
  | nil => exact absurd e (showNat_ne_nil n)
  | cons c r =>
    have hc : isDigit c = true := showNat_all n c (by rw [e]; simp)
    have hn := natOf_showNat n
    rw [e] at hw hn
    simp only [hc, if_true, hw, hn, if_pos h]

theorem splitAt_end (d : UInt8) : ∀ (s cur : Name), (∀ c ∈ s, c ≠ d) → cur ++ s ≠ [] → splitAt' d s cur = [cur ++ s]
  | [], cur, _, h => by rw [List.append_nil] at h ⊢; unfold splitAt'; rw [if_neg h]
  | c :: s, cur, hs, h => by
    unfold splitAt'
    rw [if_neg (hs c (by simp)), splitAt_end d s (cur ++ [c]) (fun x hx => hs x (by simp [hx])) (by simp)]; simp

theorem splitAt_step (d : UInt8) : ∀ (s cur r : Name), (∀ c ∈ s, c ≠ d) → splitAt' d (s ++ d :: r) cur = (cur ++ s) :: splitAt' d r []
  | [], cur, r, _ => by rw [List.nil_append]; simp [splitAt']
  | c :: s, cur, r, hs => by
    rw [List.cons_append, splitAt', if_neg (hs c (by simp)), splitAt_step d s (cur ++ [c]) r (fun x hx => hs x (by simp [hx]))]; simp

theorem digit_ne {c d : UInt8} (h : isDigit c = true) (hd : isDigit d = false) : c ≠ d := by
  rintro rfl; rw [h] at hd; cases hd

theorem decimalOf_ok {w s : Nat} (hw : w ≤ 38) (hs : s ≤ w) :
    decimalOf ([100, 58] ++ showNat w ++ [44] ++ showNat s) = .ok (.decimal w s) := by
  have e1 : splitAt' 58 ([100, 58] ++ showNat w ++ [44] ++ showNat s) [] = [[100], showNat w ++ [44] ++ showNat s] := by
    have := splitAt_step 58 [100] [] (showNat w ++ [44] ++ showNat s) (by simp)
    rw [show [100, 58] ++ showNat w ++ [44] ++ showNat s = [100] ++ 58 :: (showNat w ++ [44] ++ showNat s) by simp, this,
      splitAt_end 58 _ [] _ (by simp)]
    · rfl
    · intro c hc
      simp only [List.mem_append, List.mem_singleton] at hc
      rcases hc with (hc | rfl) | hc
      · exact digit_ne (showNat_all w c hc) rfl
      · decide
      · exact digit_ne (showNat_all s c hc) rfl
  have e2 : splitAt' 44 (showNat w ++ [44] ++ showNat s) [] = [showNat w, showNat s] := by
    rw [show showNat w ++ [44] ++ showNat s = showNat w ++ 44 :: showNat s by simp,
      splitAt_step 44 _ [] _ fun c hc => digit_ne (showNat_all w c hc) rfl,
      splitAt_end 44 _ [] (fun c hc => digit_ne (showNat_all s c hc) rfl) (by simpa using showNat_ne_nil s)]
    rfl
  unfold decimalOf
  rw [e1]
  simp only
  rw [e2]
  simp only
  rw [stoN_showNat _ w (by omega), Res.bind_ok, stoN_showNat _ s (by omega), Res.bind_ok, if_neg (by omega),
    Nat.mod_eq_of_lt (by omega), Nat.mod_eq_of_lt (by omega)]

theorem behindColon_array (k : Nat) : behindColon ([43, 119, 58] ++ showNat k) = showNat k := by
  simp [behindColon, List.dropWhile]

theorem plainFormat_scalar {f : Name} {s : Scalar} (h : FormatOf f s) : plainFormat f = .ok (some (.scalar s)) := by
  cases h with
  | string f h => simp only [List.mem_cons, List.not_mem_nil, or_false] at h; rcases h with rfl | rfl | rfl <;> rfl
  | blob f h => simp only [List.mem_cons, List.not_mem_nil, or_false] at h; rcases h with rfl | rfl | rfl <;> rfl
  | _ => rfl

theorem plainFormat_decimal {w s : Nat} (hw : w ≤ 38) (hs : s ≤ w) :
    plainFormat ([100, 58] ++ showNat w ++ [44] ++ showNat s) = .ok (some (.decimal w s)) := by
  have := decimalOf_ok hw hs
  simp only [List.cons_append, List.nil_append, List.append_assoc] at this ⊢
  unfold plainFormat
  simp [this, Res.map'_ok]

theorem plainFormat_array (k : Nat) : plainFormat ([43, 119, 58] ++ showNat k) = .ok none := by
  simp [plainFormat]

/-! ### Types -/

mutual
theorem typeOf_ok : ∀ {s : Sch} {t : STy}, Describes s t → typeOf s = .ok t
  | _, _, .scalar h => by unfold typeOf; rw [plainFormat_scalar h]; rfl
  | _, _, .decimal hw hs => by unfold typeOf; rw [plainFormat_decimal hw hs]; rfl
  | _, _, .list (f := f) hf h => by
    have ih := typeOf_ok h
    simp only [List.mem_cons, List.not_mem_nil, or_false] at hf
    rcases hf with rfl | rfl | rfl | rfl <;>
    · unfold typeOf
      rw [show plainFormat _ = .ok none from rfl]
      simp [Res.bind_ok, ih, Res.map'_ok]
  | _, _, .array (k := k) hk h => by
    have ih := typeOf_ok h
    unfold typeOf
    rw [plainFormat_array, Res.bind_ok]
    simp only
    rw [if_neg (by simp), if_pos (by simp), behindColon_array, stoN_showNat _ k (by omega), Res.bind_ok, ih]; rfl
  | _, _, .struct hn h => by
    cases h with
    | nil => exact absurd rfl hn
    | cons h hs =>
      have ih := typeOf_ok h
      have ihs := fieldsOf_ok hs
      unfold typeOf
      rw [show plainFormat [43, 115] = .ok none from rfl]
      simp [Res.bind_ok, ih, ihs, Res.map'_ok]
  | _, _, .map hk hv => by
    have ih := typeOf_ok hk
    have ihv := typeOf_ok hv
    unfold typeOf
    rw [show plainFormat [43, 109] = .ok none from rfl]
    simp [Res.bind_ok, ih, ihv, Res.map'_ok]
theorem fieldsOf_ok : ∀ {cs : Schs} {fs : SFields}, DescribesAll cs fs → fieldsOf cs = .ok fs
  | _, _, .nil => rfl
  | _, _, .cons h hs => by
    unfold fieldsOf
    rw [typeOf_ok h, Res.bind_ok, fieldsOf_ok hs]; rfl
end

theorem scalarFormat_ok {s : Scalar} (h : s ≠ .blob ∧ s ≠ .hugeint ∧ s ≠ .uhugeint) : ∃ f, scalarFormat s = .ok f ∧ FormatOf f s := by
  cases s <;> first
    | exact ⟨_, rfl, .string _ (by simp)⟩
    | exact ⟨_, rfl, .tsNs []⟩
    | exact ⟨_, rfl, .tsUs []⟩
    | exact ⟨_, rfl, .tsMs []⟩
    | exact ⟨_, rfl, .tsSec []⟩
    | exact ⟨_, rfl, by constructor⟩
    | (exfalso; simp at h)

mutual
theorem setFormat_ok : ∀ (t : STy), t.bare → ∃ f cs, setFormat t = .ok (f, cs) ∧ ∀ n, Describes (.mk f n cs) t
  | .scalar s, h => by
    obtain ⟨f, hf, h⟩ := scalarFormat_ok h
    exact ⟨f, .nil, by unfold setFormat; rw [hf]; rfl, fun n => .scalar h⟩
  | .decimal _ _, h => by simp [STy.bare] at h
  | .list t, h => by
    obtain ⟨f, cs, hf, hd⟩ := setFormat_ok t (by simpa [STy.bare] using h)
    exact ⟨_, _, by unfold setFormat; rw [hf]; rfl, fun n => .list (by simp) (hd _)⟩
  | .array _ _, h => by simp [STy.bare] at h
  | .struct .nil, h => by simp [STy.bare] at h
  | .struct (.cons n t fs), h => by
    simp only [STy.bare, SFields.bare] at h
    obtain ⟨-, rfl, ht, hfs⟩ := h
    obtain ⟨f, cs, hf, hd⟩ := setFormat_ok t ht
    obtain ⟨cs', hf', hd'⟩ := setFields_ok fs hfs
    exact ⟨_, _, by unfold setFormat; simp only [addName, Res.bind_ok, hf, hf']; rfl, fun n => .struct (by simp) (.cons (hd []) hd')⟩
  | .map _ _, h => by simp [STy.bare] at h
theorem setFields_ok : ∀ (fs : SFields), fs.bare → ∃ cs, setFields fs = .ok cs ∧ DescribesAll cs fs
  | .nil, _ => ⟨.nil, rfl, .nil⟩
  | .cons n t fs, h => by
    simp only [SFields.bare] at h
    obtain ⟨rfl, ht, hfs⟩ := h
    obtain ⟨f, cs, hf, hd⟩ := setFormat_ok t ht
    obtain ⟨cs', hf', hd'⟩ := setFields_ok fs hfs
    exact ⟨_, by unfold setFields; simp only [addName, Res.bind_ok, hf, hf']; rfl, .cons (hd []) hd'⟩
end

end Verif.Arrow
