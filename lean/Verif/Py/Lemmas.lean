import Verif.Py.Spec
import Verif.DocVal.TapeProps
/-!
Lemmas for C91.
-/
namespace Verif.Py

open Verif.DocVal Verif.LogVal

/-- `d'` is `d` with more written to it. -/
def Ext (d d' : Tape) : Prop := ∃ w s, d' = ⟨d.words ++ w, d.chars ++ s⟩

theorem Ext.refl (d : Tape) : Ext d d := ⟨[], [], by simp⟩

theorem Ext.trans {a b c : Tape} (h : Ext a b) (g : Ext b c) : Ext a c := by
  obtain ⟨w, s, rfl⟩ := h
  obtain ⟨w', s', rfl⟩ := g
  exact ⟨w ++ w', s ++ s', by simp⟩

theorem ext_build (d : Tape) (v : V) : Ext d (build 0 d v) := build_append 0 d v

theorem read_ext {d d' : Tape} {v : V} (hv : v.valid) (hf : Fits d 0 v) (h : Ext (build 0 d v) d') :
    read d' d.words.length = .ok v := by
  obtain ⟨w, s, rfl⟩ := h
  exact read_extended d 0 v w s hv hf

/-- A plain scalar is written as a value. -/
theorem scalar_value (L : Lib) (x : Scalar) (h : x.plain L) (d : Tape) (hd : d.chars.length + x.weight L < 2 ^ 56) :
    ∃ v, scalarV L x = .ok (some v) ∧ v.valid ∧ Fits d 0 v ∧ fromValue L v = .ok (x.canon L) ∧
      (build 0 d v).chars.length = d.chars.length + x.weight L := by
  obtain ⟨h1, h2, h3⟩ := h
  cases x with
  | none => exact absurd rfl h2
  | badStr => exact h1.elim
  | bool b => exact ⟨_, rfl, trivial, trivial, rfl, rfl⟩
  | float b => exact ⟨_, rfl, trivial, trivial, rfl, rfl⟩
  | int v =>
    have hv := h3 v rfl
    have hfit : PhysKey.ITy.i64.fits v := by
      simp only [PhysKey.ITy.fits, PhysKey.ITy.signed, PhysKey.ITy.bits, if_true]
      omega
    refine ⟨.int .i64 v, by simp [scalarV, hfit], hfit, by simp [Fits], rfl, rfl⟩
  | bytes b =>
    have hl : (L.b64 b).length < 2 ^ 32 := h1.1
    refine ⟨.str (L.b64 b), rfl, trivial, ⟨hl, by omega⟩, ?_, ?_⟩
    · simp [fromValue, pyStr, h1.2, Scalar.canon]
    · simp [build, strBytes, le32, Scalar.weight, Nat.mod_eq_of_lt hl]; omega
  | str s =>
    have hl : s.length < 2 ^ 32 := h1.1
    refine ⟨.str s, rfl, trivial, ⟨hl, by omega⟩, ?_, ?_⟩
    · simp [fromValue, pyStr, h1.2, Scalar.canon]
    · simp [build, strBytes, le32, Scalar.weight, Nat.mod_eq_of_lt hl]; omega

/-- A plain scalar is written and read back. -/
theorem buildScalar_ok (L : Lib) (x : Scalar) (h : x.plain L) (d : Tape) (hd : d.chars.length + x.weight L < 2 ^ 56) :
    ∃ d', buildScalar L d x = .ok (d.words.length, d') ∧ Ext d d' ∧ d'.chars.length = d.chars.length + x.weight L ∧
      ∀ d'', Ext d' d'' → ∃ v, read d'' d.words.length = .ok v ∧ fromValue L v = .ok (x.canon L) := by
  obtain ⟨v, h1, h2, h3, h4, h5⟩ := scalar_value L x h d hd
  refine ⟨build 0 d v, by simp [buildScalar, buildPrim, h1, Res.bind], ext_build d v, h5, ?_⟩
  intro d'' he
  exact ⟨v, read_ext h2 h3 he, h4⟩

/-- A plain text is written and read back as a key. -/
theorem buildKey_ok (L : Lib) (s : Bytes) (h : (Scalar.str s).plain L) (d : Tape) (hd : d.chars.length + (Scalar.str s).weight L < 2 ^ 56) :
    ∃ d', buildScalar L d (.str s) = .ok (d.words.length, d') ∧ Ext d d' ∧ d'.chars.length = d.chars.length + (Scalar.str s).weight L ∧
      ∀ d'', Ext d' d'' → keyText d'' d.words.length = .ok s := by
  have hl : s.length < 2 ^ 32 := h.1.1
  have hf : Fits d 0 (.str s) := ⟨hl, by omega⟩
  refine ⟨build 0 d (.str s), rfl, ext_build d _, ?_, ?_⟩
  · simp [build, strBytes, le32, Scalar.weight, Nat.mod_eq_of_lt hl]; omega
  · intro d'' he
    rw [keyText, read_ext (v := .str s) trivial hf he]
    rfl

theorem pyStr_plain (L : Lib) (s : Bytes) (h : (Scalar.str s).plain L) : pyStr L s = .ok (.str s) := by
  simp [pyStr, h.1.2]

/-- What fields read back as tells which keys they have. -/
theorem hasKey_eq (L : Lib) (d : Tape) (s : Bytes) : ∀ (fs : List (Nat × Trie)) (es : List (Scalar × PyObj)),
    fromFields L d fs = .ok es → hasKey d s fs = .ok (decide (Scalar.str s ∈ es.map Prod.fst))
  | [], es, h => by
    simp only [fromFields, Res.ok.injEq] at h
    subst h
    simp [hasKey]
  | (k, t) :: fs, es, h => by
    simp only [fromFields] at h
    cases hk : keyText d k with
    | ok a =>
      rw [hk] at h
      simp only [Res.bind, pyStr] at h
      by_cases hu : L.utf8 a = true
      · rw [if_pos hu] at h
        simp only at h
        cases hv : fromTrie L d t with
        | ok v =>
          rw [hv] at h
          simp only at h
          cases hf : fromFields L d fs with
          | ok es' =>
            rw [hf] at h
            simp only [Res.ok.injEq] at h
            subst h
            simp only [hasKey, hk, Res.bind]
            by_cases ha : a = s
            · simp [ha]
            · rw [if_neg ha, hasKey_eq L d s fs es' hf]
              have : ¬ s = a := fun e => ha e.symm
              simp [this]
          | throws => rw [hf] at h; simp at h
          | ub => rw [hf] at h; simp at h
          | diverges => rw [hf] at h; simp at h
        | throws => rw [hv] at h; simp at h
        | ub => rw [hv] at h; simp at h
        | diverges => rw [hv] at h; simp at h
      · rw [if_neg hu] at h; simp at h
    | throws => rw [hk] at h; simp [Res.bind] at h
    | ub => rw [hk] at h; simp [Res.bind] at h
    | diverges => rw [hk] at h; simp [Res.bind] at h

theorem fromFields_append (L : Lib) (d : Tape) (b : Nat × Trie) (e : Scalar × PyObj) (hb : fromFields L d [b] = .ok [e]) :
    ∀ (fs : List (Nat × Trie)) (es : List (Scalar × PyObj)), fromFields L d fs = .ok es → fromFields L d (fs ++ [b]) = .ok (es ++ [e])
  | [], es, h => by
    simp only [fromFields, Res.ok.injEq] at h
    subst h
    exact hb
  | (k, t) :: fs, es, h => by
    simp only [fromFields] at h
    simp only [List.cons_append, fromFields]
    cases hk : keyText d k with
    | ok a =>
      rw [hk] at h
      simp only [Res.bind] at h ⊢
      cases hp : pyStr L a with
      | ok p =>
        rw [hp] at h
        simp only at h ⊢
        cases hv : fromTrie L d t with
        | ok v =>
          rw [hv] at h
          simp only at h ⊢
          cases hf : fromFields L d fs with
          | ok es' =>
            rw [hf] at h
            simp only [Res.ok.injEq] at h
            subst h
            rw [fromFields_append L d b e hb fs es' hf]
            simp
          | throws => rw [hf] at h; simp at h
          | ub => rw [hf] at h; simp at h
          | diverges => rw [hf] at h; simp at h
        | throws => rw [hv] at h; simp at h
        | ub => rw [hv] at h; simp at h
        | diverges => rw [hv] at h; simp at h
      | throws => rw [hp] at h; simp at h
      | ub => rw [hp] at h; simp at h
      | diverges => rw [hp] at h; simp at h
    | throws => rw [hk] at h; simp [Res.bind] at h
    | ub => rw [hk] at h; simp [Res.bind] at h
    | diverges => rw [hk] at h; simp [Res.bind] at h

/-- Both evaluation orders write the key and the value, and both are read back. -/
theorem buildPair_ok (rtl : Bool) (L : Lib) (s : Bytes) (h : (Scalar.str s).plain L) (o : PyObj) (d : Tape)
    (hd : d.chars.length + ((Scalar.str s).weight L + o.weight L) < 2 ^ 56)
    (ih : ∀ d : Tape, d.chars.length + o.weight L < 2 ^ 56 → ∃ t d', buildIndex rtl L o d = .ok (t, d') ∧ Ext d d' ∧
      d'.chars.length = d.chars.length + o.weight L ∧ ∀ d'', Ext d' d'' → fromTrie L d'' t = .ok (o.canon L)) :
    ∃ k t d', buildPair rtl L d (.str s) (buildIndex rtl L o) = .ok (k, t, d') ∧ Ext d d' ∧
      d'.chars.length = d.chars.length + ((Scalar.str s).weight L + o.weight L) ∧
      ∀ d'', Ext d' d'' → keyText d'' k = .ok s ∧ fromTrie L d'' t = .ok (o.canon L) := by
  cases rtl with
  | true =>
    obtain ⟨t, d1, h1, h2, h3, h4⟩ := ih d (by omega)
    obtain ⟨d2, g1, g2, g3, g4⟩ := buildKey_ok L s h d1 (by omega)
    refine ⟨d1.words.length, t, d2, by simp [buildPair, h1, g1, Res.bind], h2.trans g2, by omega, ?_⟩
    intro d'' he
    exact ⟨g4 d'' he, h4 d'' (g2.trans he)⟩
  | false =>
    obtain ⟨d1, g1, g2, g3, g4⟩ := buildKey_ok L s h d (by omega)
    obtain ⟨t, d2, h1, h2, h3, h4⟩ := ih d1 (by omega)
    refine ⟨d.words.length, t, d2, by simp [buildPair, h1, g1, Res.bind], g2.trans h2, by omega, ?_⟩
    intro d'' he
    exact ⟨g4 d'' (h2.trans he), h4 d'' he⟩

mutual
theorem buildIndex_ok (rtl : Bool) (L : Lib) : ∀ (o : PyObj) (d : Tape), o.all (Scalar.plain L) → d.chars.length + o.weight L < 2 ^ 56 →
    ∃ t d', buildIndex rtl L o d = .ok (t, d') ∧ Ext d d' ∧ d'.chars.length = d.chars.length + o.weight L ∧
      ∀ d'', Ext d' d'' → fromTrie L d'' t = .ok (o.canon L)
  | .scalar x, d, h, hd => by
    obtain ⟨d', h1, h2, h3, h4⟩ := buildScalar_ok L x h d hd
    refine ⟨.el d.words.length, d', by simp [buildIndex, h1, Res.bind], h2, h3, ?_⟩
    intro d'' he
    obtain ⟨v, g1, g2⟩ := h4 d'' he
    simp [fromTrie, g1, g2, Res.bind, PyObj.canon]
  | .list xs, d, h, hd => by
    obtain ⟨ts, d', h1, h2, h3, h4⟩ := buildItems_ok rtl L xs d h hd
    refine ⟨.arr ts, d', by simp [buildIndex, h1, Res.bind], h2, h3, ?_⟩
    intro d'' he
    simp [fromTrie, h4 d'' he, Res.bind, PyObj.canon]
  | .tuple xs, d, h, hd => by
    obtain ⟨ts, d', h1, h2, h3, h4⟩ := buildItems_ok rtl L xs d h hd
    refine ⟨.arr ts, d', by simp [buildIndex, h1, Res.bind], h2, h3, ?_⟩
    intro d'' he
    simp [fromTrie, h4 d'' he, Res.bind, PyObj.canon]
  | .dict es, d, h, hd => by
    obtain ⟨fs, d', h1, h2, h3, h4⟩ := buildFields_ok rtl L es [] [] d h.1 (by simpa using h.2) (by intro d'' _; rfl) hd
    refine ⟨.obj fs, d', by simp [buildIndex, h1, Res.bind], h2, h3, ?_⟩
    intro d'' he
    have := h4 d'' he
    simp only [List.nil_append] at this
    simp [fromTrie, this, Res.bind, PyObj.canon]
theorem buildItems_ok (rtl : Bool) (L : Lib) : ∀ (xs : List PyObj) (d : Tape), allItems (Scalar.plain L) xs →
    d.chars.length + weightItems L xs < 2 ^ 56 →
    ∃ ts d', buildItems rtl L xs d = .ok (ts, d') ∧ Ext d d' ∧ d'.chars.length = d.chars.length + weightItems L xs ∧
      ∀ d'', Ext d' d'' → fromItems L d'' ts = .ok (canonItems L xs)
  | [], d, _, _ => ⟨[], d, rfl, Ext.refl d, rfl, fun _ _ => rfl⟩
  | x :: xs, d, h, hd => by
    rw [weightItems] at hd
    obtain ⟨t, d1, h1, h2, h3, h4⟩ := buildIndex_ok rtl L x d h.1 (by omega)
    obtain ⟨ts, d2, g1, g2, g3, g4⟩ := buildItems_ok rtl L xs d1 h.2 (by omega)
    refine ⟨t :: ts, d2, by simp [buildItems, h1, g1, Res.bind], h2.trans g2, by rw [weightItems]; omega, ?_⟩
    intro d'' he
    simp [fromItems, h4 d'' (g2.trans he), g4 d'' he, Res.bind, canonItems]
theorem buildFields_ok (rtl : Bool) (L : Lib) : ∀ (es : List (Scalar × PyObj)) (fs : List (Nat × Trie)) (acc : List (Scalar × PyObj)) (d : Tape),
    allFields (Scalar.plain L) es → (acc.map Prod.fst ++ es.map Prod.fst).Nodup →
    (∀ d'', Ext d d'' → fromFields L d'' fs = .ok acc) → d.chars.length + weightFields L es < 2 ^ 56 →
    ∃ fs' d', buildFields rtl L es fs d = .ok (fs', d') ∧ Ext d d' ∧ d'.chars.length = d.chars.length + weightFields L es ∧
      ∀ d'', Ext d' d'' → fromFields L d'' fs' = .ok (acc ++ canonFields L es)
  | [], fs, acc, d, _, _, hfs, _ => ⟨fs, d, rfl, Ext.refl d, rfl, fun d'' he => by simpa [canonFields] using hfs d'' he⟩
  | (k, v) :: es, fs, acc, d, h, hn, hfs, hd => by
    rw [weightFields] at hd
    obtain ⟨⟨hk, s, rfl⟩, hv, hes⟩ := h
    obtain ⟨i, t, d1, h1, h2, h3, h4⟩ := buildPair_ok rtl L s hk v d (by omega)
      (fun d hd => buildIndex_ok rtl L v d hv hd)
    have hnot : Scalar.str s ∉ acc.map Prod.fst := by
      intro hm
      have := (List.nodup_append.mp hn).2.2 _ hm (.str s) (by simp)
      exact this rfl
    have hset : setField d1 fs i t = .ok (fs ++ [(i, t)]) := by
      simp [setField, (h4 d1 (Ext.refl _)).1, hasKey_eq L d1 s fs acc (hfs d1 h2), Res.bind]
      intro x hx
      exact hnot (List.mem_map.mpr ⟨_, hx, rfl⟩)
    have hfs' : ∀ d'', Ext d1 d'' → fromFields L d'' (fs ++ [(i, t)]) = .ok (acc ++ [(.str s, v.canon L)]) := by
      intro d'' he
      apply fromFields_append
      · simp [fromFields, (h4 d'' he).1, (h4 d'' he).2, pyStr_plain L s hk, Res.bind]
      · exact hfs d'' (h2.trans he)
    obtain ⟨fs', d2, g1, g2, g3, g4⟩ := buildFields_ok rtl L es (fs ++ [(i, t)]) (acc ++ [(.str s, v.canon L)]) d1 hes
      (by simpa using hn) hfs' (by omega)
    refine ⟨fs', d2, by simp [buildFields, h1, hset, g1, Res.bind], h2.trans g2, by rw [weightFields]; omega, ?_⟩
    intro d'' he
    rw [g4 d'' he]
    simp [canonFields]
end

end Verif.Py
