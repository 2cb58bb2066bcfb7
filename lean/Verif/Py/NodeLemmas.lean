import Verif.Py.Lemmas
import Verif.Py.FindSpec
import Verif.Json.Model
/-!
The document made of a Python object as a tree of `Verif.Json`.
-/
namespace Verif.Py

open Verif.DocVal Verif.LogVal

mutual
/-- The tree a node stands for. -/
def toNode (d : Tape) : Trie → Res Json.Node
  | .el i => (read d i).bind fun v => .ok (.leaf v)
  | .obj fs => (toFields d fs).bind fun es => .ok (.obj es)
  | .arr xs => (toItems d xs).bind fun ys => .ok (.arr ys)
def toItems (d : Tape) : List Trie → Res (List Json.Node)
  | [] => .ok []
  | x :: xs => (toNode d x).bind fun y => (toItems d xs).bind fun ys => .ok (y :: ys)
def toFields (d : Tape) : List (Nat × Trie) → Res (List (Bytes × Json.Node))
  | [] => .ok []
  | (k, t) :: fs => (keyText d k).bind fun s => (toNode d t).bind fun v => (toFields d fs).bind fun es => .ok ((s, v) :: es)
end

mutual
/-- The tree a Python object should become. -/
def PyObj.node (L : Lib) : PyObj → Json.Node
  | .scalar x => .leaf ((x.value L).getD .na)
  | .list xs => .arr (nodeItems L xs)
  | .tuple xs => .arr (nodeItems L xs)
  | .dict es => .obj (nodeFields L es)
def nodeItems (L : Lib) : List PyObj → List Json.Node
  | [] => []
  | x :: xs => x.node L :: nodeItems L xs
def nodeFields (L : Lib) : List (Scalar × PyObj) → List (Bytes × Json.Node)
  | [] => []
  | (.str s, v) :: es => (s, v.node L) :: nodeFields L es
  | _ :: es => nodeFields L es
end

theorem bind_ok_inv {α β : Type} {r : Res α} {f : α → Res β} {b : β} (h : r.bind f = .ok b) : ∃ a, r = .ok a ∧ f a = .ok b := by
  cases r with
  | ok a => exact ⟨a, rfl, h⟩
  | throws => cases h
  | ub => cases h
  | diverges => cases h

theorem hasKey_node (d : Tape) (s : Bytes) : ∀ (fs : List (Nat × Trie)) (es : List (Bytes × Json.Node)),
    toFields d fs = .ok es → hasKey d s fs = .ok (decide (s ∈ es.map Prod.fst))
  | [], es, h => by
    simp only [toFields, Res.ok.injEq] at h
    subst h
    simp [hasKey]
  | (k, t) :: fs, es, h => by
    simp only [toFields] at h
    obtain ⟨a, h1, h⟩ := bind_ok_inv h
    obtain ⟨n, h2, h⟩ := bind_ok_inv h
    obtain ⟨es', h3, h⟩ := bind_ok_inv h
    cases h
    simp only [hasKey, h1, Res.bind]
    by_cases ha : a = s
    · simp [ha]
    · rw [if_neg ha, hasKey_node d s fs es' h3]
      have : ¬ s = a := fun e => ha e.symm
      simp [this]

theorem toFields_append (d : Tape) (b : Nat × Trie) (e : Bytes × Json.Node) (hb : toFields d [b] = .ok [e]) :
    ∀ (fs : List (Nat × Trie)) (es : List (Bytes × Json.Node)), toFields d fs = .ok es → toFields d (fs ++ [b]) = .ok (es ++ [e])
  | [], es, h => by
    simp only [toFields, Res.ok.injEq] at h
    subst h
    exact hb
  | (k, t) :: fs, es, h => by
    simp only [toFields] at h
    obtain ⟨a, h1, h⟩ := bind_ok_inv h
    obtain ⟨n, h2, h⟩ := bind_ok_inv h
    obtain ⟨es', h3, h⟩ := bind_ok_inv h
    cases h
    simp only [List.cons_append, toFields, h1, h2, toFields_append d b e hb fs es' h3, Res.bind]

theorem scalar_node (L : Lib) (x : Scalar) (h : x.plain L) (d : Tape) (hd : d.chars.length + x.weight L < 2 ^ 56) :
    ∃ d', buildScalar L d x = .ok (d.words.length, d') ∧ Ext d d' ∧ d'.chars.length = d.chars.length + x.weight L ∧
      ∀ d'', Ext d' d'' → ∃ v, x.value L = some v ∧ read d'' d.words.length = .ok v := by
  obtain ⟨v, h1, h2, h3, _, h5⟩ := scalar_value L x h d hd
  refine ⟨build 0 d v, by simp [buildScalar, buildPrim, h1, Res.bind], ext_build d v, h5, ?_⟩
  intro d'' he
  refine ⟨v, ?_, read_ext h2 h3 he⟩
  cases x with
  | int i =>
    simp only [scalarV] at h1
    split at h1
    · cases h1; rfl
    · cases h1
  | none => cases h1
  | badStr => cases h1
  | bool b => cases h1; rfl
  | float b => cases h1; rfl
  | bytes b => cases h1; rfl
  | str b => cases h1; rfl

theorem pair_node (rtl : Bool) (L : Lib) (s : Bytes) (h : (Scalar.str s).plain L) (o : PyObj) (d : Tape)
    (hd : d.chars.length + ((Scalar.str s).weight L + o.weight L) < 2 ^ 56)
    (ih : ∀ d : Tape, d.chars.length + o.weight L < 2 ^ 56 → ∃ t d', buildIndex rtl L o d = .ok (t, d') ∧ Ext d d' ∧
      d'.chars.length = d.chars.length + o.weight L ∧ ∀ d'', Ext d' d'' → toNode d'' t = .ok (o.node L)) :
    ∃ k t d', buildPair rtl L d (.str s) (buildIndex rtl L o) = .ok (k, t, d') ∧ Ext d d' ∧
      d'.chars.length = d.chars.length + ((Scalar.str s).weight L + o.weight L) ∧
      ∀ d'', Ext d' d'' → keyText d'' k = .ok s ∧ toNode d'' t = .ok (o.node L) := by
  cases rtl with
  | true =>
    obtain ⟨t, d1, h1, h2, h3, h4⟩ := ih d (by omega)
    obtain ⟨d2, g1, g2, g3, g4⟩ := buildKey_ok L s h d1 (by omega)
    refine ⟨d1.words.length, t, d2, by simp [buildPair, h1, g1, Res.bind], h2.trans g2, by omega, ?_⟩
    intro d'' he
    exact ⟨g4 d'' he, h4 d'' (g2.trans he)⟩
  | false =>
    obtain ⟨d1, g1, g2, g3, g4⟩ := buildKey_ok L s h d (by omega)
    obtain ⟨t, d2, h1, h2, h3, h4⟩ := ih d1 (by omega)
    refine ⟨d.words.length, t, d2, by simp [buildPair, h1, g1, Res.bind], g2.trans h2, by omega, ?_⟩
    intro d'' he
    exact ⟨g4 d'' (h2.trans he), h4 d'' he⟩

mutual
theorem index_node (rtl : Bool) (L : Lib) : ∀ (o : PyObj) (d : Tape), o.all (Scalar.plain L) → d.chars.length + o.weight L < 2 ^ 56 →
    ∃ t d', buildIndex rtl L o d = .ok (t, d') ∧ Ext d d' ∧ d'.chars.length = d.chars.length + o.weight L ∧
      ∀ d'', Ext d' d'' → toNode d'' t = .ok (o.node L)
  | .scalar x, d, h, hd => by
    obtain ⟨d', h1, h2, h3, h4⟩ := scalar_node L x h d hd
    refine ⟨.el d.words.length, d', by simp [buildIndex, h1, Res.bind], h2, h3, ?_⟩
    intro d'' he
    obtain ⟨v, g1, g2⟩ := h4 d'' he
    simp [toNode, g1, g2, Res.bind, PyObj.node]
  | .list xs, d, h, hd => by
    obtain ⟨ts, d', h1, h2, h3, h4⟩ := items_node rtl L xs d h hd
    refine ⟨.arr ts, d', by simp [buildIndex, h1, Res.bind], h2, h3, ?_⟩
    intro d'' he
    simp [toNode, h4 d'' he, Res.bind, PyObj.node]
  | .tuple xs, d, h, hd => by
    obtain ⟨ts, d', h1, h2, h3, h4⟩ := items_node rtl L xs d h hd
    refine ⟨.arr ts, d', by simp [buildIndex, h1, Res.bind], h2, h3, ?_⟩
    intro d'' he
    simp [toNode, h4 d'' he, Res.bind, PyObj.node]
  | .dict es, d, h, hd => by
    obtain ⟨fs, d', h1, h2, h3, h4⟩ := fields_node rtl L es [] [] d h.1 (by simpa using h.2) (by simp) (by intro d'' _; rfl) hd
    refine ⟨.obj fs, d', by simp [buildIndex, h1, Res.bind], h2, h3, ?_⟩
    intro d'' he
    have := h4 d'' he
    simp only [List.nil_append] at this
    simp [toNode, this, Res.bind, PyObj.node]
theorem items_node (rtl : Bool) (L : Lib) : ∀ (xs : List PyObj) (d : Tape), allItems (Scalar.plain L) xs →
    d.chars.length + weightItems L xs < 2 ^ 56 →
    ∃ ts d', buildItems rtl L xs d = .ok (ts, d') ∧ Ext d d' ∧ d'.chars.length = d.chars.length + weightItems L xs ∧
      ∀ d'', Ext d' d'' → toItems d'' ts = .ok (nodeItems L xs)
  | [], d, _, _ => ⟨[], d, rfl, Ext.refl d, rfl, fun _ _ => rfl⟩
  | x :: xs, d, h, hd => by
    rw [weightItems] at hd
    obtain ⟨t, d1, h1, h2, h3, h4⟩ := index_node rtl L x d h.1 (by omega)
    obtain ⟨ts, d2, g1, g2, g3, g4⟩ := items_node rtl L xs d1 h.2 (by omega)
    refine ⟨t :: ts, d2, by simp [buildItems, h1, g1, Res.bind], h2.trans g2, by rw [weightItems]; omega, ?_⟩
    intro d'' he
    simp [toItems, h4 d'' (g2.trans he), g4 d'' he, Res.bind, nodeItems]
theorem fields_node (rtl : Bool) (L : Lib) : ∀ (es : List (Scalar × PyObj)) (fs : List (Nat × Trie)) (acc : List (Bytes × Json.Node)) (d : Tape),
    allFields (Scalar.plain L) es → (es.map Prod.fst).Nodup → (∀ s ∈ acc.map Prod.fst, Scalar.str s ∉ es.map Prod.fst) →
    (∀ d'', Ext d d'' → toFields d'' fs = .ok acc) → d.chars.length + weightFields L es < 2 ^ 56 →
    ∃ fs' d', buildFields rtl L es fs d = .ok (fs', d') ∧ Ext d d' ∧ d'.chars.length = d.chars.length + weightFields L es ∧
      ∀ d'', Ext d' d'' → toFields d'' fs' = .ok (acc ++ nodeFields L es)
  | [], fs, acc, d, _, _, _, hfs, _ => ⟨fs, d, rfl, Ext.refl d, rfl, fun d'' he => by simpa [nodeFields] using hfs d'' he⟩
  | (k, v) :: es, fs, acc, d, h, hn, ha, hfs, hd => by
    rw [weightFields] at hd
    obtain ⟨⟨hk, s, rfl⟩, hv, hes⟩ := h
    obtain ⟨i, t, d1, h1, h2, h3, h4⟩ := pair_node rtl L s hk v d (by omega)
      (fun d hd => index_node rtl L v d hv hd)
    have hnot : s ∉ acc.map Prod.fst := by
      intro hm
      exact ha s hm (by simp)
    simp only [List.map_cons, List.nodup_cons] at hn
    have hset : setField d1 fs i t = .ok (fs ++ [(i, t)]) := by
      rw [setField, (h4 d1 (Ext.refl _)).1]
      simp only [Res.bind]
      rw [hasKey_node d1 s fs acc (hfs d1 h2)]
      simp only [hnot, decide_false, Bool.false_eq_true, if_false]
    have hfs' : ∀ d'', Ext d1 d'' → toFields d'' (fs ++ [(i, t)]) = .ok (acc ++ [(s, v.node L)]) := by
      intro d'' he
      apply toFields_append
      · simp [toFields, (h4 d'' he).1, (h4 d'' he).2, Res.bind]
      · exact hfs d'' (h2.trans he)
    obtain ⟨fs', d2, g1, g2, g3, g4⟩ := fields_node rtl L es (fs ++ [(i, t)]) (acc ++ [(s, v.node L)]) d1 hes hn.2
      (by
        intro s' hs'
        simp only [List.map_append, List.mem_append, List.map_cons, List.map_nil, List.mem_singleton] at hs'
        rcases hs' with hs' | rfl
        · intro hm; exact ha s' hs' (by simp [hm])
        · exact hn.1) hfs' (by omega)
    refine ⟨fs', d2, by simp [buildFields, h1, hset, g1, Res.bind], h2.trans g2, by rw [weightFields]; omega, ?_⟩
    intro d'' he
    rw [g4 d'' he]
    simp [nodeFields]
end

/-- The document made of a `dict` is its tree. -/
theorem document_node (rtl : Bool) (L : Lib) (es : List (Scalar × PyObj)) (h : (PyObj.dict es).all (Scalar.plain L))
    (hw : weightFields L es < 2 ^ 56) : ∃ fs d, toDocument rtl L es = .ok (fs, d) ∧ toFields d fs = .ok (nodeFields L es) := by
  obtain ⟨fs, d, h1, _, _, h4⟩ := fields_node rtl L es [] [] ⟨[], []⟩ h.1 h.2 (by simp) (by intro d'' _; rfl) (by simpa using hw)
  exact ⟨fs, d, h1, by simpa using h4 d (Ext.refl d)⟩

end Verif.Py
