import Verif.DocVal.Props
import Verif.Py.Lemmas
/-!
C91: a `dict` given to the Python interface reads back as an equal one.
-/
namespace Verif.Py

open Verif.DocVal Verif.LogVal

/-- The full claim: whatever `dict` of `None`, Booleans, numbers, texts, lists and `dict`s is made a document, and
whichever argument the compiler evaluates first, reading the document gives an equal `dict`. -/
def C91_claim : Prop :=
  ∀ (rtl : Bool) (L : Lib) (es : List (Scalar × PyObj)), (PyObj.dict es).all (Scalar.known L) → weightFields L es < 2 ^ 56 →
    back rtl L es = .ok (.dict (canonFields L es))

/-- Without `None` and integers beyond 64 bits it holds. -/
theorem C91_roundtrip_partial (rtl : Bool) (L : Lib) (es : List (Scalar × PyObj)) (h : (PyObj.dict es).all (Scalar.plain L))
    (hw : weightFields L es < 2 ^ 56) : back rtl L es = .ok (.dict (canonFields L es)) := by
  obtain ⟨fs, d, h1, _, _, h4⟩ := buildFields_ok rtl L es [] [] ⟨[], []⟩ h.1 (by simpa using h.2) (by intro d'' _; rfl) (by simpa using hw)
  have := h4 d (Ext.refl d)
  simp only [List.nil_append] at this
  simp [back, toDocument, h1, fromDocument, fromTrie, this, Res.bind]

/-- Values stored by other means (SQL, C++) are read as well: integers of all widths up to 64 bits, signed or not, floats, texts,
truth values. -/
theorem C91_read (L : Lib) :
    (∀ b, fromValue L (.bool b) = .ok (.bool b)) ∧
    (∀ (t : PhysKey.ITy) (v : Int), t.fits v → fromValue L (.int t v) = .ok (.int v)) ∧
    (∀ b, fromValue L (.float b) = .ok (.float (L.widen b))) ∧ (∀ b, fromValue L (.double b) = .ok (.float b)) ∧
    (∀ s, L.utf8 s = true → fromValue L (.str s) = .ok (.str s)) := by
  refine ⟨fun _ => rfl, ?_, fun _ => rfl, fun _ => rfl, fun s h => by simp [fromValue, pyStr, h]⟩
  intro t v h
  simp only [fromValue]
  by_cases hs : t.signed = true
  · rw [if_pos hs]
    have h64 : PhysKey.ITy.i64.fits v := by
      cases t <;> simp [PhysKey.ITy.fits, PhysKey.ITy.signed, PhysKey.ITy.bits] at h hs ⊢ <;> omega
    have : (V.int t v).getInt .i64 = .ok v := castInt_fits t .i64 v h h64
    rw [this]; rfl
  · rw [if_neg hs]
    have h64 : PhysKey.ITy.u64.fits v := by
      cases t <;> simp [PhysKey.ITy.fits, PhysKey.ITy.signed, PhysKey.ITy.bits] at h hs ⊢ <;> omega
    have : (V.int t v).getInt .u64 = .ok v := castInt_fits t .u64 v h h64
    rw [this]; rfl

example (L : Lib) : fromValue L (.int .u64 (2 ^ 64 - 1)) = .ok (.int (2 ^ 64 - 1)) :=
  (C91_read L).2.1 .u64 _ (by decide +kernel)

/-- The same for the document `insert_one` sends: an `_id` that is given is kept, a missing one is added, everything else
stays as it is. -/
theorem C91_inserted_partial (rtl : Bool) (L : Lib) (id : Bytes) (es : List (Scalar × PyObj))
    (h : (PyObj.dict es).all (Scalar.plain L)) (hid : id.length < 2 ^ 32 ∧ L.utf8 id = true) (hu : L.utf8 idKey = true)
    (hw : weightFields L es + id.length + 13 < 2 ^ 56) :
    (inserted rtl L id es).bind (fromDocument L) = .ok (.dict (canonFields L es ++
      (if Scalar.str idKey ∈ es.map Prod.fst then [] else [(.str idKey, .scalar (.str id))]))) := by
  obtain ⟨fs, d, h1, _, h3, h4⟩ := buildFields_ok rtl L es [] [] ⟨[], []⟩ h.1 (by simpa using h.2) (by intro d'' _; rfl)
    (by simp only [List.length_nil]; omega)
  simp only [List.nil_append] at h4
  simp only [List.length_nil] at h3
  have hkeys : (canonFields L es).map Prod.fst = es.map Prod.fst := by
    clear h h1 h3 h4 hw
    induction es with
    | nil => rfl
    | cons e es ih => obtain ⟨k, v⟩ := e; simp [canonFields, ih]
  have hk := hasKey_eq L d idKey fs _ (h4 d (Ext.refl d))
  rw [hkeys] at hk
  by_cases hm : Scalar.str idKey ∈ es.map Prod.fst
  · rw [if_pos hm, List.append_nil]
    simp only [inserted, toDocument, h1, Res.bind, addId, hk, hm, decide_true, if_true, fromDocument, fromTrie, h4 d (Ext.refl d)]
  · rw [if_neg hm]
    have p1 : (Scalar.str idKey).plain L := ⟨⟨by decide, hu⟩, by simp, by simp⟩
    have p2 : (Scalar.str id).plain L := ⟨hid, by simp, by simp⟩
    have w1 : (Scalar.str idKey).weight L = 8 := rfl
    have w2 : (Scalar.str id).weight L = id.length + 5 := rfl
    obtain ⟨d1, a1, a2, a3, a4⟩ := buildKey_ok L idKey p1 d (by omega)
    obtain ⟨d2, b1, b2, b3, b4⟩ := buildScalar_ok L (.str id) p2 d1 (by omega)
    simp only [buildScalar, buildPrim, scalarV, Res.bind, Res.ok.injEq, Prod.mk.injEq, true_and] at a1 b1
    have hk2 := hasKey_eq L d2 idKey fs _ (h4 d2 (a2.trans b2))
    rw [hkeys] at hk2
    obtain ⟨v, c1, c2⟩ := b4 d2 (Ext.refl d2)
    have hf := fromFields_append L d2 (d.words.length, .el d1.words.length) (.str idKey, .scalar (.str id))
      (by simp [fromFields, a4 d2 b2, pyStr_plain L idKey p1, fromTrie, c1, c2, Res.bind, Scalar.canon]) fs _ (h4 d2 (a2.trans b2))
    simp only [inserted, toDocument, h1, Res.bind, addId, hk, hm, decide_false, if_false, Bool.false_eq_true, a1, b1, setField, a4 d2 b2, hk2,
      fromDocument, fromTrie, hf]

/-- A library: no base64 at all, ASCII, and no 32-bit numbers. -/
def exLib : Lib := ⟨fun b => b, fun s => s.all (· < 128), fun _ => 0, fun _ => []⟩

/-- `{"k": [1, {"x": "y"}], "f": (True,)}` -/
def exDict : List (Scalar × PyObj) :=
  [(.str [107], .list [.scalar (.int 1), .dict [(.str [120], .scalar (.str [121]))]]), (.str [102], .tuple [.scalar (.bool true)])]

example : (PyObj.dict exDict).all (Scalar.plain exLib) ∧ weightFields exLib exDict + 3 + 13 < 2 ^ 56 ∧ ∀ rtl,
    back rtl exLib exDict = .ok (.dict [(.str [107], .list [.scalar (.int 1), .dict [(.str [120], .scalar (.str [121]))]]),
      (.str [102], .list [.scalar (.bool true)])]) := by
  have h : (PyObj.dict exDict).all (Scalar.plain exLib) := by
    simp [exDict, PyObj.all, allFields, allItems, Scalar.plain, Scalar.known, exLib]
  refine ⟨h, by decide, fun rtl => ?_⟩
  exact C91_roundtrip_partial rtl exLib exDict h (by decide)

/-- `None` writes nothing, and its element is whatever is written next.  If the value is evaluated first, `{"k": None}`
reads back as `{"k": "k"}`; if the key is, `{"a": None, "b": 1}` reads back as `{"a": "b", "b": 1}`, and `{"k": None}` reads
beyond the tape. -/
theorem C91_none_fails (L : Lib) (k : Bytes) (hk : k.length < 2 ^ 32) (hu : L.utf8 k = true) :
    ¬ C91_claim ∧
    back true L [(.str k, .scalar .none)] = .ok (.dict [(.str k, .scalar (.str k))]) ∧
    back false L [(.str k, .scalar .none)] = .ub ∧
    back false exLib [(.str [97], .scalar .none), (.str [98], .scalar (.int 1))] =
      .ok (.dict [(.str [97], .scalar (.str [98])), (.str [98], .scalar (.int 1))]) := by
  have p : (Scalar.str k).plain L := ⟨⟨hk, hu⟩, by simp, by simp⟩
  have w : (Scalar.str k).weight L = k.length + 5 := rfl
  obtain ⟨d', a1, a2, a3, a4⟩ := buildKey_ok L k p ⟨[], []⟩ (by simp only [List.length_nil]; omega)
  have hT : back true L [(.str k, .scalar .none)] = .ok (.dict [(.str k, .scalar (.str k))]) := by
    have hr : read d' 0 = .ok (.str k) := by
      have := a4 d' (Ext.refl d')
      simp only [keyText, List.length_nil] at this
      cases hr : read d' 0 with
      | ok v =>
        rw [hr] at this
        cases v <;> simp_all [Res.bind, V.getStr]
      | throws => rw [hr] at this; simp [Res.bind] at this
      | ub => rw [hr] at this; simp [Res.bind] at this
      | diverges => rw [hr] at this; simp [Res.bind] at this
    have hkt := a4 d' (Ext.refl d')
    simp only [List.length_nil] at a1 hkt
    have h0 : buildScalar L ⟨[], []⟩ .none = .ok (0, ⟨[], []⟩) := rfl
    simp [back, toDocument, buildFields, buildPair, buildIndex, h0, a1, Res.bind, setField, hkt, hasKey, fromDocument, fromTrie,
      fromFields, pyStr_plain L k p, hr, fromValue]
  have hF : back false L [(.str k, .scalar .none)] = .ub := by
    have hkt := a4 d' (Ext.refl d')
    simp only [List.length_nil] at a1 hkt
    have h0 : buildScalar L d' .none = .ok (d'.words.length, d') := rfl
    have hr : read d' d'.words.length = .ub := by simp [DocVal.read]
    simp [back, toDocument, buildFields, buildPair, buildIndex, h0, a1, Res.bind, setField, hkt, hasKey, fromDocument, fromTrie,
      fromFields, pyStr_plain L k p, hr]
  refine ⟨?_, hT, hF, by rfl⟩
  intro h
  have := h true L [(.str k, .scalar .none)] (by simp [PyObj.all, allFields, Scalar.known, hu]; omega)
    (by simp [weightFields, PyObj.weight, Scalar.weight]; omega)
  rw [hT] at this
  simp [canonFields, PyObj.canon, Scalar.canon] at this

/-- An integer beyond 64 bits ends the process. -/
theorem C91_int_fails (rtl : Bool) (L : Lib) (v : Int) (hv : v < -2 ^ 63 ∨ 2 ^ 63 ≤ v) (k : Bytes) (hk : k.length < 2 ^ 32)
    (hu : L.utf8 k = true) : ¬ C91_claim ∧ back rtl L [(.str k, .scalar (.int v))] = .ub := by
  have hb : back rtl L [(.str k, .scalar (.int v))] = .ub := by
    have hf : ¬ PhysKey.ITy.i64.fits v := by
      simp only [PhysKey.ITy.fits, PhysKey.ITy.signed, PhysKey.ITy.bits, if_true]
      omega
    have h0 : ∀ d, buildScalar L d (.int v) = .ub := by
      intro d; simp [buildScalar, buildPrim, scalarV, hf, Res.bind]
    have h1 : ∀ d, buildScalar L d (.str k) = .ok (d.words.length, build 0 d (.str k)) := fun d => rfl
    cases rtl <;> simp [back, toDocument, buildFields, buildPair, buildIndex, h0, h1, Res.bind]
  refine ⟨?_, hb⟩
  intro h
  have := h rtl L [(.str k, .scalar (.int v))] (by simp [PyObj.all, allFields, Scalar.known, hu]; omega)
    (by simp [weightFields, PyObj.weight, Scalar.weight]; omega)
  rw [hb] at this
  cases this

end Verif.Py
