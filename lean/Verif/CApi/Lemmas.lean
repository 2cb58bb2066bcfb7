import Verif.CApi.Spec
import Verif.Json.Props
import Verif.Oid.Props
import Verif.DocVal.Props
import Verif.Sql.UpdateLemmas
/-!
What the code does follows what the program may expect.
-/
namespace Verif.CApi

open Verif.DocVal Verif.Num Verif.PhysKey Verif.LogVal

/-- The objects behind what a program holds. -/
def Walk.obj (w : Walk) : CursorObj := ⟨w.space, ⟨w.size, w.docs.getD [], (w.asked : Int) - 1⟩, w.success, w.code, w.what⟩

def View.heap (v : View) : St := ⟨v.spaces, v.curs.map (Option.map Walk.obj), v.docs⟩

def Walk.fine (w : Walk) : Prop := ∀ ds, w.docs = some ds → w.size = ds.length

def View.fine (v : View) : Prop := ∀ w, some w ∈ v.curs → w.fine

theorem heap_space {v : View} {h : Nat} (hs : v.HasSpace h) : v.heap.space h = .ok () := by
  unfold View.HasSpace at hs
  simp only [St.space, View.heap, hs]

theorem heap_cursor {v : View} {h : Nat} {w : Walk} (hc : v.HasCursor h w) : v.heap.cursor h = .ok w.obj := by
  unfold St.cursor
  have : v.heap.curs[h]? = some (some w.obj) := by
    simp only [View.heap, List.getElem?_map, hc.1, Option.map_some]
  rw [this]
  simp only [show w.obj.space = w.space from rfl, heap_space hc.2, Res.bind]

theorem heap_document {v : View} {h : Nat} {d : DocObj} (hc : v.HasDoc h d) : v.heap.document h = .ok d := by
  unfold St.document
  have : v.heap.docs[h]? = some (some d) := hc.1
  rw [this]
  simp only [heap_space hc.2, Res.bind]

theorem heap_tree {v : View} {h : Nat} {n : Json.Node} (hc : v.HasTree h n) : v.heap.tree h = .ok n := by
  obtain ⟨d, h1, h2⟩ := hc
  unfold St.tree
  rw [heap_document h1]
  simp only [Res.bind, h2]

theorem heap_give (v : View) (sp : Nat) (n : Option Json.Node) : v.heap.give sp n = (.handle v.docs.length, (v.plus sp n).heap) := rfl

theorem fine_set {v : View} (hf : v.fine) (h : Nat) (x : Option Walk) (hx : ∀ w, x = some w → w.fine) : ∀ w, some w ∈ v.curs.set h x → w.fine := by
  intro w hw
  rcases List.mem_or_eq_of_mem_set hw with h1 | h1
  · exact hf w h1
  · exact hx w h1.symm

/-! ### texts -/

theorem takeWhile_short (s : Bytes) (h : (0 : UInt8) ∉ s) : s.takeWhile (· != 0) = s := by
  induction s with
  | nil => rfl
  | cons c s ih =>
    simp only [List.mem_cons, not_or] at h
    rw [List.takeWhile_cons, if_pos (by simpa using fun e => h.1 e.symm), ih h.2]

theorem strcpy_short {cap : Nat} {s : Bytes} (h : Short cap s) : strcpy cap s = .ok s := by
  unfold strcpy
  simp only [takeWhile_short s h.1]
  have := h.2
  rw [if_neg (by omega)]

theorem hex_nonzero (s : Bytes) (h : Oid.Hex24 s) : (0 : UInt8) ∉ s := by
  intro h0
  exact h.2 0 h0 (by decide)

theorem docId_ident (n : Json.Node) (h : Json.Fits n [.name idName]) : docId n = .ok (ident n) := by
  unfold docId Update.getAs
  rw [show idPath = Json.pointer [.name idName] from by decide, Json.C29_address n _ h]
  have key : ∀ s : Bytes, Oid.text (Oid.init s) = identText s := by
    intro s
    unfold identText
    obtain ⟨-, h2, h3⟩ := Oid.C60_parse s
    by_cases hs : Oid.Hex24 s
    · rw [if_pos hs, h2 hs]
    · rw [if_neg hs, (h3 hs).1]
      decide
  unfold ident
  cases hr : Json.reach n [.name idName] with
  | none => simp only [Json.answer, Res.bind, textOf, key]
  | some c =>
    cases c with
    | leaf v => cases v <;> simp only [Json.answer, Res.bind, textOf, V.getStr, key]
    | obj fs => simp only [Json.answer, Res.bind, textOf, key]
    | arr xs => simp only [Json.answer, Res.bind, textOf, key]
    | del => simp only [Json.answer, Res.bind, textOf, key]

theorem ident_short (n : Json.Node) : Short 32 (ident n) := by
  have : Oid.Hex24 (ident n) := by
    unfold ident identText
    obtain ⟨h1, h2, -⟩ := Oid.C60_parse (textOf (Json.reach n [.name idName]))
    split
    · next hs =>
      rw [← h2 hs]
      exact (Oid.C60_text _ h1).1
    · decide
  exact ⟨hex_nonzero _ this, by rw [this.1]; omega⟩

/-! ### places -/

theorem findNode_decimal (n : Json.Node) (i : Nat) : Json.findNode n (Json.decimal i) = Json.findNode n (Json.pointer [.index i]) := by
  have e : Json.pointer [.index i] = Json.slash :: Json.decimal i := by
    simp only [Json.pointer, Json.Key.text, List.cons_append, List.append_nil]
  rw [e]
  have hd := Json.decimal_digits i
  have hne := Json.decimal_ne i
  cases hk : Json.decimal i with
  | nil => exact absurd hk hne
  | cons c k =>
    rw [hk] at hd
    have hc := hd c List.mem_cons_self
    have : c ≠ Json.slash := by
      intro e
      rw [e] at hc
      simp [Json.isDigit, Json.slash] at hc
    unfold Json.findNode
    simp only [Json.strip, if_true]
    rw [if_neg this]

theorem find_named {n : Json.Node} {p : Path} {o : Option Json.Node} (h : At n p o) : Json.findNode n p.text = .ok (Json.answer o) := by
  obtain ⟨l, hl, hr⟩ := h
  cases p with
  | key k =>
    obtain ⟨hf, hk⟩ := hl
    rcases hk with hk | ⟨h1, h2, h3, h4⟩
    · rw [show Path.text (.key k) = k from rfl, hk, Json.C29_address n l hf, hr]
    · rw [show Path.text (.key k) = k from rfl, Sql.findNode_name n k ⟨h1, h2, h3⟩, ← h4, Json.C29_address n l hf, hr]
  | index i =>
    obtain ⟨h0, h1, ha, rfl⟩ := hl
    have hw : (wrap .u32 i).toNat = i.toNat := by
      rw [wrap_fits .u32 i]
      unfold ITy.fits
      simp [ITy.signed, ITy.bits]
      omega
    have hf : Json.Fits n [.index i.toNat] := by
      cases n with
      | arr xs => exact ⟨by omega, fun c _ => trivial⟩
      | leaf v => simp [Json.seen, Json.reach, Json.Node.shape] at ha
      | obj fs => simp [Json.seen, Json.reach, Json.Node.shape] at ha
      | del => simp [Json.seen, Json.reach, Json.Node.shape] at ha
    rw [show Path.text (.index i) = Json.decimal (wrap .u32 i).toNat from rfl, hw, findNode_decimal, Json.C29_address n _ hf, hr]

/-! ### values -/

theorem leaf_named {n : Json.Node} {p : Path} {o : Option Json.Node} (h : At n p o) :
    leafAt n p.text = .ok (match o with | some (.leaf v) => some v | _ => none) := by
  unfold leafAt
  rw [find_named h]
  cases o with
  | none => rfl
  | some c => cases c <;> rfl

theorem getInt_sound (t : ITy) (ht : t = .u64 ∨ t = .i64) (o : Option Json.Node) (v : V) (ho : o = some (.leaf v)) (hs : Sound t o) :
    ∀ b i, integer t o = some b → intOf t o = some i → (b = true ∧ V.getInt t v = .ok i) ∨ (b = false ∧ i = 0 ∧ V.getInt t v = .throws) := by
  subst ho
  intro b i hb hi
  cases v with
  | int s x =>
    simp only [integer, intOf, Option.some.injEq] at hb hi
    obtain ⟨h1, h2⟩ := hs
    by_cases hx : t.fits x
    · left
      rw [if_pos hx] at hi
      exact ⟨by rw [← hb]; exact decide_eq_true hx, by rw [← hi]; exact castInt_fits s t x h1 hx⟩
    · right
      rw [if_neg hx] at hi
      refine ⟨by rw [← hb]; exact decide_eq_false hx, hi.symm, ?_⟩
      rcases ht with rfl | rfl
      · by_cases h8 : s = .i8
        · subst h8
          have := h2 rfl rfl
          unfold ITy.fits at hx h1
          simp [ITy.signed, ITy.bits] at hx h1
          omega
        · refine castInt_safe s .u64 x ?_ h1 hx
          unfold safe
          cases s <;> simp [ITy.signed, ITy.bits] at h8 ⊢
      · refine castInt_safe s .i64 x ?_ h1 hx
        unfold safe
        cases s <;> simp [ITy.signed, ITy.bits]
  | big x =>
    simp only [integer, intOf, Option.some.injEq] at hb hi
    by_cases hx : t.fits x
    · left
      rw [if_pos hx] at hi
      refine ⟨by rw [← hb]; exact decide_eq_true hx, ?_⟩
      rw [← hi]
      have hw := wrap_fits t x hx
      unfold ITy.fits at hx
      rcases ht with rfl | rfl
      · simp only [ITy.signed, Bool.false_eq_true, if_false] at hx
        simp only [V.getInt, ITy.signed, Bool.false_eq_true, if_false, if_neg (show ¬ x < 0 by omega), hw]
      · simp only [ITy.signed, if_true] at hx
        simp only [V.getInt, ITy.signed, if_true]
        rw [if_neg (by omega)]
    · right
      rw [if_neg hx] at hi
      refine ⟨by rw [← hb]; exact decide_eq_false hx, hi.symm, ?_⟩
      unfold ITy.fits at hx
      rcases ht with rfl | rfl
      · have := hs rfl
        simp only [ITy.signed, ITy.bits, Bool.false_eq_true, if_false] at hx
        simp only [V.getInt, ITy.signed, Bool.false_eq_true, if_false]
        rw [if_pos (by omega)]
      · simp only [ITy.signed, if_true] at hx
        simp only [V.getInt, ITy.signed, if_true]
        rw [if_pos (by omega)]
  | float b' => simp only [integer] at hb; cases hb
  | double b' => simp only [integer] at hb; cases hb
  | na => simp only [integer, intOf, Option.some.injEq] at hb hi; exact .inr ⟨hb.symm, hi.symm, rfl⟩
  | bool b' => simp only [integer, intOf, Option.some.injEq] at hb hi; exact .inr ⟨hb.symm, hi.symm, rfl⟩
  | str s => simp only [integer, intOf, Option.some.injEq] at hb hi; exact .inr ⟨hb.symm, hi.symm, rfl⟩
  | other c => simp only [integer, intOf, Option.some.injEq] at hb hi; exact .inr ⟨hb.symm, hi.symm, rfl⟩

theorem integer_intOf (t : ITy) (o : Option Json.Node) : (∃ b, integer t o = some b) ↔ ∃ i, intOf t o = some i := by
  cases o with
  | none => simp [integer, intOf]
  | some c =>
    cases c with
    | leaf v => cases v <;> simp [integer, intOf]
    | obj fs => simp [integer, intOf]
    | arr xs => simp [integer, intOf]
    | del => simp [integer, intOf]

theorem isInt_named {n : Json.Node} {p : Path} {o : Option Json.Node} (t : ITy) (ht : t = .u64 ∨ t = .i64) (h : At n p o) (hs : Sound t o)
    {b : Bool} (hb : integer t o = some b) : isAs (V.getInt t) n p.text = .ok b := by
  obtain ⟨i, hi⟩ := (integer_intOf t o).mp ⟨b, hb⟩
  unfold isAs
  rw [leaf_named h]
  cases o with
  | none => simp only [integer, Option.some.injEq] at hb; rw [← hb]; rfl
  | some c =>
    cases c with
    | leaf v =>
      simp only [Res.bind]
      rcases getInt_sound t ht _ v rfl hs b i hb hi with ⟨e1, e2⟩ | ⟨e1, -, e2⟩
      · rw [e2, e1]; rfl
      · rw [e2, e1]; rfl
    | obj fs => simp only [integer, Option.some.injEq] at hb; rw [← hb]; rfl
    | arr xs => simp only [integer, Option.some.injEq] at hb; rw [← hb]; rfl
    | del => simp only [integer, Option.some.injEq] at hb; rw [← hb]; rfl

theorem getInt_named {n : Json.Node} {p : Path} {o : Option Json.Node} (t : ITy) (ht : t = .u64 ∨ t = .i64) (h : At n p o) (hs : Sound t o)
    {i : Int} (hi : intOf t o = some i) : Update.getAs 0 (V.getInt t) n p.text = .ok i := by
  obtain ⟨b, hb⟩ := (integer_intOf t o).mpr ⟨i, hi⟩
  unfold Update.getAs
  rw [find_named h]
  cases o with
  | none => simp only [intOf, Option.some.injEq] at hi; rw [← hi]; rfl
  | some c =>
    cases c with
    | leaf v =>
      simp only [Res.bind, Json.answer]
      rcases getInt_sound t ht _ v rfl hs b i hb hi with ⟨-, e2⟩ | ⟨-, e1, e2⟩
      · rw [e2]
      · rw [e2, e1]
    | obj fs => simp only [intOf, Option.some.injEq] at hi; rw [← hi]; rfl
    | arr xs => simp only [intOf, Option.some.injEq] at hi; rw [← hi]; rfl
    | del => simp only [intOf, Option.some.injEq] at hi; rw [← hi]; rfl

theorem rndNat_small (p n : Nat) (hp : 0 < p) (h : n < 2 ^ p) : rndNat p n = n := by
  unfold rndNat
  have h0 : Nat.log2 n + 1 - p = 0 := by
    by_cases hn : n = 0
    · subst hn
      rw [Nat.log2_eq_log_two]; simp; omega
    · have := (Nat.log2_lt hn).mpr h
      omega
  simp only [h0]
  simp [Nat.mod_one]

theorem ofInt_exact (v : Int) (h : v.natAbs < 2 ^ 53) : ofInt 53 v = .fin (v * one) := by
  unfold ofInt rnd
  rw [rndNat_small 53 _ (by omega) h]
  congr 2
  split <;> omega

theorem getDouble_named {n : Json.Node} {p : Path} {o : Option Json.Node} (h : At n p o) {f : FVal} (hf : doubleOf o = some f) :
    Update.getAs (.fin 0) V.getDouble n p.text = .ok f := by
  unfold Update.getAs
  rw [find_named h]
  cases o with
  | none => simp only [doubleOf, Option.some.injEq] at hf; rw [← hf]; rfl
  | some c =>
    cases c with
    | leaf v =>
      simp only [Res.bind, Json.answer]
      cases v with
      | int s x =>
        simp only [doubleOf] at hf
        split at hf
        · next hx => cases hf; simp only [V.getDouble, ofInt_exact x hx]
        · cases hf
      | big x =>
        simp only [doubleOf] at hf
        split at hf
        · next hx => cases hf; simp only [V.getDouble, ofInt_exact x hx]
        · cases hf
      | float b => cases hf; rfl
      | double b => cases hf; rfl
      | na => cases hf; rfl
      | bool b => cases hf; rfl
      | str s => cases hf; rfl
      | other c => cases hf; rfl
    | obj fs => cases hf; rfl
    | arr xs => cases hf; rfl
    | del => cases hf; rfl

theorem getBool_named {n : Json.Node} {p : Path} {o : Option Json.Node} (h : At n p o) :
    Update.getAs false V.getBool n p.text = .ok (boolOf o) := by
  unfold Update.getAs
  rw [find_named h]
  cases o with
  | none => rfl
  | some c => cases c with
    | leaf v => cases v <;> rfl
    | obj fs => rfl
    | arr xs => rfl
    | del => rfl

theorem getStr_named {n : Json.Node} {p : Path} {o : Option Json.Node} (h : At n p o) :
    Update.getAs [] V.getStr n p.text = .ok (textOf o) := by
  unfold Update.getAs
  rw [find_named h]
  cases o with
  | none => rfl
  | some c => cases c with
    | leaf v => cases v <;> rfl
    | obj fs => rfl
    | arr xs => rfl
    | del => rfl

theorem array_named {n : Json.Node} {p : Path} {o : Option Json.Node} (h : At n p o) : arrayAt n p.text = .ok (arrayOf o) := by
  unfold arrayAt
  rw [find_named h]
  cases o with
  | none => rfl
  | some c => cases c <;> rfl

theorem dict_named {n : Json.Node} {p : Path} {o : Option Json.Node} (h : At n p o) : dictAt n p.text = .ok (dictOf o) := by
  unfold dictAt
  rw [find_named h]
  cases o with
  | none => rfl
  | some c => cases c <;> rfl

theorem isKind_named {n : Json.Node} {p : Path} {o : Option Json.Node} (k : Kind) (h : At n p o) {b : Bool} (hb : holds k o = some b)
    (hu : k = .ulong → Sound .u64 o) (hl : k = .long → Sound .i64 o) : isKind n p.text k = .ok b := by
  cases k with
  | ulong => exact isInt_named .u64 (.inl rfl) h (hu rfl) (by cases o <;> exact hb)
  | long => exact isInt_named .i64 (.inr rfl) h (hl rfl) (by cases o <;> exact hb)
  | exist =>
    unfold isKind Json.exists?
    rw [find_named h]
    cases o <;> · cases hb; rfl
  | array =>
    unfold isKind
    simp only [find_named h]
    cases o with
    | none => cases hb; rfl
    | some c => cases c <;> · cases hb; rfl
  | dict =>
    unfold isKind
    simp only [find_named h]
    cases o with
    | none => cases hb; rfl
    | some c => cases c <;> · cases hb; rfl
  | null =>
    unfold isKind
    simp only [leaf_named h]
    cases o with
    | none => cases hb; rfl
    | some c => cases c with
      | leaf v => cases v <;> · cases hb; rfl
      | obj fs => cases hb; rfl
      | arr xs => cases hb; rfl
      | del => cases hb; rfl
  | bool =>
    unfold isKind isAs
    simp only [leaf_named h]
    cases o with
    | none => cases hb; rfl
    | some c => cases c with
      | leaf v => cases v <;> · cases hb; rfl
      | obj fs => cases hb; rfl
      | arr xs => cases hb; rfl
      | del => cases hb; rfl
  | double =>
    unfold isKind isAs
    simp only [leaf_named h]
    cases o with
    | none => cases hb; rfl
    | some c => cases c with
      | leaf v => cases v <;> · cases hb; rfl
      | obj fs => cases hb; rfl
      | arr xs => cases hb; rfl
      | del => cases hb; rfl
  | string =>
    unfold isKind isAs
    simp only [leaf_named h]
    cases o with
    | none => cases hb; rfl
    | some c => cases c with
      | leaf v => cases v <;> · cases hb; rfl
      | obj fs => cases hb; rfl
      | arr xs => cases hb; rfl
      | del => cases hb; rfl

/-! ### walking -/

theorem flat_join (o : Option (Option Json.Node)) : flat o = o.join := by cases o <;> rfl

theorem obj_getAt {w : Walk} {ds : List (Option Json.Node)} (hd : w.docs = some ds) (hf : w.fine) (i : Nat) :
    w.obj.cur.getAt i = .ok ds[i]? := by
  have hs := hf ds hd
  unfold Cursor.Cur.getAt
  simp only [Walk.obj, hd, Option.getD_some, hs]
  by_cases h : i < ds.length
  · rw [if_pos h, List.getElem?_eq_getElem h]
  · rw [if_neg h, List.getElem?_eq_none (by omega)]

theorem obj_after {w : Walk} (h : w.asked < 2 ^ 31 - 1) : w.obj.cur.after = .ok (w.asked : Int) := by
  unfold Cursor.Cur.after
  have e : ((w.asked : Int) - 1 = 2 ^ 31 - 1) = False := by
    simp only [eq_iff_iff, iff_false]
    omega
  have e2 : ((w.asked : Int) - 1 + 1) = w.asked := by omega
  simp only [Walk.obj, e, if_false, e2]

/-! ### one call -/

theorem step_follows {v v' : View} {c : Call} {r : Ret} (hs : Step v c r v') (hk : Safe v c) (hf : v.fine) :
    step v.heap c = .ok (r, v'.heap) ∧ v'.fine := by
  cases c with
  | create =>
    obtain ⟨rfl, rfl⟩ := hs
    exact ⟨rfl, hf⟩
  | destroy h =>
    obtain ⟨h1, rfl, rfl⟩ := hs
    refine ⟨?_, hf⟩
    simp only [step]
    rw [heap_space h1]; rfl
  | execute h a =>
    obtain ⟨h1, rfl, rfl⟩ := hs
    refine ⟨?_, ?_⟩
    · simp only [step]
      rw [heap_space h1]
      have : (⟨h, a.cur, a.success, a.code, a.what⟩ : CursorObj) = (a.walk h).obj := by cases a <;> rfl
      simp only [Res.bind, View.heap, List.length_map, List.map_append, this, List.map_cons, List.map_nil, Option.map_some]
    · intro w hw
      simp only [List.mem_append, List.mem_singleton] at hw
      rcases hw with hw | hw
      · exact hf w hw
      · cases hw
        intro ds hd
        cases a <;> cases hd <;> rfl
  | releaseCursor h =>
    obtain ⟨w, h1, rfl, rfl⟩ := hs
    refine ⟨?_, fine_set hf h none (fun _ e => by cases e)⟩
    simp only [step]
    rw [heap_cursor h1]
    simp only [Res.bind, View.heap, List.map_set, Option.map_none]
  | size h =>
    obtain ⟨w, h1, rfl, rfl⟩ := hs
    refine ⟨?_, hf⟩
    have hb := hk w h1
    simp only [step]
    rw [heap_cursor h1]
    simp only [Res.bind, Walk.obj]
    rw [wrap_fits .i32]
    unfold ITy.fits
    simp only [ITy.signed, ITy.bits, if_true]
    omega
  | hasNext h =>
    obtain ⟨w, h1, rfl, rfl⟩ := hs
    refine ⟨?_, hf⟩
    simp only [step]
    rw [heap_cursor h1]
    simp only [Res.bind, Cursor.Cur.hasNext, obj_after (hk w h1)]
    rfl
  | next h =>
    obtain ⟨w, ds, h1, h2, rfl, rfl⟩ := hs
    refine ⟨?_, ?_⟩
    · simp only [step]
      rw [heap_cursor h1]
      have hw : w.fine := hf w (List.mem_of_getElem? h1.1)
      simp only [Res.bind, Cursor.Cur.next, obj_after (hk w h1)]
      rw [show ((w.asked : Int)).toNat = w.asked from rfl, obj_getAt h2 hw]
      simp only [flat_join]
      have : ({ w.obj with cur := { w.obj.cur with cur := (w.asked : Int) } } : CursorObj) = ({ w with asked := w.asked + 1 } : Walk).obj := by
        simp [Walk.obj]
      rw [this]
      have e2 : ({ v.heap with curs := v.heap.curs.set h (some ({ w with asked := w.asked + 1 } : Walk).obj) } : St)
          = ({ v with curs := v.curs.set h (some { w with asked := w.asked + 1 }) } : View).heap := by
        simp [View.heap, List.map_set]
      rw [e2]
      rfl
    · refine fine_set hf h _ ?_
      intro w' e
      cases e
      exact hf w (List.mem_of_getElem? h1.1)
  | get h =>
    obtain ⟨w, ds, h1, h2, rfl, rfl⟩ := hs
    refine ⟨?_, hf⟩
    have hw : w.fine := hf w (List.mem_of_getElem? h1.1)
    simp only [step]
    rw [heap_cursor h1]
    simp only [Res.bind, Cursor.Cur.get]
    have : (if w.obj.cur.cur < 0 then 0 else w.obj.cur.cur.toNat) = w.asked - 1 := by
      by_cases ha : w.asked = 0
      · simp [Walk.obj, ha]
      · have e : ((w.asked : Int) - 1 < 0) = False := by
          simp only [eq_iff_iff, iff_false]
          omega
        simp only [Walk.obj, e, if_false]
        omega
    rw [this, obj_getAt h2 hw]
    simp only [flat_join]
    rfl
  | getByIndex h i =>
    obtain ⟨w, ds, h1, h2, rfl, rfl⟩ := hs
    refine ⟨?_, hf⟩
    obtain ⟨ha, hb, hc⟩ := hk
    have hw : w.fine := hf w (List.mem_of_getElem? h1.1)
    have hsz := hc w h1
    have hl := hw ds h2
    simp only [step]
    rw [heap_cursor h1]
    simp only [Res.bind, obj_getAt h2 hw, flat_join]
    have e : ds[(wrap .u64 i).toNat]?.join = if 0 ≤ i then ds[i.toNat]?.join else none := by
      by_cases hi : 0 ≤ i
      · rw [if_pos hi, wrap_fits .u64]
        unfold ITy.fits
        simp only [ITy.signed, ITy.bits, Bool.false_eq_true, if_false]
        omega
      · rw [if_neg hi, List.getElem?_eq_none]
        · rfl
        · unfold wrap
          simp only [ITy.signed, ITy.bits, Bool.false_and, Bool.false_eq_true, if_false]
          omega
    rw [e]
    rfl
  | isSuccess h =>
    obtain ⟨w, h1, rfl, rfl⟩ := hs
    refine ⟨?_, hf⟩
    simp only [step]
    rw [heap_cursor h1]; rfl
  | isError h =>
    obtain ⟨w, h1, rfl, rfl⟩ := hs
    refine ⟨?_, hf⟩
    simp only [step]
    rw [heap_cursor h1]; rfl
  | getError h =>
    obtain ⟨w, h1, rfl, rfl⟩ := hs
    refine ⟨?_, hf⟩
    obtain ⟨ha, hb, hc⟩ := hk w h1
    simp only [step]
    rw [heap_cursor h1]
    simp only [Res.bind, Walk.obj, show sizeofString = 32 from rfl, strcpy_short ha]
    rw [wrap_fits .i32]
    unfold ITy.fits
    simp only [ITy.signed, ITy.bits, if_true]
    omega
  | releaseDocument h =>
    obtain ⟨d, h1, rfl, rfl⟩ := hs
    refine ⟨?_, hf⟩
    simp only [step]
    rw [heap_document h1]; rfl
  | id h =>
    obtain ⟨n, h1, rfl, rfl⟩ := hs
    refine ⟨?_, hf⟩
    simp only [step]
    rw [heap_tree h1]
    simp only [Res.bind, docId_ident n (hk n h1), show sizeofString = 32 from rfl, strcpy_short (ident_short n)]
  | isValid h =>
    obtain ⟨d, h1, rfl, rfl⟩ := hs
    refine ⟨?_, hf⟩
    obtain ⟨n, d', h2, h3⟩ := hk
    have : d' = d := by
      have := h1.1.symm.trans h2.1
      cases this; rfl
    subst this
    simp only [step]
    rw [heap_tree ⟨d', h2, h3⟩, h3]; rfl
  | isArray h =>
    obtain ⟨n, h1, rfl, rfl⟩ := hs
    refine ⟨?_, hf⟩
    simp only [step]
    rw [heap_tree h1]
    cases n <;> rfl
  | isDict h =>
    obtain ⟨n, h1, rfl, rfl⟩ := hs
    refine ⟨?_, hf⟩
    simp only [step]
    rw [heap_tree h1]
    cases n <;> rfl
  | count h =>
    obtain ⟨n, h1, rfl, rfl⟩ := hs
    refine ⟨?_, hf⟩
    have hb := hk n h1
    simp only [step]
    rw [heap_tree h1]
    have : Json.count n [] = .ok (sizeOf n) := by cases n <;> rfl
    simp only [Res.bind, this]
    rw [wrap_fits .i32]
    unfold ITy.fits
    simp only [ITy.signed, ITy.bits, if_true]
    omega
  | is k h p =>
    obtain ⟨n, o, b, h1, h2, h3, rfl, rfl⟩ := hs
    refine ⟨?_, hf⟩
    simp only [step]
    rw [heap_tree h1]
    simp only [Res.bind]
    rw [isKind_named k h2 h3 (fun e => by subst e; exact hk n o h1 h2) (fun e => by subst e; exact hk n o h1 h2)]
  | getBool h p =>
    obtain ⟨n, o, h1, h2, rfl, rfl⟩ := hs
    refine ⟨?_, hf⟩
    simp only [step]
    rw [heap_tree h1]
    simp only [Res.bind, getBool_named h2]
  | getUlong h p =>
    obtain ⟨n, o, i, h1, h2, h3, rfl, rfl⟩ := hs
    refine ⟨?_, hf⟩
    simp only [step]
    rw [heap_tree h1]
    simp only [Res.bind, getInt_named .u64 (.inl rfl) h2 (hk n o h1 h2) h3]
  | getLong h p =>
    obtain ⟨n, o, i, h1, h2, h3, rfl, rfl⟩ := hs
    refine ⟨?_, hf⟩
    simp only [step]
    rw [heap_tree h1]
    simp only [Res.bind, getInt_named .i64 (.inr rfl) h2 (hk n o h1 h2) h3]
  | getDouble h p =>
    obtain ⟨n, o, f, h1, h2, h3, rfl, rfl⟩ := hs
    refine ⟨?_, hf⟩
    simp only [step]
    rw [heap_tree h1]
    simp only [Res.bind, getDouble_named h2 h3]
  | getString h p =>
    obtain ⟨n, o, h1, h2, rfl, rfl⟩ := hs
    refine ⟨?_, hf⟩
    simp only [step]
    rw [heap_tree h1]
    simp only [Res.bind, getStr_named h2, show sizeofPmrString = 40 from rfl, strcpy_short (hk n o h1 h2)]
  | getArray h p =>
    obtain ⟨d, n, o, h1, h2, h3, rfl, rfl⟩ := hs
    refine ⟨?_, hf⟩
    simp only [step]
    rw [heap_document h1, heap_tree ⟨d, h1, h2⟩]
    simp only [Res.bind, array_named h3]
    rfl
  | getDict h p =>
    obtain ⟨d, n, o, h1, h2, h3, rfl, rfl⟩ := hs
    refine ⟨?_, hf⟩
    simp only [step]
    rw [heap_document h1, heap_tree ⟨d, h1, h2⟩]
    simp only [Res.bind, dict_named h3]
    rfl

theorem goes_follows {v : View} {cs : List Call} {rs : List Ret} (hg : Goes Safe v cs rs) : v.fine → run v.heap cs = .ok rs := by
  induction hg with
  | nil v => intro _; rfl
  | cons v v' c r cs rs hs hk _ ih =>
    intro hf
    obtain ⟨h1, h2⟩ := step_follows hs hk hf
    unfold run
    rw [h1]
    simp only [Res.bind, ih h2]

end Verif.CApi
