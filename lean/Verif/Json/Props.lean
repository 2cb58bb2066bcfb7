import Verif.Json.Lemmas
/-!
C29: keys and paths.  C30: reading, writing and removing by paths.
-/
namespace Verif.Json

open Verif.DocVal

/-! ### C29 -/

/-- A name written with `~0` and `~1` is read back as that name. -/
theorem C29_escape (k : Bytes) : unescape (escape k) = some k := unescape_escape k

/-- A piece of a path is the text of exactly one name, or is rejected. -/
theorem C29_reject (p : Bytes) (h : slash ∉ p) :
    (∀ k, unescape p = some k ↔ p = escape k) ∧ (unescape p = none ↔ ∀ k, p ≠ escape k) := by
  have h1 : ∀ k, unescape p = some k ↔ p = escape k :=
    fun k => ⟨unescape_inv p k h, fun e => by rw [e]; exact unescape_escape k⟩
  refine ⟨h1, ?_⟩
  constructor
  · intro hn k e
    rw [(h1 k).mpr e] at hn; cases hn
  · intro hk
    cases e : unescape p with
    | none => rfl
    | some k => exact absurd ((h1 k).mp e) (hk k)

/-- The pieces of a path built from names and indices are the texts of these. -/
theorem C29_split (l : Loc) (h : l ≠ []) : split (strip (pointer l)) = l.map Key.text := by
  cases l with
  | nil => exact absurd rfl h
  | cons k l => exact split_pointer l k

/-- Paths built from different lists of names are different. -/
theorem C29_distinct (l m : List Bytes) (h : pointer (l.map Key.name) = pointer (m.map Key.name)) : l = m := by
  have inj : ∀ a b : List Bytes, a.map escape = b.map escape → a = b := by
    intro a b hab
    exact List.map_injective_iff.mpr (fun x y hxy => by
      have := unescape_escape x
      rw [hxy, unescape_escape y] at this
      exact (Option.some.inj this).symm) hab
  have tx : ∀ a : List Bytes, (a.map Key.name).map Key.text = a.map escape := by
    intro a; rw [List.map_map]; rfl
  cases l with
  | nil =>
    cases m with
    | nil => rfl
    | cons b m => simp [pointer] at h
  | cons a l =>
    cases m with
    | nil => simp [pointer] at h
    | cons b m =>
      have h1 := split_pointer (l.map Key.name) (.name a)
      have h2 := split_pointer (m.map Key.name) (.name b)
      have e1 : pointer (Key.name a :: l.map Key.name) = pointer ((a :: l).map Key.name) := rfl
      have e2 : pointer (Key.name b :: m.map Key.name) = pointer ((b :: m).map Key.name) := rfl
      rw [e1, h, ← e2, h2] at h1
      exact inj _ _ (by rw [← tx, ← tx]; exact h1.symm)

/-- A path addresses exactly the place it is built from. -/
theorem C29_address (n : Node) (l : Loc) (h : Fits n l) : findNode n (pointer l) = .ok (answer (reach n l)) := by
  cases l with
  | nil => rfl
  | cons k l =>
    have hne : ∃ c r, pointer (k :: l) = c :: r := ⟨slash, k.text ++ pointer l, rfl⟩
    obtain ⟨c, r, e⟩ := hne
    have : findNode n (pointer (k :: l)) = find n (split (strip (pointer (k :: l)))) := by rw [e]; rfl
    rw [this, split_pointer]
    exact find_fits (k :: l) n h

theorem reach_snoc (l : Loc) (k : Key) : ∀ n, reach n (l ++ [k]) = (reach n l).bind fun c => reach c [k] := by
  induction l with
  | nil => intro n; rfl
  | cons x l ih =>
    intro n
    cases x with
    | name a =>
      cases n with
      | obj fs =>
        show (lookN fs a).bind _ = ((lookN fs a).bind _).bind _
        cases lookN fs a with
        | none => rfl
        | some c => exact ih c
      | arr xs => rfl
      | leaf v => rfl
      | del => rfl
    | index i =>
      cases n with
      | arr xs =>
        show xs[i]?.bind _ = (xs[i]?.bind _).bind _
        cases xs[i]? with
        | none => rfl
        | some c => exact ih c
      | obj fs => rfl
      | leaf v => rfl
      | del => rfl

theorem reach_tree (l : Loc) : ∀ n c, Tree n → reach n l = some c → Tree c := by
  have look_mem : ∀ (fs : List (Bytes × Node)) a c, lookN fs a = some c → (a, c) ∈ fs := by
    intro fs
    induction fs with
    | nil => intro a c h; cases h
    | cons p fs ih =>
      intro a c h
      obtain ⟨b, d⟩ := p
      unfold lookN at h
      split at h
      · rename_i e; cases h; subst e; exact List.mem_cons_self
      · exact List.mem_cons_of_mem _ (ih a c h)
  induction l with
  | nil => intro n c ht h; cases h; exact ht
  | cons x l ih =>
    intro n c ht h
    cases x with
    | name a =>
      cases ht with
      | obj fs hn hs =>
        have h : (lookN fs a).bind (fun c => reach c l) = some c := h
        cases e : lookN fs a with
        | none => rw [e] at h; cases h
        | some d => rw [e] at h; exact ih d c (hs _ (look_mem _ _ _ e)) h
      | arr xs _ => cases h
      | leaf v => cases h
      | del => cases h
    | index i =>
      cases ht with
      | arr xs hs =>
        have h : xs[i]?.bind (fun c => reach c l) = some c := h
        cases e : xs[i]? with
        | none => rw [e] at h; cases h
        | some d => rw [e] at h; exact ih d c (hs _ (List.mem_of_getElem? e)) h
      | obj fs _ _ => cases h
      | leaf v => cases h
      | del => cases h

theorem lookN_some (fs : List (Bytes × Node)) (a : Bytes) : (lookN fs a).isSome = true ↔ a ∈ fs.map Prod.fst := by
  induction fs with
  | nil => simp [lookN]
  | cons p fs ih =>
    obtain ⟨b, d⟩ := p
    unfold lookN
    by_cases e : b = a
    · rw [if_pos e]; simp [e]
    · rw [if_neg e, ih]; simp [Ne.symm e]

/-- The count of a place is the number of steps that can be made from it. -/
theorem C29_count (n : Node) (l : Loc) (h : Fits n l) (ht : Tree n) :
    ∃ k, count n (pointer l) = .ok k ∧ ∃ keys : List Key, keys.Nodup ∧ keys.length = k ∧ ∀ key, key ∈ keys ↔ (reach n (l ++ [key])).isSome = true := by
  unfold count
  rw [C29_address n l h]
  simp only [Res.bind, reach_snoc]
  cases hr : reach n l with
  | none => exact ⟨0, rfl, [], List.nodup_nil, rfl, by simp⟩
  | some c =>
    have hc := reach_tree l n c ht hr
    cases hc with
    | leaf v => exact ⟨0, rfl, [], List.nodup_nil, rfl, by intro key; cases key <;> simp [reach]⟩
    | del => exact ⟨0, rfl, [], List.nodup_nil, rfl, by intro key; cases key <;> simp [reach]⟩
    | arr xs hs =>
      refine ⟨xs.length, rfl, (List.range xs.length).map Key.index, ?_, by simp, ?_⟩
      · exact List.nodup_range.map (fun a b e => by cases e; rfl)
      · intro key
        cases key with
        | name a => simp [reach]
        | index i =>
          show _ ↔ (xs[i]?.bind fun c => some c).isSome = true
          cases e : xs[i]? with
          | none => simpa using e
          | some c => simpa using (List.getElem?_eq_some_iff.mp e).1
    | obj fs hn hs =>
      refine ⟨fs.length, rfl, (fs.map Prod.fst).map Key.name, ?_, by simp, ?_⟩
      · exact hn.map (fun a b e => by cases e; rfl)
      · intro key
        cases key with
        | index i => simp [reach]
        | name a =>
          show _ ↔ ((lookN fs a).bind fun c => some c).isSome = true
          have : ((lookN fs a).bind fun c => some c).isSome = (lookN fs a).isSome := by cases lookN fs a <;> rfl
          rw [this, lookN_some]
          simp

/-- `C29_count` applies: two fields, and an array of three below one of them. -/
example : count (.obj [([97], .leaf .na), ([98], .arr [.leaf .na, .leaf .na, .leaf .na])]) (pointer []) = .ok 2 ∧
    count (.obj [([97], .leaf .na), ([98], .arr [.leaf .na, .leaf .na, .leaf .na])]) (pointer [.name [98]]) = .ok 3 := by decide +kernel

/-- A malformed piece met at an object is reported. -/
theorem C29_malformed (fs : List (Bytes × Node)) (p : Bytes) (ps : List Bytes) (h : unescape p = none) :
    find (.obj fs) (p :: ps) = .ok .badPointer := by
  unfold find
  simp only [h]

def exA : Bytes := [97, 47, 126]
def exDoc : Node := .obj [(exA, .obj [([98], .leaf (.int .i64 1))]), ([99], .arr [.leaf (.int .i64 2), .leaf (.str [100])])]

/-- The hypotheses are met: the name `a/~`, an index, a malformed piece. -/
example : pointer [.name exA, .name [98]] = [47, 97, 126, 49, 126, 48, 47, 98] ∧
    Fits exDoc [.name exA, .name [98]] ∧ findNode exDoc (pointer [.name exA, .name [98]]) = .ok (.node (.leaf (.int .i64 1))) ∧
    Fits exDoc [.name [99], .index 1] ∧ findNode exDoc (pointer [.name [99], .index 1]) = .ok (.node (.leaf (.str [100]))) ∧
    unescape [97, 126] = none ∧ findNode exDoc [97, 126] = .ok .badPointer := by
  have f1 : Fits exDoc [.name exA, .name [98]] := by
    intro c hc
    cases hc
    intro c hc
    trivial
  have f2 : Fits exDoc [.name [99], .index 1] := by
    intro c hc
    cases hc
    refine ⟨by omega, ?_⟩
    intro c hc
    trivial
  refine ⟨by decide, f1, ?_, f2, ?_, by decide, rfl⟩
  · rw [C29_address exDoc _ f1]; rfl
  · rw [C29_address exDoc _ f2]; rfl

/-! ### C30: the place of a path -/

/-- The index of a path is one the array can have: at most its length, which has 32 bits. -/
def InRange (n : Node) (l0 : Loc) (k : Key) : Prop :=
  match k, reach n l0 with
  | .index i, some (.arr xs) => i ≤ xs.length ∧ xs.length < 2 ^ 32
  | _, _ => True

theorem findKey_pieces (n : Node) (ptr : Bytes) (h : ptr ≠ []) : ∃ init last cp, split (strip ptr) = init ++ [last] ∧
    (∀ m, findNode m cp = find m init) ∧ (∀ f m, modifyPtr f m cp = modify f m init) ∧
    findKey n ptr = (find n init).bind fun
      | .badPointer => .ok (.error .badPointer)
      | .noElement => .ok (.error .noContainer)
      | .node c => keyIn cp last c := by
  obtain ⟨init, last, ch, h1, h2, h3, h4, h5⟩ := place_pieces ptr h
  refine ⟨init, last, ptr.take ((lastSlash ptr).getD 0), h1, h4, h5, ?_⟩
  unfold findKey
  simp only
  rw [h4]
  congr 1
  funext r
  cases r with
  | badPointer => rfl
  | noElement => rfl
  | node c =>
    simp only
    rw [h2]
    simp only
    rw [h3]

theorem keyIn_key (cp last : Bytes) (c : Node) (cp' : Bytes) (key : Key) (h : keyIn cp last c = .ok (.at cp' key)) : cp' = cp ∧ KeyFor key c := by
  cases c with
  | leaf v => cases h
  | del => cases h
  | obj fs =>
    unfold keyIn at h
    simp only at h
    cases e : unescape last with
    | none => rw [e] at h; cases h
    | some k => rw [e] at h; cases h; exact ⟨rfl, trivial⟩
  | arr xs =>
    unfold keyIn at h
    simp only at h
    cases e : atol last with
    | ok i =>
      rw [e] at h
      simp only [Res.bind] at h
      by_cases hi : i < 0
      · rw [if_pos hi] at h; cases h
      · rw [if_neg hi] at h
        cases h
        refine ⟨rfl, ?_⟩
        show min _ _ ≤ xs.length
        exact Nat.le_trans (Nat.min_le_right _ _) (Nat.mod_le _ _)
    | throws => rw [e] at h; cases h
    | ub => rw [e] at h; cases h
    | diverges => rw [e] at h; cases h

theorem fits_append (l0 : Loc) (k : Key) : ∀ n, Fits n (l0 ++ [k]) → Fits n l0 ∧ ∀ c, reach n l0 = some c → Fits c [k] := by
  induction l0 with
  | nil => intro n h; exact ⟨trivial, fun c hc => by cases hc; exact h⟩
  | cons x l0 ih =>
    intro n h
    cases x with
    | name a =>
      cases n with
      | obj fs =>
        refine ⟨fun c hc => (ih c (h c hc)).1, ?_⟩
        intro c hc
        simp only [reach] at hc
        cases e : lookN fs a with
        | none => rw [e] at hc; cases hc
        | some d => rw [e] at hc; exact (ih d (h d e)).2 c hc
      | arr xs => exact absurd h id
      | leaf v => exact ⟨trivial, fun c hc => by cases hc⟩
      | del => exact ⟨trivial, fun c hc => by cases hc⟩
    | index i =>
      cases n with
      | arr xs =>
        refine ⟨⟨h.1, fun c hc => (ih c (h.2 c hc)).1⟩, ?_⟩
        intro c hc
        simp only [reach] at hc
        cases e : xs[i]? with
        | none => rw [e] at hc; cases hc
        | some d => rw [e] at hc; exact (ih d (h.2 d e)).2 c hc
      | obj fs => exact absurd h id
      | leaf v => exact ⟨trivial, fun c hc => by cases hc⟩
      | del => exact ⟨trivial, fun c hc => by cases hc⟩

theorem pieces_of_pointer (l0 : Loc) (k : Key) (init : List Bytes) (last : Bytes) (h : split (strip (pointer (l0 ++ [k]))) = init ++ [last]) :
    init = l0.map Key.text ∧ last = k.text := by
  rw [C29_split _ (by simp), List.map_append] at h
  obtain ⟨h1, h2⟩ := List.append_inj' h rfl
  exact ⟨h1.symm, by simpa using h2.symm⟩

theorem pointer_append_ne (l0 : Loc) (k : Key) : pointer (l0 ++ [k]) ≠ [] := by
  cases l0 with
  | nil => exact pointer_ne _ _
  | cons x l => exact pointer_ne _ _

/-- The place of a path built from steps. -/
theorem keyIn_fits (cp : Bytes) (k : Key) (c : Node) (hf : Fits c [k]) (hr : ∀ i xs, k = .index i → c = .arr xs → i ≤ xs.length ∧ xs.length < 2 ^ 32)
    (key : Key) (cp' : Bytes) (h : keyIn cp k.text c = .ok (.at cp' key)) : key = k := by
  cases c with
  | leaf v => cases h
  | del => cases h
  | obj fs =>
    cases k with
    | index i => exact absurd hf id
    | name a =>
      unfold keyIn at h
      simp only [Key.text] at h
      rw [unescape_escape] at h
      cases h; rfl
  | arr xs =>
    cases k with
    | name a => exact absurd hf id
    | index i =>
      obtain ⟨r1, r2⟩ := hr i xs rfl rfl
      unfold keyIn at h
      simp only [Key.text] at h
      rw [atol_decimal i hf.1] at h
      simp only [Res.bind] at h
      rw [if_neg (by omega)] at h
      cases h
      simp only [Int.toNat_natCast]
      rw [Nat.mod_eq_of_lt (by omega : i < 2 ^ 32), Nat.mod_eq_of_lt r2, Nat.min_eq_left r1]

/-- A path accepted for writing names a key in a container. -/
theorem findKey_place (n : Node) (ptr cp : Bytes) (key : Key) (h : findKey n ptr = .ok (.at cp key)) :
    ∃ (t : Loc) (c : Node), reach n t = some c ∧ KeyFor key c ∧ findNode n cp = .ok (.node c) ∧
      (∀ f l, seen (modifyPtr f n cp) l = withAt n t (f c) l) ∧
      ∀ l0 k, Fits n (l0 ++ [k]) → InRange n l0 k → pointer (l0 ++ [k]) = ptr → t ++ [key] = l0 ++ [k] := by
  have hne : ptr ≠ [] := by
    rintro rfl
    cases h
  obtain ⟨init, last, cp0, h1, h2, h3, h4⟩ := findKey_pieces n ptr hne
  rw [h4] at h
  cases hfind : find n init with
  | ok r =>
    rw [hfind] at h
    cases r with
    | badPointer => cases h
    | noElement => cases h
    | node c =>
      simp only [Res.bind] at h
      obtain ⟨rfl, hk⟩ := keyIn_key cp0 last c cp key h
      obtain ⟨t, t1, t2, t3⟩ := find_place init n c hfind
      refine ⟨t, c, t1, hk, by rw [h2]; exact hfind, fun f l => by rw [h3]; exact t2 f l, ?_⟩
      intro l0 k hf hr hp
      subst hp
      obtain ⟨e1, e2⟩ := pieces_of_pointer l0 k init last h1
      obtain ⟨f1, f2⟩ := fits_append l0 k n hf
      have et := t3 l0 f1 e1.symm
      subst et
      congr 1
      rw [e2] at h
      have := keyIn_fits cp k c (f2 c t1) (by
        rintro i xs rfl rfl
        unfold InRange at hr
        rw [t1] at hr
        exact hr) key cp h
      rw [this]
  | throws => rw [hfind] at h; cases h
  | ub => rw [hfind] at h; cases h
  | diverges => rw [hfind] at h; cases h

/-- C30: an accepted write changes exactly one place: there the new value is seen, everywhere else what was there.  For a
path built from steps it is the place the steps lead to. -/
theorem C30_set (n : Node) (ptr : Bytes) (v n' : Node) (h : setAt n ptr v = .ok (n', none)) :
    ∃ t : Loc, t ≠ [] ∧ (∀ l, seen n' l = withAt n t v l) ∧
      ∀ l0 k, Fits n (l0 ++ [k]) → InRange n l0 k → pointer (l0 ++ [k]) = ptr → t = l0 ++ [k] := by
  unfold setAt at h
  cases hk : findKey n ptr with
  | ok p =>
    rw [hk] at h
    cases p with
    | error e => cases h
    | «at» cp key =>
      simp only [Res.bind] at h
      cases h
      obtain ⟨t, c, t1, t2, _, t4, t5⟩ := findKey_place n ptr cp key hk
      refine ⟨t ++ [key], by simp, ?_, t5⟩
      intro l
      rw [t4]
      exact withAt_append n c (putIn key v c) v t [key] t1 (seen_putIn key v c t2) l
  | throws => rw [hk] at h; cases h
  | ub => rw [hk] at h; cases h
  | diverges => rw [hk] at h; cases h

/-- C30: a write is accepted exactly if its container is there and of the kind of the step. -/
theorem C30_accepted (n : Node) (l0 : Loc) (k : Key) (v : Node) (hf : Fits n (l0 ++ [k])) :
    ∃ n' e, setAt n (pointer (l0 ++ [k])) v = .ok (n', e) ∧
      (e = none ↔ seen n l0 = some .object ∨ seen n l0 = some .array) ∧ (e ≠ none → n' = n) := by
  obtain ⟨init, last, cp, h1, h2, h3, h4⟩ := findKey_pieces n (pointer (l0 ++ [k])) (pointer_append_ne l0 k)
  obtain ⟨e1, e2⟩ := pieces_of_pointer l0 k init last h1
  obtain ⟨f1, f2⟩ := fits_append l0 k n hf
  unfold setAt
  rw [h4, e1, find_fits l0 n f1]
  unfold seen
  cases hr : reach n l0 with
  | none =>
    refine ⟨n, some .noContainer, rfl, ?_, fun _ => rfl⟩
    simp
  | some c =>
    have hfc := f2 c hr
    rw [e2]
    cases c with
    | leaf w => exact ⟨n, some .noContainer, rfl, by simp [Node.shape], fun _ => rfl⟩
    | del => exact ⟨n, some .noContainer, rfl, by simp [Node.shape], fun _ => rfl⟩
    | obj fs =>
      cases k with
      | index i => exact absurd hfc id
      | name a =>
        refine ⟨modifyPtr (putIn (.name a) v) n cp, none, ?_, by simp [Node.shape], fun h => absurd rfl h⟩
        simp only [answer, Res.bind, keyIn, Key.text]
        rw [unescape_escape]
    | arr xs =>
      cases k with
      | name a => exact absurd hfc id
      | index i =>
        refine ⟨modifyPtr (putIn (.index (min (i % 2 ^ 32) (xs.length % 2 ^ 32))) v) n cp, none, ?_, by simp [Node.shape], fun h => absurd rfl h⟩
        simp only [answer, Res.bind, keyIn, Key.text]
        rw [atol_decimal i hfc.1]
        simp only
        rw [if_neg (by omega)]
        simp only [Int.toNat_natCast]

/-- C30: after an accepted write the path reads the written node. -/
theorem C30_set_reads (n : Node) (l0 : Loc) (k : Key) (v n' : Node) (hf : Fits n (l0 ++ [k])) (hr : InRange n l0 k)
    (h : setAt n (pointer (l0 ++ [k])) v = .ok (n', none)) :
    ∃ w, findNode n' (pointer (l0 ++ [k])) = .ok (.node w) ∧ ∀ l, seen w l = seen v l := by
  obtain ⟨t, _, ht, hu⟩ := C30_set n _ v n' h
  have et := hu l0 k hf hr rfl
  subst et
  have congrF : ∀ (l : Loc) (a b : Node), (∀ l1 x r, l = l1 ++ x :: r → seen a l1 = seen b l1) → Fits a l → Fits b l := by
    intro l
    induction l with
    | nil => intro a b _ _; trivial
    | cons x l ih =>
      intro a b hs hfa
      have h0 : seen a [] = seen b [] := hs [] x l rfl
      have hsub : ∀ l1 y r, l = l1 ++ y :: r → seen a (x :: l1) = seen b (x :: l1) := by
        intro l1 y r e
        exact hs (x :: l1) y r (by rw [e]; rfl)
      cases x with
      | name s =>
        cases b with
        | leaf w => trivial
        | del => trivial
        | arr ys =>
          cases a with
          | arr xs => exact absurd hfa id
          | _ => cases h0
        | obj gs =>
          cases a with
          | obj fs =>
            intro d hd
            cases l with
            | nil => trivial
            | cons y l' =>
              have h1 := hsub [] y l' rfl
              rw [seen_obj, seen_obj, hd] at h1
              cases hc : lookN fs s with
              | none => rw [hc] at h1; cases h1
              | some c =>
                refine ih c d ?_ (hfa c hc)
                intro l1 z r e
                have h2 := hsub l1 z r e
                rw [seen_obj, seen_obj, hd, hc] at h2
                exact h2
          | _ => cases h0
      | index i =>
        cases b with
        | leaf w => trivial
        | del => trivial
        | obj gs =>
          cases a with
          | obj fs => exact absurd hfa id
          | _ => cases h0
        | arr ys =>
          cases a with
          | arr xs =>
            refine ⟨hfa.1, ?_⟩
            intro d hd
            cases l with
            | nil => trivial
            | cons y l' =>
              have h1 := hsub [] y l' rfl
              rw [seen_arr, seen_arr, hd] at h1
              cases hc : xs[i]? with
              | none => rw [hc] at h1; cases h1
              | some c =>
                refine ih c d ?_ (hfa.2 c hc)
                intro l1 z r e
                have h2 := hsub l1 z r e
                rw [seen_arr, seen_arr, hd, hc] at h2
                exact h2
          | _ => cases h0
  have hf' : Fits n' (l0 ++ [k]) := by
    refine congrF (l0 ++ [k]) n n' ?_ hf
    intro l1 x r e
    rw [ht]
    unfold withAt
    rw [if_neg]
    intro hp
    have := hp.length_le
    have hl := congrArg List.length e
    simp only [List.length_append, List.length_cons, List.length_nil] at this hl
    omega
  rw [C29_address n' _ hf']
  have hs0 : ∀ l, seen n' (l0 ++ [k] ++ l) = seen v l := by
    intro l
    rw [ht]
    unfold withAt
    rw [if_pos (List.prefix_append _ _), List.drop_left]
  cases hw : reach n' (l0 ++ [k]) with
  | none =>
    have := hs0 []
    rw [List.append_nil] at this
    unfold seen at this
    rw [hw] at this
    cases this
  | some w =>
    refine ⟨w, rfl, fun l => ?_⟩
    have := hs0 l
    unfold seen at this ⊢
    rw [reach_append, hw] at this
    exact this

/-- C30: a refused write or removal leaves the document as it is. -/
theorem C30_failed (n : Node) (ptr : Bytes) (v n' : Node) (e : Err) :
    (setAt n ptr v = .ok (n', some e) → n' = n) ∧ ∀ x, removeAt n ptr = .ok (n', some e, x) → n' = n := by
  constructor
  · intro h
    unfold setAt at h
    cases hk : findKey n ptr with
    | ok p => rw [hk] at h; cases p <;> cases h; rfl
    | throws => rw [hk] at h; cases h
    | ub => rw [hk] at h; cases h
    | diverges => rw [hk] at h; cases h
  · intro x h
    unfold removeAt at h
    cases hk : findKey n ptr with
    | ok p =>
      rw [hk] at h
      cases p with
      | error e' => cases h; rfl
      | «at» cp key =>
        simp only [Res.bind] at h
        cases hc : findNode n cp with
        | ok f =>
          rw [hc] at h
          cases f with
          | node c =>
            simp only at h
            cases hi : inContainer key c with
            | none => rw [hi] at h; cases h; rfl
            | some y => rw [hi] at h; cases h
          | noElement => cases h; rfl
          | badPointer => cases h; rfl
        | throws => rw [hc] at h; cases h
        | ub => rw [hc] at h; cases h
        | diverges => rw [hc] at h; cases h
    | throws => rw [hk] at h; cases h
    | ub => rw [hk] at h; cases h
    | diverges => rw [hk] at h; cases h

/-! ### removing -/

theorem tree_reach : ∀ (l : Loc) (n c : Node), Tree n → reach n l = some c → Tree c := by
  intro l
  induction l with
  | nil => intro n c h e; cases e; exact h
  | cons k l ih =>
    intro n c h e
    have lookMem : ∀ (fs : List (Bytes × Node)) (a : Bytes) (d : Node), lookN fs a = some d → ∃ p ∈ fs, p.2 = d := by
      intro fs a d
      induction fs with
      | nil => intro hh; cases hh
      | cons p fs ihf =>
        intro hh
        obtain ⟨m, x⟩ := p
        unfold lookN at hh
        by_cases em : m = a
        · rw [if_pos em] at hh; cases hh; exact ⟨(m, d), List.mem_cons_self, rfl⟩
        · rw [if_neg em] at hh
          obtain ⟨q, hq, eq⟩ := ihf hh
          exact ⟨q, List.mem_cons_of_mem _ hq, eq⟩
    cases k with
    | name a =>
      cases h with
      | obj fs hn hc =>
        simp only [reach] at e
        cases hl : lookN fs a with
        | none => rw [hl] at e; cases e
        | some d =>
          rw [hl] at e
          obtain ⟨p, hp, rfl⟩ := lookMem fs a d hl
          exact ih p.2 c (hc p hp) e
      | _ => cases e
    | index i =>
      cases h with
      | arr xs hc =>
        simp only [reach] at e
        cases hl : xs[i]? with
        | none => rw [hl] at e; cases e
        | some d =>
          rw [hl] at e
          exact ih d c (hc d (List.mem_of_getElem? hl)) e
      | _ => cases e

/-- What is seen without the field in the place `t`. -/
def withoutAt (n : Node) (t : Loc) (l : Loc) : Option Shape := if t <+: l then none else seen n l

/-- What is seen without the element `i` of the array in the place `t`: later elements move up. -/
def withoutElem (n : Node) (t : Loc) (i : Nat) (l : Loc) : Option Shape :=
  match l.drop t.length with
  | .index j :: r => if t <+: l ∧ i ≤ j then seen n (t ++ .index (j + 1) :: r) else seen n l
  | _ => seen n l

theorem removeAt_place (n : Node) (ptr : Bytes) (n' x : Node) (h : removeAt n ptr = .ok (n', none, some x)) :
    ∃ (t : Loc) (key : Key) (c : Node) (cp : Bytes), reach n t = some c ∧ KeyFor key c ∧ inContainer key c = some x ∧
      (∀ l, seen n' l = withAt n t (takeOut key c) l) ∧
      ∀ l0 k, Fits n (l0 ++ [k]) → InRange n l0 k → pointer (l0 ++ [k]) = ptr → t ++ [key] = l0 ++ [k] := by
  unfold removeAt at h
  cases hk : findKey n ptr with
  | ok p =>
    rw [hk] at h
    cases p with
    | error e => cases h
    | «at» cp key =>
      simp only [Res.bind] at h
      obtain ⟨t, c, t1, t2, t3, t4, t5⟩ := findKey_place n ptr cp key hk
      rw [t3] at h
      simp only at h
      cases hi : inContainer key c with
      | none => rw [hi] at h; cases h
      | some y =>
        rw [hi] at h
        cases h
        exact ⟨t, key, c, cp, t1, t2, hi, fun l => t4 _ l, t5⟩
  | throws => rw [hk] at h; cases h
  | ub => rw [hk] at h; cases h
  | diverges => rw [hk] at h; cases h

/-- C30: an accepted removal takes out one field, or one element, whose successors move up, and nothing else. -/
theorem C30_remove (n : Node) (hn : Tree n) (ptr : Bytes) (n' x : Node) (h : removeAt n ptr = .ok (n', none, some x)) :
    ∃ (t : Loc) (key : Key), reach n (t ++ [key]) = some x ∧
      (∀ l, seen n' l = match key with
        | .name _ => withoutAt n (t ++ [key]) l
        | .index i => withoutElem n t i l) ∧
      ∀ l0 k, Fits n (l0 ++ [k]) → InRange n l0 k → pointer (l0 ++ [k]) = ptr → t = l0 ∧ key = k := by
  obtain ⟨t, key, c, cp, t1, t2, t3, t4, t5⟩ := removeAt_place n ptr n' x h
  refine ⟨t, key, ?_, ?_, ?_⟩
  · rw [reach_append, t1]
    cases key with
    | name k =>
      cases c with
      | obj fs =>
        show reach (.obj fs) [.name k] = some x
        simp only [reach]
        have : lookN fs k = some x := t3
        rw [this]; rfl
      | _ => exact absurd t2 id
    | index i =>
      cases c with
      | arr xs =>
        show reach (.arr xs) [.index i] = some x
        simp only [reach]
        have : xs[i]? = some x := t3
        rw [this]; rfl
      | _ => exact absurd t2 id
  · intro l
    rw [t4]
    cases key with
    | name k =>
      cases c with
      | obj fs =>
        have hc : (fs.map Prod.fst).Nodup := by
          cases tree_reach t n _ hn t1 with
          | obj _ h _ => exact h
        simp only
        unfold withAt withoutAt
        by_cases ht : t <+: l
        · obtain ⟨m, rfl⟩ := ht
          rw [if_pos (List.prefix_append t m), List.drop_left]
          show seen (.obj (removeN k fs)) m = _
          by_cases hm : [Key.name k] <+: m
          · rw [if_pos ((List.prefix_append_right_inj t).mpr hm)]
            obtain ⟨r, rfl⟩ := hm
            show seen (.obj (removeN k fs)) (.name k :: r) = none
            rw [seen_obj, lookN_removeN k fs hc, if_pos rfl]; rfl
          · rw [if_neg (fun hh => hm ((List.prefix_append_right_inj t).mp hh))]
            have e : seen n (t ++ m) = seen (.obj fs) m := by
              unfold seen; rw [reach_append, t1]; rfl
            rw [e]
            cases m with
            | nil => rfl
            | cons y m =>
              cases y with
              | index j => rfl
              | name a =>
                rw [seen_obj, seen_obj, lookN_removeN k fs hc, if_neg]
                rintro rfl
                exact hm (List.cons_prefix_cons.mpr ⟨rfl, List.nil_prefix⟩)
        · rw [if_neg ht, if_neg (fun hh => ht ((List.prefix_append t _).trans hh))]
      | _ => exact absurd t2 id
    | index i =>
      cases c with
      | arr xs =>
        simp only
        unfold withAt
        by_cases ht : t <+: l
        · obtain ⟨m, rfl⟩ := ht
          rw [if_pos (List.prefix_append t m), List.drop_left]
          show seen (.arr (xs.eraseIdx i)) m = _
          unfold withoutElem
          rw [List.drop_left]
          have e : ∀ m, seen n (t ++ m) = seen (.arr xs) m := by
            intro m; unfold seen; rw [reach_append, t1]; rfl
          cases m with
          | nil => simp only; rw [e]; rfl
          | cons y m =>
            cases y with
            | name a => simp only; rw [e]; rfl
            | index j =>
              simp only
              rw [seen_arr, List.getElem?_eraseIdx]
              by_cases hj : i ≤ j
              · rw [if_neg (by omega), if_pos ⟨List.prefix_append _ _, hj⟩, e, seen_arr]
              · rw [if_pos (by omega), if_neg (fun hh => hj hh.2), e, seen_arr]
        · rw [if_neg ht]
          unfold withoutElem
          split
          · rw [if_neg (fun hh => ht hh.1)]
          · rfl
      | _ => exact absurd t2 id
  · intro l0 k hf hr hp
    have := t5 l0 k hf hr hp
    obtain ⟨h1, h2⟩ := List.append_inj' this rfl
    exact ⟨h1, by simpa using h2⟩

/-- C30: `get_value` by a path reads the value in its place, and nothing if there is none. -/
theorem C30_value (n : Node) (l0 : Loc) (k : Key) (hf : Fits n (l0 ++ [k]))
    (hr : ∀ i xs, k = .index i → reach n l0 = some (.arr xs) → i < 2 ^ 32 ∧ xs.length < 2 ^ 32) :
    getValue n (pointer (l0 ++ [k])) = .ok (match seen n (l0 ++ [k]) with | some (.value v) => some v | _ => none) := by
  obtain ⟨init, last, cp, h1, h2, h3, h4⟩ := findKey_pieces n (pointer (l0 ++ [k])) (pointer_append_ne l0 k)
  obtain ⟨e1, e2⟩ := pieces_of_pointer l0 k init last h1
  obtain ⟨f1, f2⟩ := fits_append l0 k n hf
  unfold getValue
  rw [h4, e1, find_fits l0 n f1]
  have hcp : findNode n cp = .ok (answer (reach n l0)) := by rw [h2, e1, find_fits l0 n f1]
  have hseen : seen n (l0 ++ [k]) = (reach n l0).bind fun c => seen c [k] := by
    unfold seen; rw [reach_append]; cases reach n l0 <;> rfl
  rw [hseen]
  cases hrc : reach n l0 with
  | none => rfl
  | some c =>
    have hfc := f2 c hrc
    rw [hrc] at hcp
    rw [e2]
    cases c with
    | leaf w => cases k <;> rfl
    | del => cases k <;> rfl
    | obj fs =>
      cases k with
      | index i => exact absurd hfc id
      | name a =>
        simp only [answer, Res.bind, keyIn, Key.text]
        rw [unescape_escape]
        simp only
        rw [hcp]
        simp only [answer, inContainer, Option.bind]
        rw [seen_obj]
        cases lookN fs a with
        | none => rfl
        | some d => cases d <;> rfl
    | arr xs =>
      cases k with
      | name a => exact absurd hfc id
      | index i =>
        obtain ⟨r1, r2⟩ := hr i xs rfl hrc
        simp only [answer, Res.bind, keyIn, Key.text]
        rw [atol_decimal i hfc.1]
        simp only
        rw [if_neg (by omega)]
        simp only [Int.toNat_natCast]
        rw [hcp, Nat.mod_eq_of_lt r1, Nat.mod_eq_of_lt r2]
        simp only [answer, inContainer, Option.bind]
        rw [seen_arr]
        by_cases hi : i < xs.length
        · rw [Nat.min_eq_left (by omega)]
          cases xs[i]? with
          | none => rfl
          | some d => cases d <;> rfl
        · rw [Nat.min_eq_right (by omega), List.getElem?_eq_none (Nat.le_refl _), List.getElem?_eq_none (by omega)]
          rfl

/-- The hypotheses are met: writing and removing in a document with an object and an array. -/
example : Tree exDoc ∧ Fits exDoc ([.name [99]] ++ [.index 2]) ∧ InRange exDoc [.name [99]] (.index 2) ∧
    setAt exDoc [99, 47, 50] (.leaf .na) =
      .ok (.obj [(exA, .obj [([98], .leaf (.int .i64 1))]), ([99], .arr [.leaf (.int .i64 2), .leaf (.str [100]), .leaf .na])], none) ∧
    removeAt exDoc [99, 47, 48] = .ok (.obj [(exA, .obj [([98], .leaf (.int .i64 1))]), ([99], .arr [.leaf (.str [100])])], none, some (.leaf (.int .i64 2))) := by
  refine ⟨?_, ?_, ⟨by decide, by decide⟩, rfl, rfl⟩
  · refine .obj _ (by decide) ?_
    intro p hp
    simp only [List.mem_cons, List.not_mem_nil, or_false] at hp
    rcases hp with rfl | rfl
    · refine .obj _ (by decide) ?_
      intro p hp
      simp only [List.mem_cons, List.not_mem_nil, or_false] at hp
      subst hp; exact .leaf _
    · refine .arr _ ?_
      intro p hp
      simp only [List.mem_cons, List.not_mem_nil, or_false] at hp
      rcases hp with rfl | rfl <;> exact .leaf _
  · intro c hc
    cases hc
    refine ⟨by omega, ?_⟩
    intro c hc
    trivial

/-! ### C30: where it fails -/

/-- C30 in full: an accepted write is read back at the same path, and a failed move leaves the document as it is. -/
def C30_claim : Prop := (∀ (n : Node) (ptr : Bytes) (v n' : Node), setAt n ptr v = .ok (n', none) → ∃ w, findNode n' ptr = .ok (.node w)) ∧
  ∀ (n : Node) (src dst : Bytes) (n' : Node) (e : Err), moveAt n src dst = .ok (n', some e) → ∀ l, seen n' l = seen n l

/-- Writing beyond the end of an array is accepted and appends: the path of the write reads nothing. -/
theorem C30_index_fails : ¬ C30_claim := by
  rintro ⟨h, _⟩
  obtain ⟨w, hw⟩ := h (.arr [.leaf .na]) [55] (.leaf (.bool true)) (.arr [.leaf .na, .leaf (.bool true)]) rfl
  have e : findNode (.arr [.leaf .na, .leaf (.bool true)]) [55] = .ok .noElement := rfl
  rw [e] at hw
  cases hw

/-- A move whose target is refused loses what it moves. -/
theorem C30_move_fails : ¬ C30_claim := by
  rintro ⟨_, h⟩
  have e := h (.obj [([97], .leaf .na)]) [97] [98, 47, 99] (.obj []) .noContainer rfl [.name [97]]
  cases e

/-- The index 2^32 is taken for 0: writing there overwrites the first element, reading there finds nothing. -/
theorem C30_wide_fails : setAt (.arr [.leaf .na, .leaf .na]) [52, 50, 57, 52, 57, 54, 55, 50, 57, 54] (.leaf (.bool true)) =
      .ok (.arr [.leaf (.bool true), .leaf .na], none) ∧
    findNode (.arr [.leaf (.bool true), .leaf .na]) [52, 50, 57, 52, 57, 54, 55, 50, 57, 54] = .ok .noElement ∧
    removeAt (.arr [.leaf .na, .leaf (.bool true)]) [52, 50, 57, 52, 57, 54, 55, 50, 57, 54] = .ok (.arr [.leaf (.bool true)], none, some (.leaf .na)) :=
  ⟨rfl, rfl, rfl⟩

/-- The empty path throws. -/
theorem C30_empty_fails (n v : Node) : setAt n [] v = .throws ∧ removeAt n [] = .throws ∧ getValue n [] = .throws := ⟨rfl, rfl, rfl⟩

end Verif.Json
