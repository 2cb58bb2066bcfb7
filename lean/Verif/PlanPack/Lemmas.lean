import Verif.PlanPack.Spec
import Verif.DocPack.Lemmas
/-!
Lemmas for the round trip of plans.
-/
namespace Verif.PlanPack

open Verif.DocVal Verif.Json Verif.Msgpack Verif.DocPack

/-! ### what is packed -/

def valKey : Key → Val
  | .str s => .str s
  | .i32 v => packInt v
  | .u32 n => .uint n
  | .none => .nil

def valColl (c : Coll) : Val := .arr [.str c.db, .str c.coll]

mutual
def valExpr : Expr → Val
  | .compare t l r v cs => .arr [.uint 17, .uint t, valKey l, valKey r, .uint v, .arr (valExprs cs)]
  | .aggregate t k ps => .arr [.uint 18, .uint t, valKey k, .arr (valArgs ps)]
  | .scalar t k ps => .arr [.uint 19, .uint t, valKey k, .arr (valArgs ps)]
  | .sort o k => .arr [.uint 20, packInt o, valKey k]
def valExprs : List Expr → List Val
  | [] => []
  | e :: es => valExpr e :: valExprs es
def valArg : Arg → Val
  | .id n => .uint n
  | .key k => valKey k
  | .expr e => valExpr e
def valArgs : List Arg → List Val
  | [] => []
  | a :: as => valArg a :: valArgs as
end

def valUpd : Upd → Val
  | .null => .nil
  | .set k l => .arr [.uint 21, .uint 0, valKey k, valUpd l]
  | .get k s => .arr [.uint 21, .uint 1, valKey k, .uint s]
  | .const i => .arr [.uint 21, .uint 2, .uint i]
  | .arith t l r => .arr [.uint 21, .uint t, valUpd l, valUpd r]

def valMatch (m : Match) : Val :=
  match m.exprs with
  | [] => .nil
  | e :: _ => .arr [.uint 12, valColl m.coll, valExpr e]

def valLimit (l : Limit) : Val := .arr [.uint 11, valColl l.coll, packInt l.n]

def valPair (p : Key × Key) : Val := .arr [valKey p.1, valKey p.2]

mutual
def valPlan (shrink : Bool) : Plan → Val
  | .aggregate c ps => .arr [.uint 0, valColl c, .arr (valPlans shrink ps)]
  | .createCollection c _ => .arr [.uint 1, valColl c]
  | .createDatabase c => .arr [.uint 2, valColl c]
  | .createIndex t c n ks => .arr [.uint 3, .uint t, valColl c, .str n, .arr (ks.map valKey)]
  | .data ds => .arr [.uint 4, .arr (valI shrink ds)]
  | .chunk => .nil
  | .delete c _ m l => .arr [.uint 5, valColl c, .arr [valMatch m, valLimit l]]
  | .dropCollection c => .arr [.uint 6, valColl c]
  | .dropDatabase c => .arr [.uint 7, valColl c]
  | .dropIndex c n => .arr [.uint 8, valColl c, .str n]
  | .insert c ps tr => .arr [.uint 9, valColl c, .arr (valPlans shrink ps), .arr (tr.map valPair)]
  | .join t c ps _ => .arr [.uint 10, .uint t, valColl c, .arr (valPlans shrink ps)]
  | .limit l => valLimit l
  | .filter m => valMatch m
  | .group c es => .arr [.uint 13, valColl c, .arr (valExprs es)]
  | .sort c es => .arr [.uint 14, valColl c, .arr (valExprs es)]
  | .function n is => .arr [.uint 15, .str n, .arr (is.map .uint)]
  | .update c s m l us up => .arr [.uint 16, valColl c, valColl s, .arr [valMatch m, valLimit l], .arr (us.map valUpd), .bool up]
def valPlans (shrink : Bool) : List Plan → List Val
  | [] => []
  | p :: ps => valPlan shrink p :: valPlans shrink ps
end

def valParam (shrink : Bool) (p : Nat × V) : Val := .arr [.uint p.1, valV shrink p.2]

def valParams (shrink : Bool) (ps : Params) : Val := .arr [.uint 22, .arr (ps.map (valParam shrink))]

/-! ### arrays -/

theorem encodeList_eq (vs : List Val) : encodeList vs = (vs.map encode).flatten := by
  induction vs with
  | nil => rfl
  | cons v vs ih => simp only [encodeList, List.map_cons, List.flatten_cons, ih]

theorem arrayOf_eq (n : Nat) (vs : List Val) (h : vs.length = n) : arrayOf n (vs.map encode) = encode (.arr vs) := by
  simp only [arrayOf, encode, encodeList_eq, h]

theorem hdr_eq (n : Nat) (vs : List Val) (h : vs.length = n) (b : Bytes) (hb : b = encodeList vs) :
    encArrHdr n ++ b = encode (.arr vs) := by
  rw [encode, h, hb]

theorem wf_list (vs : List Val) (h : ∀ v ∈ vs, WF v) : WFList vs := by
  induction vs with
  | nil => trivial
  | cons v vs ih => exact ⟨h v (by simp), ih fun w hw => h w (by simp [hw])⟩

theorem wf_arr (vs : List Val) (hl : vs.length < 2 ^ 31) (h : WFList vs) : WF (.arr vs) := ⟨by omega, h⟩

theorem wf_nat (n : Nat) (h : n < 65536) : WF (.uint n) := by show n < 2 ^ 64; omega

theorem valExprs_length (es : List Expr) : (valExprs es).length = es.length := by
  induction es with
  | nil => rfl
  | cons e es ih => simp only [valExprs, List.length_cons, ih]

theorem valArgs_length (es : List Arg) : (valArgs es).length = es.length := by
  induction es with
  | nil => rfl
  | cons e es ih => simp only [valArgs, List.length_cons, ih]

theorem valPlans_length (shrink : Bool) (es : List Plan) : (valPlans shrink es).length = es.length := by
  induction es with
  | nil => rfl
  | cons e es ih => simp only [valPlans, List.length_cons, ih]

/-! ### keys and names -/

theorem writeKey_eq (k : Key) : writeKey k = encode (valKey k) := by cases k <;> rfl

theorem valKey_wf (k : Key) (h : k.kept) : WF (valKey k) := by
  cases k with
  | none => trivial
  | str s => simp only [Key.kept] at h; show s.length < 2 ^ 32; omega
  | i32 v => exact packInt_wf v (by simp only [Key.kept] at h; omega)
  | u32 n => exact h.elim

theorem toI32_small (v : Int) (h : 0 ≤ v ∧ v < 2 ^ 31) : toI32 v.toNat = v := by
  unfold toI32
  have h1 : v.toNat % 2 ^ 32 = v.toNat := Nat.mod_eq_of_lt (by omega)
  rw [h1, if_pos (by omega)]
  omega

theorem readKey_val (k : Key) (h : k.kept) : readKey (valKey k) = k := by
  cases k with
  | none => rfl
  | str s => rfl
  | i32 v =>
    simp only [Key.kept] at h
    simp only [valKey, packInt, if_pos h.1, readKey, toI32_small v h]
  | u32 n => exact h.elim

theorem readArg_key (k : Key) (h : k.kept) : readArg (valKey k) = .ok (.key k) := by
  have hr := readKey_val k h
  cases k with
  | none => simp only [valKey, readArg, readKey]
  | str s => simp only [valKey, readArg, readKey]
  | i32 v =>
    simp only [Key.kept] at h
    simp only [valKey, packInt, if_pos h.1] at hr ⊢
    simp only [readArg, hr]
  | u32 n => exact h.elim

theorem writeColl_eq (c : Coll) : writeColl c = encode (valColl c) := arrayOf_eq 2 [.str c.db, .str c.coll] rfl

/-- What the two rules of plans that come back have in common. -/
structure Strict (R : Rules) : Prop where
  key : ∀ k, R.key k → k.kept
  lost : ¬ R.lost

theorem valColl_wf (R : Rules) (c : Coll) (h : c.ok R) : WF (valColl c) := by
  refine wf_arr _ (by simp) ⟨?_, ?_, trivial⟩
  · show c.db.length < 2 ^ 32; have := h.1; omega
  · show c.coll.length < 2 ^ 32; have := h.2.1; omega

theorem readColl_val (R : Rules) (S : Strict R) (c : Coll) (h : c.ok R) : readColl (valColl c) = .ok c := by
  obtain ⟨u, d, s, n⟩ := c
  rcases h.2.2 with ⟨h1, h2⟩ | hl
  · simp only at h1 h2
    subst h1 h2
    rfl
  · exact (S.lost hl).elim

theorem byteOf_small (n : Nat) (h : n < 256) : byteOf n = n := Nat.mod_eq_of_lt h
theorem idOf_small (n : Nat) (h : n < 65536) : idOf n = n := Nat.mod_eq_of_lt h

/-! ### expressions -/

theorem makeCompare_formed (t : Nat) (l r : Key) (v : Nat) (cs : List Expr) (h : Formed t l r v cs) :
    makeCompare t l r v cs = .compare t l r v cs := by
  unfold Formed at h
  unfold makeCompare
  split at h
  · rename_i ht
    have hu : isUnion t = true := by rcases ht with rfl | rfl | rfl <;> rfl
    obtain ⟨rfl, rfl, rfl⟩ := h
    rw [if_pos hu]
  · rename_i ht
    have hu : ¬ isUnion t = true := by simp [isUnion]; omega
    rw [if_neg hu]
    obtain ⟨rfl, hr⟩ := h
    by_cases hr0 : r = .none
    · rw [if_pos hr0, hr0]
    · rw [if_neg hr0]
      rcases hr with h | h
      · exact (hr0 h).elim
      · rw [h]

mutual
theorem writeExpr_eq : ∀ e : Expr, writeExpr e = encode (valExpr e)
  | .compare t l r v cs => by
    have hc := hdr_eq cs.length (valExprs cs) (valExprs_length cs) _ (writeExprs_eq cs)
    simp only [writeExpr, valExpr, hc, writeKey_eq]
    exact arrayOf_eq 6 [.uint 17, .uint t, valKey l, valKey r, .uint v, .arr (valExprs cs)] rfl
  | .aggregate t k ps => by
    have hc := hdr_eq ps.length (valArgs ps) (valArgs_length ps) _ (writeArgs_eq ps)
    simp only [writeExpr, valExpr, hc, writeKey_eq]
    exact arrayOf_eq 4 [.uint 18, .uint t, valKey k, .arr (valArgs ps)] rfl
  | .scalar t k ps => by
    have hc := hdr_eq ps.length (valArgs ps) (valArgs_length ps) _ (writeArgs_eq ps)
    simp only [writeExpr, valExpr, hc, writeKey_eq]
    exact arrayOf_eq 4 [.uint 19, .uint t, valKey k, .arr (valArgs ps)] rfl
  | .sort o k => by
    simp only [writeExpr, valExpr, writeKey_eq]
    exact arrayOf_eq 3 [.uint 20, packInt o, valKey k] rfl
theorem writeExprs_eq : ∀ es : List Expr, writeExprs es = encodeList (valExprs es)
  | [] => rfl
  | e :: es => by simp only [writeExprs, valExprs, encodeList, writeExpr_eq e, writeExprs_eq es]
theorem writeArg_eq : ∀ a : Arg, writeArg a = encode (valArg a)
  | .id n => rfl
  | .key k => writeKey_eq k
  | .expr e => by simp only [writeArg, valArg, writeExpr_eq e]
theorem writeArgs_eq : ∀ as : List Arg, writeArgs as = encodeList (valArgs as)
  | [] => rfl
  | a :: as => by simp only [writeArgs, valArgs, encodeList, writeArg_eq a, writeArgs_eq as]
end

mutual
theorem works_expr (R : Rules) (S : Strict R) : ∀ e : Expr, e.ok R → WF (valExpr e) ∧ readExpr (valExpr e) = .ok e
  | .compare t l r v cs, h => by
    simp only [Expr.ok] at h
    obtain ⟨ht, hv, hl, hr, hf, hn, hc⟩ := h
    obtain ⟨c1, c2⟩ := works_exprs R S cs hc
    refine ⟨wf_arr _ (by simp) ⟨wf_nat _ (by omega), wf_nat _ (by omega), valKey_wf l (S.key l hl), valKey_wf r (S.key r hr), wf_nat _ hv, wf_arr _ (by rw [valExprs_length]; exact hn) c1, trivial⟩, ?_⟩
    simp only [valExpr, readExpr, readExprParts]
    rw [if_pos (by rfl), c2]
    show Res.ok _ = _
    rw [byteOf_small t ht, idOf_small v hv, readKey_val l (S.key l hl), readKey_val r (S.key r hr), makeCompare_formed t l r v cs hf]
  | .aggregate t k ps, h => by
    simp only [Expr.ok] at h
    obtain ⟨ht, hk, hn, hc⟩ := h
    obtain ⟨c1, c2⟩ := works_args R S ps hc
    refine ⟨wf_arr _ (by simp) ⟨wf_nat _ (by omega), wf_nat _ (by omega), valKey_wf k (S.key k hk), wf_arr _ (by rw [valArgs_length]; exact hn) c1, trivial⟩, ?_⟩
    simp only [valExpr, readExpr, readExprParts]
    rw [if_pos (by rfl), c2]
    show Res.ok _ = _
    rw [byteOf_small t ht, readKey_val k (S.key k hk)]
  | .scalar t k ps, h => by
    simp only [Expr.ok] at h
    obtain ⟨ht, hk, hn, hc⟩ := h
    obtain ⟨c1, c2⟩ := works_args R S ps hc
    refine ⟨wf_arr _ (by simp) ⟨wf_nat _ (by omega), wf_nat _ (by omega), valKey_wf k (S.key k hk), wf_arr _ (by rw [valArgs_length]; exact hn) c1, trivial⟩, ?_⟩
    simp only [valExpr, readExpr, readExprParts]
    rw [if_neg (by decide), if_pos (by rfl), c2]
    show Res.ok _ = _
    rw [byteOf_small t ht, readKey_val k (S.key k hk)]
  | .sort o k, h => by
    simp only [Expr.ok] at h
    obtain ⟨ho, hk⟩ := h
    refine ⟨wf_arr _ (by simp) ⟨wf_nat _ (by omega), packInt_wf o (by omega), valKey_wf k (S.key k hk), trivial⟩, ?_⟩
    rcases ho with rfl | rfl
    · simp only [valExpr, readExpr, packInt, if_pos (show (0 : Int) ≤ 1 by decide), readExprParts]
      rw [if_pos (by rfl), readKey_val k (S.key k hk)]
      rfl
    · simp only [valExpr, readExpr, packInt, if_neg (show ¬ (0 : Int) ≤ -1 by decide), readExprParts]
      rw [if_pos (by rfl), readKey_val k (S.key k hk)]
      rfl
theorem works_exprs (R : Rules) (S : Strict R) : ∀ es : List Expr, Expr.oks R es → WFList (valExprs es) ∧ readExprs (valExprs es) = .ok es
  | [], _ => ⟨trivial, rfl⟩
  | e :: es, h => by
    simp only [Expr.oks] at h
    obtain ⟨h1, h2⟩ := works_expr R S e h.1
    obtain ⟨c1, c2⟩ := works_exprs R S es h.2
    refine ⟨⟨h1, c1⟩, ?_⟩
    simp only [valExprs, readExprs, h2, c2]
    rfl
theorem works_arg (R : Rules) (S : Strict R) : ∀ a : Arg, a.ok R → WF (valArg a) ∧ readArg (valArg a) = .ok a
  | .id n, h => by simp only [Arg.ok] at h; exact (S.lost h.2).elim
  | .key k, h => by
    simp only [Arg.ok] at h
    exact ⟨valKey_wf k (S.key k h), readArg_key k (S.key k h)⟩
  | .expr e, h => by
    simp only [Arg.ok] at h
    obtain ⟨h1, h2⟩ := works_expr R S e h
    refine ⟨h1, ?_⟩
    simp only [valArg]
    have : ∃ vs, valExpr e = .arr vs := by cases e <;> exact ⟨_, rfl⟩
    obtain ⟨vs, hvs⟩ := this
    rw [hvs] at h2 ⊢
    simp only [readExpr] at h2
    simp only [readArg, h2]
    rfl
theorem works_args (R : Rules) (S : Strict R) : ∀ as : List Arg, Arg.oks R as → WFList (valArgs as) ∧ readArgs (valArgs as) = .ok as
  | [], _ => ⟨trivial, rfl⟩
  | a :: as, h => by
    simp only [Arg.oks] at h
    obtain ⟨h1, h2⟩ := works_arg R S a h.1
    obtain ⟨c1, c2⟩ := works_args R S as h.2
    refine ⟨⟨h1, c1⟩, ?_⟩
    simp only [valArgs, readArgs, h2, c2]
    rfl
end

/-! ### update expressions -/

theorem works_upd (R : Rules) (S : Strict R) (u : Upd) (h : u.ok R) :
    writeUpd u = .ok (encode (valUpd u)) ∧ WF (valUpd u) ∧ readUpd (valUpd u) = .ok u := by
  induction u with
  | null => exact (S.lost h).elim
  | set k l ih =>
    obtain ⟨hk, hl⟩ := h
    obtain ⟨h1, h2, h3⟩ := ih hl
    refine ⟨?_, wf_arr _ (by simp) ⟨wf_nat _ (by omega), wf_nat _ (by omega), valKey_wf k (S.key k hk), h2, trivial⟩, ?_⟩
    · simp only [writeUpd, h1, Res.bind, valUpd, writeKey_eq]
      exact congrArg Res.ok (arrayOf_eq 4 [.uint 21, .uint 0, valKey k, valUpd l] rfl)
    · simp only [valUpd, readUpd]
      rw [if_pos (by rfl), h3, readKey_val k (S.key k hk)]
      rfl
  | get k s =>
    obtain ⟨hk, hs⟩ := h
    refine ⟨?_, wf_arr _ (by simp) ⟨wf_nat _ (by omega), wf_nat _ (by omega), valKey_wf k (S.key k hk), wf_nat _ (by omega), trivial⟩, ?_⟩
    · simp only [writeUpd, valUpd, writeKey_eq]
      exact congrArg Res.ok (arrayOf_eq 4 [.uint 21, .uint 1, valKey k, .uint s] rfl)
    · simp only [valUpd, readUpd, readSide]
      rw [if_neg (by decide), if_pos (by rfl), readKey_val k (S.key k hk), byteOf_small s hs]
      rfl
  | const i =>
    simp only [Upd.ok] at h
    refine ⟨?_, wf_arr _ (by simp) ⟨wf_nat _ (by omega), wf_nat _ (by omega), wf_nat _ h, trivial⟩, ?_⟩
    · simp only [writeUpd, valUpd]
      exact congrArg Res.ok (arrayOf_eq 3 [.uint 21, .uint 2, .uint i] rfl)
    · simp only [valUpd, readUpd]
      rw [if_pos (by rfl), idOf_small i h]
  | arith t l r ihl ihr =>
    obtain ⟨ht, hl, hr⟩ := h
    obtain ⟨h1, h2, h3⟩ := ihl hl
    obtain ⟨k1, k2, k3⟩ := ihr hr
    refine ⟨?_, wf_arr _ (by simp) ⟨wf_nat _ (by omega), wf_nat _ (by omega), h2, k2, trivial⟩, ?_⟩
    · simp only [writeUpd, h1, k1, Res.bind, valUpd]
      exact congrArg Res.ok (arrayOf_eq 4 [.uint 21, .uint t, valUpd l, valUpd r] rfl)
    · simp only [valUpd]
      have hb := byteOf_small t (by omega)
      have hp : readUpd (.arr [.uint 21, .uint t, valUpd l, valUpd r]) =
          if byteOf t = 0 then (readUpd (valUpd r)).bind fun x => .ok (.set (readKey (valUpd l)) x)
          else if byteOf t = 1 then (readSide (valUpd r)).bind fun s => .ok (.get (readKey (valUpd l)) s)
          else if 3 ≤ byteOf t ∧ byteOf t ≤ 18 then
            (readUpd (valUpd l)).bind fun x => (readUpd (valUpd r)).bind fun y => .ok (.arith (byteOf t) x y)
          else .ub := by simp only [readUpd]
      rw [hp, hb, if_neg (by omega), if_neg (by omega), if_pos ht, h3, k3]
      rfl

theorem works_upds (R : Rules) (S : Strict R) (us : List Upd) (h : ∀ u ∈ us, Upd.ok R u) :
    writeUpds us = .ok (encodeList (us.map valUpd)) ∧ WFList (us.map valUpd) ∧ readUpds (us.map valUpd) = .ok us := by
  induction us with
  | nil => exact ⟨rfl, trivial, rfl⟩
  | cons u us ih =>
    obtain ⟨h1, h2, h3⟩ := works_upd R S u (h u (by simp))
    obtain ⟨i1, i2, i3⟩ := ih fun x hx => h x (by simp [hx])
    refine ⟨?_, ⟨h2, i2⟩, ?_⟩
    · simp only [writeUpds, h1, i1, Res.bind, List.map_cons, encodeList]
    · simp only [List.map_cons, readUpds, h3, i3, Res.bind]

/-! ### filters, limits and small lists -/

theorem works_match (R : Rules) (S : Strict R) (m : Match) (h : m.ok R) :
    writeMatch m = .ok (encode (valMatch m)) ∧ WF (valMatch m) ∧ readMatch (valMatch m) = .ok m := by
  obtain ⟨c, es⟩ := m
  obtain ⟨hc, hl, he⟩ := h
  simp only at hc hl he
  rcases hl with hl | hl
  · obtain ⟨e, rfl⟩ := List.length_eq_one_iff.mp hl
    obtain ⟨h1, h2⟩ := works_expr R S e he.1
    refine ⟨?_, wf_arr _ (by simp) ⟨wf_nat _ (by omega), valColl_wf R c hc, h1, trivial⟩, ?_⟩
    · simp only [writeMatch, valMatch, writeColl_eq, writeExpr_eq]
      exact congrArg Res.ok (arrayOf_eq 3 [.uint 12, valColl c, valExpr e] rfl)
    · simp only [valMatch, readMatch, readColl_val R S c hc, h2, Res.bind]
  · exact (S.lost hl.1).elim

theorem readInt_pack (v : Int) (h : -2 ^ 63 ≤ v ∧ v < 2 ^ 63) : readInt (packInt v) = .ok v := by
  unfold packInt
  split
  · simp only [readInt]
    rw [if_pos (by omega)]
    congr 1
    omega
  · rfl

theorem toI32_int (v : Int) (h : -2 ^ 31 ≤ v ∧ v < 2 ^ 31) : toI32 (v % 2 ^ 32).toNat = v := by
  unfold toI32
  have h1 : (v % 2 ^ 32).toNat % 2 ^ 32 = (v % 2 ^ 32).toNat := Nat.mod_eq_of_lt (by omega)
  rw [h1]
  split <;> omega

theorem works_limit (R : Rules) (S : Strict R) (l : Limit) (h : l.ok R) :
    writeLimit l = encode (valLimit l) ∧ WF (valLimit l) ∧ readLimit (valLimit l) = .ok l := by
  obtain ⟨c, n⟩ := l
  obtain ⟨hc, hn⟩ := h
  simp only at hc hn
  refine ⟨?_, wf_arr _ (by simp) ⟨wf_nat _ (by omega), valColl_wf R c hc, packInt_wf n (by omega), trivial⟩, ?_⟩
  · simp only [writeLimit, valLimit, writeColl_eq]
    exact arrayOf_eq 3 [.uint 11, valColl c, packInt n] rfl
  · simp only [valLimit, readLimit, readColl_val R S c hc, readInt_pack n (by omega), Res.bind, toI32_int n hn]

theorem writeKeys_eq (ks : List Key) : writeKeys ks = encode (.arr (ks.map valKey)) := by
  refine hdr_eq _ _ (by simp) _ ?_
  rw [encodeList_eq, List.map_map]
  congr 1
  exact List.map_congr_left fun k _ => writeKey_eq k

theorem writeIds_eq (is : List Nat) : writeIds is = encode (.arr (is.map .uint)) := by
  refine hdr_eq _ _ (by simp) _ ?_
  rw [encodeList_eq, List.map_map]
  rfl

theorem writeTranslation_eq (ps : List (Key × Key)) : writeTranslation ps = encode (.arr (ps.map valPair)) := by
  refine hdr_eq _ _ (by simp) _ ?_
  rw [encodeList_eq, List.map_map]
  congr 1
  refine List.map_congr_left fun p _ => ?_
  simp only [writePair, writeKey_eq]
  exact arrayOf_eq 2 [valKey p.1, valKey p.2] rfl

theorem readIds_val (is : List Nat) (h : ∀ i ∈ is, i < 65536) : readIds (is.map .uint) = .ok is := by
  induction is with
  | nil => rfl
  | cons i is ih =>
    simp only [List.map_cons, readIds, ih fun x hx => h x (by simp [hx]), Res.bind, idOf_small i (h i (by simp))]

theorem readTranslation_val (R : Rules) (S : Strict R) (ps : List (Key × Key)) (h : ∀ p ∈ ps, R.key p.1 ∧ R.key p.2) :
    readTranslation (ps.map valPair) = .ok ps := by
  induction ps with
  | nil => rfl
  | cons p ps ih =>
    have hp := h p (by simp)
    simp only [List.map_cons, valPair, readTranslation]
    rw [ih fun x hx => h x (by simp [hx]), readKey_val _ (S.key _ hp.1), readKey_val _ (S.key _ hp.2)]
    rfl

theorem readKeys_val (R : Rules) (S : Strict R) (ks : List Key) (h : ∀ k ∈ ks, R.key k) : (ks.map valKey).map readKey = ks := by
  rw [List.map_map]
  conv => rhs; rw [← List.map_id ks]
  exact List.map_congr_left fun k hk => readKey_val k (S.key k (h k hk))

theorem readDocs_val (shrink : Bool) (ds : List Node) (h : ∀ d ∈ ds, (∃ fs, d = .obj fs) ∧ Valid d ∧ Every (Carried shrink) d) :
    packItems shrink ds = encodeList (valI shrink ds) ∧ WFList (valI shrink ds) ∧
    toDocumentsLoop (valI shrink ds) = .ok (ds.map (backN shrink)) := by
  have hw : ∀ d ∈ ds, Works shrink d := fun d hd => works shrink d (h d hd).2.1 (h d hd).2.2
  obtain ⟨h1, h2, h3⟩ := works_items shrink ds hw
  refine ⟨h1, h2, ?_⟩
  clear h1 h2 h3
  induction ds with
  | nil => rfl
  | cons d ds ih =>
    obtain ⟨⟨fs, rfl⟩, _⟩ := h d (by simp)
    obtain ⟨_, _, h3⟩ := hw (.obj fs) (by simp)
    simp only [valN, unpackNode] at h3
    simp only [valI, valN, toDocumentsLoop, decodeDocument, h3]
    rw [ih (fun x hx => h x (by simp [hx])) (fun x hx => hw x (by simp [hx]))]
    rfl

/-! ### plans -/

/-- The rules for which plans come back, with other documents. -/
structure Lets (shrink : Bool) (R : Rules) : Prop extends Strict R where
  doc : ∀ d, R.doc d → Every (Carried shrink) d
  val : ∀ v, R.val v → Carried shrink v

theorem lets_carried (shrink : Bool) : Lets shrink (carried shrink) :=
  { key := fun _ h => h, lost := fun h => h, doc := fun _ h => h, val := fun _ h => h }


theorem empty_docs (shrink : Bool) (R : Rules) (L : Lets shrink R) (c : Coll) (cols : List Bytes) (hc : c.ok R) (h : cols = [] ∨ R.lost) :
    readPlan (.arr [.uint 1, valColl c]) = .ok (.createCollection c cols) := by
  rcases h with rfl | h
  · simp only [readPlan, readPlanParts, readFlat]
    rw [if_pos (by rfl), readColl_val R L.toStrict c hc]
    rfl
  · exact (L.lost h).elim

/-- What is to be shown of a plan. -/
def PWorks (shrink : Bool) (p : Plan) : Prop :=
  writePlan shrink p = .ok (encode (valPlan shrink p)) ∧ WF (valPlan shrink p) ∧
  readPlan (valPlan shrink p) = .ok (p.mapDocs (backN shrink))

mutual
theorem works_plan (shrink : Bool) (R : Rules) (L : Lets shrink R) : ∀ p : Plan, p.ok R → PWorks shrink p
  | .aggregate c ps, h => by
    simp only [Plan.ok] at h
    obtain ⟨hc, hn, hp⟩ := h
    obtain ⟨w1, w2, w3⟩ := works_plans shrink R L ps hp
    refine ⟨?_, wf_arr _ (by simp) ⟨wf_nat _ (by omega), valColl_wf R c hc, wf_arr _ (by rw [valPlans_length]; exact hn) w2, trivial⟩, ?_⟩
    · simp only [writePlan, w1, Res.bind, valPlan, writeColl_eq]
      rw [hdr_eq ps.length (valPlans shrink ps) (valPlans_length shrink ps) _ rfl]
      exact congrArg Res.ok (arrayOf_eq 3 [.uint 0, valColl c, .arr (valPlans shrink ps)] rfl)
    · simp only [valPlan, readPlan, readPlanParts]
      rw [if_pos (by rfl), readColl_val R L.toStrict c hc, w3]
      rfl
  | .createCollection c cols, h => by
    simp only [Plan.ok] at h
    refine ⟨?_, wf_arr _ (by simp) ⟨wf_nat _ (by omega), valColl_wf R c h.1, trivial⟩, empty_docs shrink R L c cols h.1 h.2⟩
    simp only [writePlan, valPlan, writeColl_eq]
    exact congrArg Res.ok (arrayOf_eq 2 [.uint 1, valColl c] rfl)
  | .createDatabase c, h => by
    simp only [Plan.ok] at h
    refine ⟨?_, wf_arr _ (by simp) ⟨wf_nat _ (by omega), valColl_wf R c h, trivial⟩, ?_⟩
    · simp only [writePlan, valPlan, writeColl_eq]
      exact congrArg Res.ok (arrayOf_eq 2 [.uint 2, valColl c] rfl)
    · simp only [valPlan, readPlan, readPlanParts, readFlat]
      rw [if_neg (by decide), if_pos (by rfl), readColl_val R L.toStrict c h]
      rfl
  | .createIndex t c n ks, h => by
    simp only [Plan.ok] at h
    obtain ⟨ht, hc, hn, hl, hk⟩ := h
    refine ⟨?_, wf_arr _ (by simp) ⟨wf_nat _ (by omega), wf_nat _ (by omega), valColl_wf R c hc, ?_, wf_arr _ (by simpa using hl) (wf_list _ ?_), trivial⟩, ?_⟩
    · simp only [writePlan, valPlan, writeColl_eq, writeKeys_eq]
      exact congrArg Res.ok (arrayOf_eq 5 [.uint 3, .uint t, valColl c, .str n, .arr (ks.map valKey)] rfl)
    · show n.length < 2 ^ 32; omega
    · intro v hv
      obtain ⟨k, hk', rfl⟩ := List.mem_map.mp hv
      exact valKey_wf k (L.key k (hk k hk'))
    · have hf : readPlan (valPlan shrink (.createIndex t c n ks)) = if byteOf 3 = 3 then (readColl (valColl c)).bind fun c => .ok (.createIndex (byteOf t) c n ((ks.map valKey).map readKey)) else .ub := rfl
      rw [hf, if_pos (by rfl), readColl_val R L.toStrict c hc, readKeys_val R L.toStrict ks hk, byteOf_small t ht]
      rfl
  | .data ds, h => by
    simp only [Plan.ok] at h
    obtain ⟨hl, hd⟩ := h
    obtain ⟨d1, d2, d3⟩ := readDocs_val shrink ds fun d hd' => ⟨(hd d hd').1, (hd d hd').2.1, L.doc d (hd d hd').2.2⟩
    refine ⟨?_, wf_arr _ (by simp) ⟨wf_nat _ (by omega), wf_arr _ (by rw [valI_length]; exact hl) d2, trivial⟩, ?_⟩
    · simp only [writePlan, valPlan, packAll]
      rw [hdr_eq ds.length (valI shrink ds) (valI_length shrink ds) _ d1]
      exact congrArg Res.ok (arrayOf_eq 2 [.uint 4, .arr (valI shrink ds)] rfl)
    · simp only [valPlan, readPlan, readPlanParts, readFlat]
      rw [if_neg (by decide), if_neg (by decide), if_neg (by decide), if_neg (by decide), if_pos (by rfl), d3]
      rfl
  | .chunk, h => by simp only [Plan.ok] at h; exact (L.lost h).elim
  | .delete c s m l, h => by
    simp only [Plan.ok] at h
    obtain ⟨hc, hs, hm, hl⟩ := h
    obtain ⟨m1, m2, m3⟩ := works_match R L.toStrict m hm
    obtain ⟨l1, l2, l3⟩ := works_limit R L.toStrict l hl
    refine ⟨?_, wf_arr _ (by simp) ⟨wf_nat _ (by omega), valColl_wf R c hc, wf_arr _ (by simp) ⟨m2, l2, trivial⟩, trivial⟩, ?_⟩
    · simp only [writePlan, m1, l1, Res.bind, valPlan, writeColl_eq]
      have := arrayOf_eq 2 [valMatch m, valLimit l] rfl
      simp only [List.map_cons, List.map_nil] at this
      rw [this]
      exact congrArg Res.ok (arrayOf_eq 3 [.uint 5, valColl c, .arr [valMatch m, valLimit l]] rfl)
    · rcases hs with rfl | hs
      · have hf : readPlan (valPlan shrink (.delete c Coll.nothing m l)) =
            (readColl (valColl c)).bind fun c => (readMatch (valMatch m)).bind fun m => (readLimit (valLimit l)).bind fun l =>
              .ok (.delete c ⟨[], [], [], []⟩ m l) := by
          simp only [valPlan, readPlan, readPlanParts]
          rw [if_neg (by decide)]
          simp only [valColl, readFlat]
          rfl
        rw [hf, readColl_val R L.toStrict c hc, m3, l3]
        rfl
      · exact (L.lost hs.1).elim
  | .dropCollection c, h => by
    simp only [Plan.ok] at h
    refine ⟨?_, wf_arr _ (by simp) ⟨wf_nat _ (by omega), valColl_wf R c h, trivial⟩, ?_⟩
    · simp only [writePlan, valPlan, writeColl_eq]
      exact congrArg Res.ok (arrayOf_eq 2 [.uint 6, valColl c] rfl)
    · simp only [valPlan, readPlan, readPlanParts, readFlat]
      rw [if_neg (by decide), if_neg (by decide), if_pos (by rfl), readColl_val R L.toStrict c h]
      rfl
  | .dropDatabase c, h => by
    simp only [Plan.ok] at h
    refine ⟨?_, wf_arr _ (by simp) ⟨wf_nat _ (by omega), valColl_wf R c h, trivial⟩, ?_⟩
    · simp only [writePlan, valPlan, writeColl_eq]
      exact congrArg Res.ok (arrayOf_eq 2 [.uint 7, valColl c] rfl)
    · simp only [valPlan, readPlan, readPlanParts, readFlat]
      rw [if_neg (by decide), if_neg (by decide), if_neg (by decide), if_pos (by rfl), readColl_val R L.toStrict c h]
      rfl
  | .dropIndex c n, h => by
    simp only [Plan.ok] at h
    refine ⟨?_, wf_arr _ (by simp) ⟨wf_nat _ (by omega), valColl_wf R c h.1, ?_, trivial⟩, ?_⟩
    · simp only [writePlan, valPlan, writeColl_eq]
      exact congrArg Res.ok (arrayOf_eq 3 [.uint 8, valColl c, .str n] rfl)
    · show n.length < 2 ^ 32; omega
    · simp only [valPlan, readPlan, readPlanParts, readFlat]
      rw [if_pos (by rfl), readColl_val R L.toStrict c h.1]
      rfl
  | .insert c ps tr, h => by
    simp only [Plan.ok] at h
    obtain ⟨hc, hn, hp, ht, hk⟩ := h
    obtain ⟨w1, w2, w3⟩ := works_plans shrink R L ps hp
    refine ⟨?_, wf_arr _ (by simp) ⟨wf_nat _ (by omega), valColl_wf R c hc, wf_arr _ (by rw [valPlans_length]; exact hn) w2, wf_arr _ (by simpa using ht) (wf_list _ ?_), trivial⟩, ?_⟩
    · simp only [writePlan, w1, Res.bind, valPlan, writeColl_eq, writeTranslation_eq]
      rw [hdr_eq ps.length (valPlans shrink ps) (valPlans_length shrink ps) _ rfl]
      exact congrArg Res.ok (arrayOf_eq 4 [.uint 9, valColl c, .arr (valPlans shrink ps), .arr (tr.map valPair)] rfl)
    · intro v hv
      obtain ⟨p, hp', rfl⟩ := List.mem_map.mp hv
      exact wf_arr _ (by simp) ⟨valKey_wf _ (L.key _ (hk p hp').1), valKey_wf _ (L.key _ (hk p hp').2), trivial⟩
    · simp only [valPlan, readPlan, readPlanParts, readChildren]
      rw [if_pos (by rfl), readColl_val R L.toStrict c hc, w3, readTranslation_val R L.toStrict tr hk]
      rfl
  | .join t c ps on, h => by
    simp only [Plan.ok] at h
    obtain ⟨ht, hc, hn, hp, ho⟩ := h
    obtain ⟨w1, w2, w3⟩ := works_plans shrink R L ps hp
    refine ⟨?_, wf_arr _ (by simp) ⟨wf_nat _ (by omega), wf_nat _ (by omega), valColl_wf R c hc, wf_arr _ (by rw [valPlans_length]; exact hn) w2, trivial⟩, ?_⟩
    · simp only [writePlan, w1, Res.bind, valPlan, writeColl_eq]
      rw [hdr_eq ps.length (valPlans shrink ps) (valPlans_length shrink ps) _ rfl]
      exact congrArg Res.ok (arrayOf_eq 4 [.uint 10, .uint t, valColl c, .arr (valPlans shrink ps)] rfl)
    · rcases ho with rfl | ho
      · simp only [valPlan, readPlan, readPlanParts, readSide]
        rw [if_neg (by decide), if_pos (by rfl), byteOf_small t ht, readColl_val R L.toStrict c hc, w3]
        rfl
      · exact (L.lost ho.1).elim
  | .limit l, h => by
    simp only [Plan.ok] at h
    obtain ⟨l1, l2, l3⟩ := works_limit R L.toStrict l h
    refine ⟨by simp only [writePlan, valPlan, l1], l2, ?_⟩
    have hf : readPlan (valLimit l) = (readLimit (valLimit l)).bind fun l => .ok (.limit l) := by
      unfold valLimit packInt
      split <;> simp only [readPlan, readPlanParts, valColl, readFlat] <;> rw [if_pos (by rfl)]
    simp only [valPlan, hf, l3]
    rfl
  | .filter m, h => by
    simp only [Plan.ok] at h
    obtain ⟨m1, m2, m3⟩ := works_match R L.toStrict m h
    refine ⟨by simp only [writePlan, valPlan, m1], m2, ?_⟩
    have hf : readPlan (valMatch m) = (readMatch (valMatch m)).bind fun m => .ok (.filter m) := by
      obtain ⟨c, es⟩ := m
      cases es with
      | nil => rfl
      | cons e es =>
        have : ∃ vs, valExpr e = .arr vs := by cases e <;> exact ⟨_, rfl⟩
        obtain ⟨vs, hvs⟩ := this
        simp only [valMatch, hvs, readPlan, readPlanParts]
        rw [if_neg (by decide)]
        simp only [valColl, readFlat]
        rw [if_neg (by decide), if_pos (by rfl)]
    simp only [valPlan, hf, m3]
    rfl
  | .group c es, h => by
    simp only [Plan.ok] at h
    obtain ⟨hc, hl, he⟩ := h
    obtain ⟨e1, e2⟩ := works_exprs R L.toStrict es he
    refine ⟨?_, wf_arr _ (by simp) ⟨wf_nat _ (by omega), valColl_wf R c hc, wf_arr _ (by rw [valExprs_length]; exact hl) e1, trivial⟩, ?_⟩
    · simp only [writePlan, valPlan, writeColl_eq, writeExprArray]
      rw [hdr_eq es.length (valExprs es) (valExprs_length es) _ (writeExprs_eq es)]
      exact congrArg Res.ok (arrayOf_eq 3 [.uint 13, valColl c, .arr (valExprs es)] rfl)
    · have hf : readPlan (valPlan shrink (.group c es)) =
          (readColl (valColl c)).bind fun c => (readExprs (valExprs es)).bind fun es => .ok (.group c es) := by
        simp only [valPlan, readPlan, readPlanParts]
        rw [if_neg (by decide)]
        simp only [valColl, readFlat]
        rw [if_neg (by decide), if_neg (by decide), if_pos (by rfl)]
      rw [hf, readColl_val R L.toStrict c hc, e2]
      rfl
  | .sort c es, h => by
    simp only [Plan.ok] at h
    obtain ⟨hc, hl, he⟩ := h
    obtain ⟨e1, e2⟩ := works_exprs R L.toStrict es he
    refine ⟨?_, wf_arr _ (by simp) ⟨wf_nat _ (by omega), valColl_wf R c hc, wf_arr _ (by rw [valExprs_length]; exact hl) e1, trivial⟩, ?_⟩
    · simp only [writePlan, valPlan, writeColl_eq, writeExprArray]
      rw [hdr_eq es.length (valExprs es) (valExprs_length es) _ (writeExprs_eq es)]
      exact congrArg Res.ok (arrayOf_eq 3 [.uint 14, valColl c, .arr (valExprs es)] rfl)
    · have hf : readPlan (valPlan shrink (.sort c es)) =
          (readColl (valColl c)).bind fun c => (readExprs (valExprs es)).bind fun es => .ok (.sort c es) := by
        simp only [valPlan, readPlan, readPlanParts]
        rw [if_neg (by decide)]
        simp only [valColl, readFlat]
        rw [if_neg (by decide), if_neg (by decide), if_neg (by decide), if_pos (by rfl)]
      rw [hf, readColl_val R L.toStrict c hc, e2]
      rfl
  | .function n is, h => by
    simp only [Plan.ok] at h
    obtain ⟨hn, hl, hi⟩ := h
    refine ⟨?_, wf_arr _ (by simp) ⟨wf_nat _ (by omega), ?_, wf_arr _ (by simpa using hl) (wf_list _ ?_), trivial⟩, ?_⟩
    · simp only [writePlan, valPlan, writeIds_eq]
      exact congrArg Res.ok (arrayOf_eq 3 [.uint 15, .str n, .arr (is.map .uint)] rfl)
    · show n.length < 2 ^ 32; omega
    · intro v hv
      obtain ⟨i, hi', rfl⟩ := List.mem_map.mp hv
      exact wf_nat i (hi i hi')
    · simp only [valPlan, readPlan, readPlanParts]
      rw [if_neg (by decide)]
      simp only [readFlat]
      rw [if_pos (by rfl), readIds_val is hi]
      rfl
  | .update c s m l us up, h => by
    simp only [Plan.ok] at h
    obtain ⟨hc, hs, hm, hl, hn, hu⟩ := h
    obtain ⟨m1, m2, m3⟩ := works_match R L.toStrict m hm
    obtain ⟨l1, l2, l3⟩ := works_limit R L.toStrict l hl
    obtain ⟨u1, u2, u3⟩ := works_upds R L.toStrict us hu
    refine ⟨?_, wf_arr _ (by simp) ⟨wf_nat _ (by omega), valColl_wf R c hc, valColl_wf R s hs, wf_arr _ (by simp) ⟨m2, l2, trivial⟩, wf_arr _ (by simpa using hn) u2, trivial, trivial⟩, ?_⟩
    · simp only [writePlan, m1, l1, u1, Res.bind, valPlan, writeColl_eq]
      have := arrayOf_eq 2 [valMatch m, valLimit l] rfl
      simp only [List.map_cons, List.map_nil] at this
      rw [this, hdr_eq us.length (us.map valUpd) (by simp) _ rfl]
      exact congrArg Res.ok (arrayOf_eq 6 [.uint 16, valColl c, valColl s, .arr [valMatch m, valLimit l], .arr (us.map valUpd), .bool up] rfl)
    · have hf : readPlan (valPlan shrink (.update c s m l us up)) = if byteOf 16 = 16 then
          (readColl (valColl c)).bind fun c => (readColl (valColl s)).bind fun s => (readMatch (valMatch m)).bind fun m => (readLimit (valLimit l)).bind fun l =>
            (readUpds (us.map valUpd)).bind fun us => .ok (.update c s m l us up) else .ub := rfl
      rw [hf, if_pos (by rfl), readColl_val R L.toStrict c hc, readColl_val R L.toStrict s hs, m3, l3, u3]
      rfl
theorem works_plans (shrink : Bool) (R : Rules) (L : Lets shrink R) : ∀ ps : List Plan, Plan.oks R ps →
    writePlans shrink ps = .ok (encodeList (valPlans shrink ps)) ∧ WFList (valPlans shrink ps) ∧
    readPlans (valPlans shrink ps) = .ok (Plan.mapDocsOf (backN shrink) ps)
  | [], _ => ⟨rfl, trivial, rfl⟩
  | p :: ps, h => by
    simp only [Plan.oks] at h
    obtain ⟨h1, h2, h3⟩ := works_plan shrink R L p h.1
    obtain ⟨i1, i2, i3⟩ := works_plans shrink R L ps h.2
    refine ⟨?_, ⟨h2, i2⟩, ?_⟩
    · simp only [writePlans, h1, i1, Res.bind, valPlans, encodeList]
    · simp only [valPlans, readPlans, h3, i3, Res.bind, Plan.mapDocsOf]
end

/-! ### parameters and records -/

theorem writeParams_eq (shrink : Bool) (ps : Params) (h : ∀ p ∈ ps, p.2.valid ∧ Carried shrink p.2) :
    writeParams shrink ps = encode (valParams shrink ps) := by
  have hi : encArrHdr ps.length ++ (ps.map (writeParam shrink)).flatten = encode (.arr (ps.map (valParam shrink))) := by
    refine hdr_eq _ _ (by simp) _ ?_
    rw [encodeList_eq, List.map_map]
    congr 1
    refine List.map_congr_left fun p hp => ?_
    simp only [writeParam, packV_eq shrink p.2 (h p hp).1 (h p hp).2]
    exact arrayOf_eq 2 [.uint p.1, valV shrink p.2] rfl
  simp only [writeParams, hi]
  exact arrayOf_eq 2 [.uint 22, .arr (ps.map (valParam shrink))] rfl

/-- What comes back of parameters. -/
def backParams (shrink : Bool) (ps : Params) : Params := ps.map fun p => (p.1, backV shrink p.2)

theorem readParamsLoop_val (shrink : Bool) (ps : Params) (acc : Params)
    (h : ∀ p ∈ ps, p.1 < 65536 ∧ p.2.valid ∧ (∀ s, p.2 = .str s → s.length < 2 ^ 31) ∧ Carried shrink p.2)
    (hn : (acc.map Prod.fst ++ ps.map Prod.fst).Nodup) :
    readParamsLoop acc (ps.map (valParam shrink)) = .ok (acc ++ backParams shrink ps) := by
  induction ps generalizing acc with
  | nil => simp [readParamsLoop, backParams]
  | cons p ps ih =>
    obtain ⟨i, v⟩ := p
    obtain ⟨h1, h2, h3, h4⟩ := h (i, v) (by simp)
    simp only at h1 h2 h3 h4
    have hp := put_back shrink v h2 h3 h4
    unfold backV at hp
    simp only [List.map_cons, valParam, readParamsLoop, hp, Res.bind, idOf_small i h1]
    have hni : i ∉ acc.map Prod.fst := by
      intro hm
      exact (List.nodup_append.mp hn).2.2 i hm i (by simp) rfl
    have ha : addParam acc i (primitive (valV shrink v)) = acc ++ [(i, backV shrink v)] := by
      unfold addParam
      rw [if_neg hni]
      rfl
    have hn' : ((acc ++ [(i, backV shrink v)]).map Prod.fst ++ ps.map Prod.fst).Nodup := by
      simpa using hn
    have e : (ps.map fun p => Val.arr [.uint p.1, valV shrink p.2]) = ps.map (valParam shrink) := rfl
    rw [ha]
    have := ih (acc ++ [(i, backV shrink v)]) (fun x hx => h x (by simp [hx])) hn'
    rw [List.append_assoc] at this
    exact this

theorem works_params (shrink : Bool) (R : Rules) (L : Lets shrink R) (ps : Params) (h : Params.ok R ps) :
    writeParams shrink ps = encode (valParams shrink ps) ∧ WF (valParams shrink ps) ∧
    readParams (valParams shrink ps) = .ok (backParams shrink ps) := by
  obtain ⟨hl, hn, hp⟩ := h
  refine ⟨writeParams_eq shrink ps fun p hp' => ⟨(hp p hp').2.1, L.val _ (hp p hp').2.2.2⟩, ?_, ?_⟩
  · refine wf_arr _ (by simp) ⟨wf_nat _ (by omega), wf_arr _ (by simpa using hl) (wf_list _ ?_), trivial⟩
    intro v hv
    obtain ⟨p, hp', rfl⟩ := List.mem_map.mp hv
    obtain ⟨h1, h2, h3, h4⟩ := hp p hp'
    exact wf_arr _ (by simp) ⟨wf_nat _ h1, valV_wf shrink p.2 h2 h3, trivial⟩
  · have := readParamsLoop_val shrink ps [] (fun p hp' => ⟨(hp p hp').1, (hp p hp').2.1, (hp p hp').2.2.1, L.val _ (hp p hp').2.2.2⟩)
      (by simpa using hn)
    exact this

theorem works_entry (shrink : Bool) (R : Rules) (L : Lets shrink R) (crc id : Nat) (p : Plan) (ps : Params)
    (hc : crc < 2 ^ 32) (hi : id < 2 ^ 64) (hp : p.ok R) (hps : Params.ok R ps) :
    ∃ b, writeEntry shrink crc id p ps = .ok b ∧
      ∀ r, readEntry (b ++ r) = .ok ⟨crc, id, p.mapDocs (backN shrink), backParams shrink ps⟩ := by
  obtain ⟨p1, p2, p3⟩ := works_plan shrink R L p hp
  obtain ⟨q1, q2, q3⟩ := works_params shrink R L ps hps
  refine ⟨encode (.arr [.uint crc, .uint id, valPlan shrink p, valParams shrink ps]), ?_, fun r => ?_⟩
  · simp only [writeEntry, p1, q1, Res.bind]
    exact congrArg Res.ok (arrayOf_eq 4 [.uint crc, .uint id, valPlan shrink p, valParams shrink ps] rfl)
  · unfold readEntry
    have hwf : WF (.arr [.uint crc, .uint id, valPlan shrink p, valParams shrink ps]) :=
      wf_arr _ (by simp) ⟨show crc < 2 ^ 64 by omega, hi, p2, q2, trivial⟩
    rw [unpack_encode _ r hwf]
    simp only [readEntryParts, p3, q3, Res.bind]
    rw [Nat.mod_eq_of_lt hc]

/-! ### what is alike and what is the same -/

mutual
theorem docs_ok (R : Rules) : ∀ p : Plan, p.ok R → ∀ d ∈ p.docs, Valid d ∧ R.doc d
  | .data ds, h, d, hd => by
    simp only [Plan.ok] at h
    simp only [Plan.docs] at hd
    exact (h.2 d hd).2
  | .aggregate c ps, h, d, hd => by
    simp only [Plan.ok] at h
    simp only [Plan.docs] at hd
    exact docsOf_ok R ps h.2.2 d hd
  | .insert c ps tr, h, d, hd => by
    simp only [Plan.ok] at h
    simp only [Plan.docs] at hd
    exact docsOf_ok R ps h.2.2.1 d hd
  | .join t c ps on, h, d, hd => by
    simp only [Plan.ok] at h
    simp only [Plan.docs] at hd
    exact docsOf_ok R ps h.2.2.2.1 d hd
  | .createCollection _ _, _, d, hd => by simp [Plan.docs] at hd
  | .createDatabase _, _, d, hd => by simp [Plan.docs] at hd
  | .createIndex _ _ _ _, _, d, hd => by simp [Plan.docs] at hd
  | .chunk, _, d, hd => by simp [Plan.docs] at hd
  | .delete _ _ _ _, _, d, hd => by simp [Plan.docs] at hd
  | .dropCollection _, _, d, hd => by simp [Plan.docs] at hd
  | .dropDatabase _, _, d, hd => by simp [Plan.docs] at hd
  | .dropIndex _ _, _, d, hd => by simp [Plan.docs] at hd
  | .limit _, _, d, hd => by simp [Plan.docs] at hd
  | .filter _, _, d, hd => by simp [Plan.docs] at hd
  | .group _ _, _, d, hd => by simp [Plan.docs] at hd
  | .sort _ _, _, d, hd => by simp [Plan.docs] at hd
  | .function _ _, _, d, hd => by simp [Plan.docs] at hd
  | .update _ _ _ _ _ _, _, d, hd => by simp [Plan.docs] at hd
theorem docsOf_ok (R : Rules) : ∀ ps : List Plan, Plan.oks R ps → ∀ d ∈ Plan.docsOf ps, Valid d ∧ R.doc d
  | [], _, d, hd => by simp [Plan.docsOf] at hd
  | p :: ps, h, d, hd => by
    simp only [Plan.oks] at h
    simp only [Plan.docsOf, List.mem_append] at hd
    rcases hd with hd | hd
    · exact docs_ok R p h.1 d hd
    · exact docsOf_ok R ps h.2 d hd
end

mutual
theorem mapDocs_same (f : Node → Node) : ∀ p : Plan, (∀ d ∈ p.docs, f d = d) → p.mapDocs f = p
  | .data ds, h => by
    simp only [Plan.docs] at h
    simp only [Plan.mapDocs]
    congr 1
    conv => rhs; rw [← List.map_id ds]
    exact List.map_congr_left h
  | .aggregate c ps, h => by
    simp only [Plan.docs] at h
    simp only [Plan.mapDocs, mapDocsOf_same f ps h]
  | .insert c ps tr, h => by
    simp only [Plan.docs] at h
    simp only [Plan.mapDocs, mapDocsOf_same f ps h]
  | .join t c ps on, h => by
    simp only [Plan.docs] at h
    simp only [Plan.mapDocs, mapDocsOf_same f ps h]
  | .createCollection _ _, _ => rfl
  | .createDatabase _, _ => rfl
  | .createIndex _ _ _ _, _ => rfl
  | .chunk, _ => rfl
  | .delete _ _ _ _, _ => rfl
  | .dropCollection _, _ => rfl
  | .dropDatabase _, _ => rfl
  | .dropIndex _ _, _ => rfl
  | .limit _, _ => rfl
  | .filter _, _ => rfl
  | .group _ _, _ => rfl
  | .sort _ _, _ => rfl
  | .function _ _, _ => rfl
  | .update _ _ _ _ _ _, _ => rfl
theorem mapDocsOf_same (f : Node → Node) : ∀ ps : List Plan, (∀ d ∈ Plan.docsOf ps, f d = d) → Plan.mapDocsOf f ps = ps
  | [], _ => rfl
  | p :: ps, h => by
    simp only [Plan.docsOf, List.mem_append] at h
    simp only [Plan.mapDocsOf]
    rw [mapDocs_same f p fun d hd => h d (.inl hd), mapDocsOf_same f ps fun d hd => h d (.inr hd)]
end

theorem lets_kept (shrink : Bool) : Lets shrink (kept shrink) :=
  { key := fun _ h => h, lost := fun h => h, doc := fun _ h => h.mono (kept_carried shrink), val := fun v h => kept_carried shrink v h }

theorem params_alike (shrink : Bool) (ps : Params) (h : ∀ p ∈ ps, Carried shrink p.2) : Params.Alike ps (backParams shrink ps) := by
  induction ps with
  | nil => exact .nil
  | cons p ps ih => exact .cons ⟨rfl, same_back shrink p.2 (h p (by simp))⟩ (ih fun x hx => h x (by simp [hx]))

theorem params_same (shrink : Bool) (ps : Params) (h : ∀ p ∈ ps, p.2.valid ∧ Kept shrink p.2) : backParams shrink ps = ps := by
  induction ps with
  | nil => rfl
  | cons p ps ih =>
    have hp := h p (by simp)
    have := ih fun x hx => h x (by simp [hx])
    simp only [backParams, List.map_cons] at this ⊢
    rw [this, kept_back shrink p.2 hp.1 hp.2]

end Verif.PlanPack
