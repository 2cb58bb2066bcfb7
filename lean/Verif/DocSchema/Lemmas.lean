import Verif.DocSchema.Spec
import Verif.CompSchema.Props
/-!
Lemmas for C104: what was executed and has not reached the schemas, and the counts it will lead to.
-/
namespace Verif.DocSchema
open Verif.CompSchema
set_option linter.unusedSectionVars false
set_option linter.unusedSimpArgs false
variable {E V C : Type} [LinearOrder E] [DecidableEq V] [DecidableEq C]

theorem set_same {K X : Type} [DecidableEq K] (m : K → X) (k : K) (x : X) : set m k x k = x := if_pos rfl

theorem set_other {K X : Type} [DecidableEq K] (m : K → X) (k : K) (x : X) {j : K} (h : j ≠ k) : set m k x j = m j := if_neg h

/-! ## Counting -/

/-- Names and types of the fields of documents. -/
def pairs (l : List (Doc E V)) : List (List E × V) := l.flatMap Doc.fields

/-- The number a tally has for a name and a type. -/
def total (t : Tally E V) (k : List E × V) : Nat := (t.map fun x => if x.1 = k then x.2 else 0).sum

theorem total_bump (k j : List E × V) (t : Tally E V) : total (bump k t) j = total t j + if k = j then 1 else 0 := by
  induction t with
  | nil => simp [bump, total]
  | cons x t ih =>
    obtain ⟨i, n⟩ := x
    unfold bump
    by_cases h : i = k
    · rw [if_pos h]
      subst h
      by_cases e : i = j
      · simp [total, e]; omega
      · simp [total, e]
    · rw [if_neg h]
      have : total ((i, n) :: bump k t) j = (if i = j then n else 0) + total (bump k t) j := by simp [total]
      rw [this, ih]
      have : total ((i, n) :: t) j = (if i = j then n else 0) + total t j := by simp [total]
      rw [this]; omega

theorem total_fold (l : List (List E × V)) (j : List E × V) : ∀ t : Tally E V, total (l.foldl (fun t k => bump k t) t) j = total t j + l.count j := by
  induction l with
  | nil => intro t; simp
  | cons k l ih =>
    intro t
    rw [List.foldl_cons, ih, total_bump, List.count_cons]
    by_cases h : k = j
    · subst h; simp; omega
    · simp [h]

theorem total_tally (l : List (Doc E V)) (j : List E × V) : total (tally l) j = (pairs l).count j := by
  unfold tally
  rw [total_fold]
  simp [total, pairs]

theorem keys_bump (k : List E × V) (t : Tally E V) : ∀ x ∈ bump k t, x.1 = k ∨ ∃ y ∈ t, y.1 = x.1 := by
  induction t with
  | nil => intro x hx; exact .inl (by rw [List.mem_singleton.mp hx])
  | cons a t ih =>
    obtain ⟨i, n⟩ := a
    intro x hx
    unfold bump at hx
    split at hx
    · rename_i h
      rcases List.mem_cons.mp hx with hx | hx
      · exact .inl (by rw [hx]; exact h)
      · exact .inr ⟨x, List.mem_cons_of_mem _ hx, rfl⟩
    · rcases List.mem_cons.mp hx with hx | hx
      · exact .inr ⟨(i, n), List.mem_cons_self, by rw [hx]⟩
      · rcases ih x hx with h | ⟨y, h1, h2⟩
        · exact .inl h
        · exact .inr ⟨y, List.mem_cons_of_mem _ h1, h2⟩

theorem keys_tally (l : List (Doc E V)) : ∀ x ∈ tally l, x.1 ∈ pairs l := by
  suffices h : ∀ (ps : List (List E × V)) (t : Tally E V), ∀ x ∈ ps.foldl (fun t k => bump k t) t, x.1 ∈ ps ∨ ∃ y ∈ t, y.1 = x.1 by
    intro x hx
    rcases h (pairs l) [] x hx with h | ⟨_, h, _⟩
    · exact h
    · exact absurd h (by simp)
  intro ps
  induction ps with
  | nil => intro t x hx; exact .inr ⟨x, hx, rfl⟩
  | cons k ps ih =>
    intro t x hx
    rcases ih (bump k t) x hx with h | ⟨y, h1, h2⟩
    · exact .inl (List.mem_cons_of_mem _ h)
    · rcases keys_bump k t y h1 with h | ⟨z, h3, h4⟩
      · exact .inl (by rw [← h2, h]; exact List.mem_cons_self)
      · exact .inr ⟨z, h3, h4.trans h2⟩

theorem count_filter (l : List (Doc E V)) (p : Doc E V → Bool) (j : List E × V) :
    (pairs (l.filter fun d => !p d)).count j + (pairs (l.filter p)).count j = (pairs l).count j := by
  induction l with
  | nil => rfl
  | cons d l ih =>
    unfold pairs at ih ⊢
    cases h : p d with
    | true => simp [h] at ih ⊢; omega
    | false => simp [h] at ih ⊢; omega

theorem count_snocs (O : List (Op E V)) (l : List (List E × V)) (n : List E) (ty : V) :
    count (O ++ l.map fun k => Op.append k.1 k.2) n ty = count O n ty + l.count (n, ty) := by
  induction l using List.reverseRecOn with
  | nil => simp
  | append_singleton l k ih =>
    rw [List.map_append, ← List.append_assoc]
    show count ((O ++ l.map fun k => Op.append k.1 k.2) ++ [Op.append k.1 k.2]) n ty = _
    rw [count_snoc]
    show (if n = k.1 ∧ ty = k.2 then _ else _) = _
    rw [ih, List.count_append]
    by_cases h : n = k.1 ∧ ty = k.2
    · rw [if_pos h, h.1, h.2]; simp; omega
    · rw [if_neg h]
      have : ¬ k = (n, ty) := fun e => h (by rw [e]; exact ⟨rfl, rfl⟩)
      simp [this]

theorem count_drops (t : Tally E V) : ∀ (O : List (Op E V)) (n : List E) (ty : V),
    count (O ++ t.map fun k => Op.drop k.1.1 k.1.2 k.2) n ty = count O n ty - total t (n, ty) := by
  induction t using List.reverseRecOn with
  | nil => intro O n ty; simp [total]
  | append_singleton t k ih =>
    intro O n ty
    rw [List.map_append, ← List.append_assoc]
    show count ((O ++ t.map fun k => Op.drop k.1.1 k.1.2 k.2) ++ [Op.drop k.1.1 k.1.2 k.2]) n ty = _
    rw [count_snoc]
    show (if n = k.1.1 ∧ ty = k.1.2 then _ - _ else _) = _
    rw [ih]
    have ht : total (t ++ [k]) (n, ty) = total t (n, ty) + if k.1 = (n, ty) then k.2 else 0 := by simp [total]
    rw [ht]
    by_cases h : n = k.1.1 ∧ ty = k.1.2
    · rw [if_pos h, if_pos (show k.1 = (n, ty) by rw [h.1, h.2])]; omega
    · rw [if_neg h, if_neg (fun e => h (by rw [e]; exact ⟨rfl, rfl⟩))]; omega

theorem after_appends (l : List (List E × V)) : ∀ O : List (Op E V), NoThrow (O ++ l.map fun k => Op.append k.1 k.2) →
    appendAll (after O) l = (after (O ++ l.map fun k => Op.append k.1 k.2), false) := by
  induction l with
  | nil => intro O _; simp [appendAll]
  | cons k l ih =>
    intro O h
    obtain ⟨n, ty⟩ := k
    have h1 : ((after O).append n ty).2 = false := h O (l.map fun k => Op.append k.1 k.2) n ty (by simp)
    have h2 : ((after O).append n ty).1 = after (O ++ [Op.append n ty]) := by rw [after_snoc]; rfl
    unfold appendAll
    simp only [h1, Bool.false_eq_true, if_false, h2]
    rw [ih (O ++ [Op.append n ty]) (by rw [List.append_assoc]; exact h), List.append_assoc]
    rfl

theorem after_drops (t : Tally E V) : ∀ O : List (Op E V), dropAll (after O) t = after (O ++ t.map fun k => Op.drop k.1.1 k.1.2 k.2) := by
  induction t with
  | nil => intro O; simp [dropAll]
  | cons k t ih =>
    intro O
    have h2 : (after O).dropN k.1.1 k.1.2 k.2 = after (O ++ [Op.drop k.1.1 k.1.2 k.2]) := by rw [after_snoc]; rfl
    show dropAll ((after O).dropN k.1.1 k.1.2 k.2) t = _
    rw [h2, ih, List.append_assoc]
    rfl

/-! ## What is on its way -/

inductive Item (E V : Type) where
  | ins (l : List (List E × V))
  | del (t : Tally E V)
  | upd

def Done.item : Done E V → Item E V
  | .insert docs => .ins (pairs docs)
  | .delete t => .del t
  | .update => .upd

def Logged.item (slot : Tally E V) : Logged E V → Item E V
  | .insert docs => .ins (pairs docs)
  | .delete => .del slot
  | .update => .upd

def items (s : Sys E V C) : List (C × Item E V) :=
  s.logged.map (fun x => (x.1, x.2.item s.slot)) ++ s.done.map fun x => (x.1, x.2.item)

abbrev Counts (E V C : Type) := C → List E → V → Nat

def plus (K : Counts E V C) (c : C) (l : List (List E × V)) : Counts E V C := fun x n ty => if x = c then K x n ty + l.count (n, ty) else K x n ty

def minus (K : Counts E V C) (c : C) (t : Tally E V) : Counts E V C := fun x n ty => if x = c then K x n ty - total t (n, ty) else K x n ty

/-- The counts of the schemas lead to those of the documents. -/
def Runs (K : Counts E V C) : List (C × Item E V) → Counts E V C → Prop
  | [], S => K = S
  | (c, .ins l) :: r, S => Runs (plus K c l) r S
  | (c, .del t) :: r, S => (∀ n ty, total t (n, ty) ≤ K c n ty) ∧ Runs (minus K c t) r S
  | (_, .upd) :: r, S => Runs K r S

theorem runs_ins (L : List (C × Item E V)) : ∀ (K S : Counts E V C) (c : C) (l : List (List E × V)), Runs K L S → Runs K (L ++ [(c, .ins l)]) (plus S c l) := by
  induction L with
  | nil => intro K S c l h; have h : K = S := h; subst h; exact rfl
  | cons x L ih =>
    intro K S c l h
    obtain ⟨c', i⟩ := x
    cases i with
    | ins l' => exact ih _ _ c l h
    | del t => exact ⟨h.1, ih _ _ c l h.2⟩
    | upd => exact ih _ _ c l h

theorem runs_del (L : List (C × Item E V)) : ∀ (K S : Counts E V C) (c : C) (t : Tally E V), (∀ n ty, total t (n, ty) ≤ S c n ty) → Runs K L S →
    Runs K (L ++ [(c, .del t)]) (minus S c t) := by
  induction L with
  | nil => intro K S c t ht h; have h : K = S := h; subst h; exact ⟨ht, rfl⟩
  | cons x L ih =>
    intro K S c t ht h
    obtain ⟨c', i⟩ := x
    cases i with
    | ins l' => exact ih _ _ c t ht h
    | del t' => exact ⟨h.1, ih _ _ c t ht h.2⟩
    | upd => exact ih _ _ c t ht h

theorem runs_upd (L : List (C × Item E V)) : ∀ (K S : Counts E V C) (c : C), Runs K L S → Runs K (L ++ [(c, .upd)]) S := by
  induction L with
  | nil => intro K S c h; exact h
  | cons x L ih =>
    intro K S c h
    obtain ⟨c', i⟩ := x
    cases i with
    | ins l' => exact ih _ _ c h
    | del t' => exact ⟨h.1, ih _ _ c h.2⟩
    | upd => exact ih _ _ c h

def Done.isDel : Done E V → Bool
  | .delete _ => true
  | _ => false

def Logged.isDel : Logged E V → Bool
  | .delete => true
  | _ => false

theorem isDel_ins (d : List (Doc E V)) : (Done.insert d : Done E V).isDel = false := rfl
theorem isDel_del (t : Tally E V) : (Done.delete t : Done E V).isDel = true := rfl
theorem isDel_upd  : (Done.update : Done E V).isDel = false := rfl
theorem isDel_ins' (d : List (Doc E V)) : (Logged.insert d : Logged E V).isDel = false := rfl
theorem isDel_del'  : (Logged.delete : Logged E V).isDel = true := rfl
theorem isDel_upd'  : (Logged.update : Logged E V).isDel = false := rfl

theorem item_slot {l : List (C × Logged E V)} (h : l.countP (fun x => x.2.isDel) = 0) (a b : Tally E V) :
    l.map (fun x => (x.1, x.2.item a)) = l.map (fun x => (x.1, x.2.item b)) := by
  refine List.map_congr_left fun x hx => ?_
  have := List.countP_eq_zero.mp h x hx
  obtain ⟨c, i⟩ := x
  cases i with
  | delete => exact absurd rfl this
  | insert docs => rfl
  | update => rfl

/-- The counts of the documents. -/
def stored (s : Sys E V C) : Counts E V C := fun c n ty => (pairs (s.store c)).count (n, ty)

/-- The fields an operation of the schema names. -/
def Named (N : List E → V → Prop) : Op E V → Prop
  | .append n ty => N n ty
  | .drop n ty _ => N n ty

/-- The fields an item names. -/
def Item.named (N : List E → V → Prop) : Item E V → Prop
  | .ins l => ∀ k ∈ l, N k.1 k.2
  | .del t => ∀ k ∈ t, N k.1.1 k.1.2
  | .upd => True

structure Ok (N : List E → V → Prop) (s : Sys E V C) : Prop where
  alive : s.dead = false
  ghost : ∃ O : C → List (Op E V), (∀ c, s.sch c = after (O c)) ∧ (∀ c, ∀ o ∈ O c, Named N o) ∧ Runs (fun c => count (O c)) (items s) (stored s)
  docs : ∀ c, ∀ d ∈ s.store c, ∀ k ∈ d.fields, N k.1 k.2
  fields : ∀ x ∈ items s, x.2.named N
  one : s.logged.countP (fun x => x.2.isDel) + s.done.countP (fun x => x.2.isDel) ≤ 1
  slot : s.logged.countP (fun x => x.2.isDel) = 0 → s.slot = []

theorem ok_init (N : List E → V → Prop) : Ok N (init : Sys E V C) :=
  ⟨rfl, ⟨fun _ => [], fun _ => rfl, fun _ _ h => absurd h (by simp), rfl⟩, fun _ _ h => absurd h (by simp [init]), fun _ h => absurd h (by simp [items, init]),
    Nat.zero_le _, fun _ => rfl⟩

theorem assign_new {l : List (Doc E V)} {d : Doc E V} (h : ∀ e ∈ l, e.id ≠ d.id) : assign l d = l ++ [d] := by
  unfold assign
  rw [List.filter_eq_self.mpr (fun e he => by simpa using h e he)]

theorem insert_new (docs : List (Doc E V)) : ∀ l : List (Doc E V), (docs.map Doc.id).Nodup → (∀ d ∈ docs, ∀ e ∈ l, e.id ≠ d.id) → insertDocs l docs = l ++ docs := by
  have h : ∀ l : List (Doc E V), (docs.map Doc.id).Nodup → (∀ d ∈ docs, ∀ e ∈ l, e.id ≠ d.id) → docs.foldl assign l = l ++ docs := by
    induction docs with
    | nil => intro l _ _; simp
    | cons d docs ih =>
      intro l h1 h2
      rw [List.map_cons, List.nodup_cons] at h1
      rw [List.foldl_cons, assign_new (fun e he => h2 d List.mem_cons_self e he), ih _ h1.2 ?_, List.append_assoc]
      · rfl
      · intro d' hd' e he
        rcases List.mem_append.mp he with he | he
        · exact h2 d' (List.mem_cons_of_mem _ hd') e he
        · rw [List.mem_singleton.mp he]
          exact fun e' => h1.1 (e' ▸ List.mem_map_of_mem hd')
  intro l h1 h2
  unfold insertDocs
  rw [if_neg ?_]
  · exact h l h1 h2
  · intro hx
    simp only [List.any_eq_true, beq_iff_eq] at hx
    obtain ⟨d, hd, e, he, h3⟩ := hx
    exact h2 d hd e he h3

theorem pairs_mem {l : List (Doc E V)} {k : List E × V} : k ∈ pairs l ↔ ∃ d ∈ l, k ∈ d.fields := List.mem_flatMap

theorem Ok.exec {N : List E → V → Prop} {s : Sys E V C} (h : Ok N s) (c : C) (p : Plan E V) (hp : Followed s c p)
    (hn : ∀ docs, p = .insert docs → ∀ d ∈ docs, ∀ k ∈ d.fields, N k.1 k.2) : Ok N (exec s c p) := by
  obtain ⟨O, g1, g2, g3⟩ := h.ghost
  cases p with
  | insert docs =>
    have hn := hn docs rfl
    have hi : insertDocs (s.store c) docs = s.store c ++ docs := insert_new docs _ hp.1 hp.2
    have it : items (Verif.DocSchema.exec s c (.insert docs)) = items s ++ [(c, .ins (pairs docs))] := by
      unfold items Verif.DocSchema.exec
      rw [List.map_append, List.append_assoc]; rfl
    have st : stored (Verif.DocSchema.exec s c (.insert docs)) = plus (stored s) c (pairs docs) := by
      funext x n ty
      unfold stored plus
      show (pairs (set s.store c (insertDocs (s.store c) docs) x)).count (n, ty) = _
      by_cases e : x = c
      · subst e
        rw [set_same, hi, if_pos rfl]
        unfold pairs
        rw [List.flatMap_append, List.count_append]
      · rw [set_other _ _ _ e, if_neg e]
    refine ⟨h.alive, ⟨O, g1, g2, ?_⟩, ?_, ?_, ?_, h.slot⟩
    · rw [it, st]; exact runs_ins _ _ _ c _ g3
    · intro x d hd k hk
      have hd : d ∈ set s.store c (insertDocs (s.store c) docs) x := hd
      by_cases e : x = c
      · subst e
        rw [set_same, hi] at hd
        rcases List.mem_append.mp hd with hd | hd
        · exact h.docs x d hd k hk
        · exact hn d hd k hk
      · rw [set_other _ _ _ e] at hd; exact h.docs x d hd k hk
    · rw [it]
      intro x hx
      rcases List.mem_append.mp hx with hx | hx
      · exact h.fields x hx
      · rw [List.mem_singleton.mp hx]
        intro k hk
        obtain ⟨d, h1, h2⟩ := pairs_mem.mp hk
        exact hn d h1 k h2
    · have := h.one
      show _ + List.countP _ (s.done ++ [_]) ≤ 1
      rw [List.countP_append]; simp only [List.countP_cons, List.countP_nil, isDel_ins, isDel_del, isDel_upd, isDel_ins', isDel_del', isDel_upd', Bool.false_eq_true, if_true, if_false, Nat.add_zero, Nat.zero_add]; exact this
  | delete q =>
    have hd0 : s.done.countP (fun x => x.2.isDel) = 0 := by
      rw [List.countP_eq_zero]
      intro x hx hd
      obtain ⟨a, b⟩ := x
      cases b with
      | delete t => exact hp (.inl ⟨a, t, hx⟩)
      | insert _ => exact absurd hd (by simp [Done.isDel])
      | update => exact absurd hd (by simp [Done.isDel])
    have hl0 : s.logged.countP (fun x => x.2.isDel) = 0 := by
      rw [List.countP_eq_zero]
      intro x hx hd
      obtain ⟨a, b⟩ := x
      cases b with
      | delete => exact hp (.inr ⟨a, hx⟩)
      | insert _ => exact absurd hd (by simp [Logged.isDel])
      | update => exact absurd hd (by simp [Logged.isDel])
    have it : items (Verif.DocSchema.exec s c (.delete q)) = items s ++ [(c, .del (tally ((s.store c).filter q)))] := by
      unfold items Verif.DocSchema.exec
      rw [List.map_append, List.append_assoc]; rfl
    have st : stored (Verif.DocSchema.exec s c (.delete q)) = minus (stored s) c (tally ((s.store c).filter q)) := by
      funext x n ty
      unfold stored minus
      show (pairs (set s.store c ((s.store c).filter fun d => !q d) x)).count (n, ty) = _
      by_cases e : x = c
      · subst e
        rw [set_same, if_pos rfl, total_tally]
        have := count_filter (s.store x) q (n, ty)
        show _ = (pairs (s.store x)).count (n, ty) - _
        omega
      · rw [set_other _ _ _ e, if_neg e]
    refine ⟨h.alive, ⟨O, g1, g2, ?_⟩, ?_, ?_, ?_, h.slot⟩
    · rw [it, st]
      refine runs_del _ _ _ c _ ?_ g3
      intro n ty
      rw [total_tally]
      have := count_filter (s.store c) q (n, ty)
      show _ ≤ (pairs (s.store c)).count (n, ty)
      omega
    · intro x d hd k hk
      have hd : d ∈ set s.store c ((s.store c).filter fun d => !q d) x := hd
      by_cases e : x = c
      · subst e
        rw [set_same] at hd
        exact h.docs x d (List.mem_of_mem_filter hd) k hk
      · rw [set_other _ _ _ e] at hd; exact h.docs x d hd k hk
    · rw [it]
      intro x hx
      rcases List.mem_append.mp hx with hx | hx
      · exact h.fields x hx
      · rw [List.mem_singleton.mp hx]
        intro k hk
        obtain ⟨d, h1, h2⟩ := pairs_mem.mp (keys_tally _ k hk)
        exact h.docs c d (List.mem_of_mem_filter h1) k.1 h2
    · show s.logged.countP _ + List.countP _ (s.done ++ [_]) ≤ 1
      rw [List.countP_append, hd0, hl0]; simp only [List.countP_cons, List.countP_nil, isDel_ins, isDel_del, isDel_upd, isDel_ins', isDel_del', isDel_upd', Bool.false_eq_true, if_true, if_false, Nat.add_zero, Nat.zero_add]; exact Nat.le_refl 1
  | update g =>
    have hs : set s.store c ((s.store c).map (updateDoc g)) = s.store := by
      funext x
      by_cases e : x = c
      · subst e
        rw [set_same]
        conv_rhs => rw [← List.map_id (s.store x)]
        refine List.map_congr_left fun d hd => ?_
        unfold updateDoc
        cases hg : g d with
        | none => rfl
        | some fs => rw [hp d hd fs hg]; rfl
      · rw [set_other _ _ _ e]
    have it : items (Verif.DocSchema.exec s c (.update g)) = items s ++ [(c, .upd)] := by
      unfold items Verif.DocSchema.exec
      rw [List.map_append, List.append_assoc]; rfl
    have st : stored (Verif.DocSchema.exec s c (.update g)) = stored s := by
      unfold stored Verif.DocSchema.exec
      simp only [hs]
    refine ⟨h.alive, ⟨O, g1, g2, ?_⟩, ?_, ?_, ?_, h.slot⟩
    · rw [it, st]; exact runs_upd _ _ _ c g3
    · show ∀ x, ∀ d ∈ set s.store c ((s.store c).map (updateDoc g)) x, _
      rw [hs]; exact h.docs
    · rw [it]
      intro x hx
      rcases List.mem_append.mp hx with hx | hx
      · exact h.fields x hx
      · rw [List.mem_singleton.mp hx]; trivial
    · have := h.one
      show _ + List.countP _ (s.done ++ [_]) ≤ 1
      rw [List.countP_append]; simp only [List.countP_cons, List.countP_nil, isDel_ins, isDel_del, isDel_upd, isDel_ins', isDel_del', isDel_upd', Bool.false_eq_true, if_true, if_false, Nat.add_zero, Nat.zero_add]; exact this

theorem Ok.finish {N : List E → V → Prop} {s : Sys E V C} (h : Ok N s) : Ok N (finish s) := by
  obtain ⟨O, g1, g2, g3⟩ := h.ghost
  unfold Verif.DocSchema.finish
  cases hd : s.done with
  | nil => exact h
  | cons x t =>
    obtain ⟨c, i⟩ := x
    have one := h.one
    rw [hd, List.countP_cons] at one
    cases i with
    | insert docs =>
      have it : items { s with done := t, logged := s.logged ++ [(c, .insert docs)] } = items s := by
        unfold items
        rw [hd, List.map_append, List.append_assoc]; rfl
      refine ⟨h.alive, ⟨O, g1, g2, by rw [it]; exact g3⟩, h.docs, by rw [it]; exact h.fields, ?_, ?_⟩
      · show List.countP _ (s.logged ++ [_]) + _ ≤ 1
        rw [List.countP_append]; simp only [List.countP_cons, List.countP_nil, isDel_ins, isDel_del, isDel_upd, isDel_ins', isDel_del', isDel_upd', Bool.false_eq_true, if_true, if_false, Nat.add_zero, Nat.zero_add] at one ⊢; exact one
      · intro h0
        have h0 : List.countP _ (s.logged ++ [_]) = 0 := h0
        rw [List.countP_append] at h0
        exact h.slot (by omega)
    | update =>
      have it : items { s with done := t, logged := s.logged ++ [(c, .update)] } = items s := by
        unfold items
        rw [hd, List.map_append, List.append_assoc]; rfl
      refine ⟨h.alive, ⟨O, g1, g2, by rw [it]; exact g3⟩, h.docs, by rw [it]; exact h.fields, ?_, ?_⟩
      · show List.countP _ (s.logged ++ [_]) + _ ≤ 1
        rw [List.countP_append]; simp only [List.countP_cons, List.countP_nil, isDel_ins, isDel_del, isDel_upd, isDel_ins', isDel_del', isDel_upd', Bool.false_eq_true, if_true, if_false, Nat.add_zero, Nat.zero_add] at one ⊢; exact one
      · intro h0
        have h0 : List.countP _ (s.logged ++ [_]) = 0 := h0
        rw [List.countP_append] at h0
        exact h.slot (by omega)
    | delete gone =>
      have hl0 : s.logged.countP (fun x => x.2.isDel) = 0 := by
        simp only [List.countP_cons, List.countP_nil, isDel_ins, isDel_del, isDel_upd, isDel_ins', isDel_del', isDel_upd', Bool.false_eq_true, if_true, if_false, Nat.add_zero, Nat.zero_add] at one
        omega
      have hs := h.slot hl0
      have sl : (if gone.isEmpty then s.slot else gone) = gone := by
        split
        · rename_i hg; rw [hs, List.isEmpty_iff.mp hg]
        · rfl
      show Ok N { s with done := t, logged := s.logged ++ [(c, .delete)], slot := if gone.isEmpty then s.slot else gone }
      rw [sl]
      have it : items { s with done := t, logged := s.logged ++ [(c, .delete)], slot := gone } = items s := by
        unfold items
        rw [hd, List.map_append, List.append_assoc, item_slot hl0 gone s.slot]; rfl
      refine ⟨h.alive, ⟨O, g1, g2, by rw [it]; exact g3⟩, h.docs, by rw [it]; exact h.fields, ?_, ?_⟩
      · show List.countP _ (s.logged ++ [_]) + _ ≤ 1
        rw [List.countP_append, hl0]
        simp only [List.countP_cons, List.countP_nil, isDel_ins, isDel_del, isDel_upd, isDel_ins', isDel_del', isDel_upd', Bool.false_eq_true, if_true, if_false, Nat.add_zero, Nat.zero_add] at one ⊢
        show 1 + t.countP (fun x => x.2.isDel) ≤ 1
        omega
      · intro h0
        have h0 : List.countP _ (s.logged ++ [_]) = 0 := h0
        rw [List.countP_append] at h0
        simp only [List.countP_cons, List.countP_nil, isDel_ins, isDel_del, isDel_upd, isDel_ins', isDel_del', isDel_upd', Bool.false_eq_true, if_true, if_false, Nat.add_zero, Nat.zero_add] at h0
        omega

theorem spread_of {N : List E → V → Prop} (hf : ∀ n ty m ty', N n ty → N m ty' → n.dropLast <+: m → m.length = n.length) {O : List (Op E V)}
    (h : ∀ o ∈ O, Named N o) : Spread O := by
  have : ∀ o ∈ O, ∃ ty, N o.name ty := by
    intro o ho
    have := h o ho
    cases o with
    | append n ty => exact ⟨ty, this⟩
    | drop n ty k => exact ⟨ty, this⟩
  intro o ho o' ho' hpre
  obtain ⟨a, ha⟩ := this o ho
  obtain ⟨b, hb⟩ := this o' ho'
  exact hf _ a _ b ha hb hpre

theorem Ok.walOk {N : List E → V → Prop} (hf : ∀ n ty m ty', N n ty → N m ty' → n.dropLast <+: m → m.length = n.length) {s : Sys E V C}
    (h : Ok N s) : Ok N (walOk s) := by
  obtain ⟨O, g1, g2, g3⟩ := h.ghost
  unfold Verif.DocSchema.walOk
  cases hl : s.logged with
  | nil => exact h
  | cons x t =>
    obtain ⟨c, i⟩ := x
    have one := h.one
    rw [hl, List.countP_cons] at one
    have ih : items s = (c, i.item s.slot) :: items { s with logged := t } := by unfold items; rw [hl]; rfl
    have fs := h.fields
    rw [ih] at fs
    have hx := fs _ List.mem_cons_self
    have ht : ∀ x ∈ items { s with logged := t }, x.2.named N := fun x hx => fs x (List.mem_cons_of_mem _ hx)
    rw [ih] at g3
    cases i with
    | update =>
      refine ⟨h.alive, ⟨O, g1, g2, g3⟩, h.docs, ht, ?_, ?_⟩
      · simp only [List.countP_cons, List.countP_nil, isDel_ins, isDel_del, isDel_upd, isDel_ins', isDel_del', isDel_upd', Bool.false_eq_true, if_true, if_false, Nat.add_zero, Nat.zero_add] at one; exact one
      · intro h0
        refine h.slot ?_
        rw [hl, List.countP_cons]
        simp only [List.countP_cons, List.countP_nil, isDel_ins, isDel_del, isDel_upd, isDel_ins', isDel_del', isDel_upd', Bool.false_eq_true, if_true, if_false, Nat.add_zero, Nat.zero_add]; exact h0
    | insert docs =>
      have g2' : ∀ o ∈ O c ++ (pairs docs).map fun k => Op.append k.1 k.2, Named N o := by
        intro o ho
        rcases List.mem_append.mp ho with ho | ho
        · exact g2 c o ho
        · obtain ⟨k, hk, e⟩ := List.mem_map.mp ho
          rw [← e]; exact hx k hk
      have nt := (C36_versions_partial _ (spread_of hf g2')).1
      have ha := after_appends (pairs docs) (O c) nt
      show Ok N { s with logged := t, sch := set s.sch c (appendAll (s.sch c) (pairs docs)).1, dead := (appendAll (s.sch c) (pairs docs)).2 }
      rw [g1 c, ha]
      refine ⟨rfl, ⟨set O c (O c ++ (pairs docs).map fun k => Op.append k.1 k.2), ?_, ?_, ?_⟩, h.docs, ht, ?_, ?_⟩
      · intro x
        show set s.sch c _ x = _
        by_cases e : x = c
        · subst e; rw [set_same, set_same]
        · rw [set_other _ _ _ e, set_other _ _ _ e]; exact g1 x
      · intro x o ho
        by_cases e : x = c
        · subst e; rw [set_same] at ho; exact g2' o ho
        · rw [set_other _ _ _ e] at ho; exact g2 x o ho
      · have e : (fun x => count (set O c (O c ++ (pairs docs).map fun k => Op.append k.1 k.2) x)) = plus (fun x => count (O x)) c (pairs docs) := by
          funext x n ty
          unfold plus
          by_cases e : x = c
          · subst e; rw [set_same, if_pos rfl, count_snocs]
          · rw [set_other _ _ _ e, if_neg e]
        rw [e]; exact g3
      · simp only [List.countP_cons, List.countP_nil, isDel_ins, isDel_del, isDel_upd, isDel_ins', isDel_del', isDel_upd', Bool.false_eq_true, if_true, if_false, Nat.add_zero, Nat.zero_add] at one; exact one
      · intro h0
        refine h.slot ?_
        rw [hl, List.countP_cons]
        simp only [List.countP_cons, List.countP_nil, isDel_ins, isDel_del, isDel_upd, isDel_ins', isDel_del', isDel_upd', Bool.false_eq_true, if_true, if_false, Nat.add_zero, Nat.zero_add]; exact h0
    | delete =>
      have ht0 : t.countP (fun x => x.2.isDel) = 0 := by
        simp only [List.countP_cons, List.countP_nil, isDel_ins, isDel_del, isDel_upd, isDel_ins', isDel_del', isDel_upd', Bool.false_eq_true, if_true, if_false, Nat.add_zero, Nat.zero_add] at one
        omega
      have it : items { s with logged := t, sch := set s.sch c (dropAll (s.sch c) s.slot), slot := [] } = items { s with logged := t } := by
        unfold items
        show t.map _ ++ _ = t.map _ ++ _
        rw [item_slot ht0 [] s.slot]
      show Ok N { s with logged := t, sch := set s.sch c (dropAll (s.sch c) s.slot), slot := [] }
      refine ⟨h.alive, ⟨set O c (O c ++ s.slot.map fun k => Op.drop k.1.1 k.1.2 k.2), ?_, ?_, ?_⟩, h.docs, by rw [it]; exact ht, ?_, fun _ => rfl⟩
      · intro x
        show set s.sch c _ x = _
        by_cases e : x = c
        · subst e; rw [set_same, set_same, g1 x, after_drops]
        · rw [set_other _ _ _ e, set_other _ _ _ e]; exact g1 x
      · intro x o ho
        by_cases e : x = c
        · subst e
          rw [set_same] at ho
          rcases List.mem_append.mp ho with ho | ho
          · exact g2 x o ho
          · obtain ⟨k, hk, e⟩ := List.mem_map.mp ho
            rw [← e]; exact hx k hk
        · rw [set_other _ _ _ e] at ho; exact g2 x o ho
      · have e : (fun x => count (set O c (O c ++ s.slot.map fun k => Op.drop k.1.1 k.1.2 k.2) x)) = minus (fun x => count (O x)) c s.slot := by
          funext x n ty
          unfold minus
          by_cases e : x = c
          · subst e; rw [set_same, if_pos rfl, count_drops]
          · rw [set_other _ _ _ e, if_neg e]
        rw [e, it]
        exact g3.2
      · show t.countP (fun x => x.2.isDel) + s.done.countP (fun x => x.2.isDel) ≤ 1
        simp only [List.countP_cons, List.countP_nil, isDel_ins, isDel_del, isDel_upd, isDel_ins', isDel_del', isDel_upd', Bool.false_eq_true, if_true, if_false, Nat.add_zero, Nat.zero_add] at one
        omega

theorem ok_run (es : List (Event E V C)) (h : FollowedAll es) (hn : NamesApart es) : Ok (Inserted es) (run init es) := by
  suffices g : ∀ (b a : List (Event E V C)), es = a ++ b → Ok (Inserted es) (run init a) → Ok (Inserted es) (run init es) by
    exact g es [] rfl (ok_init _)
  intro b
  induction b with
  | nil => intro a e g; rw [e, List.append_nil] at *; exact g
  | cons e b ih =>
    intro a he g
    refine ih (a ++ [e]) (by rw [he, List.append_assoc]; rfl) ?_
    have hr : run init (a ++ [e]) = step (run init a) e := List.foldl_append
    have hm : e ∈ es := by rw [he]; exact List.mem_append_right _ List.mem_cons_self
    have hd := g.alive
    rw [hr]
    cases e with
    | restart => exact absurd hm h.1
    | exec c p =>
      unfold step
      simp only [hd, Bool.false_eq_true, if_false]
      exact g.exec c p (h.2 a c p b he) (fun docs e d h1 k h2 => ⟨c, docs, e ▸ hm, d, h1, h2⟩)
    | finish => unfold step; simp only [hd, Bool.false_eq_true, if_false]; exact g.finish
    | walOk => unfold step; simp only [hd, Bool.false_eq_true, if_false]; exact g.walOk hn

end Verif.DocSchema
