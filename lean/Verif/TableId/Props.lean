import Verif.TableId.Model
/-!
C42: table identifiers; C46: ordering of collection names.
-/
namespace Verif.TableId
open Verif

/-! ### helper lemmas -/

theorem cut_none {d : Char} : ∀ {s : Str}, cut d s = none ↔ d ∉ s := by
  intro s
  induction s with
  | nil => simp [cut]
  | cons c cs ih =>
    unfold cut
    by_cases h : c = d
    · simp [h]
    · simp only [if_neg h, Option.map_eq_none_iff, ih, List.mem_cons, not_or]
      constructor
      · intro h2; exact ⟨fun e => h e.symm, h2⟩
      · intro h2; exact h2.2

theorem cut_some {d : Char} : ∀ {s a b : Str}, cut d s = some (a, b) ↔ (s = a ++ d :: b ∧ d ∉ a) := by
  intro s
  induction s with
  | nil => intro a b; simp [cut]
  | cons c cs ih =>
    intro a b
    unfold cut
    by_cases h : c = d
    · simp only [if_pos h, Option.some.injEq, Prod.mk.injEq]
      constructor
      · rintro ⟨rfl, rfl⟩; simp [h]
      · rintro ⟨h1, h2⟩
        cases a with
        | nil => simp only [List.nil_append, List.cons.injEq] at h1; exact ⟨rfl, h1.2⟩
        | cons x xs =>
          simp only [List.cons_append, List.cons.injEq] at h1
          exact absurd (by rw [← h1.1, h]; exact List.mem_cons_self ..) h2
    · simp only [if_neg h, Option.map_eq_some_iff, Prod.exists, Prod.mk.injEq]
      constructor
      · rintro ⟨x, y, hxy, rfl, rfl⟩
        obtain ⟨h1, h2⟩ := ih.mp hxy
        refine ⟨by rw [h1]; rfl, ?_⟩
        simp only [List.mem_cons, not_or]
        exact ⟨fun e => h e.symm, h2⟩
      · rintro ⟨h1, h2⟩
        cases a with
        | nil => simp only [List.nil_append, List.cons.injEq] at h1; exact absurd h1.1 h
        | cons x xs =>
          simp only [List.cons_append, List.cons.injEq] at h1
          refine ⟨xs, b, ih.mpr ⟨h1.2, ?_⟩, ?_, rfl⟩
          · intro hm; exact h2 (List.mem_cons_of_mem _ hm)
          · rw [h1.1]

theorem split_none {d : Char} {s : Str} (h : d ∉ s) : split d s = if s = [] then [] else [s] := by
  rw [split]
  split
  · rfl
  · next a b hc => rw [cut_none.mpr h] at hc; cases hc

theorem split_cons {d : Char} {a b : Str} (h : d ∉ a) : split d (a ++ d :: b) = a :: split d b := by
  rw [split]
  have hc := (cut_some (d := d) (s := a ++ d :: b) (a := a) (b := b)).mpr ⟨rfl, h⟩
  split
  · next h' => rw [hc] at h'; cases h'
  · next x y h' => rw [hc] at h'; cases h'; rfl

/-- What splitting gives back on the joined parts. -/
theorem split_join (parts : List Str) (name : Str) (hp : ∀ p ∈ parts, '.' ∉ p) (hn : '.' ∉ name) (h0 : name ≠ []) :
    split '.' (parts.foldr (fun p r => p ++ '.' :: r) name) = parts ++ [name] := by
  induction parts with
  | nil => simp only [List.foldr_nil, List.nil_append]; rw [split_none hn, if_neg h0]
  | cons p ps ih =>
    simp only [List.foldr_cons, List.cons_append]
    rw [split_cons (hp p (List.mem_cons_self ..)), ih (fun q hq => hp q (List.mem_cons_of_mem _ hq))]

theorem print_cons (p : Str) (ps : List Str) (name : Str) :
    print ⟨p :: ps, name⟩ = (p :: ps).foldr (fun p r => p ++ '.' :: r) name := by
  induction ps generalizing p with
  | nil => rfl
  | cons q qs ih =>
    have := ih q
    simp only [print] at this ⊢
    simp only [join, List.foldr_cons, List.append_assoc, List.cons_append] at this ⊢
    rw [this]

theorem join_split : ∀ (n : Nat) (s : Str), s.length ≤ n → s ≠ [] → (∀ r, s ≠ r ++ ['.']) →
    ∃ parts name, split '.' s = parts ++ [name] ∧ parts.foldr (fun p r => p ++ '.' :: r) name = s := by
  intro n
  induction n with
  | zero => intro s h h0; cases s <;> simp_all
  | succ n ih =>
    intro s hlen h0 hend
    cases hc : cut '.' s with
    | none =>
      refine ⟨[], s, ?_, rfl⟩
      rw [split_none (cut_none.mp hc), if_neg h0]; rfl
    | some ab =>
      obtain ⟨a, b⟩ := ab
      obtain ⟨hs, ha⟩ := cut_some.mp hc
      have hb : b ≠ [] := by
        intro hb; subst hb; exact hend a hs
      obtain ⟨parts, name, h1, h2⟩ := ih b (by have := cut_length hc; omega) hb (by
        intro r hr; exact hend (a ++ '.' :: r) (by rw [hs, hr]; simp))
      refine ⟨a :: parts, name, ?_, ?_⟩
      · rw [hs, split_cons ha, h1]; rfl
      · simp only [List.foldr_cons]; rw [h2, hs]

/-! ## C42 -/

/-- C42 in full: parsing never goes wrong and printing gives the text back. -/
def C42_parse_print_claim : Prop := ∀ s : Str, ∃ t, parse s = .ok t ∧ print t = s

/-- C42, disagreement: the empty text is read past the end of an empty vector. -/
theorem C42_empty_text_is_ub_fails : parse [] = .ub := by
  simp only [parse]; rw [split_none (by simp)]; rfl

/-- C42, disagreement: an unqualified name comes back with a dot in front. -/
theorem C42_parse_print_fails : ¬ C42_parse_print_claim := by
  intro h
  obtain ⟨t, h1, h2⟩ := h ['t']
  have : parse ['t'] = .ok ⟨[], ['t']⟩ := by
    simp only [parse]; rw [split_none (by decide)]; rfl
  rw [this] at h1
  cases h1
  revert h2; decide

/-- C42: a name with at least one dot that does not end with one is parsed, and printed back exactly. -/
theorem C42_parse_print_partial (s : Str) (hdot : '.' ∈ s) (hend : ∀ r, s ≠ r ++ ['.']) :
    ∃ t, parse s = .ok t ∧ print t = s := by
  have h0 : s ≠ [] := by intro h; subst h; cases hdot
  obtain ⟨parts, name, h1, h2⟩ := join_split s.length s (Nat.le_refl _) h0 hend
  refine ⟨⟨parts, name⟩, ?_, ?_⟩
  · simp only [parse, ofParts, h1, List.getLast?_append, List.getLast?_singleton, Option.or_some,
      List.dropLast_concat, Option.some_or]
  · cases parts with
    | nil =>
      exfalso
      simp only [List.foldr_nil] at h2
      subst h2
      cases hc : cut '.' name with
      | none => exact (cut_none.mp hc) hdot
      | some ab =>
        obtain ⟨a, b⟩ := ab
        obtain ⟨hs, ha⟩ := cut_some.mp hc
        rw [hs, split_cons ha] at h1
        simp only [List.nil_append, List.cons.injEq] at h1
        have hb : b = [] := by
          cases b with
          | nil => rfl
          | cons x xs =>
            exfalso
            have := h1.2
            rw [split] at this
            split at this
            · simp at this
            · cases this
        subst hb
        exact hend a hs
    | cons p ps => rw [print_cons]; exact h2

example : ∃ t, parse "db.coll".toList = .ok t ∧ print t = "db.coll".toList :=
  C42_parse_print_partial _ (by decide) (by
    intro r h
    have : ("db.coll".toList).getLast? = (r ++ ['.']).getLast? := by rw [← h]
    rw [List.getLast?_concat] at this
    revert this; decide)

/-- C42: printing an identifier and parsing the text gives the identifier back, for every identifier
with a namespace whose parts contain no dot and whose table name is not empty. -/
theorem C42_print_parse_partial (t : TableId) (hns : t.ns ≠ []) (hp : ∀ p ∈ t.ns, '.' ∉ p) (hn : '.' ∉ t.name)
    (h0 : t.name ≠ []) : parse (print t) = .ok t := by
  obtain ⟨ns, name⟩ := t
  cases ns with
  | nil => exact absurd rfl hns
  | cons p ps =>
    rw [print_cons]
    simp only [parse]
    rw [split_join _ _ hp hn h0]
    simp only [ofParts, List.getLast?_concat, List.dropLast_concat]

example : parse (print ⟨["a".toList, "b".toList], "t".toList⟩) = .ok ⟨["a".toList, "b".toList], "t".toList⟩ :=
  C42_print_parse_partial _ (by decide) (by decide) (by decide) (by decide)

/-- C42: different identifiers print differently, under the same conditions. -/
theorem C42_names_differ_partial (t u : TableId) (htn : t.ns ≠ []) (hun : u.ns ≠ []) (ht : ∀ p ∈ t.ns, '.' ∉ p)
    (hu : ∀ p ∈ u.ns, '.' ∉ p) (ht' : '.' ∉ t.name) (hu' : '.' ∉ u.name) (ht0 : t.name ≠ []) (hu0 : u.name ≠ [])
    (h : print t = print u) : t = u := by
  have h1 := C42_print_parse_partial t htn ht ht' ht0
  rw [h, C42_print_parse_partial u hun hu hu' hu0] at h1
  cases h1; rfl

/-- C42, disagreement: without these conditions two different tables share a name. -/
theorem C42_names_differ_fails :
    (∃ t u : TableId, t ≠ u ∧ print t = print u ∧ t.ns = [] ∧ u.ns = [[]]) ∧
    (∃ t u : TableId, t ≠ u ∧ print t = print u ∧ t.ns ≠ [] ∧ u.ns ≠ []) :=
  ⟨⟨⟨[], ['x']⟩, ⟨[[]], ['x']⟩, by decide⟩,
   ⟨⟨[['a']], "b.c".toList⟩, ⟨[['a'], ['b']], ['c']⟩, by decide⟩⟩

/-- The full name of a table survives the conversion to an identifier and back. -/
def C42_full_name_claim : Prop := ∀ f : FullName, toFullName (ofFullName f) = f

/-- C42, disagreement: with a schema, database and schema come back swapped (`table_id` stores
identifier, schema, database; the constructor expects identifier, database, schema). -/
theorem C42_full_name_fails : ¬ C42_full_name_claim := by
  intro h
  have := h ⟨[], "db".toList, "s".toList, "c".toList⟩
  revert this; decide

/-- C42: what comes back whenever there is a schema (or an unique identifier), for all names without
NUL characters: the two are exchanged. -/
theorem C42_full_name_swaps (f : FullName) (hs : f.schema ≠ []) (h1 : cstr f.uid = f.uid) (h2 : cstr f.database = f.database)
    (h3 : cstr f.schema = f.schema) (h4 : cstr f.collection = f.collection) :
    toFullName (ofFullName f) = { f with database := f.schema, schema := f.database } := by
  obtain ⟨uid, db, sc, col⟩ := f
  simp only at hs h1 h2 h3 h4
  by_cases hu : uid = []
  · subst hu
    simp [ofFullName, hs, toFullName, h2, h3, h4]
  · simp [ofFullName, hs, hu, toFullName, h1, h2, h3, h4]

example : ∃ f : FullName, f.schema ≠ [] ∧ cstr f.uid = f.uid ∧ cstr f.database = f.database ∧
    cstr f.schema = f.schema ∧ cstr f.collection = f.collection ∧ f.database ≠ f.schema :=
  ⟨⟨[], "db".toList, "s".toList, "c".toList⟩, by decide⟩

/-- C42: without schema and unique identifier the full name survives. -/
theorem C42_full_name_partial (f : FullName) (hs : f.schema = []) (hu : f.uid = []) (h2 : cstr f.database = f.database)
    (h4 : cstr f.collection = f.collection) : toFullName (ofFullName f) = f := by
  obtain ⟨uid, db, sc, col⟩ := f
  simp only at hs hu h2 h4
  subst hs; subst hu
  simp [ofFullName, toFullName, h2, h4]

example : toFullName (ofFullName ⟨[], "db".toList, [], "c".toList⟩) = ⟨[], "db".toList, [], "c".toList⟩ :=
  C42_full_name_partial _ rfl rfl (by decide) (by decide)

/-! ## C46 -/

theorem strLt_irrefl (a : Str) : strLt a a = false := by
  induction a with
  | nil => rfl
  | cons x xs ih => simp only [strLt, Nat.lt_irrefl, if_false]; exact ih

theorem strLt_asymm : ∀ {a b : Str}, strLt a b = true → strLt b a = false := by
  intro a
  induction a with
  | nil => intro b h; cases b <;> simp_all [strLt]
  | cons x xs ih =>
    intro b h
    cases b with
    | nil => simp [strLt] at h
    | cons y ys =>
      simp only [strLt] at h ⊢
      split at h
      · next hxy => rw [if_neg (by omega), if_pos (by omega)]
      · split at h
        · cases h
        · next h1 h2 => rw [if_neg h2, if_neg h1]; exact ih h

theorem strLt_trans : ∀ {a b c : Str}, strLt a b = true → strLt b c = true → strLt a c = true := by
  intro a
  induction a with
  | nil =>
    intro b c h1 h2
    cases c with
    | nil => cases b <;> simp [strLt] at h2
    | cons z zs => rfl
  | cons x xs ih =>
    intro b c h1 h2
    cases b with
    | nil => simp [strLt] at h1
    | cons y ys =>
      cases c with
      | nil => simp [strLt] at h2
      | cons z zs =>
        simp only [strLt] at h1 h2 ⊢
        split at h1
        · split at h2
          · rw [if_pos (by omega)]
          · split at h2
            · cases h2
            · rw [if_pos (by omega)]
        · split at h1
          · cases h1
          · split at h2
            · rw [if_pos (by omega)]
            · split at h2
              · cases h2
              · rw [if_neg (by omega), if_neg (by omega)]; exact ih h1 h2

theorem strLt_tri : ∀ {a b : Str}, strLt a b = false → strLt b a = false → a = b := by
  intro a
  induction a with
  | nil => intro b h1 h2; cases b <;> simp_all [strLt]
  | cons x xs ih =>
    intro b h1 h2
    cases b with
    | nil => simp [strLt] at h2
    | cons y ys =>
      simp only [strLt] at h1 h2
      split at h1
      · cases h1
      · split at h1
        · next h => rw [if_pos h] at h2; cases h2
        · next h3 h4 =>
          rw [if_neg h4, if_neg h3] at h2
          have hxy : x.toNat = y.toNat := by omega
          rw [ih h1 h2, Char.toNat_inj.mp hxy]

/-- C46 in full: the order of collection names is a strict total order (as `std::set` needs). -/
def C46_order_claim : Prop :=
  (∀ a : FullName, a.lt a = false) ∧
  (∀ a b : FullName, a.lt b = true → b.lt a = false) ∧
  (∀ a b c : FullName, a.lt b = true → b.lt c = true → a.lt c = true) ∧
  (∀ a b : FullName, a.lt b = false → b.lt a = false → a = b)

/-- C46, disagreement: two names can each be smaller than the other. -/
theorem C46_order_fails : ¬ C46_order_claim := by
  intro h
  have := h.2.1 ⟨['a'], ['y'], [], ['c']⟩ ⟨['b'], ['x'], [], ['c']⟩ (by decide)
  revert this; decide

/-- C46: among the names with one unique identifier (in particular none, as for everything created
through the document API) the order is a strict total order. -/
theorem C46_order_partial (u : Str) :
    (∀ a : FullName, a.lt a = false) ∧
    (∀ a b : FullName, a.uid = u → b.uid = u → a.lt b = true → b.lt a = false) ∧
    (∀ a b c : FullName, a.uid = u → b.uid = u → c.uid = u → a.lt b = true → b.lt c = true → a.lt c = true) ∧
    (∀ a b : FullName, a.uid = u → b.uid = u → a.lt b = false → b.lt a = false → a = b) := by
  refine ⟨?_, ?_, ?_, ?_⟩
  · intro a; simp [FullName.lt, strLt_irrefl]
  · rintro ⟨_, d1, s1, c1⟩ ⟨_, d2, s2, c2⟩ h1 h2 h
    simp only at h1 h2
    subst h1; subst h2
    simp only [FullName.lt, strLt_irrefl, Bool.false_or, Bool.or_eq_true, Bool.and_eq_true, beq_iff_eq] at h
    simp only [FullName.lt, strLt_irrefl, Bool.false_or, Bool.or_eq_false_iff, Bool.and_eq_false_iff, beq_eq_false_iff_ne]
    rcases h with (h | ⟨rfl, h⟩) | ⟨⟨rfl, rfl⟩, h⟩
    · have hne : d2 ≠ d1 := by intro e; subst e; rw [strLt_irrefl] at h; cases h
      exact ⟨⟨strLt_asymm h, Or.inl hne⟩, Or.inl (Or.inl hne)⟩
    · have hne : s2 ≠ s1 := by intro e; subst e; rw [strLt_irrefl] at h; cases h
      exact ⟨⟨strLt_irrefl _, Or.inr (strLt_asymm h)⟩, Or.inl (Or.inr hne)⟩
    · exact ⟨⟨strLt_irrefl _, Or.inr (strLt_irrefl _)⟩, Or.inr (strLt_asymm h)⟩
  · rintro ⟨_, d1, s1, c1⟩ ⟨_, d2, s2, c2⟩ ⟨_, d3, s3, c3⟩ h1 h2 h3 ha hb
    simp only at h1 h2 h3
    subst h1; subst h2; subst h3
    simp only [FullName.lt, strLt_irrefl, Bool.false_or, Bool.or_eq_true, Bool.and_eq_true, beq_iff_eq] at ha hb ⊢
    rcases ha with (ha | ⟨rfl, ha⟩) | ⟨⟨rfl, rfl⟩, ha⟩
    · rcases hb with (hb | ⟨rfl, hb⟩) | ⟨⟨rfl, rfl⟩, hb⟩
      · exact Or.inl (Or.inl (strLt_trans ha hb))
      · exact Or.inl (Or.inl ha)
      · exact Or.inl (Or.inl ha)
    · rcases hb with (hb | ⟨rfl, hb⟩) | ⟨⟨rfl, rfl⟩, hb⟩
      · exact Or.inl (Or.inl hb)
      · exact Or.inl (Or.inr ⟨rfl, strLt_trans ha hb⟩)
      · exact Or.inl (Or.inr ⟨rfl, ha⟩)
    · rcases hb with (hb | ⟨rfl, hb⟩) | ⟨⟨rfl, rfl⟩, hb⟩
      · exact Or.inl (Or.inl hb)
      · exact Or.inl (Or.inr ⟨rfl, hb⟩)
      · exact Or.inr ⟨⟨rfl, rfl⟩, strLt_trans ha hb⟩
  · rintro ⟨_, d1, s1, c1⟩ ⟨_, d2, s2, c2⟩ h1 h2 ha hb
    simp only at h1 h2
    subst h1; subst h2
    simp only [FullName.lt, strLt_irrefl, Bool.false_or, Bool.or_eq_false_iff, Bool.and_eq_false_iff,
      beq_eq_false_iff_ne] at ha hb
    have hd := strLt_tri ha.1.1 hb.1.1
    subst hd
    have hs : s1 = s2 := by
      rcases ha.1.2 with h | h
      · exact absurd rfl h
      · rcases hb.1.2 with h' | h'
        · exact absurd rfl h'
        · exact strLt_tri h h'
    subst hs
    have hc : c1 = c2 := by
      rcases ha.2 with h | h
      · rcases h with h | h <;> exact absurd rfl h
      · rcases hb.2 with h' | h'
        · rcases h' with h' | h' <;> exact absurd rfl h'
        · exact strLt_tri h h'
    subst hc
    rfl

example : FullName.lt ⟨[], ['a'], [], ['x']⟩ ⟨[], ['a'], [], ['y']⟩ = true := by decide

end Verif.TableId
