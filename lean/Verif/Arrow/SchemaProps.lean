import Verif.Arrow.SchemaLemmas
/-!
C99: a table schema handed over through the Arrow C data interface is read with the names and the types
it describes, and the schema handed out describes the columns of the chunk.
-/
namespace Verif.Arrow
open Verif
open Verif.Text (showNat natOf natOf_showNat)

theorem columnTypes_ok {cs : List Sch} {ts : List STy} (h : List.Forall₂ Describes cs ts) : columnTypes cs = .ok ts := by
  induction h with
  | nil => rfl
  | cons h _ ih => unfold columnTypes; rw [typeOf_ok h, Res.bind_ok, ih]; rfl

/-- Every schema whose columns have pairwise different names is read with exactly these names and types. -/
theorem C99_read_distinct (cs : List Sch) (ts : List STy) (h : List.Forall₂ Describes cs ts)
    (hn : ∀ c ∈ cs, c.name ≠ []) (hd : (cs.map Sch.name).Nodup) :
    fromSchema cs = .ok (List.zip (cs.map Sch.name) ts) := by
  unfold fromSchema
  rw [columnNames_named cs 0 hn, deduplicate_distinct _ [] hd (by simp), Res.bind_ok, columnTypes_ok h]; rfl

/-- Whatever the names are, repeated or missing, reading ends with the types the schema describes, and with
names that are there and pairwise different. -/
theorem C99_read_any (cs : List Sch) (ts : List STy) (h : List.Forall₂ Describes cs ts) :
    ∃ cols, fromSchema cs = .ok cols ∧ cols.map Prod.snd = ts ∧ (cols.map Prod.fst).Nodup ∧ ∀ c ∈ cols, c.1 ≠ [] := by
  obtain ⟨r, hr, hl, hd, -, he⟩ := deduplicate_ok (columnNames 0 cs) []
  have hlen : r.length = ts.length := by rw [hl, columnNames_length, h.length_eq]
  refine ⟨List.zip r ts, ?_, List.map_snd_zip hlen.symm.le, ?_, ?_⟩
  · unfold fromSchema; rw [hr, Res.bind_ok, columnTypes_ok h]; rfl
  · rw [List.map_fst_zip hlen.le]; exact hd
  · intro c hc
    exact he (columnNames_ne_nil cs 0) c.1 (List.of_mem_zip hc).1

theorem columnNames_append : ∀ (a b : List Sch) (i : Nat), columnNames i (a ++ b) = columnNames i a ++ columnNames (i + a.length) b
  | [], _, _ => rfl
  | c :: a, b, i => by
    rw [List.cons_append, columnNames, columnNames, columnNames_append a b (i + 1), List.length_cons,
      show i + 1 + a.length = i + (a.length + 1) by omega]; rfl

/-- Columns in front of the first repeated name keep their names. -/
theorem C99_first_names_kept (as bs : List Sch) (ts : List STy) (h : List.Forall₂ Describes (as ++ bs) ts)
    (hn : ∀ c ∈ as, c.name ≠ []) (hd : (as.map Sch.name).Nodup) :
    ∃ cols, fromSchema (as ++ bs) = .ok cols ∧ (as.map Sch.name) <+: cols.map Prod.fst := by
  obtain ⟨r, hr, hl, -, -, -⟩ := deduplicate_ok (columnNames 0 (as ++ bs)) []
  have hlen : r.length = ts.length := by rw [hl, columnNames_length, h.length_eq]
  refine ⟨List.zip r ts, ?_, ?_⟩
  · unfold fromSchema; rw [hr, Res.bind_ok, columnTypes_ok h]; rfl
  · rw [List.map_fst_zip hlen.le]
    rw [columnNames_append, columnNames_named as 0 hn] at hr
    exact deduplicate_prefix _ _ [] r hd (by simp) hr

/-- The full claim for names: a column keeps a name that no other column has. -/
def C99_names_claim : Prop :=
  ∀ (cs : List Sch) (ts : List STy), List.Forall₂ Describes cs ts → ∃ cols, fromSchema cs = .ok cols ∧
    ∀ (i : Nat) (c : Sch), cs[i]? = some c → c.name ≠ [] → (∀ (j : Nat) (d : Sch), cs[j]? = some d → d.name = c.name → j = i) →
      (cols[i]?).map Prod.fst = some c.name

/-- A column of int32 with the name. -/
def intCol (n : Name) : Sch := .mk [105] n .nil

theorem intCol_describes (n : Name) : Describes (intCol n) (.scalar .integer) := .scalar .integer

/-- "a", "a", "a_1": the second column takes the name of the third one, which becomes "a_1_1". -/
theorem C99_names_fails : ¬ C99_names_claim := by
  intro h
  obtain ⟨cols, hc, hk⟩ := h [intCol [97], intCol [97], intCol [97, 95, 49]]
    [.scalar .integer, .scalar .integer, .scalar .integer]
    (.cons (intCol_describes _) (.cons (intCol_describes _) (.cons (intCol_describes _) .nil)))
  have e : fromSchema [intCol [97], intCol [97], intCol [97, 95, 49]] =
      .ok [([97], .scalar .integer), ([97, 95, 49], .scalar .integer), ([97, 95, 49, 95, 49], .scalar .integer)] := by
    have h1 : showNat 1 = [49] := by unfold showNat; rfl
    simp [fromSchema, columnNames, intCol, Sch.name, deduplicate, freshName, withCount, h1, Seen.put, columnTypes, typeOf,
      plainFormat, Res.bind, Res.map']
  rw [e] at hc; cases hc
  have := hk 2 (intCol [97, 95, 49]) rfl (by simp [intCol, Sch.name]) (by
    intro j d hj hd
    rcases j with _ | _ | _ | j
    · cases hj; simp [intCol, Sch.name] at hd
    · cases hj; simp [intCol, Sch.name] at hd
    · rfl
    · simp at hj)
  simp [intCol, Sch.name] at this

/-! ### Out -/

/-- The full claim for the way out: the schema handed out, read again, gives the columns back. -/
def C99_round_trip_claim : Prop :=
  ∀ cols : List (Name × STy), (cols.map Prod.fst).Nodup → (∀ c ∈ cols, c.1 ≠ []) →
    (∀ c ∈ cols, ∃ s : Sch, Describes s c.2) → ∃ ss, toSchema cols = .ok ss ∧ fromSchema ss = .ok cols

/-- The column `i` that has no name. -/
def vName (i : Nat) : Name := 118 :: showNat i

theorem toSchema_bare : ∀ (ts : List STy), (∀ t ∈ ts, t.bare) →
    ∃ ss, toSchema (ts.map fun t => ([], t)) = .ok ss ∧ List.Forall₂ Describes ss ts ∧ ∀ s ∈ ss, s.name = []
  | [], _ => ⟨[], rfl, .nil, by simp⟩
  | t :: ts, h => by
    obtain ⟨f, cs, hf, hd⟩ := setFormat_ok t (h t (by simp))
    obtain ⟨ss, hs, hss, hn⟩ := toSchema_bare ts fun x hx => h x (by simp [hx])
    refine ⟨.mk f [] cs :: ss, ?_, .cons (hd []) hss, ?_⟩
    · simp only [List.map_cons, toSchema, addName, Res.bind_ok, hf, hs]; rfl
    · intro s hs
      rcases List.mem_cons.mp hs with rfl | hs
      · rfl
      · exact hn s hs

theorem columnNames_unnamed : ∀ (cs : List Sch) (i : Nat), (∀ c ∈ cs, c.name = []) → columnNames i cs = (List.range' i cs.length).map vName
  | [], _, _ => rfl
  | c :: cs, i, h => by
    unfold columnNames
    rw [if_pos (h c (by simp)), columnNames_unnamed cs (i + 1) fun x hx => h x (by simp [hx]), List.length_cons, List.range'_succ]; rfl

theorem vName_inj {a b : Nat} (h : vName a = vName b) : a = b := by
  simp only [vName, List.cons.injEq, true_and] at h
  have := congrArg natOf h
  rwa [natOf_showNat, natOf_showNat] at this

/-- Chunks of columns without a name, without decimals, arrays, maps, blobs and 128 bit integers, whose structs have
fields without a name: the schema describes the types, and is read again with the same types; the columns are called
"v0", "v1" and so on. Missing: everything with a name, and these types. -/
theorem C99_round_trip_partial (ts : List STy) (h : ∀ t ∈ ts, t.bare) :
    ∃ ss, toSchema (ts.map fun t => ([], t)) = .ok ss ∧ List.Forall₂ Describes ss ts ∧
      fromSchema ss = .ok (List.zip ((List.range ts.length).map vName) ts) := by
  obtain ⟨ss, hs, hd, hn⟩ := toSchema_bare ts h
  refine ⟨ss, hs, hd, ?_⟩
  unfold fromSchema
  rw [columnNames_unnamed ss 0 hn, hd.length_eq, ← List.range_eq_range',
    deduplicate_distinct _ [] (List.Nodup.map (fun a b e => vName_inj e) List.nodup_range) (by simp), Res.bind_ok, columnTypes_ok hd]; rfl

/-- A column with a name is never handed out: the name is written behind an allocation of one character. -/
theorem C99_named_column_is_ub (n : Name) (t : STy) (cols : List (Name × STy)) (hn : n ≠ []) : toSchema ((n, t) :: cols) = .ub := by
  cases n with
  | nil => exact absurd rfl hn
  | cons c n => rfl

/-- So is a field with a name. -/
theorem C99_named_field_is_ub (n : Name) (t : STy) (fs : SFields) (cols : List (Name × STy)) (hn : n ≠ []) :
    toSchema (([], .struct (.cons n t fs)) :: cols) = .ub := by
  cases n with
  | nil => exact absurd rfl hn
  | cons c n => simp [toSchema, addName, setFormat, Res.bind]

/-- And so are the formats of arrays, decimals and the names of the fields of maps; a struct without fields is UB as well. -/
theorem C99_composed_format_is_ub (t : STy)
    (h : (∃ k e, t = .array k e) ∨ (∃ w s, t = .decimal w s) ∨ (∃ k v, t = .map k v) ∨ t = .struct .nil) (cols : List (Name × STy)) :
    toSchema (([], t) :: cols) = .ub := by
  rcases h with ⟨k, e, rfl⟩ | ⟨w, s, rfl⟩ | ⟨k, v, rfl⟩ | rfl
  · simp [toSchema, addName, setFormat, Res.bind, arrayFormat]
  · simp [toSchema, addName, setFormat, Res.bind, Res.map', decimalFormat]
  · simp [toSchema, addName, setFormat, Res.bind, nameKey]
  · simp [toSchema, addName, setFormat, Res.bind]

/-- Blobs and 128 bit integers are refused. -/
theorem C99_blob_throws (s : Scalar) (h : s = .blob ∨ s = .hugeint ∨ s = .uhugeint) (cols : List (Name × STy)) :
    toSchema (([], .scalar s) :: cols) = .throws := by
  rcases h with rfl | rfl | rfl <;> rfl

theorem C99_round_trip_fails : ¬ C99_round_trip_claim := by
  intro h
  obtain ⟨ss, hs, -⟩ := h [([97], .scalar .integer)] (by simp) (by simp) (by
    intro c hc; simp only [List.mem_singleton] at hc; subst hc; exact ⟨_, intCol_describes []⟩)
  rw [C99_named_column_is_ub _ _ _ (by simp)] at hs; cases hs

/-! ### The hypotheses can be met -/

/-- A list of structs of a decimal and a text, an array of timestamps with a zone, a map, an int32. -/
def exSchema : List Sch :=
  [.mk [43, 76] [97] (.cons (.mk [43, 115] [108] (.cons (.mk ([100, 58] ++ showNat 18 ++ [44] ++ showNat 3) [98] .nil)
     (.cons (.mk [117] [99] .nil) .nil))) .nil),
   .mk ([43, 119, 58] ++ showNat 3) [98] (.cons (.mk ([116, 115, 117, 58] ++ [85, 84, 67]) [] .nil) .nil),
   .mk [43, 109] [99] (.cons (.mk [43, 115] [] (.cons (.mk [85] [] .nil) (.cons (.mk [108] [] .nil) .nil))) .nil),
   intCol [100]]
def exTypes : List STy :=
  [.list (.struct (.cons [98] (.decimal 18 3) (.cons [99] (.scalar .string) .nil))), .array 3 (.scalar .tsUs),
   .map (.scalar .string) (.scalar .bigint), .scalar .integer]

theorem exDescribes : List.Forall₂ Describes exSchema exTypes :=
  .cons (.list (by simp) (.struct (by simp) (.cons (.decimal (by omega) (by omega)) (.cons (.scalar (.string _ (by simp))) .nil))))
    (.cons (.array (by omega) (.scalar (.tsUs _))) (.cons (.map (.scalar (.string _ (by simp))) (.scalar .bigint)) (.cons (intCol_describes _) .nil)))

example : fromSchema exSchema = .ok (List.zip [[97], [98], [99], [100]] exTypes) :=
  C99_read_distinct exSchema exTypes exDescribes (by simp [exSchema, Sch.name, intCol]) (by simp [exSchema, Sch.name, intCol])

/-- A list of structs and a double, without names. -/
example : ∃ ss, toSchema ([STy.list (.struct (.cons [] (.scalar .string) (.cons [] (.scalar .boolean) .nil))), .scalar .double].map
    fun t => ([], t)) = .ok ss ∧ fromSchema ss = .ok (List.zip [vName 0, vName 1]
      [STy.list (.struct (.cons [] (.scalar .string) (.cons [] (.scalar .boolean) .nil))), .scalar .double]) := by
  obtain ⟨ss, h, -, h'⟩ := C99_round_trip_partial [STy.list (.struct (.cons [] (.scalar .string) (.cons [] (.scalar .boolean) .nil))), .scalar .double]
    (by simp [STy.bare, SFields.bare])
  exact ⟨ss, h, h'⟩

end Verif.Arrow
