import Verif.Metadata.Spec
import Verif.TableId.Props
/-!
C11: the catalogue on disk survives restarts.
-/
namespace Verif.Metadata
open Verif Verif.TableId

/-! ### helper lemmas -/

theorem find_cons (p : Str × List Str) (d : Data) (db : Str) :
    find (p :: d) db = if p.1 = db then some p.2 else find d db := by
  unfold find
  rw [List.find?_cons]
  by_cases h : p.1 = db
  · simp [h]
  · have : (p.1 == db) = false := by simp [h]
    simp only [this, if_neg h]

theorem find_nil (db : Str) : find [] db = none := rfl

theorem find_append (d e : Data) (db : Str) : find (d ++ e) db = (find d db).or (find e db) := by
  induction d with
  | nil => simp [find_nil]
  | cons p d ih =>
    rw [List.cons_append, find_cons, find_cons, ih]
    split <;> simp

theorem find_filter (d : Data) (db x : Str) :
    find (d.filter (fun p => p.1 != db)) x = if x = db then none else find d x := by
  induction d with
  | nil => simp [find_nil]
  | cons p d ih =>
    rw [List.filter_cons]
    by_cases h : p.1 = db
    · simp only [h, bne_self_eq_false, Bool.false_eq_true, if_false]
      rw [ih, find_cons]
      by_cases hx : x = db
      · simp [hx]
      · rw [if_neg hx, if_neg hx, if_neg (by rw [h]; exact fun e => hx e.symm)]
    · have : (p.1 != db) = true := by simp [h]
      simp only [this, if_true]
      rw [find_cons, find_cons, ih]
      by_cases hpx : p.1 = x
      · subst hpx; simp [h]
      · simp only [if_neg hpx]

theorem find_update (d : Data) (db : Str) (cols : List Str) (x : Str) :
    find (update d db cols) x = if x = db then (find d x).map (fun _ => cols) else find d x := by
  induction d with
  | nil => simp [find_nil, update]
  | cons p d ih =>
    have e : update (p :: d) db cols = (if p.1 == db then (p.1, cols) else p) :: update d db cols := rfl
    rw [e, find_cons, find_cons, ih]
    by_cases h : p.1 = db
    · simp only [h, beq_self_eq_true, if_true]
      by_cases hx : x = db
      · simp [hx]
      · simp only [if_neg hx]
        by_cases hd : db = x
        · exact absurd hd.symm hx
        · simp [hd]
    · have : (p.1 == db) = false := by simp [h]
      simp only [this, Bool.false_eq_true, if_false]
      by_cases hpx : p.1 = x
      · subst hpx; simp [h]
      · simp only [if_neg hpx]

/-- Keys are pairwise different. -/
def Keys (d : Data) : Prop := (d.map (·.1)).Nodup

theorem keys_update {d : Data} {db : Str} {cols : List Str} (h : Keys d) : Keys (update d db cols) := by
  unfold Keys update at *
  rw [List.map_map]
  have : ((fun x => x.1) ∘ fun (p : Str × List Str) => if p.1 == db then (p.1, cols) else p) = fun p => p.1 := by
    funext p
    simp only [Function.comp]
    split <;> rfl
  rw [this]; exact h

theorem find_none_iff {d : Data} {db : Str} : find d db = none ↔ db ∉ d.map (·.1) := by
  induction d with
  | nil => simp [find_nil]
  | cons p d ih =>
    rw [find_cons]
    by_cases h : p.1 = db
    · simp [h]
    · simp only [if_neg h, ih, List.map_cons, List.mem_cons, not_or]
      exact ⟨fun h2 => ⟨fun e => h e.symm, h2⟩, fun h2 => h2.2⟩

theorem find_of_mem {d : Data} (h : Keys d) {p : Str × List Str} (hp : p ∈ d) : find d p.1 = some p.2 := by
  induction d with
  | nil => cases hp
  | cons q d ih =>
    rw [find_cons]
    simp only [Keys, List.map_cons, List.nodup_cons] at h
    rcases List.mem_cons.mp hp with hp | hp
    · rw [hp]; simp
    · by_cases e : q.1 = p.1
      · exfalso; apply h.1; rw [e]; exact List.mem_map_of_mem hp
      · rw [if_neg e]; exact ih h.2 hp

theorem mem_of_find {d : Data} {db : Str} {l : List Str} (h : find d db = some l) : (db, l) ∈ d := by
  induction d with
  | nil => cases h
  | cons q d ih =>
    rw [find_cons] at h
    by_cases e : q.1 = db
    · rw [if_pos e] at h
      simp only [Option.some.injEq] at h
      rw [← e, ← h]; exact List.mem_cons_self ..
    · rw [if_neg e] at h; exact List.mem_cons_of_mem _ (ih h)

theorem find_perm {d e : Data} (hd : Keys d) (hp : e.Perm d) (x : Str) : find e x = find d x := by
  have he : Keys e := (hp.map _).nodup_iff.mpr hd
  cases h : find d x with
  | none =>
    rw [find_none_iff] at h ⊢
    intro hm; exact h ((hp.map _).mem_iff.mp hm)
  | some l =>
    have := mem_of_find h
    exact find_of_mem he (p := (x, l)) (hp.mem_iff.mpr this)

/-- The lists the format can hold. -/
def GoodData (d : Data) : Prop :=
  ∀ p ∈ d, ':' ∉ p.1 ∧ (∀ c ∈ p.2, ';' ∉ c ∧ '\n' ∉ c) ∧ p.2.Nodup

theorem readCollections_ok (db : Str) : ∀ (cols : List Str) (tail : Str) (d : Data) (pre : List Str),
    (∀ c ∈ cols, ';' ∉ c) → ';' ∉ tail → find d db = some pre → (pre ++ cols).Nodup →
    ∃ d', readCollections db ((cols.flatMap fun c => c ++ [';']) ++ tail) d = d' ∧
      find d' db = some (pre ++ cols) ∧ ∀ x, x ≠ db → find d' x = find d x := by
  intro cols
  induction cols with
  | nil =>
    intro tail d pre _ ht hf _
    refine ⟨d, ?_, by simpa using hf, fun _ _ => rfl⟩
    simp only [List.flatMap_nil, List.nil_append]
    rw [readCollections]
    split
    · rfl
    · next h => rw [cut_none.mpr ht] at h; cases h
  | cons c cs ih =>
    intro tail d pre hc ht hf hnd
    have hcut : cut ';' (((c :: cs).flatMap fun c => c ++ [';']) ++ tail)
        = some (c, (cs.flatMap fun c => c ++ [';']) ++ tail) := by
      rw [cut_some]
      refine ⟨?_, hc c (List.mem_cons_self ..)⟩
      simp [List.flatMap_cons]
    have hcp : c ∉ pre := by
      intro hm
      rw [List.nodup_append] at hnd
      exact hnd.2.2 c hm c (List.mem_cons_self ..) rfl
    have happ : (appendCollection d db c).1 = update d db (pre ++ [c]) := by
      simp only [appendCollection, hf, if_neg hcp]
    obtain ⟨d', h1, h2, h3⟩ := ih tail (update d db (pre ++ [c])) (pre ++ [c])
      (fun x hx => hc x (List.mem_cons_of_mem _ hx)) ht
      (by rw [find_update, if_pos rfl, hf]; rfl) (by simpa using hnd)
    refine ⟨d', ?_, by simpa using h2, ?_⟩
    · rw [readCollections]
      split
      · next h => rw [hcut] at h; cases h
      · next a b h =>
        rw [hcut] at h
        cases h
        rw [happ]; exact h1
    · intro x hx
      rw [h3 x hx, find_update, if_neg hx]

theorem flatMap_mem_newline {cols : List Str} (h : ∀ c ∈ cols, '\n' ∉ c) : '\n' ∉ cols.flatMap fun c => c ++ [';'] := by
  intro hm
  rw [List.mem_flatMap] at hm
  obtain ⟨c, hc, hm⟩ := hm
  rcases List.mem_append.mp hm with hm | hm
  · exact h c hc hm
  · revert hm; decide

theorem readLines_render : ∀ (d e : Data), GoodData d → Keys d → (∀ p ∈ d, find e p.1 = none) →
    ∀ x, find (readLines (render d) e) x = (find e x).or (find d x) := by
  intro d
  induction d with
  | nil =>
    intro e _ _ _ x
    have : readLines (render []) e = e := by
      rw [readLines]; split
      · rfl
      · next h => cases h
    rw [this, find_nil]; simp
  | cons p d ih =>
    intro e hg hk hdis x
    obtain ⟨db, cols⟩ := p
    obtain ⟨h1, h2, h3⟩ := hg (db, cols) (List.mem_cons_self ..)
    simp only [Keys, List.map_cons, List.nodup_cons] at hk
    have hfree := hdis (db, cols) (List.mem_cons_self ..)
    simp only at h1 h2 h3 hfree
    have hr : render ((db, cols) :: d) = db ++ ':' :: ((cols.flatMap fun c => c ++ [';']) ++ '\n' :: render d) := by
      simp [render, renderLine]
    have hc1 := (cut_some (d := ':') (s := render ((db, cols) :: d))).mpr ⟨hr, h1⟩
    have hc2 := (cut_some (d := '\n') (s := (cols.flatMap fun c => c ++ [';']) ++ '\n' :: render d)).mpr
      ⟨rfl, flatMap_mem_newline (fun c hc => (h2 c hc).2)⟩
    have happ : (appendDatabase e db).1 = e ++ [(db, [])] := by simp [appendDatabase, hfree]
    obtain ⟨e', he1, he2, he3⟩ := readCollections_ok db cols [] (e ++ [(db, [])]) [] (fun c hc => (h2 c hc).1) (by simp)
      (by rw [find_append, hfree, find_cons]; simp) (by simpa using h3)
    simp only [List.append_nil, List.nil_append] at he1 he2
    have hstep : readLines (render ((db, cols) :: d)) e = readLines (render d) e' := by
      rw [readLines]
      split
      · next h => rw [hc1] at h; cases h
      · next a b h =>
        rw [hc1] at h
        cases h
        split
        · next h' => rw [hc2] at h'; cases h'
        · next a' b' h' =>
          rw [hc2] at h'
          cases h'
          rw [happ, he1]
    have hother : ∀ y, y ≠ db → find e' y = find e y := by
      intro y hy
      rw [he3 y hy, find_append, find_cons, if_neg (fun h => hy h.symm), find_nil]; simp
    rw [hstep, ih e' (fun q hq => hg q (List.mem_cons_of_mem _ hq)) hk.2 ?_ x]
    · by_cases hx : x = db
      · subst hx
        rw [he2, hfree, find_cons]; simp
      · rw [hother x hx, find_cons, if_neg (fun h => hx h.symm)]
    · intro q hq
      have hne : q.1 ≠ db := by
        intro h; apply hk.1; rw [← h]; exact List.mem_map_of_mem hq
      rw [hother q.1 hne]
      exact hdis q (List.mem_cons_of_mem _ hq)

theorem load_keys_aux : ∀ (n : Nat) (line : Str), line.length ≤ n → ∀ (db : Str) (d : Data), Keys d →
    Keys (readCollections db line d) := by
  intro n
  induction n with
  | zero =>
    intro line hl db d hk
    cases line with
    | cons _ _ => simp at hl
    | nil =>
      rw [readCollections]; split
      · exact hk
      · next h => cases h
  | succ n ih =>
    intro line hl db d hk
    rw [readCollections]
    split
    · exact hk
    · next a b h =>
      apply ih _ (by have := cut_length h; omega)
      unfold appendCollection
      split
      · exact hk
      · split
        · exact hk
        · exact keys_update hk

theorem keys_appendDatabase {d : Data} {db : Str} (h : Keys d) : Keys (appendDatabase d db).1 := by
  unfold appendDatabase
  split
  · next hf =>
    rw [find_none_iff] at hf
    simp only [Keys, List.map_append, List.map_cons, List.map_nil]
    rw [List.nodup_append]
    refine ⟨h, by simp, ?_⟩
    intro a ha b hb
    simp only [List.mem_singleton] at hb
    subst hb
    intro e; subst e; exact hf ha
  · exact h

theorem load_keys (n : Nat) : ∀ (text : Str), text.length ≤ n → ∀ (d : Data), Keys d → Keys (readLines text d) := by
  induction n with
  | zero =>
    intro text hl d hk
    cases text with
    | cons _ _ => simp at hl
    | nil =>
      rw [readLines]; split
      · exact hk
      · next h => cases h
  | succ n ih =>
    intro text hl d hk
    rw [readLines]
    split
    · exact hk
    · next a b h =>
      split
      · exact load_keys_aux _ _ (Nat.le_refl _) _ _ (keys_appendDatabase hk)
      · next a' b' h' =>
        apply ih _ (by have := cut_length h; have := cut_length h'; omega)
        exact load_keys_aux _ _ (Nat.le_refl _) _ _ (keys_appendDatabase hk)

/-- What holds between calls. -/
structure Inv (s : State) (c : Cat) : Prop where
  keys : Keys s.data
  data : ∀ x, find s.data x = c x
  good : ∀ x l, c x = some l → ':' ∉ x ∧ (∀ k ∈ l, ';' ∉ k ∧ '\n' ∉ k) ∧ l.Nodup
  file : ∀ x, find (load s.file) x = c x

theorem goodData_of {d : Data} {c : Cat} (hk : Keys d) (hd : ∀ x, find d x = c x)
    (hg : ∀ x l, c x = some l → ':' ∉ x ∧ (∀ k ∈ l, ';' ∉ k ∧ '\n' ∉ k) ∧ l.Nodup) : GoodData d := by
  intro p hp
  exact hg p.1 p.2 (by rw [← hd, find_of_mem hk hp])

theorem load_render {d e : Data} {c : Cat} (hk : Keys d) (hd : ∀ x, find d x = c x)
    (hg : ∀ x l, c x = some l → ':' ∉ x ∧ (∀ k ∈ l, ';' ∉ k ∧ '\n' ∉ k) ∧ l.Nodup) (hp : e.Perm d) (x : Str) :
    find (load (render e)) x = c x := by
  have hke : Keys e := (hp.map _).nodup_iff.mpr hk
  have hde : ∀ x, find e x = c x := by intro x; rw [find_perm hk hp, hd]
  unfold load
  rw [readLines_render e [] (goodData_of hke hde hg) hke (fun _ _ => rfl), find_nil, hde]; rfl

def CatGood (c : Cat) : Prop :=
  ∀ x l, c x = some l → ':' ∉ x ∧ (∀ k ∈ l, ';' ∉ k ∧ '\n' ∉ k) ∧ l.Nodup

theorem save_ok {s : State} {c c' : Cat} (h : Inv s c) {ord : Data → Data} (hord : ∀ d, (ord d).Perm d)
    {r : Data × Bool} {d : Data} {b : Bool} (hr : r = (d, b))
    (hb : b = true → Keys d ∧ (∀ x, find d x = c' x) ∧ CatGood c') (hf : b = false → d = s.data ∧ c' = c) :
    Inv (save s ord r).1 c' ∧ (save s ord r).2 = b := by
  subst hr
  refine ⟨?_, rfl⟩
  cases b with
  | true =>
    obtain ⟨h1, h2, h3⟩ := hb rfl
    exact ⟨h1, h2, h3, load_render h1 h2 h3 (hord d)⟩
  | false =>
    obtain ⟨h1, h2⟩ := hf rfl
    subst h1; subst h2
    exact ⟨h.keys, h.data, h.good, h.file⟩

theorem catGood_set {c : Cat} (h : CatGood c) {db : Str} {v : Option (List Str)}
    (hv : ∀ l, v = some l → ':' ∉ db ∧ (∀ k ∈ l, ';' ∉ k ∧ '\n' ∉ k) ∧ l.Nodup) : CatGood (c.set db v) := by
  intro x l hl
  unfold Cat.set at hl
  by_cases hx : x = db
  · rw [if_pos hx] at hl; subst hx; exact hv l hl
  · rw [if_neg hx] at hl; exact h x l hl

theorem step_inv {s : State} {c : Cat} (h : Inv s c) {op : Op} (ho : GoodOp op) {ord : Data → Data}
    (hord : ∀ d, (ord d).Perm d) :
    Inv (step s op ord).1 (c.step op).1 ∧ (step s op ord).2 = (c.step op).2 := by
  cases op with
  | appendDb db =>
    simp only [step, Cat.step]
    have hd := h.data db
    cases hf : c db with
    | some l =>
      rw [hf] at hd
      simp only [reduceCtorEq, if_false]
      exact save_ok h hord (d := s.data) (b := false) (by simp [appendDatabase, hd]) (by simp) (fun _ => ⟨rfl, rfl⟩)
    | none =>
      rw [hf] at hd
      simp only [if_true]
      refine save_ok h hord (d := s.data ++ [(db, [])]) (b := true) (by simp [appendDatabase, hd]) (fun _ => ⟨?_, ?_, ?_⟩) (by simp)
      · have := keys_appendDatabase (db := db) h.keys
        simpa [appendDatabase, hd] using this
      · intro x
        rw [find_append, find_cons, find_nil, h.data]
        unfold Cat.set
        by_cases hx : x = db
        · subst hx; rw [hf]; simp
        · rw [if_neg (fun e => hx e.symm), if_neg hx]; simp
      · refine catGood_set h.good ?_
        intro l hl
        simp only [Option.some.injEq] at hl; subst hl
        exact ⟨ho, by simp, by simp⟩
  | removeDb db =>
    simp only [step, Cat.step]
    have hd := h.data db
    cases hf : c db with
    | none =>
      rw [hf] at hd
      simp only [if_true]
      exact save_ok h hord (d := s.data) (b := false) (by simp [removeDatabase, hd]) (by simp) (fun _ => ⟨rfl, rfl⟩)
    | some l =>
      rw [hf] at hd
      simp only [reduceCtorEq, if_false]
      refine save_ok h hord (d := s.data.filter (fun p => p.1 != db)) (b := true) (by simp [removeDatabase, hd])
        (fun _ => ⟨?_, ?_, ?_⟩) (by simp)
      · exact h.keys.sublist (List.filter_sublist.map _)
      · intro x
        rw [find_filter, h.data]; rfl
      · exact catGood_set h.good (by intro l hl; cases hl)
  | appendCol db col =>
    simp only [step, Cat.step]
    have hd := h.data db
    cases hf : c db with
    | none =>
      rw [hf] at hd
      exact save_ok h hord (d := s.data) (b := false) (by simp [appendCollection, hd]) (by simp) (fun _ => ⟨rfl, rfl⟩)
    | some l =>
      rw [hf] at hd
      simp only
      by_cases hm : col ∈ l
      · simp only [if_pos hm]
        exact save_ok h hord (d := s.data) (b := false) (by simp [appendCollection, hd, hm]) (by simp) (fun _ => ⟨rfl, rfl⟩)
      · simp only [if_neg hm]
        refine save_ok h hord (d := update s.data db (l ++ [col])) (b := true) (by simp [appendCollection, hd, hm])
          (fun _ => ⟨keys_update h.keys, ?_, ?_⟩) (by simp)
        · intro x
          rw [find_update, h.data]
          unfold Cat.set
          by_cases hx : x = db
          · subst hx; rw [hf]; simp
          · rw [if_neg hx, if_neg hx]
        · refine catGood_set h.good ?_
          intro l' hl
          simp only [Option.some.injEq] at hl
          subst hl
          obtain ⟨g1, g2, g3⟩ := h.good db l hf
          refine ⟨g1, ?_, ?_⟩
          · intro k hk
            rcases List.mem_append.mp hk with hk | hk
            · exact g2 k hk
            · simp only [List.mem_singleton] at hk; subst hk; exact ho
          · rw [List.nodup_append]
            refine ⟨g3, by simp, ?_⟩
            intro a ha b hb
            simp only [List.mem_singleton] at hb
            subst hb
            intro e; subst e; exact hm ha
  | removeCol db col =>
    simp only [step, Cat.step]
    have hd := h.data db
    cases hf : c db with
    | none =>
      rw [hf] at hd
      exact save_ok h hord (d := s.data) (b := false) (by simp [removeCollection, hd]) (by simp) (fun _ => ⟨rfl, rfl⟩)
    | some l =>
      rw [hf] at hd
      simp only
      by_cases hm : col ∈ l
      · simp only [if_pos hm]
        refine save_ok h hord (d := update s.data db (l.filter (· != col))) (b := true) (by simp [removeCollection, hd, hm])
          (fun _ => ⟨keys_update h.keys, ?_, ?_⟩) (by simp)
        · intro x
          rw [find_update, h.data]
          unfold Cat.set
          by_cases hx : x = db
          · subst hx; rw [hf]; simp
          · rw [if_neg hx, if_neg hx]
        · refine catGood_set h.good ?_
          intro l' hl
          simp only [Option.some.injEq] at hl
          subst hl
          obtain ⟨g1, g2, g3⟩ := h.good db l hf
          exact ⟨g1, fun k hk => g2 k (List.mem_filter.mp hk).1, g3.sublist List.filter_sublist⟩
      · simp only [if_neg hm]
        exact save_ok h hord (d := s.data) (b := false) (by simp [removeCollection, hd, hm]) (by simp) (fun _ => ⟨rfl, rfl⟩)
  | reopen =>
    refine ⟨⟨?_, h.file, h.good, h.file⟩, rfl⟩
    exact load_keys _ _ (Nat.le_refl _) _ (by simp [Keys])

/-! ## C11 -/

theorem run_inv : ∀ (es : List (Op × (Data → Data))) {s : State} {c : Cat}, Inv s c →
    (∀ e ∈ es, GoodOp e.1 ∧ ∀ d, (e.2 d).Perm d) →
    Inv (run s es).1 (c.run (es.map (·.1))).1 ∧ (run s es).2 = (c.run (es.map (·.1))).2 := by
  intro es
  induction es with
  | nil => intro s c h _; exact ⟨h, rfl⟩
  | cons e es ih =>
    intro s c h he
    obtain ⟨op, ord⟩ := e
    obtain ⟨h1, h2⟩ := step_inv h (he _ (List.mem_cons_self ..)).1 (he _ (List.mem_cons_self ..)).2
    obtain ⟨h3, h4⟩ := ih h1 (fun x hx => he x (List.mem_cons_of_mem _ hx))
    refine ⟨h3, ?_⟩
    simp only at h2 h4
    simp only [run, List.map_cons, Cat.run, h2, h4]

/-- C11: for every history of creating and removing databases and collections, with restarts anywhere,
and whatever order the map is written in: every call answers as the catalogue without files and restarts
would, and after another restart every database has exactly its collections, in order. -/
theorem C11_catalogue_survives (es : List (Op × (Data → Data)))
    (h : ∀ e ∈ es, GoodOp e.1 ∧ ∀ d, (e.2 d).Perm d) :
    (run ⟨[], []⟩ es).2 = (Cat.run (fun _ => none) (es.map (·.1))).2 ∧
    (∀ db, find (run ⟨[], []⟩ es).1.data db = (Cat.run (fun _ => none) (es.map (·.1))).1 db) ∧
    ∀ db, find (load (run ⟨[], []⟩ es).1.file) db = (Cat.run (fun _ => none) (es.map (·.1))).1 db := by
  have hl : load [] = [] := by
    unfold load
    rw [readLines]
    split
    · rfl
    · next h => cases h
  have h0 : Inv ⟨[], []⟩ (fun _ => none) := by
    refine ⟨by simp [Keys], fun _ => rfl, ?_, ?_⟩
    · intro x l h; cases h
    · intro x; rw [hl]; rfl
  obtain ⟨h1, h2⟩ := run_inv es h0 h
  exact ⟨h2, h1.data, h1.file⟩

/-- Non-vacuity: two databases, three collections, a removal, a restart, one flush in reverse order. -/
def sample : List (Op × (Data → Data)) :=
  [(.appendDb "a".toList, id), (.appendDb "b;".toList, id), (.appendCol "a".toList "x".toList, List.reverse),
   (.appendCol "a".toList "y:".toList, id), (.reopen, id), (.removeCol "a".toList "x".toList, List.reverse),
   (.appendDb "a".toList, id)]

example : (∀ e ∈ sample, GoodOp e.1 ∧ ∀ d, (e.2 d).Perm d) := by
  intro e he
  simp only [sample, List.mem_cons, List.not_mem_nil, or_false] at he
  rcases he with rfl | rfl | rfl | rfl | rfl | rfl | rfl <;>
    first
    | exact ⟨by simp only [GoodOp]; try decide, fun d => List.Perm.refl _⟩
    | exact ⟨by simp only [GoodOp]; try decide, fun d => List.reverse_perm _⟩
example : (Cat.run (fun _ => none) (sample.map (·.1))).1 "a".toList = some ["y:".toList] := by decide
example : (Cat.run (fun _ => none) (sample.map (·.1))).2 = [true, true, true, true, true, true, false] := by decide

/-- The same without conditions on the names. -/
def C11_any_name_claim : Prop :=
  ∀ es : List (Op × (Data → Data)), (∀ e ∈ es, ∀ d, (e.2 d).Perm d) →
    ∀ db, find (load (run ⟨[], []⟩ es).1.file) db = (Cat.run (fun _ => none) (es.map (·.1))).1 db

theorem load_two (a b : Str) (h : ':' ∉ a) (hn : '\n' ∉ b) (hs : ';' ∉ b) : find (load (a ++ ':' :: (b ++ ['\n']))) a = some [] := by
  have hc1 := (cut_some (d := ':') (s := a ++ ':' :: (b ++ ['\n']))).mpr ⟨rfl, h⟩
  have hc2 := (cut_some (d := '\n') (s := b ++ ['\n'])).mpr ⟨rfl, hn⟩
  have hrc : ∀ d, readCollections a b d = d := by
    intro d; rw [readCollections]; split
    · rfl
    · next h' => rw [cut_none.mpr hs] at h'; cases h'
  have hrl : ∀ d, readLines [] d = d := by
    intro d; rw [readLines]; split
    · rfl
    · next h' => cases h'
  unfold load
  rw [readLines]
  split
  · next h' => rw [hc1] at h'; cases h'
  · next x y h' =>
    rw [hc1] at h'
    cases h'
    split
    · next h' => rw [hc2] at h'; cases h'
    · next x y h' =>
      rw [hc2] at h'
      cases h'
      rw [hrc, hrl]
      simp [appendDatabase, find_nil, find_cons]

/-- C11, the condition is needed: a database called `a:b` comes back as `a`. -/
theorem C11_any_name_fails : ¬ C11_any_name_claim := by
  intro h
  have := h [(.appendDb "a:b".toList, id)] (by simp) "a".toList
  have e : (run ⟨[], []⟩ [(Op.appendDb "a:b".toList, id)]).1.file = "a".toList ++ ':' :: ("b:".toList ++ ['\n']) := by decide
  rw [e, load_two _ _ (by decide) (by decide) (by decide)] at this
  revert this
  decide

/-- The file after a crash between the write and the truncation of a flush (metadata.cpp:130-131): the
new text over the old one. -/
def tornFlush (old new : Str) : Str := new ++ old.drop new.length

/-- C11, crash points: what one would like of a crash inside a flush is that either the old or the new
catalogue is read back. -/
def C11_crash_claim : Prop :=
  ∀ (d : Data) (db : Str), GoodData d → Keys d → (removeDatabase d db).2 = true →
    let after := tornFlush (render d) (render (removeDatabase d db).1)
    (∀ x, find (load after) x = find d x) ∨ (∀ x, find (load after) x = find (removeDatabase d db).1 x)

/-- C11, disagreement: after removing the first of two databases and crashing before the truncation, the
tail of the old text is read as a database that never existed. -/
theorem C11_crash_fails : ¬ C11_crash_claim := by
  intro h
  have hr : tornFlush (render [("q".toList, []), ("wxyz".toList, [])])
      (render (removeDatabase [("q".toList, []), ("wxyz".toList, [])] "q".toList).1)
      = render [("wxyz".toList, []), ("z".toList, [])] := by decide
  have hgood : GoodData [("wxyz".toList, []), ("z".toList, [])] := by
    intro p hp
    simp only [List.mem_cons, List.not_mem_nil, or_false] at hp
    rcases hp with rfl | rfl <;> exact ⟨by decide, by simp, by simp⟩
  have hload : find (load (render [("wxyz".toList, []), ("z".toList, [])])) "z".toList = some [] := by
    unfold load
    rw [readLines_render _ [] hgood (by unfold Keys; decide) (fun _ _ => rfl)]
    decide
  have := h [("q".toList, []), ("wxyz".toList, [])] "q".toList (by
      intro p hp
      simp only [List.mem_cons, List.not_mem_nil, or_false] at hp
      rcases hp with rfl | rfl <;> exact ⟨by decide, by simp, by simp⟩) (by unfold Keys; decide) (by decide)
  simp only [hr] at this
  rcases this with h1 | h1
  · have := h1 "z".toList; rw [hload] at this; revert this; decide
  · have := h1 "z".toList; rw [hload] at this; revert this; decide

end Verif.Metadata
