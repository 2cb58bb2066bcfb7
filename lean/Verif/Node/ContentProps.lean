import Verif.Node.CleanProps
/-!
The documents of the collections after requests that wait for each other: those the accepted requests produced, in a map from `_id` to content.
-/
namespace Verif.Node

/-- What a write does to the map of its collection. -/
theorem look_runPlan (m : Store) (c : Coll) (l : List Doc) (p : Plan) (hs : Sorted l) (hw : p.writes = true) (hc : p.coll = some c)
    (hn : ∀ ds, p = .insert c ds → (ds.map Doc.id).Nodup) (hm : ∀ i, m c i = look l i) (i : Nat) :
    look (runPlan l p).1 i = m.after p c i := by
  cases p with
  | insert x ds =>
    injection hc with hc; subst hc
    show look (insertDocs l ds).1 i = (if ds.any (fun d => (m x d.id).isSome) then m else fun y i => if y = x then (look ds i).or (m y i) else m y i) x i
    have e : (ds.any fun d => has d.id l) = ds.any fun d => (m x d.id).isSome := by
      congr 1; funext d; rw [has_look, hm]
    unfold insertDocs
    rw [e]
    cases ds.any (fun d => (m x d.id).isSome) with
    | true => rw [if_pos rfl, if_pos rfl, hm]
    | false =>
      rw [if_neg (by simp), if_neg (by simp), if_pos rfl, hm]
      exact look_batch ds l (hn ds rfl) i
  | delete x q =>
    injection hc with hc; subst hc
    show look (l.filter fun d => !q d) i = if x = x then (m x i).filter (fun b => !q ⟨i, b⟩) else m x i
    rw [if_pos rfl, hm, look_filter (fun d => !q d) hs]
  | update x g =>
    injection hc with hc; subst hc
    show look (l.map (updateDoc g)) i = if x = x then (m x i).map (fun b => (g ⟨i, b⟩).getD b) else m x i
    rw [if_pos rfl, hm, look_update]
  | _ => exact absurd hw (by simp [Plan.writes])

/-- A write leaves the other collections. -/
theorem after_other (m : Store) (c x : Coll) (p : Plan) (hw : p.writes = true) (hc : p.coll = some x) (hne : c ≠ x) (i : Nat) : m.after p c i = m c i := by
  cases p with
  | insert y ds =>
    injection hc with hc; subst hc
    show (if ds.any (fun d => (m y d.id).isSome) then m else fun x i => if x = y then (look ds i).or (m x i) else m x i) c i = _
    split
    · rfl
    · exact if_neg hne
  | delete y q =>
    injection hc with hc; subst hc
    exact if_neg hne
  | update y g =>
    injection hc with hc; subst hc
    exact if_neg hne
  | _ => exact absurd hw (by simp [Plan.writes])

/-- The requests of the theorem: no dropped databases, no batch with a repeated `_id`. -/
def Usual : Plan → Prop
  | .dropDb _ => False
  | .insert _ ds => (ds.map Doc.id).Nodup
  | _ => True

/-- The documents in memory are ordered and belong to collections of the catalog. -/
def Tidy (s : Sys) : Prop := ∀ c, Sorted (docs s c) ∧ Owned s c

theorem docs_set {s t : Sys} (x : Coll) (v : Nat × List Doc) (h : t.mem = set s.mem x (some v)) (c : Coll) :
    docs t c = if c = x then v.2 else docs s c := by
  unfold docs
  rw [h]
  by_cases e : c = x
  · subst e; rw [set_same, if_pos rfl]
  · rw [set_other _ _ _ _ e, if_neg e]

theorem ask_contents {s : Sys} {w : World} (h : Ready s) (hw : Shows s w) (ht : Tidy s) (k : Nat) (p : Plan) (hp : Usual p) :
    Tidy (run s (ask k p)) ∧ contents (run s (ask k p)) = if admit s.cat p then (contents s).after p else contents s := by
  have hown : ∀ c, Owned (run s (ask k p)) c := fun c => ask_owned h hw c (ht c).2 k p (fun e => by subst e; exact hp)
  cases ha : admit s.cat p with
  | false =>
    rw [if_neg (by simp)]
    rw [ask_refused h k p ha]
    exact ⟨ht, rfl⟩
  | true =>
    rw [if_pos rfl]
    have write : ∀ x, p.writes = true → p.coll = some x → s.cat.computes x = true →
        Tidy (run s (ask k p)) ∧ contents (run s (ask k p)) = (contents s).after p := by
      intro x hpw hpc hx
      have hm := h.known x hx
      cases hm' : s.mem x with
      | none => exact absurd hm' hm
      | some v =>
        obtain ⟨g, l⟩ := v
        have hl : docs s x = l := by unfold docs; rw [hm']
        have hsl : Sorted l := hl ▸ (ht x).1
        have hd : ∀ c, docs (run s (ask k p)) c = if c = x then (runPlan l p).1 else docs s c := by
          intro c
          exact docs_set (s := s) x (g, (runPlan l p).1) (by rw [ask_write h k p x hpw hpc ha g l hm']) c
        refine ⟨fun c => ⟨?_, hown c⟩, ?_⟩
        · rw [hd]
          split
          · exact sorted_runPlan l p hsl
          · exact (ht c).1
        · funext c i
          unfold contents
          rw [hd]
          split
          · rename_i e
            subst e
            refine look_runPlan _ c l p hsl hpw hpc ?_ (fun i => by rw [hl]) i
            intro ds e; subst e; exact hp
          · rename_i e
            exact (after_other (contents s) c x p hpw hpc e i).symm
    have same : (run s (ask k p)).mem = s.mem → (contents s).after p = contents s →
        Tidy (run s (ask k p)) ∧ contents (run s (ask k p)) = (contents s).after p := by
      intro hm he
      have hd : ∀ c, docs (run s (ask k p)) c = docs s c := fun c => docs_mem (by rw [hm])
      refine ⟨fun c => ⟨by rw [hd]; exact (ht c).1, hown c⟩, ?_⟩
      rw [he]
      funext c i
      unfold contents
      rw [hd]
    cases p with
    | createDb d => exact same (by rw [ask_createDb h k d ha]; rfl) rfl
    | dropDb d => exact absurd hp (by simp [Usual])
    | find x => exact same (by rw [ask_find h k x ha]; rfl) rfl
    | insert x _ => exact write x rfl rfl ha
    | delete x _ => exact write x rfl rfl ha
    | update x _ => exact write x rfl rfl ha
    | createColl x =>
      have hx : s.cat.computes x = false := by simpa [admit] using ha
      have hde : docs s x = [] := by
        by_contra hne
        have := (ht x).2 hne
        rw [hx] at this
        exact absurd this (by simp)
      have hd : ∀ c, docs (run s (ask k (.createColl x))) c = docs s c := by
        intro c
        have hm : (run s (ask k (.createColl x))).mem = if s.mem x = none then set s.mem x (some (s.gen, [])) else s.mem := by
          rw [ask_createColl h k x ha]
        by_cases hn : s.mem x = none
        · rw [if_pos hn] at hm
          rw [docs_set (s := s) x (s.gen, []) hm]
          split
          · rename_i e; subst e; rw [hde]
          · rfl
        · rw [if_neg hn] at hm
          exact docs_mem (by rw [hm])
      refine ⟨fun c => ⟨by rw [hd]; exact (ht c).1, hown c⟩, ?_⟩
      funext c i
      show look (docs (run s (ask k (.createColl x))) c) i = if c = x then none else look (docs s c) i
      rw [hd]
      split
      · rename_i e; subst e; rw [hde]; rfl
      · rfl
    | dropColl x =>
      have hm : (run s (ask k (.dropColl x))).mem = set s.mem x none := by
        rw [ask_dropColl h k x ha]
      have hd : ∀ c, docs (run s (ask k (.dropColl x))) c = if c = x then [] else docs s c := by
        intro c
        unfold docs
        rw [hm]
        by_cases e : c = x
        · subst e; rw [set_same, if_pos rfl]
        · rw [set_other _ _ _ _ e, if_neg e]
      refine ⟨fun c => ⟨?_, hown c⟩, ?_⟩
      · rw [hd]
        split
        · exact List.Pairwise.nil
        · exact (ht c).1
      · funext c i
        show look (docs (run s (ask k (.dropColl x))) c) i = if c = x then none else look (docs s c) i
        rw [hd]
        split <;> rfl

theorem acknowledged_cons {s t : Sys} (n : Nat) (p : Plan) (ok : Bool) (h : t.answers = (n, p, ok) :: s.answers) :
    acknowledged t = if ok then acknowledged s ++ [p] else acknowledged s := by
  unfold acknowledged
  rw [h, List.reverse_cons, List.filter_append, List.map_append]
  cases ok <;> simp

theorem serve_contents (ps : List (Nat × Plan)) : ∀ (s : Sys) (w : World), Ready s → Shows s w → Tidy s → (∀ x ∈ ps, Usual x.2) →
    contents s = (acknowledged s).foldl Store.after (fun _ _ => none) →
    contents (serve s ps) = (acknowledged (serve s ps)).foldl Store.after (fun _ _ => none) := by
  induction ps with
  | nil => intro s w _ _ _ _ h; exact h
  | cons x ps ih =>
    intro s w h hw ht hp hc
    obtain ⟨h1, h2, h3, _⟩ := ask_world h hw x.1 x.2
    obtain ⟨c1, c2⟩ := ask_contents h hw ht x.1 x.2 (hp x List.mem_cons_self)
    rw [serve_cons]
    refine ih _ _ h1 h2 c1 (fun y hy => hp y (List.mem_cons_of_mem _ hy)) ?_
    rw [c2, acknowledged_cons s.next x.2 _ h3, ← admit_world hw]
    cases admit s.cat x.2 with
    | true => rw [if_pos rfl, if_pos rfl, List.foldl_append, hc]; rfl
    | false => rw [if_neg (by simp), if_neg (by simp), hc]

/-- C08, while the node runs, for requests that wait for each other, without dropped databases and batches with repeated `_id`s: every collection contains
exactly what the requests answered with success (inserts, updates, deletes, creations and drops, in their order) make of empty collections. -/
theorem C08_contents_partial (ps : List (Nat × Plan)) (hp : ∀ x ∈ ps, Usual x.2) :
    contents (serve init ps) = (acknowledged (serve init ps)).foldl Store.after (fun _ _ => none) :=
  serve_contents ps init World.empty ready_init shows_init (fun _ => ⟨List.Pairwise.nil, fun h => absurd rfl h⟩) hp rfl

/-- Inserts, a refused insert, an update and a delete. -/
def works : List (Nat × Plan) := [(0, .createDb 1), (0, .createColl ⟨1, 5⟩), (0, .insert ⟨1, 5⟩ [⟨2, 20⟩, ⟨1, 10⟩]), (0, .insert ⟨1, 5⟩ [⟨3, 30⟩, ⟨1, 11⟩]),
  (1, .update ⟨1, 5⟩ fun d => if d.id = 1 then some 12 else none), (0, .delete ⟨1, 5⟩ fun d => d.body == 20), (0, .insert ⟨1, 7⟩ [⟨3, 30⟩])]

example : (∀ x ∈ works, Usual x.2) ∧ docs (serve init works) ⟨1, 5⟩ = [⟨1, 12⟩] ∧ contents (serve init works) ⟨1, 5⟩ 1 = some 12 := by
  refine ⟨?_, by decide +kernel, by decide +kernel⟩
  intro x hx
  fin_cases hx <;> simp [Usual]

/-- A batch that repeats an `_id`: the memory keeps the second document. -/
theorem C08_repeated_id_keeps_last_fails :
    contents (serve init [(0, .createDb 1), (0, .createColl ⟨1, 5⟩), (0, .insert ⟨1, 5⟩ [⟨1, 10⟩, ⟨1, 11⟩])]) ⟨1, 5⟩ 1 = some 11 := by
  decide +kernel

end Verif.Node
