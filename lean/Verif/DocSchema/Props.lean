import Verif.DocSchema.Lemmas
/-!
C104: the schema of a collection says which fields and types its documents have.
-/
namespace Verif.DocSchema
open Verif.CompSchema Verif.Trie
set_option linter.unusedSectionVars false
variable {E V C : Type} [LinearOrder E] [DecidableEq V] [DecidableEq C]

/-- The full claim: after any history the process goes on, and when all that was executed has reached the schemas, a schema lists exactly the
fields that documents of its collection have, each with a type that one of them has. -/
def C104_claim (E V C : Type) [LinearOrder E] [DecidableEq V] [DecidableEq C] : Prop :=
  ∀ es : List (Event E V C), (run init es).dead = false ∧ (Settled (run init es) → ∀ c,
    (∀ name, (∃ ty, (name, ty) ∈ getSchema (run init es) c) ↔ ∃ ty, Has (run init es) c name ty) ∧
    ∀ name ty, (name, ty) ∈ getSchema (run init es) c → Has (run init es) c name ty)

/-- What is known of a settled history: the schema comes from calls for the fields of the documents, and counts them. -/
theorem settled_ghost (es : List (Event E V C)) (h : FollowedAll es) (hn : NamesApart es) (hs : Settled (run init es)) (c : C) :
    ∃ O : List (Op E V), (run init es).sch c = after O ∧ (∀ o ∈ O, Named (Inserted es) o) ∧ ∀ name ty, 0 < count O name ty ↔ Has (run init es) c name ty := by
  obtain ⟨O, g1, g2, g3⟩ := (ok_run es h hn).ghost
  refine ⟨O c, g1 c, g2 c, fun name ty => ?_⟩
  have hi : items (run init es) = [] := by unfold items; rw [hs.1, hs.2]; rfl
  rw [hi] at g3
  have g3 : (fun c => count (O c)) = stored (run init es) := g3
  have := congrFun (congrFun (congrFun g3 c) name) ty
  rw [show count (O c) name ty = stored (run init es) c name ty from this]
  unfold stored
  rw [List.count_pos_iff]
  exact pairs_mem

/-- The process goes on; and when all that was executed has reached the schemas, then each of them knows exactly the fields the documents have, a field exactly with the
types it has in some document, each once; and what a client is told of a field and its type is so. -/
theorem C104_schema_partial (es : List (Event E V C)) (h : FollowedAll es) (hn : NamesApart es) :
    (run init es).dead = false ∧ (Settled (run init es) → ∀ c,
      (∀ name, name ∈ ((run init es).sch c).names ↔ ∃ ty, Has (run init es) c name ty) ∧
      (∀ name, (∃ ty, Has (run init es) c name ty) →
        ∃ l, ((run init es).sch c).fieldVersions name = .ok l ∧ l.Nodup ∧ ∀ ty, ty ∈ l ↔ Has (run init es) c name ty) ∧
      ∀ name ty, (name, ty) ∈ getSchema (run init es) c → Has (run init es) c name ty) := by
  refine ⟨(ok_run es h hn).alive, fun hs c => ?_⟩
  obtain ⟨O, g1, g2, g3⟩ := settled_ghost es h hn hs c
  have hsp := spread_of hn g2
  obtain ⟨_, v1, v2⟩ := C36_versions_partial O hsp
  rw [g1]
  refine ⟨fun name => ?_, fun name hx => ?_, fun name ty hm => ?_⟩
  · rw [v2 name]
    exact exists_congr fun ty => g3 name ty
  · obtain ⟨ty, hx⟩ := hx
    obtain ⟨l, l1, l2, l3⟩ := v1 name ⟨ty, (g3 name ty).mpr hx⟩
    exact ⟨l, l1, l2, fun ty => (l3 ty).trans (g3 name ty)⟩
  · have hs := sinv_after (far_of_spread hsp) O (fun o ho => ⟨o, ho, rfl⟩)
    unfold getSchema at hm
    rw [g1] at hm
    unfold Schema.latestTypes at hm
    obtain ⟨name', _, he⟩ := List.mem_filterMap.mp hm
    cases hl : ((after O).fields.versions name').getLast? with
    | none => rw [hl] at he; cases he
    | some v =>
      rw [hl] at he
      simp only at he
      split at he
      · rename_i ha
        have hv := List.mem_of_getLast? hl
        cases he
        refine (g3 _ _).mp ?_
        rw [← hs.refs _ v hv]
        simpa [Ver.alive] using ha
      · cases he

/-- If no field is ever inserted with two types, clients are told exactly the fields of the documents. -/
theorem C104_get_schema_partial (es : List (Event E V C)) (h : FollowedAll es) (hn : NamesApart es)
    (h1 : ∀ name ty ty', Inserted es name ty → Inserted es name ty' → ty = ty') (hs : Settled (run init es)) (c : C) :
    ∀ name ty, (name, ty) ∈ getSchema (run init es) c ↔ Has (run init es) c name ty := by
  obtain ⟨O, g1, g2, g3⟩ := settled_ghost es h hn hs c
  intro name ty
  have ho : OneType O := by
    intro pre post p ty e u hu
    have hpre : ∀ (pre : List (Op E V)), (∀ o ∈ pre, Named (Inserted es) o) → 0 < count pre p u → Inserted es p u := by
      intro pre
      induction pre using List.reverseRecOn with
      | nil => intro _ hc; exact absurd hc (by simp [count])
      | append_singleton pre o ih =>
        intro hN hc
        rw [count_snoc] at hc
        have ih := ih (fun o ho => hN o (List.mem_append_left _ ho))
        have hNo := hN o (by simp)
        cases o with
        | append q t =>
          simp only [countStep] at hc
          split at hc
          · rename_i hq; rw [hq.1, hq.2]; exact hNo
          · exact ih hc
        | drop q t k =>
          simp only [countStep] at hc
          split at hc
          · exact ih (by omega)
          · exact ih hc
    refine h1 p u ty (hpre pre (fun o ho => g2 o (by rw [e]; exact List.mem_append_left _ ho)) hu) ?_
    exact g2 (.append p ty) (by rw [e]; simp)
  unfold getSchema
  rw [g1, C36_latest_partial O (spread_of hn g2) ho, g3]

/-! ## A case that meets the hypotheses -/

/-- Two collections, documents with two fields; deletes and an update, the log answers late. -/
def story : List (Event Nat Nat Nat) :=
  [.exec 0 (.insert [⟨1, [([1], 7), ([2], 8)]⟩, ⟨2, [([1], 7)]⟩]), .exec 1 (.insert [⟨1, [([3], 7)]⟩]), .exec 0 (.delete fun d => d.id == 1), .finish,
   .exec 0 (.update fun d => if d.id = 2 then some d.fields else none), .finish, .walOk, .finish, .finish, .exec 1 (.insert [⟨2, [([2], 8)]⟩]),
   .walOk, .walOk, .walOk, .finish, .walOk]

theorem story_inserted {n : List Nat} {ty : Nat} (h : Inserted story n ty) : (n = [1] ∧ ty = 7) ∨ (n = [2] ∧ ty = 8) ∨ (n = [3] ∧ ty = 7) := by
  obtain ⟨c, docs, h1, d, h2, h3⟩ := h
  simp [story] at h1
  rcases h1 with ⟨rfl, rfl⟩ | ⟨rfl, rfl⟩ | ⟨rfl, rfl⟩
  · simp only [List.mem_cons, List.not_mem_nil, or_false] at h2
    rcases h2 with rfl | rfl
    · simp at h3
      rcases h3 with h3 | h3 <;> simp [h3]
    · simp at h3; simp [h3]
  · simp only [List.mem_cons, List.not_mem_nil, or_false] at h2
    subst h2
    simp at h3; simp [h3]
  · simp only [List.mem_cons, List.not_mem_nil, or_false] at h2
    subst h2
    simp at h3; simp [h3]

theorem story_followed : FollowedAll story := by
  refine ⟨by simp [story], ?_⟩
  intro a c p b h
  unfold story at h
  rcases a with _ | ⟨_, _ | ⟨_, _ | ⟨_, _ | ⟨_, _ | ⟨_, _ | ⟨_, _ | ⟨_, _ | ⟨_, _ | ⟨_, _ | ⟨_, _ | ⟨_, _ | ⟨_, _ | ⟨_, _ | ⟨_, _ | ⟨_, _ | ⟨_, a⟩⟩⟩⟩⟩⟩⟩⟩⟩⟩⟩⟩⟩⟩⟩⟩ <;>
    simp only [List.nil_append, List.cons_append, List.cons.injEq, Event.exec.injEq, reduceCtorEq, false_and, and_false] at h
  · obtain ⟨⟨rfl, rfl⟩, _⟩ := h
    exact ⟨by decide, by decide⟩
  · obtain ⟨rfl, ⟨rfl, rfl⟩, _⟩ := h
    exact ⟨by decide, by decide⟩
  · obtain ⟨rfl, rfl, ⟨rfl, rfl⟩, _⟩ := h
    rintro (⟨c, t, h⟩ | ⟨c, h⟩)
    · simp [run, step, init, exec, set] at h
    · simp [run, step, init, exec, set] at h
  · obtain ⟨rfl, rfl, rfl, rfl, ⟨rfl, rfl⟩, _⟩ := h
    intro d _ fs hg
    simp at hg
    exact hg.2.symm
  · obtain ⟨rfl, rfl, rfl, rfl, rfl, rfl, rfl, rfl, rfl, ⟨rfl, rfl⟩, _⟩ := h
    exact ⟨by decide, by decide⟩

theorem story_apart : NamesApart story := by
  intro n ty m ty' h1 h2 _
  rcases story_inserted h1 with ⟨rfl, _⟩ | ⟨rfl, _⟩ | ⟨rfl, _⟩ <;> rcases story_inserted h2 with ⟨rfl, _⟩ | ⟨rfl, _⟩ | ⟨rfl, _⟩ <;> rfl

example : FollowedAll story ∧ NamesApart story ∧ (∀ name ty ty', Inserted story name ty → Inserted story name ty' → ty = ty') ∧ Settled (run init story) ∧
    getSchema (run init story) 0 = [([1], 7)] ∧ getSchema (run init story) 1 = [([3], 7), ([2], 8)] := by
  refine ⟨story_followed, story_apart, ?_, ⟨rfl, rfl⟩, by decide +kernel, by decide +kernel⟩
  intro n t t' h1 h2
  rcases story_inserted h1 with ⟨rfl, h⟩ | ⟨rfl, h⟩ | ⟨rfl, h⟩ <;> rcases story_inserted h2 with ⟨h', h''⟩ | ⟨h', h''⟩ | ⟨h', h''⟩ <;> simp at h' <;> rw [h, h'']

/-! ## What goes wrong otherwise -/

instance (s : Sys E V C) (c : C) (n : List E) (ty : V) : Decidable (Has s c n ty) := by unfold Has; infer_instance

/-- An update that gives a field another type, removes one or adds one: the schema says what it said before. -/
theorem C104_update_fails : ∃ es : List (Event Nat Nat Nat), (run init es).dead = false ∧ Settled (run init es) ∧ (run init es).store 0 = [⟨1, [([1], 8), ([3], 7)]⟩] ∧
    getSchema (run init es) 0 = [([1], 7), ([2], 7)] :=
  ⟨[.exec 0 (.insert [⟨1, [([1], 7), ([2], 7)]⟩]), .finish, .walOk, .exec 0 (.update fun _ => some [([1], 8), ([3], 7)]), .finish, .walOk],
    by decide +kernel, ⟨rfl, rfl⟩, by decide +kernel, by decide +kernel⟩

/-- An insert that stored nothing, since one of the `_id`s is there: its fields are in the schema. -/
theorem C104_refused_insert_fails : ∃ es : List (Event Nat Nat Nat), (run init es).dead = false ∧ Settled (run init es) ∧ (run init es).store 0 = [⟨1, [([1], 7)]⟩] ∧
    getSchema (run init es) 0 = [([1], 7), ([2], 8)] :=
  ⟨[.exec 0 (.insert [⟨1, [([1], 7)]⟩]), .finish, .walOk, .exec 0 (.insert [⟨1, [([2], 8)]⟩]), .finish, .walOk],
    by decide +kernel, ⟨rfl, rfl⟩, by decide +kernel, by decide +kernel⟩

/-- Two documents with one `_id` in an insert: one is stored and removed, the field stays. -/
theorem C104_same_id_fails : ∃ es : List (Event Nat Nat Nat), (run init es).dead = false ∧ Settled (run init es) ∧ (run init es).store 0 = [] ∧
    getSchema (run init es) 0 = [([1], 7)] :=
  ⟨[.exec 0 (.insert [⟨1, [([1], 7)]⟩, ⟨1, [([1], 7)]⟩]), .finish, .walOk, .exec 0 (.delete fun _ => true), .finish, .walOk],
    by decide +kernel, ⟨rfl, rfl⟩, by decide +kernel, by decide +kernel⟩

/-- Two deletes on their way at a time, of two collections: what was removed from the second one is taken from the schema of the first one. The schema of the
first one lists the field no document has any more, and misses the field they have; that of the second one still has it. -/
theorem C104_two_deletes_fails : ∃ es : List (Event Nat Nat Nat), (run init es).dead = false ∧ Settled (run init es) ∧
    (run init es).store 0 = [⟨2, [([2], 7)]⟩] ∧ getSchema (run init es) 0 = [([1], 7)] ∧
    (run init es).store 1 = [] ∧ getSchema (run init es) 1 = [([2], 7)] :=
  ⟨[.exec 0 (.insert [⟨1, [([1], 7)]⟩, ⟨2, [([2], 7)]⟩]), .exec 1 (.insert [⟨1, [([2], 7)]⟩]), .finish, .finish, .walOk, .walOk,
    .exec 0 (.delete fun d => d.id == 1), .exec 1 (.delete fun _ => true), .finish, .finish, .walOk, .walOk],
    by decide +kernel, ⟨rfl, rfl⟩, by decide +kernel, by decide +kernel, by decide +kernel, by decide +kernel⟩

/-- After a restart the documents are there, the schema is empty; what is removed then is not missed, what is inserted is counted alone. -/
theorem C104_restart_fails : ∃ es : List (Event Nat Nat Nat), (run init es).dead = false ∧ Settled (run init es) ∧
    (run init es).store 0 = [⟨1, [([1], 7)]⟩] ∧ getSchema (run init es) 0 = [] :=
  ⟨[.exec 0 (.insert [⟨1, [([1], 7)]⟩]), .finish, .walOk, .restart], by decide +kernel, ⟨rfl, rfl⟩, by decide +kernel, by decide +kernel⟩

/-- And a document inserted and removed after a restart takes the field with it, though an older document has it. -/
theorem C104_restart_delete_fails : ∃ es : List (Event Nat Nat Nat), (run init es).dead = false ∧ Settled (run init es) ∧
    (run init es).store 0 = [⟨1, [([1], 7)]⟩] ∧ getSchema (run init es) 0 = [] ∧ Event.exec 0 (.insert [⟨2, [([1], 7)]⟩]) ∈ es :=
  ⟨[.exec 0 (.insert [⟨1, [([1], 7)]⟩]), .finish, .walOk, .restart, .exec 0 (.insert [⟨2, [([1], 7)]⟩]), .finish, .walOk,
    .exec 0 (.delete fun d => d.id == 2), .finish, .walOk], by decide +kernel, ⟨rfl, rfl⟩, by decide +kernel, by decide +kernel, by simp⟩

/-- A field with two types, the documents with the newer one are removed: clients are not told of the field. -/
theorem C104_hidden_fails : ∃ es : List (Event Nat Nat Nat), (run init es).dead = false ∧ Settled (run init es) ∧
    (run init es).store 0 = [⟨1, [([1], 7)]⟩] ∧ getSchema (run init es) 0 = [] :=
  ⟨[.exec 0 (.insert [⟨1, [([1], 7)]⟩, ⟨2, [([1], 8)]⟩]), .finish, .walOk, .exec 0 (.delete fun d => d.id == 2), .finish, .walOk],
    by decide +kernel, ⟨rfl, rfl⟩, by decide +kernel, by decide +kernel⟩

/-- One document with fields of the names abc and b: it is stored, and the process ends. -/
theorem C104_names_end_fails : ∃ es : List (Event Nat Nat Nat), es = [.exec 0 (.insert [⟨1, [([1, 2, 3], 7), ([2], 7)]⟩]), .finish, .walOk] ∧
    FollowedAll es ∧ (run init es).dead = true := by
  refine ⟨_, rfl, ⟨by simp, ?_⟩, by decide +kernel⟩
  intro a c p b h
  rcases a with _ | ⟨_, _ | ⟨_, _ | ⟨_, _ | ⟨_, a⟩⟩⟩⟩ <;>
    simp only [List.nil_append, List.cons_append, List.cons.injEq, Event.exec.injEq, reduceCtorEq, false_and, and_false] at h
  obtain ⟨⟨rfl, rfl⟩, _⟩ := h
  exact ⟨by decide, by decide⟩

/-- So the claim does not hold. -/
theorem C104_fails : ¬ C104_claim Nat Nat Nat := by
  intro h
  obtain ⟨es, _, _, h2⟩ := C104_names_end_fails
  rw [(h es).1] at h2
  cases h2

end Verif.DocSchema
