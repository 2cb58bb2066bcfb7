import Verif.Node.DurSpec
import Verif.Node.DdlProps
import Mathlib.Data.List.Induction
/-!
The storage of documents: order, lookups, loading.
-/
namespace Verif.Node

/-- Strictly ordered by `_id`. -/
def Sorted (l : List Doc) : Prop := l.Pairwise fun a b => a.id < b.id

theorem has_iff (i : Nat) (l : List Doc) : has i l = true ↔ ∃ d ∈ l, d.id = i := by
  unfold has; simp [List.any_eq_true]

theorem assign_cons (d e : Doc) (es : List Doc) :
    assign d (e :: es) = if d.id < e.id then d :: e :: es else if d.id = e.id then d :: es else e :: assign d es := rfl

theorem mem_assign {d x : Doc} {l : List Doc} (h : x ∈ assign d l) : x = d ∨ x ∈ l := by
  induction l with
  | nil => exact .inl (List.mem_singleton.mp h)
  | cons e es ih =>
    rw [assign_cons] at h
    split at h
    · rcases List.mem_cons.mp h with h | h
      · exact .inl h
      · exact .inr h
    · split at h
      · rcases List.mem_cons.mp h with h | h
        · exact .inl h
        · exact .inr (List.mem_cons_of_mem _ h)
      · rcases List.mem_cons.mp h with h | h
        · exact .inr (h ▸ List.mem_cons_self)
        · exact (ih h).imp id (List.mem_cons_of_mem _)

theorem sorted_assign (d : Doc) (l : List Doc) (h : Sorted l) : Sorted (assign d l) := by
  induction l with
  | nil => exact List.pairwise_singleton _ _
  | cons e es ih =>
    obtain ⟨h1, h2⟩ := List.pairwise_cons.mp h
    rw [assign_cons]
    split
    · rename_i hlt
      refine List.pairwise_cons.mpr ⟨fun x hx => ?_, h⟩
      rcases List.mem_cons.mp hx with e | hx
      · rw [e]; exact hlt
      · exact Nat.lt_trans hlt (h1 x hx)
    · split
      · rename_i heq
        exact List.pairwise_cons.mpr ⟨fun x hx => by rw [heq]; exact h1 x hx, h2⟩
      · rename_i a b
        refine List.pairwise_cons.mpr ⟨fun x hx => ?_, ih h2⟩
        rcases mem_assign hx with e | hx
        · rw [e]; omega
        · exact h1 x hx

theorem sorted_emplace (d : Doc) (l : List Doc) (h : Sorted l) : Sorted (emplace l d) := by
  unfold emplace
  split
  · exact h
  · exact sorted_assign d l h

theorem sorted_filter (p : Doc → Bool) {l : List Doc} (h : Sorted l) : Sorted (l.filter p) := List.Pairwise.filter _ h

theorem loadDocs_snoc (t : List Doc) (d : Doc) : loadDocs (t ++ [d]) = emplace (loadDocs t) d := by
  unfold loadDocs; rw [List.foldl_append]; rfl

theorem sorted_load (t : List Doc) : Sorted (loadDocs t) := by
  induction t using List.reverseRecOn with
  | nil => exact List.Pairwise.nil
  | append_singleton t d ih => rw [loadDocs_snoc]; exact sorted_emplace d _ ih

theorem sorted_unique {l : List Doc} (h : Sorted l) {a b : Doc} (ha : a ∈ l) (hb : b ∈ l) (e : a.id = b.id) : a = b := by
  induction l with
  | nil => exact absurd ha (by simp)
  | cons x xs ih =>
    obtain ⟨h1, h2⟩ := List.pairwise_cons.mp h
    rcases List.mem_cons.mp ha with ha | ha <;> rcases List.mem_cons.mp hb with hb | hb
    · rw [ha, hb]
    · have := h1 b hb; rw [← ha, e] at this; omega
    · have := h1 a ha; rw [← hb, e] at this; omega
    · exact ih h2 ha hb

theorem filter_assign (q : Nat → Bool) (d : Doc) (l : List Doc) (h : Sorted l) :
    (assign d l).filter (fun x => q x.id) = if q d.id then assign d (l.filter fun x => q x.id) else l.filter fun x => q x.id := by
  induction l with
  | nil => unfold assign; cases hq : q d.id <;> simp [hq, assign]
  | cons e es ih =>
    obtain ⟨h1, h2⟩ := List.pairwise_cons.mp h
    rw [assign_cons]
    split
    · rename_i hlt
      cases hq : q d.id with
      | false => rw [List.filter_cons_of_neg (by simp [hq])]; rfl
      | true =>
        rw [List.filter_cons_of_pos (by simp [hq]), if_pos rfl]
        have hall : ∀ x ∈ (e :: es).filter (fun x => q x.id), d.id < x.id := by
          intro x hx
          have hx := (List.mem_filter.mp hx).1
          rcases List.mem_cons.mp hx with e' | hx
          · rw [e']; exact hlt
          · exact Nat.lt_trans hlt (h1 x hx)
        cases hf : (e :: es).filter (fun x => q x.id) with
        | nil => rfl
        | cons y ys =>
          rw [assign_cons, if_pos (hall y (by rw [hf]; exact List.mem_cons_self))]
    · split
      · rename_i heq
        cases hq : q d.id with
        | false =>
          rw [List.filter_cons_of_neg (by simp [hq]), List.filter_cons_of_neg (by rw [← heq]; simp [hq])]; rfl
        | true =>
          rw [List.filter_cons_of_pos (by simp [hq]), List.filter_cons_of_pos (by rw [← heq]; exact hq), if_pos rfl, assign_cons,
            if_neg (by omega), if_pos heq]
      · rename_i a b
        cases he : q e.id with
        | false => rw [List.filter_cons_of_neg (by simp [he]), List.filter_cons_of_neg (by simp [he]), ih h2]
        | true =>
          rw [List.filter_cons_of_pos (p := fun x : Doc => q x.id) he, List.filter_cons_of_pos (p := fun x : Doc => q x.id) he, ih h2]
          cases hq : q d.id with
          | false => rfl
          | true => rw [if_pos rfl, if_pos rfl, assign_cons, if_neg a, if_neg b]

theorem has_filter (q : Nat → Bool) (i : Nat) (l : List Doc) (h : q i = true) : has i (l.filter fun x => q x.id) = has i l := by
  rw [Bool.eq_iff_iff, has_iff, has_iff]
  constructor
  · rintro ⟨d, hd, e⟩; exact ⟨d, (List.mem_filter.mp hd).1, e⟩
  · rintro ⟨d, hd, e⟩; exact ⟨d, List.mem_filter.mpr ⟨hd, by rw [e]; exact h⟩, e⟩

theorem load_filter (q : Nat → Bool) (t : List Doc) : loadDocs (t.filter fun x => q x.id) = (loadDocs t).filter fun x => q x.id := by
  induction t using List.reverseRecOn with
  | nil => rfl
  | append_singleton t d ih =>
    rw [List.filter_append, loadDocs_snoc]
    cases hq : q d.id with
    | false =>
      rw [List.filter_cons_of_neg (by simp [hq]), List.filter_nil, List.append_nil, ih]
      unfold emplace
      split
      · rfl
      · rw [filter_assign q d _ (sorted_load t), if_neg (by simp [hq])]
    | true =>
      rw [List.filter_cons_of_pos (by simp [hq]), List.filter_nil, loadDocs_snoc, ih]
      unfold emplace
      rw [has_filter q _ _ hq]
      split
      · rfl
      · rw [filter_assign q d _ (sorted_load t), if_pos hq]

theorem has_assign (i : Nat) (d : Doc) (l : List Doc) : has i (assign d l) = (d.id == i || has i l) := by
  induction l with
  | nil => unfold assign has; simp
  | cons e es ih =>
    rw [assign_cons]
    split
    · rfl
    · split
      · rename_i heq; unfold has; simp only [List.any_cons]; rw [heq]; cases e.id == i <;> simp
      · unfold has at ih ⊢; simp only [List.any_cons]; rw [ih]; cases e.id == i <;> cases d.id == i <;> rfl

/-- A fresh batch without repeated `_id`s: `emplace` and `insert_or_assign` agree. -/
theorem emplace_batch (ds : List Doc) : ∀ l : List Doc, (ds.any fun d => has d.id l) = false → (ds.map Doc.id).Nodup →
    ds.foldl emplace l = ds.foldl (fun s d => assign d s) l := by
  induction ds with
  | nil => intro l _ _; rfl
  | cons d ds ih =>
    intro l hf hn
    rw [List.any_cons, Bool.or_eq_false_iff] at hf
    rw [List.map_cons, List.nodup_cons] at hn
    rw [List.foldl_cons, List.foldl_cons]
    have : emplace l d = assign d l := by unfold emplace; rw [if_neg (by rw [hf.1]; simp)]
    rw [this]
    refine ih _ ?_ hn.2
    rw [List.any_eq_false] at hf ⊢
    intro x hx
    rw [has_assign, Bool.or_eq_true]
    rintro (h | h)
    · exact hn.1 (List.mem_map.mpr ⟨x, hx, (beq_iff_eq.mp h).symm⟩)
    · exact hf.2 x hx h

theorem look_assign (d : Doc) (l : List Doc) (i : Nat) : look (assign d l) i = if i = d.id then some d.body else look l i := by
  induction l with
  | nil => unfold assign look; by_cases h : d.id = i
           · simp [h]
           · simp [h, Ne.symm h]
  | cons e es ih =>
    rw [assign_cons]
    split
    · unfold look
      by_cases h : d.id = i
      · simp [h]
      · simp [h, Ne.symm h]
    · split
      · rename_i heq
        unfold look
        by_cases h : d.id = i
        · simp [h]
        · have : e.id ≠ i := by rw [← heq]; exact h
          simp [h, Ne.symm h, this]
      · rename_i a b
        unfold look at ih ⊢
        by_cases h : e.id = i
        · have : i ≠ d.id := by omega
          simp [h, this]
        · simp only [List.find?_cons]
          rw [show (e.id == i) = false by simp [h]]
          exact ih

theorem look_some {l : List Doc} {i b : Nat} (h : look l i = some b) : (⟨i, b⟩ : Doc) ∈ l := by
  unfold look at h
  cases hf : l.find? (fun d => d.id == i) with
  | none => rw [hf] at h; exact absurd h (by simp)
  | some d =>
    rw [hf] at h
    have h1 := List.mem_of_find?_eq_some hf
    have h2 := List.find?_some hf
    simp only [Option.map_some, Option.some.injEq] at h
    simp only [beq_iff_eq] at h2
    cases d
    simp only at h h2
    subst h; subst h2
    exact h1

theorem look_none {l : List Doc} {i : Nat} (h : look l i = none) : ∀ d ∈ l, d.id ≠ i := by
  unfold look at h
  rw [Option.map_eq_none_iff, List.find?_eq_none] at h
  intro d hd e
  exact h d hd (by simp [e])

theorem look_mem {l : List Doc} (hs : Sorted l) {d : Doc} (h : d ∈ l) : look l d.id = some d.body := by
  cases hl : look l d.id with
  | none => exact absurd rfl (look_none hl d h)
  | some b => have := sorted_unique hs (look_some hl) h rfl; rw [← this]

theorem has_look (i : Nat) (l : List Doc) : has i l = (look l i).isSome := by
  rw [Bool.eq_iff_iff, has_iff]
  constructor
  · rintro ⟨d, hd, e⟩
    cases hl : look l i with
    | none => exact absurd e (look_none hl d hd)
    | some b => rfl
  · intro h
    obtain ⟨b, hb⟩ := Option.isSome_iff_exists.mp h
    exact ⟨_, look_some hb, rfl⟩

theorem look_filter (p : Doc → Bool) {l : List Doc} (hs : Sorted l) (i : Nat) : look (l.filter p) i = (look l i).filter fun b => p ⟨i, b⟩ := by
  cases hl : look l i with
  | none =>
    cases hf : look (l.filter p) i with
    | none => rfl
    | some b => exact absurd rfl (look_none hl _ (List.mem_filter.mp (look_some hf)).1)
  | some b =>
    have hm := look_some hl
    cases hp : p ⟨i, b⟩ with
    | true =>
      rw [show (some b).filter (fun b => p ⟨i, b⟩) = some b by simp [hp]]
      exact look_mem (sorted_filter p hs) (d := ⟨i, b⟩) (List.mem_filter.mpr ⟨hm, hp⟩)
    | false =>
      rw [show (some b).filter (fun b => p ⟨i, b⟩) = none by simp [hp]]
      cases hf : look (l.filter p) i with
      | none => rfl
      | some b' =>
        have h' := List.mem_filter.mp (look_some hf)
        have := sorted_unique hs hm h'.1 rfl
        rw [this] at hp
        rw [h'.2] at hp
        exact absurd hp (by simp)

theorem look_batch (ds : List Doc) : ∀ l : List Doc, (ds.map Doc.id).Nodup → ∀ i,
    look (ds.foldl (fun s d => assign d s) l) i = (look ds i).or (look l i) := by
  induction ds with
  | nil => intro l _ i; rfl
  | cons d ds ih =>
    intro l hn i
    rw [List.map_cons, List.nodup_cons] at hn
    rw [List.foldl_cons, ih _ hn.2, look_assign]
    by_cases h : d.id = i
    · have hnone : look ds i = none := by
        cases hl : look ds i with
        | none => rfl
        | some b => exact absurd (List.mem_map.mpr ⟨_, look_some hl, h.symm⟩) hn.1
      have hsome : look (d :: ds) i = some d.body := by unfold look; simp [h]
      rw [hnone, hsome, if_pos h.symm]; rfl
    · have : look (d :: ds) i = look ds i := by unfold look; simp [h]
      rw [this, if_neg (Ne.symm h)]

theorem sorted_batch (ds : List Doc) : ∀ l : List Doc, Sorted l → Sorted (ds.foldl (fun s d => assign d s) l) := by
  induction ds with
  | nil => intro l h; exact h
  | cons d ds ih => intro l h; exact ih _ (sorted_assign d l h)

theorem updateDoc_id (g : Doc → Option Nat) (d : Doc) : (updateDoc g d).id = d.id := by unfold updateDoc; split <;> rfl

theorem sorted_update (g : Doc → Option Nat) {l : List Doc} (h : Sorted l) : Sorted (l.map (updateDoc g)) := by
  unfold Sorted at *
  rw [List.pairwise_map]
  exact h.imp (fun {a b} hab => by rw [updateDoc_id, updateDoc_id]; exact hab)

theorem look_update (g : Doc → Option Nat) (l : List Doc) (i : Nat) : look (l.map (updateDoc g)) i = (look l i).map fun b => (g ⟨i, b⟩).getD b := by
  induction l with
  | nil => rfl
  | cons d ds ih =>
    unfold look at ih ⊢
    rw [List.map_cons, List.find?_cons, List.find?_cons, updateDoc_id]
    by_cases h : d.id = i
    · rw [show (d.id == i) = true by simp [h]]
      simp only [Option.map_some, Option.some.injEq]
      have hd : (⟨i, d.body⟩ : Doc) = d := by cases d; simp only at h; rw [h]
      rw [hd]
      unfold updateDoc
      cases g d <;> rfl
    · rw [show (d.id == i) = false by simp [h]]
      exact ih

theorem sorted_runPlan (l : List Doc) (p : Plan) (h : Sorted l) : Sorted (runPlan l p).1 := by
  cases p with
  | insert c ds =>
    show Sorted (insertDocs l ds).1
    unfold insertDocs
    split
    · exact h
    · exact sorted_batch ds l h
  | delete c q => exact sorted_filter _ h
  | update c g => exact sorted_update g h
  | _ => exact h

end Verif.Node
