import Verif.ChunkOp.JoinProps
/-!
C72: ORDER BY on a table.
-/
namespace Verif.ChunkOp
open Verif Verif.Num Verif.PhysKey Verif.LogVal
open Verif.DocVal (V)

/-- Whether a row may stand before another one: by the first key that tells them apart, NULLs and missing columns left out of
account. -/
def inOrder (cs : Cols) : List SortKey → Row → Row → Prop
  | [], _, _ => True
  | k :: ks, a, b =>
    match holds cs a k.key, holds cs b k.key with
    | some x, some y => if before x y then k.asc = true else if before y x then k.asc = false else inOrder cs ks a b
    | _, _ => inOrder cs ks a b

/-- Property C72 in full: every outcome of the sort is an ordered arrangement of the rows. -/
def C72_sort_claim : Prop :=
  ∀ (keys : List SortKey) (c : Ch), (∀ r ∈ c.rows, Typed c.cols r) → (∀ k ∈ keys, ∃ ty, tyOf c.cols k.key = some ty) →
    ∀ r, sortOp keys c r → ∃ out, r = .ok out ∧ out.Perm c.rows ∧ out.Pairwise (inOrder c.cols keys)

theorem sorter_self (cs : Cols) (keys : List SortKey) (a : List LV) (h : ∀ k ∈ keys, ∀ x, valueOf cs a k.key = some x → LV.compare x x = .eq) :
    sorter cs keys a a = true := by
  induction keys with
  | nil => rfl
  | cons k ks ih =>
    have h1 := ih fun k hk => h k (List.mem_cons_of_mem _ hk)
    have : SortKey.compare cs k a a = .eq := by
      simp only [SortKey.compare]
      cases hv : valueOf cs a k.key with
      | none => simp
      | some x => simp [h k List.mem_cons_self x hv]
    simp [sorter, this, h1]

/-- What the comparison says of a row and itself: it is less, unless a key is not equal to itself. -/
theorem sorter_notSortable (cs : Cols) (keys : List SortKey) (l : List (List LV)) (a : List LV) (ha : a ∈ l) (hs : sorter cs keys a a = true) :
    ¬ Query.Sortable (fun x y => .ok (sorter cs keys x y)) l := by
  intro h
  have := h.irrefl a ha
  rw [hs] at this
  exact nomatch this

/-- Any sort of a table with at least one row whose keys hold equal to themselves breaks the contract of `std::sort`: a row
counts as less than itself. Every outcome is possible, undefined behaviour included. -/
theorem C72_sort_unlawful (keys : List SortKey) (c : Ch) (r : Row) (hr : r ∈ c.rows)
    (hk : ∀ k ∈ keys, ∀ x, valueOf c.cols (values c.cols r) k.key = some x → LV.compare x x = .eq) :
    sortOp keys c .ub ∧ ∀ rows : List (List LV), sortOp keys c (.ok (rows.map (copied c.cols))) := by
  have hn := sorter_notSortable c.cols keys (c.rows.map (values c.cols)) (values c.cols r) (List.mem_map_of_mem hr) (sorter_self _ _ _ hk)
  exact ⟨⟨.ub, hn, rfl⟩, fun rows => ⟨.ok rows, fun h => absurd h hn, rfl⟩⟩

/-- C72 for a table without rows. Missing: all others (false below). -/
theorem C72_sort_partial (keys : List SortKey) (c : Ch) (h : c.rows = []) (r : Res (List Row)) (hs : sortOp keys c r) : r = .ok [] := by
  obtain ⟨q, h1, rfl⟩ := hs
  rw [h] at h1
  have hempty : Query.Sortable (fun a b => .ok (sorter c.cols keys a b)) ([] : List (List LV)) :=
    ⟨by simp, by simp, by simp, by simp⟩
  cases q with
  | ok out =>
    have h1 : Query.Sortable _ _ → out.Perm [] ∧ _ := h1
    have := (h1 hempty).1.eq_nil
    subst this
    rfl
  | throws => exact absurd hempty h1
  | ub => exact absurd hempty h1
  | diverges => exact absurd hempty h1

/-- Ascending is descending: of two rows with different values under an ascending first key the comparison puts the larger
first, and under a descending one the smaller. -/
theorem C72_reversed (cs : Cols) (k : SortKey) (ks : List SortKey) (a b : List LV) (x y : LV) (ha : valueOf cs a k.key = some x) (hb : valueOf cs b k.key = some y)
    (hxy : x.compare y = .lt) (hyx : y.compare x = .gt) : sorter cs (k :: ks) a b = !k.asc ∧ sorter cs (k :: ks) b a = k.asc := by
  constructor <;> cases hk : k.asc <;> simp [sorter, SortKey.compare, ha, hb, hxy, hyx, hk]

example : sorter exCols [⟨[120], true⟩] [.int .i32 1, .str []] [.int .i32 2, .str []] = false ∧
    sorter exCols [⟨[120], true⟩] [.int .i32 2, .str []] [.int .i32 1, .str []] = true := by
  have := C72_reversed exCols ⟨[120], true⟩ [] [.int .i32 1, .str []] [.int .i32 2, .str []] (.int .i32 1) (.int .i32 2) rfl rfl (by decide) (by decide)
  simpa using this

/-- The order of `exCh` by `x`. -/
theorem C72_sort_fails : ¬ C72_sort_claim ∧ sortOp [⟨[120], true⟩] exCh .ub := by
  have h0 : sortOp [⟨[120], true⟩] exCh .ub := by
    refine (C72_sort_unlawful [⟨[120], true⟩] exCh (exRow 1 [97]) (by simp [exCh]) fun k hk x hx => ?_).1
    simp only [List.mem_singleton] at hk
    subst hk
    have : x = .int .i32 1 := (Option.some.inj hx).symm
    subst this
    decide
  refine ⟨fun h => ?_, h0⟩
  obtain ⟨out, h1, _⟩ := h [⟨[120], true⟩] exCh (fun r hr => by
    simp only [exCh, List.mem_cons, List.not_mem_nil, or_false] at hr
    rcases hr with rfl | rfl | rfl | rfl <;> exact exRow_typed _ _ (by decide)) (fun k hk => by
    simp only [List.mem_singleton] at hk; subst hk; exact ⟨.int .i32, rfl⟩) .ub h0
  exact nomatch h1

end Verif.ChunkOp
