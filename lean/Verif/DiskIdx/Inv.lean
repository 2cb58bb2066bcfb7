import Verif.DiskIdx.Lemmas
/-!
The invariant of calm schedules.
-/
namespace Verif.DiskIdx

open Verif.IndexDisk (Cmp rows Op want wants)
set_option linter.unusedSectionVars false

variable {K : Type} [LinearOrder K]

/-- What messages do to the pairs on disk. -/
def Msg.op : Msg K → Option (Op K Id)
  | .insert _ k i => some (.insert k i)
  | .remove _ k i => some (.removePair k i)
  | _ => none

def ops (b : List (Msg K)) : List (Op K Id) := b.filterMap Msg.op

/-- The session of a query. -/
def Msg.asks : Msg K → Option Session
  | .find s _ _ => some s
  | _ => none

def Msg.session : Msg K → Session
  | .insert s _ _ => s
  | .insertMany s _ => s
  | .remove s _ _ => s
  | .find s _ _ => s

def Reply.tells : Reply → Option Session
  | .found s _ => some s
  | .done _ => none

def Reply.session : Reply → Session
  | .found s _ => s
  | .done s => s

/-- `g s`: the collection and the plan when session `s` asked. -/
structure Inv (used : List Session) (ask : Bool) (g : Session → List (Doc K) × Plan K) (st : State K) : Prop where
  ids : (st.store.map Doc.id).Nodup
  nodup : st.disk.Nodup
  fin : ∀ k i, (k, i) ∈ wants st.disk (ops st.box) ↔ Pair st.store k i
  box : ∀ x s v c y, st.box = x ++ Msg.find s v c :: y →
    (g s).2.cmp = c ∧ (g s).2.val = v ∧ ∀ k i, (k, i) ∈ wants st.disk (ops x) ↔ Pair (g s).1 k i
  back : ∀ s l, Reply.found s l ∈ st.back → l.Nodup ∧ ∀ i, i ∈ l ↔ ∃ d ∈ (g s).1, d.id = i ∧ Matches (g s).2.cmp (g s).2.val d
  keep : ∀ e ∈ st.susp, (g e.1).2 = e.2 ∧ ((g e.1).1.map Doc.id).Nodup ∧ ∀ d ∈ (g e.1).1, d.key ≠ none → d ∈ st.store
  pend : st.back.filterMap Reply.tells ++ st.box.filterMap Msg.asks = st.susp.map Prod.fst
  one : (st.susp.map Prod.fst).Nodup
  boxOld : ∀ m ∈ st.box, m.op ≠ none → m.session ∉ st.susp.map Prod.fst
  backOld : ∀ m ∈ st.back, m.tells = none → m.session ∉ st.susp.map Prod.fst
  usedSusp : ∀ e ∈ st.susp, e.1 ∈ used
  usedBox : ∀ m ∈ st.box, m.op ≠ none ∨ m.asks ≠ none → m.session ∈ used
  usedBack : ∀ m ∈ st.back, m.session ∈ used
  usedAns : ∀ e ∈ st.answers, e.1 ∈ used
  fresh : ∀ e ∈ st.susp, e.1 ∉ st.answers.map Prod.fst
  alone : ∀ e ∈ st.susp, e.2.deletes = true → st.susp = [e]
  mem : ask = false → st.susp = [] ∧ (st.mem.map Prod.fst).Perm (st.store.filterMap Doc.key)
  ans : ∀ e ∈ st.answers, (g e.1).2.deletes = false → Selects (g e.1).2 (g e.1).1 e.2

theorem Inv.init {st : State K} (h : Clean st) (g : Session → List (Doc K) × Plan K) : Inv [] false g st where
  ids := h.ids
  nodup := h.nodup
  fin k i := by
    have : ops st.box = [] := by
      unfold ops
      rw [List.filterMap_eq_nil_iff]
      intro m hm
      obtain ⟨s, l, rfl⟩ := h.box m hm
      rfl
    rw [this]
    exact h.disk k i
  box x s v c y hb := by
    obtain ⟨_, _, e⟩ := h.box (.find s v c) (by rw [hb]; simp)
    cases e
  back s l hb := by rw [h.back] at hb; cases hb
  keep e he := by rw [h.susp] at he; cases he
  pend := by
    have : st.box.filterMap Msg.asks = [] := by
      rw [List.filterMap_eq_nil_iff]
      intro m hm
      obtain ⟨s, l, rfl⟩ := h.box m hm
      rfl
    rw [this, h.back, h.susp]; rfl
  one := by rw [h.susp]; exact List.nodup_nil
  boxOld m hm ho := by
    obtain ⟨s, l, rfl⟩ := h.box m hm
    exact absurd rfl ho
  backOld m hb := by rw [h.back] at hb; cases hb
  usedSusp e he := by rw [h.susp] at he; cases he
  usedBox m hm ho := by
    obtain ⟨s, l, rfl⟩ := h.box m hm
    rcases ho with ho | ho <;> exact absurd rfl ho
  usedBack m hb := by rw [h.back] at hb; cases hb
  usedAns e he := by rw [h.answers] at he; cases he
  fresh e he := by rw [h.susp] at he; cases he
  alone e he := by rw [h.susp] at he; cases he
  mem _ := ⟨h.susp, h.mem⟩
  ans e he := by rw [h.answers] at he; cases he

theorem wants_append (P : List (K × Id)) (a b : List (Op K Id)) : wants P (a ++ b) = wants (wants P a) b := by
  simp [wants, List.foldl_append]

theorem ops_append (a b : List (Msg K)) : ops (a ++ b) = ops a ++ ops b := by simp [ops, List.filterMap_append]

theorem want_nodup (P : List (K × Id)) (h : P.Nodup) (o : Op K Id) : (want P o).Nodup := by
  cases o with
  | insert k d =>
    simp only [want]
    split
    · exact h
    · exact List.nodup_cons.mpr ⟨‹_›, h⟩
  | removeKey k => exact h.filter _
  | removePair k d => exact h.filter _

theorem wants_insertions (s : Session) (ds : List (Doc K)) (P : List (K × Id)) (k : K) (i : Id) :
    (k, i) ∈ wants P (ops (insertions s ds)) ↔ (k, i) ∈ P ∨ Pair ds k i := by
  induction ds generalizing P with
  | nil =>
    constructor
    · exact fun h => .inl h
    · rintro (h | ⟨d, h, _⟩)
      · exact h
      · cases h
  | cons d ds ih =>
    cases hk : d.key with
    | none =>
      have : insertions s (d :: ds) = insertions s ds := by simp [insertions, hk]
      rw [this, ih]
      constructor
      · rintro (h | ⟨x, h, h1⟩)
        · exact .inl h
        · exact .inr ⟨x, by simp [h], h1⟩
      · rintro (h | ⟨x, h, h1, h2⟩)
        · exact .inl h
        · rcases List.mem_cons.mp h with rfl | h
          · rw [hk] at h2; cases h2
          · exact .inr ⟨x, h, h1, h2⟩
    | some j =>
      have : ops (insertions s (d :: ds)) = .insert j d.id :: ops (insertions s ds) := by simp [insertions, hk, ops, Msg.op]
      rw [this]
      show (k, i) ∈ wants (want P (.insert j d.id)) _ ↔ _
      rw [ih]
      have hw : (k, i) ∈ want P (.insert j d.id) ↔ (k, i) ∈ P ∨ (k, i) = (j, d.id) := by
        simp only [want]
        split
        · rename_i hm
          constructor
          · exact .inl
          · rintro (h | h)
            · exact h
            · rw [h]; exact hm
        · rw [List.mem_cons]; exact or_comm
      rw [hw]
      constructor
      · rintro ((h | h) | ⟨x, h, h1⟩)
        · exact .inl h
        · injection h with h1 h2
          exact .inr ⟨d, by simp, h2.symm, by rw [hk, h1]⟩
        · exact .inr ⟨x, by simp [h], h1⟩
      · rintro (h | ⟨x, h, h1, h2⟩)
        · exact .inl (.inl h)
        · rcases List.mem_cons.mp h with rfl | h
          · rw [hk] at h2; injection h2 with h2
            exact .inl (.inr (by rw [h2, h1]))
          · exact .inr ⟨x, h, h1, h2⟩

theorem wants_removals (s : Session) (ds : List (Doc K)) (P : List (K × Id)) (k : K) (i : Id) :
    (k, i) ∈ wants P (ops (removals s ds)) ↔ (k, i) ∈ P ∧ ¬ Pair ds k i := by
  induction ds generalizing P with
  | nil =>
    constructor
    · exact fun h => ⟨h, fun ⟨d, h, _⟩ => nomatch h⟩
    · exact fun h => h.1
  | cons d ds ih =>
    cases hk : d.key with
    | none =>
      have : removals s (d :: ds) = removals s ds := by simp [removals, hk]
      rw [this, ih]
      refine and_congr_right fun _ => not_congr ⟨?_, ?_⟩
      · rintro ⟨x, h, h1⟩; exact ⟨x, by simp [h], h1⟩
      · rintro ⟨x, h, h1, h2⟩
        rcases List.mem_cons.mp h with rfl | h
        · rw [hk] at h2; cases h2
        · exact ⟨x, h, h1, h2⟩
    | some j =>
      have : ops (removals s (d :: ds)) = .removePair j d.id :: ops (removals s ds) := by simp [removals, hk, ops, Msg.op]
      rw [this]
      show (k, i) ∈ wants (want P (.removePair j d.id)) _ ↔ _
      rw [ih]
      simp only [want, List.mem_filter, decide_eq_true_eq, ne_eq]
      constructor
      · rintro ⟨⟨h, h1⟩, h2⟩
        refine ⟨h, ?_⟩
        rintro ⟨x, hx, h3, h4⟩
        rcases List.mem_cons.mp hx with rfl | hx
        · rw [hk] at h4; injection h4 with h4
          exact h1 (by rw [h4, h3])
        · exact h2 ⟨x, hx, h3, h4⟩
      · rintro ⟨h, h1⟩
        refine ⟨⟨h, ?_⟩, ?_⟩
        · intro h2
          injection h2 with h2 h3
          exact h1 ⟨d, by simp, h3.symm, by rw [hk, h2]⟩
        · rintro ⟨x, hx, h3⟩
          exact h1 ⟨x, by simp [hx], h3⟩

theorem insertions_spec (s : Session) (ds : List (Doc K)) : ∀ m ∈ insertions s ds, m.asks = none ∧ m.session = s := by
  intro m hm
  unfold insertions at hm
  obtain ⟨d, _, h⟩ := List.mem_filterMap.mp hm
  obtain ⟨k, _, rfl⟩ := Option.map_eq_some_iff.mp h
  exact ⟨rfl, rfl⟩

theorem removals_spec (s : Session) (ds : List (Doc K)) : ∀ m ∈ removals s ds, m.asks = none ∧ m.session = s := by
  intro m hm
  unfold removals at hm
  obtain ⟨d, _, h⟩ := List.mem_filterMap.mp hm
  obtain ⟨k, _, rfl⟩ := Option.map_eq_some_iff.mp h
  exact ⟨rfl, rfl⟩

theorem asks_nil (l : List (Msg K)) (h : ∀ m ∈ l, m.asks = none) : l.filterMap Msg.asks = [] := by
  rw [List.filterMap_eq_nil_iff]
  exact h

/-- A query in a queue that other messages were appended to was there before. -/
theorem find_in_append (a b x y : List (Msg K)) (m : Msg K) (s : Session) (hm : m.asks = some s) (hb : ∀ n ∈ b, n.asks = none)
    (h : a ++ b = x ++ m :: y) : ∃ y', a = x ++ m :: y' ∧ y = y' ++ b := by
  rcases List.append_eq_append_iff.mp h with ⟨l, h1, h2⟩ | ⟨l, h1, h2⟩
  · have : m ∈ b := by rw [h2]; simp
    rw [hb m this] at hm; cases hm
  · cases l with
    | nil =>
      have : m ∈ b := by
        have : m :: y = b := by simpa using h2
        rw [← this]; simp
      rw [hb m this] at hm; cases hm
    | cons z l =>
      simp only [List.cons_append, List.cons.injEq] at h2
      obtain ⟨rfl, h2⟩ := h2
      exact ⟨l, h1, h2⟩

/-! ### the requests -/

section
variable {used : List Session} {ask : Bool} {g : Session → List (Doc K) × Plan K} {st : State K}

theorem unique_id {S : List (Doc K)} (h : (S.map Doc.id).Nodup) {a b : Doc K} (ha : a ∈ S) (hb : b ∈ S) (e : a.id = b.id) : a = b := by
  induction S with
  | nil => cases ha
  | cons x xs ih =>
    rw [List.map_cons] at h
    have h' := List.nodup_cons.mp h
    rcases List.mem_cons.mp ha with h1 | h1 <;> rcases List.mem_cons.mp hb with h2 | h2
    · exact h1.trans h2.symm
    · exact absurd (List.mem_map.mpr ⟨b, h2, by rw [← e, h1]⟩) h'.1
    · exact absurd (List.mem_map.mpr ⟨a, h1, by rw [e, h2]⟩) h'.1
    · exact ih h'.2 h1 h2

theorem Inv.insert (h : Inv used ask g st) {s : Session} (hs : s ∉ used) (ds : List (Doc K)) (hn : (ds.map Doc.id).Nodup)
    (hd : ∀ d ∈ ds, d.id ∉ st.store.map Doc.id) : Inv (used ++ [s]) ask g (insertAll s ds st) := by
  obtain ⟨m, sv, e1, -, e3⟩ := insertAll_ok s ds st hn hd
  have hsp := insertions_spec s ds
  have hss : s ∉ st.susp.map Prod.fst := fun hm => by
    obtain ⟨e, he, rfl⟩ := List.mem_map.mp hm
    exact hs (h.usedSusp e he)
  rw [e3]
  exact {
    ids := by
      show ((st.store ++ ds).map Doc.id).Nodup
      rw [List.map_append]
      refine List.nodup_append.mpr ⟨h.ids, hn, ?_⟩
      intro a ha b hb hab
      obtain ⟨d, hdd, rfl⟩ := List.mem_map.mp hb
      exact hd d hdd (hab ▸ ha)
    nodup := h.nodup
    fin := fun k i => by
      show (k, i) ∈ wants st.disk (ops (st.box ++ insertions s ds)) ↔ Pair (st.store ++ ds) k i
      rw [ops_append, wants_append, wants_insertions, h.fin]
      constructor
      · rintro (⟨d, h1, h2⟩ | ⟨d, h1, h2⟩)
        · exact ⟨d, by simp [h1], h2⟩
        · exact ⟨d, by simp [h1], h2⟩
      · rintro ⟨d, h1, h2⟩
        rcases List.mem_append.mp h1 with h1 | h1
        · exact .inl ⟨d, h1, h2⟩
        · exact .inr ⟨d, h1, h2⟩
    box := fun x s' v c y hb => by
      obtain ⟨y', h1, -⟩ := find_in_append _ _ _ _ _ s' rfl (fun n hn => (hsp n hn).1) hb
      exact h.box x s' v c y' h1
    back := h.back
    keep := fun e he => by
      obtain ⟨k1, k2, k3⟩ := h.keep e he
      exact ⟨k1, k2, fun d hd hk => List.mem_append_left _ (k3 d hd hk)⟩
    pend := by
      show _ ++ (st.box ++ insertions s ds).filterMap Msg.asks = _
      rw [List.filterMap_append, asks_nil _ fun n hn => (hsp n hn).1, List.append_nil]
      exact h.pend
    one := h.one
    boxOld := fun n hn ha => by
      rcases List.mem_append.mp hn with hn | hn
      · exact h.boxOld n hn ha
      · rw [(hsp n hn).2]; exact hss
    backOld := h.backOld
    usedSusp := fun e he => List.mem_append_left _ (h.usedSusp e he)
    usedBox := fun n hn hx => by
      rcases List.mem_append.mp hn with hn | hn
      · exact List.mem_append_left _ (h.usedBox n hn hx)
      · rw [(hsp n hn).2]; simp
    usedBack := fun n hn => List.mem_append_left _ (h.usedBack n hn)
    usedAns := fun n hn => List.mem_append_left _ (h.usedAns n hn)
    fresh := h.fresh
    alone := h.alone
    mem := fun ha => by
      obtain ⟨m1, m2⟩ := h.mem ha
      refine ⟨m1, ?_⟩
      show (m.map Prod.fst).Perm ((st.store ++ ds).filterMap Doc.key)
      rw [List.filterMap_append]
      exact e1.trans (m2.append_right _)
    ans := h.ans }

/-- Documents are deleted, and the plan of the session, if it waited, is finished. -/
theorem Inv.delete {used' : List Session} (h : Inv used ask g st) (hu : ∀ x ∈ used, x ∈ used') {s : Session} (hsu : s ∈ used') (hs : s ∉ st.susp.map Prod.fst) (ds : List (Doc K)) (m : List (K × Doc K))
    (hd : ∀ d ∈ ds, d ∈ st.store) (hk : (∀ d ∈ ds, d.key = none) ∨ st.susp = [])
    (hm : ask = false → (m.map Prod.fst).Perm ((st.store.filter fun e => e.id ∉ ds.map Doc.id).filterMap Doc.key)) (sv : List (Doc K)) :
    Inv used' ask g { st with
      store := st.store.filter (fun e => e.id ∉ ds.map Doc.id), mem := m, box := st.box ++ removals s ds, saved := sv } := by
  have hsp := removals_spec s ds
  exact {
    ids := (List.filter_sublist.map Doc.id).nodup h.ids
    nodup := h.nodup
    fin := fun k i => by
      show (k, i) ∈ wants st.disk (ops (st.box ++ removals s ds)) ↔ Pair (st.store.filter fun e => e.id ∉ ds.map Doc.id) k i
      rw [ops_append, wants_append, wants_removals, h.fin]
      constructor
      · rintro ⟨⟨d, h1, h2, h3⟩, h4⟩
        refine ⟨d, List.mem_filter.mpr ⟨h1, ?_⟩, h2, h3⟩
        simp only [decide_eq_true_eq]
        intro h5
        obtain ⟨x, hx, hxi⟩ := List.mem_map.mp h5
        have : x = d := unique_id h.ids (hd x hx) h1 hxi
        subst this
        exact h4 ⟨x, hx, h2, h3⟩
      · rintro ⟨d, h1, h2, h3⟩
        obtain ⟨h1, h4⟩ := List.mem_filter.mp h1
        simp only [decide_eq_true_eq] at h4
        refine ⟨⟨d, h1, h2, h3⟩, ?_⟩
        rintro ⟨x, hx, h5, _⟩
        exact h4 (List.mem_map.mpr ⟨x, hx, h5.trans h2.symm⟩)
    box := fun x s' v c y hb => by
      obtain ⟨y', h1, -⟩ := find_in_append _ _ _ _ _ s' rfl (fun n hn => (hsp n hn).1) hb
      exact h.box x s' v c y' h1
    back := h.back
    keep := fun e he => by
      obtain ⟨k1, k2, k3⟩ := h.keep e he
      refine ⟨k1, k2, fun d hdg hkk => ?_⟩
      refine List.mem_filter.mpr ⟨k3 d hdg hkk, ?_⟩
      rcases hk with hk | hk
      · simp only [decide_eq_true_eq]
        intro h5
        obtain ⟨x, hx, hxi⟩ := List.mem_map.mp h5
        have : x = d := unique_id h.ids (hd x hx) (k3 d hdg hkk) hxi
        subst this
        exact hkk (hk x hx)
      · have he' : e ∈ st.susp := he
        rw [hk] at he'; cases he'
    pend := by
      show _ ++ (st.box ++ removals s ds).filterMap Msg.asks = _
      rw [List.filterMap_append, asks_nil _ fun n hn => (hsp n hn).1, List.append_nil]
      exact h.pend
    one := h.one
    boxOld := fun n hn ha => by
      rcases List.mem_append.mp hn with hn | hn
      · exact h.boxOld n hn ha
      · rw [(hsp n hn).2]; exact hs
    backOld := h.backOld
    usedSusp := fun e he => hu _ (h.usedSusp e he)
    usedBox := fun n hn hx => by
      rcases List.mem_append.mp hn with hn | hn
      · exact hu _ (h.usedBox n hn hx)
      · rw [(hsp n hn).2]; exact hsu
    usedBack := fun n hn => hu _ (h.usedBack n hn)
    usedAns := fun n hn => hu _ (h.usedAns n hn)
    fresh := h.fresh
    alone := h.alone
    mem := fun ha => ⟨(h.mem ha).1, hm ha⟩
    ans := h.ans }

theorem Inv.scan (h : Inv used ask g st) {s : Session} (hs : s ∉ used) (p : Plan K)
    (hp : if p.deletes then st.susp = [] else ∀ e ∈ st.susp, e.2.deletes = false) :
    Inv (used ++ [s]) true (Function.update g s (st.store, p))
      { st with box := st.box ++ [Msg.find s p.val p.cmp], susp := st.susp ++ [(s, p)] } := by
  have hss : s ∉ st.susp.map Prod.fst := fun hm => by
    obtain ⟨e, he, rfl⟩ := List.mem_map.mp hm
    exact hs (h.usedSusp e he)
  have hu : ∀ s', s' ∈ used → Function.update g s (st.store, p) s' = g s' := fun s' h1 => by
    rw [Function.update_of_ne]
    rintro rfl; exact hs h1
  have hself : Function.update g s (st.store, p) s = (st.store, p) := Function.update_self ..
  exact {
    ids := h.ids
    nodup := h.nodup
    fin := fun k i => by
      show (k, i) ∈ wants st.disk (ops (st.box ++ [Msg.find s p.val p.cmp])) ↔ _
      rw [ops_append]
      have : ops ([Msg.find s p.val p.cmp] : List (Msg K)) = [] := rfl
      rw [this, List.append_nil]
      exact h.fin k i
    box := fun x s' v c y hb => by
      have hb' : st.box ++ [Msg.find s p.val p.cmp] = x ++ Msg.find s' v c :: y := hb
      rcases List.append_eq_append_iff.mp hb' with ⟨l, h1, h2⟩ | ⟨l, h1, h2⟩
      · cases l with
        | nil =>
          simp only [List.nil_append, List.cons.injEq, Msg.find.injEq] at h2
          obtain ⟨⟨rfl, rfl, rfl⟩, rfl⟩ := h2
          rw [List.append_nil] at h1
          subst h1
          rw [hself]
          exact ⟨rfl, rfl, h.fin⟩
        | cons z l =>
          simp at h2
      · cases l with
        | nil =>
          simp only [List.nil_append, List.cons.injEq, Msg.find.injEq] at h2
          obtain ⟨⟨rfl, rfl, rfl⟩, rfl⟩ := h2
          rw [List.append_nil] at h1
          subst h1
          rw [hself]
          exact ⟨rfl, rfl, h.fin⟩
        | cons z l =>
          simp only [List.cons_append, List.cons.injEq] at h2
          obtain ⟨rfl, h2⟩ := h2
          rw [hu s' (h.usedBox (Msg.find s' v c) (by rw [h1]; simp) (.inr (by simp [Msg.asks])))]
          exact h.box x s' v c l h1
    back := fun s' l hb => by
      rw [hu s' (h.usedBack (.found s' l) hb)]
      exact h.back s' l hb
    keep := fun e he => by
      rcases List.mem_append.mp he with he | he
      · rw [hu e.1 (h.usedSusp e he)]
        exact h.keep e he
      · rw [List.mem_singleton.mp he, hself]
        exact ⟨rfl, h.ids, fun d hd _ => hd⟩
    pend := by
      show _ ++ (st.box ++ [Msg.find s p.val p.cmp]).filterMap Msg.asks = (st.susp ++ [(s, p)]).map Prod.fst
      rw [List.filterMap_append, ← List.append_assoc, h.pend, List.map_append]
      rfl
    one := by
      show ((st.susp ++ [(s, p)]).map Prod.fst).Nodup
      rw [List.map_append]
      refine List.nodup_append.mpr ⟨h.one, by simp, ?_⟩
      intro a ha b hb hab
      rw [List.map_singleton, List.mem_singleton] at hb
      subst hb; subst hab
      exact hss ha
    boxOld := fun n hn ha => by
      rcases List.mem_append.mp hn with hn | hn
      · show _ ∉ (st.susp ++ [(s, p)]).map Prod.fst
        rw [List.map_append, List.mem_append, not_or]
        refine ⟨h.boxOld n hn ha, ?_⟩
        rw [List.map_singleton, List.mem_singleton]
        intro he
        have he' : n.session = s := he
        exact hs (he' ▸ h.usedBox n hn (.inl ha))
      · rw [List.mem_singleton.mp hn] at ha; exact absurd rfl ha
    backOld := fun n hn ha => by
      show _ ∉ (st.susp ++ [(s, p)]).map Prod.fst
      rw [List.map_append, List.mem_append, not_or]
      refine ⟨h.backOld n hn ha, ?_⟩
      rw [List.map_singleton, List.mem_singleton]
      intro he
      have he' : n.session = s := he
      exact hs (he' ▸ h.usedBack n hn)
    usedSusp := fun e he => by
      rcases List.mem_append.mp he with he | he
      · exact List.mem_append_left _ (h.usedSusp e he)
      · rw [List.mem_singleton.mp he]; simp
    usedBox := fun n hn hx => by
      rcases List.mem_append.mp hn with hn | hn
      · exact List.mem_append_left _ (h.usedBox n hn hx)
      · rw [List.mem_singleton.mp hn]; simp [Msg.session]
    usedBack := fun n hn => List.mem_append_left _ (h.usedBack n hn)
    usedAns := fun n hn => List.mem_append_left _ (h.usedAns n hn)
    fresh := fun e he => by
      rcases List.mem_append.mp he with he | he
      · exact h.fresh e he
      · rw [List.mem_singleton.mp he]
        intro hm
        obtain ⟨y, hy, hys⟩ := List.mem_map.mp hm
        have hys' : y.1 = s := hys
        exact hs (hys' ▸ h.usedAns y hy)
    alone := fun e he hde => by
      show st.susp ++ [(s, p)] = [e]
      rcases List.mem_append.mp he with he | he
      · split at hp
        · rw [hp] at he; cases he
        · rw [hp e he] at hde; cases hde
      · rw [List.mem_singleton.mp he] at hde ⊢
        simp only at hde
        rw [if_pos hde] at hp
        rw [hp]; rfl
    mem := fun ha => nomatch ha
    ans := fun e he hde => by
      rw [hu e.1 (h.usedAns e he)] at hde ⊢
      exact h.ans e he hde }

/-! ### the agent and the replies -/

theorem rows_mem (P : List (K × Id)) (c : Cmp) (v : K) (i : Id) : i ∈ rows P c v ↔ ∃ k, (k, i) ∈ P ∧ c.holds k v := by
  unfold rows
  simp only [List.mem_map, List.mem_filter, decide_eq_true_eq]
  constructor
  · rintro ⟨⟨k, j⟩, ⟨h1, h2⟩, rfl⟩; exact ⟨k, h1, h2⟩
  · rintro ⟨k, h1, h2⟩; exact ⟨(k, i), ⟨h1, h2⟩, rfl⟩

theorem rows_nodup (P : List (K × Id)) (hP : P.Nodup) (c : Cmp) (v : K) (h : ∀ k k' i, (k, i) ∈ P → (k', i) ∈ P → k = k') :
    (rows P c v).Nodup := by
  unfold rows
  refine List.Nodup.map_on ?_ (hP.filter _)
  rintro ⟨k, i⟩ h1 ⟨k', j⟩ h2 (rfl : i = j)
  rw [h k k' i (List.mem_of_mem_filter h1) (List.mem_of_mem_filter h2)]

theorem Inv.agent {q : List (K × Id) → Cmp → K → List Id} (hq : Honest q) (h : Inv used ask g st) : Inv used ask g (agent q st) := by
  cases hb : st.box with
  | nil => unfold DiskIdx.agent; rw [hb]; exact h
  | cons m b =>
    have hbox : ∀ m' x s v c y, st.box = m' :: b → b = x ++ Msg.find s v c :: y →
        (g s).2.cmp = c ∧ (g s).2.val = v ∧ ∀ k i, (k, i) ∈ wants st.disk (ops (m' :: x)) ↔ Pair (g s).1 k i := by
      intro m' x s v c y h1 h2
      exact h.box (m' :: x) s v c y (by rw [h1, h2]; rfl)
    cases m with
    | insert s k i =>
      have e : DiskIdx.agent q st = { st with box := b, disk := want st.disk (.insert k i), back := st.back ++ [.done s] } := by
        unfold DiskIdx.agent; rw [hb]
      rw [e]
      have hw : ∀ l : List (Msg K), wants st.disk (ops (.insert s k i :: l)) = wants (want st.disk (.insert k i)) (ops l) := fun l => rfl
      exact {
        ids := h.ids
        nodup := want_nodup st.disk h.nodup (.insert k i)
        fin := fun k' i' => by rw [← hw, ← hb]; exact h.fin k' i'
        box := fun x s' v c y hb' => by
          have := hbox _ x s' v c y hb hb'
          rw [hw] at this
          exact this
        back := fun s' l hl => by
          rcases List.mem_append.mp hl with hl | hl
          · exact h.back s' l hl
          · cases List.mem_singleton.mp hl
        keep := h.keep
        pend := by
          have := h.pend
          rw [hb, List.filterMap_cons] at this
          show (st.back ++ [Reply.done s]).filterMap Reply.tells ++ b.filterMap Msg.asks = _
          rw [List.filterMap_append]
          have e0 : [Reply.done s].filterMap Reply.tells = [] := rfl
          rw [e0, List.append_nil]
          exact this
        one := h.one
        boxOld := fun n hn ha => h.boxOld n (by rw [hb]; simp [show n ∈ b from hn]) ha
        backOld := fun n hn ha => by
          rcases List.mem_append.mp hn with hn | hn
          · exact h.backOld n hn ha
          · rw [List.mem_singleton.mp hn]
            exact h.boxOld (.insert s k i) (by rw [hb]; simp) (by simp [Msg.op])
        usedSusp := h.usedSusp
        usedBox := fun n hn hx => h.usedBox n (by rw [hb]; simp [show n ∈ b from hn]) hx
        usedBack := fun n hn => by
          rcases List.mem_append.mp hn with hn | hn
          · exact h.usedBack n hn
          · rw [List.mem_singleton.mp hn]
            exact h.usedBox (.insert s k i) (by rw [hb]; simp) (.inl (by simp [Msg.op]))
        usedAns := h.usedAns
        fresh := h.fresh
        alone := h.alone
        mem := h.mem
        ans := h.ans }
    | remove s k i =>
      have e : DiskIdx.agent q st = { st with box := b, disk := want st.disk (.removePair k i), back := st.back ++ [.done s] } := by
        unfold DiskIdx.agent; rw [hb]
      rw [e]
      have hw : ∀ l : List (Msg K), wants st.disk (ops (.remove s k i :: l)) = wants (want st.disk (.removePair k i)) (ops l) := fun l => rfl
      exact {
        ids := h.ids
        nodup := want_nodup st.disk h.nodup (.removePair k i)
        fin := fun k' i' => by rw [← hw, ← hb]; exact h.fin k' i'
        box := fun x s' v c y hb' => by
          have := hbox _ x s' v c y hb hb'
          rw [hw] at this
          exact this
        back := fun s' l hl => by
          rcases List.mem_append.mp hl with hl | hl
          · exact h.back s' l hl
          · cases List.mem_singleton.mp hl
        keep := h.keep
        pend := by
          have := h.pend
          rw [hb, List.filterMap_cons] at this
          show (st.back ++ [Reply.done s]).filterMap Reply.tells ++ b.filterMap Msg.asks = _
          rw [List.filterMap_append]
          have e0 : [Reply.done s].filterMap Reply.tells = [] := rfl
          rw [e0, List.append_nil]
          exact this
        one := h.one
        boxOld := fun n hn ha => h.boxOld n (by rw [hb]; simp [show n ∈ b from hn]) ha
        backOld := fun n hn ha => by
          rcases List.mem_append.mp hn with hn | hn
          · exact h.backOld n hn ha
          · rw [List.mem_singleton.mp hn]
            exact h.boxOld (.remove s k i) (by rw [hb]; simp) (by simp [Msg.op])
        usedSusp := h.usedSusp
        usedBox := fun n hn hx => h.usedBox n (by rw [hb]; simp [show n ∈ b from hn]) hx
        usedBack := fun n hn => by
          rcases List.mem_append.mp hn with hn | hn
          · exact h.usedBack n hn
          · rw [List.mem_singleton.mp hn]
            exact h.usedBox (.remove s k i) (by rw [hb]; simp) (.inl (by simp [Msg.op]))
        usedAns := h.usedAns
        fresh := h.fresh
        alone := h.alone
        mem := h.mem
        ans := h.ans }
    | insertMany s l =>
      have e : DiskIdx.agent q st = { st with box := b } := by unfold DiskIdx.agent; rw [hb]
      rw [e]
      have hw : ∀ l' : List (Msg K), wants st.disk (ops (.insertMany s l :: l')) = wants st.disk (ops l') := fun l' => rfl
      exact {
        ids := h.ids
        nodup := h.nodup
        fin := fun k' i' => by rw [← hw, ← hb]; exact h.fin k' i'
        box := fun x s' v c y hb' => by
          have := hbox _ x s' v c y hb hb'
          rw [hw] at this
          exact this
        back := h.back
        keep := h.keep
        pend := by
          have := h.pend
          rw [hb, List.filterMap_cons] at this
          exact this
        one := h.one
        boxOld := fun n hn ha => h.boxOld n (by rw [hb]; simp [show n ∈ b from hn]) ha
        backOld := h.backOld
        usedSusp := h.usedSusp
        usedBox := fun n hn hx => h.usedBox n (by rw [hb]; simp [show n ∈ b from hn]) hx
        usedBack := h.usedBack
        usedAns := h.usedAns
        fresh := h.fresh
        alone := h.alone
        mem := h.mem
        ans := h.ans }
    | find s v c =>
      have e : DiskIdx.agent q st = { st with box := b, back := st.back ++ [.found s (q st.disk c v)] } := by
        unfold DiskIdx.agent; rw [hb]
      rw [e]
      have hw : ∀ l' : List (Msg K), wants st.disk (ops (.find s v c :: l')) = wants st.disk (ops l') := fun l' => rfl
      obtain ⟨b1, b2, b3⟩ := h.box [] s v c b hb
      have b3' : ∀ k i, (k, i) ∈ st.disk ↔ Pair (g s).1 k i := b3
      have hss : s ∈ st.susp.map Prod.fst := by
        rw [← h.pend, hb]
        simp [Msg.asks]
      obtain ⟨⟨s', p⟩, he, rfl⟩ := List.mem_map.mp hss
      obtain ⟨-, k2, -⟩ := h.keep _ he
      exact {
        ids := h.ids
        nodup := h.nodup
        fin := fun k' i' => by rw [← hw, ← hb]; exact h.fin k' i'
        box := fun x s' v c y hb' => by
          have := hbox _ x s' v c y hb hb'
          rw [hw] at this
          exact this
        back := fun s'' l hl => by
          rcases List.mem_append.mp hl with hl | hl
          · exact h.back s'' l hl
          · have hl := List.mem_singleton.mp hl
            injection hl with hl1 hl2
            subst hl1; subst hl2
            refine ⟨(hq st.disk c v).nodup_iff.mpr (rows_nodup _ h.nodup _ _ ?_), fun i => ?_⟩
            · intro k k' i h1 h2
              obtain ⟨d, hd, hdi, hdk⟩ := (b3' k i).mp h1
              obtain ⟨d', hd', hdi', hdk'⟩ := (b3' k' i).mp h2
              have := unique_id k2 hd hd' (hdi.trans hdi'.symm)
              subst this
              rw [hdk] at hdk'
              injection hdk'
            · rw [(hq st.disk c v).mem_iff, rows_mem]
              constructor
              · rintro ⟨k, h1, h2⟩
                obtain ⟨d, hd, hdi, hdk⟩ := (b3' k i).mp h1
                exact ⟨d, hd, hdi, k, hdk, by rw [b1, b2]; exact h2⟩
              · rintro ⟨d, hd, hdi, k, hdk, h2⟩
                rw [b1, b2] at h2
                exact ⟨k, (b3' k i).mpr ⟨d, hd, hdi, hdk⟩, h2⟩
        keep := h.keep
        pend := by
          have := h.pend
          rw [hb] at this
          show (st.back ++ [Reply.found s' (q st.disk c v)]).filterMap Reply.tells ++ b.filterMap Msg.asks = _
          rw [List.filterMap_append, List.append_assoc]
          simpa [Reply.tells, Msg.asks] using this
        one := h.one
        boxOld := fun n hn ha => h.boxOld n (by rw [hb]; simp [show n ∈ b from hn]) ha
        backOld := fun n hn ha => by
          rcases List.mem_append.mp hn with hn | hn
          · exact h.backOld n hn ha
          · rw [List.mem_singleton.mp hn] at ha; cases ha
        usedSusp := h.usedSusp
        usedBox := fun n hn hx => h.usedBox n (by rw [hb]; simp [show n ∈ b from hn]) hx
        usedBack := fun n hn => by
          rcases List.mem_append.mp hn with hn | hn
          · exact h.usedBack n hn
          · rw [List.mem_singleton.mp hn]
            exact h.usedBox (.find s' v c) (by rw [hb]; simp) (.inr (by simp [Msg.asks]))
        usedAns := h.usedAns
        fresh := h.fresh
        alone := h.alone
        mem := h.mem
        ans := h.ans }

theorem choose_docs {S : List (Doc K)} {P : Doc K → Prop} (l : List Id) (h : ∀ i ∈ l, ∃ d ∈ S, d.id = i ∧ P d) :
    ∃ docs : List (Doc K), docs.map Doc.id = l ∧ ∀ d ∈ docs, d ∈ S ∧ P d := by
  induction l with
  | nil => exact ⟨[], rfl, fun d hd => nomatch hd⟩
  | cons i l ih =>
    obtain ⟨d, h1, h2, h3⟩ := h i (by simp)
    obtain ⟨ds, e1, e2⟩ := ih fun j hj => h j (by simp [hj])
    refine ⟨d :: ds, by rw [List.map_cons, h2, e1], ?_⟩
    intro x hx
    rcases List.mem_cons.mp hx with rfl | hx
    · exact ⟨h1, h3⟩
    · exact e2 x hx

/-- When the result of a query arrives: the index in memory is filled, and the plan selects from it what it should. -/
theorem Inv.found (h : Inv used ask g st) {s : Session} {l : List Id} {b : List Reply} (hb : st.back = .found s l :: b) :
    ∃ p rest m, st.susp = (s, p) :: rest ∧ (g s).2 = p ∧ syncLoop st.store l [] = .ok m ∧ ask = true ∧
      m.map Prod.fst = (m.map Prod.snd).filterMap Doc.key ∧ (∀ d ∈ m.map Prod.snd, d ∈ st.store) ∧
      ((m.map Prod.snd).map Doc.id).Nodup ∧
      (m.map Prod.snd).Perm ((g s).1.filter (Matches p.cmp p.val ·)) ∧ InOrder (m.map Prod.snd) ∧
      search p m = firstN p.lim (m.map Prod.snd) := by
  have hpend := h.pend
  rw [hb, List.filterMap_cons] at hpend
  simp only [Reply.tells, List.cons_append] at hpend
  obtain ⟨⟨s', p⟩, rest, hsusp⟩ : ∃ e rest, st.susp = e :: rest := by
    cases hs : st.susp with
    | nil => rw [hs] at hpend; cases hpend
    | cons e rest => exact ⟨e, rest, rfl⟩
  have hs' : s = s' := by
    rw [hsusp] at hpend
    injection hpend
  subst hs'
  have hin : (s, p) ∈ st.susp := by rw [hsusp]; simp
  obtain ⟨k1, k2, k3⟩ := h.keep _ hin
  simp only at k1 k2 k3
  obtain ⟨b1, b2⟩ := h.back s l (by rw [hb]; simp)
  obtain ⟨docs, d1, d2⟩ := choose_docs (S := (g s).1) (P := fun d => Matches (g s).2.cmp (g s).2.val d) l (fun i hi => (b2 i).mp hi)
  have hkey : ∀ d ∈ docs, d ∈ st.store ∧ d.key ≠ none := fun d hd => by
    obtain ⟨x1, k, x2, _⟩ := d2 d hd
    have : d.key ≠ none := by rw [x2]; simp
    exact ⟨k3 d x1 this, this⟩
  obtain ⟨m, m1, m2, m3, m4⟩ := syncLoop_ok st.store h.ids docs hkey [] List.Pairwise.nil
  rw [d1] at m1
  have m3' : (m.map Prod.snd).Perm docs := by simpa using m3
  have m4' : ∀ e ∈ m, e.2 ∈ docs ∧ e.2.key = some e.1 := fun e he => by
    rcases m4 e he with h1 | h1
    · cases h1
    · exact h1
  refine ⟨p, rest, m, hsusp, k1, m1, ?_, ?_, ?_, ?_, ?_, ?_, ?_⟩
  · cases ask with
    | true => rfl
    | false =>
      have := (h.mem rfl).1
      rw [this] at hsusp; cases hsusp
  · clear m1 m2 m3 m3' m4
    induction m with
    | nil => rfl
    | cons e es ih =>
      rw [List.map_cons, List.map_cons, List.filterMap_cons, (m4' e (by simp)).2, ih fun x hx => m4' x (by simp [hx])]
  · intro d hd
    exact (hkey d (m3'.mem_iff.mp hd)).1
  · refine (m3'.map Doc.id).nodup_iff.mpr ?_
    rw [d1]; exact b1
  · refine m3'.trans ?_
    have hnd : docs.Nodup := List.Nodup.of_map Doc.id (by rw [d1]; exact b1)
    have hng : ((g s).1.filter (Matches p.cmp p.val ·)).Nodup := (List.Nodup.of_map Doc.id k2).filter _
    refine (List.perm_ext_iff_of_nodup hnd hng).mpr fun d => ?_
    rw [List.mem_filter, decide_eq_true_eq, ← k1]
    constructor
    · exact fun hd => d2 d hd
    · rintro ⟨x1, x2⟩
      have : d.id ∈ l := (b2 d.id).mpr ⟨d, x1, rfl, x2⟩
      rw [← d1] at this
      obtain ⟨d', hd', hi⟩ := List.mem_map.mp this
      have := unique_id k2 (d2 d' hd').1 x1 hi
      rw [← this]; exact hd'
  · refine List.pairwise_map.mpr (m2.imp_of_mem ?_)
    intro a b' ha hb' hle j k hj hk
    rw [(m4' a ha).2] at hj
    rw [(m4' b' hb').2] at hk
    injection hj with hj; injection hk with hk
    rw [← hj, ← hk]; exact hle
  · refine search_eq p m fun e he => ?_
    obtain ⟨x1, x2⟩ := m4' e he
    obtain ⟨-, k, y1, y2⟩ := d2 _ x1
    rw [x2] at y1; injection y1 with y1
    rw [y1, ← k1]; exact y2

/-- The plan of the first result that arrived is taken away. -/
theorem Inv.popped (h : Inv used ask g st) {s : Session} {p : Plan K} {l : List Id} {b : List Reply} {rest : List (Session × Plan K)}
    (hb : st.back = .found s l :: b) (hs : st.susp = (s, p) :: rest) (ha : ask = true) (m : List (K × Doc K)) (r : List (Doc K))
    (hr : (g s).2.deletes = false → Selects (g s).2 (g s).1 r) :
    Inv used ask g { st with back := b, mem := m, susp := rest, answers := st.answers ++ [(s, r)] } where
  ids := h.ids
  nodup := h.nodup
  fin := h.fin
  box := h.box
  back s' l' hl := h.back s' l' (by rw [hb]; simp [show Reply.found s' l' ∈ b from hl])
  keep e he := h.keep e (by rw [hs]; simp [show e ∈ rest from he])
  pend := by
    have := h.pend
    rw [hb, hs] at this
    simpa [Reply.tells] using this
  one := by
    have := h.one
    rw [hs, List.map_cons] at this
    exact (List.nodup_cons.mp this).2
  boxOld n hn ha hm := h.boxOld n hn ha (by rw [hs, List.map_cons]; exact List.mem_cons_of_mem _ hm)
  backOld n hn ha hm := h.backOld n (by rw [hb]; simp [show n ∈ b from hn]) ha (by rw [hs, List.map_cons]; exact List.mem_cons_of_mem _ hm)
  usedSusp e he := h.usedSusp e (by rw [hs]; simp [show e ∈ rest from he])
  usedBox := h.usedBox
  usedBack n hn := h.usedBack n (by rw [hb]; simp [show n ∈ b from hn])
  usedAns e he := by
    rcases List.mem_append.mp he with he | he
    · exact h.usedAns e he
    · rw [List.mem_singleton.mp he]
      exact h.usedSusp (s, p) (by rw [hs]; simp)
  fresh e he := by
    have h1 := h.one
    rw [hs, List.map_cons] at h1
    show e.1 ∉ (st.answers ++ [(s, r)]).map Prod.fst
    rw [List.map_append, List.mem_append, not_or]
    refine ⟨h.fresh e (by rw [hs]; simp [show e ∈ rest from he]), ?_⟩
    rw [List.map_singleton, List.mem_singleton]
    intro h2
    exact (List.nodup_cons.mp h1).1 (List.mem_map.mpr ⟨e, he, h2⟩)
  alone e he hd := by
    have := h.alone e (by rw [hs]; simp [show e ∈ rest from he]) hd
    rw [hs] at this
    injection this with h1 h2
    have he' : e ∈ rest := he
    rw [h2] at he'; cases he'
  mem hf := by rw [ha] at hf; cases hf
  ans e he hd := by
    rcases List.mem_append.mp he with he | he
    · exact h.ans e he hd
    · rw [List.mem_singleton.mp he] at hd ⊢
      exact hr hd

/-- The documents a reply deletes. -/
theorem Inv.reply (h : Inv used ask g st) : ∃ st', reply st = .ok st' ∧ Inv used ask g st' ∧
    ((st'.store = st.store ∧ st'.saved = st.saved) ∧ (st'.answers = st.answers ∨ ∃ s r, st'.answers = st.answers ++ [(s, r)] ∧ (g s).2.deletes = false) ∨
      ∃ s sel, st'.answers = st.answers ++ [(s, [])] ∧ (s, (g s).2) ∈ st.susp ∧ (g s).2.deletes = true ∧ Selects (g s).2 (g s).1 sel ∧ st'.saved = st.saved ∧
        st'.store = st.store.filter fun e => e.id ∉ sel.map Doc.id) ∧
    (st.back ≠ [] → st'.back.length + 1 = st.back.length) ∧ (∀ e ∈ st.susp, e ∈ st'.susp ∨ e.1 ∈ st'.answers.map Prod.fst) ∧
    (∀ e ∈ st.answers, e ∈ st'.answers) ∧ (st'.box = [] ∨ st.box ≠ [] ∨ st'.susp = []) ∧ (∀ e ∈ st'.susp, e ∈ st.susp) := by
  cases hb : st.back with
  | nil =>
    refine ⟨st, by unfold DiskIdx.reply; rw [hb], h, .inl ⟨⟨rfl, rfl⟩, .inl rfl⟩, fun h1 => absurd rfl h1, fun e he => .inl he, fun e he => he, ?_, fun e he => he⟩
    by_cases hx : st.box = []
    · exact .inl hx
    · exact .inr (.inl hx)
  | cons m b =>
    cases m with
    | done s =>
      have hno := h.backOld (.done s) (by rw [hb]; simp) rfl
      have hf : st.susp.filter (fun e => e.1 ≠ s) = st.susp := by
        rw [List.filter_eq_self]
        intro e he
        have : e.1 ≠ s := fun h1 => hno (h1 ▸ List.mem_map_of_mem he)
        simpa using this
      refine ⟨{ st with back := b }, by unfold DiskIdx.reply; rw [hb]; simp only [hf], ?_, .inl ⟨⟨rfl, rfl⟩, .inl rfl⟩,
        fun _ => rfl, fun e he => .inl he, fun e he => he, ?_, fun e he => he⟩
      · exact {
          ids := h.ids, nodup := h.nodup, fin := h.fin, box := h.box
          back := fun s' l' hl => h.back s' l' (by rw [hb]; simp [show Reply.found s' l' ∈ b from hl])
          keep := h.keep
          pend := by
            have := h.pend
            rw [hb, List.filterMap_cons] at this
            exact this
          one := h.one, boxOld := h.boxOld
          backOld := fun n hn => h.backOld n (by rw [hb]; simp [show n ∈ b from hn])
          usedSusp := h.usedSusp, usedBox := h.usedBox
          usedBack := fun n hn => h.usedBack n (by rw [hb]; simp [show n ∈ b from hn])
          usedAns := h.usedAns, fresh := h.fresh, alone := h.alone, mem := h.mem, ans := h.ans }
      · by_cases hx : st.box = []
        · exact .inl hx
        · exact .inr (.inl hx)
    | found s l =>
      obtain ⟨p, rest, m, hs, hp, hm, hask, hkeys, hin, hnd, hperm, hord, hsearch⟩ := h.found hb
      have hfind : st.susp.find? (fun e => e.1 = s) = some (s, p) := by rw [hs, List.find?_cons]; simp
      have hrest : st.susp.filter (fun e => e.1 ≠ s) = rest := by
        have h1 := h.one
        rw [hs, List.map_cons] at h1
        have h1 := (List.nodup_cons.mp h1).1
        rw [hs, List.filter_cons]
        simp only [ne_eq, not_true_eq_false, decide_false, Bool.false_eq_true, if_false]
        rw [List.filter_eq_self]
        intro e he
        have : e.1 ≠ s := fun h2 => h1 (List.mem_map.mpr ⟨e, he, h2⟩)
        simpa using this
      have hsel : Selects p (g s).1 (search p m) := ⟨m.map Prod.snd, hperm, hord, hsearch⟩
      have hfate : ∀ (A : List (Session × List (Doc K))) (r : List (Doc K)), ∀ e ∈ st.susp, e ∈ rest ∨ e.1 ∈ (A ++ [(s, r)]).map Prod.fst := by
        intro A r e he
        rw [hs] at he
        rcases List.mem_cons.mp he with rfl | he
        · exact .inr (by simp)
        · exact .inl he
      by_cases hd : p.deletes = true
      · have hrest0 : rest = [] := by
          have := h.alone (s, p) (by rw [hs]; simp) hd
          rw [hs] at this
          injection this
        have hsub : (search p m).Sublist (m.map Prod.snd) := by rw [hsearch]; exact firstN_sublist _ _
        obtain ⟨R, hR⟩ := (hsub.filterMap Doc.key).exists_perm_append
        rw [← hkeys] at hR
        obtain ⟨m', e1, e2⟩ := deleteAll_ok s (search p m) { st with back := b, mem := m } ((hsub.map Doc.id).nodup hnd)
          (fun d hd => hin d (hsub.subset hd)) R hR
        have hpop := h.popped hb hs hask m [] (fun hf => by rw [hp, hd] at hf; cases hf)
        have hss : s ∉ rest.map Prod.fst := by rw [hrest0]; simp
        have hinv := hpop.delete (used' := used) (fun x hx => hx) (s := s) (h.usedSusp (s, p) (by rw [hs]; simp)) hss (search p m) m'
          (fun d hd => hin d (hsub.subset hd)) (.inr hrest0) (fun hf => by rw [hask] at hf; cases hf) st.saved
        refine ⟨_, ?_, hinv, .inr ⟨s, search p m, rfl, by rw [hp, hs]; simp, by rw [hp, hd], by rw [hp]; exact hsel, rfl, rfl⟩, fun _ => rfl,
          hfate _ _, fun e he => List.mem_append_left _ he, .inr (.inr hrest0), fun e he => by rw [hs]; exact List.mem_cons_of_mem _ he⟩
        unfold DiskIdx.reply
        rw [hb]
        simp only [hm, Res.bind_ok, hfind, resume, if_pos hd, e2, Res.map'_ok, hrest]
      · have hd' : p.deletes = false := by simpa using hd
        have hpop := h.popped hb hs hask m (search p m) (fun _ => by rw [hp]; exact hsel)
        refine ⟨_, ?_, hpop, .inl ⟨⟨rfl, rfl⟩, .inr ⟨s, search p m, rfl, by rw [hp, hd']⟩⟩, fun _ => rfl,
          hfate _ _, fun e he => List.mem_append_left _ he, ?_, fun e he => by rw [hs]; exact List.mem_cons_of_mem _ he⟩
        · unfold DiskIdx.reply
          rw [hb]
          simp only [hm, Res.bind_ok, hfind, resume, hd', Bool.false_eq_true, if_false, Res.map'_ok, hrest]
        · by_cases hx : st.box = []
          · exact .inl hx
          · exact .inr (.inl hx)

end

end Verif.DiskIdx
