import Verif.Py.NamesSpec
import Verif.Node.DdlProps
/-!
C109: what the lists of names hold, when they agree with what exists, and when not.
-/
namespace Verif.Py.Names

open Verif.Node

/-! ## The lists -/

theorem mem_emplace (l : List Nat) (n x : Nat) : x ∈ emplace l n ↔ x = n ∨ x ∈ l := by
  unfold emplace
  split
  · rename_i h
    constructor
    · exact Or.inr
    · rintro (rfl | e)
      · exact h
      · exact e
  · rw [List.mem_append, List.mem_singleton]
    exact Or.comm

theorem nodup_emplace {l : List Nat} (h : l.Nodup) (n : Nat) : (emplace l n).Nodup := by
  unfold emplace
  split
  · exact h
  · rename_i e
    rw [List.nodup_append]
    refine ⟨h, by simp, ?_⟩
    intro a ha b hb
    rw [List.mem_singleton] at hb
    subst hb
    rintro rfl
    exact e ha

theorem send_keeps {s t : Prog} {p : Plan} {ok : Bool} (h : send s p = some (t, ok)) :
    t.client = s.client ∧ t.dbs = s.dbs ∧ t.colls = s.colls ∧ t.node = run s.node (ask 0 p) := by
  unfold send at h
  split at h
  · injection h with h
    injection h with h1 _
    subst h1
    exact ⟨rfl, rfl, rfl, rfl⟩
  · exact absurd h (by simp)

theorem calls_cons {s : Prog} {c : Call} {cs : List Call} {r : Prog × List Out} (h : calls s (c :: cs) = some r) :
    ∃ t o os, step s c = some (t, o) ∧ calls t cs = some (r.1, os) ∧ r.2 = o :: os := by
  unfold calls at h
  split at h
  · exact absurd h (by simp)
  · rename_i t o e
    split at h
    · exact absurd h (by simp)
    · rename_i u os e2
      injection h with h
      subst h
      exact ⟨t, o, os, e, e2, rfl⟩

/-- What one call does to a database object. -/
theorem step_object {s t : Prog} {c : Call} {o : Out} (hs : step s c = some (t, o)) (hr : ∀ es, c ≠ .restart es) (h : Nat) (b : DbObj)
    (hb : s.dbs[h]? = some b) :
    ∃ b', t.dbs[h]? = some b' ∧ b'.db = b.db ∧ (b.listed.Nodup → b'.listed.Nodup) ∧
      (b.listed.Nodup → ∀ x, x ∈ b'.listed ↔ c = .collection h x ∨ (x ∈ b.listed ∧ c ≠ .dropCollection h x)) := by
  have hlt : h < s.dbs.length := by
    rcases Nat.lt_or_ge h s.dbs.length with e | e
    · exact e
    · rw [List.getElem?_eq_none e] at hb; exact absurd hb (by simp)
  cases c with
  | restart es => exact absurd rfl (hr es)
  | database d =>
    change database s d = _ at hs
    unfold database at hs
    split at hs
    · exact absurd hs (by simp)
    · rename_i u _ e
      obtain ⟨_, e2, _, _⟩ := send_keeps e
      injection hs with hs
      injection hs with h1 _
      subst h1
      refine ⟨b, ?_, rfl, id, fun _ x => by simp⟩
      show (u.dbs ++ [⟨d, []⟩])[h]? = some b
      rw [e2, List.getElem?_append_left hlt, hb]
  | sql p =>
    change execute s p = _ at hs
    unfold execute at hs
    split at hs
    · exact absurd hs (by simp)
    · rename_i u ok e
      obtain ⟨_, e2, _, _⟩ := send_keeps e
      injection hs with hs
      injection hs with h1 _
      subst h1
      exact ⟨b, by rw [e2, hb], rfl, id, fun _ x => by simp⟩
  | drop i =>
    change dropObject s i = _ at hs
    unfold dropObject at hs
    split at hs
    · injection hs with hs
      injection hs with h1 _
      subst h1
      exact ⟨b, hb, rfl, id, fun _ x => by simp⟩
    · split at hs
      · exact absurd hs (by simp)
      · rename_i u ok e
        obtain ⟨_, e2, _, _⟩ := send_keeps e
        injection hs with hs
        injection hs with h1 _
        subst h1
        exact ⟨b, by rw [e2, hb], rfl, id, fun _ x => by simp⟩
  | collection g n =>
    change collection s g n = _ at hs
    unfold collection at hs
    split at hs
    · rename_i e
      injection hs with hs
      injection hs with h1 _
      subst h1
      refine ⟨b, hb, rfl, id, fun _ x => ?_⟩
      constructor
      · exact fun hx => Or.inr ⟨hx, by simp⟩
      · rintro (hx | hx)
        · injection hx with hg _
          rw [hg, hb] at e
          exact absurd e (by simp)
        · exact hx.1
    · rename_i q hq
      split at hs
      · exact absurd hs (by simp)
      · rename_i u ok e
        obtain ⟨_, e2, _, _⟩ := send_keeps e
        injection hs with hs
        injection hs with h1 _
        subst h1
        by_cases hg : g = h
        · subst hg
          rw [hb] at hq
          injection hq with hq
          subst hq
          refine ⟨⟨b.db, emplace b.listed n⟩, ?_, rfl, fun hn => nodup_emplace hn n, fun _ x => ?_⟩
          · show (u.dbs.set g _)[g]? = _
            rw [e2, List.getElem?_set_self hlt]
          · show x ∈ emplace b.listed n ↔ _
            rw [mem_emplace]
            constructor
            · rintro (rfl | hx)
              · exact Or.inl rfl
              · exact Or.inr ⟨hx, by simp⟩
            · rintro (hx | hx)
              · injection hx with _ hx
                exact Or.inl hx.symm
              · exact Or.inr hx.1
        · refine ⟨b, ?_, rfl, id, fun _ x => ?_⟩
          · show (u.dbs.set g _)[h]? = _
            rw [e2, List.getElem?_set_ne hg, hb]
          · constructor
            · exact fun hx => Or.inr ⟨hx, by simp⟩
            · rintro (hx | hx)
              · injection hx with hx _
                exact absurd hx hg
              · exact hx.1
  | dropCollection g n =>
    change dropCollection s g n = _ at hs
    unfold dropCollection at hs
    split at hs
    · rename_i e
      injection hs with hs
      injection hs with h1 _
      subst h1
      refine ⟨b, hb, rfl, id, fun _ x => ?_⟩
      constructor
      · intro hx
        refine Or.inr ⟨hx, ?_⟩
        intro hc
        injection hc with hg _
        rw [hg, hb] at e
        exact absurd e (by simp)
      · rintro (hx | hx)
        · exact absurd hx (by simp)
        · exact hx.1
    · rename_i q hq
      split at hs
      · exact absurd hs (by simp)
      · rename_i u ok e
        obtain ⟨_, e2, _, _⟩ := send_keeps e
        injection hs with hs
        injection hs with h1 _
        subst h1
        have e3 : u.dbs = s.dbs.set g ⟨q.db, q.listed.erase n⟩ := e2
        by_cases hg : g = h
        · subst hg
          rw [hb] at hq
          injection hq with hq
          subst hq
          refine ⟨⟨b.db, b.listed.erase n⟩, by rw [e3, List.getElem?_set_self hlt], rfl, fun hn => hn.erase n, fun hn x => ?_⟩
          show x ∈ b.listed.erase n ↔ _
          rw [hn.mem_erase_iff]
          constructor
          · rintro ⟨h1, h2⟩
            refine Or.inr ⟨h2, ?_⟩
            intro hc
            injection hc with _ hc
            exact h1 hc.symm
          · rintro (hx | hx)
            · exact absurd hx (by simp)
            · exact ⟨fun hc => hx.2 (by rw [hc]), hx.1⟩
        · refine ⟨b, by rw [e3, List.getElem?_set_ne hg, hb], rfl, id, fun _ x => ?_⟩
          constructor
          · intro hx
            refine Or.inr ⟨hx, ?_⟩
            intro hc
            injection hc with hc _
            exact hg hc
          · rintro (hx | hx)
            · exact absurd hx (by simp)
            · exact hx.1

theorem asked_cons (x : Call) (cs : List Call) (h c : Nat) :
    Asked (x :: cs) h c ↔ Asked cs h c ∨ (x = .collection h c ∧ Call.dropCollection h c ∉ cs) := by
  constructor
  · rintro ⟨a, b, e, hn⟩
    cases a with
    | nil =>
      injection e with e1 e2
      exact Or.inr ⟨e1, by rw [e2]; exact hn⟩
    | cons y a =>
      injection e with e1 e2
      exact Or.inl ⟨a, b, e2, hn⟩
  · rintro (⟨a, b, e, hn⟩ | ⟨e, hn⟩)
    · exact ⟨x :: a, b, by rw [e]; rfl, hn⟩
    · exact ⟨[], cs, by rw [e]; rfl, hn⟩

theorem calls_object (cs : List Call) : ∀ (s : Prog) (h : Nat) (b : DbObj) (r : Prog × List Out), s.dbs[h]? = some b → b.listed.Nodup →
    Stays cs → calls s cs = some r →
    ∃ b', r.1.dbs[h]? = some b' ∧ b'.db = b.db ∧ b'.listed.Nodup ∧
      ∀ x, x ∈ b'.listed ↔ Asked cs h x ∨ (x ∈ b.listed ∧ Call.dropCollection h x ∉ cs) := by
  induction cs with
  | nil =>
    intro s h b r hb hn _ hr
    injection hr with hr
    subst hr
    refine ⟨b, hb, rfl, hn, fun x => ?_⟩
    constructor
    · exact fun hx => Or.inr ⟨hx, by simp⟩
    · rintro (⟨a, q, e, _⟩ | hx)
      · exact absurd e (by simp)
      · exact hx.1
  | cons c cs ih =>
    intro s h b r hb hn hst hr
    obtain ⟨t, o, os, h1, h2, _⟩ := calls_cons hr
    obtain ⟨b', g1, g2, g3, g4⟩ := step_object h1 (hst c (by simp)) h b hb
    obtain ⟨b'', k1, k2, k3, k4⟩ := ih t h b' _ g1 (g3 hn) (fun x hx => hst x (by simp [hx])) h2
    refine ⟨b'', k1, k2.trans g2, k3, fun x => ?_⟩
    rw [k4, g4 hn, asked_cons]
    simp only [List.mem_cons, not_or]
    constructor
    · rintro (hx | ⟨hx | hx, hy⟩)
      · exact Or.inl (Or.inl hx)
      · exact Or.inl (Or.inr ⟨hx, hy⟩)
      · exact Or.inr ⟨hx.1, fun e => hx.2 e.symm, hy⟩
    · rintro ((hx | ⟨hx, hy⟩) | ⟨hx, hy, hz⟩)
      · exact Or.inl hx
      · exact Or.inr ⟨Or.inl hx, hy⟩
      · exact Or.inr ⟨Or.inr ⟨hx, fun e => hy e.symm⟩, hz⟩

theorem database_object {s t : Prog} {d : Nat} {o : Out} (hs : step s (.database d) = some (t, o)) :
    o = .object s.dbs.length ∧ t.dbs = s.dbs ++ [⟨d, []⟩] ∧ t.colls = s.colls ∧ t.node = run s.node (ask 0 (.createDb d)) := by
  change database s d = _ at hs
  unfold database at hs
  split at hs
  · exact absurd hs (by simp)
  · rename_i u _ e
    obtain ⟨_, e2, e3, e4⟩ := send_keeps e
    injection hs with hs
    injection hs with h1 h2
    subst h1
    refine ⟨by rw [← h2, e2], ?_, e3, e4⟩
    show u.dbs ++ _ = _
    rw [e2]

/-- C109: a database object lists, without repeats, the names that were asked for through it and not dropped through it since: nothing
else that happens adds a name to it or takes one away. -/
theorem C109_collection_names (s s1 t : Prog) (d h : Nat) (cs : List Call) (os : List Out)
    (h0 : step s (.database d) = some (s1, .object h)) (h1 : calls s1 cs = some (t, os)) (hst : Stays cs) :
    ∃ l, collectionNames t h = some l ∧ l.Nodup ∧ ∀ c, c ∈ l ↔ Asked cs h c := by
  obtain ⟨e, e1, _, _⟩ := database_object h0
  injection e with e
  have hb : s1.dbs[h]? = some ⟨d, []⟩ := by rw [e1, e]; simp
  obtain ⟨b, g1, _, g3, g4⟩ := calls_object cs s1 h _ _ hb (by simp) hst h1
  refine ⟨b.listed, ?_, g3, fun c => ?_⟩
  · show (t.dbs[h]?).map _ = _
    have g1' : t.dbs[h]? = some b := g1
    rw [g1']
    rfl
  · rw [g4]
    simp

theorem step_client {s t : Prog} {c : Call} {o : Out} (hs : step s c = some (t, o)) (hr : ∀ es, c ≠ .restart es) (hn : s.client.Nodup) :
    t.client.Nodup ∧ ∀ d, d ∈ t.client ↔ c = .database d ∨ d ∈ s.client := by
  cases c with
  | restart es => exact absurd rfl (hr es)
  | database n =>
    change database s n = _ at hs
    unfold database at hs
    split at hs
    · exact absurd hs (by simp)
    · rename_i u _ e
      obtain ⟨e2, _, _, _⟩ := send_keeps e
      injection hs with hs
      injection hs with h1 _
      subst h1
      refine ⟨by show (emplace u.client n).Nodup; rw [e2]; exact nodup_emplace hn n, fun d => ?_⟩
      show d ∈ emplace u.client n ↔ _
      rw [mem_emplace, e2]
      constructor
      · rintro (rfl | h)
        · exact Or.inl rfl
        · exact Or.inr h
      · rintro (h | h)
        · injection h with h
          exact Or.inl h.symm
        · exact Or.inr h
  | sql p =>
    change execute s p = _ at hs
    unfold execute at hs
    split at hs
    · exact absurd hs (by simp)
    · rename_i u ok e
      obtain ⟨e2, _, _, _⟩ := send_keeps e
      injection hs with hs
      injection hs with h1 _
      subst h1
      exact ⟨by rw [e2]; exact hn, fun d => by rw [e2]; simp⟩
  | drop i =>
    change dropObject s i = _ at hs
    unfold dropObject at hs
    split at hs
    · injection hs with hs
      injection hs with h1 _
      subst h1
      exact ⟨hn, fun d => by simp⟩
    · split at hs
      · exact absurd hs (by simp)
      · rename_i u ok e
        obtain ⟨e2, _, _, _⟩ := send_keeps e
        injection hs with hs
        injection hs with h1 _
        subst h1
        exact ⟨by rw [e2]; exact hn, fun d => by rw [e2]; simp⟩
  | collection g n =>
    change collection s g n = _ at hs
    unfold collection at hs
    split at hs
    · injection hs with hs
      injection hs with h1 _
      subst h1
      exact ⟨hn, fun d => by simp⟩
    · split at hs
      · exact absurd hs (by simp)
      · rename_i u ok e
        obtain ⟨e2, _, _, _⟩ := send_keeps e
        injection hs with hs
        injection hs with h1 _
        subst h1
        exact ⟨by show u.client.Nodup; rw [e2]; exact hn, fun d => by show d ∈ u.client ↔ _; rw [e2]; simp⟩
  | dropCollection g n =>
    change dropCollection s g n = _ at hs
    unfold dropCollection at hs
    split at hs
    · injection hs with hs
      injection hs with h1 _
      subst h1
      exact ⟨hn, fun d => by simp⟩
    · split at hs
      · exact absurd hs (by simp)
      · rename_i u ok e
        obtain ⟨e2, _, _, _⟩ := send_keeps e
        injection hs with hs
        injection hs with h1 _
        subst h1
        have e3 : u.client = s.client := e2
        exact ⟨by rw [e3]; exact hn, fun d => by rw [e3]; simp⟩

theorem calls_client (cs : List Call) : ∀ (s : Prog) (r : Prog × List Out), s.client.Nodup → Stays cs → calls s cs = some r →
    r.1.client.Nodup ∧ ∀ d, d ∈ r.1.client ↔ .database d ∈ cs ∨ d ∈ s.client := by
  induction cs with
  | nil =>
    intro s r hn _ hr
    injection hr with hr
    subst hr
    exact ⟨hn, fun d => by simp⟩
  | cons c cs ih =>
    intro s r hn hst hr
    obtain ⟨t, o, os, h1, h2, _⟩ := calls_cons hr
    obtain ⟨g1, g2⟩ := step_client h1 (hst c (by simp)) hn
    obtain ⟨k1, k2⟩ := ih t _ g1 (fun x hx => hst x (by simp [hx])) h2
    refine ⟨k1, fun d => ?_⟩
    rw [k2, g2]
    simp only [List.mem_cons]
    constructor
    · rintro (h | h | h)
      · exact Or.inl (Or.inr h)
      · exact Or.inl (Or.inl h.symm)
      · exact Or.inr h
    · rintro ((h | h) | h)
      · exact Or.inr (Or.inl h.symm)
      · exact Or.inl h
      · exact Or.inr (Or.inr h)

/-- C109: a client lists, without repeats, the databases it was asked for. -/
theorem C109_database_names (cs : List Call) (t : Prog) (os : List Out) (h : calls start cs = some (t, os)) (hst : Stays cs) :
    (databaseNames t).Nodup ∧ ∀ d, d ∈ databaseNames t ↔ .database d ∈ cs := by
  obtain ⟨h1, h2⟩ := calls_client cs start _ (by simp [start]) hst h
  exact ⟨h1, fun d => (h2 d).trans (by simp [start])⟩

/-! ## The node -/

/-- The node is ready and shows the world. -/
def Stands (s : Prog) (w : World) : Prop := Ready s.node ∧ Shows s.node w

theorem send_stands {s : Prog} {w : World} (h : Stands s w) (p : Plan) :
    send s p = some ({ s with node := run s.node (ask 0 p) }, w.ok p || w.misplaced p) ∧
      Stands { s with node := run s.node (ask 0 p) } (w.serve p).1 := by
  obtain ⟨h1, h2, h3, _⟩ := ask_world h.1 h.2 0 p
  refine ⟨?_, h1, h2⟩
  unfold send
  have : ((run s.node (ask 0 p)).answers.find? fun a => a.1 == s.node.next) = some (s.node.next, p, w.ok p || w.misplaced p) := by
    rw [h3, List.find?_cons_of_pos (by simp)]
  rw [this]

/-- The plan of a call. -/
def planOf (s : Prog) : Call → Option Plan
  | .database d => some (.createDb d)
  | .collection h c => (s.dbs[h]?).map fun o => .createColl ⟨o.db, c⟩
  | .dropCollection h c => (s.dbs[h]?).map fun o => .dropColl ⟨o.db, c⟩
  | .drop i => (s.colls[i]?).map .dropColl
  | .sql p => some p
  | .restart _ => none

/-- The world after a call. -/
def served (w : World) : Option Plan → World
  | none => w
  | some p => (w.serve p).1

/-- A call returns, and the world is that of its request. -/
theorem step_stands {s : Prog} {w : World} (h : Stands s w) (c : Call) (hr : ∀ es, c ≠ .restart es) :
    ∃ t o, step s c = some (t, o) ∧ Stands t (served w (planOf s c)) := by
  cases c with
  | restart es => exact absurd rfl (hr es)
  | database d =>
    obtain ⟨e, e2⟩ := send_stands h (.createDb d)
    refine ⟨{ s with node := run s.node (ask 0 (.createDb d)), client := emplace s.client d, dbs := s.dbs ++ [⟨d, []⟩] },
      .object s.dbs.length, ?_, ?_⟩
    · show database s d = _
      unfold database
      rw [e]
    · exact e2
  | sql p =>
    obtain ⟨e, e2⟩ := send_stands h p
    refine ⟨{ s with node := run s.node (ask 0 p) }, .answer (w.ok p || w.misplaced p), ?_, ?_⟩
    · show execute s p = _
      unfold execute
      rw [e]
    · exact e2
  | drop i =>
    cases hx : s.colls[i]? with
    | none =>
      refine ⟨s, .nothing, ?_, ?_⟩
      · show dropObject s i = _
        unfold dropObject
        rw [hx]
      · show Stands s (served w ((s.colls[i]?).map _))
        rw [hx]
        exact h
    | some x =>
      obtain ⟨e, e2⟩ := send_stands h (.dropColl x)
      refine ⟨{ s with node := run s.node (ask 0 (.dropColl x)) }, .answer (w.ok (.dropColl x) || w.misplaced (.dropColl x)), ?_, ?_⟩
      · show dropObject s i = _
        unfold dropObject
        simp only [hx, e]
      · show Stands _ (served w ((s.colls[i]?).map _))
        rw [hx]
        exact e2
  | collection g n =>
    cases hx : s.dbs[g]? with
    | none =>
      refine ⟨s, .nothing, ?_, ?_⟩
      · show collection s g n = _
        unfold collection
        rw [hx]
      · show Stands s (served w ((s.dbs[g]?).map _))
        rw [hx]
        exact h
    | some o =>
      obtain ⟨e, e2⟩ := send_stands h (.createColl ⟨o.db, n⟩)
      refine ⟨{ s with node := run s.node (ask 0 (.createColl ⟨o.db, n⟩)), dbs := s.dbs.set g ⟨o.db, emplace o.listed n⟩, colls := s.colls ++ [⟨o.db, n⟩] },
        .object s.colls.length, ?_, ?_⟩
      · show collection s g n = _
        unfold collection
        simp only [hx, e]
      · show Stands _ (served w ((s.dbs[g]?).map _))
        rw [hx]
        exact e2
  | dropCollection g n =>
    cases hx : s.dbs[g]? with
    | none =>
      refine ⟨s, .nothing, ?_, ?_⟩
      · show dropCollection s g n = _
        unfold dropCollection
        rw [hx]
      · show Stands s (served w ((s.dbs[g]?).map _))
        rw [hx]
        exact h
    | some o =>
      obtain ⟨e, e2⟩ := send_stands (s := { s with dbs := s.dbs.set g ⟨o.db, o.listed.erase n⟩ }) h (.dropColl ⟨o.db, n⟩)
      refine ⟨{ s with node := run s.node (ask 0 (.dropColl ⟨o.db, n⟩)), dbs := s.dbs.set g ⟨o.db, o.listed.erase n⟩ },
        .answer (w.ok (.dropColl ⟨o.db, n⟩) || w.misplaced (.dropColl ⟨o.db, n⟩)), ?_, ?_⟩
      · show dropCollection s g n = _
        unfold dropCollection
        simp only [hx, e]
      · show Stands _ (served w ((s.dbs[g]?).map _))
        rw [hx]
        exact e2

theorem start_stands : Stands start World.empty := ⟨ready_init, shows_init⟩

theorem calls_stands (cs : List Call) : ∀ (s : Prog) (w : World), Stands s w → Stays cs →
    ∃ t os, calls s cs = some (t, os) ∧ os.length = cs.length ∧ ∃ w', Stands t w' := by
  induction cs with
  | nil => exact fun s w h _ => ⟨s, [], rfl, rfl, w, h⟩
  | cons c cs ih =>
    intro s w h hst
    obtain ⟨t, o, e, h1⟩ := step_stands h c (hst c (by simp))
    obtain ⟨u, os, e2, e3, h2⟩ := ih t _ h1 (fun x hx => hst x (by simp [hx]))
    refine ⟨u, o :: os, ?_, by simp [e3], h2⟩
    unfold calls
    rw [e]
    simp only [e2]

/-- C109: every call returns, whatever calls there were before. -/
theorem C109_returns (cs : List Call) (hst : Stays cs) : ∃ t os, calls start cs = some (t, os) ∧ os.length = cs.length := by
  obtain ⟨t, os, e, e2, _⟩ := calls_stands cs start _ start_stands hst
  exact ⟨t, os, e, e2⟩

theorem reached_stands {cs : List Call} {t : Prog} {os : List Out} (h : calls start cs = some (t, os)) (hst : Stays cs) :
    ∃ w, Stands t w := by
  obtain ⟨t', os', e, _, w, h2⟩ := calls_stands cs start _ start_stands hst
  rw [h] at e
  injection e with e
  injection e with e _
  subst e
  exact ⟨w, h2⟩

theorem sql_answer {s : Prog} {w : World} (h : Stands s w) (p : Plan) (ok : Bool) :
    (∃ t, step s (.sql p) = some (t, .answer ok)) ↔ (w.ok p || w.misplaced p) = ok := by
  obtain ⟨e, _⟩ := send_stands h p
  have e2 : step s (.sql p) = some ({ s with node := run s.node (ask 0 p) }, .answer (w.ok p || w.misplaced p)) := by
    show execute s p = _
    unfold execute
    rw [e]
  rw [e2]
  constructor
  · rintro ⟨t, ht⟩
    injection ht with ht
    injection ht with _ ht
    injection ht
  · intro ho
    exact ⟨_, by rw [ho]⟩

theorem exists_iff {s : Prog} {w : World} (h : Stands s w) (d c : Nat) : CollExists s d c ↔ w.colls ⟨d, c⟩ = true := by
  unfold CollExists
  rw [sql_answer h]
  simp [World.ok, World.misplaced]

theorem dbExists_iff {s : Prog} {w : World} (h : Stands s w) (d : Nat) : DbExists s d ↔ w.dbs d = true := by
  unfold DbExists
  rw [sql_answer h]
  simp [World.ok, World.misplaced]

/-- A database object of a program that made any calls before it was made, and any since. -/
structure Held (pre : List Call) (d : Nat) (cs : List Call) (h : Nat) (t : Prog) : Prop where
  before : Stays pre
  since : Stays cs
  made : ∃ s os s1 os', calls start pre = some (s, os) ∧ step s (.database d) = some (s1, .object h) ∧ calls s1 cs = some (t, os')

theorem Held.object {pre cs : List Call} {d h : Nat} {t : Prog} (hh : Held pre d cs h t) :
    ∃ w b, Stands t w ∧ t.dbs[h]? = some b ∧ b.db = d ∧ b.listed.Nodup ∧ ∀ x, x ∈ b.listed ↔ Asked cs h x := by
  obtain ⟨s, os, s1, os', h1, h2, h3⟩ := hh.made
  obtain ⟨w, hw⟩ := reached_stands h1 hh.before
  obtain ⟨s1', o', k1, k2⟩ := step_stands hw (.database d) (by simp)
  rw [h2] at k1
  injection k1 with k1
  injection k1 with k1 _
  subst k1
  obtain ⟨t', os'', m1, _, w', m2⟩ := calls_stands cs s1 _ k2 hh.since
  rw [h3] at m1
  injection m1 with m1
  injection m1 with m1 _
  subst m1
  obtain ⟨e, e1, _, _⟩ := database_object h2
  injection e with e
  have hb : s1.dbs[h]? = some ⟨d, []⟩ := by rw [e1, e]; simp
  obtain ⟨b, g1, g2, g3, g4⟩ := calls_object cs s1 h _ _ hb (by simp) hh.since h3
  exact ⟨w', b, m2, g1, g2, g3, fun x => by rw [g4]; simp⟩

theorem length_of {s : Prog} {h : Nat} {b : DbObj} (hb : s.dbs[h]? = some b) : h < s.dbs.length := by
  rcases Nat.lt_or_ge h s.dbs.length with e | e
  · exact e
  · rw [List.getElem?_eq_none e] at hb; exact absurd hb (by simp)

/-- C109: after any calls, dropping a collection by its name is answered with success if and only if it exists; afterwards it does not exist
and is not listed, and no other collection came or went. -/
theorem C109_drop (pre cs : List Call) (d h c : Nat) (s : Prog) (hh : Held pre d cs h s) :
    ∃ t ok, step s (.dropCollection h c) = some (t, .answer ok) ∧ (ok = true ↔ CollExists s d c) ∧ ¬ CollExists t d c ∧
      (∃ l, collectionNames t h = some l ∧ c ∉ l) ∧ ∀ d' c', (d', c') ≠ (d, c) → (CollExists t d' c' ↔ CollExists s d' c') := by
  obtain ⟨w, b, h0, hb, hd, hn, _⟩ := hh.object
  subst hd
  obtain ⟨e, e2⟩ := send_stands (s := { s with dbs := s.dbs.set h ⟨b.db, b.listed.erase c⟩ }) h0 (.dropColl ⟨b.db, c⟩)
  refine ⟨{ s with node := run s.node (ask 0 (.dropColl ⟨b.db, c⟩)), dbs := s.dbs.set h ⟨b.db, b.listed.erase c⟩ },
    w.ok (.dropColl ⟨b.db, c⟩) || w.misplaced (.dropColl ⟨b.db, c⟩), ?_, ?_, ?_, ?_, ?_⟩
  · show dropCollection s h c = _
    unfold dropCollection
    simp only [hb, e]
  · rw [exists_iff h0]
    simp [World.ok, World.misplaced]
  · rw [exists_iff e2]
    unfold World.serve
    by_cases hk : w.colls ⟨b.db, c⟩ = true
    · simp [World.ok, World.after, hk]
    · simp [World.ok, hk]
  · refine ⟨b.listed.erase c, ?_, by rw [hn.mem_erase_iff]; simp⟩
    show ((s.dbs.set h ⟨b.db, b.listed.erase c⟩)[h]?).map DbObj.listed = _
    rw [List.getElem?_set_self (length_of hb)]
    rfl
  · intro d' c' hne
    rw [exists_iff e2, exists_iff h0]
    unfold World.serve
    have hne' : (⟨d', c'⟩ : Coll) ≠ ⟨b.db, c⟩ := fun e => by injection e with e1 e2; exact hne (by rw [e1, e2])
    by_cases hk : w.colls ⟨b.db, c⟩ = true
    · simp [World.ok, World.after, hk, hne']
    · simp [World.ok, hk]

/-- C109: after any calls, asking a database object for a collection gives an object; if the database exists the collection exists
afterwards, whether it did before or not, and no other collection came or went. -/
theorem C109_get (pre cs : List Call) (d h c : Nat) (s : Prog) (hh : Held pre d cs h s) :
    ∃ t i, step s (.collection h c) = some (t, .object i) ∧ t.colls[i]? = some ⟨d, c⟩ ∧ (DbExists s d → CollExists t d c) ∧
      ∀ d' c', (d', c') ≠ (d, c) → (CollExists t d' c' ↔ CollExists s d' c') := by
  obtain ⟨w, b, h0, hb, hd, hn, _⟩ := hh.object
  subst hd
  obtain ⟨e, e2⟩ := send_stands h0 (.createColl ⟨b.db, c⟩)
  refine ⟨{ s with node := run s.node (ask 0 (.createColl ⟨b.db, c⟩)), dbs := s.dbs.set h ⟨b.db, emplace b.listed c⟩, colls := s.colls ++ [⟨b.db, c⟩] },
    s.colls.length, ?_, by simp, ?_, ?_⟩
  · show collection s h c = _
    unfold collection
    simp only [hb, e]
  · intro hx
    rw [dbExists_iff h0] at hx
    have h3 : Stands { s with node := run s.node (ask 0 (.createColl ⟨b.db, c⟩)), dbs := s.dbs.set h ⟨b.db, emplace b.listed c⟩, colls := s.colls ++ [⟨b.db, c⟩] }
      (w.serve (.createColl ⟨b.db, c⟩)).1 := e2
    rw [exists_iff h3]
    unfold World.serve
    by_cases hk : w.colls ⟨b.db, c⟩ = true
    · simp [World.ok, hk]
    · simp [World.ok, World.after, hk, hx]
  · intro d' c' hne
    have h3 : Stands { s with node := run s.node (ask 0 (.createColl ⟨b.db, c⟩)), dbs := s.dbs.set h ⟨b.db, emplace b.listed c⟩, colls := s.colls ++ [⟨b.db, c⟩] }
      (w.serve (.createColl ⟨b.db, c⟩)).1 := e2
    rw [exists_iff h3, exists_iff h0]
    unfold World.serve
    have hne' : (⟨d', c'⟩ : Coll) ≠ ⟨b.db, c⟩ := fun e => by injection e with e1 e2; exact hne (by rw [e1, e2])
    split
    · simp [World.after, hne']
    · rfl

/-! ## When the lists agree with what exists -/

/-- A request that does not shape the database, or creates a database, leaves its collections alone. -/
theorem serve_apart (w : World) (d : Nat) (p : Plan) (hp : shapes p ≠ some d ∨ ∃ x, p = .createDb x) (hd : w.dbs d = true) :
    (w.serve p).1.dbs d = true ∧ ∀ c, (w.serve p).1.colls ⟨d, c⟩ = w.colls ⟨d, c⟩ := by
  unfold World.serve
  split
  · cases p with
    | createDb x => exact ⟨by simp [World.after, hd], fun c => rfl⟩
    | dropDb x =>
      have : d ≠ x := by
        rcases hp with hp | ⟨y, hp⟩
        · exact fun e => hp (by rw [e]; rfl)
        · exact absurd hp (by simp)
      exact ⟨by simp [World.after, hd, this], fun c => by simp [World.after, this]⟩
    | createColl x =>
      have : d ≠ x.db := by
        rcases hp with hp | ⟨y, hp⟩
        · exact fun e => hp (by rw [e]; rfl)
        · exact absurd hp (by simp)
      refine ⟨hd, fun c => ?_⟩
      have h2 : (⟨d, c⟩ : Coll) ≠ x := fun e => this (by rw [← e])
      simp [World.after, h2]
    | dropColl x =>
      have : d ≠ x.db := by
        rcases hp with hp | ⟨y, hp⟩
        · exact fun e => hp (by rw [e]; rfl)
        · exact absurd hp (by simp)
      refine ⟨hd, fun c => ?_⟩
      have h2 : (⟨d, c⟩ : Coll) ≠ x := fun e => this (by rw [← e])
      simp [World.after, h2]
    | insert x l => exact ⟨hd, fun c => rfl⟩
    | delete x l => exact ⟨hd, fun c => rfl⟩
    | update x l => exact ⟨hd, fun c => rfl⟩
    | find x => exact ⟨hd, fun c => rfl⟩
  · exact ⟨hd, fun c => rfl⟩

/-- The database exists, and the object lists its collections. -/
structure Agrees (s : Prog) (w : World) (d h : Nat) : Prop where
  stands : Stands s w
  there : w.dbs d = true
  object : ∃ b, s.dbs[h]? = some b ∧ b.db = d ∧ b.listed.Nodup ∧ ∀ c, c ∈ b.listed ↔ w.colls ⟨d, c⟩ = true

theorem Agrees.step {s : Prog} {w : World} {d h : Nat} (ha : Agrees s w d h) (c : Call) (hp : Polite s d h c) :
    ∃ t o w', Names.step s c = some (t, o) ∧ Agrees t w' d h := by
  have hr : ∀ es, c ≠ .restart es := by
    intro es e
    subst e
    exact hp
  obtain ⟨t, o, e, h1⟩ := step_stands ha.stands c hr
  obtain ⟨b, hb, hd, hn, hl⟩ := ha.object
  obtain ⟨b', g1, g2, g3, g4⟩ := step_object e hr h b hb
  refine ⟨t, o, _, e, h1, ?_, b', g1, g2.trans hd, g3 hn, ?_⟩
  · cases c with
    | restart es => exact absurd rfl (hr es)
    | database x => exact (serve_apart w d _ (Or.inr ⟨x, rfl⟩) ha.there).1
    | sql p => exact (serve_apart w d p (Or.inl hp) ha.there).1
    | drop i =>
      show (served w ((s.colls[i]?).map _)).dbs d = true
      cases hx : s.colls[i]? with
      | none => exact ha.there
      | some x => exact (serve_apart w d _ (Or.inl (by intro e; injection e with e; exact hp x hx e)) ha.there).1
    | collection g n =>
      show (served w ((s.dbs[g]?).map _)).dbs d = true
      cases hx : s.dbs[g]? with
      | none => exact ha.there
      | some q =>
        show (w.serve (.createColl ⟨q.db, n⟩)).1.dbs d = true
        unfold World.serve
        split <;> exact ha.there
    | dropCollection g n =>
      show (served w ((s.dbs[g]?).map _)).dbs d = true
      cases hx : s.dbs[g]? with
      | none => exact ha.there
      | some q =>
        show (w.serve (.dropColl ⟨q.db, n⟩)).1.dbs d = true
        unfold World.serve
        split <;> exact ha.there
  · intro x
    rw [g4 hn, hl]
    cases c with
    | restart es => exact absurd rfl (hr es)
    | database y =>
      show _ ↔ (w.serve (.createDb y)).1.colls ⟨d, x⟩ = true
      rw [(serve_apart w d _ (Or.inr ⟨y, rfl⟩) ha.there).2]
      simp
    | sql p =>
      show _ ↔ (w.serve p).1.colls ⟨d, x⟩ = true
      rw [(serve_apart w d p (Or.inl hp) ha.there).2]
      simp
    | drop i =>
      show _ ↔ (served w ((s.colls[i]?).map _)).colls ⟨d, x⟩ = true
      cases hx : s.colls[i]? with
      | none => simp [served]
      | some y =>
        show _ ↔ (w.serve (.dropColl y)).1.colls ⟨d, x⟩ = true
        rw [(serve_apart w d _ (Or.inl (by intro e; injection e with e; exact hp y hx e)) ha.there).2]
        simp
    | collection g n =>
      show _ ↔ (served w ((s.dbs[g]?).map _)).colls ⟨d, x⟩ = true
      by_cases hg : g = h
      · subst hg
        rw [hb]
        show _ ↔ (w.serve (.createColl ⟨b.db, n⟩)).1.colls ⟨d, x⟩ = true
        rw [hd]
        unfold World.serve
        have hq : (Call.collection g n = Call.collection g x) ↔ x = n := ⟨fun e => by injection e with _ e; exact e.symm, fun e => by rw [e]⟩
        rw [hq]
        have hw : ((⟨d, x⟩ : Coll) = ⟨d, n⟩) ↔ x = n := ⟨fun e => by injection e, fun e => by rw [e]⟩
        split
        · simp [World.after, hw]
        · rename_i hk
          have : w.colls ⟨d, n⟩ = true := by simpa [World.ok, ha.there] using hk
          constructor
          · rintro (rfl | hy)
            · exact this
            · exact hy.1
          · exact fun hy => Or.inr ⟨hy, by simp⟩
      · have hne : Call.collection g n ≠ .collection h x := fun e => by injection e with e _; exact hg e
        cases hx : s.dbs[g]? with
        | none => simp [served, hg]
        | some q =>
          show _ ↔ (w.serve (.createColl ⟨q.db, n⟩)).1.colls ⟨d, x⟩ = true
          rw [(serve_apart w d _ (Or.inl (by intro e; injection e with e; exact (hp.resolve_left hg) q hx e)) ha.there).2]
          simp [hg]
    | dropCollection g n =>
      show _ ↔ (served w ((s.dbs[g]?).map _)).colls ⟨d, x⟩ = true
      by_cases hg : g = h
      · subst hg
        rw [hb]
        show _ ↔ (w.serve (.dropColl ⟨b.db, n⟩)).1.colls ⟨d, x⟩ = true
        rw [hd]
        unfold World.serve
        have hw : ((⟨d, x⟩ : Coll) = ⟨d, n⟩) ↔ x = n := ⟨fun e => by injection e, fun e => by rw [e]⟩
        split
        · have hq : (Call.dropCollection g n ≠ Call.dropCollection g x) ↔ ¬ x = n :=
            ⟨fun e1 e2 => e1 (by rw [e2]), fun e1 e2 => e1 (by injection e2 with _ e2; exact e2.symm)⟩
          rw [hq]
          simp only [World.after, bne_iff_ne, ne_eq, hw, Bool.and_eq_true]
          constructor
          · rintro (hy | hy)
            · exact absurd hy (by simp)
            · exact ⟨hy.2, hy.1⟩
          · exact fun hy => Or.inr ⟨hy.2, hy.1⟩
        · rename_i hk
          have : ¬ w.colls ⟨d, n⟩ = true := hk
          constructor
          · rintro (hy | hy)
            · exact absurd hy (by simp)
            · exact hy.1
          · intro hy
            refine Or.inr ⟨hy, ?_⟩
            intro e
            injection e with _ e
            rw [e] at this
            exact this hy
      · cases hx : s.dbs[g]? with
        | none => simp [served, hg]
        | some q =>
          show _ ↔ (w.serve (.dropColl ⟨q.db, n⟩)).1.colls ⟨d, x⟩ = true
          rw [(serve_apart w d _ (Or.inl (by intro e; injection e with e; exact (hp.resolve_left hg) q hx e)) ha.there).2]
          simp [hg]

theorem calls_agree (cs : List Call) : ∀ (s : Prog) (w : World) (d h : Nat), Agrees s w d h → AllPolite d h s cs →
    ∃ t os w', calls s cs = some (t, os) ∧ Agrees t w' d h := by
  induction cs with
  | nil => exact fun s w d h ha _ => ⟨s, [], w, rfl, ha⟩
  | cons c cs ih =>
    intro s w d h ha hp
    obtain ⟨t, o, w', e, h1⟩ := ha.step c hp.1
    obtain ⟨u, os, w'', e2, h2⟩ := ih t w' d h h1 (hp.2 t o e)
    refine ⟨u, o :: os, w'', ?_, h2⟩
    unfold calls
    rw [e]
    simp only [e2]

/-- C109, the part that holds: if the database had no collections when the object was made, and since then its collections were made and
dropped only through this object, the names listed are those of the collections that exist. -/
theorem C109_names_partial (pre cs : List Call) (s s1 : Prog) (os : List Out) (d h : Nat) (hpre : Stays pre) (h0 : calls start pre = some (s, os))
    (hempty : ∀ c, ¬ CollExists s d c) (h1 : step s (.database d) = some (s1, .object h)) (hp : AllPolite d h s1 cs) :
    ∃ t os' l, calls s1 cs = some (t, os') ∧ collectionNames t h = some l ∧ l.Nodup ∧ ∀ c, c ∈ l ↔ CollExists t d c := by
  obtain ⟨w, hw⟩ := reached_stands h0 hpre
  obtain ⟨s1', o', k1, k2⟩ := step_stands hw (.database d) (by simp)
  rw [h1] at k1
  injection k1 with k1
  injection k1 with k1 _
  subst k1
  obtain ⟨e, e1, _, _⟩ := database_object h1
  injection e with e
  have hb : s1.dbs[h]? = some ⟨d, []⟩ := by rw [e1, e]; simp
  have ha : Agrees s1 (w.serve (.createDb d)).1 d h := by
    refine ⟨k2, ?_, _, hb, rfl, by simp, fun c => ?_⟩
    · unfold World.serve
      by_cases hd : w.dbs d = true
      · simp [World.ok, hd]
      · simp [World.ok, World.after, hd]
    · have hc := hempty c
      rw [exists_iff hw] at hc
      have : (w.serve (.createDb d)).1.colls ⟨d, c⟩ = w.colls ⟨d, c⟩ := by
        unfold World.serve
        split <;> rfl
      rw [this]
      simpa using hc
  obtain ⟨t, os', w', g1, g2⟩ := calls_agree cs s1 _ d h ha hp
  obtain ⟨b, m1, m2, m3, m4⟩ := g2.object
  refine ⟨t, os', b.listed, g1, ?_, m3, fun c => ?_⟩
  · show (t.dbs[h]?).map _ = _
    rw [m1]
    rfl
  · rw [m4, exists_iff g2.stands]

/-- The names listed by object `h` and whether collection `(d, c)` exists, after calls. -/
def shown (cs : List Call) (h d c : Nat) : Option (Option (List Nat) × Option Bool) :=
  (calls start cs).map fun r => (collectionNames r.1 h, match step r.1 (.sql (.find ⟨d, c⟩)) with
    | some (_, .answer ok) => some ok
    | _ => none)

/-- The calls of the examples: two databases, with collections made and dropped through their objects. -/
def some_calls : List Call := [.collection 0 5, .database 2, .collection 1 7, .collection 0 6, .dropCollection 0 5, .sql (.insert ⟨1, 6⟩ [⟨1, 1⟩])]

/-- There is such an object. -/
example : ∃ t, Held [.sql (.createDb 1)] 1 some_calls 0 t := by
  have h : (calls start ([.sql (.createDb 1), .database 1] ++ some_calls)).isSome = true := by decide +kernel
  obtain ⟨r, hr⟩ := Option.isSome_iff_exists.mp h
  obtain ⟨s, o, os, h1, h2, _⟩ := calls_cons hr
  obtain ⟨s1, o1, os1, h3, h4, _⟩ := calls_cons h2
  obtain ⟨e, _⟩ := database_object h3
  refine ⟨r.1, by intro c hc es e; subst e; simp at hc, by intro c hc es e; subst e; simp [some_calls] at hc, s, [o], s1, os1, ?_, ?_, h4⟩
  · unfold calls
    rw [h1]
    rfl
  · have k : s.dbs = [] := by
      have : s = ((step start (.sql (.createDb 1))).get (by rw [h1]; rfl)).1 := by simp only [h1, Option.get_some]
      rw [this]
      rfl
    rw [h3, e, k]
    rfl

/-- These calls are polite, and afterwards the list and what exists are not empty. -/
example : ∃ s1, step start (.database 1) = some (s1, .object 0) ∧ AllPolite 1 0 s1 some_calls ∧
    shown (.database 1 :: some_calls) 0 1 6 = some (some [6], some true) := by
  refine ⟨_, rfl, ⟨Or.inl rfl, ?_⟩, by decide +kernel⟩
  intro t o h1
  injection h1 with h1
  injection h1 with h1 _
  subst h1
  refine ⟨trivial, ?_⟩
  intro t o h1
  injection h1 with h1
  injection h1 with h1 _
  subst h1
  refine ⟨Or.inr ?_, ?_⟩
  · intro o ho
    injection ho with ho
    subst ho
    decide
  intro t o h1
  injection h1 with h1
  injection h1 with h1 _
  subst h1
  refine ⟨Or.inl rfl, ?_⟩
  intro t o h1
  injection h1 with h1
  injection h1 with h1 _
  subst h1
  refine ⟨Or.inl rfl, ?_⟩
  intro t o h1
  injection h1 with h1
  injection h1 with h1 _
  subst h1
  exact ⟨by simp [Polite, shapes], fun _ _ _ => trivial⟩

/-! ## When they do not -/

/-- The full claim: after any calls, a database object lists the collections of its database. -/
def C109_names_claim : Prop := ∀ (cs : List Call) (t : Prog) (os : List Out) (h : Nat) (b : DbObj), calls start cs = some (t, os) →
  t.dbs[h]? = some b → ∀ c, c ∈ b.listed ↔ CollExists t b.db c

/-- A collection dropped through its own object stays in the list. -/
theorem C109_dropped_fails : shown [.database 1, .collection 0 5, .drop 0] 0 1 5 = some (some [5], some false) := by decide +kernel

/-- A second object of the same database lists nothing of the first. -/
theorem C109_second_object_fails : shown [.database 1, .collection 0 5, .database 1] 1 1 5 = some (some [], some true) := by decide +kernel

/-- What is created in a query is not listed. -/
theorem C109_sql_fails : shown [.database 1, .sql (.createColl ⟨1, 5⟩)] 0 1 5 = some (some [], some true) := by decide +kernel

/-- After a new start of the process nothing is listed, although the collection is there. -/
theorem C109_restart_fails :
    shown [.database 1, .collection 0 5, .restart [.agent, .agent, .agent, .agent, .crash], .database 1] 0 1 5 = some (some [], some true) := by
  decide +kernel

/-- A collection asked for in a database that was dropped is listed and does not exist. -/
theorem C109_database_gone_fails :
    shown [.database 1, .sql (.dropDb 1), .collection 0 5] 0 1 5 = some (some [5], some false) := by decide +kernel

/-- A database that was dropped is still listed by the client, and a database made in a query is not. -/
theorem C109_database_names_fails :
    (calls start [.database 1, .sql (.dropDb 1), .sql (.createDb 2)]).map (fun r => (databaseNames r.1,
      (step r.1 (.sql (.dropDb 1))).map Prod.snd, (step r.1 (.sql (.dropDb 2))).map Prod.snd))
      = some ([1], some (.answer false), some (.answer true)) := by
  decide +kernel

theorem C109_fails : ¬ C109_names_claim := by
  intro h
  have e : ∃ t os, calls start [.database 1, .collection 0 5, .drop 0] = some (t, os) := by
    obtain ⟨t, os, e, _⟩ := C109_returns [.database 1, .collection 0 5, .drop 0] (by
      intro c hc es e
      subst e
      simp at hc)
    exact ⟨t, os, e⟩
  obtain ⟨t, os, e⟩ := e
  have hs := C109_dropped_fails
  unfold shown at hs
  rw [e] at hs
  injection hs with hs
  injection hs with h1 h2
  have hb : ∃ b, t.dbs[0]? = some b ∧ b.listed = [5] := by
    have h1' : (t.dbs[0]?).map DbObj.listed = some [5] := h1
    cases hx : t.dbs[0]? with
    | none => rw [hx] at h1'; exact absurd h1' (by simp)
    | some b => rw [hx] at h1'; injection h1' with h1'; exact ⟨b, rfl, h1'⟩
  obtain ⟨b, hb, hl⟩ := hb
  obtain ⟨b', g1, g2, _⟩ := calls_object [.collection 0 5, .drop 0] _ 0 ⟨1, []⟩ (t, os.tail) rfl (by simp)
    (by intro c hc es e; subst e; simp at hc) (by
      obtain ⟨t1, o, os1, k1, k2, k3⟩ := calls_cons e
      have k4 : os = o :: os1 := k3
      rw [k4]
      have : step start (.database 1) = some (t1, o) := k1
      have k5 : t1 = ((step start (.database 1)).get (by rw [this]; rfl)).1 := by simp only [this, Option.get_some]
      rw [k5] at k2
      exact k2)
  have g1' : t.dbs[0]? = some b' := g1
  rw [hb] at g1'
  injection g1' with g1'
  subst g1'
  have hd : b.db = 1 := g2
  have := (h _ t os 0 b e hb 5).1 (by rw [hl]; simp)
  rw [hd] at this
  obtain ⟨u, hu⟩ := this
  simp only [hu] at h2
  exact absurd h2 (by simp)

end Verif.Py.Names
