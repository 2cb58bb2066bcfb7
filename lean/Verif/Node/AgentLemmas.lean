import Verif.Node.CrashLemmas
/-!
The disk agent at work: at every moment the disk holds the documents after the first so many records, the next one perhaps half done.
-/
namespace Verif.Node

/-- The commands of a list of records. -/
def queue (D : Docs) : List Rec → List Cmd
  | [] => []
  | r :: rs => cmdOf D r.plan ++ .fixWal r.id :: queue (play D r.plan) rs

theorem queue_snoc (A : List Rec) : ∀ (D : Docs) (r : Rec),
    queue D (A ++ [r]) = queue D A ++ (cmdOf (plays D (A.map Rec.plan)) r.plan ++ [.fixWal r.id]) := by
  induction A with
  | nil => intro D r; show cmdOf D r.plan ++ [.fixWal r.id] = _; rfl
  | cons a A ih =>
    intro D r
    show cmdOf D a.plan ++ .fixWal a.id :: queue (play D a.plan) (A ++ [r]) = _
    rw [ih]
    show _ = (cmdOf D a.plan ++ .fixWal a.id :: queue (play D a.plan) A) ++ _
    rw [List.append_assoc]
    rfl

/-- A write half done: the documents on the disk and the commands left. -/
inductive Part (D : Docs) : Plan → Docs → List Cmd → Prop
  | fresh (c : Coll) (d : Doc) (h : has d.id (D c) = false) : Part D (.insert c [d]) D [.write c [d]]
  | stored (c : Coll) (d : Doc) : Part D (.insert c [d]) (play D (.insert c [d])) [.write c []]
  | removing (c : Coll) (q : Doc → Bool) (is : List Nat) (h : is <:+ ((D c).filter q).map Doc.id) :
      Part D (.delete c q) (set D c ((D c).filter fun d => !(q d && !is.contains d.id))) [.remove c is]
  | done (p : Plan) : Part D p (play D p) []

theorem play_refused (D : Docs) (c : Coll) (d : Doc) (h : has d.id (D c) = true) : play D (.insert c [d]) = D := by
  show set D c (insertDocs (D c) [d]).1 = D
  unfold insertDocs
  rw [if_pos (by simp [h])]
  exact set_self _ _ _ rfl

theorem play_stored (D : Docs) (c : Coll) (d : Doc) (h : has d.id (D c) = false) : play D (.insert c [d]) = set D c (assign d (D c)) := by
  show set D c (insertDocs (D c) [d]).1 = _
  unfold insertDocs
  rw [if_neg (by simp [h])]
  rfl

theorem part_start (D : Docs) (p : Plan) (hp : Simple p) (hw : p.writes = true) : Part D p D (cmdOf D p) := by
  cases p with
  | insert c ds =>
    obtain ⟨d, rfl⟩ := hp
    show Part D _ D [.write c (insertDocs (D c) [d]).2]
    cases h : has d.id (D c) with
    | true =>
      have e : (insertDocs (D c) [d]).2 = [] := by unfold insertDocs; rw [if_pos (by simp [h])]
      have := Part.stored (D := D) c d
      rw [play_refused D c d h] at this
      rw [e]; exact this
    | false =>
      have e : (insertDocs (D c) [d]).2 = [d] := by unfold insertDocs; rw [if_neg (by simp [h])]
      rw [e]; exact Part.fresh c d h
  | delete c q =>
    show Part D _ D [.remove c (((D c).filter q).map Doc.id)]
    have := Part.removing (D := D) c q _ (List.suffix_refl _)
    have e : set D c ((D c).filter fun d => !(q d && !(((D c).filter q).map Doc.id).contains d.id)) = D := by
      refine set_self _ _ _ ?_
      symm
      rw [List.filter_eq_self]
      intro d hd
      cases hq : q d with
      | false => rfl
      | true =>
        have : (((D c).filter q).map Doc.id).contains d.id = true := by
          rw [List.contains_iff_mem]; exact List.mem_map.mpr ⟨d, List.mem_filter.mpr ⟨hd, hq⟩, rfl⟩
        rw [this]; rfl
    rw [e] at this
    exact this
  | find c => exact absurd hw (by simp [Plan.writes])
  | _ => exact absurd hp (by simp [Simple])

/-- Running the write again ends at the same documents. -/
theorem part_absorb {D X : Docs} {p : Plan} {rest : List Cmd} (h : Part D p X rest) (hp : Simple p) (hw : p.writes = true) : play X p = play D p := by
  cases h with
  | fresh c d h => rfl
  | stored c d =>
    refine play_refused _ c d ?_
    cases hh : has d.id (D c) with
    | true => rw [play_refused D c d hh]; exact hh
    | false => rw [play_stored D c d hh, set_same, has_assign]; simp
  | removing c q is h =>
    show set (set D c _) c ((set D c _ c).filter fun d => !q d) = set D c ((D c).filter fun d => !q d)
    rw [set_same, set_set, List.filter_filter]
    congr 1
    refine List.filter_congr (fun d _ => ?_)
    cases q d <;> simp
  | done =>
    cases p with
    | insert c ds =>
      obtain ⟨d, rfl⟩ := hp
      refine play_refused _ c d ?_
      cases hh : has d.id (D c) with
      | true => rw [play_refused D c d hh]; exact hh
      | false => rw [play_stored D c d hh, set_same, has_assign]; simp
    | delete c q =>
      show set (set D c _) c ((set D c _ c).filter fun d => !q d) = set D c ((D c).filter fun d => !q d)
      rw [set_same, set_set]
      show set D c (((D c).filter fun d => !q d).filter fun d => !q d) = _
      rw [List.filter_filter]
      congr 1
      refine List.filter_congr (fun d _ => ?_)
      cases q d <;> rfl
    | find c => exact absurd hw (by simp [Plan.writes])
    | _ => exact absurd hp (by simp [Simple])

theorem part_done {D X : Docs} {p : Plan} {rest : List Cmd} (h : Part D p X rest) (e : rest = []) : X = play D p := by
  cases h with
  | done => rfl
  | _ => exact absurd e (by simp)

/-- The disk holds the documents `X`. -/
structure DiskAt (s0 : Sys) (X : Docs) (k : Disk) : Prop where
  dbs : k.dbs = s0.disk.dbs
  colls : k.colls = s0.disk.colls
  trees : ∀ c, s0.cat.computes c = true → ∃ t, k.trees c = some t ∧ loadDocs t = X c
  others : ∀ c, s0.cat.computes c = false → X c = []

theorem DiskAt.set {s0 : Sys} {X : Docs} {k : Disk} (h : DiskAt s0 X k) (c : Coll) (hc : s0.cat.computes c = true) (t : List Doc) (l : List Doc) (hl : loadDocs t = l) :
    DiskAt s0 (Node.set X c l) { k with trees := Node.set k.trees c (some t) } := by
  refine ⟨h.dbs, h.colls, ?_, ?_⟩
  · intro x hx
    by_cases e : x = c
    · subst e; exact ⟨t, set_same _ _ _, by rw [set_same]; exact hl⟩
    · obtain ⟨t', h1, h2⟩ := h.trees x hx
      exact ⟨t', (set_other _ _ _ _ e).trans h1, by rw [set_other _ _ _ _ e]; exact h2⟩
  · intro x hx
    have e : x ≠ c := fun e => by rw [e, hc] at hx; exact absurd hx (by simp)
    rw [set_other _ _ _ _ e]; exact h.others x hx

/-- The disk after one command of the agent: the disk and the commands that take its place. -/
def agentDo (k : Disk) : Cmd → Option (Disk × List Cmd)
  | .appendDb d => some ({ k with dbs := if k.dbs.contains d then k.dbs else k.dbs ++ [d] }, [])
  | .appendColl x => some ({ k with
      trees := match k.trees x with | some _ => k.trees | none => set k.trees x (some []),
      colls := if k.dbs.contains x.db then set k.colls x true else k.colls }, [])
  | .removeColl x => some ({ k with trees := set k.trees x none, colls := set k.colls x false }, [])
  | .write _ [] => some (k, [])
  | .write x (d :: ds) => some (k.save x d, [.write x ds])
  | .remove _ [] => some (k, [])
  | .remove x (i :: is) => match k.trees x with
    | none => none
    | some l => some ({ k with trees := set k.trees x (some (l.filter fun d => d.id != i)) }, [.remove x is])
  | .fixWal id => some ({ k with wal := id }, [])

theorem agent_do {s : Sys} {c : Cmd} {cs : List Cmd} (h : s.agent = c :: cs) {k : Disk} {new : List Cmd} (hd : agentDo s.disk c = some (k, new)) :
    agentStep s = { s with disk := k, agent := new ++ cs } := by
  unfold agentStep
  rw [h]
  cases c with
  | appendDb d => injection hd with hd; injection hd with h1 h2; subst h1; subst h2; rfl
  | appendColl x => injection hd with hd; injection hd with h1 h2; subst h1; subst h2; rfl
  | removeColl x => injection hd with hd; injection hd with h1 h2; subst h1; subst h2; rfl
  | fixWal id => injection hd with hd; injection hd with h1 h2; subst h1; subst h2; rfl
  | write x ds =>
    cases ds with
    | nil => injection hd with hd; injection hd with h1 h2; subst h1; subst h2; rfl
    | cons d ds => injection hd with hd; injection hd with h1 h2; subst h1; subst h2; rfl
  | remove x is =>
    cases is with
    | nil => injection hd with hd; injection hd with h1 h2; subst h1; subst h2; rfl
    | cons i is =>
      unfold agentDo at hd
      simp only at hd ⊢
      cases ht : s.disk.trees x with
      | none => rw [ht] at hd; exact absurd hd (by simp)
      | some l =>
        rw [ht] at hd
        injection hd with hd; injection hd with h1 h2; subst h1; subst h2; rfl

theorem agent_nil {s : Sys} (h : s.agent = []) : agentStep s = s := by unfold agentStep; rw [h]

/-- One command of a write. -/
theorem part_step {s0 : Sys} {D X : Docs} {p : Plan} {cmd : Cmd} {rest : List Cmd} {k : Disk} (h : Part D p X (cmd :: rest)) (hk : DiskAt s0 X k)
    (hs : ∀ c, Sorted (D c)) (ha : admit s0.cat p = true) :
    ∃ X' k' new, agentDo k cmd = some (k', new) ∧ Part D p X' (new ++ rest) ∧ DiskAt s0 X' k' ∧ k'.wal = k.wal := by
  cases h with
  | fresh c d hf =>
    have hc : s0.cat.computes c = true := ha
    obtain ⟨t, ht, hl⟩ := hk.trees c hc
    refine ⟨play D (.insert c [d]), k.save c d, [.write c []], rfl, Part.stored c d, ?_, ?_⟩
    · rw [play_stored D c d hf]
      have e : k.save c d = { k with trees := set k.trees c (some (t ++ [d])) } := by unfold Disk.save; rw [ht]
      rw [e]
      refine hk.set c hc _ _ ?_
      rw [loadDocs_snoc, hl]
      unfold emplace
      rw [if_neg (by rw [hf]; simp)]
    · unfold Disk.save; rw [ht]
  | stored c d => exact ⟨_, k, [], rfl, Part.done _, hk, rfl⟩
  | removing c q is hsuf =>
    have hc : s0.cat.computes c = true := ha
    cases is with
    | nil =>
      refine ⟨_, k, [], rfl, ?_, hk, rfl⟩
      have e : (set D c ((D c).filter fun d => !(q d && !([] : List Nat).contains d.id))) = play D (.delete c q) := by
        show _ = set D c ((D c).filter fun d => !q d)
        congr 1
        refine List.filter_congr (fun d _ => ?_)
        simp
      rw [e]; exact Part.done _
    | cons i is =>
      obtain ⟨t, ht, hl⟩ := hk.trees c hc
      rw [set_same] at hl
      have hsuf' : is <:+ ((D c).filter q).map Doc.id := (List.suffix_cons i is).trans hsuf
      refine ⟨set D c ((D c).filter fun d => !(q d && !is.contains d.id)), { k with trees := set k.trees c (some (t.filter fun d => d.id != i)) }, [.remove c is],
        ?_, Part.removing c q is hsuf', ?_, rfl⟩
      · unfold agentDo; simp only [ht]
      · have := hk.set c hc (t.filter fun d => d.id != i) ((D c).filter fun d => !(q d && !is.contains d.id)) ?_
        · rw [set_set] at this; exact this
        · rw [load_filter (fun j => j != i) t, hl, List.filter_filter]
          refine List.filter_congr (fun d hd => ?_)
          have himem : i ∈ ((D c).filter q).map Doc.id := hsuf.subset List.mem_cons_self
          obtain ⟨e, he, hei⟩ := List.mem_map.mp himem
          have he := List.mem_filter.mp he
          have hnd : (i :: is).Nodup := by
            refine hsuf.sublist.nodup ?_
            have := sorted_filter q (hs c)
            unfold Sorted at this
            rw [List.nodup_iff_pairwise_ne, List.pairwise_map]
            exact this.imp (fun {a b} hab => Nat.ne_of_lt hab)
          have hni : i ∉ is := (List.nodup_cons.mp hnd).1
          by_cases hdi : d.id = i
          · have : d = e := sorted_unique (hs c) hd he.1 (hdi.trans hei.symm)
            have hq : q d = true := by rw [this]; exact he.2
            have hcon : is.contains d.id = false := by
              rw [hdi]
              cases hh : is.contains i with
              | false => rfl
              | true => exact absurd (List.contains_iff_mem.mp hh) hni
            rw [hq, hcon, hdi]; simp
          · have h1 : (d.id != i) = true := by simp [hdi]
            have h2 : (i :: is).contains d.id = is.contains d.id := by
              rw [List.contains_cons]; simp [hdi]
            rw [h1, h2, Bool.true_and]

/-- Where the disk agent is. -/
inductive At (s0 : Sys) (A : List Rec) (agent : List Cmd) (k : Disk) : Prop
  | idle (ha : agent = []) (hk : DiskAt s0 (plays (docs s0) (A.map Rec.plan)) k) (hw : k.wal = lastId (s0.log ++ A))
  | busy (A1 : List Rec) (r : Rec) (A3 : List Rec) (rest : List Cmd) (X : Docs) (hA : A = A1 ++ r :: A3)
      (ha : agent = rest ++ .fixWal r.id :: queue (plays (docs s0) ((A1 ++ [r]).map Rec.plan)) A3) (hk : DiskAt s0 X k) (hw : k.wal = lastId (s0.log ++ A1))
      (hp : Part (plays (docs s0) (A1.map Rec.plan)) r.plan X rest)

theorem At.push {s0 : Sys} {A : List Rec} {agent : List Cmd} {k : Disk} (h : At s0 A agent k) (r : Rec) (hp : Simple r.plan) (hw : r.plan.writes = true) :
    At s0 (A ++ [r]) (agent ++ (cmdOf (plays (docs s0) (A.map Rec.plan)) r.plan ++ [.fixWal r.id])) k := by
  cases h with
  | idle ha hk hw' =>
    refine .busy A r [] _ _ rfl ?_ hk hw' (part_start _ _ hp hw)
    rw [ha]; rfl
  | busy A1 r1 A3 rest X hA ha hk hw' hpart =>
    refine .busy A1 r1 (A3 ++ [r]) rest X (by rw [hA]; simp) ?_ hk hw' hpart
    rw [ha, queue_snoc, ← plays_append, ← List.map_append, hA]
    simp

theorem sorted_plays (ps : List Plan) : ∀ D : Docs, (∀ c, Sorted (D c)) → ∀ c, Sorted (plays D ps c) := by
  induction ps with
  | nil => intro D h; exact h
  | cons p ps ih =>
    intro D h
    refine ih (play D p) ?_
    intro c
    unfold play
    cases p.coll with
    | none => exact h c
    | some x =>
      show Sorted (set D x _ c)
      by_cases e : c = x
      · subst e; rw [set_same]; exact sorted_runPlan _ _ (h c)
      · rw [set_other _ _ _ _ e]; exact h c

/-- One step of the disk agent. -/
theorem At.step {s0 s : Sys} {A : List Rec} (h : At s0 A s.agent s.disk) (hs : ∀ c, Sorted (docs s0 c))
    (hA : ∀ r ∈ A, Simple r.plan ∧ r.plan.writes = true ∧ admit s0.cat r.plan = true) :
    ∃ a k, agentStep s = { s with agent := a, disk := k } ∧ At s0 A a k := by
  cases h with
  | idle ha hk hw => exact ⟨s.agent, s.disk, by rw [agent_nil ha], .idle ha hk hw⟩
  | busy A1 r A3 rest X hAe ha hk hw hp =>
    cases rest with
    | nil =>
      have hstep := agent_do (k := { s.disk with wal := r.id }) (new := []) ha rfl
      refine ⟨_, _, hstep, ?_⟩
      have hX : X = plays (docs s0) ((A1 ++ [r]).map Rec.plan) := by
        rw [List.map_append]
        show X = plays (docs s0) (A1.map Rec.plan ++ [r.plan])
        rw [plays_snoc]
        exact part_done hp rfl
      have hk' : DiskAt s0 (plays (docs s0) ((A1 ++ [r]).map Rec.plan)) { s.disk with wal := r.id } := by
        rw [← hX]; exact ⟨hk.dbs, hk.colls, hk.trees, hk.others⟩
      have hw' : r.id = lastId (s0.log ++ (A1 ++ [r])) := by rw [← List.append_assoc, lastId_snoc]
      cases A3 with
      | nil => exact .idle rfl (by rw [hAe]; exact hk') (by rw [hAe]; exact hw')
      | cons r' A3 =>
        obtain ⟨h1, h2, _⟩ := hA r' (by rw [hAe]; simp)
        refine .busy (A1 ++ [r]) r' A3 _ _ (by rw [hAe]; simp) ?_ hk' hw' (part_start _ _ h1 h2)
        show cmdOf _ r'.plan ++ .fixWal r'.id :: queue (play _ r'.plan) A3 = _
        rw [← plays_snoc, List.map_append (l₁ := A1 ++ [r])]
        rfl
    | cons cmd rest =>
      obtain ⟨_, _, hadm⟩ := hA r (by rw [hAe]; simp)
      obtain ⟨X', k', new, h1, h2, h3, h4⟩ := part_step hp hk (sorted_plays _ _ hs) hadm
      refine ⟨_, _, agent_do ha h1, .busy A1 r A3 (new ++ rest) X' hAe ?_ h3 (h4.trans hw) h2⟩
      simp

end Verif.Node
