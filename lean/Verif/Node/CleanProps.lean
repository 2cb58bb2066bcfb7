import Verif.Node.DurLemmas
/-!
C08 without a crash in the middle: when the disk agent has done its work, a restart gives back the collections and their documents.
-/
namespace Verif.Node

/-! ## The work of the disk agent -/

/-- All the removals of a command. -/
def Disk.removes (k : Disk) (c : Coll) : List Nat → Option Disk
  | [] => some k
  | i :: is => match k.trees c with
    | none => none
    | some l => Disk.removes { k with trees := set k.trees c (some (l.filter fun d => d.id != i)) } c is

/-- All the writes of a command. -/
def Disk.saves (k : Disk) (c : Coll) : List Doc → Disk
  | [] => k
  | d :: ds => Disk.saves (k.save c d) c ds

/-- One whole command. -/
def settle1 (k : Disk) : Cmd → Option Disk
  | .appendDb d => some { k with dbs := if k.dbs.contains d then k.dbs else k.dbs ++ [d] }
  | .appendColl x => some { k with
      trees := match k.trees x with | some _ => k.trees | none => set k.trees x (some []),
      colls := if k.dbs.contains x.db then set k.colls x true else k.colls }
  | .removeColl x => some { k with trees := set k.trees x none, colls := set k.colls x false }
  | .write x ds => some (k.saves x ds)
  | .remove x is => k.removes x is
  | .fixWal id => some { k with wal := id }

/-- The disk when all the commands are done. -/
def settle (k : Disk) : List Cmd → Option Disk
  | [] => some k
  | c :: cs => match settle1 k c with
    | some k' => settle k' cs
    | none => none

theorem settle_append (a b : List Cmd) : ∀ k k' : Disk, settle k a = some k' → settle k (a ++ b) = settle k' b := by
  induction a with
  | nil => intro k k' h; injection h with h; rw [h]; rfl
  | cons c cs ih =>
    intro k k' h
    unfold settle at h
    show (match settle1 k c with | some k' => settle k' (cs ++ b) | none => none) = _
    cases h1 : settle1 k c with
    | none => rw [h1] at h; exact absurd h (by simp)
    | some k1 => rw [h1] at h; exact ih k1 k' h

/-- The rest of the node, without queue and disk. -/
def besides (s : Sys) : Sys := { s with agent := [], disk := ⟨[], fun _ => false, fun _ => none, 0⟩ }

theorem agent_settle {s : Sys} {k : Disk} (h : settle s.disk s.agent = some k) :
    besides (agentStep s) = besides s ∧ settle (agentStep s).disk (agentStep s).agent = some k := by
  unfold agentStep
  cases ha : s.agent with
  | nil => rw [ha] at h; exact ⟨rfl, by rw [ha]; exact h⟩
  | cons c cs =>
    rw [ha] at h
    cases c with
    | appendDb d => exact ⟨rfl, h⟩
    | appendColl x => exact ⟨rfl, h⟩
    | removeColl x => exact ⟨rfl, h⟩
    | fixWal id => exact ⟨rfl, h⟩
    | write x ds =>
      cases ds with
      | nil => exact ⟨rfl, h⟩
      | cons d ds => exact ⟨rfl, h⟩
    | remove x is =>
      cases is with
      | nil => exact ⟨rfl, h⟩
      | cons i is =>
        simp only
        cases ht : s.disk.trees x with
        | none =>
          have : settle s.disk (.remove x (i :: is) :: cs) = none := by
            unfold settle settle1 Disk.removes; simp only [ht]
          rw [this] at h
          exact absurd h (by simp)
        | some l =>
          have : settle s.disk (.remove x (i :: is) :: cs) =
              settle { s.disk with trees := set s.disk.trees x (some (l.filter fun d => d.id != i)) } (.remove x is :: cs) := by
            show (match Disk.removes s.disk x (i :: is) with | some k' => settle k' cs | none => none) = _
            unfold Disk.removes
            simp only [ht]
            rfl
          rw [this] at h
          exact ⟨rfl, h⟩

/-! ## Disk and memory agree -/

/-- The disk holds what the memory holds, and notes the last record of the log. -/
structure Synced (k : Disk) (s : Sys) : Prop where
  dbs : ∀ d, k.dbs.contains d = s.cat.dbs d
  colls : k.colls = s.cat.colls
  inside : ∀ c, s.cat.colls c = true → s.cat.dbs c.db = true
  trees : ∀ c, s.cat.colls c = true → ∃ t g, k.trees c = some t ∧ s.mem c = some (g, loadDocs t)
  others : ∀ c, s.cat.colls c = false → k.trees c = none ∧ s.mem c = none
  wal : k.wal = lastId s.log
  ids : ∀ r ∈ s.log, r.id ≤ lastId s.log

theorem lastId_snoc (l : List Rec) (r : Rec) : lastId (l ++ [r]) = r.id := by
  unfold lastId; rw [List.getLast?_append]; rfl

theorem ids_snoc {l : List Rec} (h : ∀ r ∈ l, r.id ≤ lastId l) (n : Nat) (p : Plan) :
    ∀ r ∈ l ++ [⟨lastId l + 1, n, p⟩], r.id ≤ lastId (l ++ [⟨lastId l + 1, n, p⟩]) := by
  intro r hr
  rw [lastId_snoc]
  rcases List.mem_append.mp hr with hr | hr
  · exact Nat.le_succ_of_le (h r hr)
  · rw [List.mem_singleton.mp hr]

theorem saves_tree (x : Coll) (ds : List Doc) : ∀ (k : Disk) (t : List Doc), k.trees x = some t →
    k.saves x ds = { k with trees := set k.trees x (some (t ++ ds)) } := by
  induction ds with
  | nil => intro k t h; unfold Disk.saves; rw [List.append_nil, set_self _ _ _ h]
  | cons d ds ih =>
    intro k t h
    have e : k.save x d = { k with trees := set k.trees x (some (t ++ [d])) } := by unfold Disk.save; rw [h]
    unfold Disk.saves
    rw [e, ih _ (t ++ [d]) (set_same _ _ _), set_set, List.append_assoc]
    rfl

theorem removes_tree (x : Coll) (is : List Nat) : ∀ (k : Disk) (t : List Doc), k.trees x = some t →
    k.removes x is = some { k with trees := set k.trees x (some (t.filter fun d => !is.contains d.id)) } := by
  induction is with
  | nil =>
    intro k t h
    unfold Disk.removes
    have : (t.filter fun d => !([] : List Nat).contains d.id) = t := by simp
    rw [this, set_self _ _ _ h]
  | cons i is ih =>
    intro k t h
    unfold Disk.removes
    simp only [h]
    rw [ih _ (t.filter fun d => d.id != i) (set_same _ _ _), set_set, List.filter_filter]
    congr 4
    refine List.filter_congr (fun d _ => ?_)
    rw [List.contains_cons]
    show (!is.contains d.id && !(d.id == i)) = !(d.id == i || is.contains d.id)
    cases is.contains d.id <;> cases d.id == i <;> rfl

/-- Deleting the documents that match, and deleting the documents with their `_id`s, is the same. -/
theorem filter_ids (p : Doc → Bool) {l : List Doc} (h : Sorted l) :
    (l.filter fun d => !((l.filter p).map Doc.id).contains d.id) = l.filter fun d => !p d := by
  refine List.filter_congr (fun d hd => ?_)
  congr 1
  rw [Bool.eq_iff_iff, List.contains_iff_mem, List.mem_map]
  constructor
  · rintro ⟨e, he, eq⟩
    have he := List.mem_filter.mp he
    have := sorted_unique h he.1 hd eq
    rw [← this]; exact he.2
  · intro hp
    exact ⟨d, List.mem_filter.mpr ⟨hd, hp⟩, rfl⟩

/-- The command of a write leaves on the disk what the write left in memory. -/
theorem settle_write (p : Plan) (x : Coll) (hw : p.writes = true) (hp : Plain p) (hc : p.coll = some x) (k : Disk) (t : List Doc)
    (ht : k.trees x = some t) :
    ∃ t', settle k (runPlan (loadDocs t) p).2 = some { k with trees := set k.trees x (some t') } ∧ loadDocs t' = (runPlan (loadDocs t) p).1 := by
  cases p with
  | insert c ds =>
    injection hc with hc; subst hc
    show ∃ t', settle k [.write c (insertDocs (loadDocs t) ds).2] = _ ∧ _ = (insertDocs (loadDocs t) ds).1
    unfold insertDocs
    split
    · exact ⟨t, by rw [set_self _ _ _ ht]; rfl, rfl⟩
    · rename_i hf
      refine ⟨t ++ ds, ?_, ?_⟩
      · show some (k.saves c ds) = _
        rw [saves_tree c ds k t ht]
      · show loadDocs (t ++ ds) = ds.foldl (fun s d => assign d s) (loadDocs t)
        rw [← emplace_batch ds (loadDocs t) (by simpa using hf) hp]
        unfold loadDocs
        rw [List.foldl_append]
  | delete c q =>
    injection hc with hc; subst hc
    refine ⟨t.filter fun d => !(((loadDocs t).filter q).map Doc.id).contains d.id, ?_, ?_⟩
    · show (match k.removes c (((loadDocs t).filter q).map Doc.id) with | some k' => some k' | none => none) = _
      rw [removes_tree c _ k t ht]
    · rw [load_filter (fun i => !(((loadDocs t).filter q).map Doc.id).contains i) t]
      exact filter_ids q (sorted_load t)
  | update c g => exact absurd hp (by simp [Plain])
  | _ => exact absurd hw (by simp [Plan.writes])

/-- Nothing is under way but commands for the disk, and when they are done the disk agrees with the memory. -/
structure Clean (s : Sys) (w : World) : Prop where
  ready : Ready s
  shows : Shows s w
  disk : ∃ k, settle s.disk s.agent = some k ∧ Synced k s

theorem clean_enter {s : Sys} {k k' : Disk} (hk : settle s.disk s.agent = some k) (cs : List Cmd) (id : Nat)
    (hs : settle k cs = some k') : settle s.disk (s.agent ++ cs ++ [.fixWal id]) = some { k' with wal := id } := by
  rw [List.append_assoc, settle_append _ _ _ _ hk, settle_append _ _ _ _ hs]
  rfl

theorem clean_ask {s : Sys} {w : World} (h : Clean s w) (k : Nat) (p : Plan) (hp : Plain p) (hm : w.misplaced p = false) :
    Clean (run s (ask k p)) (w.serve p).1 := by
  obtain ⟨hr, hw, kd, hk, hy⟩ := h
  obtain ⟨r1, r2, _⟩ := ask_world hr hw k p
  refine ⟨r1, r2, ?_⟩
  have ha := admit_world hw p
  rw [hm, Bool.or_false] at ha
  cases hok : w.ok p with
  | false =>
    rw [hok] at ha
    rw [ask_refused hr k p ha]
    exact ⟨kd, hk, ⟨hy.dbs, hy.colls, hy.inside, hy.trees, hy.others, hy.wal, hy.ids⟩⟩
  | true =>
    rw [hok] at ha
    have hcc : ∀ c, s.cat.computes c = s.cat.colls c := fun c => by rw [hw.computes, hw.colls]
    have write : ∀ x, p.writes = true → p.coll = some x → s.cat.computes x = true →
        ∃ kd, settle (run s (ask k p)).disk (run s (ask k p)).agent = some kd ∧ Synced kd (run s (ask k p)) := by
      intro x hpw hpc hx
      rw [hcc] at hx
      obtain ⟨t, g, ht, hmem⟩ := hy.trees x hx
      obtain ⟨t', hs, hl⟩ := settle_write p x hpw hp hpc kd t ht
      rw [ask_write hr k p x hpw hpc ha g _ hmem]
      refine ⟨{ kd with trees := set kd.trees x (some t'), wal := lastId s.log + 1 }, ?_, ?_⟩
      · exact clean_enter (s := s) hk (runPlan (loadDocs t) p).2 (lastId s.log + 1) hs
      · refine ⟨hy.dbs, hy.colls, hy.inside, ?_, ?_, ?_, ids_snoc hy.ids _ _⟩
        · intro c hc
          show ∃ t'' g', set kd.trees x (some t') c = some t'' ∧ set s.mem x (some (g, (runPlan (loadDocs t) p).1)) c = some (g', loadDocs t'')
          by_cases e : c = x
          · subst e
            exact ⟨t', g, set_same _ _ _, by rw [set_same, hl]⟩
          · rw [set_other _ _ _ _ e, set_other _ _ _ _ e]; exact hy.trees c hc
        · intro c hc
          have e : c ≠ x := fun e => by
            subst e
            have hc : s.cat.colls c = false := hc
            rw [hx] at hc
            exact absurd hc (by simp)
          show set kd.trees x _ c = none ∧ set s.mem x _ c = none
          rw [set_other _ _ _ _ e, set_other _ _ _ _ e]; exact hy.others c hc
        · show lastId s.log + 1 = lastId (s.log ++ [⟨lastId s.log + 1, s.next, p⟩])
          rw [lastId_snoc]
    cases p with
    | createDb d =>
      have hd : s.cat.dbs d = false := by simpa [admit] using ha
      have hdk : kd.dbs.contains d = false := by rw [hy.dbs]; exact hd
      rw [ask_createDb hr k d ha]
      refine ⟨{ kd with dbs := kd.dbs ++ [d], wal := lastId s.log + 1 }, ?_, ?_⟩
      · refine clean_enter (s := s) (k' := { kd with dbs := kd.dbs ++ [d] }) hk [.appendDb d] (lastId s.log + 1) ?_
        show some { kd with dbs := if kd.dbs.contains d then kd.dbs else kd.dbs ++ [d] } = _
        rw [if_neg (by rw [hdk]; simp)]
      · have hcat : s.cat.createNs d = { s.cat with dbs := set s.cat.dbs d true } := by unfold Cat.createNs; rw [if_neg (by rw [hd]; simp)]
        refine ⟨?_, ?_, ?_, ?_, ?_, ?_, ids_snoc hy.ids _ _⟩
        · intro x
          show (kd.dbs ++ [d]).contains x = (s.cat.createNs d).dbs x
          rw [hcat]
          show _ = set s.cat.dbs d true x
          by_cases e : x = d
          · subst e; rw [set_same]; simp
          · rw [set_other _ _ _ _ e, ← hy.dbs x]; simp [e]
        · show kd.colls = (s.cat.createNs d).colls
          rw [hcat]; exact hy.colls
        · intro c hc
          have hc : (s.cat.createNs d).colls c = true := hc
          show (s.cat.createNs d).dbs c.db = true
          rw [hcat] at hc ⊢
          show set s.cat.dbs d true c.db = true
          unfold set
          split
          · rfl
          · exact hy.inside c hc
        · intro c hc
          have hc : (s.cat.createNs d).colls c = true := hc
          rw [hcat] at hc
          exact hy.trees c hc
        · intro c hc
          have hc : (s.cat.createNs d).colls c = false := hc
          rw [hcat] at hc
          exact hy.others c hc
        · show lastId s.log + 1 = lastId (s.log ++ [⟨lastId s.log + 1, s.next, _⟩])
          rw [lastId_snoc]
    | dropDb d => exact absurd hp (by simp [Plain])
    | createColl x =>
      have hdb : s.cat.dbs x.db = true := by rw [hw.dbs]; simpa [World.misplaced] using hm
      have hx : s.cat.colls x = false := by rw [← hcc]; simpa [admit] using ha
      obtain ⟨htx, hmx⟩ := hy.others x hx
      have hcat : s.cat.createTable x = { s.cat with colls := set s.cat.colls x true } := by
        unfold Cat.createTable; rw [if_pos (by rw [hdb, hx]; rfl)]
      rw [ask_createColl hr k x ha]
      refine ⟨{ kd with trees := set kd.trees x (some []), colls := set kd.colls x true, wal := lastId s.log + 1 }, ?_, ?_⟩
      · refine clean_enter (s := s) (k' := { kd with trees := set kd.trees x (some []), colls := set kd.colls x true }) hk [.appendColl x] (lastId s.log + 1) ?_
        show some { kd with trees := match kd.trees x with | some _ => kd.trees | none => set kd.trees x (some []),
                            colls := if kd.dbs.contains x.db then set kd.colls x true else kd.colls } = _
        rw [htx, if_pos (by rw [hy.dbs]; exact hdb)]
      · refine ⟨?_, ?_, ?_, ?_, ?_, ?_, ids_snoc hy.ids _ _⟩
        · intro d
          show kd.dbs.contains d = (s.cat.createTable x).dbs d
          rw [hcat]; exact hy.dbs d
        · show set kd.colls x true = (s.cat.createTable x).colls
          rw [hcat, hy.colls]
        · intro c hc
          have hc : (s.cat.createTable x).colls c = true := hc
          show (s.cat.createTable x).dbs c.db = true
          rw [hcat] at hc ⊢
          by_cases e : c = x
          · subst e; exact hdb
          · exact hy.inside c ((set_other _ _ _ _ e).symm.trans hc)
        · intro c hc
          have hc : (s.cat.createTable x).colls c = true := hc
          rw [hcat] at hc
          show ∃ t g, set kd.trees x (some []) c = some t ∧ (if s.mem x = none then set s.mem x (some (s.gen, [])) else s.mem) c = some (g, loadDocs t)
          rw [if_pos hmx]
          by_cases e : c = x
          · subst e; exact ⟨[], s.gen, set_same _ _ _, set_same _ _ _⟩
          · rw [set_other _ _ _ _ e, set_other _ _ _ _ e]
            exact hy.trees c ((set_other _ _ _ _ e).symm.trans hc)
        · intro c hc
          have hc : (s.cat.createTable x).colls c = false := hc
          rw [hcat] at hc
          have e : c ≠ x := fun e => by
            subst e
            have hc : set s.cat.colls c true c = false := hc
            rw [set_same] at hc
            exact absurd hc (by simp)
          show set kd.trees x (some []) c = none ∧ (if s.mem x = none then set s.mem x (some (s.gen, [])) else s.mem) c = none
          rw [if_pos hmx, set_other _ _ _ _ e, set_other _ _ _ _ e]
          exact hy.others c ((set_other _ _ _ _ e).symm.trans hc)
        · show lastId s.log + 1 = lastId (s.log ++ [⟨lastId s.log + 1, s.next, _⟩])
          rw [lastId_snoc]
    | dropColl x =>
      have hx : s.cat.computes x = true := ha
      have hcat : s.cat.dropTable x = { s.cat with colls := set s.cat.colls x false } := by
        unfold Cat.dropTable; rw [if_pos hx]
      rw [ask_dropColl hr k x ha]
      refine ⟨{ kd with trees := set kd.trees x none, colls := set kd.colls x false, wal := lastId s.log + 1 }, ?_, ?_⟩
      · exact clean_enter (s := s) (k' := { kd with trees := set kd.trees x none, colls := set kd.colls x false }) hk [.removeColl x] (lastId s.log + 1) rfl
      · refine ⟨?_, ?_, ?_, ?_, ?_, ?_, ids_snoc hy.ids _ _⟩
        · intro d
          show kd.dbs.contains d = (s.cat.dropTable x).dbs d
          rw [hcat]; exact hy.dbs d
        · show set kd.colls x false = (s.cat.dropTable x).colls
          rw [hcat, hy.colls]
        · intro c hc
          have hc : (s.cat.dropTable x).colls c = true := hc
          show (s.cat.dropTable x).dbs c.db = true
          rw [hcat] at hc ⊢
          by_cases e : c = x
          · subst e
            have hc : set s.cat.colls c false c = true := hc
            rw [set_same] at hc
            exact absurd hc (by simp)
          · exact hy.inside c ((set_other _ _ _ _ e).symm.trans hc)
        · intro c hc
          have hc : (s.cat.dropTable x).colls c = true := hc
          rw [hcat] at hc
          have hc : set s.cat.colls x false c = true := hc
          have e : c ≠ x := fun e => by
            subst e
            rw [set_same] at hc
            exact absurd hc (by simp)
          show ∃ t g, set kd.trees x none c = some t ∧ set s.mem x none c = some (g, loadDocs t)
          rw [set_other _ _ _ _ e, set_other _ _ _ _ e]
          exact hy.trees c ((set_other _ _ _ _ e).symm.trans hc)
        · intro c hc
          have hc : (s.cat.dropTable x).colls c = false := hc
          rw [hcat] at hc
          have hc : set s.cat.colls x false c = false := hc
          show set kd.trees x none c = none ∧ set s.mem x none c = none
          by_cases e : c = x
          · subst e; exact ⟨set_same _ _ _, set_same _ _ _⟩
          · rw [set_other _ _ _ _ e, set_other _ _ _ _ e]
            exact hy.others c ((set_other _ _ _ _ e).symm.trans hc)
        · show lastId s.log + 1 = lastId (s.log ++ [⟨lastId s.log + 1, s.next, _⟩])
          rw [lastId_snoc]
    | insert x _ => exact write x rfl rfl ha
    | delete x _ => exact write x rfl rfl ha
    | update x _ => exact write x rfl rfl ha
    | find x =>
      rw [ask_find hr k x ha]
      exact ⟨kd, hk, ⟨hy.dbs, hy.colls, hy.inside, hy.trees, hy.others, hy.wal, hy.ids⟩⟩

/-- Only queue and disk differ. -/
theorem clean_besides {s t : Sys} {w : World} (h : Clean s w) (e : besides t = besides s) {k : Disk} (hk : settle s.disk s.agent = some k)
    (hk' : settle t.disk t.agent = some k) : Clean t w := by
  obtain ⟨hr, hw, k0, hk0, hy⟩ := h
  have : k0 = k := by rw [hk] at hk0; injection hk0 with h; exact h.symm
  subst this
  have f : ∀ {α : Type} (π : Sys → α), (∀ u : Sys, π (besides u) = π u) → π t = π s := by
    intro α π hπ
    rw [← hπ t, ← hπ s, e]
  have e1 := f Sys.disp (fun _ => rfl)
  have e2 := f Sys.exec (fun _ => rfl)
  have e3 := f Sys.wal (fun _ => rfl)
  have e4 := f Sys.dead (fun _ => rfl)
  have e5 := f Sys.loading (fun _ => rfl)
  have e6 := f Sys.open' (fun _ => rfl)
  have e7 := f Sys.sessions (fun _ => rfl)
  have e8 := f Sys.cmds (fun _ => rfl)
  have e9 := f Sys.cat (fun _ => rfl)
  have e10 := f Sys.mem (fun _ => rfl)
  have e11 := f Sys.log (fun _ => rfl)
  refine ⟨ready_of hr e1 e2 e3 e4 e5 e6 e7 e8 (by rw [e9, e10]; exact hr.known), ⟨by rw [e9]; exact hw.dbs, by rw [e9]; exact hw.colls, hw.inside⟩,
    k0, hk', ?_⟩
  exact ⟨by rw [e9]; exact hy.dbs, by rw [e9]; exact hy.colls, by rw [e9]; exact hy.inside, by rw [e9, e10]; exact hy.trees,
    by rw [e9, e10]; exact hy.others, by rw [e11]; exact hy.wal, by rw [e11]; exact hy.ids⟩

theorem clean_agent {s : Sys} {w : World} (h : Clean s w) : Clean (step s .agent) w := by
  have h' := h
  obtain ⟨hr, hw, k, hk, hy⟩ := h'
  have : step s .agent = agentStep s := by
    unfold step; simp only; rw [if_neg (by rw [hr.live]; simp)]
  rw [this]
  obtain ⟨h1, h2⟩ := agent_settle hk
  exact clean_besides h h1 hk h2

theorem clean_init : Clean init World.empty :=
  ⟨ready_init, shows_init, init.disk, rfl, ⟨fun _ => rfl, rfl, fun _ h => absurd h (by simp [init]), fun _ h => absurd h (by simp [init]),
    fun _ _ => ⟨rfl, rfl⟩, rfl, fun _ h => absurd h (by simp [init])⟩⟩

/-- The node after some moves. -/
def moves (s : Sys) (ms : List Move) : Sys := run s (ms.flatMap Move.events)

theorem clean_moves (ms : List Move) : ∀ (s : Sys) (w : World), Clean s w → (∀ p ∈ ms.filterMap Move.plan?, Plain p) →
    w.placed (ms.filterMap Move.plan?) → Clean (moves s ms) (w.afterAll (ms.filterMap Move.plan?)) := by
  induction ms with
  | nil => intro s w h _ _; exact h
  | cons m ms ih =>
    intro s w h hp hq
    have e : moves s (m :: ms) = moves (run s m.events) ms := by unfold moves; rw [List.flatMap_cons, run_append]
    rw [e]
    cases m with
    | agent => exact ih _ _ (clean_agent h) hp hq
    | ask k p =>
      have hp' : ∀ x ∈ p :: ms.filterMap Move.plan?, Plain x := hp
      have hq' : w.placed (p :: ms.filterMap Move.plan?) := hq
      exact ih _ _ (clean_ask h k p (hp' p List.mem_cons_self) hq'.1) (fun x hx => hp' x (List.mem_cons_of_mem _ hx)) hq'.2

/-- The restart of a node whose disk agrees with its memory. -/
theorem restart_synced {s : Sys} (hy : Synced s.disk s) :
    (∀ c, docs (restart s) c = docs s c) ∧ (restart s).cat.dbs = s.cat.dbs ∧ (restart s).cat.colls = s.cat.colls ∧
      (restart s).loading = 0 ∧ (restart s).dead = false ∧ (restart s).log = s.log := by
  have hp : pending s = [] := by
    unfold pending
    rw [List.filter_eq_nil_iff]
    intro r hr
    have := hy.ids r hr
    rw [hy.wal]
    simp only [decide_eq_true_eq]
    omega
  have hin : ∀ c, s.cat.colls c = true → s.disk.dbs.contains c.db = true := fun c hc => by rw [hy.dbs]; exact hy.inside c hc
  unfold restart
  simp only
  rw [hp]
  by_cases hd : s.disk.dbs = []
  · have hd' : s.disk.reopen.dbs = [] := hd
    rw [if_pos hd']
    have hnc : ∀ c, s.cat.colls c = false := by
      intro c
      cases hc : s.cat.colls c with
      | false => rfl
      | true => have := hin c hc; rw [hd] at this; exact absurd this (by simp)
    refine ⟨?_, ?_, ?_, rfl, rfl, rfl⟩
    · intro c
      show ([] : List Doc) = docs s c
      unfold docs
      rw [(hy.others c (hnc c)).2]
    · funext d
      show false = s.cat.dbs d
      rw [← hy.dbs, hd]; rfl
    · funext c
      exact (hnc c).symm
  · have hd' : s.disk.reopen.dbs ≠ [] := hd
    rw [if_neg hd']
    have hcolls : (fun c : Coll => s.disk.dbs.contains c.db && s.disk.colls c) = s.cat.colls := by
      funext c
      rw [hy.colls]
      cases hc : s.cat.colls c with
      | false => simp
      | true => rw [hin c hc]; rfl
    refine ⟨?_, ?_, hcolls, rfl, rfl, rfl⟩
    · intro c
      show (match (if s.disk.dbs.contains c.db && s.disk.colls c then some ((s.disk.trees c).getD []) else none).map (fun l => (0, loadDocs l)) with
        | some (_, l) => l
        | none => []) = docs s c
      rw [show (s.disk.dbs.contains c.db && s.disk.colls c) = s.cat.colls c from congrFun hcolls c]
      unfold docs
      cases hc : s.cat.colls c with
      | false => rw [(hy.others c hc).2]; rfl
      | true =>
        obtain ⟨t, g, ht, hm⟩ := hy.trees c hc
        rw [ht, hm]; rfl
    · funext d
      exact hy.dbs d

/-- C08, for a restart after the disk agent has done its work, and histories (of requests that wait for each other) without dropped databases,
updates, batches with repeated `_id`s and collections created in missing databases: the restarted node has the same databases, the same collections and in
each the same documents, and is ready for requests. Missing: `C08_update_fails`, `C08_repeated_id_fails`, C10_restart_fails; for a crash before the disk agent is done see
`C08_crash_partial`. -/
theorem C08_clean_partial (ms : List Move) (hp : ∀ p ∈ ms.filterMap Move.plan?, Plain p) (hq : World.empty.placed (ms.filterMap Move.plan?))
    (ha : (moves init ms).agent = []) :
    (∀ c, docs (run (moves init ms) [.crash]) c = docs (moves init ms) c) ∧
    (run (moves init ms) [.crash]).cat.dbs = (moves init ms).cat.dbs ∧ (run (moves init ms) [.crash]).cat.colls = (moves init ms).cat.colls ∧
    (run (moves init ms) [.crash]).loading = 0 ∧ (run (moves init ms) [.crash]).dead = false ∧ (run (moves init ms) [.crash]).log = (moves init ms).log := by
  obtain ⟨_, _, k, hk, hy⟩ := clean_moves ms init World.empty clean_init hp hq
  rw [ha] at hk
  injection hk with hk
  subst hk
  exact restart_synced hy

/-- A history with agent steps between the requests. -/
def story : List Move := [.ask 0 (.createDb 1), .agent, .ask 1 (.createColl ⟨1, 5⟩), .ask 0 (.insert ⟨1, 5⟩ [⟨1, 10⟩, ⟨2, 20⟩]), .agent, .agent,
  .ask 0 (.insert ⟨1, 5⟩ [⟨2, 21⟩]), .ask 2 (.delete ⟨1, 5⟩ fun d => d.body == 10), .ask 0 (.createColl ⟨1, 6⟩), .ask 0 (.insert ⟨1, 6⟩ [⟨9, 90⟩]),
  .ask 0 (.dropColl ⟨1, 6⟩)] ++ List.replicate 24 .agent

example : (∀ p ∈ story.filterMap Move.plan?, Plain p) ∧ World.empty.placed (story.filterMap Move.plan?) ∧ (moves init story).agent = [] ∧
    docs (moves init story) ⟨1, 5⟩ = [⟨2, 20⟩] ∧ docs (run (moves init story) [.crash]) ⟨1, 5⟩ = [⟨2, 20⟩] := by
  refine ⟨?_, ?_, by decide +kernel, by decide +kernel, by decide +kernel⟩
  · intro p hp
    have e : story.filterMap Move.plan? = [.createDb 1, .createColl ⟨1, 5⟩, .insert ⟨1, 5⟩ [⟨1, 10⟩, ⟨2, 20⟩], .insert ⟨1, 5⟩ [⟨2, 21⟩],
      .delete ⟨1, 5⟩ fun d => d.body == 10, .createColl ⟨1, 6⟩, .insert ⟨1, 6⟩ [⟨9, 90⟩], .dropColl ⟨1, 6⟩] := rfl
    rw [e] at hp
    fin_cases hp <;> simp [Plain]
  · exact ⟨rfl, by decide +kernel, rfl, rfl, rfl, by decide +kernel, rfl, rfl, trivial⟩

end Verif.Node
