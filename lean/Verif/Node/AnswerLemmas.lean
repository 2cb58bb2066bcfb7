import Verif.Node.AnswerSpec
import Verif.Node.LogProps
/-!
The books of the requests: every request sent is waited for or answered once, and a request waited for has a message under way.
-/
namespace Verif.Node

/-- What work for one session may do to the requests. -/
structure Served (s t : Sys) (sid : Sid) : Prop where
  flight : ∀ x, x ≠ sid → x ∈ (view s).flight → x ∈ (view t).flight
  others : ∀ x, x ≠ sid → t.open' x = s.open' x
  next : t.next = s.next
  said : (t.answers = s.answers ∧ t.open' sid = s.open' sid) ∨
    ∃ n p ok, s.open' sid = some (n, p) ∧ t.open' sid = none ∧ t.answers = (n, p, ok) :: s.answers

/-- The client of a session does not wait for nothing. -/
def Kept (t : Sys) (sid : Sid) : Prop := (∃ k, sid = .client k) → t.dead = true ∨ sid ∈ (view t).flight ∨ t.open' sid = none

theorem Served.of_view {s t : Sys} (h : view t = view s) (hn : t.next = s.next) (sid : Sid) : Served s t sid :=
  ⟨fun x _ hx => by rw [h]; exact hx, fun x _ => congrFun (congrArg View.open' h) x, hn, .inl ⟨congrArg View.answers h, congrFun (congrArg View.open' h) sid⟩⟩

theorem Served.refl (s : Sys) (sid : Sid) : Served s s sid := .of_view rfl rfl sid

theorem Served.trans {s t u : Sys} {sid : Sid} (a : Served s t sid) (b : Served t u sid) : Served s u sid := by
  refine ⟨fun x h hx => b.flight x h (a.flight x h hx), fun x h => (b.others x h).trans (a.others x h), b.next.trans a.next, ?_⟩
  rcases a.said with ⟨a1, a2⟩ | ⟨n, p, ok, a1, a2, a3⟩
  · rcases b.said with ⟨b1, b2⟩ | ⟨n, p, ok, b1, b2, b3⟩
    · exact .inl ⟨b1.trans a1, b2.trans a2⟩
    · exact .inr ⟨n, p, ok, a2 ▸ b1, b2, by rw [b3, a1]⟩
  · rcases b.said with ⟨b1, b2⟩ | ⟨n', p', ok', b1, _, _⟩
    · exact .inr ⟨n, p, ok, a1, b2.trans a2, b1.trans a3⟩
    · rw [a2] at b1; exact absurd b1 (by simp)

theorem served_reply (s : Sys) (sid : Sid) (ok : Bool) : Served s (reply s sid ok) sid ∧ (reply s sid ok).open' sid = none := by
  unfold reply
  cases h : s.open' sid with
  | none => exact ⟨⟨fun _ _ hx => hx, fun _ _ => rfl, rfl, .inl ⟨rfl, rfl⟩⟩, h⟩
  | some v =>
    obtain ⟨n, p⟩ := v
    exact ⟨⟨fun _ _ hx => hx, fun x hx => set_other _ _ _ _ hx, rfl, .inr ⟨n, p, ok, h, set_same _ _ _, rfl⟩⟩, set_same _ _ _⟩

theorem served_post (s : Sys) (sid : Sid) (ok : Bool) : Served s (post s sid ok) sid ∧ Kept (post s sid ok) sid :=
  ⟨⟨fun x _ hx => (flight_post s sid ok x).mpr (.inr hx), fun _ _ => rfl, rfl, .inl ⟨rfl, rfl⟩⟩,
   fun _ => .inr (.inl ((flight_post s sid ok sid).mpr (.inl rfl)))⟩

theorem served_toExec (s : Sys) (sid : Sid) (p : Plan) (c : Coll) : Served s (toExec s sid p c) sid ∧ Kept (toExec s sid p c) sid := by
  unfold toExec
  split
  · exact ⟨Served.of_view (by rfl) (by rfl) sid, fun _ => .inl rfl⟩
  · rename_i g _ _
    have hfl : (view { s with exec := s.exec ++ [(sid, g, p)] }).flight = s.disp.map DMsg.sid ++ (s.exec.map Prod.fst ++ [sid] ++ s.wal.map Prod.fst) := by
      show _ ++ ((s.exec ++ [(sid, g, p)]).map Prod.fst ++ _) = _
      rw [List.map_append]; rfl
    refine ⟨⟨fun x _ hx => ?_, fun _ _ => rfl, rfl, .inl ⟨rfl, rfl⟩⟩, fun _ => .inr (.inl ?_)⟩
    · rw [hfl]
      have hx : x ∈ s.disp.map DMsg.sid ++ (s.exec.map Prod.fst ++ s.wal.map Prod.fst) := hx
      simp only [List.mem_append] at hx ⊢
      tauto
    · rw [hfl]; simp

theorem served_memory (s : Sys) (sid : Sid) (p : Plan) : Served s (memory s sid p) sid ∧ Kept (memory s sid p) sid := by
  cases p with
  | createDb d => exact served_post _ _ _
  | dropDb d => exact served_post _ _ _
  | createColl c =>
    unfold memory
    simp only
    split
    · exact served_post _ _ _
    · obtain ⟨a, b⟩ := served_post { s with mem := set s.mem c (some (s.gen, [])), gen := s.gen + 1 } sid true
      exact ⟨(Served.of_view (t := { s with mem := set s.mem c (some (s.gen, [])), gen := s.gen + 1 }) (by rfl) (by rfl) sid).trans a, b⟩
  | dropColl c =>
    unfold memory
    simp only
    split
    · obtain ⟨a, b⟩ := served_post { s with mem := set s.mem c none } sid true
      exact ⟨(Served.of_view (t := { s with mem := set s.mem c none }) (by rfl) (by rfl) sid).trans a, b⟩
    · exact ⟨Served.of_view (by rfl) (by rfl) sid, fun _ => .inl rfl⟩
  | insert c d => exact served_toExec _ _ _ _
  | delete c d => exact served_toExec _ _ _ _
  | update c d => exact served_toExec _ _ _ _
  | find c => exact served_toExec _ _ _ _

theorem served_makeSession (s : Sys) (sid : Sid) (ses : Ses) : Served s (makeSession s sid ses) sid := by
  unfold makeSession
  split
  · exact Served.refl s sid
  · exact ⟨fun _ _ hx => hx, fun _ _ => rfl, rfl, .inl ⟨rfl, rfl⟩⟩

/-- The sessions of clients do not come from the log. -/
def Own (s : Sys) (sid : Sid) (ses : Ses) : Prop := s.sessions sid = some ses ∧ (ses.replay = true → ∃ k, sid = .replay k)

theorem served_done (s : Sys) (sid : Sid) (ses : Ses) (ok : Bool) (h : Own s sid ses) : Served s (done s sid ses ok) sid ∧ Kept (done s sid ses ok) sid := by
  unfold done
  cases hr : ses.replay with
  | true =>
    rw [if_pos rfl]
    refine ⟨Served.of_view (by rfl) (by rfl) sid, fun ⟨k, hk⟩ => ?_⟩
    obtain ⟨j, hj⟩ := h.2 hr
    exact absurd (hk.symm.trans hj) (by simp)
  | false =>
    rw [if_neg (by simp)]
    obtain ⟨a, b⟩ := served_reply s sid ok
    exact ⟨a, fun _ => .inr (.inr b)⟩

theorem next_updateCat (s : Sys) (p : Plan) : (updateCat s p).next = s.next := by
  cases p with
  | insert c d =>
    show (if s.cat.computes c then s else { s with dead := true }).next = s.next
    split <;> rfl
  | _ => rfl

theorem served_walSuccess (s : Sys) (sid : Sid) (id : Nat) (ses : Ses) (h : Own s sid ses) :
    Served s (walSuccess s sid id) sid ∧ Kept (walSuccess s sid id) sid := by
  have e : walSuccess s sid id = (if (updateCat s ses.plan).dead then updateCat s ses.plan
      else if ses.replay then flush (updateCat s ses.plan) sid id else reply (flush (updateCat s ses.plan) sid id) sid true) := by
    unfold walSuccess; rw [h.1]
  rw [e]
  have hv : view (flush (updateCat s ses.plan) sid id) = view s := (view_flush _ _ _).trans (view_updateCat _ _)
  have hn : (flush (updateCat s ses.plan) sid id).next = s.next := next_updateCat s ses.plan
  have hs : Served s (flush (updateCat s ses.plan) sid id) sid := Served.of_view hv hn sid
  by_cases hd : (updateCat s ses.plan).dead = true
  · rw [if_pos hd]
    exact ⟨Served.of_view (view_updateCat _ _) hn sid, fun _ => .inl hd⟩
  · rw [if_neg hd]
    cases hr : ses.replay with
    | true =>
      rw [if_pos rfl]
      refine ⟨hs, fun ⟨k, hk⟩ => ?_⟩
      obtain ⟨j, hj⟩ := h.2 hr
      exact absurd (hk.symm.trans hj) (by simp)
    | false =>
      rw [if_neg (by simp)]
      obtain ⟨a, b⟩ := served_reply (flush (updateCat s ses.plan) sid id) sid true
      exact ⟨hs.trans a, fun _ => .inr (.inr b)⟩

theorem served_logged (s : Sys) (sid : Sid) (ses : Ses) (h : Own s sid ses) : Served s (logged s sid ses) sid ∧ Kept (logged s sid ses) sid := by
  unfold logged
  cases hr : ses.replay with
  | true =>
    rw [if_pos rfl]
    obtain ⟨a, b⟩ := served_walSuccess s sid s.lastWal ses h
    unfold done
    rw [if_pos hr]
    exact ⟨a.trans (Served.of_view (by rfl) (by rfl) sid), b⟩
  | false =>
    rw [if_neg (by simp)]
    have hfl : (view { s with wal := s.wal ++ [(sid, ses.serial, ses.plan)] }).flight =
        s.disp.map DMsg.sid ++ (s.exec.map Prod.fst ++ (s.wal.map Prod.fst ++ [sid])) := by
      show _ ++ (_ ++ (s.wal ++ [(sid, ses.serial, ses.plan)]).map Prod.fst) = _
      rw [List.map_append]; rfl
    refine ⟨⟨fun x _ hx => ?_, fun _ _ => rfl, rfl, .inl ⟨rfl, rfl⟩⟩, fun _ => .inr (.inl ?_)⟩
    · rw [hfl]
      have hx : x ∈ s.disp.map DMsg.sid ++ (s.exec.map Prod.fst ++ s.wal.map Prod.fst) := hx
      simp only [List.mem_append] at hx ⊢
      tauto
    · rw [hfl]; simp

theorem served_finish (s : Sys) (sid : Sid) (ok : Bool) (hb : ∀ ses, s.sessions sid = some ses → ses.replay = true → ∃ k, sid = .replay k) :
    Served s (finishPlan s sid ok) sid ∧ Kept (finishPlan s sid ok) sid := by
  unfold finishPlan
  cases hs : s.sessions sid with
  | none => exact ⟨Served.of_view (by rfl) (by rfl) sid, fun _ => .inl rfl⟩
  | some ses =>
    have ho : Own s sid ses := ⟨hs, hb ses hs⟩
    show Served s (if ok then _ else _) sid ∧ Kept (if ok then _ else _) sid
    cases ok with
    | false => simp only [Bool.false_eq_true, if_false]; exact served_done s sid ses false ho
    | true =>
      simp only [if_true]
      cases hp : ses.plan with
      | createDb d =>
        obtain ⟨a, b⟩ := served_logged (addCmd s sid (.appendDb d)) sid ses ho
        exact ⟨(Served.of_view (view_addCmd _ _ _) rfl sid).trans a, b⟩
      | createColl d =>
        obtain ⟨a, b⟩ := served_logged (addCmd s sid (.appendColl d)) sid ses ho
        exact ⟨(Served.of_view (view_addCmd _ _ _) rfl sid).trans a, b⟩
      | dropColl d =>
        obtain ⟨a, b⟩ := served_logged (addCmd s sid (.removeColl d)) sid ses ho
        exact ⟨(Served.of_view (view_addCmd _ _ _) rfl sid).trans a, b⟩
      | insert c d => exact served_logged s sid ses ho
      | delete c d => exact served_logged s sid ses ho
      | update c d => exact served_logged s sid ses ho
      | dropDb d =>
        obtain ⟨a, b⟩ := served_done { s with cat := s.cat.dropNs d } sid ses true ho
        exact ⟨(Served.of_view (t := { s with cat := s.cat.dropNs d }) (by rfl) (by rfl) sid).trans a, b⟩
      | find c => exact served_done s sid ses true ho

theorem served_execPlan (s : Sys) (sid : Sid) (ses : Ses) (hn : s.sessions sid = none) (hr : ses.replay = true → ∃ k, sid = .replay k) :
    Served s (execPlan s sid ses) sid ∧ Kept (execPlan s sid ses) sid := by
  have e : makeSession s sid ses = { s with sessions := set s.sessions sid (some ses) } := by unfold makeSession; rw [hn]
  have h0 := served_makeSession s sid ses
  unfold execPlan
  show Served s (if admit (makeSession s sid ses).cat ses.plan then _ else _) sid ∧ Kept (if admit (makeSession s sid ses).cat ses.plan then _ else _) sid
  split
  · obtain ⟨a, b⟩ := served_memory (makeSession s sid ses) sid ses.plan
    exact ⟨h0.trans a, b⟩
  · obtain ⟨a, b⟩ := served_finish (makeSession s sid ses) sid false (fun y hy => by
      rw [e] at hy
      have : some ses = some y := (set_same s.sessions sid (some ses)).symm.trans hy
      injection this with this
      exact this ▸ hr)
    exact ⟨h0.trans a, b⟩

/-- Taking the first message of the dispatcher. -/
theorem served_take {s t : Sys} {m : DMsg} {ms : List DMsg} (h : s.disp = m :: ms) (a : Served { s with disp := ms } t m.sid) : Served s t m.sid := by
  refine ⟨fun x hx hf => a.flight x hx ?_, a.others, a.next, a.said⟩
  have hf : x ∈ s.disp.map DMsg.sid ++ (s.exec.map Prod.fst ++ s.wal.map Prod.fst) := hf
  rw [h] at hf
  rcases List.mem_cons.mp hf with hf | hf
  · exact absurd hf hx
  · exact hf

theorem served_disp {s : Sys} (hi : Inv (view s)) {m : DMsg} {ms : List DMsg} (h : s.disp = m :: ms) :
    Served s (dispStep s) m.sid ∧ Kept (dispStep s) m.sid := by
  have hm : m ∈ (view s).disp := by show m ∈ s.disp; rw [h]; exact List.mem_cons_self
  unfold dispStep
  rw [h]
  cases m with
  | plan sid n p =>
    obtain ⟨_, _, c⟩ := hi.fresh sid n p hm
    obtain ⟨a, b⟩ := served_execPlan { s with disp := ms } sid ⟨n, p, false⟩ c (by simp)
    exact ⟨served_take h a, b⟩
  | finish sid ok =>
    obtain ⟨a, b⟩ := served_finish { s with disp := ms } sid ok (fun ses hs => hi.back sid ses hs)
    exact ⟨served_take h a, b⟩
  | walOk sid id =>
    obtain ⟨y, hy, hr, _⟩ := hi.logged sid id hm
    obtain ⟨a, b⟩ := served_walSuccess { s with disp := ms } sid id y ⟨hy, fun e => absurd (hr.symm.trans e) (by simp)⟩
    exact ⟨served_take h a, b⟩

theorem served_exec {s : Sys} {sid : Sid} {g : Nat} {p : Plan} {ms : List (Sid × Nat × Plan)} (h : s.exec = (sid, g, p) :: ms) :
    Served s (execStep s) sid ∧ Kept (execStep s) sid := by
  have key : ∀ t : Sys, Served { s with exec := ms } t sid → Served s t sid := by
    intro t a
    refine ⟨fun x hx hf => a.flight x hx ?_, a.others, a.next, a.said⟩
    have hf : x ∈ s.disp.map DMsg.sid ++ (s.exec.map Prod.fst ++ s.wal.map Prod.fst) := hf
    rw [h] at hf
    show x ∈ s.disp.map DMsg.sid ++ (ms.map Prod.fst ++ s.wal.map Prod.fst)
    simp only [List.map_cons, List.mem_append, List.mem_cons] at hf ⊢
    tauto
  have dead : Served s { s with exec := ms, dead := true } sid ∧ Kept { s with exec := ms, dead := true } sid :=
    ⟨key _ (Served.of_view (by rfl) (by rfl) sid), fun _ => .inl rfl⟩
  unfold execStep
  rw [h]
  show Served s (match p.coll with | none => _ | some c => _) sid ∧ Kept (match p.coll with | none => _ | some c => _) sid
  cases p.coll with
  | none => exact dead
  | some c =>
    show Served s (match s.mem c with | none => _ | some (g', store) => _) sid ∧ Kept (match s.mem c with | none => _ | some (g', store) => _) sid
    cases s.mem c with
    | none => exact dead
    | some v =>
      obtain ⟨g', store⟩ := v
      show Served s (if g' = g then _ else _) sid ∧ Kept (if g' = g then _ else _) sid
      split
      · obtain ⟨a, b⟩ := served_post { s with exec := ms, mem := set s.mem c (some (g, (runPlan store p).1)), cmds := set s.cmds sid (s.cmds sid ++ (runPlan store p).2) } sid true
        exact ⟨key _ ((Served.of_view (by rfl) (by rfl) sid).trans a), b⟩
      · exact dead

theorem served_wal {s : Sys} {sid : Sid} {n : Nat} {p : Plan} {ms : List (Sid × Nat × Plan)} (h : s.wal = (sid, n, p) :: ms) :
    Served s (walStep s) sid ∧ Kept (walStep s) sid := by
  unfold walStep
  rw [h]
  have hfl : ∀ x, x ∈ (view { s with wal := ms, log := s.log ++ [⟨lastId s.log + 1, n, p⟩], disp := s.disp ++ [.walOk sid (lastId s.log + 1)] }).flight ↔
      x = sid ∨ x ∈ s.disp.map DMsg.sid ++ (s.exec.map Prod.fst ++ ms.map Prod.fst) := by
    intro x
    show x ∈ (s.disp ++ [DMsg.walOk sid (lastId s.log + 1)]).map DMsg.sid ++ _ ↔ _
    rw [List.map_append]
    show x ∈ (_ ++ [sid]) ++ (s.exec.map Prod.fst ++ ms.map Prod.fst) ↔ _
    simp only [List.mem_append, List.mem_singleton]
    tauto
  refine ⟨⟨fun x hx hf => (hfl x).mpr (.inr ?_), fun _ _ => rfl, rfl, .inl ⟨rfl, rfl⟩⟩, fun _ => .inr (.inl ((hfl sid).mpr (.inl rfl)))⟩
  have hf : x ∈ s.disp.map DMsg.sid ++ (s.exec.map Prod.fst ++ s.wal.map Prod.fst) := hf
  rw [h] at hf
  simp only [List.map_cons, List.mem_append, List.mem_cons] at hf ⊢
  tauto

theorem view_agent (s : Sys) : view (agentStep s) = view s ∧ (agentStep s).next = s.next := by
  unfold agentStep
  split
  · exact ⟨rfl, rfl⟩
  · split <;> first | exact ⟨rfl, rfl⟩ | (split <;> exact ⟨rfl, rfl⟩)

/-! ## The books -/

/-- The books: the answers given and the requests waited for, among the requests sent. -/
structure Books (s : Sys) (L : List Plan) : Prop where
  next : s.next = L.length
  nodup : (s.answers.map Prod.fst).Nodup
  right : ∀ n p ok, (n, p, ok) ∈ s.answers → L[n]? = some p
  waiting : ∀ sid n p, s.open' sid = some (n, p) → L[n]? = some p ∧ n ∉ s.answers.map Prod.fst
  apart : ∀ x y n p q, s.open' x = some (n, p) → s.open' y = some (n, q) → x = y
  clients : ∀ sid, s.open' sid ≠ none → ∃ k, sid = .client k

theorem Books.served {s t : Sys} {L : List Plan} {sid : Sid} (h : Books s L) (a : Served s t sid) : Books t L := by
  have hsub : ∀ x v, t.open' x = some v → s.open' x = some v := by
    intro x v hv
    by_cases e : x = sid
    · subst e
      rcases a.said with ⟨_, b⟩ | ⟨_, _, _, _, b, _⟩
      · rw [b] at hv; exact hv
      · rw [b] at hv; exact absurd hv (by simp)
    · rw [a.others x e] at hv; exact hv
  have hap : ∀ x y n p q, t.open' x = some (n, p) → t.open' y = some (n, q) → x = y :=
    fun x y n p q hx hy => h.apart x y n p q (hsub _ _ hx) (hsub _ _ hy)
  have hcl : ∀ x, t.open' x ≠ none → ∃ k, x = .client k := by
    intro x hx
    obtain ⟨v, hv⟩ := Option.ne_none_iff_exists'.mp hx
    exact h.clients x (by rw [hsub x v hv]; simp)
  rcases a.said with ⟨b, c⟩ | ⟨n, p, ok, b, c, d⟩
  · refine ⟨a.next.trans h.next, by rw [b]; exact h.nodup, by rw [b]; exact h.right, ?_, hap, hcl⟩
    intro x m q hx
    rw [b]
    exact h.waiting x m q (hsub _ _ hx)
  · obtain ⟨e1, e2⟩ := h.waiting sid n p b
    refine ⟨a.next.trans h.next, ?_, ?_, ?_, hap, hcl⟩
    · rw [d]; exact List.nodup_cons.mpr ⟨e2, h.nodup⟩
    · intro m q o hm
      rw [d] at hm
      rcases List.mem_cons.mp hm with hm | hm
      · injection hm with h1 h2; injection h2 with h2 h3; subst h1; subst h2; exact e1
      · exact h.right m q o hm
    · intro x m q hx
      obtain ⟨f1, f2⟩ := h.waiting x m q (hsub _ _ hx)
      refine ⟨f1, ?_⟩
      rw [d]
      intro hm
      rcases List.mem_cons.mp hm with hm | hm
      · have hm : m = n := hm
        have := h.apart x sid m q p (hsub _ _ hx) (hm ▸ b)
        rw [this, c] at hx
        exact absurd hx (by simp)
      · exact f2 hm

/-- Nobody waits for nothing. -/
def Waits (s : Sys) : Prop := ∀ k, s.open' (.client k) ≠ none → s.dead = true ∨ Sid.client k ∈ (view s).flight

theorem Waits.served {s t : Sys} {sid : Sid} (h : Waits s) (hd : s.dead = false) (a : Served s t sid) (b : Kept t sid) : Waits t := by
  intro k hk
  by_cases e : Sid.client k = sid
  · subst e
    rcases b ⟨k, rfl⟩ with b | b | b
    · exact .inl b
    · exact .inr b
    · exact absurd b hk
  · rw [a.others _ e] at hk
    rcases h k hk with h | h
    · rw [hd] at h; exact absurd h (by simp)
    · exact .inr (a.flight _ e h)

/-- Every request from number `b` on is answered or waited for. -/
def Whole (s : Sys) (b : Nat) : Prop := ∀ n, b ≤ n → n < s.next → n ∈ s.answers.map Prod.fst ∨ ∃ sid p, s.open' sid = some (n, p)

theorem Whole.served {s t : Sys} {sid : Sid} {b : Nat} (h : Whole s b) (a : Served s t sid) : Whole t b := by
  intro n hb hn
  rw [a.next] at hn
  rcases h n hb hn with h | ⟨x, p, h⟩
  · left
    rcases a.said with ⟨c, _⟩ | ⟨_, _, _, _, _, c⟩
    · rw [c]; exact h
    · rw [c]; exact List.mem_cons_of_mem _ h
  · by_cases e : x = sid
    · subst e
      rcases a.said with ⟨_, c⟩ | ⟨m, q, ok, c, _, d⟩
      · exact .inr ⟨x, p, c.trans h⟩
      · left
        rw [d]
        have := c.symm.trans h
        injection this with this
        injection this with this _
        rw [← this]
        exact List.mem_cons_self
    · exact .inr ⟨x, p, (a.others x e).trans h⟩

/-- A request. -/
theorem books_request {s : Sys} {L : List Plan} (h : Books s L) (hw : Waits s) {k : Nat} (p : Plan) (hl : s.loading = 0) (ho : s.open' (.client k) = none) :
    Books (request s k p) (L ++ [p]) ∧ Waits (request s k p) ∧ ∀ b, Whole s b → Whole (request s k p) b := by
  have e : request s k p = { s with open' := set s.open' (.client k) (some (s.next, p)), next := s.next + 1, disp := s.disp ++ [.plan (.client k) s.next p] } := by
    unfold request; rw [if_pos hl, ho]
  rw [e]
  have hlt : ∀ n, n ∈ s.answers.map Prod.fst → n < s.next := by
    intro n hn
    obtain ⟨⟨m, q, o⟩, ha, rfl⟩ := List.mem_map.mp hn
    have := h.right m q o ha
    rw [h.next]
    exact (List.getElem?_eq_some_iff.mp this).1
  have hold : ∀ (n : Nat) (q : Plan), L[n]? = some q → (L ++ [p])[n]? = some q := by
    intro n q hq
    rw [List.getElem?_append_left (List.getElem?_eq_some_iff.mp hq).1]
    exact hq
  refine ⟨⟨by simp [h.next], h.nodup, fun n q o ha => hold n q (h.right n q o ha), ?_, ?_, ?_⟩, ?_, ?_⟩
  · intro x n q hx
    by_cases ex : x = .client k
    · subst ex
      have : some (s.next, p) = some (n, q) := (set_same s.open' (.client k) _).symm.trans hx
      injection this with this
      injection this with h1 h2
      subst h1; subst h2
      refine ⟨by rw [h.next]; simp, fun hn => Nat.lt_irrefl _ (hlt _ hn)⟩
    · obtain ⟨a, b⟩ := h.waiting x n q ((set_other _ _ _ _ ex).symm.trans hx)
      exact ⟨hold _ _ a, b⟩
  · intro x y n q r hx hy
    have lt : ∀ z v, z ≠ Sid.client k → set s.open' (.client k) (some (s.next, p)) z = some (n, v) → n < s.next := by
      intro z v hz hv
      have := (h.waiting z n v ((set_other _ _ _ _ hz).symm.trans hv)).1
      rw [h.next]
      exact (List.getElem?_eq_some_iff.mp this).1
    have eq : ∀ z v, z = Sid.client k → set s.open' (.client k) (some (s.next, p)) z = some (n, v) → n = s.next := by
      intro z v hz hv
      subst hz
      have : some (s.next, p) = some (n, v) := (set_same s.open' (.client k) _).symm.trans hv
      injection this with this
      injection this with this _
      exact this.symm
    by_cases ex : x = .client k
    · by_cases ey : y = .client k
      · exact ex.trans ey.symm
      · have h1 := eq x q ex hx; have h2 := lt y r ey hy; omega
    · by_cases ey : y = .client k
      · have h1 := eq y r ey hy; have h2 := lt x q ex hx; omega
      · exact h.apart x y n q r ((set_other _ _ _ _ ex).symm.trans hx) ((set_other _ _ _ _ ey).symm.trans hy)
  · intro x hx
    by_cases ex : x = .client k
    · exact ⟨k, ex⟩
    · exact h.clients x (fun e' => hx ((set_other _ _ _ _ ex).trans e'))
  · intro j hj
    by_cases ej : Sid.client j = .client k
    · right
      show _ ∈ (s.disp ++ [DMsg.plan (.client k) s.next p]).map DMsg.sid ++ _
      rw [List.map_append, ej]
      exact List.mem_append_left _ (List.mem_append_right _ List.mem_cons_self)
    · rcases hw j (fun e' => hj ((set_other _ _ _ _ ej).trans e')) with a | a
      · exact .inl a
      · right
        have a : _ ∈ s.disp.map DMsg.sid ++ (s.exec.map Prod.fst ++ s.wal.map Prod.fst) := a
        show _ ∈ (s.disp ++ [DMsg.plan (.client k) s.next p]).map DMsg.sid ++ (s.exec.map Prod.fst ++ s.wal.map Prod.fst)
        rw [List.map_append]
        simp only [List.mem_append] at a ⊢
        tauto
  · intro b hb n h1 h2
    rcases Nat.lt_or_ge n s.next with h3 | h3
    · rcases hb n h1 h3 with c | ⟨x, q, c⟩
      · exact .inl c
      · by_cases ex : x = .client k
        · rw [ex, ho] at c; exact absurd c (by simp)
        · exact .inr ⟨x, q, (set_other _ _ _ _ ex).trans c⟩
    · have : n = s.next := by have h2 : n < s.next + 1 := h2; omega
      exact .inr ⟨.client k, p, by rw [this]; exact set_same _ _ _⟩

theorem request_not {s : Sys} {k : Nat} (p : Plan) (h : ¬ CanSend s k) (hd : s.dead = false) : request s k p = s := by
  unfold request
  split
  · rename_i hl
    cases ho : s.open' (.client k) with
    | none => exact absurd ⟨hd, hl, ho⟩ h
    | some _ => rfl
  · rfl

/-- The replay of the log answers no client. -/
theorem books_replay (rs : List Rec) : ∀ (s : Sys) (k : Nat), Inv (view s) → (∀ x, s.open' x = none) →
    (∀ j, k ≤ j → Sid.replay j ∉ (view s).flight ∧ s.sessions (.replay j) = none) →
    (∀ x, (replayFrom s k rs).open' x = none) ∧ (replayFrom s k rs).answers = s.answers ∧ (replayFrom s k rs).next = s.next := by
  induction rs with
  | nil => intro s k _ ho _; exact ⟨ho, rfl, rfl⟩
  | cons r rs ih =>
    intro s k h ho hf
    show (∀ x, (if s.dead then s else replayFrom (execPlan s (.replay k) ⟨r.serial, r.plan, true⟩) (k + 1) rs).open' x = none) ∧
      (if s.dead then s else replayFrom (execPlan s (.replay k) ⟨r.serial, r.plan, true⟩) (k + 1) rs).answers = s.answers ∧
      (if s.dead then s else replayFrom (execPlan s (.replay k) ⟨r.serial, r.plan, true⟩) (k + 1) rs).next = s.next
    split
    · exact ⟨ho, rfl, rfl⟩
    · have hn := near_execPlan s (.replay k) ⟨r.serial, r.plan, true⟩
      obtain ⟨a, _⟩ := served_execPlan s (.replay k) ⟨r.serial, r.plan, true⟩ (hf k (Nat.le_refl k)).2 (fun _ => ⟨k, rfl⟩)
      have ho' : ∀ x, (execPlan s (.replay k) ⟨r.serial, r.plan, true⟩).open' x = none := by
        intro x
        by_cases e : x = .replay k
        · subst e
          rcases a.said with ⟨_, b⟩ | ⟨_, _, _, _, b, _⟩
          · rw [b]; exact ho _
          · exact b
        · rw [a.others x e]; exact ho x
      have ha : (execPlan s (.replay k) ⟨r.serial, r.plan, true⟩).answers = s.answers := by
        rcases a.said with ⟨b, _⟩ | ⟨_, _, _, b, _, _⟩
        · exact b
        · rw [ho] at b; exact absurd b (by simp)
      obtain ⟨b1, b2, b3⟩ := ih _ (k + 1)
        (h.execPlan (.replay k) ⟨r.serial, r.plan, true⟩ (hf k (Nat.le_refl k)).1 (hf k (Nat.le_refl k)).2 (by simp)) ho' (by
          intro j hj
          have hne : Sid.replay j ≠ Sid.replay k := fun e => by injection e with e; omega
          refine ⟨fun hx => (hn.1 _ hx).elim hne (hf j (by omega)).1, ?_⟩
          rw [hn.2 _ hne]
          exact (hf j (by omega)).2)
      exact ⟨b1, b2.trans ha, b3.trans a.next⟩

theorem books_restart {s : Sys} (hi : Inv (view s)) :
    (∀ x, (restart s).open' x = none) ∧ (restart s).answers = s.answers ∧ (restart s).next = s.next := by
  unfold Node.restart
  simp only
  split
  · exact ⟨fun _ => rfl, rfl, rfl⟩
  · exact books_replay _ _ _ (inv_blank _ rfl rfl rfl rfl hi.answered) (fun _ => rfl) (fun j _ => ⟨by simp [View.flight, view, init], rfl⟩)

/-! ## All steps -/

/-- What holds in every state. -/
structure State (s : Sys) (L : List Plan) : Prop where
  inv : Inv (view s)
  books : Books s L
  waits : Waits s

theorem State.dispStep {s : Sys} {L : List Plan} (h : State s L) (hd : s.dead = false) :
    State (dispStep s) L ∧ ∀ b, Whole s b → Whole (dispStep s) b := by
  cases hm : s.disp with
  | nil =>
    have : Node.dispStep s = s := by unfold Node.dispStep; rw [hm]
    rw [this]; exact ⟨h, fun _ x => x⟩
  | cons m ms =>
    obtain ⟨a, b⟩ := served_disp h.inv hm
    exact ⟨⟨h.inv.disp, h.books.served a, h.waits.served hd a b⟩, fun _ x => x.served a⟩

theorem State.execStep {s : Sys} {L : List Plan} (h : State s L) (hd : s.dead = false) :
    State (execStep s) L ∧ ∀ b, Whole s b → Whole (execStep s) b := by
  cases hm : s.exec with
  | nil =>
    have : Node.execStep s = s := by unfold Node.execStep; rw [hm]
    rw [this]; exact ⟨h, fun _ x => x⟩
  | cons m ms =>
    obtain ⟨a, b⟩ := served_exec hm
    exact ⟨⟨h.inv.execStep, h.books.served a, h.waits.served hd a b⟩, fun _ x => x.served a⟩

theorem State.walStep {s : Sys} {L : List Plan} (h : State s L) (hd : s.dead = false) :
    State (walStep s) L ∧ ∀ b, Whole s b → Whole (walStep s) b := by
  cases hm : s.wal with
  | nil =>
    have : Node.walStep s = s := by unfold Node.walStep; rw [hm]
    rw [this]; exact ⟨h, fun _ x => x⟩
  | cons m ms =>
    obtain ⟨a, b⟩ := served_wal hm
    exact ⟨⟨h.inv.walStep, h.books.served a, h.waits.served hd a b⟩, fun _ x => x.served a⟩

theorem State.agentStep {s : Sys} {L : List Plan} (h : State s L) (hd : s.dead = false) :
    State (agentStep s) L ∧ ∀ b, Whole s b → Whole (agentStep s) b := by
  have a : Served s (Node.agentStep s) (.replay 0) := Served.of_view (view_agent s).1 (view_agent s).2 _
  exact ⟨⟨by rw [(view_agent s).1]; exact h.inv, h.books.served a, h.waits.served hd a (fun ⟨k, hk⟩ => absurd hk (by simp))⟩, fun _ x => x.served a⟩

theorem State.restart {s : Sys} {L : List Plan} (h : State s L) : State (restart s) L ∧ Whole (restart s) L.length := by
  obtain ⟨a, b, c⟩ := books_restart h.inv
  refine ⟨⟨h.inv.restart, ⟨c.trans h.books.next, by rw [b]; exact h.books.nodup, by rw [b]; exact h.books.right, ?_, ?_, ?_⟩, ?_⟩, ?_⟩
  · intro x n p hx; rw [a] at hx; exact absurd hx (by simp)
  · intro x y n p q hx; rw [a] at hx; exact absurd hx (by simp)
  · intro x hx; exact absurd (a x) hx
  · intro k hk; exact absurd (a _) hk
  · intro n h1 h2; rw [c, h.books.next] at h2; omega

open Classical in
/-- One event, whatever it is. -/
theorem State.step {s : Sys} {L : List Plan} (h : State s L) (e : Event) :
    State (step s e) (L ++ sentFrom s [e]) ∧ (e ≠ .crash → ∀ b, Whole s b → Whole (step s e) b) ∧ (e = .crash → Whole (step s e) L.length) := by
  by_cases hc : e = .crash
  · subst hc
    have : sentFrom s [.crash] = [] := rfl
    rw [this, List.append_nil]
    exact ⟨h.restart.1, fun x => absurd rfl x, fun _ => h.restart.2⟩
  · by_cases hd : s.dead = true
    · have e1 : Node.step s e = s := by cases e <;> first | exact absurd rfl hc | (unfold Node.step; simp only [hd, if_true])
      have e2 : sentFrom s [e] = [] := by
        cases e with
        | request k p =>
          show (if CanSend s k then [p] else []) ++ [] = []
          rw [if_neg (fun x => by rw [x.1] at hd; exact absurd hd (by simp))]; rfl
        | _ => rfl
      rw [e1, e2, List.append_nil]
      exact ⟨h, fun _ _ x => x, fun x => absurd x hc⟩
    · have hd : s.dead = false := by simpa using hd
      cases e with
      | crash => exact absurd rfl hc
      | request k p =>
        have e1 : Node.step s (.request k p) = request s k p := by unfold Node.step; simp only [hd, Bool.false_eq_true, if_false]
        have e2 : sentFrom s [.request k p] = (if CanSend s k then [p] else []) := by
          show (if CanSend s k then [p] else []) ++ [] = _; rw [List.append_nil]
        rw [e1, e2]
        by_cases hk : CanSend s k
        · rw [if_pos hk]
          obtain ⟨a, b, c⟩ := books_request h.books h.waits p hk.2.1 hk.2.2
          exact ⟨⟨h.inv.request k p, a, b⟩, fun _ => c, fun x => absurd x hc⟩
        · rw [if_neg hk, List.append_nil, request_not p hk hd]
          exact ⟨h, fun _ _ x => x, fun x => absurd x hc⟩
      | disp =>
        have e1 : Node.step s .disp = Node.dispStep s := by unfold Node.step; simp only [hd, Bool.false_eq_true, if_false]
        have e2 : sentFrom s [.disp] = [] := rfl
        rw [e1, e2, List.append_nil]
        exact ⟨(h.dispStep hd).1, fun _ => (h.dispStep hd).2, fun x => absurd x hc⟩
      | exec =>
        have e1 : Node.step s .exec = Node.execStep s := by unfold Node.step; simp only [hd, Bool.false_eq_true, if_false]
        have e2 : sentFrom s [.exec] = [] := rfl
        rw [e1, e2, List.append_nil]
        exact ⟨(h.execStep hd).1, fun _ => (h.execStep hd).2, fun x => absurd x hc⟩
      | wal =>
        have e1 : Node.step s .wal = Node.walStep s := by unfold Node.step; simp only [hd, Bool.false_eq_true, if_false]
        have e2 : sentFrom s [.wal] = [] := rfl
        rw [e1, e2, List.append_nil]
        exact ⟨(h.walStep hd).1, fun _ => (h.walStep hd).2, fun x => absurd x hc⟩
      | agent =>
        have e1 : Node.step s .agent = Node.agentStep s := by unfold Node.step; simp only [hd, Bool.false_eq_true, if_false]
        have e2 : sentFrom s [.agent] = [] := rfl
        rw [e1, e2, List.append_nil]
        exact ⟨(h.agentStep hd).1, fun _ => (h.agentStep hd).2, fun x => absurd x hc⟩

theorem sentFrom_append (es : List Event) : ∀ (s : Sys) (es' : List Event), sentFrom s (es ++ es') = sentFrom s es ++ sentFrom (run s es) es' := by
  induction es with
  | nil => intro s es'; rfl
  | cons e es ih =>
    intro s es'
    have hr : run s (e :: es) = run (step s e) es := rfl
    cases e with
    | request k p =>
      show _ ++ sentFrom (step s (.request k p)) (es ++ es') = (_ ++ sentFrom (step s (.request k p)) es) ++ _
      rw [ih, hr, List.append_assoc]
    | _ => rw [hr]; exact ih _ _

theorem sentFrom_cons (s : Sys) (e : Event) (es : List Event) : sentFrom s (e :: es) = sentFrom s [e] ++ sentFrom (step s e) es :=
  sentFrom_append [e] s es

theorem State.run (es : List Event) : ∀ {s : Sys} {L : List Plan}, State s L → State (run s es) (L ++ sentFrom s es) := by
  induction es with
  | nil => intro s L h; rw [show sentFrom s [] = [] from rfl, List.append_nil]; exact h
  | cons e es ih =>
    intro s L h
    rw [sentFrom_cons, ← List.append_assoc]
    exact ih (h.step e).1

theorem whole_run (es : List Event) : ∀ {s : Sys} {L : List Plan} {b : Nat}, State s L → Event.crash ∉ es → Whole s b → Whole (run s es) b := by
  induction es with
  | nil => intro s L b _ _ h; exact h
  | cons e es ih =>
    intro s L b h hc hw
    exact ih (h.step e).1 (fun x => hc (List.mem_cons_of_mem _ x)) ((h.step e).2.1 (fun x => hc (x ▸ List.mem_cons_self)) b hw)

theorem state_init : State init [] :=
  ⟨inv_init, ⟨rfl, List.nodup_nil, fun _ _ _ h => absurd h (by simp [init]), fun _ _ _ h => absurd h (by simp [init]), fun _ _ _ _ _ h => absurd h (by simp [init]),
    fun _ h => absurd rfl h⟩, fun _ h => absurd rfl h⟩

theorem whole_init : Whole init 0 := fun _ _ h => absurd h (Nat.not_lt_zero _)

theorem state_run (es : List Event) : State (run init es) (sent es) := by
  have := State.run es state_init
  rwa [List.nil_append] at this

/-! ## Progress -/

/-- How many steps a message may lead to. -/
def DMsg.weight : DMsg → Nat
  | .plan _ _ _ => 5
  | .finish _ _ => 3
  | .walOk _ _ => 1

/-- How many steps the messages under way may lead to. -/
def weight (s : Sys) : Nat := (s.disp.map DMsg.weight).sum + 4 * s.exec.length + 2 * s.wal.length

theorem weight_view {s t : Sys} (h : view t = view s) : weight t = weight s := by
  have h1 : t.disp = s.disp := congrArg View.disp h
  have h2 : t.exec.map Prod.fst = s.exec.map Prod.fst := congrArg View.exec h
  have h2 : t.exec.length = s.exec.length := by simpa using congrArg List.length h2
  have h3 : t.wal = s.wal := congrArg View.wal h
  unfold weight
  rw [h1, h2, h3]

theorem weight_reply (s : Sys) (sid : Sid) (ok : Bool) : weight (reply s sid ok) = weight s := by
  unfold reply
  cases s.open' sid with
  | none => rfl
  | some v => rfl

theorem weight_done (s : Sys) (sid : Sid) (ses : Ses) (ok : Bool) : weight (done s sid ses ok) = weight s := by
  unfold done
  split
  · rfl
  · exact weight_reply _ _ _

theorem weight_post (s : Sys) (sid : Sid) (ok : Bool) : weight (post s sid ok) = weight s + 3 := by
  show ((s.disp ++ [DMsg.finish sid ok]).map DMsg.weight).sum + 4 * s.exec.length + 2 * s.wal.length = _
  rw [List.map_append, List.sum_append]
  show _ + (3 + 0) + _ + _ = _
  unfold weight
  omega

theorem weight_walSuccess (s : Sys) (sid : Sid) (id : Nat) : weight (walSuccess s sid id) = weight s := by
  unfold walSuccess
  cases s.sessions sid with
  | none => rfl
  | some ses =>
    show weight (if (updateCat s ses.plan).dead then updateCat s ses.plan
      else if ses.replay then flush (updateCat s ses.plan) sid id else reply (flush (updateCat s ses.plan) sid id) sid true) = _
    have hv : weight (flush (updateCat s ses.plan) sid id) = weight s := weight_view ((view_flush _ _ _).trans (view_updateCat _ _))
    split
    · exact weight_view (view_updateCat _ _)
    · split
      · exact hv
      · rw [weight_reply]; exact hv

theorem weight_logged (s : Sys) (sid : Sid) (ses : Ses) : weight (logged s sid ses) ≤ weight s + 2 := by
  unfold logged
  split
  · rw [weight_done, weight_walSuccess]; omega
  · show (s.disp.map DMsg.weight).sum + 4 * s.exec.length + 2 * (s.wal ++ [(sid, ses.serial, ses.plan)]).length ≤ _
    rw [List.length_append]
    unfold weight
    simp only [List.length_cons, List.length_nil]
    omega

theorem weight_finish (s : Sys) (sid : Sid) (ok : Bool) : weight (finishPlan s sid ok) ≤ weight s + 2 := by
  unfold finishPlan
  cases s.sessions sid with
  | none => exact Nat.le_add_right _ _
  | some ses =>
    show weight (if ok then _ else _) ≤ _
    cases ok with
    | false => simp only [Bool.false_eq_true, if_false]; rw [weight_done]; omega
    | true =>
      simp only [if_true]
      cases ses.plan with
      | createDb d => exact weight_logged (addCmd s sid _) sid ses
      | createColl d => exact weight_logged (addCmd s sid _) sid ses
      | dropColl d => exact weight_logged (addCmd s sid _) sid ses
      | insert c d => exact weight_logged s sid ses
      | delete c d => exact weight_logged s sid ses
      | update c d => exact weight_logged s sid ses
      | dropDb d => simp only; rw [weight_done]; exact Nat.le_add_right _ _
      | find c => simp only; rw [weight_done]; omega

theorem weight_toExec (s : Sys) (sid : Sid) (p : Plan) (c : Coll) : weight (toExec s sid p c) ≤ weight s + 4 := by
  unfold toExec
  split
  · exact Nat.le_add_right _ _
  · rename_i g _ _
    show (s.disp.map DMsg.weight).sum + 4 * (s.exec ++ [(sid, g, p)]).length + 2 * s.wal.length ≤ _
    rw [List.length_append]
    unfold weight
    simp only [List.length_cons, List.length_nil]
    omega

theorem weight_memory (s : Sys) (sid : Sid) (p : Plan) : weight (memory s sid p) ≤ weight s + 4 := by
  have hp : ∀ t : Sys, weight t = weight s → weight (post t sid true) ≤ weight s + 4 := fun t ht => by rw [weight_post, ht]; omega
  cases p with
  | createDb d => exact hp s rfl
  | dropDb d => exact hp s rfl
  | createColl c =>
    unfold memory
    simp only
    split
    · exact hp s rfl
    · exact hp { s with mem := _, gen := _ } rfl
  | dropColl c =>
    unfold memory
    simp only
    split
    · exact hp { s with mem := _ } rfl
    · exact Nat.le_add_right _ _
  | insert c d => exact weight_toExec _ _ _ _
  | delete c d => exact weight_toExec _ _ _ _
  | update c d => exact weight_toExec _ _ _ _
  | find c => exact weight_toExec _ _ _ _

theorem weight_execPlan (s : Sys) (sid : Sid) (ses : Ses) : weight (execPlan s sid ses) ≤ weight s + 4 := by
  have h0 : weight (makeSession s sid ses) = weight s := by unfold makeSession; split <;> rfl
  unfold execPlan
  show weight (if admit (makeSession s sid ses).cat ses.plan then _ else _) ≤ _
  split
  · rw [← h0]; exact weight_memory _ _ _
  · have := weight_finish (makeSession s sid ses) sid false
    omega

theorem weight_disp {s : Sys} (h : s.disp ≠ []) : weight (dispStep s) < weight s := by
  cases hm : s.disp with
  | nil => exact absurd hm h
  | cons m ms =>
    have hw : weight s = m.weight + weight { s with disp := ms } := by
      unfold weight
      rw [hm]
      simp only [List.map_cons, List.sum_cons]
      omega
    unfold dispStep
    rw [hm]
    cases m with
    | plan sid n p =>
      have := weight_execPlan { s with disp := ms } sid ⟨n, p, false⟩
      rw [hw]
      show weight (execPlan { s with disp := ms } sid ⟨n, p, false⟩) < 5 + _
      omega
    | finish sid ok =>
      have := weight_finish { s with disp := ms } sid ok
      rw [hw]
      show weight (finishPlan { s with disp := ms } sid ok) < 3 + _
      omega
    | walOk sid id =>
      have := weight_walSuccess { s with disp := ms } sid id
      rw [hw]
      show weight (walSuccess { s with disp := ms } sid id) < 1 + _
      omega

theorem weight_exec {s : Sys} (h : s.exec ≠ []) : weight (execStep s) < weight s ∧ ∃ l, (execStep s).disp = s.disp ++ l := by
  cases hm : s.exec with
  | nil => exact absurd hm h
  | cons m ms =>
    obtain ⟨sid, g, p⟩ := m
    have hw : weight s = 4 + weight { s with exec := ms } := by
      unfold weight
      rw [hm]
      simp only [List.length_cons]
      omega
    have dead : weight { s with exec := ms, dead := true } < weight s ∧ ∃ l, s.disp = s.disp ++ l := by
      refine ⟨?_, [], (List.append_nil _).symm⟩
      rw [hw]
      show weight { s with exec := ms } < _
      omega
    unfold execStep
    rw [hm]
    show weight (match p.coll with | none => _ | some c => _) < _ ∧ ∃ l, (match p.coll with | none => _ | some c => _ : Sys).disp = _
    cases p.coll with
    | none => exact dead
    | some c =>
      show weight (match s.mem c with | none => _ | some (g', store) => _) < _ ∧ ∃ l, (match s.mem c with | none => _ | some (g', store) => _ : Sys).disp = _
      cases s.mem c with
      | none => exact dead
      | some v =>
        obtain ⟨g', store⟩ := v
        show weight (if g' = g then _ else _) < _ ∧ ∃ l, (if g' = g then _ else _ : Sys).disp = _
        split
        · refine ⟨?_, [.finish sid true], rfl⟩
          rw [weight_post, hw]
          show weight { s with exec := ms } + 3 < _
          omega
        · exact dead

theorem weight_wal {s : Sys} (h : s.wal ≠ []) : weight (walStep s) < weight s := by
  cases hm : s.wal with
  | nil => exact absurd hm h
  | cons m ms =>
    obtain ⟨sid, n, p⟩ := m
    unfold walStep
    rw [hm]
    show ((s.disp ++ [DMsg.walOk sid (lastId s.log + 1)]).map DMsg.weight).sum + 4 * s.exec.length + 2 * ms.length < _
    rw [List.map_append, List.sum_append]
    show _ + (1 + 0) + _ + _ < _
    unfold weight
    rw [hm]
    simp only [List.length_cons]
    omega

/-- The turn of an actor other than the clients. -/
def Turn (e : Event) : Prop := e = .disp ∨ e = .exec ∨ e = .wal ∨ e = .agent

/-- The mailbox of an actor has a message. -/
def Busy (s : Sys) : Event → Prop
  | .disp => s.disp ≠ []
  | .exec => s.exec ≠ []
  | .wal => s.wal ≠ []
  | _ => False

theorem turn_le (s : Sys) (e : Event) (h : Turn e) : weight (step s e) ≤ weight s := by
  by_cases hd : s.dead = true
  · have : step s e = s := by rcases h with h | h | h | h <;> (subst h; unfold step; simp only [hd, if_true])
    rw [this]; exact Nat.le_refl _
  · have hd : s.dead = false := by simpa using hd
    rcases h with h | h | h | h <;> subst h
    · have e1 : step s .disp = dispStep s := by unfold step; simp only [hd, Bool.false_eq_true, if_false]
      rw [e1]
      by_cases hm : s.disp = []
      · have : dispStep s = s := by unfold dispStep; rw [hm]
        rw [this]; exact Nat.le_refl _
      · exact Nat.le_of_lt (weight_disp hm)
    · have e1 : step s .exec = execStep s := by unfold step; simp only [hd, Bool.false_eq_true, if_false]
      rw [e1]
      by_cases hm : s.exec = []
      · have : execStep s = s := by unfold execStep; rw [hm]
        rw [this]; exact Nat.le_refl _
      · exact Nat.le_of_lt (weight_exec hm).1
    · have e1 : step s .wal = walStep s := by unfold step; simp only [hd, Bool.false_eq_true, if_false]
      rw [e1]
      by_cases hm : s.wal = []
      · have : walStep s = s := by unfold walStep; rw [hm]
        rw [this]; exact Nat.le_refl _
      · exact Nat.le_of_lt (weight_wal hm)
    · have e1 : step s .agent = agentStep s := by unfold step; simp only [hd, Bool.false_eq_true, if_false]
      rw [e1, weight_view (view_agent s).1]; exact Nat.le_refl _

theorem turn_lt (s : Sys) (e : Event) (hb : Busy s e) (hd : s.dead = false) : weight (step s e) < weight s := by
  cases e with
  | disp =>
    have e1 : step s .disp = dispStep s := by unfold step; simp only [hd, Bool.false_eq_true, if_false]
    rw [e1]; exact weight_disp hb
  | exec =>
    have e1 : step s .exec = execStep s := by unfold step; simp only [hd, Bool.false_eq_true, if_false]
    rw [e1]; exact (weight_exec hb).1
  | wal =>
    have e1 : step s .wal = walStep s := by unfold step; simp only [hd, Bool.false_eq_true, if_false]
    rw [e1]; exact weight_wal hb
  | _ => exact hb.elim

/-- A dead process stays dead. -/
theorem dead_turn {s : Sys} (h : s.dead = true) (e : Event) (hc : e ≠ .crash) : step s e = s := by
  cases e <;> first | exact absurd rfl hc | (unfold step; simp only [h, if_true])

theorem dead_run (r : List Event) : ∀ {s : Sys}, s.dead = true → Event.crash ∉ r → run s r = s := by
  induction r with
  | nil => intro s _ _; rfl
  | cons e r ih =>
    intro s h hc
    show run (step s e) r = s
    rw [dead_turn h e (fun x => hc (x ▸ List.mem_cons_self))]
    exact ih h (fun x => hc (List.mem_cons_of_mem _ x))

theorem turns_le (r : List Event) : ∀ (s : Sys), (∀ e ∈ r, Turn e) → weight (run s r) ≤ weight s := by
  induction r with
  | nil => intro s _; exact Nat.le_refl _
  | cons e r ih =>
    intro s h
    exact Nat.le_trans (ih (step s e) (fun x hx => h x (List.mem_cons_of_mem _ hx))) (turn_le s e (h e List.mem_cons_self))

theorem turn_crash {r : List Event} (h : ∀ e ∈ r, Turn e) : Event.crash ∉ r := by
  intro hc
  rcases h _ hc with h | h | h | h <;> exact absurd h (by simp)

/-- In a round a message under way is taken. -/
theorem round_lt (s : Sys) (r : List Event) (h : Round r) (hd : (run s r).dead = false) (hw : 0 < weight s) : weight (run s r) < weight s := by
  obtain ⟨h0, h1, h2, h3⟩ := h
  have split : ∀ e ∈ r, ∃ a b, r = a ++ e :: b := fun e he => List.append_of_mem he
  have alive : ∀ a b, r = a ++ b → (run s a).dead = false := by
    intro a b hr
    cases hx : (run s a).dead with
    | false => rfl
    | true =>
      have : run s r = run s a := by
        rw [hr]
        show List.foldl step s (a ++ b) = _
        rw [List.foldl_append]
        exact dead_run b hx (fun x => turn_crash h0 (by rw [hr]; exact List.mem_append_right _ x))
      rw [this, hx] at hd
      exact absurd hd (by simp)
  have busy : ∃ e, e ∈ r ∧ Busy s e := by
    by_cases a : s.disp = []
    · by_cases b : s.exec = []
      · by_cases c : s.wal = []
        · unfold weight at hw; rw [a, b, c] at hw; simp at hw
        · exact ⟨.wal, h3, c⟩
      · exact ⟨.exec, h2, b⟩
    · exact ⟨.disp, h1, a⟩
  obtain ⟨e, he, hb⟩ := busy
  obtain ⟨a, b, hr⟩ := split e he
  have hrun : run s r = run (step (run s a) e) b := by
    rw [hr]; show List.foldl step s (a ++ e :: b) = _; rw [List.foldl_append]; rfl
  have ta : ∀ x ∈ a, Turn x := fun x hx => h0 x (by rw [hr]; exact List.mem_append_left _ hx)
  have tb : ∀ x ∈ b, Turn x := fun x hx => h0 x (by rw [hr]; exact List.mem_append_right _ (List.mem_cons_of_mem _ hx))
  have le1 := turns_le a s ta
  have le2 := turns_le b (step (run s a) e) tb
  rcases Nat.lt_or_ge (weight (run s a)) (weight s) with hlt | hge
  · have := turn_le (run s a) e (h0 e he)
    rw [hrun]; omega
  · -- nothing was taken before, so the message is still there
    have keep : ∀ (a : List Event) (s : Sys), (∀ x ∈ a, Turn x) → Busy s e → weight (run s a) = weight s → Busy (run s a) e ∨ (run s a).dead = true := by
      intro a
      induction a with
      | nil => intro s _ hb _; exact .inl hb
      | cons x a ih =>
        intro s hx hb hw
        have l1 := turn_le s x (hx x List.mem_cons_self)
        have l2 := turns_le a (step s x) (fun y hy => hx y (List.mem_cons_of_mem _ hy))
        have hw : weight (run (step s x) a) = weight s := hw
        have e1 : weight (step s x) = weight s := by omega
        by_cases hds : s.dead = true
        · have hnc : x ≠ .crash := by rcases hx x List.mem_cons_self with h | h | h | h <;> (rw [h]; simp)
          right
          show (run (step s x) a).dead = true
          rw [dead_turn hds x hnc, dead_run a hds (turn_crash (fun y hy => hx y (List.mem_cons_of_mem _ hy)))]
          exact hds
        · have hds : s.dead = false := by simpa using hds
          have hnb : ¬ Busy s x := fun hbx => by have := turn_lt s x hbx hds; omega
          have same : view (step s x) = view s := by
            rcases hx x List.mem_cons_self with h | h | h | h <;> subst h
            · have hm : s.disp = [] := Classical.not_not.mp hnb
              have : step s .disp = s := by unfold step dispStep; simp only [hds, Bool.false_eq_true, if_false]; rw [hm]
              rw [this]
            · have hm : s.exec = [] := Classical.not_not.mp hnb
              have : step s .exec = s := by unfold step execStep; simp only [hds, Bool.false_eq_true, if_false]; rw [hm]
              rw [this]
            · have hm : s.wal = [] := Classical.not_not.mp hnb
              have : step s .wal = s := by unfold step walStep; simp only [hds, Bool.false_eq_true, if_false]; rw [hm]
              rw [this]
            · have e1 : step s .agent = agentStep s := by unfold step; simp only [hds, Bool.false_eq_true, if_false]
              rw [e1]; exact (view_agent s).1
          have hb' : Busy (step s x) e := by
            have d1 : (step s x).disp = s.disp := congrArg View.disp same
            have d2 : (step s x).exec.map Prod.fst = s.exec.map Prod.fst := congrArg View.exec same
            have d3 : (step s x).wal = s.wal := congrArg View.wal same
            cases e with
            | disp => show (step s x).disp ≠ []; rw [d1]; exact hb
            | exec =>
              intro hn
              rw [hn] at d2
              exact hb (List.map_eq_nil_iff.mp d2.symm)
            | wal => show (step s x).wal ≠ []; rw [d3]; exact hb
            | _ => exact hb.elim
          exact ih (step s x) (fun y hy => hx y (List.mem_cons_of_mem _ hy)) hb' (by omega)
    have hal := alive a (e :: b) hr
    rcases keep a s ta hb (by omega) with hk | hk
    · have := turn_lt (run s a) e hk hal
      rw [hrun]; omega
    · rw [hal] at hk; exact absurd hk (by simp)

theorem rounds_idle (rs : List (List Event)) : ∀ (s : Sys), (∀ r ∈ rs, Round r) → weight s ≤ rs.length →
    (run s rs.flatten).dead = true ∨ Idle (run s rs.flatten) := by
  have idle : ∀ s : Sys, weight s = 0 → Idle s := by
    intro s h
    unfold weight at h
    refine ⟨?_, ?_, ?_⟩
    · cases hd : s.disp with
      | nil => rfl
      | cons m ms =>
        rw [hd] at h
        simp only [List.map_cons, List.sum_cons] at h
        have : 0 < m.weight := by cases m <;> simp [DMsg.weight]
        omega
    · exact List.eq_nil_of_length_eq_zero (by omega)
    · exact List.eq_nil_of_length_eq_zero (by omega)
  induction rs with
  | nil => intro s _ h; exact .inr (idle s (Nat.le_zero.mp h))
  | cons r rs ih =>
    intro s hr h
    have hrun : run s (r :: rs).flatten = run (run s r) rs.flatten := by
      rw [List.flatten_cons]; exact List.foldl_append ..
    rw [hrun]
    by_cases hd : (run s r).dead = true
    · left
      rw [dead_run _ hd ?_]
      · exact hd
      · intro hc
        obtain ⟨x, hx, hxc⟩ := List.mem_flatten.mp hc
        exact turn_crash (hr x (List.mem_cons_of_mem _ hx)).1 hxc
    · have hd : (run s r).dead = false := by simpa using hd
      refine ih (run s r) (fun x hx => hr x (List.mem_cons_of_mem _ hx)) ?_
      rcases Nat.eq_zero_or_pos (weight s) with h0 | h0
      · have := turns_le r s (hr r List.mem_cons_self).1; omega
      · have := round_lt s r (hr r List.mem_cons_self) hd h0
        simp only [List.length_cons] at h
        omega

theorem weight_under (s : Sys) : weight s ≤ 5 * underWay s := by
  have : ∀ l : List DMsg, (l.map DMsg.weight).sum ≤ 5 * l.length := by
    intro l
    induction l with
    | nil => exact Nat.le_refl _
    | cons m l ih =>
      simp only [List.map_cons, List.sum_cons, List.length_cons]
      have : m.weight ≤ 5 := by cases m <;> simp [DMsg.weight]
      omega
  have := this s.disp
  unfold weight underWay
  omega

end Verif.Node
