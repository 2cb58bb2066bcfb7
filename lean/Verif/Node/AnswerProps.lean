import Verif.Node.AliveLemmas
/-!
C103: every request is answered once.
-/
namespace Verif.Node

/-- No request is answered twice, and an answer is for the request with its number: whatever the schedule, with any number of crashes. -/
theorem C103_once (es : List Event) :
    ((run init es).answers.map Prod.fst).Nodup ∧ ∀ n p ok, (n, p, ok) ∈ (run init es).answers → (sent es)[n]? = some p :=
  ⟨(state_run es).books.nodup, (state_run es).books.right⟩

/-- Nobody waits in a live process in which nothing is under way. -/
theorem nobody_waits {es : List Event} (hi : Idle (run init es)) (hd : (run init es).dead = false) (x : Sid) : (run init es).open' x = none := by
  by_contra hx
  obtain ⟨k, e⟩ := (state_run es).books.clients x hx
  subst e
  rcases (state_run es).waits k hx with h | h
  · rw [hd] at h; exact absurd h (by simp)
  · have : (view (run init es)).flight = [] := by
      obtain ⟨a, b, c⟩ := hi
      unfold View.flight view
      simp only [a, b, c]
      rfl
    rw [this] at h
    exact absurd h (by simp)

/-- When the process runs and nothing is under way, every request sent since the process was last started has its answer. `es₀` ends with the last
start, `es` is what happened since. -/
theorem C103_answered (es₀ es : List Event) (h0 : es₀ = [] ∨ ∃ es', es₀ = es' ++ [.crash]) (hc : Event.crash ∉ es)
    (hi : Idle (run init (es₀ ++ es))) (hd : (run init (es₀ ++ es)).dead = false) (n : Nat) (p : Plan)
    (hn : (sent es₀).length ≤ n) (hp : (sent (es₀ ++ es))[n]? = some p) : ∃ ok, (n, p, ok) ∈ (run init (es₀ ++ es)).answers := by
  have st := state_run (es₀ ++ es)
  have hr : run init (es₀ ++ es) = run (run init es₀) es := List.foldl_append
  have w0 : Whole (run init es₀) (sent es₀).length := by
    rcases h0 with e | ⟨es', e⟩
    · subst e; exact whole_init
    · subst e
      have hr : run init (es' ++ [.crash]) = restart (run init es') := List.foldl_append
      have hs : sent (es' ++ [.crash]) = sent es' := by
        show sentFrom init (es' ++ [.crash]) = _
        rw [sentFrom_append]
        show _ ++ [] = _
        rw [List.append_nil]; rfl
      rw [hr, hs]
      exact (state_run es').restart.2
  have w := whole_run es (state_run es₀) hc w0
  rw [← hr] at w
  have hlt : n < (run init (es₀ ++ es)).next := by
    rw [st.books.next]
    obtain ⟨h, _⟩ := List.getElem?_eq_some_iff.mp hp
    exact h
  rcases w n hn hlt with h | ⟨sid, q, h⟩
  · obtain ⟨⟨n', q, ok⟩, h1, h2⟩ := List.mem_map.mp h
    have h2 : n' = n := h2
    subst h2
    have := st.books.right n' q ok h1
    rw [hp] at this
    injection this with this
    subst this
    exact ⟨ok, h1⟩
  · rw [nobody_waits hi hd] at h
    exact absurd h (by simp)

/-- The process comes to rest: when no request comes any more and the dispatcher, the executor and the log have had their turn five times for
every message under way, then nothing is under way and nobody waits, or the process has ended. Nobody waits for anybody: no order of
turns can keep a request from its answer. -/
theorem C103_progress (es : List Event) (rs : List (List Event)) (hr : ∀ r ∈ rs, Round r) (hl : 5 * underWay (run init es) ≤ rs.length) :
    (run init (es ++ rs.flatten)).dead = true ∨
    (Idle (run init (es ++ rs.flatten)) ∧ ∀ x, (run init (es ++ rs.flatten)).open' x = none) := by
  have e : run init (es ++ rs.flatten) = run (run init es) rs.flatten := List.foldl_append
  rcases rounds_idle rs (run init es) hr (Nat.le_trans (weight_under _) hl) with h | h
  · exact .inl (by rw [e]; exact h)
  · rw [← e] at h
    cases hd : (run init (es ++ rs.flatten)).dead with
    | true => exact .inl rfl
    | false => exact .inr ⟨h, nobody_waits h hd⟩

/-- The claim: the process goes on, whatever is sent. -/
def C103_alive_claim : Prop := ∀ es : List Event, Event.crash ∉ es → (run init es).dead = false

/-- The claim: every request of a process is answered, once the actors have had their turns. -/
def C103_claim : Prop := ∀ (es : List Event) (rs : List (List Event)), Event.crash ∉ es → (∀ r ∈ rs, Round r) →
  5 * underWay (run init es) ≤ rs.length → ∀ n p, (sent es)[n]? = some p → ∃ ok, (n, p, ok) ∈ (run init (es ++ rs.flatten)).answers

/-- The process goes on if databases and collections are dropped only by clients that are alone; everything else may be sent at any time, and
handled in any order. Missing: drops that meet other requests, and processes that were started on files (`C103_drops_fails`,
`C103_drop_and_read_fails`, `C103_drop_database_fails`). -/
theorem C103_alive_partial (es : List Event) (hc : Event.crash ∉ es) (ha : DropsAlone es) : (run init es).dead = false := (phase_run es hc ha).1

theorem round_request {rs : List (List Event)} (hr : ∀ r ∈ rs, Round r) (k : Nat) (p : Plan) : Event.request k p ∉ rs.flatten := by
  intro h
  obtain ⟨r, h1, h2⟩ := List.mem_flatten.mp h
  rcases (hr r h1).1 _ h2 with h | h | h | h <;> exact absurd h (by simp)

theorem round_crash {rs : List (List Event)} (hr : ∀ r ∈ rs, Round r) : Event.crash ∉ rs.flatten := by
  intro h
  obtain ⟨r, h1, h2⟩ := List.mem_flatten.mp h
  rcases (hr r h1).1 _ h2 with h | h | h | h <;> exact absurd h (by simp)

theorem sentFrom_none (es : List Event) : ∀ s : Sys, (∀ k p, Event.request k p ∉ es) → sentFrom s es = [] := by
  induction es with
  | nil => intro s _; rfl
  | cons e es ih =>
    intro s h
    have := ih (step s e) (fun k p hm => h k p (List.mem_cons_of_mem _ hm))
    cases e with
    | request k p => exact absurd List.mem_cons_self (h k p)
    | disp => exact this
    | exec => exact this
    | wal => exact this
    | agent => exact this
    | crash => exact this

/-- Every request is answered, and by C103_once once, if databases and collections are dropped only by clients that are alone. Missing as in
`C103_alive_partial`. -/
theorem C103_all_answered_partial (es : List Event) (rs : List (List Event)) (hc : Event.crash ∉ es) (ha : DropsAlone es) (hr : ∀ r ∈ rs, Round r)
    (hl : 5 * underWay (run init es) ≤ rs.length) (n : Nat) (p : Plan) (hp : (sent es)[n]? = some p) :
    ∃ ok, (n, p, ok) ∈ (run init (es ++ rs.flatten)).answers := by
  have hc' : Event.crash ∉ es ++ rs.flatten := by
    intro h
    rcases List.mem_append.mp h with h | h
    · exact hc h
    · exact round_crash hr h
  have ha' : DropsAlone (es ++ rs.flatten) := by
    intro es₁ k q es₂ he
    have : ∃ es₃, es = es₁ ++ .request k q :: es₃ := by
      rcases List.append_eq_append_iff.mp he with ⟨l, e1, e2⟩ | ⟨l, e1, e2⟩
      · exact absurd (by rw [e2]; exact List.mem_append_right _ List.mem_cons_self) (round_request hr k q)
      · cases l with
        | nil => exact absurd (by rw [List.nil_append] at e2; rw [← e2]; exact List.mem_cons_self) (round_request hr k q)
        | cons a l =>
          rw [List.cons_append] at e2
          injection e2 with e2 _
          exact ⟨l, by rw [e1, e2]⟩
    obtain ⟨es₃, e⟩ := this
    exact ha es₁ k q es₃ e
  have hd := C103_alive_partial _ hc' ha'
  have hi : Idle (run init (es ++ rs.flatten)) := by
    rcases C103_progress es rs hr hl with h | h
    · rw [hd] at h; exact absurd h (by simp)
    · exact h.1
  have hs : sent (es ++ rs.flatten) = sent es := by
    show sentFrom init _ = sentFrom init es
    rw [sentFrom_append, sentFrom_none _ _ (round_request hr), List.append_nil]
  exact C103_answered [] (es ++ rs.flatten) (.inl rfl) hc' hi hd n p (Nat.zero_le _) (by rw [List.nil_append, hs]; exact hp)

/-! ## Non-vacuity -/

/-- A database and a collection are made, then three clients insert, read and delete at the same time, and one client that is alone drops the
collection. -/
def busy : List Event :=
  [.request 0 (.createDb 1), .disp, .disp, .wal, .disp, .request 0 (.createColl ⟨1, 5⟩), .disp, .disp, .wal, .disp,
   .request 0 (.insert ⟨1, 5⟩ [⟨1, 10⟩]), .request 1 (.find ⟨1, 5⟩), .disp, .disp, .request 2 (.delete ⟨1, 5⟩ fun _ => true), .exec, .exec, .disp, .disp, .disp, .agent, .exec, .wal, .disp, .disp,
   .wal, .disp, .request 1 (.dropColl ⟨1, 5⟩)]

/-- A client that has sent nothing does not wait. -/
theorem open_only (es : List Event) (x : Sid) (h : ∀ k p, Event.request k p ∈ es → x ≠ .client k) : (run init es).open' x = none := by
  suffices g : ∀ (b a : List Event), es = a ++ b → (run init a).open' x = none → (run init es).open' x = none by exact g es [] rfl rfl
  intro b
  induction b with
  | nil => intro a e h; rw [e, List.append_nil]; exact h
  | cons e b ih =>
    intro a he hx
    refine ih (a ++ [e]) (by rw [he, List.append_assoc]; rfl) ?_
    have hr : run init (a ++ [e]) = step (run init a) e := List.foldl_append
    rw [hr]
    have st := state_run a
    cases hd : (run init a).dead with
    | true =>
      by_cases hc : e = .crash
      · subst hc; exact (books_restart st.inv).1 x
      · have : step (run init a) e = run init a := dead_run [e] hd (fun h => hc (List.mem_singleton.mp h).symm)
        rw [this]; exact hx
    | false =>
      cases e with
      | crash => exact (books_restart st.inv).1 x
      | request k p =>
        have ne := h k p (by rw [he]; exact List.mem_append_right _ List.mem_cons_self)
        unfold step
        simp only [hd, Bool.false_eq_true, if_false]
        unfold request
        split
        · split
          · exact hx
          · exact (set_other _ _ _ _ ne).trans hx
        · exact hx
      | disp =>
        have e : step (run init a) .disp = dispStep (run init a) := by unfold step; simp only [hd, Bool.false_eq_true, if_false]
        rw [e]
        cases hm : (run init a).disp with
        | nil =>
          have : dispStep (run init a) = run init a := by unfold dispStep; rw [hm]
          rw [this]; exact hx
        | cons m ms =>
          obtain ⟨sv, _⟩ := served_disp st.inv hm
          by_cases ex : x = m.sid
          · rcases sv.said with ⟨_, q⟩ | ⟨_, _, _, _, q, _⟩
            · rw [ex, q, ← ex]; exact hx
            · rw [ex, q]
          · rw [sv.others x ex]; exact hx
      | exec =>
        have e : (step (run init a) .exec).open' = (run init a).open' := by
          unfold step
          simp only [hd, Bool.false_eq_true, if_false]
          unfold execStep
          split
          · rfl
          · split
            · rfl
            · split
              · rfl
              · split <;> rfl
        rw [e]; exact hx
      | wal =>
        have e : (step (run init a) .wal).open' = (run init a).open' := by
          unfold step
          simp only [hd, Bool.false_eq_true, if_false]
          unfold walStep
          split <;> rfl
        rw [e]; exact hx
      | agent =>
        have e : (step (run init a) .agent).open' = (run init a).open' := by
          unfold step
          simp only [hd, Bool.false_eq_true, if_false]
          exact congrArg View.open' (view_agent _).1
        rw [e]; exact hx

/-- The clients that sent something. -/
def clientsOf (es : List Event) : List Nat := es.filterMap fun e => match e with
  | .request k _ => some k
  | _ => none

/-- A check of `DropsAlone`, to show that a schedule meets it. -/
def checkAlone (a : List Event) : List Event → Bool
  | [] => true
  | .request k p :: b => (!p.drops || (clientsOf a).all fun k => ((run init a).open' (.client k)).isNone) &&
      ((clientsOf a).all fun k => match (run init a).open' (.client k) with | some (_, q) => !q.drops | none => true) &&
      checkAlone (a ++ [.request k p]) b
  | e :: b => checkAlone (a ++ [e]) b

theorem waits_clients {es : List Event} {x : Sid} {v : Nat × Plan} (h : (run init es).open' x = some v) : ∃ k, x = .client k ∧ k ∈ clientsOf es := by
  by_contra hn
  have := open_only es x (fun k p hm e => hn ⟨k, e, List.mem_filterMap.mpr ⟨_, hm, rfl⟩⟩)
  rw [this] at h
  exact absurd h (by simp)

theorem checkAlone_sound (es : List Event) (h : checkAlone [] es = true) : DropsAlone es := by
  suffices g : ∀ (b a : List Event), checkAlone a b = true → ∀ es₁ k p es₂, b = es₁ ++ .request k p :: es₂ →
      (p.drops = true → ∀ x, (run init (a ++ es₁)).open' x = none) ∧ (∀ x n q, (run init (a ++ es₁)).open' x = some (n, q) → q.drops = false) from
    fun es₁ k p es₂ e => g es [] h es₁ k p es₂ e
  intro b
  induction b with
  | nil => intro a _ es₁ k p es₂ e; exact absurd e (by simp)
  | cons e b ih =>
    intro a hc es₁ k p es₂ he
    have hc' : checkAlone (a ++ [e]) b = true := by
      cases e with
      | request k p => unfold checkAlone at hc; simp only [Bool.and_eq_true] at hc; exact hc.2
      | _ => unfold checkAlone at hc; exact hc
    cases es₁ with
    | cons e' es₁ =>
      rw [List.cons_append] at he
      injection he with h1 h2
      subst h1
      have := ih (a ++ [e]) hc' es₁ k p es₂ h2
      rw [List.append_assoc] at this
      exact this
    | nil =>
      rw [List.nil_append] at he
      injection he with h1 h2
      subst h1
      rw [List.append_nil]
      unfold checkAlone at hc
      simp only [Bool.and_eq_true, Bool.or_eq_true, Bool.not_eq_true', List.all_eq_true] at hc
      obtain ⟨⟨h1, h2⟩, _⟩ := hc
      refine ⟨fun hp x => ?_, fun x n q hx => ?_⟩
      · cases hx : (run init a).open' x with
        | none => rfl
        | some v =>
          obtain ⟨j, e, hj⟩ := waits_clients hx
          rcases h1 with h1 | h1
          · rw [hp] at h1; exact absurd h1 (by simp)
          · have := h1 j hj
            rw [← e, hx] at this
            exact absurd this (by simp)
      · obtain ⟨j, e, hj⟩ := waits_clients hx
        have := h2 j hj
        rw [← e, hx] at this
        simpa using this

example : Event.crash ∉ busy ∧ DropsAlone busy :=
  ⟨by simp [busy], checkAlone_sound busy (by decide +kernel)⟩

example : underWay (run init busy) = 1 := by decide +kernel

example : Round [.wal, .agent, .disp, .exec, .disp] := by
  refine ⟨?_, by simp, by simp, by simp⟩
  intro e he
  simp only [List.mem_cons, List.not_mem_nil, or_false] at he
  rcases he with he | he | he | he | he <;> simp [he]

example : (run init (busy ++ (List.replicate 10 [Event.wal, .disp, .exec]).flatten)).answers.map (fun a => (a.1, a.2.2)) =
    [(5, true), (4, true), (2, true), (3, true), (1, true), (0, true)] := by decide +kernel

/-- After a start on the files of an earlier process. -/
example : Idle (run init (busy ++ [.crash] ++ [.disp, .exec, .disp, .disp, .exec, .disp, .disp, .request 3 (.find ⟨1, 5⟩), .disp, .request 4 (.createDb 1), .exec, .disp, .disp])) ∧
    (run init (busy ++ [.crash] ++ [.disp, .exec, .disp, .disp, .exec, .disp, .disp, .request 3 (.find ⟨1, 5⟩), .disp, .request 4 (.createDb 1), .exec, .disp, .disp])).dead = false ∧
    (run init (busy ++ [.crash] ++ [.disp, .exec, .disp, .disp, .exec, .disp, .disp, .request 3 (.find ⟨1, 5⟩), .disp, .request 4 (.createDb 1), .exec, .disp, .disp])).next = 8 := by
  unfold Idle
  refine ⟨⟨List.length_eq_zero_iff.mp ?_, List.length_eq_zero_iff.mp ?_, List.length_eq_zero_iff.mp ?_⟩, ?_, ?_⟩ <;> decide +kernel

/-! ## Drops that meet other requests -/

/-- A database and a collection are made by one client. -/
def prepared : List Event :=
  [.request 0 (.createDb 1), .disp, .disp, .wal, .disp, .request 0 (.createColl ⟨1, 5⟩), .disp, .disp, .wal, .disp]

/-- Two clients drop the same collection at the same time: the second request passes the check of the catalog, does not find the collection, and
the process ends. -/
theorem C103_drops_fails : ¬ C103_alive_claim := by
  intro h
  have := h (prepared ++ [.request 0 (.dropColl ⟨1, 5⟩), .request 1 (.dropColl ⟨1, 5⟩), .disp, .disp]) (by simp [prepared])
  exact absurd this (by decide +kernel)

/-- A collection is dropped while a query on it waits for the executor: the executor uses the freed collection. -/
theorem C103_drop_and_read_fails :
    (run init (prepared ++ [.request 0 (.find ⟨1, 5⟩), .request 1 (.dropColl ⟨1, 5⟩), .disp, .disp, .exec])).dead = true := by decide +kernel

/-- A database is dropped while documents are written to one of its collections: when the log has noted them the dispatcher looks up a schema that
is gone. -/
theorem C103_drop_database_fails :
    (run init (prepared ++ [.request 0 (.insert ⟨1, 5⟩ [⟨1, 10⟩]), .request 1 (.dropDb 1), .disp, .disp, .exec, .disp, .disp, .wal, .disp])).dead = true := by
  decide +kernel

/-- So not every request is answered. -/
theorem C103_fails : ¬ C103_claim := by
  intro h
  let es := prepared ++ [.request 0 (.dropColl ⟨1, 5⟩), .request 1 (.dropColl ⟨1, 5⟩), .disp, .disp]
  let rs : List (List Event) := List.replicate 50 [.disp, .exec, .wal]
  have hr : ∀ r ∈ rs, Round r := by
    intro r hr
    rw [List.eq_of_mem_replicate hr]
    refine ⟨?_, by simp, by simp, by simp⟩
    intro e he
    simp only [List.mem_cons, List.not_mem_nil, or_false] at he
    rcases he with he | he | he <;> simp [he]
  have hn : (sent es).length = 4 := by
    rw [← (state_run es).books.next]
    decide +kernel
  obtain ⟨p, hp⟩ : ∃ p, (sent es)[3]? = some p := by
    cases hx : (sent es)[3]? with
    | some p => exact ⟨p, rfl⟩
    | none =>
      rw [List.getElem?_eq_none_iff, hn] at hx
      omega
  obtain ⟨ok, ho⟩ := h es rs (by simp [es, prepared]) hr (by decide +kernel) 3 p hp
  have e : run init (es ++ rs.flatten) = run init es := by
    have : run init (es ++ rs.flatten) = run (run init es) rs.flatten := List.foldl_append
    rw [this]
    exact dead_run _ (by decide +kernel) (round_crash hr)
  rw [e] at ho
  have : 3 ∈ (run init es).answers.map Prod.fst := List.mem_map.mpr ⟨_, ho, rfl⟩
  exact absurd this (by decide +kernel)

end Verif.Node
