import Verif.Node.SizeSpec
import Verif.Node.AliveLemmas
/-! C108: sizes of collections. -/
namespace Verif.Node

/-! ### Lemmas -/

theorem Sz.run_snoc (s : Sz) (es : List SzEvent) (e : SzEvent) : s.run (es ++ [e]) = (s.run es).step e := by
  simp [Sz.run, List.foldl_append]

/-- A count that was right at a moment when the request waited. -/
def Right (es : List SzEvent) (n a : Nat) : Prop :=
  ∃ es₁ es₂ c, es = es₁ ++ es₂ ∧ (Sz.init.run es₁).waits n c ∧
    ((Sz.init.run es₁).docs c = some a ∨ (a = 0 ∧ (Sz.init.run es₁).node.cat.computes c = false))

theorem Right.snoc {es : List SzEvent} {n a : Nat} (h : Right es n a) (e : SzEvent) : Right (es ++ [e]) n a := by
  obtain ⟨e1, e2, c, rfl, hw, h⟩ := h
  exact ⟨e1, e2 ++ [e], c, by simp, hw, h⟩

structure SzBooks (es : List SzEvent) (s : Sz) : Prop where
  asked : ∀ n c, (n, c) ∈ s.reqs → s.asked[n]? = some c
  nodup : (s.reqs.map Prod.fst).Nodup
  new : ∀ n c, (n, c) ∈ s.reqs → n ∉ s.ses ∧ (∀ a, (n, a) ∉ s.got) ∧ ∀ a, (n, a) ∉ s.fins
  low : ∀ n, (∃ a, (n, a) ∈ s.got) ∨ (∃ a, (n, a) ∈ s.fins) ∨ n ∈ s.ses → n < s.asked.length
  ses : ∀ n, n ∈ s.ses → ∀ a, (n, a) ∉ s.got
  once : (s.got.map Prod.fst).Nodup
  fins : ∀ n a, (n, a) ∈ s.fins → Right es n a
  got : ∀ n a, (n, a) ∈ s.got → Right es n a

theorem SzBooks.snoc {es : List SzEvent} {s : Sz} (h : SzBooks es s) (e : SzEvent) : SzBooks (es ++ [e]) s :=
  { h with fins := fun n a hx => (h.fins n a hx).snoc e, got := fun n a hx => (h.got n a hx).snoc e }

theorem SzBooks.same {es : List SzEvent} {s t : Sz} (h : SzBooks es s) (h1 : t.reqs = s.reqs) (h2 : t.fins = s.fins) (h3 : t.ses = s.ses)
    (h4 : t.asked = s.asked) (h5 : t.got = s.got) : SzBooks es t := by
  constructor <;> simp only [h1, h2, h3, h4, h5]
  exacts [h.asked, h.nodup, h.new, h.low, h.ses, h.once, h.fins, h.got]

theorem once_snoc {l : List (Nat × Nat)} (h : (l.map Prod.fst).Nodup) {n a : Nat} (hn : ∀ b, (n, b) ∉ l) : ((l ++ [(n, a)]).map Prod.fst).Nodup := by
  rw [List.map_append, List.nodup_append]
  refine ⟨h, by simp, ?_⟩
  intro x hx y hy e
  simp only [List.map_cons, List.map_nil, List.mem_singleton] at hy
  obtain ⟨⟨m, b⟩, hm, rfl⟩ := List.mem_map.mp hx
  subst e hy
  exact hn b hm

theorem SzBooks.answer {es : List SzEvent} {s : Sz} (h : SzBooks es s) {n a : Nat} (hn : n ∈ s.ses) (hr : Right es n a) : SzBooks es (s.answer n a) where
  asked := h.asked
  nodup := h.nodup
  new := by
    intro m c hm
    obtain ⟨h1, h2, h3⟩ := h.new m c hm
    have hne : m ≠ n := fun e => h1 (e ▸ hn)
    refine ⟨fun hx => h1 (List.mem_filter.mp hx).1, ?_, h3⟩
    intro b hb
    simp only [Sz.answer, List.mem_append, List.mem_singleton, Prod.mk.injEq] at hb
    rcases hb with hb | ⟨e, -⟩
    exacts [h2 b hb, hne e]
  low := by
    intro m hm
    apply h.low m
    simp only [Sz.answer, List.mem_append, List.mem_singleton, Prod.mk.injEq, List.mem_filter] at hm
    rcases hm with ⟨b, hb | ⟨rfl, -⟩⟩ | hm | hm
    exacts [.inl ⟨b, hb⟩, .inr (.inr hn), .inr (.inl hm), .inr (.inr hm.1)]
  ses := by
    intro m hm b hb
    simp only [Sz.answer, List.mem_append, List.mem_singleton, Prod.mk.injEq, List.mem_filter, decide_eq_true_eq] at hm hb
    rcases hb with hb | ⟨e, -⟩
    exacts [h.ses m hm.1 b hb, hm.2 e]
  once := once_snoc h.once (h.ses n hn)
  fins := h.fins
  got := by
    intro m b hb
    simp only [Sz.answer, List.mem_append, List.mem_singleton, Prod.mk.injEq] at hb
    rcases hb with hb | ⟨rfl, rfl⟩
    exacts [h.got m b hb, hr]

theorem SzBooks.take {es : List SzEvent} (h : SzBooks es (Sz.init.run es)) : SzBooks es (Sz.init.run es).take := by
  generalize hs : Sz.init.run es = s at h
  unfold Sz.take
  cases hq : s.reqs with
  | nil => exact h
  | cons x rs =>
    obtain ⟨n, c⟩ := x
    have hin : (n, c) ∈ s.reqs := by rw [hq]; simp
    obtain ⟨n1, n2, n3⟩ := h.new n c hin
    have hask := h.asked n c hin
    have hlt : n < s.asked.length := (List.getElem?_eq_some_iff.mp hask).1
    have nd := h.nodup
    rw [hq] at nd
    simp only [List.map_cons, List.nodup_cons] at nd
    have hw : (Sz.init.run es).waits n c := by rw [hs]; exact ⟨hask, n2⟩
    have ht : SzBooks es { s with reqs := rs, ses := n :: s.ses } := by
      refine ⟨fun m d hm => h.asked m d (by rw [hq]; simp [hm]), nd.2, ?_, ?_, ?_, h.once, h.fins, h.got⟩
      · intro m d hm
        obtain ⟨a1, a2, a3⟩ := h.new m d (by rw [hq]; simp [hm])
        refine ⟨?_, a2, a3⟩
        simp only [List.mem_cons, not_or]
        exact ⟨fun e => nd.1 (by rw [← e]; exact List.mem_map.mpr ⟨_, hm, rfl⟩), a1⟩
      · intro m hm
        rcases hm with hm | hm | hm
        · exact h.low m (.inl hm)
        · exact h.low m (.inr (.inl hm))
        · rcases List.mem_cons.mp hm with rfl | hm
          · exact hlt
          · exact h.low m (.inr (.inr hm))
      · intro m hm
        rcases List.mem_cons.mp hm with rfl | hm
        · exact n2
        · exact h.ses m hm
    have cnt : ∀ t : Sz, SzBooks es t → t.node = s.node → t.reqs = rs → t.asked = s.asked → SzBooks es (t.count n c) := by
      intro t ht hn hr ha
      unfold Sz.count
      cases hm : t.node.mem c with
      | none => exact ht.same rfl rfl rfl rfl rfl
      | some m =>
        obtain ⟨g, docs⟩ := m
        simp only
        split
        · exact ht.same rfl rfl rfl rfl rfl
        · refine ⟨ht.asked, ht.nodup, ?_, ?_, ht.ses, ht.once, ?_, ht.got⟩
          · intro m d hmd
            obtain ⟨a1, a2, a3⟩ := ht.new m d hmd
            refine ⟨a1, a2, ?_⟩
            intro b hb
            rcases List.mem_append.mp hb with hb | hb
            · exact a3 b hb
            · simp only [List.mem_singleton, Prod.mk.injEq] at hb
              rw [hr] at hmd
              exact nd.1 (by rw [← hb.1]; exact List.mem_map.mpr ⟨_, hmd, rfl⟩)
          · intro m hmm
            rcases hmm with hmm | ⟨b, hb⟩ | hmm
            · exact ht.low m (.inl hmm)
            · rcases List.mem_append.mp hb with hb | hb
              · exact ht.low m (.inr (.inl ⟨b, hb⟩))
              · simp only [List.mem_singleton, Prod.mk.injEq] at hb
                rw [hb.1]
                show n < t.asked.length
                rw [ha]; exact hlt
            · exact ht.low m (.inr (.inr hmm))
          · intro m b hb
            rcases List.mem_append.mp hb with hb | hb
            · exact ht.fins m b hb
            · simp only [List.mem_singleton, Prod.mk.injEq] at hb
              obtain ⟨rfl, rfl⟩ := hb
              refine ⟨es, [], c, by simp, hw, .inl ?_⟩
              rw [hn] at hm
              simp [Sz.docs, hs, hm]
    simp only
    split
    · exact cnt _ ht rfl rfl rfl
    · rename_i hc
      refine cnt _ (ht.answer (by simp) ?_) rfl rfl rfl
      exact ⟨es, [], c, by simp, hw, .inr ⟨rfl, by rw [hs]; simpa using hc⟩⟩

theorem SzBooks.finish {es : List SzEvent} {s : Sz} (h : SzBooks es s) : SzBooks es s.finish := by
  unfold Sz.finish
  cases hq : s.fins with
  | nil => exact h
  | cons x fs =>
    obtain ⟨n, a⟩ := x
    have sub : ∀ y ∈ fs, y ∈ s.fins := fun y hy => by rw [hq]; simp [hy]
    have ht : SzBooks es { s with fins := fs } := by
      refine ⟨h.asked, h.nodup, fun m c hm => ?_, fun m hm => ?_, h.ses, h.once, fun m b hb => h.fins m b (sub _ hb), h.got⟩
      · obtain ⟨a1, a2, a3⟩ := h.new m c hm
        exact ⟨a1, a2, fun b hb => a3 b (sub _ hb)⟩
      · rcases hm with hm | ⟨b, hb⟩ | hm
        exacts [h.low m (.inl hm), h.low m (.inr (.inl ⟨b, sub _ hb⟩)), h.low m (.inr (.inr hm))]
    simp only
    split
    · rename_i hin
      exact ht.answer hin (h.fins n a (by rw [hq]; simp))
    · exact ht.same rfl rfl rfl rfl rfl

theorem SzBooks.ask {es : List SzEvent} {s : Sz} (h : SzBooks es s) (c : Coll) : SzBooks es (s.ask c) := by
  have old : ∀ n d, (n, d) ∈ s.reqs → n < s.asked.length := fun n d hn => (List.getElem?_eq_some_iff.mp (h.asked n d hn)).1
  have fresh : s.asked.length ∉ s.ses ∧ (∀ a, (s.asked.length, a) ∉ s.got) ∧ ∀ a, (s.asked.length, a) ∉ s.fins := by
    refine ⟨fun hx => ?_, fun a hx => ?_, fun a hx => ?_⟩
    exacts [absurd (h.low _ (.inr (.inr hx))) (by omega), absurd (h.low _ (.inl ⟨a, hx⟩)) (by omega), absurd (h.low _ (.inr (.inl ⟨a, hx⟩))) (by omega)]
  refine ⟨?_, ?_, ?_, ?_, h.ses, h.once, h.fins, h.got⟩
  · intro n d hn
    rcases List.mem_append.mp hn with hn | hn
    · show (s.asked ++ [c])[n]? = _
      rw [List.getElem?_append_left (old n d hn)]; exact h.asked n d hn
    · simp only [List.mem_singleton, Prod.mk.injEq] at hn
      obtain ⟨rfl, rfl⟩ := hn
      show (s.asked ++ [d])[s.asked.length]? = _
      simp
  · show ((s.reqs ++ [(s.asked.length, c)]).map Prod.fst).Nodup
    rw [List.map_append, List.nodup_append]
    refine ⟨h.nodup, by simp, ?_⟩
    intro x hx y hy e
    simp only [List.map_cons, List.map_nil, List.mem_singleton] at hy
    obtain ⟨⟨m, b⟩, hm, rfl⟩ := List.mem_map.mp hx
    have := old m b hm
    simp only at e
    omega
  · intro n d hn
    rcases List.mem_append.mp hn with hn | hn
    · exact h.new n d hn
    · simp only [List.mem_singleton, Prod.mk.injEq] at hn
      rw [hn.1]; exact fresh
  · intro n hn
    have := h.low n hn
    show n < (s.asked ++ [c]).length
    simp; omega

theorem SzBooks.other {es : List SzEvent} {s : Sz} (h : SzBooks es s) (e : Event) : SzBooks es (s.other e) := by
  cases e with
  | crash =>
    refine ⟨by simp [Sz.other], by simp [Sz.other], by simp [Sz.other], ?_, by simp [Sz.other], h.once, by simp [Sz.other], h.got⟩
    intro n hn
    rcases hn with hn | hn | hn
    · exact h.low n (.inl hn)
    · obtain ⟨a, ha⟩ := hn; simp [Sz.other] at ha
    · simp [Sz.other] at hn
  | _ => unfold Sz.other; simp only; split <;> first | exact h | exact h.same rfl rfl rfl rfl rfl

theorem books_run (es : List SzEvent) : SzBooks es (Sz.init.run es) := by
  suffices h : ∀ (b a : List SzEvent), SzBooks a (Sz.init.run a) → SzBooks (a ++ b) (Sz.init.run (a ++ b)) by
    exact h es [] (by constructor <;> simp [Sz.run, Sz.init])
  intro b
  induction b with
  | nil => intro a h; rw [List.append_nil]; exact h
  | cons e b ih' =>
    intro es ih
    rw [show es ++ e :: b = (es ++ [e]) ++ b by simp]
    apply ih'
    rw [Sz.run_snoc]
    refine SzBooks.snoc ?_ e
    cases e with
    | node e => exact ih.other e
    | begin => unfold Sz.step; simp only; split <;> first | exact ih | exact ih.same rfl rfl rfl rfl rfl
    | ask c => unfold Sz.step; simp only; split <;> first | exact ih | exact ih.ask c
    | take => unfold Sz.step; simp only; split <;> first | exact ih | exact ih.take
    | finish => unfold Sz.step; simp only; split <;> first | exact ih | exact ih.finish

/-! ### Answers -/

/-- Whatever happens beside it, crashes included: no request is answered twice, and what is answered was right at some moment between the request
and the answer: the number of documents of the collection then, or 0 and there was no such collection. -/
theorem C108_answers (es : List SzEvent) :
    ((Sz.init.run es).got.map Prod.fst).Nodup ∧
    ∀ n a, (n, a) ∈ (Sz.init.run es).got → ∃ es₁ es₂ c, es = es₁ ++ es₂ ∧ (Sz.init.run es₁).waits n c ∧
      ((Sz.init.run es₁).docs c = some a ∨ (a = 0 ∧ (Sz.init.run es₁).node.cat.computes c = false)) :=
  ⟨(books_run es).once, (books_run es).got⟩

/-! ### The process goes on -/

theorem mem_sent {p : Plan} (es : List Event) : ∀ s : Sys, p ∈ sentFrom s es → ∃ k, Event.request k p ∈ es := by
  induction es with
  | nil => intro s h; simp [sentFrom] at h
  | cons e es ih =>
    intro s h
    have up : (∃ k, Event.request k p ∈ es) → ∃ k, Event.request k p ∈ e :: es := fun ⟨k, hk⟩ => ⟨k, List.mem_cons_of_mem _ hk⟩
    cases e with
    | request k q =>
      simp only [sentFrom, List.mem_append] at h
      rcases h with h | h
      · split at h
        · simp only [List.mem_singleton] at h; subst h; exact ⟨k, by simp⟩
        · simp at h
      · exact up (ih _ h)
    | _ => exact up (ih _ h)

/-- Without drops and crashes. -/
theorem no_drops {es : List Event} (hd : ∀ k p, Event.request k p ∈ es → p.drops = false) (hc : Event.crash ∉ es) :
    (run init es).dead = false ∧ Good (run init es) ∧ ∀ sid ses, (run init es).sessions sid = some ses → ses.plan.drops = false ∧ ses.replay = false := by
  have wait : ∀ es' : List Event, (∀ e ∈ es', e ∈ es) → ∀ x n q, (run init es').open' x = some (n, q) → q.drops = false := by
    intro es' sub x n q h
    have := ((state_run es').books.waiting x n q h).1
    obtain ⟨k, hk⟩ := mem_sent es' init (List.mem_of_getElem? this)
    exact hd k q (sub _ hk)
  have alone : DropsAlone es := by
    intro e1 k p e2 he
    have sub : ∀ e ∈ e1, e ∈ es := fun e h => by rw [he]; simp [h]
    refine ⟨fun hp => ?_, fun x n q h => wait e1 sub x n q h⟩
    have := hd k p (by rw [he]; simp)
    rw [this] at hp; exact absurd hp (by simp)
  obtain ⟨h1, h2⟩ := phase_run es hc alone
  have good : Good (run init es) := by
    rcases h2 with ⟨h2, -⟩ | ⟨sid, n, p, ha, -⟩
    · exact h2
    · have := wait es (fun _ h => h) sid n p ha.waits
      rw [ha.drops] at this; exact absurd this (by simp)
  refine ⟨h1, good, fun sid ses h => ?_⟩
  have hr := good.own sid ses h
  exact ⟨wait es (fun _ h => h) _ _ _ ((state_run es).inv.client sid ses h hr).2, hr⟩

theorem cat_reply (s : Sys) (sid : Sid) (ok : Bool) : (reply s sid ok).cat = s.cat := by
  unfold reply; split <;> rfl

theorem cat_done (s : Sys) (sid : Sid) (ses : Ses) (ok : Bool) : (done s sid ses ok).cat = s.cat := by
  unfold done; split
  · rfl
  · exact cat_reply s sid ok

theorem cat_finish_error (s : Sys) (sid : Sid) : (finishPlan s sid false).cat = s.cat := by
  unfold finishPlan
  split
  · rfl
  · simp only [Bool.false_eq_true, if_false]; exact cat_done _ _ _ _

theorem cat_memory (s : Sys) (sid : Sid) (p : Plan) : (memory s sid p).cat = s.cat := by
  have te : ∀ c, (toExec s sid p c).cat = s.cat := by intro c; unfold toExec; split <;> rfl
  unfold memory
  cases p <;> simp only <;> first | rfl | exact te _ | (split <;> rfl)

theorem cat_exec (s : Sys) : (execStep s).cat = s.cat := by
  unfold execStep
  split
  · rfl
  · simp only
    split
    · rfl
    · split
      · rfl
      · split <;> rfl

theorem cat_agent (s : Sys) : (agentStep s).cat = s.cat := by
  unfold agentStep
  split
  · rfl
  · simp only
    split <;> first | rfl | (split <;> rfl)

theorem cat_walSuccess {s : Sys} (hc : ∀ x, s.cat.colls x = true → s.cat.dbs x.db = true) (sid : Sid) (id : Nat)
    (hs : ∀ sid ses, s.sessions sid = some ses → ses.plan.drops = false ∧ ses.replay = false) {c : Coll} (h : s.cat.computes c = true) :
    (walSuccess s sid id).cat.computes c = true := by
  unfold walSuccess
  split
  · exact h
  · rename_i ses he
    have hp := (hs sid ses he).1
    have up : (updateCat s ses.plan).cat.computes c = true := by
      cases e : ses.plan with
      | createDb d => exact ((computes_ns hc d).2 c).trans h
      | dropDb d => rw [e] at hp; exact absurd hp (by simp [Plan.drops])
      | createColl x => exact (computes_table hc x).2.1 c h
      | dropColl x => rw [e] at hp; exact absurd hp (by simp [Plan.drops])
      | insert x l => show (if s.cat.computes x = true then s else { s with dead := true }).cat.computes c = true; split <;> exact h
      | _ => exact h
    simp only
    split
    · exact up
    · split
      · exact up
      · rw [cat_reply]; exact up

theorem cat_step {s : Sys} (hg : Good s) (hs : ∀ sid ses, s.sessions sid = some ses → ses.plan.drops = false ∧ ses.replay = false) {c : Coll}
    (h : s.cat.computes c = true) (e : Event) (he : e ≠ .crash) : (step s e).cat.computes c = true := by
  cases e with
  | crash => exact absurd rfl he
  | request k p => unfold step request; simp only; split <;> [exact h; (split <;> [(split <;> exact h); exact h])]
  | exec => unfold step; simp only; split; exact h; rw [cat_exec]; exact h
  | wal => unfold step walStep; simp only; split <;> [exact h; (split <;> exact h)]
  | agent => unfold step; simp only; split; exact h; rw [cat_agent]; exact h
  | disp =>
    unfold step
    simp only
    split
    · exact h
    unfold dispStep
    split
    · exact h
    rename_i m ms _
    cases m with
    | plan sid n p =>
      show (execPlan { s with disp := ms } sid ⟨n, p, false⟩).cat.computes c = true
      unfold execPlan
      have hm : (makeSession { s with disp := ms } sid ⟨n, p, false⟩).cat = s.cat := by unfold makeSession; split <;> rfl
      simp only
      split
      · rw [cat_memory, hm]; exact h
      · rw [cat_finish_error, hm]; exact h
    | finish sid ok =>
      show (finishPlan { s with disp := ms } sid ok).cat.computes c = true
      cases ok with
      | false => rw [cat_finish_error]; exact h
      | true =>
        unfold finishPlan
        split
        · exact h
        · rename_i ses hse
          obtain ⟨hp, hr⟩ := hs sid ses hse
          have lg : ∀ t : Sys, t.cat = s.cat → (logged t sid ses).cat.computes c = true := by
            intro t ht
            unfold logged
            rw [if_neg (by rw [hr]; simp)]
            show t.cat.computes c = true
            rw [ht]; exact h
          simp only [if_true]
          cases e : ses.plan with
          | dropDb d => rw [e] at hp; exact absurd hp (by simp [Plan.drops])
          | find x => simp only; rw [cat_done]; exact h
          | _ => exact lg _ rfl
    | walOk sid id => exact cat_walSuccess (s := { s with disp := ms }) hg.core.cat sid id hs h

theorem mem_nodeEvents {e : Event} {es : List SzEvent} : e ∈ nodeEvents es ↔ SzEvent.node e ∈ es := by
  induction es with
  | nil => simp [nodeEvents]
  | cons x es ih => cases x <;> simp [nodeEvents, ih]

theorem nodeEvents_append (a b : List SzEvent) : nodeEvents (a ++ b) = nodeEvents a ++ nodeEvents b := by
  induction a with
  | nil => rfl
  | cons x a ih => cases x <;> simp [nodeEvents, ih]

/-- The state while every request about a size can be handled. -/
structure SzCalm (es : List SzEvent) (s : Sz) : Prop where
  ended : s.ended = false
  node : s.node = run init (nodeEvents es)
  known : ∀ n c, (n, c) ∈ s.reqs → s.node.cat.computes c = true
  fins : ∀ n a, (n, a) ∈ s.fins → n ∈ s.ses
  nodup : (s.fins.map Prod.fst).Nodup
  left : ∀ n c, s.asked[n]? = some c → (n, c) ∈ s.reqs ∨ (∃ a, (n, a) ∈ s.fins) ∨ ∃ a, (n, a) ∈ s.got

theorem calm_step {es : List SzEvent} {e : SzEvent} (hd : NoDrops (es ++ [e])) (ha : AsksKnown (es ++ [e])) (hp : Apart (es ++ [e]))
    (h : SzCalm es (Sz.init.run es)) : SzCalm (es ++ [e]) (Sz.init.run (es ++ [e])) := by
  rw [Sz.run_snoc]
  have hb := books_run es
  have hd' : ∀ k p, Event.request k p ∈ nodeEvents es → p.drops = false := fun k p hm => hd.1 k p (by simp [mem_nodeEvents.mp hm])
  have hc' : Event.crash ∉ nodeEvents es := fun hm => hd.2 (by simp [mem_nodeEvents.mp hm])
  obtain ⟨hdead, hgood, hses⟩ := no_drops hd' hc'
  have hk : ∀ c, e = .ask c → (Sz.init.run es).node.cat.computes c = true := fun c he => ha es c [] (by rw [he])
  have hw : e = .take → ∀ n c rs, (Sz.init.run es).reqs = (n, c) :: rs → (Sz.init.run es).writing c = false := fun he => hp es [] (by rw [he])
  generalize Sz.init.run es = s at h hb hk hw
  rw [← h.node] at hdead hgood hses
  have hruns : s.runs = true := by simp [Sz.runs, h.ended, hdead]
  have nev : ∀ x : SzEvent, (∀ y, x ≠ .node y) → nodeEvents (es ++ [x]) = nodeEvents es := by
    intro x hx
    rw [nodeEvents_append]
    cases x with
    | node y => exact absurd rfl (hx y)
    | _ => simp [nodeEvents]
  cases e with
  | node e =>
    have he : e ≠ .crash := fun x => hd.2 (by simp [x])
    have hn : step s.node e = run init (nodeEvents (es ++ [.node e])) := by
      rw [nodeEvents_append, h.node]; simp [nodeEvents, run, List.foldl_append]
    have key : ∀ b, SzCalm (es ++ [.node e]) { s with node := step s.node e, busy := b } := fun b =>
      ⟨h.ended, hn, fun n c hx => cat_step hgood hses (h.known n c hx) e he, h.fins, h.nodup, h.left⟩
    show SzCalm _ (s.other e)
    unfold Sz.other
    cases e with
    | crash => exact absurd rfl he
    | exec => simp only; rw [if_neg (by rw [h.ended]; simp)]; exact key false
    | _ => simp only; rw [if_neg (by rw [h.ended]; simp)]; exact key s.busy
  | begin =>
    have hn := nev .begin (by simp)
    unfold Sz.step
    simp only
    split <;> exact ⟨h.ended, hn ▸ h.node, h.known, h.fins, h.nodup, h.left⟩
  | ask c =>
    have hn := nev (.ask c) (by simp)
    unfold Sz.step
    simp only [hruns, if_true]
    refine ⟨h.ended, hn ▸ h.node, ?_, h.fins, h.nodup, ?_⟩
    · intro n d hx
      rcases List.mem_append.mp hx with hx | hx
      · exact h.known n d hx
      · simp only [List.mem_singleton, Prod.mk.injEq] at hx
        rw [hx.2]; exact hk c rfl
    · intro n d hx
      change (s.asked ++ [c])[n]? = some d at hx
      show (n, d) ∈ s.reqs ++ _ ∨ _
      by_cases hlt : n < s.asked.length
      · rw [List.getElem?_append_left hlt] at hx
        rcases h.left n d hx with hx | hx
        · exact .inl (List.mem_append_left _ hx)
        · exact .inr hx
      · have : n = s.asked.length := by
          have := (List.getElem?_eq_some_iff.mp hx).1
          simp at this; omega
        subst this
        simp at hx
        subst hx
        exact .inl (by simp)
  | take =>
    have hn := nev .take (by simp)
    unfold Sz.step
    simp only [hruns, if_true]
    unfold Sz.take
    cases hq : s.reqs with
    | nil => exact ⟨h.ended, hn ▸ h.node, h.known, h.fins, h.nodup, h.left⟩
    | cons x rs =>
      obtain ⟨n, c⟩ := x
      have hin : (n, c) ∈ s.reqs := by rw [hq]; simp
      have hcomp := h.known n c hin
      obtain ⟨n1, n2, n3⟩ := hb.new n c hin
      simp only [hcomp, if_true]
      unfold Sz.count
      have hm := hgood.core.mem c hcomp (by simp)
      obtain ⟨⟨g, docs⟩, hm⟩ := Option.ne_none_iff_exists'.mp hm
      have hwr : Sz.writing { s with reqs := rs, ses := n :: s.ses } c = false := hw rfl n c rs hq
      simp only [hm, hwr, Bool.false_eq_true, if_false]
      refine ⟨h.ended, hn ▸ h.node, fun m d hx => h.known m d (by rw [hq]; simp [hx]), ?_, once_snoc h.nodup n3, ?_⟩
      · intro m a hx
        rcases List.mem_append.mp hx with hx | hx
        · exact List.mem_cons_of_mem _ (h.fins m a hx)
        · simp only [List.mem_singleton, Prod.mk.injEq] at hx
          rw [hx.1]; exact List.mem_cons_self
      · intro m d hx
        rcases h.left m d hx with hx | ⟨a, hx⟩ | hx
        · rw [hq] at hx
          rcases List.mem_cons.mp hx with hx | hx
          · simp only [Prod.mk.injEq] at hx
            exact .inr (.inl ⟨docs.length, by rw [hx.1]; simp⟩)
          · exact .inl hx
        · exact .inr (.inl ⟨a, List.mem_append_left _ hx⟩)
        · exact .inr (.inr hx)
  | finish =>
    have hn := nev .finish (by simp)
    unfold Sz.step
    simp only [hruns, if_true]
    unfold Sz.finish
    cases hq : s.fins with
    | nil => exact ⟨h.ended, hn ▸ h.node, h.known, h.fins, h.nodup, h.left⟩
    | cons x fs =>
      obtain ⟨n, a⟩ := x
      have hin : n ∈ s.ses := h.fins n a (by rw [hq]; simp)
      have nd := h.nodup
      rw [hq] at nd
      simp only [List.map_cons, List.nodup_cons] at nd
      simp only [hin, if_true]
      refine ⟨h.ended, hn ▸ h.node, h.known, ?_, nd.2, ?_⟩
      · intro m b hx
        show m ∈ s.ses.filter (· ≠ n)
        rw [List.mem_filter]
        refine ⟨h.fins m b (by rw [hq]; exact List.mem_cons_of_mem _ hx), ?_⟩
        simp only [ne_eq, decide_not, Bool.not_eq_eq_eq_not, Bool.not_true, decide_eq_false_iff_not]
        intro e
        exact nd.1 (by rw [← e]; exact List.mem_map.mpr ⟨_, hx, rfl⟩)
      · intro m d hx
        show _ ∨ (∃ b, (m, b) ∈ fs) ∨ ∃ b, (m, b) ∈ s.got ++ [(n, a)]
        rcases h.left m d hx with hx | ⟨b, hx⟩ | ⟨b, hx⟩
        · exact .inl hx
        · rw [hq] at hx
          rcases List.mem_cons.mp hx with hx | hx
          · exact .inr (.inr ⟨b, by rw [hx]; simp⟩)
          · exact .inr (.inl ⟨b, hx⟩)
        · exact .inr (.inr ⟨b, List.mem_append_left _ hx⟩)

theorem calm_run (es : List SzEvent) (hd : NoDrops es) (ha : AsksKnown es) (hp : Apart es) : SzCalm es (Sz.init.run es) := by
  suffices h : ∀ (b a : List SzEvent), es = a ++ b → SzCalm a (Sz.init.run a) → SzCalm es (Sz.init.run es) by
    exact h es [] rfl (by constructor <;> simp [Sz.run, Sz.init, nodeEvents, run])
  intro b
  induction b with
  | nil => intro a e h; rw [e, List.append_nil]; exact h
  | cons e b ih =>
    intro a he h
    refine ih (a ++ [e]) (by rw [he]; simp) (calm_step ?_ ?_ ?_ h)
    · exact ⟨fun k p hm => hd.1 k p (by rw [he]; simp at hm ⊢; rcases hm with hm | hm <;> simp [hm]), fun hm => hd.2 (by rw [he]; simp at hm ⊢; rcases hm with hm | hm <;> simp [hm])⟩
    · intro e1 c e2 hx
      exact ha e1 c (e2 ++ b) (by rw [he, show a ++ e :: b = (a ++ [e]) ++ b by simp, hx]; simp)
    · intro e1 e2 hx
      exact hp e1 (e2 ++ b) (by rw [he, show a ++ e :: b = (a ++ [e]) ++ b by simp, hx]; simp)

/-- What C108 would need: asking for sizes never ends the process. -/
def C108_goes_on_claim : Prop := ∀ es : List SzEvent, (Sz.init.run es).ended = false

/-- Asking for the sizes of collections there are never ends the process, as long as nothing is dropped and no collection is counted while it is
written to, whatever else clients do; and it does not change what else happens. -/
theorem C108_goes_on_partial (es : List SzEvent) (hd : NoDrops es) (ha : AsksKnown es) (hp : Apart es) :
    (Sz.init.run es).ended = false ∧ (Sz.init.run es).node = run init (nodeEvents es) ∧ (Sz.init.run es).node.dead = false := by
  have h := calm_run es hd ha hp
  refine ⟨h.ended, h.node, ?_⟩
  rw [h.node]
  exact (no_drops (fun k p hm => hd.1 k p (mem_nodeEvents.mp hm)) (fun hm => hd.2 (mem_nodeEvents.mp hm))).1

/-- Then every request is answered once the dispatcher has handled what was sent to it, with the number of documents at a moment in between. -/
theorem C108_answered_partial (es : List SzEvent) (hd : NoDrops es) (ha : AsksKnown es) (hp : Apart es) (hr : (Sz.init.run es).reqs = [])
    (hf : (Sz.init.run es).fins = []) (n : Nat) (c : Coll) (hn : (Sz.init.run es).asked[n]? = some c) : ∃ a, (n, a) ∈ (Sz.init.run es).got := by
  rcases (calm_run es hd ha hp).left n c hn with h | ⟨a, h⟩ | h
  · rw [hr] at h; simp at h
  · rw [hf] at h; simp at h
  · exact h

/-- Asked while the executor does nothing, the answer is the number of documents there are. -/
theorem C108_size (s : Sz) (c : Coll) (g : Nat) (docs : List Doc) (h : s.runs = true) (hc : s.node.cat.computes c = true) (hm : s.node.mem c = some (g, docs))
    (hb : s.busy = false) (hr : s.reqs = []) (hf : s.fins = []) :
    (s.run [.ask c, .take, .finish]).got = s.got ++ [(s.asked.length, docs.length)] ∧ (s.run [.ask c, .take, .finish]).node = s.node ∧
    (s.run [.ask c, .take, .finish]).ended = false := by
  have he : s.ended = false ∧ s.node.dead = false := by simpa [Sz.runs] using h
  simp [Sz.run, Sz.step, Sz.runs, he, Sz.ask, Sz.take, hr, hc, Sz.count, hm, Sz.writing, hb, hf, Sz.finish, Sz.answer]

/-! ### What goes wrong -/

/-- A database and a collection with two documents. -/
def filled : List SzEvent :=
  [.node (.request 0 (.createDb 1)), .node .disp, .node .disp, .node .wal, .node .disp, .node (.request 0 (.createColl ⟨1, 5⟩)), .node .disp, .node .disp,
    .node .wal, .node .disp, .node (.request 0 (.insert ⟨1, 5⟩ [⟨1, 10⟩, ⟨2, 20⟩])), .node .disp, .node .exec, .node .disp, .node .wal, .node .disp]

/-- The size of a collection that does not exist: 0 is sent, and the process ends. -/
theorem C108_missing_fails (s : Sz) (n : Nat) (c : Coll) (rs : List (Nat × Coll)) (h : s.runs = true) (hr : s.reqs = (n, c) :: rs) (hc : s.node.cat.computes c = false)
    (hm : s.node.mem c = none) : (s.step .take).ended = true ∧ (n, 0) ∈ (s.step .take).got := by
  simp [Sz.step, h, Sz.take, hr, hc, Sz.answer, Sz.count, hm, Sz.die]

example : ((Sz.init.run filled).run [.ask ⟨1, 5⟩, .take, .finish]).got = [(0, 2)] ∧
    ((Sz.init.run filled).run [.ask ⟨1, 6⟩, .take]).ended = true := by decide +kernel

/-- The size of a collection whose database was dropped. -/
theorem C108_dropped_database_fails :
    ((Sz.init.run filled).run [.node (.request 0 (.dropDb 1)), .node .disp, .node .disp, .ask ⟨1, 5⟩, .take, .finish]).ended = true := by decide +kernel

/-- A collection is dropped, and before that is in the log another client asks for its size. -/
theorem C108_drop_fails :
    ((Sz.init.run filled).run [.node (.request 0 (.dropColl ⟨1, 5⟩)), .node .disp, .ask ⟨1, 5⟩, .take]).ended = true := by decide +kernel

/-- The size is asked for while documents are inserted. -/
theorem C108_write_is_ub :
    ((Sz.init.run filled).run [.node (.request 0 (.insert ⟨1, 5⟩ [⟨3, 30⟩])), .node .disp, .begin, .ask ⟨1, 5⟩, .take]).ended = true := by decide +kernel

theorem C108_fails : ¬ C108_goes_on_claim := by
  intro h
  have := h (filled ++ [.ask ⟨1, 6⟩, .take])
  exact absurd this (by decide +kernel)

/-- A schedule that meets the hypotheses: sizes are asked for before, while and after documents are inserted. -/
def counted : List SzEvent := filled ++ [.ask ⟨1, 5⟩, .node (.request 0 (.insert ⟨1, 5⟩ [⟨3, 30⟩])), .take, .node .disp, .ask ⟨1, 5⟩, .take, .finish, .begin, .node .exec,
  .ask ⟨1, 5⟩, .take, .finish, .finish]

example : (Sz.init.run counted).got = [(0, 2), (1, 2), (2, 3)] ∧ (Sz.init.run counted).reqs = [] ∧ (Sz.init.run counted).fins = [] := by decide +kernel

example : NoDrops counted ∧ AsksKnown counted ∧ Apart counted := by
  refine ⟨⟨?_, ?_⟩, ?_, ?_⟩
  · intro k p h
    simp only [counted, filled, List.cons_append, List.nil_append, List.mem_cons, SzEvent.node.injEq, Event.request.injEq, reduceCtorEq, false_or, List.not_mem_nil, or_false] at h
    rcases h with ⟨-, rfl⟩ | ⟨-, rfl⟩ | ⟨-, rfl⟩ | ⟨-, rfl⟩ <;> rfl
  · simp [counted, filled]
  · intro a c b h
    have key : ∀ i : Nat, i < 29 → (match counted[i]? with | some (SzEvent.ask c) => (Sz.init.run (counted.take i)).node.cat.computes c | _ => true) = true := by decide +kernel
    have hl : a.length < 29 := by
      have := congrArg List.length h
      simp [counted, filled] at this; omega
    have := key a.length hl
    rw [h] at this
    simpa using this
  · intro a b h n c rs hr
    have key : ∀ i : Nat, i < 29 → (match counted[i]? with
        | some SzEvent.take => (match (Sz.init.run (counted.take i)).reqs with | (_, c) :: _ => !(Sz.init.run (counted.take i)).writing c | [] => true)
        | _ => true) = true := by decide +kernel
    have hl : a.length < 29 := by
      have := congrArg List.length h
      simp [counted, filled] at this; omega
    have := key a.length hl
    rw [h] at this
    simp only [List.getElem?_append_right (Nat.le_refl a.length), Nat.sub_self, List.getElem?_cons_zero, List.take_left', hr] at this
    simpa using this

end Verif.Node
