import Verif.PoseGraphScheduling
import Verif.Props.WorkQueue
import Verif.Props.ConstraintBuilderCount

/-!
# Properties of the pose graph with its constraint builder (C32, C42)
-/

namespace Verif.PoseGraphScheduling

variable {R : Type}

/-! ## Facts about the parts -/

theorem queue_facts {q : WorkQueue.State} (h : WorkQueue.Inv q) :
    (q.threads = [] ∨ ∃ p, q.threads = [p]) ∧ (q.threads ≠ [] → q.queue ≠ none ∧ q.whenDone ≠ some .handleWorkQueue) ∧
    (q.whenDone = some .handleWorkQueue → q.queue ≠ none) ∧
    (∀ i ∈ q.queue.getD [], i < q.added) ∧ (∀ i, q.threads = [.taken i] → i < q.added) ∧
    (∀ i, q.threads = [.run i] → i < q.added) := by
  obtain ⟨⟨ph, h1, h2, h3⟩, -, -⟩ := h
  have hm : ∀ i, i ∈ WorkQueue.starts q.log ++ (ph.item ++ q.queue.getD []) → i < q.added := by
    intro i hi
    rw [h3] at hi
    exact List.mem_range.1 hi
  refine ⟨?_, ?_, ?_, ?_, ?_, ?_⟩
  · cases ph <;> simp only [WorkQueue.Shape] at h1 <;> grind
  · cases ph <;> simp only [WorkQueue.Shape] at h1 <;> grind
  · cases ph <;> simp only [WorkQueue.Shape] at h1 <;> grind
  · intro i hi
    exact hm i (by simp [hi])
  · intro i hi
    apply hm i
    cases ph <;> simp only [WorkQueue.Shape] at h1 <;> simp [WorkQueue.Phase.item] <;> grind
  · intro i hi
    apply hm i
    cases ph <;> simp only [WorkQueue.Shape] at h1
    case run j =>
      obtain ⟨⟨l', e, -⟩, -⟩ := h2
      have : j = i := by grind
      subst this
      rw [e, WorkQueue.starts_append]
      simp [WorkQueue.starts]
    all_goals grind

theorem begin_facts {b b' : Builder.State R} {t : Nat} (he : Builder.exec b (.begin t) = some b') :
    (b.kind t ≠ .whenDone → b'.constraints = b.constraints ∧ b'.whenDone = b.whenDone) ∧
    (b.kind t = .whenDone → b'.constraints = [] ∧ b'.whenDone = false) ∧
    b'.notified = b.notified ∧ b'.numSlots = b.numSlots ∧ b'.numStarted = b.numStarted ∧ b'.numFinished = b.numFinished := by
  simp only [Builder.exec, Builder.beginTask] at he
  split at he
  · obtain rfl := Option.some.inj he; simp_all
  · split at he
    · obtain rfl := Option.some.inj he; simp_all
    · simp at he
  · obtain rfl := Option.some.inj he; simp_all
  · split at he
    · obtain rfl := Option.some.inj he; simp_all
    · simp at he

theorem finish_facts {b b' : Builder.State R} {t : Nat} {r : Option R} (he : Builder.exec b (.finish t r) = some b') :
    (b.constraints = [] → b'.constraints = []) ∧ b'.whenDone = b.whenDone ∧
    b'.notified = b.notified ∧ b'.numSlots = b.numSlots ∧ b'.numStarted = b.numStarted ∧ b.numFinished ≤ b'.numFinished := by
  simp only [Builder.exec, Builder.finishTask] at he
  split at he
  · split at he
    · obtain rfl := Option.some.inj he; simp_all
    · simp at he
  · split at he
    · split at he
      · obtain rfl := Option.some.inj he; simp_all
      · split at he
        · obtain rfl := Option.some.inj he; simp_all
        · simp at he
    · simp at he
  · obtain rfl := Option.some.inj he; simp_all
  · obtain rfl := Option.some.inj he; simp_all

theorem search_facts (b : Builder.State R) (sm : Nat) :
    (Builder.addSearch b sm).whenDone = b.whenDone ∧ (Builder.addSearch b sm).numStarted = b.numStarted ∧
    (Builder.addSearch b sm).numFinished = b.numFinished := by
  simp only [Builder.addSearch, Builder.dispatch]
  cases b.matcher sm <;> simp

/-! ## Invariant -/

/-- The items which will still notify the end of a node, if they are items of `AddNode`: taken or running and not having notified. -/
def pcItems (hasNotified : Bool) : WorkQueue.Pc → List Nat
  | .taken i => [i]
  | .run i => if hasNotified then [] else [i]
  | _ => []

/-- The items which will still notify the end of a node, if they are items of `AddNode`. -/
def openItems (s : State R) : List Nat := s.q.threads.flatMap (pcItems s.hasNotified) ++ s.q.queue.getD []

/-- The waiter is past the first wait. -/
def Past : WorkQueue.Waiter → Prop
  | .out | .await => False
  | _ => True

/-- The invariant. -/
structure Inv (s : State R) : Prop where
  qi : WorkQueue.Inv s.q
  bi : Builder.Inv s.b
  bd : Builder.DInv s.b
  bc : Builder.CInv s.b
  link : s.b.whenDone = s.q.whenDone.isSome
  notif : s.b.notified = s.b.numSlots ∨ ∃ i, s.q.threads = [.run i] ∧ s.isNode i = true ∧ s.hasNotified = false
  clear : s.q.threads = [.handle] ∨ s.q.threads = [.optimize] → s.b.constraints = []
  acc : (openItems s).countP s.isNode + s.calls + s.b.numStarted = s.nodes
  wait : s.q.waiter ≠ .out → s.calls = 0 ∧ s.saved = s.nodes
  past : Past s.q.waiter → s.q.queue = none
  done : s.q.waiter = .notified → s.b.constraints = [] ∧ s.b.numStarted = s.b.numFinished
  runs : ∀ i, s.q.threads = [.run i] → s.hasNotified = true → s.isNode i = true

/-- Nobody adds nodes or work while a thread is in `WaitForAllComputations`, and it is not entered during a call of `AddNode`. -/
def Disciplined (s : State R) : Act R → Prop
  | .appendNode => s.q.waiter = .out
  | .addNodeItem => s.q.waiter = .out
  | .addItem => s.q.waiter = .out
  | .queue .enterWait => s.calls = 0
  | _ => True

/-- Finite executions in which the clients follow the discipline. -/
inductive DExec : State R → List (Act R) → State R → Prop
  | nil (s : State R) : DExec s [] s
  | cons {s t u : State R} {a : Act R} {as : List (Act R)} : Enabled s a → Disciplined s a → exec s a = some t → DExec t as u →
      DExec s (a :: as) u

theorem inv_init : Inv (init R) := by
  refine ⟨WorkQueue.inv_init, Builder.inv_init, Builder.dinv_init, Builder.cinv_init, rfl, Or.inl rfl, fun _ => rfl, rfl, ?_, ?_, ?_, ?_⟩ <;>
    simp [init, WorkQueue.init, Past]

/-- No thread is in the loop or in `HandleWorkQueue` if the queue is null or a callback is registered. -/
theorem no_threads {s : State R} (h : Inv s) (hw : s.q.whenDone ≠ none ∨ Past s.q.waiter) : s.q.threads = [] := by
  obtain ⟨f1, f2, f3, -⟩ := queue_facts h.qi
  by_contra hc
  obtain ⟨g1, g2⟩ := f2 hc
  have h5 := h.qi.waiter
  rcases hw with hw | hw
  · cases hq : s.q.whenDone with
    | none => exact hw hq
    | some c =>
      cases c with
      | handleWorkQueue => exact g2 hq
      | notifyWaiter => exact g1 (h.past (by rw [h5.1 hq]; trivial))
  · exact g1 (h.past hw)

theorem when_done_false {s : State R} (h : Inv s) {k : Nat} {p : WorkQueue.Pc} (hk : s.q.threads[k]? = some p) :
    s.b.whenDone = false ∧ s.q.threads = [p] ∧ k = 0 := by
  have hne : s.q.threads ≠ [] := by intro e; rw [e] at hk; simp at hk
  have h1 : s.q.whenDone = none := by
    by_contra hc
    exact hne (no_threads h (Or.inl hc))
  obtain ⟨f1, -⟩ := queue_facts h.qi
  refine ⟨by rw [h.link, h1]; rfl, ?_⟩
  rcases f1 with f1 | ⟨p', f1⟩
  · exact absurd f1 hne
  · rw [f1] at hk
    obtain ⟨rfl, rfl⟩ := WorkQueue.get_singleton hk
    exact ⟨f1, rfl⟩

/-! ## The parts follow their protocols -/

/-- The queue can do its part. -/
theorem queue_enabled {s : State R} (h : Inv s) {a : Act R} (ha : Enabled s a) {qa : WorkQueue.Act} (hq : queueAct s a = some qa) :
    WorkQueue.Enabled s.q qa := by
  cases a with
  | appendNode => simp [queueAct] at hq
  | addNodeItem => obtain rfl := Option.some.inj hq; trivial
  | addItem => obtain rfl := Option.some.inj hq; trivial
  | queue a =>
    obtain rfl := Option.some.inj hq
    cases a <;> first | exact ha | exact ha.elim | exact ⟨_, ha.choose_spec.1⟩
  | search k sm => simp [queueAct] at hq
  | notify k => simp [queueAct] at hq
  | trim k sm => simp [queueAct] at hq
  | begin t =>
    simp only [queueAct] at hq
    split at hq
    · obtain rfl := Option.some.inj hq
      obtain ⟨a1, a2, a3⟩ := ha
      have := (h.bi.pend' t a1 ‹_› a2).1
      rw [h.link] at this
      simp only [WorkQueue.Enabled]
      intro e
      rw [e] at this
      simp at this
    · simp at hq
  | finish t r => simp [queueAct] at hq

/-- The clients of the queue follow its protocol. -/
theorem queue_disciplined {s : State R} {a : Act R} (hd : Disciplined s a) {qa : WorkQueue.Act} (ha : Enabled s a)
    (hq : queueAct s a = some qa) : WorkQueue.Disciplined s.q qa := by
  cases a with
  | addNodeItem => obtain rfl := Option.some.inj hq; simp only [Disciplined] at hd; simp [WorkQueue.Disciplined, hd]
  | addItem => obtain rfl := Option.some.inj hq; simp only [Disciplined] at hd; simp [WorkQueue.Disciplined, hd]
  | queue a => obtain rfl := Option.some.inj hq; cases a <;> first | trivial | exact ha.elim
  | begin t =>
    simp only [queueAct] at hq
    split at hq
    · obtain rfl := Option.some.inj hq; trivial
    · simp at hq
  | _ => simp [queueAct] at hq

/-- The builder can do its part, and the pose graph follows the protocol of the builder. -/
theorem builder_ok {s : State R} (h : Inv s) {a : Act R} (ha : Enabled s a) {ba : Builder.Act R} (hb : builderAct a = some ba) :
    Builder.Enabled s.b ba ∧ Builder.Disciplined s.b ba := by
  cases a with
  | appendNode => simp [builderAct] at hb
  | addNodeItem => simp [builderAct] at hb
  | addItem => simp [builderAct] at hb
  | queue a =>
    cases a <;> simp only [builderAct, reduceCtorEq, Option.some.injEq] at hb <;> subst hb
    case requestWhenDone k =>
      obtain ⟨h1, h2, -⟩ := when_done_false h ha
      refine ⟨trivial, h1, ?_⟩
      rcases h.notif with e | ⟨i, e, -⟩
      · exact e
      · rw [h2] at e; simp at e
    case waitRegister =>
      have hp : Past s.q.waiter := by rw [ha]; trivial
      have ht := no_threads h (Or.inr hp)
      obtain ⟨-, -, f3, -⟩ := queue_facts h.qi
      refine ⟨trivial, ?_, ?_⟩
      · rw [h.link]
        cases hq : s.q.whenDone with
        | none => rfl
        | some c =>
          exfalso
          cases c with
          | handleWorkQueue => exact f3 hq (h.past hp)
          | notifyWaiter =>
            have h2 := h.qi.waiter.1 hq
            have h3 : s.q.waiter = .drained := ha
            rw [h3] at h2; simp at h2
      · rcases h.notif with e | ⟨i, e, -⟩
        · exact e
        · rw [ht] at e; simp at e
  | search k sm =>
    obtain rfl := Option.some.inj hb
    obtain ⟨i, h1, -⟩ := ha
    exact ⟨trivial, (when_done_false h h1).1⟩
  | notify k =>
    obtain rfl := Option.some.inj hb
    obtain ⟨i, h1, -⟩ := ha
    exact ⟨trivial, (when_done_false h h1).1⟩
  | trim k sm =>
    obtain rfl := Option.some.inj hb
    obtain ⟨h1, h2, -⟩ := when_done_false h ha
    exact ⟨trivial, h1, h.clear (Or.inr h2)⟩
  | begin t => obtain rfl := Option.some.inj hb; exact ⟨ha, trivial⟩
  | finish t r => obtain rfl := Option.some.inj hb; exact ⟨ha, trivial⟩

/-- An executed action is executed by the parts. -/
theorem exec_parts {s t : State R} {a : Act R} (he : exec s a = some t) :
    execQueue s.q (queueAct s a) = some t.q ∧ execBuilder s.b (builderAct a) = some t.b ∧
    ∃ r, execRest s a = some r ∧ t.nodes = r.nodes ∧ t.calls = r.calls ∧ t.isNode = r.isNode ∧ t.hasNotified = r.hasNotified ∧
      t.saved = r.saved := by
  unfold exec at he
  split at he
  · rename_i q b r e1 e2 e3
    obtain rfl := Option.some.inj he
    exact ⟨e1, e2, r, e3, rfl, rfl, rfl, rfl, rfl⟩
  · simp at he

theorem builder_step {s t : State R} {a : Act R} (h : Inv s) (ha : Enabled s a) (he : exec s a = some t) :
    Builder.Inv t.b ∧ Builder.DInv t.b ∧ Builder.CInv t.b := by
  obtain ⟨-, e2, -⟩ := exec_parts he
  cases hb : builderAct a with
  | none =>
    rw [hb] at e2
    rw [← Option.some.inj e2]
    exact ⟨h.bi, h.bd, h.bc⟩
  | some ba =>
    rw [hb] at e2
    obtain ⟨b1, b2⟩ := builder_ok h ha hb
    exact ⟨Builder.inv_step h.bi b1 e2, Builder.dinv_step h.bi h.bd b1 b2 e2, Builder.cinv_step h.bi h.bc b1 b2 e2⟩

theorem queue_step {s t : State R} {a : Act R} (h : Inv s) (ha : Enabled s a) (he : exec s a = some t) : WorkQueue.Inv t.q := by
  obtain ⟨e1, -⟩ := exec_parts he
  cases hq : queueAct s a with
  | none => rw [hq] at e1; rw [← Option.some.inj e1]; exact h.qi
  | some qa => rw [hq] at e1; exact WorkQueue.inv_step h.qi (queue_enabled h ha hq) e1

/-! ## The invariant is kept -/

theorem open_started {b : Builder.State R} (h : Builder.CInv b) : b.numFinished ≤ b.numStarted := by
  obtain ⟨l, -, -, h⟩ := h.counts
  omega

theorem countP_upd {f : Nat → Bool} {n : Nat} {v : Bool} {l : List Nat} (h : ∀ i ∈ l, i < n) :
    l.countP (Builder.upd f n v) = l.countP f := by
  apply List.countP_congr
  intro i hi
  have := h i hi
  rw [Builder.upd, if_neg (by omega)]

theorem openItems_lt {s : State R} (h : Inv s) : ∀ i ∈ openItems s, i < s.q.added := by
  obtain ⟨f1, -, -, f4, f5, f6⟩ := queue_facts h.qi
  intro i hi
  rcases List.mem_append.1 hi with hi | hi
  · rcases f1 with f1 | ⟨p, f1⟩
    · rw [f1] at hi; simp at hi
    · rw [f1] at hi
      simp only [List.flatMap_cons, List.flatMap_nil, List.append_nil] at hi
      cases p <;> simp only [pcItems, List.not_mem_nil, List.mem_singleton] at hi
      · subst hi; exact f5 _ f1
      · split at hi
        · simp at hi
        · simp only [List.mem_singleton] at hi
          subst hi; exact f6 _ f1
  · exact f4 i hi

theorem add_open {s t : State R} (h : Inv s) {v : Bool} (hq : t.q = WorkQueue.addWorkItem s.q) (hn : t.hasNotified = s.hasNotified)
    (hi : t.isNode = Builder.upd s.isNode s.q.added v) :
    (openItems t).countP t.isNode = (openItems s).countP s.isNode + if v then 1 else 0 := by
  have key : openItems t = openItems s ++ [s.q.added] := by
    unfold openItems
    rw [hq, hn]
    unfold WorkQueue.addWorkItem
    cases hqq : s.q.queue <;> simp [hqq]
  rw [key, hi, List.countP_append, countP_upd (openItems_lt h)]
  congr 1
  cases v <;> simp [Builder.upd]

theorem add_facts (q : WorkQueue.State) : (WorkQueue.addWorkItem q).threads = q.threads ∧
    (WorkQueue.addWorkItem q).whenDone = q.whenDone ∧ (WorkQueue.addWorkItem q).waiter = q.waiter := by
  unfold WorkQueue.addWorkItem
  cases q.queue <;> simp

theorem inv_queue {s t : State R} {a : WorkQueue.Act} (h : Inv s) (ha : Enabled s (.queue a)) (hd : Disciplined s (.queue a))
    (he : exec s (.queue a) = some t) : Inv t := by
  obtain ⟨b1, b2, b3⟩ := builder_step h ha he
  have q1 := queue_step h ha he
  obtain ⟨e1, e2, r, e3, e4, e5, e6, e7, e8⟩ := exec_parts he
  clear he
  obtain ⟨g1, g2, g3, -⟩ := queue_facts h.qi
  simp only [queueAct, execQueue] at e1
  have hth : ∀ {k p}, s.q.threads[k]? = some p → s.q.threads = [p] ∧ k = 0 := fun hk => (when_done_false h hk).2
  obtain ⟨-, -, -, -, i5, i6, i7, i8, i9, i10, i11, i12⟩ := h
  cases a with
  | add => exact ha.elim
  | runCallback => exact ha.elim
  | startDrain =>
    simp only [builderAct, execBuilder, execRest, Option.some.injEq] at e2 e3
    subst e3
    obtain ⟨q, b, nodes, calls, isNode, hasNotified, saved⟩ := t
    simp only at *
    subst e2 e4 e5 e6 e7 e8
    obtain rfl := Option.some.inj e1
    have ht : s.q.threads = [] := by
      obtain ⟨⟨ph, h1, -⟩, -⟩ := q1
      cases ph <;> simp only [WorkQueue.Shape] at h1 <;> grind
    have hp : ¬ Past s.q.waiter := fun hc => by
      obtain ⟨⟨ph, h1, -⟩, -⟩ := q1
      have := i10 hc
      cases ph <;> simp only [WorkQueue.Shape] at h1 <;> grind
    refine ⟨q1, b1, b2, b3, i5, ?_, ?_, ?_, i9, i10, i11, by simp [ht]⟩
    · rcases i6 with e | ⟨i, e, -⟩
      · exact Or.inl e
      · rw [ht] at e; simp at e
    · simp [ht]
    · rw [← i8]; simp [openItems, ht, pcItems]
  | pop k =>
    simp only [builderAct, execBuilder, execRest, Option.some.injEq] at e2 e3
    subst e3
    obtain ⟨q, b, nodes, calls, isNode, hasNotified, saved⟩ := t
    simp only at *
    subst e2 e4 e5 e6 e7 e8
    obtain ⟨ht, rfl⟩ := hth ha
    simp only [WorkQueue.exec, WorkQueue.popItem] at e1
    have hq := (g2 (by simp [ht])).1
    have hp : ¬ Past s.q.waiter := fun hc => hq (i10 hc)
    have i6' : s.b.notified = s.b.numSlots := by
      rcases i6 with e | ⟨i, e, -⟩
      · exact e
      · rw [ht] at e; simp at e
    split at e1
    · exact absurd ‹_› hq
    · rename_i hq'
      obtain rfl := Option.some.inj e1
      refine ⟨q1, b1, b2, b3, i5, Or.inl i6', ?_, ?_, i9, fun hc => absurd hc hp, i11, by simp [ht]⟩
      · simp [ht]
      · rw [← i8]; simp [openItems, ht, pcItems, hq']
    · rename_i i is hq'
      obtain rfl := Option.some.inj e1
      refine ⟨q1, b1, b2, b3, i5, Or.inl i6', ?_, ?_, i9, fun hc => absurd hc hp, i11, by simp [ht]⟩
      · simp [ht]
      · rw [← i8]; simp [openItems, ht, pcItems, hq']
  | beginItem k =>
    simp only [builderAct, execBuilder, execRest, Option.some.injEq] at e2 e3
    subst e3
    obtain ⟨q, b, nodes, calls, isNode, hasNotified, saved⟩ := t
    simp only at *
    subst e2 e4 e5 e6 e7 e8
    obtain ⟨i, hk⟩ := ha
    obtain ⟨ht, rfl⟩ := hth hk
    simp only [WorkQueue.exec, ht] at e1
    obtain rfl := Option.some.inj e1
    have hq := (g2 (by simp [ht])).1
    have i6' : s.b.notified = s.b.numSlots := by
      rcases i6 with e | ⟨i, e, -⟩
      · exact e
      · rw [ht] at e; simp at e
    refine ⟨q1, b1, b2, b3, i5, Or.inl i6', ?_, ?_, i9, fun hc => absurd (i10 hc) hq, i11, by simp⟩
    · simp
    · rw [← i8]; simp [openItems, ht, pcItems]
  | endItem k o =>
    simp only [builderAct, execBuilder, execRest, Option.some.injEq] at e2 e3
    subst e3
    obtain ⟨q, b, nodes, calls, isNode, hasNotified, saved⟩ := t
    simp only at *
    subst e2 e4 e5 e6 e7 e8
    obtain ⟨i, hk, hn⟩ := ha
    obtain ⟨ht, rfl⟩ := hth hk
    simp only [WorkQueue.exec, ht] at e1
    obtain rfl := Option.some.inj e1
    have hq := (g2 (by simp [ht])).1
    have i6' : s.b.notified = s.b.numSlots := by
      rcases i6 with e | ⟨j, e, e', e''⟩
      · exact e
      · rw [ht] at e
        have : i = j := by simpa using e
        subst this
        rw [hn, e''] at e'
        simp at e'
    refine ⟨q1, b1, b2, b3, i5, Or.inl i6', ?_, ?_, i9, fun hc => absurd (i10 hc) hq, i11, by cases o <;> simp⟩
    · cases o <;> simp
    · rw [← i8]
      cases o <;> cases hh : s.hasNotified <;> rw [hh] at hn <;> simp [openItems, ht, pcItems, hh, hn]
  | requestWhenDone k =>
    simp only [builderAct, execBuilder, execRest, Option.some.injEq] at e2 e3
    subst e3
    obtain ⟨q, b, nodes, calls, isNode, hasNotified, saved⟩ := t
    simp only at *
    subst e4 e5 e6 e7 e8
    obtain ⟨ht, rfl⟩ := hth ha
    have hw : s.b.whenDone = false := by
      by_contra hc
      simp only [Builder.exec, Builder.callWhenDone] at e2
      simp [hc] at e2
    rw [Builder.exec_callWhenDone hw] at e2
    obtain rfl := Option.some.inj e2
    simp only [WorkQueue.exec] at e1
    split at e1
    · obtain rfl := Option.some.inj e1
      have hq := (g2 (by simp [ht])).1
      have i6' : s.b.notified = s.b.numSlots := by
        rcases i6 with e | ⟨i, e, -⟩
        · exact e
        · rw [ht] at e; simp at e
      refine ⟨q1, b1, b2, b3, rfl, Or.inl i6', ?_, ?_, i9, fun hc => absurd (i10 hc) hq, i11, by simp [ht]⟩
      · simp [ht]
      · rw [← i8]; simp [openItems, ht, pcItems]
    · simp at e1
  | beginOptimization k =>
    simp only [builderAct, execBuilder, execRest, Option.some.injEq] at e2 e3
    subst e3
    obtain ⟨q, b, nodes, calls, isNode, hasNotified, saved⟩ := t
    simp only at *
    subst e2 e4 e5 e6 e7 e8
    obtain ⟨ht, rfl⟩ := hth ha
    simp only [WorkQueue.exec] at e1
    obtain rfl := Option.some.inj e1
    have i6' : s.b.notified = s.b.numSlots := by
      rcases i6 with e | ⟨i, e, -⟩
      · exact e
      · rw [ht] at e; simp at e
    refine ⟨q1, b1, b2, b3, i5, Or.inl i6', fun _ => i7 (Or.inl ht), ?_, i9, i10, i11, by simp [ht]⟩
    · rw [← i8]; simp [openItems, ht, pcItems]
  | endOptimization k =>
    simp only [builderAct, execBuilder, execRest, Option.some.injEq] at e2 e3
    subst e3
    obtain ⟨q, b, nodes, calls, isNode, hasNotified, saved⟩ := t
    simp only at *
    subst e2 e4 e5 e6 e7 e8
    obtain ⟨ht, rfl⟩ := hth ha
    simp only [WorkQueue.exec] at e1
    obtain rfl := Option.some.inj e1
    have i6' : s.b.notified = s.b.numSlots := by
      rcases i6 with e | ⟨i, e, -⟩
      · exact e
      · rw [ht] at e; simp at e
    refine ⟨q1, b1, b2, b3, i5, Or.inl i6', ?_, ?_, i9, i10, i11, by simp [ht]⟩
    · simp [ht]
    · rw [← i8]; simp [openItems, ht, pcItems]
  | enterWait =>
    simp only [builderAct, execBuilder, execRest, Option.some.injEq] at e2 e3
    subst e3
    obtain ⟨q, b, nodes, calls, isNode, hasNotified, saved⟩ := t
    simp only at *
    subst e2 e4 e5 e6 e7 e8
    simp only [WorkQueue.exec] at e1
    obtain rfl := Option.some.inj e1
    exact ⟨q1, b1, b2, b3, i5, i6, i7, i8, fun _ => ⟨hd, rfl⟩, fun hc => hc.elim, by simp, i12⟩
  | waitDrained =>
    simp only [builderAct, execBuilder, execRest, Option.some.injEq] at e2 e3
    subst e3
    obtain ⟨q, b, nodes, calls, isNode, hasNotified, saved⟩ := t
    simp only at *
    subst e2 e4 e5 e6 e7 e8
    simp only [WorkQueue.exec] at e1
    obtain rfl := Option.some.inj e1
    obtain ⟨a1, a2⟩ := ha
    exact ⟨q1, b1, b2, b3, i5, i6, i7, i8, fun _ => i9 (by simp [a1]), fun _ => a2, by simp, i12⟩
  | waitRegister =>
    simp only [builderAct, execBuilder, execRest, Option.some.injEq] at e2 e3
    subst e3
    obtain ⟨q, b, nodes, calls, isNode, hasNotified, saved⟩ := t
    simp only at *
    subst e4 e5 e6 e7 e8
    have ha' : s.q.waiter = .drained := ha
    have hw : s.b.whenDone = false := by
      by_contra hc
      simp only [Builder.exec, Builder.callWhenDone] at e2
      simp [hc] at e2
    rw [Builder.exec_callWhenDone hw] at e2
    obtain rfl := Option.some.inj e2
    simp only [WorkQueue.exec] at e1
    split at e1
    · obtain rfl := Option.some.inj e1
      exact ⟨q1, b1, b2, b3, rfl, i6, i7, i8, fun _ => i9 (by simp [ha']), fun _ => i10 (by rw [ha']; trivial), by simp, i12⟩
    · simp at e1
  | leaveWait =>
    simp only [builderAct, execBuilder, execRest, Option.some.injEq] at e2 e3
    split at e3
    · obtain rfl := Option.some.inj e3
      obtain ⟨q, b, nodes, calls, isNode, hasNotified, saved⟩ := t
      simp only at *
      subst e2 e4 e5 e6 e7 e8
      simp only [WorkQueue.exec] at e1
      obtain rfl := Option.some.inj e1
      exact ⟨q1, b1, b2, b3, i5, i6, i7, i8, by simp, fun hc => hc.elim, by simp, i12⟩
    · simp at e3

theorem inv_step {s t : State R} {a : Act R} (h : Inv s) (ha : Enabled s a) (hd : Disciplined s a)
    (he : exec s a = some t) : Inv t := by
  cases a with
  | queue a => exact inv_queue h ha hd he
  | appendNode =>
    simp only [exec, queueAct, builderAct, execQueue, execBuilder, execRest, Option.some.injEq] at he
    subst he
    simp only [Disciplined] at hd
    obtain ⟨i1, i2, i3, i4, i5, i6, i7, i8, i9, i10, i11, i12⟩ := h
    refine ⟨i1, i2, i3, i4, i5, i6, i7, ?_, fun hc => absurd hd hc, i10, i11, i12⟩
    simp only [openItems] at i8 ⊢
    omega
  | addNodeItem =>
    obtain ⟨b1, b2, b3⟩ := builder_step h ha he
    have q1 := queue_step h ha he
    simp only [exec, queueAct, builderAct, execQueue, execBuilder, execRest, WorkQueue.exec] at he
    obtain rfl := Option.some.inj he
    simp only [Disciplined] at hd
    obtain ⟨f1, f2, f3⟩ := add_facts s.q
    have hc := add_open (v := true) h (t := ({ s with
        q := WorkQueue.addWorkItem s.q
        calls := s.calls - 1
        isNode := Builder.upd s.isNode s.q.added true })) rfl rfl rfl
    have hlt := (queue_facts h.qi).2.2.2.2.2
    obtain ⟨i1, i2, i3, i4, i5, i6, i7, i8, i9, i10, i11, i12⟩ := h
    refine ⟨q1, b1, b2, b3, by simp [f2, i5], ?_, by simpa [f1] using i7, ?_, ?_, ?_, ?_, ?_⟩
    rotate_right
    · intro i e hn
      simp only [f1] at e
      have := hlt i e
      simp only [Builder.upd]
      rw [if_neg (by omega)]
      exact i12 i e hn
    · rcases i6 with e | ⟨i, e1, e2, e3⟩
      · exact Or.inl e
      · refine Or.inr ⟨i, by simp [f1, e1], ?_, e3⟩
        have := hlt i e1
        simp only [Builder.upd]
        rw [if_neg (by omega)]
        exact e2
    · refine Eq.trans (congrArg (fun x => x + (s.calls - 1) + s.b.numStarted) hc) ?_
      simp only [Enabled] at ha
      simp only [if_true]
      omega
    · simp [f3, hd]
    · simp [f3, hd, Past]
    · simp [f3, hd]
  | addItem =>
    obtain ⟨b1, b2, b3⟩ := builder_step h ha he
    have q1 := queue_step h ha he
    simp only [exec, queueAct, builderAct, execQueue, execBuilder, execRest, WorkQueue.exec] at he
    obtain rfl := Option.some.inj he
    simp only [Disciplined] at hd
    obtain ⟨f1, f2, f3⟩ := add_facts s.q
    have hc := add_open (v := false) h (t := ({ s with
        q := WorkQueue.addWorkItem s.q
        isNode := Builder.upd s.isNode s.q.added false })) rfl rfl rfl
    have hlt := (queue_facts h.qi).2.2.2.2.2
    obtain ⟨i1, i2, i3, i4, i5, i6, i7, i8, i9, i10, i11, i12⟩ := h
    refine ⟨q1, b1, b2, b3, by simp [f2, i5], ?_, by simpa [f1] using i7, ?_, ?_, ?_, ?_, ?_⟩
    rotate_right
    · intro i e hn
      simp only [f1] at e
      have := hlt i e
      simp only [Builder.upd]
      rw [if_neg (by omega)]
      exact i12 i e hn
    · rcases i6 with e | ⟨i, e1, e2, e3⟩
      · exact Or.inl e
      · refine Or.inr ⟨i, by simp [f1, e1], ?_, e3⟩
        have := hlt i e1
        simp only [Builder.upd]
        rw [if_neg (by omega)]
        exact e2
    · refine Eq.trans (congrArg (fun x => x + s.calls + s.b.numStarted) hc) ?_
      simp only [Bool.false_eq_true, if_false]
      omega
    · simp [f3, hd]
    · simp [f3, hd, Past]
    · simp [f3, hd]
  | search k sm =>
    obtain ⟨b1, b2, b3⟩ := builder_step h ha he
    simp only [exec, queueAct, builderAct, execQueue, execBuilder, execRest, Builder.exec] at he
    obtain rfl := Option.some.inj he
    obtain ⟨i, a1, a2, a3⟩ := ha
    obtain ⟨w1, w2, -⟩ := when_done_false h a1
    obtain ⟨-, g2, -⟩ := queue_facts h.qi
    have hq := (g2 (by simp [w2])).1
    obtain ⟨f1, f2, f3⟩ := search_facts s.b sm
    obtain ⟨i1, i2, i3, i4, i5, i6, i7, i8, i9, i10, i11, i12⟩ := h
    refine ⟨i1, b1, b2, b3, by simp [f1, i5], Or.inr ⟨i, w2, a2, a3⟩, by simp [w2], ?_, i9, i10, ?_, i12⟩
    · simp only [f2]; exact i8
    · intro hc
      exact absurd (i10 (by rw [show s.q.waiter = .notified from hc]; trivial)) hq
  | notify k =>
    obtain ⟨b1, b2, b3⟩ := builder_step h ha he
    simp only [exec, queueAct, builderAct, execQueue, execBuilder, execRest, Builder.exec] at he
    obtain rfl := Option.some.inj he
    obtain ⟨i, a1, a2, a3⟩ := ha
    obtain ⟨w1, w2, -⟩ := when_done_false h a1
    obtain ⟨-, g2, -⟩ := queue_facts h.qi
    have hq := (g2 (by simp [w2])).1
    obtain ⟨i1, i2, i3, i4, i5, i6, i7, i8, i9, i10, i11, i12⟩ := h
    refine ⟨i1, b1, b2, b3, i5, Or.inl rfl, by simp [w2], ?_, i9, i10, ?_, by simp [w2, a2]⟩
    · simp only [openItems, w2, pcItems, a3, Bool.false_eq_true, if_false, if_true, List.flatMap_cons, List.flatMap_nil, List.append_nil,
        List.countP_append, List.countP_cons, List.countP_nil, a2, Builder.notifyEndOfNode] at i8 ⊢
      omega
    · intro hc
      exact absurd (i10 (by rw [show s.q.waiter = .notified from hc]; trivial)) hq
  | trim k sm =>
    obtain ⟨b1, b2, b3⟩ := builder_step h ha he
    simp only [exec, queueAct, builderAct, execQueue, execBuilder, execRest, Builder.exec] at he
    obtain rfl := Option.some.inj he
    obtain ⟨i1, i2, i3, i4, i5, i6, i7, i8, i9, i10, i11, i12⟩ := h
    exact ⟨i1, b1, b2, b3, i5, i6, i7, i8, i9, i10, i11, i12⟩
  | begin x =>
    obtain ⟨b1, b2, b3⟩ := builder_step h ha he
    have q1 := queue_step h ha he
    obtain ⟨e1, e2, r, e3, e4, e5, e6, e7, e8⟩ := exec_parts he
    clear he
    simp only [builderAct, execBuilder, execRest, Option.some.injEq] at e2 e3
    subst e3
    obtain ⟨q, b, nodes, calls, isNode, hasNotified, saved⟩ := t
    simp only at *
    subst e4 e5 e6 e7 e8
    obtain ⟨f1, f2, f3, f4, f5, f6⟩ := begin_facts e2
    by_cases hk : s.b.kind x = .whenDone
    · obtain ⟨f7, f8⟩ := f2 hk
      have hcount := Builder.counts_at_callback h.bi h.bc ha hk
      have hwd : s.q.whenDone ≠ none := by
        have := (h.bi.pend' x ha.1 hk ha.2.1).1
        rw [h.link] at this
        intro e
        rw [e] at this
        simp at this
      have ht := no_threads h (Or.inl hwd)
      obtain ⟨i1, i2, i3, i4, i5, i6, i7, i8, i9, i10, i11, i12⟩ := h
      have i6' : s.b.notified = s.b.numSlots := by
        rcases i6 with e | ⟨i, e, -⟩
        · exact e
        · rw [ht] at e; simp at e
      simp only [queueAct, if_pos hk, execQueue, WorkQueue.exec] at e1
      split at e1
      · simp at e1
      · obtain rfl := Option.some.inj e1
        refine ⟨q1, b1, b2, b3, by simp [f8], Or.inl (by simp [f3, f4, i6']), fun _ => f7, ?_, i9, i10, ?_, by simp [ht]⟩
        · rw [← i8]; simp [openItems, ht, pcItems, f5]
        · intro hc
          exact ⟨f7, by simp only [f5, f6]; exact hcount⟩
      · obtain rfl := Option.some.inj e1
        have hreg := i1.waiter.1 ‹_›
        refine ⟨q1, b1, b2, b3, by simp [f8], Or.inl (by simp [f3, f4, i6']), fun _ => f7, ?_, ?_, ?_, ?_, i12⟩
        · rw [← i8]; simp [openItems, f5]
        · intro _; exact i9 (by simp [hreg])
        · intro _; exact i10 (by rw [hreg]; trivial)
        · intro _; exact ⟨f7, by simp only [f5, f6]; exact hcount⟩
    · obtain ⟨f7, f8⟩ := f1 hk
      simp only [queueAct, if_neg hk, execQueue, Option.some.injEq] at e1
      subst e1
      obtain ⟨i1, i2, i3, i4, i5, i6, i7, i8, i9, i10, i11, i12⟩ := h
      refine ⟨i1, b1, b2, b3, by simp [f8, i5], by simp only [f3, f4]; exact i6, by simp only [f7]; exact i7, ?_, i9, i10, ?_, i12⟩
      · simp only [f5]; exact i8
      · simp only [f5, f6, f7]; exact i11
  | finish x r =>
    obtain ⟨b1, b2, b3⟩ := builder_step h ha he
    obtain ⟨e1, e2, r', e3, e4, e5, e6, e7, e8⟩ := exec_parts he
    clear he
    simp only [queueAct, execQueue, builderAct, execBuilder, execRest, Option.some.injEq] at e1 e2 e3
    subst e3
    obtain ⟨q, b, nodes, calls, isNode, hasNotified, saved⟩ := t
    simp only at *
    subst e1 e4 e5 e6 e7 e8
    obtain ⟨f1, f2, f3, f4, f5, f6⟩ := finish_facts e2
    obtain ⟨i1, i2, i3, i4, i5, i6, i7, i8, i9, i10, i11, i12⟩ := h
    refine ⟨i1, b1, b2, b3, by simp [f2, i5], by simp only [f3, f4]; exact i6, fun hc => f1 (i7 hc), ?_, i9, i10, ?_, i12⟩
    · simp only [f5]; exact i8
    · intro hc
      obtain ⟨j1, j2⟩ := i11 hc
      have := open_started b3
      exact ⟨f1 j1, by simp only; omega⟩

theorem inv_exec {s t : State R} {as : List (Act R)} (h : DExec s as t) (hs : Inv s) : Inv t := by
  induction h with
  | nil => exact hs
  | cons ha hd he _ ih => exact ih (inv_step hs ha hd he)

/-! ## Statements -/

theorem exec_mk {s : State R} {a : Act R} {q : WorkQueue.State} {b : Builder.State R} {r : State R}
    (h1 : execQueue s.q (queueAct s a) = some q) (h2 : execBuilder s.b (builderAct a) = some b) (h3 : execRest s a = some r) :
    exec s a = some { r with
      q := q
      b := b } := by
  unfold exec
  rw [h1, h2, h3]

/-- No action fails. -/
theorem step_safe {s : State R} {a : Act R} (h : Inv s) (ha : Enabled s a) : ∃ t, exec s a = some t := by
  have h1 : ∃ q, execQueue s.q (queueAct s a) = some q := by
    cases hq : queueAct s a with
    | none => exact ⟨_, rfl⟩
    | some qa =>
      refine WorkQueue.step_safe h.qi ?_ (queue_enabled h ha hq)
      intro hw
      apply h.past
      rcases hw with hw | hw <;> rw [hw] <;> trivial
  have h2 : ∃ b, execBuilder s.b (builderAct a) = some b := by
    cases hb : builderAct a with
    | none => exact ⟨_, rfl⟩
    | some ba =>
      obtain ⟨b1, b2⟩ := builder_ok h ha hb
      exact Builder.step_safe h.bi h.bd b1 b2
  have h3 : ∃ r, execRest s a = some r := by
    cases a with
    | queue a =>
      cases a with
      | leaveWait =>
        have hw : s.q.waiter = .notified := ha
        have hq := h.past (by rw [hw]; trivial)
        have ht := no_threads h (Or.inr (by rw [hw]; trivial))
        have hacc := h.acc
        simp only [openItems, ht, hq, List.flatMap_nil, Option.getD_none, List.append_nil, List.countP_nil] at hacc
        obtain ⟨w1, w2⟩ := h.wait (by simp [hw])
        obtain ⟨-, w3⟩ := h.done hw
        exact ⟨s, if_pos (by omega)⟩
      | _ => exact ⟨_, rfl⟩
    | _ => exact ⟨_, rfl⟩
  obtain ⟨q, h1⟩ := h1
  obtain ⟨b, h2⟩ := h2
  obtain ⟨r, h3⟩ := h3
  exact ⟨_, exec_mk h1 h2 h3⟩

/-- C32 and C42 for the pose graph: an execution of the pose graph is an execution of the work queue and one of the constraint builder,
in each of which the client follows the protocol; so everything proved about those holds. -/
theorem pose_graph_refines {as : List (Act R)} {s : State R} (h : DExec (init R) as s) :
    (∃ qs, WorkQueue.DExec WorkQueue.init qs s.q) ∧ ∃ bs, Builder.DExec (Builder.init R) bs s.b := by
  suffices H : ∀ s t : State R, DExec s as t → Inv s → (∃ qs, WorkQueue.DExec s.q qs t.q) ∧ ∃ bs, Builder.DExec s.b bs t.b from
    H _ _ h inv_init
  clear h s
  intro s t h
  induction h with
  | nil => exact fun _ => ⟨⟨_, .nil _⟩, ⟨_, .nil _⟩⟩
  | @cons s t u a as ha hd he _ ih =>
    intro hs
    obtain ⟨⟨qs, hq⟩, bs, hb⟩ := ih (inv_step hs ha hd he)
    obtain ⟨e1, e2, -⟩ := exec_parts he
    constructor
    · cases hqa : queueAct s a with
      | none => rw [hqa] at e1; rw [Option.some.inj e1]; exact ⟨qs, hq⟩
      | some qa => rw [hqa] at e1; exact ⟨qa :: qs, .cons (queue_enabled hs ha hqa) (queue_disciplined hd ha hqa) e1 hq⟩
    · cases hba : builderAct a with
      | none => rw [hba] at e2; rw [Option.some.inj e2]; exact ⟨bs, hb⟩
      | some ba =>
        rw [hba] at e2
        obtain ⟨b1, b2⟩ := builder_ok hs ha hba
        exact ⟨ba :: bs, .cons b1 b2 e2 hb⟩

/-- C32 and C42 for the pose graph: no `CHECK` fails in any execution, including the comparison of node counts at the end of
`WaitForAllComputations`. -/
theorem pose_graph_safe {as : List (Act R)} {s : State R} (h : DExec (init R) as s) (a : Act R) (ha : Enabled s a) :
    ∃ t, exec s a = some t :=
  step_safe (inv_exec h inv_init) ha

/-- C32 and C42 for the pose graph: when `WaitForAllComputations` has got its notification, all work has been done, every search has
completed and its constraint has been delivered, every node has been counted, and the destructor of the constraint builder
(constraint_builder_2d.cc:67-75) would not abort. -/
theorem wait_for_all {as : List (Act R)} {s : State R} (h : DExec (init R) as s) (hw : s.q.waiter = .notified) :
    WorkQueue.Settled s.q ∧ s.b.constraints = [] ∧ s.b.numStarted = s.b.numFinished ∧ s.b.numFinished = s.nodes ∧
    s.b.whenDone = false ∧ s.b.cleared = s.b.numSlots ∧ (∀ i < s.b.numSlots, s.b.status (s.b.searchTask i) = .done) ∧
    s.b.results.flatten = (List.range s.b.numSlots).filterMap s.b.found := by
  have hi := inv_exec h inv_init
  have hq := hi.past (by rw [hw]; trivial)
  have ht := no_threads hi (Or.inr (by rw [hw]; trivial))
  have hacc := hi.acc
  simp only [openItems, ht, hq, List.flatMap_nil, Option.getD_none, List.append_nil, List.countP_nil] at hacc
  obtain ⟨w1, w2⟩ := hi.wait (by simp [hw])
  obtain ⟨w0, w3⟩ := hi.done hw
  have hcl : s.b.cleared = s.b.numSlots := by
    have h1 := hi.bi.slots
    have h2 := hi.bi.clr_le
    rw [w0] at h1
    have := congrArg List.length h1
    simp at this
    omega
  have hwd : s.q.whenDone = none := by
    cases hq' : s.q.whenDone with
    | none => rfl
    | some c =>
      exfalso
      cases c with
      | handleWorkQueue => exact (queue_facts hi.qi).2.2.1 hq' hq
      | notifyWaiter => have := hi.qi.waiter.1 hq'; rw [hw] at this; simp at this
  refine ⟨?_, w0, w3, by omega, by rw [hi.link, hwd]; rfl, hcl, ?_, ?_⟩
  · obtain ⟨⟨ph, h1, h2, h3⟩, -, -⟩ := hi.qi
    cases ph <;> simp only [WorkQueue.Shape] at h1
    case idle =>
      refine ⟨?_, h2.1, h2.2, h1.1⟩
      simpa [WorkQueue.Phase.item, h1.1] using h3
    all_goals exact absurd hq h1.1
  · rw [← hcl]; exact hi.bd.done
  · rw [← hcl]; exact hi.bi.delivered

/-- Actions of the threads of the pool (except the begin of further searches). -/
def Internal : Act R → Prop
  | .queue a => WorkQueue.Internal a
  | .notify _ | .begin _ | .finish _ _ => True
  | _ => False

/-- If the pool can do nothing any more, all work has been done and all requests have been answered. -/
theorem settled_of_stuck {s : State R} (h : Inv s) (hs : ∀ a : Act R, Internal a → ¬ Enabled s a) :
    WorkQueue.Settled s.q ∧ s.b.whenDone = false ∧ ∀ i < s.b.numSlots, s.b.status (s.b.searchTask i) = .done := by
  have hb : ∀ a, Builder.Internal a → ¬ Builder.Enabled s.b a := by
    intro a ha he
    cases a with
    | begin t => exact hs (.begin t) trivial he
    | finish t r => exact hs (.finish t r) trivial he
    | _ => simp [Builder.Internal] at ha
  have hw : s.b.whenDone = false := by
    by_contra hc
    obtain ⟨p1, p2, p3⟩ := h.bi.pend (by simpa using hc)
    obtain ⟨a, a1, a2⟩ := Builder.progress h.bi p1 (Or.inl p3)
    exact hb a a1 a2
  refine ⟨WorkQueue.settled_of_stuck h.qi ?_, hw, ?_⟩
  · intro a ha he
    have hin : Internal (R := R) (.queue a) := ha
    cases a with
    | add => simp [WorkQueue.Internal] at ha
    | runCallback =>
      simp only [WorkQueue.Enabled] at he
      have := h.link
      rw [hw] at this
      cases hq : s.q.whenDone with
      | none => exact he hq
      | some c => rw [hq] at this; simp at this
    | endItem k o =>
      obtain ⟨i, hk⟩ := he
      by_cases hn : s.isNode i = s.hasNotified
      · exact hs _ hin ⟨i, hk, hn⟩
      · by_cases hn' : s.isNode i = true
        · exact hs (.notify k) trivial ⟨i, hk, hn', by simpa [hn'] using hn⟩
        · have ht := (when_done_false h hk).2.1
          have := h.runs i ht
          grind
    | _ => exact hs _ hin he
  · intro i hi
    obtain ⟨s1, s2, s3⟩ := h.bi.searchTask_ne hi
    cases hst : s.b.status (s.b.searchTask i) with
    | done => rfl
    | new =>
      rcases h.bi.new_only _ s1 hst with e | e
      · exact absurd e s2
      · exact absurd e s3
    | scheduled =>
      obtain ⟨a, a1, a2⟩ := Builder.progress h.bi s1 (Or.inl hst)
      exact absurd a2 (hb a a1)
    | running =>
      obtain ⟨a, a1, a2⟩ := Builder.progress h.bi s1 (Or.inr hst)
      exact absurd a2 (hb a a1)

/-- A bound which every action of the pool decreases. -/
def bound (s : State R) : Nat × Nat × Nat :=
  (WorkQueue.measure s.q, if s.hasNotified then 0 else 1, Builder.remaining s.b)

/-- The order of the bound. -/
def Less (a b : Nat × Nat × Nat) : Prop := Prod.Lex (· < ·) (Prod.Lex (· < ·) (· < ·)) a b

theorem less_wf : WellFounded Less := (Prod.lex ⟨_, Nat.lt_wfRel.wf⟩ (Prod.lex ⟨_, Nat.lt_wfRel.wf⟩ ⟨_, Nat.lt_wfRel.wf⟩)).wf

theorem bound_step {s t : State R} {a : Act R} (h : Inv s) (ha : Enabled s a) (hn : Internal a) (he : exec s a = some t) :
    Less (bound t) (bound s) := by
  obtain ⟨e1, e2, r, e3, e4, e5, e6, e7, e8⟩ := exec_parts he
  cases hq : queueAct s a with
  | some qa =>
    rw [hq] at e1
    apply Prod.Lex.left
    refine WorkQueue.measure_step h.qi (queue_enabled h ha hq) ?_ e1
    cases a with
    | queue a => obtain rfl := Option.some.inj hq; exact hn
    | begin x =>
      simp only [queueAct] at hq
      split at hq
      · obtain rfl := Option.some.inj hq; trivial
      · simp at hq
    | addNodeItem => exact hn.elim
    | addItem => exact hn.elim
    | _ => simp [queueAct] at hq
  | none =>
    rw [hq] at e1
    have e1 : s.q = t.q := Option.some.inj e1
    unfold bound Less
    rw [← e1]
    apply Prod.Lex.right
    cases a with
    | appendNode | addNodeItem | addItem | search _ _ | trim _ _ => exact hn.elim
    | queue a => simp [queueAct] at hq
    | notify k =>
      obtain ⟨i, -, -, a3⟩ := ha
      apply Prod.Lex.left
      rw [e7, a3]
      obtain rfl := Option.some.inj e3
      simp
    | begin x =>
      have : t.hasNotified = s.hasNotified := by rw [e7]; obtain rfl := Option.some.inj e3; rfl
      rw [this]
      exact Prod.Lex.right _ (Builder.remaining_step (a := .begin x) ha trivial e2)
    | finish x r' =>
      have : t.hasNotified = s.hasNotified := by rw [e7]; obtain rfl := Option.some.inj e3; rfl
      rw [this]
      exact Prod.Lex.right _ (Builder.remaining_step (a := .finish x r') ha trivial e2)

/-- C32 and C42 for the pose graph, no lost wake-up: the pool cannot work for ever without new work; when it can do nothing any more,
all work items and requested optimizations have been done, all searches have completed and all callbacks have been called; and
that state can be reached from every state. -/
theorem pose_graph_completes {as : List (Act R)} {s : State R} (h : DExec (init R) as s) :
    (∀ (f : Nat → State R) (g : Nat → Act R), f 0 = s →
      ¬ ∀ n, Internal (g n) ∧ Enabled (f n) (g n) ∧ exec (f n) (g n) = some (f (n + 1))) ∧
    ((∀ a : Act R, Internal a → ¬ Enabled s a) →
      WorkQueue.Settled s.q ∧ s.b.whenDone = false ∧ ∀ i < s.b.numSlots, s.b.status (s.b.searchTask i) = .done) ∧
    ∃ bs t, (∀ b ∈ bs, Internal b) ∧ DExec s bs t ∧
      WorkQueue.Settled t.q ∧ t.b.whenDone = false ∧ ∀ i < t.b.numSlots, t.b.status (t.b.searchTask i) = .done := by
  have hi := inv_exec h inv_init
  have hdisc : ∀ {s : State R} {a : Act R}, Internal a → Disciplined s a := by
    intro s a ha
    cases a with
    | queue a => cases a <;> first | trivial | exact ha.elim
    | notify _ | begin _ | finish _ _ => trivial
    | _ => exact ha.elim
  refine ⟨?_, settled_of_stuck hi, ?_⟩
  · intro f g h0 hall
    have hinv : ∀ n, Inv (f n) := by
      intro n
      induction n with
      | zero => rw [h0]; exact hi
      | succ n ih =>
        obtain ⟨h1, h2, h3⟩ := hall n
        exact inv_step ih h2 (hdisc h1) h3
    have : ∀ x, Acc Less x → ∀ n, bound (f n) = x → False := by
      intro x hx
      induction hx with
      | intro x _ ih =>
        rintro n rfl
        obtain ⟨h1, h2, h3⟩ := hall n
        exact ih _ (bound_step (hinv n) h2 h1 h3) (n + 1) rfl
    exact this _ (less_wf.apply _) 0 rfl
  · clear h
    have : ∀ x, Acc Less x → ∀ s : State R, Inv s → bound s = x → ∃ bs t, (∀ b ∈ bs, Internal b) ∧ DExec s bs t ∧
      WorkQueue.Settled t.q ∧ t.b.whenDone = false ∧ ∀ i < t.b.numSlots, t.b.status (t.b.searchTask i) = .done := by
      intro x hx
      induction hx with
      | intro x _ ih =>
        rintro s hi rfl
        by_cases hst : ∀ a : Act R, Internal a → ¬ Enabled s a
        · exact ⟨[], s, by simp, .nil s, settled_of_stuck hi hst⟩
        · push Not at hst
          obtain ⟨a, hn, ha⟩ := hst
          obtain ⟨t, he⟩ := step_safe hi ha
          obtain ⟨bs, u, h1, h2, h3⟩ := ih _ (bound_step hi ha hn he) t (inv_step hi ha (hdisc hn) he) rfl
          exact ⟨a :: bs, u, by simpa using ⟨hn, h1⟩, .cons ha (hdisc hn) he h2, h3⟩
    exact this _ (less_wf.apply _) s hi rfl

/-! ## Without the discipline -/

/-- One action from and to a given state. -/
theorem step_to {q q' : WorkQueue.State} {b b' : Builder.State R} {n n' c c' : Nat} {f f' : Nat → Bool} {v v' : Bool} {w w' : Nat}
    {a : Act R} (h1 : execQueue q (queueAct ⟨q, b, n, c, f, v, w⟩ a) = some q') (h2 : execBuilder b (builderAct a) = some b')
    (h3 : execRest ⟨q, b, n, c, f, v, w⟩ a = some ⟨q, b, n', c', f', v', w'⟩) :
    exec ⟨q, b, n, c, f, v, w⟩ a = some ⟨q', b', n', c', f', v', w'⟩ :=
  exec_mk (s := ⟨q, b, n, c, f, v, w⟩) h1 h2 h3

/-- `Exec.cons` with the arguments in another order. -/
theorem Exec.cons' {s t u : State R} {a : Act R} {as : List (Act R)} (he : exec s a = some t) (ha : Enabled s a) (h : Exec t as u) :
    Exec s (a :: as) u := .cons ha he h

/-- `DExec.cons` with the arguments in another order. -/
theorem DExec.cons' {s t u : State R} {a : Act R} {as : List (Act R)} (he : exec s a = some t) (ha : Enabled s a)
    (hd : Disciplined s a) (h : DExec t as u) : DExec s (a :: as) u := .cons ha hd he h

/-- The queue in the run below. -/
def raceQueue (queue : Option (List Nat)) (scheduled : Nat) (threads : List WorkQueue.Pc) (whenDone : Option WorkQueue.Callback)
    (waiter : WorkQueue.Waiter) (added : Nat) (log : List WorkQueue.Event) : WorkQueue.State :=
  { queue := queue, scheduled := scheduled, threads := threads, whenDone := whenDone, waiter := waiter, added := added, log := log }

/-- A node added while another thread is in `WaitForAllComputations`, after the first wait: the callback which that thread registers
does not wait for the search started by the work item and removes the element into which the search writes. -/
theorem wait_race_loses_search : ∃ (as : List (Act Nat)) (s : State Nat) (a : Act Nat), Exec (init Nat) as s ∧ Enabled s a ∧
    exec s a = none := by
  obtain ⟨s2, s3, s4, s5, s6, ⟨a2, b2⟩, ⟨a3, b3⟩, ⟨a4, b4⟩, b5, ⟨a6, b6⟩, ⟨a7, b7⟩, k2, k3, k1⟩ := Builder.lost_run
  have k3' : s3.kind 3 ≠ .whenDone := by rw [k3]; simp
  have k2' : (Builder.addSearch (Builder.init Nat) 5).kind 2 ≠ .whenDone := by rw [k2]; simp
  let f0 : Nat → Bool := fun _ => false
  let f1 : Nat → Bool := Builder.upd f0 0 true
  let run := raceQueue (some []) 0 [.run 0] none .drained 1 [.start 0]
  have x1 : exec (init Nat) (.queue .enterWait) = some ⟨raceQueue none 0 [] none .await 0 [], Builder.init Nat, 0, 0, f0, false, 0⟩ :=
    step_to rfl rfl rfl
  have x2 : exec ⟨raceQueue none 0 [] none .await 0 [], Builder.init Nat, 0, 0, f0, false, 0⟩ (.queue .waitDrained) =
      some ⟨raceQueue none 0 [] none .drained 0 [], Builder.init Nat, 0, 0, f0, false, 0⟩ := step_to rfl rfl rfl
  have x3 : exec ⟨raceQueue none 0 [] none .drained 0 [], Builder.init Nat, 0, 0, f0, false, 0⟩ .appendNode =
      some ⟨raceQueue none 0 [] none .drained 0 [], Builder.init Nat, 1, 1, f0, false, 0⟩ := step_to rfl rfl rfl
  have x4 : exec ⟨raceQueue none 0 [] none .drained 0 [], Builder.init Nat, 1, 1, f0, false, 0⟩ .addNodeItem =
      some ⟨raceQueue (some [0]) 1 [] none .drained 1 [], Builder.init Nat, 1, 0, f1, false, 0⟩ := step_to rfl rfl rfl
  have x5 : exec ⟨raceQueue (some [0]) 1 [] none .drained 1 [], Builder.init Nat, 1, 0, f1, false, 0⟩ (.queue .startDrain) =
      some ⟨raceQueue (some [0]) 0 [.top] none .drained 1 [], Builder.init Nat, 1, 0, f1, false, 0⟩ := step_to rfl rfl rfl
  have x6 : exec ⟨raceQueue (some [0]) 0 [.top] none .drained 1 [], Builder.init Nat, 1, 0, f1, false, 0⟩ (.queue (.pop 0)) =
      some ⟨raceQueue (some []) 0 [.taken 0] none .drained 1 [], Builder.init Nat, 1, 0, f1, false, 0⟩ := step_to rfl rfl rfl
  have x7 : exec ⟨raceQueue (some []) 0 [.taken 0] none .drained 1 [], Builder.init Nat, 1, 0, f1, false, 0⟩ (.queue (.beginItem 0)) =
      some ⟨run, Builder.init Nat, 1, 0, f1, false, 0⟩ := step_to rfl rfl rfl
  have x8 : exec ⟨run, Builder.init Nat, 1, 0, f1, false, 0⟩ (.search 0 5) =
      some ⟨run, Builder.addSearch (Builder.init Nat) 5, 1, 0, f1, false, 0⟩ := step_to rfl rfl rfl
  have x9 : exec ⟨run, Builder.addSearch (Builder.init Nat) 5, 1, 0, f1, false, 0⟩ (.begin 2) = some ⟨run, s2, 1, 0, f1, false, 0⟩ :=
    step_to (by simp only [queueAct, if_neg k2', execQueue]) b2 rfl
  have x10 : exec ⟨run, s2, 1, 0, f1, false, 0⟩ (.finish 2 none) = some ⟨run, s3, 1, 0, f1, false, 0⟩ := step_to rfl b3 rfl
  have x11 : exec ⟨run, s3, 1, 0, f1, false, 0⟩ (.begin 3) = some ⟨run, s4, 1, 0, f1, false, 0⟩ :=
    step_to (by simp only [queueAct, if_neg k3', execQueue]) b4 rfl
  have x12 : exec ⟨run, s4, 1, 0, f1, false, 0⟩ (.queue .waitRegister) =
      some ⟨raceQueue (some []) 0 [.run 0] (some .notifyWaiter) .registered 1 [.start 0], s5, 1, 0, f1, false, 0⟩ :=
    step_to rfl b5 rfl
  have x13 : exec ⟨raceQueue (some []) 0 [.run 0] (some .notifyWaiter) .registered 1 [.start 0], s5, 1, 0, f1, false, 0⟩ (.begin 1) =
      some ⟨raceQueue (some []) 0 [.run 0] none .notified 1 [.start 0], s6, 1, 0, f1, false, 0⟩ :=
    step_to (by simp only [queueAct, if_pos k1]; rfl) b6 rfl
  refine ⟨_, _, .finish 3 (some 7), .cons' x1 rfl (.cons' x2 ⟨rfl, rfl⟩ (.cons' x3 trivial (.cons' x4 Nat.one_pos (.cons' x5 Nat.one_pos
    (.cons' x6 rfl (.cons' x7 ⟨0, rfl⟩ (.cons' x8 ⟨0, rfl, rfl, rfl⟩ (.cons' x9 a2 (.cons' x10 a3 (.cons' x11 a4 (.cons' x12 rfl
    (.cons' x13 a6 (.nil _))))))))))))), a7, ?_⟩
  simp only [exec, queueAct, builderAct, execQueue, execBuilder, b7]

/-! ## Example -/

/-- A node is added, its work item notifies without a search, and the pose graph waits for all computations. -/
example : ∃ as s, DExec (init Nat) as s ∧ s.q.waiter = .notified ∧ s.nodes = 1 := by
  let f0 : Nat → Bool := fun _ => false
  let f1 : Nat → Bool := Builder.upd f0 0 true
  let b1 := Builder.notifyEndOfNode (Builder.init Nat)
  let l : List WorkQueue.Event := [.start 0, .finish 0 false]
  obtain ⟨b2, b3, b4, b5, y2, y3, y4, y5, z3, z4, z5, k3, k5⟩ : ∃ b2 b3 b4 b5, Builder.exec b1 .callWhenDone = some b2 ∧
      Builder.exec b2 (.begin 0) = some b3 ∧ Builder.exec b3 (.finish 0 none) = some b4 ∧ Builder.exec b4 (.begin 1) = some b5 ∧
      Builder.Enabled b2 (.begin 0) ∧ Builder.Enabled b3 (.finish 0 none) ∧ Builder.Enabled b4 (.begin 1) ∧
      b2.kind 0 = .finishNode ∧ b4.kind 1 = .whenDone := by
    refine ⟨_, _, _, _, Builder.exec_callWhenDone rfl, rfl, rfl, rfl, ?_⟩
    simp [Builder.Enabled, b1, Builder.notifyEndOfNode, Builder.init, Builder.upd]
  have k3' : b2.kind 0 ≠ .whenDone := by rw [k3]; simp
  have x1 : exec (init Nat) .appendNode = some ⟨raceQueue none 0 [] none .out 0 [], Builder.init Nat, 1, 1, f0, false, 0⟩ :=
    step_to rfl rfl rfl
  have x2 : exec ⟨raceQueue none 0 [] none .out 0 [], Builder.init Nat, 1, 1, f0, false, 0⟩ .addNodeItem =
      some ⟨raceQueue (some [0]) 1 [] none .out 1 [], Builder.init Nat, 1, 0, f1, false, 0⟩ := step_to rfl rfl rfl
  have x3 : exec ⟨raceQueue (some [0]) 1 [] none .out 1 [], Builder.init Nat, 1, 0, f1, false, 0⟩ (.queue .startDrain) =
      some ⟨raceQueue (some [0]) 0 [.top] none .out 1 [], Builder.init Nat, 1, 0, f1, false, 0⟩ := step_to rfl rfl rfl
  have x4 : exec ⟨raceQueue (some [0]) 0 [.top] none .out 1 [], Builder.init Nat, 1, 0, f1, false, 0⟩ (.queue (.pop 0)) =
      some ⟨raceQueue (some []) 0 [.taken 0] none .out 1 [], Builder.init Nat, 1, 0, f1, false, 0⟩ := step_to rfl rfl rfl
  have x5 : exec ⟨raceQueue (some []) 0 [.taken 0] none .out 1 [], Builder.init Nat, 1, 0, f1, false, 0⟩ (.queue (.beginItem 0)) =
      some ⟨raceQueue (some []) 0 [.run 0] none .out 1 [.start 0], Builder.init Nat, 1, 0, f1, false, 0⟩ := step_to rfl rfl rfl
  have x6 : exec ⟨raceQueue (some []) 0 [.run 0] none .out 1 [.start 0], Builder.init Nat, 1, 0, f1, false, 0⟩ (.notify 0) =
      some ⟨raceQueue (some []) 0 [.run 0] none .out 1 [.start 0], b1, 1, 0, f1, true, 0⟩ := step_to rfl rfl rfl
  have x7 : exec ⟨raceQueue (some []) 0 [.run 0] none .out 1 [.start 0], b1, 1, 0, f1, true, 0⟩ (.queue (.endItem 0 false)) =
      some ⟨raceQueue (some []) 0 [.top] none .out 1 l, b1, 1, 0, f1, true, 0⟩ := step_to rfl rfl rfl
  have x8 : exec ⟨raceQueue (some []) 0 [.top] none .out 1 l, b1, 1, 0, f1, true, 0⟩ (.queue (.pop 0)) =
      some ⟨raceQueue none 0 [] none .out 1 l, b1, 1, 0, f1, true, 0⟩ := step_to rfl rfl rfl
  have x9 : exec ⟨raceQueue none 0 [] none .out 1 l, b1, 1, 0, f1, true, 0⟩ (.queue .enterWait) =
      some ⟨raceQueue none 0 [] none .await 1 l, b1, 1, 0, f1, true, 1⟩ := step_to rfl rfl rfl
  have x10 : exec ⟨raceQueue none 0 [] none .await 1 l, b1, 1, 0, f1, true, 1⟩ (.queue .waitDrained) =
      some ⟨raceQueue none 0 [] none .drained 1 l, b1, 1, 0, f1, true, 1⟩ := step_to rfl rfl rfl
  have x11 : exec ⟨raceQueue none 0 [] none .drained 1 l, b1, 1, 0, f1, true, 1⟩ (.queue .waitRegister) =
      some ⟨raceQueue none 0 [] (some .notifyWaiter) .registered 1 l, b2, 1, 0, f1, true, 1⟩ := step_to rfl y2 rfl
  have x12 : exec ⟨raceQueue none 0 [] (some .notifyWaiter) .registered 1 l, b2, 1, 0, f1, true, 1⟩ (.begin 0) =
      some ⟨raceQueue none 0 [] (some .notifyWaiter) .registered 1 l, b3, 1, 0, f1, true, 1⟩ :=
    step_to (by simp only [queueAct, if_neg k3', execQueue]) y3 rfl
  have x13 : exec ⟨raceQueue none 0 [] (some .notifyWaiter) .registered 1 l, b3, 1, 0, f1, true, 1⟩ (.finish 0 none) =
      some ⟨raceQueue none 0 [] (some .notifyWaiter) .registered 1 l, b4, 1, 0, f1, true, 1⟩ := step_to rfl y4 rfl
  have x14 : exec ⟨raceQueue none 0 [] (some .notifyWaiter) .registered 1 l, b4, 1, 0, f1, true, 1⟩ (.begin 1) =
      some ⟨raceQueue none 0 [] none .notified 1 l, b5, 1, 0, f1, true, 1⟩ :=
    step_to (by simp only [queueAct, if_pos k5]; rfl) y5 rfl
  exact ⟨_, _, .cons' x1 trivial rfl (.cons' x2 Nat.one_pos rfl (.cons' x3 Nat.one_pos trivial (.cons' x4 rfl trivial
    (.cons' x5 ⟨0, rfl⟩ trivial (.cons' x6 ⟨0, rfl, rfl, rfl⟩ trivial (.cons' x7 ⟨0, rfl, rfl⟩ trivial (.cons' x8 rfl trivial
    (.cons' x9 rfl rfl (.cons' x10 ⟨rfl, rfl⟩ trivial (.cons' x11 rfl trivial (.cons' x12 z3 trivial (.cons' x13 z4 trivial
    (.cons' x14 z5 trivial (.nil _)))))))))))))), rfl, rfl⟩

end Verif.PoseGraphScheduling
