import Verif.WorkQueue
import Mathlib.Data.List.Basic
import Mathlib.Data.List.Range
import Mathlib.Tactic.Common

/-!
# Properties of the work queue of the pose graph (C32)
-/

namespace Verif.WorkQueue

/-! ## Specification -/

/-- The items started, in order. -/
def starts : List Event → List Nat
  | [] => []
  | .start i :: l => i :: starts l
  | _ :: l => starts l

/-- Number of events satisfying `p`. -/
def count (p : Event → Bool) (l : List Event) : Nat := (l.filter p).length

/-- Begin of a work item. -/
def isStart : Event → Bool
  | .start _ => true
  | _ => false

/-- End of a work item. -/
def isFinish : Event → Bool
  | .finish _ _ => true
  | _ => false

/-- End of a work item which requests an optimization. -/
def isRequest : Event → Bool
  | .finish _ true => true
  | _ => false

/-- No work item is running. -/
def NoItem (l : List Event) : Prop := count isStart l = count isFinish l

/-- No optimization is requested or in progress. -/
def NoOptimization (l : List Event) : Prop :=
  count isRequest l = count (· = .optEnd) l ∧ count (· = .optBegin) l = count (· = .optEnd) l

/-- Exactly one requested optimization, which has not begun. -/
def OneRequest (l : List Event) : Prop :=
  count isRequest l = count (· = .optEnd) l + 1 ∧ count (· = .optBegin) l = count (· = .optEnd) l

/-- Exactly one optimization, which has begun. -/
def OneOptimization (l : List Event) : Prop :=
  count isRequest l = count (· = .optEnd) l + 1 ∧ count (· = .optBegin) l = count (· = .optEnd) l + 1

/-- What may happen after the events `pre`: an item starts only if no item is running and no optimization is requested or in
progress; only the running item ends; an optimization begins only on request, with no item running. -/
def Allowed (pre : List Event) : Event → Prop
  | .start _ => NoItem pre ∧ NoOptimization pre
  | .finish i _ => ∃ l, pre = l ++ [.start i]
  | .optBegin => NoItem pre ∧ OneRequest pre
  | .optEnd => NoItem pre ∧ OneOptimization pre

/-- The log is serial. -/
def Serial (l : List Event) : Prop := ∀ pre e post, l = pre ++ e :: post → Allowed pre e

/-! ## Invariant -/

/-- What the one active token is doing. -/
inductive Phase where
  | idle
  | ready
  | taken (i : Nat)
  | run (i : Nat)
  | request
  | optimize

/-- The shape of the state in a phase. -/
def Shape (s : State) : Phase → Prop
  | .idle => s.queue = none ∧ s.scheduled = 0 ∧ s.threads = [] ∧ s.whenDone ≠ some .handleWorkQueue
  | .ready => s.queue ≠ none ∧ (s.scheduled = 1 ∧ s.threads = [] ∨ s.scheduled = 0 ∧ s.threads = [.top]) ∧
      s.whenDone ≠ some .handleWorkQueue
  | .taken i => s.queue ≠ none ∧ s.scheduled = 0 ∧ s.threads = [.taken i] ∧ s.whenDone ≠ some .handleWorkQueue
  | .run i => s.queue ≠ none ∧ s.scheduled = 0 ∧ s.threads = [.run i] ∧ s.whenDone ≠ some .handleWorkQueue
  | .request => s.queue ≠ none ∧ s.scheduled = 0 ∧ (s.threads = [.request] ∧ s.whenDone ≠ some .handleWorkQueue ∨
      s.threads = [] ∧ s.whenDone = some .handleWorkQueue ∨ s.threads = [.handle] ∧ s.whenDone ≠ some .handleWorkQueue)
  | .optimize => s.queue ≠ none ∧ s.scheduled = 0 ∧ s.threads = [.optimize] ∧ s.whenDone ≠ some .handleWorkQueue

/-- The log in a phase. -/
def LogAt (l : List Event) : Phase → Prop
  | .idle | .ready | .taken _ => NoItem l ∧ NoOptimization l
  | .run i => (∃ l', l = l' ++ [.start i] ∧ NoItem l') ∧ NoOptimization l
  | .request => NoItem l ∧ OneRequest l
  | .optimize => NoItem l ∧ OneOptimization l

/-- The item taken from the queue and not yet started. -/
def Phase.item : Phase → List Nat
  | .taken i => [i]
  | _ => []

/-- The invariant. -/
structure Inv (s : State) : Prop where
  phase : ∃ ph, Shape s ph ∧ LogAt s.log ph ∧ starts s.log ++ (ph.item ++ s.queue.getD []) = List.range s.added
  serial : Serial s.log
  waiter : s.whenDone = some .notifyWaiter ↔ s.waiter = .registered

theorem starts_append (a b : List Event) : starts (a ++ b) = starts a ++ starts b := by
  induction a with
  | nil => rfl
  | cons e a ih => cases e <;> simp [starts, ih]

theorem count_snoc (p : Event → Bool) (l : List Event) (e : Event) :
    count p (l ++ [e]) = count p l + if p e then 1 else 0 := by
  simp only [count, List.filter_append, List.length_append]
  by_cases h : p e = true <;> simp [h]

theorem serial_snoc {l : List Event} {e : Event} (h : Serial l) (he : Allowed l e) : Serial (l ++ [e]) := by
  intro pre f post hl
  rcases List.eq_nil_or_concat post with rfl | ⟨post', g, rfl⟩
  · obtain ⟨h1, h2⟩ := List.append_inj' hl rfl
    obtain ⟨rfl⟩ : e = f := by simpa using h2
    subst h1
    exact he
  · rw [List.concat_eq_append, ← List.cons_append, ← List.append_assoc] at hl
    obtain ⟨h1, -⟩ := List.append_inj' hl rfl
    exact h _ _ _ h1

theorem get_singleton {p q : Pc} {k : Nat} (h : [p][k]? = some q) : k = 0 ∧ p = q := by
  cases k with
  | zero => simpa using h
  | succ k => simp at h

theorem inv_init : Inv init := by
  refine ⟨⟨.idle, ⟨rfl, rfl, rfl, by simp [init]⟩, ⟨rfl, rfl, rfl⟩, rfl⟩, ?_, ?_⟩
  · intro pre e post h
    simp [init] at h
  · simp [init]

theorem inv_add {s : State} (h : Inv s) : Inv (addWorkItem s) := by
  obtain ⟨⟨ph, h1, h2, h3⟩, h4, h5⟩ := h
  unfold addWorkItem
  cases hq : s.queue with
  | none =>
    rw [hq] at h3
    have : ph = .idle := by cases ph <;> simp_all [Shape]
    subst this
    refine ⟨⟨.ready, ?_, h2, ?_⟩, h4, h5⟩
    · simp_all [Shape]
    · simp_all [Phase.item, List.range_succ]
  | some q =>
    rw [hq] at h3
    refine ⟨⟨ph, ?_, h2, ?_⟩, h4, h5⟩
    · cases ph <;> simp_all [Shape]
    · simp only [hq, Option.map_some, Option.getD_some, List.range_succ, ← h3, List.append_assoc]

theorem inv_step {s t : State} {a : Act} (h : Inv s) (ha : Enabled s a) (he : exec s a = some t) : Inv t := by
  cases a with
  | add =>
    obtain rfl := Option.some.inj he
    exact inv_add h
  | startDrain =>
    obtain ⟨⟨ph, h1, h2, h3⟩, h4, h5⟩ := h
    obtain rfl := Option.some.inj he
    simp only [Enabled] at ha
    refine ⟨⟨ph, ?_, h2, h3⟩, h4, h5⟩
    cases ph <;> simp only [Shape] at h1 ⊢ <;> grind
  | pop k =>
    obtain ⟨⟨ph, h1, h2, h3⟩, h4, h5⟩ := h
    simp only [Enabled] at ha
    have hph : ph = .ready ∧ s.threads = [.top] ∧ k = 0 := by
      cases ph <;> simp only [Shape] at h1 <;> grind [get_singleton]
    obtain ⟨rfl, ht, rfl⟩ := hph
    simp only [exec, popItem] at he
    cases hq : s.queue with
    | none => simp [hq] at he
    | some q =>
      cases q with
      | nil =>
        simp only [hq] at he
        obtain rfl := Option.some.inj he
        refine ⟨⟨.idle, ?_, h2, ?_⟩, h4, h5⟩
        · simp_all [Shape]
        · simp_all [Phase.item]
      | cons i q =>
        simp only [hq] at he
        obtain rfl := Option.some.inj he
        refine ⟨⟨.taken i, ?_, h2, ?_⟩, h4, h5⟩
        · simp_all [Shape]
        · simp_all [Phase.item]
  | beginItem k =>
    obtain ⟨⟨ph, h1, h2, h3⟩, h4, h5⟩ := h
    obtain ⟨i, ha⟩ := ha
    have hph : ph = .taken i ∧ s.threads = [.taken i] ∧ k = 0 := by
      cases ph <;> simp only [Shape] at h1 <;> grind [get_singleton]
    obtain ⟨rfl, ht, rfl⟩ := hph
    simp only [exec, ha] at he
    obtain rfl := Option.some.inj he
    refine ⟨⟨.run i, ?_, ⟨⟨_, rfl, h2.1⟩, ?_⟩, ?_⟩, serial_snoc h4 h2, h5⟩
    · simp_all [Shape]
    · have := h2.2
      simpa [NoOptimization, count_snoc, isRequest] using this
    · simp_all [Phase.item, starts_append, starts]
  | endItem k opt =>
    obtain ⟨⟨ph, h1, h2, h3⟩, h4, h5⟩ := h
    obtain ⟨i, ha⟩ := ha
    have hph : ph = .run i ∧ s.threads = [.run i] ∧ k = 0 := by
      cases ph <;> simp only [Shape] at h1 <;> grind [get_singleton]
    obtain ⟨rfl, ht, rfl⟩ := hph
    simp only [exec, ha] at he
    obtain rfl := Option.some.inj he
    obtain ⟨⟨l', hl, hn⟩, ho⟩ := h2
    have hno : NoItem (s.log ++ [Event.finish i opt]) := by
      simp only [NoItem, hl, count_snoc] at hn ⊢
      simp [isStart, isFinish, hn]
    cases opt with
    | true =>
      refine ⟨⟨.request, ?_, ⟨hno, ?_⟩, ?_⟩, serial_snoc h4 ⟨l', hl⟩, h5⟩
      · simp_all [Shape]
      · simpa [OneRequest, NoOptimization, count_snoc, isRequest] using ho
      · simp_all [Phase.item, starts_append, starts]
    | false =>
      refine ⟨⟨.ready, ?_, ⟨hno, ?_⟩, ?_⟩, serial_snoc h4 ⟨l', hl⟩, h5⟩
      · simp_all [Shape]
      · simpa [NoOptimization, count_snoc, isRequest] using ho
      · simp_all [Phase.item, starts_append, starts]
  | requestWhenDone k =>
    obtain ⟨⟨ph, h1, h2, h3⟩, h4, h5⟩ := h
    simp only [Enabled] at ha
    have hph : ph = .request ∧ s.threads = [.request] ∧ k = 0 := by
      cases ph <;> simp only [Shape] at h1 <;> grind [get_singleton]
    obtain ⟨rfl, ht, rfl⟩ := hph
    simp only [exec] at he
    split at he
    next hw =>
      obtain rfl := Option.some.inj he
      refine ⟨⟨.request, ?_, h2, h3⟩, h4, ?_⟩
      · simp_all [Shape]
      · simp_all
    next => simp at he
  | runCallback =>
    obtain ⟨⟨ph, h1, h2, h3⟩, h4, h5⟩ := h
    simp only [exec] at he
    split at he
    next => simp at he
    next hw =>
      obtain rfl := Option.some.inj he
      have hph : ph = .request := by cases ph <;> simp_all [Shape]
      subst hph
      refine ⟨⟨.request, ?_, h2, h3⟩, h4, ?_⟩
      · simp_all [Shape]
      · simp_all
    next hw =>
      obtain rfl := Option.some.inj he
      refine ⟨⟨ph, ?_, h2, h3⟩, h4, ?_⟩
      · cases ph <;> simp_all [Shape]
      · simp_all
  | beginOptimization k =>
    obtain ⟨⟨ph, h1, h2, h3⟩, h4, h5⟩ := h
    simp only [Enabled] at ha
    have hph : ph = .request ∧ s.threads = [.handle] ∧ k = 0 := by
      cases ph <;> simp only [Shape] at h1 <;> grind [get_singleton]
    obtain ⟨rfl, ht, rfl⟩ := hph
    obtain rfl := Option.some.inj he
    refine ⟨⟨.optimize, ?_, ⟨?_, ?_⟩, ?_⟩, serial_snoc h4 h2, h5⟩
    · simp_all [Shape]
    · simpa [NoItem, count_snoc, isStart, isFinish] using h2.1
    · simpa [OneRequest, OneOptimization, count_snoc, isRequest] using h2.2
    · simp_all [Phase.item, starts_append, starts]
  | endOptimization k =>
    obtain ⟨⟨ph, h1, h2, h3⟩, h4, h5⟩ := h
    simp only [Enabled] at ha
    have hph : ph = .optimize ∧ s.threads = [.optimize] ∧ k = 0 := by
      cases ph <;> simp only [Shape] at h1 <;> grind [get_singleton]
    obtain ⟨rfl, ht, rfl⟩ := hph
    obtain rfl := Option.some.inj he
    refine ⟨⟨.ready, ?_, ⟨?_, ?_⟩, ?_⟩, serial_snoc h4 h2, h5⟩
    · simp_all [Shape]
    · simpa [NoItem, count_snoc, isStart, isFinish] using h2.1
    · simpa [NoOptimization, OneOptimization, count_snoc, isRequest] using h2.2
    · simp_all [Phase.item, starts_append, starts]
  | enterWait =>
    obtain ⟨⟨ph, h1, h2, h3⟩, h4, h5⟩ := h
    obtain rfl := Option.some.inj he
    simp only [Enabled] at ha
    refine ⟨⟨ph, ?_, h2, h3⟩, h4, by simp_all⟩
    cases ph <;> exact h1
  | waitDrained =>
    obtain ⟨⟨ph, h1, h2, h3⟩, h4, h5⟩ := h
    obtain rfl := Option.some.inj he
    simp only [Enabled] at ha
    refine ⟨⟨ph, ?_, h2, h3⟩, h4, by simp_all⟩
    cases ph <;> exact h1
  | waitRegister =>
    obtain ⟨⟨ph, h1, h2, h3⟩, h4, h5⟩ := h
    simp only [exec] at he
    split at he
    next hw =>
      obtain rfl := Option.some.inj he
      refine ⟨⟨ph, ?_, h2, h3⟩, h4, by simp⟩
      cases ph <;> simp_all [Shape]
    next => simp at he
  | leaveWait =>
    obtain ⟨⟨ph, h1, h2, h3⟩, h4, h5⟩ := h
    obtain rfl := Option.some.inj he
    simp only [Enabled] at ha
    refine ⟨⟨ph, ?_, h2, h3⟩, h4, by simp_all⟩
    cases ph <;> exact h1

theorem inv_exec {s t : State} {as : List Act} (h : Exec s as t) (hs : Inv s) : Inv t := by
  induction h with
  | nil => exact hs
  | cons ha he _ ih => exact ih (inv_step hs ha he)

/-! ## C32: order, exclusion -/

/-- C32: in every execution the work items are started exactly once and in the order of addition (item numbers are the order of
addition); items never overlap each other or a requested or running optimization; and each optimization begins only on a
request. -/
theorem work_items_serial {as : List Act} {s : State} (h : Exec init as s) :
    (∃ n ≤ s.added, starts s.log = List.range n) ∧ Serial s.log := by
  obtain ⟨⟨ph, h1, h2, h3⟩, h4, -⟩ := inv_exec h inv_init
  have hle : (starts s.log).length ≤ s.added := by
    have := congrArg List.length h3
    simp only [List.length_append, List.length_range] at this
    omega
  refine ⟨⟨(starts s.log).length, hle, ?_⟩, h4⟩
  have := congrArg (List.take (starts s.log).length) h3
  rwa [List.take_left, List.take_range, min_eq_left hle] at this

/-! ## C32: no lost wake-up -/

/-- The actions of the pool and of the constraint builder: everything except calls by clients. -/
def Internal : Act → Prop
  | .add | .enterWait | .waitDrained | .waitRegister | .leaveWait => False
  | _ => True

/-- Everything added has been executed, every requested optimization has been done, the queue is null. -/
def Settled (s : State) : Prop :=
  starts s.log = List.range s.added ∧ NoItem s.log ∧ NoOptimization s.log ∧ s.queue = none

/-- Whoever waits for all computations does so while nobody adds work (after the queue was seen empty). -/
def Disciplined (s : State) : Act → Prop
  | .add => s.waiter ≠ .drained ∧ s.waiter ≠ .registered
  | _ => True

/-- Finite executions in which clients follow the discipline. -/
inductive DExec : State → List Act → State → Prop
  | nil (s : State) : DExec s [] s
  | cons {s t u : State} {a : Act} {as : List Act} : Enabled s a → Disciplined s a → exec s a = some t → DExec t as u →
      DExec s (a :: as) u

theorem DExec.exec {s t : State} {as : List Act} (h : DExec s as t) : Exec s as t := by
  induction h with
  | nil => exact .nil _
  | cons h1 _ h3 _ ih => exact .cons h1 h3 ih

/-- While a waiter is past the first wait, the queue is null. -/
def WaiterInv (s : State) : Prop := s.waiter = .drained ∨ s.waiter = .registered → s.queue = none

theorem waiterInv_step {s t : State} {a : Act} (hi : Inv s) (h : WaiterInv s) (ha : Enabled s a) (hd : Disciplined s a)
    (he : exec s a = some t) : WaiterInv t := by
  obtain ⟨⟨ph, h1, -, -⟩, -, h5⟩ := hi
  unfold WaiterInv at *
  cases a <;> simp only [exec, Enabled, Disciplined, addWorkItem, popItem] at ha hd he <;> (try split at he) <;>
    (try simp only [reduceCtorEq] at he) <;> (try split at he) <;> grind

theorem dinv {s t : State} {as : List Act} (h : DExec s as t) : Inv s → WaiterInv s → Inv t ∧ WaiterInv t := by
  induction h with
  | nil => exact fun h1 h2 => ⟨h1, h2⟩
  | cons ha hd he _ ih => exact fun h1 h2 => ih (inv_step h1 ha he) (waiterInv_step h1 h2 ha hd he)

/-- Bound on the number of internal actions: every queued item is popped, begun, ended, followed by a request, a callback, begin
and end of an optimization. -/
def weight : Pc → Nat
  | .top => 1
  | .taken _ => 7
  | .run _ => 6
  | .request => 5
  | .handle => 3
  | .optimize => 2

/-- Bound on the number of internal actions. -/
def measure (s : State) : Nat :=
  8 * (s.queue.getD []).length + 2 * s.scheduled + (s.threads.map weight).sum +
    (match s.whenDone with
     | none => 0
     | some .handleWorkQueue => 4
     | some .notifyWaiter => 1)

theorem measure_step {s t : State} {a : Act} (hi : Inv s) (ha : Enabled s a) (hn : Internal a) (he : exec s a = some t) :
    measure t < measure s := by
  obtain ⟨⟨ph, h1, -, -⟩, -, -⟩ := hi
  have key : s.threads = [] ∨ ∃ p, s.threads = [p] := by
    cases ph <;> simp only [Shape] at h1 <;> grind
  cases a with
  | add | enterWait | waitDrained | waitRegister | leaveWait => simp [Internal] at hn
  | startDrain =>
    obtain rfl := Option.some.inj he
    simp only [Enabled] at ha
    simp only [measure, List.map_append, List.sum_append, List.map_cons, List.map_nil, List.sum_cons, List.sum_nil, weight]
    omega
  | runCallback =>
    simp only [exec] at he
    split at he
    · simp at he
    next hw =>
      obtain rfl := Option.some.inj he
      simp only [measure, List.map_append, List.sum_append, List.map_cons, List.map_nil, List.sum_cons, List.sum_nil, weight, hw]
      omega
    next hw =>
      obtain rfl := Option.some.inj he
      simp only [measure, hw]
      omega
  | pop k =>
    simp only [Enabled] at ha
    rcases key with h | ⟨p, h⟩
    · simp [h] at ha
    rw [h] at ha
    obtain ⟨rfl, rfl⟩ := get_singleton ha
    simp only [exec, popItem] at he
    split at he
    · simp at he
    · obtain rfl := Option.some.inj he
      simp [measure, h, weight]
      omega
    next hq =>
      obtain rfl := Option.some.inj he
      simp [measure, h, weight, hq]
      omega
  | beginItem k =>
    obtain ⟨i, ha⟩ := ha
    rcases key with h | ⟨p, h⟩
    · simp [h] at ha
    simp only [exec, ha] at he
    rw [h] at ha
    obtain ⟨rfl, rfl⟩ := get_singleton ha
    obtain rfl := Option.some.inj he
    simp [measure, h, weight]
  | endItem k opt =>
    obtain ⟨i, ha⟩ := ha
    rcases key with h | ⟨p, h⟩
    · simp [h] at ha
    simp only [exec, ha] at he
    rw [h] at ha
    obtain ⟨rfl, rfl⟩ := get_singleton ha
    obtain rfl := Option.some.inj he
    cases opt <;> simp [measure, h, weight]
  | requestWhenDone k =>
    simp only [Enabled] at ha
    rcases key with h | ⟨p, h⟩
    · simp [h] at ha
    rw [h] at ha
    obtain ⟨rfl, rfl⟩ := get_singleton ha
    simp only [exec] at he
    split at he
    next hw =>
      obtain rfl := Option.some.inj he
      simp [measure, h, weight, hw]
    · simp at he
  | beginOptimization k =>
    simp only [Enabled] at ha
    rcases key with h | ⟨p, h⟩
    · simp [h] at ha
    rw [h] at ha
    obtain ⟨rfl, rfl⟩ := get_singleton ha
    obtain rfl := Option.some.inj he
    simp [measure, h, weight]
  | endOptimization k =>
    simp only [Enabled] at ha
    rcases key with h | ⟨p, h⟩
    · simp [h] at ha
    rw [h] at ha
    obtain ⟨rfl, rfl⟩ := get_singleton ha
    obtain rfl := Option.some.inj he
    simp [measure, h, weight]

/-- In a reachable state of a disciplined execution no action fails. -/
theorem step_safe {s : State} {a : Act} (hi : Inv s) (hw : WaiterInv s) (ha : Enabled s a) : ∃ t, exec s a = some t := by
  obtain ⟨⟨ph, h1, -, -⟩, -, h5⟩ := hi
  unfold WaiterInv at hw
  cases a with
  | pop k =>
    simp only [Enabled] at ha
    simp only [exec, popItem]
    cases hq : s.queue with
    | none => exfalso; cases ph <;> simp only [Shape] at h1 <;> grind
    | some q => cases q <;> simp
  | beginItem k =>
    obtain ⟨i, ha⟩ := ha
    simp [exec, ha]
  | endItem k opt =>
    obtain ⟨i, ha⟩ := ha
    simp [exec, ha]
  | requestWhenDone k =>
    simp only [Enabled] at ha
    have : s.whenDone = none := by
      cases hd : s.whenDone with
      | none => rfl
      | some c => cases c <;> cases ph <;> simp only [Shape] at h1 <;> grind
    simp [exec, this]
  | runCallback =>
    simp only [Enabled] at ha
    simp only [exec]
    split <;> simp_all
  | waitRegister =>
    simp only [Enabled] at ha
    have : s.whenDone = none := by
      cases hd : s.whenDone with
      | none => rfl
      | some c => cases c <;> cases ph <;> simp only [Shape] at h1 <;> grind
    simp [exec, this]
  | _ => simp [exec]

/-- If no internal action is possible, everything is done. -/
theorem settled_of_stuck {s : State} (hi : Inv s) (hs : ∀ a, Internal a → ¬ Enabled s a) : Settled s := by
  obtain ⟨⟨ph, h1, h2, h3⟩, -, -⟩ := hi
  have e1 := hs .startDrain trivial
  have e2 := hs (.pop 0) trivial
  have e3 := hs (.beginItem 0) trivial
  have e4 := hs (.endItem 0 true) trivial
  have e5 := hs (.requestWhenDone 0) trivial
  have e6 := hs .runCallback trivial
  have e7 := hs (.beginOptimization 0) trivial
  have e8 := hs (.endOptimization 0) trivial
  simp only [Enabled] at e1 e2 e3 e4 e5 e6 e7 e8
  cases ph <;> simp only [Shape] at h1
  case idle =>
    refine ⟨?_, h2.1, h2.2, h1.1⟩
    simpa [Phase.item, h1.1] using h3
  all_goals exfalso; grind

/-- C32, no wake-up is lost: in every reachable state no enabled action fails; there is a bound on the number of actions the
pool and the constraint builder can do before clients add further work; and when they can do nothing any more, every work item
that was ever added has been executed, every requested optimization has been done, and the queue is null. -/
theorem no_lost_wakeup {as : List Act} {s : State} (h : DExec init as s) :
    (∀ a, Enabled s a → ∃ t, exec s a = some t) ∧
    (∃ n, ∀ bs t, (∀ b ∈ bs, Internal b) → Exec s bs t → bs.length ≤ n) ∧
    ((∀ a, Internal a → ¬ Enabled s a) → Settled s) := by
  obtain ⟨h1, h2⟩ := dinv h inv_init (by simp [WaiterInv, init])
  refine ⟨fun a ha => step_safe h1 h2 ha, ⟨measure s, ?_⟩, settled_of_stuck h1⟩
  clear h h2
  intro bs t hb he
  induction he with
  | nil => simp
  | @cons s t' u a as' ha he _ ih =>
    have := ih (inv_step h1 ha he) (fun b hb' => hb b (List.mem_cons_of_mem _ hb'))
    have := measure_step h1 ha (hb a List.mem_cons_self) he
    simp only [List.length_cons]
    omega

/-- C32: from every reachable state the pool can bring all added items to execution without any further call by clients. -/
theorem work_items_complete {as : List Act} {s : State} (h : DExec init as s) :
    ∃ bs t, (∀ b ∈ bs, Internal b) ∧ DExec s bs t ∧ Settled t ∧ t.added = s.added := by
  obtain ⟨h1, h2⟩ := dinv h inv_init (by simp [WaiterInv, init])
  clear h
  induction hm : measure s using Nat.strongRecOn generalizing s with
  | _ m ih =>
    by_cases hst : ∀ a, Internal a → ¬ Enabled s a
    · exact ⟨[], s, by simp, .nil s, settled_of_stuck h1 hst, rfl⟩
    · push Not at hst
      obtain ⟨a, hn, ha⟩ := hst
      obtain ⟨t, he⟩ := step_safe h1 h2 ha
      have hd : Disciplined s a := by cases a <;> simp_all [Disciplined, Internal]
      have hadd : t.added = s.added := by
        cases a <;> simp only [exec, popItem, Internal] at he hn <;> (try split at he) <;> grind
      obtain ⟨bs, u, b1, b2, b3, b4⟩ := ih (measure t) (hm ▸ measure_step h1 ha hn he) (inv_step h1 ha he)
        (waiterInv_step h1 h2 ha hd he) rfl
      refine ⟨a :: bs, u, ?_, .cons ha hd he b2, b3, b4.trans hadd⟩
      simpa [hn] using b1

/-- C32, when `WaitForAllComputations` returns and nobody added work after it saw the empty queue, everything added before has
been executed: the waiter past the first wait sees a settled pose graph. -/
theorem wait_sees_settled {as : List Act} {s : State} (h : DExec init as s)
    (hw : s.waiter = .drained ∨ s.waiter = .registered) : Settled s := by
  obtain ⟨⟨⟨ph, h1, h2, h3⟩, -, -⟩, h4⟩ := dinv h inv_init (by simp [WaiterInv, init])
  have hq := h4 hw
  cases ph <;> simp only [Shape] at h1
  case idle =>
    refine ⟨?_, h2.1, h2.2, h1.1⟩
    simpa [Phase.item, h1.1] using h3
  all_goals exact absurd hq h1.1

/-- Without the discipline the process can abort: a work item added while another thread is in `WaitForAllComputations` may
request an optimization, and then `WhenDone` is called while a callback is registered. -/
theorem wait_race_aborts : ∃ as s a, Exec init as s ∧ Enabled s a ∧ exec s a = none := by
  refine ⟨[.enterWait, .waitDrained, .waitRegister, .add, .startDrain, .pop 0, .beginItem 0, .endItem 0 true],
    { queue := some [], scheduled := 0, threads := [.request], whenDone := some .notifyWaiter, waiter := .registered, added := 1
      log := [.start 0, .finish 0 true] }, .requestWhenDone 0, ?_, ?_, ?_⟩
  · refine .cons ?_ rfl (.cons ?_ rfl (.cons ?_ rfl (.cons ?_ rfl (.cons ?_ rfl (.cons ?_ rfl (.cons ?_ rfl
      (.cons ?_ rfl (.nil _)))))))) <;> simp [Enabled, init, addWorkItem]
  · simp [Enabled]
  · rfl

/-! ## Examples -/

/-- Two items added while the first is running; the first requests an optimization. -/
example : ∃ s, DExec init [.add, .startDrain, .pop 0, .beginItem 0, .add, .endItem 0 true, .requestWhenDone 0, .add, .runCallback,
    .beginOptimization 0, .endOptimization 0, .pop 0, .beginItem 0] s ∧
    s.log = [.start 0, .finish 0 true, .optBegin, .optEnd, .start 1] ∧ s.added = 3 ∧ s.queue = some [2] := by
  refine ⟨_, .cons ?_ ?_ rfl (.cons ?_ ?_ rfl (.cons ?_ ?_ rfl (.cons ?_ ?_ rfl (.cons ?_ ?_ rfl (.cons ?_ ?_ rfl (.cons ?_ ?_ rfl
      (.cons ?_ ?_ rfl (.cons ?_ ?_ rfl (.cons ?_ ?_ rfl (.cons ?_ ?_ rfl (.cons ?_ ?_ rfl (.cons ?_ ?_ rfl (.nil _))))))))))))),
      rfl, rfl, rfl⟩ <;>
    simp [Enabled, Disciplined, init, addWorkItem]

/-- The specification rejects overlapping items and items during an optimization. -/
example : ¬ Serial [.start 0, .start 1] ∧ ¬ Serial [.start 0, .finish 0 true, .start 1] := by
  constructor
  · intro h
    have := (h [.start 0] (.start 1) [] rfl).1
    simp [NoItem, count, isStart, isFinish] at this
  · intro h
    have := (h [.start 0, .finish 0 true] (.start 1) [] rfl).2.1
    simp [count, isRequest] at this

end Verif.WorkQueue
