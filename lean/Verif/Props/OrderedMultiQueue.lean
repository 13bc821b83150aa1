import Verif.OrderedMultiQueueRun

/-! # C03-C06: the collated delivery of sensor data -/

namespace Verif.OMQ

set_option linter.unusedSectionVars false

variable {K J D T : Type} [LinearOrder K] [DecidableEq J] [LinearOrder T] [OrderBot T]
variable (traj : K → J) (time : D → T)

/-- The input of each registered sensor is non-decreasing in time. -/
def SortedInput (ks : List K) (ops : List (Op K D)) : Prop :=
  ∀ k ∈ ks, (input k ops).Pairwise (fun a b => time a ≤ time b)

/-- Register the queues `ks`, then perform `ops`; `none` if any `CHECK` fails. -/
def runFrom (ks : List K) (ops : List (Op K D)) : Option (State K J D T × List (K × D)) :=
  (addQueues (init : State K J D T) ks).bind fun s => run traj time s ops

variable {traj time}

theorem runFrom_spec {ks : List K} {ops : List (Op K D)} (hn : ks.Nodup)
    (hv : Valid (· ∈ ks) (· ∈ ks) ops) (hs : SortedInput time ks ops) :
    ∃ s new fin, runFrom traj time ks ops = some (s, new) ∧
      Inv traj time (· ∈ ks) (fun k => input k ops) fin s new ∧
      (∀ k, k ∈ ks → (fin k = true ↔ Closes k ops)) ∧
      ((∀ k, k ∈ ks → fin k = true) → s.queues = []) := by
  obtain ⟨s0, e0, i0, q0⟩ := init_inv traj time ks hn
  obtain ⟨s, new, fin, e1, i1, f1, q1⟩ := run_spec ops s0 _ _ [] i0 q0 (hv.congr _ (by simp))
    (by simpa [SortedInput] using hs)
  exact ⟨s, new, fin, by simp [runFrom, e0, e1], by simpa using i1, by simpa using f1, q1⟩

/-- **C03.** For every valid history with per-sensor sorted input no `CHECK` fails and the sequence
handed to the callbacks is non-decreasing in time; equal times are delivered in key order. -/
theorem collated_in_time_order {ks : List K} {ops : List (Op K D)} (hn : ks.Nodup)
    (hv : Valid (· ∈ ks) (· ∈ ks) ops) (hs : SortedInput time ks ops) :
    ∃ s outs, runFrom traj time ks ops = some (s, outs) ∧
      outs.Pairwise (fun a b => time a.2 ≤ time b.2) ∧
      outs.Pairwise (fun a b => time a.2 = time b.2 → a.1 ≤ b.1) := by
  obtain ⟨s, new, fin, e, i, _, _⟩ := runFrom_spec (traj := traj) hn hv hs
  refine ⟨s, new, e, i.outsSorted.imp (fun h => h.time_le), i.outsSorted.imp ?_⟩
  intro a b h ht
  rcases h with h | ⟨_, h⟩
  · exact absurd ht (ne_of_lt h)
  · exact h

theorem input_append (ops ops' : List (Op K D)) (k : K) :
    input k (ops ++ ops') = input k ops ++ input k ops' := by
  induction ops with
  | nil => rfl
  | cons o' ops ih =>
    cases o' with
    | add k' d =>
      simp only [List.cons_append, input]
      split
      · rw [ih]; rfl
      · rw [ih]
    | finish k' => simp only [List.cons_append, input, ih]
    | flush => simp only [List.cons_append, input, ih]

theorem kept_all (st : T) (l : List D) (h : ∀ x ∈ l, st ≤ time x) : kept time st l = l := by
  induction l with
  | nil => rfl
  | cons x r ih =>
    cases r with
    | nil => rfl
    | cons y r =>
      have hx := h x List.mem_cons_self
      simp only [kept, hx, true_or, if_true]
      rw [ih (fun z hz => h z (List.mem_cons_of_mem _ hz))]

/-- The delivered part of a sorted stream `l`, in words: what is not delivered is a prefix older than the
start; of the delivered part at most the first item is older than the start, and then its successor is
after the start; the first delivered item is at or before the start if anything was dropped; something is
delivered. -/
structure DeliveredPart (time : D → T) (st : T) (l out : List D) : Prop where
  split : ∃ dropped, l = dropped ++ out ∧ (∀ x ∈ dropped, time x < st) ∧
    (dropped ≠ [] → ∀ y ∈ out.head?, time y ≤ st)
  rest : ∀ x ∈ out.tail, st ≤ time x
  second : ∀ y z r, out = y :: z :: r → time y < st → st < time z
  some : l ≠ [] → out ≠ []

theorem kept_delivered (st : T) (l : List D) (hs : l.Pairwise (fun a b => time a ≤ time b)) :
    DeliveredPart time st l (kept time st l) := by
  induction l with
  | nil => exact ⟨⟨[], rfl, by simp, by simp⟩, by simp [kept], by simp [kept], by simp⟩
  | cons x r ih =>
    rw [List.pairwise_cons] at hs
    cases r with
    | nil => exact ⟨⟨[], rfl, by simp, by simp⟩, by simp [kept], by simp [kept], by simp [kept]⟩
    | cons y r =>
      by_cases h : st ≤ time x ∨ st < time y
      · have hy : ∀ z ∈ y :: r, st ≤ time z := by
          intro z hz
          have hyz : time y ≤ time z := by
            rcases List.mem_cons.1 hz with rfl | hz
            · exact le_refl _
            · exact (List.pairwise_cons.1 hs.2).1 z hz
          rcases h with h | h
          · exact h.trans (hs.1 z hz)
          · exact h.le.trans hyz
        have e : kept time st (x :: y :: r) = x :: y :: r := by
          simp only [kept, h, if_true]
          rw [kept_all st _ hy]
        rw [e]
        refine ⟨⟨[], rfl, by simp, by simp⟩, hy, ?_, by simp⟩
        intro a b c he ha
        simp only [List.cons.injEq] at he
        obtain ⟨h1, h2, -⟩ := he
        rw [← h1] at ha
        rw [← h2]
        rcases h with h | h
        · exact absurd ha (not_lt.2 h)
        · exact h
      · have e : kept time st (x :: y :: r) = kept time st (y :: r) := by
          simp only [kept, h, if_false]
        rw [e]
        rw [not_or, not_le, not_lt] at h
        obtain ⟨⟨dr, h1, h2, h3⟩, h4, h5, h6⟩ := ih hs.2
        refine ⟨⟨x :: dr, by rw [List.cons_append, ← h1], ?_, ?_⟩, h4, h5, fun _ => h6 (by simp)⟩
        · intro z hz
          rcases List.mem_cons.1 hz with rfl | hz
          · exact h.1
          · exact h2 z hz
        · intro _ z hz
          by_cases hd : dr = []
          · rw [hd, List.nil_append] at h1
            rw [← h1] at hz
            simp only [List.head?_cons, Option.mem_some_iff] at hz
            rw [← hz]; exact h.2
          · exact h3 hd z hz

/-- **C04, at any moment.** What has been handed to a sensor's callback is a contiguous part of what was
added for it (so: in order, nothing repeated, no gap), and callbacks are only made for registered
sensors. -/
theorem collated_no_duplication {ks : List K} {ops : List (Op K D)} (hn : ks.Nodup)
    (hv : Valid (· ∈ ks) (· ∈ ks) ops) (hs : SortedInput time ks ops)
    {s : State K J D T} {outs : List (K × D)} (hrun : runFrom traj time ks ops = some (s, outs)) :
    (∀ k ∈ ks, emitted k outs <:+: input k ops) ∧ ∀ o ∈ outs, o.1 ∈ ks := by
  obtain ⟨s', new, fin, e, i, _, _⟩ := runFrom_spec (traj := traj) hn hv hs
  rw [hrun] at e
  cases e
  refine ⟨?_, i.outsReg⟩
  intro k hk
  have key : ∀ st, s.start (traj k) = some st → emitted k outs <+: kept time st (input k ops) := by
    intro st hst
    obtain ⟨a, b⟩ := i.content k st hk hst
    by_cases hq : k ∈ s.queues.map Prod.fst
    · obtain ⟨⟨k', q⟩, hm, rfl⟩ := List.mem_map.1 hq
      exact ⟨_, by simpa using a _ hm rfl [] (fun _ => rfl)⟩
    · rw [b hq]; exact List.prefix_refl _
  cases hst : s.start (traj k) with
  | none => rw [(i.noStart k hk hst).1]; exact List.nil_infix
  | some st =>
    have h1 := key st hst
    obtain ⟨dr, h2, _⟩ := (kept_delivered st _ (i.sorted k hk)).split
    exact h1.isInfix.trans (List.IsSuffix.isInfix ⟨dr, h2.symm⟩)

/-- **C04, at the end.** When every sensor has been finished (by `MarkQueueAsFinished` or `Flush`), no
queue is left and each sensor received everything that was added for it except a prefix older than the
common start time, with the exceptions described by `DeliveredPart`. -/
theorem collated_no_loss {ks : List K} {ops : List (Op K D)} (hn : ks.Nodup)
    (hv : Valid (· ∈ ks) (· ∈ ks) ops) (hs : SortedInput time ks ops) (hall : ∀ k ∈ ks, Closes k ops)
    {s : State K J D T} {outs : List (K × D)} (hrun : runFrom traj time ks ops = some (s, outs)) :
    s.queues = [] ∧ ∀ k ∈ ks, ∃ st,
      (input k ops ≠ [] → IsStart traj time (· ∈ ks) (fun k => input k ops) (traj k) st) ∧
      DeliveredPart time st (input k ops) (emitted k outs) := by
  obtain ⟨s', new, fin, e, i, f, q⟩ := runFrom_spec (traj := traj) hn hv hs
  rw [hrun] at e
  cases e
  have hq := q (fun k hk => (f k hk).2 (hall k hk))
  refine ⟨hq, ?_⟩
  intro k hk
  have hnot : k ∉ s.queues.map Prod.fst := by rw [hq]; simp
  cases hst : s.start (traj k) with
  | none =>
    obtain ⟨a, _, c⟩ := i.noStart k hk hst
    have hc := c hnot
    refine ⟨⊥, fun h => absurd hc h, ?_⟩
    rw [a, hc]
    exact ⟨⟨[], rfl, by simp, by simp⟩, by simp, by simp, by simp⟩
  | some st =>
    refine ⟨st, fun _ => i.startSpec _ _ hst, ?_⟩
    rw [(i.content k st hk hst).2 hnot]
    exact kept_delivered st _ (i.sorted k hk)

theorem IsStart.unique {reg : K → Prop} {streams : K → List D} {j : J} {st st' : T}
    (h : IsStart traj time reg streams j st) (h' : IsStart traj time reg streams j st') : st = st' := by
  obtain ⟨⟨k, d, a, b, c, e⟩, h2⟩ := h
  obtain ⟨⟨k', d', a', b', c', e'⟩, h2'⟩ := h'
  exact le_antisymm (e ▸ h2' k d a b c) (e' ▸ h2 k' d' a' b' c')

/-- **C05.** Two histories that add the same data to each sensor, in whatever interleaving and with
whatever positions of the finish and flush calls, produce the same complete callback sequence once all
sensors are finished. -/
theorem collation_deterministic {ks ks' : List K} {ops ops' : List (Op K D)} (hn : ks.Nodup)
    (hn' : ks'.Nodup) (hks : ∀ k, k ∈ ks ↔ k ∈ ks')
    (hv : Valid (· ∈ ks) (· ∈ ks) ops) (hv' : Valid (· ∈ ks') (· ∈ ks') ops')
    (hs : SortedInput time ks ops)
    (hin : ∀ k ∈ ks, input k ops = input k ops')
    (hall : ∀ k ∈ ks, Closes k ops) (hall' : ∀ k ∈ ks, Closes k ops') :
    ∃ s s' outs, runFrom traj time ks ops = some (s, outs) ∧
      runFrom (J := J) traj time ks' ops' = some (s', outs) := by
  have hs' : SortedInput time ks' ops' := by
    intro k hk
    rw [← hin k ((hks k).2 hk)]; exact hs k ((hks k).2 hk)
  obtain ⟨s, o, fin, e, i, f, q⟩ := runFrom_spec (traj := traj) hn hv hs
  obtain ⟨s', o', fin', e', i', f', q'⟩ := runFrom_spec (traj := traj) hn' hv' hs'
  have hq := q (fun k hk => (f k hk).2 (hall k hk))
  have hq' := q' (fun k hk => (f' k hk).2 (hall' k ((hks k).2 hk)))
  have : o = o' := by
    apply sorted_unique o o' i.outsSorted i'.outsSorted
    intro k
    by_cases hk : k ∈ ks
    · have n1 : k ∉ s.queues.map Prod.fst := by rw [hq]; simp
      have n2 : k ∉ s'.queues.map Prod.fst := by rw [hq']; simp
      have hk' := (hks k).1 hk
      have hstart : ∀ j st, IsStart traj time (· ∈ ks) (fun k => input k ops) j st ↔
          IsStart traj time (· ∈ ks') (fun k => input k ops') j st := by
        intro j st
        constructor
        · rintro ⟨⟨k, d, a, b, c⟩, h2⟩
          refine ⟨⟨k, d, (hks k).1 a, b, by simp only at c ⊢; rw [← hin k a]; exact c⟩, ?_⟩
          intro k d a b c
          exact h2 k d ((hks k).2 a) b (by simp only at c ⊢; rw [hin k ((hks k).2 a)]; exact c)
        · rintro ⟨⟨k, d, a, b, c⟩, h2⟩
          refine ⟨⟨k, d, (hks k).2 a, b, by simp only at c ⊢; rw [hin k ((hks k).2 a)]; exact c⟩, ?_⟩
          intro k d a b c
          exact h2 k d ((hks k).1 a) b (by simp only at c ⊢; rw [← hin k a]; exact c)
      cases hst : s.start (traj k) with
      | none =>
        obtain ⟨a, _, c⟩ := i.noStart k hk hst
        rw [a]
        cases hst' : s'.start (traj k) with
        | none => rw [(i'.noStart k hk' hst').1]
        | some st' =>
          rw [(i'.content k st' hk' hst').2 n2, ← hin k hk, c n1]; rfl
      | some st =>
        rw [(i.content k st hk hst).2 n1]
        cases hst' : s'.start (traj k) with
        | none =>
          obtain ⟨a, _, c⟩ := i'.noStart k hk' hst'
          rw [a, hin k hk, c n2]; rfl
        | some st' =>
          rw [(i'.content k st' hk' hst').2 n2, hin k hk]
          have := (i.startSpec _ _ hst)
          rw [hstart] at this
          rw [this.unique (i'.startSpec _ _ hst')]
    · have h1 : emitted k o = [] := by
        simp only [emitted, List.map_eq_nil_iff, List.filter_eq_nil_iff, decide_eq_true_eq]
        rintro a ha rfl; exact hk (i.outsReg a ha)
      have h2 : emitted k o' = [] := by
        simp only [emitted, List.map_eq_nil_iff, List.filter_eq_nil_iff, decide_eq_true_eq]
        rintro a ha rfl; exact hk ((hks _).2 (i'.outsReg a ha))
      rw [h1, h2]
  subst this
  exact ⟨s, s', o, e, e'⟩

/-- `GetBlocker` (ordered_multi_queue.cc:87-90): `none` when the `CHECK` fails or the member is
uninitialised. -/
def getBlocker (s : State K J D T) : Option K := if s.queues.isEmpty then none else s.blocker

/-- **C06.** After an `Add` to a registered sensor or a `MarkQueueAsFinished`, if anything is left the
reported blocker `b` is a registered, unfinished sensor, and either
* `b` has no undelivered data, and a message for `b` as old as any held-back message is still legal, or
* `b` has a single undelivered message, older than the common start (so its fate depends on the next
  message of `b`) and delivered before every other held-back message. -/
theorem blocker_is_waited_for {ks : List K} {ops : List (Op K D)} {o : Op K D} (hn : ks.Nodup)
    (hv : Valid (· ∈ ks) (· ∈ ks) (ops ++ [o])) (hs : SortedInput time ks (ops ++ [o]))
    (ho : match o with | .add k _ => k ∈ ks | .finish _ => True | .flush => False)
    {s : State K J D T} {outs : List (K × D)}
    (hrun : runFrom traj time ks (ops ++ [o]) = some (s, outs)) (hne : s.queues ≠ []) :
    ∃ b q, getBlocker s = some b ∧ b ∈ ks ∧ (b, q) ∈ s.queues ∧ ¬ Closes b (ops ++ [o]) ∧
      ((q.data = [] ∧ ∀ e ∈ s.queues, ∀ x ∈ e.2.data, ∀ y ∈ input b (ops ++ [o]), time y ≤ time x) ∨
       (∃ d st, q.data = [d] ∧ IsStart traj time (· ∈ ks) (fun k => input k (ops ++ [o])) (traj b) st ∧
          time d < st ∧ ∀ e ∈ s.queues, ∀ x ∈ e.2.data, Le time (b, d) (e.1, x))) := by
  obtain ⟨s', new, fin, e, i, f, q⟩ := runFrom_spec (traj := traj) hn hv hs
  rw [hrun] at e
  cases e
  -- the state before the last operation
  have hquiet : Quiet traj time s := by
    obtain ⟨s0, e0, i0, q0⟩ := init_inv traj time ks hn
    have hsplit : ∀ (ops : List (Op K D)) (s0 s : State K J D T) (outs : List (K × D)),
        run traj time s0 (ops ++ [o]) = some (s, outs) →
        ∃ s1 n1 n2, run traj time s0 ops = some (s1, n1) ∧ step traj time s1 o = some (s, n2) := by
      intro ops
      induction ops with
      | nil =>
        intro s0 s outs h
        simp only [List.nil_append, run, Option.map_some] at h
        cases hst : step traj time s0 o with
        | none => rw [hst] at h; cases h
        | some r =>
          rw [hst] at h
          simp only [Option.bind_some, Option.some.injEq, Prod.mk.injEq] at h
          exact ⟨s0, [], r.2, rfl, by rw [hst, ← h.1]⟩
      | cons o' ops ih =>
        intro s0 s outs h
        simp only [List.cons_append, run] at h ⊢
        cases hst : step traj time s0 o' with
        | none => rw [hst] at h; cases h
        | some r =>
          rw [hst] at h
          simp only [Option.bind_some, Option.map_eq_some_iff] at h
          obtain ⟨r', h1, h2⟩ := h
          simp only [Prod.mk.injEq] at h2
          obtain ⟨s1, n1, n2, a, b⟩ := ih r.1 r'.1 r'.2 h1
          exact ⟨s1, r.2 ++ n1, n2, by simp [a], by rw [b, h2.1]⟩
    have hv1 : ∀ (ops : List (Op K D)) (opn : K → Prop), Valid (· ∈ ks) opn (ops ++ [o]) →
        Valid (· ∈ ks) opn ops ∧ ∃ opn' : K → Prop, Valid (· ∈ ks) opn' [o] ∧
          ∀ k, opn' k ↔ opn k ∧ ¬ Closes k ops := by
      intro ops
      induction ops with
      | nil => intro opn h; exact ⟨trivial, opn, h, by simp [Closes]⟩
      | cons o' ops ih =>
        intro opn h
        cases o' with
        | add k d => obtain ⟨a, b⟩ := h; obtain ⟨c, d⟩ := ih _ b; exact ⟨⟨a, c⟩, d⟩
        | finish k =>
          obtain ⟨a, b⟩ := h
          obtain ⟨c, opn', d, e⟩ := ih _ b
          refine ⟨⟨a, c⟩, opn', d, ?_⟩
          intro k'
          rw [e k']
          simp only [Closes, not_or]
          constructor
          · rintro ⟨⟨x, y⟩, z⟩; exact ⟨x, fun h => y h.symm, z⟩
          · rintro ⟨x, y, z⟩; exact ⟨⟨x, fun h => y h.symm⟩, z⟩
        | flush =>
          obtain ⟨c, opn', d, e⟩ := ih _ h
          refine ⟨c, opn', d, ?_⟩
          intro k'; rw [e k']; simp [Closes]
    obtain ⟨v1, opn', v2, v3⟩ := hv1 ops _ hv
    obtain ⟨s1, n1, fin1, e1, i1, f1, q1⟩ := run_spec ops s0 _ _ [] i0 q0 (v1.congr _ (by simp))
      (by
        intro k hk
        have := hs k hk
        rw [input_append] at this
        exact (List.pairwise_append.1 this).1)
    simp only [runFrom, e0, Option.bind_some] at hrun
    obtain ⟨s1', n1', n2, a, b⟩ := hsplit ops s0 s outs hrun
    rw [e1] at a
    cases a
    cases o with
    | add k d =>
      have hk : k ∈ ks := ho
      have hopen : opn' k := by
        rcases v2.1 with h | h
        · exact h
        · exact absurd hk h
      have hf : fin1 k = false := by
        by_contra hc
        rw [Bool.not_eq_false] at hc
        have := (f1 k hk).1 hc
        exact ((v3 k).1 hopen).2 (by simpa using this)
      have hd : ∀ x ∈ input k ops, time x ≤ time d := by
        have := hs k hk
        rw [input_append, List.pairwise_append] at this
        intro x hx
        exact this.2.2 x hx d (by simp [input])
      obtain ⟨s2, n2', e2, _, qq⟩ := add_spec i1 hk hf hd (fun _ _ hc => hc.elim)
      simp only [step] at b
      rw [e2] at b; cases b; exact qq
    | finish k =>
      have hopen : opn' k := v2.1
      have hk : k ∈ ks := ((v3 k).1 hopen).1
      have hf : fin1 k = false := by
        by_contra hc
        rw [Bool.not_eq_false] at hc
        have := (f1 k hk).1 hc
        exact ((v3 k).1 hopen).2 (by simpa using this)
      obtain ⟨s2, n2', e2, _, qq⟩ := finish_spec i1 hk hf
      simp only [step] at b
      rw [e2] at b; cases b; exact qq
    | flush => exact ho.elim
  rcases hquiet with hc | ⟨b, hb, q, hm, hqf, hq⟩
  · exact absurd hc hne
  refine ⟨b, q, ?_, i.regq _ hm, hm, ?_, ?_⟩
  · cases hqs : s.queues with
    | nil => exact absurd hqs hne
    | cons a r => simp [getBlocker, hqs, hb]
  · intro hc
    have h1 := (f b (i.regq _ hm)).2 hc
    have h2 := i.finq _ hm
    simp only at h2
    rw [hqf, h1] at h2; cases h2
  · rcases hq with hq | ⟨d, st, h1, h2, h3, h4⟩
    · refine Or.inl ⟨hq, ?_⟩
      intro e he x hx y hy
      exact ((i.consumed trivial _ hm (input b (ops ++ [o])) (by simp [hq]) y hy e he).1 x hx).time_le
    · refine Or.inr ⟨d, st, h1, i.startSpec _ _ h2, h3, ?_⟩
      intro e he x hx
      obtain ⟨d', tl', h5, h6⟩ := h4 e he
      rw [h5] at hx
      rcases List.mem_cons.1 hx with rfl | hx
      · exact h6
      · have := (i.sorted e.1 (i.regq _ he)).sublist (i.suff e he).sublist
        rw [h5, List.pairwise_cons] at this
        exact h6.trans time (Le.of_time_le time (this.1 x hx))

/-- **C06, second half.** If some sensor `b` holds delivery back (in the sense above), then no history
that neither adds data for `b`, nor finishes `b`, nor flushes delivers anything. -/
theorem blocker_blocks {ks : List K} {ops ops' : List (Op K D)} (hn : ks.Nodup)
    (hv : Valid (· ∈ ks) (· ∈ ks) ops) (hs : SortedInput time ks (ops ++ ops'))
    {s : State K J D T} {outs : List (K × D)} (hrun : runFrom traj time ks ops = some (s, outs))
    {b : K} {q : Queue D} (hm : (b, q) ∈ s.queues) (hqf : q.finished = false)
    (hblock : q.data = [] ∨ ∃ d st, q.data = [d] ∧ s.start (traj b) = some st ∧ time d < st ∧
      ∀ e ∈ s.queues, ∃ d' tl', e.2.data = d' :: tl' ∧ Le time (b, d) (e.1, d'))
    (hv' : Valid (· ∈ ks) (fun k => k ∈ ks ∧ ¬ Closes k ops) ops') (hav : Avoids b ops') :
    ∃ s', run traj time s ops' = some (s', []) := by
  obtain ⟨s1, new, fin, e, i, f, _⟩ := runFrom_spec (traj := traj) hn hv (by
    intro k hk
    have := hs k hk
    rw [input_append] at this
    exact (List.pairwise_append.1 this).1)
  rw [hrun] at e
  cases e
  obtain ⟨s', e', _⟩ := run_blocked ops' s _ fin outs b i ⟨q, hm, hqf, hblock⟩ hav
    (hv'.congr _ (by
      intro k
      constructor
      · rintro ⟨a, c⟩
        refine ⟨a, ?_⟩
        by_contra hc
        rw [Bool.not_eq_false] at hc
        exact c ((f k a).1 hc)
      · rintro ⟨a, c⟩
        refine ⟨a, fun hc => ?_⟩
        rw [(f k a).2 hc] at c; cases c))
    (fun k hk => by rw [← input_append]; exact hs k hk)
  exact ⟨s', e'⟩

/-! ### Non-vacuity and disagreements

Two sensors 10, 11 of trajectory 1 and sensor 20 of trajectory 2; data are (time, payload). -/

section Examples

/-- example trajectory of a key -/
abbrev exTraj (k : Nat) : Nat := k / 10
/-- example time of a datum -/
abbrev exTime (d : Nat × Nat) : Nat := d.1

/-- First example history. -/
def exOps : List (Op Nat (Nat × Nat)) :=
  [.add 10 (1, 0), .add 10 (2, 1), .add 11 (3, 2), .add 20 (2, 3), .add 10 (4, 4), .add 99 (0, 0),
   .finish 20, .add 11 (4, 5), .flush]

/-- Second example history: same data, other interleaving. -/
def exOps' : List (Op Nat (Nat × Nat)) :=
  [.add 11 (3, 2), .add 11 (4, 5), .finish 11, .add 20 (2, 3), .add 10 (1, 0), .add 10 (2, 1),
   .finish 20, .add 10 (4, 4), .finish 10]

/-- The hypotheses of C03, C04 and C05 hold for these histories. -/
example : Valid (· ∈ [10, 11, 20]) (· ∈ [10, 11, 20]) exOps ∧
    Valid (· ∈ [10, 11, 20]) (· ∈ [10, 11, 20]) exOps' ∧
    SortedInput exTime [10, 11, 20] exOps ∧ (∀ k ∈ [10, 11, 20], input k exOps = input k exOps') ∧
    (∀ k ∈ [10, 11, 20], Closes k exOps) ∧ (∀ k ∈ [10, 11, 20], Closes k exOps') := by
  simp [Valid, exOps, exOps', SortedInput, input, Closes, exTime]

/-- The common output: the first message of sensor 10 is dropped (start time 3, next message at 2), the
second is the last one before the start and is delivered. -/
example : (runFrom exTraj exTime [10, 11, 20] exOps).map Prod.snd =
    some [(10, (2, 1)), (20, (2, 3)), (11, (3, 2)), (10, (4, 4)), (11, (4, 5))] ∧
    (runFrom exTraj exTime [10, 11, 20] exOps').map Prod.snd =
      (runFrom exTraj exTime [10, 11, 20] exOps).map Prod.snd := by
  decide +kernel

/-- A blocked state as in C06: sensor 11 has no data, nothing is delivered. -/
example : (runFrom exTraj exTime [10, 11] [.add 10 (1, 0), .add 10 (2, 1)]).map
    (fun r => (getBlocker r.1, r.2)) = some (some 11, []) := by decide +kernel

/-- A blocked state of the second kind: the only message of 10 is before the start time 3. -/
example : (runFrom exTraj exTime [10, 11] [.add 10 (1, 0), .add 11 (3, 1), .add 11 (4, 1)]).map
    (fun r => (getBlocker r.1, r.2)) = some (some 10, []) := by decide +kernel

/-- Disagreement 1 (recorded in DESIGN.md): `GetBlocker` on a queue set to which nothing was added yet
passes its `CHECK` but reads the uninitialised member `blocker_` although an unfinished queue exists. -/
theorem getBlocker_uninitialised (k : K) :
    ∃ s : State K J D T, addQueues init [k] = some s ∧ s.queues ≠ [] ∧ getBlocker s = none :=
  ⟨_, rfl, by simp [init, insertKey], by simp [init, insertKey, getBlocker]⟩

/-- Disagreement 2: registering a sensor of another trajectory after data has been dispatched (as
`Collator::AddTrajectory` does on its shared queue) and then adding older data to it aborts, although each
sensor's data is sorted. -/
theorem late_registration_aborts :
    ((addQueues (init : State Nat Nat (Nat × Nat) Nat) [10]).bind fun s =>
      (add exTraj exTime s 10 (5, 0)).bind fun r =>
        (addQueue r.1 20).bind fun s => (add exTraj exTime s 20 (1, 0)).bind fun r =>
          add exTraj exTime r.1 10 (6, 0)) = none ∧
    ((addQueues (init : State Nat Nat (Nat × Nat) Nat) [10, 20]).bind fun s =>
      (add exTraj exTime s 10 (5, 0)).bind fun r =>
        (add exTraj exTime r.1 20 (1, 0)).map Prod.snd) = some [(20, (1, 0))] := by
  constructor
  · rfl
  · decide +kernel

end Examples

end Verif.OMQ
