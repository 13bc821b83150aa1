import Verif.ThreadPool
import Mathlib.Data.List.Basic
import Mathlib.Data.List.Nodup
import Mathlib.Tactic.Tauto

/-! Invariant of the thread pool transition system. -/

namespace Verif.ThreadPool

set_option linter.unusedSectionVars false
set_option linter.unusedSimpArgs false

variable {W : Type} [DecidableEq W]

/-- Task a call works on. -/
def Call.target : Call → Nat
  | .addDep t _ => t
  | .sched t => t

/-- Worker at `p` holds task `t`. -/
def Pc.holds (p : Pc) (t : Nat) : Prop :=
  p = .taken t ∨ p = .working t ∨ ∃ rest, p = .completing t rest

structure Inv (s : State W) : Prop where
  unc : ∀ t, (s.task t).uncompleted = (s.waiting t).length
  wnd : ∀ t, (s.waiting t).Nodup
  wsub : ∀ t d, d ∈ s.waiting t → d ∈ s.deps t
  wiff : ∀ t d, d ∈ s.waiting t ↔ ((∃ a, (a, Call.addDep t d) ∈ s.calls) ∨
    (t ∈ (s.task d).dependents ∧ (s.task d).state ≠ .completed) ∨
    ∃ w rest, s.pc w = .completing d rest ∧ t ∈ rest)
  wdone : ∀ t d, d ∈ s.deps t → d ∉ s.waiting t → (s.task d).state = .completed
  dnew : ∀ t d, d ∈ s.deps t → (s.task d).state ≠ .new
  dstamp : ∀ t d, (s.task t).state ≠ .new → d ∈ s.deps t → s.stamp d < s.stamp t
  sclock : ∀ t, (s.task t).state ≠ .new → s.stamp t < s.clock
  depd : ∀ t d, t ∈ (s.task d).dependents → d ∈ s.deps t
  pdep : ∀ a t d, (a, Call.addDep t d) ∈ s.calls →
    d ∈ s.deps t ∧ t ∉ (s.task d).dependents ∧ (s.task t).state = .new
  depnd : ∀ d, (s.task d).dependents.Nodup
  cnd : s.calls.Nodup
  ctask : ∀ a c a' c', (a, c) ∈ s.calls → (a', c') ∈ s.calls → c.target = c'.target → a = a' ∧ c = c'
  cext : ∀ n c, (Actor.ext n, c) ∈ s.calls → s.running = true
  cwrk : ∀ w c, (Actor.wrk w, c) ∈ s.calls → ∃ t, s.pc w = .working t
  newq : ∀ t, (s.task t).state = .new → (t ∈ s.notReady ↔ ∃ a, (a, Call.sched t) ∈ s.calls)
  scn : ∀ a t, (a, Call.sched t) ∈ s.calls → (s.task t).state = .new
  disp : ∀ t, (s.task t).state = .dispatched → t ∈ s.notReady ∧ s.waiting t ≠ []
  nr : ∀ t, t ∈ s.notReady → (s.task t).state = .new ∨ (s.task t).state = .dispatched
  w0 : ∀ t, (s.task t).state ≠ .new → (s.task t).state ≠ .dispatched → s.waiting t = []
  qd : ∀ t, t ∈ s.queue → (s.task t).state = .depsCompleted
  dq : ∀ t, (s.task t).state = .depsCompleted → t ∈ s.queue ∨ ∃ w, s.pc w = .taken t
  qnd : s.queue.Nodup
  nrnd : s.notReady.Nodup
  tk : ∀ w t, s.pc w = .taken t → (s.task t).state = .depsCompleted ∧ t ∉ s.queue
  wk : ∀ w t, s.pc w = .working t → (s.task t).state = .running
  kw : ∀ t, (s.task t).state = .running → ∃ w, s.pc w = .working t
  cp : ∀ w t rest, s.pc w = .completing t rest → (s.task t).state = .completed ∧ rest.Nodup ∧
    ∀ x ∈ rest, x ∈ (s.task t).dependents
  uniq : ∀ w w' t, (s.pc w).holds t → (s.pc w').holds t → w = w'
  ex : ∀ w, s.pc w = .exited → s.running = false
  qw : s.queue ≠ [] → ∃ w, s.pc w ≠ .exited
  lstart : ∀ t, Event.start t ∈ s.log ↔ (s.task t).state = .running ∨ (s.task t).state = .completed
  lfin : ∀ t, Event.finish t ∈ s.log ↔ (s.task t).state = .completed
  lnd : s.log.Nodup
  lord : ∀ l1 l2 t, s.log = l1 ++ Event.start t :: l2 → ∀ d ∈ s.deps t, Event.finish d ∈ l1

theorem inv_init [Nonempty W] : Inv (init W) := by
  constructor <;> simp [init, Pc.holds]

omit [DecidableEq W] in
theorem snoc_split {log l1 l2 : List Event} {ev : Event} {t : Nat}
    (h : log ++ [ev] = l1 ++ Event.start t :: l2) :
    (∃ l2', log = l1 ++ Event.start t :: l2') ∨ (ev = Event.start t ∧ l1 = log) := by
  rcases List.eq_nil_or_concat l2 with rfl | ⟨l, b, rfl⟩
  · right
    have := List.append_inj' h rfl
    simp only [List.cons.injEq, and_true] at this
    exact ⟨this.2, this.1.symm⟩
  · left
    refine ⟨l, ?_⟩
    have h' : log ++ [ev] = (l1 ++ Event.start t :: l) ++ [b] := by simpa using h
    exact (List.append_inj' h' rfl).1

theorem inv_addDepBegin {s s' : State W} (h : Inv s) (a : Actor W) (t d : Nat)
    (he : Enabled s (.addDepBegin a t d)) (hx : exec s (.addDepBegin a t d) = some s') : Inv s' := by
  obtain ⟨⟨hc1, hc2⟩, ⟨ho1, ho2, ho3⟩, hd1, hd2⟩ := he
  simp only [exec, ho1, if_true, Option.some.injEq] at hx
  subst hx
  have hdw : d ∉ s.waiting t := fun hw => hd2 (h.wsub _ _ hw)
  have htd : t ≠ d := by rintro rfl; exact hd1 ho1
  have hact : ∀ n, a = .ext n → s.running = true := by
    rintro n rfl; exact hc1
  have hact2 : ∀ w, a = .wrk w → ∃ t, s.pc w = .working t := by
    rintro n rfl; exact hc1
  have htarget : ∀ a c, (a, c) ∈ s.calls → c.target ≠ t := by
    rintro a (⟨t', d'⟩ | ⟨t'⟩) hm rfl
    · exact ho3 _ _ hm
    · exact ho2 _ hm
  clear hc1
  obtain ⟨unc, wnd, wsub, wiff, wdone, dnew, dstamp, sclock, depd, pdep, depnd, cnd, ctask, cext, cwrk, newq,
    scn, disp, nr, w0, qd, dq, qnd, nrnd, tk, wk, kw, cp, uniq, ex, qw, lstart, lfin, lnd, lord⟩ := h
  constructor
  case wnd =>
    intro x
    by_cases hx : x = t
    · subst hx; simp only [if_true, List.nodup_cons]; exact ⟨hdw, wnd _⟩
    · simp only [if_neg hx]; exact wnd x
  case wiff =>
    clear dstamp sclock newq scn disp nr w0 dq tk kw lstart lfin lord uniq ctask qd wk
    intro x y
    have := wiff x y
    simp only [State.setTask]
    by_cases hx : x = t
    · by_cases hy : y = d
      · simp [hx, hy]
      · subst hx
        have h1 : (∃ a', (a', Call.addDep x y) ∈ (a, Call.addDep x d) :: s.calls) ↔
            ∃ a', (a', Call.addDep x y) ∈ s.calls := by simp [hy]
        simp only [if_true, List.mem_cons, hy, false_or]
        simp only [List.mem_cons] at h1
        grind
    · grind
  all_goals first | assumption | skip
  all_goals try simp only [State.setTask, State.setPc]
  all_goals grind [Call.target, Pc.holds, List.nodup_cons]

theorem inv_addDepExpired {s s' : State W} (h : Inv s) (a : Actor W) (t d : Nat)
    (he : Enabled s (.addDepExpired a t d)) (hx : exec s (.addDepExpired a t d) = some s') : Inv s' := by
  obtain ⟨⟨hc1, hc2⟩, ⟨ho1, ho2, ho3⟩, hd2, hd1, hf⟩ := he
  simp only [exec, ho1, if_true, Option.some.injEq] at hx
  subst hx
  have hact : ∀ n, a = .ext n → s.running = true := by
    rintro n rfl; exact hc1
  have hact2 : ∀ w, a = .wrk w → ∃ t, s.pc w = .working t := by
    rintro n rfl; exact hc1
  have htarget : ∀ a c, (a, c) ∈ s.calls → c.target ≠ t := by
    rintro a (⟨t', d'⟩ | ⟨t'⟩) hm rfl
    · exact ho3 _ _ hm
    · exact ho2 _ hm
  clear hc1
  obtain ⟨unc, wnd, wsub, wiff, wdone, dnew, dstamp, sclock, depd, pdep, depnd, cnd, ctask, cext, cwrk, newq,
    scn, disp, nr, w0, qd, dq, qnd, nrnd, tk, wk, kw, cp, uniq, ex, qw, lstart, lfin, lnd, lord⟩ := h
  constructor
  all_goals first | assumption | skip
  all_goals try simp only [State.setTask, State.setPc]
  all_goals grind [Call.target, Pc.holds, List.nodup_cons]

theorem inv_schedInsert {s s' : State W} (h : Inv s) (a : Actor W) (t : Nat)
    (he : Enabled s (.schedInsert a t)) (hx : exec s (.schedInsert a t) = some s') : Inv s' := by
  obtain ⟨⟨hc1, hc2⟩, ⟨ho1, ho2, ho3⟩⟩ := he
  simp only [exec] at hx
  split at hx
  · cases hx
  simp only [Option.some.injEq] at hx
  subst hx
  have hact : ∀ n, a = .ext n → s.running = true := by
    rintro n rfl; exact hc1
  have hact2 : ∀ w, a = .wrk w → ∃ t, s.pc w = .working t := by
    rintro n rfl; exact hc1
  have htarget : ∀ a c, (a, c) ∈ s.calls → c.target ≠ t := by
    rintro a (⟨t', d'⟩ | ⟨t'⟩) hm rfl
    · exact ho3 _ _ hm
    · exact ho2 _ hm
  clear hc1
  obtain ⟨unc, wnd, wsub, wiff, wdone, dnew, dstamp, sclock, depd, pdep, depnd, cnd, ctask, cext, cwrk, newq,
    scn, disp, nr, w0, qd, dq, qnd, nrnd, tk, wk, kw, cp, uniq, ex, qw, lstart, lfin, lnd, lord⟩ := h
  constructor
  all_goals first | assumption | skip
  all_goals try simp only [State.setTask, State.setPc]
  all_goals grind [Call.target, Pc.holds, List.nodup_cons]

theorem inv_take {s s' : State W} (h : Inv s) (w : W)
    (he : Enabled s (.take w)) (hx : exec s (.take w) = some s') : Inv s' := by
  obtain ⟨hp, hq⟩ := he
  simp only [exec] at hx
  split at hx
  · cases hx
  rename_i t q hqq
  simp only [Option.some.injEq] at hx
  subst hx
  obtain ⟨unc, wnd, wsub, wiff, wdone, dnew, dstamp, sclock, depd, pdep, depnd, cnd, ctask, cext, cwrk, newq,
    scn, disp, nr, w0, qd, dq, qnd, nrnd, tk, wk, kw, cp, uniq, ex, qw, lstart, lfin, lnd, lord⟩ := h
  constructor
  all_goals first | assumption | skip
  all_goals try simp only [State.setTask, State.setPc]
  all_goals grind [Call.target, Pc.holds, List.nodup_cons]

theorem inv_begin {s s' : State W} (h : Inv s) (w : W)
    (he : Enabled s (.begin w)) (hx : exec s (.begin w) = some s') : Inv s' := by
  obtain ⟨t, hp⟩ := he
  simp only [exec, hp] at hx
  split at hx
  swap
  · cases hx
  rename_i hst
  simp only [Option.some.injEq] at hx
  subst hx
  have u1 : ∀ w', s.pc w' = .taken t → w' = w := fun w' hw' => h.uniq _ _ t (Or.inl hw') (Or.inl hp)
  obtain ⟨unc, wnd, wsub, wiff, wdone, dnew, dstamp, sclock, depd, pdep, depnd, cnd, ctask, cext, cwrk, newq,
    scn, disp, nr, w0, qd, dq, qnd, nrnd, tk, wk, kw, cp, uniq, ex, qw, lstart, lfin, lnd, lord⟩ := h
  constructor
  case lnd =>
    simp only [State.setTask, State.setPc, List.nodup_append]
    grind
  case lord =>
    simp only [State.setTask, State.setPc]
    intro l1 l2 t' hl d hd
    rcases snoc_split hl with ⟨l2', h'⟩ | ⟨h1, h2⟩
    · exact lord _ _ _ h' d hd
    · simp only [Event.start.injEq] at h1
      subst h1; subst h2
      rw [lfin]
      exact wdone t d hd (by rw [w0 t (by simp [hst]) (by simp [hst])]; simp)
  all_goals first | assumption | skip
  all_goals try simp only [State.setTask, State.setPc]
  all_goals grind [Call.target, Pc.holds, List.nodup_cons]

theorem inv_finish {s s' : State W} (h : Inv s) (w : W)
    (he : Enabled s (.finish w)) (hx : exec s (.finish w) = some s') : Inv s' := by
  obtain ⟨⟨t, hp⟩, hcalls⟩ := he
  simp only [exec, hp, Option.some.injEq] at hx
  subst hx
  have u1 : ∀ w', s.pc w' = .working t → w' = w :=
    fun w' hw' => h.uniq _ _ t (Or.inr (Or.inl hw')) (Or.inr (Or.inl hp))
  obtain ⟨unc, wnd, wsub, wiff, wdone, dnew, dstamp, sclock, depd, pdep, depnd, cnd, ctask, cext, cwrk, newq,
    scn, disp, nr, w0, qd, dq, qnd, nrnd, tk, wk, kw, cp, uniq, ex, qw, lstart, lfin, lnd, lord⟩ := h
  constructor
  case lnd =>
    simp only [State.setTask, State.setPc, List.nodup_append]
    grind
  case lord =>
    simp only [State.setTask, State.setPc]
    intro l1 l2 t' hl d hd
    rcases snoc_split hl with ⟨l2', h'⟩ | ⟨h1, h2⟩
    · exact lord _ _ _ h' d hd
    · cases h1
  all_goals first | assumption | skip
  all_goals try simp only [State.setTask, State.setPc]
  all_goals grind [Call.target, Pc.holds, List.nodup_cons]

theorem inv_done {s s' : State W} (h : Inv s) (w : W)
    (he : Enabled s (.done w)) (hx : exec s (.done w) = some s') : Inv s' := by
  obtain ⟨t, hp⟩ := he
  simp only [exec, Option.some.injEq] at hx
  subst hx
  obtain ⟨unc, wnd, wsub, wiff, wdone, dnew, dstamp, sclock, depd, pdep, depnd, cnd, ctask, cext, cwrk, newq,
    scn, disp, nr, w0, qd, dq, qnd, nrnd, tk, wk, kw, cp, uniq, ex, qw, lstart, lfin, lnd, lord⟩ := h
  constructor
  all_goals first | assumption | skip
  all_goals try simp only [State.setTask, State.setPc]
  all_goals grind [Call.target, Pc.holds, List.nodup_cons]

theorem inv_exit {s s' : State W} (h : Inv s) (w : W)
    (he : Enabled s (.exit w)) (hx : exec s (.exit w) = some s') : Inv s' := by
  obtain ⟨hp, hq, hr⟩ := he
  simp only [exec, Option.some.injEq] at hx
  subst hx
  obtain ⟨unc, wnd, wsub, wiff, wdone, dnew, dstamp, sclock, depd, pdep, depnd, cnd, ctask, cext, cwrk, newq,
    scn, disp, nr, w0, qd, dq, qnd, nrnd, tk, wk, kw, cp, uniq, ex, qw, lstart, lfin, lnd, lord⟩ := h
  constructor
  all_goals first | assumption | skip
  all_goals try simp only [State.setTask, State.setPc]
  all_goals grind [Call.target, Pc.holds, List.nodup_cons]

theorem inv_shutdown {s s' : State W} (h : Inv s) 
    (he : Enabled s (.shutdown)) (hx : exec s (.shutdown) = some s') : Inv s' := by
  obtain ⟨hp, hq⟩ := he
  simp only [exec, hp, if_true, Option.some.injEq] at hx
  subst hx
  obtain ⟨unc, wnd, wsub, wiff, wdone, dnew, dstamp, sclock, depd, pdep, depnd, cnd, ctask, cext, cwrk, newq,
    scn, disp, nr, w0, qd, dq, qnd, nrnd, tk, wk, kw, cp, uniq, ex, qw, lstart, lfin, lnd, lord⟩ := h
  constructor
  all_goals first | assumption | skip
  all_goals try simp only [State.setTask, State.setPc]
  all_goals grind [Call.target, Pc.holds, List.nodup_cons]

set_option maxHeartbeats 1000000 in
theorem inv_setThreadPool [Nonempty W] {s s' : State W} (h : Inv s) (a : Actor W) (t : Nat)
    (he : Enabled s (.setThreadPool a t)) (hx : exec s (.setThreadPool a t) = some s') : Inv s' := by
  have hc : (a, Call.sched t) ∈ s.calls := he
  have hst := h.scn _ _ hc
  have hnr : t ∈ s.notReady := (h.newq t hst).2 ⟨a, hc⟩
  have hnoc : ∀ b c, (b, c) ∈ s.calls.erase (a, .sched t) → c.target ≠ t := by
    intro b c hm ht
    rw [h.cnd.mem_erase_iff] at hm
    obtain ⟨rfl, rfl⟩ := h.ctask _ _ _ _ hm.2 hc ht
    exact hm.1 rfl
  have hnoc2 : ∀ b d, (b, Call.addDep t d) ∉ s.calls.erase (a, .sched t) := fun b d hm => hnoc _ _ hm rfl
  have hnoc3 : ∀ b, (b, Call.sched t) ∉ s.calls.erase (a, .sched t) := fun b hm => hnoc _ _ hm rfl
  have hmem : ∀ b c, (b, c) ∈ s.calls.erase (a, .sched t) ↔ (b, c) ≠ (a, .sched t) ∧ (b, c) ∈ s.calls :=
    fun b c => h.cnd.mem_erase_iff
  have hmem2 : ∀ x, x ∈ s.notReady.erase t ↔ x ≠ t ∧ x ∈ s.notReady := fun x => h.nrnd.mem_erase_iff
  have hnd := h.cnd.erase (a, Call.sched t)
  have hnd2 := h.nrnd.erase t
  have hexists : ∃ w, s.pc w ≠ .exited := by
    cases a with
    | ext n =>
      have hr := h.cext _ _ hc
      refine ⟨Classical.arbitrary W, fun hx => ?_⟩
      rw [h.ex _ hx] at hr; cases hr
    | wrk w =>
      obtain ⟨t', ht'⟩ := h.cwrk _ _ hc
      exact ⟨w, by rw [ht']; simp⟩
  have hdw : ∀ d ∈ s.deps t, d ≠ t := by
    rintro d hd rfl; exact h.dnew _ _ hd hst
  simp only [exec, hst, if_true] at hx
  have hu := h.unc t
  split at hx
  · rename_i h0
    have hw : s.waiting t = [] := by
      rw [h0] at hu; exact List.eq_nil_of_length_eq_zero hu.symm
    simp only [notify, State.setTask, hnr, if_true, Option.some.injEq] at hx
    subst hx
    have hqn : t ∉ s.queue := fun hq => by rw [h.qd t hq] at hst; cases hst
    obtain ⟨unc, wnd, wsub, wiff, wdone, dnew, dstamp, sclock, depd, pdep, depnd, cnd, ctask, cext, cwrk, newq,
      scn, disp, nr, w0, qd, dq, qnd, nrnd, tk, wk, kw, cp, uniq, ex, qw, lstart, lfin, lnd, lord⟩ := h
    constructor
    all_goals first | assumption | skip
    all_goals try simp only [State.setTask, State.setPc]
    all_goals grind [Call.target, Pc.holds, List.nodup_cons]

  · rename_i h0
    have hw : s.waiting t ≠ [] := by
      intro hw; rw [hw] at hu; exact h0 hu
    simp only [Option.some.injEq] at hx
    subst hx
    obtain ⟨unc, wnd, wsub, wiff, wdone, dnew, dstamp, sclock, depd, pdep, depnd, cnd, ctask, cext, cwrk, newq,
      scn, disp, nr, w0, qd, dq, qnd, nrnd, tk, wk, kw, cp, uniq, ex, qw, lstart, lfin, lnd, lord⟩ := h
    constructor
    all_goals first | assumption | skip
    all_goals try simp only [State.setTask, State.setPc]
    all_goals grind [Call.target, Pc.holds, List.nodup_cons]

/-- Case analysis of `OnDependenyCompleted`. -/
theorem odc_cases {s s' : State W} {t d : Nat} (hx : onDependencyCompleted s t d = some s') :
    ∃ n, (s.task t).uncompleted = n + 1 ∧
      ((n = 0 ∧ (s.task t).state = .dispatched ∧
        notify ({ s with waiting := fun x => if x = t then (s.waiting t).erase d else s.waiting x }.setTask t
          { s.task t with uncompleted := n, state := .depsCompleted }) t = some s') ∨
       (¬ (n = 0 ∧ (s.task t).state = .dispatched) ∧
        s' = { s with waiting := fun x => if x = t then (s.waiting t).erase d else s.waiting x }.setTask t
          { s.task t with uncompleted := n })) := by
  unfold onDependencyCompleted at hx
  simp only at hx
  split at hx
  · split at hx
    · cases hx
    · rename_i n hn
      refine ⟨n, hn, ?_⟩
      split at hx
      · rename_i h0; exact Or.inl ⟨h0.1, h0.2, hx⟩
      · rename_i h0
        simp only [Option.some.injEq] at hx
        exact Or.inr ⟨h0, hx.symm⟩
  · cases hx

set_option maxHeartbeats 1000000 in
theorem inv_addDependent {s s' : State W} (h : Inv s) (a : Actor W) (t d : Nat)
    (he : Enabled s (.addDependent a t d)) (hx : exec s (.addDependent a t d) = some s') : Inv s' := by
  obtain ⟨hc, hfree⟩ := he
  obtain ⟨p1, p2, p3⟩ := h.pdep _ _ _ hc
  have hmem : ∀ b c, (b, c) ∈ s.calls.erase (a, .addDep t d) ↔ (b, c) ≠ (a, .addDep t d) ∧ (b, c) ∈ s.calls :=
    fun b c => h.cnd.mem_erase_iff
  have hnoc : ∀ b c, (b, c) ∈ s.calls.erase (a, .addDep t d) → c.target ≠ t := by
    intro b c hm ht
    rw [hmem] at hm
    obtain ⟨rfl, rfl⟩ := h.ctask _ _ _ _ hm.2 hc ht
    exact hm.1 rfl
  have hnoc2 : ∀ b d', (b, Call.addDep t d') ∉ s.calls.erase (a, .addDep t d) := fun b d' hm => hnoc _ _ hm rfl
  have hnoc3 : ∀ b, (b, Call.sched t) ∉ s.calls := by
    intro b hb
    obtain ⟨-, h'⟩ := h.ctask _ _ _ _ hb hc rfl
    cases h'
  have hnd := h.cnd.erase (a, Call.addDep t d)
  have hdw : d ∈ s.waiting t := (h.wiff t d).2 (Or.inl ⟨a, hc⟩)
  have htd : t ≠ d := by rintro rfl; exact h.dnew _ _ p1 p3
  have hmemw : ∀ x, x ∈ (s.waiting t).erase d ↔ x ≠ d ∧ x ∈ s.waiting t := fun x => (h.wnd t).mem_erase_iff
  have hndw := (h.wnd t).erase d
  have hlen := List.length_erase_of_mem hdw
  have hu := h.unc t
  simp only [exec] at hx
  split at hx
  · rename_i hcomp
    simp only [onDependencyCompleted, p3, true_or, if_true] at hx
    split at hx
    · cases hx
    rename_i n hn
    simp only [State.setTask, reduceCtorEq, and_false, if_false, Option.some.injEq] at hx
    subst hx
    rw [hn] at hu
    have hlen' : ((s.waiting t).erase d).length = n := by omega
    obtain ⟨unc, wnd, wsub, wiff, wdone, dnew, dstamp, sclock, depd, pdep, depnd, cnd, ctask, cext, cwrk, newq,
      scn, disp, nr, w0, qd, dq, qnd, nrnd, tk, wk, kw, cp, uniq, ex, qw, lstart, lfin, lnd, lord⟩ := h
    constructor
    all_goals first | assumption | skip
    all_goals try simp only [State.setTask, State.setPc]
    all_goals grind [Call.target, Pc.holds, List.nodup_cons]
  · rename_i hcomp
    simp only [State.setTask, Option.some.injEq] at hx
    subst hx
    obtain ⟨unc, wnd, wsub, wiff, wdone, dnew, dstamp, sclock, depd, pdep, depnd, cnd, ctask, cext, cwrk, newq,
      scn, disp, nr, w0, qd, dq, qnd, nrnd, tk, wk, kw, cp, uniq, ex, qw, lstart, lfin, lnd, lord⟩ := h
    constructor
    all_goals first | assumption | skip
    all_goals try simp only [State.setTask, State.setPc]
    all_goals grind [Call.target, Pc.holds, List.nodup_cons]

end Verif.ThreadPool
