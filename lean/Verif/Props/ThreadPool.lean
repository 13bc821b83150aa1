import Verif.ThreadPoolPotential

/-! # C01, C02: tasks and thread pool -/

namespace Verif.ThreadPool

set_option linter.unusedSectionVars false

variable {W : Type} [DecidableEq W]

theorem Exec.reach {tr : List (Act W)} {s : State W} (h : Exec tr s) : Reach s := by
  induction h with
  | init => exact .init
  | step _ he hx ih => exact .step ih he hx

theorem odc_deps {s s' : State W} {t d : Nat} (hx : onDependencyCompleted s t d = some s') :
    s'.deps = s.deps := by
  obtain ⟨n, hn, ⟨-, -, h⟩ | ⟨-, h⟩⟩ := odc_cases hx
  · simp only [notify] at h
    split at h
    · simp only [Option.some.injEq] at h; rw [← h]; rfl
    · cases h
  · rw [h]; rfl

/-- The dependency lists of the model are what the clients declared. -/
theorem deps_step {s s' : State W} {a : Act W} (hx : exec s a = some s') (t d : Nat) :
    d ∈ s'.deps t ↔ d ∈ s.deps t ∨ (∃ b, a = .addDepBegin b t d ∨ a = .addDepExpired b t d) := by
  cases a with
  | addDepBegin a t' d' =>
    simp only [exec] at hx
    split at hx
    · simp only [Option.some.injEq] at hx; subst hx
      by_cases h : t = t'
      · subst h; simp; tauto
      · simp only [if_neg h, Act.addDepBegin.injEq]
        constructor
        · exact Or.inl
        · rintro (h' | ⟨b, h' | h'⟩)
          · exact h'
          · exact absurd h'.2.1.symm h
          · cases h'
    · cases hx
  | addDepExpired a t' d' =>
    simp only [exec] at hx
    split at hx
    · simp only [Option.some.injEq] at hx; subst hx
      by_cases h : t = t'
      · subst h; simp; tauto
      · simp only [if_neg h, Act.addDepExpired.injEq]
        constructor
        · exact Or.inl
        · rintro (h' | ⟨b, h' | h'⟩)
          · exact h'
          · cases h'
          · exact absurd h'.2.1.symm h
    · cases hx
  | addDependent a t' d' =>
    simp only [exec] at hx
    split at hx
    · rw [odc_deps hx]; simp
    · split at hx
      · cases hx
      · simp only [Option.some.injEq] at hx; subst hx; simp [State.setTask]
  | schedInsert a t' =>
    simp only [exec] at hx
    split at hx
    · cases hx
    · simp only [Option.some.injEq] at hx; subst hx; simp
  | setThreadPool a t' =>
    simp only [exec] at hx
    split at hx
    · split at hx
      · simp only [notify] at hx
        split at hx
        · simp only [Option.some.injEq] at hx; subst hx; simp [State.setTask]
        · cases hx
      · simp only [Option.some.injEq] at hx; subst hx; simp [State.setTask]
    · cases hx
  | take w =>
    cases hq : s.queue with
    | nil => simp [exec, hq] at hx
    | cons => simp only [exec, hq, Option.some.injEq] at hx; subst hx; simp [State.setPc]
  | begin w =>
    simp only [exec] at hx
    split at hx
    · split at hx
      · simp only [Option.some.injEq] at hx; subst hx; simp [State.setPc, State.setTask]
      · cases hx
    · cases hx
  | finish w =>
    simp only [exec] at hx
    split at hx
    · simp only [Option.some.injEq] at hx; subst hx; simp [State.setPc, State.setTask]
    · cases hx
  | notifyDep w t' =>
    simp only [exec] at hx
    split at hx
    · rw [odc_deps hx]; simp [State.setPc]
    · cases hx
  | done w => simp only [exec, Option.some.injEq] at hx; subst hx; simp [State.setPc]
  | exit w => simp only [exec, Option.some.injEq] at hx; subst hx; simp [State.setPc]
  | shutdown =>
    simp only [exec] at hx
    split at hx
    · simp only [Option.some.injEq] at hx; subst hx; simp
    · cases hx

theorem deps_iff_declared {tr : List (Act W)} {s : State W} (h : Exec tr s) (t d : Nat) :
    d ∈ s.deps t ↔ Declared tr t d := by
  induction h with
  | init => simp [init, Declared]
  | step _ he hx ih =>
    rw [deps_step hx, ih]
    simp only [Declared, List.mem_append, List.mem_singleton]
    constructor
    · rintro (⟨a, h | h⟩ | ⟨b, h | h⟩)
      · exact ⟨a, Or.inl (Or.inl h)⟩
      · exact ⟨a, Or.inr (Or.inl h)⟩
      · exact ⟨b, Or.inl (Or.inr h.symm)⟩
      · exact ⟨b, Or.inr (Or.inr h.symm)⟩
    · rintro ⟨a, (h | h) | (h | h)⟩
      · exact Or.inl ⟨a, Or.inl h⟩
      · exact Or.inr ⟨a, Or.inl h.symm⟩
      · exact Or.inl ⟨a, Or.inr h⟩
      · exact Or.inr ⟨a, Or.inr h.symm⟩

/-- A task is scheduled once it left state NEW or a `Schedule` call on it is in progress. -/
def Sched (s : State W) (t : Nat) : Prop := (s.task t).state ≠ .new ∨ ∃ a, (a, Call.sched t) ∈ s.calls

theorem odc_sched {s s' : State W} {t d : Nat} (hx : onDependencyCompleted s t d = some s') :
    s'.calls = s.calls ∧ ∀ x, (s'.task x).state = .new ↔ (s.task x).state = .new := by
  obtain ⟨n, hn, ⟨-, h1, h⟩ | ⟨-, h⟩⟩ := odc_cases hx
  · simp only [notify] at h
    split at h
    · simp only [Option.some.injEq] at h; subst h
      refine ⟨rfl, fun x => ?_⟩
      by_cases hx : x = t
      · subst hx; simp [State.setTask, h1]
      · simp [State.setTask, hx]
    · cases h
  · subst h
    refine ⟨rfl, fun x => ?_⟩
    by_cases hx : x = t
    · subst hx; simp [State.setTask]
    · simp [State.setTask, hx]

set_option maxHeartbeats 1000000 in
theorem sched_step {s s' : State W} (h : Inv s) {a : Act W} (he : Enabled s a) (hx : exec s a = some s') (t : Nat) :
    Sched s' t ↔ Sched s t ∨ ∃ b, a = .schedInsert b t := by
  cases a with
  | addDepBegin a t' d' =>
    simp only [exec] at hx
    split at hx
    · simp only [Option.some.injEq] at hx; subst hx
      simp only [Sched, State.setTask]
      by_cases ht : t = t' <;> simp [ht]
    · cases hx
  | addDepExpired a t' d' =>
    simp only [exec] at hx
    split at hx
    · simp only [Option.some.injEq] at hx; subst hx; simp [Sched]
    · cases hx
  | addDependent a t' d' =>
    have hmem : ∀ b x, (b, Call.sched x) ∈ s.calls.erase (a, .addDep t' d') ↔ (b, Call.sched x) ∈ s.calls := by
      intro b x; rw [h.cnd.mem_erase_iff]; simp
    simp only [exec] at hx
    split at hx
    · obtain ⟨h1, h2⟩ := odc_sched hx
      simp only [Sched, h1, hmem, ne_eq, h2]; simp
    · split at hx
      · cases hx
      · simp only [Option.some.injEq] at hx; subst hx
        simp only [Sched, State.setTask, hmem]
        by_cases ht : t = d' <;> simp [ht]
  | schedInsert a t' =>
    simp only [exec] at hx
    split at hx
    · cases hx
    · simp only [Option.some.injEq] at hx; subst hx
      simp only [Sched, List.mem_cons, Act.schedInsert.injEq, Prod.mk.injEq, Call.sched.injEq]
      constructor
      · rintro (h | ⟨b, h | h⟩)
        · exact Or.inl (Or.inl h)
        · exact Or.inr ⟨b, h.1.symm, h.2.symm⟩
        · exact Or.inl (Or.inr ⟨b, h⟩)
      · rintro ((h | ⟨b, h⟩) | ⟨b, h⟩)
        · exact Or.inl h
        · exact Or.inr ⟨b, Or.inr h⟩
        · exact Or.inr ⟨b, Or.inl ⟨h.1.symm, h.2.symm⟩⟩
  | setThreadPool a t' =>
    have hs : Sched s t' := Or.inr ⟨a, he⟩
    have hmem : ∀ b x, x ≠ t' → ((b, Call.sched x) ∈ s.calls.erase (a, .sched t') ↔ (b, Call.sched x) ∈ s.calls) := by
      intro b x hx; rw [h.cnd.mem_erase_iff]; simp [hx]
    have key : (s'.task t').state ≠ .new ∧ s'.calls = s.calls.erase (a, .sched t') ∧ ∀ x, x ≠ t' → s'.task x = s.task x := by
      simp only [exec] at hx
      split at hx
      · split at hx
        · simp only [notify] at hx
          split at hx
          · simp only [Option.some.injEq] at hx; subst hx; simp [State.setTask]
            intro x h1 h2; exact absurd h2 h1
          · cases hx
        · simp only [Option.some.injEq] at hx; subst hx; simp [State.setTask]
          intro x h1 h2; exact absurd h2 h1
      · cases hx
    obtain ⟨k1, k2, k3⟩ := key
    by_cases ht : t = t'
    · subst ht
      simp only [hs, true_or, iff_true]
      exact Or.inl k1
    · simp only [Sched, k2, k3 t ht, hmem _ t ht]
      simp
  | take w =>
    cases hq : s.queue with
    | nil => simp [exec, hq] at hx
    | cons => simp only [exec, hq, Option.some.injEq] at hx; subst hx; simp [Sched, State.setPc]
  | begin w =>
    obtain ⟨t', hp⟩ := he
    have h1 := (h.tk _ _ hp).1
    simp only [exec, hp, h1, if_true, Option.some.injEq] at hx
    subst hx
    simp only [Sched, State.setPc, State.setTask]
    by_cases ht : t = t' <;> simp [ht, h1]
  | finish w =>
    obtain ⟨⟨t', hp⟩, -⟩ := he
    have h1 := h.wk _ _ hp
    simp only [exec, hp, Option.some.injEq] at hx
    subst hx
    simp only [Sched, State.setPc, State.setTask]
    by_cases ht : t = t' <;> simp [ht, h1]
  | notifyDep w t' =>
    obtain ⟨d, rest, hp, -⟩ := he
    simp only [exec, hp] at hx
    obtain ⟨h1, h2⟩ := odc_sched hx
    simp only [Sched, h1, ne_eq, h2]
    simp [State.setPc]
  | done w => simp only [exec, Option.some.injEq] at hx; subst hx; simp [Sched, State.setPc]
  | exit w => simp only [exec, Option.some.injEq] at hx; subst hx; simp [Sched, State.setPc]
  | shutdown =>
    simp only [exec] at hx
    split at hx
    · simp only [Option.some.injEq] at hx; subst hx; simp [Sched]
    · cases hx

theorem sched_iff_scheduled [Nonempty W] {tr : List (Act W)} {s : State W} (h : Exec tr s) (t : Nat) :
    Sched s t ↔ Scheduled tr t := by
  induction h with
  | init => simp [Sched, init, Scheduled]
  | step h' he hx ih =>
    rw [sched_step (inv_reach h'.reach) he hx, ih]
    simp only [Scheduled, List.mem_append, List.mem_singleton]
    constructor
    · rintro (⟨a, h⟩ | ⟨b, h⟩)
      · exact ⟨a, Or.inl h⟩
      · exact ⟨b, Or.inr h.symm⟩
    · rintro ⟨a, h | h⟩
      · exact Or.inl ⟨a, h⟩
      · exact Or.inr ⟨a, h.symm⟩

/-- **C01.** In every execution: no work item is started (or finished) twice, only scheduled tasks are
started, and when the work item of `t` starts the work items of all tasks that were ever declared to be
dependencies of `t` have finished before. -/
theorem work_item_once_after_dependencies [Nonempty W] {tr : List (Act W)} {s : State W} (h : Exec tr s) :
    s.log.Nodup ∧
    ∀ before after t, s.log = before ++ Event.start t :: after →
      Scheduled tr t ∧ Event.start t ∉ before ∧ ∀ d, Declared tr t d → Event.finish d ∈ before := by
  have i := inv_reach h.reach
  refine ⟨i.lnd, fun l1 l2 t hl => ⟨?_, ?_, fun d hd => ?_⟩⟩
  · rw [← sched_iff_scheduled h]
    have : Event.start t ∈ s.log := by rw [hl]; simp
    rcases (i.lstart t).1 this with h' | h' <;> exact Or.inl (by rw [h']; simp)
  · have := i.lnd
    rw [hl, List.nodup_append] at this
    intro hm
    exact this.2.2 _ hm _ List.mem_cons_self rfl
  · exact i.lord _ _ _ hl _ ((deps_iff_declared h t d).2 hd)

/-- A finished work item had been started before. -/
theorem finish_after_start [Nonempty W] {tr : List (Act W)} {s : State W} (h : Exec tr s) (t : Nat)
    (hf : Event.finish t ∈ s.log) : Event.start t ∈ s.log := by
  have i := inv_reach h.reach
  exact (i.lstart t).2 (Or.inr ((i.lfin t).1 hf))

/-- **C02, no check fails.** In every execution every possible next step succeeds. -/
theorem no_check_fails [Nonempty W] {tr : List (Act W)} {s : State W} (h : Exec tr s) (a : Act W)
    (he : Enabled s a) : ∃ s', exec s a = some s' ∧ Exec (tr ++ [a]) s' := by
  cases hx : exec s a with
  | none => exact absurd hx (exec_ne_none (inv_reach h.reach) a he)
  | some s' => exact ⟨s', rfl, .step h he hx⟩

/-- **C02, main part.** When the destructor returns, every scheduled task has been executed to
completion and no call is left unfinished. -/
theorem shutdown_completes_all [Nonempty W] {tr : List (Act W)} {s : State W} (h : Exec tr s) (hj : Joined s) :
    s.calls = [] ∧ ∀ t, Scheduled tr t → Event.start t ∈ s.log ∧ Event.finish t ∈ s.log := by
  have i := inv_reach h.reach
  have hr : s.running = false := i.ex _ (hj (Classical.choice ‹Nonempty W›))
  have hc : s.calls = [] := by
    rw [List.eq_nil_iff_forall_not_mem]
    rintro ⟨a, c⟩ hm
    cases a with
    | ext n => rw [i.cext _ _ hm] at hr; cases hr
    | wrk w =>
      obtain ⟨t, ht⟩ := i.cwrk _ _ hm
      rw [hj w] at ht; cases ht
  refine ⟨hc, fun t ht => ?_⟩
  have hq : s.queue = [] := by
    by_contra hq
    obtain ⟨w, hw⟩ := i.qw hq
    exact hw (hj w)
  have hn : (s.task t).state ≠ .new := by
    rcases (sched_iff_scheduled h t).2 ht with h' | ⟨a, h'⟩
    · exact h'
    · rw [hc] at h'; cases h'
  have := quiet_completed i hc hq (fun w => Or.inr (hj w)) _ t rfl hn
  exact ⟨(i.lstart t).2 (Or.inr this), (i.lfin t).2 this⟩

/-- **C02, progress.** As long as some scheduled task is incomplete, or the destructor was called and a
thread is not joined, some step of a worker or of a call in progress is possible. -/
theorem progress [Nonempty W] {tr : List (Act W)} {s : State W} (h : Exec tr s)
    (hw : (∃ t, Scheduled tr t ∧ Event.finish t ∉ s.log) ∨ (s.running = false ∧ ¬ Joined s)) :
    ∃ a, a.isRequest = false ∧ Enabled s a := by
  have i := inv_reach h.reach
  by_cases hcomp : ∃ w d rest, s.pc w = .completing d rest
  · obtain ⟨w, d, rest, hp⟩ := hcomp
    cases rest with
    | nil => exact ⟨.done w, rfl, d, hp⟩
    | cons t rest =>
      refine ⟨.notifyDep w t, rfl, d, _, hp, List.mem_cons_self, ?_⟩
      intro w' r' hp'
      have h1 := (i.cp _ _ _ hp').1
      have : d ∈ s.waiting t := (i.wiff t d).2 (Or.inr (Or.inr ⟨w, _, hp, List.mem_cons_self⟩))
      rw [i.w0 t (by rw [h1]; simp) (by rw [h1]; simp)] at this
      cases this
  have hfree : ∀ d, Free s d := fun d w r hp => hcomp ⟨w, d, r, hp⟩
  by_cases hcalls : s.calls = []
  · by_cases hbusy : ∃ w t, s.pc w = .taken t ∨ s.pc w = .working t
    · obtain ⟨w, t, hp | hp⟩ := hbusy
      · exact ⟨.begin w, rfl, t, hp⟩
      · exact ⟨.finish w, rfl, ⟨t, hp⟩, by simp [hcalls]⟩
    · have hidle : ∀ w, s.pc w = .top ∨ s.pc w = .exited := by
        intro w
        cases hp : s.pc w with
        | top => exact Or.inl rfl
        | exited => exact Or.inr rfl
        | taken t => exact absurd ⟨w, t, Or.inl hp⟩ hbusy
        | working t => exact absurd ⟨w, t, Or.inr hp⟩ hbusy
        | completing d r => exact absurd ⟨w, d, r, hp⟩ hcomp
      by_cases hq : s.queue = []
      · rcases hw with ⟨t, ht, hnf⟩ | ⟨hr, hnj⟩
        · exfalso
          have hn : (s.task t).state ≠ .new := by
            rcases (sched_iff_scheduled h t).2 ht with h' | ⟨a, h'⟩
            · exact h'
            · rw [hcalls] at h'; cases h'
          exact hnf ((i.lfin t).2 (quiet_completed i hcalls hq hidle _ t rfl hn))
        · simp only [Joined, not_forall] at hnj
          obtain ⟨w, hw⟩ := hnj
          exact ⟨.exit w, rfl, (hidle w).resolve_right hw, hq, hr⟩
      · obtain ⟨w, hw⟩ := i.qw hq
        exact ⟨.take w, rfl, (hidle w).resolve_right hw, hq⟩
  · obtain ⟨⟨a, c⟩, hm⟩ := List.exists_mem_of_ne_nil _ hcalls
    cases c with
    | addDep t d => exact ⟨.addDependent a t d, rfl, hm, hfree d⟩
    | sched t => exact ⟨.setThreadPool a t, rfl, hm⟩

/-- **C02, termination.** With finitely many workers an execution in which clients make `n` requests
(declare a dependency, schedule a task, call the destructor) has at most `8 n + #workers` steps.  Together
with `progress`: if clients stop making requests, every scheduled task is completed after finitely many
steps, and after the destructor was called all threads are joined after finitely many steps. -/
theorem bounded_steps [Fintype W] [Nonempty W] {tr : List (Act W)} {s : State W} (h : Exec tr s) :
    tr.length ≤ 8 * (tr.countP (·.isRequest)) + Fintype.card W := by
  suffices hs : tr.length + s.potential ≤ 8 * (tr.countP (·.isRequest)) + Fintype.card W by omega
  induction h with
  | init => simp [State.potential, init, Pc.wt]
  | step h' he hx ih =>
    rename_i tr s s' a
    have := potential_step (inv_reach h'.reach) a he hx
    rw [List.length_append, List.countP_append]
    simp only [List.length_singleton, List.countP_singleton]
    split at this <;> simp_all <;> omega

/-- Two tasks, the second depending on the first, one worker, an orderly shutdown in which the second task
is executed after the destructor was called. -/
example : ∃ (tr : List (Act Unit)) (s : State Unit), Exec tr s ∧ Joined s ∧ Scheduled tr 0 ∧ Scheduled tr 1 ∧
    Declared tr 1 0 ∧ s.log = [.start 0, .finish 0, .start 1, .finish 1] := by
  have e1 := Exec.step (W := Unit) .init (a := .schedInsert (.ext 0) 0) (by simp [Enabled, CanCall, Owned, init]) rfl
  have e2 := Exec.step e1 (a := .setThreadPool (.ext 0) 0) (by simp [Enabled]) rfl
  have e3 := Exec.step e2 (a := .addDepBegin (.ext 0) 1 0)
    (by simp [Enabled, CanCall, Owned, State.setTask, init]) rfl
  have e4 := Exec.step e3 (a := .addDependent (.ext 0) 1 0)
    (by simp [Enabled, Free, State.setTask, init]) rfl
  have e5 := Exec.step e4 (a := .schedInsert (.ext 0) 1)
    (by simp [Enabled, CanCall, Owned, State.setTask, init]) rfl
  have e6 := Exec.step e5 (a := .setThreadPool (.ext 0) 1) (by simp [Enabled]) rfl
  have e7 := Exec.step e6 (a := .take ()) (by simp [Enabled, State.setTask, init]) rfl
  have e8 := Exec.step e7 (a := .begin ()) ⟨0, rfl⟩ rfl
  have e9 := Exec.step e8 (a := .shutdown) (by simp [Enabled, State.setTask, State.setPc, init]) rfl
  have e10 := Exec.step e9 (a := .finish ()) ⟨⟨0, rfl⟩, by simp [State.setTask, State.setPc, init]⟩ rfl
  have e11 := Exec.step e10 (a := .notifyDep () 1) ⟨0, [1], rfl, by simp, by simp [Free, State.setPc]⟩ rfl
  have e12 := Exec.step e11 (a := .done ()) ⟨0, rfl⟩ rfl
  have e13 := Exec.step e12 (a := .take ()) ⟨rfl, by simp [State.setPc, State.setTask, init]⟩ rfl
  have e14 := Exec.step e13 (a := .begin ()) ⟨1, rfl⟩ rfl
  have e15 := Exec.step e14 (a := .finish ()) ⟨⟨1, rfl⟩, by simp [State.setTask, State.setPc, init]⟩ rfl
  have e16 := Exec.step e15 (a := .done ()) ⟨1, rfl⟩ rfl
  have e17 := Exec.step e16 (a := .exit ()) ⟨rfl, rfl, rfl⟩ rfl
  refine ⟨_, _, e17, fun _ => rfl, ⟨.ext 0, by simp⟩, ⟨.ext 0, by simp⟩, ⟨.ext 0, by simp⟩, rfl⟩

end Verif.ThreadPool
