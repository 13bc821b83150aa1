import Verif.ThreadPoolLemmas

/-! Preservation of the invariant by a notification, and the invariant of all reachable states. -/

namespace Verif.ThreadPool

set_option linter.unusedSectionVars false
set_option linter.unusedSimpArgs false

variable {W : Type} [DecidableEq W]

set_option maxHeartbeats 1000000 in
theorem inv_notifyDep {s s' : State W} (h : Inv s) (w : W) (t : Nat)
    (he : Enabled s (.notifyDep w t)) (hx : exec s (.notifyDep w t) = some s') : Inv s' := by
  obtain ⟨d, rest, hp, hr, hfree⟩ := he
  obtain ⟨c1, c2, c3⟩ := h.cp _ _ _ hp
  have u1 : ∀ w' r, s.pc w' = .completing d r → w' = w := fun w' r hw' =>
    h.uniq _ _ d (Or.inr (Or.inr ⟨_, hw'⟩)) (Or.inr (Or.inr ⟨_, hp⟩))
  have hdw : d ∈ s.waiting t := (h.wiff t d).2 (Or.inr (Or.inr ⟨w, rest, hp, hr⟩))
  have hst : (s.task t).state = .new ∨ (s.task t).state = .dispatched := by
    by_contra hc
    rw [not_or] at hc
    have := h.w0 t hc.1 hc.2
    rw [this] at hdw; cases hdw
  have hnp : ∀ b, (b, Call.addDep t d) ∉ s.calls := fun b hb => (h.pdep _ _ _ hb).2.1 (c3 t hr)
  have hmemr : ∀ x, x ∈ rest.erase t ↔ x ≠ t ∧ x ∈ rest := fun x => c2.mem_erase_iff
  have hndr := c2.erase t
  have hmemw : ∀ x, x ∈ (s.waiting t).erase d ↔ x ≠ d ∧ x ∈ s.waiting t := fun x => (h.wnd t).mem_erase_iff
  have hndw := (h.wnd t).erase d
  have hlen := List.length_erase_of_mem hdw
  have hu := h.unc t
  have htd : t ≠ d := by
    rintro rfl
    rw [c1] at hst
    rcases hst with h | h <;> cases h
  simp only [exec, hp] at hx
  obtain ⟨n, hn, hcase⟩ := odc_cases hx
  have hn : (s.task t).uncompleted = n + 1 := hn
  rw [hn] at hu
  have hlen' : ((s.waiting t).erase d).length = n := by omega
  clear hx
  have hholds : ∀ w1 x, (if w1 = w then Pc.completing d (rest.erase t) else s.pc w1).holds x ↔ (s.pc w1).holds x := by
    intro w1 x
    by_cases hw : w1 = w
    · subst hw; simp only [if_true, hp, Pc.holds]; simp
    · simp only [if_neg hw]
  have htaken : ∀ w1 x, (if w1 = w then Pc.completing d (rest.erase t) else s.pc w1) = .taken x ↔ s.pc w1 = .taken x := by
    intro w1 x
    by_cases hw : w1 = w
    · subst hw; simp only [if_true, hp]; simp
    · simp only [if_neg hw]
  have hcomp : ∀ x y, (∃ w1 r, (if w1 = w then Pc.completing d (rest.erase t) else s.pc w1) = .completing y r ∧ x ∈ r) ↔
      (∃ w1 r, s.pc w1 = .completing y r ∧ x ∈ r) ∧ ¬ (x = t ∧ y = d) := by
    intro x y
    constructor
    · rintro ⟨w1, r, h1, h2⟩
      by_cases hw : w1 = w
      · subst hw
        simp only [if_true, Pc.completing.injEq] at h1
        obtain ⟨rfl, rfl⟩ := h1
        rw [hmemr] at h2
        exact ⟨⟨_, _, hp, h2.2⟩, fun hh => h2.1 hh.1⟩
      · simp only [if_neg hw] at h1
        refine ⟨⟨_, _, h1, h2⟩, ?_⟩
        rintro ⟨rfl, rfl⟩
        exact hw (u1 _ _ h1)
    · rintro ⟨⟨w1, r, h1, h2⟩, h3⟩
      by_cases hw : w1 = w
      · subst hw
        rw [hp] at h1
        simp only [Pc.completing.injEq] at h1
        obtain ⟨rfl, rfl⟩ := h1
        refine ⟨w1, rest.erase t, by simp, (hmemr _).2 ⟨fun hh => h3 ⟨hh, rfl⟩, h2⟩⟩
      · exact ⟨w1, r, by simp only [if_neg hw]; exact h1, h2⟩
  rcases hcase with ⟨h0, h1, hx⟩ | ⟨h0, hx⟩
  · have h1 : (s.task t).state = .dispatched := h1
    have hw0 : (s.waiting t).erase d = [] := by rw [h0] at hlen'; exact List.eq_nil_of_length_eq_zero hlen'
    obtain ⟨hnr, -⟩ := h.disp t h1
    have hqn : t ∉ s.queue := fun hq => by rw [h.qd t hq] at h1; cases h1
    have hmem2 : ∀ x, x ∈ s.notReady.erase t ↔ x ≠ t ∧ x ∈ s.notReady := fun x => h.nrnd.mem_erase_iff
    have hnd2 := h.nrnd.erase t
    simp only [notify, State.setTask, State.setPc, hnr, if_true, Option.some.injEq] at hx
    subst hx
    obtain ⟨unc, wnd, wsub, wiff, wdone, dnew, dstamp, sclock, depd, pdep, depnd, cnd, ctask, cext, cwrk, newq,
      scn, disp, nr, w0, qd, dq, qnd, nrnd, tk, wk, kw, cp, uniq, ex, qw, lstart, lfin, lnd, lord⟩ := h
    constructor
    case uniq =>
      intro w1 w2 x h1 h2
      rw [hholds] at h1 h2
      exact uniq _ _ _ h1 h2
    case wiff =>
      intro x y
      have := wiff x y
      simp only [hcomp]
      have hD : (x ∈ (if y = t then ({ s.task t with uncompleted := n, state := .depsCompleted } : Task) else s.task y).dependents ∧
          (if y = t then ({ s.task t with uncompleted := n, state := .depsCompleted } : Task) else s.task y).state ≠ .completed) ↔
          (x ∈ (s.task y).dependents ∧ (s.task y).state ≠ .completed) := by
        by_cases hy : y = t
        · subst hy; rcases hst with h' | h' <;> simp [h']
        · simp only [if_neg hy]
      rw [hD]
      by_cases hx : x = t
      · subst hx
        simp only [if_true, hmemw, this]
        by_cases hy : y = d
        · subst hy
          simp [c1, hnp]
        · simp [hy]
      · rw [if_neg hx, this]
        simp only [hx, false_and, not_false_eq_true, and_true]
    case dq =>
      intro x
      have := dq x
      simp only [htaken]
      clear wiff uniq dstamp sclock lord hcomp hholds ctask
      grind
    all_goals clear hcomp htaken hholds
    all_goals first | assumption | skip
    all_goals try simp only [State.setTask, State.setPc]
    all_goals grind [Call.target, Pc.holds, List.nodup_cons]
  · have h0 : ¬ (n = 0 ∧ (s.task t).state = .dispatched) := h0
    have hw0 : (s.task t).state = .dispatched → (s.waiting t).erase d ≠ [] := by
      intro h1 h2
      rw [h2] at hlen'
      exact h0 ⟨hlen'.symm, h1⟩
    simp only [State.setTask, State.setPc] at hx
    subst hx
    obtain ⟨unc, wnd, wsub, wiff, wdone, dnew, dstamp, sclock, depd, pdep, depnd, cnd, ctask, cext, cwrk, newq,
      scn, disp, nr, w0, qd, dq, qnd, nrnd, tk, wk, kw, cp, uniq, ex, qw, lstart, lfin, lnd, lord⟩ := h
    constructor
    case uniq =>
      intro w1 w2 x h1 h2
      rw [hholds] at h1 h2
      exact uniq _ _ _ h1 h2
    case wiff =>
      intro x y
      have := wiff x y
      simp only [hcomp]
      have hD : (x ∈ (if y = t then ({ s.task t with uncompleted := n } : Task) else s.task y).dependents ∧
          (if y = t then ({ s.task t with uncompleted := n } : Task) else s.task y).state ≠ .completed) ↔
          (x ∈ (s.task y).dependents ∧ (s.task y).state ≠ .completed) := by
        by_cases hy : y = t
        · subst hy; rcases hst with h' | h' <;> simp [h']
        · simp only [if_neg hy]
      rw [hD]
      by_cases hx : x = t
      · subst hx
        simp only [if_true, hmemw, this]
        by_cases hy : y = d
        · subst hy
          simp [c1, hnp]
        · simp [hy]
      · rw [if_neg hx, this]
        simp only [hx, false_and, not_false_eq_true, and_true]
    case dq =>
      intro x
      have := dq x
      simp only [htaken]
      clear wiff uniq dstamp sclock lord hcomp hholds ctask
      grind
    all_goals clear hcomp htaken hholds
    all_goals first | assumption | skip
    all_goals try simp only [State.setTask, State.setPc]
    all_goals grind [Call.target, Pc.holds, List.nodup_cons]

theorem inv_step [Nonempty W] {s s' : State W} (h : Inv s) (a : Act W) (he : Enabled s a)
    (hx : exec s a = some s') : Inv s' := by
  cases a with
  | addDepBegin a t d => exact inv_addDepBegin h a t d he hx
  | addDepExpired a t d => exact inv_addDepExpired h a t d he hx
  | addDependent a t d => exact inv_addDependent h a t d he hx
  | schedInsert a t => exact inv_schedInsert h a t he hx
  | setThreadPool a t => exact inv_setThreadPool h a t he hx
  | take w => exact inv_take h w he hx
  | begin w => exact inv_begin h w he hx
  | finish w => exact inv_finish h w he hx
  | notifyDep w t => exact inv_notifyDep h w t he hx
  | done w => exact inv_done h w he hx
  | exit w => exact inv_exit h w he hx
  | shutdown => exact inv_shutdown h he hx

theorem inv_reach [Nonempty W] {s : State W} (h : Reach s) : Inv s := by
  induction h with
  | init => exact inv_init
  | step _ he hx ih => exact inv_step ih _ he hx

theorem odc_ne_none {s : State W} {t d n : Nat} (hst : (s.task t).state = .new ∨ (s.task t).state = .dispatched)
    (hn : (s.task t).uncompleted = n + 1) (hr : (s.task t).state = .dispatched → t ∈ s.notReady) :
    onDependencyCompleted s t d ≠ none := by
  simp only [onDependencyCompleted, hst, if_true, hn]
  split
  · rename_i h1
    simp [notify, State.setTask, hr h1.2]
  · simp

/-- No action of a well-behaved client or of a worker fails a `CHECK`. -/
theorem exec_ne_none {s : State W} (h : Inv s) (a : Act W) (he : Enabled s a) : exec s a ≠ none := by
  cases a with
  | addDepBegin a t d => simp [exec, he.2.1.1]
  | addDepExpired a t d => simp [exec, he.2.1.1]
  | addDependent a t d =>
    obtain ⟨p1, p2, p3⟩ := h.pdep _ _ _ he.1
    have hw : d ∈ s.waiting t := (h.wiff t d).2 (Or.inl ⟨a, he.1⟩)
    have hu := h.unc t
    obtain ⟨n, hn⟩ : ∃ n, (s.task t).uncompleted = n + 1 := by
      have := List.length_pos_of_mem hw
      exact ⟨(s.task t).uncompleted - 1, by omega⟩
    simp only [exec]
    split
    · simp [onDependencyCompleted, p3, hn]
    · simp [p2]
  | schedInsert a t =>
    have : t ∉ s.notReady := by
      intro hm
      obtain ⟨a, ha⟩ := (h.newq t he.2.1).1 hm
      exact he.2.2.1 _ ha
    simp [exec, this]
  | setThreadPool a t =>
    have hn := h.scn _ _ he
    have : t ∈ s.notReady := (h.newq t hn).2 ⟨a, he⟩
    simp only [exec, hn, if_true]
    split <;> simp [notify, this, State.setTask]
  | take w =>
    obtain ⟨-, hq⟩ := he
    cases hq' : s.queue with
    | nil => exact absurd hq' hq
    | cons => simp [exec, hq']
  | begin w =>
    obtain ⟨t, ht⟩ := he
    simp [exec, ht, (h.tk _ _ ht).1]
  | finish w =>
    obtain ⟨⟨t, ht⟩, -⟩ := he
    simp [exec, ht]
  | notifyDep w t =>
    obtain ⟨d, rest, hp, hr, -⟩ := he
    have hdw : d ∈ s.waiting t := (h.wiff t d).2 (Or.inr (Or.inr ⟨w, rest, hp, hr⟩))
    have hu := h.unc t
    obtain ⟨n, hn⟩ : ∃ n, (s.task t).uncompleted = n + 1 := by
      have := List.length_pos_of_mem hdw
      exact ⟨(s.task t).uncompleted - 1, by omega⟩
    have hst : (s.task t).state = .new ∨ (s.task t).state = .dispatched := by
      by_contra hc
      rw [not_or] at hc
      have := h.w0 t hc.1 hc.2
      rw [this] at hdw; cases hdw
    simp only [exec, hp]
    exact odc_ne_none (s := s.setPc w (.completing d (rest.erase t))) hst hn (fun h1 => (h.disp t h1).1)
  | done w => simp [exec]
  | exit w => simp [exec]
  | shutdown => simp [exec, he.1]

/-- If no client call is in progress, the queue is empty and no worker is busy then every scheduled task
is completed. -/
theorem quiet_completed {s : State W} (h : Inv s) (hc : s.calls = []) (hq : s.queue = [])
    (hp : ∀ w, s.pc w = .top ∨ s.pc w = .exited) :
    ∀ n t, s.stamp t = n → (s.task t).state ≠ .new → (s.task t).state = .completed := by
  intro n
  induction n using Nat.strongRecOn with
  | _ n ih =>
  intro t hn hnew
  cases hst : (s.task t).state with
  | new => exact absurd hst hnew
  | completed => rfl
  | running =>
    obtain ⟨w, hw⟩ := h.kw t hst
    rcases hp w with h' | h' <;> rw [h'] at hw <;> cases hw
  | depsCompleted =>
    rcases h.dq t hst with h' | ⟨w, hw⟩
    · rw [hq] at h'; cases h'
    · rcases hp w with h' | h' <;> rw [h'] at hw <;> cases hw
  | dispatched =>
    obtain ⟨-, hne⟩ := h.disp t hst
    obtain ⟨d, hd⟩ := List.exists_mem_of_ne_nil _ hne
    exfalso
    have hdd := h.wsub _ _ hd
    have hlt := h.dstamp t d hnew hdd
    have hdc := ih _ (hn ▸ hlt) d rfl (h.dnew _ _ hdd)
    rcases (h.wiff t d).1 hd with ⟨a, ha⟩ | ⟨-, h2⟩ | ⟨w, r, hw, -⟩
    · rw [hc] at ha; cases ha
    · exact h2 hdc
    · rcases hp w with h' | h' <;> rw [h'] at hw <;> cases hw

end Verif.ThreadPool
