import Verif.ThreadPoolReach
import Verif.ThreadPoolSpec
import Mathlib.Algebra.BigOperators.Group.Finset.Basic
import Mathlib.Algebra.Order.BigOperators.Group.Finset
import Mathlib.Algebra.Order.BigOperators.Group.List
import Mathlib.Data.Fintype.Card
import Mathlib.Tactic.Ring

/-! A potential that bounds the number of steps the pool can make without a new request. -/

namespace Verif.ThreadPool

set_option linter.unusedSectionVars false
set_option linter.unusedSimpArgs false

variable {W : Type} [DecidableEq W] [Fintype W]

def Call.wt : Call → Nat
  | .addDep _ _ => 4
  | .sched _ => 1

def Pc.wt (f : Nat → Nat) : Pc → Nat
  | .top => 1
  | .taken t => 5 + f t
  | .working t => 4 + f t
  | .completing _ rest => 3 + rest.length
  | .exited => 0

def State.nd (s : State W) (t : Nat) : Nat := (s.task t).dependents.length

def State.potential (s : State W) : Nat :=
  (s.calls.map (fun c => c.2.wt)).sum + (s.notReady.map (fun t => 6 + s.nd t)).sum +
    (s.queue.map (fun t => 5 + s.nd t)).sum + ∑ w, (s.pc w).wt s.nd

theorem potential_congr {s s' : State W} (h1 : s'.calls = s.calls) (h2 : s'.notReady = s.notReady)
    (h3 : s'.queue = s.queue) (h4 : s'.pc = s.pc) (h5 : s'.nd = s.nd) : s'.potential = s.potential := by
  simp only [State.potential, h1, h2, h3, h4, h5]

theorem sum_map_erase {α : Type} [BEq α] [LawfulBEq α] (g : α → Nat) (l : List α) (x : α) (hx : x ∈ l) :
    (l.map g).sum = g x + ((l.erase x).map g).sum := by
  induction l with
  | nil => cases hx
  | cons y l ih =>
    by_cases h : y = x
    · subst h; simp [List.erase_cons_head]
    · have hm : x ∈ l := by
        rcases List.mem_cons.1 hx with h' | h'
        · exact absurd h'.symm h
        · exact h'
      rw [List.erase_cons_tail (by simpa using h)]
      simp only [List.map_cons, List.sum_cons, ih hm]
      omega

/-- Changing `f` at one point by one changes the sum over a duplicate-free list by at most one. -/
theorem sum_map_bump (k : Nat) (f g : Nat → Nat) (l : List Nat) (d : Nat) (hn : l.Nodup)
    (h : ∀ x, x ≠ d → f x = g x) (hd : g d ≤ f d + 1) :
    (l.map (fun t => k + g t)).sum ≤ (l.map (fun t => k + f t)).sum + 1 := by
  induction l with
  | nil => simp
  | cons y l ih =>
    rw [List.nodup_cons] at hn
    simp only [List.map_cons, List.sum_cons]
    by_cases hy : y = d
    · subst hy
      have : l.map (fun t => k + g t) = l.map (fun t => k + f t) := by
        apply List.map_congr_left
        intro x hx
        have : x ≠ y := fun e => hn.1 (e ▸ hx)
        rw [h x this]
      rw [this]; omega
    · have := ih hn.2
      rw [h y hy]; omega

theorem sum_pc_update (s : State W) (w : W) (p : Pc) (f : Nat → Nat) :
    (∑ x, (if x = w then p else s.pc x).wt f) + (s.pc w).wt f = (∑ x, (s.pc x).wt f) + p.wt f := by
  rw [← Finset.add_sum_erase _ _ (Finset.mem_univ w), ← Finset.add_sum_erase (a := w) (f := fun x => (s.pc x).wt f) _ (Finset.mem_univ w)]
  have : ∑ x ∈ Finset.univ.erase w, (if x = w then p else s.pc x).wt f = ∑ x ∈ Finset.univ.erase w, (s.pc x).wt f := by
    apply Finset.sum_congr rfl
    intro x hx
    rw [if_neg (Finset.ne_of_mem_erase hx)]
  rw [this]
  simp only [if_true]
  omega

theorem sum_pc_bump (s : State W) (f g : Nat → Nat) (d : Nat)
    (hu : ∀ w w', (s.pc w).holds d → (s.pc w').holds d → w = w')
    (h : ∀ x, x ≠ d → f x = g x) (hd : g d ≤ f d + 1) :
    ∑ w, (s.pc w).wt g ≤ (∑ w, (s.pc w).wt f) + 1 := by
  have key : ∀ w, ¬ (s.pc w).holds d → (s.pc w).wt g = (s.pc w).wt f := by
    intro w hw
    cases hp : s.pc w with
    | taken t =>
      have : t ≠ d := by rintro rfl; exact hw (Or.inl hp)
      simp [Pc.wt, h t this]
    | working t =>
      have : t ≠ d := by rintro rfl; exact hw (Or.inr (Or.inl hp))
      simp [Pc.wt, h t this]
    | _ => rfl
  by_cases he : ∃ w, (s.pc w).holds d
  · obtain ⟨w, hw⟩ := he
    rw [← Finset.add_sum_erase _ _ (Finset.mem_univ w), ← Finset.add_sum_erase (a := w) (f := fun x => (s.pc x).wt f) _ (Finset.mem_univ w)]
    have : ∑ x ∈ Finset.univ.erase w, (s.pc x).wt g = ∑ x ∈ Finset.univ.erase w, (s.pc x).wt f := by
      apply Finset.sum_congr rfl
      intro x hx
      exact key x (fun hx' => Finset.ne_of_mem_erase hx (hu _ _ hx' hw))
    rw [this]
    have : (s.pc w).wt g ≤ (s.pc w).wt f + 1 := by
      rcases hw with h' | h' | ⟨r, h'⟩ <;> rw [h'] <;> simp only [Pc.wt] <;> omega
    omega
  · have : ∑ x, (s.pc x).wt g = ∑ x, (s.pc x).wt f := by
      apply Finset.sum_congr rfl
      intro x _
      exact key x (fun hx' => he ⟨x, hx'⟩)
    omega

theorem notify_potential {s s' : State W} {t : Nat} (h : notify s t = some s') :
    s'.potential + 1 = s.potential := by
  simp only [notify] at h
  split at h
  · rename_i hm
    simp only [Option.some.injEq] at h
    subst h
    have e : State.nd { s with queue := s.queue ++ [t], notReady := s.notReady.erase t } = s.nd := rfl
    simp only [State.potential, e, List.map_append, List.sum_append, List.map_cons, List.map_nil, List.sum_cons,
      List.sum_nil]
    rw [sum_map_erase (fun t => 6 + s.nd t) s.notReady t hm]
    omega
  · cases h

theorem setTask_potential {s : State W} {t : Nat} {v : Task} (h : v.dependents.length = (s.task t).dependents.length) :
    (s.setTask t v).potential = s.potential := by
  have : (s.setTask t v).nd = s.nd := by
    funext x
    simp only [State.nd, State.setTask]
    split
    · rename_i e; rw [h, e]
    · rfl
  simp only [State.potential, this]
  rfl

theorem odc_potential {s s' : State W} {t d : Nat} (hx : onDependencyCompleted s t d = some s') :
    s'.potential ≤ s.potential := by
  obtain ⟨n, hn, ⟨-, -, h⟩ | ⟨-, h⟩⟩ := odc_cases hx
  · have := notify_potential h
    rw [setTask_potential (by rfl)] at this
    have h2 : State.potential { s with waiting := fun x => if x = t then (s.waiting t).erase d else s.waiting x } = s.potential := rfl
    omega
  · rw [h, setTask_potential (by rfl)]
    exact le_of_eq rfl

theorem setPc_potential (s : State W) (w : W) (p : Pc) :
    (s.setPc w p).potential + (s.pc w).wt s.nd = s.potential + p.wt s.nd := by
  have := sum_pc_update s w p s.nd
  have e : (s.setPc w p).nd = s.nd := rfl
  have e2 : (s.setPc w p).calls = s.calls := rfl
  have e3 : (s.setPc w p).notReady = s.notReady := rfl
  have e4 : (s.setPc w p).queue = s.queue := rfl
  have e5 : ∀ x, (s.setPc w p).pc x = if x = w then p else s.pc x := fun _ => rfl
  simp only [State.potential, e, e2, e3, e4, e5]
  omega

theorem calls_erase_potential (s : State W) (c : Actor W × Call) (hc : c ∈ s.calls) :
    State.potential { s with calls := s.calls.erase c } + c.2.wt = s.potential := by
  have := sum_map_erase (fun c : Actor W × Call => c.2.wt) s.calls c hc
  have e : State.nd { s with calls := s.calls.erase c } = s.nd := rfl
  simp only [State.potential, e]
  omega

/-- A request raises the potential by at most 7, every other action lowers it. -/
theorem potential_step [Nonempty W] {s s' : State W} (h : Inv s) (a : Act W) (he : Enabled s a)
    (hx : exec s a = some s') :
    s'.potential + 1 ≤ s.potential + if a.isRequest then 8 else 0 := by
  cases a with
  | addDepBegin a t d =>
    simp only [exec] at hx
    split at hx
    · simp only [Option.some.injEq] at hx
      have h2 : s'.potential = 4 + s.potential := by
        have e1 : s'.notReady = s.notReady := by subst hx; rfl
        have e2 : s'.queue = s.queue := by subst hx; rfl
        have e3 : s'.pc = s.pc := by subst hx; rfl
        have e4 : s'.calls = (a, .addDep t d) :: s.calls := by subst hx; rfl
        have e5 : s'.nd = s.nd := by
          subst hx; funext x; simp only [State.nd, State.setTask]; split
          · rename_i e; rw [e]
          · rfl
        simp only [State.potential, e1, e2, e3, e4, e5, List.map_cons, List.sum_cons, Call.wt]
        omega
      simp only [Act.isRequest, if_true]; omega
    · cases hx
  | addDepExpired a t d =>
    simp only [exec] at hx
    split at hx
    · simp only [Option.some.injEq] at hx
      have : s'.potential = s.potential := by subst hx; rfl
      simp only [Act.isRequest, if_true]; omega
    · cases hx
  | addDependent a t d =>
    have hp := calls_erase_potential s _ he.1
    simp only [Call.wt] at hp
    simp only [exec] at hx
    simp only [Act.isRequest]
    split at hx
    · have := odc_potential hx
      simp; omega
    · split at hx
      · cases hx
      · simp only [Option.some.injEq] at hx
        have b1 := sum_map_bump 6 s.nd s'.nd s.notReady d h.nrnd (by
          intro x hx'; subst hx; simp [State.nd, State.setTask, hx']) (by
          subst hx; simp [State.nd, State.setTask])
        have b2 := sum_map_bump 5 s.nd s'.nd s.queue d h.qnd (by
          intro x hx'; subst hx; simp [State.nd, State.setTask, hx']) (by
          subst hx; simp [State.nd, State.setTask])
        have b3 := sum_pc_bump s s.nd s'.nd d (fun w w' => h.uniq w w' d) (by
          intro x hx'; subst hx; simp [State.nd, State.setTask, hx']) (by
          subst hx; simp [State.nd, State.setTask])
        have e1 : s'.notReady = s.notReady := by subst hx; rfl
        have e2 : s'.queue = s.queue := by subst hx; rfl
        have e3 : s'.pc = s.pc := by subst hx; rfl
        have e4 : s'.calls = s.calls.erase (a, .addDep t d) := by subst hx; rfl
        have hs := sum_map_erase (fun c : Actor W × Call => c.2.wt) s.calls _ he.1
        have hw : Call.wt (Call.addDep t d) = 4 := rfl
        simp only [State.potential, e1, e2, e3, e4]
        simp only [hw] at hs
        simp only [Bool.false_eq_true, if_false]
        omega
  | schedInsert a t =>
    simp only [exec] at hx
    split at hx
    · cases hx
    · simp only [Option.some.injEq] at hx
      have hnd : (s.task t).dependents = [] := by
        by_contra hne
        obtain ⟨x, hx'⟩ := List.exists_mem_of_ne_nil _ hne
        exact h.dnew _ _ (h.depd _ _ hx') he.2.1
      have : s'.potential = s.potential + 7 := by
        subst hx
        have e : ∀ x, State.nd { s with notReady := t :: s.notReady, calls := (a, Call.sched t) :: s.calls } x = s.nd x := fun _ => rfl
        have e' : State.nd { s with notReady := t :: s.notReady, calls := (a, Call.sched t) :: s.calls } = s.nd := rfl
        have h0 : s.nd t = 0 := by simp [State.nd, hnd]
        simp only [State.potential, e', List.map_cons, List.sum_cons, Call.wt, h0]
        omega
      simp only [Act.isRequest, if_true]; omega
  | setThreadPool a t =>
    have hp := calls_erase_potential s _ he
    simp only [Call.wt] at hp
    simp only [exec] at hx
    simp only [Act.isRequest]
    split at hx
    · split at hx
      · have h1 := notify_potential hx
        rw [setTask_potential (by rfl)] at h1
        have h2 : State.potential { s with calls := s.calls.erase (a, .sched t), clock := s.clock + 1, stamp := fun x => if x = t then s.clock else s.stamp x } = State.potential { s with calls := s.calls.erase (a, .sched t) } := rfl
        simp; omega
      · simp only [Option.some.injEq] at hx
        subst hx
        rw [setTask_potential (by rfl)]
        have h2 : State.potential { s with calls := s.calls.erase (a, .sched t), clock := s.clock + 1, stamp := fun x => if x = t then s.clock else s.stamp x } = State.potential { s with calls := s.calls.erase (a, .sched t) } := rfl
        simp; omega
    · cases hx
  | take w =>
    obtain ⟨hp, -⟩ := he
    simp only [Act.isRequest]
    cases hq : s.queue with
    | nil => simp [exec, hq] at hx
    | cons t q =>
      simp only [exec, hq, Option.some.injEq] at hx
      subst hx
      have := setPc_potential { s with queue := q } w (.taken t)
      have e : State.nd { s with queue := q } = s.nd := rfl
      have e2 : State.potential { s with queue := q } + (5 + s.nd t) = s.potential := by
        simp only [State.potential, e, hq, List.map_cons, List.sum_cons]; omega
      have e3 : State.pc { s with queue := q } w = s.pc w := rfl
      rw [e3, hp, e] at this
      simp only [Pc.wt] at this
      simp; omega
  | begin w =>
    obtain ⟨t, hp⟩ := he
    simp only [exec, hp] at hx
    simp only [Act.isRequest]
    split at hx
    · simp only [Option.some.injEq] at hx
      have h2 := setPc_potential s w (.working t)
      rw [hp] at h2
      simp only [Pc.wt] at h2
      have h3 : s'.potential = (s.setPc w (.working t)).potential := by
        subst hx
        refine potential_congr rfl rfl rfl rfl ?_
        funext x; simp only [State.nd, State.setTask, State.setPc]; split
        · rename_i e; rw [e]
        · rfl
      simp; omega
    · cases hx
  | finish w =>
    obtain ⟨⟨t, hp⟩, -⟩ := he
    simp only [exec, hp, Option.some.injEq] at hx
    simp only [Act.isRequest]
    have h2 := setPc_potential s w (.completing t (s.task t).dependents)
    rw [hp] at h2
    simp only [Pc.wt] at h2
    have h3 : s'.potential = (s.setPc w (.completing t (s.task t).dependents)).potential := by
      subst hx
      refine potential_congr rfl rfl rfl rfl ?_
      funext x; simp only [State.nd, State.setTask, State.setPc]; split
      · rename_i e; rw [e]
      · rfl
    have h5 : s.nd t = (s.task t).dependents.length := rfl
    simp; omega
  | notifyDep w t =>
    obtain ⟨d, rest, hp, hr, -⟩ := he
    simp only [exec, hp] at hx
    have h1 := odc_potential hx
    have h2 := setPc_potential s w (.completing d (rest.erase t))
    have h3 := List.length_erase_of_mem hr
    have h4 := List.length_pos_of_mem hr
    rw [hp] at h2
    simp only [Pc.wt] at h2
    simp only [Act.isRequest]
    simp; omega
  | done w =>
    obtain ⟨d, hp⟩ := he
    simp only [exec, Option.some.injEq] at hx
    subst hx
    have h2 := setPc_potential s w .top
    rw [hp] at h2
    simp only [Pc.wt, List.length_nil] at h2
    simp only [Act.isRequest]
    simp; omega
  | exit w =>
    obtain ⟨hp, -⟩ := he
    simp only [exec, Option.some.injEq] at hx
    subst hx
    have h2 := setPc_potential s w .exited
    rw [hp] at h2
    simp only [Pc.wt] at h2
    simp only [Act.isRequest]
    simp; omega
  | shutdown =>
    simp only [exec, he.1, if_true, Option.some.injEq] at hx
    have : s'.potential = s.potential := by subst hx; rfl
    simp only [Act.isRequest, if_true]; omega

end Verif.ThreadPool
