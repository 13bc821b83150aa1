import Verif.Locks
import Mathlib.Data.List.Nodup
import Mathlib.Order.Basic
import Mathlib.Tactic.NormNum

/-!
# No deadlock (C100)

The specification speaks about held and wanted locks only (`Needs`, `WaitsFor`,
`DeadlockSet`).  The order of the locks is found in the proofs, it is not part of
the statements.
-/

namespace Verif.Locks

set_option linter.unusedSectionVars false

variable {L : Type} [DecidableEq L]

/-! ## Specification -/

/-- The thread cannot go on before it gets `l`: it is about to enter a scope of
`l`, or it is inside `Await` of `l`. -/
def Needs (t : Thread L) (l : L) : Prop :=
  t.wait = some l ∨ (t.wait = none ∧ ∃ p k, t.stack = .run (.lock l p) :: k)

/-- Thread `i` needs a lock that thread `j` holds. -/
def WaitsFor (s : List (Thread L)) (i j : Nat) : Prop :=
  ∃ ti tj l, s[i]? = some ti ∧ s[j]? = some tj ∧ Needs ti l ∧ l ∈ tj.held

/-- Threads that wait for each other only: none of them can ever go on. -/
def DeadlockSet (s : List (Thread L)) (S : List Nat) : Prop :=
  S ≠ [] ∧ ∀ i ∈ S, ∃ j ∈ S, WaitsFor s i j

/-! ## Programs that follow an order -/

/-- The program takes only locks above all that are held, and waits for a
condition with no other lock held. -/
def ok (lt : L → L → Prop) : List L → Prog L → Prop
  | _, .skip => True
  | h, .seq p q => ok lt h p ∧ ok lt h q
  | h, .any f => ∀ i, ok lt h (f i)
  | h, .loop p => ok lt h p
  | h, .lock l p => (∀ a ∈ h, lt a l) ∧ ok lt (l :: h) p
  | h, .await l => h = [l]

/-- The same for the frames of a thread. -/
def okStack (lt : L → L → Prop) : List L → List (Frame L) → Prop
  | h, [] => h = []
  | h, .run p :: k => ok lt h p ∧ okStack lt h k
  | h, .unlock l :: k => ∃ h', h = l :: h' ∧ okStack lt h' k

/-- The same for a thread. -/
def Good (lt : L → L → Prop) (t : Thread L) : Prop :=
  match t.wait with
  | none => okStack lt t.held t.stack
  | some l => t.held = [] ∧ okStack lt [l] t.stack

theorem good_start {lt : L → L → Prop} {p : Prog L} (h : ok lt [] p) : Good lt (start p) := by
  simp [Good, start, okStack, h]

theorem good_step {lt : L → L → Prop} {free : L → Prop} {t t' : Thread L}
    (g : Good lt t) (st : TStep free t t') : Good lt t' := by
  cases st with
  | skip => exact g.2
  | seq => exact ⟨g.1.1, g.1.2, g.2⟩
  | any i => exact ⟨g.1 i, g.2⟩
  | again => exact ⟨g.1, g.1, g.2⟩
  | leave => exact g.2
  | lock hf => exact ⟨g.1.2, _, rfl, g.2⟩
  | unlock =>
    obtain ⟨h', e, g'⟩ := g
    simp only [Good]
    simp only at e
    rw [e, List.erase_cons_head]; exact g'
  | await =>
    obtain ⟨e, g'⟩ := g
    simp only [ok] at e
    subst e
    simp only [Good, List.erase_cons_head, true_and]
    exact g'
  | wake hf =>
    obtain ⟨e, g'⟩ := g
    simp only at e
    subst e
    exact g'

/-- A thread of an ordered system that holds a lock, or has something to do outside
`Await`, can step or needs a lock that is taken. -/
theorem step_or_needs {lt : L → L → Prop} {s : List (Thread L)} {t : Thread L}
    (g : Good lt t) (h : t.held ≠ [] ∨ (t.wait = none ∧ t.stack ≠ [])) :
    (∃ t', TStep (Free s) t t') ∨ ∃ l, Needs t l ∧ ¬ Free s l := by
  obtain ⟨held, wait, stack⟩ := t
  cases wait with
  | some l =>
    rcases h with h | h
    · exact absurd g.1 h
    · cases h.1
  | none =>
    cases stack with
    | nil =>
      rcases h with h | h
      · exact absurd g h
      · exact absurd rfl h.2
    | cons f k =>
      cases f with
      | unlock l => exact .inl ⟨_, .unlock⟩
      | run p =>
        cases p with
        | skip => exact .inl ⟨_, .skip⟩
        | seq p q => exact .inl ⟨_, .seq⟩
        | any f => exact .inl ⟨_, .any 0⟩
        | loop p => exact .inl ⟨_, .leave⟩
        | await l => exact .inl ⟨_, .await⟩
        | lock l p =>
          by_cases hf : Free s l
          · exact .inl ⟨_, .lock hf⟩
          · exact .inr ⟨l, .inr ⟨rfl, p, k, rfl⟩, hf⟩

/-- A thread of an ordered system needs only locks above all that it holds. -/
theorem needs_above {lt : L → L → Prop} {t : Thread L} {l a : L}
    (g : Good lt t) (n : Needs t l) (ha : a ∈ t.held) : lt a l := by
  obtain ⟨held, wait, stack⟩ := t
  rcases n with n | ⟨n, p, k, e⟩
  · simp only at n
    subst n
    have := g.1
    simp only at this ha
    rw [this] at ha
    cases ha
  · simp only at n e
    subst n e
    exact g.1.1 a ha

theorem good_reachable {lt : L → L → Prop} {ps : List (Prog L)} (hp : ∀ p ∈ ps, ok lt [] p)
    {s : List (Thread L)} (hs : Reachable ps s) : ∀ t ∈ s, Good lt t := by
  induction hs with
  | refl =>
    intro t ht
    obtain ⟨p, hp', rfl⟩ := List.mem_map.1 ht
    exact good_start (hp p hp')
  | tail _ st ih =>
    obtain ⟨i, t, t', hi, ht, rfl⟩ := st
    intro u hu
    rcases List.mem_or_eq_of_mem_set hu with hu | rfl
    · exact ih u hu
    · exact good_step (ih t (List.mem_of_getElem? hi)) ht

/-- In a nonempty list some element has no element above it. -/
theorem exists_top {α : Type} {lt : α → α → Prop} (irr : ∀ a, ¬ lt a a)
    (tr : ∀ a b c, lt a b → lt b c → lt a c) (W : List α) (hW : W ≠ []) :
    ∃ m ∈ W, ∀ x ∈ W, ¬ lt m x := by
  induction W with
  | nil => exact absurd rfl hW
  | cons a W ih =>
    by_cases e : W = []
    · subst e
      refine ⟨a, by simp, fun x hx => ?_⟩
      rw [List.mem_singleton] at hx
      subst hx
      exact irr x
    · obtain ⟨m, hm, top⟩ := ih e
      by_cases h : lt m a
      · refine ⟨a, by simp, fun x hx hax => ?_⟩
        rcases List.mem_cons.1 hx with rfl | hx
        · exact irr x hax
        · exact top x hx (tr _ _ _ h hax)
      · refine ⟨m, List.mem_cons_of_mem _ hm, fun x hx hmx => ?_⟩
        rcases List.mem_cons.1 hx with rfl | hx
        · exact h hmx
        · exact top x hx hmx

/-- A thread needs at most one lock. -/
theorem needs_unique {t : Thread L} {l l' : L} (h : Needs t l) (h' : Needs t l') : l = l' := by
  rcases h with h | ⟨h, p, k, e⟩ <;> rcases h' with h' | ⟨h', p', k', e'⟩
  · rw [h] at h'; exact Option.some.inj h'
  · rw [h] at h'; cases h'
  · rw [h] at h'; cases h'
  · rw [e] at e'
    simp only [List.cons.injEq, Frame.run.injEq, Prog.lock.injEq] at e'
    exact e'.1.1

/-- Threads that follow a strict order of the locks never wait for each other only. -/
theorem ordered_no_deadlock {lt : L → L → Prop} (irr : ∀ a, ¬ lt a a)
    (tr : ∀ a b c, lt a b → lt b c → lt a c) {ps : List (Prog L)}
    (hp : ∀ p ∈ ps, ok lt [] p) {s : List (Thread L)} (hs : Reachable ps s) (S : List Nat) :
    ¬ DeadlockSet s S := by
  rintro ⟨hS, hw⟩
  have hg := good_reachable hp hs
  classical
  -- the lock that a thread of the set needs
  have h1 : ∀ i, ∃ o : Option L, i ∈ S → ∃ t l, o = some l ∧ s[i]? = some t ∧ Needs t l := by
    intro i
    by_cases hi : i ∈ S
    · obtain ⟨j, _, ti, tj, l, e, _, n, _⟩ := hw i hi
      exact ⟨some l, fun _ => ⟨ti, l, rfl, e, n⟩⟩
    · exact ⟨none, fun h => absurd h hi⟩
  choose need hneed using h1
  obtain ⟨m, hm, top⟩ := exists_top
    (lt := fun a b : Option L => ∃ x y, a = some x ∧ b = some y ∧ lt x y)
    (by rintro a ⟨x, y, rfl, e, h⟩; cases e; exact irr _ h)
    (by
      rintro a b c ⟨x, y, rfl, rfl, h⟩ ⟨y', z, e, rfl, h'⟩
      cases e
      exact ⟨_, _, rfl, rfl, tr _ _ _ h h'⟩)
    (S.map need) (by simpa using hS)
  obtain ⟨i, hi, rfl⟩ := List.mem_map.1 hm
  obtain ⟨j, hj, ti, tj, l, ei, ej, n, hl⟩ := hw i hi
  obtain ⟨ti', l1, e1, ei', n1⟩ := hneed i hi
  obtain ⟨tj', l2, e2, ej', n2⟩ := hneed j hj
  rw [ei] at ei'; cases ei'
  rw [ej] at ej'; cases ej'
  have := needs_unique n n1
  subst this
  exact top (need j) (List.mem_map_of_mem hj)
    ⟨l, l2, e1, e2, needs_above (hg _ (List.mem_of_getElem? ej)) n2 hl⟩

/-- Behind every thread that needs a taken lock there is a thread that can go on:
following who holds the needed lock ends at one. -/
theorem ordered_holder_runs {lt : L → L → Prop} (irr : ∀ a, ¬ lt a a)
    (tr : ∀ a b c, lt a b → lt b c → lt a c) {ps : List (Prog L)}
    (hp : ∀ p ∈ ps, ok lt [] p) {s : List (Thread L)} (hs : Reachable ps s)
    {i : Nat} {t : Thread L} {l : L} (hi : s[i]? = some t) (n : Needs t l) (hl : ¬ Free s l) :
    ∃ (j : Nat) (u u' : Thread L), Relation.TransGen (WaitsFor s) i j ∧ s[j]? = some u ∧
      TStep (Free s) u u' := by
  have hg := good_reachable hp hs
  classical
  by_contra hno
  push Not at hno
  have holder : ∀ (a : L), ¬ Free s a → ∃ (j : Nat) (u : Thread L), s[j]? = some u ∧ a ∈ u.held := by
    intro a ha
    simp only [Free, not_forall, not_not] at ha
    obtain ⟨u, hu, h⟩ := ha
    obtain ⟨j, hj⟩ := List.getElem?_of_mem hu
    exact ⟨j, u, hj, h⟩
  let S := (List.range s.length).filter fun j => decide (Relation.TransGen (WaitsFor s) i j)
  have hS : ∀ j u, s[j]? = some u → Relation.TransGen (WaitsFor s) i j → j ∈ S := by
    intro j u e r
    refine List.mem_filter.2 ⟨List.mem_range.2 ?_, by simpa using r⟩
    exact (List.getElem?_eq_some_iff.1 e).1
  obtain ⟨j0, u0, e0, h0⟩ := holder l hl
  have r0 : Relation.TransGen (WaitsFor s) i j0 := .single ⟨t, u0, l, hi, e0, n, h0⟩
  refine ordered_no_deadlock irr tr hp hs S ⟨List.ne_nil_of_mem (hS j0 u0 e0 r0), ?_⟩
  intro j hj
  have r : Relation.TransGen (WaitsFor s) i j := by simpa using (List.mem_filter.1 hj).2
  obtain ⟨u, e, hu⟩ : ∃ u, s[j]? = some u ∧ u.held ≠ [] := by
    cases r with
    | single w => obtain ⟨_, tj, a, _, ej, _, ha⟩ := w; exact ⟨tj, ej, List.ne_nil_of_mem ha⟩
    | tail _ w => obtain ⟨_, tj, a, _, ej, _, ha⟩ := w; exact ⟨tj, ej, List.ne_nil_of_mem ha⟩
  rcases step_or_needs (s := s) (hg u (List.mem_of_getElem? e)) (.inl hu) with ⟨u', st⟩ | ⟨a, na, fa⟩
  · exact absurd st (hno j u u' r e)
  · obtain ⟨k, v, ek, hk⟩ := holder a fa
    have w : WaitsFor s j k := ⟨u, v, a, e, ek, na, hk⟩
    exact ⟨k, hS k v ek (r.tail w), w⟩

/-! ## Mutual exclusion, whatever the programs -/

/-- No thread holds a lock twice, no two threads hold the same lock. -/
def Exclusive (s : List (Thread L)) : Prop :=
  (∀ t ∈ s, t.held.Nodup) ∧
  ∀ (i j : Nat) (ti tj : Thread L) (l : L),
    s[i]? = some ti → s[j]? = some tj → l ∈ ti.held → l ∈ tj.held → i = j

/-- The locks after a step: some of the old ones, perhaps one more that was free. -/
theorem held_step {free : L → Prop} {t t' : Thread L} (st : TStep free t t') :
    t'.held.Sublist t.held ∨ ∃ l, free l ∧ t'.held = l :: t.held := by
  cases st with
  | lock hf => exact .inr ⟨_, hf, rfl⟩
  | wake hf => exact .inr ⟨_, hf, rfl⟩
  | unlock => exact .inl List.erase_sublist
  | await => exact .inl List.erase_sublist
  | _ => exact .inl (List.Sublist.refl _)

theorem exclusive_reachable {ps : List (Prog L)} {s : List (Thread L)} (hs : Reachable ps s) :
    Exclusive s := by
  induction hs with
  | refl =>
    refine ⟨?_, ?_⟩
    · intro t ht
      obtain ⟨p, _, rfl⟩ := List.mem_map.1 ht
      simp [start]
    · intro i j ti tj l hi _ hl _
      obtain ⟨p, _, rfl⟩ := List.mem_map.1 (List.mem_of_getElem? hi)
      simp [start] at hl
  | @tail s s' _ st ih =>
    obtain ⟨k, t, t', hk, ht, rfl⟩ := st
    obtain ⟨nd, ex⟩ := ih
    have htm := List.mem_of_getElem? hk
    have hh := held_step ht
    refine ⟨?_, ?_⟩
    · intro u hu
      rcases List.mem_or_eq_of_mem_set hu with hu | rfl
      · exact nd u hu
      · rcases hh with hh | ⟨l, fl, hh⟩
        · exact hh.nodup (nd t htm)
        · rw [hh]
          exact List.nodup_cons.2 ⟨fl t htm, nd t htm⟩
    · have key : ∀ (j : Nat) (tj : Thread L) (l : L), j ≠ k → s[j]? = some tj →
          l ∈ tj.held → l ∈ t'.held → False := by
        intro j tj l hjk hj hl hl'
        rcases hh with hh | ⟨a, fa, hh⟩
        · exact hjk (ex j k tj t l hj hk hl (hh.subset hl'))
        · rw [hh] at hl'
          rcases List.mem_cons.1 hl' with rfl | hl'
          · exact fa tj (List.mem_of_getElem? hj) hl
          · exact hjk (ex j k tj t l hj hk hl hl')
      intro i j ti tj l hi hj hli hlj
      by_cases hik : i = k
      · by_cases hjk : j = k
        · rw [hik, hjk]
        · exfalso
          rw [List.getElem?_set_ne (Ne.symm hjk)] at hj
          subst hik
          have : ti = t' := by
            have hlen := (List.getElem?_eq_some_iff.1 hk).1
            rw [List.getElem?_set_self hlen] at hi
            exact (Option.some.inj hi).symm
          subst this
          exact key j tj l hjk hj hlj hli
      · by_cases hjk : j = k
        · exfalso
          rw [List.getElem?_set_ne (Ne.symm hik)] at hi
          subst hjk
          have : tj = t' := by
            have hlen := (List.getElem?_eq_some_iff.1 hk).1
            rw [List.getElem?_set_self hlen] at hj
            exact (Option.some.inj hj).symm
          subst this
          exact key i ti l hik hi hli hlj
        · rw [List.getElem?_set_ne (Ne.symm hik)] at hi
          rw [List.getElem?_set_ne (Ne.symm hjk)] at hj
          exact ex i j ti tj l hi hj hli hlj

/-! ## The programs of the code follow an order -/

/-- Levels of the locks. -/
def level : Lock → Nat
  | .subscriptions => 0
  | .poseGraph => 1
  | .workQueue => 1
  | .builder => 2
  | .components => 3
  | .task _ => 3
  | .pool => 4

/-- Level by level, and tasks in the order of their dependencies. -/
def below (dep : Nat → Nat → Bool) (a b : Lock) : Prop :=
  level a < level b ∨
    ∃ t d, a = .task t ∧ b = .task d ∧ Relation.TransGen (fun x y => dep x y = true) t d

theorem below_irrefl {dep : Nat → Nat → Bool}
    (acyclic : ∀ t, ¬ Relation.TransGen (fun x y => dep x y = true) t t) (a : Lock) :
    ¬ below dep a a := by
  rintro (h | ⟨t, d, rfl, e, h⟩)
  · exact lt_irrefl _ h
  · cases e; exact acyclic _ h

theorem below_trans {dep : Nat → Nat → Bool} (a b c : Lock) (h : below dep a b)
    (h' : below dep b c) : below dep a c := by
  rcases h with h | ⟨t, d, rfl, rfl, h⟩ <;> rcases h' with h' | ⟨t', d', e, e', h'⟩
  · exact .inl (lt_trans h h')
  · subst e e'; exact .inl h
  · exact .inl h'
  · cases e; subst e'
    exact .inr ⟨_, _, rfl, rfl, h.trans h'⟩

theorem ok_oneOf {lt : L → L → Prop} {h : List L} {ps : List (Prog L)}
    (hp : ∀ p ∈ ps, ok lt h p) : ok lt h (oneOf ps) := by
  intro i
  simp only [List.getD_eq_getElem?_getD]
  cases e : ps[i]? with
  | none => simp [ok]
  | some p => exact hp p (List.mem_of_getElem? e)

theorem ok_opt {lt : L → L → Prop} {h : List L} {p : Prog L} (hp : ok lt h p) :
    ok lt h (opt p) :=
  ok_oneOf (by simp [hp, ok])

section
variable {dep : Nat → Nat → Bool}

theorem ok_task_leaf {h : List Lock} (hh : ∀ a ∈ h, level a < 3) (t : Nat) :
    ok (below dep) h (.lock (.task t) .skip) :=
  ⟨fun a ha => .inl (hh a ha), trivial⟩

theorem ok_notify {h : List Lock} (hh : ∀ a ∈ h, level a < 4) :
    ok (below dep) h notifyDependenciesCompleted :=
  ⟨fun a ha => .inl (hh a ha), trivial⟩

theorem ok_onDependencyCompleted {h : List Lock} {t d : Nat} (hh : ∀ a ∈ h, level a < 3)
    (ht : dep t d = true) : ok (below dep) (.task t :: h) (onDependencyCompleted d) := by
  refine ⟨?_, ok_opt (ok_notify ?_)⟩
  · intro a ha
    rcases List.mem_cons.1 ha with rfl | ha
    · exact .inr ⟨t, d, rfl, rfl, .single ht⟩
    · exact .inl (hh a ha)
  · intro a ha
    rcases List.mem_cons.1 ha with rfl | ha
    · simp [level]
    · rcases List.mem_cons.1 ha with rfl | ha
      · simp [level]
      · exact lt_trans (hh a ha) (by norm_num)

theorem ok_addDependency {h : List Lock} (hh : ∀ a ∈ h, level a < 3) (d t : Nat) :
    ok (below dep) h (addDependency dep d t) := by
  refine ⟨ok_task_leaf hh d, ?_⟩
  split
  · next ht =>
    exact ok_opt ⟨fun a ha => .inl (hh a ha), ok_opt (ok_onDependencyCompleted hh ht)⟩
  · trivial

theorem ok_schedule {h : List Lock} (hh : ∀ a ∈ h, level a < 3) (t : Nat) :
    ok (below dep) h (schedule t) := by
  refine ⟨⟨fun a ha => .inl (lt_trans (hh a ha) (by simp [level])), trivial⟩,
    fun a ha => .inl (hh a ha), ok_opt (ok_notify ?_)⟩
  intro a ha
  rcases List.mem_cons.1 ha with rfl | ha
  · simp [level]
  · exact lt_trans (hh a ha) (by norm_num)

theorem ok_maybeAddConstraint : ok (below dep) [] (maybeAddConstraint dep) := by
  have hh : ∀ a ∈ [Lock.builder], level a < 3 := by simp [level]
  refine ok_opt ⟨by simp, ok_opt fun m => ⟨ok_task_leaf hh m, ok_schedule hh m⟩, ?_⟩
  intro c m f
  exact ⟨ok_task_leaf hh c, ok_addDependency hh c m, ok_schedule hh c,
    ok_addDependency hh f c, trivial⟩

theorem ok_notifyEndOfNode : ok (below dep) [] (notifyEndOfNode dep) := by
  have hh : ∀ a ∈ [Lock.builder], level a < 3 := by simp [level]
  refine ⟨by simp, fun f w => ?_⟩
  exact ⟨ok_task_leaf hh f, ok_schedule hh f, ok_addDependency hh w f, trivial⟩

theorem ok_whenDone {h : List Lock} (hh : ∀ a ∈ h, level a < 2) :
    ok (below dep) h whenDone := by
  have hh' : ∀ a ∈ Lock.builder :: h, level a < 3 := by
    intro a ha
    rcases List.mem_cons.1 ha with rfl | ha
    · simp [level]
    · exact lt_trans (hh a ha) (by norm_num)
  exact ⟨fun a ha => .inl (hh a ha), fun w => ⟨ok_task_leaf hh' w, ok_schedule hh' w⟩⟩

theorem ok_builder_leaf {h : List Lock} (hh : ∀ a ∈ h, level a < 2) :
    ok (below dep) h (.lock .builder .skip) :=
  ⟨fun a ha => .inl (hh a ha), trivial⟩

theorem ok_underMutex : ok (below dep) [] underMutex :=
  ⟨by simp, by simp [connectivity, ok, below, level]⟩

theorem ok_addWorkItem : ok (below dep) [] addWorkItem := by
  have hh : ∀ a ∈ [Lock.workQueue], level a < 3 := by simp [level]
  exact ⟨by simp, ok_opt fun t => ⟨ok_task_leaf hh t, ok_schedule hh t⟩⟩

theorem ok_leaf {l : Lock} : ok (below dep) [] (.lock l .skip) := ⟨by simp, trivial⟩

theorem ok_wait : ok (below dep) [] waitForAllComputations := by
  have h1 : ∀ a ∈ [Lock.workQueue], level a < 2 := by simp [level]
  have h2 : ∀ a ∈ [Lock.poseGraph], level a < 2 := by simp [level]
  exact ⟨ok_leaf, ok_leaf, ⟨by simp, rfl, ok_opt (ok_builder_leaf h1), rfl⟩,
    ⟨by simp, ok_whenDone h2, rfl, ⟨ok_opt (ok_builder_leaf h2), rfl⟩, ok_builder_leaf h2,
      trivial⟩, trivial⟩

theorem ok_clientCall : ok (below dep) [] clientCall := by
  refine ok_oneOf ?_
  simp only [List.mem_cons, List.not_mem_nil, or_false, forall_eq_or_imp, forall_eq]
  exact ⟨ok_underMutex, ok_addWorkItem, ⟨ok_underMutex, ok_opt ok_addWorkItem⟩, ok_wait,
    ⟨ok_addWorkItem, ok_addWorkItem, ok_wait, trivial⟩, ok_leaf⟩

theorem ok_client : ok (below dep) [] client := by
  have hh : ∀ a ∈ [Lock.builder], level a < 3 := by simp [level]
  exact ⟨ok_clientCall, ok_opt ⟨⟨ok_wait, ok_leaf⟩,
    ⟨by simp, fun f w => ⟨ok_task_leaf hh f, ok_task_leaf hh w⟩⟩, ok_leaf, trivial⟩⟩

theorem ok_computeConstraint : ok (below dep) [] (computeConstraint dep) :=
  ⟨ok_underMutex, ok_opt ok_maybeAddConstraint⟩

theorem ok_drain : ok (below dep) [] (drainWorkQueue dep) := by
  refine ⟨⟨ok_leaf, ok_oneOf ?_⟩, ok_opt (ok_whenDone (by simp))⟩
  simp only [List.mem_cons, List.not_mem_nil, or_false, forall_eq_or_imp, forall_eq]
  exact ⟨ok_underMutex, ok_underMutex, ok_computeConstraint, ok_computeConstraint,
    ok_notifyEndOfNode, ok_leaf, trivial⟩

theorem ok_handle {cb : Prog Lock} (hc : ok (below dep) [] cb) :
    ok (below dep) [] (handleWorkQueue dep cb) := by
  have h2 : ∀ a ∈ [Lock.poseGraph], level a < 2 := by simp [level]
  exact ⟨ok_leaf, ok_opt ⟨ok_leaf, ok_leaf⟩, ok_opt ⟨ok_leaf, hc⟩,
    ⟨by simp, by simp [connectivity, ok, below, level], ok_builder_leaf h2⟩, ok_drain, trivial⟩

theorem ok_worker : ok (below dep) [] (worker dep) := by
  refine ⟨⟨by simp, rfl⟩, ok_opt fun t => ⟨ok_leaf, ok_leaf, ?_, ⟨by simp, fun d => ?_⟩, trivial⟩⟩
  · refine ok_oneOf ?_
    simp only [List.mem_cons, List.not_mem_nil, or_false, forall_eq_or_imp, forall_eq]
    exact ⟨trivial, ok_opt ok_leaf, ok_leaf, ⟨ok_leaf, ok_handle ok_clientCall⟩,
      ⟨ok_leaf, ok_leaf⟩, ok_drain⟩
  · beta_reduce
    split
    · next ht => exact ok_onDependencyCompleted (by simp) ht
    · trivial

end

/-! ## The dependencies have no cycle -/

/-- Every dependency leads to a task that is not scheduled yet, or that was scheduled
later: `scheduled` lists the latest task first. -/
def Later (σ : Tasks) : Prop :=
  σ.scheduled.Nodup ∧ ∀ t d, (t, d) ∈ σ.edges →
    t ∈ σ.scheduled ∧ (d ∈ σ.scheduled → σ.scheduled.idxOf d < σ.scheduled.idxOf t)

theorem later_step {σ σ' : Tasks} {op : TaskOp} (h : Later σ) (e : taskStep σ op = some σ') :
    Later σ' := by
  obtain ⟨nd, h⟩ := h
  cases op with
  | addDependency d t =>
    simp only [taskStep] at e
    split at e
    · cases e
    · next hd =>
      split at e
      · next ht =>
        cases e
        refine ⟨nd, fun x y hxy => ?_⟩
        rcases List.mem_cons.1 hxy with hxy | hxy
        · cases hxy
          exact ⟨ht, fun h => absurd h hd⟩
        · exact h x y hxy
      · cases e
  | schedule s =>
    simp only [taskStep] at e
    split at e
    · cases e
    · next hs =>
      cases e
      refine ⟨List.nodup_cons.2 ⟨hs, nd⟩, fun x y hxy => ?_⟩
      obtain ⟨hx, hy⟩ := h x y hxy
      refine ⟨List.mem_cons_of_mem _ hx, fun hym => ?_⟩
      have hxs : x ≠ s := fun e => hs (e ▸ hx)
      simp only
      rw [List.idxOf_cons_ne _ (Ne.symm hxs)]
      rcases List.mem_cons.1 hym with rfl | hym
      · rw [List.idxOf_cons_self]; omega
      · have hys : y ≠ s := fun e => hs (e ▸ hym)
        rw [List.idxOf_cons_ne _ (Ne.symm hys)]
        have := hy hym
        omega

theorem later_run {ops : List TaskOp} : ∀ {σ σ' : Tasks}, Later σ → taskRun σ ops = some σ' →
    Later σ' := by
  induction ops with
  | nil => intro σ σ' h e; cases e; exact h
  | cons op ops ih =>
    intro σ σ' h e
    simp only [taskRun, Option.bind_eq_some_iff] at e
    obtain ⟨σ1, e1, e2⟩ := e
    exact ih (later_step h e1) e2

/-- Whatever is done with the tasks, no task depends on itself, not even through
other tasks. -/
theorem dependencies_acyclic {ops : List TaskOp} {σ : Tasks}
    (e : taskRun ⟨[], []⟩ ops = some σ) (t : Nat) :
    ¬ Relation.TransGen (fun x y => σ.dep x y = true) t t := by
  have hl : Later σ := later_run ⟨List.nodup_nil, by simp⟩ e
  have key : ∀ x y, Relation.TransGen (fun x y => σ.dep x y = true) x y →
      x ∈ σ.scheduled ∧ (y ∈ σ.scheduled → σ.scheduled.idxOf y < σ.scheduled.idxOf x) := by
    intro x y r
    induction r with
    | single h => exact hl.2 _ _ (by simpa [Tasks.dep] using h)
    | tail _ h ih =>
      have h' := hl.2 _ _ (by simpa [Tasks.dep] using h)
      exact ⟨ih.1, fun hy => lt_trans (h'.2 hy) (ih.2 h'.1)⟩
  intro r
  obtain ⟨h1, h2⟩ := key t t r
  exact lt_irrefl _ (h2 h1)

/-! ## C100 -/

/-- The threads of the system: application threads and threads of the pool. -/
def System (dep : Nat → Nat → Bool) (ps : List (Prog Lock)) : Prop :=
  ∀ p ∈ ps, p = client ∨ p = worker dep

theorem system_ok {dep : Nat → Nat → Bool} {ps : List (Prog Lock)} (h : System dep ps) :
    ∀ p ∈ ps, ok (below dep) [] p := by
  intro p hp
  rcases h p hp with rfl | rfl
  · exact ok_client
  · exact ok_worker

/-- No reachable state has threads that wait for each other only: whatever number of
application threads and threads of the pool, whatever they call, whatever tasks
depend on each other through `AddDependency`. -/
theorem no_deadlock {ops : List TaskOp} {σ : Tasks} (e : taskRun ⟨[], []⟩ ops = some σ)
    {ps : List (Prog Lock)} (hps : System σ.dep ps) {s : List (Thread Lock)}
    (hs : Reachable ps s) (S : List Nat) : ¬ DeadlockSet s S :=
  ordered_no_deadlock (below_irrefl (dependencies_acyclic e)) below_trans (system_ok hps) hs S

/-- Behind every thread that cannot go on there is one that can. -/
theorem holder_runs {ops : List TaskOp} {σ : Tasks} (e : taskRun ⟨[], []⟩ ops = some σ)
    {ps : List (Prog Lock)} (hps : System σ.dep ps) {s : List (Thread Lock)}
    (hs : Reachable ps s) {i : Nat} {t : Thread Lock} {l : Lock} (hi : s[i]? = some t)
    (n : Needs t l) (hl : ¬ Free s l) :
    ∃ (j : Nat) (u u' : Thread Lock), Relation.TransGen (WaitsFor s) i j ∧ s[j]? = some u ∧
      TStep (Free s) u u' :=
  ordered_holder_runs (below_irrefl (dependencies_acyclic e)) below_trans (system_ok hps) hs hi n hl

/-- A thread that waits for a condition holds no lock. -/
theorem waiting_holds_nothing {dep : Nat → Nat → Bool} {ps : List (Prog Lock)}
    (hps : System dep ps) {s : List (Thread Lock)} (hs : Reachable ps s)
    {t : Thread Lock} (ht : t ∈ s) {l : Lock} (hw : t.wait = some l) : t.held = [] := by
  have g := good_reachable (system_ok hps) hs t ht
  simp only [Good, hw] at g
  exact g.1

/-- A thread that has ended holds no lock. -/
theorem ended_holds_nothing {dep : Nat → Nat → Bool} {ps : List (Prog Lock)}
    (hps : System dep ps) {s : List (Thread Lock)} (hs : Reachable ps s)
    {t : Thread Lock} (ht : t ∈ s) (he : t.stack = []) : t.held = [] := by
  have g := good_reachable (system_ok hps) hs t ht
  cases hw : t.wait with
  | none => simp only [Good, hw, he, okStack] at g; exact g
  | some l => simp only [Good, hw] at g; exact g.1

/-- A thread never asks for a lock it holds. -/
theorem no_relock {ops : List TaskOp} {σ : Tasks} (e : taskRun ⟨[], []⟩ ops = some σ)
    {ps : List (Prog Lock)} (hps : System σ.dep ps) {s : List (Thread Lock)}
    (hs : Reachable ps s) {t : Thread Lock} (ht : t ∈ s) {l : Lock} (n : Needs t l) :
    l ∉ t.held := by
  intro hl
  exact below_irrefl (dependencies_acyclic e) l
    (needs_above (good_reachable (system_ok hps) hs t ht) n hl)

/-- No lock is held twice. -/
theorem exclusive {dep : Nat → Nat → Bool} {ps : List (Prog Lock)} (_ : System dep ps)
    {s : List (Thread Lock)} (hs : Reachable ps s) {i j : Nat} {ti tj : Thread Lock} {l : Lock}
    (hi : s[i]? = some ti) (hj : s[j]? = some tj) (hli : l ∈ ti.held) (hlj : l ∈ tj.held) :
    i = j ∧ ti.held.Nodup :=
  ⟨(exclusive_reachable hs).2 i j ti tj l hi hj hli hlj,
    (exclusive_reachable hs).1 ti (List.mem_of_getElem? hi)⟩

/-! ## Examples -/

/-- Two threads that take two locks in opposite orders reach a deadlock: the
specification does not hold by itself. -/
example : ∃ s, Reachable [Prog.lock 0 (.lock 1 .skip), Prog.lock 1 (.lock 0 .skip)] s ∧
    DeadlockSet (L := Nat) s [0, 1] := by
  refine ⟨[⟨[0], none, [.run (.lock 1 .skip), .unlock 0]⟩,
    ⟨[1], none, [.run (.lock 0 .skip), .unlock 1]⟩], ?_, by simp, ?_⟩
  · refine .tail (.single ⟨0, _, _, rfl, .lock ?_, rfl⟩) ⟨1, _, _, rfl, .lock ?_, rfl⟩
    · intro t ht; revert t; simp [start]
    · intro t ht; revert t; simp [start]
  · intro i hi
    rcases List.mem_cons.1 hi with rfl | hi
    · exact ⟨1, by simp, _, _, 1, rfl, rfl, .inr ⟨rfl, _, _, rfl⟩, by simp⟩
    · rw [List.mem_singleton] at hi
      subst hi
      exact ⟨0, by simp, _, _, 0, rfl, rfl, .inr ⟨rfl, _, _, rfl⟩, by simp⟩

/-- A thread that takes a lock again is a deadlock alone. -/
example : ∃ s, Reachable [Prog.lock 0 (.lock 0 .skip)] s ∧ DeadlockSet (L := Nat) s [0] := by
  refine ⟨[⟨[0], none, [.run (.lock 0 .skip), .unlock 0]⟩], ?_, by simp, ?_⟩
  · refine .single ⟨0, _, _, rfl, .lock ?_, rfl⟩
    intro t ht; revert t; simp [start]
  · intro i hi
    rw [List.mem_singleton] at hi
    subst hi
    exact ⟨0, by simp, _, _, 0, rfl, rfl, .inr ⟨rfl, _, _, rfl⟩, by simp⟩

/-- Tasks of one node: scan matcher 0, constraint 1 that needs it, end of the node 2,
`WhenDone` 3. -/
example : (taskRun ⟨[], []⟩ [.schedule 0, .addDependency 1 0, .schedule 1, .addDependency 2 1,
    .schedule 2, .addDependency 3 2, .schedule 3]).map (·.edges) =
    some [(2, 3), (1, 2), (0, 1)] := by decide

/-- A dependency on a task that was not scheduled, or a dependency added later, is
not possible. -/
example : taskRun ⟨[], []⟩ [.schedule 0, .addDependency 0 0] = none := by decide

/-- An application thread can hold the lock of the queue of the pose graph. -/
example : ∃ s, Reachable [client, worker fun _ _ => false] s ∧
    ∃ t ∈ s, t.held = [.workQueue] := by
  have hf : ∀ u : Thread Lock, u.held = [] →
      Free [u, start (worker fun _ _ => false)] .workQueue := by
    intro u hu t ht
    rcases List.mem_cons.1 ht with rfl | ht
    · rw [hu]; simp
    · rw [List.mem_singleton] at ht; subst ht; simp [start]
  refine ⟨_, .tail (.tail (.tail (.tail .refl
    ⟨0, _, _, rfl, .seq, rfl⟩) ⟨0, _, _, rfl, .again, rfl⟩)
    ⟨0, _, _, rfl, .any 1, rfl⟩) ⟨0, _, _, rfl, .lock (hf _ rfl), rfl⟩, _, List.mem_cons_self, rfl⟩

end Verif.Locks
