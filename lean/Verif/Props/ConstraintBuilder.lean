import Verif.ConstraintBuilderLemmas

/-!
# Properties of the constraint builder (C42)
-/

namespace Verif.Builder

variable {R : Type}

/-! ## All executions -/

/-- When a callback task can begin, the searches notified before the request have completed. -/
theorem callback_done {s : State R} (hi : Inv s) {t : Nat} (ha : Enabled s (.begin t)) (hk : s.kind t = .whenDone) :
    ∀ i < s.requested, s.status (s.searchTask i) = .done := by
  obtain ⟨ht, hst, hdone⟩ := ha
  obtain ⟨hw, hp⟩ := hi.pend' t ht hk hst
  intro i hlt
  rcases hi.unserved i hlt with h' | ⟨-, f, f1, f2⟩
  · exact h'
  · rw [← hp] at f1
    obtain ⟨f3, -, -⟩ := hi.deps_lt t ht f f1
    exact hi.deps_done f f3 (Or.inr (hdone f f1)) _ f2

/-- C42, for every execution: when the callback runs, all searches whose node was notified before the request have completed, and
the `CHECK` at the begin of the callback does not fail. -/
theorem callback_after_searches {as : List (Act R)} {s : State R} (h : Exec (init R) as s) {t : Nat} (ha : Enabled s (.begin t))
    (hk : s.kind t = .whenDone) :
    (∀ i < s.requested, s.status (s.searchTask i) = .done) ∧ ∃ s', exec s (.begin t) = some s' := by
  have hi := inv_exec h inv_init
  refine ⟨callback_done hi ha hk, ?_⟩
  obtain ⟨ht, hst, hdone⟩ := ha
  simp [exec, beginTask, hk, (hi.pend' t ht hk hst).1]

/-- C42, for every execution: the callbacks together get exactly the constraints found by the searches started before the last
callback, each once, in the order in which the searches were started; every request but a pending one has been answered by exactly
one callback. -/
theorem results_exact {as : List (Act R)} {s : State R} (h : Exec (init R) as s) :
    s.results.flatten = (List.range s.cleared).filterMap s.found ∧ s.cleared ≤ s.numSlots ∧
    s.requests = s.results.length + if s.whenDone then 1 else 0 := by
  have hi := inv_exec h inv_init
  exact ⟨hi.delivered, hi.clr_le, hi.count⟩

/-! ## Executions in which the client follows the protocol -/

/-- The protocol of the client: no calls between `WhenDone` and the callback; `WhenDone` only after the end of the node was notified;
a scan matcher is deleted only while there are no constraints being computed. -/
def Disciplined (s : State R) : Act R → Prop
  | .addSearch _ => s.whenDone = false
  | .notifyEndOfNode => s.whenDone = false
  | .callWhenDone => s.whenDone = false ∧ s.notified = s.numSlots
  | .deleteScanMatcher _ => s.whenDone = false ∧ s.constraints = []
  | _ => True

/-- Finite executions in which the client follows the protocol. -/
inductive DExec : State R → List (Act R) → State R → Prop
  | nil (s : State R) : DExec s [] s
  | cons {s t u : State R} {a : Act R} {as : List (Act R)} : Enabled s a → Disciplined s a → exec s a = some t → DExec t as u →
      DExec s (a :: as) u

theorem DExec.exec {s t : State R} {as : List (Act R)} (h : DExec s as t) : Exec s as t := by
  induction h with
  | nil => exact .nil _
  | cons h1 _ h3 _ ih => exact .cons h1 h3 ih

/-- The additional invariant. -/
structure DInv (s : State R) : Prop where
  done : ∀ i < s.cleared, s.status (s.searchTask i) = .done
  req : s.whenDone = true → s.requested = s.numSlots
  alive : ∀ i < s.numSlots, s.status (s.searchTask i) ≠ .done → ∀ m ∈ s.deps (s.searchTask i), Alive s m

theorem dinv_init : DInv (init R) := by
  constructor <;> simp [init]

theorem dinv_step {s t : State R} {a : Act R} (h : Inv s) (hd : DInv s) (ha : Enabled s a) (hdis : Disciplined s a)
    (he : exec s a = some t) : DInv t := by
  have hs := @h.searchTask_ne
  obtain ⟨d1, d2, d3⟩ := hd
  cases a with
  | addSearch sm =>
    obtain rfl := Option.some.inj he
    simp only [Disciplined] at hdis
    have hclr := h.clr_le
    have hml := h.matcher_lt
    unfold addSearch dispatch
    cases hm : s.matcher sm with
    | some m =>
      constructor
      · intro i hi
        obtain ⟨a1, a2, a3⟩ := hs (show i < s.numSlots by simp only at hi; omega)
        have := d1 i hi
        simp only at hi
        simp only [upd]
        rw [if_neg (show ¬ i = s.numSlots by omega), if_neg (by omega)]
        exact this
      · simp [hdis]
      · intro i hi hst m' hm'
        simp only [upd] at hi hst hm'
        by_cases hi' : i = s.numSlots
        · rw [if_pos hi', if_neg (by have := h.fin_lt; omega), if_pos rfl] at hm'
          obtain rfl : m' = m := by simpa using hm'
          exact ⟨sm, hm⟩
        · obtain ⟨a1, a2, a3⟩ := hs (show i < s.numSlots by omega)
          rw [if_neg hi', if_neg (by omega)] at hst
          rw [if_neg hi', if_neg a2, if_neg (by omega)] at hm'
          exact d3 i (by omega) hst m' hm'
    | none =>
      constructor
      · intro i hi
        simp only at hi
        obtain ⟨a1, a2, a3⟩ := hs (show i < s.numSlots by omega)
        have := d1 i hi
        simp only [upd]
        rw [if_neg (show ¬ i = s.numSlots by omega), if_neg (by omega), if_neg (by omega)]
        exact this
      · simp [hdis]
      · intro i hi hst m' hm'
        simp only [upd] at hi hst hm'
        by_cases hi' : i = s.numSlots
        · rw [if_pos hi', if_neg (by have := h.fin_lt; omega), if_pos rfl] at hm'
          obtain rfl : m' = s.numTasks := by simpa using hm'
          exact ⟨sm, by simp [upd]⟩
        · obtain ⟨a1, a2, a3⟩ := hs (show i < s.numSlots by omega)
          rw [if_neg hi', if_neg (by omega), if_neg (by omega)] at hst
          rw [if_neg hi', if_neg a2, if_neg (by omega), if_neg (by omega)] at hm'
          obtain ⟨sm', hsm'⟩ := d3 i (by omega) hst m' hm'
          refine ⟨sm', ?_⟩
          simp only [upd]
          rw [if_neg (by rintro rfl; rw [hm] at hsm'; simp at hsm')]
          exact hsm'
  | notifyEndOfNode =>
    obtain rfl := Option.some.inj he
    simp only [Disciplined] at hdis
    have hclr := h.clr_le
    unfold notifyEndOfNode
    constructor
    · intro i hi
      simp only at hi
      obtain ⟨a1, a2, a3⟩ := hs (show i < s.numSlots by omega)
      simp only [upd]
      rw [if_neg (by omega), if_neg a2]
      exact d1 i hi
    · simp [hdis]
    · intro i hi hst m' hm'
      obtain ⟨a1, a2, a3⟩ := hs hi
      simp only [upd] at hst hm'
      rw [if_neg (by omega), if_neg a2] at hst
      rw [if_neg (by omega), if_neg a3] at hm'
      exact d3 i hi hst m' hm'
  | callWhenDone =>
    simp only [exec, callWhenDone] at he
    obtain ⟨hw, hn⟩ := hdis
    rw [if_neg (by simp [hw])] at he
    obtain rfl := Option.some.inj he
    have hclr := h.clr_le
    constructor
    · intro i hi
      simp only at hi
      obtain ⟨a1, a2, a3⟩ := hs (show i < s.numSlots by omega)
      simp only [upd]
      rw [if_neg (by omega), if_neg a3]
      exact d1 i hi
    · intro _
      exact hn
    · intro i hi hst m' hm'
      obtain ⟨a1, a2, a3⟩ := hs hi
      simp only [upd] at hst hm'
      rw [if_neg (by omega), if_neg a3] at hst
      rw [if_neg (by omega)] at hm'
      exact d3 i hi hst m' hm'
  | deleteScanMatcher sm =>
    obtain rfl := Option.some.inj he
    obtain ⟨hw, hn⟩ := hdis
    have hall : ∀ i < s.numSlots, s.status (s.searchTask i) = .done := by
      intro i hi
      apply d1
      have := h.slots
      rw [hn] at this
      have := congrArg List.length this
      simp only [List.map_nil, List.length_nil, List.length_range'] at this
      omega
    exact ⟨d1, d2, fun i hi hst => absurd (hall i hi) hst⟩
  | begin t =>
    have hcb := fun hk => (callback_done h ha hk)
    obtain ⟨ht, hst, hdone⟩ := ha
    have hst1 : ∀ x, upd s.status t .running x = .done ↔ s.status x = .done := by
      intro x
      simp only [upd]
      split
      next hx => subst hx; simp [hst]
      next => rfl
    simp only [exec, beginTask] at he
    have base : DInv { s with status := upd s.status t .running } :=
      ⟨fun i hi => (hst1 _).2 (d1 i hi), d2, fun i hi hn => d3 i hi (fun h' => hn ((hst1 _).2 h'))⟩
    cases hk : s.kind t with
    | construct =>
      simp only [hk] at he
      obtain rfl := Option.some.inj he
      exact base
    | finishNode =>
      simp only [hk] at he
      obtain rfl := Option.some.inj he
      exact base
    | search i m =>
      simp only [hk] at he
      split at he
      · obtain rfl := Option.some.inj he
        exact base
      · simp at he
    | whenDone =>
      simp only [hk] at he
      split at he
      next hw =>
        obtain rfl := Option.some.inj he
        have hr := d2 hw
        refine ⟨fun i hi => (hst1 _).2 (hcb hk i (by simp only at hi; omega)), by simp, base.alive⟩
      · simp at he
  | finish t r =>
    obtain ⟨ht, hst⟩ := ha
    have hst1 : ∀ x, s.status x = .done → upd s.status t .done x = .done := by
      intro x hx
      simp only [upd]
      split
      · rfl
      · exact hx
    have base : DInv { s with status := upd s.status t .done } :=
      ⟨fun i hi => hst1 _ (d1 i hi), d2, fun i hi hn => d3 i hi (fun h' => hn (hst1 _ h'))⟩
    simp only [exec, finishTask] at he
    split at he
    · split at he
      · obtain rfl := Option.some.inj he
        exact ⟨base.done, base.req, base.alive⟩
      · simp at he
    · split at he
      · split at he
        · obtain rfl := Option.some.inj he
          exact base
        · split at he
          · obtain rfl := Option.some.inj he
            exact ⟨base.done, base.req, base.alive⟩
          · simp at he
      · simp at he
    · obtain rfl := Option.some.inj he
      exact ⟨base.done, base.req, base.alive⟩
    · obtain rfl := Option.some.inj he
      exact base

theorem dinv_exec {s t : State R} {as : List (Act R)} (h : DExec s as t) : Inv s → DInv s → Inv t ∧ DInv t := by
  induction h with
  | nil => exact fun h1 h2 => ⟨h1, h2⟩
  | cons ha hd he _ ih => exact fun h1 h2 => ih (inv_step h1 ha he) (dinv_step h1 h2 ha hd he)

/-- No action fails if the client follows the protocol. -/
theorem step_safe {s : State R} {a : Act R} (h : Inv s) (hd : DInv s) (ha : Enabled s a) (hdis : Disciplined s a) :
    ∃ t, exec s a = some t := by
  cases a with
  | addSearch sm => exact ⟨_, rfl⟩
  | notifyEndOfNode => exact ⟨_, rfl⟩
  | callWhenDone =>
    simp only [Disciplined] at hdis
    simp [exec, callWhenDone, hdis.1]
  | deleteScanMatcher sm => exact ⟨_, rfl⟩
  | begin t =>
    obtain ⟨ht, hst, hdone⟩ := ha
    simp only [exec, beginTask]
    cases hk : s.kind t with
    | construct => simp
    | finishNode => simp
    | search i m =>
      obtain ⟨a1, a2, a3, a4⟩ := h.search t ht i m hk
      have hm : m ∈ s.deps t := by rw [a3]; simp
      have h1 : Alive s m := by
        apply hd.alive i a1
        · rw [a2, hst]; simp
        · rw [a2]; exact hm
      have h2 : s.ready m = true := h.ready m (h.deps_lt t ht m hm).1 a4 (hdone m hm)
      simp [h1, h2]
    | whenDone => simp [(h.pend' t ht hk hst).1]
  | finish t r =>
    obtain ⟨ht, hst⟩ := ha
    simp only [exec, finishTask]
    cases hk : s.kind t with
    | construct =>
      have h1 : Alive s t := by
        obtain ⟨i, i1, i2⟩ := h.construct t ht hk
        refine hd.alive i i1 ?_ t i2
        intro hdn
        have := h.deps_done _ (h.slot i i1).1 (Or.inr hdn) t i2
        rw [hst] at this
        simp at this
      simp [h1]
    | finishNode => simp
    | whenDone => simp
    | search i m =>
      obtain ⟨a1, a2, a3, a4⟩ := h.search t ht i m hk
      have hm : m ∈ s.deps t := by rw [a3]; simp
      have h1 : Alive s m := by
        apply hd.alive i a1
        · rw [a2, hst]; simp
        · rw [a2]; exact hm
      have h2 : i ∈ s.constraints.map Prod.fst := by
        rw [h.slots, List.mem_range'_1]
        have : s.cleared ≤ i := by
          by_contra hc
          have := hd.done i (by omega)
          rw [a2, hst] at this
          simp at this
        omega
      simp only [h1, h2, if_true]
      cases r <;> simp

/-- Number of begins and ends of tasks which are still to come. -/
def remaining (s : State R) : Nat :=
  ((List.range s.numTasks).map fun t => match s.status t with
    | .scheduled => 2
    | .running => 1
    | _ => 0).sum

/-- The actions of the pool. -/
def Internal : Act R → Prop
  | .begin _ => True
  | .finish _ _ => True
  | _ => False

theorem sum_upd (n : Nat) (f g : Nat → Nat) (a : Nat) (ha : a < n) (hlt : g a < f a) (hne : ∀ x, x ≠ a → g x = f x) :
    ((List.range n).map g).sum < ((List.range n).map f).sum := by
  induction n with
  | zero => omega
  | succ n ih =>
    simp only [List.range_succ, List.map_append, List.sum_append, List.map_cons, List.map_nil, List.sum_cons, List.sum_nil]
    by_cases han : a = n
    · subst han
      have : (List.range a).map g = (List.range a).map f := by
        apply List.map_congr_left
        intro x hx
        rw [List.mem_range] at hx
        exact hne x (by omega)
      rw [this]
      omega
    · have := ih (by omega)
      rw [hne n (by omega)]
      omega

theorem remaining_step {s t : State R} {a : Act R} (ha : Enabled s a) (hn : Internal a) (he : exec s a = some t) :
    remaining t < remaining s := by
  cases a with
  | begin k =>
    obtain ⟨ht, hst, -⟩ := ha
    have : t.status = upd s.status k .running ∧ t.numTasks = s.numTasks := by
      simp only [exec, beginTask] at he
      split at he <;> (try split at he) <;> (try simp only [reduceCtorEq] at he) <;> (obtain rfl := Option.some.inj he; exact ⟨rfl, rfl⟩)
    unfold remaining
    rw [this.1, this.2]
    refine sum_upd _ _ _ k ht ?_ ?_
    · simp [upd, hst]
    · intro x hx
      simp [upd, hx]
  | finish k r =>
    obtain ⟨ht, hst⟩ := ha
    have : t.status = upd s.status k .done ∧ t.numTasks = s.numTasks := by
      simp only [exec, finishTask] at he
      split at he <;> (try split at he) <;> (try simp only [reduceCtorEq] at he) <;> (try split at he) <;> (try split at he) <;>
        (try simp only [reduceCtorEq] at he) <;> (obtain rfl := Option.some.inj he; exact ⟨rfl, rfl⟩)
    unfold remaining
    rw [this.1, this.2]
    refine sum_upd _ _ _ k ht ?_ ?_
    · simp [upd, hst]
    · intro x hx
      simp [upd, hx]
  | addSearch _ | notifyEndOfNode | callWhenDone | deleteScanMatcher _ => simp [Internal] at hn

/-- As long as a task is scheduled or running, the pool can do something. -/
theorem progress {s : State R} (h : Inv s) {t : Nat} (ht : t < s.numTasks) (hst : s.status t = .scheduled ∨ s.status t = .running) :
    ∃ a, Internal a ∧ Enabled s a := by
  induction hr : rank (s.kind t) using Nat.strongRecOn generalizing t with
  | _ r ih =>
    rcases hst with hst | hst
    · by_cases hd : ∀ d ∈ s.deps t, s.status d = .done
      · exact ⟨.begin t, trivial, ht, hst, hd⟩
      · push Not at hd
        obtain ⟨d, d1, d2⟩ := hd
        obtain ⟨e1, e2, e3⟩ := h.deps_lt t ht d d1
        refine ih _ (hr ▸ e3) e1 ?_ rfl
        cases hs : s.status d <;> simp_all
    · exact ⟨.finish t none, trivial, ht, hst⟩

/-- C42 for clients which follow the protocol: nothing fails (in particular no search uses a scan matcher that does not exist, and
none writes its result into a list that was cleared); each callback gets exactly the constraints found by the searches since the
previous callback, all of which have completed; the pool can do only boundedly many actions without further calls, and when it can
do nothing any more, all searches notified and every request have been answered. -/
theorem constraint_builder_partial {as : List (Act R)} {s : State R} (h : DExec (init R) as s) :
    (∀ a, Enabled s a → Disciplined s a → ∃ t, exec s a = some t) ∧
    (∀ i < s.cleared, s.status (s.searchTask i) = .done) ∧
    s.results.flatten = (List.range s.cleared).filterMap s.found ∧
    (∃ n, ∀ bs t, (∀ b ∈ bs, Internal b) → Exec s bs t → bs.length ≤ n) ∧
    ((∀ a, Internal a → ¬ Enabled s a) → s.whenDone = false ∧ s.requests = s.results.length ∧
      ∀ i < s.numSlots, s.status (s.searchTask i) = .done) := by
  obtain ⟨h1, h2⟩ := dinv_exec h inv_init dinv_init
  refine ⟨fun a ha hd => step_safe h1 h2 ha hd, h2.done, h1.delivered, ⟨remaining s, ?_⟩, ?_⟩
  · clear h h1 h2
    intro bs t hb he
    induction he with
    | nil => simp
    | @cons s t' u a as' ha he _ ih =>
      have := ih (fun b hb' => hb b (List.mem_cons_of_mem _ hb'))
      have := remaining_step ha (hb a List.mem_cons_self) he
      simp only [List.length_cons]
      omega
  · intro hst
    have hw : s.whenDone = false := by
      by_contra hc
      obtain ⟨p1, p2, p3⟩ := h1.pend (by simpa using hc)
      obtain ⟨a, a1, a2⟩ := progress h1 p1 (Or.inl p3)
      exact hst a a1 a2
    refine ⟨hw, ?_, ?_⟩
    · have := h1.count
      simpa [hw] using this
    · intro i hi
      obtain ⟨s1, s2, s3⟩ := h1.searchTask_ne hi
      cases hs : s.status (s.searchTask i) with
      | done => rfl
      | new =>
        rcases h1.new_only _ s1 hs with e | e
        · exact absurd e s2
        · exact absurd e s3
      | scheduled =>
        obtain ⟨a, a1, a2⟩ := progress h1 s1 (Or.inl hs)
        exact absurd a2 (hst a a1)
      | running =>
        obtain ⟨a, a1, a2⟩ := progress h1 s1 (Or.inr hs)
        exact absurd a2 (hst a a1)

/-- Some members of a state, for the examples: task 0 is the first finish-node task, 1 the first when-done task, 2 constructs a scan
matcher, 3 is a search. -/
structure Snap (s : State Nat) (st0 st1 st2 st3 : Status) (wd : Bool) (cons : List (Nat × Option Nat)) (d1 : List Nat)
    (rd : Bool) : Prop where
  num : 4 ≤ s.numTasks
  kinds : s.kind 0 = .finishNode ∧ s.kind 1 = .whenDone ∧ s.kind 2 = .construct ∧ s.kind 3 = .search 0 2
  deps : s.deps 0 = [3] ∧ s.deps 1 = d1 ∧ s.deps 2 = [] ∧ s.deps 3 = [2]
  status : s.status 0 = st0 ∧ s.status 1 = st1 ∧ s.status 2 = st2 ∧ s.status 3 = st3
  wd : s.whenDone = wd
  cons : s.constraints = cons
  matcher : s.matcher 5 = some 2
  ready : s.ready 2 = rd

theorem snap_add : Snap (addSearch (init Nat) 5) .new .new .scheduled .scheduled false [(0, none)] [] false := by
  constructor <;> simp [addSearch, dispatch, init, upd]

theorem snap_begin {s : State Nat} {st0 st1 st2 st3 : Status} {wd : Bool} {cons : List (Nat × Option Nat)} {d1 : List Nat} {rd : Bool}
    (h : Snap s st0 st1 st2 st3 wd cons d1 rd) (hst : st2 = .scheduled) :
    ∃ s', Enabled s (.begin 2) ∧ exec s (.begin 2) = some s' ∧ Snap s' st0 st1 .running st3 wd cons d1 rd ∧ s'.results = s.results := by
  obtain ⟨h1, ⟨k0, k1, k2, k3⟩, ⟨e0, e1, e2, e3⟩, ⟨t0, t1, t2, t3⟩, h5, h6, h7, h8⟩ := h
  refine ⟨_, ⟨by omega, by rw [t2, hst], by simp [e2]⟩, (?_ : _ = some { s with status := upd s.status 2 .running }), ?_, rfl⟩
  · simp only [exec, beginTask, k2]
  · constructor <;> simp_all [upd]

theorem snap_construct {s : State Nat} {st0 st1 st2 st3 : Status} {wd : Bool} {cons : List (Nat × Option Nat)} {d1 : List Nat} {rd : Bool}
    (h : Snap s st0 st1 st2 st3 wd cons d1 rd) (hst : st2 = .running) :
    ∃ s', Enabled s (.finish 2 none) ∧ exec s (.finish 2 none) = some s' ∧ Snap s' st0 st1 .done st3 wd cons d1 true ∧
      s'.results = s.results := by
  obtain ⟨h1, ⟨k0, k1, k2, k3⟩, ⟨e0, e1, e2, e3⟩, ⟨t0, t1, t2, t3⟩, h5, h6, h7, h8⟩ := h
  refine ⟨_, ⟨by omega, by rw [t2, hst]⟩, (?_ : _ = some { s with
      status := upd s.status 2 .done
      ready := upd s.ready 2 true }), ?_, rfl⟩
  · simp only [exec, finishTask, k2]
    exact if_pos ⟨5, h7⟩
  · constructor <;> simp_all [upd]

theorem snap_search {s : State Nat} {st0 st1 st2 st3 : Status} {wd : Bool} {cons : List (Nat × Option Nat)} {d1 : List Nat} {rd : Bool}
    (h : Snap s st0 st1 st2 st3 wd cons d1 rd) (hst2 : st2 = .done) (hst : st3 = .scheduled) (hrd : rd = true) :
    ∃ s', Enabled s (.begin 3) ∧ exec s (.begin 3) = some s' ∧ Snap s' st0 st1 st2 .running wd cons d1 rd ∧ s'.results = s.results := by
  obtain ⟨h1, ⟨k0, k1, k2, k3⟩, ⟨e0, e1, e2, e3⟩, ⟨t0, t1, t2, t3⟩, h5, h6, h7, h8⟩ := h
  refine ⟨_, ⟨by omega, by rw [t3, hst], by simp [e3, t2, hst2]⟩, (?_ : _ = some { s with
      status := upd s.status 3 .running }), ?_, rfl⟩
  · simp only [exec, beginTask, k3]
    exact if_pos ⟨⟨5, h7⟩, by rw [h8, hrd]⟩
  · constructor <;> simp_all [upd]

theorem exec_callWhenDone {R : Type} {s : State R} (h : s.whenDone = false) : exec s .callWhenDone = some { s with
    whenDone := true
    status := upd (upd s.status s.whenDoneTask .scheduled) s.numTasks .new
    kind := upd s.kind s.numTasks .whenDone
    deps := upd s.deps s.numTasks []
    whenDoneTask := s.numTasks
    numTasks := s.numTasks + 1
    pending := s.whenDoneTask
    requested := s.notified
    requests := s.requests + 1 } := by
  simp [exec, callWhenDone, h]

theorem exec_begin_whenDone {R : Type} {s : State R} {t : Nat} (k : s.kind t = .whenDone) (h : s.whenDone = true) :
    exec s (.begin t) = some { s with
      status := upd s.status t .running
      results := s.results ++ [s.constraints.filterMap Prod.snd]
      constraints := []
      cleared := s.numSlots
      whenDone := false } := by
  simp [exec, beginTask, k, h]

theorem exec_finish_search {R : Type} {s : State R} {t slot m : Nat} {v : R} (k : s.kind t = .search slot m) (ha : Alive s m)
    (hs : slot ∈ s.constraints.map Prod.fst) : exec s (.finish t (some v)) = some { s with
      status := upd s.status t .done
      constraints := s.constraints.map fun e => if e.1 = slot then (e.1, some v) else e
      found := upd s.found slot (some v) } := by
  simp only [exec, finishTask, k]
  rw [if_pos ha]
  exact if_pos hs

/-- The run of the builder which loses a search: a search begun before `WhenDone` and not notified. -/
theorem lost_run : ∃ s2 s3 s4 s5 s6 : State Nat,
    (Enabled (addSearch (init Nat) 5) (.begin 2) ∧ exec (addSearch (init Nat) 5) (.begin 2) = some s2) ∧
    (Enabled s2 (.finish 2 none) ∧ exec s2 (.finish 2 none) = some s3) ∧
    (Enabled s3 (.begin 3) ∧ exec s3 (.begin 3) = some s4) ∧ exec s4 .callWhenDone = some s5 ∧
    (Enabled s5 (.begin 1) ∧ exec s5 (.begin 1) = some s6) ∧
    (Enabled s6 (.finish 3 (some 7)) ∧ exec s6 (.finish 3 (some 7)) = none) ∧
    (addSearch (init Nat) 5).kind 2 = .construct ∧ s3.kind 3 = .search 0 2 ∧ s5.kind 1 = .whenDone := by
  obtain ⟨s2, a2, b2, c2, -⟩ := snap_begin snap_add rfl
  obtain ⟨s3, a3, b3, c3, -⟩ := snap_construct c2 rfl
  obtain ⟨s4, a4, b4, c4, -⟩ := snap_search c3 rfl rfl rfl
  have hw : s4.whenDoneTask = 1 ∧ s4.numTasks = 4 := by
    have : s4.whenDoneTask = s3.whenDoneTask ∧ s4.numTasks = s3.numTasks := by
      simp only [exec, beginTask, c3.kinds.2.2.2] at b4
      split at b4
      · obtain rfl := Option.some.inj b4; exact ⟨rfl, rfl⟩
      · simp at b4
    have : s3.whenDoneTask = s2.whenDoneTask ∧ s3.numTasks = s2.numTasks := by
      simp only [exec, finishTask, c2.kinds.2.2.1] at b3
      split at b3
      · obtain rfl := Option.some.inj b3; exact ⟨rfl, rfl⟩
      · simp at b3
    have : s2.whenDoneTask = 1 ∧ s2.numTasks = 4 := by
      simp only [exec, beginTask, snap_add.kinds.2.2.1] at b2
      obtain rfl := Option.some.inj b2
      simp [addSearch, dispatch, init]
    omega
  obtain ⟨s5, b5, c5⟩ : ∃ s', exec s4 .callWhenDone = some s' ∧ Snap s' .new .scheduled .done .running true [(0, none)] [] true := by
    obtain ⟨h1, ⟨k0, k1, k2, k3⟩, ⟨e0, e1, e2, e3⟩, ⟨t0, t1, t2, t3⟩, h5, h6, h7, h8⟩ := c4
    refine ⟨_, exec_callWhenDone h5, ?_⟩
    constructor <;> simp_all [upd]
  obtain ⟨s6, b6, c6⟩ : ∃ s', exec s5 (.begin 1) = some s' ∧ Snap s' .new .running .done .running false [] [] true := by
    obtain ⟨h1, ⟨k0, k1, k2, k3⟩, ⟨e0, e1, e2, e3⟩, ⟨t0, t1, t2, t3⟩, h5, h6, h7, h8⟩ := c5
    refine ⟨_, exec_begin_whenDone k1 h5, ?_⟩
    constructor <;> simp_all [upd]
  refine ⟨s2, s3, s4, s5, s6, ⟨a2, b2⟩, ⟨a3, b3⟩, ⟨a4, b4⟩, b5, ⟨?_, b6⟩, ⟨?_, ?_⟩, snap_add.kinds.2.2.1, c3.kinds.2.2.2, c5.kinds.2.1⟩
  · obtain ⟨h1, -, ⟨e0, e1, e2, e3⟩, ⟨t0, t1, t2, t3⟩, -, -, -, -⟩ := c5
    exact ⟨by omega, t1, by simp [e1]⟩
  · obtain ⟨h1, -, -, ⟨t0, t1, t2, t3⟩, -, -, -, -⟩ := c6
    exact ⟨by omega, t3⟩
  · obtain ⟨h1, ⟨k0, k1, k2, k3⟩, ⟨e0, e1, e2, e3⟩, ⟨t0, t1, t2, t3⟩, h5, h6, h7, h8⟩ := c6
    simp [exec, finishTask, k3, h6]

/-- Without the protocol the statement fails: a search started and not notified before `WhenDone` is not waited for, and writes its
result into an element of `constraints_` which the callback has removed. -/
theorem unnotified_search_lost : ∃ (as : List (Act Nat)) (s : State Nat) (a : Act Nat), Exec (init Nat) as s ∧ Enabled s a ∧
    exec s a = none := by
  obtain ⟨s2, s3, s4, s5, s6, ⟨a2, b2⟩, ⟨a3, b3⟩, ⟨a4, b4⟩, b5, ⟨a6, b6⟩, ⟨a7, b7⟩, -⟩ := lost_run
  exact ⟨_, s6, .finish 3 (some 7), .cons (a := .addSearch 5) trivial rfl (.cons a2 b2 (.cons a3 b3 (.cons a4 b4 (.cons
    (a := .callWhenDone) trivial b5 (.cons (a := .begin 1) a6 b6 (.nil _)))))), a7, b7⟩

/-! ## Examples -/

/-- One search which finds a constraint, and its delivery by a callback. -/
example : ∃ as s, DExec (init Nat) as s ∧ s.results = [[7]] := by
  obtain ⟨s2, a2, b2, c2, r2⟩ := snap_begin snap_add rfl
  obtain ⟨s3, a3, b3, c3, r3⟩ := snap_construct c2 rfl
  obtain ⟨s4, a4, b4, c4, r4⟩ := snap_search c3 rfl rfl rfl
  have hw : s4.whenDoneTask = 1 ∧ s4.numTasks = 4 ∧ s4.finishTask = 0 := by
    have : s4.whenDoneTask = s3.whenDoneTask ∧ s4.numTasks = s3.numTasks ∧ s4.finishTask = s3.finishTask := by
      simp only [exec, beginTask, c3.kinds.2.2.2] at b4
      split at b4
      · obtain rfl := Option.some.inj b4; exact ⟨rfl, rfl, rfl⟩
      · simp at b4
    have : s3.whenDoneTask = s2.whenDoneTask ∧ s3.numTasks = s2.numTasks ∧ s3.finishTask = s2.finishTask := by
      simp only [exec, finishTask, c2.kinds.2.2.1] at b3
      split at b3
      · obtain rfl := Option.some.inj b3; exact ⟨rfl, rfl, rfl⟩
      · simp at b3
    have : s2.whenDoneTask = 1 ∧ s2.numTasks = 4 ∧ s2.finishTask = 0 := by
      simp only [exec, beginTask, snap_add.kinds.2.2.1] at b2
      obtain rfl := Option.some.inj b2
      simp [addSearch, dispatch, init]
    omega
  have r1 : (addSearch (init Nat) 5).results = [] := by simp [addSearch, dispatch, init]
  obtain ⟨s5, b5, c5, w5, n5, m5, r5⟩ : ∃ s', exec s4 .notifyEndOfNode = some s' ∧
      Snap s' .scheduled .new .done .running false [(0, none)] [0] true ∧ s'.whenDoneTask = 1 ∧ s'.notified = s'.numSlots ∧
      s'.numTasks = 5 ∧ s'.results = s4.results := by
    obtain ⟨h1, ⟨k0, k1, k2, k3⟩, ⟨e0, e1, e2, e3⟩, ⟨t0, t1, t2, t3⟩, h5, h6, h7, h8⟩ := c4
    refine ⟨_, rfl, ?_, hw.1, rfl, by simp [notifyEndOfNode, hw], rfl⟩
    constructor <;> simp_all [upd, notifyEndOfNode]
  obtain ⟨s6, b6, c6, r6⟩ : ∃ s', exec s5 .callWhenDone = some s' ∧
      Snap s' .scheduled .scheduled .done .running true [(0, none)] [0] true ∧ s'.results = s5.results := by
    obtain ⟨h1, ⟨k0, k1, k2, k3⟩, ⟨e0, e1, e2, e3⟩, ⟨t0, t1, t2, t3⟩, h5, h6, h7, h8⟩ := c5
    refine ⟨_, exec_callWhenDone h5, ?_, ?_⟩
    pick_goal 2
    · rfl
    constructor <;> simp_all [upd]
  obtain ⟨s7, b7, c7, r7⟩ : ∃ s', exec s6 (.finish 3 (some 7)) = some s' ∧
      Snap s' .scheduled .scheduled .done .done true [(0, some 7)] [0] true ∧ s'.results = s6.results := by
    obtain ⟨h1, ⟨k0, k1, k2, k3⟩, ⟨e0, e1, e2, e3⟩, ⟨t0, t1, t2, t3⟩, h5, h6, h7, h8⟩ := c6
    refine ⟨_, exec_finish_search k3 ⟨5, h7⟩ (by simp [h6]), ?_, rfl⟩
    constructor <;> simp_all [upd]
  obtain ⟨s8, b8, c8, r8⟩ : ∃ s', exec s7 (.begin 0) = some s' ∧
      Snap s' .running .scheduled .done .done true [(0, some 7)] [0] true ∧ s'.results = s7.results := by
    obtain ⟨h1, ⟨k0, k1, k2, k3⟩, ⟨e0, e1, e2, e3⟩, ⟨t0, t1, t2, t3⟩, h5, h6, h7, h8⟩ := c7
    refine ⟨{ s7 with status := upd s7.status 0 .running }, by simp only [exec, beginTask, k0], ?_, rfl⟩
    constructor <;> simp_all [upd]
  obtain ⟨s9, b9, c9, r9⟩ : ∃ s', exec s8 (.finish 0 none) = some s' ∧
      Snap s' .done .scheduled .done .done true [(0, some 7)] [0] true ∧ s'.results = s8.results := by
    obtain ⟨h1, ⟨k0, k1, k2, k3⟩, ⟨e0, e1, e2, e3⟩, ⟨t0, t1, t2, t3⟩, h5, h6, h7, h8⟩ := c8
    refine ⟨{ s8 with
        status := upd s8.status 0 .done
        numFinished := s8.numFinished + 1 }, by simp only [exec, finishTask, k0], ?_, rfl⟩
    constructor <;> simp_all [upd]
  obtain ⟨s10, b10, r10⟩ : ∃ s', exec s9 (.begin 1) = some s' ∧ s'.results = s9.results ++ [[7]] := by
    obtain ⟨h1, ⟨k0, k1, k2, k3⟩, ⟨e0, e1, e2, e3⟩, ⟨t0, t1, t2, t3⟩, h5, h6, h7, h8⟩ := c9
    refine ⟨_, exec_begin_whenDone k1 h5, ?_⟩
    · simp [h6]
  have en : ∀ {s : State Nat} {st0 st1 st2 st3 : Status} {wd : Bool} {cons : List (Nat × Option Nat)} {d1 : List Nat} {rd : Bool},
      Snap s st0 st1 st2 st3 wd cons d1 rd → 4 ≤ s.numTasks ∧ (s.deps 0 = [3] ∧ s.deps 1 = d1) ∧
      (s.status 0 = st0 ∧ s.status 1 = st1 ∧ s.status 3 = st3) :=
    fun h => ⟨h.num, ⟨h.deps.1, h.deps.2.1⟩, h.status.1, h.status.2.1, h.status.2.2.2⟩
  refine ⟨_, s10, .cons (a := .addSearch 5) trivial rfl rfl (.cons a2 trivial b2 (.cons a3 trivial b3 (.cons a4 trivial b4
    (.cons (a := .notifyEndOfNode) trivial c4.wd b5 (.cons (a := .callWhenDone) trivial ⟨c5.wd, n5⟩ b6
    (.cons (a := .finish 3 (some 7)) ⟨?_, ?_⟩ trivial b7 (.cons (a := .begin 0) ⟨?_, ?_, ?_⟩ trivial b8
    (.cons (a := .finish 0 none) ⟨?_, ?_⟩ trivial b9 (.cons (a := .begin 1) ⟨?_, ?_, ?_⟩ trivial b10 (.nil _)))))))))), ?_⟩
  · have := en c6; omega
  · exact (en c6).2.2.2.2
  · have := en c7; omega
  · exact (en c7).2.2.1
  · rw [(en c7).2.1.1]; simpa using (en c7).2.2.2.2
  · have := en c8; omega
  · exact (en c8).2.2.1
  · have := en c9; omega
  · exact (en c9).2.2.2.1
  · rw [(en c9).2.1.2]; simpa using (en c9).2.2.1
  · rw [r10, r9, r8, r7, r6, r5, r4, r3, r2, r1]; rfl

end Verif.Builder
