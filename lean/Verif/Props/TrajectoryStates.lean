import Verif.PoseGraphInvariant

/-!
# The states of trajectories (C33)
-/

namespace Verif.PoseGraph

open MapById (Id Map WF at? append insert trim assign contains sizeOfTrajectoryOrZero flat)

variable {P : Type}

/-- The state of a trajectory as reported to clients; `none` if it is unknown. -/
def stateOf (s : State P) (t : Int) : Option TrajectoryState := (SMap.get? t s.trajs).map (·.state)

/-- The changes of a trajectory state the property asks for: a new trajectory starts in any state but deleted,
an active one becomes finished or frozen, a finished or frozen one becomes deleted. -/
inductive Next : Option TrajectoryState → Option TrajectoryState → Prop where
  | same {x} : Next x x
  | new {x} : x ≠ .deleted → Next none (some x)
  | finish : Next (some .active) (some .finished)
  | freeze : Next (some .active) (some .frozen)
  | delete {x} : x = .finished ∨ x = .frozen → Next (some x) (some .deleted)

/-- The changes that the code makes: besides those of `Next`, any known trajectory can become finished or
frozen. -/
inductive NextCode : Option TrajectoryState → Option TrajectoryState → Prop where
  | next {x y} : Next x y → NextCode x y
  | finish {x} : NextCode (some x) (some .finished)
  | freeze {x} : NextCode (some x) (some .frozen)

/-- The invariant: trajectories waiting for deletion are finished or frozen, and trimmers for pure localization
keep at least two submaps. -/
structure TInv (s : State P) : Prop where
  waiting : ∀ t x, SMap.get? t s.trajs = some x → x.deletion = .waiting → x.state = .finished ∨ x.state = .frozen
  trimmers : ∀ tr ∈ s.trimmers, ∀ t keep done, tr = .pureLocalization t keep done → 2 ≤ keep
  items : ∀ item ∈ s.queue ++ s.inflight, ∀ t keep done, item = .addTrimmer (.pureLocalization t keep done) → 2 ≤ keep

/-- The same trajectories, trimmers and items. -/
structure SameT (s s' : State P) : Prop where
  trajs : s'.trajs = s.trajs
  trimmers : s'.trimmers = s.trimmers
  queue : s'.queue = s.queue
  inflight : s'.inflight = s.inflight

theorem SameT.refl (s : State P) : SameT s s := ⟨rfl, rfl, rfl, rfl⟩

theorem SameT.trans {s s' s'' : State P} (h : SameT s s') (h' : SameT s' s'') : SameT s s'' :=
  ⟨h'.1.trans h.1, h'.2.trans h.2, h'.3.trans h.3, h'.4.trans h.4⟩

theorem SameT.inv {s s' : State P} (h : SameT s s') (hi : TInv s) : TInv s' := by
  obtain ⟨h1, h2, h3⟩ := hi
  exact ⟨by rw [h.trajs]; exact h1, by rw [h.trimmers]; exact h2, by rw [h.queue, h.inflight]; exact h3⟩

theorem SameT.stateOf {s s' : State P} (h : SameT s s') (t : Int) : stateOf s' t = stateOf s t := by
  unfold PoseGraph.stateOf
  rw [h.trajs]

/-! ### Which functions leave the trajectories alone -/

theorem computeConstraints_same {s s' : State P} {node : Id} {ins : List Nat} {nf : Bool} {poses : List P} (wf : Wf s)
    (h : computeConstraints s node ins nf poses = some s') : SameT s s' := by
  obtain ⟨opt, ids, optNodes, id1, submaps, cs, submaps', todo, -, -, -, -, -, -, -, -, -, rfl⟩ :=
    computeConstraints_inv wf h
  exact ⟨rfl, rfl, rfl, rfl⟩

theorem addSerialized_same {s s' : State P} {c : Constraint P} (h : addSerialized s c = some s') : SameT s s' := by
  simp only [addSerialized, Option.bind_eq_bind, Option.bind_eq_some_iff, guard_some] at h
  obtain ⟨_, h1, _, h2, sm, h3, h4⟩ := h
  split at h4
  · simp only [Option.bind_eq_some_iff, guard_some, Option.some.injEq] at h4
    obtain ⟨_, h5, submaps, h6, rfl⟩ := h4
    exact ⟨rfl, rfl, rfl, rfl⟩
  · obtain rfl := Option.some.inj h4
    exact ⟨rfl, rfl, rfl, rfl⟩

theorem addSerializedAll_same {cs : List (Constraint P)} : ∀ {s s' : State P}, addSerializedAll s cs = some s' →
    SameT s s' := by
  induction cs with
  | nil => intro s s' h; obtain rfl := Option.some.inj h; exact SameT.refl _
  | cons c cs ih =>
    intro s s' h
    simp only [addSerializedAll, Option.bind_eq_bind, Option.bind_eq_some_iff] at h
    obtain ⟨s1, h1, h2⟩ := h
    exact (addSerialized_same h1).trans (ih h2)

theorem computeConstraint_same {s s' : State P} {node id : Id} {how : Search}
    (h : computeConstraint s node id how = some s') : SameT s s' := by
  simp only [computeConstraint, Option.bind_eq_bind, Option.bind_eq_some_iff, guard_some] at h
  obtain ⟨sm, h1, _, h2, h3⟩ := h
  cases how with
  | skip => obtain rfl := Option.some.inj h3; exact SameT.refl _
  | sampledOut =>
    simp only [Option.bind_eq_some_iff, Option.some.injEq] at h3
    obtain ⟨_, -, rfl⟩ := h3
    exact SameT.refl _
  | locally =>
    simp only [Option.bind_eq_some_iff, Option.some.injEq] at h3
    obtain ⟨_, h4, _, -, _, -, rfl⟩ := h3
    exact ⟨rfl, rfl, rfl, rfl⟩
  | globally =>
    simp only [Option.bind_eq_some_iff, Option.some.injEq] at h3
    obtain ⟨_, h4, rfl⟩ := h3
    exact ⟨rfl, rfl, rfl, rfl⟩

theorem trimSubmaps_same {ids : List Id} : ∀ {s s' : State P}, trimSubmaps s ids = some s' → SameT s s' := by
  induction ids with
  | nil => intro s s' h; obtain rfl := Option.some.inj h; exact SameT.refl _
  | cons c cs ih =>
    intro s s' h
    simp only [trimSubmaps, Option.bind_eq_bind, Option.bind_eq_some_iff] at h
    obtain ⟨s1, h1, h2⟩ := h
    have : SameT s s1 := by
      obtain ⟨sm, submaps, optSubmaps, nodes, optNodes, -, -, -, -, -, -, rfl⟩ := trimSubmap_inv h1
      exact ⟨rfl, rfl, rfl, rfl⟩
    exact this.trans (ih h2)

/-! ### Adding trajectories -/

theorem addTrajectoryIfNeeded_spec {l l' : List (Int × TrajState)} {t : Int} (h : addTrajectoryIfNeeded l t = some l') :
    ∀ t', SMap.get? t' l' = if t = t' then some (trajOf l t) else SMap.get? t' l := by
  simp only [addTrajectoryIfNeeded] at h
  split at h
  · cases h
  · split at h
    · cases h
    · split at h
      · cases h
      · obtain rfl := Option.some.inj h
        intro t'
        exact SMap.get?_put

theorem get?_trajOf {l : List (Int × TrajState)} {t : Int} :
    SMap.get? t l = some (trajOf l t) ∨ (SMap.get? t l = none ∧ trajOf l t = {}) := by
  unfold trajOf
  cases SMap.get? t l with
  | none => exact Or.inr ⟨rfl, rfl⟩
  | some x => exact Or.inl rfl

/-- One trajectory's entry changes to `y`. -/
theorem tinv_put {s s' : State P} {t : Int} {y : TrajState} (hi : TInv s)
    (hp : ∀ t', SMap.get? t' s'.trajs = if t = t' then some y else SMap.get? t' s.trajs)
    (hy : y.deletion = .waiting → y.state = .finished ∨ y.state = .frozen)
    (h2 : s'.trimmers = s.trimmers)
    (h3 : ∀ item ∈ s'.queue ++ s'.inflight, item ∈ s.queue ++ s.inflight ∨
      ∀ t keep done, item = .addTrimmer (.pureLocalization t keep done) → 2 ≤ keep) : TInv s' := by
  refine ⟨?_, by rw [h2]; exact hi.trimmers, ?_⟩
  · intro t' x hx hw
    rw [hp] at hx
    split at hx
    · obtain rfl := Option.some.inj hx; exact hy hw
    · exact hi.waiting t' x hx hw
  · intro item hm
    rcases h3 item hm with h | h
    · exact hi.items item h
    · exact h

theorem stateOf_put {s s' : State P} {t : Int} {y : TrajState}
    (hp : ∀ t', SMap.get? t' s'.trajs = if t = t' then some y else SMap.get? t' s.trajs) (t' : Int) :
    stateOf s' t' = if t = t' then some y.state else stateOf s t' := by
  unfold stateOf
  rw [hp]
  split <;> rfl

theorem addTraj_next {s s' : State P} {t : Int} {l : List (Int × TrajState)} (hi : TInv s)
    (h : addTrajectoryIfNeeded s.trajs t = some l) (h1 : s'.trajs = l) (h2 : s'.trimmers = s.trimmers)
    (h3 : s'.queue = s.queue)
    (h4 : ∀ item ∈ s'.inflight, item ∈ s.inflight ∨ ∀ tr, item ≠ .addTrimmer tr) :
    TInv s' ∧ ∀ t', Next (stateOf s t') (stateOf s' t') := by
  have hp : ∀ t', SMap.get? t' s'.trajs = if t = t' then some (trajOf s.trajs t) else SMap.get? t' s.trajs := by
    rw [h1]; exact addTrajectoryIfNeeded_spec h
  refine ⟨tinv_put hi hp ?_ h2 ?_, ?_⟩
  · intro hw
    rcases get?_trajOf (l := s.trajs) (t := t) with h | ⟨-, h⟩
    · exact hi.waiting _ _ h hw
    · rw [h] at hw; cases hw
  · intro item hm
    rw [h3] at hm
    rcases List.mem_append.1 hm with hm | hm
    · exact Or.inl (List.mem_append.2 (Or.inl hm))
    · rcases h4 item hm with h | h
      · exact Or.inl (List.mem_append.2 (Or.inr h))
      · right
        rintro t keep done rfl
        exact absurd rfl (h _)
  · intro t'
    rw [stateOf_put hp]
    split
    · rename_i he
      subst he
      unfold stateOf
      rcases get?_trajOf (l := s.trajs) (t := t) with h | ⟨h, h'⟩
      · rw [h]; exact .same
      · rw [h, h']; exact .new (by decide)
    · exact .same

/-- The trajectories, seen through an update of one of them. -/
theorem setTraj_spec {l : List (Int × TrajState)} {t : Int} {x : TrajectoryState} (t' : Int) :
    SMap.get? t' (setTraj l t x) = if t = t' then some { trajOf l t with state := x } else SMap.get? t' l :=
  SMap.get?_put

theorem setDeletion_spec {l : List (Int × TrajState)} {t : Int} {x : DeletionState} (t' : Int) :
    SMap.get? t' (setDeletion l t x) = if t = t' then some { trajOf l t with deletion := x } else SMap.get? t' l :=
  SMap.get?_put

theorem isFinished_false {l : List (Int × TrajState)} {t : Int} {x : TrajState} (h : isFinished l t = false)
    (hx : SMap.get? t l = some x) : x.state ≠ .finished := by
  simpa [isFinished, hx] using h

theorem isFrozen_false {l : List (Int × TrajState)} {t : Int} {x : TrajState} (h : isFrozen l t = false)
    (hx : SMap.get? t l = some x) : x.state ≠ .frozen := by
  simpa [isFrozen, hx] using h

/-- Work items: every change is one of `NextCode`, and one of `Next` if finishing and freezing is only asked
for trajectories that are active or unknown. -/
def ItemDisciplined (s : State P) : Item P → Prop
  | .finish t => stateOf s t = none ∨ stateOf s t = some .active
  | .freeze t => stateOf s t = none ∨ stateOf s t = some .active
  | _ => True

theorem NextCode.of_same {x y : Option TrajectoryState} (h : y = x) : NextCode x y := by rw [h]; exact .next .same

theorem Next.of_same {x y : Option TrajectoryState} (h : y = x) : Next x y := by rw [h]; exact .same

theorem runItem_next {s s' : State P} {poses : List P} {item : Item P} (wf : Wf s) (hi : TInv s)
    (hitem : ∀ t keep done, item = .addTrimmer (.pureLocalization t keep done) → 2 ≤ keep)
    (h : runItem s poses item = some s') :
    TInv s' ∧ (∀ t, NextCode (stateOf s t) (stateOf s' t)) ∧
      (ItemDisciplined s item → ∀ t, Next (stateOf s t) (stateOf s' t)) := by
  have same : SameT s s' → TInv s' ∧ (∀ t, NextCode (stateOf s t) (stateOf s' t)) ∧
      (ItemDisciplined s item → ∀ t, Next (stateOf s t) (stateOf s' t)) := fun hs =>
    ⟨hs.inv hi, fun t => .of_same (hs.stateOf t), fun _ t => .of_same (hs.stateOf t)⟩
  cases item with
  | computeConstraints node ins nf => exact same (computeConstraints_same wf h)
  | data t =>
    simp only [runItem] at h
    split at h
    · obtain rfl := Option.some.inj h; exact same (SameT.refl _)
    · cases h
  | finish t =>
    simp only [runItem, Option.bind_eq_bind, Option.bind_eq_some_iff, guard_some, Option.some.injEq] at h
    obtain ⟨_, h1, submaps, h2, rfl⟩ := h
    have hp := fun t' => setTraj_spec (l := s.trajs) (t := t) (x := .finished) t'
    have hst := stateOf_put (s := s)
      (s' := { s with submaps := submaps, trajs := setTraj s.trajs t .finished }) hp
    refine ⟨tinv_put hi hp (fun _ => Or.inl rfl) rfl (fun item h => Or.inl h), ?_, ?_⟩
    · intro t'
      rw [hst]
      split
      · rename_i he
        subst he
        cases hx : stateOf s t with
        | none => exact .next (.new (by simp))
        | some x => exact .finish
      · exact .next .same
    · intro hd t'
      rw [hst]
      split
      · rename_i he
        subst he
        rcases hd with hd | hd
        · rw [hd]; exact .new (by simp)
        · rw [hd]; exact .finish
      · exact .same
  | freeze t =>
    simp only [runItem, Option.bind_eq_bind, Option.bind_eq_some_iff, guard_some, Option.some.injEq] at h
    obtain ⟨_, h1, rfl⟩ := h
    have hp := fun t' => setTraj_spec (l := s.trajs) (t := t) (x := .frozen) t'
    have hst := stateOf_put (s := s) (s' := { s with trajs := setTraj s.trajs t .frozen }) hp
    refine ⟨tinv_put hi hp (fun _ => Or.inr rfl) rfl (fun item h => Or.inl h), ?_, ?_⟩
    · intro t'
      rw [hst]
      split
      · rename_i he
        subst he
        cases hx : stateOf s t with
        | none => exact .next (.new (by simp))
        | some x => exact .freeze
      · exact .next .same
    · intro hd t'
      rw [hst]
      split
      · rename_i he
        subst he
        rcases hd with hd | hd
        · rw [hd]; exact .new (by simp)
        · rw [hd]; exact .freeze
      · exact .same
  | delete t =>
    simp only [runItem, Option.bind_eq_bind, Option.bind_eq_some_iff, guard_some, Option.some.injEq] at h
    obtain ⟨x, h1, _, h2, _, h3, _, h4, rfl⟩ := h
    have hp := fun t' => setDeletion_spec (l := s.trajs) (t := t) (x := .waiting) t'
    have hx : trajOf s.trajs t = x := by simp [trajOf, h1]
    have hst : ∀ t', stateOf { s with trajs := setDeletion s.trajs t .waiting } t' = stateOf s t' := by
      intro t'
      rw [stateOf_put (s := s) hp]
      split
      · rename_i he
        subst he
        simp [stateOf, h1, hx]
      · rfl
    refine ⟨tinv_put hi hp ?_ rfl (fun item h => Or.inl h), fun t' => .of_same (hst t'), fun _ t' => .of_same (hst t')⟩
    intro _
    simp only [hx]
    cases hs : x.state <;> simp_all
  | submapFromProto id =>
    simp only [runItem, Option.bind_eq_bind, Option.bind_eq_some_iff, Option.some.injEq] at h
    obtain ⟨submaps, h1, opt, h2, rfl⟩ := h
    exact same ⟨rfl, rfl, rfl, rfl⟩
  | nodeFromProto id =>
    simp only [runItem, Option.bind_eq_bind, Option.bind_eq_some_iff, Option.some.injEq] at h
    obtain ⟨_, h1, opt, h2, rfl⟩ := h
    exact same ⟨rfl, rfl, rfl, rfl⟩
  | nodeToSubmap node id =>
    simp only [runItem] at h
    split at h
    · simp only [Option.bind_eq_bind, Option.bind_eq_some_iff, Option.some.injEq] at h
      obtain ⟨sm, h3, submaps, h6, rfl⟩ := h
      exact same ⟨rfl, rfl, rfl, rfl⟩
    · cases h
  | serialized cs => exact same (addSerializedAll_same h)
  | addTrimmer tr =>
    simp only [runItem, Option.some.injEq] at h
    subst h
    refine ⟨⟨hi.waiting, ?_, hi.items⟩, fun t => .of_same rfl, fun _ t => .of_same rfl⟩
    intro tr' hm t keep done he
    rcases List.mem_append.1 hm with hm | hm
    · exact hi.trimmers tr' hm t keep done he
    · rw [List.mem_singleton] at hm
      subst hm
      exact hitem t keep done (by rw [he])

/-! ### Deletion and trimmers -/

/-- What deletions and trimmers do to the trajectories. -/
inductive DelNext : Option TrajState → Option TrajState → Prop where
  | same {x} : DelNext x x
  | deleted {x} : x.deletion = .waiting → DelNext (some x) (some ⟨.deleted, .normal⟩)

theorem trajOf_waiting {l : List (Int × TrajState)} {t : Int} (h : (trajOf l t).deletion = .waiting) :
    SMap.get? t l = some (trajOf l t) := by
  rcases get?_trajOf (l := l) (t := t) with h' | ⟨-, h'⟩
  · exact h'
  · rw [h'] at h; cases h

theorem deleteIfNeeded_spec {s s' : State P} {t : Int} (h : deleteIfNeeded s t = some s') :
    s'.trimmers = s.trimmers ∧ s'.queue = s.queue ∧ s'.inflight = s.inflight ∧
      (∀ t', t' ≠ t → SMap.get? t' s'.trajs = SMap.get? t' s.trajs) ∧
      DelNext (SMap.get? t s.trajs) (SMap.get? t s'.trajs) ∧
      ∀ x, SMap.get? t s'.trajs = some x → x.deletion ≠ .waiting := by
  unfold deleteIfNeeded at h
  split at h
  · rename_i hw
    simp only [Option.bind_eq_bind, Option.bind_eq_some_iff, Option.some.injEq] at h
    obtain ⟨s1, h1, rfl⟩ := h
    obtain ⟨e1, e2, e3, e4⟩ := trimSubmaps_same h1
    refine ⟨e2, e3, e4, ?_, ?_, ?_⟩
    · intro t' ht'
      simp only [SMap.get?_put, if_neg (Ne.symm ht'), e1]
    · simp only [SMap.get?_put, if_true]
      rw [trajOf_waiting hw]
      exact .deleted hw
    · intro x hx
      simp only [SMap.get?_put, if_true, Option.some.injEq] at hx
      rw [← hx]
      simp
  · rename_i hw
    obtain rfl := Option.some.inj h
    refine ⟨rfl, rfl, rfl, fun _ _ => rfl, .same, ?_⟩
    intro x hx
    have : trajOf s.trajs t = x := by simp [trajOf, hx]
    rw [this] at hw
    exact hw

theorem deleteTrajectories_spec {ts : List Int} : ∀ {s s' : State P}, deleteTrajectories s ts = some s' →
    s'.trimmers = s.trimmers ∧ s'.queue = s.queue ∧ s'.inflight = s.inflight ∧
      (∀ t, DelNext (SMap.get? t s.trajs) (SMap.get? t s'.trajs)) ∧
      (∀ t ∈ ts, ∀ x, SMap.get? t s'.trajs = some x → x.deletion ≠ .waiting) := by
  induction ts with
  | nil =>
    intro s s' h
    obtain rfl := Option.some.inj h
    exact ⟨rfl, rfl, rfl, fun _ => .same, by simp⟩
  | cons t ts ih =>
    intro s s' h
    simp only [deleteTrajectories, Option.bind_eq_bind, Option.bind_eq_some_iff] at h
    obtain ⟨s1, h1, h2⟩ := h
    obtain ⟨a1, a2, a3, a4, a5, a6⟩ := deleteIfNeeded_spec h1
    obtain ⟨b1, b2, b3, b4, b5⟩ := ih h2
    refine ⟨b1.trans a1, b2.trans a2, b3.trans a3, ?_, ?_⟩
    · intro t'
      by_cases ht : t' = t
      · subst ht
        have h3 := b4 t'
        cases hx : SMap.get? t' s1.trajs with
        | none =>
          rw [hx] at h3 a5
          generalize hg : SMap.get? t' s'.trajs = g at h3
          cases h3
          exact a5
        | some x =>
          rw [hx] at h3 a5
          generalize hg : SMap.get? t' s'.trajs = g at h3
          cases h3 with
          | same => exact a5
          | deleted hw => exact absurd hw (a6 x hx)
      · rw [← a4 t' ht]; exact b4 t'
    · intro t' hm x hx
      by_cases ht : t' ∈ ts
      · exact b5 t' ht x hx
      · have : t' = t := by simpa [ht] using hm
        subst this
        have h3 := b4 t'
        rw [hx] at h3
        generalize hg : SMap.get? t' s1.trajs = g at h3
        cases h3 with
        | same => exact a6 x hg
        | deleted hw => simp

theorem runTrimmer_spec {s s' : State P} {choice : List Id} {tr tr' : Trimmer}
    (hk : ∀ t keep done, tr = .pureLocalization t keep done → 2 ≤ keep)
    (h : runTrimmer s choice tr = some (s', tr')) :
    s'.queue = s.queue ∧ s'.inflight = s.inflight ∧
      (∀ t, SMap.get? t s'.trajs = SMap.get? t s.trajs ∨
        ∃ x, SMap.get? t s.trajs = some x ∧ x.state = .finished ∧ SMap.get? t s'.trajs = some ⟨.deleted, x.deletion⟩) ∧
      (trimmerDone tr' = false → ∀ t keep done, tr' = .pureLocalization t keep done → 2 ≤ keep) := by
  cases tr with
  | pureLocalization t keep done =>
    obtain ⟨keep', s1, hk', h1, h2⟩ := pureLocalizationTrim_inv h
    have h2k := hk t keep done rfl
    obtain ⟨e1, e2, e3, e4⟩ := trimSubmaps_same h1
    rcases h2 with ⟨h0, rfl, rfl⟩ | ⟨h0, rfl, rfl⟩
    · refine ⟨e3, e4, ?_, by simp [trimmerDone]⟩
      have hf : isFinished s.trajs t = true := by
        by_contra hf
        rw [if_neg hf] at hk'
        omega
      obtain ⟨x, hx, hxs⟩ : ∃ x, SMap.get? t s.trajs = some x ∧ x.state = .finished := by
        simp only [isFinished, Option.any_eq_true] at hf
        obtain ⟨x, h1, h2⟩ := hf
        exact ⟨x, h1, by simpa using h2⟩
      intro t'
      by_cases ht : t = t'
      · subst ht
        right
        refine ⟨x, hx, hxs, ?_⟩
        simp only [setTraj_spec, if_true, e1]
        simp [trajOf, hx]
      · left
        simp only [setTraj_spec, if_neg ht, e1]
    · refine ⟨e3, e4, fun t => Or.inl (by rw [e1]), ?_⟩
      rintro - t' k' d' he
      simp only [Trimmer.pureLocalization.injEq] at he
      obtain ⟨-, rfl, -⟩ := he
      split at hk'
      · exact absurd hk' h0
      · omega
  | other =>
    simp only [runTrimmer, Option.bind_eq_bind, Option.bind_eq_some_iff, Option.some.injEq, Prod.mk.injEq] at h
    obtain ⟨s1, h1, rfl, rfl⟩ := h
    obtain ⟨e1, e2, e3, e4⟩ := trimSubmaps_same h1
    exact ⟨e3, e4, fun t => Or.inl (by rw [e1]), by rintro - t' k' d' he; cases he⟩

theorem runTrimmers_spec {trs : List Trimmer} : ∀ {s s' : State P} {cs : List (List Id)} {trs' : List Trimmer},
    (∀ tr ∈ trs, ∀ t keep done, tr = .pureLocalization t keep done → 2 ≤ keep) →
    runTrimmers s trs cs = some (s', trs') →
    s'.queue = s.queue ∧ s'.inflight = s.inflight ∧
      (∀ t, SMap.get? t s'.trajs = SMap.get? t s.trajs ∨
        ∃ x, SMap.get? t s.trajs = some x ∧ x.state = .finished ∧ SMap.get? t s'.trajs = some ⟨.deleted, x.deletion⟩) ∧
      (∀ tr ∈ trs', trimmerDone tr = false → ∀ t keep done, tr = .pureLocalization t keep done → 2 ≤ keep) := by
  induction trs with
  | nil =>
    intro s s' cs trs' _ h
    simp only [runTrimmers, Option.some.injEq, Prod.mk.injEq] at h
    obtain ⟨rfl, rfl⟩ := h
    exact ⟨rfl, rfl, fun _ => Or.inl rfl, by simp⟩
  | cons tr trs ih =>
    intro s s' cs trs' hk h
    simp only [runTrimmers, Option.bind_eq_bind, Option.bind_eq_some_iff] at h
    obtain ⟨⟨s1, tr1⟩, h1, ⟨s2, trs2⟩, h2, h3⟩ := h
    simp only [Option.some.injEq, Prod.mk.injEq] at h3
    obtain ⟨rfl, rfl⟩ := h3
    obtain ⟨a1, a2, a3, a4⟩ := runTrimmer_spec (hk tr (by simp)) h1
    obtain ⟨b1, b2, b3, b4⟩ := ih (fun tr' h => hk tr' (by simp [h])) h2
    refine ⟨b1.trans a1, b2.trans a2, ?_, ?_⟩
    · intro t
      rcases b3 t with h | ⟨x, x1, x2, x3⟩
      · rw [h]; exact a3 t
      · rcases a3 t with h | ⟨y, y1, y2, y3⟩
        · rw [h] at x1
          exact Or.inr ⟨x, x1, x2, x3⟩
        · rw [y3] at x1
          obtain rfl := Option.some.inj x1
          cases x2
    · intro tr' hm
      rcases List.mem_cons.1 hm with rfl | hm
      · exact a4
      · exact b4 tr' hm

theorem handleTrimming_next {s s' : State P} {result : List (Constraint P)} {choices : List (List Id)} (hi : TInv s)
    (h : handleTrimming s result choices = some s') :
    TInv s' ∧ ∀ t, Next (stateOf s t) (stateOf s' t) := by
  obtain ⟨s1, s2, trs, -, h2, h3, rfl⟩ := handleTrimming_inv h
  obtain ⟨a1, a2, a3, a4, a5⟩ := deleteTrajectories_spec h2
  have hk : ∀ tr ∈ s1.trimmers, ∀ t keep done, tr = .pureLocalization t keep done → 2 ≤ keep := by
    rw [a1]; exact hi.trimmers
  obtain ⟨b1, b2, b3, b4⟩ := runTrimmers_spec hk h3
  have nowait : ∀ t x, SMap.get? t s1.trajs = some x → x.deletion ≠ .waiting := by
    intro t x hx
    have h4 := a4 t
    rw [hx] at h4
    generalize hg : SMap.get? t s.trajs = g at h4
    cases h4 with
    | same => exact a5 t (List.mem_map.2 ⟨(t, x), SMap.mem_of_get? hg, rfl⟩) x hx
    | deleted => simp
  have nowait2 : ∀ t x, SMap.get? t s2.trajs = some x → x.deletion ≠ .waiting := by
    intro t x hx
    rcases b3 t with h | ⟨y, y1, y2, y3⟩
    · exact nowait t x (h ▸ hx)
    · rw [y3] at hx
      obtain rfl := Option.some.inj hx
      exact nowait t y y1
  refine ⟨⟨fun t x hx hw => absurd hw (nowait2 t x hx), ?_, ?_⟩, ?_⟩
  · intro tr hm
    simp only [List.mem_filter, Bool.not_eq_true'] at hm
    exact b4 tr hm.1 hm.2
  · intro item hm
    dsimp only at hm
    rw [b1, b2, a2, a3] at hm
    exact hi.items item hm
  · intro t
    show Next (stateOf s t) (stateOf s2 t)
    have h4 := a4 t
    unfold stateOf
    rcases b3 t with h | ⟨y, y1, y2, y3⟩
    · rw [h]
      generalize hg : SMap.get? t s.trajs = g at h4
      generalize hg' : SMap.get? t s1.trajs = g' at h4
      cases h4 with
      | same => exact .same
      | deleted hw => exact .delete (hi.waiting t _ hg hw)
    · rw [y3]
      rw [y1] at h4
      generalize hg : SMap.get? t s.trajs = g at h4
      cases h4 with
      | same => exact .delete (Or.inl y2)
      | deleted hw => cases y2

/-! ### All steps -/

/-- Finishing and freezing is only asked for trajectories that are active or unknown when the item runs. -/
def Disciplined (s : State P) : Act P → Prop
  | .run _ => ∀ item ∈ s.queue.head?, ItemDisciplined s item
  | _ => True

theorem step_next {s s' : State P} {a : Act P} (wf : Wf s) (hi : TInv s) (he : Enabled s a) (h : exec s a = some s') :
    TInv s' ∧ (∀ t, NextCode (stateOf s t) (stateOf s' t)) ∧
      (Disciplined s a → ∀ t, Next (stateOf s t) (stateOf s' t)) := by
  have same : SameT s s' → TInv s' ∧ (∀ t, NextCode (stateOf s t) (stateOf s' t)) ∧
      (Disciplined s a → ∀ t, Next (stateOf s t) (stateOf s' t)) := fun hs =>
    ⟨hs.inv hi, fun t => .of_same (hs.stateOf t), fun _ t => .of_same (hs.stateOf t)⟩
  have next : (TInv s' ∧ ∀ t, Next (stateOf s t) (stateOf s' t)) →
      TInv s' ∧ (∀ t, NextCode (stateOf s t) (stateOf s' t)) ∧
      (Disciplined s a → ∀ t, Next (stateOf s t) (stateOf s' t)) := fun hs =>
    ⟨hs.1, fun t => .next (hs.2 t), fun _ t => hs.2 t⟩
  cases a with
  | addNode t ins nf =>
    obtain ⟨s1, id, h1, rfl⟩ := addNode_inv h
    obtain ⟨trajs, nodes, h0, -, h3⟩ := appendNode_inv h1
    apply next
    rcases h3 with rfl | ⟨back, submaps, id', -, rfl⟩ <;>
    · refine addTraj_next hi h0 ?_ ?_ ?_ ?_ <;> try rfl
      intro item hm
      rcases List.mem_append.1 hm with hm | hm
      · exact Or.inl hm
      · rw [List.mem_singleton] at hm
        subst hm
        exact Or.inr (by simp)
  | addSubmapFromProto id ptr =>
    obtain ⟨trajs, submaps, h0, -, rfl⟩ := addSubmapFromProto_inv h
    apply next
    refine addTraj_next hi h0 ?_ ?_ ?_ ?_ <;> try rfl
    intro item hm
    rcases List.mem_append.1 hm with hm | hm
    · exact Or.inl hm
    · rw [List.mem_singleton] at hm
      subst hm
      exact Or.inr (by simp)
  | addNodeFromProto id =>
    obtain ⟨trajs, nodes, h0, -, rfl⟩ := addNodeFromProto_inv h
    apply next
    refine addTraj_next hi h0 ?_ ?_ ?_ ?_ <;> try rfl
    intro item hm
    rcases List.mem_append.1 hm with hm | hm
    · exact Or.inl hm
    · rw [List.mem_singleton] at hm
      subst hm
      exact Or.inr (by simp)
  | deleteTrajectory t =>
    simp only [exec, Option.some.injEq] at h
    subst h
    unfold deleteTrajectory
    cases hx : SMap.get? t s.trajs with
    | none => exact ⟨hi, fun t => .of_same rfl, fun _ t => .of_same rfl⟩
    | some x =>
      dsimp only
      have hp := fun t' => setDeletion_spec (l := s.trajs) (t := t) (x := .scheduled) t'
      have hx' : trajOf s.trajs t = x := by simp [trajOf, hx]
      have hst : ∀ t', stateOf { s with
          trajs := setDeletion s.trajs t .scheduled
          inflight := s.inflight ++ [.delete t] } t' = stateOf s t' := by
        intro t'
        rw [stateOf_put (s := s) hp]
        split
        · rename_i he
          subst he
          simp [stateOf, hx, hx']
        · rfl
      refine ⟨tinv_put hi hp (by simp) rfl ?_, fun t' => .of_same (hst t'), fun _ t' => .of_same (hst t')⟩
      intro item hm
      dsimp only at hm
      rw [← List.append_assoc] at hm
      rcases List.mem_append.1 hm with hm | hm
      · exact Or.inl hm
      · rw [List.mem_singleton] at hm
        subst hm
        exact Or.inr (by simp)
  | post item =>
    simp only [exec, Option.some.injEq] at h
    subst h
    refine ⟨⟨hi.waiting, hi.trimmers, ?_⟩, fun t => .of_same rfl, fun _ t => .of_same rfl⟩
    intro item' hm
    dsimp only at hm
    rw [← List.append_assoc] at hm
    rcases List.mem_append.1 hm with hm | hm
    · exact hi.items item' hm
    · rw [List.mem_singleton] at hm
      subst hm
      rintro t keep done rfl
      simp only [Enabled, Item.free, Bool.and_eq_true, decide_eq_true_eq] at he
      exact he.1
  | enqueue k =>
    simp only [exec] at h
    split at h
    · cases h
    · rename_i item hk
      obtain rfl := Option.some.inj h
      refine ⟨⟨hi.waiting, hi.trimmers, ?_⟩, fun t => .of_same rfl, fun _ t => .of_same rfl⟩
      intro item' hm
      apply hi.items item'
      simp only [List.mem_append, List.mem_singleton] at hm ⊢
      rcases hm with (hm | rfl) | hm
      · exact Or.inl hm
      · exact Or.inr (List.mem_of_getElem? hk)
      · exact Or.inr (List.mem_of_mem_eraseIdx hm)
  | run poses =>
    simp only [exec] at h
    split at h
    · cases h
    · rename_i item queue hq
      have hi' : TInv { s with queue := queue } := by
        refine ⟨hi.waiting, hi.trimmers, ?_⟩
        intro item' hm
        apply hi.items item'
        rw [hq]
        exact List.mem_cons_of_mem _ hm
      have hitem := hi.items item (by rw [hq]; simp)
      obtain ⟨h1, h2, h3⟩ := runItem_next (s := { s with queue := queue }) ⟨wf.1, wf.2, wf.3, wf.4⟩ hi' hitem h
      refine ⟨h1, h2, fun hd => h3 ?_⟩
      have := hd item (by rw [hq]; rfl)
      revert this
      cases item <;> exact fun h => h
  | search how =>
    obtain ⟨⟨node, id⟩, todo, hw⟩ := he
    simp only [exec, hw] at h
    have hs := computeConstraint_same h
    exact same ⟨hs.1, hs.2, hs.3, hs.4⟩
  | endSearch =>
    simp only [exec, Option.some.injEq] at h
    subst h
    exact same ⟨rfl, rfl, rfl, rfl⟩
  | optimize result =>
    simp only [exec, optimize] at h
    split at h
    · obtain rfl := Option.some.inj h
      exact same ⟨rfl, rfl, rfl, rfl⟩
    · cases h
  | trim choices =>
    obtain ⟨r, hw⟩ := he
    simp only [exec, hw] at h
    have hi' : TInv { s with worker := .idle } := ⟨hi.waiting, hi.trimmers, hi.items⟩
    have hn := handleTrimming_next hi' h
    exact next ⟨hn.1, hn.2⟩


theorem TInv.init : TInv ({} : State P) :=
  TInv.mk (by intro t x h; simp [SMap.get?] at h) (by intro tr h; simp at h) (by intro item h; simp at h)

theorem exec_tinv {as : List (Act P)} {s s' : State P} (h : Exec s as s') (wf : Integrity s) (hi : TInv s) : TInv s' := by
  induction h with
  | nil => exact hi
  | snoc h0 he hx ih => exact (step_next (exec_integrity h0 wf).wf ih he hx).1

/-! ### C33 -/

/-- C33, for all executions: an active or unknown trajectory never becomes deleted directly, nothing becomes
active again, and nothing known becomes unknown.  Missing: the code lets finished, frozen and deleted
trajectories become finished or frozen (see below). -/
theorem trajectory_states_partial {as : List (Act P)} {a : Act P} {s s' : State P} (h : Exec {} as s)
    (he : Enabled s a) (hx : exec s a = some s') (t : Int) : NextCode (stateOf s t) (stateOf s' t) :=
  (step_next (exec_integrity h Integrity.init).wf (exec_tinv h Integrity.init TInv.init) he hx).2.1 t

/-- Executions in which `FinishTrajectory` and `FreezeTrajectory` are carried out only for trajectories that
are active or unknown at that time. -/
inductive DExec : State P → List (Act P) → State P → Prop where
  | nil {s} : DExec s [] s
  | snoc {s as t a t'} : DExec s as t → Enabled t a → Disciplined t a → exec t a = some t' → DExec s (as ++ [a]) t'

theorem DExec.exec {as : List (Act P)} {s s' : State P} (h : DExec s as s') : Exec s as s' := by
  induction h with
  | nil => exact .nil
  | snoc _ h1 _ h2 ih => exact .snoc ih h1 h2

theorem DExec.trans {as bs : List (Act P)} {s s' s'' : State P} (h : DExec s as s') (h' : DExec s' bs s'') :
    DExec s (as ++ bs) s'' := by
  induction h' with
  | nil => simpa using h
  | snoc _ h1 h2 h3 ih => rw [← List.append_assoc]; exact .snoc ih h1 h2 h3

/-- C33 under that discipline: only the changes the property asks for. -/
theorem trajectory_states_disciplined {as : List (Act P)} {a : Act P} {s s' : State P} (h : DExec {} as s)
    (he : Enabled s a) (hd : Disciplined s a) (hx : PoseGraph.exec s a = some s') (t : Int) :
    Next (stateOf s t) (stateOf s' t) :=
  (step_next (exec_integrity h.exec Integrity.init).wf (exec_tinv h.exec Integrity.init TInv.init) he hx).2.2 hd t

/-- How far a trajectory is in its life. -/
def rank : Option TrajectoryState → Nat
  | none => 0
  | some .active => 1
  | some .finished => 2
  | some .frozen => 2
  | some .deleted => 3

/-- C33 under the discipline, for histories: a trajectory never goes back, and if it is in the same phase later
its state is the same. -/
theorem trajectory_states_history {as bs : List (Act P)} {s s' : State P} (h : DExec {} as s) (h' : DExec s bs s')
    (t : Int) : rank (stateOf s t) < rank (stateOf s' t) ∨ stateOf s t = stateOf s' t := by
  have key : ∀ {x y : Option TrajectoryState}, Next x y → rank x < rank y ∨ x = y := by
    intro x y hn
    cases hn with
    | same => exact Or.inr rfl
    | @new x hx => left; cases x <;> simp [rank]
    | finish => left; simp [rank]
    | freeze => left; simp [rank]
    | delete hx => left; rcases hx with rfl | rfl <;> simp [rank]
  revert h
  induction h' with
  | nil => intro _; exact Or.inr rfl
  | snoc h0 he hd hx ih =>
    intro h
    have h1 := key (trajectory_states_disciplined (h.trans h0) he hd hx t)
    rcases ih h with h2 | h2 <;> rcases h1 with h1 | h1
    · exact Or.inl (by omega)
    · rw [← h1]; exact Or.inl h2
    · rw [h2]; exact Or.inl h1
    · exact Or.inr (h2.trans h1)

/-- Deleted trajectories stay deleted. -/
theorem deleted_is_final {as bs : List (Act P)} {s s' : State P} (h : DExec {} as s) (h' : DExec s bs s') {t : Int}
    (hd : stateOf s t = some .deleted) : stateOf s' t = some .deleted := by
  rcases trajectory_states_history h h' t with h1 | h1
  · rw [hd] at h1
    have : rank (stateOf s' t) ≤ 3 := by
      generalize stateOf s' t = x
      cases x with
      | none => simp [rank]
      | some x => cases x <;> simp [rank]
    simp only [rank] at h1 this
    omega
  · rw [← h1, hd]

/-- For all executions, without the discipline: a trajectory that is not active never becomes active again. -/
theorem never_active_again {as bs : List (Act P)} {s s' : State P} (h : Exec {} as s) (h' : Exec s bs s') {t : Int}
    {x : TrajectoryState} (hx : stateOf s t = some x) (hne : x ≠ .active) :
    ∃ y, stateOf s' t = some y ∧ y ≠ .active := by
  have trans : ∀ {bs : List (Act P)} {s' : State P}, Exec s bs s' → Exec {} (as ++ bs) s' := by
    intro bs s' h'
    induction h' with
    | nil => simpa using h
    | snoc _ h1 h2 ih => rw [← List.append_assoc]; exact .snoc ih h1 h2
  induction h' with
  | nil => exact ⟨x, hx, hne⟩
  | snoc h0 he hx' ih =>
    obtain ⟨y, hy, hy'⟩ := ih
    have hn := trajectory_states_partial (trans h0) he hx' t
    rw [hy] at hn
    generalize hz : stateOf _ t = z at hn
    cases hn with
    | next hn =>
      cases hn with
      | same => exact ⟨y, rfl, hy'⟩
      | finish => exact absurd rfl hy'
      | freeze => exact absurd rfl hy'
      | delete => exact ⟨_, rfl, by simp⟩
    | finish => exact ⟨_, rfl, by simp⟩
    | freeze => exact ⟨_, rfl, by simp⟩

/-- A trajectory takes data: it is unknown, or active or frozen without a request to delete it. -/
def Takes (s : State P) (t : Int) : Prop :=
  ∀ x, SMap.get? t s.trajs = some x → (x.state = .active ∨ x.state = .frozen) ∧ x.deletion = .normal

theorem canModify_iff {s : State P} {t : Int} : canModify s.trajs t = true ↔ Takes s t := by
  unfold canModify Takes
  cases hx : SMap.get? t s.trajs with
  | none => simp
  | some x =>
    obtain ⟨st, d⟩ := x
    cases st <;> cases d <;> simp

/-- C33: sensor data is accepted exactly while the trajectory takes data, and a work item for any other
trajectory aborts.  (The property says "active"; frozen trajectories take data as well, see
`frozen_takes_data`.) -/
theorem data_accepted_iff {s : State P} {t : Int} {poses : List P} :
    (runItem s poses (.data t) = some s ↔ Takes s t) ∧ (runItem s poses (.data t) = none ↔ ¬ Takes s t) := by
  rw [← canModify_iff]
  unfold runItem
  cases h : canModify s.trajs t <;> simp [h]

/-- C33: nodes and submaps are only accepted while the trajectory takes data. -/
theorem nodes_accepted {s s' : State P} {a : Act P} {t : Int} (h : exec s a = some s')
    (ha : (∃ ins nf, a = .addNode t ins nf) ∨ (∃ id ptr, id.1 = t ∧ a = .addSubmapFromProto id ptr) ∨
      ∃ id, id.1 = t ∧ a = .addNodeFromProto id) : Takes s t := by
  have key : ∀ {l : List (Int × TrajState)}, addTrajectoryIfNeeded s.trajs t = some l → Takes s t := by
    intro l h x hx
    have ht : trajOf s.trajs t = x := by simp [trajOf, hx]
    unfold addTrajectoryIfNeeded at h
    rw [ht] at h
    obtain ⟨st, d⟩ := x
    cases st <;> cases d <;> simp_all
  rcases ha with ⟨ins, nf, rfl⟩ | ⟨id, ptr, rfl, rfl⟩ | ⟨id, rfl, rfl⟩
  · obtain ⟨s1, id, h1, rfl⟩ := addNode_inv h
    obtain ⟨trajs, nodes, h0, -, -⟩ := appendNode_inv h1
    exact key h0
  · obtain ⟨trajs, submaps, h0, -, rfl⟩ := addSubmapFromProto_inv h
    exact key h0
  · obtain ⟨trajs, nodes, h0, -, rfl⟩ := addNodeFromProto_inv h
    exact key h0

/-! ### Executions that break the property -/

/-- Decides `Enabled` for the steps used below. -/
def allowed (s : State P) : Act P → Bool
  | .deleteTrajectory _ => true
  | .post item => item.free
  | .enqueue k => decide (k < s.inflight.length)
  | .addSubmapFromProto _ _ => true
  | .addNodeFromProto _ => true
  | .run _ =>
    match s.worker, s.queue with
    | .idle, _ :: _ => true
    | _, _ => false
  | .optimize [] =>
    match s.worker with
    | .idle => true
    | _ => false
  | .trim _ =>
    match s.worker with
    | .optimized _ => true
    | _ => false
  | .addNode _ (_ :: _) _ => true
  | .search _ =>
    match s.worker with
    | .searching (_ :: _) => true
    | _ => false
  | .endSearch =>
    match s.worker with
    | .searching [] => true
    | _ => false
  | _ => false

theorem allowed_enabled {s : State P} {a : Act P} (h : allowed s a = true) : Enabled s a := by
  unfold allowed at h
  split at h
  · trivial
  · exact h
  · exact (show _ < _ from by simpa using h)
  · trivial
  · trivial
  · split at h
    · rename_i hw hq
      exact ⟨hw, by rw [hq]; simp⟩
    · cases h
  · split at h
    · rename_i hw
      exact ⟨hw, by simp⟩
    · cases h
  · split at h
    · rename_i r hw
      exact ⟨r, hw⟩
    · cases h
  · exact List.cons_ne_nil _ _
  · split at h
    · rename_i p todo hw
      exact ⟨p, todo, hw⟩
    · cases h
  · split at h
    · rename_i hw
      exact hw
    · cases h
  · cases h

/-- Runs a list of steps. -/
def runs : State P → List (Act P) → Option (State P)
  | s, [] => some s
  | s, a :: as => if allowed s a then (exec s a).bind (fun s' => runs s' as) else none

theorem exec_cons {as : List (Act P)} {a : Act P} {s s' s'' : State P} (he : Enabled s a) (hx : exec s a = some s')
    (h : Exec s' as s'') : Exec s (a :: as) s'' := by
  induction h with
  | nil => exact Exec.snoc (as := []) .nil he hx
  | snoc _ h1 h2 ih => exact Exec.snoc (as := a :: _) ih h1 h2

theorem runs_exec {as : List (Act P)} : ∀ {s s' : State P}, runs s as = some s' → Exec s as s' := by
  induction as with
  | nil => intro s s' h; obtain rfl := Option.some.inj h; exact .nil
  | cons a as ih =>
    intro s s' h
    unfold runs at h
    split at h
    · rename_i ha
      rw [Option.bind_eq_some_iff] at h
      obtain ⟨s1, h1, h2⟩ := h
      exact exec_cons (allowed_enabled ha) h1 (ih h2)
    · cases h

/-- `FinishTrajectory(t)` up to the end of its work item. -/
def doItem (item : Item Nat) : List (Act Nat) := [.post item, .enqueue 0, .run []]

/-- `DeleteTrajectory(t)` up to the end of the next optimization. -/
def doDelete (t : Int) : List (Act Nat) := [.deleteTrajectory t, .enqueue 0, .run [], .optimize [], .trim []]

/-- The states of trajectory 5 before and after the last item. -/
def before (as bs : List (Act Nat)) : Option (Option TrajectoryState × Option TrajectoryState) :=
  (runs {} as).bind (fun s => (runs s bs).map (fun s' => (stateOf s 5, stateOf s' 5)))

theorem before_exec {as bs : List (Act Nat)} {x y : Option TrajectoryState} (h : before as bs = some (x, y)) :
    ∃ s s' : State Nat, Exec {} as s ∧ Exec s bs s' ∧ stateOf s 5 = x ∧ stateOf s' 5 = y := by
  simp only [before, Option.bind_eq_some_iff, Option.map_eq_some_iff, Prod.mk.injEq] at h
  obtain ⟨s, h1, s', h2, h3, h4⟩ := h
  exact ⟨s, s', runs_exec h1, runs_exec h2, h3, h4⟩

/-- A deleted trajectory becomes finished again. -/
theorem deleted_becomes_finished : ∃ (as bs : List (Act Nat)) (s s' : State Nat), Exec {} as s ∧ Exec s bs s' ∧
    stateOf s 5 = some .deleted ∧ stateOf s' 5 = some .finished := by
  obtain ⟨s, s', h⟩ := before_exec (as := doItem (.finish 5) ++ doDelete 5) (bs := doItem (.finish 5)) (by rfl)
  exact ⟨_, _, s, s', h⟩

/-- A deleted trajectory becomes frozen. -/
theorem deleted_becomes_frozen : ∃ (as bs : List (Act Nat)) (s s' : State Nat), Exec {} as s ∧ Exec s bs s' ∧
    stateOf s 5 = some .deleted ∧ stateOf s' 5 = some .frozen := by
  obtain ⟨s, s', h⟩ := before_exec (as := doItem (.finish 5) ++ doDelete 5) (bs := doItem (.freeze 5)) (by rfl)
  exact ⟨_, _, s, s', h⟩

/-- A frozen trajectory becomes finished. -/
theorem frozen_becomes_finished : ∃ (as bs : List (Act Nat)) (s s' : State Nat), Exec {} as s ∧ Exec s bs s' ∧
    stateOf s 5 = some .frozen ∧ stateOf s' 5 = some .finished := by
  obtain ⟨s, s', h⟩ := before_exec (as := doItem (.freeze 5)) (bs := doItem (.finish 5)) (by rfl)
  exact ⟨_, _, s, s', h⟩

/-- A finished trajectory becomes frozen (`LoadState` does this with every trajectory it loads, if asked to
freeze them; they are active then). -/
theorem finished_becomes_frozen : ∃ (as bs : List (Act Nat)) (s s' : State Nat), Exec {} as s ∧ Exec s bs s' ∧
    stateOf s 5 = some .finished ∧ stateOf s' 5 = some .frozen := by
  obtain ⟨s, s', h⟩ := before_exec (as := doItem (.finish 5)) (bs := doItem (.freeze 5)) (by rfl)
  exact ⟨_, _, s, s', h⟩

/-- A frozen trajectory takes data. -/
theorem frozen_takes_data : ∃ (as bs : List (Act Nat)) (s s' : State Nat), Exec {} as s ∧ Exec s bs s' ∧
    stateOf s 5 = some .frozen ∧ stateOf s' 5 = some .frozen ∧ bs = doItem (.data 5) := by
  obtain ⟨s, s', h1, h2, h3, h4⟩ := before_exec (as := doItem (.freeze 5)) (bs := doItem (.data 5)) (by rfl)
  exact ⟨_, _, s, s', h1, h2, h3, h4, rfl⟩

/-! ### Requests that abort -/

/-- A possible step that aborts. -/
def AbortsAfter (as : List (Act Nat)) (a : Act Nat) : Prop :=
  ∃ s : State Nat, Exec {} as s ∧ Enabled s a ∧ exec s a = none

theorem abortsAfter_of {as : List (Act Nat)} {a : Act Nat}
    (h : (runs {} as).map (fun s => allowed s a && (exec s a).isNone) = some true) : AbortsAfter as a := by
  simp only [Option.map_eq_some_iff, Bool.and_eq_true, Option.isNone_iff_eq_none] at h
  obtain ⟨s, h1, h2, h3⟩ := h
  exact ⟨s, runs_exec h1, allowed_enabled h2, h3⟩

/-- Data that is in the queue when its trajectory is deleted aborts the process, although it was added while
the trajectory took data. -/
theorem queued_data_aborts_after_delete :
    AbortsAfter (doItem (.freeze 5) ++ [.post (.data 5), .enqueue 0, .deleteTrajectory 5]) (.run []) :=
  abortsAfter_of (by rfl)

/-- Deleting an active trajectory aborts the process. -/
theorem delete_active_aborts :
    AbortsAfter [.addSubmapFromProto (5, 0) 1, .enqueue 0, .run [], .deleteTrajectory 5, .enqueue 0] (.run []) :=
  abortsAfter_of (by rfl)

/-- Asking twice to delete a trajectory aborts the process. -/
theorem delete_twice_aborts :
    AbortsAfter (doItem (.finish 5) ++ [.deleteTrajectory 5, .deleteTrajectory 5, .enqueue 0, .run [], .enqueue 0])
      (.run []) :=
  abortsAfter_of (by rfl)

/-- Deleting a finished trajectory with a trimmer for pure localization can abort the process: the trimmer
deletes the trajectory while the request is in the queue. -/
theorem delete_pure_localization_aborts :
    AbortsAfter (doItem (.addTrimmer (.pureLocalization 5 3 false)) ++ doItem (.finish 5) ++
      [.deleteTrajectory 5, .enqueue 0, .optimize [], .trim []]) (.run []) :=
  abortsAfter_of (by rfl)

/-- A run from the beginning of a trajectory to its deletion. -/
example : before (doItem (.data 5) ++ doItem (.finish 5)) (doDelete 5) = some (some .finished, some .deleted) := rfl

end Verif.PoseGraph
