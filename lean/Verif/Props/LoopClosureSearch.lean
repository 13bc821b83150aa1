import Verif.Props.LoopClosureMatch
import Verif.Props.CostFunctions
import Verif.Props.Connectivity
import Verif.Props.Sampling

/-!
# Which loop closures are searched and what constraints they give (C87)
-/

namespace Verif.LoopClosure

open Verif.Rigid Verif.Grid2D Verif.RealTime

/-! ### The distance -/

/-- **The distance that is compared is that of the two poses**, in whatever frame they are given. -/
theorem relative_distance (submap node : Rigid2) :
    norm2 (relativePose submap node).translation = norm2 ⟨node.translation.x - submap.translation.x, node.translation.y - submap.translation.y⟩ := by
  have e : (relativePose submap node).translation = rotate2 (-submap.angle) ⟨node.translation.x - submap.translation.x, node.translation.y - submap.translation.y⟩ := by
    simp only [relativePose, Rigid2.mul, Rigid2.inverse, rotate2]
    congr 1 <;> ring
  rw [e, norm2_rotate]

theorem relative_invariant (g submap node : Rigid2) : Cost.Same2 (relativePose (g.mul submap) (g.mul node)) (relativePose submap node) := by
  rw [Cost.same2_iff]
  refine ⟨?_, 0, ?_⟩
  · simp only [relativePose, Rigid2.mul, Rigid2.inverse, rotate2, Real.cos_neg, Real.sin_neg, Real.cos_add, Real.sin_add]
    have := Real.sin_sq_add_cos_sq g.angle
    congr 1
    · linear_combination (Real.cos submap.angle * (node.translation.x - submap.translation.x) + Real.sin submap.angle * (node.translation.y - submap.translation.y)) * this
    · linear_combination (Real.cos submap.angle * (node.translation.y - submap.translation.y) - Real.sin submap.angle * (node.translation.x - submap.translation.x)) * this
  · simp only [relativePose, Rigid2.mul, Rigid2.inverse]
    push_cast
    ring

/-! ### Sampling by submap -/

/-- What happens to the samplers. -/
inductive Event where
  | candidate (submap : Id) (relative : Rigid2)
  | delete (submap : Id)

/-- The events one after the other, with the answers to the candidates. -/
noncomputable def run (o : Options) : List Event → Samplers → Option (Samplers × List (Event × Bool))
  | [], s => some (s, [])
  | .candidate submap relative :: es, s => do
    let r ← maybeAdd o s submap relative
    let t ← run o es r.1
    some (t.1, (.candidate submap relative, r.2) :: t.2)
  | .delete submap :: es, s => do
    let t ← run o es (deleteMatcher s submap)
    some (t.1, (.delete submap, false) :: t.2)

open Classical in
/-- The numbers of candidates of a submap that were near enough and of searches for it, since its matcher was last deleted; `n` is what was before. -/
noncomputable def counts (o : Options) (submap : Id) : List (Event × Bool) → Nat × Nat → Nat × Nat
  | [], n => n
  | (.candidate i relative, b) :: es, n =>
    counts o submap es (if i = submap ∧ norm2 relative.translation ≤ o.maxDistance then (n.1 + 1, n.2 + if b then 1 else 0) else n)
  | (.delete i, _) :: es, n => counts o submap es (if i = submap then (0, 0) else n)

/-- The sampler of a submap after `n` candidates. -/
def Tracks (o : Options) (s : Samplers) (n : Id → Nat × Nat) : Prop :=
  ∀ i, (n i).2 = ⌈o.samplingRatio * (n i).1⌉₊ ∧ ((s i).getD ⟨o.samplingRatio, 0, 0⟩) = ⟨o.samplingRatio, (n i).1, (n i).2⟩

theorem pulse_count {r : ℚ} (h0 : 0 ≤ r) (h1 : r ≤ 1) (k : Nat) :
    (Sampler.pulse ⟨r, k, ⌈r * k⌉₊⟩).1 = ⟨r, k + 1, ⌈r * (k + 1 : Nat)⌉₊⟩ ∧
      ⌈r * (k + 1 : Nat)⌉₊ = ⌈r * k⌉₊ + if (Sampler.pulse ⟨r, k, ⌈r * k⌉₊⟩).2 then 1 else 0 := by
  have a := Sampler.pulses_invariant r h0 h1 k
  have b := Sampler.pulses_invariant r h0 h1 (k + 1)
  simp only [Sampler.pulses] at b
  rw [a.1] at b
  refine ⟨b.1, ?_⟩
  have c := b.1
  unfold Sampler.pulse at c ⊢
  simp only at c ⊢
  split at c
  · rename_i h
    rw [if_pos h]
    simp only [Sampler.State.mk.injEq] at c
    simp only [if_true]
    omega
  · rename_i h
    rw [if_neg h]
    simp only [Sampler.State.mk.injEq] at c
    simp only [Bool.false_eq_true, if_false]
    omega

theorem run_counts {o : Options} (h0 : 0 ≤ o.samplingRatio) (h1 : o.samplingRatio ≤ 1) : ∀ (es : List Event) (s : Samplers) (n : Id → Nat × Nat), Tracks o s n →
    ∃ s' l, run o es s = some (s', l) ∧ l.map Prod.fst = es ∧ Tracks o s' fun i => counts o i l (n i) := by
  classical
  intro es
  induction es with
  | nil => intro s n ht; exact ⟨s, [], rfl, rfl, ht⟩
  | cons e es ih =>
    intro s n ht
    cases e with
    | delete submap =>
      obtain ⟨s', l, e1, e2, e3⟩ := ih (deleteMatcher s submap) (fun i => if submap = i then (0, 0) else n i) (by
        intro i
        by_cases hi : submap = i
        · simp [hi, deleteMatcher]
        · have : ¬ i = submap := fun h => hi h.symm
          simp only [hi, if_false, deleteMatcher, this]
          exact ht i)
      refine ⟨s', (.delete submap, false) :: l, ?_, by simp [e2], ?_⟩
      · simp only [run, Option.bind_eq_bind]
        rw [e1]
        rfl
      · intro i
        have := e3 i
        simp only [counts]
        exact this
    | candidate submap relative =>
      by_cases hd : norm2 relative.translation > o.maxDistance
      · have hm : maybeAdd o s submap relative = some (s, false) := by unfold maybeAdd; rw [if_pos hd]
        obtain ⟨s', l, e1, e2, e3⟩ := ih s n ht
        refine ⟨s', (.candidate submap relative, false) :: l, ?_, by simp [e2], ?_⟩
        · simp only [run, Option.bind_eq_bind]
          rw [hm, Option.bind_some, e1]
          rfl
        · intro i
          simp only [counts, not_le.2 hd, and_false, if_false]
          exact e3 i
      · have hk : Sampler.mk o.samplingRatio = some ⟨o.samplingRatio, 0, 0⟩ := by unfold Sampler.mk; rw [if_pos ⟨h0, h1⟩]
        have hm : maybeAdd o s submap relative = some (fun i => if i = submap then some (Sampler.pulse ((s submap).getD ⟨o.samplingRatio, 0, 0⟩)).1 else s i,
            (Sampler.pulse ((s submap).getD ⟨o.samplingRatio, 0, 0⟩)).2) := by
          unfold maybeAdd
          rw [if_neg hd, hk]
          rfl
        obtain ⟨t1, t2⟩ := ht submap
        obtain ⟨p1, p2⟩ := pulse_count h0 h1 (n submap).1
        rw [← t1, ← t2] at p1 p2
        obtain ⟨s', l, e1, e2, e3⟩ := ih (fun i => if i = submap then some (Sampler.pulse ((s submap).getD ⟨o.samplingRatio, 0, 0⟩)).1 else s i)
          (fun i => if submap = i then ((n i).1 + 1, (n i).2 + if (Sampler.pulse ((s submap).getD ⟨o.samplingRatio, 0, 0⟩)).2 then 1 else 0) else n i) (by
          intro i
          by_cases hi : submap = i
          · subst hi
            simp only [if_true, Option.getD_some]
            rw [← p2]
            exact ⟨rfl, p1⟩
          · have : ¬ i = submap := fun h => hi h.symm
            simp only [hi, if_false, this]
            exact ht i)
        refine ⟨s', (.candidate submap relative, (Sampler.pulse ((s submap).getD ⟨o.samplingRatio, 0, 0⟩)).2) :: l, ?_, by simp [e2], ?_⟩
        · simp only [run, Option.bind_eq_bind]
          rw [hm, Option.bind_some, e1]
          rfl
        · intro i
          simp only [counts, not_lt.1 hd, and_true]
          exact e3 i

/-- **For each submap the share of searches among the candidates near enough is that of the options**, counted from when its matcher was last deleted, whatever happens to other submaps. -/
theorem searches_per_submap {o : Options} (h0 : 0 ≤ o.samplingRatio) (h1 : o.samplingRatio ≤ 1) (es : List Event) :
    ∃ s l, run o es (fun _ => none) = some (s, l) ∧ l.map Prod.fst = es ∧ ∀ i, (counts o i l (0, 0)).2 = ⌈o.samplingRatio * (counts o i l (0, 0)).1⌉₊ := by
  obtain ⟨s, l, h1, h2, h3⟩ := run_counts h0 h1 es (fun _ => none) (fun _ => (0, 0)) (by intro i; simp)
  exact ⟨s, l, h1, h2, fun i => (h3 i).1⟩

/-- **Candidates that are too far away change nothing.** -/
theorem far_ignored (o : Options) (s : Samplers) (submap : Id) {relative : Rigid2} (h : o.maxDistance < norm2 relative.translation) :
    maybeAdd o s submap relative = some (s, false) := by
  unfold maybeAdd
  rw [if_pos h]

/-- With a ratio that is not one, the first candidate near enough aborts. -/
theorem bad_ratio {o : Options} (h : ¬ (0 ≤ o.samplingRatio ∧ o.samplingRatio ≤ 1)) (s : Samplers) (submap : Id) {relative : Rigid2} (hn : norm2 relative.translation ≤ o.maxDistance) :
    maybeAdd o s submap relative = none := by
  unfold maybeAdd Sampler.mk
  rw [if_neg (not_lt.2 hn), if_neg h]
  rfl

/-! ### Constraints -/

theorem same_estimate (submapPose q : Rigid2) : Cost.Same2 (submapPose.mul (project2D (embed3D (submapPose.inverse.mul q)))) q := by
  intro p
  rw [apply2_mul, project2D_embed3D_apply, ← apply2_mul, ← mul2_assoc, (mul2_inverse _).1, (mul2_identity _).2]

/-- The constraint of a match: it makes the residual zero for the pose of the submap and the refined pose. -/
structure OfMatch (o : Options) (refine : Rigid2 → Rigid2) (submap node : Id) (submapPose estimate : Rigid2) (c : Constraint) : Prop where
  submap : c.submap = submap
  node : c.node = node
  translationWeight : c.translationWeight = o.translationWeight
  rotationWeight : c.rotationWeight = o.rotationWeight
  pose : Cost.Same2 (submapPose.mul (project2D c.pose)) (refine estimate)

/-- **A constraint of a match has no residual** for the submap at its local pose and the node at the refined pose, in any frame, and only for this pose. -/
theorem match_residual {o : Options} {refine : Rigid2 → Rigid2} {submap node : Id} {submapPose estimate : Rigid2} {c : Constraint} (h : OfMatch o refine submap node submapPose estimate c)
    (h1 : o.translationWeight ≠ 0) (h2 : o.rotationWeight ≠ 0) (g q : Rigid2) :
    Cost.spa2 (project2D c.pose) c.translationWeight c.rotationWeight (g.mul submapPose) (g.mul q) = ⟨0, 0, 0⟩ ↔ Cost.Same2 (refine estimate) q := by
  rw [Cost.spa2_invariant, Cost.spa2_zero_iff (by rw [h.translationWeight]; exact h1) (by rw [h.rotationWeight]; exact h2)]
  have hp := h.pose
  exact ⟨fun h p => (hp p).symm.trans (h p), fun h p => (hp p).trans (h p)⟩

/-- **A local search gives the constraint of the best pose of the window, if that is good enough.** -/
theorem local_constraint {o : Options} {m : Matcher} (hm : m.Ok) (hl : 0 ≤ m.linearWindow) (hl' : m.linearWindow ≤ 2 ^ 28 * m.limits.resolution) (ha : 0 ≤ m.angularWindow) (refine : Rigid2 → Rigid2) (submap node : Id)
    (submapPose relative : Rigid2) {points : List V2} (hp : points ≠ [])
    (hf : Fits m.limits (stepFor m.limits points) (submapPose.mul relative) ⌈m.angularWindow / stepFor m.limits points⌉ points) :
    ∃ result, computeConstraint o m refine submap node submapPose false points relative = some result ∧
      (result = none ↔ ∀ i j k, InWindow ⌈m.linearWindow / m.limits.resolution⌉ ⌈m.angularWindow / stepFor m.limits points⌉ i j k →
        scoreAt m (stepFor m.limits points) (submapPose.mul relative) points i j k ≤ o.minScore) ∧
      ∀ c, result = some c → ∃ i j k, InWindow ⌈m.linearWindow / m.limits.resolution⌉ ⌈m.angularWindow / stepFor m.limits points⌉ i j k ∧
        OfMatch o refine submap node submapPose (poseAt m.limits.resolution (stepFor m.limits points) (submapPose.mul relative) i j k) c ∧
        o.minScore < scoreAt m (stepFor m.limits points) (submapPose.mul relative) points i j k ∧
        ∀ i' j' k', InWindow ⌈m.linearWindow / m.limits.resolution⌉ ⌈m.angularWindow / stepFor m.limits points⌉ i' j' k' →
          scoreAt m (stepFor m.limits points) (submapPose.mul relative) points i' j' k' ≤ scoreAt m (stepFor m.limits points) (submapPose.mul relative) points i j k := by
  obtain ⟨result, h1, h2, h3⟩ := match_best hm hl hl' ha (submapPose.mul relative) hp hf o.minScore
  unfold computeConstraint
  simp only [Bool.false_eq_true, if_false, Option.bind_eq_bind]
  rw [h1, Option.bind_some]
  cases result with
  | none => exact ⟨none, rfl, by simpa using h2, by simp⟩
  | some r =>
    obtain ⟨g1, i, j, k, g2, g3, g4, g5⟩ := h3 r rfl
    obtain ⟨score, estimate⟩ := r
    simp only at g1 g3 g4 g5
    refine ⟨some ⟨submap, node, embed3D (submapPose.inverse.mul (refine estimate)), o.translationWeight, o.rotationWeight⟩, ?_, ?_, ?_⟩
    · simp [guard, g1]
    · simp only [reduceCtorEq, false_iff]
      intro h
      have := h2.2 h
      simp at this
    · intro c hc
      cases hc
      refine ⟨i, j, k, g2, ⟨rfl, rfl, rfl, rfl, ?_⟩, by rw [← g4]; exact g1, fun i' j' k' hw => by rw [← g4]; exact g5 i' j' k' hw⟩
      rw [← g3]
      exact same_estimate _ _

/-- **A global search gives the constraint of the best pose of the plane, if that is good enough.** -/
theorem global_constraint {o : Options} {m : Matcher} (hm : m.Ok) (refine : Rigid2 → Rigid2) {submap node : Id} (hs : 0 ≤ submap.trajectory) (hn : 0 ≤ node.trajectory)
    (submapPose relative : Rigid2) {points : List V2} (hp : points ≠ []) (hnear : Near m.limits points) :
    ∃ result, computeConstraint o m refine submap node submapPose true points relative = some result ∧
      (result = none ↔ ∀ i j k, -⌈Real.pi / stepFor m.limits points⌉ ≤ k → k ≤ ⌈Real.pi / stepFor m.limits points⌉ →
        scoreAt m (stepFor m.limits points) (center m.limits) points i j k ≤ o.globalMinScore) ∧
      ∀ c, result = some c → ∃ i j k, InWindow 1000000 ⌈Real.pi / stepFor m.limits points⌉ i j k ∧
        OfMatch o refine submap node submapPose (poseAt m.limits.resolution (stepFor m.limits points) (center m.limits) i j k) c ∧
        o.globalMinScore < scoreAt m (stepFor m.limits points) (center m.limits) points i j k ∧
        ∀ i' j' k', -⌈Real.pi / stepFor m.limits points⌉ ≤ k' → k' ≤ ⌈Real.pi / stepFor m.limits points⌉ →
          scoreAt m (stepFor m.limits points) (center m.limits) points i' j' k' ≤ scoreAt m (stepFor m.limits points) (center m.limits) points i j k := by
  obtain ⟨result, h1, h2, h3⟩ := full_best hm hp hnear o.globalMinScore
  unfold computeConstraint
  simp only [if_true, Option.bind_eq_bind]
  rw [h1, Option.bind_some]
  cases result with
  | none => exact ⟨none, rfl, by simpa using h2, by simp⟩
  | some r =>
    obtain ⟨g1, i, j, k, g2, g3, g4, g5⟩ := h3 r rfl
    obtain ⟨score, estimate⟩ := r
    simp only at g1 g3 g4 g5
    refine ⟨some ⟨submap, node, embed3D (submapPose.inverse.mul (refine estimate)), o.translationWeight, o.rotationWeight⟩, ?_, ?_, ?_⟩
    · simp [guard, g1, hs, hn]
    · simp only [reduceCtorEq, false_iff]
      intro h
      have := h2.2 h
      simp at this
    · intro c hc
      cases hc
      refine ⟨i, j, k, g2, ⟨rfl, rfl, rfl, rfl, ?_⟩, by rw [← g4]; exact g1, fun i' j' k' h1 h2 => by rw [← g4]; exact g5 i' j' k' h1 h2⟩
      rw [← g3]
      exact same_estimate _ _

/-- **A global search does not depend on the guess.** -/
theorem global_guess (o : Options) (m : Matcher) (refine : Rigid2 → Rigid2) (submap node : Id) (submapPose a b : Rigid2) (points : List V2) :
    computeConstraint o m refine submap node submapPose true points a = computeConstraint o m refine submap node submapPose true points b := by
  unfold computeConstraint
  simp only [if_true]

/-! ### Local or global -/

/-- The choice aborts exactly for a submap that is not finished. -/
theorem choose_aborts (c : Conn.TCS) (after : Int) (sampler : Sampler.State) (finished complete : Bool) (node submap : Id) (t : Int) :
    choose c after sampler finished complete node submap t = none ↔ finished = false := by
  unfold choose
  cases finished <;> cases complete <;> simp
  split <;> simp

/-- **When a local search is chosen**: on the same trajectory, or if the trajectories were connected not too long ago. -/
theorem choose_local {c : Conn.TCS} {ts : List Int} {h : List (Int × Int × Int)} (r : Conn.TReach c ts h) {after : Int} {sampler : Sampler.State} {node submap : Id} {t : Int}
    (hc : node.trajectory = submap.trajectory ∨ ∃ k u, Conn.ConnectsAt h k u node.trajectory submap.trajectory ∧ t < u + after) :
    choose c after sampler true true node submap t = some (.local, sampler) := by
  unfold choose
  simp only [if_true, Bool.not_true, Bool.false_eq_true, if_false]
  rw [if_pos]
  rcases hc with h1 | ⟨k, u, h1, h2⟩
  · exact Or.inl h1
  · right
    have := ((Conn.last_connection_time_partial r).1 node.trajectory submap.trajectory).max k u h1
    omega

/-- **When no local search is chosen**: all connections are too long ago, and the time is not near the epoch. -/
theorem choose_global {c : Conn.TCS} {ts : List Int} {h : List (Int × Int × Int)} (r : Conn.TReach c ts h) {after : Int} {sampler : Sampler.State} {node submap : Id} {t : Int}
    (hn : node.trajectory ≠ submap.trajectory) (ht : after ≤ t) (hc : ∀ k u, Conn.ConnectsAt h k u node.trajectory submap.trajectory → u + after ≤ t) :
    choose c after sampler true true node submap t = some (if (Sampler.pulse sampler).2 then .global else .nothing, (Sampler.pulse sampler).1) := by
  unfold choose
  simp only [if_true, Bool.not_true, Bool.false_eq_true, if_false]
  rw [if_neg]
  rintro (h1 | h1)
  · exact hn h1
  · have hl := (Conn.last_connection_time_partial r).1 node.trajectory submap.trajectory
    by_cases hlink : Conn.Linked (Conn.pairs h) node.trajectory submap.trajectory
    · rcases hl.attained hlink with ⟨k, hk⟩ | ⟨he, _⟩
      · have := hc k _ hk
        omega
      · exact hn he
    · have := hl.none hlink
      omega

/-- **Near the epoch trajectories that were never connected are searched locally**, as if they had been connected at time 0. -/
theorem choose_epoch {c : Conn.TCS} {ts : List Int} {h : List (Int × Int × Int)} (r : Conn.TReach c ts h) {after : Int} {sampler : Sampler.State} {node submap : Id} {t : Int}
    (hn : ¬ Conn.Linked (Conn.pairs h) node.trajectory submap.trajectory) (ht : t < after) : choose c after sampler true true node submap t = some (.local, sampler) := by
  unfold choose
  simp only [if_true, Bool.not_true, Bool.false_eq_true, if_false]
  rw [if_pos]
  right
  have := ((Conn.last_connection_time_partial r).1 node.trajectory submap.trajectory).none hn
  omega

/-- Nothing is searched for submaps that are not complete, and this is not counted by the sampler. -/
theorem choose_incomplete (c : Conn.TCS) (after : Int) (sampler : Sampler.State) (node submap : Id) (t : Int) :
    choose c after sampler true false node submap t = some (.nothing, sampler) := rfl

/-- The time that counts does not depend on which of both is later. -/
theorem latestTime_spec (t : Int) (l : Option Int) : t ≤ latestTime t l ∧ (∀ u ∈ l, u ≤ latestTime t l) ∧ (latestTime t l = t ∨ l = some (latestTime t l)) := by
  cases l with
  | none => simp [latestTime]
  | some u =>
    simp only [latestTime, Option.mem_def, Option.some.injEq, forall_eq']
    omega

/-- A question to the pose graph. -/
structure Question where
  complete : Bool
  node : Id
  submap : Id
  time : Int

/-- Several questions one after the other. -/
def chooseAll (c : Conn.TCS) (after : Int) : List Question → Sampler.State → Option (List Kind × Sampler.State)
  | [], s => some ([], s)
  | q :: qs, s => do
    let r ← choose c after s true q.complete q.node q.submap q.time
    let t ← chooseAll c after qs r.2
    some (r.1 :: t.1, t.2)

/-- The question is one for a global search. -/
def Needs (c : Conn.TCS) (after : Int) (q : Question) : Prop :=
  q.complete = true ∧ q.node.trajectory ≠ q.submap.trajectory ∧ c.lastConnectionTime q.node.trajectory q.submap.trajectory + after ≤ q.time

instance (c : Conn.TCS) (after : Int) (q : Question) : Decidable (Needs c after q) := by unfold Needs; infer_instance

theorem chooseAll_count (c : Conn.TCS) (after : Int) {r : ℚ} (h0 : 0 ≤ r) (h1 : r ≤ 1) : ∀ (qs : List Question) (n : Nat),
    ∃ l s, chooseAll c after qs ⟨r, n, ⌈r * n⌉₊⟩ = some (l, s) ∧ l.length = qs.length ∧ ⌈r * n⌉₊ + l.count .global = ⌈r * (n + (qs.filter fun q => Needs c after q).length : Nat)⌉₊ := by
  intro qs
  induction qs with
  | nil => intro n; exact ⟨[], _, rfl, rfl, by simp⟩
  | cons q qs ih =>
    intro n
    by_cases hq : Needs c after q
    · obtain ⟨l, s, e1, e2, e3⟩ := ih (n + 1)
      obtain ⟨p1, p2⟩ := pulse_count h0 h1 n
      have hch : choose c after ⟨r, n, ⌈r * n⌉₊⟩ true q.complete q.node q.submap q.time = some (if (Sampler.pulse ⟨r, n, ⌈r * n⌉₊⟩).2 then .global else .nothing, ⟨r, n + 1, ⌈r * (n + 1 : Nat)⌉₊⟩) := by
        obtain ⟨c1, c2, c3⟩ := hq
        unfold choose
        rw [if_pos rfl, c1]
        simp only [Bool.not_true, Bool.false_eq_true, if_false]
        rw [if_neg (by omega), p1]
      refine ⟨(if (Sampler.pulse ⟨r, n, ⌈r * n⌉₊⟩).2 then .global else .nothing) :: l, s, ?_, by simp [e2], ?_⟩
      · simp only [chooseAll, Option.bind_eq_bind]
        rw [hch, Option.bind_some, e1]
        rfl
      · simp only [List.filter_cons, hq, decide_true, if_true, List.length_cons]
        rw [show n + ((qs.filter fun q => Needs c after q).length + 1) = n + 1 + (qs.filter fun q => Needs c after q).length by omega, ← e3, p2]
        cases (Sampler.pulse ⟨r, n, ⌈r * n⌉₊⟩).2 <;> simp
        omega
    · obtain ⟨l, s, e1, e2, e3⟩ := ih n
      have hch : ∃ k, choose c after ⟨r, n, ⌈r * n⌉₊⟩ true q.complete q.node q.submap q.time = some (k, ⟨r, n, ⌈r * n⌉₊⟩) ∧ k ≠ .global := by
        unfold choose
        rw [if_pos rfl]
        cases hcm : q.complete with
        | false => exact ⟨.nothing, rfl, by decide⟩
        | true =>
          simp only [Bool.not_true, Bool.false_eq_true, if_false]
          rw [if_pos]
          · exact ⟨.local, rfl, by decide⟩
          · by_contra hn
            apply hq
            exact ⟨hcm, by tauto, by omega⟩
      obtain ⟨k, hk1, hk2⟩ := hch
      refine ⟨k :: l, s, ?_, by simp [e2], ?_⟩
      · simp only [chooseAll, Option.bind_eq_bind]
        rw [hk1, Option.bind_some, e1]
        rfl
      · simp only [List.filter_cons, hq, decide_false, Bool.false_eq_true, if_false]
        rw [List.count_cons_of_ne hk2]
        exact e3

/-- **The share of global searches among the questions for one is that of the options.** -/
theorem global_share (c : Conn.TCS) (after : Int) {r : ℚ} {s : Sampler.State} (hs : Sampler.mk r = some s) (qs : List Question) :
    ∃ l s', chooseAll c after qs s = some (l, s') ∧ l.length = qs.length ∧ l.count .global = ⌈r * (qs.filter fun q => Needs c after q).length⌉₊ := by
  unfold Sampler.mk at hs
  split at hs
  · rename_i h
    cases hs
    obtain ⟨l, s', e1, e2, e3⟩ := chooseAll_count c after h.1 h.2 qs 0
    simp only [Nat.cast_zero, mul_zero, Nat.ceil_zero, Nat.zero_add] at e1 e3
    exact ⟨l, s', e1, e2, e3⟩
  · cases hs

/-! ### Examples -/

/-- Trajectories 0 and 1 that are not connected: three of ten questions for a global search are granted, none within ten ticks of the epoch. -/
example : ((chooseAll Conn.TCS.empty 10 [⟨true, ⟨0, 0⟩, ⟨1, 0⟩, 9⟩, ⟨true, ⟨0, 0⟩, ⟨1, 0⟩, 10⟩, ⟨true, ⟨0, 0⟩, ⟨0, 1⟩, 10⟩, ⟨false, ⟨0, 0⟩, ⟨1, 1⟩, 10⟩, ⟨true, ⟨0, 0⟩, ⟨1, 1⟩, 11⟩] ⟨3 / 10, 0, 0⟩).map Prod.fst) =
    some [.local, .global, .local, .nothing, .nothing] := by decide +kernel

/-- A refinement that changes nothing and a match at the guess give the guess. -/
example (submapPose relative : Rigid2) (p : V2) : (project2D (embed3D (submapPose.inverse.mul (submapPose.mul relative)))).apply p = relative.apply p := by
  rw [project2D_embed3D_apply, ← mul2_assoc, (mul2_inverse _).2, (mul2_identity _).2]

/-- The small scan gives a constraint with the submap. -/
example : ∃ c, computeConstraint ⟨10, 1, 1 / 2, 1 / 2, 3, 4⟩ smallMatcher id ⟨0, 0⟩ ⟨1, 5⟩ ⟨⟨1, 2⟩, 3⟩ true [⟨0, 0⟩] Rigid2.identity = some (some c) ∧
    c.submap = ⟨0, 0⟩ ∧ c.node = ⟨1, 5⟩ ∧ c.translationWeight = 3 ∧ c.rotationWeight = 4 := by
  have hn : Near smallMatcher.limits [⟨0, 0⟩] := by
    intro p hp
    rw [List.mem_singleton.1 hp]
    norm_num [norm2, smallMatcher]
  obtain ⟨result, h1, h2, h3⟩ := global_constraint (o := ⟨10, 1, 1 / 2, 1 / 2, 3, 4⟩) small_ok id (submap := ⟨0, 0⟩) (node := ⟨1, 5⟩) (by decide) (by decide) ⟨⟨1, 2⟩, 3⟩ Rigid2.identity
    (points := [⟨0, 0⟩]) (by simp) hn
  have hstep : 0 < stepFor smallMatcher.limits [⟨0, 0⟩] := step_pos (by norm_num [smallMatcher]) _
  have hA : 0 ≤ ⌈Real.pi / stepFor smallMatcher.limits [⟨0, 0⟩]⌉ := Int.ceil_nonneg (div_nonneg Real.pi_pos.le hstep.le)
  cases result with
  | none =>
    have := h2.1 rfl 1 (-1) 0 (by omega) hA
    rw [small_score] at this
    norm_num at this
  | some c =>
    obtain ⟨_, _, _, _, ho, _⟩ := h3 c rfl
    exact ⟨c, h1, ho.submap, ho.node, ho.translationWeight, ho.rotationWeight⟩

end Verif.LoopClosure
