import Verif.Props.Match3D
import Verif.Props.LoopClosureSearch

/-!
# C94: loop closures in three dimensions, frames, histograms and constraints
-/

namespace Verif.Match3D

open Verif.Rigid Verif.Hybrid Verif.Fast3D
open Verif.RealTime (cellIndex3 maxRange window meanProbability3)
open Verif.LoopClosure (Id Constraint Samplers)

/-! ### Frames -/

theorem conjugate_quat_mul (a b : Quat) : (a.mul b).conjugate = b.conjugate.mul a.conjugate := by
  simp only [Quat.conjugate, Quat.mul]
  congr 1 <;> ring

theorem fromAngleAxis_axis (a : ℝ) : (fromAngleAxis ⟨0, 0, a⟩).x = 0 ∧ (fromAngleAxis ⟨0, 0, a⟩).y = 0 := by
  unfold fromAngleAxis
  split <;> simp

/-- Turns around the vertical axis can be exchanged. -/
theorem turn_commutes (t : ℝ) {q : Quat} (h : q.x = 0 ∧ q.y = 0) : (aroundZ t).conjugate.mul (q.mul (aroundZ t)) = q := by
  obtain ⟨w, x, y, z⟩ := q
  obtain ⟨rfl, rfl⟩ := h
  have := Real.sin_sq_add_cos_sq (t / 2)
  simp only [Quat.mul, Quat.conjugate, aroundZ]
  congr 1
  · linear_combination w * this
  · ring
  · ring
  · linear_combination z * this

theorem relative_frame {T node submap : Rigid3} (hT : T.Proper) (hn : node.Proper) (hs : submap.Proper) :
    (T.mul submap).inverse.mul (T.mul node) = submap.inverse.mul node := by
  have e : (T.mul submap).inverse = submap.inverse.mul T.inverse := by
    have hp := proper_mul hT hs
    have h1 : (submap.inverse.mul T.inverse).mul (T.mul submap) = Rigid3.identity := by
      rw [mul3_assoc (proper_inverse hs) (proper_inverse hT) hp, ← mul3_assoc (proper_inverse hT) hT hs, (mul3_inverse hT).2, (mul3_identity hs).2, (mul3_inverse hs).2]
    calc (T.mul submap).inverse = Rigid3.identity.mul (T.mul submap).inverse := ((mul3_identity (proper_inverse hp)).2).symm
      _ = ((submap.inverse.mul T.inverse).mul (T.mul submap)).mul (T.mul submap).inverse := by rw [h1]
      _ = submap.inverse.mul T.inverse := by
        have hq := proper_mul (proper_inverse hs) (proper_inverse hT)
        rw [mul3_assoc hq hp (proper_inverse hp), (mul3_inverse hp).1, (mul3_identity hq).1]
  rw [e, mul3_assoc (proper_inverse hs) (proper_inverse hT) (proper_mul hT hn), ← mul3_assoc (proper_inverse hT) hT hn, (mul3_inverse hT).2, (mul3_identity hn).2]

/-- **C94, the frame.** The poses tried, and the yaw for the histogram, do not change if node and submap are moved together and turned together around the vertical axis. -/
theorem frame_free {node submap : Rigid3} (hn : node.Proper) (hs : submap.Proper) (t : V3) (b a : ℝ) (gravity : Quat) :
    poseOf ((⟨t, aroundZ b⟩ : Rigid3).mul node) ((⟨t, aroundZ b⟩ : Rigid3).mul submap) a = poseOf node submap a ∧
    yaw ((⟨t, aroundZ b⟩ : Rigid3).mul node) ((⟨t, aroundZ b⟩ : Rigid3).mul submap) gravity = yaw node submap gravity := by
  have hT : (⟨t, aroundZ b⟩ : Rigid3).Proper := unit_aroundZ b
  constructor
  · unfold poseOf
    rw [relative_frame hT hn hs]
    have e1 : ((⟨t, aroundZ b⟩ : Rigid3).mul submap).rotation = (aroundZ b).mul submap.rotation := normalized_unit (unit_mul (unit_aroundZ b) hs)
    have e2 : ((⟨t, aroundZ b⟩ : Rigid3).mul node).rotation = (aroundZ b).mul node.rotation := normalized_unit (unit_mul (unit_aroundZ b) hn)
    rw [e1, e2, inverse_unit (unit_mul (unit_aroundZ b) hs), inverse_unit hs, conjugate_quat_mul]
    congr 1
    rw [quat_mul_assoc, quat_mul_assoc, ← quat_mul_assoc (fromAngleAxis _), ← quat_mul_assoc (aroundZ b).conjugate, turn_commutes b (fromAngleAxis_axis a), ← quat_mul_assoc]
  · unfold yaw
    rw [relative_frame hT hn hs]

/-- **C94, the frame**: nor do the matches. -/
theorem match_frame_free {node submap : Rigid3} (hn : node.Proper) (hs : submap.Proper) (t : V3) (b : ℝ) (m : Matcher) (data : Node) (minScore : ℚ) :
    fastMatch m ((⟨t, aroundZ b⟩ : Rigid3).mul node) ((⟨t, aroundZ b⟩ : Rigid3).mul submap) data minScore = fastMatch m node submap data minScore := by
  unfold fastMatch matchWith
  have e : ∀ W, discreteScans m data ((⟨t, aroundZ b⟩ : Rigid3).mul node) ((⟨t, aroundZ b⟩ : Rigid3).mul submap) W = discreteScans m data node submap W := by
    intro W
    unfold discreteScans
    simp only [(frame_free hn hs t b _ data.gravity).1, (frame_free hn hs t b 0 data.gravity).2]
  rw [e]

/-! ### The histogram -/

/-- The yaw of a candidate, as it is defined for the node itself. -/
noncomputable def candidateYaw (node submap : Rigid3) (gravity : Quat) (a : ℝ) : ℝ := getYaw ((poseOf node submap a).rotation.mul (inverse gravity))

/-- **C94, the histogram.** For a submap that is turned around the vertical axis only, the histogram of the scan is compared as it is at the candidate. -/
theorem rotational_candidate {m : Matcher} {data : Node} {node submap : Rigid3} {s a : ℝ} (hs : submap.rotation = aroundZ s) (hn : node.Proper) (hg : data.gravity.Unit)
    (hz : fromAngleAxis ⟨0, 0, a⟩ = aroundZ a)
    (hd : ¬ ((((submap.inverse.mul node).rotation.mul (inverse data.gravity)).rotate ⟨1, 0, 0⟩).x = 0 ∧ (((submap.inverse.mul node).rotation.mul (inverse data.gravity)).rotate ⟨1, 0, 0⟩).y = 0)) :
    rotationalScore m data node submap a =
      ((Rotational.rotateHistogram data.histogram (candidateYaw node submap data.gravity a)).bind (Rotational.matchHistograms m.histogram)).getD 0 := by
  have hsp : submap.Proper := by
    show submap.rotation.Unit
    rw [hs]
    exact unit_aroundZ s
  have hconj : submap.rotation.conjugate = aroundZ (-s) := by
    rw [hs]
    simp [Quat.conjugate, aroundZ, neg_div]
  have hbase : (submap.inverse.mul node).rotation = (aroundZ (-s)).mul node.rotation := by
    rw [← hconj]
    exact normalized_unit (unit_mul (unit_conjugate hsp) hn)
  have hpose : (poseOf node submap a).rotation = (aroundZ a).mul ((submap.inverse.mul node).rotation) := by
    rw [poseOf_eq hsp hz, hbase, hconj]
    simp only
    rw [← aroundZ_add, ← quat_mul_assoc, ← aroundZ_add, add_comm]
  have hgu : (inverse data.gravity).Unit := by
    rw [inverse_unit hg]
    exact unit_conjugate hg
  have hb : ((submap.inverse.mul node).rotation.mul (inverse data.gravity)).Unit := unit_mul (proper_mul (proper_inverse hsp) hn) hgu
  have hy : ∃ k : ℤ, candidateYaw node submap data.gravity a = yaw node submap data.gravity + a + k * (2 * Real.pi) := by
    unfold candidateYaw yaw
    rw [hpose, quat_mul_assoc]
    generalize (submap.inverse.mul node).rotation.mul (inverse data.gravity) = q at *
    unfold getYaw
    rw [rotate_mul (unit_aroundZ a) hb, aroundZ_rotate]
    generalize q.rotate ⟨1, 0, 0⟩ = d at *
    obtain ⟨k, hk⟩ := Rotational.atan2_rotate a (d := ⟨d.x, d.y⟩) (by
      intro h
      injection h with h1 h2
      exact hd ⟨h1, h2⟩)
    exact ⟨k, hk⟩
  obtain ⟨k, hk⟩ := hy
  unfold rotationalScore
  rw [hk, show yaw node submap data.gravity + a + k * (2 * Real.pi) = yaw node submap data.gravity + a + ((2 * k : ℤ) : ℝ) * Real.pi by push_cast; ring, Rotational.rotate_period]

/-- **C94, not for other submaps.** With the submap, and the node, upside down a candidate that is turned to the left in the submap's frame is compared with the histogram
turned to the right. -/
theorem upside_down {a : ℝ} (h1 : -Real.pi < a) (h2 : a < Real.pi) (hz : fromAngleAxis ⟨0, 0, a⟩ = aroundZ a) :
    yaw ⟨⟨0, 0, 0⟩, ⟨0, 1, 0, 0⟩⟩ ⟨⟨0, 0, 0⟩, ⟨0, 1, 0, 0⟩⟩ ⟨1, 0, 0, 0⟩ + a = a ∧ candidateYaw ⟨⟨0, 0, 0⟩, ⟨0, 1, 0, 0⟩⟩ ⟨⟨0, 0, 0⟩, ⟨0, 1, 0, 0⟩⟩ ⟨1, 0, 0, 0⟩ a = -a := by
  have hX : (⟨0, 1, 0, 0⟩ : Quat).Unit := by unfold Quat.Unit; norm_num
  have h1u : (⟨1, 0, 0, 0⟩ : Quat).Unit := by unfold Quat.Unit; norm_num
  have hone : ∀ q : Quat, q.mul (inverse ⟨1, 0, 0, 0⟩) = q := by
    intro q
    rw [inverse_unit h1u]
    simp [Quat.mul, Quat.conjugate]
  constructor
  · unfold yaw
    rw [hone]
    have : ((⟨⟨0, 0, 0⟩, ⟨0, 1, 0, 0⟩⟩ : Rigid3).inverse.mul ⟨⟨0, 0, 0⟩, ⟨0, 1, 0, 0⟩⟩).rotation = ⟨1, 0, 0, 0⟩ := by
      have := (mul3_inverse (a := ⟨⟨0, 0, 0⟩, ⟨0, 1, 0, 0⟩⟩) hX).2
      rw [this]
      rfl
    rw [this, getYaw, rotate_one]
    have : (⟨1, 0⟩ : ℂ) = 1 := rfl
    simp only [this, Complex.arg_one, zero_add]
  · unfold candidateYaw
    rw [hone, poseOf_eq (by exact hX) hz]
    have e : ((⟨0, 1, 0, 0⟩ : Quat).conjugate.mul (aroundZ a)).mul ⟨0, 1, 0, 0⟩ = aroundZ (-a) := by
      simp [Quat.mul, Quat.conjugate, aroundZ, neg_div]
    simp only [e]
    unfold getYaw
    rw [aroundZ_rotate]
    simp only [mul_one, mul_zero, sub_zero, add_zero]
    have := Complex.arg_cos_add_sin_mul_I (θ := -a) ⟨by linarith, by linarith⟩
    refine Eq.trans ?_ this
    congr 1
    apply Complex.ext <;> simp [← Complex.ofReal_cos, ← Complex.ofReal_sin]

/-! ### Constraints -/

/-- The constraint of a match: the refined pose, relative to the submap. -/
structure OfMatch (o : LoopClosure.Options) (refine : Rigid3 → Rigid3) (submap node : Id) (pose : Rigid3) (c : Constraint) : Prop where
  submap : c.submap = submap
  node : c.node = node
  translationWeight : c.translationWeight = o.translationWeight
  rotationWeight : c.rotationWeight = o.rotationWeight
  pose : c.pose = refine pose

/-- **C94, local search.** -/
theorem local_constraint {o : LoopClosure.Options} {m : Matcher} (hm : m.Ok) {data : Node} (hp : data.high ≠ []) (hl : m.histogram.length = data.histogram.length)
    (hxy : 0 ≤ m.linearXY) (hz : 0 ≤ m.linearZ) (refine : Rigid3 → Rigid3) (submap node : Id) (nodePose submapPose : Rigid3) :
    ∃ result, computeConstraint o m refine submap node false data nodePose submapPose = some result ∧
      (result = none ↔ ∀ a i, IsAngle m data m.angular a → Within (RealTime.round (m.linearXY / m.grid.resolution)) (RealTime.round (m.linearZ / m.grid.resolution)) i →
        Passes m data nodePose submapPose a i → scoreAt m data nodePose submapPose a i ≤ o.minScore) ∧
      ∀ c, result = some c → ∃ a i, IsAngle m data m.angular a ∧
        Within (RealTime.round (m.linearXY / m.grid.resolution)) (RealTime.round (m.linearZ / m.grid.resolution)) i ∧ Passes m data nodePose submapPose a i ∧
        OfMatch o refine submap node (poseFromCandidate m.grid.resolution (poseOf nodePose submapPose a) i) c ∧ o.minScore < scoreAt m data nodePose submapPose a i ∧
        ∀ a' i', IsAngle m data m.angular a' → Within (RealTime.round (m.linearXY / m.grid.resolution)) (RealTime.round (m.linearZ / m.grid.resolution)) i' →
          Passes m data nodePose submapPose a' i' → scoreAt m data nodePose submapPose a' i' ≤ scoreAt m data nodePose submapPose a i := by
  have hr' : (0 : ℝ) < m.grid.resolution := by exact_mod_cast hm.resolution
  obtain ⟨result, h1, h2, h3⟩ := match_best hm hp hl (RealTime.round_nonneg (div_nonneg hxy hr'.le)) (RealTime.round_nonneg (div_nonneg hz hr'.le)) m.angular nodePose submapPose o.minScore
  unfold computeConstraint fastMatch
  simp only [Bool.false_eq_true, if_false, Option.bind_eq_bind]
  rw [h1, Option.bind_some]
  cases result with
  | none => exact ⟨none, rfl, by simpa using h2, by simp⟩
  | some r =>
    obtain ⟨a, i, k1, k2, k3, k4, k5, -, -, k6, k7⟩ := h3 r rfl
    refine ⟨some ⟨submap, node, refine r.pose, o.translationWeight, o.rotationWeight⟩, ?_, ?_, ?_⟩
    · have : (o.minScore : WithBot ℚ) < r.score := by
        rw [k4]
        exact WithBot.coe_lt_coe.2 k6
      simp [guard, this]
    · simp only [reduceCtorEq, false_iff]
      intro h
      have := h2.2 h
      simp at this
    · intro c hc
      cases hc
      exact ⟨a, i, k1, k2, k3, ⟨rfl, rfl, rfl, rfl, by rw [k5]⟩, k6, k7⟩

/-- **C94, global search.** -/
theorem global_constraint {o : LoopClosure.Options} {m : Matcher} (hm : m.Ok) {data : Node} (hp : data.high ≠ []) (hl : m.histogram.length = data.histogram.length)
    (hf : ∀ p ∈ data.high, p.norm ≤ 9000 * m.grid.resolution) (hmin : 1 / 10 ≤ o.globalMinScore) (refine : Rigid3 → Rigid3) {submap node : Id} (hs : 0 ≤ submap.trajectory)
    (hn : 0 ≤ node.trajectory) {nodePose submapPose : Rigid3} (hnp : nodePose.Proper) (hsp : submapPose.Proper) :
    ∃ result, computeConstraint o m refine submap node true data nodePose submapPose = some result ∧
      (result = none ↔ ∀ a i, IsAngle m data Real.pi a → Passes m data ⟨⟨0, 0, 0⟩, nodePose.rotation⟩ ⟨⟨0, 0, 0⟩, submapPose.rotation⟩ a i →
        scoreAt m data ⟨⟨0, 0, 0⟩, nodePose.rotation⟩ ⟨⟨0, 0, 0⟩, submapPose.rotation⟩ a i ≤ o.globalMinScore) ∧
      ∀ c, result = some c → ∃ a i, IsAngle m data Real.pi a ∧ Passes m data ⟨⟨0, 0, 0⟩, nodePose.rotation⟩ ⟨⟨0, 0, 0⟩, submapPose.rotation⟩ a i ∧
        OfMatch o refine submap node (poseFromCandidate m.grid.resolution (poseOf ⟨⟨0, 0, 0⟩, nodePose.rotation⟩ ⟨⟨0, 0, 0⟩, submapPose.rotation⟩ a) i) c ∧
        o.globalMinScore < scoreAt m data ⟨⟨0, 0, 0⟩, nodePose.rotation⟩ ⟨⟨0, 0, 0⟩, submapPose.rotation⟩ a i ∧
        ∀ a' i', IsAngle m data Real.pi a' → Passes m data ⟨⟨0, 0, 0⟩, nodePose.rotation⟩ ⟨⟨0, 0, 0⟩, submapPose.rotation⟩ a' i' →
          scoreAt m data ⟨⟨0, 0, 0⟩, nodePose.rotation⟩ ⟨⟨0, 0, 0⟩, submapPose.rotation⟩ a' i' ≤ scoreAt m data ⟨⟨0, 0, 0⟩, nodePose.rotation⟩ ⟨⟨0, 0, 0⟩, submapPose.rotation⟩ a i := by
  obtain ⟨result, h1, h2, h3⟩ := full_best hm hp hl hf hnp hsp hmin
  unfold computeConstraint
  simp only [if_true, Option.bind_eq_bind]
  rw [h1, Option.bind_some]
  cases result with
  | none => exact ⟨none, rfl, by simpa using h2, by simp⟩
  | some r =>
    obtain ⟨a, i, k1, k3, k4, k5, -, -, k6, k7⟩ := h3 r rfl
    refine ⟨some ⟨submap, node, refine r.pose, o.translationWeight, o.rotationWeight⟩, ?_, ?_, ?_⟩
    · have : (o.globalMinScore : WithBot ℚ) < r.score := by
        rw [k4]
        exact WithBot.coe_lt_coe.2 k6
      simp [guard, this, hs, hn]
    · simp only [reduceCtorEq, false_iff]
      intro h
      have := h2.2 h
      simp at this
    · intro c hc
      cases hc
      exact ⟨a, i, k1, k3, ⟨rfl, rfl, rfl, rfl, by rw [k5]⟩, k6, k7⟩

/-- **C94, no points.** A scan without points is never matched. -/
theorem empty_scan (o : LoopClosure.Options) {m : Matcher} {data : Node} (hp : data.high = []) (hl : m.histogram.length = data.histogram.length) (refine : Rigid3 → Rigid3)
    (submap node : Id) (full : Bool) (nodePose submapPose : Rigid3) : computeConstraint o m refine submap node full data nodePose submapPose = some none := by
  have h : ∀ wxy wz W a b s, matchWith m wxy wz W a b data s = some none := by
    intro wxy wz W a b s
    obtain ⟨scans, h1, -⟩ := discreteScans_eq hl a b W
    unfold matchWith
    simp only [Option.bind_eq_bind]
    rw [h1, Option.bind_some, if_pos (by simp [hp])]
  unfold computeConstraint matchFull fastMatch
  cases full <;> simp [h]

/-- **C94, no guess.** A global search depends on the rotations of the poses only. -/
theorem global_guess (o : LoopClosure.Options) (m : Matcher) (refine : Rigid3 → Rigid3) (submap node : Id) (data : Node) (nodePose submapPose : Rigid3) (t u : V3) :
    computeConstraint o m refine submap node true data ⟨t, nodePose.rotation⟩ ⟨u, submapPose.rotation⟩ = computeConstraint o m refine submap node true data nodePose submapPose := rfl

/-- **C94, which searches are started.** As in two dimensions, with the distance of the poses. -/
theorem maybeAdd_eq (o : LoopClosure.Options) (s : Samplers) (submap : Id) (nodePose submapPose : Rigid3) {relative : Rigid2}
    (h : RealTime.norm2 relative.translation = √(nodePose.translation.distSq submapPose.translation)) : maybeAdd o s submap nodePose submapPose = LoopClosure.maybeAdd o s submap relative := by
  have e : V3.norm ⟨nodePose.translation.x - submapPose.translation.x, nodePose.translation.y - submapPose.translation.y, nodePose.translation.z - submapPose.translation.z⟩ =
      RealTime.norm2 relative.translation := by
    rw [h]
    unfold V3.norm V3.distSq
    congr 1
    ring
  unfold maybeAdd LoopClosure.maybeAdd
  rw [e]

/-! ### Examples -/

example : candidateYaw ⟨⟨0, 0, 0⟩, ⟨0, 1, 0, 0⟩⟩ ⟨⟨0, 0, 0⟩, ⟨0, 1, 0, 0⟩⟩ ⟨1, 0, 0, 0⟩ 1 = -1 :=
  (upside_down (by linarith [Real.pi_pos]) (by linarith [Real.two_le_pi]) (fromAngleAxis_z (Or.inr (by norm_num)))).2

example (o : LoopClosure.Options) (s : Samplers) (submap : Id) : maybeAdd o s submap ⟨⟨1, 2, 2⟩, ⟨1, 0, 0, 0⟩⟩ ⟨⟨0, 0, 0⟩, ⟨1, 0, 0, 0⟩⟩ = LoopClosure.maybeAdd o s submap ⟨⟨3, 0⟩, 0⟩ := by
  apply maybeAdd_eq
  rw [RealTime.norm2]
  congr 1
  simp [V3.distSq]
  norm_num

/-- A constraint from the best match in the whole submap. -/
example : ∃ m c, m.Ok ∧ computeConstraint ⟨10, 1, 1 / 2, 1 / 2, 3, 4⟩ m id ⟨0, 0⟩ ⟨1, 5⟩ true ⟨⟨1, 0, 0, 0⟩, [⟨0, 0, 0⟩], [⟨0, 0, 0⟩], []⟩ Rigid3.identity Rigid3.identity = some (some c) ∧
    c.pose.translation = ⟨3, 1, 0⟩ := by
  obtain ⟨m, r, hm, h1, h2, h3⟩ := small_match
  refine ⟨m, ⟨⟨0, 0⟩, ⟨1, 5⟩, r.pose, 3, 4⟩, hm, ?_, h3⟩
  unfold computeConstraint
  have e : matchFull m Rigid3.identity.rotation Rigid3.identity.rotation ⟨⟨1, 0, 0, 0⟩, [⟨0, 0, 0⟩], [⟨0, 0, 0⟩], []⟩ (1 / 2) = some (some r) := h1
  have h : ((1 / 2 : ℚ) : WithBot ℚ) < r.score := by
    rw [h2]
    exact WithBot.coe_lt_coe.2 (by norm_num)
  simp only [if_true, Option.bind_eq_bind, e, Option.bind_some]
  simp only [guard, gt_iff_lt, if_pos h]
  rfl

end Verif.Match3D
