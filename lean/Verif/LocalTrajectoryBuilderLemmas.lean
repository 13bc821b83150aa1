import Verif.LocalTrajectoryBuilder
import Verif.Props.PoseExtrapolator
import Verif.Props.RangeDataCollator

/-!
Lemmas about the extrapolator inside the local trajectory builders.
-/

namespace Verif.LocalBuilder

open Verif.Rigid

theorem bind_ok {α β : Type} {x : Except Abort α} {f : α → Except Abort β} {b : β} :
    (x >>= f) = .ok b ↔ ∃ a, x = .ok a ∧ f a = .ok b := by
  cases x <;> simp [bind, Except.bind]

theorem bind_error {α β : Type} {x : Except Abort α} {f : α → Except Abort β} {e : Abort} :
    (x >>= f) = .error e ↔ x = .error e ∨ ∃ a, x = .ok a ∧ f a = .error e := by
  cases x <;> simp [bind, Except.bind]

theorem lift_ok {α : Type} {x : Except Extrapolator.Abort α} {a : α} : lift x = .ok a ↔ x = .ok a := by
  cases x <;> simp [lift]

theorem lift_error {α : Type} {x : Except Extrapolator.Abort α} {e : Abort} :
    lift x = .error e ↔ ∃ a, x = .error a ∧ e = .extrapolator a := by
  cases x <;> simp [lift, eq_comm]

/-- The extrapolator between two calls of a builder: `last` bounds the times of the data so far, `bound` the extrapolated
times, `lo` the times of odometry. -/
structure ExtInv (ext : Extrapolator.State) (last bound lo : Int) : Prop where
  inv : Extrapolator.Inv ext
  pose : ∃ p, Extrapolator.newest ext = some p ∧ p.time ≤ last ∧ p.pose.Proper
  extrapolated : ∀ t ∈ lastExtrapolated ext, t ≤ bound ∨ ∃ p ∈ Extrapolator.newest ext, t = p.time
  imu : ∀ x ∈ ext.imu, x.time ≤ last
  increasing : ext.odometry.Pairwise (fun a b => a.time < b.time)
  odometry : ∀ o ∈ ext.odometry, o.time ≤ lo ∧ o.time ≤ last
  cached : ∀ t ∈ ext.cachedTime, ext.cachedPose.Proper

theorem ExtInv.mono {ext : Extrapolator.State} {last last' bound bound' lo lo' : Int} (h : ExtInv ext last bound lo)
    (h1 : last ≤ last') (h2 : bound ≤ bound') (h3 : lo ≤ lo') : ExtInv ext last' bound' lo' := by
  obtain ⟨a, ⟨p, b1, b2, b3⟩, c, d, e, f, g⟩ := h
  exact ⟨a, ⟨p, b1, b2.trans h1, b3⟩, fun t ht => (c t ht).imp_left (fun x => x.trans h2), fun x hx => (d x hx).trans h1, e,
    fun o ho => ⟨(f o ho).1.trans h3, (f o ho).2.trans h1⟩, g⟩

theorem trimPoses_sublist (t : Int) (l : List Extrapolator.TimedPose) : (Extrapolator.trimPoses t l).Sublist l := by
  obtain ⟨k, hk⟩ := Extrapolator.trimPoses_sub t l
  rw [hk]
  exact List.drop_sublist k l

theorem trimOdometry_sublist (s : Extrapolator.State) : (Extrapolator.trimOdometryData s).odometry.Sublist s.odometry := by
  unfold Extrapolator.trimOdometryData
  split
  · exact trimPoses_sublist _ _
  · exact List.Sublist.refl _

/-- `AddPose` only drops odometry. -/
theorem addPose_odometry {P : Extrapolator.Params} {s s' : Extrapolator.State} {t : Int} {p : Rigid3}
    (h : Extrapolator.addPose P s t p = .ok s') : s'.odometry.Sublist s.odometry := by
  simp only [Extrapolator.addPose, Extrapolator.bind_ok] at h
  obtain ⟨s1, h1, tr, -, h⟩ := h
  obtain ⟨a, b, rfl⟩ := Extrapolator.updateVelocities_ok h1
  injection h with h
  subst h
  refine (trimOdometry_sublist _).trans ?_
  unfold Extrapolator.trimImuData
  split <;> exact List.Sublist.refl _

theorem addImu_same {s s' : Extrapolator.State} {d : Extrapolator.Imu} (h : Extrapolator.addImu s d = .ok s') :
    s'.odometry = s.odometry ∧ s'.cachedTime = s.cachedTime ∧ s'.cachedPose = s.cachedPose := by
  unfold Extrapolator.addImu at h
  split at h
  · injection h with h
    subst h
    unfold Extrapolator.trimImuData
    split <;> exact ⟨rfl, rfl, rfl⟩
  · cases h

theorem newest_of_poses {s s' : Extrapolator.State} (h : s'.poses = s.poses) : Extrapolator.newest s' = Extrapolator.newest s := by
  unfold Extrapolator.newest; rw [h]

/-- What `AddOdometryData` leaves alone. -/
theorem addOdometry_same {P : Extrapolator.Params} {s s' : Extrapolator.State} {d : Extrapolator.TimedPose}
    (h : Extrapolator.addOdometry P s d = .ok s') :
    s'.odometry.Sublist (s.odometry ++ [d]) ∧ s'.cachedTime = s.cachedTime ∧ s'.cachedPose = s.cachedPose ∧
      s'.poses = s.poses ∧ s'.extrapolationTracker = s.extrapolationTracker := by
  unfold Extrapolator.addOdometry at h
  split at h
  · obtain ⟨l, hl, -⟩ := Extrapolator.trimOdometry_eq { s with odometry := s.odometry ++ [d] }
    have hsub := trimOdometry_sublist { s with odometry := s.odometry ++ [d] }
    simp only [hl] at h hsub
    split at h
    · split at h
      · cases h
      · simp only [Extrapolator.odometryVelocities] at h
        split at h
        · cases h
        · split at h
          · injection h with h
            subst h
            exact ⟨hsub, rfl, rfl, rfl, rfl⟩
          · cases h
          · simp only [Extrapolator.bind_ok] at h
            obtain ⟨r, -, h⟩ := h
            injection h with h
            subst h
            exact ⟨hsub, rfl, rfl, rfl, rfl⟩
    · injection h with h
      subst h
      exact ⟨hsub, rfl, rfl, rfl, rfl⟩
  · cases h

theorem inverse_proper {q : Quat} (h : q.Unit) : (Extrapolator.inverse q).Unit := by
  rw [Extrapolator.inverse_unit h]
  exact unit_conjugate h

/-- Extrapolating a pose for a time that is not before the newest pose and the last extrapolated time. -/
theorem extrapolate_good {P : Extrapolator.Params} (hF : Extrapolator.TwoVectors P.fromTwoVectors) {ext : Extrapolator.State}
    {last bound lo : Int} (h : ExtInv ext last bound lo) {t : Int} (hp : ∀ p ∈ Extrapolator.newest ext, p.time ≤ t)
    (ht : ∀ u ∈ lastExtrapolated ext, u ≤ t) :
    (∃ pose ext', Extrapolator.extrapolatePose P ext t = .ok (pose, ext') ∧ pose.Proper ∧ ExtInv ext' last (max bound t) lo ∧
      Extrapolator.newest ext' = Extrapolator.newest ext ∧ ∀ u ∈ lastExtrapolated ext', u ≤ t) ∨
    Extrapolator.extrapolatePose P ext t = .error .gravity := by
  obtain ⟨p, hn, hpl, hpp⟩ := h.pose
  rcases Extrapolator.extrapolate_total_inv hF h.inv hn (hp p (by rw [hn]; rfl)) ht with ⟨⟨pose, ext'⟩, hr⟩ | hr
  · refine Or.inl ⟨pose, ext', hr, ?_⟩
    obtain ⟨hi, himu⟩ := Extrapolator.extrapolate_inv hF h.inv hr
    unfold Extrapolator.extrapolatePose at hr
    rw [hn] at hr
    simp only [hp p (by rw [hn]; rfl), if_true] at hr
    split at hr
    · rename_i hc
      injection hr with hr
      obtain ⟨rfl, rfl⟩ := Prod.mk.inj hr
      exact ⟨h.cached t hc, h.mono (le_refl _) (le_max_left _ _) (le_refl _), rfl, ht⟩
    · split at hr
      · cases hr
      · rename_i tr htr
        simp only [Extrapolator.bind_ok] at hr
        obtain ⟨⟨q, tr'⟩, h1, h2⟩ := hr
        injection h2 with h2
        obtain ⟨rfl, rfl⟩ := Prod.mk.inj h2
        have hrot := Extrapolator.extrapolateRotation_ok hF (h.inv.unitExtrapolation tr htr) h1
        have hq : q.Unit := by
          unfold Extrapolator.extrapolateRotation at h1
          split at h1
          · cases h1
          · rename_i base hb
            simp only [Extrapolator.bind_ok] at h1
            obtain ⟨tr2, h3, h4⟩ := h1
            injection h4 with h4
            obtain ⟨rfl, rfl⟩ := Prod.mk.inj h4
            exact unit_mul (inverse_proper (h.inv.unit base hb)) hrot.1
        have hpose : (p.pose.rotation.mul q).Unit := unit_mul hpp hq
        refine ⟨hpose, ⟨hi, ⟨p, hn, hpl, hpp⟩, ?_, himu ▸ h.imu, h.increasing, h.odometry, fun _ _ => hpose⟩, rfl, ?_⟩
        · intro u hu
          simp only [lastExtrapolated, Option.map_some, Option.mem_some_iff] at hu
          left
          rw [← hu, hrot.2]
          exact le_max_right _ _
        · intro u hu
          simp only [lastExtrapolated, Option.map_some, Option.mem_some_iff] at hu
          rw [← hu, hrot.2]
  · exact Or.inr hr

/-- Estimating the direction of gravity. -/
theorem gravity_good {P : Extrapolator.Params} (hF : Extrapolator.TwoVectors P.fromTwoVectors) {ext : Extrapolator.State}
    {last bound lo : Int} (h : ExtInv ext last bound lo) {t : Int} (hp : ∀ p ∈ Extrapolator.newest ext, p.time ≤ t) :
    (∃ q, Extrapolator.estimateGravity P ext t = .ok q ∧ q.Unit) ∨ Extrapolator.estimateGravity P ext t = .error .gravity := by
  obtain ⟨p, hn, hpl, hpp⟩ := h.pose
  obtain ⟨⟨base, hb, hbt⟩, -, -⟩ := h.inv.started p (by rw [hn]; rfl)
  unfold Extrapolator.estimateGravity
  rw [hb]
  simp only
  cases ha : Extrapolator.advanceImuTracker P ext t base with
  | ok tr =>
    refine Or.inl ⟨tr.orientation, rfl, (Extrapolator.advanceImu_ok hF (h.inv.unit base hb) ha).1⟩
  | error e =>
    have := Extrapolator.advanceImu_error hF (h.inv.unit base hb) h.inv.ordered (by rw [hbt]; exact hp p (by rw [hn]; rfl)) ha
    subst this
    exact Or.inr rfl

/-- Adding a pose that is not before the newest one. -/
theorem addPose_good {P : Extrapolator.Params} (hF : Extrapolator.TwoVectors P.fromTwoVectors) (hd : 0 < P.duration)
    {ext : Extrapolator.State} {last bound lo : Int} (h : ExtInv ext last bound lo) {t : Int} {pose : Rigid3}
    (hp : ∀ p ∈ Extrapolator.newest ext, p.time ≤ t) (htl : t ≤ last) (hpose : pose.Proper) :
    (∃ ext', Extrapolator.addPose P ext t pose = .ok ext' ∧ ExtInv ext' last bound lo ∧
      Extrapolator.newest ext' = some ⟨t, pose⟩) ∨
    Extrapolator.addPose P ext t pose = .error .gravity := by
  cases hr : Extrapolator.addPose P ext t pose with
  | error e =>
    rcases Extrapolator.addPose_total_inv hF h.inv hp hr with rfl | ⟨-, h0⟩
    · exact Or.inr rfl
    · omega
  | ok ext' =>
    refine Or.inl ⟨ext', rfl, ?_⟩
    have hi := Extrapolator.addPose_inv hF h.inv hr
    have hsub := addPose_odometry hr
    obtain ⟨s1, tr, -, ha, hn, -, -, h5, h6, h7, -, h9, -⟩ := Extrapolator.addPose_ok hr
    refine ⟨⟨hi, ⟨_, hn, htl, hpose⟩, ?_, fun x hx => h.imu x (h9 x hx), h.increasing.sublist hsub,
      fun o ho => h.odometry o (hsub.subset ho), ?_⟩, hn⟩
    · intro u hu
      right
      refine ⟨_, by rw [hn]; rfl, ?_⟩
      simp only [lastExtrapolated, h5, Option.map_some, Option.mem_some_iff] at hu
      rw [← hu]
      exact (Extrapolator.advanceImu_ok hF (Extrapolator.startTracker_unit h.inv t) ha).2
    · rw [h6, h7]
      exact h.cached

/-- The first pose. -/
theorem firstPose_good {P : Extrapolator.Params} (hF : Extrapolator.TwoVectors P.fromTwoVectors) {t : Int} {pose : Rigid3}
    (hpose : pose.Proper) (bound lo : Int) :
    (∃ ext', Extrapolator.addPose P {} t pose = .ok ext' ∧ ExtInv ext' t bound lo ∧
      Extrapolator.newest ext' = some ⟨t, pose⟩ ∧ ext'.odometry = []) ∨
    Extrapolator.addPose P {} t pose = .error .gravity := by
  cases hr : Extrapolator.addPose P {} t pose with
  | error e =>
    right
    simp only [Extrapolator.addPose, Extrapolator.bind_error] at hr
    obtain hr | ⟨s1, h1, hr | ⟨tr, -, hr⟩⟩ := hr
    · simp [Extrapolator.updateVelocities, Extrapolator.trimPoses] at hr
    · obtain ⟨a, b, rfl⟩ := Extrapolator.updateVelocities_ok h1
      have := Extrapolator.advanceImu_error hF (Extrapolator.startTracker_unit Extrapolator.inv_empty t) (by simp [Extrapolator.Ordered])
        (by simp [Extrapolator.startTracker, Extrapolator.Tracker.new]) hr
      rw [this]
    · cases hr
  | ok ext' =>
    refine Or.inl ⟨ext', rfl, ?_⟩
    have hi := Extrapolator.addPose_inv hF Extrapolator.inv_empty hr
    have hsub := addPose_odometry hr
    obtain ⟨s1, tr, -, ha, hn, -, -, h5, h6, h7, -, h9, -⟩ := Extrapolator.addPose_ok hr
    have hodo : ext'.odometry = [] := List.sublist_nil.1 hsub
    refine ⟨⟨hi, ⟨_, hn, le_refl _, hpose⟩, ?_, fun x hx => by simpa using h9 x hx, by rw [hodo]; exact List.Pairwise.nil,
      by rw [hodo]; simp, by rw [h6]; simp⟩, hn, hodo⟩
    intro u hu
    right
    refine ⟨_, by rw [hn]; rfl, ?_⟩
    simp only [lastExtrapolated, h5, Option.map_some, Option.mem_some_iff] at hu
    rw [← hu, (Extrapolator.advanceImu_ok hF (Extrapolator.startTracker_unit Extrapolator.inv_empty t) ha).2]

/-- An extrapolator made from the first IMU data. -/
theorem initialize_good {P : Extrapolator.Params} (hF : Extrapolator.TwoVectors P.fromTwoVectors) (d : Extrapolator.Imu)
    (bound lo : Int) :
    (∃ ext, Extrapolator.initializeWithImu P d = .ok ext ∧ ExtInv ext d.time bound lo) ∨
    Extrapolator.initializeWithImu P d = .error .gravity := by
  cases hr : Extrapolator.initializeWithImu P d with
  | error e =>
    right
    simp only [Extrapolator.initializeWithImu, Extrapolator.bind_error] at hr
    obtain hr | ⟨s0, h0, hr | ⟨tr1, h1, hr | ⟨tr2, h2, hr⟩⟩⟩ := hr
    · cases hr
    · unfold Extrapolator.observe at hr
      simp only at hr
      split at hr
      · cases hr
      · injection hr with hr
        rw [← hr]
    · exfalso
      have ha := Extrapolator.observe_ok hF Extrapolator.one_unit h1
      unfold Extrapolator.advance at hr
      rw [if_pos] at hr
      · cases hr
      · exact le_of_eq ha.1
    · exfalso
      have ha := Extrapolator.observe_ok hF Extrapolator.one_unit h1
      have hb := Extrapolator.advance_ok (tr := { tr1 with angularVelocity := d.angularVelocity }) h2 ha.2.1
      cases h0
      simp only [Extrapolator.addPose, Extrapolator.bind_error] at hr
      obtain hr | ⟨s1, h1, hr | ⟨tr, -, hr⟩⟩ := hr
      · simp [Extrapolator.updateVelocities, Extrapolator.trimPoses, Extrapolator.trimImuData, Extrapolator.newest] at hr
      · obtain ⟨a, b, rfl⟩ := Extrapolator.updateVelocities_ok h1
        have ht : tr2.time = d.time := hb.2.1
        simp [Extrapolator.advanceImuTracker, Extrapolator.startTracker, Extrapolator.trimImuData, Extrapolator.newest,
          Extrapolator.advanceToFront, ht, Extrapolator.follow, Extrapolator.advance, bind, Except.bind] at hr
      · cases hr
  | ok ext =>
    refine Or.inl ⟨ext, rfl, ?_⟩
    obtain ⟨hi, himu⟩ := Extrapolator.initialize_inv hF hr
    simp only [Extrapolator.initializeWithImu, Extrapolator.bind_ok] at hr
    obtain ⟨s0, h0, tr1, h1, tr2, h2, h3⟩ := hr
    have ha := Extrapolator.observe_ok hF Extrapolator.one_unit h1
    have hb := Extrapolator.advance_ok (tr := { tr1 with angularVelocity := d.angularVelocity }) h2 ha.2.1
    cases h0
    have hsub := addPose_odometry h3
    obtain ⟨s1, tr, -, g2, gn, g3, g4, g5, h6, h7, g6, g7, -⟩ := Extrapolator.addPose_ok h3
    have hodo : ext.odometry = [] := List.sublist_nil.1 hsub
    refine ⟨hi, ⟨_, gn, le_refl _, hb.2.2.1⟩, ?_, fun x hx => by rw [himu x hx], by rw [hodo]; exact List.Pairwise.nil,
      by rw [hodo]; simp, by rw [h6]; simp [Extrapolator.trimImuData, Extrapolator.newest]⟩
    intro u hu
    right
    refine ⟨_, by rw [gn]; rfl, ?_⟩
    simp only [lastExtrapolated, g5, Option.map_some, Option.mem_some_iff] at hu
    rw [← hu, (Extrapolator.advanceImu_ok hF (tr := tr2) hb.2.2.1 g2).2]

/-- Adding IMU data in order. -/
theorem addImu_good {ext : Extrapolator.State}
    {last bound lo : Int} (h : ExtInv ext last bound lo) {d : Extrapolator.Imu} (hd : last ≤ d.time) :
    ∃ ext', Extrapolator.addImu ext d = .ok ext' ∧ ExtInv ext' d.time bound lo ∧
      Extrapolator.newest ext' = Extrapolator.newest ext := by
  obtain ⟨p, hn, hpl, hpp⟩ := h.pose
  cases hr : Extrapolator.addImu ext d with
  | error e =>
    obtain ⟨q, hq, hlt⟩ := (Extrapolator.addImu_error_iff ext d).1 ⟨e, hr⟩
    rw [hn] at hq
    cases hq
    omega
  | ok ext' =>
    refine ⟨ext', rfl, ?_⟩
    obtain ⟨h1, h2, h3, h4⟩ := Extrapolator.addImu_inv h.inv (fun x hx => (h.imu x hx).trans hd) hr
    obtain ⟨g1, g2, g3⟩ := addImu_same hr
    refine ⟨⟨h1, ⟨p, h3.trans hn, hpl.trans hd, hpp⟩, ?_, ?_, by rw [g1]; exact h.increasing, ?_, by rw [g2, g3]; exact h.cached⟩, h3⟩
    · rw [h3]
      unfold lastExtrapolated
      rw [h4]
      exact h.extrapolated
    · intro x hx
      rcases h2 x hx with hx | rfl
      · exact (h.imu x hx).trans hd
      · exact le_refl _
    · rw [g1]
      exact fun o ho => ⟨(h.odometry o ho).1, (h.odometry o ho).2.trans hd⟩

/-- Adding odometry in order, with strictly increasing times. -/
theorem addOdometry_good {P : Extrapolator.Params} (hF : Extrapolator.TwoVectors P.fromTwoVectors) {ext : Extrapolator.State}
    {last bound lo : Int} (h : ExtInv ext last bound lo) {d : Extrapolator.TimedPose} (hd : last ≤ d.time) (hlo : lo < d.time) :
    (∃ ext', Extrapolator.addOdometry P ext d = .ok ext' ∧ ExtInv ext' d.time bound d.time ∧
      Extrapolator.newest ext' = Extrapolator.newest ext) ∨
    Extrapolator.addOdometry P ext d = .error .gravity := by
  obtain ⟨p, hn, hpl, hpp⟩ := h.pose
  have hinc : (ext.odometry ++ [d]).Pairwise (fun a b => a.time < b.time) := by
    rw [List.pairwise_append]
    refine ⟨h.increasing, List.pairwise_singleton _ _, ?_⟩
    intro a ha b hb
    rw [List.mem_singleton] at hb
    subst hb
    exact lt_of_le_of_lt (h.odometry a ha).1 hlo
  cases hr : Extrapolator.addOdometry P ext d with
  | error e =>
    rcases Extrapolator.addOdometry_total_inv hF h.inv (fun q hq => by rw [hn] at hq; cases hq; omega)
      (fun o ho => (h.odometry o (List.mem_of_getLast? ho)).2.trans hd) hr with rfl | ⟨-, l, oldest, hl, hh, h2, he⟩
    · exact Or.inr rfl
    · exfalso
      have hsub := trimOdometry_sublist { ext with odometry := ext.odometry ++ [d] }
      rw [hl] at hsub
      obtain ⟨l', hl', hlast⟩ := Extrapolator.trimOdometry_eq { ext with odometry := ext.odometry ++ [d] }
      rw [hl] at hl'
      have hll : l = l' := congrArg Extrapolator.State.odometry hl'
      subst hll
      simp only [List.getLast?_append, List.getLast?_singleton, Option.some_or] at hlast
      have hp := hinc.sublist hsub
      match l, hh, h2, hlast, hp with
      | a :: b :: l, hh, h2, hlast, hp =>
        simp only [List.head?_cons, Option.some.injEq] at hh
        rw [List.getLast?_cons_cons] at hlast
        have hm := List.mem_of_getLast? hlast
        have := (List.pairwise_cons.1 hp).1 d hm
        rw [hh] at this
        omega
  | ok ext' =>
    refine Or.inl ⟨ext', rfl, ?_⟩
    obtain ⟨h1, h2⟩ := Extrapolator.addOdometry_inv hF h.inv hr
    obtain ⟨g1, g2, g3, g4, g5⟩ := addOdometry_same hr
    have hnn := newest_of_poses g4
    refine ⟨⟨h1, ⟨p, hnn.trans hn, hpl.trans hd, hpp⟩, ?_, ?_, hinc.sublist g1, ?_, by rw [g2, g3]; exact h.cached⟩, hnn⟩
    · rw [hnn]
      unfold lastExtrapolated
      rw [g5]
      exact h.extrapolated
    · rw [h2]
      exact fun x hx => (h.imu x hx).trans hd
    · intro o ho
      rcases List.mem_append.1 (g1.subset ho) with ho | ho
      · have := (h.odometry o ho).2.trans hd
        exact ⟨this, this⟩
      · rw [List.mem_singleton] at ho
        subst ho
        exact ⟨le_refl _, le_refl _⟩

end Verif.LocalBuilder
