import Verif.PoseExtrapolatorLemmas

/-!
# C41: extrapolation of poses
-/

namespace Verif.Extrapolator

open Verif.Rigid

/-! ### Invariant -/

/-- What holds between the calls. -/
structure Inv (s : State) : Prop where
  ordered : Ordered s.imu
  unit : ∀ tr ∈ s.tracker, tr.orientation.Unit
  unitOdometry : ∀ tr ∈ s.odometryTracker, tr.orientation.Unit
  unitExtrapolation : ∀ tr ∈ s.extrapolationTracker, tr.orientation.Unit
  started : ∀ p ∈ newest s, (∃ tr, s.tracker = some tr ∧ tr.time = p.time) ∧
    (∃ tr, s.odometryTracker = some tr ∧ (tr.time = p.time ∨ ∃ o ∈ s.odometry.getLast?, tr.time = o.time)) ∧
    ∃ tr, s.extrapolationTracker = some tr
  fresh : newest s = none → s.tracker = none

theorem getLast?_trimPoses (t : Int) : ∀ l : List TimedPose, (trimPoses t l).getLast? = l.getLast?
  | [] => rfl
  | [_] => rfl
  | [_, _] => rfl
  | a :: b :: c :: l => by
    rw [trimPoses]
    split
    · rw [getLast?_trimPoses]; simp
    · rfl

theorem trimPoses_short (t : Int) : ∀ l : List TimedPose, 2 ≤ l.length → 2 ≤ (trimPoses t l).length
  | [], h => h
  | [_], h => h
  | [_, _], h => h
  | a :: b :: c :: l, _ => by
    rw [trimPoses]
    split
    · exact trimPoses_short t (b :: c :: l) (by simp)
    · simp

theorem trimOdometry_eq (s : State) : ∃ l, trimOdometryData s = { s with odometry := l } ∧
    l.getLast? = s.odometry.getLast? := by
  unfold trimOdometryData
  cases h : newest s with
  | none => exact ⟨s.odometry, rfl, rfl⟩
  | some p => exact ⟨_, rfl, getLast?_trimPoses _ _⟩

theorem trimImu_eq (s : State) : ∃ l, trimImuData s = { s with imu := l } ∧ (Ordered s.imu → Ordered l) ∧
    (∀ d ∈ l, d ∈ s.imu) ∧ (Ordered s.imu → ∀ p ∈ newest s, (NoImu p.time l ↔ NoImu p.time s.imu)) := by
  unfold trimImuData
  cases h : newest s with
  | none => exact ⟨s.imu, rfl, id, fun _ => id, fun _ _ h => by simp at h⟩
  | some p =>
    refine ⟨_, rfl, trimImu_ordered, trimImu_subset, ?_⟩
    intro ho q hq
    injection hq with hq
    subst hq
    exact trimImu_noImu ho

theorem updateVelocities_ok {P : Params} {s s' : State} (h : updateVelocities P s = .ok s') :
    ∃ a b, s' = { s with linearFromPoses := a, angularFromPoses := b } := by
  unfold updateVelocities at h
  split at h
  · split at h
    · cases h
    · simp only at h
      split at h
      · injection h with h; exact ⟨_, _, h.symm⟩
      · split at h
        · cases h
        · injection h with h; exact ⟨_, _, h.symm⟩
  · injection h with h; exact ⟨_, _, h.symm⟩

theorem startTracker_unit {s : State} (hi : Inv s) (t : Int) : (startTracker s t).orientation.Unit := by
  unfold startTracker
  cases h : s.tracker with
  | none => exact one_unit
  | some tr => exact hi.unit tr h

/-- What `AddPose` does. -/
theorem addPose_ok {P : Params} {s s' : State} {t : Int} {p : Rigid3} (h : addPose P s t p = .ok s') :
    ∃ s1 tr, s1.imu = s.imu ∧ advanceImuTracker P s1 t (startTracker s t) = .ok tr ∧
      newest s' = some ⟨t, p⟩ ∧ s'.tracker = some tr ∧ s'.odometryTracker = some tr ∧ s'.extrapolationTracker = some tr ∧
      s'.cachedTime = s.cachedTime ∧ s'.cachedPose = s.cachedPose ∧
      (Ordered s.imu → Ordered s'.imu) ∧ (∀ d ∈ s'.imu, d ∈ s.imu) ∧
      (Ordered s.imu → (NoImu t s'.imu ↔ NoImu t s1.imu)) := by
  simp only [addPose, bind_ok] at h
  obtain ⟨s1, h1, tr, h2, h3⟩ := h
  obtain ⟨a, b, rfl⟩ := updateVelocities_ok h1
  injection h3 with h3
  obtain ⟨l, hl, hl1, hl2, hl3⟩ := trimImu_eq
    { s with poses := trimPoses (t - P.duration) (s.poses ++ [⟨t, p⟩]), linearFromPoses := a, angularFromPoses := b,
             tracker := some tr }
  rw [hl] at h3
  obtain ⟨l', hl', -⟩ := trimOdometry_eq
    { s with poses := trimPoses (t - P.duration) (s.poses ++ [⟨t, p⟩]), linearFromPoses := a, angularFromPoses := b,
             tracker := some tr, imu := l }
  rw [hl'] at h3
  have hn : (trimPoses (t - P.duration) (s.poses ++ [⟨t, p⟩])).getLast? = some ⟨t, p⟩ := by
    rw [getLast?_trimPoses]; simp
  refine ⟨_, tr, ?_, h2, ?_⟩
  · rfl
  subst h3
  refine ⟨hn, rfl, rfl, rfl, rfl, rfl, hl1, hl2, ?_⟩
  intro ho
  exact hl3 ho ⟨t, p⟩ hn

theorem addPose_inv {P : Params} (hF : TwoVectors P.fromTwoVectors) {s s' : State} {t : Int} {p : Rigid3} (hi : Inv s)
    (h : addPose P s t p = .ok s') : Inv s' := by
  obtain ⟨s1, tr, -, h2, hn, h3, h4, h5, -, -, h6, -, -⟩ := addPose_ok h
  have hok := advanceImu_ok hF (startTracker_unit hi t) h2
  constructor
  · exact h6 hi.ordered
  · rw [h3]; simpa using hok.1
  · rw [h4]; simpa using hok.1
  · rw [h5]; simpa using hok.1
  · rw [hn]
    intro q hq
    injection hq with hq
    subst hq
    exact ⟨⟨tr, h3, hok.2⟩, ⟨tr, h4, Or.inl hok.2⟩, ⟨tr, h5⟩⟩
  · rw [hn]; intro h; cases h

theorem addImu_inv {s s' : State} {d : Imu} (hi : Inv s) (hd : ∀ x ∈ s.imu, x.time ≤ d.time)
    (h : addImu s d = .ok s') : Inv s' ∧ (∀ x ∈ s'.imu, x ∈ s.imu ∨ x = d) ∧ newest s' = newest s ∧
      s'.extrapolationTracker = s.extrapolationTracker := by
  unfold addImu at h
  split at h
  · injection h with h
    obtain ⟨l, hl, hl1, hl2, -⟩ := trimImu_eq { s with imu := s.imu ++ [d] }
    rw [hl] at h
    subst h
    refine ⟨⟨?_, hi.unit, hi.unitOdometry, hi.unitExtrapolation, hi.started, hi.fresh⟩, ?_, rfl, rfl⟩
    · apply hl1
      show Ordered (s.imu ++ [d])
      refine List.pairwise_append.2 ⟨hi.ordered, by simp, ?_⟩
      intro a ha b hb
      simp at hb
      subst hb
      exact hd a ha
    · intro x hx
      have := hl2 x hx
      simpa using this
  · cases h

theorem extrapolateRotation_ok {P : Params} (hF : TwoVectors P.fromTwoVectors) {s : State} {t : Int} {tr : Tracker}
    {r : Quat × Tracker} (hu : tr.orientation.Unit) (h : extrapolateRotation P s t tr = .ok r) :
    r.2.orientation.Unit ∧ r.2.time = t := by
  unfold extrapolateRotation at h
  split at h
  · cases h
  · simp only [bind_ok] at h
    obtain ⟨tr', h1, h2⟩ := h
    injection h2 with h2
    subst h2
    exact advanceImu_ok hF hu h1

theorem odometryVelocities_inv {P : Params} (hF : TwoVectors P.fromTwoVectors) {s s' : State} {l : List TimedPose}
    {oldest new : TimedPose} (hi : Inv s) (hl : l.getLast? = some new)
    (h : odometryVelocities P { s with odometry := l } oldest new = .ok s') :
    Inv s' ∧ s'.imu = s.imu := by
  unfold odometryVelocities at h
  simp only at h
  split at h
  · cases h
  · split at h
    · rename_i hn
      injection h with h
      subst h
      exact ⟨⟨hi.ordered, hi.unit, hi.unitOdometry, hi.unitExtrapolation,
        fun q hq => absurd (hn.symm.trans hq) (by simp), hi.fresh⟩, rfl⟩
    · cases h
    · rename_i q tr hq htr
      simp only [bind_ok] at h
      obtain ⟨r, h1, h2⟩ := h
      injection h2 with h2
      subst h2
      have hok := extrapolateRotation_ok hF (hi.unitOdometry tr htr) h1
      refine ⟨⟨hi.ordered, hi.unit, ?_, hi.unitExtrapolation, ?_, hi.fresh⟩, rfl⟩
      · simpa using hok.1
      · intro q' hq'
        have := hi.started q' hq'
        exact ⟨this.1, ⟨r.2, rfl, Or.inr ⟨new, hl, hok.2⟩⟩, this.2.2⟩

theorem addOdometry_inv {P : Params} (hF : TwoVectors P.fromTwoVectors) {s s' : State} {d : TimedPose} (hi : Inv s)
    (h : addOdometry P s d = .ok s') : Inv s' ∧ s'.imu = s.imu := by
  unfold addOdometry at h
  split at h
  · obtain ⟨l, hl, hl1⟩ := trimOdometry_eq { s with odometry := s.odometry ++ [d] }
    have hl2 : l.getLast? = some d := by rw [hl1]; simp
    simp only [hl] at h
    split at h
    · rename_i oldest b l'
      rw [hl2] at h
      exact odometryVelocities_inv hF hi hl2 h
    · rename_i hshort
      injection h with h
      subst h
      refine ⟨⟨hi.ordered, hi.unit, hi.unitOdometry, hi.unitExtrapolation, ?_, hi.fresh⟩, rfl⟩
      intro q hq
      have := hi.started q hq
      refine ⟨this.1, ?_, this.2.2⟩
      obtain ⟨tr, h1, h2 | ⟨o, ho, h2⟩⟩ := this.2.1
      · exact ⟨tr, h1, Or.inl h2⟩
      · exfalso
        have hq : newest s = some q := hq
        have he : trimOdometryData { s with odometry := s.odometry ++ [d] } =
            { s with odometry := trimPoses q.time (s.odometry ++ [d]) } := by
          unfold trimOdometryData
          have hq' : newest { s with odometry := s.odometry ++ [d] } = some q := hq
          rw [hq']
        rw [he] at hl
        have hl' : trimPoses q.time (s.odometry ++ [d]) = l := congrArg State.odometry hl
        have h3 := trimPoses_short q.time (s.odometry ++ [d])
        rw [hl'] at h3
        have h4 : 1 ≤ s.odometry.length := by
          cases hs : s.odometry with
          | nil => simp [hs] at ho
          | cons => simp
        rw [List.length_append] at h3
        match l, hshort, h3 (by simpa using h4) with
        | [], _, h => simp at h
        | [_], _, h => simp at h
        | a :: b :: l', hs, _ => exact hs a b l' rfl
  · cases h

theorem extrapolate_inv {P : Params} (hF : TwoVectors P.fromTwoVectors) {s : State} {t : Int} {r : Rigid3 × State}
    (hi : Inv s) (h : extrapolatePose P s t = .ok r) : Inv r.2 ∧ r.2.imu = s.imu := by
  unfold extrapolatePose at h
  split at h
  · cases h
  · rename_i p hp
    split at h
    · split at h
      · injection h with h
        subst h
        exact ⟨hi, rfl⟩
      · split at h
        · cases h
        · rename_i tr htr
          simp only [bind_ok] at h
          obtain ⟨r', h1, h2⟩ := h
          injection h2 with h2
          subst h2
          have hok := extrapolateRotation_ok hF (hi.unitExtrapolation tr htr) h1
          refine ⟨⟨hi.ordered, hi.unit, hi.unitOdometry, ?_, ?_, hi.fresh⟩, rfl⟩
          · simpa using hok.1
          · intro q hq
            have := hi.started q hq
            exact ⟨this.1, this.2.1, _, rfl⟩
    · cases h

/-- The times of the IMU data that is added by a sequence of calls. -/
def imuTimes (cs : List Call) : List Int :=
  cs.filterMap fun c => match c with
    | .imu d => some d.time
    | _ => none

/-- How an extrapolator comes into being, for IMU data in order: by the constructor or by `InitializeWithImu`. -/
def Made (P : Params) (s : State) (cs : List Call) : Prop :=
  (imuTimes cs).Pairwise (· ≤ ·) ∧
    (s = {} ∨ ∃ d, initializeWithImu P d = .ok s ∧ ∀ t ∈ imuTimes cs, d.time ≤ t)

theorem inv_empty : Inv {} := by
  constructor <;> simp [Ordered, newest]

theorem initialize_inv {P : Params} (hF : TwoVectors P.fromTwoVectors) {d : Imu} {s : State}
    (h : initializeWithImu P d = .ok s) : Inv s ∧ ∀ x ∈ s.imu, x = d := by
  simp only [initializeWithImu, bind_ok] at h
  obtain ⟨s0, h0, tr1, h1, tr2, h2, h3⟩ := h
  have hi0 := addImu_inv inv_empty (by simp) h0
  have ha := observe_ok hF one_unit h1
  have hb := advance_ok (tr := { tr1 with angularVelocity := d.angularVelocity }) h2 ha.2.1
  have hn : newest s0 = none := hi0.2.2.1
  have hs : Inv { s0 with tracker := some tr2 } → Inv s := fun hi => addPose_inv hF hi h3
  obtain ⟨s1, tr, -, g2, gn, g3, g4, g5, -, -, g6, g7, -⟩ := addPose_ok h3
  have hok := advanceImu_ok hF (tr := tr2) hb.2.2.1 g2
  refine ⟨?_, ?_⟩
  · constructor
    · exact g6 hi0.1.ordered
    · rw [g3]; simpa using hok.1
    · rw [g4]; simpa using hok.1
    · rw [g5]; simpa using hok.1
    · rw [gn]
      intro q hq
      injection hq with hq
      subst hq
      exact ⟨⟨tr, g3, hok.2⟩, ⟨tr, g4, Or.inl hok.2⟩, ⟨tr, g5⟩⟩
    · rw [gn]; intro h; cases h
  · intro x hx
    have := hi0.2.1 x (g7 x hx)
    simpa using this

theorem run_inv {P : Params} (hF : TwoVectors P.fromTwoVectors) {s t : State} {cs : List Call} (hi : Inv s)
    (hf : ∀ x ∈ s.imu, ∀ y ∈ imuTimes cs, x.time ≤ y) (hp : (imuTimes cs).Pairwise (· ≤ ·)) (hr : Run P s cs t) :
    Inv t := by
  induction hr with
  | nil s => exact hi
  | @cons s s1 t c cs hc hr ih =>
    cases c with
    | pose time p =>
      have hg := addPose_ok hc
      obtain ⟨_, _, -, -, -, -, -, -, -, -, -, hsub, -⟩ := hg
      exact ih (addPose_inv hF hi hc) (fun x hx => hf x (hsub x hx)) hp
    | imu d =>
      have hp' : (d.time :: imuTimes cs).Pairwise (· ≤ ·) := hp
      have hf' : ∀ x ∈ s.imu, ∀ y ∈ d.time :: imuTimes cs, x.time ≤ y := hf
      rw [List.pairwise_cons] at hp'
      have h := addImu_inv hi (fun x hx => hf' x hx _ (by simp)) hc
      refine ih h.1 ?_ hp'.2
      intro x hx y hy
      rcases h.2.1 x hx with hx | rfl
      · exact hf' x hx y (by simp [hy])
      · exact hp'.1 y hy
    | odometry d =>
      have h := addOdometry_inv hF hi hc
      exact ih h.1 (by rw [h.2]; exact hf) hp
    | extrapolate time =>
      simp only [call, bind_ok] at hc
      obtain ⟨r, h1, h2⟩ := hc
      injection h2 with h2
      subst h2
      have h := extrapolate_inv hF hi h1
      exact ih h.1 (by rw [h.2]; exact hf) hp

theorem made_inv {P : Params} (hF : TwoVectors P.fromTwoVectors) {s t : State} {cs : List Call} (hm : Made P s cs)
    (hr : Run P s cs t) : Inv t := by
  obtain ⟨hp, rfl | ⟨d, hd, ht⟩⟩ := hm
  · exact run_inv hF inv_empty (by simp) hp hr
  · have h := initialize_inv hF hd
    exact run_inv hF h.1 (fun x hx => by rw [h.2 x hx]; exact ht) hp hr

/-! ### The pose at the time of the newest pose -/

/-- C41, first part, with the condition that is missing in it: directly after `AddPose(time, pose)`, `ExtrapolatePose(time)`
returns exactly `pose`, unless the last pose that was extrapolated was also for `time`. -/
theorem extrapolate_newest_partial {P : Params} (hF : TwoVectors P.fromTwoVectors) {s0 s s' : State} {cs : List Call}
    (hm : Made P s0 cs) (hr : Run P s0 cs s) {time : Int} {pose : Rigid3} (h : addPose P s time pose = .ok s')
    (hc : s.cachedTime ≠ some time) :
    ∃ s'', extrapolatePose P s' time = .ok (pose, s'') := by
  have hi := made_inv hF hm hr
  obtain ⟨s1, tr, -, h2, hn, h3, h4, h5, h6, -, -, -, h7⟩ := addPose_ok h
  have hu := startTracker_unit hi time
  have hok := advanceImu_ok hF hu h2
  obtain ⟨tr2, g1, g2⟩ := advanceImu_again hF hu h2 (s' := s') (h7 hi.ordered)
  have hrot : extrapolateRotation P s' time tr = .ok (⟨1, 0, 0, 0⟩, tr2) := by
    unfold extrapolateRotation
    rw [h3]
    simp only [bind_ok]
    refine ⟨tr2, g1, ?_⟩
    rw [g2, inverse_unit hok.1, conjugate_mul hok.1]
  unfold extrapolatePose
  rw [hn]
  simp only [le_refl, if_true]
  rw [h6, if_neg hc, h5]
  simp only [hrot]
  refine ⟨_, congrArg Except.ok (Prod.ext ?_ rfl)⟩
  simp only [extrapolateTranslation, sub_self, toSeconds_zero, quat_mul_one]
  ext <;> simp [vadd, smul]

/-! ### Motion with constant velocity -/

/-- The position at a time when moving with the velocity `v`. -/
noncomputable def line (a v : V3) (time : Int) : V3 := vadd a (smul (toSeconds time) v)

theorem trimPoses_sub (t : Int) : ∀ l : List TimedPose, ∃ k, trimPoses t l = l.drop k
  | [] => ⟨0, rfl⟩
  | [_] => ⟨0, rfl⟩
  | [_, _] => ⟨0, rfl⟩
  | a :: b :: c :: l => by
    rw [trimPoses]
    split
    · obtain ⟨k, hk⟩ := trimPoses_sub t (b :: c :: l)
      exact ⟨k + 1, by rw [hk]; rfl⟩
    · exact ⟨0, rfl⟩

/-- The first pose that is kept is at or before the limit if the first pose was; otherwise it is the same. -/
theorem trimPoses_head (t : Int) : ∀ {l : List TimedPose} {p : TimedPose}, l.Pairwise (fun x y => x.time < y.time) →
    l.head? = some p → ∃ q, (trimPoses t l).head? = some q ∧ (p.time ≤ t → q.time ≤ t) ∧ (t < p.time → q = p)
  | [], p, _, h => by cases h
  | [a], p, _, h => by cases h; exact ⟨a, rfl, id, fun _ => rfl⟩
  | [a, b], p, _, h => by cases h; exact ⟨a, rfl, id, fun _ => rfl⟩
  | a :: b :: c :: l, p, ho, h => by
    cases h
    rw [trimPoses]
    rw [List.pairwise_cons] at ho
    have hab := ho.1 b (List.mem_cons_self ..)
    split
    · rename_i hb
      obtain ⟨q, h1, h2, -⟩ := trimPoses_head t ho.2 (p := b) rfl
      exact ⟨q, h1, fun _ => h2 hb, fun h => by omega⟩
    · exact ⟨a, rfl, id, fun _ => rfl⟩

/-- What holds while poses on a line are added, the first at time `f`, and no odometry. -/
structure OnLine (P : Params) (a v : V3) (f : Option Int) (s : State) : Prop where
  noOdometry : s.odometry = []
  ordered : s.poses.Pairwise (fun x y => x.time < y.time)
  line : ∀ p ∈ s.poses, p.pose.translation = line a v p.time
  start : f = none ↔ s.poses = []
  first : ∀ t ∈ f, ∀ p q, s.poses.head? = some p → newest s = some q → t ≤ p.time ∧ (p.time = t ∨ p.time + P.duration ≤ q.time)
  velocity : ∀ t ∈ f, ∀ q, newest s = some q → t + P.duration ≤ q.time → s.linearFromPoses = v

theorem head_le_last {l : List TimedPose} (h : l.Pairwise (fun x y => x.time < y.time)) {p q : TimedPose}
    (hp : l.head? = some p) (hq : l.getLast? = some q) : p.time ≤ q.time := by
  cases l with
  | nil => cases hp
  | cons a l =>
    cases hp
    rw [List.pairwise_cons] at h
    have := List.mem_of_getLast? hq
    rw [List.mem_cons] at this
    rcases this with rfl | hm
    · exact le_refl _
    · exact le_of_lt (h.1 _ hm)

theorem toSeconds_lt {x y : Int} : toSeconds x < toSeconds y ↔ x < y := by
  unfold toSeconds
  rw [div_lt_div_iff_of_pos_right (by norm_num)]
  exact Int.cast_lt

theorem OnLine.addPose {P : Params} (hd : 0 < P.duration) {a v : V3} {f : Option Int} {s s' : State} {t : Int} {p : Rigid3}
    (h : OnLine P a v f s) (hp : p.translation = Extrapolator.line a v t) (ht : ∀ q ∈ newest s, q.time < t)
    (hs : Extrapolator.addPose P s t p = .ok s') : OnLine P a v (some (f.getD t)) s' := by
  simp only [Extrapolator.addPose, bind_ok] at hs
  obtain ⟨s1, h1, tr, -, h3⟩ := hs
  injection h3 with h3
  have hlast : (trimPoses (t - P.duration) (s.poses ++ [⟨t, p⟩])).getLast? = some ⟨t, p⟩ := by
    rw [getLast?_trimPoses]; simp
  have hord : (s.poses ++ [(⟨t, p⟩ : TimedPose)]).Pairwise (fun x y => x.time < y.time) := by
    rw [List.pairwise_append]
    refine ⟨h.ordered, List.pairwise_singleton _ _, ?_⟩
    intro x hx y hy
    rw [List.mem_singleton] at hy
    subst hy
    -- every pose is at or before the newest
    have hne : s.poses ≠ [] := List.ne_nil_of_mem hx
    have hl := ht _ (List.getLast?_eq_some_getLast hne)
    have hle : x.time ≤ (s.poses.getLast hne).time := by
      have := h.ordered
      rw [← List.dropLast_append_getLast hne] at this hx
      rw [List.pairwise_append] at this
      rw [List.mem_append, List.mem_singleton] at hx
      rcases hx with hx | rfl
      · exact le_of_lt (this.2.2 x hx _ (List.mem_singleton_self _))
      · exact le_refl _
    exact lt_of_le_of_lt hle hl
  have hline : ∀ x ∈ s.poses ++ [(⟨t, p⟩ : TimedPose)], x.pose.translation = Extrapolator.line a v x.time := by
    intro x hx
    rw [List.mem_append, List.mem_singleton] at hx
    rcases hx with hx | rfl
    · exact h.line x hx
    · exact hp
  obtain ⟨k, hk⟩ := trimPoses_sub (t - P.duration) (s.poses ++ [⟨t, p⟩])
  -- the first pose so far
  obtain ⟨p0, hp0⟩ : ∃ p0, (s.poses ++ [(⟨t, p⟩ : TimedPose)]).head? = some p0 := by
    cases s.poses <;> exact ⟨_, rfl⟩
  have hfirst : f.getD t ≤ p0.time ∧ (p0.time = f.getD t ∨ p0.time + P.duration ≤ t) := by
    cases hf : f with
    | none =>
      rw [(h.start).1 hf] at hp0
      cases hp0
      exact ⟨le_refl _, Or.inl rfl⟩
    | some t0 =>
      have hne : s.poses ≠ [] := fun hx => by rw [h.start.2 hx] at hf; cases hf
      have hh : s.poses.head? = some p0 := by
        cases hx : s.poses with
        | nil => exact absurd hx hne
        | cons b l => rw [hx] at hp0; exact hp0
      have hq : newest s = some (s.poses.getLast hne) := List.getLast?_eq_some_getLast hne
      have := h.first t0 hf p0 _ hh hq
      have h4 := ht _ hq
      rw [Option.getD_some]
      omega
  obtain ⟨q, hq1, hq2, hq3⟩ := trimPoses_head (t - P.duration) hord hp0
  have hqmem : q ∈ s.poses ++ [(⟨t, p⟩ : TimedPose)] := by
    have := List.mem_of_head? hq1
    rw [hk] at this
    exact List.mem_of_mem_drop this
  -- the state after the velocities were updated
  obtain ⟨b, w, hs1⟩ := updateVelocities_ok h1
  have hvel : f.getD t + P.duration ≤ t → s1.linearFromPoses = v := by
    intro hlim
    have hql : q.time ≤ t - P.duration := hq2 (by omega)
    unfold updateVelocities at h1
    simp only at h1
    split at h1
    · rename_i x y l hl
      rw [hl] at hq1
      cases hq1
      simp only [newest, hlast] at h1
      rw [if_neg (by rw [toSeconds_lt]; omega)] at h1
      split at h1
      · cases h1
      · rename_i hne
        injection h1 with h1
        rw [← h1]
        have e1 : p.translation = Extrapolator.line a v t := hp
        have e2 : q.pose.translation = Extrapolator.line a v q.time := hline q hqmem
        simp only [e1, e2]
        have hc : toSeconds (t - q.time) = toSeconds t - toSeconds q.time := by
          unfold toSeconds; push_cast; ring
        rw [hc] at hne ⊢
        ext <;> simp only [vdiv, vadd, smul, Extrapolator.line] <;> field_simp <;> ring
    · rename_i hx
      exfalso
      cases hl : trimPoses (t - P.duration) (s.poses ++ [⟨t, p⟩]) with
      | nil => rw [hl] at hq1; cases hq1
      | cons x l =>
        cases l with
        | cons y l => exact hx x y l hl
        | nil =>
          rw [hl] at hq1 hlast
          cases hq1
          cases hlast
          simp only at hql
          omega
  have hposes : s'.poses = trimPoses (t - P.duration) (s.poses ++ [⟨t, p⟩]) ∧ s'.odometry = [] ∧
      s'.linearFromPoses = s1.linearFromPoses := by
    obtain ⟨l, hl, -⟩ := trimImu_eq { s1 with tracker := some tr }
    rw [hl] at h3
    unfold trimOdometryData at h3
    rw [← h3, hs1]
    split <;> simp [h.noOdometry, trimPoses]
  have hnew : newest s' = some ⟨t, p⟩ := by rw [newest, hposes.1, hlast]
  refine ⟨hposes.2.1, ?_, ?_, ?_, ?_, ?_⟩
  · rw [hposes.1, hk]; exact hord.drop
  · intro x hx
    rw [hposes.1, hk] at hx
    exact hline x (List.mem_of_mem_drop hx)
  · refine ⟨(fun hx => by cases hx), fun hx => ?_⟩
    rw [hposes.1] at hx
    rw [hx] at hlast
    cases hlast
  · intro t0 ht0 x y hx hy
    cases ht0
    rw [hposes.1, hq1] at hx
    rw [hnew] at hy
    cases hx
    cases hy
    simp only
    rcases Int.lt_or_le (t - P.duration) p0.time with hc | hc
    · have := hq3 hc
      subst this
      omega
    · have h5 := hq2 hc
      refine ⟨?_, Or.inr (by omega)⟩
      have hle : p0.time ≤ q.time := by
        have hh := hord
        cases hl : s.poses ++ [(⟨t, p⟩ : TimedPose)] with
        | nil => rw [hl] at hp0; cases hp0
        | cons z l =>
          rw [hl] at hp0 hh hqmem
          cases hp0
          rw [List.pairwise_cons] at hh
          rw [List.mem_cons] at hqmem
          rcases hqmem with rfl | hm
          · exact le_refl _
          · exact le_of_lt (hh.1 _ hm)
      omega
  · intro t0 ht0 y hy hle
    cases ht0
    rw [hnew] at hy
    cases hy
    rw [hposes.2.2]
    exact hvel hle

/-- The calls: poses on the line with increasing times, IMU data and extrapolations, but no odometry. -/
def LineCalls (a v : V3) : Option Int → List Call → Prop
  | _, [] => True
  | last, .pose time pose :: cs =>
    pose.translation = line a v time ∧ (∀ t ∈ last, t < time) ∧ LineCalls a v (some time) cs
  | _, .odometry _ :: _ => False
  | last, .imu _ :: cs => LineCalls a v last cs
  | last, .extrapolate _ :: cs => LineCalls a v last cs

/-- The time of the first pose. -/
def firstPose : List Call → Option Int
  | [] => none
  | .pose time _ :: _ => some time
  | _ :: cs => firstPose cs

theorem OnLine.run {P : Params} (hd : 0 < P.duration) {a v : V3} {cs : List Call} : ∀ {s t : State} {f : Option Int},
    OnLine P a v f s → LineCalls a v ((newest s).map TimedPose.time) cs → Run P s cs t →
    OnLine P a v (f.or (firstPose cs)) t := by
  induction cs with
  | nil =>
    intro s t f h _ hr
    cases hr
    simpa [firstPose] using h
  | cons c cs ih =>
    intro s t f h hl hr
    cases hr with
    | cons hc hr =>
      rename_i s1
      cases c with
      | pose time pose =>
        obtain ⟨h1, h2, h3⟩ := hl
        have h' := h.addPose hd h1 (fun q hq => h2 _ (by rw [hq]; rfl)) hc
        obtain ⟨_, _, -, -, hn, -⟩ := addPose_ok hc
        have := ih h' (by rw [hn]; exact h3) hr
        cases f <;> simpa [firstPose] using this
      | imu d =>
        have hs : ∃ l, s1 = { s with imu := l } := by
          simp only [call, addImu] at hc
          split at hc
          · injection hc with hc
            obtain ⟨l, hl, -⟩ := trimImu_eq { s with imu := s.imu ++ [d] }
            exact ⟨l, by rw [← hc, hl]⟩
          · cases hc
        obtain ⟨l, rfl⟩ := hs
        exact ih (s := { s with imu := l }) (f := f) ⟨h.1, h.2, h.3, h.4, h.5, h.6⟩ hl hr
      | odometry d => exact hl.elim
      | extrapolate time =>
        have hs : s1.poses = s.poses ∧ s1.odometry = s.odometry ∧ s1.linearFromPoses = s.linearFromPoses := by
          simp only [call, bind_ok] at hc
          obtain ⟨r, hc, h2⟩ := hc
          injection h2 with h2
          subst h2
          unfold extrapolatePose at hc
          split at hc
          · cases hc
          · split at hc
            · split at hc
              · injection hc with hc
                subst hc
                exact ⟨rfl, rfl, rfl⟩
              · split at hc
                · cases hc
                · simp only [bind_ok] at hc
                  obtain ⟨_, -, hc⟩ := hc
                  injection hc with hc
                  subst hc
                  exact ⟨rfl, rfl, rfl⟩
            · cases hc
        obtain ⟨e1, e2, e3⟩ := hs
        have hn : newest s1 = newest s := by unfold newest; rw [e1]
        refine ih (s := s1) (f := f) ⟨by rw [e2]; exact h.1, by rw [e1]; exact h.2, by rw [e1]; exact h.3, by rw [e1]; exact h.4,
          by rw [e1, hn]; exact h.5, by rw [hn, e3]; exact h.6⟩ (by rw [hn]; exact hl) hr

/-- A motion with constant velocity is extrapolated exactly, from poses that cover at least the duration of the queue,
without odometry; the rotations and the IMU data do not matter. -/
theorem extrapolate_constant_velocity {P : Params} (hd : 0 < P.duration) {a v : V3} {cs : List Call} {s s' : State}
    (hl : LineCalls a v none cs) (hr : Run P {} cs s) {first : Int} {last : TimedPose} (hf : firstPose cs = some first)
    (hn : newest s = some last) (hlong : first + P.duration ≤ last.time) {time : Int} {pose : Rigid3}
    (hc : s.cachedTime ≠ some time) (h : extrapolatePose P s time = .ok (pose, s')) :
    pose.translation = line a v time := by
  have h0 : OnLine P a v none {} := ⟨rfl, List.Pairwise.nil, by simp, by simp, by simp, by simp⟩
  have hi := h0.run hd hl hr
  rw [Option.none_or, hf] at hi
  unfold extrapolatePose at h
  rw [hn] at h
  simp only [if_neg hc] at h
  split at h
  · split at h
    · cases h
    · simp only [bind_ok] at h
      obtain ⟨_, -, h⟩ := h
      injection h with h
      have h1 := congrArg (fun x => x.1.translation) h
      simp only at h1
      rw [← h1, hi.line last (List.mem_of_getLast? hn)]
      unfold extrapolateTranslation
      rw [hi.noOdometry, List.length_nil, if_pos (by omega), hi.velocity first rfl last hn hlong]
      ext <;> simp only [vadd, smul, line, toSeconds] <;> push_cast <;> ring
  · cases h

/-- The condition is needed: `ExtrapolatePose` for the time of the last extrapolated pose returns that pose, whatever poses
were added since. -/
theorem extrapolate_stale {P : Params} {s s' : State} {time : Int} {pose : Rigid3} (h : addPose P s time pose = .ok s')
    (hc : s.cachedTime = some time) : extrapolatePose P s' time = .ok (s.cachedPose, s') := by
  obtain ⟨s1, tr, -, h2, hn, h3, h4, h5, h6, h7, -, -, -⟩ := addPose_ok h
  unfold extrapolatePose
  rw [hn]
  simp only [le_refl, if_true]
  rw [h6, if_pos hc, h7]

/-! ### Which calls abort -/

/-- `GetLastExtrapolatedTime` (pe 61-66), where `none` is `Time::min()`. -/
def lastExtrapolatedTime (s : State) : Option Int := s.extrapolationTracker.map Tracker.time

theorem extrapolateRotation_error {P : Params} (hF : TwoVectors P.fromTwoVectors) {s : State} {t : Int} {tr base : Tracker}
    {e : Abort} (hb : s.tracker = some base) (hu : tr.orientation.Unit) (ho : Ordered s.imu) (ht : tr.time ≤ t)
    (h : extrapolateRotation P s t tr = .error e) : e = .gravity := by
  unfold extrapolateRotation at h
  rw [hb] at h
  simp only [bind_error] at h
  obtain h | ⟨a, -, h⟩ := h
  · exact advanceImu_error hF hu ho ht h
  · cases h

theorem extrapolate_total_inv {P : Params} (hF : TwoVectors P.fromTwoVectors) {s : State} (hi : Inv s) {p : TimedPose}
    (hp : newest s = some p) {time : Int} (h1 : p.time ≤ time) (h2 : ∀ t ∈ lastExtrapolatedTime s, t ≤ time) :
    (∃ r, extrapolatePose P s time = .ok r) ∨ extrapolatePose P s time = .error .gravity := by
  obtain ⟨⟨base, hb, -⟩, -, tr, htr⟩ := hi.started p hp
  cases hres : extrapolatePose P s time with
  | ok r => exact Or.inl ⟨r, rfl⟩
  | error e =>
    refine Or.inr ?_
    unfold extrapolatePose at hres
    rw [hp] at hres
    simp only [h1, if_true] at hres
    split at hres
    · cases hres
    · rw [htr] at hres
      simp only [bind_error] at hres
      obtain h | ⟨a, -, h⟩ := hres
      · have := extrapolateRotation_error hF hb (hi.unitExtrapolation tr htr) hi.ordered
          (h2 tr.time (by simp [lastExtrapolatedTime, htr])) h
        rw [this]
      · cases h

/-- C41, second part: after any calls, once a pose was added, `ExtrapolatePose` for a time that is neither before the newest
pose nor before the last extrapolated time returns a pose, or one of the two `CHECK`s on the gravity direction fails (see
`observe_error_iff` for when). -/
theorem extrapolate_total_partial {P : Params} (hF : TwoVectors P.fromTwoVectors) {s0 s : State} {cs : List Call}
    (hm : Made P s0 cs) (hr : Run P s0 cs s) {p : TimedPose} (hp : newest s = some p) {time : Int} (h1 : p.time ≤ time)
    (h2 : ∀ t ∈ lastExtrapolatedTime s, t ≤ time) :
    (∃ r, extrapolatePose P s time = .ok r) ∨ extrapolatePose P s time = .error .gravity :=
  extrapolate_total_inv hF (made_inv hF hm hr) hp h1 h2

/-- A call that returns a pose for another time than the one before makes its time the last extrapolated one. -/
theorem extrapolate_last {P : Params} (hF : TwoVectors P.fromTwoVectors) {s0 s : State} {cs : List Call}
    (hm : Made P s0 cs) (hr : Run P s0 cs s) {time : Int} {r : Rigid3 × State} (h : extrapolatePose P s time = .ok r)
    (hc : s.cachedTime ≠ some time) : lastExtrapolatedTime r.2 = some time := by
  have hi := made_inv hF hm hr
  unfold extrapolatePose at h
  split at h
  · cases h
  · split at h
    · first | rw [if_neg hc] at h | skip
      split at h
      · cases h
      · rename_i tr htr
        simp only [bind_ok] at h
        obtain ⟨r', h1, h2⟩ := h
        injection h2 with h2
        subst h2
        have := extrapolateRotation_ok hF (hi.unitExtrapolation tr htr) h1
        simp [lastExtrapolatedTime, this.2]
    · cases h

theorem addPose_total_inv {P : Params} (hF : TwoVectors P.fromTwoVectors) {s : State} (hi : Inv s) {time : Int}
    (ht : ∀ p ∈ newest s, p.time ≤ time) {pose : Rigid3} {e : Abort} (h : addPose P s time pose = .error e) :
    e = .gravity ∨ (e = .division ∧ P.duration ≤ 0) := by
  simp only [addPose, bind_error] at h
  obtain h | ⟨s1, h1, h | ⟨tr, h2, h3⟩⟩ := h
  · right
    unfold updateVelocities at h
    split at h
    · split at h
      · rename_i hn
        have : (trimPoses (time - P.duration) (s.poses ++ [⟨time, pose⟩])).getLast? = none := hn
        rw [getLast?_trimPoses] at this
        simp at this
      · simp only at h
        split at h
        · cases h
        · rename_i hd
          split at h
          · rename_i h0
            injection h with h
            refine ⟨h.symm, ?_⟩
            rw [h0] at hd
            simp only [toSeconds, not_lt] at hd
            have : (P.duration : ℝ) ≤ 0 := by
              by_contra hpos
              push Not at hpos
              have := div_pos hpos (show (0 : ℝ) < 10 ^ 7 by norm_num)
              linarith
            exact_mod_cast this
          · cases h
    · cases h
  · left
    obtain ⟨a, b, rfl⟩ := updateVelocities_ok h1
    refine advanceImu_error hF (startTracker_unit hi time) ?_ ?_ h
    · exact hi.ordered
    unfold startTracker
    cases hs : s.tracker with
    | none =>
      show (Tracker.new _).time ≤ time
      cases s.imu with
      | nil => exact le_refl _
      | cons a l => exact min_le_left _ _
    | some tr =>
      cases hn : newest s with
      | none => rw [hi.fresh hn] at hs; cases hs
      | some p =>
        obtain ⟨⟨tr', h3, h4⟩, -⟩ := hi.started p hn
        rw [hs] at h3
        injection h3 with h3
        subst h3
        show tr.time ≤ time
        rw [h4]
        exact ht p (by rw [hn]; rfl)
  · cases h3

/-- `AddPose` for a time that is not before the newest pose returns, or the gravity direction cannot be determined, or two
poses of the same time are used to estimate a velocity; the last needs a queue duration that is not positive. -/
theorem addPose_total {P : Params} (hF : TwoVectors P.fromTwoVectors) {s0 s : State} {cs : List Call}
    (hm : Made P s0 cs) (hr : Run P s0 cs s) {time : Int} (ht : ∀ p ∈ newest s, p.time ≤ time) {pose : Rigid3} {e : Abort}
    (h : addPose P s time pose = .error e) : e = .gravity ∨ (e = .division ∧ P.duration ≤ 0) :=
  addPose_total_inv hF (made_inv hF hm hr) ht h

/-- `AddImuData` aborts exactly for data before the newest pose. -/
theorem addImu_error_iff (s : State) (d : Imu) : (∃ e, addImu s d = .error e) ↔ ∃ p ∈ newest s, d.time < p.time := by
  unfold addImu notBefore
  cases h : newest s with
  | none => simp
  | some p =>
    by_cases hd : p.time ≤ d.time
    · simp [hd]
    · simp [hd]; omega

theorem addOdometry_total_inv {P : Params} (hF : TwoVectors P.fromTwoVectors) {s : State} (hi : Inv s) {d : TimedPose}
    (ht : ∀ p ∈ newest s, p.time ≤ d.time) (ho : ∀ o ∈ s.odometry.getLast?, o.time ≤ d.time) {e : Abort}
    (h : addOdometry P s d = .error e) :
    e = .gravity ∨ (e = .division ∧ ∃ l oldest, trimOdometryData { s with odometry := s.odometry ++ [d] } = { s with odometry := l } ∧
      l.head? = some oldest ∧ 2 ≤ l.length ∧ oldest.time = d.time) := by
  unfold addOdometry at h
  have hb : notBefore s d.time = true := by
    unfold notBefore
    cases hn : newest s with
    | none => rfl
    | some p => exact decide_eq_true (ht p (by rw [hn]; rfl))
  rw [if_pos hb] at h
  obtain ⟨l, hl, hl1⟩ := trimOdometry_eq { s with odometry := s.odometry ++ [d] }
  have hl2 : l.getLast? = some d := by rw [hl1]; simp
  simp only [hl] at h
  split at h
  · rw [hl2] at h
    simp only [odometryVelocities] at h
    split at h
    · rename_i h0
      injection h with h
      refine Or.inr ⟨h.symm, _, _, hl, rfl, by simp, ?_⟩
      simp only [toSeconds, div_eq_zero_iff] at h0
      rcases h0 with h0 | h0
      · have : (_ : Int) = 0 := Int.cast_eq_zero.1 h0
        omega
      · norm_num at h0
    · left
      split at h
      · cases h
      · rename_i p hp hn
        obtain ⟨-, ⟨tr, h1, -⟩, -⟩ := hi.started _ hp
        have hn' : s.odometryTracker = none := hn
        rw [hn'] at h1; cases h1
      · rename_i p tr hp htr
        obtain ⟨⟨base, hb, -⟩, ⟨tr', h1, h2⟩, -⟩ := hi.started _ hp
        have htr' : s.odometryTracker = some tr := htr
        rw [h1] at htr'
        injection htr' with htr'
        subst htr'
        simp only [bind_error] at h
        obtain h | ⟨a, -, h⟩ := h
        · refine extrapolateRotation_error hF (base := base) ?_ (hi.unitOdometry tr' h1) ?_ ?_ h
          · exact hb
          · exact hi.ordered
          rcases h2 with h2 | ⟨o, ho', h2⟩
          · rw [h2]; exact ht _ hp
          · rw [h2]; exact ho o ho'
        · cases h
  · cases h

/-- `AddOdometryData` for data in order and not before the newest pose returns, or the gravity direction cannot be
determined, or it has the time of the oldest data that is still kept. -/
theorem addOdometry_total {P : Params} (hF : TwoVectors P.fromTwoVectors) {s0 s : State} {cs : List Call}
    (hm : Made P s0 cs) (hr : Run P s0 cs s) {d : TimedPose} (ht : ∀ p ∈ newest s, p.time ≤ d.time)
    (ho : ∀ o ∈ s.odometry.getLast?, o.time ≤ d.time) {e : Abort} (h : addOdometry P s d = .error e) :
    e = .gravity ∨ e = .division :=
  (addOdometry_total_inv hF (made_inv hF hm hr) ht ho h).imp_right And.left

/-! ### The assumption on `FromTwoVectors` can be met -/

/-- A vector of length one that is perpendicular to the given one. -/
noncomputable def perpendicular (v : V3) : V3 :=
  if 0 < v.x ^ 2 + v.y ^ 2 then ⟨-v.y / √(v.x ^ 2 + v.y ^ 2), v.x / √(v.x ^ 2 + v.y ^ 2), 0⟩ else ⟨1, 0, 0⟩

/-- `setFromTwoVectors` (Eigen) with an exact treatment of opposite vectors. -/
noncomputable def twoVectors (a b : V3) : Quat :=
  let v := smul (1 / a.norm) a
  let c := v.x * b.x + v.y * b.y + v.z * b.z
  if -1 < c then
    let r := √((1 + c) * 2)
    let axis := cross v b
    ⟨r / 2, axis.x / r, axis.y / r, axis.z / r⟩
  else
    let p := perpendicular v
    ⟨0, p.x, p.y, p.z⟩

theorem norm_eq_one {v : V3} (h : v.norm = 1) : v.x ^ 2 + v.y ^ 2 + v.z ^ 2 = 1 := by
  rw [← norm_sq, h]; norm_num

theorem perpendicular_spec (v : V3) :
    (perpendicular v).x ^ 2 + (perpendicular v).y ^ 2 + (perpendicular v).z ^ 2 = 1 ∧
      (perpendicular v).x * v.x + (perpendicular v).y * v.y + (perpendicular v).z * v.z = 0 := by
  unfold perpendicular
  split
  · rename_i h
    have hs : √(v.x ^ 2 + v.y ^ 2) ^ 2 = v.x ^ 2 + v.y ^ 2 := Real.sq_sqrt h.le
    have hne : √(v.x ^ 2 + v.y ^ 2) ≠ 0 := (Real.sqrt_pos.2 h).ne'
    constructor
    · simp only [div_pow, hs]
      field_simp
      ring
    · simp only
      field_simp
      ring
  · rename_i h
    have hx : v.x = 0 := by nlinarith [sq_nonneg v.x, sq_nonneg v.y]
    simp [hx]

/-- Rotating a vector of length one. -/
theorem twoVectors_rotate {v b : V3} (hv : v.x ^ 2 + v.y ^ 2 + v.z ^ 2 = 1) (hb : b.x ^ 2 + b.y ^ 2 + b.z ^ 2 = 1)
    {c : ℝ} (hc : c = v.x * b.x + v.y * b.y + v.z * b.z) {r : ℝ} (hr0 : r ≠ 0) (hr : r ^ 2 = (1 + c) * 2) :
    let q : Quat := ⟨r / 2, (cross v b).x / r, (cross v b).y / r, (cross v b).z / r⟩
    q.Unit ∧ q.rotate v = b := by
  intro q
  have hc0 : (1 + c) ≠ 0 := by
    intro h0
    rw [h0, zero_mul] at hr
    exact hr0 (pow_eq_zero_iff two_ne_zero |>.1 hr)
  have hr1 : 1 / r ^ 2 = 1 / ((1 + c) * 2) := by rw [hr]
  constructor
  · simp only [Quat.Unit, q, div_pow, cross, hr]
    have hn : (v.y * b.z - v.z * b.y) ^ 2 + (v.z * b.x - v.x * b.z) ^ 2 + (v.x * b.y - v.y * b.x) ^ 2 = 1 - c ^ 2 := by
      rw [hc]
      linear_combination (b.x ^ 2 + b.y ^ 2 + b.z ^ 2) * hv + hb
    field_simp
    linear_combination hn
  · have h1 : cross (cross v b) v = ⟨b.x - c * v.x, b.y - c * v.y, b.z - c * v.z⟩ := by
      ext <;> simp only [cross, hc]
      · linear_combination b.x * hv
      · linear_combination b.y * hv
      · linear_combination b.z * hv
    have h2 : cross (cross v b) (cross (cross v b) v) =
        ⟨-(1 - c ^ 2) * v.x, -(1 - c ^ 2) * v.y, -(1 - c ^ 2) * v.z⟩ := by
      rw [h1]
      ext <;> simp only [cross, hc]
      · linear_combination (-v.x) * hb + (-(v.x * b.x + v.y * b.y + v.z * b.z) * b.x) * hv
      · linear_combination (-v.y) * hb + (-(v.x * b.x + v.y * b.y + v.z * b.z) * b.y) * hv
      · linear_combination (-v.z) * hb + (-(v.x * b.x + v.y * b.y + v.z * b.z) * b.z) * hv
    have h3 : q.rotate v = ⟨v.x + (cross (cross v b) v).x + 2 / r ^ 2 * (cross (cross v b) (cross (cross v b) v)).x,
        v.y + (cross (cross v b) v).y + 2 / r ^ 2 * (cross (cross v b) (cross (cross v b) v)).y,
        v.z + (cross (cross v b) v).z + 2 / r ^ 2 * (cross (cross v b) (cross (cross v b) v)).z⟩ := by
      ext <;> simp only [Quat.rotate, cross, q] <;> field_simp <;> ring
    rw [h3, h2, h1, hr]
    have h4 (x : ℝ) : 2 / ((1 + c) * 2) * (-(1 - c ^ 2) * x) = -(1 - c) * x := by
      field_simp; ring
    ext <;> simp only [h4] <;> ring

theorem twoVectors_spec : TwoVectors twoVectors := by
  have hv : ∀ a : V3, a.norm ≠ 0 → (smul (1 / a.norm) a).x ^ 2 + (smul (1 / a.norm) a).y ^ 2 +
      (smul (1 / a.norm) a).z ^ 2 = 1 := by
    intro a ha
    apply norm_eq_one
    rw [norm_smul (div_nonneg zero_le_one (norm_nonneg' a)), one_div, inv_mul_cancel₀ ha]
  have ha' : ∀ a : V3, a.norm ≠ 0 → a = smul a.norm (smul (1 / a.norm) a) := by
    intro a ha
    ext <;> simp only [smul] <;> field_simp
  have main : ∀ a b : V3, a.norm ≠ 0 → b.norm = 1 →
      (twoVectors a b).Unit ∧ (twoVectors a b).rotate (smul (1 / a.norm) a) = b := by
    intro a b ha hb
    unfold twoVectors
    simp only
    split
    · rename_i hc
      refine twoVectors_rotate (hv a ha) (norm_eq_one hb) rfl ?_ ?_
      · exact (Real.sqrt_pos.2 (by linarith)).ne'
      · rw [Real.sq_sqrt (by linarith)]
    · rename_i hc
      have h1 := hv a ha
      have h2 := norm_eq_one hb
      obtain ⟨h3, h4⟩ := perpendicular_spec (smul (1 / a.norm) a)
      generalize smul (1 / a.norm) a = v at *
      generalize perpendicular v = p at *
      have hs : (v.x + b.x) ^ 2 + (v.y + b.y) ^ 2 + (v.z + b.z) ^ 2 = 0 := by
        nlinarith [sq_nonneg (v.x + b.x), sq_nonneg (v.y + b.y), sq_nonneg (v.z + b.z)]
      have hx : b.x = -v.x := by nlinarith [sq_nonneg (v.x + b.x), sq_nonneg (v.y + b.y), sq_nonneg (v.z + b.z)]
      have hy : b.y = -v.y := by nlinarith [sq_nonneg (v.x + b.x), sq_nonneg (v.y + b.y), sq_nonneg (v.z + b.z)]
      have hz : b.z = -v.z := by nlinarith [sq_nonneg (v.x + b.x), sq_nonneg (v.y + b.y), sq_nonneg (v.z + b.z)]
      refine ⟨by simp only [Quat.Unit]; linarith, ?_⟩
      ext
      · simp only [Quat.rotate, cross, hx]; linear_combination 2 * p.x * h4 - 2 * v.x * h3
      · simp only [Quat.rotate, cross, hy]; linear_combination 2 * p.y * h4 - 2 * v.y * h3
      · simp only [Quat.rotate, cross, hz]; linear_combination 2 * p.z * h4 - 2 * v.z * h3
  refine ⟨fun a b ha hb => (main a b ha hb).1, ?_, ?_⟩
  · intro a b ha hb
    calc (twoVectors a b).rotate a = (twoVectors a b).rotate (smul a.norm (smul (1 / a.norm) a)) := congrArg _ (ha' a ha)
      _ = smul a.norm b := by rw [rotate_smul, (main a b ha hb).2]
  · intro b c hc hb
    have hn : (smul c b).norm = c := by rw [norm_smul hc.le, hb, mul_one]
    have h1 : smul (1 / (smul c b).norm) (smul c b) = b := by
      rw [hn]
      ext <;> simp only [smul] <;> field_simp
    have h2 : b.x * b.x + b.y * b.y + b.z * b.z = 1 := by linarith [norm_eq_one hb]
    unfold twoVectors
    simp only [h1, h2]
    rw [if_pos (by norm_num)]
    have h3 : √((1 + 1) * 2) = (2 : ℝ) := by
      rw [show ((1 : ℝ) + 1) * 2 = 2 ^ 2 by norm_num, Real.sqrt_sq (by norm_num)]
    rw [h3]
    ext <;> simp [cross, mul_comm]

/-! ### Examples -/

/-- A tracker that does not move and whose gravity points up. -/
def idle (t : Int) (l : Option Int) : Tracker := ⟨t, l, ⟨1, 0, 0, 0⟩, unitZ, ⟨0, 0, 0⟩⟩

theorem advance_idle {t0 t : Int} {l : Option Int} (h : t0 ≤ t) : advance (idle t0 l) t = .ok (idle t l) := by
  unfold advance
  rw [if_pos (show (idle t0 l).time ≤ t from h)]
  have h0 : smul (toSeconds (t - (idle t0 l).time)) (idle t0 l).angularVelocity = ⟨0, 0, 0⟩ := by simp [smul, idle]
  simp only [h0, fromAngleAxis_zero, quat_mul_one]
  simp [idle, normalized_unit one_unit, Quat.conjugate, rotate_one]

theorem observe_idle {P : Params} (hF : TwoVectors P.fromTwoVectors) {t : Int} {l : Option Int} :
    observe P (idle t l) unitZ = .ok (idle t (some t)) := by
  have hg : newGravity P (idle t l) unitZ = unitZ := by
    simp [newGravity, idle, vadd, smul, unitZ]
  have hc : (idle t l).orientation.conjugate.rotate unitZ = unitZ := by
    simp [idle, Quat.conjugate, rotate_one]
  have hz : P.fromTwoVectors unitZ unitZ = ⟨1, 0, 0, 0⟩ := by
    have h := hF.same unitZ 1 one_pos unitZ_norm
    rwa [show smul 1 unitZ = unitZ by simp [smul]] at h
  unfold observe
  simp only [hg, hc, hz, quat_mul_one]
  rw [show (idle t l).orientation = ⟨1, 0, 0, 0⟩ from rfl, normalized_unit one_unit, rotate_one, if_pos]
  · rfl
  · refine ⟨by simp [unitZ], ?_⟩
    unfold normalizedZ
    rw [unitZ_norm]
    simp [unitZ]
    norm_num

theorem advanceImu_idle {P : Params} (hF : TwoVectors P.fromTwoVectors) {s : State} (hi : s.imu = [])
    (hf : fakeAngularVelocity s = ⟨0, 0, 0⟩) {t0 t : Int} {l : Option Int} (h : t0 ≤ t) :
    advanceImuTracker P s t (idle t0 l) = .ok (idle t (some t)) := by
  unfold advanceImuTracker
  rw [if_pos (show (idle t0 l).time ≤ t from h), hi]
  simp only [advanceWithoutImu, bind_ok]
  exact ⟨_, advance_idle h, _, observe_idle hF, by rw [hf]; rfl⟩

/-- A queue duration of one second and a time constant of ten seconds. -/
noncomputable def exampleParams : Params := ⟨10 ^ 7, 10, twoVectors⟩

/-- A pose five meters from the origin. -/
def far : Rigid3 := ⟨⟨5, 0, 0⟩, ⟨1, 0, 0, 0⟩⟩

theorem addPose_first (p : Rigid3) : addPose exampleParams {} 0 p = .ok
    { poses := [⟨0, p⟩], tracker := some (idle 0 (some 0)), odometryTracker := some (idle 0 (some 0)),
      extrapolationTracker := some (idle 0 (some 0)) } := by
  simp only [addPose, bind_ok]
  refine ⟨{ poses := [⟨0, p⟩] }, rfl, idle 0 (some 0), ?_, rfl⟩
  exact advanceImu_idle (P := exampleParams) twoVectors_spec (t0 := 0) rfl (by simp [fakeAngularVelocity]) (le_refl _)

theorem extrapolate_first : extrapolatePose exampleParams
    { poses := [⟨0, Rigid3.identity⟩], tracker := some (idle 0 (some 0)), odometryTracker := some (idle 0 (some 0)),
      extrapolationTracker := some (idle 0 (some 0)) } 10 =
    .ok (Rigid3.identity,
      { poses := [⟨0, Rigid3.identity⟩], tracker := some (idle 0 (some 0)), odometryTracker := some (idle 0 (some 0)),
        extrapolationTracker := some (idle 10 (some 10)), cachedTime := some 10, cachedPose := Rigid3.identity }) := by
  have hr : extrapolateRotation exampleParams
      { poses := [⟨0, Rigid3.identity⟩], tracker := some (idle 0 (some 0)), odometryTracker := some (idle 0 (some 0)),
        extrapolationTracker := some (idle 0 (some 0)) } 10 (idle 0 (some 0)) =
      .ok (⟨1, 0, 0, 0⟩, idle 10 (some 10)) := by
    unfold extrapolateRotation
    simp only [bind_ok]
    refine ⟨idle 10 (some 10), ?_, ?_⟩
    · exact advanceImu_idle (P := exampleParams) twoVectors_spec rfl (by simp [fakeAngularVelocity]) (by norm_num)
    · simp only [idle, inverse_unit one_unit, conjugate_mul one_unit]
  have hp : (⟨vadd (extrapolateTranslation
      { poses := [⟨0, Rigid3.identity⟩], tracker := some (idle 0 (some 0)), odometryTracker := some (idle 0 (some 0)),
        extrapolationTracker := some (idle 0 (some 0)) } ⟨0, Rigid3.identity⟩ 10) Rigid3.identity.translation,
      Rigid3.identity.rotation.mul ⟨1, 0, 0, 0⟩⟩ : Rigid3) = Rigid3.identity := by
    rw [quat_mul_one]
    ext <;> simp [vadd, extrapolateTranslation, smul, Rigid3.identity]
  simp only [extrapolatePose, newest, List.getLast?_singleton]
  rw [if_pos (by norm_num), if_neg (by simp)]
  simp only [bind_ok]
  refine ⟨_, hr, ?_⟩
  simp only [hp]

/-- C41 is false as stated: after `AddPose(0, identity)`, `ExtrapolatePose(10)` and `AddPose(10, far)`, `ExtrapolatePose(10)`
returns the identity and not `far`. -/
theorem extrapolate_newest_false : ∃ (P : Params) (cs : List Call) (s s' s'' : State) (time : Int) (pose q : Rigid3),
    TwoVectors P.fromTwoVectors ∧ Made P {} cs ∧ Run P {} cs s ∧ addPose P s time pose = .ok s' ∧
      extrapolatePose P s' time = .ok (q, s'') ∧ q ≠ pose := by
  have hrun : Run exampleParams {} [.pose 0 Rigid3.identity, .extrapolate 10]
      { poses := [⟨0, Rigid3.identity⟩], tracker := some (idle 0 (some 0)), odometryTracker := some (idle 0 (some 0)),
        extrapolationTracker := some (idle 10 (some 10)), cachedTime := some 10, cachedPose := Rigid3.identity } := by
    refine .cons (addPose_first _) (.cons ?_ (.nil _))
    simp only [call, bind_ok]
    exact ⟨_, extrapolate_first, rfl⟩
  have hadd : ∃ s', addPose exampleParams
      { poses := [⟨0, Rigid3.identity⟩], tracker := some (idle 0 (some 0)), odometryTracker := some (idle 0 (some 0)),
        extrapolationTracker := some (idle 10 (some 10)), cachedTime := some 10, cachedPose := Rigid3.identity } 10 far =
      .ok s' := by
    simp only [addPose, bind_ok]
    refine ⟨_, { poses := [⟨0, Rigid3.identity⟩, ⟨10, far⟩], tracker := some (idle 0 (some 0)),
                 odometryTracker := some (idle 0 (some 0)), extrapolationTracker := some (idle 10 (some 10)),
                 cachedTime := some 10, cachedPose := Rigid3.identity }, ?_, idle 10 (some 10), ?_, rfl⟩
    · simp only [updateVelocities, newest, trimPoses, List.cons_append, List.nil_append]
      rw [show [TimedPose.mk 0 Rigid3.identity, ⟨10, far⟩].getLast? = some ⟨10, far⟩ from rfl]
      simp only
      rw [if_pos]
      simp [toSeconds, exampleParams]
      norm_num
    · exact advanceImu_idle (P := exampleParams) twoVectors_spec (t0 := 0) (l := some 0) (t := 10) rfl
        (by simp [fakeAngularVelocity]) (by norm_num)
  obtain ⟨s', hs'⟩ := hadd
  refine ⟨exampleParams, _, _, s', s', 10, far, Rigid3.identity, twoVectors_spec, ⟨by simp [imuTimes], Or.inl rfl⟩, hrun,
    hs', extrapolate_stale hs' rfl, ?_⟩
  intro h
  have := congrArg (fun r : Rigid3 => r.translation.x) h
  simp [Rigid3.identity, far] at this

/-- The assumptions of `extrapolate_newest_partial` can be met. -/
example : ∃ s' s'', addPose exampleParams {} 0 far = .ok s' ∧ extrapolatePose exampleParams s' 0 = .ok (far, s'') := by
  obtain ⟨s'', h⟩ := extrapolate_newest_partial (P := exampleParams) twoVectors_spec (cs := []) ⟨by simp [imuTimes], Or.inl rfl⟩
    (.nil _) (addPose_first far) (by simp)
  exact ⟨_, s'', addPose_first far, h⟩

/-- A second pose five meters away, one second later: ten meters after two seconds. -/
example : ∃ s s' r, Run exampleParams {} [.pose 0 Rigid3.identity, .pose (10 ^ 7) far] s ∧
    extrapolatePose exampleParams s (2 * 10 ^ 7) = .ok (r, s') ∧ r.translation = ⟨10, 0, 0⟩ := by
  have hadd : addPose exampleParams
      { poses := [⟨0, Rigid3.identity⟩], tracker := some (idle 0 (some 0)), odometryTracker := some (idle 0 (some 0)),
        extrapolationTracker := some (idle 0 (some 0)) } (10 ^ 7) far =
      .ok { poses := [⟨0, Rigid3.identity⟩, ⟨10 ^ 7, far⟩], linearFromPoses := ⟨5, 0, 0⟩, 
            tracker := some (idle (10 ^ 7) (some (10 ^ 7))), odometryTracker := some (idle (10 ^ 7) (some (10 ^ 7))),
            extrapolationTracker := some (idle (10 ^ 7) (some (10 ^ 7))) } := by
    simp only [addPose, bind_ok]
    refine ⟨{ poses := [⟨0, Rigid3.identity⟩, ⟨10 ^ 7, far⟩], linearFromPoses := ⟨5, 0, 0⟩,
              tracker := some (idle 0 (some 0)), odometryTracker := some (idle 0 (some 0)),
              extrapolationTracker := some (idle 0 (some 0)) }, ?_, idle (10 ^ 7) (some (10 ^ 7)), ?_, rfl⟩
    · have hdur : ¬ toSeconds (10 ^ 7 - 0) < toSeconds exampleParams.duration := by
        simp [toSeconds_lt, exampleParams]
      have hne : toSeconds (10 ^ 7 - 0) ≠ 0 := by simp [toSeconds]
      have e1 : toSeconds (10 ^ 7 - 0) = 1 := by norm_num [toSeconds]
      simp only [updateVelocities, trimPoses, List.cons_append, List.nil_append, newest, List.getLast?_cons_cons,
        List.getLast?_singleton, if_neg hdur, if_neg hne]
      rw [e1]
      have e2 : (inverse Rigid3.identity.rotation).mul far.rotation = ⟨1, 0, 0, 0⟩ := by
        rw [show far.rotation = ⟨1, 0, 0, 0⟩ from rfl, show Rigid3.identity.rotation = ⟨1, 0, 0, 0⟩ from rfl,
          inverse_unit one_unit, conjugate_mul one_unit]
      rw [e2]
      congr 2
      · ext <;> simp [vdiv, vadd, smul, far, Rigid3.identity]
      · simp only [toAngleAxis, normalized_unit one_unit, if_neg (show ¬ (1 : ℝ) < 0 by norm_num)]
        ext <;> simp [vdiv]
    · exact advanceImu_idle (P := exampleParams) twoVectors_spec (t0 := 0) (l := some 0) rfl
        (by simp [fakeAngularVelocity]) (by norm_num)
  have hrun : Run exampleParams {} [.pose 0 Rigid3.identity, .pose (10 ^ 7) far] _ :=
    .cons (addPose_first _) (.cons hadd (.nil _))
  have hex : ∃ r, extrapolatePose exampleParams
      { poses := [⟨0, Rigid3.identity⟩, ⟨10 ^ 7, far⟩], linearFromPoses := ⟨5, 0, 0⟩, 
        tracker := some (idle (10 ^ 7) (some (10 ^ 7))), odometryTracker := some (idle (10 ^ 7) (some (10 ^ 7))),
        extrapolationTracker := some (idle (10 ^ 7) (some (10 ^ 7))) } (2 * 10 ^ 7) = .ok r := by
    unfold extrapolatePose
    simp only [newest, List.getLast?_cons_cons, List.getLast?_singleton]
    rw [if_pos (by norm_num), if_neg (by simp)]
    simp only [bind_ok, extrapolateRotation]
    exact ⟨_, _, ⟨_, advanceImu_idle (P := exampleParams) twoVectors_spec rfl (by simp [fakeAngularVelocity]) (by norm_num),
      rfl⟩, rfl⟩
  obtain ⟨⟨r, s'⟩, hr⟩ := hex
  refine ⟨_, s', r, hrun, hr, ?_⟩
  have := extrapolate_constant_velocity (P := exampleParams) (by simp [exampleParams]) (a := ⟨0, 0, 0⟩) (v := ⟨5, 0, 0⟩)
    (first := 0) (last := ⟨10 ^ 7, far⟩)
    (cs := [.pose 0 Rigid3.identity, .pose (10 ^ 7) far])
    (by
      refine ⟨?_, by simp, ?_, by simp, trivial⟩
      · ext <;> simp [line, vadd, smul, Rigid3.identity, toSeconds]
      · ext <;> norm_num [line, vadd, smul, far, toSeconds]) hrun rfl rfl (by simp [exampleParams]) (by simp) hr
  rw [this]
  ext <;> norm_num [line, vadd, smul, toSeconds]

/-- The `CHECK` on the gravity direction can fail: an extrapolator cannot be initialised in free fall. -/
theorem free_fall_aborts {P : Params} (hF : TwoVectors P.fromTwoVectors) (t : Int) (w : V3) :
    initializeWithImu P ⟨t, ⟨0, 0, 0⟩, w⟩ = .error .gravity := by
  have h1 : observe P (Tracker.new t) ⟨0, 0, 0⟩ = .error .gravity :=
    (observe_error_iff hF one_unit).1.2 (by simp [newGravity, Tracker.new, alpha, vadd, smul])
  simp only [initializeWithImu, bind_error]
  exact Or.inr ⟨_, rfl, Or.inl h1⟩

/-- The order of the IMU data matters: it is not checked when the data is added, but the next pose makes the process abort.
(For these three entries the binary search of the code finds the first one, as the model does.) -/
theorem unordered_imu_aborts {P : Params} (hF : TwoVectors P.fromTwoVectors) (p : Rigid3) : ∃ s,
    Run P {} [.imu ⟨5, unitZ, ⟨0, 0, 0⟩⟩, .imu ⟨6, unitZ, ⟨0, 0, 0⟩⟩, .imu ⟨4, unitZ, ⟨0, 0, 0⟩⟩] s ∧
      addPose P s 10 p = .error .time := by
  refine ⟨_, .cons rfl (.cons rfl (.cons rfl (.nil _))), ?_⟩
  simp only [addPose, bind_error]
  refine Or.inr ⟨{ poses := [⟨10, p⟩], imu := [⟨5, unitZ, ⟨0, 0, 0⟩⟩, ⟨6, unitZ, ⟨0, 0, 0⟩⟩, ⟨4, unitZ, ⟨0, 0, 0⟩⟩] },
    rfl, Or.inl ?_⟩
  have hstep : ∀ (d t : Int) (x : Option Int) (l : List Imu), d < 10 → t ≤ d →
      follow P 10 (⟨d, unitZ, ⟨0, 0, 0⟩⟩ :: l) (idle t x) = follow P 10 l (idle d (some d)) := by
    intro d t x l hd ht
    rw [follow, if_pos hd, advance_idle ht]
    show (observe P (idle d x) unitZ >>= _) = _
    rw [observe_idle hF]
    rfl
  have h : follow P 10 [⟨5, unitZ, ⟨0, 0, 0⟩⟩, ⟨6, unitZ, ⟨0, 0, 0⟩⟩, ⟨4, unitZ, ⟨0, 0, 0⟩⟩] (idle 5 none) =
      .error .time := by
    rw [hstep 5 5 _ _ (by norm_num) (by norm_num), hstep 6 5 _ _ (by norm_num) (by norm_num), follow,
      if_pos (by norm_num)]
    rfl
  exact h

end Verif.Extrapolator
