import Verif.LocalTrajectoryBuilderLemmas

/-!
C64 and C65 for 2D: local SLAM accepts all data in order of time, and every point reaches the scan matcher once.
-/

namespace Verif.LocalBuilder

open Verif.Rigid

/-! ### Specification -/

/-- The time by which the sensor collator orders the data. -/
def Event.time {M : Type} : Event M → Int
  | .imu d => d.time
  | .odometry d => d.time
  | .range _ m _ => m.time

/-- What is assumed of the data: it arrives in order of time (C03), odometry with different times; points are sorted and not
after the time of their message; sensors are known; times are 64 bit numbers; IMU data comes only if it is to be used. -/
structure Valid {M : Type} (E : Env) (imu : Bool) (es : List (Event M)) : Prop where
  ordered : es.Pairwise (fun a b => a.time ≤ b.time)
  odometry : es.Pairwise (fun a b => ∀ d d', a = .odometry d → b = .odometry d' → d.time < d'.time)
  bounds : ∀ e ∈ es, RangeCollator.timeMin ≤ e.time ∧ e.time ≤ RangeCollator.timeMax
  messages : ∀ id m f, Event.range id m f ∈ es → id ∈ E.expected ∧ RangeCollator.GoodMessage m
  useImu : ∀ d, Event.imu d ∈ es → imu = true

/-- What is assumed of the functions that are not modelled: `std::sort` sorts, `FromTwoVectors` finds a rotation, the pose
queue covers some time. -/
structure Sound (E : Env) : Prop where
  sort : RangeCollator.IsSort E.sort
  twoVectors : Extrapolator.TwoVectors E.params.fromTwoVectors
  duration : 0 < E.params.duration

/-- A ray: origin and hit as measured by the sensor, and the pose it was measured from. -/
structure Ray where
  origin : V3
  hit : V3
  pose : Rigid3

/-- The measured distance. -/
noncomputable def Ray.range (r : Ray) : ℝ := √(r.origin.distSq r.hit)

/-- The point on the ray at the given distance. -/
noncomputable def Ray.at (r : Ray) (length : ℝ) : V3 :=
  ⟨r.origin.x + length / r.range * (r.hit.x - r.origin.x), r.origin.y + length / r.range * (r.hit.y - r.origin.y),
    r.origin.z + length / r.range * (r.hit.z - r.origin.z)⟩

/-- The returns in the local frame: rays with a distance within the limits. -/
noncomputable def returnsOf (o : Options) (rays : List Ray) : List V3 :=
  (rays.filter (fun r => decide (o.minRange ≤ r.range ∧ r.range ≤ o.maxRange))).map (fun r => r.pose.apply r.hit)

/-- The misses in the local frame: longer rays, cut to the given length. -/
noncomputable def missesOf (o : Options) (length : ℝ) (rays : List Ray) : List V3 :=
  (rays.filter (fun r => decide (o.minRange ≤ r.range ∧ o.maxRange < r.range))).map (fun r => r.pose.apply (r.at length))

/-- A scan that is used, the pose for each of its points and the scan matcher when it arrived. -/
structure Used (M : Type) where
  scan : Scan
  poses : List Rigid3
  matcher : M

/-- The rays of a scan. -/
def Used.rays {M : Type} (a : Used M) : List Ray :=
  (a.scan.ranges.zip a.poses).filterMap (fun x => (a.scan.origins[x.1.originIndex]?).map (fun o => ⟨o, x.1.position, x.2⟩))

/-- One rotation and translation per point. -/
def Used.Ok {M : Type} (a : Used M) : Prop := a.poses.length = a.scan.ranges.length ∧ ∀ p ∈ a.poses, p.Proper

/-- Poses that an extrapolator gives one after the other, for times that may depend on its state. -/
inductive Extrapolated (P : Extrapolator.Params) (pick : Extrapolator.State → Int → Int) :
    List Int → Extrapolator.State → List Rigid3 → Extrapolator.State → Prop where
  | nil (ext : Extrapolator.State) : Extrapolated P pick [] ext [] ext
  | cons {t : Int} {ts : List Int} {ext ext1 ext2 : Extrapolator.State} {pose : Rigid3} {poses : List Rigid3} :
      Extrapolator.extrapolatePose P ext (pick ext t) = .ok (pose, ext1) → Extrapolated P pick ts ext1 poses ext2 →
      Extrapolated P pick (t :: ts) ext (pose :: poses) ext2

/-- The time, or that of the last extrapolation if it is later. -/
def later (ext : Extrapolator.State) (t : Int) : Int :=
  match ext.extrapolationTracker with
  | none => t
  | some tr => max t tr.time

/-- The times of the points of a scan. -/
def pointTimes (x : Scan) : List Int := x.ranges.map (fun q => x.time + q.time)

/-- Each pose is the one of the extrapolator for the time of the point, which has the first state before and the second one after. -/
def Used.Timed {M : Type} (P : Extrapolator.Params) (a : Used M) (ext ext' : Extrapolator.State) : Prop :=
  Extrapolated P later (pointTimes a.scan) ext a.poses ext'

/-- Points moved to the gravity aligned frame of the last pose, within the limits of height, and filtered. -/
noncomputable def prepared (E : Env) (move : Rigid3) (points : List V3) : List V3 :=
  E.filter ((points.map move.apply).filter (fun p => decide (E.opts.minZ ≤ p.z ∧ p.z ≤ E.opts.maxZ)))

/-- The predicted pose in the plane: the extrapolated one without its tilt. -/
def Predicted (E : Env) (ext : Extrapolator.State) (time : Int) (gravity : Quat) (prediction : Rigid2) : Prop :=
  ∃ pose ext', Extrapolator.extrapolatePose E.params ext time = .ok (pose, ext') ∧
    prediction = project2D (pose.mul (⟨⟨0, 0, 0⟩, gravity⟩ : Rigid3).inverse)

/-- The outcome for a group of scans: the returns of all of them are matched, at the time of the last one. -/
def Matched (E : Env) (g : List (Used (Rigid2 → List V3 → Option Rigid2))) (out : Option Result) : Prop :=
  ∃ a last ext ext', ∃ gravity : Quat, g.getLast? = some a ∧ a.poses.getLast? = some last ∧ gravity.Unit ∧
    a.Timed E.params ext ext' ∧ Extrapolator.estimateGravity E.params ext' a.scan.time = .ok gravity ∧
    let move : Rigid3 := (⟨⟨0, 0, 0⟩, gravity⟩ : Rigid3).mul last.inverse
    let returns := prepared E move (returnsOf E.opts (g.flatMap (·.rays)))
    let misses := prepared E move (missesOf E.opts E.opts.missingRay (g.flatMap (·.rays)))
    match out with
    | none => returns = [] ∨ E.adaptive returns = [] ∨ ∃ prediction, Predicted E ext' a.scan.time gravity prediction ∧
        a.matcher prediction (E.adaptive returns) = none
    | some r => ∃ prediction p, Predicted E ext' a.scan.time gravity prediction ∧
        a.matcher prediction (E.adaptive returns) = some p ∧ r.time = a.scan.time ∧
        r.pose = (embed3D p).mul ⟨⟨0, 0, 0⟩, gravity⟩ ∧
        r.data = ⟨(embed3D p).apply (move.apply last.translation), returns.map (embed3D p).apply, misses.map (embed3D p).apply⟩

/-! ### One scan -/

theorem norm_delta {a b : V3} : (delta a b).norm = √(a.distSq b) := by
  unfold delta V3.norm V3.distSq
  congr 1
  ring

theorem onRay_apply {pose : Rigid3} (h : pose.Proper) (length : ℝ) (r : Ray) (hp : r.pose = pose) :
    onRay length (pose.apply r.origin) (pose.apply r.hit) = pose.apply (r.at length) := by
  unfold onRay Ray.at Ray.range
  rw [norm_delta, apply3_dist h]
  generalize √(r.origin.distSq r.hit) = d
  unfold Rigid3.apply Extrapolator.vadd Extrapolator.smul delta
  generalize length / d = c
  have e1 : (⟨r.origin.x + c * (r.hit.x - r.origin.x), r.origin.y + c * (r.hit.y - r.origin.y),
      r.origin.z + c * (r.hit.z - r.origin.z)⟩ : V3) =
      ⟨r.origin.x + (c * (r.hit.x - r.origin.x)), r.origin.y + (c * (r.hit.y - r.origin.y)),
        r.origin.z + (c * (r.hit.z - r.origin.z))⟩ := rfl
  rw [e1, rotate_unit h, rotate_unit h, rotate_unit h]
  ext <;> simp only <;> ring

theorem addHit_spec {o : Options} {length : ℝ} {r : Ray} (h : r.pose.Proper) (acc : RangeData) :
    addHit o length r.pose r.origin r.hit acc =
      ⟨acc.origin, acc.returns ++ returnsOf o [r], acc.misses ++ missesOf o length [r]⟩ := by
  unfold addHit returnsOf missesOf
  simp only [norm_delta, apply3_dist h]
  have e : √(r.origin.distSq r.hit) = r.range := rfl
  simp only [e]
  by_cases h1 : o.minRange ≤ r.range
  · by_cases h2 : r.range ≤ o.maxRange
    · have h3 : ¬ o.maxRange < r.range := not_lt.2 h2
      simp [h1, h2, h3]
    · have h3 : o.maxRange < r.range := not_le.1 h2
      simp [h1, h2, h3, onRay_apply h length r rfl]
  · simp [h1]

theorem returnsOf_append (o : Options) (a b : List Ray) : returnsOf o (a ++ b) = returnsOf o a ++ returnsOf o b := by
  simp [returnsOf]

theorem missesOf_append (o : Options) (l : ℝ) (a b : List Ray) : missesOf o l (a ++ b) = missesOf o l a ++ missesOf o l b := by
  simp [missesOf]

theorem addHits_spec {o : Options} {length : ℝ} {origins : List V3} : ∀ {l : List (Measurement × Rigid3)} {acc : RangeData},
    (∀ x ∈ l, x.2.Proper) → (∀ x ∈ l, x.1.originIndex < origins.length) →
    addHits o length origins l acc = .ok ⟨acc.origin,
      acc.returns ++ returnsOf o (l.filterMap (fun x => (origins[x.1.originIndex]?).map (fun a => ⟨a, x.1.position, x.2⟩))),
      acc.misses ++ missesOf o length (l.filterMap (fun x => (origins[x.1.originIndex]?).map (fun a => ⟨a, x.1.position, x.2⟩)))⟩
  | [], acc, _, _ => by simp [addHits, returnsOf, missesOf]
  | (q, pose) :: l, acc, hp, ho => by
    have hi := ho (q, pose) (by simp)
    have hpose := hp (q, pose) (by simp)
    unfold addHits
    simp only [List.getElem?_eq_getElem hi]
    rw [addHit_spec (r := ⟨origins[q.originIndex], q.position, pose⟩) hpose,
      addHits_spec (fun x hx => hp x (by simp [hx])) (fun x hx => ho x (by simp [hx]))]
    rw [List.filterMap_cons]
    simp only [List.getElem?_eq_getElem hi, Option.map_some]
    generalize l.filterMap _ = tail
    have h1 := returnsOf_append o [⟨origins[q.originIndex], q.position, pose⟩] tail
    have h2 := missesOf_append o length [⟨origins[q.originIndex], q.position, pose⟩] tail
    rw [List.singleton_append] at h1 h2
    rw [h1, h2]
    simp only [List.append_assoc]

theorem pointTime_later (ext : Extrapolator.State) (t : Int) : pointTime ext t = later ext t := by
  unfold pointTime later lastExtrapolated
  cases ext.extrapolationTracker with
  | none => simp [before]
  | some tr =>
    simp only [Option.map_some, before, decide_eq_true_eq, Option.getD_some]
    split_ifs <;> omega

theorem hitPoses_timed {P : Extrapolator.Params} {time : Int} : ∀ {l : List Measurement} {ext ext' : Extrapolator.State}
    {poses : List Rigid3}, hitPoses P time l ext = .ok (poses, ext') →
    Extrapolated P later (l.map (fun q => time + q.time)) ext poses ext'
  | [], ext, ext', poses, h => by
    cases h
    exact .nil _
  | q :: l, ext, ext', poses, h => by
    unfold hitPoses at h
    simp only [Extrapolator.bind_ok] at h
    obtain ⟨⟨pose, ext1⟩, h1, ⟨poses1, ext2⟩, h2, h3⟩ := h
    cases h3
    rw [pointTime_later] at h1
    exact .cons h1 (hitPoses_timed h2)

/-- The poses of the points of a scan. -/
theorem hitPoses_good {P : Extrapolator.Params} (hF : Extrapolator.TwoVectors P.fromTwoVectors) {time last bound lo : Int}
    (hb : bound ≤ time) : ∀ {l : List Measurement} {ext : Extrapolator.State}, ExtInv ext last bound lo →
    (∀ u ∈ lastExtrapolated ext, u ≤ time) → (∀ q ∈ l, q.time ≤ 0) →
    (∀ p ∈ Extrapolator.newest ext, ∀ q ∈ l, p.time ≤ time + q.time) →
    (∃ poses ext', hitPoses P time l ext = .ok (poses, ext') ∧ poses.length = l.length ∧ (∀ p ∈ poses, p.Proper) ∧
      ExtInv ext' last time lo ∧ Extrapolator.newest ext' = Extrapolator.newest ext ∧ ∀ u ∈ lastExtrapolated ext', u ≤ time) ∨
    hitPoses P time l ext = .error .gravity
  | [], ext, h, hu, _, _ => Or.inl ⟨[], ext, rfl, rfl, by simp, h.mono (le_refl _) hb (le_refl _), rfl, hu⟩
  | q :: l, ext, h, hu, h0, hp => by
    have hq0 := h0 q (by simp)
    have hge : ∀ u ∈ lastExtrapolated ext, u ≤ pointTime ext (time + q.time) := by
      intro u hu'
      have hu' : lastExtrapolated ext = some u := hu'
      unfold pointTime
      rw [hu']
      simp only [before, Option.getD_some, decide_eq_true_eq]
      split_ifs
      · exact le_refl _
      · omega
    have hle : pointTime ext (time + q.time) ≤ time ∧ time + q.time ≤ pointTime ext (time + q.time) := by
      unfold pointTime
      cases hl : lastExtrapolated ext with
      | none => simp only [before]; simp only [Bool.false_eq_true, if_false]; omega
      | some u =>
        have := hu u hl
        simp only [before, Option.getD_some, decide_eq_true_eq]
        split_ifs <;> omega
    unfold hitPoses
    rcases extrapolate_good hF h (t := pointTime ext (time + q.time))
      (fun p hn => (hp p hn q (by simp)).trans hle.2) hge with ⟨pose, ext1, h1, hpp, hi1, hn1, hu1⟩ | h1
    · rw [h1]
      rcases hitPoses_good (l := l) hF (bound := max bound (pointTime ext (time + q.time))) (max_le hb hle.1) hi1
        (fun u hu' => (hu1 u hu').trans hle.1) (fun x hx => h0 x (by simp [hx]))
        (by rw [hn1]; exact fun p hn x hx => hp p hn x (by simp [hx])) with ⟨poses, ext2, h2, hl2, hp2, hi2, hn2, hu2⟩ | h2
      · left
        refine ⟨pose :: poses, ext2, ?_, by simp [hl2], ?_, hi2, hn2.trans hn1, hu2⟩
        · simp only [bind, Except.bind]
          rw [h2]
        · intro p hp'
          rcases List.mem_cons.1 hp' with rfl | hp'
          · exact hpp
          · exact hp2 p hp'
      · right
        simp only [bind, Except.bind]
        rw [h2]
    · right
      rw [h1]
      rfl

/-! ### The invariant -/

abbrev Matcher2 := Rigid2 → List V3 → Option Rigid2

/-- Between two calls. -/
structure Inv2 (s : State2) (last lo : Int) : Prop where
  collator : RangeCollator.Inv s.collator last
  ext : ∀ ext ∈ s.ext, ExtInv ext last s.collator.currentEnd lo

/-- What happened to the scans of the collator and where the results come from. -/
structure History (E : Env) (s : State2) (scans : List Scan) (results : List Result) (dropped : List Scan)
    (groups : List (List (Used Matcher2))) (rest : List (Used Matcher2)) (outs : List (Option Result)) : Prop where
  scans : scans.filter (fun x => !x.ranges.isEmpty) = dropped ++ (groups.flatten ++ rest).map (·.scan)
  ok : ∀ a ∈ groups.flatten ++ rest, a.Ok ∧ ∃ ext ext', a.Timed E.params ext ext'
  size : ∀ g ∈ groups, g.length = max 1 E.opts.numAccumulated
  pending : rest.length = s.numAccumulated
  few : s.numAccumulated < max 1 E.opts.numAccumulated
  accumulated : s.numAccumulated ≠ 0 → s.accumulated.returns = returnsOf E.opts (rest.flatMap (·.rays)) ∧
    s.accumulated.misses = missesOf E.opts E.opts.missingRay (rest.flatMap (·.rays))
  produced : outs.filterMap id = results
  matched : List.Forall₂ (Matched E) groups outs
  started : s.ext = none → groups.flatten ++ rest = [] ∧ (E.opts.useImu = false → dropped = [])
  current : E.opts.useImu = false ∨ groups.flatten ++ rest ≠ [] → ∀ ext ∈ s.ext, ∀ p ∈ Extrapolator.newest ext,
    p.time ≤ s.collator.currentEnd
  first : E.opts.useImu = false → dropped.length ≤ 1

theorem inv2_init (lo : Int) : Inv2 {} RangeCollator.timeMin lo := ⟨RangeCollator.inv_init, by simp⟩

theorem history_init (E : Env) : History E {} [] [] [] [] [] [] :=
  ⟨rfl, by simp, by simp, rfl, by simp, by simp, rfl, .nil, by simp, by simp, by simp⟩

/-- Matching an accumulated scan. -/
theorem matchScan_good {E : Env} (hE : Sound E) {f : Matcher2} {time last bound lo : Int} {d : RangeData} {gravity : Quat}
    {ext : Extrapolator.State} (h : ExtInv ext last bound lo) (hg : gravity.Unit) (hu : ∀ u ∈ lastExtrapolated ext, u ≤ time)
    (hp : ∀ p ∈ Extrapolator.newest ext, p.time ≤ time) (hb : bound ≤ time) (hl : time ≤ last) :
    (∃ ext' out, matchScan E f time d ⟨⟨0, 0, 0⟩, gravity⟩ ext = .ok (ext', out) ∧ ExtInv ext' last time lo ∧
      (∀ p ∈ Extrapolator.newest ext', p.time ≤ time) ∧
      match out with
      | none => d.returns = [] ∨ E.adaptive d.returns = [] ∨ ∃ prediction, Predicted E ext time gravity prediction ∧
          f prediction (E.adaptive d.returns) = none
      | some r => ∃ prediction p, Predicted E ext time gravity prediction ∧ f prediction (E.adaptive d.returns) = some p ∧
          r = ⟨time, (embed3D p).mul ⟨⟨0, 0, 0⟩, gravity⟩, transform (embed3D p) d⟩) ∨
    matchScan E f time d ⟨⟨0, 0, 0⟩, gravity⟩ ext = .error (.extrapolator .gravity) := by
  unfold matchScan
  split
  · rename_i he
    exact Or.inl ⟨ext, none, rfl, h.mono (le_refl _) hb (le_refl _), hp, Or.inl (List.isEmpty_iff.1 he)⟩
  · rcases extrapolate_good hE.twoVectors h hp hu with ⟨pose, ext1, h1, hpp, hi1, hn1, hu1⟩ | h1
    · rw [h1]
      simp only [lift, bind, Except.bind]
      have hi1 : ExtInv ext1 last time lo := by rwa [max_eq_right hb] at hi1
      have hp1 : ∀ p ∈ Extrapolator.newest ext1, p.time ≤ time := by rw [hn1]; exact hp
      split
      · rename_i he
        exact Or.inl ⟨ext1, none, rfl, hi1, hp1, Or.inr (Or.inl (List.isEmpty_iff.1 he))⟩
      · split
        · rename_i hm
          exact Or.inl ⟨ext1, none, rfl, hi1, hp1, Or.inr (Or.inr ⟨_, ⟨_, _, h1, rfl⟩, hm⟩)⟩
        · rename_i p hm
          rcases addPose_good hE.twoVectors hE.duration hi1 (pose := (embed3D p).mul ⟨⟨0, 0, 0⟩, gravity⟩) hp1 hl
            (proper_mul (proper_embed3D p) hg) with ⟨ext2, h2, hi2, hn2⟩ | h2
          · rw [h2]
            refine Or.inl ⟨ext2, _, rfl, hi2, ?_, _, p, ⟨_, _, h1, rfl⟩, hm, rfl⟩
            rw [hn2]
            intro q hq
            cases hq
            exact le_refl _
          · rw [h2]
            exact Or.inr rfl
    · rw [h1]
      exact Or.inr rfl

theorem transform_prepared (E : Env) (move : Rigid3) (o : V3) (r m : List V3) :
    cropFilter E (transform move ⟨o, r, m⟩) = ⟨move.apply o, prepared E move r, prepared E move m⟩ := rfl

/-- One scan of the collator. -/
theorem addScan2_good {E : Env} (hE : Sound E) {f : Matcher2} {s : State2} {ext : Extrapolator.State} {scan : Scan}
    {last prev lo : Int} (hs : s.ext = some ext) (h : ExtInv ext last prev lo) (hc : RangeCollator.Inv s.collator last)
    (hgs : RangeCollator.GoodScan prev scan) (ht : scan.time = s.collator.currentEnd) (hne : scan.ranges ≠ [])
    {scans dropped : List Scan} {results : List Result} {groups : List (List (Used Matcher2))} {rest : List (Used Matcher2)}
    {outs : List (Option Result)}
    (hscans : scans.filter (fun x => !x.ranges.isEmpty) = dropped ++ (groups.flatten ++ rest).map (·.scan))
    (hok : ∀ a ∈ groups.flatten ++ rest, a.Ok ∧ ∃ ext ext', a.Timed E.params ext ext') (hsize : ∀ g ∈ groups, g.length = max 1 E.opts.numAccumulated)
    (hpending : rest.length = s.numAccumulated) (hfew : s.numAccumulated < max 1 E.opts.numAccumulated)
    (hacc : s.numAccumulated ≠ 0 → s.accumulated.returns = returnsOf E.opts (rest.flatMap (·.rays)) ∧
      s.accumulated.misses = missesOf E.opts E.opts.missingRay (rest.flatMap (·.rays)))
    (houts : outs.filterMap id = results) (hmatched : List.Forall₂ (Matched E) groups outs)
    (hcurrent : groups.flatten ++ rest ≠ [] → ∀ p ∈ Extrapolator.newest ext, p.time ≤ prev)
    (hfirst : E.opts.useImu = false → dropped.length ≤ 1)
    (hstart : E.opts.useImu = false → (∀ p ∈ Extrapolator.newest ext, p.time ≤ prev) ∨
      (dropped = [] ∧ ∀ p ∈ Extrapolator.newest ext, p.time ≤ scan.time)) :
    (∃ s' r dropped' groups' rest' outs', addScan2 E f s ext scan = .ok (s', r) ∧ Inv2 s' last lo ∧
      s'.collator = s.collator ∧ History E s' (scans ++ [scan]) (results ++ r.toList) dropped' groups' rest' outs') ∨
    addScan2 E f s ext scan = .error (.extrapolator .gravity) := by
  obtain ⟨front, tail, hfront⟩ := List.exists_cons_of_ne_nil hne
  obtain ⟨back, hback⟩ : ∃ b, scan.ranges.getLast? = some b := by
    rw [hfront]
    exact ⟨_, List.getLast?_eq_some_getLast (by simp)⟩
  have hb0 := hgs.upTo back (List.mem_of_getLast? hback)
  have hscans' : (scans ++ [scan]).filter (fun x => !x.ranges.isEmpty) =
      scans.filter (fun x => !x.ranges.isEmpty) ++ [scan] := by
    rw [List.filter_append]
    simp [hne]
  have hprev : prev ≤ s.collator.currentEnd := ht ▸ hgs.forward
  have htl : scan.time ≤ last := ht ▸ hc.endLe
  have hfr : scan.ranges.head? = some front := by rw [hfront]; rfl
  unfold addScan2
  rw [hback, hfr]
  simp only
  rw [if_neg (by omega)]
  split
  · -- dropped
    rename_i hbef
    obtain ⟨p, hn, hpl, hpp⟩ := h.pose
    have hlt : scan.time + front.time < p.time := by
      simpa [before, lastPoseTime, hn] using hbef
    have hafter := hgs.after front (by rw [hfront]; simp)
    have hnil : groups.flatten ++ rest = [] := by
      by_contra hne'
      have := hcurrent hne' p (by rw [hn]; rfl)
      omega
    have hd : E.opts.useImu = false → dropped = [] ∧ p.time ≤ scan.time := by
      intro hu
      rcases hstart hu with h1 | ⟨h1, h2⟩
      · have := h1 p (by rw [hn]; rfl)
        omega
      · exact ⟨h1, h2 p (by rw [hn]; rfl)⟩
    refine Or.inl ⟨s, none, dropped ++ [scan], groups, rest, outs, rfl, ⟨hc, ?_⟩, rfl, ⟨?_, hok, hsize, hpending, hfew, hacc, ?_,
      hmatched, ?_, ?_, ?_⟩⟩
    · intro ext' he
      rw [hs] at he
      cases he
      exact h.mono (le_refl _) hprev (le_refl _)
    · rw [hscans', hscans, hnil]
      simp
    · simpa using houts
    · intro he
      rw [hs] at he
      cases he
    · rintro (hu | hne') ext' he q hq
      · rw [hs] at he
        cases he
        rw [hn] at hq
        cases hq
        rw [← ht]
        exact (hd hu).2
      · exact absurd hnil hne'
    · intro hu
      rw [(hd hu).1]
      simp
  · rename_i hbef
    have hfirstge : ∀ p ∈ Extrapolator.newest ext, p.time ≤ scan.time + front.time := by
      intro p hn
      have hn : Extrapolator.newest ext = some p := hn
      simpa [before, lastPoseTime, hn] using hbef
    have hsorted := hgs.sorted
    rw [hfront] at hsorted
    have hge : ∀ p ∈ Extrapolator.newest ext, ∀ q ∈ scan.ranges, p.time ≤ scan.time + q.time := by
      intro p hn q hq
      rw [hfront] at hq
      have := hfirstge p hn
      rcases List.mem_cons.1 hq with rfl | hq
      · exact this
      · have := (List.pairwise_cons.1 hsorted).1 q hq
        omega
    have hf0 := hgs.upTo front (by rw [hfront]; simp)
    have hpt : ∀ p ∈ Extrapolator.newest ext, p.time ≤ scan.time := fun p hn => by have := hfirstge p hn; omega
    have hut : ∀ u ∈ lastExtrapolated ext, u ≤ scan.time := by
      intro u hu
      rcases h.extrapolated u hu with h1 | ⟨p, hn, rfl⟩
      · exact h1.trans hgs.forward
      · exact hpt p hn
    rcases hitPoses_good hE.twoVectors hgs.forward h hut (fun q hq => hgs.upTo q hq) hge with
      ⟨poses, ext1, h1, hlen, hproper, hi1, hn1, hu1⟩ | h1
    · rw [h1]
      simp only [lift, bind, Except.bind]
      have hproper' : ∀ x ∈ scan.ranges.zip poses, x.2.Proper := fun x hx => hproper x.2 (List.of_mem_zip hx).2
      have hidx : ∀ x ∈ scan.ranges.zip poses, x.1.originIndex < scan.origins.length :=
        fun x hx => hgs.valid x.1 (List.of_mem_zip hx).1
      rw [addHits_spec hproper' hidx]
      simp only
      let a : Used Matcher2 := ⟨scan, poses, f⟩
      have hatimed : a.Timed E.params ext ext1 := hitPoses_timed h1
      have haok : a.Ok ∧ ∃ ext ext', a.Timed E.params ext ext' := ⟨⟨hlen, hproper⟩, _, _, hatimed⟩
      have hret : (if s.numAccumulated = 0 then (⟨⟨0, 0, 0⟩, [], []⟩ : RangeData) else s.accumulated).returns ++
          returnsOf E.opts a.rays = returnsOf E.opts ((rest ++ [a]).flatMap (·.rays)) := by
        rw [List.flatMap_append, returnsOf_append]
        by_cases h0 : s.numAccumulated = 0
        · have : rest = [] := List.eq_nil_of_length_eq_zero (hpending.trans h0)
          simp [h0, this, returnsOf]
        · rw [if_neg h0, (hacc h0).1]
          simp
      have hmis : (if s.numAccumulated = 0 then (⟨⟨0, 0, 0⟩, [], []⟩ : RangeData) else s.accumulated).misses ++
          missesOf E.opts E.opts.missingRay a.rays = missesOf E.opts E.opts.missingRay ((rest ++ [a]).flatMap (·.rays)) := by
        rw [List.flatMap_append, missesOf_append]
        by_cases h0 : s.numAccumulated = 0
        · have : rest = [] := List.eq_nil_of_length_eq_zero (hpending.trans h0)
          simp [h0, this, missesOf]
        · rw [if_neg h0, (hacc h0).2]
          simp
      have hnew : (scans ++ [scan]).filter (fun x => !x.ranges.isEmpty) =
          dropped ++ (groups.flatten ++ (rest ++ [a])).map (·.scan) := by
        rw [hscans', hscans]
        simp [a]
      have hok' : ∀ x ∈ groups.flatten ++ (rest ++ [a]), x.Ok ∧ ∃ ext ext', x.Timed E.params ext ext' := by
        intro x hx
        rw [← List.append_assoc] at hx
        rcases List.mem_append.1 hx with hx | hx
        · exact hok x hx
        · rw [List.mem_singleton] at hx
          rw [hx]
          exact haok
      have hp1 : ∀ p ∈ Extrapolator.newest ext1, p.time ≤ scan.time := by rw [hn1]; exact hpt
      split
      · rename_i hN
        have hlast : poses ≠ [] := by
          intro h0
          rw [h0, hfront] at hlen
          simp at hlen
        have hlp : poses.getLast? = some (poses.getLast hlast) := List.getLast?_eq_some_getLast hlast
        rcases gravity_good hE.twoVectors hi1 hp1 with ⟨gravity, hg, hgu⟩ | hg
        · rw [hg, hlp]
          simp only
          rcases matchScan_good hE (f := f) (d := cropFilter E (transform ((⟨⟨0, 0, 0⟩, gravity⟩ : Rigid3).mul (poses.getLast hlast).inverse)
            ⟨(poses.getLast hlast).translation, returnsOf E.opts ((rest ++ [a]).flatMap (·.rays)),
              missesOf E.opts E.opts.missingRay ((rest ++ [a]).flatMap (·.rays))⟩)) hi1 hgu hu1 hp1 (le_refl _) htl with
            ⟨ext2, out, hm, hi2, hp2, hout⟩ | hm
          · left
            refine ⟨⟨s.collator, some ext2, 0, ⟨(poses.getLast hlast).translation, returnsOf E.opts ((rest ++ [a]).flatMap (·.rays)),
              missesOf E.opts E.opts.missingRay ((rest ++ [a]).flatMap (·.rays))⟩⟩, out, dropped, groups ++ [rest ++ [a]], [],
              outs ++ [out], ?_, ⟨hc, ?_⟩, rfl, ⟨?_, ?_, ?_, (by rfl), ?_, ?_, ?_, ?_, ?_, ?_,
              hfirst⟩⟩
            · rw [show (fun x : Used Matcher2 => x.rays) = Used.rays from rfl] at hret hmis hm
              have er : (if s.numAccumulated = 0 then (⟨⟨0, 0, 0⟩, [], []⟩ : RangeData) else s.accumulated).returns ++
                  returnsOf E.opts ((scan.ranges.zip poses).filterMap
                    (fun x => (scan.origins[x.1.originIndex]?).map (fun a => (⟨a, x.1.position, x.2⟩ : Ray)))) =
                  returnsOf E.opts ((rest ++ [a]).flatMap Used.rays) := hret
              have em : (if s.numAccumulated = 0 then (⟨⟨0, 0, 0⟩, [], []⟩ : RangeData) else s.accumulated).misses ++
                  missesOf E.opts E.opts.missingRay ((scan.ranges.zip poses).filterMap
                    (fun x => (scan.origins[x.1.originIndex]?).map (fun a => (⟨a, x.1.position, x.2⟩ : Ray)))) =
                  missesOf E.opts E.opts.missingRay ((rest ++ [a]).flatMap Used.rays) := hmis
              rw [er, em, hm]
            · intro ext' he
              simp only [Option.mem_some_iff] at he
              subst he
              simp only
              rw [← ht]
              exact hi2
            · simpa using hnew
            · simpa using hok'
            · intro g hg'
              rcases List.mem_append.1 hg' with hg' | hg'
              · exact hsize g hg'
              · rw [List.mem_singleton] at hg'
                rw [hg']
                simp only [List.length_append, List.length_singleton, hpending]
                omega
            · simp
            · intro h0
              exact absurd rfl h0
            · rw [List.filterMap_append, houts]
              cases out <;> simp
            · refine List.rel_append hmatched (.cons ?_ .nil)
              refine ⟨a, poses.getLast hlast, ext, ext1, gravity, by simp, hlp, hgu, hatimed, hg, ?_⟩
              rw [transform_prepared] at hout
              cases out with
              | none => exact hout
              | some r =>
                obtain ⟨prediction, p, hpre, hp', rfl⟩ := hout
                exact ⟨prediction, p, hpre, hp', rfl, rfl, rfl⟩
            · intro he
              cases he
            · intro _ ext' he p hp'
              simp only [Option.mem_some_iff] at he
              subst he
              show p.time ≤ s.collator.currentEnd
              rw [← ht]
              exact hp2 p hp'
          · right
            rw [show (fun x : Used Matcher2 => x.rays) = Used.rays from rfl] at hret hmis hm
            have er : (if s.numAccumulated = 0 then (⟨⟨0, 0, 0⟩, [], []⟩ : RangeData) else s.accumulated).returns ++
                returnsOf E.opts ((scan.ranges.zip poses).filterMap
                  (fun x => (scan.origins[x.1.originIndex]?).map (fun a => (⟨a, x.1.position, x.2⟩ : Ray)))) =
                returnsOf E.opts ((rest ++ [a]).flatMap Used.rays) := hret
            have em : (if s.numAccumulated = 0 then (⟨⟨0, 0, 0⟩, [], []⟩ : RangeData) else s.accumulated).misses ++
                missesOf E.opts E.opts.missingRay ((scan.ranges.zip poses).filterMap
                  (fun x => (scan.origins[x.1.originIndex]?).map (fun a => (⟨a, x.1.position, x.2⟩ : Ray)))) =
                missesOf E.opts E.opts.missingRay ((rest ++ [a]).flatMap Used.rays) := hmis
            rw [er, em, hm]
        · rw [hg]
          exact Or.inr rfl
      · rename_i hN
        left
        refine ⟨_, none, dropped, groups, rest ++ [a], outs, rfl, ⟨hc, ?_⟩, rfl, ⟨hnew, hok', hsize, ?_, ?_, ?_, ?_, hmatched, ?_, ?_,
          hfirst⟩⟩
        · intro ext' he
          simp only [Option.mem_some_iff] at he
          subst he
          simp only
          rw [← ht]
          exact hi1
        · simp [hpending]
        · simp only
          omega
        · intro _
          exact ⟨hret, hmis⟩
        · simpa using houts
        · intro he
          cases he
        · intro _ ext' he p hp'
          simp only [Option.mem_some_iff] at he
          subst he
          show p.time ≤ s.collator.currentEnd
          rw [← ht]
          exact hp1 p hp'
    · rw [h1]
      exact Or.inr rfl

/-! ### One call -/

/-- What the range data collator does for an event. -/
def collect {M : Type} (E : Env) (c : RangeCollator.State V3 V3 ℝ) : Event M → Option (RangeCollator.State V3 V3 ℝ × List Scan)
  | .range id m _ => (RangeCollator.addRangeData E.sort E.defaultIntensity E.expected c id m).map (fun x => (x.1, x.2.toList))
  | _ => some (c, [])

/-- The range data of a list of events. -/
def ranges {M : Type} (es : List (Event M)) : List (Int × Message) :=
  es.filterMap (fun | .range id m _ => some (id, m) | _ => none)

/-- The last odometry time after an event. -/
def odometryTime {M : Type} (lo : Int) : Event M → Int
  | .odometry d => d.time
  | _ => lo

theorem collator_mono {c : RangeCollator.State V3 V3 ℝ} {last last' : Int} (h : RangeCollator.Inv c last) (h1 : last ≤ last')
    (h2 : last' ≤ RangeCollator.timeMax) : RangeCollator.Inv c last' :=
  ⟨h.sorted, fun e he => ⟨(h.pending e he).1, (h.pending e he).2.1, (h.pending e he).2.2.trans h1⟩, h.endLe.trans h1, h2⟩

/-- Only the extrapolator changes. -/
theorem History.setExt {E : Env} {s : State2} {scans : List Scan} {results : List Result} {dropped : List Scan}
    {groups : List (List (Used Matcher2))} {rest : List (Used Matcher2)} {outs : List (Option Result)}
    (h : History E s scans results dropped groups rest outs) {ext : Extrapolator.State}
    (hc : E.opts.useImu = false ∨ groups.flatten ++ rest ≠ [] → ∀ p ∈ Extrapolator.newest ext, p.time ≤ s.collator.currentEnd) :
    History E { s with ext := some ext } scans results dropped groups rest outs :=
  ⟨h.scans, h.ok, h.size, h.pending, h.few, h.accumulated, h.produced, h.matched, by simp, by simpa using hc, h.first⟩

theorem step2_good {E : Env} (hE : Sound E) {s : State2} {last lo : Int} (h : Inv2 s last lo) {scans : List Scan}
    {results : List Result} {dropped : List Scan} {groups : List (List (Used Matcher2))} {rest : List (Used Matcher2)}
    {outs : List (Option Result)} (hh : History E s scans results dropped groups rest outs) {e : Event Matcher2}
    (hl : last ≤ e.time) (hmax : e.time ≤ RangeCollator.timeMax)
    (hmsg : ∀ id m f, e = .range id m f → id ∈ E.expected ∧ RangeCollator.GoodMessage m)
    (himu : ∀ d, e = .imu d → E.opts.useImu = true) (hlo : ∀ d, e = .odometry d → lo < d.time) :
    (∃ s' r dropped' groups' rest' outs' new, step2 E s e = .ok (s', r) ∧ Inv2 s' e.time (odometryTime lo e) ∧
      collect E s.collator e = some (s'.collator, new) ∧
      History E s' (scans ++ new) (results ++ r.toList) dropped' groups' rest' outs') ∨
    step2 E s e = .error (.extrapolator .gravity) := by
  cases e with
  | imu d =>
    have hu := himu d rfl
    simp only [Event.time] at hl hmax
    simp only [step2, addImu2, initExt, if_pos hu]
    cases hx : s.ext with
    | some ext =>
      obtain ⟨ext', h1, hi, hn⟩ := addImu_good (h.ext ext hx) hl
      simp only [bind, Except.bind, hx, h1, lift]
      refine Or.inl ⟨_, none, dropped, groups, rest, outs, [], rfl, ⟨collator_mono h.collator hl hmax, ?_⟩, rfl, ?_⟩
      · simpa [Event.time, odometryTime] using hi
      · simpa using hh.setExt (ext := ext') (by rw [hn]; exact fun hc => hh.current hc ext hx)
    | none =>
      rcases firstPose_good hE.twoVectors (t := d.time) proper_identity s.collator.currentEnd lo with ⟨ext, h1, hi, hn, ho⟩ | h1
      · obtain ⟨ext', h2, hi', hn'⟩ := addImu_good hi (d := d) (le_refl _)
        simp only [bind, Except.bind, h1, h2, lift]
        refine Or.inl ⟨_, none, dropped, groups, rest, outs, [], rfl, ⟨collator_mono h.collator hl hmax, ?_⟩, rfl, ?_⟩
        · simpa [Event.time, odometryTime] using hi'
        · have := hh.setExt (ext := ext') (fun hc => by
            rcases hc with hc | hc
            · rw [hu] at hc
              cases hc
            · exact absurd (hh.started hx).1 hc)
          simpa using this
      · right
        simp only [bind, Except.bind, h1, lift]
  | odometry d =>
    simp only [Event.time] at hl hmax
    simp only [step2, addOdometry2]
    cases hx : s.ext with
    | none =>
      refine Or.inl ⟨s, none, dropped, groups, rest, outs, [], rfl, ⟨collator_mono h.collator hl hmax, ?_⟩, rfl, by simpa using hh⟩
      rw [hx]
      simp
    | some ext =>
      rcases addOdometry_good hE.twoVectors (h.ext ext hx) hl (hlo d rfl) with ⟨ext', h1, hi, hn⟩ | h1
      · simp only [bind, Except.bind, h1, lift]
        refine Or.inl ⟨_, none, dropped, groups, rest, outs, [], rfl, ⟨collator_mono h.collator hl hmax, ?_⟩, rfl, ?_⟩
        · simpa [Event.time, odometryTime] using hi
        · simpa using hh.setExt (ext := ext') (by rw [hn]; exact fun hc => hh.current hc ext hx)
      · right
        simp only [bind, Except.bind, h1, lift]
  | range id m f =>
    obtain ⟨hid, hm⟩ := hmsg id m f rfl
    simp only [Event.time] at hl hmax
    simp only [step2, addRange2, collect]
    obtain ⟨⟨c, out⟩, hc⟩ : ∃ x, RangeCollator.addRangeData E.sort E.defaultIntensity E.expected s.collator id m = some x := by
      unfold RangeCollator.addRangeData
      rw [if_pos hid]
      split
      · exact ⟨_, rfl⟩
      · simp only
        split_ifs <;> exact ⟨_, rfl⟩
    obtain ⟨hci, hce, hcs, -⟩ := RangeCollator.step_spec hE.sort h.collator hm hl hc
    rw [hc]
    have hext : ∀ ext ∈ s.ext, ExtInv ext m.time c.currentEnd lo := fun ext hx => (h.ext ext hx).mono hl hce (le_refl _)
    have hcur : E.opts.useImu = false ∨ groups.flatten ++ rest ≠ [] → ∀ ext ∈ s.ext, ∀ p ∈ Extrapolator.newest ext,
        p.time ≤ c.currentEnd := fun hc ext hx p hp => (hh.current hc ext hx p hp).trans hce
    have hempty : ∀ new : List Scan, (∀ x ∈ new, x.ranges = []) →
        History E { s with collator := c } (scans ++ new) (results ++ (none : Option Result).toList) dropped groups rest outs := by
      intro new hnew
      refine ⟨?_, hh.ok, hh.size, hh.pending, hh.few, hh.accumulated, by simpa using hh.produced, hh.matched, hh.started, hcur, hh.first⟩
      rw [List.filter_append, hh.scans]
      have : new.filter (fun x => !x.ranges.isEmpty) = [] := by
        rw [List.filter_eq_nil_iff]
        intro x hx
        simp [hnew x hx]
      rw [this, List.append_nil]
    cases out with
    | none => exact Or.inl ⟨_, none, dropped, groups, rest, outs, [], rfl, ⟨hci, hext⟩, rfl, hempty [] (by simp)⟩
    | some scan =>
      obtain ⟨hgs, ht⟩ := hcs scan rfl
      simp only [Option.map_some, Option.toList_some]
      by_cases hne : scan.ranges = []
      · rw [if_pos (by simp [hne])]
        refine Or.inl ⟨_, none, dropped, groups, rest, outs, [scan], rfl, ⟨hci, hext⟩, rfl, hempty [scan] (by simpa using hne)⟩
      · rw [if_neg (by simpa using hne)]
        have hfinish : ∀ (s1 : State2) (ext : Extrapolator.State), s1.collator = c → s1.numAccumulated = s.numAccumulated →
            s1.accumulated = s.accumulated → s1.ext = some ext → ExtInv ext m.time s.collator.currentEnd lo →
            (groups.flatten ++ rest ≠ [] → ∀ p ∈ Extrapolator.newest ext, p.time ≤ s.collator.currentEnd) →
            (E.opts.useImu = false → (∀ p ∈ Extrapolator.newest ext, p.time ≤ s.collator.currentEnd) ∨
              (dropped = [] ∧ ∀ p ∈ Extrapolator.newest ext, p.time ≤ scan.time)) →
            (∃ s' r dropped' groups' rest' outs' new, addScan2 E f s1 ext scan = .ok (s', r) ∧ Inv2 s' m.time lo ∧
              some (c, [scan]) = some (s'.collator, new) ∧
              History E s' (scans ++ new) (results ++ r.toList) dropped' groups' rest' outs') ∨
            addScan2 E f s1 ext scan = .error (.extrapolator .gravity) := by
          intro s1 ext e1 e2 e3 e4 hi h2 h3
          rcases addScan2_good hE (f := f) (s := s1) (prev := s.collator.currentEnd) (last := m.time) (lo := lo) e4 hi (e1 ▸ hci) hgs
            (e1 ▸ ht) hne (results := results) hh.scans hh.ok hh.size (e2 ▸ hh.pending) (e2 ▸ hh.few)
            (by rw [e2, e3]; exact hh.accumulated) hh.produced hh.matched h2 hh.first h3 with
            ⟨s', r, D, G, R, O, k1, k2, k3, k4⟩ | k
          · exact Or.inl ⟨s', r, D, G, R, O, [scan], k1, k2, by rw [k3, e1], k4⟩
          · exact Or.inr k
        by_cases hu : E.opts.useImu = true
        · rw [if_pos hu]
          simp only [bind, Except.bind]
          cases hx : s.ext with
          | none =>
            obtain ⟨hnil, -⟩ := hh.started hx
            refine Or.inl ⟨_, none, dropped ++ [scan], groups, rest, outs, [scan], rfl, ⟨hci, by simp⟩, rfl, ?_⟩
            refine ⟨?_, hh.ok, hh.size, hh.pending, hh.few, hh.accumulated, by simpa using hh.produced, hh.matched, ?_, ?_, ?_⟩
            · rw [List.filter_append, hh.scans, hnil]
              simp [hne]
            · exact fun _ => ⟨hnil, fun hf => by rw [hu] at hf; cases hf⟩
            · intro _ ext he
              cases he
            · intro hf
              rw [hu] at hf
              cases hf
          | some ext =>
            exact hfinish { s with collator := c, ext := some ext } ext rfl rfl rfl rfl ((h.ext ext hx).mono hl (le_refl _) (le_refl _))
              (fun hc => hh.current (Or.inr hc) ext hx) (fun hf => by rw [hu] at hf; cases hf)
        · have hf : E.opts.useImu = false := by simpa using hu
          rw [if_neg hu]
          unfold initExt
          cases hx : s.ext with
          | some ext =>
            simp only [bind, Except.bind]
            exact hfinish { s with collator := c, ext := some ext } ext rfl rfl rfl rfl ((h.ext ext hx).mono hl (le_refl _) (le_refl _))
              (fun hc => hh.current (Or.inr hc) ext hx) (fun _ => Or.inl (hh.current (Or.inl hf) ext hx))
          | none =>
            obtain ⟨hnil, hd⟩ := hh.started hx
            have htl : scan.time ≤ m.time := ht ▸ hci.endLe
            rcases firstPose_good hE.twoVectors (t := scan.time) proper_identity s.collator.currentEnd lo with
              ⟨ext, h1, hi, hn, ho⟩ | h1
            · simp only [bind, Except.bind, h1, lift]
              refine hfinish { s with collator := c, ext := some ext } ext rfl rfl rfl rfl (hi.mono htl (le_refl _) (le_refl _))
                (fun hc => absurd hnil hc) (fun _ => Or.inr ⟨hd hf, ?_⟩)
              rw [hn]
              intro p hp
              cases hp
              exact le_refl _
            · right
              simp only [bind, Except.bind, h1, lift]

theorem collect_run {M : Type} {E : Env} {c c' c'' : RangeCollator.State V3 V3 ℝ} {e : Event M} {es : List (Event M)}
    {new rs : List Scan} (h1 : collect E c e = some (c', new))
    (h2 : RangeCollator.run E.sort E.defaultIntensity E.expected c' (ranges es) = some (c'', rs)) :
    RangeCollator.run E.sort E.defaultIntensity E.expected c (ranges (e :: es)) = some (c'', new ++ rs) := by
  cases e with
  | imu d =>
    cases h1
    exact h2
  | odometry d =>
    cases h1
    exact h2
  | range id m f =>
    have e1 : ranges (Event.range id m f :: es) = (id, m) :: ranges es := rfl
    rw [e1]
    simp only [collect, Option.map_eq_some_iff, Prod.mk.injEq] at h1
    obtain ⟨⟨c1, r⟩, h3, rfl, rfl⟩ := h1
    unfold RangeCollator.run
    rw [h3]
    simp only [h2]

theorem run2_good {E : Env} (hE : Sound E) : ∀ {es : List (Event Matcher2)} {s : State2} {last lo : Int} (_ : Inv2 s last lo)
    {scans : List Scan} {results : List Result} {dropped : List Scan} {groups : List (List (Used Matcher2))}
    {rest : List (Used Matcher2)} {outs : List (Option Result)} (_ : History E s scans results dropped groups rest outs)
    (_ : Valid E E.opts.useImu es) (_ : ∀ e ∈ es, last ≤ e.time) (_ : ∀ d, Event.odometry d ∈ es → lo < d.time),
    (∃ s' rs dropped' groups' rest' outs' new, run2 E s es = .ok (s', rs) ∧
      RangeCollator.run E.sort E.defaultIntensity E.expected s.collator (ranges es) = some (s'.collator, new) ∧
      History E s' (scans ++ new) (results ++ rs) dropped' groups' rest' outs') ∨
    run2 E s es = .error (.extrapolator .gravity)
  | [], s, last, lo, h, scans, results, dropped, groups, rest, outs, hh, _, _, _ =>
    Or.inl ⟨s, [], dropped, groups, rest, outs, [], rfl, rfl, by simpa using hh⟩
  | e :: es, s, last, lo, h, scans, results, dropped, groups, rest, outs, hh, hv, hl, hlo => by
    have ho := List.pairwise_cons.1 hv.ordered
    have hod := List.pairwise_cons.1 hv.odometry
    rcases step2_good hE h hh (e := e) (hl e (by simp)) (hv.bounds e (by simp)).2
      (fun id m f he => hv.messages id m f (by simp [he])) (fun d he => hv.useImu d (by simp [he]))
      (fun d he => hlo d (by simp [he])) with ⟨s1, r, D, G, R, O, new, h1, hi, hcol, hh1⟩ | h1
    · have hv' : Valid E E.opts.useImu es := ⟨ho.2, hod.2, fun x hx => hv.bounds x (by simp [hx]),
        fun id m f hx => hv.messages id m f (by simp [hx]), fun d hx => hv.useImu d (by simp [hx])⟩
      rcases run2_good hE hi hh1 hv' ho.1 (by
        intro d hd
        cases e with
        | odometry d' => exact hod.1 _ hd d' d rfl rfl
        | _ => exact hlo d (by simp [hd])) with ⟨s2, rs, D2, G2, R2, O2, new2, h2, hc2, hh2⟩ | h2
      · refine Or.inl ⟨s2, r.toList ++ rs, D2, G2, R2, O2, new ++ new2, ?_, collect_run hcol hc2, ?_⟩
        · unfold run2
          rw [h1]
          simp only [bind, Except.bind, h2]
        · simpa [List.append_assoc] using hh2
      · right
        unfold run2
        rw [h1]
        simp only [bind, Except.bind, h2]
    · right
      unfold run2
      rw [h1]
      rfl

/-! ### The theorems -/

/-- C64, 2D: data in order of time never makes local SLAM abort, except for the `CHECK` on the direction of gravity. -/
theorem builder2D_total {E : Env} (hE : Sound E) {es : List (Event Matcher2)} (hv : Valid E E.opts.useImu es) :
    (∃ s rs, run2 E {} es = .ok (s, rs)) ∨ run2 E {} es = .error (.extrapolator .gravity) := by
  rcases run2_good hE (inv2_init (RangeCollator.timeMin - 1)) (history_init E) hv (fun e he => (hv.bounds e he).1)
    (fun d hd => by have := (hv.bounds _ hd).1; simp only [Event.time] at this; omega) with ⟨s, rs, D, G, R, O, new, h, -⟩ | h
  · exact Or.inl ⟨s, rs, h⟩
  · exact Or.inr h

/-- C65, 2D: the collator's scans that are not empty are, in this order, scans that are dropped, groups of scans that are matched
together and scans that wait; every group has the configured size and all of its rays go to the scan matcher. Without IMU only the
first scan can be dropped. -/
theorem builder2D_conserves {E : Env} (hE : Sound E) {es : List (Event Matcher2)} (hv : Valid E E.opts.useImu es) {s : State2}
    {rs : List Result} (h : run2 E {} es = .ok (s, rs)) : ∃ (scans dropped : List Scan) (groups : List (List (Used Matcher2)))
      (rest : List (Used Matcher2)) (outs : List (Option Result)),
    RangeCollator.run E.sort E.defaultIntensity E.expected RangeCollator.init (ranges es) = some (s.collator, scans) ∧
    scans.filter (fun x => !x.ranges.isEmpty) = dropped ++ (groups.flatten ++ rest).map (·.scan) ∧
    (∀ a ∈ groups.flatten ++ rest, a.Ok ∧ ∃ ext ext', a.Timed E.params ext ext') ∧ (∀ g ∈ groups, g.length = max 1 E.opts.numAccumulated) ∧
    rest.length < max 1 E.opts.numAccumulated ∧ List.Forall₂ (Matched E) groups outs ∧ outs.filterMap id = rs ∧
    (E.opts.useImu = false → dropped.length ≤ 1) := by
  rcases run2_good hE (inv2_init (RangeCollator.timeMin - 1)) (history_init E) hv (fun e he => (hv.bounds e he).1)
    (fun d hd => by have := (hv.bounds _ hd).1; simp only [Event.time] at this; omega) with ⟨s', rs', D, G, R, O, new, h', hc, hh⟩ | h'
  · rw [h] at h'
    cases h'
    exact ⟨new, D, G, R, O, hc, by simpa using hh.scans, hh.ok, hh.size, hh.pending ▸ hh.few, hh.matched, by simpa using hh.produced,
      hh.first⟩
  · rw [h] at h'
    cases h'

theorem matched_times {E : Env} : ∀ {groups : List (List (Used Matcher2))} {outs : List (Option Result)},
    List.Forall₂ (Matched E) groups outs → groups.flatten.Pairwise (fun a b => a.scan.time ≤ b.scan.time) →
    (outs.filterMap id).Pairwise (fun r r' => r.time ≤ r'.time) ∧
      ∀ r ∈ outs.filterMap id, ∃ a ∈ groups.flatten, r.time = a.scan.time
  | [], _, .nil, _ => by simp
  | g :: groups, out :: outs, .cons h hs, hp => by
    rw [List.flatten_cons, List.pairwise_append] at hp
    obtain ⟨h1, h2⟩ := matched_times hs hp.2.1
    cases out with
    | none =>
      refine ⟨by simpa using h1, fun r hr => ?_⟩
      obtain ⟨a, ha, e⟩ := h2 r (by simpa using hr)
      exact ⟨a, by rw [List.flatten_cons]; simp [ha], e⟩
    | some r =>
      obtain ⟨a, last, -, -, gravity, hg, -, -, -, -, prediction, p, -, -, ht, -⟩ := h
      have ha := List.mem_of_getLast? hg
      refine ⟨?_, ?_⟩
      · rw [List.filterMap_cons_some (by rfl : id (some r) = some r), List.pairwise_cons]
        refine ⟨fun r' hr' => ?_, h1⟩
        obtain ⟨b, hb, e⟩ := h2 r' hr'
        rw [ht, e]
        exact hp.2.2 a ha b hb
      · intro r' hr'
        rw [List.filterMap_cons_some (by rfl : id (some r) = some r)] at hr'
        rcases List.mem_cons.1 hr' with rfl | hr'
        · exact ⟨a, by rw [List.flatten_cons]; simp [ha], ht⟩
        · obtain ⟨b, hb, e⟩ := h2 r' hr'
          exact ⟨b, by rw [List.flatten_cons]; simp [hb], e⟩

theorem inOrder_ranges {M : Type} {es : List (Event M)} (h : es.Pairwise (fun a b => a.time ≤ b.time)) :
    (ranges es).Pairwise (fun a b => a.2.time ≤ b.2.time) := by
  unfold ranges
  rw [List.pairwise_filterMap]
  refine h.imp ?_
  intro a b hab x hx y hy
  cases a with
  | range id m f =>
    cases b with
    | range id' m' f' =>
      cases hx
      cases hy
      exact hab
    | _ => cases hy
  | _ => cases hx

/-- The results come in order of time. -/
theorem builder2D_ordered {E : Env} (hE : Sound E) {es : List (Event Matcher2)} (hv : Valid E E.opts.useImu es) {s : State2}
    {rs : List Result} (h : run2 E {} es = .ok (s, rs)) : rs.Pairwise (fun r r' => r.time ≤ r'.time) := by
  obtain ⟨scans, dropped, groups, rest, outs, hc, hs, hok, hsize, hrest, hm, ho, hd⟩ := builder2D_conserves hE hv h
  have hp := (RangeCollator.run_spec hE.sort RangeCollator.inv_init (fun c hc => by
      obtain ⟨e, he, hce⟩ := List.mem_filterMap.1 hc
      cases e with
      | range id m f =>
        cases hce
        exact (hv.messages id m f he).2
      | _ => cases hce) (inOrder_ranges hv.ordered) (fun c hc => by
      obtain ⟨e, he, hce⟩ := List.mem_filterMap.1 hc
      cases e with
      | range id m f =>
        cases hce
        exact (hv.bounds _ he).1
      | _ => cases hce) hc).2.1
  have hp' : (scans.filter (fun x => !x.ranges.isEmpty)).Pairwise (fun r r' => r.time ≤ r'.time) :=
    (hp.imp (fun hg => hg.forward)).filter _
  rw [hs, List.pairwise_append, List.map_append, List.pairwise_append, List.pairwise_map] at hp'
  rw [← ho]
  exact (matched_times hm hp'.2.1.1).1

/-- Every return of a result is a measured hit within the limits of distance, seen from where the sensor was relative to the last
pose of the group; every miss is on the ray of a longer measurement. The voxel filter only selects points. -/
theorem matched_points {E : Env} (hf : ∀ l, ∀ x ∈ E.filter l, x ∈ l) {g : List (Used Matcher2)} {r : Result}
    (hok : ∀ b ∈ g, b.Ok) (h : Matched E g (some r)) : ∃ a last, g.getLast? = some a ∧ a.poses.getLast? = some last ∧ r.time = a.scan.time ∧
    (∀ x ∈ r.data.returns, ∃ b ∈ g, ∃ y ∈ b.rays, E.opts.minRange ≤ y.range ∧ y.range ≤ E.opts.maxRange ∧
      x = r.pose.apply (last.inverse.apply (y.pose.apply y.hit))) ∧
    (∀ x ∈ r.data.misses, ∃ b ∈ g, ∃ y ∈ b.rays, E.opts.minRange ≤ y.range ∧ E.opts.maxRange < y.range ∧
      x = r.pose.apply (last.inverse.apply (y.pose.apply (y.at E.opts.missingRay)))) := by
  obtain ⟨a, last, -, -, gravity, hg, hl, hgu, -, -, prediction, p, -, hm, ht, hpose, hdata⟩ := h
  have hmove : ∀ v : V3, (embed3D p).apply (((⟨⟨0, 0, 0⟩, gravity⟩ : Rigid3).mul last.inverse).apply v) =
      r.pose.apply (last.inverse.apply v) := by
    intro v
    have hlast : last.inverse.Proper :=
      proper_inverse ((hok a (List.mem_of_getLast? hg)).2 last (List.mem_of_getLast? hl))
    rw [hpose, apply3_mul (a := ⟨⟨0, 0, 0⟩, gravity⟩) hgu hlast, ← apply3_mul (b := ⟨⟨0, 0, 0⟩, gravity⟩) (proper_embed3D p) hgu]
  refine ⟨a, last, hg, hl, ht, ?_, ?_⟩
  · intro x hx
    rw [hdata] at hx
    simp only [prepared, returnsOf, List.mem_map] at hx
    obtain ⟨u, hu, rfl⟩ := hx
    have hu := List.mem_of_mem_filter (hf _ _ hu)
    simp only [List.mem_map, List.mem_filter, List.mem_flatMap, decide_eq_true_eq] at hu
    obtain ⟨v, ⟨y, ⟨⟨b, hb, hy⟩, h1, h2⟩, rfl⟩, rfl⟩ := hu
    exact ⟨b, hb, y, hy, h1, h2, hmove _⟩
  · intro x hx
    rw [hdata] at hx
    simp only [prepared, missesOf, List.mem_map] at hx
    obtain ⟨u, hu, rfl⟩ := hx
    have hu := List.mem_of_mem_filter (hf _ _ hu)
    simp only [List.mem_map, List.mem_filter, List.mem_flatMap, decide_eq_true_eq] at hu
    obtain ⟨v, ⟨y, ⟨⟨b, hb, hy⟩, h1, h2⟩, rfl⟩, rfl⟩ := hu
    exact ⟨b, hb, y, hy, h1, h2, hmove _⟩

/-- The point on a ray has the given distance from the origin. -/
theorem at_range {y : Ray} (h : 0 < y.range) {length : ℝ} (hl : 0 ≤ length) : √(y.origin.distSq (y.at length)) = length := by
  have hsq : y.range ^ 2 = y.origin.distSq y.hit := by
    unfold Ray.range
    rw [Real.sq_sqrt]
    unfold V3.distSq
    positivity
  have : y.origin.distSq (y.at length) = length ^ 2 := by
    have e : y.origin.distSq (y.at length) = (length / y.range) ^ 2 * y.origin.distSq y.hit := by
      unfold Ray.at V3.distSq
      ring
    rw [e, ← hsq, div_pow, div_mul_cancel₀]
    positivity
  rw [this, Real.sqrt_sq hl]

/-! ### Examples -/

/-- One sensor at the origin; points between one and five meters are returns. -/
noncomputable def exampleEnv : Env where
  opts := { minRange := 1, maxRange := 5, missingRay := 4, minZ := -1, maxZ := 1, numAccumulated := 1, useImu := false }
  expected := [0]
  defaultIntensity := 0
  sort := RangeCollator.byTime
  params := Extrapolator.exampleParams
  filter := id
  filterRanges := id
  adaptive := id
  adaptiveLow := id

theorem exampleEnv_sound : Sound exampleEnv :=
  ⟨RangeCollator.byTime_isSort, Extrapolator.twoVectors_spec, by simp [exampleEnv, Extrapolator.exampleParams]⟩

/-- One point at half a meter, one at two meters and one at eight meters. -/
noncomputable def exampleMessage : Message :=
  { time := 0, origin := ⟨0, 0, 0⟩, ranges := [(⟨1 / 2, 0, 0⟩, 0), (⟨2, 0, 0⟩, 0), (⟨8, 0, 0⟩, 0)], intensities := [] }

noncomputable def exampleScan : Scan :=
  { time := 0, origins := [⟨0, 0, 0⟩], ranges := [⟨⟨1 / 2, 0, 0⟩, 0, 0, 0⟩, ⟨⟨2, 0, 0⟩, 0, 0, 0⟩, ⟨⟨8, 0, 0⟩, 0, 0, 0⟩] }

theorem example_collated : ∃ c, RangeCollator.addRangeData RangeCollator.byTime 0 [0] RangeCollator.init 0 exampleMessage =
    some (c, some exampleScan) := ⟨_, rfl⟩

/-- The assumptions of the theorems hold for two messages and odometry in between. -/
example : Sound exampleEnv ∧ Valid exampleEnv exampleEnv.opts.useImu
    [.range 0 exampleMessage (fun p _ => some p : Matcher2), .odometry ⟨5, Rigid3.identity⟩, .odometry ⟨6, Rigid3.identity⟩,
      .range 0 { exampleMessage with time := 10 } (fun _ _ => none)] := by
  have hg : ∀ t, RangeCollator.timeMin ≤ t → t ≤ RangeCollator.timeMax →
      RangeCollator.GoodMessage { exampleMessage with time := t } := by
    intro t h1 h2
    exact ⟨by simp [exampleMessage], by simp [exampleMessage], h1, h2⟩
  refine ⟨exampleEnv_sound, ⟨?_, ?_, ?_, ?_, ?_⟩⟩
  · simp [Event.time, exampleMessage]
  · simp
  · simp [Event.time, exampleMessage, RangeCollator.timeMin, RangeCollator.timeMax]
  · intro id m f hm
    simp only [List.mem_cons, Event.range.injEq, reduceCtorEq, List.not_mem_nil, or_false, false_or] at hm
    rcases hm with ⟨rfl, rfl, -⟩ | ⟨rfl, rfl, -⟩
    · exact ⟨by simp [exampleEnv], hg 0 (by simp [RangeCollator.timeMin]) (by simp [RangeCollator.timeMax])⟩
    · exact ⟨by simp [exampleEnv], hg 10 (by simp [RangeCollator.timeMin]) (by simp [RangeCollator.timeMax])⟩
  · simp

open Extrapolator in
/-- The extrapolator at time 0, before and after the first extrapolation. -/
def resting (cached : Option Int) : Extrapolator.State :=
  { poses := [⟨0, Rigid3.identity⟩], tracker := some (idle 0 (some 0)), odometryTracker := some (idle 0 (some 0)),
    extrapolationTracker := some (idle 0 (some 0)), cachedTime := cached, cachedPose := Rigid3.identity }

open Extrapolator in
theorem resting_extrapolate {cached : Option Int} (h : cached = none ∨ cached = some 0) :
    extrapolatePose exampleParams (resting cached) 0 = .ok (Rigid3.identity, resting (some 0)) := by
  rcases h with rfl | rfl
  · have hr : extrapolateRotation exampleParams (resting none) 0 (idle 0 (some 0)) = .ok (⟨1, 0, 0, 0⟩, idle 0 (some 0)) := by
      unfold extrapolateRotation
      simp only [resting, Extrapolator.bind_ok]
      refine ⟨idle 0 (some 0), ?_, ?_⟩
      · exact advanceImu_idle (P := exampleParams) twoVectors_spec rfl (by simp [fakeAngularVelocity]) (by norm_num)
      · simp only [idle, inverse_unit one_unit, conjugate_mul one_unit]
    have hp : (⟨vadd (extrapolateTranslation (resting none) ⟨0, Rigid3.identity⟩ 0) Rigid3.identity.translation,
        Rigid3.identity.rotation.mul ⟨1, 0, 0, 0⟩⟩ : Rigid3) = Rigid3.identity := by
      rw [quat_mul_one]
      ext <;> simp [vadd, extrapolateTranslation, Extrapolator.smul, Rigid3.identity, resting]
    simp only [extrapolatePose, show newest (resting none) = some ⟨0, Rigid3.identity⟩ from rfl]
    rw [if_pos (by norm_num), if_neg (by simp [resting])]
    simp only [show (resting none).extrapolationTracker = some (idle 0 (some 0)) from rfl, Extrapolator.bind_ok]
    refine ⟨_, hr, ?_⟩
    simp only [hp]
    rfl
  · simp only [extrapolatePose, show newest (resting (some 0)) = some ⟨0, Rigid3.identity⟩ from rfl]
    rw [if_pos (by norm_num), if_pos (by simp [resting])]
    rfl

open Extrapolator in
theorem resting_gravity : estimateGravity exampleParams (resting (some 0)) 0 = .ok ⟨1, 0, 0, 0⟩ := by
  simp only [estimateGravity, resting, Extrapolator.bind_ok]
  exact ⟨idle 0 (some 0), advanceImu_idle (P := exampleParams) twoVectors_spec rfl (by simp [fakeAngularVelocity]) (by norm_num), rfl⟩

open Extrapolator in
theorem resting_addPose (p : Rigid3) : ∃ s', addPose exampleParams (resting (some 0)) 0 p = .ok s' := by
  simp only [addPose, Extrapolator.bind_ok]
  refine ⟨_, { resting (some 0) with poses := [⟨0, Rigid3.identity⟩, ⟨0, p⟩] }, ?_, idle 0 (some 0), ?_, rfl⟩
  · simp only [updateVelocities, newest, trimPoses, resting, List.cons_append, List.nil_append]
    rw [show [TimedPose.mk 0 Rigid3.identity, ⟨0, p⟩].getLast? = some ⟨0, p⟩ from rfl]
    simp only
    rw [if_pos]
    simp [toSeconds, exampleParams]
  · exact advanceImu_idle (P := exampleParams) twoVectors_spec (t0 := 0) (l := some 0) (t := 0) rfl
      (by simp [fakeAngularVelocity, resting]) (by norm_num)

theorem embed3D_identity : embed3D Rigid2.identity = Rigid3.identity := by
  simp [embed3D, Rigid2.identity, Rigid3.identity, aroundZ]

theorem identity_apply (v : V3) : Rigid3.identity.apply v = v := by
  ext <;> simp [Rigid3.identity, Rigid3.apply, rotate_one]

/-- The first scan: the point that is too close is dropped, the next one is a return, the far one is a miss at four meters. -/
example : ∃ s r, run2 exampleEnv {} [.range 0 exampleMessage (fun _ _ => some Rigid2.identity)] = .ok (s, [r]) ∧
    r.data.returns = [⟨2, 0, 0⟩] ∧ r.data.misses = [⟨4, 0, 0⟩] := by
  obtain ⟨c, hc⟩ := example_collated
  have hP : exampleEnv.params = Extrapolator.exampleParams := rfl
  have hhits : hitPoses exampleEnv.params 0 exampleScan.ranges (resting none) =
      .ok ([Rigid3.identity, Rigid3.identity, Rigid3.identity], resting (some 0)) := by
    have ht : ∀ cached, pointTime (resting cached) 0 = 0 := fun cached => rfl
    simp only [hP, exampleScan, hitPoses, add_zero, ht, resting_extrapolate (Or.inl rfl), bind, Except.bind,
      resting_extrapolate (Or.inr rfl)]
  let rays : List Ray := [⟨⟨0, 0, 0⟩, ⟨1 / 2, 0, 0⟩, Rigid3.identity⟩, ⟨⟨0, 0, 0⟩, ⟨2, 0, 0⟩, Rigid3.identity⟩,
    ⟨⟨0, 0, 0⟩, ⟨8, 0, 0⟩, Rigid3.identity⟩]
  have hr1 : (⟨⟨0, 0, 0⟩, ⟨1 / 2, 0, 0⟩, Rigid3.identity⟩ : Ray).range = 1 / 2 := by
    simp [Ray.range, V3.distSq, Real.sqrt_sq]
  have hr2 : (⟨⟨0, 0, 0⟩, ⟨2, 0, 0⟩, Rigid3.identity⟩ : Ray).range = 2 := by
    simp [Ray.range, V3.distSq, Real.sqrt_sq]
  have hr3 : (⟨⟨0, 0, 0⟩, ⟨8, 0, 0⟩, Rigid3.identity⟩ : Ray).range = 8 := by
    simp [Ray.range, V3.distSq, Real.sqrt_sq]
  have hret : returnsOf exampleEnv.opts rays = [⟨2, 0, 0⟩] := by
    have h1 : ¬ (1 : ℝ) ≤ 1 / 2 := by norm_num
    have h2 : ((1 : ℝ) ≤ 2 ∧ (2 : ℝ) ≤ 5) := by norm_num
    have h3 : ¬ (8 : ℝ) ≤ 5 := by norm_num
    simp only [returnsOf, rays, exampleEnv, List.filter_cons, hr1, hr2, hr3, h1, h2, h3, List.filter_nil, List.map_cons,
      List.map_nil, identity_apply, and_false, false_and, decide_false, decide_true, and_self, if_true, Bool.false_eq_true, if_false]
  have hmis : missesOf exampleEnv.opts 4 rays = [⟨4, 0, 0⟩] := by
    have h1 : ¬ (1 : ℝ) ≤ 1 / 2 := by norm_num
    have h2 : ¬ (5 : ℝ) < 2 := by norm_num
    have h3 : ((1 : ℝ) ≤ 8 ∧ (5 : ℝ) < 8) := by norm_num
    simp only [missesOf, rays, exampleEnv, List.filter_cons, hr1, hr2, hr3, h1, h2, h3, List.filter_nil, List.map_cons,
      List.map_nil, identity_apply, and_false, false_and, decide_false, decide_true, and_self, if_true, Bool.false_eq_true, if_false,
      Ray.at]
    norm_num
  have hadd : addHits exampleEnv.opts exampleEnv.opts.missingRay exampleScan.origins
      (exampleScan.ranges.zip [Rigid3.identity, Rigid3.identity, Rigid3.identity]) ⟨⟨0, 0, 0⟩, [], []⟩ =
      .ok ⟨⟨0, 0, 0⟩, [⟨2, 0, 0⟩], [⟨4, 0, 0⟩]⟩ := by
    rw [addHits_spec]
    · exact congrArg Except.ok (by rw [← hret, ← hmis]; rfl)
    · simp [exampleScan, proper_identity]
    · simp [exampleScan]
  have hid : (Rigid3.mul ⟨⟨0, 0, 0⟩, ⟨1, 0, 0, 0⟩⟩ Rigid3.identity.inverse) = Rigid3.identity :=
    (mul3_inverse proper_identity).1
  have hdata : cropFilter exampleEnv (transform Rigid3.identity ⟨Rigid3.identity.translation, [⟨2, 0, 0⟩], [⟨4, 0, 0⟩]⟩) =
      ⟨⟨0, 0, 0⟩, [⟨2, 0, 0⟩], [⟨4, 0, 0⟩]⟩ := by
    simp only [cropFilter, transform, identity_apply, exampleEnv, List.map_cons, List.map_nil]
    simp [Rigid3.identity]
  obtain ⟨ext, hext⟩ := resting_addPose ((embed3D Rigid2.identity).mul ⟨⟨0, 0, 0⟩, ⟨1, 0, 0, 0⟩⟩)
  refine ⟨⟨c, some ext, 0, ⟨⟨0, 0, 0⟩, [⟨2, 0, 0⟩], [⟨4, 0, 0⟩]⟩⟩,
    ⟨0, (embed3D Rigid2.identity).mul ⟨⟨0, 0, 0⟩, ⟨1, 0, 0, 0⟩⟩, ⟨⟨0, 0, 0⟩, [⟨2, 0, 0⟩], [⟨4, 0, 0⟩]⟩⟩, ?_, rfl, rfl⟩
  have hmatch : matchScan exampleEnv (fun _ _ => some Rigid2.identity) 0 ⟨⟨0, 0, 0⟩, [⟨2, 0, 0⟩], [⟨4, 0, 0⟩]⟩
      ⟨⟨0, 0, 0⟩, ⟨1, 0, 0, 0⟩⟩ (resting (some 0)) = .ok (ext, some ⟨0, (embed3D Rigid2.identity).mul ⟨⟨0, 0, 0⟩, ⟨1, 0, 0, 0⟩⟩,
        ⟨⟨0, 0, 0⟩, [⟨2, 0, 0⟩], [⟨4, 0, 0⟩]⟩⟩) := by
    unfold matchScan
    have ha : exampleEnv.adaptive [⟨2, 0, 0⟩] = [⟨2, 0, 0⟩] := rfl
    rw [embed3D_identity] at hext
    simp only [hP, resting_extrapolate (Or.inr rfl), lift, bind, Except.bind, ha, List.isEmpty_cons, Bool.false_eq_true,
      if_false, transform, embed3D_identity, identity_apply, List.map_cons, List.map_nil]
    rw [hext]
  have hstep : addScan2 exampleEnv (fun _ _ => some Rigid2.identity) ⟨c, some (resting none), 0, ⟨⟨0, 0, 0⟩, [], []⟩⟩ (resting none)
      exampleScan = .ok (⟨c, some ext, 0, ⟨⟨0, 0, 0⟩, [⟨2, 0, 0⟩], [⟨4, 0, 0⟩]⟩⟩,
        some ⟨0, (embed3D Rigid2.identity).mul ⟨⟨0, 0, 0⟩, ⟨1, 0, 0, 0⟩⟩, ⟨⟨0, 0, 0⟩, [⟨2, 0, 0⟩], [⟨4, 0, 0⟩]⟩⟩) := by
    unfold addScan2
    rw [show exampleScan.ranges.head? = some ⟨⟨1 / 2, 0, 0⟩, 0, 0, 0⟩ from rfl,
      show exampleScan.ranges.getLast? = some ⟨⟨8, 0, 0⟩, 0, 0, 0⟩ from rfl]
    simp only
    rw [if_neg (by norm_num), if_neg (by simp [before, lastPoseTime, exampleScan, resting, Extrapolator.newest])]
    rw [show exampleScan.time = 0 from rfl, hhits]
    simp only [lift, bind, Except.bind, if_true]
    rw [hadd]
    simp only
    rw [if_pos (by simp [exampleEnv]), hP, resting_gravity]
    simp only [List.getLast?_cons_cons, List.getLast?_singleton]
    rw [hid, hdata, hmatch]
    simp [Rigid3.identity]
  have hinit : initExt exampleEnv ⟨c, none, 0, ⟨⟨0, 0, 0⟩, [], []⟩⟩ 0 = .ok ⟨c, some (resting none), 0, ⟨⟨0, 0, 0⟩, [], []⟩⟩ := by
    unfold initExt
    simp only [hP, Extrapolator.addPose_first, lift, bind, Except.bind]
    rfl
  have hc' : RangeCollator.addRangeData exampleEnv.sort exampleEnv.defaultIntensity exampleEnv.expected RangeCollator.init 0
    exampleMessage = some (c, some exampleScan) := hc
  simp only [run2, step2, addRange2, hc']
  rw [if_neg (by simp [exampleScan]), if_neg (by simp [exampleEnv])]
  simp only [show exampleScan.time = 0 from rfl, bind, Except.bind]
  rw [hinit]
  simp only [hstep, Option.toList_some, List.append_nil]

end Verif.LocalBuilder
