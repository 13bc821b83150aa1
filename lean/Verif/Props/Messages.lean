import Verif.Messages
import Verif.Props.CompressedPointCloud
import Mathlib.Tactic.Linarith
import Mathlib.Tactic.NormNum

/-!
# Messages of sensor data and nodes: theorems
-/

namespace Verif.Messages

open Verif.Compressed (P3 Cloud snap Ok rasterOf inBounds compress)

/-! ### Sensor data -/

theorem vector_roundtrip (v : P3) : toVector (vectorMsg v) = v := rfl

theorem rigid_roundtrip (r : Rigid) : toRigid (rigidMsg r) = r := rfl

/-- **IMU data is read as it was written.** -/
theorem imu_roundtrip (d : Imu) : toImu (imuMsg d) = d := rfl

/-- Writing what was read gives the message, if its parts are set. -/
theorem imu_writeback (m : ImuMsg) : imuMsg (toImu m) = m ↔ m.linearAcceleration.isSome ∧ m.angularVelocity.isSome := by
  obtain ⟨t, a, v⟩ := m
  cases a <;> cases v <;> simp [imuMsg, toImu, Ticks.toUniversal, Ticks.fromUniversal, vectorMsg, toVector]

/-- **Odometry is read as it was written.** -/
theorem odometry_roundtrip (d : Odometry) : toOdometry (odometryMsg d) = d := rfl

/-- A pose that is not set is read as a rotation by the quaternion 0, which is none. -/
theorem odometry_unset (t : Int) : (toOdometry { timestamp := t }).pose.rotation = ⟨0, 0, 0, 0⟩ := rfl

/-- **Fixed frame poses are read as they were written**, also those without a pose. -/
theorem fixedFrame_roundtrip (d : FixedFrame) : toFixedFrame (fixedFrameMsg d) = d := by
  obtain ⟨t, p⟩ := d
  cases p <;> rfl

/-- The pose is missing exactly if it is not set in the message. -/
theorem fixedFrame_missing (m : PoseMsg) : (toFixedFrame m).pose = none ↔ m.pose = none := by
  obtain ⟨t, p⟩ := m
  cases p <;> simp [toFixedFrame]

/-- The message of an observation. -/
def observationMsg (o : Observation) : ObservationMsg :=
  { id := o.id, transform := some (rigidMsg o.transform), translationWeight := o.translationWeight, rotationWeight := o.rotationWeight }

theorem landmarkMsg_eq (d : Landmark) : landmarkMsg d = ⟨Ticks.toUniversal d.time, d.observations.map observationMsg⟩ := by
  have : ∀ (l : List Observation) (m : LandmarkMsg), l.foldl (fun (m : LandmarkMsg) (o : Observation) => { m with observations := m.observations ++
      [{ id := o.id, transform := some (rigidMsg o.transform), translationWeight := o.translationWeight, rotationWeight := o.rotationWeight }] }) m =
      ⟨m.timestamp, m.observations ++ l.map observationMsg⟩ := by
    intro l
    induction l with
    | nil => intro m; simp
    | cons o l ih => intro m; rw [List.foldl_cons, ih]; simp [observationMsg]
  unfold landmarkMsg
  rw [this]
  rfl

theorem toLandmark_eq (m : LandmarkMsg) : toLandmark m = ⟨Ticks.fromUniversal m.timestamp, m.observations.map fun o => ⟨o.id, toRigid (o.transform.getD {}), o.translationWeight, o.rotationWeight⟩⟩ := by
  have : ∀ (l : List ObservationMsg) (d : Landmark), l.foldl (fun (d : Landmark) (o : ObservationMsg) => { d with observations := d.observations ++
      [⟨o.id, toRigid (o.transform.getD {}), o.translationWeight, o.rotationWeight⟩] }) d =
      ⟨d.time, d.observations ++ l.map fun o => ⟨o.id, toRigid (o.transform.getD {}), o.translationWeight, o.rotationWeight⟩⟩ := by
    intro l
    induction l with
    | nil => intro m; simp
    | cons o l ih => intro m; rw [List.foldl_cons, ih]; simp
  unfold toLandmark
  rw [this]
  rfl

/-- **Landmark observations are read as they were written**, in the same order. -/
theorem landmark_roundtrip (d : Landmark) : toLandmark (landmarkMsg d) = d := by
  rw [landmarkMsg_eq, toLandmark_eq]
  simp only [List.map_map]
  have : ((fun o : ObservationMsg => (⟨o.id, toRigid (o.transform.getD {}), o.translationWeight, o.rotationWeight⟩ : Observation)) ∘ observationMsg) = id := by
    funext o; rfl
  rw [this, List.map_id]
  rfl

/-- **Sensor ids**: a message can be read exactly if it is one that is written, and then gives what was written. -/
theorem sensorId_iff (m : SensorIdMsg) (s : SensorId) : toSensorId m = some s ↔ sensorIdMsg s = m := by
  obtain ⟨t, i⟩ := m
  obtain ⟨st, si⟩ := s
  cases st
  all_goals
    simp only [toSensorId, sensorIdMsg, SensorIdMsg.mk.injEq]
    split_ifs <;> (try simp only [Option.some.injEq, SensorId.mk.injEq, reduceCtorEq, false_and, true_and]) <;> constructor <;> intro h
    all_goals first | exact ⟨by omega, h.symm⟩ | exact h.2.symm | (exfalso; omega) | cases h

/-- Numbers of sensors types that are not known abort. -/
theorem sensorId_none (m : SensorIdMsg) : toSensorId m = none ↔ m.type < 0 ∨ 5 < m.type := by
  unfold toSensorId
  split_ifs <;> simp <;> omega

/-! ### Range data -/

theorem foldl_append {α β : Type} (f : α → β) : ∀ (l : List α) (acc : List β), l.foldl (fun acc p => acc ++ [f p]) acc = acc ++ l.map f
  | [], acc => by simp
  | x :: l, acc => by rw [List.foldl_cons, foldl_append f l]; simp

theorem timedCloudMsg_eq (d : TimedCloud) : timedCloudMsg d = { timestamp := Ticks.toUniversal d.time, origin := some (vectorMsg d.origin), pointData := d.ranges.map timedPointMsg, intensities := d.intensities } := by
  have h1 : ∀ (l : List TimedPoint) (m : TimedCloudMsg), l.foldl (fun (m : TimedCloudMsg) r => { m with pointData := m.pointData ++ [timedPointMsg r] }) m =
      { m with pointData := m.pointData ++ l.map timedPointMsg } := by
    intro l
    induction l with
    | nil => intro m; simp
    | cons o l ih => intro m; rw [List.foldl_cons, ih]; simp
  have h2 : ∀ (l : List ℚ) (m : TimedCloudMsg), l.foldl (fun (m : TimedCloudMsg) i => { m with intensities := m.intensities ++ [i] }) m =
      { m with intensities := m.intensities ++ l } := by
    intro l
    induction l with
    | nil => intro m; simp
    | cons o l ih => intro m; rw [List.foldl_cons, ih]; simp
  unfold timedCloudMsg
  simp only [h1, h2, List.nil_append]

/-- **Timed point clouds are read as they were written**, if there are no intensities or one for each point; otherwise reading aborts. -/
theorem timedCloud_roundtrip (d : TimedCloud) : toTimedCloud (timedCloudMsg d) = if d.intensities = [] ∨ d.intensities.length = d.ranges.length then some d else none := by
  rw [timedCloudMsg_eq]
  unfold toTimedCloud
  simp only [List.length_map, List.length_eq_zero_iff]
  split
  · have h : (d.ranges.map timedPointMsg).map toTimedPoint = d.ranges := by
      rw [List.map_map]
      have : (toTimedPoint ∘ timedPointMsg) = id := by funext p; rfl
      rw [this, List.map_id]
    have h2 : (if d.ranges.length > 0 then (d.ranges.map timedPointMsg).foldl (fun l p => l ++ [toTimedPoint p]) []
        else ([] : List Vector4Msg).foldl (fun l p => l ++ [(⟨⟨p.x, p.y, p.z⟩, p.t⟩ : TimedPoint)]) []) = d.ranges := by
      split
      · rw [foldl_append, h]; rfl
      · rename_i hl
        rw [List.foldl_nil]
        exact (List.length_eq_zero_iff.1 (by omega)).symm
    rw [h2]
    rfl
  · rfl

/-- **Old messages**: points in the old field are read if there are no points in the new one, and no intensities. -/
theorem timedCloud_legacy (m : TimedCloudMsg) (h : m.pointData = []) : toTimedCloud m =
    if m.intensities = [] then some ⟨Ticks.fromUniversal m.timestamp, toVector (m.origin.getD {}), m.pointDataLegacy.map fun p => ⟨⟨p.x, p.y, p.z⟩, p.t⟩, []⟩ else none := by
  unfold toTimedCloud
  rw [h]
  simp only [List.length_nil, or_self, List.length_eq_zero_iff, gt_iff_lt, lt_irrefl, if_false]
  split
  · rename_i hi
    rw [foldl_append, hi]; rfl
  · rfl

/-- The old field is ignored once there are new points. -/
theorem timedCloud_new (m : TimedCloudMsg) (h : m.pointData ≠ []) (l : List Vector4Msg) : toTimedCloud { m with pointDataLegacy := l } = toTimedCloud m := by
  have : m.pointData.length > 0 := List.length_pos_iff.2 h
  unfold toTimedCloud
  simp only [this, if_true]

/-- The data without intensities. -/
def bare (d : RangeData) : RangeData := ⟨d.origin, ⟨d.returns.points, []⟩, ⟨d.misses.points, []⟩⟩

theorem rangeDataMsg_eq (d : RangeData) : rangeDataMsg d = { origin := some (vectorMsg d.origin), returns := d.returns.points.map pointMsg, misses := d.misses.points.map pointMsg } := by
  have h1 : ∀ (l : List P3) (m : RangeDataMsg), l.foldl (fun (m : RangeDataMsg) p => { m with returns := m.returns ++ [pointMsg p] }) m =
      { m with returns := m.returns ++ l.map pointMsg } := by
    intro l
    induction l with
    | nil => intro m; simp
    | cons o l ih => intro m; rw [List.foldl_cons, ih]; simp
  have h2 : ∀ (l : List P3) (m : RangeDataMsg), l.foldl (fun (m : RangeDataMsg) p => { m with misses := m.misses ++ [pointMsg p] }) m =
      { m with misses := m.misses ++ l.map pointMsg } := by
    intro l
    induction l with
    | nil => intro m; simp
    | cons o l ih => intro m; rw [List.foldl_cons, ih]; simp
  unfold rangeDataMsg
  simp only [h1, h2, List.nil_append]

/-- **Range data is read as it was written, without the intensities.** -/
theorem rangeData_roundtrip (d : RangeData) : toRangeData (rangeDataMsg d) = bare d := by
  rw [rangeDataMsg_eq]
  unfold toRangeData bare
  simp only [foldl_append, List.nil_append, List.foldl_nil, List.length_map, List.map_map]
  have h : ∀ l : List P3, (if l.length > 0 then l.map (toPoint ∘ pointMsg) else []) = l := by
    intro l
    split
    · have : (toPoint ∘ pointMsg) = id := by funext p; rfl
      rw [this, List.map_id]
    · exact (List.length_eq_zero_iff.1 (by omega)).symm
  rw [h, h]
  rfl

/-- The intensities are lost: the round trip gives the data back exactly if there are none. -/
theorem rangeData_exact (d : RangeData) : toRangeData (rangeDataMsg d) = d ↔ d.returns.intensities = [] ∧ d.misses.intensities = [] := by
  rw [rangeData_roundtrip]
  obtain ⟨o, ⟨rp, ri⟩, ⟨mp, mi⟩⟩ := d
  simp only [bare, RangeData.mk.injEq, PointCloud.mk.injEq, true_and]
  exact ⟨fun h => ⟨h.1.symm, h.2.symm⟩, fun h => ⟨h.1.symm, h.2.symm⟩⟩

/-! ### Nodes -/

theorem round_int (n : Int) : Prob.roundToInt (n : ℚ) = n := by
  have h := Compressed.round_close (n : ℚ)
  rw [abs_le] at h
  have h1 : ((Prob.roundToInt (n : ℚ) : Int) : ℚ) < (n : ℚ) + 1 := by linarith
  have h2 : (n : ℚ) - 1 < ((Prob.roundToInt (n : ℚ) : Int) : ℚ) := by linarith
  have h1' : Prob.roundToInt (n : ℚ) < n + 1 := by exact_mod_cast h1
  have h2' : n - 1 < Prob.roundToInt (n : ℚ) := by exact_mod_cast h2
  omega

theorem raster_snap (p : P3) : rasterOf (snap p) = rasterOf p := by
  have key : ∀ n : Int, Prob.roundToInt ((n : ℚ) / 1000 / (1 / 1000)) = n := by
    intro n
    have : (n : ℚ) / 1000 / (1 / 1000) = n := by ring
    rw [this, round_int]
  have e : rasterOf (snap p) = ⟨Prob.roundToInt (((rasterOf p).x : ℚ) / 1000 / (1 / 1000)), Prob.roundToInt (((rasterOf p).y : ℚ) / 1000 / (1 / 1000)),
      Prob.roundToInt (((rasterOf p).z : ℚ) / 1000 / (1 / 1000))⟩ := rfl
  rw [e, key, key, key]

theorem snap_snap (p : P3) : snap (snap p) = snap p := by
  unfold snap
  have := raster_snap p
  unfold snap at this
  rw [this]

/-- No coordinate of the point is rounded to the least number. -/
def Inner (p : P3) : Prop := -(2 ^ 23) < (rasterOf p).x ∧ -(2 ^ 23) < (rasterOf p).y ∧ -(2 ^ 23) < (rasterOf p).z

theorem snap_ok {p : P3} (h : Ok p) : Ok (snap p) ↔ Inner p := by
  obtain ⟨h1, h2, h3, h4⟩ := h
  unfold Ok Inner
  rw [raster_snap]
  have e : inBounds (snap p) = true ↔ |(rasterOf p).x| < 2 ^ 23 ∧ |(rasterOf p).y| < 2 ^ 23 ∧ |(rasterOf p).z| < 2 ^ 23 := by
    unfold inBounds snap
    rw [decide_eq_true_iff]
    have k : ∀ n : Int, |(n : ℚ) / 1000| < 8388608 / 1000 ↔ |n| < 2 ^ 23 := by
      intro n
      rw [abs_div, abs_of_pos (by norm_num : (0 : ℚ) < 1000), div_lt_div_iff_of_pos_right (by norm_num), ← Int.cast_abs]
      constructor
      · intro h
        have : |n| < 8388608 := by exact_mod_cast h
        simpa using this
      · intro h
        have : |n| < 8388608 := by simpa using h
        exact_mod_cast this
    rw [div_lt_iff₀ (by norm_num), max_lt_iff, max_lt_iff]
    have e2 : ((2 : ℚ) ^ 23 * (1 / 1000)) = 8388608 / 1000 := by norm_num
    rw [e2]
    simp only [k]
    tauto
  rw [e]
  simp only [abs_lt]
  constructor
  · rintro ⟨⟨⟨a, _⟩, ⟨b, _⟩, c, _⟩, _⟩
    exact ⟨a, b, c⟩
  · rintro ⟨a, b, c⟩
    exact ⟨⟨⟨a, h2⟩, ⟨b, h3⟩, c, h4⟩, h2, h3, h4⟩

/-- The points of a node can be stored. -/
def Storable (d : Node) : Prop :=
  ∀ c ∈ [d.filtered, d.high, d.low], c.points.length ≤ 2147483647 ∧ ∀ p ∈ c.points, Ok p

/-- What is left of a node: everything but intensities and the order of points, with points rounded to millimetres. -/
structure Kept (d d' : Node) : Prop where
  time : d'.time = d.time
  gravityAlignment : d'.gravityAlignment = d.gravityAlignment
  filtered : d'.filtered.points.Perm (d.filtered.points.map snap) ∧ d'.filtered.intensities = []
  high : d'.high.points.Perm (d.high.points.map snap) ∧ d'.high.intensities = []
  low : d'.low.points.Perm (d.low.points.map snap) ∧ d'.low.intensities = []
  histogram : d'.histogram = d.histogram
  localPose : d'.localPose = d.localPose

theorem range_getD (l : List ℚ) : ((List.range l.length).map fun i => l.getD i 0) = l := by
  apply List.ext_getElem
  · simp
  · intro i h1 h2
    simp at h1
    simp [h1]

theorem nodeMsg_some {n : Nat} {d : Node} {c1 c2 c3 : Cloud} (h1 : compress n d.filtered.points = some c1) (h2 : compress n d.high.points = some c2)
    (h3 : compress n d.low.points = some c3) : nodeMsg n d = some { timestamp := Ticks.toUniversal d.time, gravityAlignment := some (quaternionMsg d.gravityAlignment), filtered := some c1.toProto, high := some c2.toProto, low := some c3.toProto, histogram := d.histogram, localPose := some (rigidMsg d.localPose) } := by
  have h : ∀ (l : List ℚ) (m : NodeMsg), l.foldl (fun (m : NodeMsg) v => { m with histogram := m.histogram ++ [v] }) m = { m with histogram := m.histogram ++ l } := by
    intro l
    induction l with
    | nil => intro m; simp
    | cons o l ih => intro m; rw [List.foldl_cons, ih]; simp
  unfold nodeMsg
  simp only [Option.bind_eq_bind]
  rw [h1, Option.bind_some, h2, Option.bind_some, h3, Option.bind_some]
  simp only [h, List.nil_append]

/-- **A node that is stored and loaded keeps everything but intensities, with points rounded to millimetres and in another order.** -/
theorem node_roundtrip {d : Node} (h : Storable d) : ∃ N m d', (∀ n, N ≤ n → nodeMsg n d = some m) ∧ toNode m = some d' ∧ Kept d d' := by
  have hf := h d.filtered (by simp)
  have hh := h d.high (by simp)
  have hl := h d.low (by simp)
  obtain ⟨c1, ⟨N1, a1⟩, _, ⟨o1, b1, p1⟩, _, _, r1⟩ := Compressed.compression_roundtrip _ hf.1 hf.2
  obtain ⟨c2, ⟨N2, a2⟩, _, ⟨o2, b2, p2⟩, _, _, r2⟩ := Compressed.compression_roundtrip _ hh.1 hh.2
  obtain ⟨c3, ⟨N3, a3⟩, _, ⟨o3, b3, p3⟩, _, _, r3⟩ := Compressed.compression_roundtrip _ hl.1 hl.2
  refine ⟨max N1 (max N2 N3), _, ⟨d.time, d.gravityAlignment, ⟨o1, []⟩, ⟨o2, []⟩, ⟨o3, []⟩, d.histogram, d.localPose⟩, fun n hn => nodeMsg_some (a1 n (by omega)) (a2 n (by omega)) (a3 n (by omega)), ?_, ?_⟩
  · unfold toNode decompressMsg
    simp only [Option.bind_eq_bind, Option.getD_some]
    rw [r1, r2, r3, b1, Option.bind_some, b2, Option.bind_some, b3, Option.bind_some, range_getD]
    rfl
  · exact ⟨rfl, rfl, ⟨p1, rfl⟩, ⟨p2, rfl⟩, ⟨p3, rfl⟩, rfl, rfl⟩

/-- **A node with a point that cannot be stored aborts.** -/
theorem node_aborts {d : Node} (h : ∃ c ∈ [d.filtered, d.high, d.low], ¬ ∀ p ∈ c.points, Ok p) (n : Nat) : nodeMsg n d = none := by
  obtain ⟨c, hc, hp⟩ := h
  have hn := Compressed.compression_aborts c.points hp n
  unfold nodeMsg
  simp only [Option.bind_eq_bind]
  simp only [List.mem_cons, List.not_mem_nil, or_false] at hc
  rcases hc with rfl | rfl | rfl
  · rw [hn]; rfl
  · rw [hn]; cases compress n d.filtered.points <;> rfl
  · rw [hn]; cases compress n d.filtered.points <;> cases compress n d.high.points <;> rfl

/-- **Storing a loaded node again**: this works exactly if no coordinate was rounded to -8388.608 m, and then it changes at most the order of points. -/
theorem node_again {d d' : Node} (h : Storable d) (hk : Kept d d') : (Storable d' ↔ ∀ c ∈ [d.filtered, d.high, d.low], ∀ p ∈ c.points, Inner p) ∧
    ∀ d'', Kept d' d'' → d''.filtered.points.Perm d'.filtered.points ∧ d''.high.points.Perm d'.high.points ∧ d''.low.points.Perm d'.low.points ∧
      d''.time = d.time ∧ d''.gravityAlignment = d.gravityAlignment ∧ d''.histogram = d.histogram ∧ d''.localPose = d.localPose := by
  have part : ∀ {c c' : PointCloud}, (c.points.length ≤ 2147483647 ∧ ∀ p ∈ c.points, Ok p) → c'.points.Perm (c.points.map snap) →
      ((c'.points.length ≤ 2147483647 ∧ ∀ p ∈ c'.points, Ok p) ↔ ∀ p ∈ c.points, Inner p) := by
    intro c c' hc hp
    have hl : c'.points.length = c.points.length := by rw [hp.length_eq, List.length_map]
    constructor
    · rintro ⟨_, hok⟩ p hpm
      exact (snap_ok (hc.2 p hpm)).1 (hok _ (hp.mem_iff.2 (List.mem_map_of_mem hpm)))
    · intro hin
      refine ⟨by rw [hl]; exact hc.1, fun q hq => ?_⟩
      obtain ⟨p, hpm, rfl⟩ := List.mem_map.1 (hp.mem_iff.1 hq)
      exact (snap_ok (hc.2 p hpm)).2 (hin p hpm)
  have again : ∀ {l l' l'' : List P3}, l'.Perm (l.map snap) → l''.Perm (l'.map snap) → l''.Perm l' := by
    intro l l' l'' h1 h2
    have h3 : (l'.map snap).Perm ((l.map snap).map snap) := h1.map snap
    rw [List.map_map] at h3
    have : snap ∘ snap = snap := by funext p; exact snap_snap p
    rw [this] at h3
    exact (h2.trans h3).trans h1.symm
  refine ⟨?_, fun d'' hk' => ⟨again hk.filtered.1 hk'.filtered.1, again hk.high.1 hk'.high.1, again hk.low.1 hk'.low.1, hk'.time.trans hk.time,
    hk'.gravityAlignment.trans hk.gravityAlignment, hk'.histogram.trans hk.histogram, hk'.localPose.trans hk.localPose⟩⟩
  have q1 := part (h d.filtered (by simp)) hk.filtered.1
  have q2 := part (h d.high (by simp)) hk.high.1
  have q3 := part (h d.low (by simp)) hk.low.1
  unfold Storable
  simp only [List.forall_mem_cons, List.not_mem_nil, false_implies, implies_true, and_true]
  rw [q1, q2, q3]

/-! ### Examples -/

/-- A point that rounds to the least number. -/
def edge : P3 := ⟨-(83886076 / 10000), 0, 0⟩

/-- A node with this point only. -/
def edgeNode : Node := ⟨⟨⟨0⟩⟩, ⟨1, 0, 0, 0⟩, ⟨[edge], []⟩, ⟨[], []⟩, ⟨[], []⟩, [1, 2], ⟨⟨0, 0, 0⟩, ⟨1, 0, 0, 0⟩⟩⟩

theorem edge_raster : rasterOf edge = ⟨-(2 ^ 23), 0, 0⟩ := by
  unfold rasterOf edge Prob.roundToInt
  norm_num

theorem edge_ok : Ok edge := by
  refine ⟨?_, ?_⟩
  · unfold inBounds edge
    rw [decide_eq_true_iff]
    norm_num
  · rw [edge_raster]
    norm_num

/-- **There is a node that can be stored and loaded, but not be stored again.** -/
theorem stored_once : ∃ d N m d', (∀ n, N ≤ n → nodeMsg n d = some m) ∧ toNode m = some d' ∧ ∀ n, nodeMsg n d' = none := by
  have hs : Storable edgeNode := by
    intro c hc
    simp only [edgeNode, List.mem_cons, List.not_mem_nil, or_false] at hc
    rcases hc with rfl | rfl | rfl
    · simp [edge_ok]
    · simp
    · simp
  obtain ⟨N, m, d', h1, h2, h3⟩ := node_roundtrip hs
  refine ⟨edgeNode, N, m, d', h1, h2, fun n => node_aborts ⟨d'.filtered, by simp, ?_⟩ n⟩
  intro hok
  have := (snap_ok edge_ok).1 (hok _ (h3.filtered.1.mem_iff.2 (by simp [edgeNode])))
  unfold Inner at this
  rw [edge_raster] at this
  exact absurd this.1 (lt_irrefl _)

example : toTimedCloud (timedCloudMsg ⟨⟨⟨5⟩⟩, ⟨1, 2, 3⟩, [⟨⟨4, 5, 6⟩, -1⟩], [7]⟩) = some ⟨⟨⟨5⟩⟩, ⟨1, 2, 3⟩, [⟨⟨4, 5, 6⟩, -1⟩], [7]⟩ := by
  rw [timedCloud_roundtrip]; simp

/-- One intensity too many. -/
example : toTimedCloud (timedCloudMsg ⟨⟨⟨5⟩⟩, ⟨1, 2, 3⟩, [⟨⟨4, 5, 6⟩, -1⟩], [7, 8]⟩) = none := by
  rw [timedCloud_roundtrip]; simp

/-- An old message with intensities. -/
example : toTimedCloud { pointDataLegacy := [{ x := 1 }], intensities := [3] } = none := by
  rw [timedCloud_legacy _ rfl]; simp

example : toSensorId ⟨4, "a"⟩ = some ⟨.landmark, "a"⟩ := by rw [sensorId_iff]; rfl

example : toRangeData (rangeDataMsg ⟨⟨0, 0, 0⟩, ⟨[⟨1, 2, 3⟩], [9]⟩, ⟨[], []⟩⟩) = ⟨⟨0, 0, 0⟩, ⟨[⟨1, 2, 3⟩], []⟩, ⟨[], []⟩⟩ := by rw [rangeData_roundtrip]; rfl

end Verif.Messages
