import Verif.Match3D
import Verif.Props.BranchAndBound3D
import Verif.Props.RealTimeCorrelative
import Verif.Props.RotationalHistogram
import Verif.Props.Rigid
import Mathlib.Tactic.LinearCombination

/-!
# C93: loop closures in three dimensions, the best pose is found
-/

namespace Verif.Match3D

open Verif.Rigid Verif.Hybrid Verif.Fast3D
open Verif.RealTime (cellIndex3 maxRange window meanProbability3)

/-! ### What is wanted -/

/-- The state of a matcher that has been made for a submap. -/
structure Matcher.Ok (m : Matcher) : Prop where
  grid : HGWf m.grid
  low : HGWf m.low
  resolution : 0 < m.grid.resolution
  depth : 1 ≤ m.depth
  f : 1 ≤ m.f
  stack : ∃ n0, ∀ n, n0 ≤ n → Fast3D.stack n m.grid m.depth m.f = some m.stack
  room : ∀ x, val m.grid x ≠ 0 → -8192 + (2 ^ (m.depth - 1) - 1) ≤ x.x ∧ -8192 + (2 ^ (m.depth - 1) - 1) ≤ x.y ∧ -8192 + (2 ^ (m.depth - 1) - 1) ≤ x.z
  perm : ∀ l, (m.sort l).Perm l
  sorted : ∀ l, (m.sort l).Pairwise (fun a b => b.score ≤ a.score)

/-- The score of some voxels: the mean of their probabilities, which were rounded to 256 steps from 0.1 to 0.9. -/
def scoreOf (g : HG) (cells : List I3) : ℚ := 1 / 10 + ((cells.map fun c => (voxelScore g c : ℚ)).sum / cells.length) * ((8 / 10) / 255)

/-- The score of the histogram for a candidate at an angle. -/
noncomputable def rotationalScore (m : Matcher) (data : Node) (node submap : Rigid3) (a : ℝ) : ℝ :=
  ((Rotational.rotateHistogram data.histogram (yaw node submap data.gravity + a)).bind (Rotational.matchHistograms m.histogram)).getD 0

/-- The mean probability of the voxels of some points in the map of low resolution. -/
noncomputable def lowMean (g : HG) (points : List V3) (pose : Rigid3) : WithBot ℚ :=
  if points = [] then ⊥ else (meanProbability3 g (points.map pose.apply) : WithBot ℚ)

/-- The score of a candidate. -/
noncomputable def scoreAt (m : Matcher) (data : Node) (node submap : Rigid3) (a : ℝ) (o : I3) : ℚ :=
  scoreOf m.grid ((cells m.grid.resolution (poseOf node submap a) data.high).map (·.add o))

/-- The angle is one of those tried. -/
def IsAngle (m : Matcher) (data : Node) (W a : ℝ) : Prop :=
  ∃ k : Int, |k| ≤ RealTime.round (W / angularStep m.grid.resolution data.high) ∧ a = k * angularStep m.grid.resolution data.high

/-- The candidate passes the checks of the histogram and of low resolution. -/
structure Passes (m : Matcher) (data : Node) (node submap : Rigid3) (a : ℝ) (o : I3) : Prop where
  rotational : m.minRotational ≤ rotationalScore m data node submap a
  low : (m.minLow : WithBot ℚ) ≤ lowMean m.low data.low (poseFromCandidate m.grid.resolution (poseOf node submap a) o)

/-! ### The scans -/

theorem rotational_total {m : Matcher} {data : Node} (hl : m.histogram.length = data.histogram.length) (node submap : Rigid3) (a : ℝ) :
    (Rotational.rotateHistogram data.histogram (yaw node submap data.gravity + a)).bind (Rotational.matchHistograms m.histogram) =
      some (rotationalScore m data node submap a) := by
  unfold rotationalScore
  obtain ⟨r, hr, hlen⟩ := Rotational.rotate_length data.histogram (yaw node submap data.gravity + a)
  rw [hr, Option.bind_some]
  have : ∃ s, Rotational.matchHistograms m.histogram r = some s := by
    unfold Rotational.matchHistograms
    dsimp only
    split
    · exact ⟨_, rfl⟩
    · rw [if_neg (by rw [hl, hlen]; simp)]
      exact ⟨_, rfl⟩
  obtain ⟨s, hs⟩ := this
  rw [hs]
  rfl

/-- The scan for an angle. -/
noncomputable def scanOf (m : Matcher) (data : Node) (node submap : Rigid3) (a : ℝ) : Scan :=
  ⟨poseOf node submap a, cells m.grid.resolution (poseOf node submap a) data.high, rotationalScore m data node submap a⟩

theorem discreteScans_eq {m : Matcher} {data : Node} (hl : m.histogram.length = data.histogram.length) (node submap : Rigid3) (W : ℝ) :
    ∃ scans, discreteScans m data node submap W = some scans ∧
      (∀ s, s ∈ scans ↔ ∃ a, a ∈ angles m.grid.resolution data.high W ∧ m.minRotational ≤ rotationalScore m data node submap a ∧ s = scanOf m data node submap a) := by
  unfold discreteScans
  generalize angles m.grid.resolution data.high W = as
  have hm : Rotational.match m.histogram data.histogram (yaw node submap data.gravity) as = some (as.map (rotationalScore m data node submap)) := by
    unfold Rotational.match
    apply Rotational.mapM_map
    intro a _
    exact rotational_total hl node submap a
  dsimp only
  simp only [Option.bind_eq_bind]
  rw [hm, Option.bind_some]
  refine ⟨_, rfl, ?_⟩
  intro s
  simp only [List.mem_filterMap]
  constructor
  · rintro ⟨c, hc, hs⟩
    have hz : ∀ (l : List ℝ), c ∈ l.zip (l.map (rotationalScore m data node submap)) → c.1 ∈ l ∧ c.2 = rotationalScore m data node submap c.1 := by
      intro l
      induction l with
      | nil => intro h; simp at h
      | cons a l ih =>
        intro h
        rw [List.map_cons, List.zip_cons_cons, List.mem_cons] at h
        rcases h with h | h
        · rw [h]
          exact ⟨List.mem_cons_self, rfl⟩
        · exact ⟨List.mem_cons_of_mem _ (ih h).1, (ih h).2⟩
    obtain ⟨h1, h2⟩ := hz as hc
    split at hs
    · cases hs
    · rename_i hn
      refine ⟨c.1, h1, ?_, ?_⟩
      · rw [← h2]
        exact not_lt.1 hn
      · rw [← Option.some.inj hs, h2]
        rfl
  · rintro ⟨a, ha, hr, rfl⟩
    refine ⟨(a, rotationalScore m data node submap a), ?_, ?_⟩
    · have hz : ∀ (l : List ℝ), a ∈ l → (a, rotationalScore m data node submap a) ∈ l.zip (l.map (rotationalScore m data node submap)) := by
        intro l
        induction l with
        | nil => intro h; simp at h
        | cons b l ih =>
          intro h
          rw [List.map_cons, List.zip_cons_cons, List.mem_cons]
          rcases List.mem_cons.1 h with h | h
          · left
            rw [h]
          · exact Or.inr (ih h)
      exact hz as ha
    · rw [if_neg (not_lt.2 hr)]
      rfl

theorem mem_angles {r W a : ℝ} {points : List V3} : a ∈ angles r points W ↔
    ∃ k : Int, |k| ≤ RealTime.round (W / angularStep r points) ∧ a = k * angularStep r points := by
  unfold angles
  simp only [List.mem_map, RealTime.mem_window, abs_le]
  constructor
  · rintro ⟨k, hk, rfl⟩
    exact ⟨k, hk, rfl⟩
  · rintro ⟨k, hk, rfl⟩
    exact ⟨k, hk, rfl⟩

/-! ### Scores -/

theorem lowResolution_eq {g : HG} (w : HGWf g) (points : List V3) (pose : Rigid3) : lowResolution g points pose = some (lowMean g points pose) := by
  unfold lowResolution lowMean
  rw [RealTime.foldlM_sum (g := fun p => Prob.valueToProbability (val g (cellIndex3 g.resolution (pose.apply p)))) (fun p => RealTime.getProbability3 w _)]
  simp only [Option.bind_eq_bind, Option.bind_some]
  by_cases hp : points = []
  · rw [if_pos hp, if_pos (by simp [hp])]
  · rw [if_neg hp, if_neg (by simp [hp])]
    unfold meanProbability3
    rw [List.map_map, List.length_map, zero_add]
    rfl

theorem toProbability_eq (g : HG) (cells : List I3) :
    toProbability cells.length ((cells.map fun c => ((voxelScore g c : Nat) : Int)).sum) = scoreOf g cells := by
  have h : (((cells.map fun c => ((voxelScore g c : Nat) : Int)).sum : Int) : ℚ) = (cells.map fun c => (voxelScore g c : ℚ)).sum := by
    induction cells with
    | nil => simp
    | cons c l ih =>
      simp only [List.map_cons, List.sum_cons, Int.cast_add, Int.cast_natCast]
      rw [ih]
  unfold toProbability scoreOf
  rw [h]
  unfold Prob.maxProbability Prob.minProbability
  norm_num

theorem poseScore_eq (g : HG) (cells : List I3) (o : I3) :
    poseScore g (fun n sum => (toProbability n sum : WithBot ℚ)) cells o = (scoreOf g (cells.map (·.add o)) : WithBot ℚ) := by
  unfold poseScore
  rw [← toProbability_eq, List.length_map, List.map_map]
  rfl

theorem toProbability_mono (n : Nat) {a b : Int} (h : a ≤ b) : toProbability n a ≤ toProbability n b := by
  unfold toProbability Prob.maxProbability Prob.minProbability
  have h1 : (a : ℚ) ≤ b := by exact_mod_cast h
  have h2 : (a : ℚ) / n ≤ b / n := by
    rcases Nat.eq_zero_or_pos n with rfl | hn
    · simp
    · exact div_le_div_of_nonneg_right h1 (by exact_mod_cast hn.le)
  nlinarith

/-! ### The best candidate -/

/-- **C93, the match.** For a matcher of a submap and a scan with points the search completes.  It gives no match exactly if no candidate of the window that passes
the checks has a score above the minimum, and otherwise the pose of a candidate with the highest score of all those, with its scores. -/
theorem match_best {m : Matcher} (hm : m.Ok) {data : Node} (hp : data.high ≠ []) (hl : m.histogram.length = data.histogram.length) {wxy wz : Int} (hxy : 0 ≤ wxy)
    (hz : 0 ≤ wz) (W : ℝ) (node submap : Rigid3) (minScore : ℚ) :
    ∃ result, matchWith m wxy wz W node submap data minScore = some result ∧
      (result = none ↔ ∀ a o, IsAngle m data W a → Within wxy wz o → Passes m data node submap a o → scoreAt m data node submap a o ≤ minScore) ∧
      (∀ r, result = some r → ∃ a o, IsAngle m data W a ∧ Within wxy wz o ∧ Passes m data node submap a o ∧
        r.score = (scoreAt m data node submap a o : WithBot ℚ) ∧ r.pose = poseFromCandidate m.grid.resolution (poseOf node submap a) o ∧
        r.rotational = rotationalScore m data node submap a ∧ r.low = lowMean m.low data.low r.pose ∧ minScore < scoreAt m data node submap a o ∧
        ∀ a' o', IsAngle m data W a' → Within wxy wz o' → Passes m data node submap a' o' → scoreAt m data node submap a' o' ≤ scoreAt m data node submap a o) := by
  obtain ⟨scans, hscans, hmem⟩ := discreteScans_eq hl node submap W
  obtain ⟨n0, hstack⟩ := hm.stack
  obtain ⟨n1, grids, res, hg, hsearch, hnone, hsome⟩ := match_optimal (K := WithBot ℚ) hm.grid (depth := m.depth) (f := m.f) (wxy := wxy) (wz := wz)
    (toScore := fun n sum => (toProbability n sum : WithBot ℚ))
    (lowScore := (setting m wxy wz data scans).lowScore) (minLow := (m.minLow : WithBot ℚ)) (zero := ((0 : ℚ) : WithBot ℚ)) (minScore := (minScore : WithBot ℚ)) (sort := m.sort)
    (scans.map Scan.cells) hm.depth hm.f hm.room hxy hz (fun n a b h => WithBot.coe_le_coe.2 (toProbability_mono n h)) hm.perm hm.sorted
  have hgrids : grids = m.stack := Option.some.inj ((hg (max n0 n1) (le_max_right _ _)).symm.trans (hstack _ (le_max_left _ _)))
  subst hgrids
  have hsearch' : search (setting m wxy wz data scans) (minScore : WithBot ℚ) = some res := hsearch
  have hlow : ∀ (k : Nat) (s : Scan) (o : I3), scans[k]? = some s → (setting m wxy wz data scans).lowScore k o = lowMean m.low data.low (poseFromCandidate m.grid.resolution s.pose o) := by
    intro k s o hk
    unfold setting
    dsimp only
    rw [hk]
    dsimp only
    rw [lowResolution_eq hm.low]
    rfl
  have hcells : ∀ (k : Nat) (c : List I3), (scans.map Scan.cells)[k]? = some c ↔ ∃ s : Scan, scans[k]? = some s ∧ s.cells = c := by
    intro k c
    rw [List.getElem?_map, Option.map_eq_some_iff]
  have hcand : ∀ (k : Nat) (s : Scan), scans[k]? = some s → ∃ a, IsAngle m data W a ∧ m.minRotational ≤ rotationalScore m data node submap a ∧ s = scanOf m data node submap a := by
    intro k s hk
    obtain ⟨a, ha, h1, h2⟩ := (hmem s).1 (List.mem_of_getElem? hk)
    exact ⟨a, mem_angles.1 ha, h1, h2⟩
  have hidx : ∀ a, IsAngle m data W a → m.minRotational ≤ rotationalScore m data node submap a → ∃ k : Nat, scans[k]? = some (scanOf m data node submap a) := by
    intro a ha hr
    have := (hmem (scanOf m data node submap a)).2 ⟨a, mem_angles.2 ha, hr, rfl⟩
    exact List.mem_iff_getElem?.1 this
  have hscore : ∀ a o, poseScore m.grid (fun n sum => (toProbability n sum : WithBot ℚ)) (scanOf m data node submap a).cells o = (scoreAt m data node submap a o : WithBot ℚ) :=
    fun a o => poseScore_eq _ _ _
  cases hres : res with
  | none =>
    rw [hres] at hsearch' hnone
    refine ⟨none, ?_, ⟨fun _ => ?_, fun _ => rfl⟩, fun r hr => by cases hr⟩
    · unfold matchWith
      simp only [Option.bind_eq_bind]
      rw [hscans, Option.bind_some, if_neg (by simp [hp]), hsearch', Option.bind_some]
    · intro a o ha hwin hpass
      obtain ⟨k, hk⟩ := hidx a ha hpass.rotational
      have h1 := hnone.1 rfl k _ o ((hcells k _).2 ⟨_, hk, rfl⟩) hwin (by rw [hlow k _ o hk]; exact hpass.low)
      rw [hscore] at h1
      exact WithBot.coe_le_coe.1 h1
  | some c =>
    rw [hres] at hsearch' hnone
    obtain ⟨sc, e1, e2, e3, e4, e5, e6, e7⟩ := hsome c hres
    obtain ⟨s, hs, rfl⟩ := (hcells _ _).1 e1
    obtain ⟨a, ha, hr, rfl⟩ := hcand _ _ hs
    rw [hlow _ _ _ hs] at e3 e5
    rw [hscore] at e4
    have hpass : Passes m data node submap a c.offset := ⟨hr, e3⟩
    refine ⟨some ⟨c.score, poseFromCandidate m.grid.resolution (poseOf node submap a) c.offset, rotationalScore m data node submap a, c.low⟩, ?_, ?_, ?_⟩
    · unfold matchWith
      simp only [Option.bind_eq_bind]
      rw [hscans, Option.bind_some, if_neg (by simp [hp]), hsearch', Option.bind_some]
      dsimp only
      rw [hs, Option.bind_some]
      rfl
    · constructor
      · intro h
        cases h
      · intro h
        have h1 := h a c.offset ha e2 hpass
        rw [e4] at e6
        exact absurd (WithBot.coe_lt_coe.1 e6) (not_lt.2 h1)
    · intro r hr'
      cases hr'
      refine ⟨a, c.offset, ha, e2, hpass, e4, rfl, rfl, e5, ?_, ?_⟩
      · rw [e4] at e6
        exact WithBot.coe_lt_coe.1 e6
      · intro a' o' ha' hwin' hpass'
        obtain ⟨k, hk⟩ := hidx a' ha' hpass'.rotational
        have h1 := e7 k _ o' ((hcells k _).2 ⟨_, hk, rfl⟩) hwin' (by rw [hlow k _ o' hk]; exact hpass'.low)
        rw [hscore, e4] at h1
        exact WithBot.coe_le_coe.1 h1

/-! ### Scores and probabilities -/

/-- **C93, the score.** The score of some voxels is the mean of their probabilities up to half a step of the 256 values that the precomputed grids have. -/
theorem scoreOf_near (g : HG) {cells : List I3} (h : cells ≠ []) :
    |scoreOf g cells - (cells.map fun c => Prob.valueToProbability (val g c)).sum / cells.length| ≤ (8 / 10) / 510 := by
  have hone : ∀ c, |(1 / 10 + (voxelScore g c : ℚ) * ((8 / 10) / 255)) - Prob.valueToProbability (val g c)| ≤ (8 / 10) / 510 := by
    intro c
    unfold voxelScore
    split
    · rename_i h0
      rw [h0]
      simp [Prob.valueToProbability, Prob.valueToBoundedFloat, Prob.slowValueToBoundedFloat, Prob.minProbability]
      norm_num
    · obtain ⟨v, h1, _, h2⟩ := cellValue_spec (val g c)
      rw [h1]
      exact h2
  have hsum : ∀ l : List I3, |(l.length * (1 / 10) + (l.map fun c => (voxelScore g c : ℚ)).sum * ((8 / 10) / 255)) -
      (l.map fun c => Prob.valueToProbability (val g c)).sum| ≤ l.length * ((8 / 10) / 510) := by
    intro l
    induction l with
    | nil => simp
    | cons c l ih =>
      have h1 := abs_le.1 (hone c)
      have h2 := abs_le.1 ih
      simp only [List.length_cons, List.map_cons, List.sum_cons, Nat.cast_add, Nat.cast_one]
      refine abs_le.2 ⟨by linarith [h1.1, h2.1], by linarith [h1.2, h2.2]⟩
  have hn : (0 : ℚ) < cells.length := by exact_mod_cast List.length_pos_iff.2 h
  have hs := hsum cells
  unfold scoreOf
  have e : 1 / 10 + (cells.map fun c => (voxelScore g c : ℚ)).sum / cells.length * (8 / 10 / 255) - (cells.map fun c => Prob.valueToProbability (val g c)).sum / cells.length =
      ((cells.length * (1 / 10) + (cells.map fun c => (voxelScore g c : ℚ)).sum * ((8 / 10) / 255)) - (cells.map fun c => Prob.valueToProbability (val g c)).sum) / cells.length := by
    field_simp
  rw [e, abs_div, abs_of_pos hn, div_le_iff₀ hn]
  linarith

/-- Rounding and a shift by an integer can be exchanged unless the number is halfway between two integers. -/
theorem round_add {x : ℝ} (h : ∀ z : Int, x + 1 / 2 ≠ z) (n : Int) : RealTime.round (x + n) = RealTime.round x + n := by
  obtain ⟨a1, a2⟩ := RealTime.round_bounds x
  obtain ⟨b1, b2⟩ := RealTime.round_bounds (x + n)
  have c1 : x ≠ RealTime.round x - 1 / 2 := by
    intro e
    apply h (RealTime.round x)
    linarith
  have c2 : x ≠ RealTime.round x + 1 / 2 := by
    intro e
    apply h (RealTime.round x + 1)
    push_cast
    linarith
  have d1 : (RealTime.round x : ℝ) - 1 / 2 < x := lt_of_le_of_ne a1 (Ne.symm c1)
  have d2 : x < RealTime.round x + 1 / 2 := lt_of_le_of_ne a2 c2
  have e1 : (RealTime.round (x + n) : ℝ) < RealTime.round x + n + 1 := by linarith
  have e2 : (RealTime.round x : ℝ) + n < RealTime.round (x + n) + 1 := by linarith
  have f1 : RealTime.round (x + n) < RealTime.round x + n + 1 := by exact_mod_cast e1
  have f2 : RealTime.round x + n < RealTime.round (x + n) + 1 := by exact_mod_cast e2
  omega

/-- The rotation of a pose that is no rotation does not matter here: the offset is added to the moved points. -/
theorem candidate_apply {pose : Rigid3} (h : pose.Proper) (r : ℝ) (o : I3) (p : V3) : (poseFromCandidate r pose o).apply p =
    ⟨(pose.apply p).x + r * o.x, (pose.apply p).y + r * o.y, (pose.apply p).z + r * o.z⟩ := by
  unfold poseFromCandidate
  rw [apply3_mul (by unfold Rigid3.Proper Quat.Unit; norm_num) h]
  rw [Rigid3.apply]
  simp only [rotate_one]

/-- **C93, the voxels.** The voxels that a candidate is scored with are those of the points moved by its pose, unless a coordinate of a point lies exactly on the
border between two voxels. -/
theorem cells_shift {r : ℝ} (hr : 0 < r) {pose : Rigid3} (h : pose.Proper) (o : I3) {points : List V3}
    (hg : ∀ p ∈ points, ∀ z : Int, (pose.apply p).x / r + 1 / 2 ≠ z ∧ (pose.apply p).y / r + 1 / 2 ≠ z ∧ (pose.apply p).z / r + 1 / 2 ≠ z) :
    cells r (poseFromCandidate r pose o) points = (cells r pose points).map (·.add o) := by
  unfold cells
  rw [List.map_map]
  apply List.map_congr_left
  intro p hp
  rw [candidate_apply h]
  have e : ∀ x n : ℝ, (x + r * n) / r = x / r + n := by
    intro x n
    field_simp
  simp only [cellIndex3, Function.comp, I3.add, e]
  rw [round_add (fun z => (hg p hp z).1), round_add (fun z => (hg p hp z).2.1), round_add (fun z => (hg p hp z).2.2)]

/-- **C93**: on the border it is not so, since halves are rounded away from zero. -/
theorem cells_border : ∃ (p : V3) (o : I3), cells 1 (poseFromCandidate 1 Rigid3.identity o) [p] ≠ (cells 1 Rigid3.identity [p]).map (·.add o) := by
  refine ⟨⟨-1 / 2, 0, 0⟩, ⟨1, 0, 0⟩, ?_⟩
  unfold cells
  simp only [List.map_cons, List.map_nil]
  rw [candidate_apply proper_identity]
  intro h
  have h1 := congrArg (fun l : List I3 => l.map I3.x) h
  simp only [List.map_cons, List.map_nil, List.cons.injEq, and_true, cellIndex3, I3.add, Rigid3.apply, Rigid3.identity, rotate_one] at h1
  have e1 : RealTime.round ((-1 / 2 + 0 + 1 * ((1 : Int) : ℝ)) / 1) = 1 := by
    unfold RealTime.round
    rw [if_pos (by norm_num), Int.floor_eq_iff]
    norm_num
  have e2 : RealTime.round ((-1 / 2 + 0) / 1) = -1 := by
    unfold RealTime.round
    rw [if_neg (by norm_num), Int.ceil_eq_iff]
    norm_num
  rw [e1, e2] at h1
  norm_num at h1

/-! ### The angles -/

theorem step_ge {r : ℝ} (hr : 0 < r) {points : List V3} (hp : ∀ p ∈ points, p.norm ≤ 9000 * r) : 1 / 10 ^ 4 < angularStep r points := by
  unfold angularStep maxRange
  have hR : ∀ (l : List ℝ) (m : ℝ), m ≤ 9000 * r → (∀ x ∈ l, x ≤ 9000 * r) → l.foldl (fun m r => max r m) m ≤ 9000 * r := by
    intro l
    induction l with
    | nil => intro m h _; exact h
    | cons a l ih =>
      intro m h h'
      exact ih _ (max_le (h' a List.mem_cons_self) h) (fun x hx => h' x (List.mem_cons_of_mem _ hx))
  have h1 := hR (points.map V3.norm) (3 * r) (by linarith) (by
    intro x hx
    obtain ⟨p, hp', rfl⟩ := List.mem_map.1 hx
    exact hp p hp')
  have h2 : 3 * r ≤ (points.map V3.norm).foldl (fun m r => max r m) (3 * r) := (RealTime.foldl_max_le _ _).1
  generalize (points.map V3.norm).foldl (fun m r => max r m) (3 * r) = R at *
  have hR0 : 0 < R := by linarith
  have hx : 1 / 9000 ≤ r / R := by
    rw [div_le_div_iff₀ (by norm_num) hR0]
    linarith
  have hx1 : r / R ≤ 1 := by
    rw [div_le_one hR0]
    linarith
  have e : 1 - r ^ 2 / (2 * R ^ 2) = 1 - (r / R) ^ 2 / 2 := by
    field_simp
  rw [e]
  have h3 : r / R ≤ Real.arccos (1 - (r / R) ^ 2 / 2) := by
    have h4 := Real.arccos_le_arccos (Real.one_sub_sq_div_two_le_cos (x := r / R))
    rwa [Real.arccos_cos (by linarith) (by linarith [Real.two_le_pi])] at h4
  linarith

theorem step_pos {r : ℝ} (hr : 0 < r) (points : List V3) : 0 < angularStep r points := by
  unfold angularStep
  have h : 3 * r ≤ maxRange r (points.map V3.norm) := (RealTime.foldl_max_le _ _).1
  generalize maxRange r (points.map V3.norm) = R at *
  have hR0 : 0 < R := by linarith
  exact mul_pos (by norm_num) (Real.arccos_pos.2 (by linarith [show 0 < r ^ 2 / (2 * R ^ 2) by positivity]))

theorem fromAngleAxis_z {a : ℝ} (h : a = 0 ∨ 1 / 10 ^ 4 < |a|) : fromAngleAxis ⟨0, 0, a⟩ = aroundZ a := by
  rcases h with rfl | h
  · simp [fromAngleAxis, aroundZ]
  · have hn : V3.norm ⟨0, 0, a⟩ = |a| := by
      unfold V3.norm
      rw [show (0 : ℝ) * 0 + 0 * 0 + a * a = a ^ 2 by ring, Real.sqrt_sq_eq_abs]
    have h2 : a * a > 1 / 10 ^ 8 := by
      rw [← abs_mul_abs_self]
      nlinarith
    have h0 : |a| ≠ 0 := by
      intro e
      rw [e] at h
      norm_num at h
    unfold fromAngleAxis
    rw [if_pos (by simpa using h2)]
    simp only [hn, aroundZ, mul_zero]
    rcases abs_choice a with e | e
    · rw [e] at h0 ⊢
      congr 1
      field_simp
    · rw [e] at h0 ⊢
      rw [neg_div, Real.cos_neg, Real.sin_neg]
      congr 1
      have : a ≠ 0 := by simpa using h0
      field_simp

theorem isAngle_z {m : Matcher} (hr : 0 < m.grid.resolution) {data : Node} (hp : ∀ p ∈ data.high, p.norm ≤ 9000 * m.grid.resolution) {W a : ℝ} (h : IsAngle m data W a) :
    fromAngleAxis ⟨0, 0, a⟩ = aroundZ a := by
  obtain ⟨k, _, rfl⟩ := h
  have hr' : (0 : ℝ) < m.grid.resolution := by exact_mod_cast hr
  have hs := step_ge hr' hp
  apply fromAngleAxis_z
  by_cases hk : k = 0
  · left
    simp [hk]
  · right
    have h1 : (1 : ℝ) ≤ |(k : ℝ)| := by exact_mod_cast Int.one_le_abs hk
    rw [abs_mul, abs_of_pos (step_pos hr' _)]
    have := step_pos hr' data.high
    nlinarith

theorem inverse_unit {q : Quat} (h : q.Unit) : inverse q = q.conjugate := by
  have h1 : q.normSq = 1 := by
    rw [normSq_eq]
    exact h
  unfold inverse Quat.conjugate
  rw [h1]
  simp

theorem poseOf_eq {node submap : Rigid3} (hs : submap.Proper) {a : ℝ} (h : fromAngleAxis ⟨0, 0, a⟩ = aroundZ a) :
    poseOf node submap a = ⟨(submap.inverse.mul node).translation, (submap.rotation.conjugate.mul (aroundZ a)).mul node.rotation⟩ := by
  unfold poseOf
  rw [inverse_unit hs, h]

theorem poseOf_proper {node submap : Rigid3} (hn : node.Proper) (hs : submap.Proper) {a : ℝ} (h : fromAngleAxis ⟨0, 0, a⟩ = aroundZ a) : (poseOf node submap a).Proper := by
  rw [poseOf_eq hs h]
  exact unit_mul (unit_mul (unit_conjugate hs) (unit_aroundZ a)) hn

/-- **C93, the poses tried.** In the global frame the candidate for an angle is the scan turned by that angle around a vertical axis through its origin. -/
theorem poseOf_global {node submap : Rigid3} (hn : node.Proper) (hs : submap.Proper) {a : ℝ} (h : fromAngleAxis ⟨0, 0, a⟩ = aroundZ a) (p : V3) :
    submap.apply ((poseOf node submap a).apply p) = Rigid3.apply ⟨node.translation, aroundZ a⟩ (node.rotation.rotate p) := by
  have e : poseOf node submap a = submap.inverse.mul ⟨node.translation, (aroundZ a).mul node.rotation⟩ := by
    rw [poseOf_eq hs h, quat_mul_assoc]
    unfold Rigid3.mul Rigid3.inverse
    congr 1
    exact (normalized_unit (unit_mul (unit_conjugate hs) (unit_mul (unit_aroundZ a) hn))).symm
  have hp : (⟨node.translation, (aroundZ a).mul node.rotation⟩ : Rigid3).Proper := unit_mul (unit_aroundZ a) hn
  rw [e, ← apply3_mul hs (proper_mul (proper_inverse hs) hp), ← mul3_assoc hs (proper_inverse hs) hp, (mul3_inverse hs).1, (mul3_identity hp).2]
  unfold Rigid3.apply
  simp only
  rw [rotate_mul (unit_aroundZ a) hn]

/-- **C93, no gaps between angles.** From one angle to the next no point of the scan moves by more than the edge of a voxel. -/
theorem step_fine {m : Matcher} (hr : 0 < m.grid.resolution) {data : Node} (hf : ∀ p ∈ data.high, p.norm ≤ 9000 * m.grid.resolution) {node submap : Rigid3} (hn : node.Proper)
    (hs : submap.Proper) {W a : ℝ} (h : IsAngle m data W a) (h' : IsAngle m data W (a + angularStep m.grid.resolution data.high)) {p : V3} (hp : p ∈ data.high) :
    ((poseOf node submap (a + angularStep m.grid.resolution data.high)).apply p).distSq ((poseOf node submap a).apply p) ≤ (m.grid.resolution : ℝ) ^ 2 := by
  have hr' : (0 : ℝ) < m.grid.resolution := by exact_mod_cast hr
  rw [← apply3_dist hs, poseOf_global hn hs (isAngle_z hr hf h), poseOf_global hn hs (isAngle_z hr hf h')]
  have hq : (node.rotation.rotate p).x ^ 2 + (node.rotation.rotate p).y ^ 2 + (node.rotation.rotate p).z ^ 2 = p.norm ^ 2 := by
    have h1 := apply3_dist (a := ⟨⟨0, 0, 0⟩, node.rotation⟩) hn p ⟨0, 0, 0⟩
    have e : node.rotation.rotate ⟨0, 0, 0⟩ = ⟨0, 0, 0⟩ := by simp [Quat.rotate, cross]
    simp only [Rigid3.apply, V3.distSq, e] at h1
    rw [norm_sq]
    linarith
  have hR : 3 * (m.grid.resolution : ℝ) ≤ maxRange m.grid.resolution (data.high.map V3.norm) := (RealTime.foldl_max_le _ _).1
  have hpR : p.norm ≤ maxRange m.grid.resolution (data.high.map V3.norm) := (RealTime.foldl_max_le _ _).2 _ (List.mem_map_of_mem hp)
  have hp0 := norm_nonneg' p
  generalize node.rotation.rotate p = q at *
  have hs0 := step_pos hr' data.high
  have hcos : 1 - (m.grid.resolution : ℝ) ^ 2 / (2 * maxRange m.grid.resolution (data.high.map V3.norm) ^ 2) ≤ Real.cos (angularStep m.grid.resolution data.high) := by
    unfold angularStep at hs0 ⊢
    generalize maxRange (m.grid.resolution : ℝ) (data.high.map V3.norm) = R at *
    have hR0 : 0 < R := by linarith
    have x0 : 0 < (m.grid.resolution : ℝ) ^ 2 / (2 * R ^ 2) := by positivity
    have x1 : (m.grid.resolution : ℝ) ^ 2 / (2 * R ^ 2) ≤ 1 := by rw [div_le_one (by positivity)]; nlinarith
    have a0 : 0 < Real.arccos (1 - (m.grid.resolution : ℝ) ^ 2 / (2 * R ^ 2)) := Real.arccos_pos.2 (by linarith)
    have := Real.cos_le_cos_of_nonneg_of_le_pi hs0.le (Real.arccos_le_pi (1 - (m.grid.resolution : ℝ) ^ 2 / (2 * R ^ 2))) (by linarith)
    rwa [Real.cos_arccos (by linarith) (by linarith)] at this
  generalize angularStep (m.grid.resolution : ℝ) data.high = s at *
  generalize maxRange (m.grid.resolution : ℝ) (data.high.map V3.norm) = R at *
  have hR0 : 0 < R := by linarith
  have hd : (Rigid3.apply ⟨node.translation, aroundZ (a + s)⟩ q).distSq (Rigid3.apply ⟨node.translation, aroundZ a⟩ q) = 2 * (1 - Real.cos s) * (q.x ^ 2 + q.y ^ 2) := by
    simp only [Rigid3.apply, aroundZ_rotate, V3.distSq, Real.cos_add, Real.sin_add]
    have h1 := Real.sin_sq_add_cos_sq a
    have h2 := Real.sin_sq_add_cos_sq s
    linear_combination (q.x ^ 2 + q.y ^ 2) * (Real.sin s ^ 2 + (Real.cos s - 1) ^ 2) * h1 + (q.x ^ 2 + q.y ^ 2) * h2
  rw [hd]
  have e : 2 * ((m.grid.resolution : ℝ) ^ 2 / (2 * R ^ 2)) * R ^ 2 = (m.grid.resolution : ℝ) ^ 2 := by field_simp
  calc 2 * (1 - Real.cos s) * (q.x ^ 2 + q.y ^ 2) ≤ 2 * ((m.grid.resolution : ℝ) ^ 2 / (2 * R ^ 2)) * R ^ 2 := by
        apply mul_le_mul _ _ (by positivity) (by positivity)
        · linarith
        · nlinarith [sq_nonneg q.z]
    _ = (m.grid.resolution : ℝ) ^ 2 := e

/-- **C93, no gaps at the ends.** Every angle of the window is at most half a step from one that is tried. -/
theorem angles_cover {m : Matcher} (hr : 0 < m.grid.resolution) (data : Node) {W d : ℝ} (h : |d| ≤ W) :
    ∃ a, IsAngle m data W a ∧ |d - a| ≤ angularStep m.grid.resolution data.high / 2 := by
  have hr' : (0 : ℝ) < m.grid.resolution := by exact_mod_cast hr
  have hs := step_pos hr' data.high
  have c : W ≤ (RealTime.round (W / angularStep m.grid.resolution data.high) + 1 / 2) * angularStep m.grid.resolution data.high := by
    have h1 := (RealTime.round_bounds (W / angularStep m.grid.resolution data.high)).2
    have h2 : W / angularStep m.grid.resolution data.high * angularStep m.grid.resolution data.high = W := div_mul_cancel₀ _ hs.ne'
    nlinarith
  obtain ⟨k, k1, k2, k3⟩ := RealTime.covered hs c h
  exact ⟨_, ⟨k, abs_le.2 ⟨k1, k2⟩, rfl⟩, k3⟩

/-! ### The whole submap -/

theorem val_outside {g : HG} (w : HGWf g) {i : I3} (h : ((g.grid.gridSize + 1) / 2 : Nat) < |i.x| ∨ ((g.grid.gridSize + 1) / 2 : Nat) < |i.y| ∨ ((g.grid.gridSize + 1) / 2 : Nat) < |i.z|) :
    val g i = 0 := by
  unfold val
  apply dlook_outside _ w.grid
  rw [← Bool.not_eq_false, outside_iff]
  have hb : 1 ≤ g.grid.bits := w.grid.1
  unfold Dyn.shift
  rw [half_eq hb]
  have e : g.grid.gridSize = 2 * ((base Nat 0).size * 2 ^ (g.grid.bits - 1)) := by
    rw [gridSize_eq]
    obtain ⟨b, hb'⟩ : ∃ b, g.grid.bits = b + 1 := ⟨g.grid.bits - 1, by omega⟩
    rw [hb', pow_succ]
    simp only [Nat.add_sub_cancel]
    ring
  generalize (base Nat 0).size * 2 ^ (g.grid.bits - 1) = half at e
  rw [e] at h ⊢
  intro hr
  simp only [InRange, I3.addScalar] at hr
  have e2 : (2 * half + 1) / 2 = half := by omega
  rw [e2] at h
  simp only [lt_abs] at h
  omega

theorem scoreOf_zero {g : HG} {cells : List I3} (h : ∀ c ∈ cells, val g c = 0) : scoreOf g cells = 1 / 10 := by
  have : (cells.map fun c => (voxelScore g c : ℚ)).sum = 0 := by
    apply List.sum_eq_zero
    intro x hx
    obtain ⟨c, hc, rfl⟩ := List.mem_map.1 hx
    rw [voxelScore, if_pos (h c hc)]
    rfl
  unfold scoreOf
  rw [this]
  simp

theorem foldl_max_le' (l : List ℝ) (m : ℝ) : m ≤ l.foldl (fun m r => max m r) m ∧ ∀ r ∈ l, r ≤ l.foldl (fun m r => max m r) m := by
  have : (fun (m r : ℝ) => max m r) = fun m r => max r m := by
    funext a b
    exact max_comm a b
  rw [this]
  exact RealTime.foldl_max_le l m

/-- The voxels of a scan whose origin is that of the submap. -/
theorem cells_bound {r : ℝ} (hr : 0 < r) {q : Quat} (hq : q.Unit) {points : List V3} {c : I3} (hc : c ∈ cells r ⟨⟨0, 0, 0⟩, q⟩ points) :
    ∀ i ∈ [c.x, c.y, c.z], |i| ≤ RealTime.round ((points.map V3.norm).foldl (fun m r => max m r) 0 / r + 1 / 2) := by
  obtain ⟨p, hp, rfl⟩ := List.mem_map.1 hc
  have hD := (foldl_max_le' (points.map V3.norm) 0).2 _ (List.mem_map_of_mem hp)
  generalize (points.map V3.norm).foldl (fun m r => max m r) 0 = D at *
  have hn : ((⟨⟨0, 0, 0⟩, q⟩ : Rigid3).apply p).x ^ 2 + ((⟨⟨0, 0, 0⟩, q⟩ : Rigid3).apply p).y ^ 2 + ((⟨⟨0, 0, 0⟩, q⟩ : Rigid3).apply p).z ^ 2 = p.norm ^ 2 := by
    have h1 := apply3_dist (a := ⟨⟨0, 0, 0⟩, q⟩) hq p ⟨0, 0, 0⟩
    have e : q.rotate ⟨0, 0, 0⟩ = ⟨0, 0, 0⟩ := by simp [Quat.rotate, cross]
    simp only [Rigid3.apply, V3.distSq, e] at h1
    rw [norm_sq]
    simp only [Rigid3.apply]
    linarith
  have key : ∀ x : ℝ, x ^ 2 ≤ p.norm ^ 2 → |RealTime.round (x / r)| ≤ RealTime.round (D / r + 1 / 2) := by
    intro x hx
    have h1 : |x| ≤ p.norm := abs_le_of_sq_le_sq hx (norm_nonneg' p)
    obtain ⟨b1, b2⟩ := RealTime.round_bounds (x / r)
    obtain ⟨d1, d2⟩ := RealTime.round_bounds (D / r + 1 / 2)
    have h2 : |x| / r ≤ D / r := div_le_div_of_nonneg_right (h1.trans hD) hr.le
    have h3 : x / r ≤ |x| / r := div_le_div_of_nonneg_right (le_abs_self x) hr.le
    have h4 : -(x / r) ≤ |x| / r := by
      rw [← neg_div]
      exact div_le_div_of_nonneg_right (neg_le_abs x) hr.le
    refine abs_le.2 ⟨?_, ?_⟩
    · have : ((-RealTime.round (D / r + 1 / 2) : Int) : ℝ) < (RealTime.round (x / r) : ℝ) + 1 := by
        push_cast
        linarith
      have : -RealTime.round (D / r + 1 / 2) < RealTime.round (x / r) + 1 := by exact_mod_cast this
      omega
    · have : (RealTime.round (x / r) : ℝ) < ((RealTime.round (D / r + 1 / 2) : Int) : ℝ) + 1 := by linarith
      have : RealTime.round (x / r) < RealTime.round (D / r + 1 / 2) + 1 := by exact_mod_cast this
      omega
  intro i hi
  simp only [List.mem_cons, List.not_mem_nil, or_false, cellIndex3] at hi
  rcases hi with rfl | rfl | rfl <;> apply key <;>
    nlinarith [sq_nonneg ((⟨⟨0, 0, 0⟩, q⟩ : Rigid3).apply p).x, sq_nonneg ((⟨⟨0, 0, 0⟩, q⟩ : Rigid3).apply p).y, sq_nonneg ((⟨⟨0, 0, 0⟩, q⟩ : Rigid3).apply p).z]

/-- A candidate outside the window for the whole submap has no point in the grid. -/
theorem score_outside {m : Matcher} (hm : m.Ok) {data : Node} (hf : ∀ p ∈ data.high, p.norm ≤ 9000 * m.grid.resolution) {node submap : Quat} (hn : node.Unit) (hs : submap.Unit)
    {W a : ℝ} (ha : IsAngle m data W a) {o : I3} (ho : ¬ Within (fullWindow m data.high) (fullWindow m data.high) o) :
    scoreAt m data ⟨⟨0, 0, 0⟩, node⟩ ⟨⟨0, 0, 0⟩, submap⟩ a o = 1 / 10 := by
  have hr' : (0 : ℝ) < m.grid.resolution := by exact_mod_cast hm.resolution
  apply scoreOf_zero
  intro c' hc'
  obtain ⟨c, hc, rfl⟩ := List.mem_map.1 hc'
  have hz := isAngle_z hm.resolution hf ha
  have hpr : (poseOf ⟨⟨0, 0, 0⟩, node⟩ ⟨⟨0, 0, 0⟩, submap⟩ a).Proper := poseOf_proper (node := ⟨⟨0, 0, 0⟩, node⟩) (submap := ⟨⟨0, 0, 0⟩, submap⟩) hn hs hz
  have ht : (poseOf ⟨⟨0, 0, 0⟩, node⟩ ⟨⟨0, 0, 0⟩, submap⟩ a).translation = ⟨0, 0, 0⟩ := by
    simp [poseOf, Rigid3.mul, Rigid3.inverse, Quat.rotate, cross]
  have e : poseOf ⟨⟨0, 0, 0⟩, node⟩ ⟨⟨0, 0, 0⟩, submap⟩ a = ⟨⟨0, 0, 0⟩, (poseOf ⟨⟨0, 0, 0⟩, node⟩ ⟨⟨0, 0, 0⟩, submap⟩ a).rotation⟩ := by
    generalize poseOf ⟨⟨0, 0, 0⟩, node⟩ ⟨⟨0, 0, 0⟩, submap⟩ a = P at ht
    obtain ⟨t, q⟩ := P
    simp only at ht
    subst ht
    rfl
  rw [e] at hc
  have hb := cells_bound hr' (points := data.high) hpr hc
  have b1 := abs_le.1 (hb c.x (by simp))
  have b2 := abs_le.1 (hb c.y (by simp))
  have b3 := abs_le.1 (hb c.z (by simp))
  apply val_outside hm.grid
  unfold Within fullWindow at ho
  generalize RealTime.round ((data.high.map V3.norm).foldl (fun m r => max m r) 0 / (m.grid.resolution : ℝ) + 1 / 2) = N at *
  simp only [I3.add, lt_abs]
  omega

/-- **C93, the whole submap.** The search in the whole submap, with a minimum score not below 0.1, compares all offsets there are, not only those of its window: it
gives no match exactly if no candidate at one of the angles and any offset scores above the minimum, and otherwise the best one. -/
theorem full_best {m : Matcher} (hm : m.Ok) {data : Node} (hp : data.high ≠ []) (hl : m.histogram.length = data.histogram.length)
    (hf : ∀ p ∈ data.high, p.norm ≤ 9000 * m.grid.resolution) {node submap : Quat} (hn : node.Unit) (hs : submap.Unit) {minScore : ℚ} (hmin : 1 / 10 ≤ minScore) :
    ∃ result, matchFull m node submap data minScore = some result ∧
      (result = none ↔ ∀ a o, IsAngle m data Real.pi a → Passes m data ⟨⟨0, 0, 0⟩, node⟩ ⟨⟨0, 0, 0⟩, submap⟩ a o →
        scoreAt m data ⟨⟨0, 0, 0⟩, node⟩ ⟨⟨0, 0, 0⟩, submap⟩ a o ≤ minScore) ∧
      (∀ r, result = some r → ∃ a o, IsAngle m data Real.pi a ∧ Passes m data ⟨⟨0, 0, 0⟩, node⟩ ⟨⟨0, 0, 0⟩, submap⟩ a o ∧
        r.score = (scoreAt m data ⟨⟨0, 0, 0⟩, node⟩ ⟨⟨0, 0, 0⟩, submap⟩ a o : WithBot ℚ) ∧
        r.pose = poseFromCandidate m.grid.resolution (poseOf ⟨⟨0, 0, 0⟩, node⟩ ⟨⟨0, 0, 0⟩, submap⟩ a) o ∧
        r.rotational = rotationalScore m data ⟨⟨0, 0, 0⟩, node⟩ ⟨⟨0, 0, 0⟩, submap⟩ a ∧ r.low = lowMean m.low data.low r.pose ∧
        minScore < scoreAt m data ⟨⟨0, 0, 0⟩, node⟩ ⟨⟨0, 0, 0⟩, submap⟩ a o ∧
        ∀ a' o', IsAngle m data Real.pi a' → Passes m data ⟨⟨0, 0, 0⟩, node⟩ ⟨⟨0, 0, 0⟩, submap⟩ a' o' →
          scoreAt m data ⟨⟨0, 0, 0⟩, node⟩ ⟨⟨0, 0, 0⟩, submap⟩ a' o' ≤ scoreAt m data ⟨⟨0, 0, 0⟩, node⟩ ⟨⟨0, 0, 0⟩, submap⟩ a o) := by
  have hr' : (0 : ℝ) < m.grid.resolution := by exact_mod_cast hm.resolution
  have hw : 0 ≤ fullWindow m data.high := by
    unfold fullWindow
    have h1 := (foldl_max_le' (data.high.map V3.norm) 0).1
    have h2 : 0 ≤ RealTime.round ((data.high.map V3.norm).foldl (fun m r => max m r) 0 / (m.grid.resolution : ℝ) + 1 / 2) := RealTime.round_nonneg (by positivity)
    omega
  obtain ⟨result, h1, h2, h3⟩ := match_best hm hp hl hw hw Real.pi ⟨⟨0, 0, 0⟩, node⟩ ⟨⟨0, 0, 0⟩, submap⟩ minScore
  refine ⟨result, h1, ?_, ?_⟩
  · rw [h2]
    constructor
    · intro h a o ha hpass
      by_cases ho : Within (fullWindow m data.high) (fullWindow m data.high) o
      · exact h a o ha ho hpass
      · rw [score_outside hm hf hn hs ha ho]
        exact hmin
    · intro h a o ha _ hpass
      exact h a o ha hpass
  · intro r hr
    obtain ⟨a, o, k1, _, k2, k3, k4, k5, k6, k7, k8⟩ := h3 r hr
    refine ⟨a, o, k1, k2, k3, k4, k5, k6, k7, ?_⟩
    intro a' o' ha' hpass'
    by_cases ho : Within (fullWindow m data.high) (fullWindow m data.high) o'
    · exact k8 a' o' ha' ho hpass'
    · rw [score_outside hm hf hn hs ha' ho]
      linarith

/-- **C93**: in the search in the whole submap every direction is at most half a step from one that is tried. -/
theorem full_circle {m : Matcher} (hr : 0 < m.grid.resolution) (data : Node) (d : ℝ) :
    ∃ a, IsAngle m data Real.pi a ∧ ∃ k : Int, |d - k * (2 * Real.pi) - a| ≤ angularStep m.grid.resolution data.high / 2 := by
  have hpi := Real.pi_pos
  obtain ⟨h1, h2⟩ := RealTime.round_bounds (d / (2 * Real.pi))
  have e : d / (2 * Real.pi) * (2 * Real.pi) = d := div_mul_cancel₀ _ (by positivity)
  obtain ⟨a, ha, h⟩ := angles_cover hr data (W := Real.pi) (d := d - RealTime.round (d / (2 * Real.pi)) * (2 * Real.pi)) (abs_le.2 ⟨by nlinarith, by nlinarith⟩)
  exact ⟨a, ha, _, h⟩

/-! ### Example -/

/-- A matcher for one voxel that is known to be occupied. -/
theorem small_ok : ∃ m : Matcher, m.Ok ∧ m.grid.resolution = 1 ∧ m.low = m.grid ∧ m.histogram = [] ∧ m.minRotational = 0 ∧ m.minLow = 1 / 2 ∧ m.linearXY = 4 ∧ m.linearZ = 1 ∧
    m.angular = 1 ∧ ∀ i, val m.grid i = if i = ⟨3, 1, 0⟩ then Prob.probabilityToValue (9 / 10) else 0 := by
  obtain ⟨g, e, w, u, v⟩ := Hybrid.setProbability_spec3 (Hybrid.create_wf 1) rfl (i := ⟨3, 1, 0⟩) (by simp [Hybrid.Valid]) (9 / 10)
  have hres : g.resolution = 1 := by
    have : g.resolution = (Hybrid.HG.create 1).resolution := by
      simp only [Hybrid.HG.setProbability, Option.bind_eq_bind, Option.bind_eq_some_iff] at e
      grind
    exact this
  have v0 : ∀ j, Hybrid.val (Hybrid.HG.create 1) j = 0 := fun j => Hybrid.empty_dlook _ j
  have hv : ∀ i, val g i = if i = ⟨3, 1, 0⟩ then Prob.probabilityToValue (9 / 10) else 0 := by
    intro i
    rw [v, v0]
  have hroom : ∀ x, val g x ≠ 0 → -8192 + (2 ^ (4 - 1) - 1) ≤ x.x ∧ -8192 + (2 ^ (4 - 1) - 1) ≤ x.y ∧ -8192 + (2 ^ (4 - 1) - 1) ≤ x.z := by
    intro x hx
    rw [hv] at hx
    split at hx
    · rename_i h
      rw [h]
      norm_num
    · exact absurd rfl hx
  have hperm : ∀ l : List (Candidate (WithBot ℚ)), (l.mergeSort fun a b => decide (b.score ≤ a.score)).Perm l := fun l => List.mergeSort_perm l _
  have hsorted : ∀ l : List (Candidate (WithBot ℚ)), (l.mergeSort fun a b => decide (b.score ≤ a.score)).Pairwise (fun a b => b.score ≤ a.score) := by
    intro l
    have := List.pairwise_mergeSort (le := fun a b : Candidate (WithBot ℚ) => decide (b.score ≤ a.score))
      (fun a b c h1 h2 => by simp only [decide_eq_true_eq] at *; exact le_trans h2 h1)
      (fun a b => by simp only [Bool.or_eq_true, decide_eq_true_eq]; exact le_total _ _) l
    simpa using this
  obtain ⟨n0, grids, _, hg, _⟩ := match_optimal (K := WithBot ℚ) w (depth := 4) (f := 2) (wxy := 0) (wz := 0) (toScore := fun n sum => (toProbability n sum : WithBot ℚ))
    (lowScore := fun _ _ => ⊥) (minLow := ⊥) (zero := ⊥) (minScore := ⊥) [] (by norm_num) (by norm_num) hroom (le_refl _) (le_refl _)
    (fun n a b h => WithBot.coe_le_coe.2 (toProbability_mono n h)) hperm hsorted
  refine ⟨⟨g, g, [], grids, 4, 2, 0, 1 / 2, 4, 1, 1, fun l => l.mergeSort fun a b => decide (b.score ≤ a.score)⟩, ⟨w, w, by rw [hres]; norm_num, by norm_num, by norm_num, ⟨n0, hg⟩, hroom,
    hperm, hsorted⟩, hres, rfl, rfl, rfl, rfl, rfl, rfl, rfl, hv⟩

/-- A point that is matched with the one occupied voxel of a submap. -/
theorem small_match : ∃ m r, m.Ok ∧ matchFull m ⟨1, 0, 0, 0⟩ ⟨1, 0, 0, 0⟩ ⟨⟨1, 0, 0, 0⟩, [⟨0, 0, 0⟩], [⟨0, 0, 0⟩], []⟩ (1 / 2) = some (some r) ∧ r.score = ((9 / 10 : ℚ) : WithBot ℚ) ∧
    r.pose.translation = ⟨3, 1, 0⟩ := by
  obtain ⟨m, hm, hres, hlow, hh, hrot, hml, -, -, -, hv⟩ := small_ok
  have hround : ∀ z : Int, RealTime.round (z : ℝ) = z := by
    intro z
    obtain ⟨h1, h2⟩ := RealTime.round_bounds (z : ℝ)
    unfold RealTime.round
    split
    · rw [Int.floor_eq_iff]; constructor <;> linarith
    · rw [Int.ceil_eq_iff]; constructor <;> linarith
  let data : Node := ⟨⟨1, 0, 0, 0⟩, [⟨0, 0, 0⟩], [⟨0, 0, 0⟩], []⟩
  have hone : (⟨1, 0, 0, 0⟩ : Quat).Unit := by unfold Quat.Unit; norm_num
  obtain ⟨result, h1, h2, h3⟩ := full_best hm (data := data) (by simp [data]) (by simp [data, hh]) (by
    intro p hp
    simp only [data, List.mem_singleton] at hp
    rw [hp, hres]
    simp [V3.norm]) hone hone (minScore := 1 / 2) (by norm_num)
  have htr : ∀ a o, (poseFromCandidate m.grid.resolution (poseOf ⟨⟨0, 0, 0⟩, ⟨1, 0, 0, 0⟩⟩ ⟨⟨0, 0, 0⟩, ⟨1, 0, 0, 0⟩⟩ a) o).translation = ⟨o.x, o.y, o.z⟩ := by
    intro a o
    rw [hres]
    simp [poseFromCandidate, poseOf, Rigid3.mul, Rigid3.inverse, Quat.rotate, cross]
  have hcell : ∀ a o, (poseFromCandidate m.grid.resolution (poseOf ⟨⟨0, 0, 0⟩, ⟨1, 0, 0, 0⟩⟩ ⟨⟨0, 0, 0⟩, ⟨1, 0, 0, 0⟩⟩ a) o).apply ⟨0, 0, 0⟩ = ⟨o.x, o.y, o.z⟩ := by
    intro a o
    have := htr a o
    unfold Rigid3.apply
    rw [this]
    simp [Quat.rotate, cross]
  have hscore : ∀ a o, scoreAt m data ⟨⟨0, 0, 0⟩, ⟨1, 0, 0, 0⟩⟩ ⟨⟨0, 0, 0⟩, ⟨1, 0, 0, 0⟩⟩ a o = if o = ⟨3, 1, 0⟩ then 9 / 10 else 1 / 10 := by
    intro a o
    have hc : cells m.grid.resolution (poseOf ⟨⟨0, 0, 0⟩, ⟨1, 0, 0, 0⟩⟩ ⟨⟨0, 0, 0⟩, ⟨1, 0, 0, 0⟩⟩ a) data.high = [⟨0, 0, 0⟩] := by
      have := hround 0
      simp only [Int.cast_zero] at this
      simp [cells, data, cellIndex3, Rigid3.apply, poseOf, Rigid3.mul, Rigid3.inverse, Quat.rotate, cross, this]
    have h0 : (⟨0, 0, 0⟩ : I3).add o = o := by simp [I3.add]
    have hcv : (cellValue (Prob.probabilityToValue (9 / 10))).getD 0 = 255 := by decide +kernel
    have hne : Prob.probabilityToValue (9 / 10) ≠ 0 := by decide +kernel
    unfold scoreAt
    rw [hc]
    simp only [List.map_cons, List.map_nil, h0, scoreOf, voxelScore, hv, List.sum_cons, List.sum_nil, List.length_singleton]
    by_cases h : o = ⟨3, 1, 0⟩
    · simp only [h, if_true, if_neg hne, hcv]
      norm_num
    · simp [h]
  have hpass : Passes m data ⟨⟨0, 0, 0⟩, ⟨1, 0, 0, 0⟩⟩ ⟨⟨0, 0, 0⟩, ⟨1, 0, 0, 0⟩⟩ 0 ⟨3, 1, 0⟩ := by
    constructor
    · rw [hrot]
      unfold rotationalScore
      rw [hh]
      simp only [data]
      have : Rotational.rotateHistogram [] (yaw ⟨⟨0, 0, 0⟩, ⟨1, 0, 0, 0⟩⟩ ⟨⟨0, 0, 0⟩, ⟨1, 0, 0, 0⟩⟩ ⟨1, 0, 0, 0⟩ + 0) = some [] := rfl
      rw [this, Option.bind_some]
      have hn : Rotational.norm [] = 0 := by simp [Rotational.norm, Rotational.dot]
      unfold Rotational.matchHistograms
      simp only [hn]
      rw [if_pos (by norm_num)]
      norm_num
    · rw [hlow, hml]
      have p9 : Prob.valueToProbability (Prob.probabilityToValue (9 / 10)) = 9 / 10 := by decide +kernel
      have e : cellIndex3 (m.grid.resolution : ℝ) ⟨(3 : Int), (1 : Int), (0 : Int)⟩ = ⟨3, 1, 0⟩ := by
        unfold cellIndex3
        rw [hres]
        simp only [Rat.cast_one, div_one, hround]
      unfold lowMean
      rw [if_neg (by simp [data])]
      simp only [data, meanProbability3, List.map_cons, List.map_nil, hcell, e, hv, if_true, p9]
      exact WithBot.coe_le_coe.2 (by norm_num)
  have hang : IsAngle m data Real.pi 0 := ⟨0, by
    rw [abs_zero]
    apply RealTime.round_nonneg
    have hr' : (0 : ℝ) < m.grid.resolution := by exact_mod_cast hm.resolution
    exact div_nonneg Real.pi_pos.le (step_pos hr' _).le, by simp⟩
  cases hr : result with
  | none =>
    have := h2.1 hr 0 ⟨3, 1, 0⟩ hang hpass
    rw [hscore, if_pos rfl] at this
    norm_num at this
  | some r =>
    obtain ⟨a, o, k1, k2, k3, k4, k5, k6, k7, k8⟩ := h3 r hr
    rw [hscore] at k3 k7
    have ho : o = ⟨3, 1, 0⟩ := by
      by_contra h
      rw [if_neg h] at k7
      norm_num at k7
    rw [if_pos ho] at k3
    refine ⟨m, r, hm, by rw [← hr]; exact h1, k3, ?_⟩
    rw [k4, htr, ho]
    norm_num

end Verif.Match3D
