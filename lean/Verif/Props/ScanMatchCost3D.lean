import Verif.Props.InterpolatedGrid
import Verif.Props.CostFunctions
import Verif.Props.RangeDataInserter3D
import Mathlib.Analysis.SpecialFunctions.Trigonometric.Bounds

/-!
# The cost functions of the scan matcher in space (C77)

Residuals of points are continuously differentiable functions of all seven parameters of the pose and a tenth to nine tenths of the
scale, the cost of a cloud does not grow with the number of its points, the prior terms vanish just for the poses they pull to, and a
pose that costs no more than the initial one is near it by a bound that only depends on the weights.
-/

namespace Verif.MatchCost

open Verif.Rigid Verif.RealTime Verif.Grid2D Verif.Hybrid Verif.Spline

/-! ### Occupied space -/

/-- The probability of a voxel. -/
def probability (g : HG) (i : I3) : ℝ := (Verif.Prob.valueToProbability (Hybrid.val g i) : ℚ)

theorem probability_range (g : HG) (i : I3) : 1 / 10 ≤ probability g i ∧ probability g i ≤ 9 / 10 := by
  have h := valueToProbability_any (Hybrid.val g i)
  constructor
  · have : ((1 / 10 : ℚ) : ℝ) ≤ (Verif.Prob.valueToProbability (Hybrid.val g i) : ℚ) := by exact_mod_cast h.1
    push_cast at this; exact this
  · have : ((Verif.Prob.valueToProbability (Hybrid.val g i) : ℚ) : ℝ) ≤ ((9 / 10 : ℚ) : ℝ) := by exact_mod_cast h.2
    push_cast at this; exact this

/-- The seven parameters of a pose. -/
abbrev Params := (ℝ × ℝ × ℝ) × (ℝ × ℝ × ℝ × ℝ)

/-- The pose of some parameters. -/
def poseOf (x : Params) : Rigid3 := ⟨⟨x.1.1, x.1.2.1, x.1.2.2⟩, ⟨x.2.1, x.2.2.1, x.2.2.2.1, x.2.2.2.2⟩⟩

theorem occupied3_eq {g : HG} (w : HGWf g) (hr : 0 < g.resolution) (scale : ℝ) (points : List V3) (pose : Rigid3) :
    occupied3 scale points g pose = some (points.map fun p =>
      scale * (1 - field (probability g) g.resolution ((pose.apply p).x, (pose.apply p).y, (pose.apply p).z))) := by
  have hr' : (0 : ℝ) < g.resolution := by exact_mod_cast hr
  unfold occupied3
  refine mapM_all _ fun p _ => ?_
  rw [interpolated_eq (getProbability3 w) hr']
  rfl

/-- Every point has a residual.  It is continuously differentiable in the parameters of the pose, and from a tenth to nine tenths of the
scale. -/
theorem occupied3_smooth {g : HG} (w : HGWf g) (hr : 0 < g.resolution) {scale : ℝ} (hs : 0 ≤ scale) (points : List V3) :
    ∃ R : V3 → Params → ℝ, (∀ p, ContDiff ℝ 1 (R p)) ∧ (∀ x, occupied3 scale points g (poseOf x) = some (points.map fun p => R p x)) ∧
      ∀ p x, scale / 10 ≤ R p x ∧ R p x ≤ 9 / 10 * scale := by
  refine ⟨fun p x => scale * (1 - field (probability g) g.resolution (((poseOf x).apply p).x, ((poseOf x).apply p).y, ((poseOf x).apply p).z)),
    fun p => ?_, fun x => occupied3_eq w hr scale points _, fun p x => ?_⟩
  · refine contDiff_const.mul (contDiff_const.sub ((field_contDiff _ _).comp ?_))
    simp only [Rigid3.apply, Quat.rotate, cross, poseOf]
    fun_prop
  · have h := field_range (probability_range g) g.resolution (((poseOf x).apply p).x, ((poseOf x).apply p).y, ((poseOf x).apply p).z)
    constructor <;> nlinarith [h.1, h.2]

/-- A point at the centre of a voxel: its residual is the scale times one minus the probability of the voxel. -/
theorem occupied3_centre {g : HG} (w : HGWf g) (hr : 0 < g.resolution) (scale : ℝ) {pose : Rigid3} {p : V3} (i : I3)
    (h : pose.apply p = ⟨i.x * g.resolution, i.y * g.resolution, i.z * g.resolution⟩) :
    occupied3 scale [p] g pose = some [scale * (1 - probability g i)] := by
  have hr' : (0 : ℝ) < g.resolution := by exact_mod_cast hr
  rw [occupied3_eq w hr, List.map_singleton, h]
  simp only [field, conv_bump_centre _ hr']

/-- The sum of the squares of the residuals. -/
noncomputable def squares (r : List ℝ) : ℝ := (r.map fun e => e ^ 2).sum

theorem squares_range {lo hi : ℝ} (h0 : 0 ≤ lo) {r : List ℝ} (h : ∀ e ∈ r, lo ≤ e ∧ e ≤ hi) : r.length * lo ^ 2 ≤ squares r ∧ squares r ≤ r.length * hi ^ 2 := by
  induction r with
  | nil => simp [squares]
  | cons e r ih =>
    obtain ⟨i1, i2⟩ := ih fun e he => h e (List.mem_cons_of_mem _ he)
    have he := h e List.mem_cons_self
    simp only [squares, List.map_cons, List.sum_cons, List.length_cons, Nat.cast_add, Nat.cast_one] at *
    constructor <;> nlinarith

/-- However many points a cloud has, its cost is from a hundredth to 81 hundredths of the square of its weight. -/
theorem occupied3_cost {g : HG} (w : HGWf g) (hr : 0 < g.resolution) {weight : ℝ} (hw : 0 ≤ weight) {points : List V3} (hp : points ≠ []) (pose : Rigid3) :
    ∃ r, occupied3 (weight / √(points.length : ℝ)) points g pose = some r ∧ 1 / 100 * weight ^ 2 ≤ squares r ∧ squares r ≤ 81 / 100 * weight ^ 2 := by
  refine ⟨_, occupied3_eq w hr _ points pose, ?_⟩
  have hn : (0 : ℝ) < points.length := by exact_mod_cast List.length_pos_iff.2 hp
  have hs : 0 ≤ weight / √(points.length : ℝ) := by positivity
  have := squares_range (lo := weight / √(points.length : ℝ) / 10) (hi := 9 / 10 * (weight / √(points.length : ℝ))) (by positivity)
    (r := points.map fun p => weight / √(points.length : ℝ) *
      (1 - field (probability g) g.resolution ((pose.apply p).x, (pose.apply p).y, (pose.apply p).z))) (by
    intro e he
    obtain ⟨p, -, rfl⟩ := List.mem_map.1 he
    have h := field_range (probability_range g) g.resolution ((pose.apply p).x, (pose.apply p).y, (pose.apply p).z)
    constructor <;> nlinarith [h.1, h.2])
  rw [List.length_map] at this
  have e1 : (points.length : ℝ) * (weight / √(points.length : ℝ) / 10) ^ 2 = 1 / 100 * weight ^ 2 := by
    rw [div_pow, div_pow, Real.sq_sqrt hn.le]; field_simp; norm_num
  have e2 : (points.length : ℝ) * (9 / 10 * (weight / √(points.length : ℝ))) ^ 2 = 81 / 100 * weight ^ 2 := by
    rw [mul_pow, div_pow weight, Real.sq_sqrt hn.le]; field_simp; ring
  rw [e1, e2] at this
  exact this

/-! ### Intensities -/

theorem mapM_range {β : Type} {f : Nat → Option β} (L : List β) (h : ∀ i (hi : i < L.length), f i = some L[i]) : (List.range L.length).mapM f = some L := by
  induction L using List.reverseRecOn with
  | nil => rfl
  | append_singleton L b ih =>
    have e := ih fun i hi => by
      rw [h i (by rw [List.length_append]; omega), List.getElem_append_left hi]
    have e2 : f L.length = some b := by
      rw [h L.length (by simp), List.getElem_append_right (le_refl _)]
      simp
    rw [List.length_append, List.length_singleton, List.range_succ, List.mapM_append, e]
    simp [e2]

/-- The mean intensity of a voxel, zero without a measurement. -/
noncomputable def meanIntensity (g : Insert3D.IG) (i : I3) : ℚ :=
  if (Insert3D.cell g i).2 = 0 then 0 else (Insert3D.cell g i).1 / (Insert3D.cell g i).2

theorem getIntensity_eq {g : Insert3D.IG} (w : Insert3D.IGWf g) (i : I3) : g.getIntensity i = some (meanIntensity g i) := by
  unfold Insert3D.IG.getIntensity
  rw [dyn_value (baseLaws (ℚ × Nat) (0, 0)) w i]
  rfl

/-- With an intensity for every point, those above the threshold count nothing, the others by their difference from the interpolated
intensity. -/
theorem intensity3_eq {g : Insert3D.IG} (w : Insert3D.IGWf g) (hr : 0 < g.resolution) (scale threshold : ℝ) {points : List V3} {intensities : List ℝ}
    (h : intensities.length = points.length) (pose : Rigid3) :
    intensity3 scale threshold points intensities g pose = some ((points.zip intensities).map fun c => if threshold < c.2 then 0 else
      scale * (field (fun i => meanIntensity g i) g.resolution ((pose.apply c.1).x, (pose.apply c.1).y, (pose.apply c.1).z) - c.2)) := by
  have hr' : (0 : ℝ) < g.resolution := by exact_mod_cast hr
  unfold intensity3
  have hl : points.length = ((points.zip intensities).map fun c => if threshold < c.2 then 0 else
      scale * (field (fun i => meanIntensity g i) g.resolution ((pose.apply c.1).x, (pose.apply c.1).y, (pose.apply c.1).z) - c.2)).length := by
    simp [h]
  conv_lhs => rw [hl]
  refine mapM_range _ fun i hi => ?_
  rw [← hl] at hi
  have h1 : points[i]? = some points[i] := List.getElem?_eq_getElem hi
  have h2 : intensities[i]? = some (intensities[i]'(by omega)) := List.getElem?_eq_getElem (by omega)
  simp only [h1, h2, Option.bind_eq_bind, Option.bind_some, List.getElem_map, List.getElem_zip]
  split
  · rfl
  · rw [interpolated_eq (getIntensity_eq w) hr']
    rfl

/-- A cloud without intensities is read after the end of an empty vector. -/
theorem intensity3_missing (g : Insert3D.IG) (scale threshold : ℝ) {points : List V3} (h : points ≠ []) (pose : Rigid3) :
    intensity3 scale threshold points [] g pose = none := by
  refine mapM_none (a := 0) (List.mem_range.2 (List.length_pos_iff.2 h)) ?_
  rfl

/-! ### Priors -/

theorem squares_three (a b c : ℝ) : squares [a, b, c] = a ^ 2 + b ^ 2 + c ^ 2 := by
  simp only [squares, List.map_cons, List.map_nil, List.sum_cons, List.sum_nil]; ring

/-- The squared distance of two points. -/
def dist2 (a b : V3) : ℝ := (a.x - b.x) ^ 2 + (a.y - b.y) ^ 2 + (a.z - b.z) ^ 2

theorem translationDelta3_cost (scale : ℝ) (target t : V3) : squares (translationDelta3 scale target t) = scale ^ 2 * dist2 t target := by
  rw [translationDelta3, squares_three, dist2]; ring

theorem quaternionProduct_eq (a b : Quat) : quaternionProduct a b = a.mul b := by
  simp only [quaternionProduct, Quat.mul, Quat.mk.injEq]
  refine ⟨trivial, trivial, ?_, ?_⟩ <;> ring

/-- For unit quaternions the cost is the square of the sine of half the angle between the rotations. -/
theorem rotationDelta3_cost (scale : ℝ) {target q : Quat} (ht : target.Unit) (hq : q.Unit) :
    squares (rotationDelta3 scale target q) = scale ^ 2 * (1 - Cost.dot target q ^ 2) := by
  rw [rotationDelta3, squares_three]
  simp only [quaternionProduct, Cost.dot]
  have h1 : target.w ^ 2 + target.x ^ 2 + target.y ^ 2 + target.z ^ 2 = 1 := ht
  have h2 : q.w ^ 2 + q.x ^ 2 + q.y ^ 2 + q.z ^ 2 = 1 := hq
  have h3 : (1 : ℝ) = (target.w ^ 2 + target.x ^ 2 + target.y ^ 2 + target.z ^ 2) * (q.w ^ 2 + q.x ^ 2 + q.y ^ 2 + q.z ^ 2) := by rw [h1, h2]; norm_num
  rw [h3]; ring

/-- The residuals of the translation vanish just at the target. -/
theorem translationDelta3_zero_iff {scale : ℝ} (hs : scale ≠ 0) (target t : V3) : (∀ e ∈ translationDelta3 scale target t, e = 0) ↔ t = target := by
  simp only [translationDelta3, List.mem_cons, List.not_mem_nil, or_false, forall_eq_or_imp, forall_eq, mul_eq_zero, hs, false_or, sub_eq_zero]
  rw [V3.ext_iff]

/-- The residuals of the rotation vanish just for the rotation of the target. -/
theorem rotationDelta3_zero_iff {scale : ℝ} (hs : scale ≠ 0) {target q : Quat} (ht : target.Unit) (hq : q.Unit) :
    (∀ e ∈ rotationDelta3 scale target q, e = 0) ↔ ∀ v, q.rotate v = target.rotate v := by
  have key := Cost.trivial_rotation (q := target.conjugate.mul q) (unit_mul (unit_conjugate ht) hq)
  have hm : ∀ v, (target.conjugate.mul q).rotate v = target.conjugate.rotate (q.rotate v) := fun v => rotate_mul (unit_conjugate ht) hq v
  have e : quaternionProduct ⟨target.w, -target.x, -target.y, -target.z⟩ q = target.conjugate.mul q := quaternionProduct_eq _ _
  simp only [rotationDelta3, List.mem_cons, List.not_mem_nil, or_false, forall_eq_or_imp, forall_eq, mul_eq_zero, hs, false_or, e]
  constructor
  · rintro ⟨h1, h2, h3⟩ v
    have hr : (target.conjugate.mul q).rotate v = v := by
      simp only [Quat.rotate, cross, h1, h2, h3]
      ext <;> simp
    rw [hm] at hr
    have := (Cost.rotate_inverse ht (q.rotate v)).1
    rw [hr] at this
    exact this.symm
  · intro h
    exact key fun p => by rw [hm, h, (Cost.rotate_inverse ht p).2]

/-! ### Parameterizations of rotations -/

theorem clamp_range (v : ℝ) {lo hi : ℝ} (h : lo ≤ hi) : lo ≤ clamp v lo hi ∧ clamp v lo hi ≤ hi := by
  unfold clamp
  split
  · exact ⟨h, le_refl _⟩
  · split <;> constructor <;> linarith

/-- A step of the yaw-only parameterization is a rotation about the vertical axis by at most 60 degrees. -/
theorem yawOnly_rotation (q : Quat) (delta : ℝ) : ∃ a : ℝ, |a| ≤ Real.pi / 3 ∧ yawOnlyPlus q delta = (aroundZ a).mul q ∧
    Real.sin (a / 2) = max (-1 / 2) (min delta (1 / 2)) := by
  have hc := clamp_range delta (by norm_num : (-1 / 2 : ℝ) ≤ 1 / 2)
  have he : clamp delta (-1 / 2) (1 / 2) = max (-1 / 2) (min delta (1 / 2)) := by
    unfold clamp
    split
    · rw [min_eq_right (by linarith), max_eq_right (by norm_num)]
    · rw [min_eq_left (by linarith)]
      split
      · rw [max_eq_left (by linarith)]
      · rw [max_eq_right (by linarith)]
  refine ⟨2 * Real.arcsin (clamp delta (-1 / 2) (1 / 2)), ?_, ?_, ?_⟩
  · have h6 : Real.arcsin (1 / 2) = Real.pi / 6 := by
      rw [← Real.sin_pi_div_six, Real.arcsin_sin] <;> linarith [Real.pi_pos]
    have h6' : Real.arcsin (-1 / 2) = -(Real.pi / 6) := by
      rw [← h6, ← Real.arcsin_neg]; norm_num
    have l1 := Real.monotone_arcsin hc.1
    have l2 := Real.monotone_arcsin hc.2
    rw [h6'] at l1
    rw [h6] at l2
    rw [abs_le]
    constructor <;> linarith
  · unfold yawOnlyPlus aroundZ
    rw [mul_div_cancel_left₀ _ (by norm_num : (2 : ℝ) ≠ 0), Real.cos_arcsin, Real.sin_arcsin (by linarith [hc.1]) (by linarith [hc.2])]
    simp only [sq]
  · rw [mul_div_cancel_left₀ _ (by norm_num : (2 : ℝ) ≠ 0), Real.sin_arcsin (by linarith [hc.1]) (by linarith [hc.2]), he]

/-- So it stays a rotation and keeps the vertical component of every rotated vector. -/
theorem yawOnly_gravity {q : Quat} (h : q.Unit) (delta : ℝ) : (yawOnlyPlus q delta).Unit ∧ ∀ v, ((yawOnlyPlus q delta).rotate v).z = (q.rotate v).z := by
  obtain ⟨a, -, e, -⟩ := yawOnly_rotation q delta
  rw [e]
  refine ⟨unit_mul (unit_aroundZ a) h, fun v => ?_⟩
  rw [rotate_mul (unit_aroundZ a) h, aroundZ_rotate]

/-- A step of the constant-yaw parameterization keeps unit length, except for tiny steps, which change it by the square of the step. -/
theorem constantYaw_norm {q : Quat} (h : q.Unit) (delta : V2) :
    (1 / 10 ^ 6 ≤ norm2 delta → (constantYawPlus q delta).Unit) ∧
    (norm2 delta < 1 / 10 ^ 6 → (constantYawPlus q delta).normSq = 1 + norm2 delta ^ 2) := by
  have e : √(delta.x ^ 2 + delta.y ^ 2) = norm2 delta := by unfold norm2; congr 1; ring
  have hn := norm2_sq delta
  have hq : q.normSq = 1 := (normSq_eq q).trans h
  constructor
  · intro hd
    refine (normSq_eq _).symm.trans ?_
    unfold constantYawPlus
    simp only [e]
    rw [normSq_mul, hq, if_neg (by linarith), if_neg (by linarith), one_mul, normSq_eq]
    have h0 : norm2 delta ≠ 0 := by
      have : (0 : ℝ) < 1 / 10 ^ 6 := by norm_num
      linarith
    have : (Real.sin (norm2 delta) / norm2 delta * delta.x) ^ 2 + (Real.sin (norm2 delta) / norm2 delta * delta.y) ^ 2 = Real.sin (norm2 delta) ^ 2 := by
      rw [mul_pow, mul_pow, ← mul_add, ← hn, div_pow, div_mul_cancel₀ _ (pow_ne_zero 2 h0)]
    have hsc := Real.sin_sq_add_cos_sq (norm2 delta)
    linarith
  · intro hd
    unfold constantYawPlus
    simp only [e]
    rw [normSq_mul, hq, if_pos hd, if_pos hd, one_mul, normSq_eq, hn]
    ring

/-- A step of it is a rotation about an axis in the plane of the submap: the axis keeps its place. -/
theorem constantYaw_axis {q : Quat} (h : q.Unit) {delta : V2} (hd : 1 / 10 ^ 6 ≤ norm2 delta) :
    (constantYawPlus q delta).rotate ⟨delta.x, delta.y, 0⟩ = q.rotate ⟨delta.x, delta.y, 0⟩ := by
  have e : √(delta.x ^ 2 + delta.y ^ 2) = norm2 delta := by unfold norm2; congr 1; ring
  have hn := norm2_sq delta
  have h0 : norm2 delta ≠ 0 := by
    have : (0 : ℝ) < 1 / 10 ^ 6 := by norm_num
    linarith
  unfold constantYawPlus
  simp only [e]
  rw [if_neg (by linarith), if_neg (by linarith)]
  have hu : Quat.Unit ⟨Real.cos (norm2 delta), Real.sin (norm2 delta) / norm2 delta * delta.x, Real.sin (norm2 delta) / norm2 delta * delta.y, 0⟩ := by
    unfold Quat.Unit
    have : (Real.sin (norm2 delta) / norm2 delta * delta.x) ^ 2 + (Real.sin (norm2 delta) / norm2 delta * delta.y) ^ 2 = Real.sin (norm2 delta) ^ 2 := by
      rw [mul_pow, mul_pow, ← mul_add, ← hn, div_pow, div_mul_cancel₀ _ (pow_ne_zero 2 h0)]
    have hsc := Real.sin_sq_add_cos_sq (norm2 delta)
    simp only
    linarith
  rw [rotate_mul h hu]
  congr 1
  simp only [Quat.rotate, cross]
  ext <;> simp only <;> ring

/-! ### The problem -/

/-- The block of the occupied space of a cloud. -/
noncomputable def occupiedBlock (w : ℝ) (c : CloudAndGrids) : Block Rigid3 := ⟨none, occupied3 (w / √(c.points.length : ℝ)) c.points c.grid⟩

/-- Without intensity grids the problem is built just if there is a positive weight for each cloud and the two other weights are positive;
it has one block for each cloud and the two priors, for the given translation and the initial rotation. -/
theorem problem3_iff {o : Options3} {target : V3} {initial : Rigid3} {clouds : List CloudAndGrids} (hi : ∀ c ∈ clouds, c.intensityGrid = none)
    (blocks : List (Block Rigid3)) : problem3 o target initial clouds = some blocks ↔
      o.occupiedWeights.length = clouds.length ∧ (∀ w ∈ o.occupiedWeights, 0 < w) ∧ 0 < o.translationWeight ∧ 0 < o.rotationWeight ∧
      blocks = List.zipWith occupiedBlock o.occupiedWeights clouds ++
        [⟨none, fun pose => some (translationDelta3 o.translationWeight target pose.translation)⟩,
          ⟨none, fun pose => some (rotationDelta3 o.rotationWeight initial.rotation pose.rotation)⟩] := by
  unfold problem3
  by_cases hl : o.occupiedWeights.length = clouds.length
  · simp only [ne_eq, hl, not_true_eq_false, if_false, true_and]
    by_cases hw : ∀ w ∈ o.occupiedWeights, 0 < w
    · have e : (List.range clouds.length).mapM (fun (i : Nat) => do
          let c ← clouds[i]?
          cloudBlocks o i c) = some ((List.zipWith occupiedBlock o.occupiedWeights clouds).map fun b => [b]) := by
        have hL : clouds.length = ((List.zipWith occupiedBlock o.occupiedWeights clouds).map fun b => [b]).length := by simp [hl]
        conv_lhs => rw [hL]
        refine mapM_range _ fun i hi' => ?_
        rw [← hL] at hi'
        have h1 : clouds[i]? = some clouds[i] := List.getElem?_eq_getElem hi'
        have h2 : o.occupiedWeights[i]? = some (o.occupiedWeights[i]'(by omega)) := List.getElem?_eq_getElem (by omega)
        simp only [h1, Option.bind_eq_bind, Option.bind_some, List.getElem_map, List.getElem_zipWith]
        unfold cloudBlocks
        simp only [h2, Option.bind_eq_bind, Option.bind_some, hi _ (List.getElem_mem hi')]
        rw [if_neg (not_not.2 (hw _ (List.getElem_mem _)))]
        rfl
      rw [e]
      have ef : ((List.zipWith occupiedBlock o.occupiedWeights clouds).map fun b => [b]).flatten = List.zipWith occupiedBlock o.occupiedWeights clouds := by
        rw [← List.flatMap_def]
        simp
      simp only [Option.bind_eq_bind, Option.bind_some, ef]
      by_cases h1 : 0 < o.translationWeight <;> by_cases h2 : 0 < o.rotationWeight <;> simp [h1, h2]
      exact ⟨fun h => ⟨hw, h.symm⟩, fun h => h.2.symm⟩
    · push Not at hw
      obtain ⟨w, hw1, hw2⟩ := hw
      obtain ⟨i, hi', rfl⟩ := List.getElem_of_mem hw1
      have e : (List.range clouds.length).mapM (fun (i : Nat) => do
          let c ← clouds[i]?
          cloudBlocks o i c) = none := by
        refine mapM_none (a := i) (List.mem_range.2 (by omega)) ?_
        have h1 : clouds[i]? = some (clouds[i]'(by omega)) := List.getElem?_eq_getElem (by omega)
        have h2 : o.occupiedWeights[i]? = some o.occupiedWeights[i] := List.getElem?_eq_getElem hi'
        simp only [h1, Option.bind_eq_bind, Option.bind_some]
        unfold cloudBlocks
        simp only [h2, Option.bind_eq_bind, Option.bind_some]
        rw [if_pos (not_lt.2 hw2)]
      rw [e]
      simp only [Option.bind_eq_bind, Option.bind_none, reduceCtorEq, false_iff, not_and]
      intro h
      exact absurd (h _ hw1) (not_lt.2 hw2)
  · simp [hl]

theorem cost_cons {Pose : Type} (b : Block Pose) (bs : List (Block Pose)) (pose : Pose) {x y : ℝ} (h1 : b.cost pose = some x) (h2 : cost bs pose = some y) :
    cost (b :: bs) pose = some (x + y) := by
  unfold cost at *
  rw [List.mapM_cons, h1]
  rw [Option.map_eq_some_iff] at h2
  obtain ⟨l, hl, rfl⟩ := h2
  rw [hl]
  rfl

theorem cost_append {Pose : Type} (as bs : List (Block Pose)) (pose : Pose) {x y : ℝ} (h1 : cost as pose = some x) (h2 : cost bs pose = some y) :
    cost (as ++ bs) pose = some (x + y) := by
  unfold cost at *
  rw [Option.map_eq_some_iff] at h1 h2
  obtain ⟨l, hl, rfl⟩ := h1
  obtain ⟨m, hm, rfl⟩ := h2
  rw [List.mapM_append, hl, hm]
  simp

theorem occupied_cost (pose : Rigid3) (ws : List ℝ) : ∀ (clouds : List CloudAndGrids), ws.length = clouds.length → (∀ w ∈ ws, 0 < w) →
    (∀ c ∈ clouds, HGWf c.grid ∧ 0 < c.grid.resolution ∧ c.points ≠ []) →
    ∃ v, cost (List.zipWith occupiedBlock ws clouds) pose = some v ∧ 1 / 200 * squares ws ≤ v ∧ v ≤ 81 / 200 * squares ws := by
  induction ws with
  | nil => intro clouds _ _ _; exact ⟨0, by simp [cost], by simp [squares], by simp [squares]⟩
  | cons w ws ih =>
    intro clouds hl hw hc
    match clouds, hl with
    | c :: cs, hl =>
      obtain ⟨v, e, h1, h2⟩ := ih cs (by simpa using hl) (fun w h => hw w (List.mem_cons_of_mem _ h)) (fun c h => hc c (List.mem_cons_of_mem _ h))
      obtain ⟨w1, w2, w3⟩ := hc c List.mem_cons_self
      obtain ⟨r, er, r1, r2⟩ := occupied3_cost w1 w2 (hw w List.mem_cons_self).le w3 pose
      refine ⟨squares r / 2 + v, cost_cons _ _ _ ?_ e, ?_, ?_⟩
      · simp only [Block.cost, occupiedBlock, er, Option.map_some, loss]; rfl
      · have : squares (w :: ws) = w ^ 2 + squares ws := by simp [squares]
        rw [this]; linarith
      · have : squares (w :: ws) = w ^ 2 + squares ws := by simp [squares]
        rw [this]; linarith

/-- The cost of every pose is defined, and the part that depends on the map is bounded by the weights alone. -/
theorem problem3_cost {o : Options3} {target : V3} {initial : Rigid3} {clouds : List CloudAndGrids}
    (hc : ∀ c ∈ clouds, HGWf c.grid ∧ 0 < c.grid.resolution ∧ c.points ≠ [] ∧ c.intensityGrid = none) {blocks : List (Block Rigid3)}
    (h : problem3 o target initial clouds = some blocks) (hi : initial.Proper) {pose : Rigid3} (hp : pose.Proper) :
    ∃ c v, cost blocks pose = some c ∧
      2 * c = v + o.translationWeight ^ 2 * dist2 pose.translation target + o.rotationWeight ^ 2 * (1 - Cost.dot initial.rotation pose.rotation ^ 2) ∧
      1 / 100 * squares o.occupiedWeights ≤ v ∧ v ≤ 81 / 100 * squares o.occupiedWeights := by
  obtain ⟨h1, h2, -, -, rfl⟩ := (problem3_iff (fun c hc' => (hc c hc').2.2.2) blocks).1 h
  obtain ⟨v, e, v1, v2⟩ := occupied_cost pose o.occupiedWeights clouds h1 h2 fun c hc' => ⟨(hc c hc').1, (hc c hc').2.1, (hc c hc').2.2.1⟩
  have e1 : cost [⟨none, fun pose => some (translationDelta3 o.translationWeight target pose.translation)⟩,
      ⟨none, fun pose => some (rotationDelta3 o.rotationWeight initial.rotation pose.rotation)⟩] pose =
      some (squares (translationDelta3 o.translationWeight target pose.translation) / 2 +
        (squares (rotationDelta3 o.rotationWeight initial.rotation pose.rotation) / 2 + 0)) := by
    refine cost_cons _ _ _ rfl (cost_cons _ _ _ rfl ?_)
    simp [cost]
  refine ⟨_, 2 * v, cost_append _ _ _ e e1, ?_, by linarith, by linarith⟩
  rw [translationDelta3_cost, rotationDelta3_cost _ hi hp]
  ring

/-- A pose that costs no more than the initial one is near the target and the initial rotation: the distance is bounded by that of the
initial pose and the weights, whatever the map and the points are. -/
theorem match3_near {o : Options3} {target : V3} {initial final : Rigid3} {clouds : List CloudAndGrids}
    (hc : ∀ c ∈ clouds, HGWf c.grid ∧ 0 < c.grid.resolution ∧ c.points ≠ [] ∧ c.intensityGrid = none) {blocks : List (Block Rigid3)}
    (h : problem3 o target initial clouds = some blocks) (hi : initial.Proper) (hf : final.Proper) {c0 c1 : ℝ} (h0 : cost blocks initial = some c0)
    (h1 : cost blocks final = some c1) (hle : c1 ≤ c0) :
    o.translationWeight ^ 2 * dist2 final.translation target + o.rotationWeight ^ 2 * (1 - Cost.dot initial.rotation final.rotation ^ 2) ≤
      o.translationWeight ^ 2 * dist2 initial.translation target + 4 / 5 * squares o.occupiedWeights := by
  obtain ⟨d0, v0, e0, f0, g0, g0'⟩ := problem3_cost hc h hi hi
  obtain ⟨d1, v1, e1, f1, g1, g1'⟩ := problem3_cost hc h hi hf
  rw [e0, Option.some.injEq] at h0
  rw [e1, Option.some.injEq] at h1
  have : Cost.dot initial.rotation initial.rotation = 1 := Cost.dot_self hi
  rw [this] at f0
  linarith

/-- Without a weight for every cloud, or with fewer intensity options than clouds with intensity grids, there is no problem to solve. -/
theorem problem3_options (o : Options3) (target : V3) (initial : Rigid3) (clouds : List CloudAndGrids) {i : Nat} {c : CloudAndGrids} (hc : clouds[i]? = some c)
    (hg : c.intensityGrid.isSome) (ho : o.intensityOptions.length ≤ i) : problem3 o target initial clouds = none := by
  unfold problem3
  by_cases hl : o.occupiedWeights.length = clouds.length
  · simp only [ne_eq, hl, not_true_eq_false, if_false]
    have hlt : i < clouds.length := (List.getElem?_eq_some_iff.1 hc).1
    have e : (List.range clouds.length).mapM (fun (i : Nat) => do
        let c ← clouds[i]?
        cloudBlocks o i c) = none := by
      refine mapM_none (a := i) (List.mem_range.2 hlt) ?_
      simp only [hc, Option.bind_eq_bind, Option.bind_some]
      unfold cloudBlocks
      have h2 : o.occupiedWeights[i]? = some (o.occupiedWeights[i]'(by omega)) := List.getElem?_eq_getElem (by omega)
      have h3 : o.intensityOptions[i]? = none := List.getElem?_eq_none ho
      obtain ⟨ig, hig⟩ := Option.isSome_iff_exists.1 hg
      simp only [h2, Option.bind_eq_bind, Option.bind_some, hig, h3, Option.bind_none]
      split <;> rfl
    rw [e]; rfl
  · simp [hl]

/-- The blocks of a cloud exist just if its weight is positive and, with an intensity grid, there are positive intensity options for it
and intensities. -/
theorem cloudBlocks_iff (o : Options3) (i : Nat) (c : CloudAndGrids) : (cloudBlocks o i c).isSome ↔ (∃ w, o.occupiedWeights[i]? = some w ∧ 0 < w) ∧
    (c.intensityGrid.isSome → (∃ io, o.intensityOptions[i]? = some io ∧ 0 < io.huberScale ∧ 0 < io.weight ∧ 0 < io.threshold) ∧ c.intensities ≠ []) := by
  unfold cloudBlocks
  rcases o.occupiedWeights[i]? with _ | w
  · simp
  · by_cases hw : 0 < w
    · rcases c.intensityGrid with _ | ig
      · simp [hw]
      · rcases o.intensityOptions[i]? with _ | io
        · simp [hw]
        · by_cases h1 : 0 < io.huberScale <;> by_cases h2 : 0 < io.weight <;> by_cases h3 : 0 < io.threshold <;>
            simp [hw, h1, h2, h3, not_le.2]
    · simp [hw]

/-- When there is a problem to solve. -/
theorem problem3_isSome (o : Options3) (target : V3) (initial : Rigid3) (clouds : List CloudAndGrids) : (problem3 o target initial clouds).isSome ↔
    o.occupiedWeights.length = clouds.length ∧ (∀ w ∈ o.occupiedWeights, 0 < w) ∧
    (∀ (i : Nat) (c : CloudAndGrids), clouds[i]? = some c → c.intensityGrid.isSome →
      (∃ io : IntensityOptions, o.intensityOptions[i]? = some io ∧ 0 < io.huberScale ∧ 0 < io.weight ∧ 0 < io.threshold) ∧ c.intensities ≠ []) ∧
    0 < o.translationWeight ∧ 0 < o.rotationWeight := by
  unfold problem3
  by_cases hl : o.occupiedWeights.length = clouds.length
  · simp only [ne_eq, hl, not_true_eq_false, if_false, true_and]
    have key : ((List.range clouds.length).mapM (fun (i : Nat) => do
          let c ← clouds[i]?
          cloudBlocks o i c)).isSome ↔ (∀ w ∈ o.occupiedWeights, 0 < w) ∧ ∀ (i : Nat) (c : CloudAndGrids), clouds[i]? = some c → c.intensityGrid.isSome →
            (∃ io : IntensityOptions, o.intensityOptions[i]? = some io ∧ 0 < io.huberScale ∧ 0 < io.weight ∧ 0 < io.threshold) ∧ c.intensities ≠ [] := by
      constructor
      · intro h
        have hs : ∀ i c, clouds[i]? = some c → (cloudBlocks o i c).isSome := by
          intro i c hc
          by_contra hn
          rw [mapM_none (a := i) (List.mem_range.2 (List.getElem?_eq_some_iff.1 hc).1)] at h
          · simp at h
          · simp only [hc, Option.bind_eq_bind, Option.bind_some]
            simpa using hn
        refine ⟨fun w hw => ?_, fun i c hc => ((cloudBlocks_iff o i c).1 (hs i c hc)).2⟩
        obtain ⟨i, hi, rfl⟩ := List.getElem_of_mem hw
        have h1 : clouds[i]? = some (clouds[i]'(by omega)) := List.getElem?_eq_getElem (by omega)
        obtain ⟨w, e, hw⟩ := ((cloudBlocks_iff o i _).1 (hs i _ h1)).1
        rw [List.getElem?_eq_getElem hi, Option.some.injEq] at e
        rwa [e]
      · rintro ⟨h1, h2⟩
        have hs : ∀ i ∈ List.range clouds.length, (do let c ← clouds[i]?; cloudBlocks o i c) =
            some (((do let c ← clouds[i]?; cloudBlocks o i c) : Option (List (Block Rigid3))).getD []) := by
          intro i hi
          have hi' := List.mem_range.1 hi
          have e1 : clouds[i]? = some clouds[i] := List.getElem?_eq_getElem hi'
          have e2 : o.occupiedWeights[i]? = some (o.occupiedWeights[i]'(by omega)) := List.getElem?_eq_getElem (by omega)
          have : (cloudBlocks o i clouds[i]).isSome := (cloudBlocks_iff o i _).2 ⟨⟨_, e2, h1 _ (List.getElem_mem _)⟩, h2 i _ e1⟩
          obtain ⟨b, hb⟩ := Option.isSome_iff_exists.1 this
          simp [e1, hb]
        rw [mapM_all _ hs]
        rfl
    rw [← and_assoc, ← key]
    rcases hM : (List.range clouds.length).mapM (fun (i : Nat) => do
          let c ← clouds[i]?
          cloudBlocks o i c) with _ | bs
    · simp only [Option.bind_eq_bind] at hM ⊢
      rw [hM]
      simp
    · simp only [Option.bind_eq_bind] at hM ⊢
      rw [hM]
      by_cases h1 : 0 < o.translationWeight <;> by_cases h2 : 0 < o.rotationWeight <;> simp [h1, h2]
  · simp [hl]

/-- The loss of a square: the square up to the scale, then less than it, growing like the root. -/
theorem loss_range {a s : ℝ} (ha : 0 < a) (hs : 0 ≤ s) : 0 ≤ loss (some a) s ∧ loss (some a) s ≤ s ∧ loss (some a) s ≤ 2 * a * √s ∧
    (s ≤ a ^ 2 → loss (some a) s = s) := by
  have hq := Real.sq_sqrt hs
  have h0 := Real.sqrt_nonneg s
  unfold loss
  simp only
  split
  · rename_i h
    have : a < √s := Real.lt_sqrt_of_sq_lt h
    refine ⟨by nlinarith, by nlinarith [sq_nonneg (√s - a)], by nlinarith, fun h' => absurd h (not_lt.2 h')⟩
  · rename_i h
    have : √s ≤ a := by rw [Real.sqrt_le_left ha.le]; linarith
    exact ⟨hs, le_refl _, by nlinarith, fun _ => rfl⟩

/-- The cost of a cloud with intensities: that of the occupied space, and the loss of the mean squared difference of the intensities up to the
threshold. -/
theorem cloud_cost {o : Options3} {i : Nat} {c : CloudAndGrids} {ig : Insert3D.IG} (hig : c.intensityGrid = some ig) (hg : HGWf c.grid) (hr : 0 < c.grid.resolution)
    (hi : Insert3D.IGWf ig) (hir : 0 < ig.resolution) (hl : c.intensities.length = c.points.length) {w : ℝ} (hw : o.occupiedWeights[i]? = some w)
    {io : IntensityOptions} (hio : o.intensityOptions[i]? = some io) {blocks : List (Block Rigid3)} (h : cloudBlocks o i c = some blocks) (pose : Rigid3) :
    cost blocks pose = some (w ^ 2 / c.points.length * (c.points.map fun p =>
        (1 - field (probability c.grid) c.grid.resolution ((pose.apply p).x, (pose.apply p).y, (pose.apply p).z)) ^ 2).sum / 2 +
      loss (some io.huberScale) (io.weight ^ 2 / c.points.length * ((c.points.zip c.intensities).map fun x => if io.threshold < x.2 then 0 else
        (field (fun i => meanIntensity ig i) ig.resolution ((pose.apply x.1).x, (pose.apply x.1).y, (pose.apply x.1).z) - x.2) ^ 2).sum) / 2) := by
  have hs := (cloudBlocks_iff o i c).1 (by rw [h]; rfl)
  obtain ⟨w', hw', h0⟩ := hs.1
  obtain ⟨⟨io', hio', h1, h2, h3⟩, hne⟩ := hs.2 (by rw [hig]; rfl)
  rw [hw, Option.some.injEq] at hw'
  rw [hio, Option.some.injEq] at hio'
  subst hw' hio'
  unfold cloudBlocks at h
  simp only [hw, hio, hig, Option.bind_eq_bind, Option.bind_some] at h
  rw [if_neg (not_not.2 h0), if_neg (not_not.2 h1), if_neg (not_not.2 h2), if_neg (not_not.2 h3),
    if_neg (by simpa using hne), Option.some.injEq] at h
  subst h
  have hn : (0 : ℝ) ≤ c.points.length := Nat.cast_nonneg _
  have e1 : ∀ (v : ℝ) {γ : Type} (L : List γ) (f : γ → ℝ), ((L.map f).map fun e => (v / √(c.points.length : ℝ) * e) ^ 2).sum =
      v ^ 2 / c.points.length * (L.map fun x => f x ^ 2).sum := by
    intro v γ L f
    induction L with
    | nil => simp
    | cons x L ih =>
      simp only [List.map_cons, List.sum_cons, mul_add, ← ih, mul_pow, div_pow, Real.sq_sqrt hn]
  have b1 : (⟨none, occupied3 (w / √(c.points.length : ℝ)) c.points c.grid⟩ : Block Rigid3).cost pose = some (w ^ 2 / c.points.length * (c.points.map fun p =>
        (1 - field (probability c.grid) c.grid.resolution ((pose.apply p).x, (pose.apply p).y, (pose.apply p).z)) ^ 2).sum / 2) := by
    simp only [Block.cost, occupied3_eq hg hr, Option.map_some, loss]
    rw [← e1]
    simp only [List.map_map, Function.comp_def]
  have b2 : (⟨some io.huberScale, intensity3 (io.weight / √(c.points.length : ℝ)) io.threshold c.points c.intensities ig⟩ : Block Rigid3).cost pose =
      some (loss (some io.huberScale) (io.weight ^ 2 / c.points.length * ((c.points.zip c.intensities).map fun x => if io.threshold < x.2 then 0 else
        (field (fun i => meanIntensity ig i) ig.resolution ((pose.apply x.1).x, (pose.apply x.1).y, (pose.apply x.1).z) - x.2) ^ 2).sum) / 2) := by
    simp only [Block.cost, intensity3_eq hi hir _ _ hl, Option.map_some]
    have e2 := e1 io.weight (c.points.zip c.intensities) fun x => if io.threshold < x.2 then 0 else
        (field (fun i => meanIntensity ig i) ig.resolution ((pose.apply x.1).x, (pose.apply x.1).y, (pose.apply x.1).z) - x.2)
    have e3 : ∀ x : V3 × ℝ, (if io.threshold < x.2 then (0 : ℝ) else
        (field (fun i => meanIntensity ig i) ig.resolution ((pose.apply x.1).x, (pose.apply x.1).y, (pose.apply x.1).z) - x.2)) ^ 2 =
        if io.threshold < x.2 then 0 else
        (field (fun i => meanIntensity ig i) ig.resolution ((pose.apply x.1).x, (pose.apply x.1).y, (pose.apply x.1).z) - x.2) ^ 2 := by
      intro x; split <;> simp
    simp only [e3] at e2
    rw [← e2]
    simp only [List.map_map, Function.comp_def, mul_ite, mul_zero]
  have := cost_cons _ _ pose b1 (cost_cons _ [] pose b2 (y := 0) (by simp [cost]))
  rwa [add_zero] at this

/-! ### Examples -/

/-- A grid with one occupied voxel: the residual of a point there is a tenth of the scale, that of a point elsewhere nine tenths. -/
example : ∃ g : HG, HGWf g ∧ g.resolution = 1 / 2 ∧ ∃ r1 r2, occupied3 10 [⟨1 / 2, 0, 0⟩] g Rigid3.identity = some [r1] ∧
    occupied3 10 [⟨1 / 2, 0, 0⟩] g ⟨⟨0, 1, 0⟩, ⟨1, 0, 0, 0⟩⟩ = some [r2] ∧ r1 < r2 := by
  obtain ⟨g, e, w, -, hv⟩ := setProbability_spec3 (create_wf (1 / 2)) rfl (i := ⟨1, 0, 0⟩) (by unfold Valid; decide) (9 / 10)
  have hr : g.resolution = 1 / 2 := by
    simp only [HG.setProbability, Option.bind_eq_bind, Option.bind_eq_some_iff, Option.some.injEq] at e
    obtain ⟨grid, -, rfl⟩ := e
    rfl
  have hr0 : 0 < g.resolution := by rw [hr]; norm_num
  refine ⟨g, w, hr, _, _, occupied3_centre w hr0 10 ⟨1, 0, 0⟩ ?_, occupied3_centre w hr0 10 ⟨1, 2, 0⟩ ?_, ?_⟩
  · rw [hr]; simp [Rigid3.apply, Rigid3.identity, Quat.rotate, cross]
  · rw [hr]; simp [Rigid3.apply, Quat.rotate, cross]
  · have h1 : probability g ⟨1, 0, 0⟩ = 9 / 10 := by
      unfold probability
      rw [hv, if_pos rfl]
      have : Verif.Prob.valueToProbability (Verif.Prob.probabilityToValue (9 / 10)) = 9 / 10 := by decide +kernel
      rw [this]; norm_num
    have h2 : probability g ⟨1, 2, 0⟩ = 1 / 10 := by
      unfold probability
      rw [hv, if_neg (by decide), show Hybrid.val (HG.create (1 / 2)) ⟨1, 2, 0⟩ = 0 from empty_dlook _ _]
      have : Verif.Prob.valueToProbability 0 = 1 / 10 := by decide +kernel
      rw [this]; norm_num
    rw [h1, h2]; norm_num

/-- The weights of configuration_files/trajectory_builder_3d.lua:44-54, two clouds in new grids: the problem is built, and a pose that costs no
more than an initial pose at the target is at most 1.09 m away from it. -/
example (p q : V3) (initial : Rigid3) (hi : initial.Proper) :
    let clouds : List CloudAndGrids := [⟨[p, q], [], HG.create (1 / 10), none⟩, ⟨[p], [], HG.create (45 / 100), none⟩]
    ∃ blocks, problem3 ⟨[1, 6], [⟨1 / 2, 3 / 10, 40⟩], 5, 400⟩ initial.translation initial clouds = some blocks ∧
      ∀ (final : Rigid3) (c0 c1 : ℝ), final.Proper → cost blocks initial = some c0 → cost blocks final = some c1 → c1 ≤ c0 →
        dist2 final.translation initial.translation ≤ 1.09 ^ 2 ∧ 1 - Cost.dot initial.rotation final.rotation ^ 2 ≤ 0.014 ^ 2 := by
  intro clouds
  have hn : ∀ c ∈ clouds, HGWf c.grid ∧ 0 < c.grid.resolution ∧ c.points ≠ [] ∧ c.intensityGrid = none := by
    intro c hc
    simp only [clouds, List.mem_cons, List.not_mem_nil, or_false] at hc
    rcases hc with rfl | rfl
    · exact ⟨create_wf _, by simp [HG.create], by simp, rfl⟩
    · exact ⟨create_wf _, by simp [HG.create], by simp, rfl⟩
  refine ⟨_, (problem3_iff (fun c hc => (hn c hc).2.2.2) _).2 ⟨rfl, by simp, by norm_num, by norm_num, rfl⟩, ?_⟩
  intro final c0 c1 hf h0 h1 hle
  have := match3_near hn ((problem3_iff (fun c hc => (hn c hc).2.2.2) _).2 ⟨rfl, by simp, by norm_num, by norm_num, rfl⟩) hi hf h0 h1 hle
  have z : dist2 initial.translation initial.translation = 0 := by simp [dist2]
  have d : 0 ≤ dist2 final.translation initial.translation := by unfold dist2; positivity
  have r : 0 ≤ (400 : ℝ) ^ 2 * (1 - Cost.dot initial.rotation final.rotation ^ 2) := by
    rw [← rotationDelta3_cost 400 hi hf]
    exact List.sum_nonneg fun x hx => by obtain ⟨y, -, rfl⟩ := List.mem_map.1 hx; positivity
  simp only [z, squares, List.map_cons, List.map_nil, List.sum_cons, List.sum_nil] at this
  generalize Cost.dot initial.rotation final.rotation ^ 2 = a at *
  generalize dist2 final.translation initial.translation = b at *
  norm_num at this r ⊢
  constructor <;> linarith

end Verif.MatchCost
