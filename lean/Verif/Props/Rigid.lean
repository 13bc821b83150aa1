import Verif.Rigid
import Mathlib.Tactic.LinearCombination
import Mathlib.Tactic.Ring
import Mathlib.Tactic.Positivity
import Mathlib.Tactic.NormNum

/-!
# C39: rigid transforms form a group acting by isometries

For all transforms whose rotation has norm one, which all operations preserve. Distances are squared, to be independent of
square roots.
-/

namespace Verif.Rigid

/-- A rotation. -/
def Quat.Unit (q : Quat) : Prop := q.w ^ 2 + q.x ^ 2 + q.y ^ 2 + q.z ^ 2 = 1

/-- A transform with a rotation. -/
def Rigid3.Proper (r : Rigid3) : Prop := r.rotation.Unit

/-- Squared distances. -/
def V2.distSq (a b : V2) : ℝ := (a.x - b.x) ^ 2 + (a.y - b.y) ^ 2
def V3.distSq (a b : V3) : ℝ := (a.x - b.x) ^ 2 + (a.y - b.y) ^ 2 + (a.z - b.z) ^ 2

/-! ### Two dimensions -/

theorem rotate2_add (a b : ℝ) (v : V2) : rotate2 (a + b) v = rotate2 a (rotate2 b v) := by
  ext <;> simp only [rotate2, Real.cos_add, Real.sin_add] <;> ring

/-- C39: composition is sequential application. -/
theorem apply2_mul (a b : Rigid2) (p : V2) : (a.mul b).apply p = a.apply (b.apply p) := by
  ext <;> simp only [Rigid2.apply, Rigid2.mul, rotate2, Real.cos_add, Real.sin_add] <;> ring

/-- C39: associativity. -/
theorem mul2_assoc (a b c : Rigid2) : (a.mul b).mul c = a.mul (b.mul c) := by
  ext <;> simp only [Rigid2.mul, rotate2, Real.cos_add, Real.sin_add] <;> ring

/-- C39: the identity is neutral. -/
theorem mul2_identity (a : Rigid2) : a.mul Rigid2.identity = a ∧ Rigid2.identity.mul a = a := by
  constructor <;> ext <;> simp [Rigid2.mul, Rigid2.identity, rotate2]

/-- C39: the inverse is an inverse on both sides. -/
theorem mul2_inverse (a : Rigid2) : a.mul a.inverse = Rigid2.identity ∧ a.inverse.mul a = Rigid2.identity := by
  have h := Real.sin_sq_add_cos_sq a.angle
  constructor
  · ext
    · simp only [Rigid2.mul, Rigid2.inverse, Rigid2.identity, rotate2, Real.cos_neg, Real.sin_neg]
      linear_combination (-a.translation.x) * h
    · simp only [Rigid2.mul, Rigid2.inverse, Rigid2.identity, rotate2, Real.cos_neg, Real.sin_neg]
      linear_combination (-a.translation.y) * h
    · simp only [Rigid2.mul, Rigid2.inverse, Rigid2.identity]; ring
  · ext
    · simp only [Rigid2.mul, Rigid2.inverse, Rigid2.identity, rotate2, Real.cos_neg, Real.sin_neg]; ring
    · simp only [Rigid2.mul, Rigid2.inverse, Rigid2.identity, rotate2, Real.cos_neg, Real.sin_neg]; ring
    · simp only [Rigid2.mul, Rigid2.inverse, Rigid2.identity]; ring

/-- C39: distances are preserved. -/
theorem apply2_dist (a : Rigid2) (p q : V2) : (a.apply p).distSq (a.apply q) = p.distSq q := by
  have h := Real.sin_sq_add_cos_sq a.angle
  simp only [Rigid2.apply, V2.distSq, rotate2]
  linear_combination ((p.x - q.x) ^ 2 + (p.y - q.y) ^ 2) * h

/-! ### Three dimensions -/

theorem normSq_eq (q : Quat) : q.normSq = q.w ^ 2 + q.x ^ 2 + q.y ^ 2 + q.z ^ 2 := by
  simp only [Quat.normSq]; ring

theorem normSq_mul (a b : Quat) : (a.mul b).normSq = a.normSq * b.normSq := by
  simp only [Quat.normSq, Quat.mul]; ring

theorem unit_mul {a b : Quat} (ha : a.Unit) (hb : b.Unit) : (a.mul b).Unit := by
  unfold Quat.Unit at *
  rw [← normSq_eq] at *
  rw [normSq_mul, ha, hb, one_mul]

theorem unit_conjugate {a : Quat} (ha : a.Unit) : a.conjugate.Unit := by
  unfold Quat.Unit at *
  simp only [Quat.conjugate]
  linear_combination ha

/-- Rotations are not changed by normalizing. -/
theorem normalized_unit {q : Quat} (h : q.Unit) : q.normalized = q := by
  unfold Quat.Unit at h
  rw [← normSq_eq] at h
  simp [Quat.normalized, h]

/-- Normalizing yields a rotation, unless all components are zero. -/
theorem unit_normalized {q : Quat} (h : 0 < q.normSq) : q.normalized.Unit := by
  have h1 : √q.normSq ^ 2 = q.normSq := Real.sq_sqrt h.le
  have h2 := normSq_eq q
  simp only [Quat.normalized, if_pos h, Quat.Unit, div_pow, h1]
  rw [← add_div, ← add_div, ← add_div, ← h2]
  exact div_self h.ne'

/-- The rotation of a vector written out. -/
theorem rotate_unit {q : Quat} (h : q.Unit) (v : V3) : q.rotate v =
    ⟨(q.w ^ 2 + q.x ^ 2 - q.y ^ 2 - q.z ^ 2) * v.x + 2 * (q.x * q.y - q.w * q.z) * v.y + 2 * (q.x * q.z + q.w * q.y) * v.z,
     2 * (q.x * q.y + q.w * q.z) * v.x + (q.w ^ 2 - q.x ^ 2 + q.y ^ 2 - q.z ^ 2) * v.y + 2 * (q.y * q.z - q.w * q.x) * v.z,
     2 * (q.x * q.z - q.w * q.y) * v.x + 2 * (q.y * q.z + q.w * q.x) * v.y + (q.w ^ 2 - q.x ^ 2 - q.y ^ 2 + q.z ^ 2) * v.z⟩ := by
  unfold Quat.Unit at h
  ext
  · simp only [Quat.rotate, cross]; linear_combination (-v.x) * h
  · simp only [Quat.rotate, cross]; linear_combination (-v.y) * h
  · simp only [Quat.rotate, cross]; linear_combination (-v.z) * h

theorem rotate_mul {a b : Quat} (ha : a.Unit) (hb : b.Unit) (v : V3) :
    (a.mul b).rotate v = a.rotate (b.rotate v) := by
  rw [rotate_unit (unit_mul ha hb), rotate_unit hb, rotate_unit ha]
  ext <;> simp only [Quat.mul] <;> ring

theorem rotate_add (q : Quat) (v w : V3) : q.rotate ⟨v.x + w.x, v.y + w.y, v.z + w.z⟩ =
    ⟨(q.rotate v).x + (q.rotate w).x, (q.rotate v).y + (q.rotate w).y, (q.rotate v).z + (q.rotate w).z⟩ := by
  ext <;> simp only [Quat.rotate, cross] <;> ring

theorem rotate_neg (q : Quat) (v : V3) : q.rotate ⟨-v.x, -v.y, -v.z⟩ =
    ⟨-(q.rotate v).x, -(q.rotate v).y, -(q.rotate v).z⟩ := by
  ext <;> simp only [Quat.rotate, cross] <;> ring

theorem quat_mul_assoc (a b c : Quat) : (a.mul b).mul c = a.mul (b.mul c) := by
  ext <;> simp only [Quat.mul] <;> ring

theorem mul_conjugate {q : Quat} (h : q.Unit) : q.mul q.conjugate = ⟨1, 0, 0, 0⟩ := by
  unfold Quat.Unit at h
  ext
  · simp only [Quat.mul, Quat.conjugate]; linear_combination h
  all_goals simp only [Quat.mul, Quat.conjugate]; ring

theorem conjugate_mul {q : Quat} (h : q.Unit) : q.conjugate.mul q = ⟨1, 0, 0, 0⟩ := by
  unfold Quat.Unit at h
  ext
  · simp only [Quat.mul, Quat.conjugate]; linear_combination h
  all_goals simp only [Quat.mul, Quat.conjugate]; ring

theorem rotate_one (v : V3) : Quat.rotate ⟨1, 0, 0, 0⟩ v = v := by
  ext <;> simp [Quat.rotate, cross]

/-- The operations yield rotations. -/
theorem proper_mul {a b : Rigid3} (ha : a.Proper) (hb : b.Proper) : (a.mul b).Proper := by
  unfold Rigid3.Proper Rigid3.mul at *
  simp only [normalized_unit (unit_mul ha hb)]
  exact unit_mul ha hb

theorem proper_inverse {a : Rigid3} (ha : a.Proper) : a.inverse.Proper := unit_conjugate ha

theorem proper_identity : Rigid3.identity.Proper := by
  simp [Rigid3.Proper, Rigid3.identity, Quat.Unit]

/-- The product of any two transforms whose rotations are not zero has a rotation of norm one. -/
theorem proper_mul_of_ne {a b : Rigid3} (ha : 0 < a.rotation.normSq) (hb : 0 < b.rotation.normSq) : (a.mul b).Proper :=
  unit_normalized (by rw [normSq_mul]; positivity)

/-- C39: composition is sequential application. -/
theorem apply3_mul {a b : Rigid3} (ha : a.Proper) (hb : b.Proper) (p : V3) : (a.mul b).apply p = a.apply (b.apply p) := by
  simp only [Rigid3.apply, Rigid3.mul, normalized_unit (unit_mul ha hb), rotate_mul ha hb]
  rw [rotate_add]
  ext <;> simp only <;> ring

/-- C39: associativity. -/
theorem mul3_assoc {a b c : Rigid3} (ha : a.Proper) (hb : b.Proper) (hc : c.Proper) :
    (a.mul b).mul c = a.mul (b.mul c) := by
  have hab := unit_mul ha hb
  have hbc := unit_mul hb hc
  simp only [Rigid3.mul, normalized_unit hab, normalized_unit hbc, quat_mul_assoc, rotate_mul ha hb]
  rw [rotate_add]
  ext <;> simp only <;> ring

/-- C39: the identity is neutral. -/
theorem mul3_identity {a : Rigid3} (ha : a.Proper) : a.mul Rigid3.identity = a ∧ Rigid3.identity.mul a = a := by
  have h1 : a.rotation.mul ⟨1, 0, 0, 0⟩ = a.rotation := by ext <;> simp [Quat.mul]
  have h2 : Quat.mul ⟨1, 0, 0, 0⟩ a.rotation = a.rotation := by ext <;> simp [Quat.mul]
  constructor
  · simp only [Rigid3.mul, Rigid3.identity, h1, normalized_unit ha]
    ext <;> simp [Quat.rotate, cross]
  · simp only [Rigid3.mul, Rigid3.identity, h2, normalized_unit ha, rotate_one]
    ext <;> simp

/-- C39: the inverse is an inverse on both sides. -/
theorem mul3_inverse {a : Rigid3} (ha : a.Proper) :
    a.mul a.inverse = Rigid3.identity ∧ a.inverse.mul a = Rigid3.identity := by
  have h1 : Quat.normalized ⟨1, 0, 0, 0⟩ = ⟨1, 0, 0, 0⟩ := normalized_unit (by simp [Quat.Unit])
  constructor
  · simp only [Rigid3.mul, Rigid3.inverse, Rigid3.identity, mul_conjugate ha, h1]
    rw [rotate_neg, ← rotate_mul ha (unit_conjugate ha), mul_conjugate ha, rotate_one]
    ext <;> simp
  · simp only [Rigid3.mul, Rigid3.inverse, Rigid3.identity, conjugate_mul ha, h1]
    ext <;> simp

/-- C39: distances are preserved. -/
theorem apply3_dist {a : Rigid3} (ha : a.Proper) (p q : V3) : (a.apply p).distSq (a.apply q) = p.distSq q := by
  have h : a.rotation.w ^ 2 + a.rotation.x ^ 2 + a.rotation.y ^ 2 + a.rotation.z ^ 2 = 1 := ha
  simp only [Rigid3.apply, rotate_unit (show a.rotation.Unit from ha), V3.distSq]
  linear_combination ((p.x - q.x) ^ 2 + (p.y - q.y) ^ 2 + (p.z - q.z) ^ 2) *
    (a.rotation.w ^ 2 + a.rotation.x ^ 2 + a.rotation.y ^ 2 + a.rotation.z ^ 2 + 1) * h

/-- Orientation is preserved: the rotation commutes with cross products. -/
theorem rotate_cross {q : Quat} (h : q.Unit) (v w : V3) : q.rotate (cross v w) = cross (q.rotate v) (q.rotate w) := by
  have h' : q.w ^ 2 + q.x ^ 2 + q.y ^ 2 + q.z ^ 2 = 1 := h
  ext
  · rw [← one_mul (q.rotate (cross v w)).x, ← h']
    simp only [rotate_unit h, cross]; ring
  · rw [← one_mul (q.rotate (cross v w)).y, ← h']
    simp only [rotate_unit h, cross]; ring
  · rw [← one_mul (q.rotate (cross v w)).z, ← h']
    simp only [rotate_unit h, cross]; ring

/-! ### Between two and three dimensions -/

theorem unit_aroundZ (t : ℝ) : (aroundZ t).Unit := by
  have := Real.sin_sq_add_cos_sq (t / 2)
  simp only [Quat.Unit, aroundZ]
  linear_combination this

theorem aroundZ_add (a b : ℝ) : aroundZ (a + b) = (aroundZ a).mul (aroundZ b) := by
  have h : (a + b) / 2 = a / 2 + b / 2 := by ring
  ext <;> simp only [aroundZ, Quat.mul, h, Real.cos_add, Real.sin_add] <;> ring

theorem aroundZ_rotate (t : ℝ) (v : V3) : (aroundZ t).rotate v =
    ⟨Real.cos t * v.x - Real.sin t * v.y, Real.sin t * v.x + Real.cos t * v.y, v.z⟩ := by
  have h1 : Real.cos t = Real.cos (t / 2) ^ 2 - Real.sin (t / 2) ^ 2 := by
    rw [← Real.cos_two_mul']; ring_nf
  have h2 : Real.sin t = 2 * Real.sin (t / 2) * Real.cos (t / 2) := by
    rw [← Real.sin_two_mul]; ring_nf
  have h3 := Real.sin_sq_add_cos_sq (t / 2)
  rw [rotate_unit (unit_aroundZ t), h1, h2]
  ext
  · simp only [aroundZ]; ring
  · simp only [aroundZ]; ring
  · simp only [aroundZ]; linear_combination v.z * h3

theorem proper_embed3D (a : Rigid2) : (embed3D a).Proper := unit_aroundZ _

/-- C39: embedding commutes with composition. -/
theorem embed3D_mul (a b : Rigid2) : embed3D (a.mul b) = (embed3D a).mul (embed3D b) := by
  have h := normalized_unit (unit_mul (unit_aroundZ a.angle) (unit_aroundZ b.angle))
  simp only [embed3D, Rigid3.mul, Rigid2.mul, aroundZ_add, h, aroundZ_rotate, rotate2]
  ext <;> simp

/-- C39: embedding commutes with inversion. -/
theorem embed3D_inverse (a : Rigid2) : embed3D a.inverse = (embed3D a).inverse := by
  have h : (aroundZ a.angle).conjugate = aroundZ (-a.angle) := by
    ext <;> simp [aroundZ, Quat.conjugate, neg_div]
  simp only [embed3D, Rigid3.inverse, Rigid2.inverse, h, aroundZ_rotate, rotate2]
  ext <;> simp

/-- The embedded transform does to points of the plane what the transform does. -/
theorem embed3D_apply (a : Rigid2) (p : V2) :
    (embed3D a).apply ⟨p.x, p.y, 0⟩ = ⟨(a.apply p).x, (a.apply p).y, 0⟩ := by
  simp only [embed3D, Rigid3.apply, Rigid2.apply, aroundZ_rotate, rotate2]
  ext <;> simp

theorem embed3D_identity : embed3D Rigid2.identity = Rigid3.identity := by
  ext <;> simp [embed3D, Rigid2.identity, Rigid3.identity, aroundZ]

/-- Projecting undoes embedding, for angles as `atan2` yields them. -/
theorem project2D_embed3D {a : Rigid2} (h : a.angle ∈ Set.Ioc (-Real.pi) Real.pi) : project2D (embed3D a) = a := by
  have h1 : getYaw (aroundZ a.angle) = a.angle := by
    unfold getYaw
    rw [aroundZ_rotate]
    simp only [mul_one, mul_zero, sub_zero, add_zero]
    have h2 : (⟨Real.cos a.angle, Real.sin a.angle⟩ : ℂ) = Complex.cos a.angle + Complex.sin a.angle * Complex.I := by
      apply Complex.ext <;> simp [Complex.cos_ofReal_re, Complex.sin_ofReal_re]
    rw [h2]
    exact Complex.arg_cos_add_sin_mul_I h
  simp only [project2D, embed3D, h1]

/-- Projecting undoes embedding for all angles, as far as the effect on points goes. -/
theorem project2D_embed3D_apply (a : Rigid2) (p : V2) : (project2D (embed3D a)).apply p = a.apply p := by
  have h0 : ‖(⟨Real.cos a.angle, Real.sin a.angle⟩ : ℂ)‖ = 1 := by
    rw [← sq_eq_sq₀ (norm_nonneg _) zero_le_one, ← Complex.normSq_eq_norm_sq, Complex.normSq_mk]
    have := Real.sin_sq_add_cos_sq a.angle
    linear_combination this
  have hne : (⟨Real.cos a.angle, Real.sin a.angle⟩ : ℂ) ≠ 0 := by
    intro h; rw [h] at h0; simp at h0
  have h1 : Real.cos (getYaw (aroundZ a.angle)) = Real.cos a.angle := by
    unfold getYaw
    rw [aroundZ_rotate]
    simp only [mul_one, mul_zero, sub_zero, add_zero]
    rw [Complex.cos_arg hne, h0]; simp
  have h2 : Real.sin (getYaw (aroundZ a.angle)) = Real.sin a.angle := by
    unfold getYaw
    rw [aroundZ_rotate]
    simp only [mul_one, mul_zero, sub_zero, add_zero]
    rw [Complex.sin_arg, h0]; simp
  simp only [project2D, embed3D, Rigid2.apply, rotate2, h1, h2]

/-! ### Rotation vectors -/

/-- The opposite quaternion. -/
def Quat.neg (q : Quat) : Quat := ⟨-q.w, -q.x, -q.y, -q.z⟩

theorem unit_neg {q : Quat} (h : q.Unit) : q.neg.Unit := by
  unfold Quat.Unit at *
  simp only [Quat.neg]
  linear_combination h

theorem rotate_neg_quat (q : Quat) (v : V3) : q.neg.rotate v = q.rotate v := by
  ext <;> simp only [Quat.rotate, Quat.neg, cross] <;> ring

/-- The rotation angle of a rotation with `w ≥ 0`. -/
noncomputable def halfAngle (q : Quat) : ℝ := Complex.arg ⟨q.w, V3.norm ⟨q.x, q.y, q.z⟩⟩

theorem norm_sq (v : V3) : v.norm ^ 2 = v.x ^ 2 + v.y ^ 2 + v.z ^ 2 := by
  unfold V3.norm
  rw [Real.sq_sqrt]
  · ring
  · nlinarith [sq_nonneg v.x, sq_nonneg v.y, sq_nonneg v.z]

theorem norm_nonneg' (v : V3) : 0 ≤ v.norm := Real.sqrt_nonneg _

theorem halfAngle_spec {q : Quat} (h : q.Unit) : Real.cos (halfAngle q) = q.w ∧
    Real.sin (halfAngle q) = V3.norm ⟨q.x, q.y, q.z⟩ := by
  have h1 := norm_sq ⟨q.x, q.y, q.z⟩
  have h' : q.w ^ 2 + q.x ^ 2 + q.y ^ 2 + q.z ^ 2 = 1 := h
  have h0 : ‖(⟨q.w, V3.norm ⟨q.x, q.y, q.z⟩⟩ : ℂ)‖ = 1 := by
    rw [← sq_eq_sq₀ (norm_nonneg _) zero_le_one, ← Complex.normSq_eq_norm_sq, Complex.normSq_mk]
    simp only at h1
    linear_combination h1 + h'
  have hne : (⟨q.w, V3.norm ⟨q.x, q.y, q.z⟩⟩ : ℂ) ≠ 0 := by
    intro h; rw [h] at h0; simp at h0
  constructor
  · unfold halfAngle; rw [Complex.cos_arg hne, h0]; simp
  · unfold halfAngle; rw [Complex.sin_arg, h0]; simp

theorem roundtrip_pos {q : Quat} (h : q.Unit) (hw : 0 ≤ q.w) (ha : 1 / 10 ^ 4 < 2 * halfAngle q) :
    fromAngleAxis (toAngleAxis q) = q := by
  obtain ⟨hc, hs⟩ := halfAngle_spec h
  have h1 := norm_sq ⟨q.x, q.y, q.z⟩
  have hq : toAngleAxis q = ⟨2 * halfAngle q / Real.sin (halfAngle q) * q.x, 2 * halfAngle q / Real.sin (halfAngle q) * q.y,
      2 * halfAngle q / Real.sin (halfAngle q) * q.z⟩ := by
    unfold toAngleAxis
    simp only [normalized_unit h, if_neg (not_lt.2 hw)]
    have h2 : 2 * Complex.arg ⟨q.w, V3.norm ⟨q.x, q.y, q.z⟩⟩ = 2 * halfAngle q := rfl
    rw [h2, if_neg (by linarith)]
    have h3 : 2 * halfAngle q / 2 = halfAngle q := by ring
    rw [h3]
  have hpos : 0 < halfAngle q := by linarith
  have hle : halfAngle q ≤ Real.pi / 2 := by
    have := (Complex.abs_arg_le_pi_div_two_iff (z := ⟨q.w, V3.norm ⟨q.x, q.y, q.z⟩⟩)).2 hw
    exact le_trans (le_abs_self _) this
  have hsin : 0 < Real.sin (halfAngle q) := Real.sin_pos_of_pos_of_lt_pi hpos (by linarith [Real.pi_pos])
  have hn : (toAngleAxis q).norm = 2 * halfAngle q := by
    have h4 : (toAngleAxis q).norm ^ 2 = (2 * halfAngle q) ^ 2 := by
      rw [norm_sq, hq]
      simp only at h1 ⊢
      rw [← hs] at h1
      have h5 : (2 * halfAngle q / Real.sin (halfAngle q) * q.x) ^ 2 + (2 * halfAngle q / Real.sin (halfAngle q) * q.y) ^ 2 +
          (2 * halfAngle q / Real.sin (halfAngle q) * q.z) ^ 2 =
          (2 * halfAngle q / Real.sin (halfAngle q)) ^ 2 * (q.x ^ 2 + q.y ^ 2 + q.z ^ 2) := by ring
      rw [h5, ← h1, div_pow, div_mul_cancel₀]
      positivity
    exact (sq_eq_sq₀ (norm_nonneg' _) (by linarith)).1 h4
  have hsq : (toAngleAxis q).x * (toAngleAxis q).x + (toAngleAxis q).y * (toAngleAxis q).y +
      (toAngleAxis q).z * (toAngleAxis q).z > 1 / 10 ^ 8 := by
    have := norm_sq (toAngleAxis q)
    rw [hn] at this
    nlinarith
  unfold fromAngleAxis
  rw [if_pos hsq, hn]
  have h3 : 2 * halfAngle q / 2 = halfAngle q := by ring
  simp only [h3, hc]
  rw [hq]
  have h6 : Real.sin (halfAngle q) / (2 * halfAngle q) * (2 * halfAngle q / Real.sin (halfAngle q)) = 1 := by
    field_simp
  ext
  · rfl
  · simp only; rw [← mul_assoc, h6, one_mul]
  · simp only; rw [← mul_assoc, h6, one_mul]
  · simp only; rw [← mul_assoc, h6, one_mul]

/-- Converting a rotation of more than 0.0001 radians to a rotation vector and back yields the same rotation; smaller ones are
approximated by the code. -/
theorem angle_axis_roundtrip {q : Quat} (h : q.Unit)
    (ha : 1 / 10 ^ 4 < 2 * Complex.arg ⟨|q.w|, V3.norm ⟨q.x, q.y, q.z⟩⟩) (v : V3) :
    (fromAngleAxis (toAngleAxis q)).rotate v = q.rotate v := by
  by_cases hw : 0 ≤ q.w
  · rw [abs_of_nonneg hw] at ha
    rw [roundtrip_pos h hw ha]
  · have hw' : q.w < 0 := not_le.1 hw
    have h1 : toAngleAxis q = toAngleAxis q.neg := by
      unfold toAngleAxis
      have h3 : ¬ -q.w < 0 := by linarith
      simp only [normalized_unit h, normalized_unit (unit_neg h), if_pos hw']
      rw [if_neg (show ¬ q.neg.w < 0 from h3)]
      simp [Quat.neg]
    have h2 : V3.norm ⟨-q.x, -q.y, -q.z⟩ = V3.norm ⟨q.x, q.y, q.z⟩ := by simp [V3.norm]
    rw [h1, roundtrip_pos (unit_neg h) (by simp only [Quat.neg]; linarith), rotate_neg_quat]
    rw [abs_of_neg hw'] at ha
    simp only [halfAngle, Quat.neg, h2]
    exact ha

/-- A rotation vector of length more than 0.0001 gives a rotation. -/
theorem unit_fromAngleAxis {v : V3} (h : 1 / 10 ^ 4 < v.norm) : (fromAngleAxis v).Unit := by
  have h1 := norm_sq v
  have h2 : v.x * v.x + v.y * v.y + v.z * v.z > 1 / 10 ^ 8 := by nlinarith
  have hv : v.norm ≠ 0 := by intro h0; rw [h0] at h; norm_num at h
  unfold fromAngleAxis
  rw [if_pos h2]
  simp only [Quat.Unit]
  have h3 : (Real.sin (v.norm / 2) / v.norm * v.x) ^ 2 + (Real.sin (v.norm / 2) / v.norm * v.y) ^ 2 +
      (Real.sin (v.norm / 2) / v.norm * v.z) ^ 2 = Real.sin (v.norm / 2) ^ 2 := by
    have : (Real.sin (v.norm / 2) / v.norm * v.x) ^ 2 + (Real.sin (v.norm / 2) / v.norm * v.y) ^ 2 +
      (Real.sin (v.norm / 2) / v.norm * v.z) ^ 2 =
      Real.sin (v.norm / 2) ^ 2 / v.norm ^ 2 * (v.x ^ 2 + v.y ^ 2 + v.z ^ 2) := by
      rw [← div_pow]; ring
    rw [this, ← h1, div_mul_cancel₀]
    positivity
  have h4 := Real.sin_sq_add_cos_sq (v.norm / 2)
  linarith

/-! ### Examples -/

/-- A quarter turn and a shift. -/
example : (Rigid2.mk ⟨1, 2⟩ (Real.pi / 2)).apply ⟨3, 0⟩ = ⟨1, 5⟩ := by
  ext
  · simp [Rigid2.apply, rotate2]
  · simp [Rigid2.apply, rotate2]; norm_num

/-- A rotation of norm one that is not around an axis of the frame. -/
example : (Rigid3.mk ⟨1, 2, 3⟩ ⟨1 / 2, 1 / 2, 1 / 2, 1 / 2⟩).Proper ∧
    (Rigid3.mk ⟨1, 2, 3⟩ ⟨1 / 2, 1 / 2, 1 / 2, 1 / 2⟩).apply ⟨10, 20, 30⟩ = ⟨31, 12, 23⟩ := by
  constructor
  · simp [Rigid3.Proper, Quat.Unit]; norm_num
  · ext <;> simp [Rigid3.apply, Quat.rotate, cross] <;> norm_num

/-- The condition on the norm is needed: with a rotation that is off by less than `IsValid` allows (rt 183-186) the inverse is
not an inverse. -/
theorem inverse_needs_unit : ∃ a : Rigid3, |1 - √a.rotation.normSq| < 1 / 1000 ∧ a.mul a.inverse ≠ Rigid3.identity := by
  refine ⟨⟨⟨0, 1, 0⟩, ⟨0, 1.0005, 0, 0⟩⟩, ?_, ?_⟩
  · have : (Quat.mk 0 1.0005 0 0).normSq = 1.0005 ^ 2 := by simp only [Quat.normSq]; norm_num
    rw [this, Real.sqrt_sq (by norm_num), abs_lt]
    constructor <;> norm_num
  · intro h
    have := congrArg (fun r => r.translation.y) h
    simp only [Rigid3.mul, Rigid3.inverse, Rigid3.identity, Quat.rotate, Quat.conjugate, cross] at this
    norm_num at this

end Verif.Rigid
