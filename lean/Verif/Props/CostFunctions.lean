import Verif.CostFunctions
import Verif.Props.Rigid
import Mathlib.Analysis.SpecialFunctions.Trigonometric.Deriv
import Mathlib.Analysis.Calculus.Deriv.Mul
import Mathlib.Tactic.Linarith
import Mathlib.Tactic.LinearCombination

/-!
# Cost functions: zero exactly for the observed pose, independent of the frame, with the right derivatives
-/

namespace Verif.Cost

open Verif.Rigid

/-! ### Specification -/

/-- Two poses in the plane move all points to the same place. -/
def Same2 (a b : Rigid2) : Prop := ∀ p, a.apply p = b.apply p

/-- Two poses in space move all points to the same place. -/
def Same3 (a b : Rigid3) : Prop := ∀ p, a.apply p = b.apply p

/-- Two rotations turn all vectors in the same way. -/
def SameRotation (a b : Quat) : Prop := ∀ p, a.rotate p = b.rotate p

/-! ### Angles -/

theorem loopDown_spec : ∀ (n : Nat) (d : ℝ), d ≤ 2 * Real.pi * n + Real.pi → ∃ k : ℤ, loopDown n d = d - 2 * Real.pi * k ∧
    loopDown n d ≤ Real.pi ∧ (d ≤ Real.pi → loopDown n d = d) ∧ (Real.pi < d → -Real.pi < loopDown n d) := by
  intro n
  induction n with
  | zero =>
    intro d hd
    refine ⟨0, by simp [loopDown], ?_, fun _ => rfl, fun h => ?_⟩
    · simp only [loopDown]; push_cast at hd; linarith
    · push_cast at hd; linarith
  | succ n ih =>
    intro d hd
    by_cases h : Real.pi < d
    · simp only [loopDown, if_pos h]
      push_cast at hd
      obtain ⟨k, h1, h2, h3, h4⟩ := ih (d - 2 * Real.pi) (by linarith)
      refine ⟨k + 1, by rw [h1]; push_cast; ring, h2, fun h' => absurd h (not_lt.2 h'), fun _ => ?_⟩
      by_cases h5 : Real.pi < d - 2 * Real.pi
      · exact h4 h5
      · rw [h3 (not_lt.1 h5)]; linarith
    · simp only [loopDown, if_neg h]
      exact ⟨0, by simp, not_lt.1 h, fun _ => trivial, fun h' => absurd h' h⟩

theorem loopUp_spec : ∀ (n : Nat) (d : ℝ), -(2 * Real.pi * n + Real.pi) ≤ d → ∃ k : ℤ, loopUp n d = d - 2 * Real.pi * k ∧
    -Real.pi ≤ loopUp n d ∧ (-Real.pi ≤ d → loopUp n d = d) ∧ (d < -Real.pi → loopUp n d < Real.pi) := by
  intro n
  induction n with
  | zero =>
    intro d hd
    refine ⟨0, by simp [loopUp], ?_, fun _ => rfl, fun h => ?_⟩
    · simp only [loopUp]; push_cast at hd; linarith
    · push_cast at hd; linarith
  | succ n ih =>
    intro d hd
    by_cases h : d < -Real.pi
    · simp only [loopUp, if_pos h]
      push_cast at hd
      obtain ⟨k, h1, h2, h3, h4⟩ := ih (d + 2 * Real.pi) (by linarith)
      refine ⟨k - 1, by rw [h1]; push_cast; ring, h2, fun h' => absurd h (not_lt.2 h'), fun _ => ?_⟩
      by_cases h5 : d + 2 * Real.pi < -Real.pi
      · exact h4 h5
      · rw [h3 (not_lt.1 h5)]; linarith
    · simp only [loopUp, if_neg h]
      exact ⟨0, by simp, not_lt.1 h, fun _ => trivial, fun h' => absurd h' h⟩

/-- `NormalizeAngleDifference` changes an angle by full turns, into `[-π, π]`. -/
theorem normalize_range (d : ℝ) : (∃ k : ℤ, normalizeAngle d = d - 2 * Real.pi * k) ∧ -Real.pi ≤ normalizeAngle d ∧
    normalizeAngle d ≤ Real.pi := by
  have hc := Nat.le_ceil |d|
  have hp : (1 : ℝ) < Real.pi := by linarith [Real.two_le_pi]
  have hn : (0 : ℝ) ≤ (⌈|d|⌉₊ : ℝ) := by positivity
  have ha := abs_le.1 (le_refl |d|)
  obtain ⟨k, h1, h2, h3, h4⟩ := loopDown_spec ⌈|d|⌉₊ d (by nlinarith [ha.2])
  have hlow : -(2 * Real.pi * (⌈|d|⌉₊ : ℝ) + Real.pi) ≤ loopDown ⌈|d|⌉₊ d := by
    by_cases h5 : Real.pi < d
    · have := h4 h5; nlinarith
    · rw [h3 (not_lt.1 h5)]; nlinarith [ha.1]
  obtain ⟨k', g1, g2, g3, g4⟩ := loopUp_spec ⌈|d|⌉₊ (loopDown ⌈|d|⌉₊ d) hlow
  refine ⟨⟨k + k', by rw [normalizeAngle, g1, h1]; push_cast; ring⟩, g2, ?_⟩
  by_cases h5 : -Real.pi ≤ loopDown ⌈|d|⌉₊ d
  · rw [normalizeAngle, g3 h5]; exact h2
  · exact (g4 (not_le.1 h5)).le

/-- In the interior the result is determined. -/
theorem normalize_unique {d : ℝ} {k : ℤ} (h1 : -Real.pi < d - 2 * Real.pi * k) (h2 : d - 2 * Real.pi * k < Real.pi) :
    normalizeAngle d = d - 2 * Real.pi * k := by
  obtain ⟨⟨k', e⟩, r1, r2⟩ := normalize_range d
  have hp := Real.pi_pos
  have : k = k' := by
    rw [e] at r1 r2
    have a : ((k' - k : ℤ) : ℝ) < 1 := by
      push_cast
      by_contra h
      nlinarith
    have b : -1 < ((k' - k : ℤ) : ℝ) := by
      push_cast
      by_contra h
      nlinarith
    have a' : k' - k < 1 := by exact_mod_cast a
    have b' : -1 < k' - k := by exact_mod_cast b
    omega
  rw [e, this]

theorem normalize_zero_iff (d : ℝ) : normalizeAngle d = 0 ↔ ∃ k : ℤ, d = 2 * Real.pi * k := by
  constructor
  · intro h
    obtain ⟨⟨k, e⟩, _, _⟩ := normalize_range d
    exact ⟨k, by linarith⟩
  · rintro ⟨k, e⟩
    have hp := Real.pi_pos
    rw [normalize_unique (k := k) (by linarith) (by linarith)]
    linarith

/-- Where the normalized angle is not `π` or `-π`, normalizing has derivative one. -/
theorem normalize_deriv {d : ℝ} (h1 : -Real.pi < normalizeAngle d) (h2 : normalizeAngle d < Real.pi) : HasDerivAt normalizeAngle 1 d := by
  obtain ⟨⟨k, e⟩, _, _⟩ := normalize_range d
  rw [e] at h1 h2
  have hd : HasDerivAt (fun t : ℝ => t - 2 * Real.pi * k) 1 d := (hasDerivAt_id d).sub_const _
  refine hd.congr_of_eventuallyEq ?_
  have ho : IsOpen {t : ℝ | -Real.pi < t - 2 * Real.pi * k ∧ t - 2 * Real.pi * k < Real.pi} := by
    have hcont : Continuous fun t : ℝ => t - 2 * Real.pi * k := by fun_prop
    exact (isOpen_lt continuous_const hcont).inter (isOpen_lt hcont continuous_const)
  filter_upwards [ho.mem_nhds ⟨h1, h2⟩] with t ht
  exact normalize_unique ht.1 ht.2

/-! ### Relative poses in the plane -/

theorem same2_iff (a b : Rigid2) : Same2 a b ↔ a.translation = b.translation ∧ ∃ k : ℤ, a.angle - b.angle = 2 * Real.pi * k := by
  constructor
  · intro h
    have h0 := h ⟨0, 0⟩
    have h1 := h ⟨1, 0⟩
    simp only [Rigid2.apply, rotate2, V2.mk.injEq, mul_zero, sub_zero, zero_add, mul_one, add_zero, sub_self] at h0 h1
    have e : a.translation = b.translation := V2.ext h0.1 h0.2
    refine ⟨e, ?_⟩
    have c1 : Real.cos a.angle = Real.cos b.angle := by linarith [h1.1, h0.1]
    have s1 : Real.sin a.angle = Real.sin b.angle := by linarith [h1.2, h0.2]
    have : Real.cos (a.angle - b.angle) = 1 := by
      rw [Real.cos_sub, c1, s1]
      have := Real.sin_sq_add_cos_sq b.angle
      linarith
    obtain ⟨n, hn⟩ := (Real.cos_eq_one_iff _).1 this
    exact ⟨n, by rw [← hn]; ring⟩
  · rintro ⟨e, k, h⟩ p
    have h' : a.angle = b.angle + k * (2 * Real.pi) := by linarith
    simp only [Rigid2.apply, rotate2, e, h', Real.cos_add_int_mul_two_pi, Real.sin_add_int_mul_two_pi]

/-- **C71**: the residuals for two poses in the plane vanish exactly if the second pose is the first one followed by the observed
relative pose. -/
theorem spa2_zero_iff {tw rw : ℝ} (ht : tw ≠ 0) (hr : rw ≠ 0) (zbar start stop : Rigid2) :
    spa2 zbar tw rw start stop = ⟨0, 0, 0⟩ ↔ Same2 (start.mul zbar) stop := by
  rw [same2_iff]
  simp only [spa2, scaleError2, unscaledError2, V3.mk.injEq, mul_eq_zero, ht, hr, or_false, normalize_zero_iff]
  simp only [Rigid2.mul, rotate2, V2.ext_iff]
  have hcs := Real.sin_sq_add_cos_sq start.angle
  constructor
  · rintro ⟨h1, h2, k, h3⟩
    refine ⟨⟨?_, ?_⟩, k, by linarith⟩
    · linear_combination Real.cos start.angle * h1 - Real.sin start.angle * h2 +
        (stop.translation.x - start.translation.x) * hcs
    · linear_combination Real.sin start.angle * h1 + Real.cos start.angle * h2 +
        (stop.translation.y - start.translation.y) * hcs
  · rintro ⟨⟨h1, h2⟩, k, h3⟩
    refine ⟨?_, ?_, k, by linarith⟩
    · linear_combination Real.cos start.angle * h1 + Real.sin start.angle * h2 - zbar.translation.x * hcs
    · linear_combination -Real.sin start.angle * h1 + Real.cos start.angle * h2 - zbar.translation.y * hcs

/-- **C71**: they do not depend on the frame in which the two poses are given. -/
theorem spa2_invariant (g : Rigid2) (zbar : Rigid2) (tw rw : ℝ) (start stop : Rigid2) :
    spa2 zbar tw rw (g.mul start) (g.mul stop) = spa2 zbar tw rw start stop := by
  simp only [spa2, scaleError2, unscaledError2, Rigid2.mul, rotate2, Real.cos_add, Real.sin_add]
  have hcs := Real.sin_sq_add_cos_sq g.angle
  have e3 : zbar.angle - (g.angle + stop.angle - (g.angle + start.angle)) = zbar.angle - (stop.angle - start.angle) := by ring
  rw [e3]
  ext
  · simp only
    linear_combination -tw * (Real.cos start.angle * (stop.translation.x - start.translation.x) +
      Real.sin start.angle * (stop.translation.y - start.translation.y)) * hcs
  · simp only
    linear_combination -tw * (-Real.sin start.angle * (stop.translation.x - start.translation.x) +
      Real.cos start.angle * (stop.translation.y - start.translation.y)) * hcs
  · rfl

/-- **C71**: the cost function with analytical derivatives has the same residuals as the other one. -/
theorem analytical2_eq (zbar : Rigid2) (tw rw : ℝ) (start stop : Rigid2) : analytical2 zbar tw rw start stop = spa2 zbar tw rw start stop := by
  simp only [analytical2, spa2, scaleError2, unscaledError2]
  ext <;> simp only <;> ring

/-- A pose moved by `t` times a direction in its parameters. -/
def along (p : Rigid2) (d : V3) (t : ℝ) : Rigid2 := ⟨⟨p.translation.x + t * d.x, p.translation.y + t * d.y⟩, p.angle + t * d.z⟩

/-- The product of a row with a direction. -/
def rowDot (r d : V3) : ℝ := r.x * d.x + r.y * d.y + r.z * d.z

/-- **C71**: the Jacobians are the derivatives of the residuals in all directions of the six parameters; for the rotation this is so
wherever the normalized difference of the angles is not `π` or `-π`. -/
theorem jacobian_correct (zbar : Rigid2) (tw rw : ℝ) (start stop : Rigid2) (d e : V3) :
    HasDerivAt (fun t => (analytical2 zbar tw rw (along start d t) (along stop e t)).x)
      (rowDot (jacobianStart tw rw start stop).1 d + rowDot (jacobianEnd tw rw start).1 e) 0 ∧
    HasDerivAt (fun t => (analytical2 zbar tw rw (along start d t) (along stop e t)).y)
      (rowDot (jacobianStart tw rw start stop).2.1 d + rowDot (jacobianEnd tw rw start).2.1 e) 0 ∧
    (-Real.pi < normalizeAngle (zbar.angle - (stop.angle - start.angle)) → normalizeAngle (zbar.angle - (stop.angle - start.angle)) < Real.pi →
      HasDerivAt (fun t => (analytical2 zbar tw rw (along start d t) (along stop e t)).z)
        (rowDot (jacobianStart tw rw start stop).2.2 d + rowDot (jacobianEnd tw rw start).2.2 e) 0) := by
  have hlin : ∀ a b : ℝ, HasDerivAt (fun t : ℝ => a + t * b) b 0 := fun a b => by
    simpa using ((hasDerivAt_id (0 : ℝ)).mul_const b).const_add a
  have hc : HasDerivAt (fun t => Real.cos (start.angle + t * d.z)) (-Real.sin start.angle * d.z) 0 := by
    simpa using (hlin start.angle d.z).cos
  have hs : HasDerivAt (fun t => Real.sin (start.angle + t * d.z)) (Real.cos start.angle * d.z) 0 := by
    simpa using (hlin start.angle d.z).sin
  have hx : HasDerivAt (fun t : ℝ => stop.translation.x + t * e.x - (start.translation.x + t * d.x)) (e.x - d.x) 0 :=
    (hlin _ _).sub (hlin _ _)
  have hy : HasDerivAt (fun t : ℝ => stop.translation.y + t * e.y - (start.translation.y + t * d.y)) (e.y - d.y) 0 :=
    (hlin _ _).sub (hlin _ _)
  refine ⟨?_, ?_, ?_⟩
  · have h := (((hc.mul hx).add (hs.mul hy)).const_sub zbar.translation.x).const_mul tw
    refine HasDerivAt.congr_deriv (f := fun t => (analytical2 zbar tw rw (along start d t) (along stop e t)).x) h ?_
    simp only [zero_mul, add_zero, rowDot, jacobianStart, jacobianEnd]
    ring
  · have h := (((hs.neg.mul hx).add (hc.mul hy)).const_sub zbar.translation.y).const_mul tw
    refine HasDerivAt.congr_deriv (f := fun t => (analytical2 zbar tw rw (along start d t) (along stop e t)).y) h ?_
    simp only [zero_mul, add_zero, rowDot, jacobianStart, jacobianEnd, Pi.neg_apply]
    ring
  · intro n1 n2
    have ha : HasDerivAt (fun t : ℝ => zbar.angle - (stop.angle + t * e.z - (start.angle + t * d.z))) (-(e.z - d.z)) 0 :=
      ((hlin _ _).sub (hlin _ _)).const_sub _
    have hn : HasDerivAt normalizeAngle 1 (zbar.angle - (stop.angle + 0 * e.z - (start.angle + 0 * d.z))) := by
      simp only [zero_mul, add_zero]
      exact normalize_deriv n1 n2
    have h := (hn.comp (0 : ℝ) ha).const_mul rw
    refine HasDerivAt.congr_deriv (f := fun t => (analytical2 zbar tw rw (along start d t) (along stop e t)).z) h ?_
    simp only [rowDot, jacobianStart, jacobianEnd]
    ring

/-! ### Relative poses in space -/

theorem trivial_rotation {q : Quat} (h : q.Unit) (ht : ∀ p, q.rotate p = p) : q.x = 0 ∧ q.y = 0 ∧ q.z = 0 := by
  have h' : q.w ^ 2 + q.x ^ 2 + q.y ^ 2 + q.z ^ 2 = 1 := h
  have hx := ht ⟨1, 0, 0⟩
  have hy := ht ⟨0, 1, 0⟩
  have hz := ht ⟨0, 0, 1⟩
  simp only [Quat.rotate, cross, V3.mk.injEq] at hx hy hz
  obtain ⟨a, _, _⟩ := hx
  obtain ⟨_, b, _⟩ := hy
  obtain ⟨_, _, c⟩ := hz
  have a' : q.y ^ 2 + q.z ^ 2 = 0 := by nlinarith
  have b' : q.x ^ 2 + q.z ^ 2 = 0 := by nlinarith
  refine ⟨?_, ?_, ?_⟩ <;> nlinarith [sq_nonneg q.x, sq_nonneg q.y, sq_nonneg q.z]

/-- Unit quaternions describe the same rotation exactly if one times the inverse of the other has no vector part. -/
theorem sameRotation_iff {a b : Quat} (ha : a.Unit) (hb : b.Unit) :
    SameRotation a b ↔ (b.conjugate.mul a).x = 0 ∧ (b.conjugate.mul a).y = 0 ∧ (b.conjugate.mul a).z = 0 := by
  constructor
  · intro h
    refine trivial_rotation (unit_mul (unit_conjugate hb) ha) fun p => ?_
    rw [rotate_mul (unit_conjugate hb) ha, h p, ← rotate_mul (unit_conjugate hb) hb, conjugate_mul hb, rotate_one]
  · rintro ⟨hx, hy, hz⟩ p
    have hu : (b.conjugate.mul a).Unit := unit_mul (unit_conjugate hb) ha
    have hr : (b.conjugate.mul a).rotate p = p := by
      simp only [Quat.rotate, cross, hx, hy, hz]
      ext <;> simp
    have e : a = b.mul (b.conjugate.mul a) := by
      rw [← quat_mul_assoc, mul_conjugate hb]
      ext <;> simp [Quat.mul]
    rw [e, rotate_mul hb hu, hr]

/-- The rotation vector is zero exactly for the trivial rotation. -/
theorem toAngleAxis_zero_iff {q : Quat} (h : q.Unit) : toAngleAxis q = ⟨0, 0, 0⟩ ↔ q.x = 0 ∧ q.y = 0 ∧ q.z = 0 := by
  have key : ∀ q : Quat, 0 ≤ q.w → ¬ 2 * halfAngle q < 1 / 10 ^ 7 → 2 * halfAngle q / Real.sin (2 * halfAngle q / 2) ≠ 0 := by
    intro q hw hn
    have hn := not_lt.1 hn
    have hpos : 0 < halfAngle q := by
      have : (0 : ℝ) < 1 / 10 ^ 7 := by norm_num
      linarith
    have hle : halfAngle q ≤ Real.pi / 2 := by
      have := (Complex.abs_arg_le_pi_div_two_iff (z := ⟨q.w, V3.norm ⟨q.x, q.y, q.z⟩⟩)).2 hw
      exact le_trans (le_abs_self _) this
    have h3 : 2 * halfAngle q / 2 = halfAngle q := by ring
    rw [h3]
    have hsin : 0 < Real.sin (halfAngle q) := Real.sin_pos_of_pos_of_lt_pi hpos (by linarith [Real.pi_pos])
    positivity
  have main : ∃ c : ℝ, c ≠ 0 ∧ (toAngleAxis q = ⟨c * q.x, c * q.y, c * q.z⟩ ∨ toAngleAxis q = ⟨c * (-1 * q.x), c * (-1 * q.y), c * (-1 * q.z)⟩) := by
    unfold toAngleAxis
    simp only [normalized_unit h]
    by_cases hw : q.w < 0
    · simp only [if_pos hw]
      refine ⟨_, ?_, Or.inr rfl⟩
      split
      · norm_num
      · rename_i hn
        exact key ⟨-1 * q.w, -1 * q.x, -1 * q.y, -1 * q.z⟩ (by simp only; linarith) hn
    · simp only [if_neg hw]
      refine ⟨_, ?_, Or.inl rfl⟩
      split
      · norm_num
      · rename_i hn
        exact key q (not_lt.1 hw) hn
  obtain ⟨c, hc, e | e⟩ := main <;> simp [e, hc]

/-- The length of the rotation vector is the angle of the rotation, at most half a turn, unless that is tiny. -/
theorem toAngleAxis_length {q : Quat} (h : q.Unit) (ha : 1 / 10 ^ 4 < 2 * Complex.arg ⟨|q.w|, V3.norm ⟨q.x, q.y, q.z⟩⟩) :
    Real.cos ((toAngleAxis q).norm / 2) = |q.w| ∧ (toAngleAxis q).norm ≤ Real.pi := by
  have pos : ∀ q : Quat, q.Unit → 0 ≤ q.w → 1 / 10 ^ 4 < 2 * halfAngle q →
      Real.cos ((toAngleAxis q).norm / 2) = q.w ∧ (toAngleAxis q).norm ≤ Real.pi := by
    intro q h hw ha
    obtain ⟨hc, hs⟩ := halfAngle_spec h
    have h1 := norm_sq ⟨q.x, q.y, q.z⟩
    have hq : toAngleAxis q = ⟨2 * halfAngle q / Real.sin (halfAngle q) * q.x, 2 * halfAngle q / Real.sin (halfAngle q) * q.y,
        2 * halfAngle q / Real.sin (halfAngle q) * q.z⟩ := by
      unfold toAngleAxis
      simp only [normalized_unit h, if_neg (not_lt.2 hw)]
      have h2 : 2 * Complex.arg ⟨q.w, V3.norm ⟨q.x, q.y, q.z⟩⟩ = 2 * halfAngle q := rfl
      rw [h2, if_neg (by linarith)]
      have h3 : 2 * halfAngle q / 2 = halfAngle q := by ring
      rw [h3]
    have hpos : 0 < halfAngle q := by linarith
    have hle : halfAngle q ≤ Real.pi / 2 := by
      have := (Complex.abs_arg_le_pi_div_two_iff (z := ⟨q.w, V3.norm ⟨q.x, q.y, q.z⟩⟩)).2 hw
      exact le_trans (le_abs_self _) this
    have hsin : 0 < Real.sin (halfAngle q) := Real.sin_pos_of_pos_of_lt_pi hpos (by linarith [Real.pi_pos])
    have hn : (toAngleAxis q).norm = 2 * halfAngle q := by
      have h4 : (toAngleAxis q).norm ^ 2 = (2 * halfAngle q) ^ 2 := by
        rw [norm_sq, hq]
        simp only at h1 ⊢
        rw [← hs] at h1
        have h5 : (2 * halfAngle q / Real.sin (halfAngle q) * q.x) ^ 2 + (2 * halfAngle q / Real.sin (halfAngle q) * q.y) ^ 2 +
            (2 * halfAngle q / Real.sin (halfAngle q) * q.z) ^ 2 =
            (2 * halfAngle q / Real.sin (halfAngle q)) ^ 2 * (q.x ^ 2 + q.y ^ 2 + q.z ^ 2) := by ring
        rw [h5, ← h1, div_pow, div_mul_cancel₀]
        positivity
      exact (sq_eq_sq₀ (norm_nonneg' _) (by linarith)).1 h4
    rw [hn]
    have h3 : 2 * halfAngle q / 2 = halfAngle q := by ring
    exact ⟨by rw [h3, hc], by linarith⟩
  by_cases hw : 0 ≤ q.w
  · rw [abs_of_nonneg hw] at ha ⊢
    exact pos q h hw ha
  · have hw' : q.w < 0 := not_le.1 hw
    have h1 : toAngleAxis q = toAngleAxis q.neg := by
      unfold toAngleAxis
      have h3 : ¬ -q.w < 0 := by linarith
      simp only [normalized_unit h, normalized_unit (unit_neg h), if_pos hw']
      rw [if_neg (show ¬ q.neg.w < 0 from h3)]
      simp [Quat.neg]
    have h2 : V3.norm ⟨-q.x, -q.y, -q.z⟩ = V3.norm ⟨q.x, q.y, q.z⟩ := by simp [V3.norm]
    rw [abs_of_neg hw'] at ha ⊢
    rw [h1]
    refine pos q.neg (unit_neg h) (by simp only [Quat.neg]; linarith) ?_
    simp only [halfAngle, Quat.neg, h2]
    exact ha

theorem same3_iff (a b : Rigid3) : Same3 a b ↔ a.translation = b.translation ∧ SameRotation a.rotation b.rotation := by
  constructor
  · intro h
    have h0 := h ⟨0, 0, 0⟩
    have z : ∀ q : Quat, q.rotate ⟨0, 0, 0⟩ = ⟨0, 0, 0⟩ := by
      intro q; ext <;> simp [Quat.rotate, cross]
    simp only [Rigid3.apply, z, zero_add, V3.mk.injEq] at h0
    have e : a.translation = b.translation := V3.ext h0.1 h0.2.1 h0.2.2
    refine ⟨e, fun p => ?_⟩
    have := h p
    simp only [Rigid3.apply, e, V3.mk.injEq, add_left_inj] at this
    exact V3.ext this.1 this.2.1 this.2.2
  · rintro ⟨e, h⟩ p
    simp only [Rigid3.apply, e, h p]

theorem rotate_inverse {q : Quat} (h : q.Unit) (p : V3) : q.rotate (q.conjugate.rotate p) = p ∧ q.conjugate.rotate (q.rotate p) = p := by
  rw [← rotate_mul h (unit_conjugate h), ← rotate_mul (unit_conjugate h) h, mul_conjugate h, conjugate_mul h, rotate_one]
  exact ⟨rfl, rfl⟩

/-- **C71**: the residuals for two poses in space vanish exactly if the second pose is the first one followed by the observed relative
pose. -/
theorem error3_zero_iff {tw rw : ℝ} (ht : tw ≠ 0) (hr : rw ≠ 0) {zbar start stop : Rigid3} (hz : zbar.Proper) (hs : start.Proper)
    (he : stop.Proper) : scaleError3 (unscaledError3 zbar start stop) tw rw = (⟨0, 0, 0⟩, ⟨0, 0, 0⟩) ↔ Same3 (start.mul zbar) stop := by
  have hm := proper_mul hs hz
  have hsz : (start.rotation.mul zbar.rotation).Unit := unit_mul hs hz
  rw [same3_iff, sameRotation_iff hm he]
  have hrot : (start.mul zbar).rotation = start.rotation.mul zbar.rotation := by
    simp only [Rigid3.mul, normalized_unit hsz]
  rw [hrot]
  have hq : ((stop.rotation.conjugate.mul start.rotation).mul zbar.rotation).Unit := unit_mul (unit_mul (unit_conjugate he) hs) hz
  have ha := toAngleAxis_zero_iff hq
  rw [V3.ext_iff] at ha
  simp only [scaleError3, unscaledError3, Prod.mk.injEq, V3.mk.injEq, mul_eq_zero, ht, hr, or_false]
  change _ ∧ ((toAngleAxis ((stop.rotation.conjugate.mul start.rotation).mul zbar.rotation)).x = 0 ∧
    (toAngleAxis ((stop.rotation.conjugate.mul start.rotation).mul zbar.rotation)).y = 0 ∧
    (toAngleAxis ((stop.rotation.conjugate.mul start.rotation).mul zbar.rotation)).z = 0) ↔ _
  rw [ha, quat_mul_assoc]
  refine and_congr_left fun _ => ?_
  generalize hd : (V3.mk (stop.translation.x - start.translation.x) (stop.translation.y - start.translation.y)
    (stop.translation.z - start.translation.z)) = δ
  change (zbar.translation.x - (start.rotation.conjugate.rotate δ).x = 0 ∧ zbar.translation.y - (start.rotation.conjugate.rotate δ).y = 0 ∧
    zbar.translation.z - (start.rotation.conjugate.rotate δ).z = 0) ↔ _
  have e1 : (zbar.translation.x - (start.rotation.conjugate.rotate δ).x = 0 ∧ zbar.translation.y - (start.rotation.conjugate.rotate δ).y = 0 ∧
    zbar.translation.z - (start.rotation.conjugate.rotate δ).z = 0) ↔ zbar.translation = start.rotation.conjugate.rotate δ := by
    rw [V3.ext_iff, sub_eq_zero, sub_eq_zero, sub_eq_zero]
  rw [e1]
  have e2 : (start.mul zbar).translation = stop.translation ↔ start.rotation.rotate zbar.translation = δ := by
    rw [← hd, V3.ext_iff, V3.ext_iff]
    simp only [Rigid3.mul]
    constructor
    · rintro ⟨a, b, c⟩; exact ⟨by linarith, by linarith, by linarith⟩
    · rintro ⟨a, b, c⟩; exact ⟨by linarith, by linarith, by linarith⟩
  rw [e2]
  constructor
  · intro h; rw [h, (rotate_inverse hs δ).1]
  · intro h; rw [← h, (rotate_inverse hs _).2]

theorem rotate_sub (q : Quat) (v w : V3) : q.rotate ⟨v.x - w.x, v.y - w.y, v.z - w.z⟩ =
    ⟨(q.rotate v).x - (q.rotate w).x, (q.rotate v).y - (q.rotate w).y, (q.rotate v).z - (q.rotate w).z⟩ := by
  ext <;> simp only [Quat.rotate, cross] <;> ring

theorem conjugate_mul_rev (a b : Quat) : (a.mul b).conjugate = b.conjugate.mul a.conjugate := by
  ext <;> simp only [Quat.mul, Quat.conjugate] <;> ring

theorem one_mul' (q : Quat) : Quat.mul ⟨1, 0, 0, 0⟩ q = q := by
  ext <;> simp [Quat.mul]

/-- **C71**: and they do not depend on the frame in which the two poses are given. -/
theorem error3_invariant {g : Rigid3} (hg : g.Proper) (zbar : Rigid3) {start stop : Rigid3} (hs : start.Proper) (he : stop.Proper) :
    unscaledError3 zbar (g.mul start) (g.mul stop) = unscaledError3 zbar start stop := by
  have r1 : (g.mul start).rotation = g.rotation.mul start.rotation := by
    simp only [Rigid3.mul, normalized_unit (unit_mul hg hs)]
  have r2 : (g.mul stop).rotation = g.rotation.mul stop.rotation := by
    simp only [Rigid3.mul, normalized_unit (unit_mul hg he)]
  have hd : (V3.mk ((g.mul stop).translation.x - (g.mul start).translation.x) ((g.mul stop).translation.y - (g.mul start).translation.y)
      ((g.mul stop).translation.z - (g.mul start).translation.z)) = g.rotation.rotate ⟨stop.translation.x - start.translation.x,
      stop.translation.y - start.translation.y, stop.translation.z - start.translation.z⟩ := by
    rw [rotate_sub]
    simp only [Rigid3.mul]
    ext <;> simp only <;> ring
  have h1 : ∀ v, (g.mul start).rotation.conjugate.rotate (g.rotation.rotate v) = start.rotation.conjugate.rotate v := by
    intro v
    rw [r1, conjugate_mul_rev, rotate_mul (unit_conjugate hs) (unit_conjugate hg), (rotate_inverse hg v).2]
  have h2 : (g.mul stop).rotation.conjugate.mul (g.mul start).rotation = stop.rotation.conjugate.mul start.rotation := by
    rw [r1, r2, conjugate_mul_rev, quat_mul_assoc, ← quat_mul_assoc g.rotation.conjugate, conjugate_mul hg, one_mul']
  have e : ∀ a b c : Rigid3, unscaledError3 a b c =
      (let h := b.rotation.conjugate.rotate ⟨c.translation.x - b.translation.x, c.translation.y - b.translation.y, c.translation.z - b.translation.z⟩
      (⟨a.translation.x - h.x, a.translation.y - h.y, a.translation.z - h.z⟩,
        toAngleAxis ((c.rotation.conjugate.mul b.rotation).mul a.rotation))) := fun _ _ _ => rfl
  rw [e, e, hd, h1, h2]

/-! ### Interpolation between nodes -/

theorem dot_mul (g a b : Quat) : dot (g.mul a) (g.mul b) = g.normSq * dot a b := by
  simp only [dot, Quat.mul, Quat.normSq]
  ring

theorem dot_self {a : Quat} (h : a.Unit) : dot a a = 1 := by
  have h' : a.w ^ 2 + a.x ^ 2 + a.y ^ 2 + a.z ^ 2 = 1 := h
  simp only [dot]
  linear_combination h'

theorem unit_iff_dot (a : Quat) : a.Unit ↔ dot a a = 1 := by
  refine ⟨dot_self, fun h => ?_⟩
  simp only [dot] at h
  show a.w ^ 2 + a.x ^ 2 + a.y ^ 2 + a.z ^ 2 = 1
  linear_combination h

/-- The scales of the two quaternions. -/
theorem slerp_scales (a b : Quat) (t : ℝ) : ∃ p n : ℝ, slerpQuaternions a b t =
      ⟨p * a.w + (if dot a b < 0 then -n else n) * b.w, p * a.x + (if dot a b < 0 then -n else n) * b.x,
        p * a.y + (if dot a b < 0 then -n else n) * b.y, p * a.z + (if dot a b < 0 then -n else n) * b.z⟩ ∧
    (|dot a b| < 1 - 1 / 100000 → p * Real.sin (Real.arccos |dot a b|) = Real.sin ((1 - t) * Real.arccos |dot a b|) ∧
      n * Real.sin (Real.arccos |dot a b|) = Real.sin (t * Real.arccos |dot a b|) ∧ 0 < Real.sin (Real.arccos |dot a b|) ∧
      Real.cos (Real.arccos |dot a b|) = |dot a b|) ∧
    (¬ |dot a b| < 1 - 1 / 100000 → p = 1 - t ∧ n = t) := by
  by_cases h : |dot a b| < 1 - 1 / 100000
  · have h0 := abs_nonneg (dot a b)
    have hcos : Real.cos (Real.arccos |dot a b|) = |dot a b| := Real.cos_arccos (by linarith) (by linarith)
    have hsin : 0 < Real.sin (Real.arccos |dot a b|) := by
      rw [Real.sin_arccos]
      apply Real.sqrt_pos.2
      nlinarith
    refine ⟨_, _, by simp only [slerpQuaternions, if_pos h]; rfl, fun _ => ⟨?_, ?_, hsin, hcos⟩, fun h' => absurd h h'⟩
    · rw [div_mul_cancel₀ _ hsin.ne']
    · rw [div_mul_cancel₀ _ hsin.ne']
  · exact ⟨_, _, by simp only [slerpQuaternions, if_neg h], fun h' => absurd h' h, fun _ => ⟨rfl, rfl⟩⟩

/-- **C72**: interpolation between rotations that are not almost the same gives a rotation, and it moves at constant speed on the
shorter arc: with `2 θ` the angle between the two rotations, the result is `2 t θ` from the first and `2 (1 - t) θ` from the second. -/
theorem slerp_arc {a b : Quat} (ha : a.Unit) (hb : b.Unit) (h : |dot a b| < 1 - 1 / 100000) (t : ℝ) :
    (slerpQuaternions a b t).Unit ∧ dot a (slerpQuaternions a b t) = Real.cos (t * Real.arccos |dot a b|) ∧
      (0 ≤ dot a b → dot b (slerpQuaternions a b t) = Real.cos ((1 - t) * Real.arccos |dot a b|)) ∧
      (dot a b < 0 → dot b (slerpQuaternions a b t) = -Real.cos ((1 - t) * Real.arccos |dot a b|)) := by
  obtain ⟨p, n, e, hs, _⟩ := slerp_scales a b t
  obtain ⟨hp, hn, hpos, hcos⟩ := hs h
  have ha' := dot_self ha
  have hb' := dot_self hb
  rw [unit_iff_dot, e]
  generalize hd : dot a b = d at *
  generalize hth : Real.arccos |d| = θ at *
  have h1 : (1 - t) * θ = θ - t * θ := by ring
  rw [h1, Real.sin_sub] at hp
  have hcs := Real.sin_sq_add_cos_sq θ
  have hct := Real.sin_sq_add_cos_sq (t * θ)
  -- the scales, without division
  have k1 : p + n * |d| = Real.cos (t * θ) := by
    apply mul_right_cancel₀ hpos.ne'
    rw [← hcos]
    linear_combination hp + Real.cos θ * hn
  have k2 : n + p * |d| = Real.cos ((1 - t) * θ) := by
    apply mul_right_cancel₀ hpos.ne'
    rw [h1, Real.cos_sub, ← hcos]
    linear_combination hn + Real.cos θ * hp - Real.sin (t * θ) * hcs
  have k3 : p ^ 2 + n ^ 2 + 2 * p * n * |d| = 1 := by
    have hne : Real.sin θ ^ 2 ≠ 0 := by positivity
    apply mul_right_cancel₀ hne
    rw [← hcos]
    have e1 : (p * Real.sin θ) ^ 2 + (n * Real.sin θ) ^ 2 + 2 * (p * Real.sin θ) * (n * Real.sin θ) * Real.cos θ = Real.sin θ ^ 2 := by
      rw [hp, hn]
      linear_combination (Real.sin θ ^ 2) * hct + (-(Real.sin (t * θ)) ^ 2) * hcs
    linear_combination e1
  have expand : ∀ m : ℝ, dot ⟨p * a.w + m * b.w, p * a.x + m * b.x, p * a.y + m * b.y, p * a.z + m * b.z⟩
      ⟨p * a.w + m * b.w, p * a.x + m * b.x, p * a.y + m * b.y, p * a.z + m * b.z⟩ = p ^ 2 * dot a a + m ^ 2 * dot b b + 2 * p * m * dot a b := by
    intro m; simp only [dot]; ring
  have expa : ∀ m : ℝ, dot a ⟨p * a.w + m * b.w, p * a.x + m * b.x, p * a.y + m * b.y, p * a.z + m * b.z⟩ = p * dot a a + m * dot a b := by
    intro m; simp only [dot]; ring
  have expb : ∀ m : ℝ, dot b ⟨p * a.w + m * b.w, p * a.x + m * b.x, p * a.y + m * b.y, p * a.z + m * b.z⟩ = p * dot a b + m * dot b b := by
    intro m; simp only [dot]; ring
  rw [expand, expa, expb, ha', hb', hd]
  by_cases hneg : d < 0
  · simp only [if_pos hneg]
    rw [abs_of_neg hneg] at k1 k2 k3
    exact ⟨by linear_combination k3, by linear_combination k1, fun h => absurd hneg (not_lt.2 h), fun _ => by linear_combination -k2⟩
  · simp only [if_neg hneg]
    rw [abs_of_nonneg (not_lt.1 hneg)] at k1 k2 k3
    exact ⟨by linear_combination k3, by linear_combination k1, fun _ => by linear_combination k2, fun h => absurd h hneg⟩

/-- **C72**: rotations that are almost the same are interpolated linearly without normalizing; the norm is off by at most
0.000005. -/
theorem slerp_norm {a b : Quat} (ha : a.Unit) (hb : b.Unit) {t : ℝ} (h0 : 0 ≤ t) (h1 : t ≤ 1) :
    1 - 1 / 200000 ≤ dot (slerpQuaternions a b t) (slerpQuaternions a b t) ∧ dot (slerpQuaternions a b t) (slerpQuaternions a b t) ≤ 1 := by
  by_cases h : |dot a b| < 1 - 1 / 100000
  · rw [(unit_iff_dot _).1 (slerp_arc ha hb h t).1]
    norm_num
  · obtain ⟨p, n, e, _, hl⟩ := slerp_scales a b t
    obtain ⟨rfl, rfl⟩ := hl h
    have ha' := dot_self ha
    have hb' := dot_self hb
    have hle : |dot a b| ≤ 1 := by
      rw [abs_le]
      have e1 : 0 ≤ dot a a + dot b b + 2 * dot a b := by
        have : dot a a + dot b b + 2 * dot a b = (a.w + b.w) ^ 2 + (a.x + b.x) ^ 2 + (a.y + b.y) ^ 2 + (a.z + b.z) ^ 2 := by
          simp only [dot]; ring
        rw [this]; positivity
      have e2 : 0 ≤ dot a a + dot b b - 2 * dot a b := by
        have : dot a a + dot b b - 2 * dot a b = (a.w - b.w) ^ 2 + (a.x - b.x) ^ 2 + (a.y - b.y) ^ 2 + (a.z - b.z) ^ 2 := by
          simp only [dot]; ring
        rw [this]; positivity
      constructor <;> linarith
    have key : dot (slerpQuaternions a b n) (slerpQuaternions a b n) = 1 - 2 * (n * (1 - n)) * (1 - |dot a b|) := by
      rw [e]
      by_cases hneg : dot a b < 0
      · simp only [if_pos hneg]
        rw [abs_of_neg hneg]
        have : ∀ m : ℝ, dot ⟨(1 - n) * a.w + m * b.w, (1 - n) * a.x + m * b.x, (1 - n) * a.y + m * b.y, (1 - n) * a.z + m * b.z⟩
          ⟨(1 - n) * a.w + m * b.w, (1 - n) * a.x + m * b.x, (1 - n) * a.y + m * b.y, (1 - n) * a.z + m * b.z⟩ =
            (1 - n) ^ 2 * dot a a + m ^ 2 * dot b b + 2 * (1 - n) * m * dot a b := by
          intro m; simp only [dot]; ring
        rw [this, ha', hb']
        ring
      · simp only [if_neg hneg]
        rw [abs_of_nonneg (not_lt.1 hneg)]
        have : ∀ m : ℝ, dot ⟨(1 - n) * a.w + m * b.w, (1 - n) * a.x + m * b.x, (1 - n) * a.y + m * b.y, (1 - n) * a.z + m * b.z⟩
          ⟨(1 - n) * a.w + m * b.w, (1 - n) * a.x + m * b.x, (1 - n) * a.y + m * b.y, (1 - n) * a.z + m * b.z⟩ =
            (1 - n) ^ 2 * dot a a + m ^ 2 * dot b b + 2 * (1 - n) * m * dot a b := by
          intro m; simp only [dot]; ring
        rw [this, ha', hb']
        ring
    rw [key]
    have hlow := not_lt.1 h
    have q1 : 0 ≤ n * (1 - n) := mul_nonneg h0 (by linarith)
    have q2 : n * (1 - n) ≤ 1 / 4 := by nlinarith [sq_nonneg (n - 1 / 2)]
    constructor
    · nlinarith
    · nlinarith

theorem slerp_ends {a b : Quat} : slerpQuaternions a b 0 = a ∧
    slerpQuaternions a b 1 = if dot a b < 0 then b.neg else b := by
  constructor
  · obtain ⟨p, n, e, h1, h2⟩ := slerp_scales a b 0
    have hpn : p = 1 ∧ n = 0 := by
      by_cases h : |dot a b| < 1 - 1 / 100000
      · obtain ⟨hp, hn, hpos, _⟩ := h1 h
        simp only [sub_zero, one_mul, zero_mul, Real.sin_zero] at hp hn
        exact ⟨mul_right_cancel₀ hpos.ne' (by rw [hp, one_mul]), by simpa [hpos.ne'] using hn⟩
      · simpa using h2 h
    rw [e, hpn.1, hpn.2]
    ext <;> simp
  · obtain ⟨p, n, e, h1, h2⟩ := slerp_scales a b 1
    have hpn : p = 0 ∧ n = 1 := by
      by_cases h : |dot a b| < 1 - 1 / 100000
      · obtain ⟨hp, hn, hpos, _⟩ := h1 h
        simp only [sub_self, one_mul, zero_mul, Real.sin_zero] at hp hn
        exact ⟨by simpa [hpos.ne'] using hp, mul_right_cancel₀ hpos.ne' (by rw [hn, one_mul])⟩
      · simpa using h2 h
    rw [e, hpn.1, hpn.2]
    split <;> ext <;> simp [Quat.neg]

theorem slerp_equivariant {g : Quat} (hg : g.Unit) (a b : Quat) (t : ℝ) :
    slerpQuaternions (g.mul a) (g.mul b) t = g.mul (slerpQuaternions a b t) := by
  have hd : dot (g.mul a) (g.mul b) = dot a b := by
    have : g.normSq = 1 := by rw [normSq_eq]; exact hg
    rw [dot_mul, this, one_mul]
  simp only [slerpQuaternions, hd]
  generalize (if |dot a b| < 1 - 1 / 100000 then (Real.sin ((1 - t) * Real.arccos |dot a b|) / Real.sin (Real.arccos |dot a b|),
    Real.sin (t * Real.arccos |dot a b|) / Real.sin (Real.arccos |dot a b|)) else (1 - t, t)) = s
  generalize (if dot a b < 0 then -s.2 else s.2) = m
  ext <;> simp only [Quat.mul] <;> ring

/-- The sign of a quaternion, which does not matter for a rotation, does not matter for the interpolation either, unless the rotations
are half a turn apart. -/
theorem slerp_sign (a b : Quat) (t : ℝ) (h : dot a b ≠ 0) : slerpQuaternions a b.neg t = slerpQuaternions a b t ∧
    slerpQuaternions a.neg b t = (slerpQuaternions a b t).neg := by
  have d1 : dot a b.neg = -dot a b := by simp only [dot, Quat.neg]; ring
  have d2 : dot a.neg b = -dot a b := by simp only [dot, Quat.neg]; ring
  have hs : ∀ x : ℝ, (if -dot a b < 0 then -x else x) = -(if dot a b < 0 then -x else x) := by
    intro x
    rcases lt_trichotomy (dot a b) 0 with h' | h' | h'
    · rw [if_neg (by linarith), if_pos h', neg_neg]
    · exact absurd h' h
    · rw [if_pos (by linarith), if_neg (by linarith)]
  simp only [slerpQuaternions, d1, d2, abs_neg, hs]
  constructor <;> ext <;> simp only [Quat.neg] <;> ring

/-! ### Landmarks -/

/-- **C72**: at the ends of the interval the interpolated pose is the pose of the node. -/
theorem interpolate3_ends (prev next : Rigid3) : interpolateNodes3 prev next 0 = prev ∧ Same3 (interpolateNodes3 prev next 1) next := by
  constructor
  · ext <;> simp [interpolateNodes3, slerp_ends.1]
  · rw [same3_iff]
    refine ⟨by ext <;> simp [interpolateNodes3], ?_⟩
    intro p
    simp only [interpolateNodes3, slerp_ends.2]
    split
    · exact rotate_neg_quat _ _
    · rfl

/-- **C72**: the interpolated pose has a proper rotation, at the ends of the interval and elsewhere unless the rotations differ by less
than 0.009 radians without being the same. -/
theorem interpolate3_proper {prev next : Rigid3} (hp : prev.Proper) (hn : next.Proper) {t : ℝ}
    (h : |dot prev.rotation next.rotation| < 1 - 1 / 100000 ∨ t = 0 ∨ t = 1 ∨ |dot prev.rotation next.rotation| = 1) :
    (interpolateNodes3 prev next t).Proper := by
  show (slerpQuaternions prev.rotation next.rotation t).Unit
  rcases h with h | rfl | rfl | h
  · exact (slerp_arc hp hn h t).1
  · rw [slerp_ends.1]; exact hp
  · rw [slerp_ends.2]
    split
    · exact unit_neg hn
    · exact hn
  · obtain ⟨p, n, e, _, hl⟩ := slerp_scales prev.rotation next.rotation t
    obtain ⟨rfl, rfl⟩ := hl (by rw [h]; norm_num)
    have ha' := dot_self hp
    have hb' := dot_self hn
    rw [unit_iff_dot, e]
    have expand : ∀ m : ℝ, dot ⟨(1 - n) * prev.rotation.w + m * next.rotation.w, (1 - n) * prev.rotation.x + m * next.rotation.x,
        (1 - n) * prev.rotation.y + m * next.rotation.y, (1 - n) * prev.rotation.z + m * next.rotation.z⟩
        ⟨(1 - n) * prev.rotation.w + m * next.rotation.w, (1 - n) * prev.rotation.x + m * next.rotation.x,
        (1 - n) * prev.rotation.y + m * next.rotation.y, (1 - n) * prev.rotation.z + m * next.rotation.z⟩ =
        (1 - n) ^ 2 * dot prev.rotation prev.rotation + m ^ 2 * dot next.rotation next.rotation +
          2 * (1 - n) * m * dot prev.rotation next.rotation := by
      intro m; simp only [dot]; ring
    rw [expand, ha', hb']
    by_cases hneg : dot prev.rotation next.rotation < 0
    · simp only [if_pos hneg]
      rw [abs_of_neg hneg] at h
      linear_combination 2 * (1 - n) * n * h
    · simp only [if_neg hneg]
      rw [abs_of_nonneg (not_lt.1 hneg)] at h
      linear_combination 2 * (1 - n) * n * h

/-- The pose of a node in space, from its pose in the plane. -/
noncomputable def nodePose (p : Rigid2) (gravity : Quat) : Rigid3 := (embed3D p).mul ⟨⟨0, 0, 0⟩, gravity⟩

/-- **C72**: the interpolation for nodes in the plane is the one in space for the embedded poses. -/
theorem interpolate2_eq (prev next : Rigid2) (gp gn : Quat) (t : ℝ) :
    interpolateNodes2 prev gp next gn t = interpolateNodes3 (nodePose prev gp) (nodePose next gn) t := by
  have z : ∀ q : Quat, q.rotate ⟨0, 0, 0⟩ = ⟨0, 0, 0⟩ := by
    intro q; ext <;> simp [Quat.rotate, cross]
  simp only [interpolateNodes2, interpolateNodes3, nodePose, Rigid3.mul, embed3D, z]
  ext <;> simp

/-- **C72**: the residuals of a landmark observation vanish exactly if the landmark is where it was observed from the interpolated
pose. -/
theorem landmark3_zero_iff {tw rw t : ℝ} (ht : tw ≠ 0) (hr : rw ≠ 0) {zbar prev next landmark : Rigid3} (hz : zbar.Proper)
    (hi : (interpolateNodes3 prev next t).Proper) (hl : landmark.Proper) :
    landmark3 zbar tw rw t prev next landmark = (⟨0, 0, 0⟩, ⟨0, 0, 0⟩) ↔ Same3 ((interpolateNodes3 prev next t).mul zbar) landmark :=
  error3_zero_iff ht hr hz hi hl

theorem landmark2_eq (zbar : Rigid3) (tw rw t : ℝ) (gp gn : Quat) (prev next : Rigid2) (landmark : Rigid3) :
    landmark2 zbar tw rw t gp gn prev next landmark = landmark3 zbar tw rw t (nodePose prev gp) (nodePose next gn) landmark := by
  simp only [landmark2, landmark3, interpolate2_eq]

theorem interpolate3_equivariant {g : Rigid3} (hg : g.Proper) {prev next : Rigid3} (hp : prev.Proper) (hn : next.Proper) {t : ℝ}
    (hi : (interpolateNodes3 prev next t).Proper) :
    interpolateNodes3 (g.mul prev) (g.mul next) t = g.mul (interpolateNodes3 prev next t) := by
  have r1 : (g.mul prev).rotation = g.rotation.mul prev.rotation := by
    simp only [Rigid3.mul, normalized_unit (unit_mul hg hp)]
  have r2 : (g.mul next).rotation = g.rotation.mul next.rotation := by
    simp only [Rigid3.mul, normalized_unit (unit_mul hg hn)]
  have r3 : (g.mul (interpolateNodes3 prev next t)).rotation = g.rotation.mul (interpolateNodes3 prev next t).rotation := by
    simp only [Rigid3.mul, normalized_unit (unit_mul hg hi)]
  have hrot : (interpolateNodes3 (g.mul prev) (g.mul next) t).rotation = (g.mul (interpolateNodes3 prev next t)).rotation := by
    rw [r3]
    simp only [interpolateNodes3, r1, r2]
    exact slerp_equivariant hg _ _ _
  have htr : (interpolateNodes3 (g.mul prev) (g.mul next) t).translation = (g.mul (interpolateNodes3 prev next t)).translation := by
    simp only [interpolateNodes3, Rigid3.mul, Quat.rotate, cross]
    ext <;> simp only <;> ring
  have : ∀ a b : Rigid3, a.translation = b.translation → a.rotation = b.rotation → a = b := by
    rintro ⟨_, _⟩ ⟨_, _⟩ h1 h2
    simp only at h1 h2
    rw [h1, h2]
  exact this _ _ htr hrot

/-- **C72**: and they do not depend on the frame. -/
theorem landmark3_invariant {g : Rigid3} (hg : g.Proper) (zbar : Rigid3) (tw rw : ℝ) {t : ℝ} {prev next landmark : Rigid3} (hp : prev.Proper)
    (hn : next.Proper) (hi : (interpolateNodes3 prev next t).Proper) (hl : landmark.Proper) :
    landmark3 zbar tw rw t (g.mul prev) (g.mul next) (g.mul landmark) = landmark3 zbar tw rw t prev next landmark := by
  simp only [landmark3, interpolate3_equivariant hg hp hn hi, error3_invariant hg zbar hi hl]

/-- The interpolation parameter is between 0 and 1 for an observation between the nodes, and 0 and 1 at the nodes. -/
theorem parameter_range {ticks : ℝ} (ht : 0 < ticks) {prev next obs : Int} (h1 : prev ≤ obs) (h2 : obs ≤ next) (h : prev < next) :
    0 ≤ interpolationParameter ticks prev next obs ∧ interpolationParameter ticks prev next obs ≤ 1 ∧
    (obs = prev → interpolationParameter ticks prev next obs = 0) ∧ (obs = next → interpolationParameter ticks prev next obs = 1) := by
  have e1 : (0 : ℝ) ≤ ((obs - prev : Int) : ℝ) := by exact_mod_cast (by omega : 0 ≤ obs - prev)
  have e2 : (0 : ℝ) < ((next - prev : Int) : ℝ) := by exact_mod_cast (by omega : 0 < next - prev)
  have e3 : ((obs - prev : Int) : ℝ) ≤ ((next - prev : Int) : ℝ) := by exact_mod_cast (by omega : obs - prev ≤ next - prev)
  have e4 : interpolationParameter ticks prev next obs = ((obs - prev : Int) : ℝ) / ((next - prev : Int) : ℝ) := by
    unfold interpolationParameter
    field_simp
  rw [e4]
  refine ⟨by positivity, by rw [div_le_one e2]; exact e3, ?_, ?_⟩
  · rintro rfl; simp
  · rintro rfl; exact div_self e2.ne'

/-! ### Inertial measurements -/

/-- **C73**: the rotation residuals vanish exactly if the second rotation is the first one followed by the measured one, turned into the
tracking frame by the calibration. -/
theorem rotation3_zero_iff {scaling : ℝ} (hs : scaling ≠ 0) {delta start stop calibration : Quat} (hd : delta.Unit) (h1 : start.Unit) (h2 : stop.Unit)
    (hc : calibration.Unit) : rotation3 scaling delta start stop calibration = ⟨0, 0, 0⟩ ↔
      SameRotation (start.mul ((calibration.mul delta).mul calibration.conjugate)) stop := by
  rw [sameRotation_iff (unit_mul h1 (unit_mul (unit_mul hc hd) (unit_conjugate hc))) h2]
  simp only [rotation3, V3.mk.injEq, mul_eq_zero, hs, false_or, quat_mul_assoc]

theorem rotation3_invariant {g : Quat} (hg : g.Unit) (scaling : ℝ) (delta start stop calibration : Quat) :
    rotation3 scaling delta (g.mul start) (g.mul stop) calibration = rotation3 scaling delta start stop calibration := by
  have : (g.mul stop).conjugate.mul (g.mul start) = stop.conjugate.mul start := by
    rw [conjugate_mul_rev, quat_mul_assoc, ← quat_mul_assoc g.conjugate, conjugate_mul hg, one_mul']
  simp only [rotation3, this]

/-- A point that moves with constant acceleration. -/
noncomputable def ballistic (p v a : V3) (t : ℝ) : V3 := ⟨p.x + v.x * t + a.x * t ^ 2 / 2, p.y + v.y * t + a.y * t ^ 2 / 2, p.z + v.z * t + a.z * t ^ 2 / 2⟩

/-- **C73**: for a motion with constant acceleration `a` the acceleration residuals vanish exactly if the velocity measured by the IMU,
turned into the map frame, is that of `a` and gravity over half of both intervals, the time between their centres. -/
theorem acceleration3_zero_iff {scaling : ℝ} (hs : scaling ≠ 0) {dt1 dt2 : ℝ} (h1 : 0 < dt1) (h2 : 0 < dt2) {middle calibration : Quat}
    (hm : middle.Unit) (hc : calibration.Unit) (p v a dv : V3) (gravity t : ℝ) :
    acceleration3 scaling dv dt1 dt2 middle (ballistic p v a t) (ballistic p v a (t + dt1)) (ballistic p v a (t + dt1 + dt2)) gravity calibration =
      ⟨0, 0, 0⟩ ↔
    middle.rotate (calibration.rotate dv) = ⟨a.x * ((dt1 + dt2) / 2), a.y * ((dt1 + dt2) / 2), (a.z + gravity) * ((dt1 + dt2) / 2)⟩ := by
  rw [← rotate_mul hm hc]
  generalize hw : (middle.mul calibration).rotate dv = w
  have key : ∀ p v a : ℝ, (p + v * (t + dt1 + dt2) + a * (t + dt1 + dt2) ^ 2 / 2 - (p + v * (t + dt1) + a * (t + dt1) ^ 2 / 2)) / dt2 -
      (p + v * (t + dt1) + a * (t + dt1) ^ 2 / 2 - (p + v * t + a * t ^ 2 / 2)) / dt1 = a * ((dt1 + dt2) / 2) := by
    intro p v a
    field_simp
    ring
  simp only [acceleration3, hw, ballistic, V3.ext_iff, mul_eq_zero, hs, false_or, key]
  constructor
  · rintro ⟨a1, a2, a3⟩
    exact ⟨by linarith, by linarith, by linarith⟩
  · rintro ⟨a1, a2, a3⟩
    exact ⟨by linarith, by linarith, by linarith⟩

/-! ### Examples -/

/-- Two and a half turns plus a quarter. -/
example : normalizeAngle (5 * Real.pi / 2) = Real.pi / 2 := by
  have hp := Real.pi_pos
  rw [normalize_unique (k := 1) (by push_cast; linarith) (by push_cast; linarith)]
  push_cast
  ring

/-- One metre ahead when looking along the y axis. -/
example : spa2 ⟨⟨1, 0⟩, 0⟩ 3 5 ⟨⟨1, 2⟩, Real.pi / 2⟩ ⟨⟨1, 3⟩, Real.pi / 2 + 2 * Real.pi⟩ = ⟨0, 0, 0⟩ := by
  rw [spa2_zero_iff (by norm_num) (by norm_num), same2_iff]
  refine ⟨by ext <;> simp [Rigid2.mul, rotate2]; norm_num, -1, ?_⟩
  simp only [Rigid2.mul]
  push_cast
  ring

example : spa2 ⟨⟨1, 0⟩, 0⟩ 3 5 ⟨⟨1, 2⟩, Real.pi / 2⟩ ⟨⟨2, 2⟩, Real.pi / 2⟩ ≠ ⟨0, 0, 0⟩ := by
  rw [Ne, spa2_zero_iff (by norm_num) (by norm_num), same2_iff]
  rintro ⟨h, _⟩
  simp [Rigid2.mul, rotate2, V2.ext_iff] at h

/-- Turning the first pose on the spot moves the second one sideways. -/
example : HasDerivAt (fun t => (analytical2 ⟨⟨1, 0⟩, 0⟩ 3 5 (along ⟨⟨0, 0⟩, 0⟩ ⟨0, 0, 1⟩ t) (along ⟨⟨1, 0⟩, 0⟩ ⟨0, 0, 0⟩ t)).y) 3 0 := by
  refine (jacobian_correct ⟨⟨1, 0⟩, 0⟩ 3 5 ⟨⟨0, 0⟩, 0⟩ ⟨⟨1, 0⟩, 0⟩ ⟨0, 0, 1⟩ ⟨0, 0, 0⟩).2.1.congr_deriv ?_
  simp [rowDot, jacobianStart, jacobianEnd]

/-- One metre ahead when looking back. -/
example : spa3 ⟨⟨1, 0, 0⟩, ⟨1, 0, 0, 0⟩⟩ 3 5 ⟨⟨4, 0, 1⟩, ⟨0, 0, 0, 1⟩⟩ ⟨⟨3, 0, 1⟩, ⟨0, 0, 0, -1⟩⟩ = (⟨0, 0, 0⟩, ⟨0, 0, 0⟩) := by
  have u : ∀ a : ℝ, a ^ 2 = 1 → (Quat.mk 0 0 0 a).Unit := fun a h => by simp [Quat.Unit, h]
  have u1 : (Quat.mk 1 0 0 0).Unit := by simp [Quat.Unit]
  refine (error3_zero_iff (by norm_num) (by norm_num) (show Rigid3.Proper ⟨_, _⟩ from u1) (show Rigid3.Proper ⟨_, _⟩ from u 1 (by norm_num))
    (show Rigid3.Proper ⟨_, _⟩ from u (-1) (by norm_num))).2 ?_
  intro p
  have e : ((Quat.mk 0 0 0 1).mul ⟨1, 0, 0, 0⟩) = ⟨0, 0, 0, 1⟩ := by ext <;> simp [Quat.mul]
  simp only [Rigid3.apply, Rigid3.mul, e, normalized_unit (u 1 (by norm_num))]
  ext <;> simp [Quat.rotate, cross] <;> ring

/-- Half way between looking ahead and looking back. -/
example : (slerpQuaternions ⟨1, 0, 0, 0⟩ ⟨0, 0, 0, 1⟩ (1 / 2)).w = Real.cos (Real.pi / 4) := by
  have h := (slerp_arc (a := ⟨1, 0, 0, 0⟩) (b := ⟨0, 0, 0, 1⟩) (by simp [Quat.Unit]) (by simp [Quat.Unit]) (by simp [dot]; norm_num) (1 / 2)).2.1
  have e : ∀ q : Quat, dot ⟨1, 0, 0, 0⟩ q = q.w := fun q => by simp [dot]
  rw [e, e] at h
  rw [h]
  simp only [abs_zero, Real.arccos_zero]
  congr 1
  ring

/-- A quarter of the way from the first node to the second one. -/
example : interpolationParameter 10000000 1000 5000 2000 = 1 / 4 := by
  simp only [interpolationParameter]
  norm_num

/-- At rest on a table, the IMU measures gravity. -/
example : acceleration3 2 ⟨0, 0, 98⟩ 10 10 ⟨1, 0, 0, 0⟩ ⟨1, 2, 3⟩ ⟨1, 2, 3⟩ ⟨1, 2, 3⟩ (98 / 10) ⟨1, 0, 0, 0⟩ = ⟨0, 0, 0⟩ := by
  have u1 : (Quat.mk 1 0 0 0).Unit := by simp [Quat.Unit]
  have h := (acceleration3_zero_iff (scaling := 2) (by norm_num) (dt1 := 10) (dt2 := 10) (by norm_num) (by norm_num) u1 u1 ⟨1, 2, 3⟩ ⟨0, 0, 0⟩ ⟨0, 0, 0⟩
    ⟨0, 0, 98⟩ (98 / 10) 0).2 (by ext <;> simp [Quat.rotate, cross])
  simpa [ballistic] using h

end Verif.Cost
