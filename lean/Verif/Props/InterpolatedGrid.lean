import Verif.ScanMatchCost
import Verif.Spline
import Verif.Props.RealTimeCorrelative
import Mathlib.Analysis.Calculus.ContDiff.Basic

/-!
# The interpolated hybrid grid (C76)

The interpolated value of a hybrid grid is the sum of the values of the voxels, each times a product of three bumps around its centre.
So it takes the values of the voxels at their centres, stays between the least and the largest value, is continuously differentiable
everywhere, and its derivative is that of the polynomial of the interval that the code selects, also at the ends of the interval.
-/

namespace Verif.MatchCost

open Verif.Rigid Verif.RealTime Verif.Grid2D Verif.Hybrid Verif.Spline

/-! ### The interval -/

theorem round_int (i : Int) : RealTime.round (i : ℝ) = i := by
  have h := round_bounds (i : ℝ)
  have h1 : ((RealTime.round (i : ℝ) : ℤ) : ℝ) < i + 1 := by linarith [h.1]
  have h2 : ((i : ℤ) : ℝ) < RealTime.round (i : ℝ) + 1 := by linarith [h.2]
  have h1' : RealTime.round (i : ℝ) < i + 1 := by exact_mod_cast h1
  have h2' : i < RealTime.round (i : ℝ) + 1 := by exact_mod_cast h2
  omega

/-- The centre of the lower voxel is the largest centre that is at most the coordinate. -/
theorem lowerCenter_eq {r : ℝ} (hr : 0 < r) (x : ℝ) : lowerCenter r x (RealTime.round (x / r)) = ⌊x / r⌋ * r := by
  have h := round_bounds (x / r)
  unfold lowerCenter
  split
  · rename_i hlt
    have : x / r < RealTime.round (x / r) := by rwa [div_lt_iff₀ hr]
    have e : ⌊x / r⌋ = RealTime.round (x / r) - 1 := by
      rw [Int.floor_eq_iff]
      push_cast
      constructor <;> linarith [h.1]
    rw [e]; push_cast; ring
  · rename_i hge
    have : (RealTime.round (x / r) : ℝ) ≤ x / r := by rw [le_div_iff₀ hr]; linarith
    have e : ⌊x / r⌋ = RealTime.round (x / r) := by
      rw [Int.floor_eq_iff]
      constructor <;> linarith [h.2]
    rw [e]

theorem index_lower {r : ℝ} (hr : 0 < r) (p : V3) : cellIndex3 r (centerOfLowerVoxel r p) = ⟨⌊p.x / r⌋, ⌊p.y / r⌋, ⌊p.z / r⌋⟩ := by
  unfold cellIndex3 centerOfLowerVoxel
  simp only [cellIndex3, lowerCenter_eq hr, mul_div_cancel_right₀ _ hr.ne', round_int]

theorem cubic_eq (g : ℤ → ℝ) (u : ℝ) : cubic (g ⌊u⌋) (g (⌊u⌋ + 1)) (Int.fract u) = conv 1 bump g u := by
  rw [conv_bump]; unfold cubic; ring

/-! ### Specification -/

/-- The interpolated value of a field of values at voxels of size `r`: each voxel counts with the product of three bumps. -/
noncomputable def field (V : I3 → ℝ) (r : ℝ) (p : ℝ × ℝ × ℝ) : ℝ :=
  conv 1 bump (fun i => conv 1 bump (fun j => conv 1 bump (fun k => V ⟨i, j, k⟩) (p.2.2 / r)) (p.2.1 / r)) (p.1 / r)

theorem interpolated_eq {value : I3 → Option ℚ} {V : I3 → ℚ} (hV : ∀ i, value i = some (V i)) {r : ℝ} (hr : 0 < r) (p : V3) :
    interpolated value r p = some (field (fun i => V i) r (p.x, p.y, p.z)) := by
  unfold interpolated
  simp only [hV, index_lower hr, Option.bind_eq_bind, Option.bind_some, I3.add, add_zero]
  have e : ∀ x : ℝ, (x - ⌊x / r⌋ * r) / (⌊x / r⌋ * r + r - ⌊x / r⌋ * r) = Int.fract (x / r) := by
    intro x
    rw [add_sub_cancel_left, sub_div, mul_div_cancel_right₀ _ hr.ne']; rfl
  simp only [centerOfLowerVoxel, cellIndex3, lowerCenter_eq hr, e]
  unfold field
  rw [← cubic_eq, ← cubic_eq, ← cubic_eq, ← cubic_eq, ← cubic_eq, ← cubic_eq, ← cubic_eq]

/-! ### Values -/

theorem fract_centre {r : ℝ} (hr : 0 < r) (i : ℤ) : Int.fract ((i : ℝ) * r / r) = 0 := by
  rw [mul_div_cancel_right₀ _ hr.ne', Int.fract_intCast]

theorem floor_centre {r : ℝ} (hr : 0 < r) (i : ℤ) : ⌊(i : ℝ) * r / r⌋ = i := by
  rw [mul_div_cancel_right₀ _ hr.ne', Int.floor_intCast]

theorem conv_bump_centre (g : ℤ → ℝ) {r : ℝ} (hr : 0 < r) (i : ℤ) : conv 1 bump g (i * r / r) = g i := by
  rw [conv_bump, fract_centre hr, floor_centre hr]; ring

/-- At the centre of a voxel the interpolated value is that of the voxel. -/
theorem interpolated_centre {value : I3 → Option ℚ} {V : I3 → ℚ} (hV : ∀ i, value i = some (V i)) {r : ℝ} (hr : 0 < r) (i : I3) :
    interpolated value r ⟨i.x * r, i.y * r, i.z * r⟩ = some (V i : ℝ) := by
  rw [interpolated_eq hV hr]
  simp only [field, conv_bump_centre _ hr]

theorem field_range {V : I3 → ℝ} {lo hi : ℝ} (h : ∀ i, lo ≤ V i ∧ V i ≤ hi) (r : ℝ) (p : ℝ × ℝ × ℝ) : lo ≤ field V r p ∧ field V r p ≤ hi :=
  conv_bump_range (fun _ => conv_bump_range (fun _ => conv_bump_range (fun _ => h _) _) _) _

/-- The interpolated value lies between the least and the largest of the values of the eight voxels around the point. -/
theorem interpolated_between {value : I3 → Option ℚ} {V : I3 → ℚ} (hV : ∀ i, value i = some (V i)) {r : ℝ} (hr : 0 < r) (p : V3) {lo hi : ℝ}
    (h : ∀ i : I3, |p.x - i.x * r| < r → |p.y - i.y * r| < r → |p.z - i.z * r| < r → lo ≤ V i ∧ V i ≤ hi) :
    ∃ v, interpolated value r p = some v ∧ lo ≤ v ∧ v ≤ hi := by
  refine ⟨_, interpolated_eq hV hr p, ?_⟩
  have key : ∀ (g : ℤ → ℝ) (x : ℝ), (∀ i : ℤ, |x - i * r| < r → lo ≤ g i ∧ g i ≤ hi) → lo ≤ conv 1 bump g (x / r) ∧ conv 1 bump g (x / r) ≤ hi := by
    intro g x hg
    have h1 := Int.fract_nonneg (x / r)
    have h2 := Int.fract_lt_one (x / r)
    have e : Int.fract (x / r) * r = x - ⌊x / r⌋ * r := by
      have : Int.fract (x / r) = x / r - ⌊x / r⌋ := rfl
      rw [this, sub_mul, div_mul_cancel₀ _ hr.ne']
    have a := hg ⌊x / r⌋ (by
      rw [← e, abs_of_nonneg (by positivity)]
      nlinarith)
    rw [conv_bump]
    rcases h1.eq_or_lt with h0 | h0
    · rw [← h0]
      constructor <;> linarith
    · have b := hg (⌊x / r⌋ + 1) (by
        have : x - ((⌊x / r⌋ + 1 : ℤ) : ℝ) * r = (Int.fract (x / r) - 1) * r := by push_cast; linarith
        rw [this, abs_of_nonpos (by nlinarith)]
        nlinarith)
      generalize Int.fract (x / r) = t at *
      have s0 : 0 ≤ 3 * t ^ 2 - 2 * t ^ 3 := by nlinarith [sq_nonneg t]
      have s1 : 3 * t ^ 2 - 2 * t ^ 3 ≤ 1 := by nlinarith [sq_nonneg (1 - t), mul_nonneg (sq_nonneg (1 - t)) h1]
      generalize 3 * t ^ 2 - 2 * t ^ 3 = s at *
      constructor <;> nlinarith
  exact key _ _ fun i hi' => key _ _ fun j hj => key _ _ fun k hk => h ⟨i, j, k⟩ hi' hj hk

/-! ### Derivatives -/

theorem field_contDiff (V : I3 → ℝ) (r : ℝ) : ContDiff ℝ 1 (field V r) := by
  unfold field
  refine conv_contDiff bump_far bump_contDiff (fun i => ?_) (by fun_prop)
  refine conv_contDiff bump_far bump_contDiff (fun j => ?_) (by fun_prop)
  exact conv_contDiff bump_far bump_contDiff (fun k => contDiff_const) (by fun_prop)

/-- The interpolated value is a continuously differentiable function of the point. -/
theorem interpolated_smooth {value : I3 → Option ℚ} {V : I3 → ℚ} (hV : ∀ i, value i = some (V i)) {r : ℝ} (hr : 0 < r) :
    ∃ f : ℝ × ℝ × ℝ → ℝ, ContDiff ℝ 1 f ∧ ∀ p : V3, interpolated value r p = some (f (p.x, p.y, p.z)) :=
  ⟨field (fun i => V i) r, field_contDiff _ r, interpolated_eq hV hr⟩

theorem conv_comm (m n : ℕ) (K L : ℝ → ℝ) (g : ℤ → ℤ → ℝ) (u v : ℝ) :
    conv m K (fun i => conv n L (fun j => g i j) v) u = conv n L (fun j => conv m K (fun i => g i j) u) v := by
  unfold conv
  simp only [Finset.sum_mul]
  rw [Finset.sum_comm]
  refine Finset.sum_congr rfl fun j _ => Finset.sum_congr rfl fun i _ => by ring

/-- The derivative of the polynomial that the code evaluates, at the same point. -/
theorem cubic_deriv (a b t : ℝ) : HasDerivAt (cubic a b) ((b - a) * (6 * t * (1 - t))) t := by
  unfold cubic
  have h := ((((hasDerivAt_pow 3 t).const_mul ((a - b) * 2)).add ((hasDerivAt_pow 2 t).const_mul ((b - a) * 3))).add_const a)
  have e : (fun t : ℝ => (a - b) * (t * (t * t)) * 2 + (b - a) * (t * t) * 3 + a) = fun t => (a - b) * 2 * t ^ 3 + (b - a) * 3 * t ^ 2 + a := by
    funext t; ring
  rw [e]
  refine h.congr_deriv ?_
  norm_num; ring

theorem conv_bump_deriv (g : ℤ → ℝ) {r : ℝ} (hr : 0 < r) (x : ℝ) :
    HasDerivAt (fun x => conv 1 bump g (x / r)) ((g (⌊x / r⌋ + 1) - g ⌊x / r⌋) * (6 * Int.fract (x / r) * (1 - Int.fract (x / r))) / r) x := by
  have h := (conv_hasDerivAt bump_far bump'_far bump_hasDerivAt g (x / r)).comp x ((hasDerivAt_id x).div_const r)
  rw [conv_bump'] at h
  refine h.congr_deriv ?_
  ring

/-- The derivative in each direction is that of the cubic polynomial between the two centres that the code has selected, with the values of
the field on both sides as coefficients. -/
theorem field_deriv (V : I3 → ℝ) {r : ℝ} (hr : 0 < r) (x y z : ℝ) :
    HasDerivAt (fun x => field V r (x, y, z))
      ((field V r ((⌊x / r⌋ + 1 : ℤ) * r, y, z) - field V r (⌊x / r⌋ * r, y, z)) * (6 * Int.fract (x / r) * (1 - Int.fract (x / r))) / r) x ∧
    HasDerivAt (fun y => field V r (x, y, z))
      ((field V r (x, (⌊y / r⌋ + 1 : ℤ) * r, z) - field V r (x, ⌊y / r⌋ * r, z)) * (6 * Int.fract (y / r) * (1 - Int.fract (y / r))) / r) y ∧
    HasDerivAt (fun z => field V r (x, y, z))
      ((field V r (x, y, (⌊z / r⌋ + 1 : ℤ) * r) - field V r (x, y, ⌊z / r⌋ * r)) * (6 * Int.fract (z / r) * (1 - Int.fract (z / r))) / r) z := by
  refine ⟨?_, ?_, ?_⟩
  · have h := conv_bump_deriv (fun i => conv 1 bump (fun j => conv 1 bump (fun k => V ⟨i, j, k⟩) (z / r)) (y / r)) hr x
    simpa only [field, conv_bump_centre _ hr] using h
  · have e : ∀ y, field V r (x, y, z) = conv 1 bump (fun j => conv 1 bump (fun i => conv 1 bump (fun k => V ⟨i, j, k⟩) (z / r)) (x / r)) (y / r) :=
      fun y => conv_comm ..
    have h := conv_bump_deriv (fun j => conv 1 bump (fun i => conv 1 bump (fun k => V ⟨i, j, k⟩) (z / r)) (x / r)) hr y
    simpa only [e, conv_bump_centre _ hr] using h
  · have e : ∀ z, field V r (x, y, z) = conv 1 bump (fun k => conv 1 bump (fun i => conv 1 bump (fun j => V ⟨i, j, k⟩) (y / r)) (x / r)) (z / r) := by
      intro z
      have e1 : field V r (x, y, z) = conv 1 bump (fun i => conv 1 bump (fun k => conv 1 bump (fun j => V ⟨i, j, k⟩) (y / r)) (z / r)) (x / r) := by
        unfold field
        congr 1
        funext i
        exact conv_comm ..
      rw [e1, conv_comm]
    have h := conv_bump_deriv (fun k => conv 1 bump (fun i => conv 1 bump (fun j => V ⟨i, j, k⟩) (y / r)) (x / r)) hr z
    simpa only [e, conv_bump_centre _ hr] using h

/-- At the centres of voxels all derivatives vanish. -/
theorem field_flat (V : I3 → ℝ) {r : ℝ} (hr : 0 < r) (i : I3) :
    HasDerivAt (fun x => field V r (x, i.y * r, i.z * r)) 0 (i.x * r) ∧ HasDerivAt (fun y => field V r (i.x * r, y, i.z * r)) 0 (i.y * r) ∧
    HasDerivAt (fun z => field V r (i.x * r, i.y * r, z)) 0 (i.z * r) := by
  obtain ⟨h1, h2, h3⟩ := field_deriv V hr (i.x * r) (i.y * r) (i.z * r)
  refine ⟨h1.congr_deriv ?_, h2.congr_deriv ?_, h3.congr_deriv ?_⟩ <;> rw [fract_centre hr] <;> ring

/-- Halfway between two voxels that differ, the field is not constant: the slope is one and a half times the difference per voxel. -/
example : ∃ V : I3 → ℝ, field V 1 (1 / 2, 0, 0) = 1 / 2 ∧ HasDerivAt (fun x => field V 1 (x, 0, 0)) (3 / 2) (1 / 2) := by
  refine ⟨fun i => if i = ⟨1, 0, 0⟩ then 1 else 0, ?_, ?_⟩
  · have f1 : ⌊(1 / 2 : ℝ) / 1⌋ = 0 := by rw [Int.floor_eq_iff]; norm_num
    have f2 : Int.fract ((1 / 2 : ℝ) / 1) = 1 / 2 := by rw [Int.fract, f1]; norm_num
    have f3 : ⌊(0 : ℝ) / 1⌋ = 0 := by simp
    have f4 : Int.fract ((0 : ℝ) / 1) = 0 := by simp
    simp only [field, conv_bump, f1, f2, f3, f4]
    norm_num
  · have h := (field_deriv (fun i : I3 => if i = ⟨1, 0, 0⟩ then (1 : ℝ) else 0) one_pos (1 / 2) 0 0).1
    refine h.congr_deriv ?_
    have f1 : ⌊(1 / 2 : ℝ) / 1⌋ = 0 := by rw [Int.floor_eq_iff]; norm_num
    have f2 : Int.fract ((1 / 2 : ℝ) / 1) = 1 / 2 := by rw [Int.fract, f1]; norm_num
    have f3 : ⌊(0 : ℝ) / 1⌋ = 0 := by simp
    have f4 : Int.fract ((0 : ℝ) / 1) = 0 := by simp
    have f5 : ⌊(1 : ℝ) / 1⌋ = 1 := by simp
    have f6 : Int.fract ((1 : ℝ) / 1) = 0 := by simp
    simp only [f1, f2, field, conv_bump]
    norm_num

/-! ### Probabilities and intensities -/

/-- The interpolated probability: always defined and within the bounds of probabilities. -/
theorem interpolated_probability {g : HG} (w : HGWf g) (hr : 0 < g.resolution) (p : V3) : ∃ v, interpolated g.getProbability g.resolution p = some v ∧
    1 / 10 ≤ v ∧ v ≤ 9 / 10 := by
  have hr' : (0 : ℝ) < g.resolution := by exact_mod_cast hr
  refine interpolated_between (getProbability3 w) hr' p fun i _ _ _ => ?_
  have h := valueToProbability_any (Hybrid.val g i)
  constructor
  · have : ((1 / 10 : ℚ) : ℝ) ≤ (Verif.Prob.valueToProbability (Hybrid.val g i) : ℚ) := by exact_mod_cast h.1
    push_cast at this; exact this
  · have : ((Verif.Prob.valueToProbability (Hybrid.val g i) : ℚ) : ℝ) ≤ ((9 / 10 : ℚ) : ℝ) := by exact_mod_cast h.2
    push_cast at this; exact this

end Verif.MatchCost
