import Mathlib.Analysis.Calculus.ContDiff.Operations
import Mathlib.Analysis.Calculus.ContDiff.Deriv
import Mathlib.Analysis.Calculus.Deriv.Pow
import Mathlib.Analysis.Calculus.Deriv.Mul
import Mathlib.Analysis.Calculus.Deriv.Add
import Mathlib.Analysis.Calculus.Deriv.Comp
import Mathlib.Analysis.Calculus.Deriv.Shift
import Mathlib.Algebra.Order.Floor.Ring
import Mathlib.Topology.Algebra.Order.Floor
import Mathlib.Order.Interval.Finset.Basic
import Mathlib.Data.Int.Interval

/-!
# Interpolation by sums of translated kernels

Specification of the interpolations of the scan matchers: the value at `u` is the sum of the values at the integers, each times a kernel
at the distance from `u`.  Linear interpolation uses the hat, the tricubic interpolation in space a bump with vanishing derivative at all
integers, and the bicubic interpolation in the plane the convolution kernel of Keys.
-/

namespace Verif.Spline

/-- Sum of the values `g i`, each times the kernel at `u - i`, for a kernel that vanishes from a distance of `m` on. -/
noncomputable def conv (m : ℕ) (K : ℝ → ℝ) (g : ℤ → ℝ) (u : ℝ) : ℝ := ∑ i ∈ Finset.Icc (⌊u⌋ - m + 1) (⌊u⌋ + m), g i * K (u - i)

/-- The kernel of linear interpolation. -/
noncomputable def hat (u : ℝ) : ℝ := if |u| ≤ 1 then 1 - |u| else 0

/-- The cubic bump with the value 1 at zero, 0 at one and vanishing derivative at both. -/
noncomputable def bump (u : ℝ) : ℝ := if |u| ≤ 1 then 1 - 3 * u ^ 2 + 2 * |u| ^ 3 else 0

/-- The convolution kernel of Keys. -/
noncomputable def keys (u : ℝ) : ℝ :=
  if |u| ≤ 1 then 1 - 5 / 2 * u ^ 2 + 3 / 2 * |u| ^ 3 else if |u| ≤ 2 then 2 - 4 * |u| + 5 / 2 * u ^ 2 - 1 / 2 * |u| ^ 3 else 0

/-! ### Sums of translated kernels -/

/-- The sum may run over more integers. -/
theorem conv_eq {m : ℕ} {K : ℝ → ℝ} (hK : ∀ u, (m : ℝ) ≤ |u| → K u = 0) (g : ℤ → ℝ) {u : ℝ} {a b : ℤ} (ha : a ≤ ⌊u⌋ - m + 1) (hb : ⌊u⌋ + m ≤ b) :
    conv m K g u = ∑ i ∈ Finset.Icc a b, g i * K (u - i) := by
  apply Finset.sum_subset
  · exact Finset.Icc_subset_Icc ha hb
  · intro i _ hi
    rw [hK _ ?_, mul_zero]
    rw [Finset.mem_Icc, not_and_or] at hi
    have h1 := Int.floor_le u
    have h2 := Int.lt_floor_add_one u
    rcases hi with h | h
    · have : i ≤ ⌊u⌋ - m := by omega
      have : (i : ℝ) ≤ ⌊u⌋ - m := by exact_mod_cast this
      exact le_trans (by linarith) (le_abs_self _)
    · have : ⌊u⌋ + m + 1 ≤ i := by omega
      have : (⌊u⌋ : ℝ) + m + 1 ≤ i := by exact_mod_cast this
      exact le_trans (by linarith) (neg_le_abs _)

/-- Near a point the sum runs over the same integers. -/
theorem conv_near {m : ℕ} {K : ℝ → ℝ} (hK : ∀ u, (m : ℝ) ≤ |u| → K u = 0) {n : ℤ} {u : ℝ} (h1 : (n : ℝ) - 1 < u) (h2 : u < n + 2) (g : ℤ → ℝ) :
    conv m K g u = ∑ i ∈ Finset.Icc (n - m) (n + 1 + m), g i * K (u - i) := by
  have : n - 1 ≤ ⌊u⌋ := Int.le_floor.2 (by push_cast; linarith)
  have : ⌊u⌋ < n + 2 := Int.floor_lt.2 (by push_cast; linarith)
  exact conv_eq hK g (by omega) (by omega)

theorem near_floor (x : ℝ) : ∀ᶠ y in nhds x, ((⌊x⌋ : ℤ) : ℝ) - 1 < y ∧ y < ⌊x⌋ + 2 := by
  have h1 := Int.floor_le x
  have h2 := Int.lt_floor_add_one x
  exact (lt_mem_nhds (by linarith)).and (gt_mem_nhds (by linarith))

/-- Interpolation is as smooth as its kernel, also if the values depend smoothly on further variables. -/
theorem conv_contDiff {E : Type*} [NormedAddCommGroup E] [NormedSpace ℝ E] {k : WithTop ℕ∞} {m : ℕ} {K : ℝ → ℝ} (hK : ∀ u, (m : ℝ) ≤ |u| → K u = 0)
    (hs : ContDiff ℝ k K) {F : ℤ → E → ℝ} (hF : ∀ i, ContDiff ℝ k (F i)) {φ : E → ℝ} (hφ : ContDiff ℝ k φ) :
    ContDiff ℝ k fun x => conv m K (fun i => F i x) (φ x) := by
  rw [contDiff_iff_contDiffAt]
  intro x
  have h : ContDiff ℝ k fun y => ∑ i ∈ Finset.Icc (⌊φ x⌋ - (m : ℤ)) (⌊φ x⌋ + 1 + m), F i y * K (φ y - i) :=
    ContDiff.sum fun i _ => (hF i).mul (hs.comp (hφ.sub contDiff_const))
  refine h.contDiffAt.congr_of_eventuallyEq ?_
  have := hφ.continuous.continuousAt.eventually (near_floor (φ x))
  filter_upwards [this] with y hy
  exact conv_near hK hy.1 hy.2 _

/-- Interpolation is differentiated by differentiating the kernel. -/
theorem conv_hasDerivAt {m : ℕ} {K K' : ℝ → ℝ} (hK : ∀ u, (m : ℝ) ≤ |u| → K u = 0) (hK' : ∀ u, (m : ℝ) ≤ |u| → K' u = 0)
    (hd : ∀ u, HasDerivAt K (K' u) u) (g : ℤ → ℝ) (u : ℝ) : HasDerivAt (conv m K g) (conv m K' g u) u := by
  have h1 := Int.floor_le u
  have h2 := Int.lt_floor_add_one u
  rw [conv_near hK' (n := ⌊u⌋) (by linarith) (by linarith)]
  have h : HasDerivAt (fun y => ∑ i ∈ Finset.Icc (⌊u⌋ - (m : ℤ)) (⌊u⌋ + 1 + m), g i * K (y - i))
      (∑ i ∈ Finset.Icc (⌊u⌋ - (m : ℤ)) (⌊u⌋ + 1 + m), g i * K' (u - i)) u :=
    HasDerivAt.fun_sum fun i _ => ((hd _).comp_sub_const u i).const_mul (g i)
  refine h.congr_of_eventuallyEq ?_
  filter_upwards [near_floor u] with y hy
  exact conv_near hK hy.1 hy.2 _

/-! ### The three kernels -/

theorem hat_far (u : ℝ) (h : ((1 : ℕ) : ℝ) ≤ |u|) : hat u = 0 := by
  unfold hat
  split
  · push_cast at h; linarith
  · rfl

theorem bump_far (u : ℝ) (h : ((1 : ℕ) : ℝ) ≤ |u|) : bump u = 0 := by
  unfold bump
  split
  · have : |u| = 1 := by push_cast at h; linarith
    have h2 : u ^ 2 = 1 := by rw [← sq_abs, this]; norm_num
    rw [this, h2]; norm_num
  · rfl

theorem keys_far (u : ℝ) (h : ((2 : ℕ) : ℝ) ≤ |u|) : keys u = 0 := by
  push_cast at h
  unfold keys
  rw [if_neg (by linarith)]
  split
  · have : |u| = 2 := by linarith
    have h2 : u ^ 2 = 4 := by rw [← sq_abs, this]; norm_num
    rw [this, h2]; norm_num
  · rfl

theorem hat_continuous : Continuous hat := by
  have : hat = fun u => max (1 - |u|) 0 := by
    funext u
    unfold hat
    split
    · rw [max_eq_left (by linarith)]
    · rw [max_eq_right (by linarith)]
  rw [this]
  fun_prop

/-- Truncated powers. -/
theorem trunc2 (u : ℝ) : HasDerivAt (fun x : ℝ => (max x 0) ^ 2) (2 * max u 0) u := by
  rcases lt_trichotomy u 0 with h | h | h
  · rw [max_eq_right h.le]
    have : HasDerivAt (fun _ : ℝ => (0 : ℝ)) (2 * 0) u := by simpa using hasDerivAt_const u (0 : ℝ)
    refine this.congr_of_eventuallyEq ?_
    filter_upwards [gt_mem_nhds h] with y hy
    rw [max_eq_right (le_of_lt hy)]; norm_num
  · subst h
    have e : (2 : ℝ) * max 0 0 = 0 := by simp
    rw [e]
    have l : HasDerivWithinAt (fun x : ℝ => (max x 0) ^ 2) 0 (Set.Iic 0) 0 :=
      (hasDerivWithinAt_const (0 : ℝ) _ (0 : ℝ)).congr (fun y hy => by rw [max_eq_right hy]; norm_num) (by simp)
    have r : HasDerivWithinAt (fun x : ℝ => (max x 0) ^ 2) 0 (Set.Ici 0) 0 := by
      have := (hasDerivAt_pow 2 (0 : ℝ)).hasDerivWithinAt (s := Set.Ici 0)
      norm_num at this
      exact this.congr (fun y hy => by rw [max_eq_left hy]) (by simp)
    have := l.union r
    rwa [Set.Iic_union_Ici, hasDerivWithinAt_univ] at this
  · rw [max_eq_left h.le]
    have := hasDerivAt_pow 2 u
    norm_num at this
    refine this.congr_of_eventuallyEq ?_
    filter_upwards [lt_mem_nhds h] with y hy
    rw [max_eq_left (le_of_lt hy)]

theorem trunc3 (u : ℝ) : HasDerivAt (fun x : ℝ => (max x 0) ^ 3) (3 * (max u 0) ^ 2) u := by
  rcases lt_trichotomy u 0 with h | h | h
  · rw [max_eq_right h.le]
    have : HasDerivAt (fun _ : ℝ => (0 : ℝ)) (3 * 0 ^ 2) u := by simpa using hasDerivAt_const u (0 : ℝ)
    refine this.congr_of_eventuallyEq ?_
    filter_upwards [gt_mem_nhds h] with y hy
    rw [max_eq_right (le_of_lt hy)]; norm_num
  · subst h
    have e : (3 : ℝ) * (max 0 0) ^ 2 = 0 := by simp
    rw [e]
    have l : HasDerivWithinAt (fun x : ℝ => (max x 0) ^ 3) 0 (Set.Iic 0) 0 :=
      (hasDerivWithinAt_const (0 : ℝ) _ (0 : ℝ)).congr (fun y hy => by rw [max_eq_right hy]; norm_num) (by simp)
    have r : HasDerivWithinAt (fun x : ℝ => (max x 0) ^ 3) 0 (Set.Ici 0) 0 := by
      have := (hasDerivAt_pow 3 (0 : ℝ)).hasDerivWithinAt (s := Set.Ici 0)
      norm_num at this
      exact this.congr (fun y hy => by rw [max_eq_left hy]) (by simp)
    have := l.union r
    rwa [Set.Iic_union_Ici, hasDerivWithinAt_univ] at this
  · rw [max_eq_left h.le]
    have := hasDerivAt_pow 3 u
    norm_num at this
    refine this.congr_of_eventuallyEq ?_
    filter_upwards [lt_mem_nhds h] with y hy
    rw [max_eq_left (le_of_lt hy)]

/-- The derivative of the bump. -/
noncomputable def bump' (u : ℝ) : ℝ := if |u| ≤ 1 then -6 * u + 6 * u * |u| else 0

/-- The derivative of the kernel of Keys. -/
noncomputable def keys' (u : ℝ) : ℝ :=
  if |u| ≤ 1 then -5 * u + 9 / 2 * u * |u| else if |u| ≤ 2 then (if 0 ≤ u then -4 else 4) + 5 * u - 3 / 2 * u * |u| else 0

theorem bump'_far (u : ℝ) (h : ((1 : ℕ) : ℝ) ≤ |u|) : bump' u = 0 := by
  unfold bump'
  split
  · have : |u| = 1 := by push_cast at h; linarith
    rw [this]; ring
  · rfl

theorem keys'_far (u : ℝ) (h : ((2 : ℕ) : ℝ) ≤ |u|) : keys' u = 0 := by
  push_cast at h
  unfold keys'
  rw [if_neg (by linarith)]
  split
  · have : |u| = 2 := by linarith
    rcases abs_choice u with e | e
    · rw [this, if_pos (by linarith)]
      have : u = 2 := by linarith
      rw [this]; norm_num
    · rw [this, if_neg (by linarith)]
      have : u = -2 := by linarith
      rw [this]; norm_num
  · rfl

theorem bump_trunc (u : ℝ) : bump u = 3 * (max (u + 1) 0) ^ 2 - 2 * (max (u + 1) 0) ^ 3 + 4 * (max u 0) ^ 3 - 3 * (max (u - 1) 0) ^ 2
    - 2 * (max (u - 1) 0) ^ 3 := by
  unfold bump
  rcases le_total 0 u with h | h
  · rw [abs_of_nonneg h, max_eq_left (by linarith : (0 : ℝ) ≤ u + 1), max_eq_left h]
    split
    · rw [max_eq_right (by linarith)]; ring
    · rw [max_eq_left (by linarith)]; ring
  · rw [abs_of_nonpos h, max_eq_right h, max_eq_right (by linarith : u - 1 ≤ 0)]
    split
    · rw [max_eq_left (by linarith)]; ring
    · rw [max_eq_right (by linarith)]; ring

theorem bump'_trunc (u : ℝ) : bump' u = 6 * (max (u + 1) 0) - 6 * (max (u + 1) 0) ^ 2 + 12 * (max u 0) ^ 2 - 6 * (max (u - 1) 0)
    - 6 * (max (u - 1) 0) ^ 2 := by
  unfold bump'
  rcases le_total 0 u with h | h
  · rw [abs_of_nonneg h, max_eq_left (by linarith : (0 : ℝ) ≤ u + 1), max_eq_left h]
    split
    · rw [max_eq_right (by linarith)]; ring
    · rw [max_eq_left (by linarith)]; ring
  · rw [abs_of_nonpos h, max_eq_right h, max_eq_right (by linarith : u - 1 ≤ 0)]
    split
    · rw [max_eq_left (by linarith)]; ring
    · rw [max_eq_right (by linarith)]; ring

theorem bump_hasDerivAt (u : ℝ) : HasDerivAt bump (bump' u) u := by
  have e : bump = fun u => 3 * (max (u + 1) 0) ^ 2 - 2 * (max (u + 1) 0) ^ 3 + 4 * (max u 0) ^ 3 - 3 * (max (u - 1) 0) ^ 2
    - 2 * (max (u - 1) 0) ^ 3 := funext bump_trunc
  rw [e, bump'_trunc]
  have h := (((((trunc2 (u + 1)).comp_add_const u 1).const_mul 3).sub (((trunc3 (u + 1)).comp_add_const u 1).const_mul 2)).add
    ((trunc3 u).const_mul 4) |>.sub (((trunc2 (u - 1)).comp_sub_const u 1).const_mul 3)).sub (((trunc3 (u - 1)).comp_sub_const u 1).const_mul 2)
  refine h.congr_deriv ?_
  ring

theorem keys_trunc (u : ℝ) : keys u = -1 / 2 * (max (u + 2) 0) ^ 2 + 1 / 2 * (max (u + 2) 0) ^ 3 + (max (u + 1) 0) ^ 2 - 2 * (max (u + 1) 0) ^ 3
    + 3 * (max u 0) ^ 3 - (max (u - 1) 0) ^ 2 - 2 * (max (u - 1) 0) ^ 3 + 1 / 2 * (max (u - 2) 0) ^ 2 + 1 / 2 * (max (u - 2) 0) ^ 3 := by
  unfold keys
  rcases le_total 0 u with h | h
  · rw [abs_of_nonneg h, max_eq_left (by linarith : (0 : ℝ) ≤ u + 2), max_eq_left (by linarith : (0 : ℝ) ≤ u + 1), max_eq_left h]
    split
    · rw [max_eq_right (by linarith : u - 1 ≤ 0), max_eq_right (by linarith : u - 2 ≤ 0)]; ring
    · rw [max_eq_left (by linarith : 0 ≤ u - 1)]
      split
      · rw [max_eq_right (by linarith : u - 2 ≤ 0)]; ring
      · rw [max_eq_left (by linarith)]; ring
  · rw [abs_of_nonpos h, max_eq_right h, max_eq_right (by linarith : u - 1 ≤ 0), max_eq_right (by linarith : u - 2 ≤ 0)]
    split
    · rw [max_eq_left (by linarith : 0 ≤ u + 1), max_eq_left (by linarith : 0 ≤ u + 2)]; ring
    · rw [max_eq_right (by linarith : u + 1 ≤ 0)]
      split
      · rw [max_eq_left (by linarith : 0 ≤ u + 2)]; ring
      · rw [max_eq_right (by linarith)]; ring

theorem keys'_trunc (u : ℝ) : keys' u = -(max (u + 2) 0) + 3 / 2 * (max (u + 2) 0) ^ 2 + 2 * (max (u + 1) 0) - 6 * (max (u + 1) 0) ^ 2
    + 9 * (max u 0) ^ 2 - 2 * (max (u - 1) 0) - 6 * (max (u - 1) 0) ^ 2 + (max (u - 2) 0) + 3 / 2 * (max (u - 2) 0) ^ 2 := by
  unfold keys'
  rcases le_total 0 u with h | h
  · rw [abs_of_nonneg h, max_eq_left (by linarith : (0 : ℝ) ≤ u + 2), max_eq_left (by linarith : (0 : ℝ) ≤ u + 1), max_eq_left h, if_pos h]
    split
    · rw [max_eq_right (by linarith : u - 1 ≤ 0), max_eq_right (by linarith : u - 2 ≤ 0)]; ring
    · rw [max_eq_left (by linarith : 0 ≤ u - 1)]
      split
      · rw [max_eq_right (by linarith : u - 2 ≤ 0)]; ring
      · rw [max_eq_left (by linarith)]; ring
  · rw [abs_of_nonpos h, max_eq_right h, max_eq_right (by linarith : u - 1 ≤ 0), max_eq_right (by linarith : u - 2 ≤ 0)]
    split
    · rw [max_eq_left (by linarith : 0 ≤ u + 1), max_eq_left (by linarith : 0 ≤ u + 2)]; ring
    · rw [max_eq_right (by linarith : u + 1 ≤ 0), if_neg (by linarith : ¬0 ≤ u)]
      split
      · rw [max_eq_left (by linarith : 0 ≤ u + 2)]; ring
      · rw [max_eq_right (by linarith)]; ring

theorem keys_hasDerivAt (u : ℝ) : HasDerivAt keys (keys' u) u := by
  have e : keys = fun u => -1 / 2 * (max (u + 2) 0) ^ 2 + 1 / 2 * (max (u + 2) 0) ^ 3 + (max (u + 1) 0) ^ 2 - 2 * (max (u + 1) 0) ^ 3
    + 3 * (max u 0) ^ 3 - (max (u - 1) 0) ^ 2 - 2 * (max (u - 1) 0) ^ 3 + 1 / 2 * (max (u - 2) 0) ^ 2 + 1 / 2 * (max (u - 2) 0) ^ 3 := funext keys_trunc
  rw [e, keys'_trunc]
  have h := ((((((((((trunc2 (u + 2)).comp_add_const u 2).const_mul (-1 / 2)).add (((trunc3 (u + 2)).comp_add_const u 2).const_mul (1 / 2))).add
    ((trunc2 (u + 1)).comp_add_const u 1)).sub (((trunc3 (u + 1)).comp_add_const u 1).const_mul 2)).add
    ((trunc3 u).const_mul 3)).sub ((trunc2 (u - 1)).comp_sub_const u 1)).sub (((trunc3 (u - 1)).comp_sub_const u 1).const_mul 2)).add
    (((trunc2 (u - 2)).comp_sub_const u 2).const_mul (1 / 2))).add (((trunc3 (u - 2)).comp_sub_const u 2).const_mul (1 / 2))
  refine h.congr_deriv ?_
  ring

theorem bump_contDiff : ContDiff ℝ 1 bump := by
  rw [contDiff_one_iff_deriv]
  refine ⟨fun u => (bump_hasDerivAt u).differentiableAt, ?_⟩
  have : deriv bump = fun u => 6 * (max (u + 1) 0) - 6 * (max (u + 1) 0) ^ 2 + 12 * (max u 0) ^ 2 - 6 * (max (u - 1) 0) - 6 * (max (u - 1) 0) ^ 2 :=
    funext fun u => (bump_hasDerivAt u).deriv.trans (bump'_trunc u)
  rw [this]
  fun_prop

theorem keys_contDiff : ContDiff ℝ 1 keys := by
  rw [contDiff_one_iff_deriv]
  refine ⟨fun u => (keys_hasDerivAt u).differentiableAt, ?_⟩
  have : deriv keys = fun u => -(max (u + 2) 0) + 3 / 2 * (max (u + 2) 0) ^ 2 + 2 * (max (u + 1) 0) - 6 * (max (u + 1) 0) ^ 2
    + 9 * (max u 0) ^ 2 - 2 * (max (u - 1) 0) - 6 * (max (u - 1) 0) ^ 2 + (max (u - 2) 0) + 3 / 2 * (max (u - 2) 0) ^ 2 :=
    funext fun u => (keys_hasDerivAt u).deriv.trans (keys'_trunc u)
  rw [this]
  fun_prop

/-! ### The pieces -/

theorem sum_two (f : ℤ → ℝ) (n : ℤ) : ∑ i ∈ Finset.Icc (n - ((1 : ℕ) : ℤ) + 1) (n + ((1 : ℕ) : ℤ)), f i = f n + f (n + 1) := by
  have : Finset.Icc (n - ((1 : ℕ) : ℤ) + 1) (n + ((1 : ℕ) : ℤ)) = {n, n + 1} := by
    ext i
    simp only [Finset.mem_Icc, Finset.mem_insert, Finset.mem_singleton]
    omega
  rw [this, Finset.sum_insert (by simp), Finset.sum_singleton]

theorem sum_four (f : ℤ → ℝ) (n : ℤ) : ∑ i ∈ Finset.Icc (n - ((2 : ℕ) : ℤ) + 1) (n + ((2 : ℕ) : ℤ)), f i = f (n - 1) + (f n + (f (n + 1) + f (n + 2))) := by
  have : Finset.Icc (n - ((2 : ℕ) : ℤ) + 1) (n + ((2 : ℕ) : ℤ)) = {n - 1, n, n + 1, n + 2} := by
    ext i
    simp only [Finset.mem_Icc, Finset.mem_insert, Finset.mem_singleton]
    omega
  rw [this, Finset.sum_insert (by simp; omega), Finset.sum_insert (by simp), Finset.sum_insert (by simp), Finset.sum_singleton]

/-- Linear interpolation between the two neighbours. -/
theorem conv_hat (g : ℤ → ℝ) (u : ℝ) : conv 1 hat g u = (1 - Int.fract u) * g ⌊u⌋ + Int.fract u * g (⌊u⌋ + 1) := by
  have h1 := Int.fract_nonneg u
  have h2 := (Int.fract_lt_one u).le
  unfold conv
  rw [sum_two]
  have e1 : u - ((⌊u⌋ : ℤ) : ℝ) = Int.fract u := rfl
  have e2 : u - ((⌊u⌋ + 1 : ℤ) : ℝ) = Int.fract u - 1 := by rw [← e1]; push_cast; ring
  rw [e1, e2]
  unfold hat
  rw [abs_of_nonneg h1, abs_of_nonpos (by linarith : Int.fract u - 1 ≤ 0), if_pos h2, if_pos (by linarith)]
  ring

/-- The cubic with vanishing derivative at both ends. -/
theorem conv_bump (g : ℤ → ℝ) (u : ℝ) :
    conv 1 bump g u = g ⌊u⌋ + (g (⌊u⌋ + 1) - g ⌊u⌋) * (3 * Int.fract u ^ 2 - 2 * Int.fract u ^ 3) := by
  have h1 := Int.fract_nonneg u
  have h2 := (Int.fract_lt_one u).le
  unfold conv
  rw [sum_two]
  have e1 : u - ((⌊u⌋ : ℤ) : ℝ) = Int.fract u := rfl
  have e2 : u - ((⌊u⌋ + 1 : ℤ) : ℝ) = Int.fract u - 1 := by rw [← e1]; push_cast; ring
  rw [e1, e2]
  unfold bump
  rw [abs_of_nonneg h1, abs_of_nonpos (by linarith : Int.fract u - 1 ≤ 0), if_pos h2, if_pos (by linarith)]
  ring

theorem conv_bump' (g : ℤ → ℝ) (u : ℝ) : conv 1 bump' g u = (g (⌊u⌋ + 1) - g ⌊u⌋) * (6 * Int.fract u * (1 - Int.fract u)) := by
  have h1 := Int.fract_nonneg u
  have h2 := (Int.fract_lt_one u).le
  unfold conv
  rw [sum_two]
  have e1 : u - ((⌊u⌋ : ℤ) : ℝ) = Int.fract u := rfl
  have e2 : u - ((⌊u⌋ + 1 : ℤ) : ℝ) = Int.fract u - 1 := by rw [← e1]; push_cast; ring
  rw [e1, e2]
  unfold bump'
  rw [abs_of_nonneg h1, abs_of_nonpos (by linarith : Int.fract u - 1 ≤ 0), if_pos h2, if_pos (by linarith)]
  ring

/-- The four weights of cubic convolution. -/
theorem conv_keys (g : ℤ → ℝ) (u : ℝ) : conv 2 keys g u =
    -(Int.fract u * (1 - Int.fract u) ^ 2 / 2) * g (⌊u⌋ - 1) + (1 - 5 / 2 * Int.fract u ^ 2 + 3 / 2 * Int.fract u ^ 3) * g ⌊u⌋
    + (1 - 5 / 2 * (1 - Int.fract u) ^ 2 + 3 / 2 * (1 - Int.fract u) ^ 3) * g (⌊u⌋ + 1) - Int.fract u ^ 2 * (1 - Int.fract u) / 2 * g (⌊u⌋ + 2) := by
  have h1 := Int.fract_nonneg u
  have h2 := Int.fract_lt_one u
  unfold conv
  rw [sum_four]
  have e1 : u - ((⌊u⌋ : ℤ) : ℝ) = Int.fract u := rfl
  have e0 : u - ((⌊u⌋ - 1 : ℤ) : ℝ) = Int.fract u + 1 := by rw [← e1]; push_cast; ring
  have e2 : u - ((⌊u⌋ + 1 : ℤ) : ℝ) = Int.fract u - 1 := by rw [← e1]; push_cast; ring
  have e3 : u - ((⌊u⌋ + 2 : ℤ) : ℝ) = Int.fract u - 2 := by rw [← e1]; push_cast; ring
  rw [e0, e1, e2, e3]
  generalize Int.fract u = t at *
  have k0 : keys (t + 1) = -(t * (1 - t) ^ 2 / 2) := by
    unfold keys
    rw [abs_of_nonneg (by linarith : 0 ≤ t + 1)]
    split
    · have : t = 0 := by linarith
      rw [this]; norm_num
    · rw [if_pos (by linarith)]; ring
  have k1 : keys t = 1 - 5 / 2 * t ^ 2 + 3 / 2 * t ^ 3 := by
    unfold keys
    rw [abs_of_nonneg h1, if_pos h2.le]
  have k2 : keys (t - 1) = 1 - 5 / 2 * (1 - t) ^ 2 + 3 / 2 * (1 - t) ^ 3 := by
    unfold keys
    rw [abs_of_nonpos (by linarith : t - 1 ≤ 0), if_pos (by linarith)]; ring
  have k3 : keys (t - 2) = -(t ^ 2 * (1 - t) / 2) := by
    unfold keys
    rw [abs_of_nonpos (by linarith : t - 2 ≤ 0), if_neg (by linarith), if_pos (by linarith)]; ring
  rw [k0, k1, k2, k3]
  ring

/-! ### Ranges -/

theorem conv_hat_range {g : ℤ → ℝ} {lo hi : ℝ} (h : ∀ i, lo ≤ g i ∧ g i ≤ hi) (u : ℝ) : lo ≤ conv 1 hat g u ∧ conv 1 hat g u ≤ hi := by
  rw [conv_hat]
  have h1 := Int.fract_nonneg u
  have h2 := (Int.fract_lt_one u).le
  have a := h ⌊u⌋
  have b := h (⌊u⌋ + 1)
  constructor <;> nlinarith

theorem conv_bump_range {g : ℤ → ℝ} {lo hi : ℝ} (h : ∀ i, lo ≤ g i ∧ g i ≤ hi) (u : ℝ) : lo ≤ conv 1 bump g u ∧ conv 1 bump g u ≤ hi := by
  rw [conv_bump]
  have h1 := Int.fract_nonneg u
  have h2 := (Int.fract_lt_one u).le
  have a := h ⌊u⌋
  have b := h (⌊u⌋ + 1)
  generalize Int.fract u = t at *
  have s0 : 0 ≤ 3 * t ^ 2 - 2 * t ^ 3 := by nlinarith [sq_nonneg t]
  have s1 : 3 * t ^ 2 - 2 * t ^ 3 ≤ 1 := by nlinarith [sq_nonneg (1 - t), mul_nonneg (sq_nonneg (1 - t)) h1]
  generalize 3 * t ^ 2 - 2 * t ^ 3 = s at *
  constructor <;> nlinarith

/-- Cubic convolution overshoots by at most an eighth of the range of the values. -/
theorem conv_keys_range {g : ℤ → ℝ} {lo hi : ℝ} (h : ∀ i, lo ≤ g i ∧ g i ≤ hi) (u : ℝ) :
    lo - (hi - lo) / 8 ≤ conv 2 keys g u ∧ conv 2 keys g u ≤ hi + (hi - lo) / 8 := by
  rw [conv_keys]
  have h1 := Int.fract_nonneg u
  have h2 := (Int.fract_lt_one u).le
  have a := h (⌊u⌋ - 1)
  have b := h ⌊u⌋
  have c := h (⌊u⌋ + 1)
  have d := h (⌊u⌋ + 2)
  generalize Int.fract u = t at *
  have w0 : 0 ≤ t * (1 - t) ^ 2 / 2 := by positivity
  have w3 : 0 ≤ t ^ 2 * (1 - t) / 2 := by have : 0 ≤ 1 - t := by linarith
                                          positivity
  have w1 : 0 ≤ 1 - 5 / 2 * t ^ 2 + 3 / 2 * t ^ 3 := by
    have : 1 - 5 / 2 * t ^ 2 + 3 / 2 * t ^ 3 = (1 - t) * (1 + t - 3 / 2 * t ^ 2) := by ring
    rw [this]; exact mul_nonneg (by linarith) (by nlinarith)
  have w2 : 0 ≤ 1 - 5 / 2 * (1 - t) ^ 2 + 3 / 2 * (1 - t) ^ 3 := by
    have : 1 - 5 / 2 * (1 - t) ^ 2 + 3 / 2 * (1 - t) ^ 3 = t * (1 + (1 - t) - 3 / 2 * (1 - t) ^ 2) := by ring
    rw [this]; exact mul_nonneg (by linarith) (by nlinarith)
  have w : t * (1 - t) ^ 2 / 2 + t ^ 2 * (1 - t) / 2 ≤ 1 / 8 := by nlinarith [sq_nonneg (t - 1 / 2)]
  have one : -(t * (1 - t) ^ 2 / 2) + (1 - 5 / 2 * t ^ 2 + 3 / 2 * t ^ 3) + (1 - 5 / 2 * (1 - t) ^ 2 + 3 / 2 * (1 - t) ^ 3) - t ^ 2 * (1 - t) / 2 = 1 := by
    ring
  generalize t * (1 - t) ^ 2 / 2 = x0 at *
  generalize t ^ 2 * (1 - t) / 2 = x3 at *
  generalize 1 - 5 / 2 * t ^ 2 + 3 / 2 * t ^ 3 = x1 at *
  generalize 1 - 5 / 2 * (1 - t) ^ 2 + 3 / 2 * (1 - t) ^ 3 = x2 at *
  have r : 0 ≤ hi - lo := by linarith
  obtain rfl : x2 = 1 + x0 + x3 - x1 := by linarith
  have s := mul_le_mul_of_nonneg_right w r
  constructor
  · have := mul_le_mul_of_nonneg_left a.2 w0
    have := mul_le_mul_of_nonneg_left d.2 w3
    have := mul_le_mul_of_nonneg_left b.1 w1
    have := mul_le_mul_of_nonneg_left c.1 w2
    linarith
  · have := mul_le_mul_of_nonneg_left a.1 w0
    have := mul_le_mul_of_nonneg_left d.1 w3
    have := mul_le_mul_of_nonneg_left b.2 w1
    have := mul_le_mul_of_nonneg_left c.2 w2
    linarith

end Verif.Spline
