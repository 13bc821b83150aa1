import Verif.Props.ScanMatchCost2D

/-!
# The cost function of the scan matcher for truncated signed distance fields (C79)

The interpolated weight is linear interpolation of the weights of the cells and continuous.  The interpolated distance is linear
interpolation where all four cells around the point are known and the truncation distance elsewhere, so it jumps at the border of the
known area.  A residual is the distance times the share of the weight times the number of points; the function fails just if no point
has any weight.
-/

namespace Verif.MatchCost

open Verif.Rigid Verif.RealTime Verif.Grid2D Verif.Spline Verif.Prob

/-! ### The interval -/

/-- A coordinate in units of cells from the centre of the first cell. -/
noncomputable def cellsX (l : MapLimits) (p : V2) : ℝ := (l.maxX - p.x) / l.resolution - 1 / 2
noncomputable def cellsY (l : MapLimits) (p : V2) : ℝ := (l.maxY - p.y) / l.resolution - 1 / 2

theorem lower_eq {m r x : ℝ} (hr : 0 < r) :
    (x < m - r * (RealTime.round ((m - x) / r - 1 / 2) + 1 / 2) →
      m - r * (RealTime.round ((m - x) / r - 1 / 2) + 1 / 2) - r = m - r * (⌈(m - x) / r - 1 / 2⌉ + 1 / 2)) ∧
    (¬x < m - r * (RealTime.round ((m - x) / r - 1 / 2) + 1 / 2) →
      m - r * (RealTime.round ((m - x) / r - 1 / 2) + 1 / 2) = m - r * (⌈(m - x) / r - 1 / 2⌉ + 1 / 2)) := by
  have hx : x = m - r * (((m - x) / r - 1 / 2) + 1 / 2) := by
    rw [sub_add_cancel, mul_div_cancel₀ _ hr.ne']; ring
  generalize (m - x) / r - 1 / 2 = u at *
  have hb := round_bounds u
  constructor
  · intro h
    have : (RealTime.round u : ℝ) < u := by
      rw [hx] at h
      have : r * (RealTime.round u + 1 / 2) < r * (u + 1 / 2) := by linarith
      have := lt_of_mul_lt_mul_left this hr.le
      linarith
    have e : ⌈u⌉ = RealTime.round u + 1 := by
      rw [Int.ceil_eq_iff]
      push_cast
      constructor <;> linarith [hb.2]
    rw [e]; push_cast; ring
  · intro h
    have : u ≤ (RealTime.round u : ℝ) := by
      rw [hx, not_lt] at h
      have : r * (u + 1 / 2) ≤ r * (RealTime.round u + 1 / 2) := by linarith
      have := le_of_mul_le_mul_left this hr
      linarith
    have e : ⌈u⌉ = RealTime.round u := by
      rw [Int.ceil_eq_iff]
      constructor <;> linarith [hb.1]
    rw [e]

theorem lowerPixel_eq {l : MapLimits} (hr : 0 < l.resolution) (p : V2) : centerOfLowerPixel l p =
    ⟨l.maxX - l.resolution * (⌈cellsX l p⌉ + 1 / 2), l.maxY - l.resolution * (⌈cellsY l p⌉ + 1 / 2)⟩ := by
  have hr' : (0 : ℝ) < l.resolution := by exact_mod_cast hr
  unfold centerOfLowerPixel
  refine congrArg₂ V2.mk ?_ ?_
  · split
    · rename_i h; exact (lower_eq hr').1 h
    · rename_i h; exact (lower_eq hr').2 h
  · split
    · rename_i h; exact (lower_eq hr').1 h
    · rename_i h; exact (lower_eq hr').2 h

theorem index_lowerPixel {l : MapLimits} (hr : 0 < l.resolution) (p : V2) : cellIndex l (centerOfLowerPixel l p) = (⌈cellsY l p⌉, ⌈cellsX l p⌉) := by
  have hr' : (l.resolution : ℝ) ≠ 0 := by exact_mod_cast hr.ne'
  rw [lowerPixel_eq hr]
  have e : ∀ (m : ℝ) (n : ℤ), (m - (m - l.resolution * (n + 1 / 2))) / l.resolution - 1 / 2 = (n : ℝ) := by
    intro m n
    rw [sub_sub_cancel, mul_div_cancel_left₀ _ hr']; ring
  simp only [cellIndex, e, round_int]

theorem linear_eq (g : ℤ → ℝ) (u : ℝ) : (g (⌈u⌉ + -1) - g ⌈u⌉) * (⌈u⌉ - u) + g ⌈u⌉ = conv 1 hat g u := by
  rw [conv_hat]
  have e : Int.fract u = u - ⌊u⌋ := rfl
  rcases (Int.fract_nonneg u).eq_or_lt with h | h
  · have hu : u = ((⌊u⌋ : ℤ) : ℝ) := by linarith
    have hc : ⌈u⌉ = ⌊u⌋ := by conv_lhs => rw [hu]
                              rw [Int.ceil_intCast]
    rw [← h, hc, ← hu]; ring
  · have hc : ⌈u⌉ = ⌊u⌋ + 1 := by
      rw [Int.ceil_eq_iff]
      have := Int.lt_floor_add_one u
      push_cast
      constructor <;> linarith
    rw [hc, add_neg_cancel_right, e]
    push_cast
    ring

/-- Bilinear interpolation of values at the cells. -/
noncomputable def linearField (l : MapLimits) (V : Int × Int → ℝ) (p : V2) : ℝ := conv 1 hat (fun i => conv 1 hat (fun j => V (j, i)) (cellsY l p)) (cellsX l p)

theorem bilinear_eq {l : MapLimits} (hr : 0 < l.resolution) (V : Int × Int → ℝ) (p : V2) :
    bilinear p (centerOfLowerPixel l p) ⟨(centerOfLowerPixel l p).x + l.resolution, (centerOfLowerPixel l p).y + l.resolution⟩
      (V (⌈cellsY l p⌉, ⌈cellsX l p⌉)) (V (⌈cellsY l p⌉ + -1, ⌈cellsX l p⌉)) (V (⌈cellsY l p⌉, ⌈cellsX l p⌉ + -1))
      (V (⌈cellsY l p⌉ + -1, ⌈cellsX l p⌉ + -1)) = linearField l V p := by
  have hr' : (l.resolution : ℝ) ≠ 0 := by exact_mod_cast hr.ne'
  have e : ∀ (m x : ℝ) (n : ℤ), (x - (m - l.resolution * (n + 1 / 2))) / (m - l.resolution * (n + 1 / 2) + l.resolution - (m - l.resolution * (n + 1 / 2))) =
      n - ((m - x) / l.resolution - 1 / 2) := by
    intro m x n
    rw [add_sub_cancel_left]
    field_simp
    ring
  unfold bilinear linearField
  rw [lowerPixel_eq hr]
  simp only [e]
  rw [← linear_eq, ← linear_eq, ← linear_eq]
  rfl

theorem linearField_range {l : MapLimits} {V : Int × Int → ℝ} {lo hi : ℝ} (h : ∀ i, lo ≤ V i ∧ V i ≤ hi) (p : V2) : lo ≤ linearField l V p ∧ linearField l V p ≤ hi :=
  conv_hat_range (fun _ => conv_hat_range (fun _ => h _) _) _

theorem conv_hat_int (g : ℤ → ℝ) (n : ℤ) : conv 1 hat g n = g n := by
  rw [conv_hat, Int.fract_intCast, Int.floor_intCast]; ring

/-! ### Weights -/

/-- The weight of a cell. -/
def cellWeight (t : Tsdf.Map) (i : Int × Int) : ℚ := Tsdf.valueToWeight t.maxWeight (val (Tsdf.wview t) i)

theorem weight_eq {t : Tsdf.Map} (w : Tsdf.WfT t) (i : Int × Int) : weight t i = some (cellWeight t i) := by
  rw [weight, Tsdf.get_eq w]; rfl

/-- The interpolated weight is bilinear interpolation of the weights of the cells. -/
theorem tsdfWeight_eq {t : Tsdf.Map} (w : Tsdf.WfT t) (p : V2) : tsdfWeight t p = some (linearField t.grid.limits (fun i => cellWeight t i) p) := by
  unfold tsdfWeight
  simp only [weight_eq w, index_lowerPixel w.grid.res, Option.bind_eq_bind, Option.bind_some]
  rw [← bilinear_eq w.grid.res]

theorem cellWeight_range {t : Tsdf.Map} (w : Tsdf.WfT t) (i : Int × Int) : 0 ≤ (cellWeight t i : ℝ) ∧ (cellWeight t i : ℝ) ≤ t.maxWeight := by
  have h := Tsdf.weight_band w.wt (val (Tsdf.wview t) i)
  exact ⟨by exact_mod_cast h.1, by exact_mod_cast h.2⟩

/-- The interpolated weight is a continuous function of the point between zero and the largest weight. -/
theorem tsdfWeight_continuous {t : Tsdf.Map} (w : Tsdf.WfT t) : ∃ f : ℝ × ℝ → ℝ, Continuous f ∧ (∀ p : V2, tsdfWeight t p = some (f (p.x, p.y))) ∧
    ∀ p, 0 ≤ f p ∧ f p ≤ t.maxWeight := by
  refine ⟨fun p => linearField t.grid.limits (fun i => cellWeight t i) ⟨p.1, p.2⟩, ?_, fun p => tsdfWeight_eq w p, fun p => linearField_range (cellWeight_range w) _⟩
  rw [← contDiff_zero (𝕜 := ℝ)]
  unfold linearField cellsX cellsY
  have hh : ContDiff ℝ 0 hat := contDiff_zero.2 hat_continuous
  refine conv_contDiff hat_far hh (fun i => ?_) (by fun_prop)
  exact conv_contDiff hat_far hh (fun j => contDiff_const) (by fun_prop)

/-! ### Distances -/

/-- A field with the truncation distance as largest cost. -/
def IsTsdf (t : Tsdf.Map) : Prop := Tsdf.WfT t ∧ t.grid.minCost = -t.maxTsd ∧ t.grid.maxCost = t.maxTsd

/-- The correspondence cost of a cell: the signed distance if the cell is known, the truncation distance otherwise. -/
def cellDistance (t : Tsdf.Map) (i : Int × Int) : ℚ := conversionTable (val t.grid i) t.maxTsd (-t.maxTsd) t.maxTsd

theorem cost_eq {t : Tsdf.Map} (w : IsTsdf t) (i : Int × Int) : t.grid.getCorrespondenceCost i = some (cellDistance t i) := by
  rw [getCost_eq w.1.grid, w.2.1, w.2.2]; rfl

theorem cellDistance_range {t : Tsdf.Map} (w : IsTsdf t) (i : Int × Int) : |(cellDistance t i : ℝ)| ≤ t.maxTsd := by
  have hT := w.1.tsd
  have h : -t.maxTsd ≤ cellDistance t i ∧ cellDistance t i ≤ t.maxTsd := by
    rw [cellDistance, tables_agree]
    generalize val t.grid i = v
    have e : valueToBoundedFloat v t.maxTsd (-t.maxTsd) t.maxTsd = valueToBoundedFloat (v % 32768) t.maxTsd (-t.maxTsd) t.maxTsd := by
      simp [valueToBoundedFloat, valueCount]
    rw [e]
    rcases Nat.eq_zero_or_pos (v % 32768) with h0 | h0
    · rw [h0]
      simp only [valueToBoundedFloat, slowValueToBoundedFloat]
      rw [if_pos (by simp)]
      constructor <;> linarith
    · exact decode_range (by linarith) _ h0 (by omega)
  rw [abs_le]
  exact ⟨by exact_mod_cast h.1, by exact_mod_cast h.2⟩

/-- The four cells around a point are known. -/
def Known (t : Tsdf.Map) (p : V2) : Prop :=
  ∀ i ∈ [⌈cellsX t.grid.limits p⌉, ⌈cellsX t.grid.limits p⌉ - 1], ∀ j ∈ [⌈cellsY t.grid.limits p⌉, ⌈cellsY t.grid.limits p⌉ - 1], cellWeight t (j, i) ≠ 0

/-- The interpolated weight. -/
noncomputable def pointWeight (t : Tsdf.Map) (p : V2) : ℝ := linearField t.grid.limits (fun i => cellWeight t i) p

open Classical in
/-- The interpolated distance: bilinear interpolation among known cells, the truncation distance elsewhere. -/
noncomputable def pointDistance (t : Tsdf.Map) (p : V2) : ℝ := if Known t p then linearField t.grid.limits (fun i => cellDistance t i) p else t.maxTsd

theorem tsdfCost_eq {t : Tsdf.Map} (w : IsTsdf t) (p : V2) : tsdfCost t p = some (pointDistance t p) := by
  unfold tsdfCost pointDistance
  simp only [weight_eq w.1, cost_eq w, index_lowerPixel w.1.grid.res, Option.bind_eq_bind, Option.bind_some]
  have hk : Known t p ↔ ¬(cellWeight t (⌈cellsY t.grid.limits p⌉, ⌈cellsX t.grid.limits p⌉) = 0 ∨ cellWeight t (⌈cellsY t.grid.limits p⌉ + -1, ⌈cellsX t.grid.limits p⌉) = 0 ∨
      cellWeight t (⌈cellsY t.grid.limits p⌉, ⌈cellsX t.grid.limits p⌉ + -1) = 0 ∨ cellWeight t (⌈cellsY t.grid.limits p⌉ + -1, ⌈cellsX t.grid.limits p⌉ + -1) = 0) := by
    simp only [Known, List.mem_cons, List.not_mem_nil, or_false, forall_eq_or_imp, forall_eq, not_or, Int.sub_eq_add_neg, ne_eq]
    tauto
  by_cases h : Known t p
  · rw [if_pos h, if_neg (hk.1 h), ← bilinear_eq w.1.grid.res]
  · rw [if_neg h, if_pos (not_not.1 fun h' => h (hk.2 h')), w.2.2]

/-- The interpolated distance is at most the truncation distance on either side. -/
theorem pointDistance_range {t : Tsdf.Map} (w : IsTsdf t) (p : V2) : |pointDistance t p| ≤ t.maxTsd := by
  have hT : (0 : ℝ) < t.maxTsd := by exact_mod_cast w.1.tsd
  unfold pointDistance
  split
  · rw [abs_le]
    exact linearField_range (fun i => abs_le.1 (cellDistance_range w i)) p
  · rw [abs_of_pos hT]

theorem pointWeight_range {t : Tsdf.Map} (w : IsTsdf t) (p : V2) : 0 ≤ pointWeight t p ∧ pointWeight t p ≤ t.maxWeight :=
  linearField_range (cellWeight_range w.1) p

/-- At the centre of a cell the interpolated weight is that of the cell; the interpolated distance is that of the cell if it and its three
neighbours of smaller index are known. -/
theorem point_centre {t : Tsdf.Map} (w : IsTsdf t) (i : Int × Int) :
    let l := t.grid.limits
    let p : V2 := ⟨l.maxX - l.resolution * (i.2 + 1 / 2), l.maxY - l.resolution * (i.1 + 1 / 2)⟩
    pointWeight t p = cellWeight t i ∧
      ((∀ a ∈ [i.2, i.2 - 1], ∀ b ∈ [i.1, i.1 - 1], cellWeight t (b, a) ≠ 0) → pointDistance t p = cellDistance t i) := by
  intro l p
  have hr' : (l.resolution : ℝ) ≠ 0 := by exact_mod_cast w.1.grid.res.ne'
  have e : ∀ (m : ℝ) (n : ℤ), (m - (m - l.resolution * (n + 1 / 2))) / l.resolution - 1 / 2 = (n : ℝ) := by
    intro m n
    rw [sub_sub_cancel, mul_div_cancel_left₀ _ hr']; ring
  have ex : cellsX l p = (i.2 : ℝ) := e _ _
  have ey : cellsY l p = (i.1 : ℝ) := e _ _
  refine ⟨?_, fun h => ?_⟩
  · show linearField l _ p = _
    unfold linearField
    rw [ex, ey]
    simp only [conv_hat_int]
  · have hk : Known t p := by
      show ∀ a ∈ [⌈cellsX l p⌉, ⌈cellsX l p⌉ - 1], ∀ b ∈ [⌈cellsY l p⌉, ⌈cellsY l p⌉ - 1], _
      rw [ex, ey, Int.ceil_intCast, Int.ceil_intCast]
      exact h
    rw [pointDistance, if_pos hk]
    show linearField l _ p = _
    unfold linearField
    rw [ex, ey]
    simp only [conv_hat_int]

/-! ### The residuals -/

/-- The sum of the interpolated weights of the points. -/
noncomputable def weightSum (t : Tsdf.Map) (pose : Rigid2) (points : List V2) : ℝ := (points.map fun p => pointWeight t (pose.apply p)).sum

theorem tsdfLoop_eq {t : Tsdf.Map} (w : IsTsdf t) (scale : ℝ) (n : Nat) (pose : Rigid2) (points : List V2) : tsdfLoop scale n t pose points =
    some (points.map fun p => n * scale * pointDistance t (pose.apply p) * pointWeight t (pose.apply p), weightSum t pose points) := by
  induction points with
  | nil => rfl
  | cons p ps ih => simp only [tsdfLoop, tsdfWeight_eq w.1, tsdfCost_eq w, ih, Option.bind_eq_bind, Option.bind_some]; rfl

theorem weightSum_nonneg {t : Tsdf.Map} (w : IsTsdf t) (pose : Rigid2) (points : List V2) : 0 ≤ weightSum t pose points :=
  List.sum_nonneg fun x hx => by obtain ⟨q, -, rfl⟩ := List.mem_map.1 hx; exact (pointWeight_range w _).1

theorem weightSum_zero {t : Tsdf.Map} (w : IsTsdf t) (pose : Rigid2) (points : List V2) :
    weightSum t pose points = 0 ↔ ∀ p ∈ points, pointWeight t (pose.apply p) = 0 := by
  constructor
  · intro h p hp
    have h1 := List.single_le_sum (l := points.map fun p => pointWeight t (pose.apply p))
      (by intro x hx; obtain ⟨q, -, rfl⟩ := List.mem_map.1 hx; exact (pointWeight_range w _).1) _ (List.mem_map_of_mem hp)
    exact le_antisymm (h1.trans h.le) (pointWeight_range w _).1
  · intro h
    refine List.sum_eq_zero fun x hx => ?_
    obtain ⟨p, hp, rfl⟩ := List.mem_map.1 hx
    exact h p hp

/-- The residuals: the distance of each point, times its share of the weight, times the number of points and the scale.  There are none just
if all weights are zero. -/
theorem tsdfMatch_eq {t : Tsdf.Map} (w : IsTsdf t) (scale : ℝ) (points : List V2) (pose : Rigid2) :
    ((∀ p ∈ points, pointWeight t (pose.apply p) = 0) → tsdfMatch scale points t pose = some none) ∧
    ((∃ p ∈ points, pointWeight t (pose.apply p) ≠ 0) → tsdfMatch scale points t pose = some (some (points.map fun p =>
      scale * pointDistance t (pose.apply p) * (points.length * (pointWeight t (pose.apply p) / weightSum t pose points))))) := by
  unfold tsdfMatch
  rw [tsdfLoop_eq w]
  simp only [Option.bind_eq_bind, Option.bind_some]
  constructor
  · intro h
    rw [if_pos ((weightSum_zero w pose points).2 h)]
  · rintro ⟨p, hp, hne⟩
    rw [if_neg fun h => hne ((weightSum_zero w pose points).1 h p hp), List.map_map]
    congr 2
    refine List.map_congr_left fun q _ => ?_
    simp only [Function.comp]
    ring

theorem sum_sq_le {a : List ℝ} (h : ∀ x ∈ a, 0 ≤ x) : squares a ≤ a.sum ^ 2 := by
  induction a with
  | nil => simp [squares]
  | cons x a ih =>
    have h1 := ih fun y hy => h y (List.mem_cons_of_mem _ hy)
    have h2 := h x List.mem_cons_self
    have h3 : 0 ≤ a.sum := List.sum_nonneg fun y hy => h y (List.mem_cons_of_mem _ hy)
    simp only [squares, List.map_cons, List.sum_cons] at *
    nlinarith

/-- The sum of the squares of the residuals is at most the square of scale, number of points and truncation distance. -/
theorem tsdfMatch_bound {t : Tsdf.Map} (w : IsTsdf t) {scale : ℝ} {points : List V2} {pose : Rigid2} {r : List ℝ}
    (h : tsdfMatch scale points t pose = some (some r)) : 0 ≤ squares r ∧ squares r ≤ (points.length * scale * t.maxTsd) ^ 2 := by
  have hT : (0 : ℝ) < t.maxTsd := by exact_mod_cast w.1.tsd
  have hne : ∃ p ∈ points, pointWeight t (pose.apply p) ≠ 0 := by
    by_contra hn
    push Not at hn
    rw [(tsdfMatch_eq w scale points pose).1 hn] at h
    cases h
  rw [(tsdfMatch_eq w scale points pose).2 hne, Option.some.injEq, Option.some.injEq] at h
  have hs : 0 < weightSum t pose points := lt_of_le_of_ne (weightSum_nonneg w pose points) fun e => by
    obtain ⟨p, hp, hne⟩ := hne
    exact hne ((weightSum_zero w pose points).1 e.symm p hp)
  subst h
  refine ⟨List.sum_nonneg fun x hx => by obtain ⟨q, -, rfl⟩ := List.mem_map.1 hx; positivity, ?_⟩
  have key : ∀ qs : List V2, squares (qs.map fun p => scale * pointDistance t (pose.apply p) * (points.length * (pointWeight t (pose.apply p) / weightSum t pose points))) ≤
      (points.length * scale * t.maxTsd / weightSum t pose points) ^ 2 * squares (qs.map fun p => pointWeight t (pose.apply p)) := by
    intro qs
    induction qs with
    | nil => simp [squares]
    | cons q qs ih =>
      simp only [squares, List.map_cons, List.sum_cons, mul_add] at *
      refine add_le_add ?_ ih
      have hd := pointDistance_range w (pose.apply q)
      have : pointDistance t (pose.apply q) ^ 2 ≤ (t.maxTsd : ℝ) ^ 2 := by rw [← sq_abs]; exact pow_le_pow_left₀ (abs_nonneg _) hd 2
      calc _ = pointDistance t (pose.apply q) ^ 2 * ((points.length * scale / weightSum t pose points) ^ 2 * pointWeight t (pose.apply q) ^ 2) := by ring
        _ ≤ (t.maxTsd : ℝ) ^ 2 * ((points.length * scale / weightSum t pose points) ^ 2 * pointWeight t (pose.apply q) ^ 2) :=
          mul_le_mul_of_nonneg_right this (by positivity)
        _ = _ := by ring
  refine (key points).trans ?_
  have h2 : squares (points.map fun p => pointWeight t (pose.apply p)) ≤ weightSum t pose points ^ 2 :=
    sum_sq_le fun x hx => by obtain ⟨q, -, rfl⟩ := List.mem_map.1 hx; exact (pointWeight_range w _).1
  refine (mul_le_mul_of_nonneg_left h2 (sq_nonneg _)).trans (le_of_eq ?_)
  field_simp

/-- The factor is attained: if just one point has weight then its residual is multiplied by the number of all points. -/
theorem tsdfMatch_concentrated {t : Tsdf.Map} (w : IsTsdf t) (scale : ℝ) {p : V2} {others : List V2} {pose : Rigid2}
    (hp : pointWeight t (pose.apply p) ≠ 0) (ho : ∀ q ∈ others, pointWeight t (pose.apply q) = 0) :
    ∃ r, tsdfMatch scale (p :: others) t pose = some (some r) ∧ squares r = ((others.length + 1) * scale * pointDistance t (pose.apply p)) ^ 2 := by
  refine ⟨_, (tsdfMatch_eq w scale (p :: others) pose).2 ⟨p, List.mem_cons_self, hp⟩, ?_⟩
  have e : weightSum t pose (p :: others) = pointWeight t (pose.apply p) := by
    have := (weightSum_zero w pose others).2 ho
    simp only [weightSum, List.map_cons, List.sum_cons] at *
    rw [this, add_zero]
  rw [e]
  simp only [squares, List.map_map, List.map_cons, List.sum_cons]
  have z : (others.map ((fun e : ℝ => e ^ 2) ∘ fun q => scale * pointDistance t (pose.apply q) *
      ((p :: others).length * (pointWeight t (pose.apply q) / pointWeight t (pose.apply p))))).sum = 0 := by
    refine List.sum_eq_zero fun x hx => ?_
    obtain ⟨q, hq, rfl⟩ := List.mem_map.1 hx
    simp only [Function.comp, ho q hq]
    simp
  rw [z, div_self hp, List.length_cons]
  push_cast
  ring

/-! ### The problem -/

theorem problem2Tsdf_iff (o : Options2) (target : V2) (initial : Rigid2) (points : List V2) (t : Tsdf.Map) :
    (problem2Tsdf o target initial points t).isSome ↔ 0 < o.occupiedWeight ∧ 0 < o.translationWeight ∧ 0 < o.rotationWeight := by
  unfold problem2Tsdf
  by_cases h1 : 0 < o.occupiedWeight <;> by_cases h2 : 0 < o.translationWeight <;> by_cases h3 : 0 < o.rotationWeight <;> simp [h1, h2, h3]

/-- The cost of a pose, where there is one: the part of the map is bounded by weight, truncation distance and number of points. -/
theorem problem2Tsdf_cost {o : Options2} {target : V2} {initial : Rigid2} {points : List V2} {t : Tsdf.Map} (w : IsTsdf t) {blocks : List (Block Rigid2)}
    (h : problem2Tsdf o target initial points t = some blocks) (pose : Rigid2) :
    ((∀ p ∈ points, pointWeight t (pose.apply p) = 0) → cost blocks pose = none) ∧
    ((∃ p ∈ points, pointWeight t (pose.apply p) ≠ 0) →
    ∃ c v, cost blocks pose = some c ∧ 2 * c = v + o.translationWeight ^ 2 * ((pose.translation.x - target.x) ^ 2 + (pose.translation.y - target.y) ^ 2) +
      o.rotationWeight ^ 2 * (pose.angle - initial.angle) ^ 2 ∧ 0 ≤ v ∧ v ≤ points.length * (o.occupiedWeight * t.maxTsd) ^ 2) := by
  have h' := (problem2Tsdf_iff o target initial points t).1 (by rw [h]; rfl)
  unfold problem2Tsdf at h
  rw [if_neg (not_not.2 h'.1), if_neg (not_not.2 h'.2.1), if_neg (not_not.2 h'.2.2), Option.some.injEq] at h
  subst h
  constructor
  · intro hz
    unfold cost
    rw [List.mapM_cons]
    simp only [Block.cost, (tsdfMatch_eq w _ points pose).1 hz]
    rfl
  · intro hne
    have hn : (0 : ℝ) < points.length := by
      obtain ⟨p, hp, -⟩ := hne
      exact_mod_cast List.length_pos_of_mem hp
    have e := (tsdfMatch_eq w (o.occupiedWeight / √(points.length : ℝ)) points pose).2 hne
    have b := tsdfMatch_bound w e
    refine ⟨_, _, cost_cons _ _ _ (by simp only [Block.cost, e, Option.join_some, Option.map_some, loss]; rfl)
      (cost_cons _ _ _ rfl (cost_cons _ _ _ rfl (y := 0) (by simp [cost]))), ?_, b.1, b.2.trans (le_of_eq ?_)⟩
    · simp only [loss, squares, translationDelta2, rotationDelta2, List.map_cons, List.map_nil, List.sum_cons, List.sum_nil]
      ring
    · rw [mul_pow, mul_pow, div_pow, Real.sq_sqrt hn.le]
      field_simp

/-- A pose that costs no more than the initial one is near the target, by a bound that grows with the number of points. -/
theorem matchTsdf_near {o : Options2} {target : V2} {initial final : Rigid2} {points : List V2} {t : Tsdf.Map} (w : IsTsdf t) {blocks : List (Block Rigid2)}
    (h : problem2Tsdf o target initial points t = some blocks) {c0 c1 : ℝ} (h0 : cost blocks initial = some c0) (h1 : cost blocks final = some c1) (hle : c1 ≤ c0) :
    o.translationWeight ^ 2 * ((final.translation.x - target.x) ^ 2 + (final.translation.y - target.y) ^ 2) +
      o.rotationWeight ^ 2 * (final.angle - initial.angle) ^ 2 ≤
    o.translationWeight ^ 2 * ((initial.translation.x - target.x) ^ 2 + (initial.translation.y - target.y) ^ 2) + points.length * (o.occupiedWeight * t.maxTsd) ^ 2 := by
  have key : ∀ {pose : Rigid2} {c : ℝ}, cost blocks pose = some c → ∃ p ∈ points, pointWeight t (pose.apply p) ≠ 0 := by
    intro pose c hc
    by_contra hn
    push Not at hn
    rw [(problem2Tsdf_cost w h pose).1 hn] at hc
    cases hc
  obtain ⟨d0, v0, e0, f0, g0, g0'⟩ := (problem2Tsdf_cost w h initial).2 (key h0)
  obtain ⟨d1, v1, e1, f1, g1, g1'⟩ := (problem2Tsdf_cost w h final).2 (key h1)
  rw [e0, Option.some.injEq] at h0
  rw [e1, Option.some.injEq] at h1
  rw [sub_self] at f0
  linarith

/-! ### The border of the known area -/

theorem setCell_cost {t t' : Tsdf.Map} {i : Int × Int} {d x : ℚ} (h : t.setCell i d x = some t') : t'.grid.minCost = t.grid.minCost ∧ t'.grid.maxCost = t.grid.maxCost := by
  simp only [Tsdf.Map.setCell, Option.bind_eq_bind, Option.bind_eq_some_iff] at h
  obtain ⟨k, -, c, -, h⟩ := h
  split at h
  · simp only [Option.some.injEq] at h
    subst h; exact ⟨rfl, rfl⟩
  · simp only [Option.bind_eq_some_iff, Option.some.injEq] at h
    obtain ⟨ws, -, rfl⟩ := h
    exact ⟨rfl, rfl⟩

/-- A new map in which some cells have been set to distance zero and full weight. -/
theorem exists_surface (l : MapLimits) (hr : 0 < l.resolution) (hx : 0 < l.numX) (hy : 0 < l.numY) (cells : List (Int × Int)) (hn : cells.Nodup)
    (hc : ∀ i ∈ cells, l.contains i = true) : ∃ t, IsTsdf t ∧ t.grid.limits = l ∧ t.maxTsd = 1 ∧
      ∀ i, cellWeight t i = (if i ∈ cells then 10 else 0) ∧ cellDistance t i = if i ∈ cells then 0 else 1 := by
  have key : ∃ t, IsTsdf t ∧ t.grid.limits = l ∧ t.maxTsd = 1 ∧ t.maxWeight = 10 ∧
      ∀ i, val (Tsdf.wview t) i = (if i ∈ cells then 32767 else 0) ∧ val t.grid i = if i ∈ cells then 16384 + updateMarker else 0 := by
    induction cells with
    | nil =>
      have hc : Grid2D.create l (-1) 1 = some ⟨l, List.replicate (l.numX * l.numY) 0, -1, 1, [], none⟩ := by
        rw [Grid2D.create, if_pos (by norm_num)]
      obtain ⟨w, -, -, -, h4⟩ := create_wf hr hx hy hc
      refine ⟨⟨⟨l, List.replicate (l.numX * l.numY) 0, -1, 1, [], none⟩, List.replicate (l.numX * l.numY) 0, 1, 10⟩, ⟨⟨w, by norm_num, by norm_num, rfl,
        by intro c hc; rw [List.eq_of_mem_replicate hc]; omega, fun i hi => hi⟩, rfl, rfl⟩, rfl, rfl, rfl, fun i => ⟨?_, ?_⟩⟩
      · simpa [Tsdf.wview] using h4 i
      · simpa using h4 i
    | cons i cells ih =>
      rw [List.nodup_cons] at hn
      obtain ⟨t, ⟨w, m1, m2⟩, hl, hT, hW, hv⟩ := ih hn.2 fun i hi => hc i (List.mem_cons_of_mem _ hi)
      obtain ⟨t', e, w', l', T', W', v', x'⟩ := Tsdf.setCell_spec w (i := i) (by rw [hl]; exact hc i List.mem_cons_self)
        (by rw [(hv i).2, if_neg hn.1]; decide) 0 10
      obtain ⟨n1, n2⟩ := setCell_cost e
      refine ⟨t', ⟨w', by rw [n1, m1, T'], by rw [n2, m2, T']⟩, l'.trans hl, T'.trans hT, W'.trans hW, fun j => ?_⟩
      have a1 : Tsdf.weightToValue 10 10 = 32767 := by decide +kernel
      have a2 : Tsdf.tsdToValue 1 0 = 16384 := by decide +kernel
      rw [v', x', hT, hW, a1, a2, (hv j).1, (hv j).2]
      by_cases hj : j = i
      · simp [hj]
      · simp [hj]
  obtain ⟨t, w, hl, hT, hW, hv⟩ := key
  refine ⟨t, w, hl, hT, fun i => ?_⟩
  unfold cellWeight cellDistance
  rw [(hv i).1, (hv i).2, hT, hW]
  constructor
  · split <;> decide +kernel
  · split <;> decide +kernel

/-- The cost function is discontinuous at the border of the known area: the residual of a point at a known cell on the surface is zero, and
anything further out it is the truncation distance times the scale. -/
theorem tsdfMatch_jump : ∃ t, IsTsdf t ∧ t.maxTsd = 1 ∧ ∀ scale : ℝ, tsdfMatch scale [⟨0, 0⟩] t ⟨⟨3 / 2, 1⟩, 0⟩ = some (some [0]) ∧
    ∀ x : ℝ, 1 / 2 < x → x < 3 / 2 → tsdfMatch scale [⟨0, 0⟩] t ⟨⟨x, 1⟩, 0⟩ = some (some [scale]) := by
  obtain ⟨t, w, hl, hT, hc⟩ := exists_surface ⟨1, 3, 2, 2, 3⟩ (by norm_num) (by norm_num) (by norm_num) [(0, 0), (1, 0), (0, 1), (1, 1)] (by decide) (by decide)
  refine ⟨t, w, hT, fun scale => ?_⟩
  have ap : ∀ x : ℝ, Rigid2.apply ⟨⟨x, 1⟩, 0⟩ ⟨0, 0⟩ = ⟨x, 1⟩ := by intro x; simp [Rigid2.apply, rotate2]
  have ex : ∀ x : ℝ, cellsX t.grid.limits ⟨x, 1⟩ = 5 / 2 - x := by intro x; unfold cellsX; rw [hl]; push_cast; ring
  have ey : ∀ x : ℝ, cellsY t.grid.limits ⟨x, 1⟩ = 1 / 2 := by intro x; unfold cellsY; rw [hl]; push_cast; ring
  have cy : ⌈(1 / 2 : ℝ)⌉ = 1 := by rw [Int.ceil_eq_iff]; norm_num
  have fy : ⌊(1 / 2 : ℝ)⌋ = 0 := by rw [Int.floor_eq_iff]; norm_num
  have ry : Int.fract (1 / 2 : ℝ) = 1 / 2 := by rw [Int.fract, fy]; norm_num
  have one : ∀ x : ℝ, pointWeight t ⟨x, 1⟩ ≠ 0 → tsdfMatch scale [⟨0, 0⟩] t ⟨⟨x, 1⟩, 0⟩ = some (some [scale * pointDistance t ⟨x, 1⟩]) := by
    intro x hx
    rw [(tsdfMatch_eq w scale _ _).2 ⟨_, List.mem_cons_self, by rw [ap]; exact hx⟩]
    simp only [weightSum, ap, List.map_cons, List.map_nil, List.sum_cons, List.sum_nil, add_zero, div_self hx]
    simp
  constructor
  · have hx : cellsX t.grid.limits ⟨3 / 2, 1⟩ = ((1 : ℤ) : ℝ) := by rw [ex]; norm_num
    have hw : pointWeight t ⟨3 / 2, 1⟩ = 10 := by
      unfold pointWeight linearField
      rw [hx, ey, conv_hat_int, conv_hat, fy, ry]
      simp only [hc]
      norm_num
    have hd : pointDistance t ⟨3 / 2, 1⟩ = 0 := by
      have hk : Known t ⟨3 / 2, 1⟩ := by
        unfold Known
        rw [hx, ey, Int.ceil_intCast, cy]
        simp [(hc _).1]
      rw [pointDistance, if_pos hk]
      unfold linearField
      rw [hx, ey, conv_hat_int, conv_hat, fy, ry]
      simp only [hc]
      norm_num
    rw [one _ (by rw [hw]; norm_num), hd, mul_zero]
  · intro x h1 h2
    have fx : ⌊5 / 2 - x⌋ = 1 := by rw [Int.floor_eq_iff]; push_cast; constructor <;> linarith
    have cx : ⌈5 / 2 - x⌉ = 2 := by rw [Int.ceil_eq_iff]; push_cast; constructor <;> linarith
    have rx : Int.fract (5 / 2 - x) = 3 / 2 - x := by rw [Int.fract, fx]; push_cast; ring
    have hw : pointWeight t ⟨x, 1⟩ ≠ 0 := by
      unfold pointWeight linearField
      rw [ex, ey, conv_hat, fx, rx, conv_hat, conv_hat, fy, ry]
      simp only [hc]
      norm_num
      linarith
    have hd : pointDistance t ⟨x, 1⟩ = 1 := by
      have hk : ¬Known t ⟨x, 1⟩ := by
        unfold Known
        rw [ex, ey, cx, cy]
        simp [(hc _).1]
      rw [pointDistance, if_neg hk, hT]
      norm_num
    rw [one _ hw, hd, mul_one]

end Verif.MatchCost
