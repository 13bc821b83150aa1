import Verif.Props.ScanMatchCost3D
import Verif.Props.Tsdf2D
import Mathlib.Analysis.SpecialFunctions.Trigonometric.Deriv

/-!
# The cost function of the scan matcher in the plane (C78)

The residuals for a probability grid are continuously differentiable functions of the pose: cubic convolution of the correspondence costs
of the cells.  They agree with the cells at their centres and are constant where nothing is known, but they overshoot: a residual can be
negative, and larger than that of a point in free space.
-/

namespace Verif.MatchCost

open Verif.Rigid Verif.RealTime Verif.Grid2D Verif.Hybrid Verif.Spline Verif.Prob

/-! ### Cubic convolution -/

theorem hermite_eq (g : ℤ → ℝ) (u : ℝ) : hermite (g (⌊u⌋ - 1)) (g ⌊u⌋) (g (⌊u⌋ + 1)) (g (⌊u⌋ + 2)) (u - ⌊u⌋) = conv 2 keys g u := by
  rw [conv_keys]
  have : u - ⌊u⌋ = Int.fract u := rfl
  rw [this]
  unfold hermite
  ring

theorem conv_shift (m : ℕ) (K : ℝ → ℝ) (g : ℤ → ℝ) (u : ℝ) (n : ℤ) : conv m K g (u + n) = conv m K (fun i => g (i + n)) u := by
  unfold conv
  rw [Int.floor_add_intCast]
  refine (Finset.sum_nbij (fun i => i + n) ?_ ?_ ?_ ?_).symm
  · intro i hi
    simp only [Finset.mem_Icc] at *
    omega
  · intro i _ j _ h
    simpa using h
  · intro i hi
    refine ⟨i - n, ?_, by simp⟩
    simp only [Finset.coe_Icc, Set.mem_Icc] at *
    omega
  · intro i _
    push_cast
    congr 2
    ring

theorem bicubic_eq {value : Int → Int → Option ℚ} {V : Int → Int → ℚ} (hV : ∀ i j, value i j = some (V i j)) {r c : ℝ}
    (hr : -2147483648 ≤ ⌊r⌋ ∧ ⌊r⌋ ≤ 2147483647) (hc : -2147483648 ≤ ⌊c⌋ ∧ ⌊c⌋ ≤ 2147483647) :
    bicubic value r c = some (conv 2 keys (fun i => conv 2 keys (fun j => (V i j : ℝ)) c) r) := by
  have hrow : ∀ i, bicubicRow value i ⌊c⌋ (c - ⌊c⌋) = some (conv 2 keys (fun j => (V i j : ℝ)) c) := by
    intro i
    unfold bicubicRow
    simp only [hV, Option.bind_eq_bind, Option.bind_some]
    rw [← hermite_eq (fun j => (V i j : ℝ))]
  unfold bicubic toInt
  rw [if_pos hr, if_pos hc]
  simp only [Option.bind_eq_bind, Option.bind_some, hrow]
  rw [← hermite_eq (fun i => conv 2 keys (fun j => (V i j : ℝ)) c) r]

/-! ### The map of costs -/

/-- The correspondence cost of a cell. -/
def cellCost (g : Grid) (i : Int × Int) : ℚ := valueToCost (val g i)

theorem cellCost_range (g : Grid) (i : Int × Int) : 1 / 10 ≤ (cellCost g i : ℝ) ∧ (cellCost g i : ℝ) ≤ 9 / 10 := by
  have h := cellProb_any (val g i)
  unfold Texture.cellProb costToProbability at h
  have h1 : (1 / 10 : ℚ) ≤ cellCost g i := by unfold cellCost; linarith [h.2]
  have h2 : cellCost g i ≤ (9 / 10 : ℚ) := by unfold cellCost; linarith [h.1]
  constructor
  · have : ((1 / 10 : ℚ) : ℝ) ≤ (cellCost g i : ℝ) := by exact_mod_cast h1
    push_cast at this; exact this
  · have : (cellCost g i : ℝ) ≤ ((9 / 10 : ℚ) : ℝ) := by exact_mod_cast h2
    push_cast at this; exact this

/-- A probability grid. -/
def IsProbability (g : Grid) : Prop := Wf g ∧ g.minCost = minCost ∧ g.maxCost = maxCost

theorem cellCost_out {g : Grid} {i : Int × Int} (h : ¬ g.limits.contains i = true) : cellCost g i = maxCost := by
  rw [cellCost, val_out h]; decide +kernel

theorem adapter_eq {g : Grid} (w : IsProbability g) (row column : Int) : adapterValue g row column = some (cellCost g (column - padding, row - padding)) := by
  unfold adapterValue
  simp only
  split
  · rename_i h
    rw [cellCost_out]
    intro hc
    simp only [MapLimits.contains, decide_eq_true_eq, Bool.and_eq_true] at hc
    omega
  · rw [getCost_eq w.1, w.2.1, w.2.2, cellCost, valueToCost, tables_agree]

/-- The interpolated cost at a point: cubic convolution of the costs of the cells, in units of cells from the centre of the first cell. -/
noncomputable def costField (g : Grid) (p : ℝ × ℝ) : ℝ :=
  conv 2 keys (fun i => conv 2 keys (fun j => (cellCost g (j, i) : ℝ)) ((g.limits.maxY - p.2) / g.limits.resolution - 1 / 2))
    ((g.limits.maxX - p.1) / g.limits.resolution - 1 / 2)

/-- Points whose cells have indices that fit the padding of the adapter. -/
def InReach (g : Grid) (p : V2) : Prop := |(g.limits.maxX - p.x) / g.limits.resolution| ≤ 536870000 ∧ |(g.limits.maxY - p.y) / g.limits.resolution| ≤ 536870000

theorem floor_reach {u : ℝ} (h : |u| ≤ 536870000) : -2147483648 ≤ ⌊u - 1 / 2 + padding⌋ ∧ ⌊u - 1 / 2 + padding⌋ ≤ 2147483647 := by
  rw [abs_le] at h
  have hp : (padding : ℝ) = 536870911 := by have : padding = 536870911 := by decide
                                            rw [this]; norm_num
  rw [hp]
  constructor
  · rw [Int.le_floor]; push_cast; linarith
  · have : ⌊u - 1 / 2 + 536870911⌋ < 2147483648 := by rw [Int.floor_lt]; push_cast; linarith
    omega

/-- The residuals of the points. -/
theorem occupied2_eq {g : Grid} (w : IsProbability g) (scale : ℝ) {points : List V2} {pose : Rigid2} (h : ∀ p ∈ points, InReach g (pose.apply p)) :
    occupied2 scale points g pose = some (points.map fun p => scale * costField g ((pose.apply p).x, (pose.apply p).y)) := by
  unfold occupied2
  refine mapM_all _ fun p hp => ?_
  simp only
  rw [bicubic_eq (adapter_eq w) (floor_reach (h p hp).1) (floor_reach (h p hp).2), conv_shift]
  simp only [conv_shift, add_sub_cancel_right, Option.map_some]
  rfl

/-! ### Values -/

theorem conv_keys_int (g : ℤ → ℝ) (n : ℤ) : conv 2 keys g n = g n := by
  rw [conv_keys, Int.fract_intCast, Int.floor_intCast]; ring

/-- At the centre of a cell the interpolated cost is that of the cell. -/
theorem costField_centre (g : Grid) (hr : 0 < g.limits.resolution) (i : Int × Int) :
    costField g (g.limits.maxX - g.limits.resolution * (i.2 + 1 / 2), g.limits.maxY - g.limits.resolution * (i.1 + 1 / 2)) = cellCost g i := by
  have hr' : (g.limits.resolution : ℝ) ≠ 0 := by exact_mod_cast hr.ne'
  have e : ∀ (m : ℝ) (n : ℤ), (m - (m - g.limits.resolution * (n + 1 / 2))) / g.limits.resolution - 1 / 2 = (n : ℝ) := by
    intro m n
    rw [sub_sub_cancel, mul_div_cancel_left₀ _ hr']; ring
  unfold costField
  simp only [e, conv_keys_int]

/-- The interpolated cost overshoots: it lies between -1/8 and 9/8, while costs of cells lie between 1/10 and 9/10. -/
theorem costField_range (g : Grid) (p : ℝ × ℝ) : -1 / 8 ≤ costField g p ∧ costField g p ≤ 9 / 8 := by
  have h := conv_keys_range (g := fun i => conv 2 keys (fun j => (cellCost g (j, i) : ℝ)) ((g.limits.maxY - p.2) / g.limits.resolution - 1 / 2))
    (lo := 1 / 10 - (9 / 10 - 1 / 10) / 8) (hi := 9 / 10 + (9 / 10 - 1 / 10) / 8)
    (fun i => conv_keys_range (fun j => cellCost_range g (j, i)) _) ((g.limits.maxX - p.1) / g.limits.resolution - 1 / 2)
  unfold costField
  constructor
  · refine le_trans ?_ h.1; norm_num
  · refine le_trans h.2 ?_; norm_num

theorem conv_keys_const {g : ℤ → ℝ} {c u : ℝ} (h : ∀ i : ℤ, |u - i| ≤ 2 → g i = c) : conv 2 keys g u = c := by
  have h1 := Int.fract_nonneg u
  have h2 := Int.fract_lt_one u
  have e1 : u - ((⌊u⌋ : ℤ) : ℝ) = Int.fract u := rfl
  rw [conv_keys, h (⌊u⌋ - 1) (by push_cast; rw [abs_le]; constructor <;> linarith), h ⌊u⌋ (by rw [abs_le]; constructor <;> linarith),
    h (⌊u⌋ + 1) (by push_cast; rw [abs_le]; constructor <;> linarith), h (⌊u⌋ + 2) (by push_cast; rw [abs_le]; constructor <;> linarith)]
  ring

/-- Two cells away from everything known the cost is the largest cost of a cell. -/
theorem costField_unknown (g : Grid) (p : ℝ × ℝ)
    (h : ∀ i : Int × Int, |(g.limits.maxX - p.1) / g.limits.resolution - 1 / 2 - i.2| ≤ 2 → |(g.limits.maxY - p.2) / g.limits.resolution - 1 / 2 - i.1| ≤ 2 → val g i = 0) :
    costField g p = 9 / 10 := by
  refine conv_keys_const fun i hi => conv_keys_const fun j hj => ?_
  rw [cellCost, h (j, i) hi hj]
  have : valueToCost 0 = 9 / 10 := by decide +kernel
  rw [this]; norm_num

theorem costField_contDiff (g : Grid) : ContDiff ℝ 1 (costField g) := by
  unfold costField
  refine conv_contDiff keys_far keys_contDiff (fun i => ?_) (by fun_prop)
  exact conv_contDiff keys_far keys_contDiff (fun j => contDiff_const) (by fun_prop)

/-- The three parameters of a pose. -/
def poseOf2 (x : ℝ × ℝ × ℝ) : Rigid2 := ⟨⟨x.1, x.2.1⟩, x.2.2⟩

/-- Every point has a residual that is a continuously differentiable function of the pose, from minus an eighth to nine eighths of the
scale. -/
theorem occupied2_smooth {g : Grid} (w : IsProbability g) {scale : ℝ} (hs : 0 ≤ scale) (points : List V2) :
    ∃ R : V2 → ℝ × ℝ × ℝ → ℝ, (∀ p, ContDiff ℝ 1 (R p)) ∧
      (∀ x, (∀ p ∈ points, InReach g ((poseOf2 x).apply p)) → occupied2 scale points g (poseOf2 x) = some (points.map fun p => R p x)) ∧
      ∀ p x, -(scale / 8) ≤ R p x ∧ R p x ≤ 9 / 8 * scale := by
  refine ⟨fun p x => scale * costField g (((poseOf2 x).apply p).x, ((poseOf2 x).apply p).y), fun p => ?_, fun x h => occupied2_eq w scale h, fun p x => ?_⟩
  · refine contDiff_const.mul ((costField_contDiff g).comp ?_)
    simp only [Rigid2.apply, rotate2, poseOf2]
    fun_prop
  · have h := costField_range g (((poseOf2 x).apply p).x, ((poseOf2 x).apply p).y)
    constructor <;> nlinarith [h.1, h.2]

/-! ### Overshoot -/

/-- A grid in which just some cells are known, all as occupied as possible. -/
theorem exists_occupied (l : MapLimits) (hr : 0 < l.resolution) (hx : 0 < l.numX) (hy : 0 < l.numY) (cells : List (Int × Int)) (hn : cells.Nodup)
    (hc : ∀ i ∈ cells, l.contains i = true) : ∃ g, IsProbability g ∧ g.limits = l ∧ ∀ i, cellCost g i = if i ∈ cells then 1 / 10 else 9 / 10 := by
  have key : ∃ g, IsProbability g ∧ g.limits = l ∧ ∀ j, val g j = if j ∈ cells then costToValue (probabilityToCost (9 / 10)) else 0 := by
    induction cells with
    | nil =>
      have e : Grid2D.create l minCost maxCost = some ⟨l, List.replicate (l.numX * l.numY) 0, minCost, maxCost, [], none⟩ := by
        rw [Grid2D.create, if_pos (by decide +kernel)]
      obtain ⟨w, h1, h2, h3, h4⟩ := Grid2D.create_wf hr hx hy e
      exact ⟨_, ⟨w, rfl, rfl⟩, rfl, by simpa using h4⟩
    | cons i cells ih =>
      rw [List.nodup_cons] at hn
      obtain ⟨g, ⟨w, m1, m2⟩, hl, hv⟩ := ih hn.2 fun i hi => hc i (List.mem_cons_of_mem _ hi)
      obtain ⟨g', e, w', l', -, v', n1, n2⟩ := setProbability_spec w (i := i) (by rw [hl]; exact hc i List.mem_cons_self) (by rw [hv, if_neg hn.1]) (9 / 10)
      refine ⟨g', ⟨w', n1.trans m1, n2.trans m2⟩, l'.trans hl, fun j => ?_⟩
      rw [v', hv]
      by_cases hj : j = i
      · simp [hj]
      · simp [hj]
  obtain ⟨g, w, hl, hv⟩ := key
  refine ⟨g, w, hl, fun i => ?_⟩
  unfold cellCost
  rw [hv]
  split
  · decide +kernel
  · decide +kernel

/-- The bounds of the overshoot are attained: between four occupied cells a residual can be negative, in spite of costs of at least a tenth. -/
theorem costField_negative : ∃ g, IsProbability g ∧ ∃ p, costField g p = -1 / 8 := by
  obtain ⟨g, w, hl, hc⟩ := exists_occupied ⟨1, 4, 4, 4, 4⟩ (by norm_num) (by norm_num) (by norm_num)
    [(1, 1), (1, 2), (2, 1), (2, 2), (0, 0), (0, 3), (3, 0), (3, 3)] (by decide) (by decide)
  refine ⟨g, w, (2, 2), ?_⟩
  have f1 : ⌊((4 : ℝ) - 2) / 1 - 1 / 2⌋ = 1 := by rw [Int.floor_eq_iff]; norm_num
  have f2 : Int.fract (((4 : ℝ) - 2) / 1 - 1 / 2) = 1 / 2 := by rw [Int.fract, f1]; norm_num
  have e : ∀ g : ℤ → ℝ, conv 2 keys g (((4 : ℝ) - 2) / 1 - 1 / 2) = (-(g 0) + 9 * g 1 + 9 * g 2 - g 3) / 16 := by
    intro g
    rw [conv_keys, f1, f2]
    norm_num
    ring
  unfold costField
  rw [hl]
  push_cast
  simp only [e, hc]
  norm_num

/-- Likewise a residual can exceed that of unknown and free space by a quarter. -/
theorem costField_large : ∃ g, IsProbability g ∧ ∃ p, costField g p = 9 / 8 := by
  obtain ⟨g, w, hl, hc⟩ := exists_occupied ⟨1, 4, 4, 4, 4⟩ (by norm_num) (by norm_num) (by norm_num)
    [(0, 1), (0, 2), (1, 0), (2, 0), (3, 1), (3, 2), (1, 3), (2, 3)] (by decide) (by decide)
  refine ⟨g, w, (2, 2), ?_⟩
  have f1 : ⌊((4 : ℝ) - 2) / 1 - 1 / 2⌋ = 1 := by rw [Int.floor_eq_iff]; norm_num
  have f2 : Int.fract (((4 : ℝ) - 2) / 1 - 1 / 2) = 1 / 2 := by rw [Int.fract, f1]; norm_num
  have e : ∀ g : ℤ → ℝ, conv 2 keys g (((4 : ℝ) - 2) / 1 - 1 / 2) = (-(g 0) + 9 * g 1 + 9 * g 2 - g 3) / 16 := by
    intro g
    rw [conv_keys, f1, f2]
    norm_num
    ring
  unfold costField
  rw [hl]
  push_cast
  simp only [e, hc]
  norm_num

/-! ### The problem -/

theorem squares_le {hi : ℝ} {r : List ℝ} (h : ∀ e ∈ r, |e| ≤ hi) : 0 ≤ squares r ∧ squares r ≤ r.length * hi ^ 2 := by
  induction r with
  | nil => simp [squares]
  | cons e r ih =>
    obtain ⟨i1, i2⟩ := ih fun e he => h e (List.mem_cons_of_mem _ he)
    have he := h e List.mem_cons_self
    have : e ^ 2 ≤ hi ^ 2 := by rw [← sq_abs]; exact pow_le_pow_left₀ (abs_nonneg _) he 2
    simp only [squares, List.map_cons, List.sum_cons, List.length_cons, Nat.cast_add, Nat.cast_one] at *
    constructor <;> nlinarith [sq_nonneg e]

/-- The problem is built just if all three weights are positive. -/
theorem problem2_iff (o : Options2) (target : V2) (initial : Rigid2) (points : List V2) (g : Grid) :
    (problem2 o target initial points g).isSome ↔ 0 < o.occupiedWeight ∧ 0 < o.translationWeight ∧ 0 < o.rotationWeight := by
  unfold problem2
  by_cases h1 : 0 < o.occupiedWeight <;> by_cases h2 : 0 < o.translationWeight <;> by_cases h3 : 0 < o.rotationWeight <;> simp [h1, h2, h3]

/-- The cost of a pose: the part of the map is bounded by the weight, however many points there are. -/
theorem problem2_cost {o : Options2} {target : V2} {initial : Rigid2} {points : List V2} (hp : points ≠ []) {g : Grid} (w : IsProbability g) {blocks : List (Block Rigid2)}
    (h : problem2 o target initial points g = some blocks) {pose : Rigid2} (hr : ∀ p ∈ points, InReach g (pose.apply p)) :
    ∃ c v, cost blocks pose = some c ∧ 2 * c = v + o.translationWeight ^ 2 * ((pose.translation.x - target.x) ^ 2 + (pose.translation.y - target.y) ^ 2) +
      o.rotationWeight ^ 2 * (pose.angle - initial.angle) ^ 2 ∧ 0 ≤ v ∧ v ≤ 81 / 64 * o.occupiedWeight ^ 2 := by
  have h' := (problem2_iff o target initial points g).1 (by rw [h]; rfl)
  unfold problem2 at h
  rw [if_neg (not_not.2 h'.1), if_neg (not_not.2 h'.2.1), if_neg (not_not.2 h'.2.2), Option.some.injEq] at h
  subst h
  have hn : (0 : ℝ) < points.length := by exact_mod_cast List.length_pos_iff.2 hp
  have hs : 0 ≤ o.occupiedWeight / √(points.length : ℝ) := by have := h'.1; positivity
  refine ⟨_, squares (points.map fun p => o.occupiedWeight / √(points.length : ℝ) * costField g ((pose.apply p).x, (pose.apply p).y)),
    cost_cons _ _ _ (by
      simp only [Block.cost, occupied2_eq w _ hr, Option.map_some, loss]; rfl)
      (cost_cons _ _ _ rfl (cost_cons _ _ _ rfl (y := 0) (by simp [cost]))), ?_, ?_⟩
  · simp only [loss, squares, translationDelta2, rotationDelta2, List.map_cons, List.map_nil, List.sum_cons, List.sum_nil]
    ring
  · have := squares_le (hi := 9 / 8 * (o.occupiedWeight / √(points.length : ℝ)))
      (r := points.map fun p => o.occupiedWeight / √(points.length : ℝ) * costField g ((pose.apply p).x, (pose.apply p).y)) (by
      intro e he
      obtain ⟨p, -, rfl⟩ := List.mem_map.1 he
      have h := costField_range g ((pose.apply p).x, (pose.apply p).y)
      rw [abs_le]
      constructor <;> nlinarith [h.1, h.2])
    rw [List.length_map] at this
    have e2 : (points.length : ℝ) * (9 / 8 * (o.occupiedWeight / √(points.length : ℝ))) ^ 2 = 81 / 64 * o.occupiedWeight ^ 2 := by
      rw [mul_pow, div_pow o.occupiedWeight, Real.sq_sqrt hn.le]; field_simp; ring
    rw [e2] at this
    exact this

/-- A pose that costs no more than the initial one is near the target and the initial orientation, by a bound of the weights alone. -/
theorem match2_near {o : Options2} {target : V2} {initial final : Rigid2} {points : List V2} (hp : points ≠ []) {g : Grid} (w : IsProbability g)
    {blocks : List (Block Rigid2)} (h : problem2 o target initial points g = some blocks) (hr : ∀ p ∈ points, InReach g (initial.apply p))
    (hr' : ∀ p ∈ points, InReach g (final.apply p)) {c0 c1 : ℝ} (h0 : cost blocks initial = some c0) (h1 : cost blocks final = some c1) (hle : c1 ≤ c0) :
    o.translationWeight ^ 2 * ((final.translation.x - target.x) ^ 2 + (final.translation.y - target.y) ^ 2) +
      o.rotationWeight ^ 2 * (final.angle - initial.angle) ^ 2 ≤
    o.translationWeight ^ 2 * ((initial.translation.x - target.x) ^ 2 + (initial.translation.y - target.y) ^ 2) + 81 / 64 * o.occupiedWeight ^ 2 := by
  obtain ⟨d0, v0, e0, f0, g0, g0'⟩ := problem2_cost hp w h hr
  obtain ⟨d1, v1, e1, f1, g1, g1'⟩ := problem2_cost hp w h hr'
  rw [e0, Option.some.injEq] at h0
  rw [e1, Option.some.injEq] at h1
  rw [sub_self] at f0
  linarith

end Verif.MatchCost
