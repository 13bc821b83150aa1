import Verif.LoopClosure
import Verif.Props.BranchAndBound2D
import Verif.Props.RealTimeCorrelative

/-!
# Matching for loop closures finds the best pose (C86)
-/

namespace Verif.LoopClosure

open Verif.Rigid Verif.Grid2D Verif.RealTime
open Verif.FastCorrelative (CostGrid Bounds Scan matchWith cellScore poseScore Within)

/-- The matcher is that of a grid, with sizes for which no `int` overflows, and `sort` is a sort. -/
structure Matcher.Ok (m : Matcher) : Prop where
  grid : m.grid.Ok
  nx : m.grid.nx = m.limits.numX
  ny : m.grid.ny = m.limits.numY
  resolution : 0 < m.limits.resolution
  nx_le : m.grid.nx ≤ 2 ^ 28
  ny_le : m.grid.ny ≤ 2 ^ 28
  depth : 1 ≤ m.depth
  depth_le : 2 ^ (m.depth - 1) ≤ 2 ^ 28
  perm : ∀ l, (m.sort l).Perm l
  sorted : ∀ l, (m.sort l).Pairwise (fun a b => b.score ≤ a.score)

/-- The score of a list of cells: the mean of their values, scaled from `[0, 255]` to the range of scores. -/
def cellsScore (g : CostGrid) (cells : Scan) : ℚ :=
  g.minScore + (cells.map fun c => (cellScore g c.1 c.2 : ℚ)).sum / cells.length * ((g.maxScore - g.minScore) / 255)

/-- The cells of the scan turned by `k` steps and moved by `i` and `j` cells. -/
noncomputable def cellsAt (l : MapLimits) (step : ℝ) (initial : Rigid2) (points : List V2) (i j k : Int) : Scan :=
  points.map fun p => ((cellIndex l ((poseAt l.resolution step initial 0 0 k).apply p)).1 - j, (cellIndex l ((poseAt l.resolution step initial 0 0 k).apply p)).2 - i)

/-- The score of a pose that is compared. -/
noncomputable def scoreAt (m : Matcher) (step : ℝ) (initial : Rigid2) (points : List V2) (i j k : Int) : ℚ := cellsScore m.grid (cellsAt m.limits step initial points i j k)

/-- The indices of the turned scans are such that no `int` overflows. -/
def Fits (l : MapLimits) (step : ℝ) (initial : Rigid2) (angular : Int) (points : List V2) : Prop :=
  ∀ k : Int, -angular ≤ k → k ≤ angular → ∀ p ∈ points, ∀ c, cellIndex l ((poseAt l.resolution step initial 0 0 k).apply p) = c →
    -2 ^ 28 ≤ c.1 ∧ c.1 ≤ 2 ^ 28 ∧ -2 ^ 28 ≤ c.2 ∧ c.2 ≤ 2 ^ 28

theorem toScore_mono {g : CostGrid} (h : g.Ok) (n : Nat) {a b : Int} (hab : a ≤ b) : toScore g n a ≤ toScore g n b := by
  have hr := FastCorrelative.range_pos h
  unfold toScore
  have h1 : (a : ℚ) / n ≤ (b : ℚ) / n := div_le_div_of_nonneg_right (by exact_mod_cast hab) (by positivity)
  have := mul_le_mul_of_nonneg_right h1 (show 0 ≤ (g.maxScore - g.minScore) / 255 by positivity)
  linarith

theorem cast_sum' (l : List Int) : ((l.sum : Int) : ℚ) = (l.map fun (n : Int) => (n : ℚ)).sum := by
  induction l with
  | nil => simp
  | cons a l ih => simp [ih]

theorem poseScore_eq (m : Matcher) (step : ℝ) (initial : Rigid2) (points : List V2) (x y k : Int) :
    poseScore m.grid (toScore m.grid) (points.map fun p => cellIndex m.limits ((poseAt m.limits.resolution step initial 0 0 k).apply p)) x y =
      scoreAt m step initial points (-y) (-x) k := by
  unfold poseScore toScore scoreAt cellsScore cellsAt
  rw [cast_sum']
  simp only [List.map_map, List.length_map, Function.comp_def, sub_neg_eq_add]

/-- **The match is the best pose of the window**; there is none exactly if no pose of the window scores more than the minimum. -/
theorem parameters_best {m : Matcher} (hm : m.Ok) {s : Search} (hs : s.resolution = m.limits.resolution) (h0 : 0 ≤ s.linear) (h1 : s.linear ≤ 2 ^ 28) (hA : 0 ≤ s.angular)
    (initial : Rigid2) {points : List V2} (hp : points ≠ []) (hf : Fits m.limits s.step initial s.angular points) (minScore : ℚ) :
    ∃ result, matchWithParameters m s initial points minScore = some result ∧
      (result = none ↔ ∀ i j k, InWindow s.linear s.angular i j k → scoreAt m s.step initial points i j k ≤ minScore) ∧
      ∀ r, result = some r → minScore < r.1 ∧ ∃ i j k, InWindow s.linear s.angular i j k ∧ r.2 = poseAt m.limits.resolution s.step initial i j k ∧
        r.1 = scoreAt m s.step initial points i j k ∧
        ∀ i' j' k', InWindow s.linear s.angular i' j' k' → scoreAt m s.step initial points i' j' k' ≤ r.1 := by
  have hscan := fun (k : Nat) (hk : k < s.scans) => scan_eq m.limits initial points hk
  have hlen : (discretize m.limits (rotatedScans (points.map (rotate2 initial.angle)) s) initial.translation).length = s.scans := by
    simp [discretize, rotatedScans]
  have hsc : (s.scans : Int) = 2 * s.angular + 1 := by unfold Search.scans; omega
  generalize hS : discretize m.limits (rotatedScans (points.map (rotate2 initial.angle)) s) initial.translation = S at hscan hlen
  have hlt : ∀ {k : Nat} {t : Scan}, S[k]? = some t → k < s.scans := by
    intro k t h
    rw [← hlen]
    exact (List.getElem?_eq_some_iff.1 h).1
  have hget : ∀ {k : Nat} {t : Scan}, S[k]? = some t → t = points.map fun p => cellIndex m.limits ((poseAt m.limits.resolution s.step initial 0 0 ((k : Int) - s.angular)).apply p) := by
    intro k t h
    rw [hscan k (hlt h)] at h
    exact (Option.some.inj h).symm
  have hbounds : ∀ {k : Nat} {b : Bounds}, (List.replicate s.scans (⟨-s.linear, s.linear, -s.linear, s.linear⟩ : Bounds))[k]? = some b → b = ⟨-s.linear, s.linear, -s.linear, s.linear⟩ := by
    intro k b h
    exact List.eq_of_mem_replicate (List.mem_of_getElem? h)
  have hback : ∀ {i j k : Int}, InWindow s.linear s.angular i j k → ∃ (n : Nat) (t : Scan) (b : Bounds), S[n]? = some t ∧ (List.replicate s.scans (⟨-s.linear, s.linear, -s.linear, s.linear⟩ : Bounds))[n]? = some b ∧
      Within b (-j) (-i) ∧ poseScore m.grid (toScore m.grid) t (-j) (-i) = scoreAt m s.step initial points i j k := by
    intro i j k hw
    obtain ⟨⟨x1, x2⟩, ⟨y1, y2⟩, a1, a2⟩ := hw
    have hn : (k + s.angular).toNat < s.scans := by omega
    refine ⟨(k + s.angular).toNat, _, _, hscan _ hn, by rw [List.getElem?_replicate, if_pos hn], ⟨?_, ?_, ?_, ?_⟩, ?_⟩
    · show -s.linear ≤ -j; omega
    · show -j ≤ s.linear; omega
    · show -s.linear ≤ -i; omega
    · show -i ≤ s.linear; omega
    · have e : (((k + s.angular).toNat : Nat) : Int) - s.angular = k := by omega
      rw [e, poseScore_eq, neg_neg, neg_neg]
  obtain ⟨result, hr, hnone, hsome⟩ := FastCorrelative.match_optimal (g := m.grid) (depth := m.depth) (toScore := toScore m.grid) (sort := m.sort) (scans := S)
    (bounds := List.replicate s.scans ⟨-s.linear, s.linear, -s.linear, s.linear⟩) (minScore := minScore) hm.grid hm.depth (fun n a b hab => toScore_mono hm.grid n hab) hm.perm hm.sorted
    (by intro h; rw [h] at hlen; simp at hlen; omega) (by rw [hlen, List.length_replicate])
    (by intro b hb; rw [List.eq_of_mem_replicate hb]; exact ⟨by show -s.linear ≤ 0; omega, h0, by show -s.linear ≤ 0; omega, h0⟩)
    ⟨hm.nx_le, hm.ny_le, hm.depth_le, by
      intro t ht c hc
      obtain ⟨k, hk⟩ := List.getElem?_of_mem ht
      rw [hget hk, List.mem_map] at hc
      obtain ⟨p, hpm, e⟩ := hc
      have := hlt hk
      exact hf _ (by omega) (by omega) p hpm c e, by
      intro b hb
      rw [List.eq_of_mem_replicate hb]
      exact ⟨by show -2 ^ 28 ≤ -s.linear; omega, h1, by show -2 ^ 28 ≤ -s.linear; omega, h1⟩⟩
  have hcode : matchWithParameters m s initial points minScore = some (result.map fun c =>
      (c.score, ⟨⟨initial.translation.x + (Candidate.new s c.scan c.x c.y).x, initial.translation.y + (Candidate.new s c.scan c.x c.y).y⟩,
        initial.angle + (Candidate.new s c.scan c.x c.y).orientation⟩)) := by
    unfold matchWithParameters
    rw [if_neg (by simpa using hp)]
    simp only [Option.bind_eq_bind]
    rw [hS, hr, Option.bind_some]
  refine ⟨_, hcode, ?_, ?_⟩
  · rw [Option.map_eq_none_iff, hnone]
    constructor
    · intro h i j k hw
      obtain ⟨n, t, b, h1, h2, h3, h4⟩ := hback hw
      rw [← h4]
      exact h n t b _ _ h1 h2 h3
    · intro h k t b x y h1 h2 h3
      have := hlt h1
      rw [hbounds h2] at h3
      rw [hget h1, poseScore_eq]
      obtain ⟨w1, w2, w3, w4⟩ := h3
      simp only at w1 w2 w3 w4
      exact h _ _ _ ⟨by omega, by omega, by omega⟩
  · intro r hr'
    rw [Option.map_eq_some_iff] at hr'
    obtain ⟨c, hc, rfl⟩ := hr'
    obtain ⟨t, b, h1, h2, h3, h4, h5, h6⟩ := hsome c hc
    have := hlt h1
    rw [hbounds h2] at h3
    obtain ⟨w1, w2, w3, w4⟩ := h3
    simp only at w1 w2 w3 w4
    refine ⟨h5, -c.y, -c.x, (c.scan : Int) - s.angular, ⟨by omega, by omega, by omega⟩, ?_, ?_, ?_⟩
    · simp only [Candidate.new, poseAt, hs]
      push_cast
      rfl
    · rw [hget h1, poseScore_eq] at h4
      exact h4
    · intro i' j' k' hw
      obtain ⟨n, t, b, g1, g2, g3, g4⟩ := hback hw
      rw [← g4]
      exact h6 n t b _ _ g1 g2 g3

/-- Without points there is no match. -/
theorem empty_no_match (m : Matcher) (s : Search) (initial : Rigid2) (minScore : ℚ) : matchWithParameters m s initial [] minScore = some none := rfl

theorem search_eq {l : MapLimits} (hr : 0 < l.resolution) {w a : ℝ} (ha : 0 ≤ a) (points : List V2) :
    search w a points l.resolution = some ⟨l.resolution, stepFor l points, ⌈a / stepFor l points⌉, ⌈w / l.resolution⌉⟩ := by
  have hr' : (0 : ℝ) < l.resolution := by exact_mod_cast hr
  have hstep : 0 < stepFor l points := step_pos hr' _
  have hA : 0 ≤ ⌈a / stepFor l points⌉ := Int.ceil_nonneg (by positivity)
  unfold search
  simp only
  show (if 2 * ⌈a / stepFor l points⌉ + 1 < 0 then none else _) = _
  rw [if_neg (by omega)]
  rfl

/-- **The local match is the best pose of the window.** -/
theorem match_best {m : Matcher} (hm : m.Ok) (hl : 0 ≤ m.linearWindow) (hl' : m.linearWindow ≤ 2 ^ 28 * m.limits.resolution) (ha : 0 ≤ m.angularWindow) (initial : Rigid2) {points : List V2} (hp : points ≠ [])
    (hf : Fits m.limits (stepFor m.limits points) initial ⌈m.angularWindow / stepFor m.limits points⌉ points) (minScore : ℚ) :
    ∃ result, fastMatch m initial points minScore = some result ∧
      (result = none ↔ ∀ i j k, InWindow ⌈m.linearWindow / m.limits.resolution⌉ ⌈m.angularWindow / stepFor m.limits points⌉ i j k →
        scoreAt m (stepFor m.limits points) initial points i j k ≤ minScore) ∧
      ∀ r, result = some r → minScore < r.1 ∧ ∃ i j k, InWindow ⌈m.linearWindow / m.limits.resolution⌉ ⌈m.angularWindow / stepFor m.limits points⌉ i j k ∧
        r.2 = poseAt m.limits.resolution (stepFor m.limits points) initial i j k ∧ r.1 = scoreAt m (stepFor m.limits points) initial points i j k ∧
        ∀ i' j' k', InWindow ⌈m.linearWindow / m.limits.resolution⌉ ⌈m.angularWindow / stepFor m.limits points⌉ i' j' k' →
          scoreAt m (stepFor m.limits points) initial points i' j' k' ≤ r.1 := by
  have hr' : (0 : ℝ) < m.limits.resolution := by exact_mod_cast hm.resolution
  have hstep : 0 < stepFor m.limits points := step_pos hr' _
  obtain ⟨result, h1, h2, h3⟩ := parameters_best hm (s := ⟨m.limits.resolution, stepFor m.limits points, ⌈m.angularWindow / stepFor m.limits points⌉, ⌈m.linearWindow / m.limits.resolution⌉⟩) rfl
    (Int.ceil_nonneg (by positivity)) (Int.ceil_le.2 (by rw [div_le_iff₀ hr']; norm_num at hl' ⊢; exact hl')) (Int.ceil_nonneg (by positivity)) initial hp hf minScore
  refine ⟨result, ?_, h2, h3⟩
  unfold fastMatch
  rw [search_eq hm.resolution ha]
  exact h1

/-- **Every pose of the window is within half a cell and half an angular step of one that is compared.** -/
theorem window_covered {l : MapLimits} (hr : 0 < l.resolution) {points : List V2} {w a : ℝ} {initial q : Rigid2} (hx : |q.translation.x - initial.translation.x| ≤ w)
    (hy : |q.translation.y - initial.translation.y| ≤ w) (ha : |q.angle - initial.angle| ≤ a) :
    ∃ i j k, InWindow ⌈w / l.resolution⌉ ⌈a / stepFor l points⌉ i j k ∧
      |q.translation.x - (poseAt l.resolution (stepFor l points) initial i j k).translation.x| ≤ l.resolution / 2 ∧
      |q.translation.y - (poseAt l.resolution (stepFor l points) initial i j k).translation.y| ≤ l.resolution / 2 ∧
      |q.angle - (poseAt l.resolution (stepFor l points) initial i j k).angle| ≤ stepFor l points / 2 := by
  have hr' : (0 : ℝ) < l.resolution := by exact_mod_cast hr
  have hstep : 0 < stepFor l points := step_pos hr' _
  have c : ∀ {s w : ℝ}, 0 < s → w ≤ ((⌈w / s⌉ : Int) + 1 / 2) * s := by
    intro s w hs
    have h1 := Int.le_ceil (w / s)
    rw [div_le_iff₀ hs] at h1
    nlinarith
  obtain ⟨i, i1, i2, i3⟩ := covered hr' (c hr') hx
  obtain ⟨j, j1, j2, j3⟩ := covered hr' (c hr') hy
  obtain ⟨k, k1, k2, k3⟩ := covered hstep (c hstep) ha
  refine ⟨i, j, k, ⟨⟨i1, i2⟩, ⟨j1, j2⟩, k1, k2⟩, ?_, ?_, ?_⟩
  · rw [show q.translation.x - (poseAt l.resolution (stepFor l points) initial i j k).translation.x = q.translation.x - initial.translation.x - i * l.resolution by simp only [poseAt]; ring]
    exact i3
  · rw [show q.translation.y - (poseAt l.resolution (stepFor l points) initial i j k).translation.y = q.translation.y - initial.translation.y - j * l.resolution by simp only [poseAt]; ring]
    exact j3
  · rw [show q.angle - (poseAt l.resolution (stepFor l points) initial i j k).angle = q.angle - initial.angle - k * stepFor l points by simp only [poseAt]; ring]
    exact k3

/-! ### The whole plane -/

/-- All points are so near that none can be in the map if the pose is more than a million cells from its centre. -/
def Near (l : MapLimits) (points : List V2) : Prop :=
  ∀ p ∈ points, norm2 p / l.resolution + (max l.numX l.numY : Nat) / 2 + 1 ≤ 1000000

theorem abs_le_norm2 (p : V2) : |p.x| ≤ norm2 p ∧ |p.y| ≤ norm2 p := by
  have h := norm2_sq p
  have h0 := norm2_nonneg p
  constructor <;> refine abs_le_of_sq_le_sq ?_ h0 <;> nlinarith [sq_nonneg p.x, sq_nonneg p.y]

theorem center_index {l : MapLimits} (hr : 0 < l.resolution) {points : List V2} (hn : Near l points) (step : ℝ) (k : Int) {p : V2} (hp : p ∈ points) :
    (l.numX : Int) - 1000000 ≤ (cellIndex l ((poseAt l.resolution step (center l) 0 0 k).apply p)).1 ∧ (cellIndex l ((poseAt l.resolution step (center l) 0 0 k).apply p)).1 < 1000000 ∧
    (l.numY : Int) - 1000000 ≤ (cellIndex l ((poseAt l.resolution step (center l) 0 0 k).apply p)).2 ∧ (cellIndex l ((poseAt l.resolution step (center l) 0 0 k).apply p)).2 < 1000000 := by
  have hr' : (0 : ℝ) < l.resolution := by exact_mod_cast hr
  have hnp := hn p hp
  obtain ⟨a1, a2⟩ := abs_le_norm2 (rotate2 ((center l).angle + k * step) p)
  rw [norm2_rotate] at a1 a2
  have hX : (l.numX : ℝ) ≤ ((max l.numX l.numY : Nat) : ℝ) := by exact_mod_cast le_max_left _ _
  have hY : (l.numY : ℝ) ≤ ((max l.numX l.numY : Nat) : ℝ) := by exact_mod_cast le_max_right _ _
  unfold cellIndex
  simp only [Rigid2.apply, poseAt, Int.cast_zero, zero_mul, add_zero]
  generalize rotate2 ((center l).angle + k * step) p = v at a1 a2
  simp only [center]
  have key : ∀ (mx w n : ℝ), |w| ≤ norm2 p → n ≤ ((max l.numX l.numY : Nat) : ℝ) →
      n - 1000000 ≤ (RealTime.round ((mx - (w + (mx - 1 / 2 * l.resolution * n))) / l.resolution - 1 / 2) : ℝ) ∧
      (RealTime.round ((mx - (w + (mx - 1 / 2 * l.resolution * n))) / l.resolution - 1 / 2) : ℝ) ≤ 1000000 - 1 := by
    intro mx w n hw hn'
    have e : (mx - (w + (mx - 1 / 2 * l.resolution * n))) / l.resolution - 1 / 2 = n / 2 - w / l.resolution - 1 / 2 := by field_simp; ring
    rw [e]
    obtain ⟨b1, b2⟩ := round_bounds (n / 2 - w / l.resolution - 1 / 2)
    have hw' : |w / l.resolution| ≤ norm2 p / l.resolution := by rw [abs_div, abs_of_pos hr']; exact div_le_div_of_nonneg_right hw hr'.le
    obtain ⟨c1, c2⟩ := abs_le.1 hw'
    generalize norm2 p / (l.resolution : ℝ) = A at *
    generalize w / (l.resolution : ℝ) = B at *
    generalize ((max l.numX l.numY : Nat) : ℝ) = M at *
    constructor <;> linarith
  obtain ⟨k1, k2⟩ := key l.maxY v.y l.numX a2 hX
  obtain ⟨k3, k4⟩ := key l.maxX v.x l.numY a1 hY
  refine ⟨?_, ?_, ?_, ?_⟩
  · exact_mod_cast k1
  · have : (RealTime.round ((l.maxY - (v.y + (l.maxY - 1 / 2 * l.resolution * l.numX))) / l.resolution - 1 / 2) : ℝ) ≤ ((1000000 - 1 : Int) : ℝ) := by norm_num at k2 ⊢; exact k2
    have := Int.cast_le.1 this
    omega
  · exact_mod_cast k3
  · have : (RealTime.round ((l.maxX - (v.x + (l.maxX - 1 / 2 * l.resolution * l.numY))) / l.resolution - 1 / 2) : ℝ) ≤ ((1000000 - 1 : Int) : ℝ) := by norm_num at k4 ⊢; exact k4
    have := Int.cast_le.1 this
    omega

theorem cellScore_nonneg {g : CostGrid} (h : g.Ok) (x y : Int) : 0 ≤ cellScore g x y := by
  unfold cellScore
  split
  · rename_i hc
    have hr := FastCorrelative.range_pos h
    obtain ⟨h1, h2⟩ := h.cost x.toNat y.toNat (by omega) (by omega)
    have hz : 0 ≤ (1 - |g.cost x.toNat y.toNat| - g.minScore) * (255 / (g.maxScore - g.minScore)) := by
      apply mul_nonneg
      · unfold CostGrid.minScore; linarith
      · positivity
    unfold FastCorrelative.quantise Prob.roundToInt
    rw [if_pos hz]
    exact Int.floor_nonneg.2 (by linarith)
  · exact le_refl _

theorem cellsScore_ge {g : CostGrid} (h : g.Ok) (cells : Scan) : g.minScore ≤ cellsScore g cells := by
  have hr := FastCorrelative.range_pos h
  unfold cellsScore
  have : 0 ≤ (cells.map fun c => (cellScore g c.1 c.2 : ℚ)).sum := by
    apply List.sum_nonneg
    intro x hx
    obtain ⟨c, _, rfl⟩ := List.mem_map.1 hx
    exact_mod_cast cellScore_nonneg h _ _
  have : 0 ≤ (cells.map fun c => (cellScore g c.1 c.2 : ℚ)).sum / cells.length * ((g.maxScore - g.minScore) / 255) := by positivity
  linarith

theorem cellsScore_outside {g : CostGrid} {cells : Scan} (h : ∀ c ∈ cells, cellScore g c.1 c.2 = 0) : cellsScore g cells = g.minScore := by
  unfold cellsScore
  have : (cells.map fun c => (cellScore g c.1 c.2 : ℚ)) = cells.map fun _ => 0 := List.map_congr_left (fun c hc => by rw [h c hc]; simp)
  rw [this]
  simp

/-- **The match of a whole submap is the best pose of all**, however far from the map. -/
theorem full_best {m : Matcher} (hm : m.Ok) {points : List V2} (hp : points ≠ []) (hn : Near m.limits points) (minScore : ℚ) :
    ∃ result, matchFull m points minScore = some result ∧
      (result = none ↔ ∀ i j k, -⌈Real.pi / stepFor m.limits points⌉ ≤ k → k ≤ ⌈Real.pi / stepFor m.limits points⌉ →
        scoreAt m (stepFor m.limits points) (center m.limits) points i j k ≤ minScore) ∧
      ∀ r, result = some r → minScore < r.1 ∧ ∃ i j k, InWindow 1000000 ⌈Real.pi / stepFor m.limits points⌉ i j k ∧
        r.2 = poseAt m.limits.resolution (stepFor m.limits points) (center m.limits) i j k ∧ r.1 = scoreAt m (stepFor m.limits points) (center m.limits) points i j k ∧
        ∀ i' j' k', -⌈Real.pi / stepFor m.limits points⌉ ≤ k' → k' ≤ ⌈Real.pi / stepFor m.limits points⌉ →
          scoreAt m (stepFor m.limits points) (center m.limits) points i' j' k' ≤ r.1 := by
  have hr' : (0 : ℝ) < m.limits.resolution := by exact_mod_cast hm.resolution
  have hstep : 0 < stepFor m.limits points := step_pos hr' _
  have hpi := Real.pi_pos
  have hlin : ⌈1000000 * (m.limits.resolution : ℝ) / m.limits.resolution⌉ = 1000000 := by
    rw [mul_div_cancel_right₀ _ hr'.ne']
    exact_mod_cast Int.ceil_intCast (R := ℝ) 1000000
  have hfit : ∀ A, Fits m.limits (stepFor m.limits points) (center m.limits) A points := by
    intro A k _ _ p hpm c hc
    obtain ⟨c1, c2, c3, c4⟩ := center_index hm.resolution hn (stepFor m.limits points) k hpm
    rw [hc] at c1 c2 c3 c4
    have : (-2 ^ 28 : Int) = -268435456 := by norm_num
    have : (2 ^ 28 : Int) = 268435456 := by norm_num
    omega
  have hout : ∀ i j k, (-⌈Real.pi / stepFor m.limits points⌉ ≤ k ∧ k ≤ ⌈Real.pi / stepFor m.limits points⌉) → ∃ i' j', InWindow 1000000 ⌈Real.pi / stepFor m.limits points⌉ i' j' k ∧
      scoreAt m (stepFor m.limits points) (center m.limits) points i j k ≤ scoreAt m (stepFor m.limits points) (center m.limits) points i' j' k := by
    intro i j k hk
    by_cases hin : (-1000000 ≤ i ∧ i ≤ 1000000) ∧ (-1000000 ≤ j ∧ j ≤ 1000000)
    · exact ⟨i, j, ⟨hin.1, hin.2, hk⟩, le_refl _⟩
    · refine ⟨0, 0, ⟨by omega, by omega, hk⟩, ?_⟩
      have : scoreAt m (stepFor m.limits points) (center m.limits) points i j k = m.grid.minScore := by
        apply cellsScore_outside
        intro c hc
        obtain ⟨p, hpm, rfl⟩ := List.mem_map.1 hc
        obtain ⟨c1, c2, c3, c4⟩ := center_index hm.resolution hn (stepFor m.limits points) k hpm
        rw [← hm.nx] at c1
        rw [← hm.ny] at c3
        unfold cellScore
        rw [if_neg (by omega)]
      rw [this]
      exact cellsScore_ge hm.grid _
  obtain ⟨result, h1, h2, h3⟩ := parameters_best hm (s := ⟨m.limits.resolution, stepFor m.limits points, ⌈Real.pi / stepFor m.limits points⌉, 1000000⟩) rfl
    (by norm_num) (by norm_num) (Int.ceil_nonneg (by positivity)) (center m.limits) hp (hfit _) minScore
  refine ⟨result, ?_, ?_, ?_⟩
  · unfold matchFull
    rw [search_eq hm.resolution hpi.le, hlin]
    exact h1
  · rw [h2]
    constructor
    · intro h i j k k1 k2
      obtain ⟨i', j', hw, hle⟩ := hout i j k ⟨k1, k2⟩
      exact hle.trans (h i' j' k hw)
    · intro h i j k hw
      exact h i j k hw.angle.1 hw.angle.2
  · intro r hr
    obtain ⟨g1, i, j, k, g2, g3, g4, g5⟩ := h3 r hr
    refine ⟨g1, i, j, k, g2, g3, g4, ?_⟩
    intro i' j' k' k1 k2
    obtain ⟨i'', j'', hw, hle⟩ := hout i' j' k' ⟨k1, k2⟩
    exact hle.trans (g5 i'' j'' k' hw)

/-- **Every pose of the plane is within half a cell and half an angular step of one that is compared**, up to whole turns. -/
theorem plane_covered {l : MapLimits} (hr : 0 < l.resolution) (points : List V2) (initial q : Rigid2) :
    ∃ (i j k n : Int), -⌈Real.pi / stepFor l points⌉ ≤ k ∧ k ≤ ⌈Real.pi / stepFor l points⌉ ∧
      |q.translation.x - (poseAt l.resolution (stepFor l points) initial i j k).translation.x| ≤ l.resolution / 2 ∧
      |q.translation.y - (poseAt l.resolution (stepFor l points) initial i j k).translation.y| ≤ l.resolution / 2 ∧
      |q.angle + n * (2 * Real.pi) - (poseAt l.resolution (stepFor l points) initial i j k).angle| ≤ stepFor l points / 2 := by
  have hpi := Real.pi_pos
  let n : Int := RealTime.round ((q.angle - initial.angle) / (2 * Real.pi))
  have hn : |q.angle - initial.angle - n * (2 * Real.pi)| ≤ Real.pi := by
    obtain ⟨b1, b2⟩ := round_bounds ((q.angle - initial.angle) / (2 * Real.pi))
    have e : (q.angle - initial.angle) / (2 * Real.pi) * (2 * Real.pi) = q.angle - initial.angle := div_mul_cancel₀ _ (by positivity)
    have hn' : (n : ℝ) = (RealTime.round ((q.angle - initial.angle) / (2 * Real.pi)) : ℝ) := rfl
    rw [hn', abs_le]
    constructor <;> nlinarith
  have hw : ∀ {a b w : ℝ}, |a - b| ≤ max |a - b| w := fun {_ _ _} => le_max_left _ _
  obtain ⟨i, j, k, h1, h2, h3, h4⟩ := window_covered hr (points := points) (w := max |q.translation.x - initial.translation.x| |q.translation.y - initial.translation.y|) (a := Real.pi)
    (initial := initial) (q := ⟨q.translation, q.angle - n * (2 * Real.pi)⟩) (le_max_left _ _) (le_max_right _ _) (by
      show |q.angle - n * (2 * Real.pi) - initial.angle| ≤ Real.pi
      rw [show q.angle - n * (2 * Real.pi) - initial.angle = q.angle - initial.angle - n * (2 * Real.pi) by ring]
      exact hn)
  refine ⟨i, j, k, -n, h1.angle.1, h1.angle.2, h2, h3, ?_⟩
  push_cast
  rw [show q.angle + -(n : ℝ) * (2 * Real.pi) - (poseAt l.resolution (stepFor l points) initial i j k).angle =
    q.angle - n * (2 * Real.pi) - (poseAt l.resolution (stepFor l points) initial i j k).angle by ring]
  exact h4

/-! ### What the score means -/

/-- What the grid says about a cell: one minus the cost, and the least score outside. -/
def cellValue (g : CostGrid) (c : Int × Int) : ℚ := if 0 ≤ c.1 ∧ c.1 < g.nx ∧ 0 ≤ c.2 ∧ c.2 < g.ny then 1 - |g.cost c.1.toNat c.2.toNat| else g.minScore

theorem abs_round (x : ℚ) : |((Prob.roundToInt x : Int) : ℚ) - x| ≤ 1 / 2 := by
  unfold Prob.roundToInt
  rw [abs_le]
  split
  · have h1 := Int.floor_le (x + 1 / 2)
    have h2 := Int.lt_floor_add_one (x + 1 / 2)
    constructor <;> linarith
  · have h1 := Int.le_ceil (x - 1 / 2)
    have h2 := Int.ceil_lt_add_one (x - 1 / 2)
    constructor <;> linarith

theorem cell_accuracy (g : CostGrid) (c : Int × Int) : |(cellScore g c.1 c.2 : ℚ) - (cellValue g c - g.minScore) * (255 / (g.maxScore - g.minScore))| ≤ 1 / 2 := by
  unfold cellScore cellValue
  split
  · exact abs_round _
  · norm_num

theorem sum_accuracy (g : CostGrid) (cells : Scan) :
    |(cells.map fun c => (cellScore g c.1 c.2 : ℚ)).sum - (((cells.map fun c => cellValue g c).sum - cells.length * g.minScore) * (255 / (g.maxScore - g.minScore)))| ≤ cells.length / 2 := by
  induction cells with
  | nil => simp
  | cons c cells ih =>
    have hc := cell_accuracy g c
    simp only [List.map_cons, List.sum_cons, List.length_cons]
    push_cast
    rw [abs_le] at *
    generalize 255 / (g.maxScore - g.minScore) = K at *
    constructor <;> nlinarith

/-- **A score is the mean of what the grid says about the cells of the points, up to half of one of 255 steps.** -/
theorem score_accuracy {g : CostGrid} (h : g.Ok) {cells : Scan} (hc : cells ≠ []) :
    |cellsScore g cells - (cells.map fun c => cellValue g c).sum / cells.length| ≤ (g.maxScore - g.minScore) / 510 := by
  have hr := FastCorrelative.range_pos h
  have hl : (0 : ℚ) < cells.length := by exact_mod_cast List.length_pos_iff.2 hc
  have hs := sum_accuracy g cells
  unfold cellsScore
  generalize (cells.map fun c => (cellScore g c.1 c.2 : ℚ)).sum = S at *
  generalize (cells.map fun c => cellValue g c).sum = V at *
  generalize (cells.length : ℚ) = n at *
  generalize g.minScore = a at *
  generalize g.maxScore = b at *
  have hba : b - a ≠ 0 := hr.ne'
  have e : a + S / n * ((b - a) / 255) - V / n = (S - (V - n * a) * (255 / (b - a))) * ((b - a) / 255 / n) := by field_simp; ring
  rw [e, abs_mul, abs_of_pos (show 0 < (b - a) / 255 / n by positivity)]
  calc _ ≤ n / 2 * ((b - a) / 255 / n) := mul_le_mul_of_nonneg_right hs (by positivity)
    _ = (b - a) / 510 := by field_simp; ring

/-- **The cells are those of the points at the pose**, unless one is on the border of two cells. -/
theorem cells_generic {l : MapLimits} (hr : 0 < l.resolution) {step : ℝ} {initial : Rigid2} {points : List V2} {A : Int} (hg : Generic l initial step A points) (i j : Int) {k : Int}
    (h1 : -A ≤ k) (h2 : k ≤ A) : cellsAt l step initial points i j k = points.map fun p => cellOf l ((poseAt l.resolution step initial i j k).apply p) := by
  unfold cellsAt
  apply List.map_congr_left
  intro p hp
  have hg' := hg k h1 h2 p hp
  rw [cellIndex_shift hr (fun z => (hg' z).1) (fun z => (hg' z).2)]
  simp only [cellOf, Rigid2.apply, poseAt]
  congr 3 <;> ring

/-! ### Example -/

/-- A small map of 3 x 2 cells with one cell that is surely occupied. -/
noncomputable def smallMatcher : Matcher where
  limits := ⟨1, 2, 3, 3, 2⟩
  grid := FastCorrelative.smallGrid
  depth := 2
  linearWindow := 1
  angularWindow := 1
  sort := fun l => l.insertionSort (fun a b => b.score ≤ a.score)

theorem small_ok : smallMatcher.Ok where
  grid := FastCorrelative.smallGrid_ok
  nx := rfl
  ny := rfl
  resolution := by norm_num [smallMatcher]
  nx_le := by norm_num [smallMatcher, FastCorrelative.smallGrid]
  ny_le := by norm_num [smallMatcher, FastCorrelative.smallGrid]
  depth := by norm_num [smallMatcher]
  depth_le := by norm_num [smallMatcher]
  perm := fun l => List.perm_insertionSort _ l
  sorted := by
    intro l
    haveI : Std.Total (fun a b : FastCorrelative.Candidate ℚ => b.score ≤ a.score) := ⟨fun a b => le_total _ _⟩
    haveI : IsTrans (FastCorrelative.Candidate ℚ) (fun a b => b.score ≤ a.score) := ⟨fun a b c h1 h2 => h2.trans h1⟩
    exact List.pairwise_insertionSort _ l

theorem small_index (step : ℝ) : cellIndex smallMatcher.limits ((poseAt smallMatcher.limits.resolution step (center smallMatcher.limits) 0 0 0).apply ⟨0, 0⟩) = (1, 1) := by
  have e1 : RealTime.round 1 = 1 := by rw [RealTime.round, if_pos (by norm_num), Int.floor_eq_iff]; norm_num
  have e2 : RealTime.round (1 / 2) = 1 := by rw [RealTime.round, if_pos (by norm_num), Int.floor_eq_iff]; norm_num
  simp only [cellIndex, smallMatcher, Rigid2.apply, poseAt, center, rotate2]
  norm_num
  constructor
  · exact e1
  · exact e2

theorem small_score (step : ℝ) : scoreAt smallMatcher step (center smallMatcher.limits) [⟨0, 0⟩] 1 (-1) 0 = 9 / 10 := by
  unfold scoreAt cellsAt cellsScore
  simp only [List.map_cons, List.map_nil, small_index]
  have : cellScore smallMatcher.grid 2 0 = 255 := by decide +kernel
  simp only [show (1 : Int) - -1 = 2 by norm_num, show (1 : Int) - 1 = 0 by norm_num, this]
  norm_num [smallMatcher, FastCorrelative.smallGrid, CostGrid.minScore, CostGrid.maxScore]

/-- A scan of one point is matched to the occupied cell. -/
example : ∃ r, matchFull smallMatcher [⟨0, 0⟩] (1 / 2) = some (some r) ∧ 9 / 10 ≤ r.1 := by
  have hn : Near smallMatcher.limits [⟨0, 0⟩] := by
    intro p hp
    rw [List.mem_singleton.1 hp]
    norm_num [norm2, smallMatcher]
  obtain ⟨result, h1, h2, h3⟩ := full_best small_ok (points := [⟨0, 0⟩]) (by simp) hn (1 / 2)
  have hstep : 0 < stepFor smallMatcher.limits [⟨0, 0⟩] := step_pos (by norm_num [smallMatcher]) _
  have hA : 0 ≤ ⌈Real.pi / stepFor smallMatcher.limits [⟨0, 0⟩]⌉ := Int.ceil_nonneg (div_nonneg Real.pi_pos.le hstep.le)
  cases result with
  | none =>
    have := h2.1 rfl 1 (-1) 0 (by omega) hA
    rw [small_score] at this
    norm_num at this
  | some r =>
    obtain ⟨_, i, j, k, _, _, _, h⟩ := h3 r rfl
    refine ⟨r, h1, ?_⟩
    have := h 1 (-1) 0 (by omega) hA
    rwa [small_score] at this

end Verif.LoopClosure
