import Verif.NormalEstimation
import Mathlib.Tactic.Ring
import Mathlib.Tactic.Linarith
import Mathlib.Tactic.FieldSimp
import Mathlib.Tactic.LinearCombination
import Mathlib.Tactic.NormNum

/-!
# C92: normals of scans in two dimensions
-/

namespace Verif.NormalEstimation

open Verif.Rigid

/-! ### Windows -/

theorem distance_self (a : V3) : distance a a = 0 := by
  simp [distance, V3.norm]

theorem windowBegin_spec {points : List V3} {samples : ℕ} {radius : ℝ} {i : ℕ} : ∀ {b : ℕ}, b ≤ i → i - b ≤ samples / 2 → windowBegin points samples radius i b ≤ b ∧
    i - windowBegin points samples radius i b ≤ samples / 2 ∧
    (∀ j, windowBegin points samples radius i b ≤ j → j < b → distance (at' points i) (at' points j) < radius) ∧
    (0 < windowBegin points samples radius i b → i - windowBegin points samples radius i b = samples / 2 ∨
      radius ≤ distance (at' points i) (at' points (windowBegin points samples radius i b - 1))) := by
  intro b
  induction b with
  | zero =>
    intro hb hd
    refine ⟨le_refl _, by simpa [windowBegin] using hd, ?_, ?_⟩
    · intro j _ hj
      omega
    · intro h
      simp [windowBegin] at h
  | succ b ih =>
    intro hb hd
    unfold windowBegin
    split
    · rename_i hc
      obtain ⟨h1, h2, h3, h4⟩ := ih (by omega) (by omega)
      refine ⟨by omega, h2, ?_, h4⟩
      intro j hj hjb
      by_cases he : j = b
      · rw [he]
        exact hc.2
      · exact h3 j hj (by omega)
    · rename_i hc
      refine ⟨le_refl _, hd, ?_, ?_⟩
      · intro j hj hjb
        omega
      · intro _
        by_cases h1 : i - (b + 1) < samples / 2
        · right
          rw [Nat.add_sub_cancel]
          exact not_lt.1 fun h2 => hc ⟨h1, h2⟩
        · left
          omega

theorem windowEnd_spec {points : List V3} {samples : ℕ} {radius : ℝ} {i : ℕ} : ∀ {n e : ℕ}, i ≤ e → e ≤ points.length → points.length ≤ n + e → e - i ≤ (samples + 1) / 2 + 1 →
    e ≤ windowEnd points samples radius i n e ∧ windowEnd points samples radius i n e ≤ points.length ∧
    windowEnd points samples radius i n e - i ≤ (samples + 1) / 2 + 1 ∧
    (∀ j, e ≤ j → j < windowEnd points samples radius i n e → distance (at' points i) (at' points j) < radius) ∧
    (windowEnd points samples radius i n e < points.length → windowEnd points samples radius i n e - i = (samples + 1) / 2 + 1 ∨
      radius ≤ distance (at' points i) (at' points (windowEnd points samples radius i n e))) := by
  intro n
  induction n with
  | zero =>
    intro e h1 h2 h3 h4
    have he : e = points.length := by omega
    simp only [windowEnd]
    refine ⟨le_refl _, h2, h4, ?_, ?_⟩
    · intro j hj hjb
      omega
    · intro h
      omega
  | succ n ih =>
    intro e h1 h2 h3 h4
    unfold windowEnd
    split
    · rename_i hc
      obtain ⟨a1, a2, a3, a4, a5⟩ := ih (e := e + 1) (by omega) (by omega) (by omega) (by omega)
      refine ⟨by omega, a2, a3, ?_, a5⟩
      intro j hj hjb
      by_cases he : j = e
      · rw [he]
        exact hc.2.2
      · exact a4 j (by omega) hjb
    · rename_i hc
      refine ⟨le_refl _, h2, h4, ?_, ?_⟩
      · intro j hj hjb
        omega
      · intro hlt
        by_cases h5 : e - i < (samples + 1) / 2 + 1
        · right
          exact not_lt.1 fun h6 => hc ⟨hlt, h5, h6⟩
        · left
          omega

/-- **C92, the window.** For a point of the scan the window is a part of the scan around it: it contains the point, its other points are at most
`num_normal_samples`, of which at most half (rounded down) come before and at most half (rounded up) after; all are closer than the radius; and it ends, on either
side, only at the end of the scan, at the limit, or at a point that is not closer than the radius. -/
theorem window_spec {points : List V3} {samples : ℕ} {radius : ℝ} (hr : 0 < radius) {i : ℕ} (hi : i < points.length) :
    ∃ b e, windowBegin points samples radius i i = b ∧ windowEnd points samples radius i points.length i = e ∧
      b ≤ i ∧ i < e ∧ e ≤ points.length ∧ i - b ≤ samples / 2 ∧ e - 1 - i ≤ (samples + 1) / 2 ∧ e - b - 1 ≤ samples ∧
      (∀ j, b ≤ j → j < e → distance (at' points i) (at' points j) < radius) ∧
      (0 < b → i - b = samples / 2 ∨ radius ≤ distance (at' points i) (at' points (b - 1))) ∧
      (e < points.length → e - 1 - i = (samples + 1) / 2 ∨ radius ≤ distance (at' points i) (at' points e)) := by
  obtain ⟨b1, b2, b3, b4⟩ := windowBegin_spec (points := points) (samples := samples) (radius := radius) (le_refl i) (by omega)
  obtain ⟨e1, e2, e3, e4, e5⟩ := windowEnd_spec (points := points) (samples := samples) (radius := radius) (n := points.length) (le_refl i) hi.le (by omega) (by omega)
  have hlt : i < windowEnd points samples radius i points.length i := by
    rcases Nat.lt_or_ge i (windowEnd points samples radius i points.length i) with h | h
    · exact h
    · have he : windowEnd points samples radius i points.length i = i := by omega
      rw [he] at e5
      rcases e5 hi with h | h
      · omega
      · rw [distance_self] at h
        linarith
  refine ⟨_, _, rfl, rfl, b1, hlt, e2, b2, by omega, by omega, ?_, b4, ?_⟩
  · intro j hj hje
    rcases Nat.lt_or_ge j i with h | h
    · exact b3 j hj h
    · exact e4 j h hje
  · intro h
    rcases e5 h with h' | h'
    · left
      omega
    · exact Or.inr h'

/-! ### The sum -/

/-- The samples of a window. -/
def samplesOf (points : List V3) (i b e : ℕ) : List V3 := ((List.range' b (e - b)).filter fun j => decide (j ≠ i)).map (at' points)

theorem meanNormal_eq (points : List V3) (origin : V3) (i b e : ℕ) : meanNormal points origin i b e =
    ((samplesOf points i b e).map (contribution (at' points i) origin)).sum := by
  unfold meanNormal samplesOf
  have : ∀ (l : List ℕ) (m : ℂ), l.foldl (fun m j => if j = i then m else m + contribution (at' points i) origin (at' points j)) m =
      m + (((l.filter fun j => decide (j ≠ i)).map (at' points)).map (contribution (at' points i) origin)).sum := by
    intro l
    induction l with
    | nil => intro m; simp
    | cons a l ih =>
      intro m
      rw [List.foldl_cons, ih]
      by_cases ha : a = i
      · rw [if_pos ha, List.filter_cons_of_neg (by simp [ha])]
      · rw [if_neg ha, List.filter_cons_of_pos (by simp [ha])]
        simp only [List.map_cons, List.sum_cons]
        ring
  rw [this, zero_add]

/-- The direction of an angle. -/
noncomputable def direction (a : ℝ) : ℂ := ⟨Real.cos a, Real.sin a⟩

theorem direction_arg {z : ℂ} (h : z ≠ 0) : direction z.arg = z / ‖z‖ := by
  have hn : ‖z‖ ≠ 0 := norm_ne_zero_iff.2 h
  apply Complex.ext
  · simp only [direction, Complex.cos_arg h, Complex.div_ofReal_re]
  · simp only [direction, Complex.sin_arg, Complex.div_ofReal_im]

theorem dot_add (a b : ℂ) (v : V3) : dot (a + b) v = dot a v + dot b v := by
  simp only [dot, Complex.add_re, Complex.add_im]
  ring

theorem dot_div (a : ℂ) (r : ℝ) (v : V3) : dot (a / r) v = dot a v / r := by
  simp only [dot, Complex.div_ofReal_re, Complex.div_ofReal_im]
  ring

theorem dot_neg (a : ℂ) (v : V3) : dot (-a) v = -dot a v := by
  simp only [dot, Complex.neg_re, Complex.neg_im]
  ring

theorem contribution_dot (estimation origin sample : V3) : 0 ≤ dot (contribution estimation origin sample) (toSensor origin estimation) := by
  unfold contribution
  dsimp only
  split
  · simp [dot]
  · rw [dot_div]
    apply div_nonneg _ (norm_nonneg _)
    split
    · rw [dot_neg]
      linarith
    · linarith

theorem contribution_norm (estimation origin sample : V3) : ‖contribution estimation origin sample‖ = 0 ∨ ‖contribution estimation origin sample‖ = 1 := by
  unfold contribution
  dsimp only
  split
  · left
    simp
  · right
    rename_i h
    have h0 : ‖sampleNormal estimation sample‖ ≠ 0 := by
      intro h0
      rw [h0] at h
      exact h (by norm_num)
    have h1 : ‖(if dot (sampleNormal estimation sample) (toSensor origin estimation) < 0 then -sampleNormal estimation sample else sampleNormal estimation sample)‖ =
        ‖sampleNormal estimation sample‖ := by
      split
      · exact norm_neg _
      · rfl
    rw [norm_div, Complex.norm_real, norm_norm]
    rw [h1]
    exact div_self h0

theorem meanNormal_dot (points : List V3) (origin : V3) (i b e : ℕ) : 0 ≤ dot (meanNormal points origin i b e) (toSensor origin (at' points i)) := by
  rw [meanNormal_eq]
  induction samplesOf points i b e with
  | nil => simp [dot]
  | cons s l ih =>
    rw [List.map_cons, List.sum_cons, dot_add]
    exact add_nonneg (contribution_dot _ _ _) ih

/-- **C92, normals face the sensor.** Unless the contributions cancel, the normal of a point encloses at most a right angle with the direction to the sensor. -/
theorem faces_sensor {points : List V3} {origin : V3} {i b e : ℕ} (h : 2 ≤ e - b) (hm : meanNormal points origin i b e ≠ 0) :
    0 ≤ dot (direction (estimateNormal points origin i b e)) (toSensor origin (at' points i)) := by
  unfold estimateNormal
  rw [if_neg (by omega), direction_arg hm, dot_div]
  exact div_nonneg (meanNormal_dot _ _ _ _ _) (norm_nonneg _)

/-- Without samples the normal is the direction to the sensor. -/
theorem alone {points : List V3} {origin : V3} {i b e : ℕ} (h : e - b < 2)
    (hne : (⟨(toSensor origin (at' points i)).x, (toSensor origin (at' points i)).y⟩ : ℂ) ≠ 0) :
    direction (estimateNormal points origin i b e) = ⟨(toSensor origin (at' points i)).x, (toSensor origin (at' points i)).y⟩ /
      ‖(⟨(toSensor origin (at' points i)).x, (toSensor origin (at' points i)).y⟩ : ℂ)‖ := by
  unfold estimateNormal
  rw [if_pos h, direction_arg hne]

/-! ### Walls -/

theorem contribution_wall {estimation origin sample : V3} {u : ℂ} (hu : ‖u‖ = 1) (hline : dot u ⟨sample.x - estimation.x, sample.y - estimation.y, 0⟩ = 0)
    (hside : 0 < dot u (toSensor origin estimation)) :
    contribution estimation origin sample = if ‖sampleNormal estimation sample‖ < 1 / 1000000 then 0 else u := by
  have hu2 : u.re * u.re + u.im * u.im = 1 := by
    have := Complex.sq_norm u
    rw [hu, Complex.normSq_apply] at this
    linarith
  obtain ⟨s, hs⟩ : ∃ s : ℝ, sampleNormal estimation sample = s * u := by
    refine ⟨u.re * (sampleNormal estimation sample).re + u.im * (sampleNormal estimation sample).im, ?_⟩
    have hl : u.re * (sample.x - estimation.x) + u.im * (sample.y - estimation.y) = 0 := hline
    apply Complex.ext
    · simp only [sampleNormal, Complex.mul_re, Complex.ofReal_re, Complex.ofReal_im, zero_mul, sub_zero]
      linear_combination (-(estimation.y - sample.y)) * (-hu2) + u.im * (hl)
    · simp only [sampleNormal, Complex.mul_im, Complex.ofReal_re, Complex.ofReal_im, zero_mul, add_zero]
      linear_combination (estimation.x - sample.x) * (-hu2) - u.re * (hl)
  have hnorm : ‖sampleNormal estimation sample‖ = |s| := by
    rw [hs, norm_mul, hu, mul_one, Complex.norm_real, Real.norm_eq_abs]
  have hdot : dot (sampleNormal estimation sample) (toSensor origin estimation) = s * dot u (toSensor origin estimation) := by
    rw [hs]
    simp only [dot, Complex.mul_re, Complex.mul_im, Complex.ofReal_re, Complex.ofReal_im, zero_mul, sub_zero, add_zero]
    ring
  unfold contribution
  dsimp only
  split
  · rfl
  · rename_i h
    rw [hnorm] at h
    have hs0 : s ≠ 0 := by
      rintro rfl
      rw [abs_zero] at h
      exact h (by norm_num)
    rw [hdot]
    rcases lt_or_gt_of_ne hs0 with hneg | hpos
    · rw [if_pos (mul_neg_of_neg_of_pos hneg hside), norm_neg, hnorm, abs_of_neg hneg, hs]
      have : ((-s : ℝ) : ℂ) ≠ 0 := by
        rw [Complex.ofReal_ne_zero]
        exact neg_ne_zero.2 hs0
      rw [div_eq_iff this]
      push_cast
      ring
    · rw [if_neg (not_lt.2 (mul_pos hpos hside).le), hnorm, abs_of_pos hpos, hs]
      have : ((s : ℝ) : ℂ) ≠ 0 := by
        rw [Complex.ofReal_ne_zero]
        exact hs0
      rw [div_eq_iff this]
      ring

/-- **C92, walls.** If the samples lie on a line through the point, seen from above, and not all of them are at it, then the normal is exactly perpendicular to the
line, on the side of the sensor. -/
theorem wall {points : List V3} {origin : V3} {i b e : ℕ} (h : 2 ≤ e - b) {u : ℂ} (hu : ‖u‖ = 1)
    (hline : ∀ p ∈ samplesOf points i b e, dot u ⟨p.x - (at' points i).x, p.y - (at' points i).y, 0⟩ = 0)
    (hside : 0 < dot u (toSensor origin (at' points i)))
    (hsome : ∃ p ∈ samplesOf points i b e, 1 / 1000000 ≤ ‖sampleNormal (at' points i) p‖) :
    direction (estimateNormal points origin i b e) = u := by
  have hsum : ∀ l : List V3, (∀ p ∈ l, dot u ⟨p.x - (at' points i).x, p.y - (at' points i).y, 0⟩ = 0) →
      ∃ k : ℕ, (l.map (contribution (at' points i) origin)).sum = (k : ℂ) * u ∧ ((∃ p ∈ l, 1 / 1000000 ≤ ‖sampleNormal (at' points i) p‖) → 0 < k) := by
    intro l
    induction l with
    | nil => intro _; exact ⟨0, by simp, by simp⟩
    | cons p l ih =>
      intro hl
      obtain ⟨k, hk, hp⟩ := ih (fun q hq => hl q (List.mem_cons_of_mem _ hq))
      rw [List.map_cons, List.sum_cons, contribution_wall hu (hl p List.mem_cons_self) hside, hk]
      by_cases hsm : ‖sampleNormal (at' points i) p‖ < 1 / 1000000
      · refine ⟨k, by rw [if_pos hsm]; ring, ?_⟩
        rintro ⟨q, hq, hqn⟩
        rcases List.mem_cons.1 hq with rfl | hq
        · exact absurd hsm (not_lt.2 hqn)
        · exact hp ⟨q, hq, hqn⟩
      · refine ⟨k + 1, ?_, fun _ => Nat.succ_pos _⟩
        rw [if_neg hsm]
        push_cast
        ring
  obtain ⟨k, hk, hpos⟩ := hsum _ hline
  have hk0 := hpos hsome
  have hu0 : u ≠ 0 := by
    intro hu0
    rw [hu0, norm_zero] at hu
    norm_num at hu
  have hkc : (k : ℂ) ≠ 0 := by exact_mod_cast hk0.ne'
  have hm : meanNormal points origin i b e = (k : ℂ) * u := by rw [meanNormal_eq, hk]
  unfold estimateNormal
  rw [if_neg (by omega), hm, direction_arg (mul_ne_zero hkc hu0), norm_mul, hu, mul_one, Complex.norm_natCast]
  rw [Complex.ofReal_natCast]
  field_simp

/-! ### Turned scans -/

/-- A point turned about the z axis by the direction `w` and moved. -/
def moved (w : ℂ) (t : V3) (p : V3) : V3 := ⟨w.re * p.x - w.im * p.y + t.x, w.im * p.x + w.re * p.y + t.y, p.z + t.z⟩

theorem unit_sq {w : ℂ} (hw : ‖w‖ = 1) : w.re * w.re + w.im * w.im = 1 := by
  have := Complex.sq_norm w
  rw [hw, Complex.normSq_apply] at this
  linarith

theorem distance_moved {w : ℂ} (hw : ‖w‖ = 1) (t a b : V3) : distance (moved w t a) (moved w t b) = distance a b := by
  unfold distance V3.norm moved
  congr 1
  have := unit_sq hw
  linear_combination ((a.x - b.x) ^ 2 + (a.y - b.y) ^ 2) * this

theorem sampleNormal_moved (w : ℂ) (t a b : V3) : sampleNormal (moved w t a) (moved w t b) = w * sampleNormal a b := by
  apply Complex.ext
  · simp only [sampleNormal, moved, Complex.mul_re]
    ring
  · simp only [sampleNormal, moved, Complex.mul_im]
    ring

theorem dot_moved {w : ℂ} (hw : ‖w‖ = 1) (n : ℂ) (t o a : V3) : dot (w * n) (toSensor (moved w t o) (moved w t a)) = dot n (toSensor o a) := by
  have := unit_sq hw
  simp only [dot, toSensor, moved, Complex.mul_re, Complex.mul_im]
  linear_combination (n.re * (o.x - a.x) + n.im * (o.y - a.y)) * this

theorem contribution_moved {w : ℂ} (hw : ‖w‖ = 1) (t a o s : V3) : contribution (moved w t a) (moved w t o) (moved w t s) = w * contribution a o s := by
  unfold contribution
  dsimp only
  rw [sampleNormal_moved, dot_moved hw, norm_mul, hw, one_mul]
  split
  · simp
  · split
    · rw [norm_neg, norm_neg, norm_mul, hw, one_mul]
      ring
    · rw [norm_mul, hw, one_mul]
      ring

theorem at'_moved {w : ℂ} {t : V3} {points : List V3} {i : ℕ} (hi : i < points.length) : at' (points.map (moved w t)) i = moved w t (at' points i) := by
  unfold at'
  rw [List.getD_eq_getElem?_getD, List.getD_eq_getElem?_getD, List.getElem?_map, List.getElem?_eq_getElem hi]
  rfl

theorem windowBegin_moved {w : ℂ} (hw : ‖w‖ = 1) {t : V3} {points : List V3} {samples : ℕ} {radius : ℝ} {i : ℕ} (hi : i < points.length) : ∀ b, b ≤ i →
    windowBegin (points.map (moved w t)) samples radius i b = windowBegin points samples radius i b := by
  intro b
  induction b with
  | zero => intro _; rfl
  | succ b ih =>
    intro hb
    unfold windowBegin
    rw [at'_moved hi, at'_moved (show b < points.length by omega), distance_moved hw, ih (by omega)]

theorem windowEnd_moved {w : ℂ} (hw : ‖w‖ = 1) {t : V3} {points : List V3} {samples : ℕ} {radius : ℝ} {i : ℕ} (hi : i < points.length) : ∀ n e,
    windowEnd (points.map (moved w t)) samples radius i n e = windowEnd points samples radius i n e := by
  intro n
  induction n with
  | zero => intro e; rfl
  | succ n ih =>
    intro e
    unfold windowEnd
    by_cases he : e < points.length
    · rw [at'_moved hi, at'_moved he, distance_moved hw, ih, List.length_map]
    · rw [if_neg (by simp [he]), if_neg (by simp [he])]

theorem meanNormal_moved {w : ℂ} (hw : ‖w‖ = 1) {t : V3} {points : List V3} {origin : V3} {i b e : ℕ} (hi : i < points.length) (he : e ≤ points.length) :
    meanNormal (points.map (moved w t)) (moved w t origin) i b e = w * meanNormal points origin i b e := by
  rw [meanNormal_eq, meanNormal_eq]
  have hs : samplesOf (points.map (moved w t)) i b e = (samplesOf points i b e).map (moved w t) := by
    unfold samplesOf
    rw [List.map_map]
    apply List.map_congr_left
    intro j hj
    have := (List.mem_range'_1.1 (List.mem_filter.1 hj).1)
    exact at'_moved (by omega)
  rw [hs, at'_moved hi]
  induction samplesOf points i b e with
  | nil => simp
  | cons s l ih =>
    simp only [List.map_cons, List.sum_cons]
    rw [contribution_moved hw, ih]
    ring

/-- What the normal of point `i` is the direction of. -/
noncomputable def rawNormal (points : List V3) (origin : V3) (i b e : ℕ) : ℂ :=
  if e - b < 2 then ⟨(toSensor origin (at' points i)).x, (toSensor origin (at' points i)).y⟩ else meanNormal points origin i b e

theorem estimateNormal_raw (points : List V3) (origin : V3) (i b e : ℕ) : estimateNormal points origin i b e = (rawNormal points origin i b e).arg := by
  unfold estimateNormal rawNormal
  split <;> rfl

/-- **C92, turned scans.** If the scan and the sensor are turned about the vertical axis and moved, each normal turns with them (unless the contributions cancel). -/
theorem normals_turn {w : ℂ} (hw : ‖w‖ = 1) (t : V3) {points : List V3} {origin : V3} {samples : ℕ} {radius : ℝ} (hr : 0 < radius) {i : ℕ} (hi : i < points.length)
    (hne : rawNormal points origin i (windowBegin points samples radius i i) (windowEnd points samples radius i points.length i) ≠ 0) :
    ∃ a a', (estimateNormals points origin samples radius)[i]? = some a ∧
      (estimateNormals (points.map (moved w t)) (moved w t origin) samples radius)[i]? = some a' ∧ direction a' = w * direction a := by
  obtain ⟨b, e, hb, he, _, _, hle, _⟩ := window_spec (samples := samples) hr hi
  rw [hb, he] at hne
  refine ⟨estimateNormal points origin i b e, estimateNormal (points.map (moved w t)) (moved w t origin) i b e, ?_, ?_, ?_⟩
  · unfold estimateNormals
    rw [List.getElem?_map, List.getElem?_range hi, Option.map_some, hb, he]
  · unfold estimateNormals
    rw [List.getElem?_map, List.length_map, List.getElem?_range hi, Option.map_some, windowBegin_moved hw hi i (le_refl i), windowEnd_moved hw hi, hb, he]
  · have hraw : rawNormal (points.map (moved w t)) (moved w t origin) i b e = w * rawNormal points origin i b e := by
      unfold rawNormal
      rw [meanNormal_moved hw hi hle, at'_moved hi]
      split
      · apply Complex.ext
        · simp only [toSensor, moved, Complex.mul_re]
          ring
        · simp only [toSensor, moved, Complex.mul_im]
          ring
      · rfl
    have hw0 : w ≠ 0 := by
      intro h
      rw [h, norm_zero] at hw
      norm_num at hw
    rw [estimateNormal_raw, estimateNormal_raw, hraw, direction_arg (mul_ne_zero hw0 hne), direction_arg hne, norm_mul, hw, one_mul]
    ring

/-- As many normals as points. -/
theorem normals_length (points : List V3) (origin : V3) (samples : ℕ) (radius : ℝ) : (estimateNormals points origin samples radius).length = points.length := by
  simp [estimateNormals]

/-! ### Disagreements and examples -/

/-- **C92, disagreement.** If all samples coincide with the point, the normal is that of the zero vector, the angle 0, also for a sensor on the other side, where a
point without samples gets the direction to the sensor: here the sensor is at `(-1, 0)`. -/
theorem coincident_points : estimateNormal [⟨0, 0, 0⟩, ⟨0, 0, 0⟩] ⟨-1, 0, 0⟩ 0 0 2 = 0 ∧
    dot (direction (estimateNormal [⟨0, 0, 0⟩, ⟨0, 0, 0⟩] ⟨-1, 0, 0⟩ 0 0 2)) (toSensor ⟨-1, 0, 0⟩ ⟨0, 0, 0⟩) = -1 ∧
    direction (estimateNormal [⟨0, 0, 0⟩] ⟨-1, 0, 0⟩ 0 0 1) = -1 := by
  have h0 : contribution ⟨0, 0, 0⟩ ⟨-1, 0, 0⟩ ⟨0, 0, 0⟩ = 0 := by
    unfold contribution
    have : sampleNormal ⟨0, 0, 0⟩ ⟨0, 0, 0⟩ = 0 := by
      apply Complex.ext <;> simp [sampleNormal]
    rw [this]
    simp
  have h1 : meanNormal [⟨0, 0, 0⟩, ⟨0, 0, 0⟩] ⟨-1, 0, 0⟩ 0 0 2 = 0 := by
    rw [meanNormal_eq]
    simp [samplesOf, List.range', at', h0]
  have h2 : estimateNormal [⟨0, 0, 0⟩, ⟨0, 0, 0⟩] ⟨-1, 0, 0⟩ 0 0 2 = 0 := by
    unfold estimateNormal
    rw [if_neg (by norm_num), h1, Complex.arg_zero]
  refine ⟨h2, ?_, ?_⟩
  · rw [h2]
    simp [dot, direction, toSensor]
  · have hz : (⟨(toSensor ⟨-1, 0, 0⟩ (at' [⟨0, 0, 0⟩] 0)).x, (toSensor ⟨-1, 0, 0⟩ (at' [⟨0, 0, 0⟩] 0)).y⟩ : ℂ) = -1 := by
      apply Complex.ext <;> simp [toSensor, at']
    rw [alone (by norm_num) (by rw [hz]; simp), hz]
    simp

/-- **C92, disagreement.** Along a line of sight neighbours on both sides are not flipped and cancel: the angle is 0, here with the sensor at `(-5, 0)` behind it. -/
theorem grazing : estimateNormal [⟨-1, 0, 0⟩, ⟨0, 0, 0⟩, ⟨1, 0, 0⟩] ⟨-5, 0, 0⟩ 1 0 3 = 0 := by
  have hc : ∀ s : ℝ, |s| = 1 → contribution ⟨0, 0, 0⟩ ⟨-5, 0, 0⟩ ⟨s, 0, 0⟩ = -s * Complex.I := by
    intro s hs
    have hn : sampleNormal ⟨0, 0, 0⟩ ⟨s, 0, 0⟩ = -s * Complex.I := by
      apply Complex.ext <;> simp [sampleNormal]
    have hnn : ‖-(s : ℂ) * Complex.I‖ = 1 := by
      rw [norm_mul, norm_neg, Complex.norm_I, mul_one, Complex.norm_real, Real.norm_eq_abs, hs]
    unfold contribution
    dsimp only
    rw [hn, hnn, if_neg (by norm_num), if_neg (by simp [dot, toSensor]), hnn]
    simp
  have h1 : meanNormal [⟨-1, 0, 0⟩, ⟨0, 0, 0⟩, ⟨1, 0, 0⟩] ⟨-5, 0, 0⟩ 1 0 3 = 0 := by
    rw [meanNormal_eq]
    have e1 := hc (-1) (by norm_num)
    have e2 := hc 1 (by norm_num)
    simp [samplesOf, List.range', at', e1, e2]
  unfold estimateNormal
  rw [if_neg (by norm_num), h1, Complex.arg_zero]

/-- A wall along the x axis with the sensor above: the normal is `(0, 1)`. -/
example : direction (estimateNormal [⟨-1, 0, 0⟩, ⟨0, 0, 0⟩, ⟨2, 0, 0⟩] ⟨5, 3, 0⟩ 1 0 3) = Complex.I := by
  apply wall (by norm_num) Complex.norm_I
  · intro p hp
    have : p = ⟨-1, 0, 0⟩ ∨ p = ⟨2, 0, 0⟩ := by
      simpa [samplesOf, List.range', at'] using hp
    rcases this with rfl | rfl <;> simp [dot, at']
  · simp [dot, toSensor, at']
  · refine ⟨⟨2, 0, 0⟩, by simp [samplesOf, List.range', at'], ?_⟩
    have : sampleNormal (at' [⟨-1, 0, 0⟩, ⟨0, 0, 0⟩, ⟨2, 0, 0⟩] 1) ⟨2, 0, 0⟩ = -2 * Complex.I := by
      apply Complex.ext <;> simp [sampleNormal, at']
    rw [this]
    norm_num

end Verif.NormalEstimation
