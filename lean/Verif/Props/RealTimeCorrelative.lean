import Verif.RealTimeCorrelative
import Verif.Props.Rigid
import Verif.Props.SubmapTexture
import Verif.Props.Tsdf2D
import Verif.Props.HybridGridUpdate

/-!
# C74, C75: what real-time correlative scan matching finds
-/

namespace Verif.RealTime

open Verif.Rigid Verif.Grid2D Verif.Prob

/-! ### Rounding and windows -/

theorem round_bounds (x : ℝ) : (round x : ℝ) - 1 / 2 ≤ x ∧ x ≤ round x + 1 / 2 := by
  unfold round
  split
  · have h1 := Int.floor_le (x + 1 / 2)
    have h2 := Int.lt_floor_add_one (x + 1 / 2)
    constructor <;> linarith
  · have h1 := Int.le_ceil (x - 1 / 2)
    have h2 := Int.ceil_lt_add_one (x - 1 / 2)
    constructor <;> linarith

theorem round_nonneg {x : ℝ} (h : 0 ≤ x) : 0 ≤ round x := by
  rw [round, if_pos h]
  exact Int.floor_nonneg.2 (by linarith)

/-- `RoundToInt(t - 0.5)` is the largest integer not above `t` for all `t > 0` and for all `t` that are not integers. -/
theorem round_sub_half {t : ℝ} (h : 0 < t ∨ ∀ z : Int, t ≠ z) : round (t - 1 / 2) = ⌊t⌋ := by
  unfold round
  split
  · congr 1; ring
  · rename_i h0
    push Not at h0
    have e : t - 1 / 2 - 1 / 2 = t - 1 := by ring
    rw [e]
    have h1 := Int.floor_le t
    have h2 := Int.lt_floor_add_one t
    rw [Int.ceil_eq_iff]
    rcases h with h | h
    · have : ⌊t⌋ = 0 := Int.floor_eq_zero_iff.2 ⟨h.le, by linarith⟩
      rw [this]
      push_cast
      constructor <;> linarith
    · have := lt_of_le_of_ne h1 (Ne.symm (h _))
      constructor <;> linarith

/-- On the border of the map a point belongs to the cell outside. -/
theorem round_border : round ((0 : ℝ) - 1 / 2) = -1 := by
  rw [round, if_neg (by norm_num)]
  norm_num

theorem mem_window {n i : Int} : i ∈ window n ↔ -n ≤ i ∧ i ≤ n := by
  unfold window
  simp only [List.mem_map, List.mem_range]
  constructor
  · rintro ⟨k, hk, rfl⟩; omega
  · rintro ⟨h1, h2⟩; exact ⟨(i + n).toNat, by omega, by omega⟩

theorem length_window (n : Int) : (window n).length = (2 * n + 1).toNat := by simp [window]

/-- Every offset of the window has a multiple of the step among those searched that is not farther than half a step. -/
theorem covered {s w d : ℝ} (hs : 0 < s) {n : Int} (hn : w ≤ (n + 1 / 2) * s) (hd : |d| ≤ w) : ∃ i : Int, -n ≤ i ∧ i ≤ n ∧ |d - i * s| ≤ s / 2 := by
  obtain ⟨h1, h2⟩ := abs_le.1 hd
  obtain ⟨b1, b2⟩ := round_bounds (d / s)
  have e : d / s * s = d := div_mul_cancel₀ _ hs.ne'
  have c1 : (round (d / s) - 1 / 2) * s ≤ d := by nlinarith
  have c2 : d ≤ (round (d / s) + 1 / 2) * s := by nlinarith
  by_cases g1 : round (d / s) ≤ n
  · by_cases g2 : -n ≤ round (d / s)
    · exact ⟨_, g2, g1, abs_le.2 ⟨by linarith, by linarith⟩⟩
    · have g3 : round (d / s) + 1 ≤ -n := by omega
      have g4 : (round (d / s) : ℝ) + 1 ≤ -n := by exact_mod_cast g3
      have hn0 : 0 ≤ n := by
        by_contra hc
        have h3 : (n : ℝ) + 1 ≤ 0 := by exact_mod_cast (by omega : n + 1 ≤ 0)
        have := abs_nonneg d
        nlinarith
      refine ⟨-n, le_refl _, by omega, abs_le.2 ⟨?_, ?_⟩⟩
      · push_cast; nlinarith
      · push_cast; nlinarith
  · have g3 : n + 1 ≤ round (d / s) := by omega
    have g4 : (n : ℝ) + 1 ≤ round (d / s) := by exact_mod_cast g3
    have hn0 : 0 ≤ n := by
      by_contra hc
      have h3 : (n : ℝ) + 1 ≤ 0 := by exact_mod_cast (by omega : n + 1 ≤ 0)
      have := abs_nonneg d
      nlinarith
    refine ⟨n, by omega, le_refl _, abs_le.2 ⟨?_, ?_⟩⟩
    · nlinarith
    · nlinarith

/-! ### The angular step -/

theorem foldl_max_le (l : List ℝ) (m : ℝ) : m ≤ l.foldl (fun m r => max r m) m ∧ ∀ r ∈ l, r ≤ l.foldl (fun m r => max r m) m := by
  induction l generalizing m with
  | nil => simp
  | cons a l ih =>
    obtain ⟨h1, h2⟩ := ih (max a m)
    refine ⟨le_trans (le_max_right _ _) h1, List.forall_mem_cons.2 ⟨le_trans (le_max_left _ _) h1, h2⟩⟩

theorem step_bounds {r R : ℝ} (hr : 0 < r) (hR : 3 * r ≤ R) : 0 < angularStep r R ∧ angularStep r R ≤ Real.pi ∧
    1 - r ^ 2 / (2 * R ^ 2) ≤ Real.cos (angularStep r R) := by
  have hR0 : 0 < R := by linarith
  have x0 : 0 < r ^ 2 / (2 * R ^ 2) := by positivity
  have x1 : r ^ 2 / (2 * R ^ 2) ≤ 1 := by rw [div_le_one (by positivity)]; nlinarith
  have a0 : 0 < Real.arccos (1 - r ^ 2 / (2 * R ^ 2)) := Real.arccos_pos.2 (by linarith)
  have a1 := Real.arccos_le_pi (1 - r ^ 2 / (2 * R ^ 2))
  have s0 : angularStep r R ≤ Real.arccos (1 - r ^ 2 / (2 * R ^ 2)) := by unfold angularStep; nlinarith
  have s1 : 0 < angularStep r R := by unfold angularStep; exact mul_pos (by norm_num) a0
  refine ⟨s1, s0.trans a1, ?_⟩
  have := Real.cos_le_cos_of_nonneg_of_le_pi s1.le a1 s0
  rwa [Real.cos_arccos (by linarith) (by linarith)] at this

theorem norm2_sq (p : V2) : norm2 p ^ 2 = p.x ^ 2 + p.y ^ 2 := by
  unfold norm2
  rw [Real.sq_sqrt (by nlinarith [sq_nonneg p.x, sq_nonneg p.y])]
  ring

theorem norm2_nonneg (p : V2) : 0 ≤ norm2 p := Real.sqrt_nonneg _

theorem norm2_rotate (a : ℝ) (p : V2) : norm2 (rotate2 a p) = norm2 p := by
  unfold norm2 rotate2
  congr 1
  have := Real.sin_sq_add_cos_sq a
  linear_combination (p.x ^ 2 + p.y ^ 2) * this

/-- The chord of a rotation by `s`. -/
theorem chord (a s : ℝ) (p : V2) :
    norm2 ⟨(rotate2 (a + s) p).x - (rotate2 a p).x, (rotate2 (a + s) p).y - (rotate2 a p).y⟩ ^ 2 = 2 * (1 - Real.cos s) * norm2 p ^ 2 := by
  rw [norm2_sq, norm2_sq]
  have h1 := Real.sin_sq_add_cos_sq a
  have h2 := Real.sin_sq_add_cos_sq s
  simp only [rotate2, Real.cos_add, Real.sin_add]
  linear_combination (p.x ^ 2 + p.y ^ 2) * (Real.sin s ^ 2 + (Real.cos s - 1) ^ 2) * h1 + (p.x ^ 2 + p.y ^ 2) * h2

/-- The step found for some ranges. -/
theorem step_pos {r : ℝ} (hr : 0 < r) (l : List ℝ) : 0 < angularStep r (maxRange r l) := (step_bounds hr (foldl_max_le l _).1).1

/-- **C74**: one angular step moves no point of the scan by more than the edge of a cell. -/
theorem step_fine {r : ℝ} (hr : 0 < r) (points : List V2) (a : ℝ) {p : V2} (hp : p ∈ points) :
    norm2 ⟨(rotate2 (a + angularStep r (maxRange r (points.map norm2))) p).x - (rotate2 a p).x,
      (rotate2 (a + angularStep r (maxRange r (points.map norm2))) p).y - (rotate2 a p).y⟩ ≤ r := by
  have hR : 3 * r ≤ maxRange r (points.map norm2) := (foldl_max_le _ _).1
  have hp' : norm2 p ≤ maxRange r (points.map norm2) := (foldl_max_le _ _).2 _ (List.mem_map_of_mem hp)
  generalize maxRange r (points.map norm2) = R at *
  obtain ⟨s0, s1, s2⟩ := step_bounds hr hR
  have hR0 : 0 < R := by linarith
  have h := chord a (angularStep r R) p
  have n0 := norm2_nonneg p
  have c : (1 - Real.cos (angularStep r R)) ≤ r ^ 2 / (2 * R ^ 2) := by linarith
  have e : 2 * (r ^ 2 / (2 * R ^ 2)) * R ^ 2 = r ^ 2 := by field_simp
  have c0 : 0 ≤ 1 - Real.cos (angularStep r R) := by linarith [Real.cos_le_one (angularStep r R)]
  have q : norm2 p ^ 2 ≤ R ^ 2 := by nlinarith
  refine le_of_sq_le_sq ?_ hr.le
  rw [h]
  calc 2 * (1 - Real.cos (angularStep r R)) * norm2 p ^ 2 ≤ 2 * (r ^ 2 / (2 * R ^ 2)) * R ^ 2 := by
        apply mul_le_mul _ q (sq_nonneg _) (by positivity)
        linarith
    _ = r ^ 2 := e

/-! ### The best of all candidates -/

theorem foldl_best {α : Type} (cs : List (α × ℝ)) (b : α × ℝ) :
    let m := cs.foldl (fun best c => if best.2 < c.2 then c else best) b
    (m = b ∨ m ∈ cs) ∧ b.2 ≤ m.2 ∧ ∀ c ∈ cs, c.2 ≤ m.2 := by
  induction cs generalizing b with
  | nil => simp
  | cons c cs ih =>
    simp only [List.foldl_cons]
    obtain ⟨h1, h2, h3⟩ := ih (if b.2 < c.2 then c else b)
    by_cases h : b.2 < c.2
    · simp only [if_pos h] at h1 h2 h3 ⊢
      refine ⟨?_, by linarith, List.forall_mem_cons.2 ⟨h2, h3⟩⟩
      rcases h1 with h1 | h1
      · exact Or.inr (by rw [h1]; simp)
      · exact Or.inr (by simp [h1])
    · simp only [if_neg h] at h1 h2 h3 ⊢
      refine ⟨?_, h2, List.forall_mem_cons.2 ⟨by linarith, h3⟩⟩
      rcases h1 with h1 | h1
      · exact Or.inl h1
      · exact Or.inr (by simp [h1])

theorem maxElement_spec {α : Type} {l : List (α × ℝ)} (h : l ≠ []) : ∃ b ∈ l, maxElement l = some b ∧ ∀ c ∈ l, c.2 ≤ b.2 := by
  cases l with
  | nil => exact absurd rfl h
  | cons c cs =>
    obtain ⟨h1, h2, h3⟩ := foldl_best cs c
    refine ⟨_, ?_, rfl, List.forall_mem_cons.2 ⟨h2, h3⟩⟩
    rcases h1 with h1 | h1
    · rw [h1]; simp
    · simp [h1]

theorem mapM_all {α β : Type} {f : α → Option β} {g : α → β} (l : List α) (h : ∀ a ∈ l, f a = some (g a)) :
    l.mapM f = some (l.map g) := by
  induction l with
  | nil => rfl
  | cons a l ih => simp [List.mapM_cons, h a (by simp), ih (fun b hb => h b (by simp [hb]))]

theorem sum_const {α : Type} (l : List α) (c : Int) : (l.map fun _ => c).sum = l.length * c := by
  induction l with
  | nil => simp
  | cons a l ih => simp only [List.map_cons, List.sum_cons, ih, List.length_cons]; push_cast; ring

/-- The check of the number of candidates does not fail, and the candidates are those of the window. -/
theorem candidates_spec {s : Search} (h : 0 ≤ s.linear) : ∃ cs, candidates s = some cs ∧ ∀ c, c ∈ cs ↔
    ∃ (k : Nat) (dx dy : Int), k < s.scans ∧ (-s.linear ≤ dx ∧ dx ≤ s.linear) ∧ (-s.linear ≤ dy ∧ dy ≤ s.linear) ∧ c = Candidate.new s k dx dy := by
  unfold candidates
  simp only
  rw [if_pos]
  · refine ⟨_, rfl, fun c => ?_⟩
    simp only [List.mem_flatMap, List.mem_range, List.mem_map, mem_window]
    constructor
    · rintro ⟨k, hk, dx, hdx, dy, hdy, rfl⟩; exact ⟨k, dx, dy, hk, hdx, hdy, rfl⟩
    · rintro ⟨k, dx, dy, hk, hdx, hdy, rfl⟩; exact ⟨k, hk, dx, hdx, dy, hdy, rfl⟩
  · rw [sum_const]
    simp only [List.length_flatMap, List.length_map, length_window, List.length_range, List.map_const', List.sum_replicate, smul_eq_mul]
    push_cast
    have : ((2 * s.linear + 1).toNat : Int) = 2 * s.linear + 1 := by omega
    rw [Int.toNat_of_nonneg (by omega)]
    ring

/-! ### Two dimensions -/

/-- The pose that is `i` and `j` cells and `k` angular steps away. -/
noncomputable def poseAt (resolution step : ℝ) (initial : Rigid2) (i j k : Int) : Rigid2 :=
  ⟨⟨initial.translation.x + i * resolution, initial.translation.y + j * resolution⟩, initial.angle + k * step⟩

/-- The offsets that are searched. -/
structure InWindow (linear angular : Int) (i j k : Int) : Prop where
  x : -linear ≤ i ∧ i ≤ linear
  y : -linear ≤ j ∧ j ≤ linear
  angle : -angular ≤ k ∧ k ≤ angular

/-- A candidate is worth less the farther away it is from the initial pose. -/
noncomputable def discount (o : Options) (d a : ℝ) : ℝ := Real.exp (-(d * o.translationWeight + |a| * o.rotationWeight) ^ 2)

theorem discount_pos (o : Options) (d a : ℝ) : 0 < discount o d a := Real.exp_pos _

theorem discount_le (o : Options) (d a : ℝ) : discount o d a ≤ 1 := by
  unfold discount
  rw [Real.exp_le_one_iff]
  nlinarith [sq_nonneg (d * o.translationWeight + |a| * o.rotationWeight)]

/-- The value of the offset `i`, `j`, `k`: that of the cells of the points of the turned scan, shifted by whole cells, times the
discount. -/
noncomputable def valueAt (o : Options) (F : List (Int × Int) → ℚ) (l : MapLimits) (step : ℝ) (initial : Rigid2) (points : List V2) (i j k : Int) : ℝ :=
  F (points.map fun p => ((cellIndex l ((poseAt l.resolution step initial 0 0 k).apply p)).1 - j, (cellIndex l ((poseAt l.resolution step initial 0 0 k).apply p)).2 - i)) *
    discount o (norm2 ⟨i * l.resolution, j * l.resolution⟩) (k * step)

/-- The angular step for a scan. -/
noncomputable def stepFor (l : MapLimits) (points : List V2) : ℝ := angularStep l.resolution (maxRange l.resolution (points.map norm2))

theorem scan_eq (l : MapLimits) (initial : Rigid2) (points : List V2) {s : Search} {k : Nat} (hk : k < s.scans) :
    (discretize l (rotatedScans (points.map (rotate2 initial.angle)) s) initial.translation)[k]? =
      some (points.map fun p => cellIndex l ((poseAt l.resolution s.step initial 0 0 (k - s.angular)).apply p)) := by
  simp only [discretize, rotatedScans, List.map_map, List.getElem?_map, List.getElem?_range hk, Option.map_some, Function.comp_def]
  congr 2
  funext p
  rw [← rotate2_add]
  simp only [poseAt, Rigid2.apply]
  have : -(s.angular : ℝ) * s.step + k * s.step + initial.angle = initial.angle + ((k - s.angular : Int) : ℝ) * s.step := by push_cast; ring
  rw [this, Int.cast_zero, zero_mul, add_zero, add_zero]

theorem score_eq {o : Options} {cellScore : List (Int × Int) → Int → Int → Option ℚ} {F : List (Int × Int) → ℚ} {l : MapLimits} {initial : Rigid2}
    {points : List V2} {step : ℝ} {A N : Int}
    (hF : ∀ scan : List (Int × Int), scan.length = points.length → ∀ dx dy, cellScore scan dx dy = some (F (scan.map fun c => (c.1 + dx, c.2 + dy))))
    {k : Nat} (hk : k < (⟨l.resolution, step, A, N⟩ : Search).scans) {dx dy : Int} :
    scoreCandidate o cellScore (discretize l (rotatedScans (points.map (rotate2 initial.angle)) ⟨l.resolution, step, A, N⟩) initial.translation)
      (Candidate.new ⟨l.resolution, step, A, N⟩ k dx dy) =
      some (Candidate.new ⟨l.resolution, step, A, N⟩ k dx dy, valueAt o F l step initial points (-dy) (-dx) (k - A)) := by
  unfold scoreCandidate
  rw [show (Candidate.new ⟨l.resolution, step, A, N⟩ k dx dy).scan = k from rfl, scan_eq l initial points hk]
  simp only [Candidate.new, Option.bind_eq_bind, Option.bind_some]
  rw [hF _ (by simp), Option.bind_some]
  simp only [valueAt, discount, penalty, List.map_map, Function.comp_def, sub_neg_eq_add, Int.cast_neg, Int.cast_sub, Int.cast_natCast]

theorem match_core {o : Options} {cellScore : List (Int × Int) → Int → Int → Option ℚ} {F : List (Int × Int) → ℚ} {l : MapLimits} (initial : Rigid2)
    {points : List V2} {step : ℝ} {A N : Int} (hN : 0 ≤ N) (hA : 0 ≤ A)
    (e1 : search o.linearWindow o.angularWindow (points.map (rotate2 initial.angle)) l.resolution = some ⟨l.resolution, step, A, N⟩)
    (hF : ∀ scan : List (Int × Int), scan.length = points.length → ∀ dx dy, cellScore scan dx dy = some (F (scan.map fun c => (c.1 + dx, c.2 + dy)))) :
    ∃ i j k, InWindow N A i j k ∧
      match2 o cellScore l initial points = some (valueAt o F l step initial points i j k, poseAt l.resolution step initial i j k) ∧
      ∀ i' j' k', InWindow N A i' j' k' → valueAt o F l step initial points i' j' k' ≤ valueAt o F l step initial points i j k := by
  obtain ⟨cs, e2, hcs⟩ := candidates_spec (s := ⟨l.resolution, step, A, N⟩) hN
  have hscore : ∀ c ∈ cs, scoreCandidate o cellScore (discretize l (rotatedScans (points.map (rotate2 initial.angle)) ⟨l.resolution, step, A, N⟩) initial.translation) c =
      some (c, valueAt o F l step initial points (-c.dy) (-c.dx) (c.scan - A)) := by
    intro c hc
    obtain ⟨k, dx, dy, hk, hdx, hdy, rfl⟩ := (hcs c).1 hc
    exact score_eq hF hk
  have e3 : cs.mapM (scoreCandidate o cellScore (discretize l (rotatedScans (points.map (rotate2 initial.angle)) ⟨l.resolution, step, A, N⟩) initial.translation)) =
      some (cs.map fun c => (c, valueAt o F l step initial points (-c.dy) (-c.dx) (c.scan - A))) := mapM_all cs hscore
  have hs : (⟨l.resolution, step, A, N⟩ : Search).scans = (2 * A + 1).toNat := rfl
  have hmem : ∀ i j k, InWindow N A i j k → Candidate.new ⟨l.resolution, step, A, N⟩ (k + A).toNat (-j) (-i) ∈ cs := by
    intro i j k ⟨h1, h2, h3⟩
    exact (hcs _).2 ⟨_, _, _, by omega, (by show -N ≤ _ ∧ _ ≤ N; omega), (by show -N ≤ _ ∧ _ ≤ N; omega), rfl⟩
  have h0 := hmem 0 0 0 ⟨by omega, by omega, by omega⟩
  obtain ⟨b, hb, e4, hmax⟩ := maxElement_spec (l := cs.map fun c => (c, valueAt o F l step initial points (-c.dy) (-c.dx) (c.scan - A)))
    (by intro h; rw [List.map_eq_nil_iff] at h; rw [h] at h0; simp at h0)
  obtain ⟨c, hc, rfl⟩ := List.mem_map.1 hb
  obtain ⟨k, dx, dy, hk, hdx, hdy, rfl⟩ := (hcs c).1 hc
  rw [hs] at hk
  change -N ≤ dx ∧ dx ≤ N at hdx
  change -N ≤ dy ∧ dy ≤ N at hdy
  refine ⟨-dy, -dx, k - A, ⟨by omega, by omega, by omega⟩, ?_, ?_⟩
  · simp only [match2, e1, e2, e3, e4, Option.bind_eq_bind, Option.bind_some, Candidate.new, poseAt]
    simp only [Int.cast_neg, Int.cast_sub, Int.cast_natCast]
  · intro i' j' k' hw
    have := hmax _ (List.mem_map_of_mem (hmem i' j' k' hw))
    have e : (((k' + A).toNat : Nat) : Int) - A = k' := by have := hw.angle; omega
    simpa only [Candidate.new, neg_neg, e] using this

/-- **C74**: the result is the best offset of the window. -/
theorem match_best {o : Options} {cellScore : List (Int × Int) → Int → Int → Option ℚ} {F : List (Int × Int) → ℚ} {l : MapLimits} (initial : Rigid2)
    {points : List V2} (hr : 0 < l.resolution) (hl : 0 ≤ o.linearWindow) (ha : 0 ≤ o.angularWindow)
    (hF : ∀ scan : List (Int × Int), scan.length = points.length → ∀ dx dy, cellScore scan dx dy = some (F (scan.map fun c => (c.1 + dx, c.2 + dy)))) :
    ∃ i j k, InWindow ⌈o.linearWindow / l.resolution⌉ ⌈o.angularWindow / stepFor l points⌉ i j k ∧
      match2 o cellScore l initial points = some (valueAt o F l (stepFor l points) initial points i j k, poseAt l.resolution (stepFor l points) initial i j k) ∧
      ∀ i' j' k', InWindow ⌈o.linearWindow / l.resolution⌉ ⌈o.angularWindow / stepFor l points⌉ i' j' k' →
        valueAt o F l (stepFor l points) initial points i' j' k' ≤ valueAt o F l (stepFor l points) initial points i j k := by
  have hr' : (0 : ℝ) < l.resolution := by exact_mod_cast hr
  have hstep : 0 < stepFor l points := step_pos hr' _
  have hN : 0 ≤ ⌈o.linearWindow / l.resolution⌉ := Int.ceil_nonneg (by positivity)
  have hA : 0 ≤ ⌈o.angularWindow / stepFor l points⌉ := Int.ceil_nonneg (by positivity)
  have es : stepFor l points = angularStep l.resolution (maxRange l.resolution ((points.map (rotate2 initial.angle)).map norm2)) := by
    unfold stepFor
    congr 2
    rw [List.map_map]
    apply List.map_congr_left
    intro p _
    exact (norm2_rotate _ _).symm
  have e1 : search o.linearWindow o.angularWindow (points.map (rotate2 initial.angle)) l.resolution = some ⟨l.resolution, stepFor l points, ⌈o.angularWindow / stepFor l points⌉, ⌈o.linearWindow / l.resolution⌉⟩ := by
    unfold search
    simp only
    rw [← es, if_neg (by omega)]
  exact match_core initial hN hA e1 hF

/-- Shifting by whole cells is the same as moving by multiples of the edge of a cell, unless a coordinate is on the border of two cells. -/
theorem cellIndex_shift {l : MapLimits} (hr : 0 < l.resolution) {p : V2}
    (hx : ∀ z : Int, (l.maxX - p.x) / l.resolution ≠ z) (hy : ∀ z : Int, (l.maxY - p.y) / l.resolution ≠ z) (i j : Int) :
    ((cellIndex l p).1 - j, (cellIndex l p).2 - i) =
      (⌊(l.maxY - (p.y + j * l.resolution)) / l.resolution⌋, ⌊(l.maxX - (p.x + i * l.resolution)) / l.resolution⌋) := by
  have hr' : (0 : ℝ) < l.resolution := by exact_mod_cast hr
  have e : ∀ (m c : ℝ) (i : Int), (m - (c + i * l.resolution)) / l.resolution = (m - c) / l.resolution - (i : ℝ) := by
    intro m c i
    field_simp
    ring
  simp only [cellIndex, round_sub_half (Or.inr hx), round_sub_half (Or.inr hy), e, Int.floor_sub_intCast]

/-- The cell of a point, that is the integer part of its position in cells counted from the corner of the map. -/
noncomputable def cellOf (l : MapLimits) (p : V2) : Int × Int := (⌊(l.maxY - p.y) / l.resolution⌋, ⌊(l.maxX - p.x) / l.resolution⌋)

/-- No coordinate of a point of the turned scans is on the border of two cells. -/
def Generic (l : MapLimits) (initial : Rigid2) (step : ℝ) (angular : Int) (points : List V2) : Prop :=
  ∀ k : Int, -angular ≤ k → k ≤ angular → ∀ p ∈ points, ∀ z : Int,
    (l.maxX - ((poseAt l.resolution step initial 0 0 k).apply p).x) / l.resolution ≠ z ∧
    (l.maxY - ((poseAt l.resolution step initial 0 0 k).apply p).y) / l.resolution ≠ z

theorem valueAt_generic {o : Options} {F : List (Int × Int) → ℚ} {l : MapLimits} (hr : 0 < l.resolution) {step : ℝ} {initial : Rigid2} {points : List V2} {A : Int}
    (hg : Generic l initial step A points) (i j : Int) {k : Int} (h1 : -A ≤ k) (h2 : k ≤ A) :
    valueAt o F l step initial points i j k = F (points.map fun p => cellOf l ((poseAt l.resolution step initial i j k).apply p)) *
      discount o (norm2 ⟨i * l.resolution, j * l.resolution⟩) (k * step) := by
  unfold valueAt
  congr 3
  apply List.map_congr_left
  intro p hp
  rw [cellIndex_shift hr (fun z => (hg k h1 h2 p hp z).1) (fun z => (hg k h1 h2 p hp z).2)]
  simp only [cellOf, poseAt, Rigid2.apply, Int.cast_zero, zero_mul, add_zero, add_assoc]

/-! #### Probability grids -/

/-- The mean probability of some cells. -/
def meanProbability (g : Grid) (cells : List (Int × Int)) : ℚ := (cells.map fun c => Texture.cellProb (val g c)).sum / cells.length

theorem cellProb_any (v : Nat) : 1 / 10 ≤ Texture.cellProb v ∧ Texture.cellProb v ≤ 9 / 10 := by
  have e : Texture.cellProb v = Texture.cellProb (v % 32768) := by
    unfold Texture.cellProb
    rw [valueToCost_mod]
  rw [e]
  rcases Nat.eq_zero_or_pos (v % 32768) with h0 | h0
  · rw [h0]
    simp [Texture.cellProb, costToProbability, valueToCost, valueToBoundedFloat, slowValueToBoundedFloat, maxCost, minProbability]
    norm_num
  · have := Texture.cellProb_range h0 (by omega : v % 32768 ≤ 32767)
    simp only [minProbability, maxProbability] at this
    constructor <;> linarith [this.1, this.2]

theorem cellProb_zero : Texture.cellProb 0 = minProbability := by
  simp [Texture.cellProb, costToProbability, valueToCost, valueToBoundedFloat, slowValueToBoundedFloat, maxCost]

theorem getProbability_any {g : Grid} (w : Wf g) (i : Int × Int) : g.getProbability i = some (Texture.cellProb (val g i)) := by
  by_cases h : g.limits.contains i = true
  · exact getProbability_eq w i h
  · rw [val_out h, cellProb_zero]
    simp [Grid.getProbability, h]

theorem sum_range {α : Type} {f : α → ℚ} {lo hi : ℚ} (hf : ∀ a, lo ≤ f a ∧ f a ≤ hi) (l : List α) :
    lo * l.length ≤ (l.map f).sum ∧ (l.map f).sum ≤ hi * l.length := by
  induction l with
  | nil => simp
  | cons a l ih =>
    simp only [List.map_cons, List.sum_cons, List.length_cons]
    push_cast
    have := hf a
    constructor <;> linarith [this.1, this.2, ih.1, ih.2]

theorem mean_range {α : Type} {f : α → ℚ} {lo hi : ℚ} (hf : ∀ a, lo ≤ f a ∧ f a ≤ hi) {l : List α} (h : l ≠ []) :
    lo ≤ (l.map f).sum / l.length ∧ (l.map f).sum / l.length ≤ hi := by
  have hl : (0 : ℚ) < l.length := by exact_mod_cast List.length_pos_iff.2 h
  obtain ⟨h1, h2⟩ := sum_range hf l
  exact ⟨(le_div_iff₀ hl).2 h1, (div_le_iff₀ hl).2 h2⟩

theorem meanProbability_range (g : Grid) {cells : List (Int × Int)} (h : cells ≠ []) :
    (1 / 10 : ℝ) ≤ (meanProbability g cells : ℝ) ∧ (meanProbability g cells : ℝ) ≤ 9 / 10 := by
  have hm : 1 / 10 ≤ meanProbability g cells ∧ meanProbability g cells ≤ 9 / 10 := mean_range (fun c => cellProb_any _) h
  generalize meanProbability g cells = m at hm
  constructor
  · have := (Rat.cast_le (K := ℝ)).2 hm.1
    push_cast at this
    exact this
  · have := (Rat.cast_le (K := ℝ)).2 hm.2
    push_cast at this
    exact this

theorem foldlM_sum {α : Type} {f : α → Option ℚ} {g : α → ℚ} (h : ∀ a, f a = some (g a)) (l : List α) (x : ℚ) :
    l.foldlM (fun (sum : ℚ) a => (f a).map (sum + ·)) x = some (x + (l.map g).sum) := by
  induction l generalizing x with
  | nil => simp
  | cons a l ih =>
    rw [List.foldlM_cons, h, Option.map_some, Option.bind_eq_bind, Option.bind_some, ih, List.map_cons, List.sum_cons, add_assoc]

theorem probabilityScore_eq {g : Grid} (w : Wf g) {scan : List (Int × Int)} (h : scan ≠ []) (dx dy : Int) :
    probabilityScore g scan dx dy = some (meanProbability g (scan.map fun c => (c.1 + dx, c.2 + dy))) := by
  unfold probabilityScore
  rw [foldlM_sum (g := fun i : Int × Int => Texture.cellProb (val g (i.1 + dx, i.2 + dy))) (fun i => getProbability_any w _)]
  have hl : 0 < scan.length := List.length_pos_iff.2 h
  have hm := mean_range (f := fun i : Int × Int => Texture.cellProb (val g (i.1 + dx, i.2 + dy))) (fun i => cellProb_any _) h
  simp only [Option.bind_eq_bind, Option.bind_some, zero_add]
  rw [if_neg (by omega), if_pos (by linarith [hm.1])]
  simp only [meanProbability, List.map_map, List.length_map, Function.comp_def]

/-- **C74**: with a probability grid and a scan that is not empty the matcher does not fail.  It returns the pose of the window with the
best product of the mean probability of the cells of the points and the discount, and this product. -/
theorem match_probability {g : Grid} (w : Wf g) {o : Options} (initial : Rigid2) {points : List V2} (hp : points ≠ []) (hl : 0 ≤ o.linearWindow)
    (ha : 0 ≤ o.angularWindow) (hg : Generic g.limits initial (stepFor g.limits points) ⌈o.angularWindow / stepFor g.limits points⌉ points) :
    let S := fun i j k : Int => (meanProbability g (points.map fun p => cellOf g.limits ((poseAt g.limits.resolution (stepFor g.limits points) initial i j k).apply p)) : ℝ) *
      discount o (norm2 ⟨i * g.limits.resolution, j * g.limits.resolution⟩) (k * stepFor g.limits points)
    ∃ i j k, InWindow ⌈o.linearWindow / g.limits.resolution⌉ ⌈o.angularWindow / stepFor g.limits points⌉ i j k ∧
      match2 o (probabilityScore g) g.limits initial points = some (S i j k, poseAt g.limits.resolution (stepFor g.limits points) initial i j k) ∧
      0 < S i j k ∧ S i j k ≤ 9 / 10 ∧
      ∀ i' j' k', InWindow ⌈o.linearWindow / g.limits.resolution⌉ ⌈o.angularWindow / stepFor g.limits points⌉ i' j' k' → S i' j' k' ≤ S i j k := by
  intro S
  obtain ⟨i, j, k, hw, hm, hbest⟩ := match_best (o := o) (cellScore := probabilityScore g) (F := meanProbability g) (l := g.limits) initial (points := points) w.res hl ha
    (fun scan hs dx dy => probabilityScore_eq w (by intro h; subst h; exact hp (List.length_eq_zero_iff.1 hs.symm)) dx dy)
  have e : ∀ i j k, InWindow ⌈o.linearWindow / g.limits.resolution⌉ ⌈o.angularWindow / stepFor g.limits points⌉ i j k →
      valueAt o (meanProbability g) g.limits (stepFor g.limits points) initial points i j k = S i j k :=
    fun i j k h => valueAt_generic w.res hg i j h.angle.1 h.angle.2
  refine ⟨i, j, k, hw, by rw [hm, e i j k hw], ?_, ?_, fun i' j' k' h => by rw [← e _ _ _ h, ← e _ _ _ hw]; exact hbest _ _ _ h⟩
  · exact mul_pos (by linarith [(meanProbability_range g (cells := points.map fun p => cellOf g.limits ((poseAt g.limits.resolution (stepFor g.limits points)
      initial i j k).apply p)) (by simpa using hp)).1]) (discount_pos _ _ _)
  · have h1 := meanProbability_range g (cells := points.map fun p => cellOf g.limits ((poseAt g.limits.resolution (stepFor g.limits points)
      initial i j k).apply p)) (by simpa using hp)
    have hd := discount_pos o (norm2 ⟨i * g.limits.resolution, j * g.limits.resolution⟩) (k * stepFor g.limits points)
    have hd' := discount_le o (norm2 ⟨i * g.limits.resolution, j * g.limits.resolution⟩) (k * stepFor g.limits points)
    show _ * _ ≤ _
    nlinarith [h1.1, h1.2]

theorem mapM_none {α β : Type} {f : α → Option β} {l : List α} {a : α} (ha : a ∈ l) (h : f a = none) : l.mapM f = none := by
  induction l with
  | nil => simp at ha
  | cons b l ih =>
    rw [List.mapM_cons]
    rcases List.mem_cons.1 ha with rfl | ha
    · simp [h]
    · cases f b <;> simp [ih ha]

/-- **C74**: with an empty scan the score is not a number, and its check fails. -/
theorem match_empty (g : Grid) {l : MapLimits} {o : Options} (initial : Rigid2) (hr : 0 < l.resolution) (hl : 0 ≤ o.linearWindow) (ha : 0 ≤ o.angularWindow) :
    match2 o (probabilityScore g) l initial [] = none := by
  have hr' : (0 : ℝ) < l.resolution := by exact_mod_cast hr
  have hN : 0 ≤ ⌈o.linearWindow / l.resolution⌉ := Int.ceil_nonneg (by positivity)
  have hstep := step_pos hr' []
  have hA : 0 ≤ ⌈o.angularWindow / angularStep l.resolution (maxRange l.resolution [])⌉ := Int.ceil_nonneg (by positivity)
  have e1 : search o.linearWindow o.angularWindow [] l.resolution = some ⟨l.resolution, angularStep l.resolution (maxRange l.resolution []),
      ⌈o.angularWindow / angularStep l.resolution (maxRange l.resolution [])⌉, ⌈o.linearWindow / l.resolution⌉⟩ := by
    unfold search
    simp only [List.map_nil]
    rw [if_neg (by omega)]
  unfold match2
  simp only [List.map_nil, e1, Option.bind_eq_bind, Option.bind_some]
  generalize ⌈o.angularWindow / angularStep l.resolution (maxRange l.resolution [])⌉ = A at *
  generalize ⌈o.linearWindow / l.resolution⌉ = N at *
  obtain ⟨cs, e2, hcs⟩ := candidates_spec (s := ⟨l.resolution, angularStep l.resolution (maxRange l.resolution []), A, N⟩) hN
  have hk : 0 < (⟨l.resolution, angularStep l.resolution (maxRange l.resolution []), A, N⟩ : Search).scans := by
    show 0 < (2 * A + 1).toNat
    omega
  rw [e2, Option.bind_some, mapM_none ((hcs _).2 ⟨0, 0, 0, hk, (by show -N ≤ _ ∧ _ ≤ N; omega), (by show -N ≤ _ ∧ _ ≤ N; omega), rfl⟩), Option.bind_none]
  have := scan_eq l initial [] hk
  simp only [List.map_nil] at this
  unfold scoreCandidate
  rw [show (Candidate.new ⟨l.resolution, angularStep l.resolution (maxRange l.resolution []), A, N⟩ 0 0 0).scan = 0 from rfl, this]
  simp [probabilityScore]

/-! #### Truncated signed distances -/

/-- The mean of how near the cells are to a surface, weighted with the weights of the cells; zero without weight. -/
def meanNearness (t : Tsdf.Map) (cells : List (Int × Int)) : ℚ :=
  (cells.map fun c => (1 - |Tsdf.valueToTsd t.maxTsd (val t.grid c)| / t.maxTsd) * Tsdf.valueToWeight t.maxWeight (val (Tsdf.wview t) c)).sum /
    (cells.map fun c => Tsdf.valueToWeight t.maxWeight (val (Tsdf.wview t) c)).sum

theorem nearness_range {t : Tsdf.Map} (w : Tsdf.WfT t) (c : Int × Int) :
    0 ≤ 1 - |Tsdf.valueToTsd t.maxTsd (val t.grid c)| / t.maxTsd ∧ 1 - |Tsdf.valueToTsd t.maxTsd (val t.grid c)| / t.maxTsd ≤ 1 := by
  have h := Tsdf.tsd_band w.tsd (val t.grid c)
  have h1 := abs_le.2 h
  have h2 : |Tsdf.valueToTsd t.maxTsd (val t.grid c)| / t.maxTsd ≤ 1 := (div_le_one w.tsd).2 h1
  have h3 : 0 ≤ |Tsdf.valueToTsd t.maxTsd (val t.grid c)| / t.maxTsd := div_nonneg (abs_nonneg _) w.tsd.le
  constructor <;> linarith

theorem meanNearness_range {t : Tsdf.Map} (w : Tsdf.WfT t) (cells : List (Int × Int)) : 0 ≤ meanNearness t cells ∧ meanNearness t cells ≤ 1 := by
  have hs : 0 ≤ (cells.map fun c => (1 - |Tsdf.valueToTsd t.maxTsd (val t.grid c)| / t.maxTsd) * Tsdf.valueToWeight t.maxWeight (val (Tsdf.wview t) c)).sum ∧
      (cells.map fun c => (1 - |Tsdf.valueToTsd t.maxTsd (val t.grid c)| / t.maxTsd) * Tsdf.valueToWeight t.maxWeight (val (Tsdf.wview t) c)).sum ≤
        (cells.map fun c => Tsdf.valueToWeight t.maxWeight (val (Tsdf.wview t) c)).sum := by
    induction cells with
    | nil => simp
    | cons c cells ih =>
      simp only [List.map_cons, List.sum_cons]
      have h1 := nearness_range w c
      have h2 := (Tsdf.weight_band w.wt (val (Tsdf.wview t) c)).1
      have h3 := mul_nonneg h1.1 h2
      have h4 := mul_le_mul_of_nonneg_right h1.2 h2
      constructor <;> linarith [ih.1, ih.2]
  unfold meanNearness
  exact ⟨div_nonneg hs.1 (hs.1.trans hs.2), div_le_one_of_le₀ hs.2 (hs.1.trans hs.2)⟩

theorem foldlM_pair {α : Type} {f : α → Option (ℚ × ℚ)} {a b c d : α → ℚ} (h : ∀ x, f x = some (a x, b x)) {h1 h2 : ℚ × ℚ → ℚ}
    (hc : ∀ x, h1 (a x, b x) = c x) (hd : ∀ x, h2 (a x, b x) = d x) (l : List α) (s : ℚ × ℚ) :
    l.foldlM (fun (s : ℚ × ℚ) x => (f x).map fun q => (s.1 + h1 q, s.2 + h2 q)) s = some (s.1 + (l.map c).sum, s.2 + (l.map d).sum) := by
  induction l generalizing s with
  | nil => simp
  | cons x l ih =>
    rw [List.foldlM_cons, h, Option.map_some, Option.bind_eq_bind, Option.bind_some, ih, hc, hd]
    simp only [List.map_cons, List.sum_cons, add_assoc]

theorem tsdfScore_eq {t : Tsdf.Map} (w : Tsdf.WfT t) (scan : List (Int × Int)) (dx dy : Int) :
    tsdfScore t scan dx dy = some (meanNearness t (scan.map fun c => (c.1 + dx, c.2 + dy))) := by
  have hr := meanNearness_range w (scan.map fun c => (c.1 + dx, c.2 + dy))
  unfold tsdfScore
  rw [foldlM_pair (h1 := fun c => (t.maxTsd - |c.1|) / t.maxTsd * c.2) (h2 := fun c => c.2) (fun i => Tsdf.get_eq w _) (fun _ => rfl) (fun _ => rfl)]
  simp only [Option.bind_eq_bind, Option.bind_some, zero_add]
  have e : ∀ x : ℚ, (t.maxTsd - x) / t.maxTsd = 1 - x / t.maxTsd := fun x => by rw [sub_div, div_self w.tsd.ne']
  simp only [meanNearness, List.map_map, Function.comp_def, e] at hr ⊢
  split
  · rename_i h; rw [h, div_zero]
  · rw [if_pos hr.1]

/-- **C74**: the same with a truncated signed distance function, for every scan. -/
theorem match_tsdf {t : Tsdf.Map} (w : Tsdf.WfT t) {o : Options} (initial : Rigid2) {points : List V2} (hl : 0 ≤ o.linearWindow)
    (ha : 0 ≤ o.angularWindow) (hg : Generic t.grid.limits initial (stepFor t.grid.limits points) ⌈o.angularWindow / stepFor t.grid.limits points⌉ points) :
    let S := fun i j k : Int => (meanNearness t (points.map fun p => cellOf t.grid.limits ((poseAt t.grid.limits.resolution (stepFor t.grid.limits points) initial i j k).apply p)) : ℝ) *
      discount o (norm2 ⟨i * t.grid.limits.resolution, j * t.grid.limits.resolution⟩) (k * stepFor t.grid.limits points)
    ∃ i j k, InWindow ⌈o.linearWindow / t.grid.limits.resolution⌉ ⌈o.angularWindow / stepFor t.grid.limits points⌉ i j k ∧
      match2 o (tsdfScore t) t.grid.limits initial points = some (S i j k, poseAt t.grid.limits.resolution (stepFor t.grid.limits points) initial i j k) ∧
      0 ≤ S i j k ∧ S i j k ≤ 1 ∧
      ∀ i' j' k', InWindow ⌈o.linearWindow / t.grid.limits.resolution⌉ ⌈o.angularWindow / stepFor t.grid.limits points⌉ i' j' k' → S i' j' k' ≤ S i j k := by
  intro S
  obtain ⟨i, j, k, hw, hm, hbest⟩ := match_best (o := o) (cellScore := tsdfScore t) (F := meanNearness t) (l := t.grid.limits) initial (points := points) w.grid.res hl ha
    (fun scan _ dx dy => tsdfScore_eq w scan dx dy)
  have e : ∀ i j k, InWindow ⌈o.linearWindow / t.grid.limits.resolution⌉ ⌈o.angularWindow / stepFor t.grid.limits points⌉ i j k →
      valueAt o (meanNearness t) t.grid.limits (stepFor t.grid.limits points) initial points i j k = S i j k :=
    fun i j k h => valueAt_generic w.grid.res hg i j h.angle.1 h.angle.2
  have hm' := meanNearness_range w (points.map fun p => cellOf t.grid.limits ((poseAt t.grid.limits.resolution (stepFor t.grid.limits points) initial i j k).apply p))
  have hd := discount_pos o (norm2 ⟨i * t.grid.limits.resolution, j * t.grid.limits.resolution⟩) (k * stepFor t.grid.limits points)
  have hd' := discount_le o (norm2 ⟨i * t.grid.limits.resolution, j * t.grid.limits.resolution⟩) (k * stepFor t.grid.limits points)
  have m1 : (0 : ℝ) ≤ (meanNearness t (points.map fun p => cellOf t.grid.limits ((poseAt t.grid.limits.resolution (stepFor t.grid.limits points) initial i j k).apply p)) : ℝ) := by
    exact_mod_cast hm'.1
  have m2 : (meanNearness t (points.map fun p => cellOf t.grid.limits ((poseAt t.grid.limits.resolution (stepFor t.grid.limits points) initial i j k).apply p)) : ℝ) ≤ 1 := by
    exact_mod_cast hm'.2
  refine ⟨i, j, k, hw, by rw [hm, e i j k hw], mul_nonneg m1 hd.le, ?_, fun i' j' k' h => by rw [← e _ _ _ h, ← e _ _ _ hw]; exact hbest _ _ _ h⟩
  show _ * _ ≤ _
  nlinarith

/-- **C74**: no offset of the search window is farther than half a cell, or half an angular step, from those that are compared. -/
theorem window_covered {l : MapLimits} (hr : 0 < l.resolution) (o : Options) (points : List V2) {x y a : ℝ} (hx : |x| ≤ o.linearWindow) (hy : |y| ≤ o.linearWindow)
    (ha : |a| ≤ o.angularWindow) : ∃ i j k, InWindow ⌈o.linearWindow / l.resolution⌉ ⌈o.angularWindow / stepFor l points⌉ i j k ∧
      |x - i * l.resolution| ≤ l.resolution / 2 ∧ |y - j * l.resolution| ≤ l.resolution / 2 ∧ |a - k * stepFor l points| ≤ stepFor l points / 2 := by
  have hr' : (0 : ℝ) < l.resolution := by exact_mod_cast hr
  have hs : 0 < stepFor l points := step_pos hr' _
  have c : ∀ {w s : ℝ}, 0 < s → w ≤ (⌈w / s⌉ + 1 / 2) * s := by
    intro w s h
    have h1 := Int.le_ceil (w / s)
    have h2 : w / s * s = w := div_mul_cancel₀ _ h.ne'
    nlinarith
  obtain ⟨i, i1, i2, i3⟩ := covered hr' (c hr') hx
  obtain ⟨j, j1, j2, j3⟩ := covered hr' (c hr') hy
  obtain ⟨k, k1, k2, k3⟩ := covered hs (c hs) ha
  exact ⟨i, j, k, ⟨⟨i1, i2⟩, ⟨j1, j2⟩, ⟨k1, k2⟩⟩, i3, j3, k3⟩

/-- **C74**: for a point on the border of two cells shifting its cell and moving the point can give different cells. -/
theorem border_shift : ∃ (l : MapLimits) (p : V2), 0 < l.resolution ∧ cellIndex l p = (-1, 0) ∧
    cellIndex l ⟨p.x, p.y + (-1 : Int) * l.resolution⟩ = (1, 0) ∧ ((cellIndex l p).1 - (-1), (cellIndex l p).2) ≠ cellIndex l ⟨p.x, p.y + (-1 : Int) * l.resolution⟩ := by
  have h1 : cellIndex ⟨1, 1, 1, 10, 10⟩ ⟨1 / 2, 1⟩ = (-1, 0) := by
    simp only [cellIndex, Prod.mk.injEq]
    constructor
    · rw [round, if_neg (by norm_num)]; norm_num
    · rw [round, if_pos (by norm_num)]; norm_num
  have h2 : cellIndex ⟨1, 1, 1, 10, 10⟩ ⟨1 / 2, 1 + (-1 : Int) * ((1 : ℚ) : ℝ)⟩ = (1, 0) := by
    simp only [cellIndex, Prod.mk.injEq]
    constructor
    · rw [round, if_pos (by norm_num)]; norm_num
    · rw [round, if_pos (by norm_num)]; norm_num
  refine ⟨⟨1, 1, 1, 10, 10⟩, ⟨1 / 2, 1⟩, by norm_num, h1, h2, ?_⟩
  rw [h1]
  refine fun h => ?_
  rw [h2] at h
  simp at h

/-! ### Three dimensions -/

/-- The offset by some cells and some angular steps. -/
noncomputable def offset3 (resolution step : ℝ) (t r : Hybrid.I3) : Rigid3 :=
  ⟨⟨t.x * resolution, t.y * resolution, t.z * resolution⟩, fromAngleAxis ⟨r.x * step, r.y * step, r.z * step⟩⟩

/-- A cube of indices. -/
structure InCube (n : Int) (i : Hybrid.I3) : Prop where
  x : -n ≤ i.x ∧ i.x ≤ n
  y : -n ≤ i.y ∧ i.y ≤ n
  z : -n ≤ i.z ∧ i.z ≤ n

/-- The angular step for a scan. -/
noncomputable def stepFor3 (resolution : ℝ) (points : List V3) : ℝ := angularStep resolution (maxRange resolution (points.map V3.norm))

theorem mem_transforms {o : Options} {resolution : ℝ} {points : List V3} {T : Rigid3} : T ∈ transforms o resolution points ↔
    ∃ t r, InCube (round (o.linearWindow / resolution)) t ∧ InCube (round (o.angularWindow / stepFor3 resolution points)) r ∧
      T = offset3 resolution (stepFor3 resolution points) t r := by
  unfold transforms
  simp only [List.mem_flatMap, List.mem_map, mem_window]
  constructor
  · rintro ⟨z, hz, y, hy, x, hx, rz, hrz, ry, hry, rx, hrx, rfl⟩
    exact ⟨⟨x, y, z⟩, ⟨rx, ry, rz⟩, ⟨hx, hy, hz⟩, ⟨hrx, hry, hrz⟩, rfl⟩
  · rintro ⟨t, r, ht, hr, rfl⟩
    exact ⟨_, ht.z, _, ht.y, _, ht.x, _, hr.z, _, hr.y, _, hr.x, rfl⟩

/-- The cell of a point is one whose centre is nearest to it. -/
theorem cellIndex3_near {r : ℝ} (hr : 0 < r) (p : V3) : |p.x - (cellIndex3 r p).x * r| ≤ r / 2 ∧ |p.y - (cellIndex3 r p).y * r| ≤ r / 2 ∧
    |p.z - (cellIndex3 r p).z * r| ≤ r / 2 := by
  have h : ∀ x : ℝ, |x - round (x / r) * r| ≤ r / 2 := by
    intro x
    obtain ⟨h1, h2⟩ := round_bounds (x / r)
    have e : x / r * r = x := div_mul_cancel₀ _ hr.ne'
    exact abs_le.2 ⟨by nlinarith, by nlinarith⟩
  exact ⟨h _, h _, h _⟩

/-- The mean probability of the voxels of some points. -/
noncomputable def meanProbability3 (g : Hybrid.HG) (points : List V3) : ℚ :=
  (points.map fun p => valueToProbability (Hybrid.val g (cellIndex3 g.resolution p))).sum / points.length

theorem valueToProbability_any (v : Nat) : 1 / 10 ≤ valueToProbability v ∧ valueToProbability v ≤ 9 / 10 := by
  rw [← valueToProbability_mod]
  rcases Nat.eq_zero_or_pos (v % 32768) with h0 | h0
  · rw [h0]
    simp [valueToProbability, valueToBoundedFloat, slowValueToBoundedFloat, minProbability]
    norm_num
  · exact prob_range h0 (by omega)

theorem meanProbability3_range (g : Hybrid.HG) {points : List V3} (h : points ≠ []) :
    (1 / 10 : ℝ) ≤ (meanProbability3 g points : ℝ) ∧ (meanProbability3 g points : ℝ) ≤ 9 / 10 := by
  have hm : 1 / 10 ≤ meanProbability3 g points ∧ meanProbability3 g points ≤ 9 / 10 := mean_range (fun c => valueToProbability_any _) h
  generalize meanProbability3 g points = m at hm
  constructor
  · have := (Rat.cast_le (K := ℝ)).2 hm.1
    push_cast at this
    exact this
  · have := (Rat.cast_le (K := ℝ)).2 hm.2
    push_cast at this
    exact this

theorem getProbability3 {g : Hybrid.HG} (w : Hybrid.HGWf g) (i : Hybrid.I3) : g.getProbability i = some (valueToProbability (Hybrid.val g i)) := by
  unfold Hybrid.HG.getProbability
  rw [Hybrid.dyn_value (Hybrid.baseLaws Nat 0) w.grid i]
  rfl

/-- The value of a candidate pose `c` that is `T` away from the initial pose. -/
noncomputable def value3 (o : Options) (g : Hybrid.HG) (points : List V3) (c T : Rigid3) : ℝ :=
  meanProbability3 g (points.map c.apply) * Real.exp (-(T.translation.norm * o.translationWeight + angleOf T.rotation * o.rotationWeight) ^ 2)

theorem value3_range (o : Options) (g : Hybrid.HG) {points : List V3} (hp : points ≠ []) (c T : Rigid3) : 0 < value3 o g points c T ∧ value3 o g points c T ≤ 9 / 10 := by
  have h1 := meanProbability3_range g (points := points.map c.apply) (by simpa using hp)
  have h2 := Real.exp_pos (-(T.translation.norm * o.translationWeight + angleOf T.rotation * o.rotationWeight) ^ 2)
  have h3 : Real.exp (-(T.translation.norm * o.translationWeight + angleOf T.rotation * o.rotationWeight) ^ 2) ≤ 1 := by
    rw [Real.exp_le_one_iff]
    nlinarith [sq_nonneg (T.translation.norm * o.translationWeight + angleOf T.rotation * o.rotationWeight)]
  unfold value3
  exact ⟨mul_pos (by linarith [h1.1]) h2, by nlinarith [h1.1, h1.2]⟩

theorem scoreCandidate3_eq {g : Hybrid.HG} (w : Hybrid.HGWf g) (o : Options) {points : List V3} (hp : points ≠ []) (c T : Rigid3) :
    scoreCandidate3 o g (points.map c.apply) T = some (value3 o g points c T) := by
  have h := (value3_range o g hp c T).1
  unfold scoreCandidate3
  rw [foldlM_sum (g := fun p => valueToProbability (Hybrid.val g (cellIndex3 g.resolution p))) (fun p => getProbability3 w _)]
  simp only [Option.bind_eq_bind, Option.bind_some, zero_add]
  rw [if_neg (by simpa using hp)]
  unfold value3 meanProbability3 at h
  unfold value3 meanProbability3 penalty
  rw [if_pos h]

theorem foldlM_best {f : Rigid3 → ℝ} {c : Rigid3 → Rigid3} (l : List Rigid3) (b : ℝ × Option Rigid3) :
    ∃ m, l.foldlM (fun (best : ℝ × Option Rigid3) t => some (if best.1 < f t then (f t, some (c t)) else best)) b = some m ∧
      (m = b ∨ ∃ t ∈ l, m = (f t, some (c t))) ∧ b.1 ≤ m.1 ∧ ∀ t ∈ l, f t ≤ m.1 := by
  induction l generalizing b with
  | nil => exact ⟨b, rfl, Or.inl rfl, le_refl _, by simp⟩
  | cons t l ih =>
    obtain ⟨m, h0, h1, h2, h3⟩ := ih (if b.1 < f t then (f t, some (c t)) else b)
    refine ⟨m, ?_, ?_, ?_, ?_⟩
    · rw [List.foldlM_cons]; exact h0
    · rcases h1 with h1 | ⟨t', ht', h1⟩
      · by_cases h : b.1 < f t
        · exact Or.inr ⟨t, by simp, by rw [h1, if_pos h]⟩
        · exact Or.inl (by rw [h1, if_neg h])
      · exact Or.inr ⟨t', by simp [ht'], h1⟩
    · by_cases h : b.1 < f t
      · rw [if_pos h] at h2; simp only at h2; linarith
      · rwa [if_neg h] at h2
    · refine List.forall_mem_cons.2 ⟨?_, h3⟩
      by_cases h : b.1 < f t
      · rw [if_pos h] at h2; exact h2
      · rw [if_neg h] at h2; linarith

/-- **C75**: with a scan that is not empty and windows that are not negative the matcher does not fail.  It returns the candidate of the
window with the best product of the mean probability of the voxels of the points and the discount. -/
theorem match_hybrid {g : Hybrid.HG} (w : Hybrid.HGWf g) (hr : 0 < g.resolution) {o : Options} (initial : Rigid3) {points : List V3} (hp : points ≠ [])
    (hl : 0 ≤ o.linearWindow) (ha : 0 ≤ o.angularWindow) :
    let T := offset3 g.resolution (stepFor3 g.resolution points)
    let N := round (o.linearWindow / g.resolution)
    let A := round (o.angularWindow / stepFor3 g.resolution points)
    let S := fun t r => value3 o g points (initial.mul (T t r)) (T t r)
    ∃ t r, InCube N t ∧ InCube A r ∧ match3 o g initial points = some (S t r, some (initial.mul (T t r))) ∧ 0 < S t r ∧ S t r ≤ 9 / 10 ∧
      ∀ t' r', InCube N t' → InCube A r' → S t' r' ≤ S t r := by
  intro T N A S
  have hr' : (0 : ℝ) < g.resolution := by exact_mod_cast hr
  have hs : 0 < stepFor3 g.resolution points := step_pos hr' _
  have hN : 0 ≤ N := round_nonneg (by positivity)
  have hA : 0 ≤ A := round_nonneg (by positivity)
  have e : match3 o g initial points = (transforms o g.resolution points).foldlM (fun (best : ℝ × Option Rigid3) t =>
      some (if best.1 < value3 o g points (initial.mul t) t then (value3 o g points (initial.mul t) t, some (initial.mul t)) else best)) (-1, none) := by
    unfold match3
    congr 1
    funext best t
    simp only [scoreCandidate3_eq w o hp, Option.bind_eq_bind, Option.bind_some]
  obtain ⟨m, h0, h1, h2, h3⟩ := foldlM_best (f := fun t => value3 o g points (initial.mul t) t) (c := fun t => initial.mul t) (transforms o g.resolution points) (-1, none)
  have hin : ∀ t r, InCube N t → InCube A r → S t r ≤ m.1 := fun t r ht hr => h3 _ (mem_transforms.2 ⟨t, r, ht, hr, rfl⟩)
  have hzero : ∀ {n : Int}, 0 ≤ n → InCube n ⟨0, 0, 0⟩ := fun h => ⟨by simp [h], by simp [h], by simp [h]⟩
  rcases h1 with h1 | ⟨t0, ht0, h1⟩
  · have h4 := hin _ _ (hzero hN) (hzero hA)
    have h5 : 0 < S ⟨0, 0, 0⟩ ⟨0, 0, 0⟩ := (value3_range o g hp _ _).1
    rw [h1] at h4
    simp only at h4
    linarith
  · obtain ⟨t, r, ht, hr2, rfl⟩ := mem_transforms.1 ht0
    have hv := value3_range o g hp (initial.mul (T t r)) (T t r)
    refine ⟨t, r, ht, hr2, ?_, hv.1, hv.2, ?_⟩
    · rw [e, h0, h1]
    · intro t' r' a b
      have := hin t' r' a b
      rw [h1] at this
      exact this

/-- **C75**: with an empty scan the score is not a number, and its check fails. -/
theorem match_hybrid_empty (g : Hybrid.HG) (hr : 0 < g.resolution) {o : Options} (initial : Rigid3) (hl : 0 ≤ o.linearWindow) (ha : 0 ≤ o.angularWindow) :
    match3 o g initial [] = none := by
  have hr' : (0 : ℝ) < g.resolution := by exact_mod_cast hr
  have hs : 0 < stepFor3 g.resolution [] := step_pos hr' _
  have hzero : ∀ {n : Int}, 0 ≤ n → InCube n ⟨0, 0, 0⟩ := fun h => ⟨by simp [h], by simp [h], by simp [h]⟩
  have hmem : offset3 g.resolution (stepFor3 g.resolution []) ⟨0, 0, 0⟩ ⟨0, 0, 0⟩ ∈ transforms o g.resolution [] :=
    mem_transforms.2 ⟨_, _, hzero (round_nonneg (by positivity)), hzero (round_nonneg (by positivity)), rfl⟩
  unfold match3
  cases h : transforms o g.resolution [] with
  | nil => rw [h] at hmem; simp at hmem
  | cons t l => simp [List.foldlM_cons, scoreCandidate3]

/-- **C75**: with a negative window nothing is searched, the pose estimate is left alone and the score is negative. -/
theorem match_hybrid_negative (g : Hybrid.HG) {o : Options} (initial : Rigid3) (points : List V3) (h : round (o.linearWindow / g.resolution) < 0) :
    match3 o g initial points = some (-1, none) := by
  have : transforms o g.resolution points = [] := by
    apply List.eq_nil_iff_forall_not_mem.2
    intro T hT
    obtain ⟨t, r, ht, _, _⟩ := mem_transforms.1 hT
    have := ht.x
    omega
  simp [match3, this]

/-- **C75**: every offset of the window is at most half a voxel, and every rotation vector at most half an angular step in each coordinate,
from those that are compared. -/
theorem window_covered3 {r : ℝ} (hr : 0 < r) (o : Options) (points : List V3) {t a : V3} (ht : |t.x| ≤ o.linearWindow ∧ |t.y| ≤ o.linearWindow ∧ |t.z| ≤ o.linearWindow)
    (ha : |a.x| ≤ o.angularWindow ∧ |a.y| ≤ o.angularWindow ∧ |a.z| ≤ o.angularWindow) :
    ∃ i k, InCube (round (o.linearWindow / r)) i ∧ InCube (round (o.angularWindow / stepFor3 r points)) k ∧
      (|t.x - i.x * r| ≤ r / 2 ∧ |t.y - i.y * r| ≤ r / 2 ∧ |t.z - i.z * r| ≤ r / 2) ∧
      |a.x - k.x * stepFor3 r points| ≤ stepFor3 r points / 2 ∧ |a.y - k.y * stepFor3 r points| ≤ stepFor3 r points / 2 ∧
      |a.z - k.z * stepFor3 r points| ≤ stepFor3 r points / 2 := by
  have hs : 0 < stepFor3 r points := step_pos hr _
  have c : ∀ {w s : ℝ}, 0 < s → w ≤ (round (w / s) + 1 / 2) * s := by
    intro w s h
    have h1 := (round_bounds (w / s)).2
    have h2 : w / s * s = w := div_mul_cancel₀ _ h.ne'
    nlinarith
  obtain ⟨i1, a1, b1, c1⟩ := covered hr (c hr) ht.1
  obtain ⟨i2, a2, b2, c2⟩ := covered hr (c hr) ht.2.1
  obtain ⟨i3, a3, b3, c3⟩ := covered hr (c hr) ht.2.2
  obtain ⟨k1, d1, e1, f1⟩ := covered hs (c hs) ha.1
  obtain ⟨k2, d2, e2, f2⟩ := covered hs (c hs) ha.2.1
  obtain ⟨k3, d3, e3, f3⟩ := covered hs (c hs) ha.2.2
  exact ⟨⟨i1, i2, i3⟩, ⟨k1, k2, k3⟩, ⟨⟨a1, b1⟩, ⟨a2, b2⟩, ⟨a3, b3⟩⟩, ⟨⟨d1, e1⟩, ⟨d2, e2⟩, ⟨d3, e3⟩⟩, ⟨c1, c2, c3⟩, f1, f2, f3⟩

/-- **C75**: the angle of the discount is the length of the rotation vector, if that is at most a half turn and not tiny. -/
theorem angleOf_fromAngleAxis {v : V3} (h1 : 1 / 10 ^ 4 < v.norm) (h2 : v.norm ≤ Real.pi) : angleOf (fromAngleAxis v) = v.norm := by
  have hn := norm_sq v
  have hv : v.norm ≠ 0 := by intro h0; rw [h0] at h1; norm_num at h1
  have hv0 : 0 < v.norm := lt_of_le_of_ne (norm_nonneg' v) (Ne.symm hv)
  have h3 : v.x * v.x + v.y * v.y + v.z * v.z > 1 / 10 ^ 8 := by nlinarith
  have hc : 0 ≤ Real.cos (v.norm / 2) := Real.cos_nonneg_of_neg_pi_div_two_le_of_le (by linarith) (by linarith)
  have hs : 0 ≤ Real.sin (v.norm / 2) := Real.sin_nonneg_of_nonneg_of_le_pi (by linarith) (by linarith [Real.pi_pos])
  unfold angleOf fromAngleAxis
  rw [if_pos h3]
  simp only
  have e : V3.norm ⟨Real.sin (v.norm / 2) / v.norm * v.x, Real.sin (v.norm / 2) / v.norm * v.y, Real.sin (v.norm / 2) / v.norm * v.z⟩ = Real.sin (v.norm / 2) := by
    rw [← sq_eq_sq₀ (norm_nonneg' _) hs, norm_sq]
    simp only
    have : (Real.sin (v.norm / 2) / v.norm) ^ 2 * v.norm ^ 2 = Real.sin (v.norm / 2) ^ 2 := by field_simp
    rw [hn] at this
    linear_combination this
  rw [e, abs_of_nonneg hc]
  have : (⟨Real.cos (v.norm / 2), Real.sin (v.norm / 2)⟩ : ℂ) = Complex.cos ((v.norm / 2 : ℝ) : ℂ) + Complex.sin ((v.norm / 2 : ℝ) : ℂ) * Complex.I := by
    apply Complex.ext
    · simp [← Complex.ofReal_cos, ← Complex.ofReal_sin, -Complex.ofReal_div]
    · simp [← Complex.ofReal_cos, ← Complex.ofReal_sin, -Complex.ofReal_div]
  rw [this, Complex.arg_cos_add_sin_mul_I ⟨by linarith [Real.pi_pos], by linarith [Real.pi_pos]⟩]
  ring

/-! ### Examples -/

/-- Non-vacuity: one known cell, next to that of the only point.  The matcher moves the point into it. -/
example : ∃ g0 g, create ⟨1, 3, 3, 3, 3⟩ minCost maxCost = some g0 ∧ g0.setProbability (1, 2) (9 / 10) = some g ∧
    match2 ⟨1, 0, 0, 0⟩ (probabilityScore g) g.limits ⟨⟨0, 0⟩, 0⟩ [⟨1 / 2, 1 / 2⟩] = some (9 / 10, ⟨⟨0, 1⟩, 0⟩) := by
  have hc : (minCost : ℚ) < maxCost := minmaxCost
  obtain ⟨g0, hg⟩ : ∃ g, create ⟨1, 3, 3, 3, 3⟩ minCost maxCost = some g := ⟨_, by rw [create, if_pos hc]⟩
  obtain ⟨w0, l0, u0, -, v0⟩ := create_wf (by norm_num) (by norm_num) (by norm_num) hg
  obtain ⟨g, e1, w, l1, u1, v1, -⟩ := setProbability_spec w0 (i := (1, 2)) (by rw [l0]; decide) (v0 _) (9 / 10)
  refine ⟨g0, g, hg, e1, ?_⟩
  have hl : g.limits = ⟨1, 3, 3, 3, 3⟩ := l1.trans l0
  have hin : ∀ z : Int, (5 / 2 : ℝ) ≠ z := by
    intro z hz
    have : (5 : ℝ) = 2 * z := by linarith
    have : (5 : Int) = 2 * z := by exact_mod_cast this
    omega
  obtain ⟨i, j, k, hw, hm, -, -, hbest⟩ := match_probability w (o := ⟨1, 0, 0, 0⟩) ⟨⟨0, 0⟩, 0⟩ (points := [⟨1 / 2, 1 / 2⟩]) (by simp) zero_le_one (le_refl _) (by
    intro k h1 h2 p hp z
    simp only [zero_div, Int.ceil_zero] at h1 h2
    obtain rfl : k = 0 := by omega
    simp only [List.mem_singleton] at hp
    subst hp
    rw [hl]
    have e := hin z
    simp only [poseAt, Rigid2.apply, rotate2]
    norm_num
    exact e)
  simp only [zero_div, Int.ceil_zero] at hw hbest
  rw [hl] at hm hw hbest
  simp only [Rat.cast_one, div_one, Int.ceil_one] at hw hbest
  have hS : ∀ i j : Int, (meanProbability g ([⟨1 / 2, 1 / 2⟩].map fun p => cellOf ⟨1, 3, 3, 3, 3⟩ ((poseAt ((1 : ℚ) : ℝ) (stepFor ⟨1, 3, 3, 3, 3⟩ [⟨1 / 2, 1 / 2⟩]) ⟨⟨0, 0⟩, 0⟩ i j 0).apply p)) : ℝ) =
      if (i, j) = (0, 1) then 9 / 10 else 1 / 10 := by
    intro i j
    have c1 : ∀ i : Int, ⌊(3 - (1 / 2 + (i : ℝ)))⌋ = 2 - i := by
      intro i
      rw [Int.floor_eq_iff]
      push_cast
      constructor <;> linarith
    simp only [List.map_cons, List.map_nil, poseAt, Rigid2.apply, rotate2, cellOf]
    norm_num
    rw [c1, c1]
    simp only [meanProbability, List.map_cons, List.map_nil, List.sum_cons, List.sum_nil, List.length_singleton, v1, v0]
    have p9 : Texture.cellProb (costToValue (probabilityToCost (9 / 10))) = 9 / 10 := by decide +kernel
    have p0 : Texture.cellProb 0 = 1 / 10 := by decide +kernel
    by_cases h : i = 0 ∧ j = 1
    · obtain ⟨rfl, rfl⟩ := h
      norm_num [p9]
    · rw [if_neg (by simp only [Prod.mk.injEq]; omega), if_neg h, p0]
      norm_num
  obtain ⟨⟨i1, i2⟩, ⟨j1, j2⟩, ⟨k1, k2⟩⟩ := hw
  obtain rfl : k = 0 := by omega
  have hb := hbest 0 1 0 ⟨by norm_num, by norm_num, by norm_num⟩
  have hd : ∀ d a : ℝ, discount ⟨1, 0, 0, 0⟩ d a = 1 := by intro d a; simp [discount]
  simp only [List.map_cons, List.map_nil, Rat.cast_one] at hS hm hb
  rw [hS, hS, hd, hd, if_pos rfl] at hb
  have hij : (i, j) = (0, 1) := by
    by_contra h
    rw [if_neg h] at hb
    norm_num at hb
  obtain ⟨rfl, rfl⟩ := Prod.mk.inj hij
  rw [hl, hm, hS, hd, if_pos rfl]
  simp [poseAt]

/-- Non-vacuity: one known voxel, next to that of the only point. -/
example : ∃ g c, (Hybrid.HG.create 1).setProbability ⟨0, 1, 0⟩ (9 / 10) = some g ∧ c.translation = ⟨0, 1, 0⟩ ∧
    match3 ⟨1, 0, 0, 0⟩ g Rigid3.identity [⟨0, 0, 0⟩] = some (9 / 10, some c) := by
  obtain ⟨g, e, w, u, v⟩ := Hybrid.setProbability_spec3 (Hybrid.create_wf 1) rfl (i := ⟨0, 1, 0⟩) (by simp [Hybrid.Valid]) (9 / 10)
  have hres : g.resolution = 1 := by
    have : g.resolution = (Hybrid.HG.create 1).resolution := by
      simp only [Hybrid.HG.setProbability, Option.bind_eq_bind, Option.bind_eq_some_iff] at e
      grind
    exact this
  have v0 : ∀ j, Hybrid.val (Hybrid.HG.create 1) j = 0 := fun j => Hybrid.empty_dlook _ j
  obtain ⟨t, r, ht, hr, hm, -, -, hbest⟩ := match_hybrid w (by rw [hres]; norm_num) (o := ⟨1, 0, 0, 0⟩) Rigid3.identity (points := [⟨0, 0, 0⟩]) (by simp)
    zero_le_one (le_refl _)
  have hround : ∀ z : Int, round (z : ℝ) = z := by
    intro z
    obtain ⟨h1, h2⟩ := round_bounds (z : ℝ)
    unfold round
    split
    · rw [Int.floor_eq_iff]; constructor <;> linarith
    · rw [Int.ceil_eq_iff]; constructor <;> linarith
  have hS : ∀ t r, value3 ⟨1, 0, 0, 0⟩ g [⟨0, 0, 0⟩] (Rigid3.identity.mul (offset3 1 (stepFor3 1 [⟨0, 0, 0⟩]) t r)) (offset3 1 (stepFor3 1 [⟨0, 0, 0⟩]) t r) =
      if t = ⟨0, 1, 0⟩ then 9 / 10 else 1 / 10 := by
    intro t r
    have hc : cellIndex3 ((g.resolution : ℚ) : ℝ) ((Rigid3.identity.mul (offset3 1 (stepFor3 1 [⟨0, 0, 0⟩]) t r)).apply ⟨0, 0, 0⟩) = t := by
      rw [hres]
      simp [Rigid3.mul, Rigid3.apply, Rigid3.identity, offset3, Quat.rotate, cross, cellIndex3, hround]
    have p9 : valueToProbability (probabilityToValue (9 / 10)) = 9 / 10 := by decide +kernel
    have p0 : valueToProbability 0 = 1 / 10 := by decide +kernel
    simp only [value3, meanProbability3, List.map_cons, List.map_nil, hc, v, v0]
    by_cases h : t = ⟨0, 1, 0⟩
    · simp [h, p9]
    · simp [h, p0]
  rw [hres] at hm hbest ht hr
  simp only [Rat.cast_one] at hm hbest ht hr
  have hr1 : round ((1 : ℝ) / 1) = 1 := by have := hround 1; simpa using this
  have hr0 : round ((0 : ℝ) / stepFor3 1 [⟨0, 0, 0⟩]) = 0 := by have := hround 0; simpa using this
  have hb := hbest ⟨0, 1, 0⟩ ⟨0, 0, 0⟩ (by rw [hr1]; exact ⟨by norm_num, by norm_num, by norm_num⟩) (by rw [hr0]; exact ⟨by norm_num, by norm_num, by norm_num⟩)
  rw [hS, hS, if_pos rfl] at hb
  have h : t = ⟨0, 1, 0⟩ := by
    by_contra h
    rw [if_neg h] at hb
    norm_num at hb
  subst h
  refine ⟨g, Rigid3.identity.mul (offset3 1 (stepFor3 1 [⟨0, 0, 0⟩]) ⟨0, 1, 0⟩ r), e, ?_, ?_⟩
  · simp [Rigid3.mul, Rigid3.identity, offset3, Quat.rotate, cross]
  · rw [hm, hS, if_pos rfl]

/-- The rotation vector of length two is turned by that angle. -/
example : angleOf (fromAngleAxis ⟨0, 2, 0⟩) = 2 := by
  have h : V3.norm ⟨0, 2, 0⟩ = 2 := by
    rw [← sq_eq_sq₀ (norm_nonneg' _) (by norm_num), norm_sq]
    norm_num
  rw [angleOf_fromAngleAxis (by rw [h]; norm_num) (by rw [h]; exact Real.two_le_pi), h]

end Verif.RealTime
