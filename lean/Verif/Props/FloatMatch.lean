import Verif.FloatMatchLemmas
import Verif.Props.FloatProbability

/-!
# Scan matching with rounded scores (C114)

The searches are proved for the scores that are computed, with all their rounding, and then these scores are compared to the
exact mean score of the cells that the points of a scan fall into.
-/

namespace Verif.FloatMatch

open Verif.Fp
open Verif.Prob (roundToInt)
open Verif.FloatProb (u near)
open Verif.FastCorrelative (CostGrid Precomputed Scan Bounds slide tabulate Largest slide_spec tabulate_spec tabulate_total
  round_mono Within Sizes)

/-! ### Specification -/

/-- The costs of a map in `float`: they may be outside of their bounds by a little, as those of a `ProbabilityGrid` are. -/
structure Ok (g : CostGrid) : Prop where
  nx : 1 ≤ g.nx
  ny : 1 ≤ g.ny
  width : 1 / 8 ≤ g.maxCost - g.minCost
  lower : -1 ≤ g.minCost
  upper : g.maxCost ≤ 2
  cost : ∀ x y, x < g.nx → y < g.ny → g.minCost - 1 / 2 ^ 17 ≤ |g.cost x y| ∧ |g.cost x y| ≤ g.maxCost + 1 / 2 ^ 17

/-- The position is inside of the map. -/
def Inside (g : CostGrid) (x y : Int) : Prop := 0 ≤ x ∧ x < g.nx ∧ 0 ≤ y ∧ y < g.ny

instance (g : CostGrid) (x y : Int) : Decidable (Inside g x y) := by unfold Inside; infer_instance

/-- The value from 0 to 255 of one cell; 0 outside of the map. -/
def cellOf (fl : ℚ → ℚ) (g : CostGrid) (x y : Int) : Int :=
  if Inside g x y then
    roundToInt (fl (fl (fl (1 - |g.cost x.toNat y.toNat|) - fl (1 - g.maxCost)) *
      fl (255 / fl (fl (1 - g.minCost) - fl (1 - g.maxCost)))))
  else 0

/-- The score computed for a scan moved by `(x, y)`, looking at each cell itself. -/
def scoreOf (fl : ℚ → ℚ) (fused : Bool) (g : CostGrid) (scan : Scan) (x y : Int) : ℚ :=
  candidateScore fl fused (fl (1 - g.maxCost)) (fl (1 - g.minCost)) scan.length
    ((scan.map (fun p => cellOf fl g (p.1 + x) (p.2 + y))).sum)

/-- One minus the cost of a cell, without any rounding; the smallest score outside of the map. -/
def exactCell (g : CostGrid) (x y : Int) : ℚ := if Inside g x y then 1 - |g.cost x.toNat y.toNat| else 1 - g.maxCost

/-- The mean over the points of a scan moved by `(x, y)`. -/
def exactScore (g : CostGrid) (scan : Scan) (x y : Int) : ℚ :=
  (scan.map (fun p => exactCell g (p.1 + x) (p.2 + y))).sum / scan.length

/-! ### The bounds of the scores -/

theorem one_minus_near {fl : ℚ → ℚ} (h : SingleRounding fl) {c : ℚ} (h1 : -2 ≤ c) (h2 : c ≤ 3) :
    |fl (1 - c) - (1 - c)| ≤ 3 * u := by
  have := near h (x := 1 - c) (B := 3) (by rw [abs_le]; constructor <;> linarith) (by norm_num)
  linarith

theorem range {fl : ℚ → ℚ} (h : SingleRounding fl) {g : CostGrid} (hg : Ok g) : Range (minScore fl g) (maxScore fl g) := by
  have h1 := hg.width
  have h2 := hg.lower
  have h3 := hg.upper
  have hus := u_small
  norm_num at hus
  obtain ⟨a1, a2⟩ := abs_le.1 (one_minus_near h (c := g.maxCost) (by linarith) (by linarith))
  obtain ⟨b1, b2⟩ := abs_le.1 (one_minus_near h (c := g.minCost) (by linarith) (by linarith))
  unfold minScore maxScore
  refine ⟨by linarith, by linarith, ?_⟩
  rw [abs_le]; constructor <;> linarith

theorem width_exact {fl : ℚ → ℚ} (h : SingleRounding fl) {g : CostGrid} (hg : Ok g) :
    |maxScore fl g - minScore fl g - (g.maxCost - g.minCost)| ≤ 6 * u := by
  have h1 := hg.width
  have h2 := hg.lower
  have h3 := hg.upper
  obtain ⟨a1, a2⟩ := abs_le.1 (one_minus_near h (c := g.maxCost) (by linarith) (by linarith))
  obtain ⟨b1, b2⟩ := abs_le.1 (one_minus_near h (c := g.minCost) (by linarith) (by linarith))
  unfold minScore maxScore
  rw [abs_le]; constructor <;> linarith

/-- The scores of cells are within the bounds, up to a little. -/
theorem cell_bounds {fl : ℚ → ℚ} (h : SingleRounding fl) {g : CostGrid} (hg : Ok g) {x y : Nat} (hx : x < g.nx) (hy : y < g.ny) :
    minScore fl g - (maxScore fl g - minScore fl g) / 1000 ≤ fl (1 - |g.cost x y|) ∧
      fl (1 - |g.cost x y|) ≤ maxScore fl g + (maxScore fl g - minScore fl g) / 1000 := by
  have h1 := hg.width
  have h2 := hg.lower
  have h3 := hg.upper
  have hus := u_small
  norm_num at hus
  obtain ⟨c1, c2⟩ := hg.cost x y hx hy
  have c0 := abs_nonneg (g.cost x y)
  norm_num at c1 c2
  obtain ⟨a1, a2⟩ := abs_le.1 (one_minus_near h (c := g.maxCost) (by linarith) (by linarith))
  obtain ⟨b1, b2⟩ := abs_le.1 (one_minus_near h (c := g.minCost) (by linarith) (by linarith))
  obtain ⟨d1, d2⟩ := abs_le.1 (one_minus_near h (c := |g.cost x y|) (by linarith) (by linarith))
  obtain ⟨e1, e2⟩ := abs_le.1 (width_exact h hg)
  unfold minScore maxScore at *
  constructor <;> linarith

theorem cellOf_eq {fl : ℚ → ℚ} {g : CostGrid} {x y : Int} (hi : Inside g x y) :
    cellOf fl g x y = quantise fl (minScore fl g) (maxScore fl g) (fl (1 - |g.cost x.toNat y.toNat|)) := by
  unfold cellOf
  rw [if_pos hi]
  rfl

theorem cellOf_range {fl : ℚ → ℚ} (h : SingleRounding fl) {g : CostGrid} (hg : Ok g) (x y : Int) :
    0 ≤ cellOf fl g x y ∧ cellOf fl g x y ≤ 255 := by
  by_cases hi : Inside g x y
  · rw [cellOf_eq hi]
    obtain ⟨i1, i2, i3, i4⟩ := hi
    obtain ⟨a, b⟩ := cell_bounds h hg (x := x.toNat) (y := y.toNat) (by omega) (by omega)
    exact quantise_range h (range h hg) a b
  · unfold cellOf
    rw [if_neg hi]
    simp

/-! ### The precomputed grids are those of a map with exact numbers -/

/-- A map whose exact scores are the computed values of the cells. -/
def rounded (fl : ℚ → ℚ) (g : CostGrid) : CostGrid where
  nx := g.nx
  ny := g.ny
  cost := fun x y => 1 - (quantise fl (minScore fl g) (maxScore fl g) (fl (1 - |g.cost x y|)) : ℚ) / 255
  minCost := 0
  maxCost := 1

theorem rounded_score {fl : ℚ → ℚ} (h : SingleRounding fl) {g : CostGrid} (hg : Ok g) {x y : Nat} (hx : x < g.nx) (hy : y < g.ny) :
    1 - |(rounded fl g).cost x y| = (quantise fl (minScore fl g) (maxScore fl g) (fl (1 - |g.cost x y|)) : ℚ) / 255 := by
  obtain ⟨a, b⟩ := cell_bounds h hg hx hy
  obtain ⟨c, d⟩ := quantise_range h (range h hg) a b
  have d' : ((quantise fl (minScore fl g) (maxScore fl g) (fl (1 - |g.cost x y|)) : ℤ) : ℚ) ≤ 255 := by exact_mod_cast d
  simp only [rounded]
  rw [abs_of_nonneg (by linarith)]
  ring

theorem rounded_ok {fl : ℚ → ℚ} (h : SingleRounding fl) {g : CostGrid} (hg : Ok g) : (rounded fl g).Ok := by
  refine ⟨hg.nx, hg.ny, by simp [rounded], ?_⟩
  intro x y hx hy
  have e := rounded_score h hg hx hy
  obtain ⟨a, b⟩ := cell_bounds h hg hx hy
  obtain ⟨c, d⟩ := quantise_range h (range h hg) a b
  have c' : (0 : ℚ) ≤ ((quantise fl (minScore fl g) (maxScore fl g) (fl (1 - |g.cost x y|)) : ℤ) : ℚ) := by exact_mod_cast c
  refine ⟨abs_nonneg _, ?_⟩
  show |(rounded fl g).cost x y| ≤ 1
  linarith

theorem largest_unique {α : Type} [LinearOrder α] {f : Nat → α} {lo hi : Nat} {m m' : α} (h : Largest f lo hi m)
    (h' : Largest f lo hi m') : m = m' := by
  obtain ⟨⟨i, a, b, rfl⟩, c⟩ := h
  obtain ⟨⟨j, a', b', rfl⟩, c'⟩ := h'
  exact le_antisymm (c' i a b) (c j a' b')

/-- The maxima of the windows of the images are the images of the maxima. -/
theorem slide_map {α β : Type} [LinearOrder α] [LinearOrder β] {f : Nat → α} {f' : Nat → β} {φ : α → β} (hφ : Monotone φ) {n w : Nat}
    (hn : 1 ≤ n) (hw : 1 ≤ w) (hf : ∀ i, i < n → f' i = φ (f i)) : slide f' n w = (slide f n w).map (List.map φ) := by
  obtain ⟨out, h1, h2, h3⟩ := slide_spec (f := f) hn hw
  obtain ⟨out', h1', h2', h3'⟩ := slide_spec (f := f') hn hw
  rw [h1, h1', Option.map_some]
  congr 1
  apply List.ext_getElem?
  intro j
  by_cases hj : j < n + w - 1
  · obtain ⟨m, e, hl⟩ := h3 j hj
    obtain ⟨m', e', hl'⟩ := h3' j hj
    rw [e', List.getElem?_map, e, Option.map_some]
    congr 1
    apply largest_unique hl'
    obtain ⟨⟨i, a, b, rfl⟩, c⟩ := hl
    refine ⟨⟨i, a, b, hf i (by omega)⟩, ?_⟩
    intro k hk1 hk2
    rw [hf k (by omega)]
    exact hφ (c k hk1 hk2)
  · rw [List.getElem?_eq_none (by omega), List.getElem?_eq_none (by simp; omega)]

theorem tabulate_congr {β : Type} {f f' : Nat → Option β} : ∀ {n k : Nat}, (∀ i, i < n → f (k + i) = f' (k + i)) →
    tabulate f n k = tabulate f' n k := by
  intro n
  induction n with
  | zero => intro k _; rfl
  | succ n ih =>
    intro k h
    have h0 := h 0 (by omega)
    rw [Nat.add_zero] at h0
    have hr := ih (k := k + 1) (fun i hi => by
      have := h (i + 1) (by omega)
      rwa [show k + (i + 1) = k + 1 + i by omega] at this)
    simp only [tabulate, h0, hr]

theorem tabulate_map {β γ : Type} {f : Nat → Option β} {f' : Nat → Option γ} {φ : β → γ} : ∀ {n k : Nat},
    (∀ i, i < n → f' (k + i) = (f (k + i)).map φ) → tabulate f' n k = (tabulate f n k).map (List.map φ) := by
  intro n
  induction n with
  | zero => intro k _; rfl
  | succ n ih =>
    intro k h
    have h0 := h 0 (by omega)
    rw [Nat.add_zero] at h0
    have hr := ih (k := k + 1) (fun i hi => by
      have := h (i + 1) (by omega)
      rwa [show k + (i + 1) = k + 1 + i by omega] at this)
    simp only [tabulate, h0, hr]
    cases f k with
    | none => rfl
    | some b => cases tabulate f n (k + 1) <;> rfl

/-- The value of a score, as part of one. -/
def part (fl : ℚ → ℚ) (g : CostGrid) (p : ℚ) : ℚ := (quantise fl (minScore fl g) (maxScore fl g) p : ℚ) / 255

theorem part_mono {fl : ℚ → ℚ} (h : SingleRounding fl) {g : CostGrid} (hg : Ok g) : Monotone (part fl g) := by
  intro p q hpq
  unfold part
  have := quantise_mono h (range h hg) hpq
  have : ((quantise fl (minScore fl g) (maxScore fl g) p : ℤ) : ℚ) ≤ (quantise fl (minScore fl g) (maxScore fl g) q : ℤ) := by
    exact_mod_cast this
  exact div_le_div_of_nonneg_right this (by norm_num)

theorem round_int (z : Int) : roundToInt (z : ℚ) = z := by
  have h1 := roundToInt_near (z : ℚ)
  have h2 : |((roundToInt (z : ℚ) - z : ℤ) : ℚ)| < 1 := by
    push_cast
    exact lt_of_le_of_lt h1 (by norm_num)
  rw [← Int.cast_abs] at h2
  have h3 : |roundToInt (z : ℚ) - z| < 1 := by exact_mod_cast h2
  have := abs_lt.1 h3
  omega

theorem part_value {fl : ℚ → ℚ} (h : SingleRounding fl) {g : CostGrid} (hg : Ok g) (p : ℚ) :
    FastCorrelative.computeCellValue (rounded fl g).minScore (rounded fl g).maxScore (part fl g p) =
      computeCellValue fl (minScore fl g) (maxScore fl g) p := by
  have hw := ne_of_gt (width_pos h (range h hg))
  have e : roundToInt ((part fl g p - (rounded fl g).minScore) * (255 / ((rounded fl g).maxScore - (rounded fl g).minScore))) =
      quantise fl (minScore fl g) (maxScore fl g) p := by
    rw [← round_int (quantise fl (minScore fl g) (maxScore fl g) p)]
    congr 1
    simp only [CostGrid.minScore, CostGrid.maxScore, rounded, part]
    field_simp
    ring
  unfold FastCorrelative.computeCellValue computeCellValue
  rw [e]
  simp only [hw, ne_eq, not_false_eq_true, true_and]

theorem precompute_rounded {fl : ℚ → ℚ} (h : SingleRounding fl) {g : CostGrid} (hg : Ok g) {w : Nat} (hw : 1 ≤ w) :
    precompute fl g w = FastCorrelative.precompute (rounded fl g) w := by
  have hrow : tabulate (FastCorrelative.rowPass (rounded fl g) w) g.ny 0 =
      (tabulate (rowPass fl g w) g.ny 0).map (List.map (List.map (part fl g))) := by
    apply tabulate_map
    intro y hy
    rw [Nat.zero_add]
    apply slide_map (part_mono h hg) hg.nx hw
    intro x hx
    exact rounded_score h hg hx hy
  have hsome : (tabulate (rowPass fl g w) g.ny 0).isSome := by
    apply tabulate_total
    intro y _
    obtain ⟨out, h1, -⟩ := slide_spec (f := fun x => fl (1 - |g.cost x (0 + y)|)) hg.nx hw
    unfold rowPass
    rw [h1]
    rfl
  obtain ⟨l, hl⟩ := Option.isSome_iff_exists.1 hsome
  obtain ⟨hlen, hlook⟩ := tabulate_spec hl
  rw [hl, Option.map_some] at hrow
  have hcol : tabulate (columnPass fl g w l) (g.nx + w - 1) 0 =
      tabulate (FastCorrelative.columnPass (rounded fl g) w (l.map (List.map (part fl g)))) (g.nx + w - 1) 0 := by
    apply tabulate_congr
    intro j hj
    rw [Nat.zero_add]
    have hs : slide (fun y => ((l.map (List.map (part fl g))).getD y []).getD j 0) g.ny w =
        (slide (fun y => (l.getD y []).getD j 0) g.ny w).map (List.map (part fl g)) := by
      apply slide_map (part_mono h hg) hg.ny hw
      intro y hy
      obtain ⟨row, r1, r2⟩ := hlook y hy
      rw [Nat.zero_add] at r2
      obtain ⟨out, o1, o2, -⟩ := slide_spec (f := fun x => fl (1 - |g.cost x y|)) hg.nx hw
      unfold rowPass at r2
      rw [o1] at r2
      obtain rfl := Option.some.inj r2
      simp only [List.getD, List.getElem?_map, r1, Option.map_some, Option.getD_some]
      rw [List.getElem?_eq_getElem (show j < out.length by omega)]
      rfl
    have hny : (rounded fl g).ny = g.ny := rfl
    unfold columnPass FastCorrelative.columnPass
    rw [hny, hs]
    obtain ⟨out, o1, o2, -⟩ := slide_spec (f := fun y => (l.getD y []).getD j 0) hg.ny hw
    rw [o1]
    simp only [Option.map_some, Option.bind_eq_bind, Option.bind_some, List.length_map]
    apply tabulate_congr
    intro k hk
    rw [Nat.zero_add]
    rw [show (out.map (part fl g)).getD k 0 = part fl g (out.getD k 0) by
      simp [List.getD, List.getElem?_eq_getElem hk]]
    rw [part_value h hg]
  have hnx : (rounded fl g).nx = g.nx := rfl
  have hny : (rounded fl g).ny = g.ny := rfl
  unfold precompute FastCorrelative.precompute
  rw [hnx, hny, hrow, hl]
  simp only [Option.bind_eq_bind, Option.bind_some, hcol]

theorem stack_rounded {fl : ℚ → ℚ} (h : SingleRounding fl) {g : CostGrid} (hg : Ok g) (depth : Nat) :
    precomputeStack fl g depth = FastCorrelative.precomputeStack (rounded fl g) depth := by
  unfold precomputeStack FastCorrelative.precomputeStack
  rw [tabulate_congr (f := fun i => precompute fl g (2 ^ i)) (f' := fun i => FastCorrelative.precompute (rounded fl g) (2 ^ i))
    (fun i _ => precompute_rounded h hg Nat.one_le_two_pow)]

theorem cellScore_rounded {fl : ℚ → ℚ} (h : SingleRounding fl) {g : CostGrid} (hg : Ok g) (x y : Int) :
    FastCorrelative.cellScore (rounded fl g) x y = cellOf fl g x y := by
  by_cases hi : Inside g x y
  · rw [cellOf_eq hi]
    obtain ⟨i1, i2, i3, i4⟩ := hi
    unfold FastCorrelative.cellScore
    rw [if_pos ⟨i1, i2, i3, i4⟩]
    unfold FastCorrelative.quantise
    rw [rounded_score h hg (by omega) (by omega)]
    refine Eq.trans ?_ (round_int _)
    congr 1
    simp only [CostGrid.minScore, CostGrid.maxScore, rounded]
    field_simp
    ring
  · unfold FastCorrelative.cellScore cellOf
    rw [if_neg hi]
    exact if_neg hi

/-! ### Two dimensions -/

/-- **C114**: in `float` the `CHECK`s of the precomputation never fail, and the value at every position, inside and outside of
the map, is the largest value of the cells in the window that starts there. -/
theorem precomputed_is_window_maximum {fl : ℚ → ℚ} (h : SingleRounding fl) {g : CostGrid} (hg : Ok g) {w : Nat} (hw : 1 ≤ w)
    (hnx : (g.nx : Int) + w - 1 < 2147483648) (hny : (g.ny : Int) + w - 1 < 2147483648) :
    ∃ p, precompute fl g w = some p ∧ ∀ x y : Int, -2147483648 ≤ x + w - 1 → x + w - 1 < 2147483648 →
      -2147483648 ≤ y + w - 1 → y + w - 1 < 2147483648 →
      IsGreatest {v | ∃ dx dy : Int, 0 ≤ dx ∧ dx < w ∧ 0 ≤ dy ∧ dy < w ∧ v = cellOf fl g (x + dx) (y + dy)}
        (FastCorrelative.getValue p x y) := by
  have hr := rounded_ok h hg
  obtain ⟨p, hp⟩ := Option.isSome_iff_exists.1 (FastCorrelative.precompute_completes hr hw)
  refine ⟨p, by rw [precompute_rounded h hg hw, hp], ?_⟩
  intro x y h1 h2 h3 h4
  have := FastCorrelative.precomputed_is_window_maximum hr hw hp hnx hny h1 h2 h3 h4
  simpa only [cellScore_rounded h hg] using this

/-- **C114**: the matcher with rounded scores completes; it reports a match exactly if the computed score of some pose of the
search window is above the minimum, and then a pose of the window with the highest computed score of all, together with that
score. -/
theorem match_optimal {fl : ℚ → ℚ} (h : SingleRounding fl) (fused : Bool) {g : CostGrid} {depth : Nat}
    {sort : List (FastCorrelative.Candidate ℚ) → List (FastCorrelative.Candidate ℚ)} {scans : List Scan} {bounds : List Bounds}
    {minimum : ℚ} (hg : Ok g) (hd : 1 ≤ depth) (hperm : ∀ l, (sort l).Perm l)
    (hsorted : ∀ l, (sort l).Pairwise (fun a b => b.score ≤ a.score)) (hscans : scans ≠ [])
    (hlen : bounds.length = scans.length) (hb : ∀ b ∈ bounds, Within b 0 0) (hsize : Sizes g depth scans bounds) :
    ∃ result, matchWith fl fused g depth sort scans bounds minimum = some result ∧
      (result = none ↔ ∀ (k : Nat) s b x y, scans[k]? = some s → bounds[k]? = some b → Within b x y →
        scoreOf fl fused g s x y ≤ minimum) ∧
      (∀ c, result = some c → ∃ s b, scans[c.scan]? = some s ∧ bounds[c.scan]? = some b ∧ Within b c.x c.y ∧
        c.score = scoreOf fl fused g s c.x c.y ∧ minimum < c.score ∧
        ∀ (k : Nat) s b x y, scans[k]? = some s → bounds[k]? = some b → Within b x y → scoreOf fl fused g s x y ≤ c.score) := by
  have hs : ∀ s x y, FastCorrelative.poseScore (rounded fl g) (candidateScore fl fused (minScore fl g) (maxScore fl g)) s x y =
      scoreOf fl fused g s x y := by
    intro s x y
    unfold FastCorrelative.poseScore scoreOf
    simp only [cellScore_rounded h hg]
    rfl
  have hm : matchWith fl fused g depth sort scans bounds minimum = FastCorrelative.matchWith (rounded fl g) depth
      (candidateScore fl fused (minScore fl g) (maxScore fl g)) sort scans bounds minimum := by
    unfold matchWith FastCorrelative.matchWith
    rw [stack_rounded h hg]
    rfl
  obtain ⟨result, h1, h2, h3⟩ := FastCorrelative.match_optimal (g := rounded fl g) (depth := depth)
    (toScore := candidateScore fl fused (minScore fl g) (maxScore fl g)) (sort := sort) (scans := scans) (bounds := bounds)
    (minScore := minimum) (rounded_ok h hg) hd (fun n a b hab => candidateScore_mono h fused (range h hg) n hab) hperm hsorted hscans
    hlen hb ⟨hsize.nx, hsize.ny, hsize.depth, hsize.points, hsize.bounds⟩
  simp only [hs] at h2 h3
  exact ⟨result, by rw [hm, h1], h2, h3⟩

theorem cell_error {fl : ℚ → ℚ} (h : SingleRounding fl) {g : CostGrid} (hg : Ok g) (x y : Int) :
    |minScore fl g + (cellOf fl g x y : ℚ) * ((maxScore fl g - minScore fl g) / 255) - exactCell g x y| ≤
      (maxScore fl g - minScore fl g) * (501 / 255000) + 3 * u := by
  have hR := (range h hg).pos
  have h1 := hg.width
  have h2 := hg.lower
  have h3 := hg.upper
  by_cases hi : Inside g x y
  · rw [cellOf_eq hi]
    unfold exactCell
    rw [if_pos hi]
    obtain ⟨i1, i2, i3, i4⟩ := hi
    obtain ⟨a, b⟩ := cell_bounds h hg (x := x.toNat) (y := y.toNat) (by omega) (by omega)
    obtain ⟨c1, c2⟩ := hg.cost x.toNat y.toNat (by omega) (by omega)
    have c0 := abs_nonneg (g.cost x.toNat y.toNat)
    norm_num at c1 c2
    have d := one_minus_near h (c := |g.cost x.toNat y.toNat|) (by linarith) (by linarith)
    have e := quantise_near h (range h hg) a b
    set lo := minScore fl g
    set hi' := maxScore fl g
    set p := fl (1 - |g.cost x.toNat y.toNat|)
    set c : ℚ := (quantise fl lo hi' p : ℚ)
    have key : lo + c * ((hi' - lo) / 255) - p = (c - (p - lo) / (hi' - lo) * 255) * ((hi' - lo) / 255) := by
      field_simp
      ring
    have hk : |lo + c * ((hi' - lo) / 255) - p| ≤ (hi' - lo) * (501 / 255000) := by
      rw [key, abs_mul, abs_of_pos (show (0 : ℚ) < (hi' - lo) / 255 by positivity)]
      have := mul_le_mul_of_nonneg_right e (le_of_lt (show (0 : ℚ) < (hi' - lo) / 255 by positivity))
      linarith
    have tri := abs_sub_le (lo + c * ((hi' - lo) / 255)) p (1 - |g.cost x.toNat y.toNat|)
    linarith
  · unfold cellOf exactCell
    rw [if_neg hi, if_neg hi]
    have d := one_minus_near h (c := g.maxCost) (by linarith) (by linarith)
    have : 0 ≤ (maxScore fl g - minScore fl g) * (501 / 255000) := by positivity
    simp only [Int.cast_zero, zero_mul, add_zero]
    unfold minScore at *
    linarith

/-- Sums of numbers near others. -/
theorem sum_near {α : Type} (l : List α) {a b : α → ℚ} {e : ℚ} (h : ∀ x ∈ l, |a x - b x| ≤ e) :
    |(l.map a).sum - (l.map b).sum| ≤ l.length * e := by
  induction l with
  | nil => simp
  | cons x l ih =>
    simp only [List.map_cons, List.sum_cons, List.length_cons]
    have h1 := h x (by simp)
    have h2 := ih (fun y hy => h y (by simp [hy]))
    rw [show a x + (l.map a).sum - (b x + (l.map b).sum) = (a x - b x) + ((l.map a).sum - (l.map b).sum) by ring]
    refine le_trans (abs_add_le _ _) ?_
    push_cast
    linarith

theorem sum_affine {α : Type} (l : List α) (f : α → Int) (c s : ℚ) :
    (l.map (fun x => c + (f x : ℚ) * s)).sum = l.length * c + ((l.map f).sum : Int) * s := by
  induction l with
  | nil => simp
  | cons x l ih =>
    simp only [List.map_cons, List.sum_cons, List.length_cons, ih]
    push_cast
    ring

theorem sum_range {α : Type} (l : List α) (f : α → Int) (h : ∀ x, 0 ≤ f x ∧ f x ≤ 255) :
    0 ≤ (l.map f).sum ∧ (l.map f).sum ≤ 255 * (l.length : Int) := by
  induction l with
  | nil => simp
  | cons x l ih =>
    simp only [List.map_cons, List.sum_cons, List.length_cons]
    have := h x
    push_cast
    omega

theorem mean_error {α : Type} (l : List α) (hl : l ≠ []) {lo R e : ℚ} (f : α → Int) (b : α → ℚ)
    (h : ∀ x ∈ l, |lo + (f x : ℚ) * (R / 255) - b x| ≤ e) :
    |lo + (((l.map f).sum : Int) / l.length : ℚ) * (R / 255) - (l.map b).sum / l.length| ≤ e := by
  have hn : (0 : ℚ) < l.length := by
    have : 0 < l.length := List.length_pos_iff.2 hl
    exact_mod_cast this
  have hs := sum_near l h
  rw [sum_affine] at hs
  have e1 : lo + (((l.map f).sum : Int) / l.length : ℚ) * (R / 255) - (l.map b).sum / l.length =
      (l.length * lo + ((l.map f).sum : Int) * (R / 255) - (l.map b).sum) / l.length := by
    field_simp
  rw [e1, abs_div, abs_of_pos hn, div_le_iff₀ hn]
  linarith

/-- **C114**: the computed score of a pose differs from the exact mean score of the cells by no more than half of a step of
`(max - min) / 255` and a little. -/
theorem score_error {fl : ℚ → ℚ} (h : SingleRounding fl) (fused : Bool) {g : CostGrid} (hg : Ok g) {scan : Scan} (hs : scan ≠ [])
    (x y : Int) : |scoreOf fl fused g scan x y - exactScore g scan x y| ≤ (g.maxCost - g.minCost) / 508 + 1 / 2 ^ 17 := by
  have hn : 1 ≤ scan.length := List.length_pos_iff.2 hs
  obtain ⟨s0, s1⟩ := sum_range scan (fun p => cellOf fl g (p.1 + x) (p.2 + y)) (fun p => cellOf_range h hg _ _)
  have a := candidateScore_near h fused (range h hg) hn s0 s1
  have b := mean_error scan hs (fun p => cellOf fl g (p.1 + x) (p.2 + y)) (fun p => exactCell g (p.1 + x) (p.2 + y))
    (fun p _ => cell_error h hg (p.1 + x) (p.2 + y))
  have c := abs_le.1 (width_exact h hg)
  have tri := abs_sub_le (scoreOf fl fused g scan x y) (minScore fl g +
    (((scan.map (fun p => cellOf fl g (p.1 + x) (p.2 + y))).sum : Int) / scan.length : ℚ) *
      ((maxScore fl g - minScore fl g) / 255)) (exactScore g scan x y)
  have a' : |scoreOf fl fused g scan x y - (minScore fl g +
    (((scan.map (fun p => cellOf fl g (p.1 + x) (p.2 + y))).sum : Int) / scan.length : ℚ) *
      ((maxScore fl g - minScore fl g) / 255))| ≤ 36 * u := a
  have b' : |minScore fl g +
    (((scan.map (fun p => cellOf fl g (p.1 + x) (p.2 + y))).sum : Int) / scan.length : ℚ) *
      ((maxScore fl g - minScore fl g) / 255) - exactScore g scan x y| ≤
      (maxScore fl g - minScore fl g) * (501 / 255000) + 3 * u := b
  have hw := hg.width
  refine le_trans tri (le_trans (add_le_add a' b') ?_)
  obtain ⟨c1, c2⟩ := c
  have hu : u ≤ 9 / 67108864 := by unfold u; norm_num
  norm_num
  linarith

/-- **C114**: no pose of the search window is better than the match by more than a step and a little, in exact numbers. -/
theorem match_near_optimal {fl : ℚ → ℚ} (h : SingleRounding fl) (fused : Bool) {g : CostGrid} {depth : Nat}
    {sort : List (FastCorrelative.Candidate ℚ) → List (FastCorrelative.Candidate ℚ)} {scans : List Scan} {bounds : List Bounds}
    {minimum : ℚ} (hg : Ok g) (hd : 1 ≤ depth) (hperm : ∀ l, (sort l).Perm l)
    (hsorted : ∀ l, (sort l).Pairwise (fun a b => b.score ≤ a.score)) (hscans : scans ≠ []) (hpoints : ∀ s ∈ scans, s ≠ [])
    (hlen : bounds.length = scans.length) (hb : ∀ b ∈ bounds, Within b 0 0) (hsize : Sizes g depth scans bounds)
    {c : FastCorrelative.Candidate ℚ} (hc : matchWith fl fused g depth sort scans bounds minimum = some (some c)) :
    ∃ s, scans[c.scan]? = some s ∧ minimum - ((g.maxCost - g.minCost) / 508 + 1 / 2 ^ 17) < exactScore g s c.x c.y ∧
      ∀ (k : Nat) s' b x y, scans[k]? = some s' → bounds[k]? = some b → Within b x y →
        exactScore g s' x y ≤ exactScore g s c.x c.y + 2 * ((g.maxCost - g.minCost) / 508 + 1 / 2 ^ 17) := by
  obtain ⟨result, h1, -, h3⟩ := match_optimal h fused (minimum := minimum) hg hd hperm hsorted hscans hlen hb hsize
  rw [hc] at h1
  obtain rfl := Option.some.inj h1
  obtain ⟨s, b, hs, -, -, he, hlt, hbest⟩ := h3 c rfl
  have e1 := abs_le.1 (score_error h fused hg (hpoints s (List.mem_of_getElem? hs)) c.x c.y)
  refine ⟨s, hs, by rw [he] at hlt; linarith, ?_⟩
  intro k s' b' x y hs' hb' hw
  have e2 := abs_le.1 (score_error h fused hg (hpoints s' (List.mem_of_getElem? hs')) x y)
  have := hbest k s' b' x y hs' hb' hw
  rw [he] at this
  linarith

/-- **C114**: conversely a match is found whenever the exact score of some pose is above the minimum by more than half of a
step and a little. -/
theorem match_found {fl : ℚ → ℚ} (h : SingleRounding fl) (fused : Bool) {g : CostGrid} {depth : Nat}
    {sort : List (FastCorrelative.Candidate ℚ) → List (FastCorrelative.Candidate ℚ)} {scans : List Scan} {bounds : List Bounds}
    {minimum : ℚ} (hg : Ok g) (hd : 1 ≤ depth) (hperm : ∀ l, (sort l).Perm l)
    (hsorted : ∀ l, (sort l).Pairwise (fun a b => b.score ≤ a.score)) (hscans : scans ≠ []) (hpoints : ∀ s ∈ scans, s ≠ [])
    (hlen : bounds.length = scans.length) (hb : ∀ b ∈ bounds, Within b 0 0) (hsize : Sizes g depth scans bounds)
    {k : Nat} {s : Scan} {b : Bounds} {x y : Int} (hs : scans[k]? = some s) (hbk : bounds[k]? = some b) (hw : Within b x y)
    (habove : minimum + ((g.maxCost - g.minCost) / 508 + 1 / 2 ^ 17) < exactScore g s x y) :
    ∃ c, matchWith fl fused g depth sort scans bounds minimum = some (some c) := by
  obtain ⟨result, h1, h2, -⟩ := match_optimal h fused (minimum := minimum) hg hd hperm hsorted hscans hlen hb hsize
  cases result with
  | some c => exact ⟨c, h1⟩
  | none =>
    have := h2.1 rfl k s b x y hs hbk hw
    have e := abs_le.1 (score_error h fused hg (hpoints s (List.mem_of_getElem? hs)) x y)
    linarith

/-! ### Maps of probabilities -/

/-- The map read by the matcher for a `ProbabilityGrid` with values `value` (grid_2d.h:53-58, probability_grid.cc:29-31). -/
def probabilityGrid (fl : ℚ → ℚ) (fused : Bool) (nx ny : Nat) (value : Nat → Nat → Nat) : CostGrid where
  nx := nx
  ny := ny
  cost := fun x y => FloatProb.valueToCost fl fused (value x y)
  minCost := FloatProb.minCost fl
  maxCost := FloatProb.maxCost fl

/-- Decoded values are within the bounds, up to a little. -/
theorem decoded_bounds {fl : ℚ → ℚ} (h : SingleRounding fl) (fused : Bool) {lo hi ur : ℚ} (hb : FloatProb.Bounds lo hi)
    (hw : hi - lo ≤ 1) (hur : lo ≤ ur ∧ ur ≤ hi) (v : Nat) :
    lo - 1 / 2 ^ 18 ≤ FloatProb.valueToBoundedFloat fl fused v ur lo hi ∧
      FloatProb.valueToBoundedFloat fl fused v ur lo hi ≤ hi + 1 / 2 ^ 18 := by
  unfold FloatProb.valueToBoundedFloat
  by_cases h0 : v % 32768 = 0
  · unfold FloatProb.slowValueToBoundedFloat
    rw [if_pos h0]
    norm_num
    constructor <;> linarith
  · have h1 : 1 ≤ v % 32768 := by omega
    have h2 : v % 32768 ≤ 32767 := by omega
    have e := abs_le.1 (FloatProb.decode_error h hb fused h1 h2 ur)
    have i := FloatProb.exactValue_mem hb h1 h2
    have hp := hb.pos
    have hu : u ≤ 9 / 67108864 := by unfold u; norm_num
    have : 17 / 2 * u * (hi - lo) ≤ 17 / 2 * (9 / 67108864) * 1 :=
      mul_le_mul (by linarith) hw (le_of_lt hp) (by norm_num)
    norm_num
    constructor <;> linarith [e.1, e.2, i.1, i.2]

/-- **C114** applies to every `ProbabilityGrid`, whatever its values. -/
theorem probabilityGrid_ok {fl : ℚ → ℚ} (h : SingleRounding fl) (fused : Bool) {nx ny : Nat} (hx : 1 ≤ nx) (hy : 1 ≤ ny)
    (value : Nat → Nat → Nat) : Ok (probabilityGrid fl fused nx ny value) := by
  have hus := u_small
  norm_num at hus
  have m1 := abs_le.1 (FloatProb.minCost_near h)
  have m2 := abs_le.1 (FloatProb.maxCost_near h)
  refine ⟨hx, hy, ?_, ?_, ?_, ?_⟩
  · show 1 / 8 ≤ FloatProb.maxCost fl - FloatProb.minCost fl
    linarith
  · show -1 ≤ FloatProb.minCost fl
    linarith
  · show FloatProb.maxCost fl ≤ 2
    linarith
  · intro x y _ _
    show FloatProb.minCost fl - 1 / 2 ^ 17 ≤ |FloatProb.valueToCost fl fused (value x y)| ∧
      |FloatProb.valueToCost fl fused (value x y)| ≤ FloatProb.maxCost fl + 1 / 2 ^ 17
    obtain ⟨a, b⟩ := decoded_bounds h fused (FloatProb.costBounds h) (by linarith) (ur := FloatProb.maxCost fl)
      ⟨by linarith, le_rfl⟩ (value x y)
    unfold FloatProb.valueToCost
    norm_num at a b ⊢
    rw [abs_of_nonneg (by linarith)]
    constructor <;> linarith

/-! ### Three dimensions -/

open Verif.Hybrid (HG HGWf I3 val Valid)
open Verif.Fast3D (Grid8 Wf look)

theorem probRange {fl : ℚ → ℚ} (h : SingleRounding fl) : Range (FloatProb.minProbability fl) (FloatProb.maxProbability fl) := by
  have hus := u_small
  norm_num at hus
  have m1 := abs_le.1 (FloatProb.minProbability_near h)
  have m2 := abs_le.1 (FloatProb.maxProbability_near h)
  refine ⟨by linarith, by linarith, ?_⟩
  rw [abs_le]; constructor <;> linarith

/-- The value from 0 to 255 of a voxel that holds `v`. -/
def voxelOf (fl : ℚ → ℚ) (fused : Bool) (v : Nat) : Nat :=
  (roundToInt (fl (fl (FloatProb.valueToProbability fl fused v - FloatProb.minProbability fl) *
    fl (255 / fl (FloatProb.maxProbability fl - FloatProb.minProbability fl))))).toNat

theorem probability_bounds {fl : ℚ → ℚ} (h : SingleRounding fl) (fused : Bool) (v : Nat) :
    FloatProb.minProbability fl - (FloatProb.maxProbability fl - FloatProb.minProbability fl) / 1000 ≤
        FloatProb.valueToProbability fl fused v ∧
      FloatProb.valueToProbability fl fused v ≤
        FloatProb.maxProbability fl + (FloatProb.maxProbability fl - FloatProb.minProbability fl) / 1000 := by
  have hus := u_small
  norm_num at hus
  have m1 := abs_le.1 (FloatProb.minProbability_near h)
  have m2 := abs_le.1 (FloatProb.maxProbability_near h)
  obtain ⟨a, b⟩ := decoded_bounds h fused (FloatProb.probBounds h) (by linarith) (ur := FloatProb.minProbability fl)
    ⟨le_rfl, by linarith⟩ v
  unfold FloatProb.valueToProbability
  norm_num at a b
  constructor <;> linarith

/-- **C114**: in `float` the `CHECK`s of the conversion never fail, for any value of a voxel. -/
theorem voxelValue_spec {fl : ℚ → ℚ} (h : SingleRounding fl) (fused : Bool) (v : Nat) :
    voxelValue fl fused v = some (voxelOf fl fused v) ∧ voxelOf fl fused v ≤ 255 := by
  obtain ⟨a, b⟩ := probability_bounds h fused v
  obtain ⟨c, d⟩ := quantise_range h (probRange h) a b
  constructor
  · unfold voxelValue computeCellValue
    rw [if_pos ⟨ne_of_gt (width_pos h (probRange h)), c, d⟩]
    rfl
  · have : voxelOf fl fused v = (quantise fl (FloatProb.minProbability fl) (FloatProb.maxProbability fl)
      (FloatProb.valueToProbability fl fused v)).toNat := rfl
    omega

theorem convertLoop_spec {fl : ℚ → ℚ} (h : SingleRounding fl) (fused : Bool) (l : List (I3 × Nat)) : ∀ {r : Grid8}, Wf r →
    (l.map Prod.fst).Nodup → (∀ p ∈ l, Valid p.1) →
    ∃ r', convertLoop fl fused l r = some r' ∧ Wf r' ∧ (∀ p ∈ l, voxelOf fl fused p.2 = look r' p.1) ∧
      ∀ i, i ∉ l.map Prod.fst → look r' i = look r i := by
  induction l with
  | nil => intro r hw _ _; exact ⟨r, rfl, hw, by simp, by simp⟩
  | cons p l ih =>
    intro r hw hn hv
    obtain ⟨i, v⟩ := p
    rw [List.map_cons, List.nodup_cons] at hn
    have hc := (voxelValue_spec h fused v).1
    obtain ⟨r1, e1, w1, l1⟩ := Hybrid.modify_spec (Hybrid.baseLaws Nat 0) hw
      ((Hybrid.supported_base 0 i).2 (hv (i, v) (by simp))) (fun _ => voxelOf fl fused v)
    obtain ⟨r2, e2, w2, h2, h3⟩ := ih w1 hn.2 (fun p hp => hv p (by simp [hp]))
    refine ⟨r2, by simp [convertLoop, hc, e1, e2], w2, ?_, ?_⟩
    · intro p hp
      rcases List.mem_cons.1 hp with rfl | hp
      · have : look r2 i = look r1 i := h3 i hn.1
        simp only [this]
        exact ((l1 i).trans (if_pos rfl)).symm
      · exact h2 p hp
    · intro j hj
      rw [List.map_cons, List.mem_cons, not_or] at hj
      rw [h3 j hj.2]
      exact (l1 j).trans (if_neg hj.1)

theorem convert_spec {fl : ℚ → ℚ} (h : SingleRounding fl) (fused : Bool) {g : HG} (w : HGWf g) :
    ∃ m r, (∀ n, m ≤ n → convert fl fused n g = some r) ∧ Wf r ∧
      ∀ i, look r i = if val g i = 0 then 0 else voxelOf fl fused (val g i) := by
  obtain ⟨l, h1, hn, h3⟩ := Hybrid.dyn_collect (Hybrid.baseLaws Nat 0) w.grid
  have hval : ∀ i v, (i, v) ∈ l ↔ val g i = v ∧ v ≠ 0 := h3
  obtain ⟨r, e, hw, k1, k2⟩ := convertLoop_spec h fused l (Hybrid.empty_wf (Hybrid.baseLaws Nat 0)) hn (by
    rintro ⟨i, v⟩ hp
    obtain ⟨a, b⟩ := (hval i v).1 hp
    exact w.valid (by rw [a]; exact b))
  refine ⟨l.length, r, fun n hn => by simp [convert, h1 n hn, e], hw, ?_⟩
  intro i
  split
  · rename_i hi
    rw [k2 i, show look (Hybrid.Dyn.empty (Hybrid.base Nat 0)) i = 0 from Hybrid.empty_dlook _ i]
    rw [List.mem_map]
    rintro ⟨⟨j, v⟩, hp, rfl⟩
    obtain ⟨a, b⟩ := (hval j v).1 hp
    exact b (a.symm.trans hi)
  · rename_i hi
    exact (k1 (i, val g i) ((hval i _).2 ⟨rfl, hi⟩)).symm

/-- The score computed for a scan moved by `o`, looking at each voxel itself; 0 for voxels without observations. -/
def scoreOf3 (fl : ℚ → ℚ) (fused : Bool) (g : HG) (cells : List I3) (o : I3) : ℚ :=
  candidateScore fl fused (FloatProb.minProbability fl) (FloatProb.maxProbability fl) cells.length
    ((cells.map (fun c => ((if val g (c.add o) = 0 then 0 else voxelOf fl fused (val g (c.add o)) : Nat) : Int))).sum)

/-- **C114**: the matcher in three dimensions with rounded scores: it reports a match exactly if some pose of the search window
passes the low resolution check and its computed score is above the minimum, and then one with the highest computed score of
all those. -/
theorem match3_optimal {fl : ℚ → ℚ} (h : SingleRounding fl) (fused : Bool) {g : HG} (w : HGWf g) {depth f : Nat} {wxy wz : Int}
    {lowScore : Nat → I3 → WithBot ℚ} {minLow zero : WithBot ℚ} {minimum : ℚ}
    {sort : List (Fast3D.Candidate (WithBot ℚ)) → List (Fast3D.Candidate (WithBot ℚ))}
    (scans : List (List I3)) (hd : 1 ≤ depth) (hf : 1 ≤ f)
    (hroom : ∀ x, val g x ≠ 0 → -8192 + (2 ^ (depth - 1) - 1) ≤ x.x ∧ -8192 + (2 ^ (depth - 1) - 1) ≤ x.y ∧
      -8192 + (2 ^ (depth - 1) - 1) ≤ x.z)
    (hxy : 0 ≤ wxy) (hz : 0 ≤ wz) (hperm : ∀ l, (sort l).Perm l)
    (hsorted : ∀ l, (sort l).Pairwise (fun a b => b.score ≤ a.score)) :
    ∃ m grids result, (∀ n, m ≤ n → stack fl fused n g depth f = some grids) ∧
      Fast3D.search ⟨grids, depth, f, wxy, wz, scans, fun n sum => (probabilityScore fl fused n sum : WithBot ℚ), lowScore, minLow,
        zero, sort⟩ (minimum : WithBot ℚ) = some result ∧
      (result = none ↔ ∀ k s o, scans[k]? = some s → Fast3D.Within wxy wz o → minLow ≤ lowScore k o →
        scoreOf3 fl fused g s o ≤ minimum) ∧
      (∀ c, result = some c → ∃ s, scans[c.scan]? = some s ∧ Fast3D.Within wxy wz c.offset ∧
        minLow ≤ lowScore c.scan c.offset ∧ c.score = (scoreOf3 fl fused g s c.offset : WithBot ℚ) ∧
        minimum < scoreOf3 fl fused g s c.offset ∧
        ∀ k s' o, scans[k]? = some s' → Fast3D.Within wxy wz o → minLow ≤ lowScore k o →
          scoreOf3 fl fused g s' o ≤ scoreOf3 fl fused g s c.offset) := by
  obtain ⟨m1, r, e1, hw, hlook⟩ := convert_spec h fused w
  have hroom' : Fast3D.Room r depth := by
    intro x hx
    apply hroom
    intro h0
    apply hx
    rw [hlook, if_pos h0]
  obtain ⟨m2, grids, e2⟩ := Fast3D.stackFrom_total hw hd hf hroom'
  obtain ⟨s1, s2, s3⟩ := Fast3D.stack_window hw (e2 m2 (le_refl _))
  let e : Fast3D.Setting (WithBot ℚ) := ⟨grids, depth, f, wxy, wz, scans, fun n sum => (probabilityScore fl fused n sum : WithBot ℚ),
    lowScore, minLow, zero, sort⟩
  have hmono : ∀ n a b, a ≤ b → e.toScore n a ≤ e.toScore n b := by
    intro n a b hab
    exact WithBot.coe_le_coe.2 (candidateScore_mono h fused (probRange h) n hab)
  have hg : Fast3D.Good e r := ⟨hw, hf, hd, s1, s2, s3, hxy, hz, hmono, hperm, hsorted⟩
  obtain ⟨result, h1, h2, h3⟩ := Fast3D.search_optimal hg (minimum : WithBot ℚ)
  have hfine : ∀ k s o, scans[k]? = some s → Fast3D.fine e r k o = (scoreOf3 fl fused g s o : WithBot ℚ) := by
    intro k s o hk
    have : e.scans.getD k [] = s := by simp [e, List.getD, hk]
    unfold Fast3D.fine scoreOf3
    rw [this]
    simp only [hlook]
    rfl
  have hin : ∀ k o, Fast3D.InWindow e k o ↔ (∃ s, scans[k]? = some s) ∧ Fast3D.Within wxy wz o := by
    intro k o
    show (k < scans.length ∧ _) ↔ _
    constructor
    · rintro ⟨a, b⟩; exact ⟨⟨_, List.getElem?_eq_getElem a⟩, b⟩
    · rintro ⟨⟨s, a⟩, b⟩; exact ⟨(List.getElem?_eq_some_iff.1 a).1, b⟩
  refine ⟨max m1 m2, grids, result, ?_, h1, ?_, ?_⟩
  · intro n hn
    simp [stack, hd, hf, e1 n (by omega), e2 n (by omega)]
  · rw [h2]
    constructor
    · intro h k s o hk hwin hp
      have := h k o ((hin k o).2 ⟨⟨s, hk⟩, hwin⟩) hp
      rw [hfine k s o hk] at this
      exact WithBot.coe_le_coe.1 this
    · intro h k o hkw hp
      obtain ⟨⟨s, hk⟩, hwin⟩ := (hin k o).1 hkw
      rw [hfine k s o hk]
      exact WithBot.coe_le_coe.2 (h k s o hk hwin hp)
  · intro c hc
    obtain ⟨a1, a2, a3, a4, a5, a6⟩ := h3 c hc
    obtain ⟨⟨s, hk⟩, hwin⟩ := (hin _ _).1 a1
    rw [hfine _ s _ hk] at a3
    refine ⟨s, hk, hwin, a2, a3, ?_, ?_⟩
    · rw [a3] at a5
      exact WithBot.coe_lt_coe.1 a5
    · intro k s' o hk' hwin' hp
      have := a6 k o ((hin k o).2 ⟨⟨s', hk'⟩, hwin'⟩) hp
      rw [hfine k s' o hk', a3] at this
      exact WithBot.coe_le_coe.1 this

/-- The mean probability of the voxels that the points of a scan moved by `o` fall into, computed without rounding from the
values of the table of `ValueToProbability`; the smallest probability for voxels without observations. -/
def exactScore3 (fl : ℚ → ℚ) (fused : Bool) (g : HG) (cells : List I3) (o : I3) : ℚ :=
  (cells.map (fun c => FloatProb.valueToProbability fl fused (val g (c.add o)))).sum / cells.length

theorem unobserved (fl : ℚ → ℚ) (fused : Bool) : FloatProb.valueToProbability fl fused 0 = FloatProb.minProbability fl := by
  unfold FloatProb.valueToProbability FloatProb.valueToBoundedFloat FloatProb.slowValueToBoundedFloat
  rw [if_pos (by norm_num)]

/-- **C114**: the computed score in three dimensions differs from the exact mean probability by no more than half of a step and
a little. -/
theorem score3_error {fl : ℚ → ℚ} (h : SingleRounding fl) (fused : Bool) (g : HG) {cells : List I3} (hs : cells ≠ []) (o : I3) :
    |scoreOf3 fl fused g cells o - exactScore3 fl fused g cells o| ≤ 4 / 5 / 508 + 1 / 2 ^ 17 := by
  have hb := probRange h
  have hR := hb.pos
  have hn : 1 ≤ cells.length := List.length_pos_iff.2 hs
  set lo := FloatProb.minProbability fl with hlo
  set hi := FloatProb.maxProbability fl with hhi
  have hrange : ∀ c : I3, 0 ≤ ((if val g (c.add o) = 0 then 0 else voxelOf fl fused (val g (c.add o)) : Nat) : Int) ∧
      ((if val g (c.add o) = 0 then 0 else voxelOf fl fused (val g (c.add o)) : Nat) : Int) ≤ 255 := by
    intro c
    have := (voxelValue_spec h fused (val g (c.add o))).2
    split <;> constructor <;> push_cast <;> omega
  obtain ⟨s0, s1⟩ := sum_range cells _ hrange
  have a := candidateScore_near h fused hb hn s0 s1
  have b := mean_error (lo := lo) (R := hi - lo) (e := (hi - lo) * (501 / 255000)) cells hs
    (fun c => ((if val g (c.add o) = 0 then 0 else voxelOf fl fused (val g (c.add o)) : Nat) : Int))
    (fun c => FloatProb.valueToProbability fl fused (val g (c.add o))) (by
      intro c _
      split
      · rename_i h0
        rw [h0, unobserved]
        have : 0 ≤ (hi - lo) * (501 / 255000) := by positivity
        simpa [← hlo] using this
      · obtain ⟨p1, p2⟩ := probability_bounds h fused (val g (c.add o))
        obtain ⟨q1, q2⟩ := quantise_range h hb p1 p2
        have e := quantise_near h hb p1 p2
        have hv : ((voxelOf fl fused (val g (c.add o)) : Nat) : Int) = quantise fl lo hi (FloatProb.valueToProbability fl fused (val g (c.add o))) :=
          Int.toNat_of_nonneg q1
        rw [hv]
        set p := FloatProb.valueToProbability fl fused (val g (c.add o))
        set q : ℚ := (quantise fl lo hi p : ℚ)
        have key : lo + q * ((hi - lo) / 255) - p = (q - (p - lo) / (hi - lo) * 255) * ((hi - lo) / 255) := by
          field_simp
          ring
        rw [key, abs_mul, abs_of_pos (show (0 : ℚ) < (hi - lo) / 255 by positivity)]
        have := mul_le_mul_of_nonneg_right e (le_of_lt (show (0 : ℚ) < (hi - lo) / 255 by positivity))
        linarith)
  have tri := abs_sub_le (scoreOf3 fl fused g cells o) (lo +
    (((cells.map (fun c => ((if val g (c.add o) = 0 then 0 else voxelOf fl fused (val g (c.add o)) : Nat) : Int))).sum : Int)
      / cells.length : ℚ) * ((hi - lo) / 255)) (exactScore3 fl fused g cells o)
  have b' : |lo + (((cells.map (fun c => ((if val g (c.add o) = 0 then 0 else voxelOf fl fused (val g (c.add o)) : Nat) : Int))).sum : Int)
      / cells.length : ℚ) * ((hi - lo) / 255) - exactScore3 fl fused g cells o| ≤ (hi - lo) * (501 / 255000) := b
  have a' : |scoreOf3 fl fused g cells o - (lo + (((cells.map (fun c => ((if val g (c.add o) = 0 then 0 else voxelOf fl fused (val g (c.add o)) : Nat) : Int))).sum : Int)
      / cells.length : ℚ) * ((hi - lo) / 255))| ≤ 36 * u := a
  have m1 := abs_le.1 (FloatProb.minProbability_near h)
  have m2 := abs_le.1 (FloatProb.maxProbability_near h)
  have hu : u ≤ 9 / 67108864 := by unfold u; norm_num
  refine le_trans tri (le_trans (add_le_add a' b') ?_)
  norm_num
  linarith [m1.1, m2.2]

/-! ### Where rounding shows -/

/-- One value of a voxel lies exactly between two values from 0 to 255 and is rounded the other way in `float`. -/
theorem rounding_changes_a_voxel : voxelValue single.rnd false 27306 = some 212 ∧ voxelValue single.rnd true 27306 = some 212 ∧
    Fast3D.cellValue 27306 = some 213 := by decide +kernel

/-- A map with a tiny truncation distance, so that all costs are near zero: one minus the costs is one. -/
def narrow : CostGrid := ⟨2, 2, fun _ _ => 0, -1 / 2 ^ 26, 1 / 2 ^ 26⟩

/-- Both bounds of the scores are then one, and the precomputation divides by zero. -/
theorem narrow_range_fails : precompute single.rnd narrow 1 = none ∧ (FastCorrelative.precompute narrow 1).isSome := by
  decide +kernel

/-! ### Examples -/

/-- A sorting function. -/
def sortByScore (l : List (FastCorrelative.Candidate ℚ)) : List (FastCorrelative.Candidate ℚ) :=
  l.insertionSort (fun a b => b.score ≤ a.score)

theorem smallGrid_ok : Ok FastCorrelative.smallGrid := by
  refine ⟨by decide, by decide, by norm_num [FastCorrelative.smallGrid], by norm_num [FastCorrelative.smallGrid],
    by norm_num [FastCorrelative.smallGrid], ?_⟩
  intro x y _ _
  simp only [FastCorrelative.smallGrid]
  split_ifs <;> norm_num [abs_of_pos]

/-- A scan of two points is moved onto the two occupied cells; the exact score is 4 / 5. -/
example : matchWith single.rnd false FastCorrelative.smallGrid 2 sortByScore [[(0, 0), (2, -1)]] [⟨-2, 2, -2, 2⟩] (2 / 5) =
    some (some ⟨0, 0, 1, 13415193 / 16777216⟩) := by decide +kernel

example : exactScore FastCorrelative.smallGrid [(0, 0), (2, -1)] 0 1 = 4 / 5 := by decide +kernel

/-- The hypotheses of the theorems hold there. -/
example : ∃ c, matchWith single.rnd false FastCorrelative.smallGrid 2 sortByScore [[(0, 0), (2, -1)]] [⟨-2, 2, -2, 2⟩] (2 / 5) =
    some (some c) := by
  have hs : ∀ l, (sortByScore l).Pairwise (fun a b => b.score ≤ a.score) := by
    intro l
    haveI : Std.Total (fun a b : FastCorrelative.Candidate ℚ => b.score ≤ a.score) := ⟨fun a b => le_total _ _⟩
    haveI : IsTrans (FastCorrelative.Candidate ℚ) (fun a b => b.score ≤ a.score) := ⟨fun a b c h1 h2 => h2.trans h1⟩
    exact List.pairwise_insertionSort _ l
  refine match_found single_nearest false smallGrid_ok (by decide) (fun l => List.perm_insertionSort _ l) hs (by simp) (by simp) rfl
    (by decide) ⟨by decide, by decide, by decide, by decide, by decide⟩ (k := 0) rfl rfl (x := 0) (y := 1) (by decide) ?_
  have e : exactScore FastCorrelative.smallGrid [(0, 0), (2, -1)] 0 1 = 4 / 5 := by decide +kernel
  rw [e]
  norm_num [FastCorrelative.smallGrid]

/-- Every value of a cell is possible, and the score of a scan is near the mean. -/
example : |scoreOf single.rnd true FastCorrelative.smallGrid [(0, 0), (2, -1)] 0 1 - 4 / 5| ≤ 1 / 500 := by
  have e : exactScore FastCorrelative.smallGrid [(0, 0), (2, -1)] 0 1 = 4 / 5 := by decide +kernel
  have := score_error single_nearest true smallGrid_ok (scan := [(0, 0), (2, -1)]) (by simp) 0 1
  rw [e] at this
  refine le_trans this ?_
  norm_num [FastCorrelative.smallGrid]

end Verif.FloatMatch
