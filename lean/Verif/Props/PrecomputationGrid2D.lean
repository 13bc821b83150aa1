import Verif.FastCorrelative2DLemmas
import Mathlib.Order.Bounds.Basic
import Mathlib.Tactic.Positivity
import Mathlib.Tactic.FieldSimp
import Mathlib.Tactic.NormNum

/-!
# Precomputed grids bound every finer candidate (C37)
-/

namespace Verif.FastCorrelative

/-- A value between 0 and 255 for the correspondence cost of a cell. -/
def quantise (g : CostGrid) (cost : ℚ) : Int :=
  Prob.roundToInt ((1 - |cost| - g.minScore) * (255 / (g.maxScore - g.minScore)))

/-- The score of a cell; cells outside of the map have the lowest one. -/
def cellScore (g : CostGrid) (x y : Int) : Int :=
  if 0 ≤ x ∧ x < g.nx ∧ 0 ≤ y ∧ y < g.ny then quantise g (g.cost x.toNat y.toNat) else 0

/-- The correspondence costs are within their bounds. -/
structure CostGrid.Ok (g : CostGrid) : Prop where
  nx : 1 ≤ g.nx
  ny : 1 ≤ g.ny
  bounds : g.minCost < g.maxCost
  cost : ∀ x y, x < g.nx → y < g.ny → g.minCost ≤ |g.cost x y| ∧ |g.cost x y| ≤ g.maxCost

/-- What `ComputeCellValue` computes. -/
def scaled (g : CostGrid) (p : ℚ) : Int := Prob.roundToInt ((p - g.minScore) * (255 / (g.maxScore - g.minScore)))

theorem range_pos {g : CostGrid} (h : g.Ok) : 0 < g.maxScore - g.minScore := by
  have := h.bounds
  unfold CostGrid.maxScore CostGrid.minScore
  linarith

theorem scaled_mono {g : CostGrid} (h : g.Ok) {p q : ℚ} (hpq : p ≤ q) : scaled g p ≤ scaled g q := by
  apply round_mono
  have := range_pos h
  apply mul_le_mul_of_nonneg_right
  · linarith
  · positivity

theorem scaled_range {g : CostGrid} (h : g.Ok) {p : ℚ} (h1 : g.minScore ≤ p) (h2 : p ≤ g.maxScore) :
    0 ≤ scaled g p ∧ scaled g p ≤ 255 := by
  have e0 : scaled g g.minScore = 0 := by
    unfold scaled Prob.roundToInt
    norm_num
  have e1 : scaled g g.maxScore = 255 := by
    unfold scaled
    have := range_pos h
    rw [show (g.maxScore - g.minScore) * (255 / (g.maxScore - g.minScore)) = 255 from by field_simp]
    unfold Prob.roundToInt
    norm_num
  exact ⟨e0 ▸ scaled_mono h h1, e1 ▸ scaled_mono h h2⟩

theorem score_range {g : CostGrid} (h : g.Ok) {x y : Nat} (hx : x < g.nx) (hy : y < g.ny) :
    g.minScore ≤ 1 - |g.cost x y| ∧ 1 - |g.cost x y| ≤ g.maxScore := by
  obtain ⟨h1, h2⟩ := h.cost x y hx hy
  unfold CostGrid.maxScore CostGrid.minScore
  exact ⟨by linarith, by linarith⟩

/-- The largest score of the cells `(a, b)` with `j + 1 - w ≤ a ≤ j` and `k + 1 - w ≤ b ≤ k` in the map. -/
def LargestCell (g : CostGrid) (w j k : Nat) (m : ℚ) : Prop :=
  (∃ a b, j + 1 - w ≤ a ∧ a < min (j + 1) g.nx ∧ k + 1 - w ≤ b ∧ b < min (k + 1) g.ny ∧ 1 - |g.cost a b| = m) ∧
  ∀ a b, j + 1 - w ≤ a → a < min (j + 1) g.nx → k + 1 - w ≤ b → b < min (k + 1) g.ny → 1 - |g.cost a b| ≤ m

theorem intermediate_spec {g : CostGrid} {w : Nat} (h : g.Ok) (hw : 1 ≤ w) :
    ∃ l, tabulate (rowPass g w) g.ny 0 = some l ∧
      ∀ y j, y < g.ny → j < g.nx + w - 1 →
        Largest (fun x => 1 - |g.cost x y|) (j + 1 - w) (min (j + 1) g.nx) ((l.getD y []).getD j 0) := by
  have ht : (tabulate (rowPass g w) g.ny 0).isSome := by
    apply tabulate_total
    intro i hi
    obtain ⟨out, h1, -⟩ := slide_spec (f := fun x => 1 - |g.cost x (0 + i)|) h.nx hw
    unfold rowPass
    rw [h1]
    rfl
  obtain ⟨l, hl⟩ := Option.isSome_iff_exists.1 ht
  refine ⟨l, hl, ?_⟩
  intro y j hy hj
  obtain ⟨-, h2⟩ := tabulate_spec hl
  obtain ⟨row, h3, h4⟩ := h2 y hy
  rw [Nat.zero_add] at h4
  obtain ⟨out, h5, -, h6⟩ := slide_spec (f := fun x => 1 - |g.cost x y|) h.nx hw
  unfold rowPass at h4
  rw [h5] at h4
  obtain rfl := Option.some.inj h4
  obtain ⟨m, h7, h8⟩ := h6 j hj
  simpa [List.getD, h3, h7] using h8

theorem column_spec {g : CostGrid} {w : Nat} (h : g.Ok) (hw : 1 ≤ w) {l : List (List ℚ)}
    (hl : ∀ y j, y < g.ny → j < g.nx + w - 1 →
      Largest (fun x => 1 - |g.cost x y|) (j + 1 - w) (min (j + 1) g.nx) ((l.getD y []).getD j 0))
    {j : Nat} (hj : j < g.nx + w - 1) :
    ∃ col, columnPass g w l j = some col ∧ ∀ k, k < g.ny + w - 1 →
      ∃ m, LargestCell g w j k m ∧ col.getD k 0 = scaled g m := by
  obtain ⟨out, h1, h2, h3⟩ := slide_spec (f := fun y => (l.getD y []).getD j 0) h.ny hw
  have cell : ∀ k, k < g.ny + w - 1 → ∃ m, out[k]? = some m ∧ LargestCell g w j k m := by
    intro k hk
    obtain ⟨m, h4, ⟨b, hb1, hb2, hb3⟩, h6⟩ := h3 k hk
    dsimp only at hb3 h6
    refine ⟨m, h4, ?_, ?_⟩
    · obtain ⟨⟨a, ha1, ha2, ha3⟩, -⟩ := hl b j (by omega) hj
      exact ⟨a, b, ha1, ha2, hb1, hb2, by rw [← hb3]; exact ha3⟩
    · intro a b' ha1 ha2 hb1' hb2'
      obtain ⟨-, h7⟩ := hl b' j (by omega) hj
      exact (h7 a ha1 ha2).trans (h6 b' hb1' hb2')
  have value : ∀ k, k < g.ny + w - 1 → ∃ m, LargestCell g w j k m ∧
      computeCellValue g.minScore g.maxScore (out.getD k 0) = some (scaled g m) := by
    intro k hk
    obtain ⟨m, h4, h5⟩ := cell k hk
    refine ⟨m, h5, ?_⟩
    have hm : out.getD k 0 = m := by simp [List.getD, h4]
    obtain ⟨⟨a, b, ha1, ha2, hb1, hb2, rfl⟩, -⟩ := h5
    obtain ⟨r1, r2⟩ := score_range h (x := a) (y := b) (by omega) (by omega)
    have hr := scaled_range h r1 r2
    unfold scaled at hr
    rw [hm]
    unfold computeCellValue scaled
    rw [if_pos hr]
  have ht : (tabulate (fun y => computeCellValue g.minScore g.maxScore (out.getD y 0)) out.length 0).isSome := by
    apply tabulate_total
    intro i hi
    obtain ⟨m, -, h4⟩ := value i (by omega)
    rw [Nat.zero_add, h4]
    rfl
  obtain ⟨col, hcol⟩ := Option.isSome_iff_exists.1 ht
  refine ⟨col, ?_, ?_⟩
  · unfold columnPass
    rw [h1]
    exact hcol
  · intro k hk
    obtain ⟨-, h4⟩ := tabulate_spec hcol
    obtain ⟨v, h5, h6⟩ := h4 k (by omega)
    obtain ⟨m, h7, h8⟩ := value k hk
    rw [Nat.zero_add, h8] at h6
    refine ⟨m, h7, ?_⟩
    simp [List.getD, h5, Option.some.inj h6]

/-- The precomputation never fails; what it stores. -/
theorem precompute_spec {g : CostGrid} {w : Nat} (h : g.Ok) (hw : 1 ≤ w) :
    ∃ p, precompute g w = some p ∧ p.width = w ∧ p.nx = g.nx + w - 1 ∧ p.ny = g.ny + w - 1 ∧
      ∀ j k, j < g.nx + w - 1 → k < g.ny + w - 1 →
        ∃ m, LargestCell g w j k m ∧ (p.cells.getD j []).getD k 0 = scaled g m := by
  obtain ⟨l, hl, h1⟩ := intermediate_spec h hw
  have ht : (tabulate (columnPass g w l) (g.nx + w - 1) 0).isSome := by
    apply tabulate_total
    intro i hi
    obtain ⟨col, h2, -⟩ := column_spec h hw h1 hi
    rw [Nat.zero_add, h2]
    rfl
  obtain ⟨cells, hc⟩ := Option.isSome_iff_exists.1 ht
  refine ⟨⟨w, g.nx + w - 1, g.ny + w - 1, cells⟩, ?_, rfl, rfl, rfl, ?_⟩
  · simp [precompute, hw, h.nx, h.ny, hl, hc]
  · intro j k hj hk
    obtain ⟨-, h3⟩ := tabulate_spec hc
    obtain ⟨col, h4, h5⟩ := h3 j hj
    obtain ⟨col', h6, h7⟩ := column_spec h hw h1 hj
    rw [Nat.zero_add, h6] at h5
    obtain rfl := Option.some.inj h5
    obtain ⟨m, h8, h9⟩ := h7 k hk
    exact ⟨m, h8, by simpa [List.getD, h4] using h9⟩

/-- C37: the precomputation completes for all maps and widths. -/
theorem precompute_completes {g : CostGrid} {w : Nat} (h : g.Ok) (hw : 1 ≤ w) : (precompute g w).isSome := by
  obtain ⟨p, hp, -⟩ := precompute_spec h hw
  rw [hp]
  rfl

/-- Both comparisons of `GetValue` at once. -/
theorem unsigned_cmp {x : Int} {n : Nat} (h1 : -2147483648 ≤ x) (h2 : x < 2147483648) (hn : (n : Int) < 2147483648) :
    toUnsigned x ≥ toUnsigned n ↔ ¬ (0 ≤ x ∧ x < n) := by
  unfold toUnsigned
  omega

theorem cellScore_nonneg {g : CostGrid} (h : g.Ok) (x y : Int) : 0 ≤ cellScore g x y ∧ cellScore g x y ≤ 255 := by
  unfold cellScore
  split
  · rename_i hc
    obtain ⟨r1, r2⟩ := score_range h (x := x.toNat) (y := y.toNat) (by omega) (by omega)
    exact scaled_range h r1 r2
  · simp

/-- C37: at every position, inside and outside of the map, the precomputed value is the largest score of the
cells in the window that starts there. -/
theorem precomputed_is_window_maximum {g : CostGrid} {w : Nat} (h : g.Ok) (hw : 1 ≤ w) {p : Precomputed}
    (hp : precompute g w = some p) (hnx : (g.nx : Int) + w - 1 < 2147483648) (hny : (g.ny : Int) + w - 1 < 2147483648)
    {x y : Int} (hx1 : -2147483648 ≤ x + w - 1) (hx2 : x + w - 1 < 2147483648)
    (hy1 : -2147483648 ≤ y + w - 1) (hy2 : y + w - 1 < 2147483648) :
    IsGreatest {v | ∃ dx dy : Int, 0 ≤ dx ∧ dx < w ∧ 0 ≤ dy ∧ dy < w ∧ v = cellScore g (x + dx) (y + dy)}
      (getValue p x y) := by
  obtain ⟨p', hp', e1, e2, e3, h4⟩ := precompute_spec h hw
  rw [hp'] at hp
  obtain rfl := Option.some.inj hp
  have ux := unsigned_cmp (x := x - (-(p'.width : Int) + 1)) (n := p'.nx) (by rw [e1]; omega) (by rw [e1]; omega)
    (by rw [e2]; omega)
  have uy := unsigned_cmp (x := y - (-(p'.width : Int) + 1)) (n := p'.ny) (by rw [e1]; omega) (by rw [e1]; omega)
    (by rw [e3]; omega)
  unfold getValue
  rw [e1, e2, e3] at *
  split
  · rename_i hout
    rw [ux, uy] at hout
    constructor
    · refine ⟨0, 0, le_refl _, by omega, le_refl _, by omega, ?_⟩
      unfold cellScore
      rw [if_neg]
      omega
    · rintro v ⟨dx, dy, d1, d2, d3, d4, rfl⟩
      unfold cellScore
      rw [if_neg]
      omega
  · rename_i hin
    rw [ux, uy] at hin
    have hin : (0 ≤ x - (-(w : Int) + 1) ∧ x - (-(w : Int) + 1) < ((g.nx + w - 1 : Nat) : Int)) ∧
        (0 ≤ y - (-(w : Int) + 1) ∧ y - (-(w : Int) + 1) < ((g.ny + w - 1 : Nat) : Int)) := by
      constructor
      · by_contra hh; exact hin (Or.inl hh)
      · by_contra hh; exact hin (Or.inr hh)
    obtain ⟨m, ⟨⟨a, b, ha1, ha2, hb1, hb2, rfl⟩, hm⟩, hv⟩ :=
      h4 (x - (-(w : Int) + 1)).toNat (y - (-(w : Int) + 1)).toNat (by omega) (by omega)
    rw [hv]
    constructor
    · refine ⟨a - x, b - y, by omega, by omega, by omega, by omega, ?_⟩
      unfold cellScore
      rw [if_pos (by omega)]
      unfold quantise scaled
      rw [show (x + ((a : Int) - x)).toNat = a from by omega, show (y + ((b : Int) - y)).toNat = b from by omega]
    · rintro v ⟨dx, dy, d1, d2, d3, d4, rfl⟩
      unfold cellScore
      split
      · rename_i hc
        exact scaled_mono h (hm (x + dx).toNat (y + dy).toNat (by omega) (by omega) (by omega) (by omega))
      · obtain ⟨r1, r2⟩ := score_range h (x := a) (y := b) (by omega) (by omega)
        exact (scaled_range h r1 r2).1

/-- C37: the value of a coarse grid bounds the value of every finer grid in its window; in particular the sum
over a scan does. -/
theorem coarse_bounds_fine {g : CostGrid} {w w' : Nat} (h : g.Ok) (hw : 1 ≤ w) (hw' : 1 ≤ w')
    {p p' : Precomputed} (hp : precompute g w = some p) (hp' : precompute g w' = some p')
    (hnx : (g.nx : Int) + w - 1 < 2147483648) (hny : (g.ny : Int) + w - 1 < 2147483648)
    {x y dx dy : Int} (d1 : 0 ≤ dx) (d2 : dx + w' ≤ w) (d3 : 0 ≤ dy) (d4 : dy + w' ≤ w)
    (hx1 : -2147483648 ≤ x) (hx2 : x + w - 1 < 2147483648) (hy1 : -2147483648 ≤ y) (hy2 : y + w - 1 < 2147483648) :
    getValue p' (x + dx) (y + dy) ≤ getValue p x y := by
  have hg := precomputed_is_window_maximum h hw hp hnx hny (x := x) (y := y) (by omega) hx2 (by omega) hy2
  have hg' := precomputed_is_window_maximum h hw' hp' (by omega) (by omega) (x := x + dx) (y := y + dy) (by omega)
    (by omega) (by omega) (by omega)
  obtain ⟨ex, ey, e1, e2, e3, e4, e5⟩ := hg'.1
  rw [e5]
  apply hg.2
  exact ⟨dx + ex, dy + ey, by omega, by omega, by omega, by omega, by rw [add_assoc, add_assoc]⟩

/-- A map with 3 x 2 cells. -/
def smallGrid : CostGrid where
  nx := 3
  ny := 2
  cost := fun x y => if x = 2 ∧ y = 0 then 1 / 10 else if x = 0 ∧ y = 1 then 3 / 10 else 9 / 10
  minCost := 1 / 10
  maxCost := 9 / 10

theorem smallGrid_ok : smallGrid.Ok := by
  refine ⟨by decide, by decide, by norm_num [smallGrid], ?_⟩
  intro x y _ _
  simp only [smallGrid]
  split
  · norm_num [abs_of_pos]
  · split <;> norm_num [abs_of_pos]

/-- The window of width 2 at (1, -1) contains the cell (2, 0) with the highest score. -/
example : ((precompute smallGrid 2).map (fun p => getValue p 1 (-1))) = some 255 ∧
    ((precompute smallGrid 2).map (fun p => getValue p 0 0)) = some 191 ∧
    ((precompute smallGrid 2).map (fun p => getValue p 3 0)) = some 0 := by decide +kernel

end Verif.FastCorrelative
