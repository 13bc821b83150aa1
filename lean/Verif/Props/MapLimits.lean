import Verif.Grid2D
import Verif.Props.ProbabilityValues

/-!
# C16: cell index and cell centre are mutually consistent
-/

namespace Verif.Grid2D

open Verif.Prob

theorem round_nonneg_iff {x : ℚ} {n : Int} (hn : 1 ≤ n) : roundToInt x = n ↔ (n : ℚ) - 1 / 2 ≤ x ∧ x < n + 1 / 2 := by
  have hn' : (1 : ℚ) ≤ n := by exact_mod_cast hn
  unfold roundToInt
  split
  · rw [Int.floor_eq_iff]
    constructor <;> rintro ⟨h1, h2⟩ <;> constructor <;> linarith
  · rename_i h
    constructor
    · intro h1
      rw [Int.ceil_eq_iff] at h1
      linarith [h1.1]
    · rintro ⟨h1, h2⟩
      linarith

theorem round_neg_iff {x : ℚ} {n : Int} (hn : n ≤ -1) : roundToInt x = n ↔ (n : ℚ) - 1 / 2 < x ∧ x ≤ n + 1 / 2 := by
  have hn' : (n : ℚ) ≤ -1 := by exact_mod_cast hn
  unfold roundToInt
  split
  · rename_i h
    constructor
    · intro h1
      rw [Int.floor_eq_iff] at h1
      linarith [h1.2]
    · rintro ⟨h1, h2⟩
      linarith
  · rw [Int.ceil_eq_iff]
    constructor <;> rintro ⟨h1, h2⟩ <;> constructor <;> linarith

theorem round_zero_iff {x : ℚ} : roundToInt x = 0 ↔ -1 / 2 < x ∧ x < 1 / 2 := by
  unfold roundToInt
  split
  · rw [Int.floor_eq_iff]
    push_cast
    constructor <;> rintro ⟨h1, h2⟩ <;> constructor <;> linarith
  · rw [Int.ceil_eq_iff]
    push_cast
    constructor <;> rintro ⟨h1, h2⟩ <;> constructor <;> linarith

theorem round_of_near {x : ℚ} {n : Int} (h1 : (n : ℚ) - 1 / 2 < x) (h2 : x < n + 1 / 2) : roundToInt x = n := by
  rcases lt_trichotomy n 0 with h | h | h
  · exact (round_neg_iff (by omega)).2 ⟨h1, h2.le⟩
  · subst h
    push_cast at *
    exact round_zero_iff.2 ⟨by linarith, by linarith⟩
  · exact (round_nonneg_iff (by omega)).2 ⟨h1.le, h2⟩

theorem near_of_round {x : ℚ} {n : Int} (h : roundToInt x = n) : (n : ℚ) - 1 / 2 ≤ x ∧ x ≤ n + 1 / 2 := by
  rcases lt_trichotomy n 0 with h' | h' | h'
  · have := (round_neg_iff (by omega)).1 h
    exact ⟨this.1.le, this.2⟩
  · subst h'
    have := round_zero_iff.1 h
    push_cast
    constructor <;> linarith [this.1, this.2]
  · have := (round_nonneg_iff (by omega)).1 h
    exact ⟨this.1, this.2.le⟩

/-- The rounded value lies in `[0, n)` exactly for the open interval `(-1/2, n - 1/2)`. -/
theorem round_range_iff {x : ℚ} {n : Nat} (hn : 0 < n) : (0 ≤ roundToInt x ∧ roundToInt x < n) ↔ -1 / 2 < x ∧ x < n - 1 / 2 := by
  have hn' : (1 : ℚ) ≤ n := by exact_mod_cast hn
  constructor
  · rintro ⟨h1, h2⟩
    have h2' : ((roundToInt x : Int) : ℚ) ≤ n - 1 := by
      have : roundToInt x ≤ (n : Int) - 1 := by omega
      exact_mod_cast this
    rcases h1.lt_or_eq with h | h
    · obtain ⟨a, b⟩ := (round_nonneg_iff (x := x) (n := roundToInt x) (by omega)).1 rfl
      have h' : (1 : ℚ) ≤ roundToInt x := by exact_mod_cast h
      constructor <;> linarith
    · obtain ⟨a, b⟩ := round_zero_iff.1 h.symm
      constructor
      · linarith
      · linarith
  · rintro ⟨h1, h2⟩
    constructor
    · by_contra h
      obtain ⟨a, b⟩ := (round_neg_iff (x := x) (n := roundToInt x) (by omega)).1 rfl
      have h' : ((roundToInt x : Int) : ℚ) ≤ -1 := by
        have : roundToInt x ≤ -1 := by omega
        exact_mod_cast this
      linarith
    · by_contra h
      have := (near_of_round (x := x) rfl).1
      have h' : (n : ℚ) ≤ (roundToInt x : Int) := by
        have : (n : Int) ≤ roundToInt x := by omega
        exact_mod_cast this
      linarith

variable {l : MapLimits}

theorem contains_def (i : Int × Int) :
    l.contains i = true ↔ 0 ≤ i.1 ∧ 0 ≤ i.2 ∧ i.1 < l.numX ∧ i.2 < l.numY := by
  simp [MapLimits.contains, and_assoc]

/-- **C16**: the centre of any cell, inside or outside of the limits, maps back to that cell. -/
theorem center_to_cell (hr : 0 < l.resolution) (i : Int × Int) :
    l.getCellIndex (l.getCellCenter i).1 (l.getCellCenter i).2 = i := by
  have key : ∀ (m r : ℚ) (n : Int), 0 < r → roundToInt ((m - (m - r * ((n : ℚ) + 1 / 2))) / r - 1 / 2) = n := by
    intro m r n hr
    have : (m - (m - r * ((n : ℚ) + 1 / 2))) / r - 1 / 2 = n := by field_simp; ring
    rw [this]
    exact round_of_near (by linarith) (by linarith)
  simp only [MapLimits.getCellIndex, MapLimits.getCellCenter]
  rw [key _ _ _ hr, key _ _ _ hr]

theorem axis_near {m r p c : ℚ} {n : Int} (hr : 0 < r) (hc : c = m - r * ((n : ℚ) + 1 / 2)) (h : |p - c| < r / 2) :
    roundToInt ((m - p) / r - 1 / 2) = n := by
  rw [abs_lt] at h
  apply round_of_near
  · rw [lt_sub_iff_add_lt, lt_div_iff₀ hr]; nlinarith [h.1, h.2]
  · rw [sub_lt_iff_lt_add, div_lt_iff₀ hr]; nlinarith [h.1, h.2]

theorem axis_far {m r p c : ℚ} {n : Int} (hr : 0 < r) (hc : c = m - r * ((n : ℚ) + 1 / 2))
    (h : roundToInt ((m - p) / r - 1 / 2) = n) : |p - c| ≤ r / 2 := by
  obtain ⟨h1, h2⟩ := near_of_round h
  rw [abs_le]
  rw [le_sub_iff_add_le, le_div_iff₀ hr] at h1
  rw [sub_le_iff_le_add, div_le_iff₀ hr] at h2
  constructor <;> nlinarith

/-- **C16**: every point that is closer than half a cell to a centre in both axes maps to that cell. -/
theorem near_center_to_cell (hr : 0 < l.resolution) (i : Int × Int) (px py : ℚ)
    (hx : |px - (l.getCellCenter i).1| < l.resolution / 2) (hy : |py - (l.getCellCenter i).2| < l.resolution / 2) :
    l.getCellIndex px py = i := by
  simp only [MapLimits.getCellIndex]
  rw [axis_near hr rfl hx, axis_near hr rfl hy]

/-- **C16**: conversely a point is never further than half a cell from the centre of its cell. -/
theorem cell_near_center (hr : 0 < l.resolution) (px py : ℚ) :
    |px - (l.getCellCenter (l.getCellIndex px py)).1| ≤ l.resolution / 2 ∧
    |py - (l.getCellCenter (l.getCellIndex px py)).2| ≤ l.resolution / 2 :=
  ⟨axis_far hr rfl rfl, axis_far hr rfl rfl⟩

theorem axis_contains {m r p : ℚ} {n : Nat} (hr : 0 < r) (hn : 0 < n) :
    (0 ≤ roundToInt ((m - p) / r - 1 / 2) ∧ roundToInt ((m - p) / r - 1 / 2) < n) ↔ m - r * n < p ∧ p < m := by
  rw [round_range_iff hn, lt_sub_iff_add_lt, lt_div_iff₀ hr, sub_lt_sub_iff_right, div_lt_iff₀ hr]
  constructor <;> rintro ⟨h1, h2⟩ <;> constructor <;> nlinarith

/-- **C16**: a point is reported as contained exactly when it lies strictly inside the rectangle spanned by the
cells; points on the outer boundary are always reported as outside. -/
theorem contains_iff (hr : 0 < l.resolution) (hx : 0 < l.numX) (hy : 0 < l.numY) (px py : ℚ) :
    l.contains (l.getCellIndex px py) = true ↔
      (l.maxX - l.resolution * l.numY < px ∧ px < l.maxX) ∧ (l.maxY - l.resolution * l.numX < py ∧ py < l.maxY) := by
  rw [← axis_contains hr hy, ← axis_contains hr hx]
  rw [contains_def]
  simp only [MapLimits.getCellIndex]
  tauto

/-- Non-vacuity: a map of 4 x 2 cells of 0.5 m; the point (0.2, 0.9) is in cell (2, 1), the corner is outside and
the point on the edge between the cells 1 and 2 belongs to the one with the larger index. -/
example : let l : MapLimits := ⟨1 / 2, 1, 2, 4, 2⟩
    l.getCellIndex (1 / 5) (9 / 10) = (2, 1) ∧ l.contains (2, 1) = true ∧ l.getCellCenter (2, 1) = (1 / 4, 3 / 4) ∧
    l.contains (l.getCellIndex 1 2) = false ∧ l.getCellIndex (1 / 2) 1 = (2, 1) := by
  decide +kernel

end Verif.Grid2D
