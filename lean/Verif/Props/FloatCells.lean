import Verif.FloatCells
import Verif.Props.FloatFormat
import Verif.Grid2D
import Verif.FloatProbabilityLemmas

/-!
# C105: cells of grids in floating point arithmetic

`g` is the rounding of the rounding mode; theorems about `roundEven` hold for rounding to nearest only.
-/

namespace Verif.FloatCells

open Verif.Prob (roundToInt)
open Verif.Fp
open Verif.Ticks (roundEven)
open Verif.FloatProb (roundToInt_near)

/-! ### Rounding to the nearest integer -/

theorem roundToInt_eq {x : ℚ} {n : Int} (h : |x - n| < 1 / 2) : roundToInt x = n := by
  have := roundToInt_near (x := x)
  rw [abs_le] at this
  rw [abs_lt] at h
  have a : (roundToInt x : ℚ) < n + 1 := by linarith
  have b : (n : ℚ) < roundToInt x + 1 := by linarith
  have a' : roundToInt x < n + 1 := by exact_mod_cast a
  have b' : n < roundToInt x + 1 := by exact_mod_cast b
  omega

theorem roundToInt_mono {x y : ℚ} (h : x ≤ y) : roundToInt x ≤ roundToInt y := by
  unfold roundToInt
  split_ifs with h1 h2 h2
  · exact Int.floor_mono (by linarith)
  · exact absurd (le_trans h1 h) h2
  · have a : ⌈x - 1 / 2⌉ ≤ 0 := Int.ceil_le.2 (by push_cast; linarith)
    have b : 0 ≤ ⌊y + 1 / 2⌋ := Int.floor_nonneg.2 (by linarith)
    omega
  · exact Int.ceil_mono (by linarith)

/-! ### Rounding of floating point numbers -/

/-- Rounding to nearest has half the error. -/
theorem nearest_error (f : Format) (x : ℚ) : |f.rnd x - x| ≤ f.ulp x / 2 := by
  have hp := f.ulp_pos x
  have h := Ticks.roundEven_error (x / f.ulp x)
  have : f.rnd x - x = ((roundEven (x / f.ulp x) : ℚ) - x / f.ulp x) * f.ulp x := by
    unfold Format.rnd Format.rndWith; field_simp
  rw [this, abs_mul, abs_of_pos hp]
  nlinarith

theorem single_nearest_half : IsRounding (1 / 2 ^ 24) (1 / 2 ^ 150) single.rnd := by
  have s := single_nearest
  refine ⟨s.mono, s.idem, s.zero, fun x => ?_⟩
  by_cases h0 : x = 0
  · rw [h0, s.zero]; norm_num
  · have a := nearest_error single x
    have b := ulp_le (f := single) h0
    rw [show single.prec = 24 from rfl, show single.emin = -126 from rfl] at b
    norm_num [zpow_neg] at b
    linarith

/-- Rounding to `double` in any mode. -/
theorem double_rounding {g : ℚ → Int} (hg : IsIntRounding g) :
    IsRounding (1 / 2 ^ 52) (1 / 2 ^ 1074) (double.rndWith g) := by
  refine ⟨fun h => rndWith_mono (by decide) hg h, fun x => rndWith_exact (by decide) hg (rndWith_repr hg x), rndWith_zero hg,
    fun x => ?_⟩
  by_cases h0 : x = 0
  · rw [h0, rndWith_zero hg, sub_zero, abs_zero]; positivity
  · refine le_trans (rndWith_error hg x) (le_trans (ulp_le h0) (le_of_eq ?_))
    rw [show double.prec = 53 from rfl, show double.emin = -1022 from rfl]
    norm_num [zpow_neg]

/-- Integers of at most 24 bits are `float`s. -/
theorem single_int {g : ℚ → Int} (hg : IsIntRounding g) {n : Int} (h : |n| ≤ 2 ^ 24) : single.rndWith g n = n :=
  rndWith_exact (by decide) hg ⟨n, 0, h, by decide, by simp⟩

/-- Integers of at most 53 bits are `double`s. -/
theorem double_int {g : ℚ → Int} (hg : IsIntRounding g) {n : Int} (h : |n| ≤ 2 ^ 53) : double.rndWith g n = n :=
  rndWith_exact (by decide) hg ⟨n, 0, h, by decide, by simp⟩

/-! ### Voxels -/

theorem index_center {fl : ℚ → ℚ} {ε η : ℚ} (h : IsRounding ε η fl) (e0 : 0 ≤ ε) (e1 : ε ≤ 1) (n0 : 0 ≤ η)
    (n1 : η ≤ 1 / 2 ^ 120) {r : ℚ} (hr : 1 / 2 ^ 60 ≤ r) {i : Int} (hi : fl i = i) {N : ℚ} (hN : |(i : ℚ)| ≤ N)
    (hc : N * (2 * ε + ε ^ 2) + 1 / 2 ^ 50 < 1 / 2) : voxelIndex fl r (voxelCenter fl r i) = i := by
  have rp : 0 < r := lt_of_lt_of_le (by norm_num) hr
  unfold voxelIndex voxelCenter
  rw [hi]
  apply roundToInt_eq
  have a := h.err (i * r)
  set y := fl (i * r)
  have b := h.err (y / r)
  have ηr : η / r ≤ 1 / 2 ^ 60 := by
    rw [div_le_iff₀ rp]
    nlinarith
  have ηr0 : 0 ≤ η / r := div_nonneg n0 rp.le
  have c : |y / r - i| ≤ ε * N + η / r := by
    have e : y / r - i = (y - i * r) / r := by field_simp
    rw [e, abs_div, abs_of_pos rp, div_le_iff₀ rp]
    have : (ε * N + η / r) * r = ε * N * r + η := by field_simp
    rw [this]
    rw [abs_mul, abs_of_pos rp] at a
    have := mul_le_mul_of_nonneg_left (mul_le_mul_of_nonneg_right hN rp.le) e0
    linarith
  have d : |y / r| ≤ N + (ε * N + η / r) := by
    have := abs_sub_abs_le_abs_sub (y / r) i
    linarith
  have f : |fl (y / r) - i| ≤ |fl (y / r) - y / r| + |y / r - i| := by
    have := abs_add_le (fl (y / r) - y / r) (y / r - i)
    rwa [sub_add_sub_cancel] at this
  have g := mul_le_mul_of_nonneg_left d e0
  have k := mul_le_mul_of_nonneg_right e1 ηr0
  have eN : N * (2 * ε + ε ^ 2) = ε * N + ε * N + ε * (ε * N) := by ring
  rw [eN] at hc
  have eg : ε * (N + (ε * N + η / r)) = ε * N + ε * (ε * N) + ε * (η / r) := by ring
  rw [eg] at g
  linarith

/-- **C105.** In every rounding mode the centre of a voxel is in the voxel, for indices up to a million and all resolutions
from 2⁻⁶⁰; the grids have indices below 8192. -/
theorem voxel_roundtrip {g : ℚ → Int} (hg : IsIntRounding g) {r : ℚ} (hr : 1 / 2 ^ 60 ≤ r) {i : Int} (hi : |i| ≤ 2 ^ 20) :
    voxelIndex (single.rndWith g) r (voxelCenter (single.rndWith g) r i) = i := by
  refine index_center (single_rounding hg) (by norm_num) (by norm_num) (by norm_num) (by norm_num) hr
    (single_int hg (le_trans hi (by norm_num))) (N := 2 ^ 20) ?_ (by norm_num)
  exact_mod_cast hi

/-- **C105.** With rounding to nearest it is for all indices below 2²². -/
theorem voxel_roundtrip_nearest {r : ℚ} (hr : 1 / 2 ^ 60 ≤ r) {i : Int} (hi : |i| < 2 ^ 22) :
    voxelIndex single.rnd r (voxelCenter single.rnd r i) = i := by
  refine index_center single_nearest_half (by norm_num) (by norm_num) (by norm_num) (by norm_num) hr
    (single_int isInt_roundEven (by omega)) (N := 2 ^ 22 - 1) ?_ (by norm_num)
  have : |i| ≤ 2 ^ 22 - 1 := by omega
  exact_mod_cast this

/-- **C105.** A point is in its voxel up to the rounding error of the division, and larger coordinates do not get smaller
indices. -/
theorem voxel_near {fl : ℚ → ℚ} (h : SingleRounding fl) {r x N : ℚ} (rp : 0 < r) (hN : 1 ≤ N) (hx : |x| ≤ N * r) :
    |x - voxelIndex fl r x * r| ≤ (1 / 2 + FloatProb.u * N) * r ∧ ∀ y, x ≤ y → voxelIndex fl r x ≤ voxelIndex fl r y := by
  constructor
  · have a := FloatProb.near h (x := x / r) (B := N) (by rw [abs_div, abs_of_pos rp, div_le_iff₀ rp]; exact hx)
      (le_trans (by norm_num) hN)
    have b := roundToInt_near (x := fl (x / r))
    unfold voxelIndex
    set n := roundToInt (fl (x / r))
    have e : x - n * r = (x / r - n) * r := by field_simp
    rw [e, abs_mul, abs_of_pos rp]
    apply mul_le_mul_of_nonneg_right _ rp.le
    rw [abs_le] at *
    constructor <;> linarith
  · intro y hy
    exact roundToInt_mono (h.mono (div_le_div_of_nonneg_right hy rp.le))

/-- **C105.** Points of one voxel are at most one edge length apart in each coordinate, up to rounding: a thousandth and a half
of the edge length within the limits of the grids. -/
theorem voxel_same {fl : ℚ → ℚ} (h : SingleRounding fl) {r x y : ℚ} (rp : 0 < r) (hx : |x| ≤ 8192 * r) (hy : |y| ≤ 8192 * r)
    (he : voxelIndex fl r x = voxelIndex fl r y) : |x - y| ≤ (1 + 3 / 1000) * r := by
  have a := (voxel_near h rp (by norm_num) hx).1
  have b := (voxel_near h rp (by norm_num) hy).1
  rw [he] at a
  unfold FloatProb.u at a b
  rw [abs_le] at *
  constructor <;> linarith

/-- **C105.** The index is that of exact arithmetic unless the point is at the border of two voxels. -/
theorem voxel_exact {fl : ℚ → ℚ} (h : SingleRounding fl) {r x N : ℚ} (rp : 0 < r) (hN : 1 ≤ N) (hx : |x| ≤ N * r) {n : Int}
    (hn : |x / r - n| < 1 / 2 - FloatProb.u * N) : voxelIndex fl r x = n := by
  have a := FloatProb.near h (x := x / r) (B := N) (by rw [abs_div, abs_of_pos rp, div_le_iff₀ rp]; exact hx)
    (le_trans (by norm_num) hN)
  apply roundToInt_eq
  rw [abs_le] at a
  rw [abs_lt] at *
  constructor <;> linarith

/-! ### The raster of compressed point clouds -/

theorem precision_near {fl : ℚ → ℚ} (h : SingleRounding fl) : |precision fl - 1 / 1000| ≤ FloatProb.u / 1000 := by
  have := FloatProb.near h (x := 1 / 1000) (B := 1 / 1000) (by norm_num) (by norm_num)
  unfold precision
  linarith

/-- **C105.** With rounding to nearest, compressing a decompressed coordinate gives the same raster point, up to 4194 m from
the origin. -/
theorem raster_roundtrip {n : Int} (hn : |n| < 2 ^ 22) : raster single.rnd (unraster single.rnd n) = some n := by
  have hs := single_nearest_half
  have hp := precision_near single_nearest
  unfold FloatProb.u at hp
  rw [abs_le] at hp
  have hi := voxel_roundtrip_nearest (r := precision single.rnd) (by linarith) hn
  unfold voxelIndex voxelCenter at hi
  unfold raster unraster
  have hN : |(n : ℚ)| < 2 ^ 22 := by exact_mod_cast hn
  rw [if_pos ?_, hi]
  have en : single.rnd (n : ℚ) = n := single_int isInt_roundEven (by omega)
  rw [en]
  set k := precision single.rnd
  have kp : 0 < k := by linarith
  have a := FloatProb.near single_nearest (x := n * k) (B := 2 ^ 22 * k)
    (by rw [abs_mul, abs_of_pos kp]; exact mul_le_mul_of_nonneg_right hN.le kp.le) (by linarith)
  set y := single.rnd (n * k)
  have hy : |y| ≤ 2 ^ 22 * k * (1 + FloatProb.u) := by
    have := abs_sub_abs_le_abs_sub y (n * k)
    have : |(n : ℚ) * k| ≤ 2 ^ 22 * k := by
      rw [abs_mul, abs_of_pos kp]; exact mul_le_mul_of_nonneg_right hN.le kp.le
    linarith
  have hq : |y| / k ≤ 2 ^ 22 * (1 + FloatProb.u) := by
    rw [div_le_iff₀ kp]; linarith
  unfold FloatProb.u at hq
  have hq0 : 0 ≤ |y| / k := div_nonneg (abs_nonneg _) kp.le
  have b := FloatProb.near single_nearest (x := |y| / k) (B := 2 ^ 22 + 1)
    (by rw [abs_of_nonneg hq0]; linarith) (by norm_num)
  unfold FloatProb.u at b
  rw [abs_le] at b
  linarith

/-- **C105.** A coordinate that is compressed and decompressed moves by little more than half a millimetre, up to a kilometre
from the origin. -/
theorem raster_error {fl : ℚ → ℚ} (h : SingleRounding fl) (hint : ∀ n : Int, |n| ≤ 2 ^ 24 → fl n = n) {x : ℚ}
    (hx : |x| ≤ 1000) {n : Int} (hn : raster fl x = some n) : |unraster fl n - x| ≤ 8 / 10000 := by
  have hp := precision_near h
  unfold raster at hn
  split_ifs at hn
  simp only [Option.some.injEq] at hn
  unfold unraster
  unfold FloatProb.u at hp
  rw [abs_le] at hp
  have kp : 0 < precision fl := by linarith
  have hv := (voxel_near h (r := precision fl) (x := x) (N := 1000001) kp (by norm_num) (by linarith)).1
  unfold voxelIndex at hv
  rw [hn] at hv
  unfold FloatProb.u at hv
  set k := precision fl
  rw [abs_le] at hv hx
  have hnk : |(n : ℚ) * k| ≤ 1000 + 1 / 1000 := by rw [abs_le]; constructor <;> linarith
  have hn24 : |n| ≤ 2 ^ 24 := by
    rw [abs_mul, abs_of_pos kp] at hnk
    have : |(n : ℚ)| ≤ 2 ^ 24 := by
      by_contra hc
      push Not at hc
      have := mul_lt_mul_of_pos_right hc kp
      linarith
    exact_mod_cast this
  rw [hint n hn24]
  have a := FloatProb.near h hnk (by norm_num)
  unfold FloatProb.u at a
  rw [abs_le] at *
  constructor <;> linarith

/-- **C105**, what is lost: further away the raster point changes with every round of compression and decompression, although
the point passes the check. -/
theorem raster_drift : raster single.rnd (unraster single.rnd 8192005) = some 8192006 := by decide +kernel

/-- **C105.** Which coordinates pass the check: those up to 8388 m, and none from 8389 m. -/
theorem raster_range {fl : ℚ → ℚ} (h : SingleRounding fl) (x : ℚ) : (|x| ≤ 8388 → (raster fl x).isSome) ∧ (8389 ≤ |x| → raster fl x = none) := by
  have hp := precision_near h
  unfold FloatProb.u at hp
  rw [abs_le] at hp
  have kp : 0 < precision fl := by linarith
  have h0 : 0 ≤ |x| / precision fl := div_nonneg (abs_nonneg x) kp.le
  constructor
  · intro hx
    have hq : |x| / precision fl ≤ 8388001 + 1 := by rw [div_le_iff₀ kp]; linarith
    have a := FloatProb.near h (x := |x| / precision fl) (B := 8388002) (by rw [abs_of_nonneg h0]; linarith) (by norm_num)
    unfold FloatProb.u at a
    rw [abs_le] at a
    unfold raster
    rw [if_pos (by linarith)]
    rfl
  · intro hx
    have hq : 8388998 ≤ |x| / precision fl := by rw [le_div_iff₀ kp]; linarith
    have m := h.mono hq
    have a := FloatProb.near h (x := 8388998) (B := 8388998) (by norm_num) (by norm_num)
    unfold FloatProb.u at a
    rw [abs_le] at a
    unfold raster
    rw [if_neg (by linarith)]

/-! ### Cells of 2D grids -/

/-- The bound of the relative error in `double`. -/
def w : ℚ := 9 / 2 ^ 55

theorem near64 {g : ℚ → Int} (hg : IsIntRounding g) {x B : ℚ} (hx : |x| ≤ B) (hB : 1 / 2 ^ 100 ≤ B) :
    |double.rndWith g x - x| ≤ w * B := by
  refine le_trans ((double_rounding hg).err x) ?_
  have : (1 : ℚ) / 2 ^ 1074 ≤ 1 / 2 ^ 155 := by
    apply one_div_le_one_div_of_le (by positivity)
    exact pow_le_pow_right₀ (by norm_num) (by norm_num)
  unfold w
  linarith

/-- The position of a coordinate in cells, from the corner. -/
theorem cellIndex_near {g : ℚ → Int} (hg : IsIntRounding g) {max r x : ℚ} (hr : 1 / 2 ^ 60 ≤ r)
    (hx : |max - x| ≤ 2 ^ 32 * r) :
    |double.rndWith g (double.rndWith g (double.rndWith g (max - x) / r) - 1 / 2) - ((max - x) / r - 1 / 2)| ≤ 1 / 2 ^ 18 := by
  have rp : 0 < r := lt_of_lt_of_le (by norm_num) hr
  have a := near64 hg hx (by linarith)
  set d := double.rndWith g (max - x)
  have hq : |(max - x) / r| ≤ 2 ^ 32 := by rw [abs_div, abs_of_pos rp, div_le_iff₀ rp]; exact hx
  have b : |d / r - (max - x) / r| ≤ w * 2 ^ 32 := by
    rw [← sub_div, abs_div, abs_of_pos rp, div_le_iff₀ rp]; linarith
  set q := (max - x) / r
  unfold w at b
  rw [abs_le] at b hq
  have c := near64 hg (x := d / r) (B := 2 ^ 32 + 1) (by rw [abs_le]; constructor <;> linarith) (by norm_num)
  unfold w at c
  set e := double.rndWith g (d / r)
  rw [abs_le] at c
  have f := near64 hg (x := e - 1 / 2) (B := 2 ^ 32 + 2) (by rw [abs_le]; constructor <;> linarith) (by norm_num)
  unfold w at f
  rw [abs_le] at f ⊢
  constructor <;> linarith

/-- **C105.** The index of the cell is that of exact arithmetic, except within 2⁻¹⁸ of a cell from a border, and there it is
the index of one of the two cells. -/
theorem cell_exact {g : ℚ → Int} (hg : IsIntRounding g) {max r x : ℚ} (hr : 1 / 2 ^ 60 ≤ r) (hx : |max - x| ≤ 2 ^ 32 * r) :
    (∀ n : Int, |(max - x) / r - 1 / 2 - n| < 1 / 2 - 1 / 2 ^ 18 → cellIndex (double.rndWith g) max r x = n) ∧
    |(cellIndex (double.rndWith g) max r x : ℚ) - ((max - x) / r - 1 / 2)| ≤ 1 / 2 + 1 / 2 ^ 18 := by
  have a := cellIndex_near hg hr hx
  unfold cellIndex
  constructor
  · intro n hn
    apply roundToInt_eq
    rw [abs_le] at a
    rw [abs_lt] at *
    constructor <;> linarith
  · have b := roundToInt_near (x := double.rndWith g (double.rndWith g (double.rndWith g (max - x) / r) - 1 / 2))
    rw [abs_le] at *
    constructor <;> linarith

/-- **C105.** The centre of a cell, rounded to `float`, is in the cell if it is at most a million cells from the origin. -/
theorem cell_roundtrip {g : ℚ → Int} (hg : IsIntRounding g) (fused : Bool) {max r : ℚ} (hr : 1 / 2 ^ 60 ≤ r) {i : Int}
    (hi : |i| ≤ 2 ^ 31) (hc : |max - r * (i + 1 / 2)| ≤ 2 ^ 20 * r) :
    cellIndex (double.rndWith g) max r (cellCenter (single.rndWith g) (double.rndWith g) fused max r i) = i := by
  have rp : 0 < r := lt_of_lt_of_le (by norm_num) hr
  have hiq : |(i : ℚ)| ≤ 2 ^ 31 := by exact_mod_cast hi
  have ei : double.rndWith g (i : ℚ) = i := double_int hg (by omega)
  -- the centre before the conversion to float
  have key : ∀ y : ℚ, |y - (max - r * (i + 1 / 2))| ≤ 1 / 2 ^ 17 * r →
      cellIndex (double.rndWith g) max r (single.rndWith g y) = i := by
    intro y hy
    have hy' : |y| ≤ (2 ^ 20 + 1) * r := by
      rw [abs_le] at *; constructor <;> linarith
    have n1 := FloatProb.near (single_rounding hg) hy' (by linarith)
    unfold FloatProb.u at n1
    set c := single.rndWith g y
    have hcc : |c - (max - r * (i + 1 / 2))| ≤ 3 / 20 * r := by
      rw [abs_le] at *; constructor <;> linarith
    have hri : |r * (i + 1 / 2)| ≤ (2 ^ 31 + 1) * r := by
      rw [abs_mul, abs_of_pos rp, mul_comm]
      apply mul_le_mul_of_nonneg_right _ rp.le
      rw [abs_le] at *; constructor <;> linarith
    refine (cell_exact hg hr (x := c) ?_).1 i ?_
    · rw [abs_le] at *; constructor <;> linarith
    · have e : (max - c) / r - 1 / 2 - i = (max - r * (i + 1 / 2) - c) / r := by field_simp; ring
      rw [e, abs_div, abs_of_pos rp, div_lt_iff₀ rp, abs_sub_comm]
      linarith
  have n0 := near64 hg (x := i + 1 / 2) (B := 2 ^ 31 + 1) (by rw [abs_le] at *; constructor <;> linarith) (by norm_num)
  unfold cellCenter
  rw [ei]
  set t := double.rndWith g ((i : ℚ) + 1 / 2)
  have hrt : |r * t - r * (i + 1 / 2)| ≤ w * (2 ^ 31 + 1) * r := by
    rw [← mul_sub, abs_mul, abs_of_pos rp, mul_comm]
    exact mul_le_mul_of_nonneg_right n0 rp.le
  have hri : |r * (i + 1 / 2)| ≤ (2 ^ 31 + 1) * r := by
    rw [abs_mul, abs_of_pos rp, mul_comm]
    apply mul_le_mul_of_nonneg_right _ rp.le
    rw [abs_le] at *; constructor <;> linarith
  unfold w at hrt
  cases fused with
  | true =>
    rw [if_pos rfl]
    apply key
    have n2 := near64 hg (x := max - r * t) (B := (2 ^ 20 + 1) * r)
      (by rw [abs_le] at *; constructor <;> linarith) (by linarith)
    unfold w at n2
    rw [abs_le] at *; constructor <;> linarith
  | false =>
    rw [if_neg (by simp)]
    apply key
    have n1 := near64 hg (x := r * t) (B := (2 ^ 31 + 2) * r)
      (by rw [abs_le] at *; constructor <;> linarith) (by linarith)
    unfold w at n1
    have n2 := near64 hg (x := max - double.rndWith g (r * t)) (B := (2 ^ 20 + 1) * r)
      (by rw [abs_le] at *; constructor <;> linarith) (by linarith)
    unfold w at n2
    rw [abs_le] at *; constructor <;> linarith

/-- **C105.** Both coordinates at once, in terms of `MapLimits` of the exact model: the cell of a point is the one of exact
arithmetic unless the point is close to a border. -/
theorem cell_index_exact {g : ℚ → Int} (hg : IsIntRounding g) (l : Grid2D.MapLimits) (hr : 1 / 2 ^ 60 ≤ l.resolution)
    {px py : ℚ} (hx : |l.maxX - px| ≤ 2 ^ 32 * l.resolution) (hy : |l.maxY - py| ≤ 2 ^ 32 * l.resolution)
    (bx : |(l.maxX - px) / l.resolution - 1 / 2 - (l.getCellIndex px py).2| < 1 / 2 - 1 / 2 ^ 18)
    (by' : |(l.maxY - py) / l.resolution - 1 / 2 - (l.getCellIndex px py).1| < 1 / 2 - 1 / 2 ^ 18) :
    (cellIndex (double.rndWith g) l.maxY l.resolution py, cellIndex (double.rndWith g) l.maxX l.resolution px) =
      l.getCellIndex px py :=
  Prod.ext ((cell_exact hg hr hy).1 _ by') ((cell_exact hg hr hx).1 _ bx)

/-- **C105**, what is lost: far from the origin the centre of a cell, as a `float`, is in another cell. -/
theorem center_in_other_cell :
    cellIndex double.rnd (2 ^ 24) (1 / 4) (cellCenter single.rnd double.rnd false (2 ^ 24) (1 / 4) 0) = -1 := by
  decide +kernel

/-- Non-vacuity: a grid with cells of 5 cm around the origin. -/
example : cellIndex double.rnd 10 (single.rnd (1 / 20)) (single.rnd (7 / 3)) = 153 ∧
    cellIndex double.rnd 10 (single.rnd (1 / 20)) (cellCenter single.rnd double.rnd false 10 (single.rnd (1 / 20)) 153) = 153 ∧
    voxelIndex single.rnd (single.rnd (1 / 10)) (-(7 / 3)) = -23 ∧ raster single.rnd (7 / 3) = some 2333 := by
  decide +kernel

end Verif.FloatCells
