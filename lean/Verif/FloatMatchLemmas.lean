import Verif.FloatMatch
import Verif.FloatProbabilityLemmas
import Verif.Props.BranchAndBound2D
import Verif.Props.BranchAndBound3D

/-!
# Lemmas on the scores of the fast correlative scan matchers in floating point arithmetic
-/

namespace Verif.FloatMatch

open Verif.Fp
open Verif.Prob (roundToInt)
open Verif.FloatProb (u near near_rel fl_nonneg err_mul mulAdd)
open Verif.FastCorrelative (CostGrid Precomputed Scan slide tabulate Largest slide_spec tabulate_spec tabulate_total
  round_mono)

/-! ### Errors -/

/-- Bounds of scores for which the error estimates hold. -/
structure Range (lo hi : ℚ) : Prop where
  small : 1 / 16 ≤ hi - lo
  large : hi - lo ≤ 4
  lower : |lo| ≤ 3

theorem Range.pos {lo hi : ℚ} (h : Range lo hi) : 0 < hi - lo := lt_of_lt_of_le (by norm_num) h.small

theorem width_near {fl : ℚ → ℚ} (h : SingleRounding fl) {lo hi : ℚ} (hb : Range lo hi) :
    |fl (hi - lo) - (hi - lo)| ≤ u * (hi - lo) :=
  near h (le_of_eq (abs_of_pos hb.pos)) (le_trans (by norm_num) hb.small)

theorem u_pos : (0 : ℚ) < u := by unfold u; norm_num
theorem u_small : u ≤ 1 / 2 ^ 22 := by unfold u; norm_num

theorem width_bounds {fl : ℚ → ℚ} (h : SingleRounding fl) {lo hi : ℚ} (hb : Range lo hi) :
    (1 - u) * (hi - lo) ≤ fl (hi - lo) ∧ fl (hi - lo) ≤ (1 + u) * (hi - lo) := by
  obtain ⟨h1, h2⟩ := abs_le.1 (width_near h hb)
  constructor <;> linarith

theorem width_pos {fl : ℚ → ℚ} (h : SingleRounding fl) {lo hi : ℚ} (hb : Range lo hi) : 0 < fl (hi - lo) := by
  obtain ⟨h1, -⟩ := width_bounds h hb
  have := hb.pos
  have := u_small
  refine lt_of_lt_of_le ?_ h1
  apply mul_pos _ hb.pos
  norm_num at this ⊢
  linarith

/-- The factor of `ComputeCellValue`, multiplied by the width of the range. -/
theorem factor_near {fl : ℚ → ℚ} (h : SingleRounding fl) {lo hi : ℚ} (hb : Range lo hi) :
    |fl (255 / fl (hi - lo)) * (hi - lo) - 255| ≤ 3 * u * 255 := by
  have hW := width_pos h hb
  obtain ⟨w1, w2⟩ := width_bounds h hb
  have hR := hb.pos
  set W := fl (hi - lo) with hWdef
  set R := hi - lo with hRdef
  have hu := u_pos
  have hus := u_small
  have hR4 := hb.large
  have hW5 : W ≤ 5 := by
    refine le_trans w2 ?_
    have : (1 + u) * R ≤ (1 + 1 / 4) * 4 := by
      apply mul_le_mul _ hR4 (le_of_lt hR) (by norm_num)
      norm_num at hus; linarith
    linarith
  have hpos : (0 : ℚ) < 255 / W := by positivity
  have hge : (51 : ℚ) ≤ 255 / W := by
    rw [le_div_iff₀ hW]; linarith
  have hn : |fl (255 / W) - 255 / W| ≤ u * (255 / W) := by
    have := near_rel h (x := 255 / W) (by rw [abs_of_pos hpos]; exact le_trans (by norm_num) hge)
    rwa [abs_of_pos hpos] at this
  obtain ⟨n1, n2⟩ := abs_le.1 hn
  set S := fl (255 / W) with hS
  -- R / W is near 1
  have r1 : R / W ≤ 1 + 11 / 10 * u := by
    rw [div_le_iff₀ hW]
    have : 1 * R ≤ (1 + 11 / 10 * u) * (1 - u) * R := by
      apply mul_le_mul_of_nonneg_right _ (le_of_lt hR)
      norm_num at hus
      nlinarith
    have : (1 + 11 / 10 * u) * ((1 - u) * R) ≤ (1 + 11 / 10 * u) * W := mul_le_mul_of_nonneg_left w1 (by linarith)
    linarith
  have r2 : 1 - u ≤ R / W := by
    rw [le_div_iff₀ hW]
    have hle : (1 - u) * W ≤ (1 - u) * ((1 + u) * R) := mul_le_mul_of_nonneg_left w2 (by norm_num at hus; linarith)
    have : (1 - u) * ((1 + u) * R) ≤ 1 * R := by
      rw [← mul_assoc]
      apply mul_le_mul_of_nonneg_right _ (le_of_lt hR)
      nlinarith
    linarith
  have e1 : S * R ≤ (1 + u) * (255 * (R / W)) := by
    have : S * R ≤ ((1 + u) * (255 / W)) * R := mul_le_mul_of_nonneg_right (by linarith) (le_of_lt hR)
    refine le_trans this (le_of_eq ?_)
    field_simp
  have e2 : (1 - u) * (255 * (R / W)) ≤ S * R := by
    have : ((1 - u) * (255 / W)) * R ≤ S * R := mul_le_mul_of_nonneg_right (by linarith) (le_of_lt hR)
    refine le_trans (le_of_eq ?_) this
    field_simp
  have f1 : (1 + u) * (255 * (R / W)) ≤ (1 + u) * (255 * (1 + 11 / 10 * u)) :=
    mul_le_mul_of_nonneg_left (by linarith) (by linarith)
  have f2 : (1 - u) * (255 * (1 - u)) ≤ (1 - u) * (255 * (R / W)) :=
    mul_le_mul_of_nonneg_left (by linarith) (by norm_num at hus; linarith)
  norm_num at hus
  rw [abs_le]
  constructor
  · nlinarith
  · nlinarith

/-- What `ComputeCellValue` rounds to an integer is near the exact number. -/
theorem quantity_near {fl : ℚ → ℚ} (h : SingleRounding fl) {lo hi p : ℚ} (hb : Range lo hi)
    (h1 : lo - (hi - lo) / 1000 ≤ p) (h2 : p ≤ hi + (hi - lo) / 1000) :
    |fl (fl (p - lo) * fl (255 / fl (hi - lo))) - (p - lo) / (hi - lo) * 255| ≤ 1 / 1000 := by
  have ht := factor_near h hb
  have hR := hb.pos
  have hRs := hb.small
  set S := fl (255 / fl (hi - lo)) with hS
  set R := hi - lo with hRdef
  have hu := u_pos
  have hus := u_small
  norm_num at hus
  have hd0 : |p - lo| ≤ 1001 / 1000 * R := by
    rw [abs_le]; constructor <;> linarith
  have hd := near h hd0 (by norm_num; linarith)
  set d := fl (p - lo) with hddef
  have hx : |d / R - (p - lo) / R| ≤ 1001 / 1000 * u := by
    rw [← sub_div, abs_div, abs_of_pos hR, div_le_iff₀ hR]
    linarith
  have hx0 : |(p - lo) / R| ≤ 1001 / 1000 := by
    rw [abs_div, abs_of_pos hR, div_le_iff₀ hR]
    linarith
  have hS256 : |S * R| ≤ 256 := by
    obtain ⟨t1, t2⟩ := abs_le.1 ht
    rw [abs_le]
    constructor <;> linarith
  have e := err_mul hx ht hx0 hS256
  have hprod : d / R * (S * R) = d * S := by field_simp
  rw [hprod] at e
  have hex : |(p - lo) / R * 255| ≤ 1001 / 1000 * 255 := by
    rw [abs_mul, abs_of_pos (show (0 : ℚ) < 255 by norm_num)]
    exact mul_le_mul_of_nonneg_right hx0 (by norm_num)
  have hds : |d * S| ≤ 257 := by
    have : |d * S| ≤ |d * S - (p - lo) / R * 255| + |(p - lo) / R * 255| := by
      have := abs_add_le (d * S - (p - lo) / R * 255) ((p - lo) / R * 255)
      simpa using this
    refine le_trans this ?_
    linarith
  have hq := near h hds (by norm_num)
  have tri : |fl (d * S) - (p - lo) / R * 255| ≤ |fl (d * S) - d * S| + |d * S - (p - lo) / R * 255| := abs_sub_le _ _ _
  linarith

theorem roundToInt_near (x : ℚ) : |(roundToInt x : ℚ) - x| ≤ 1 / 2 := by
  unfold roundToInt
  split
  · have h1 := Int.floor_le (x + 1 / 2)
    have h2 := Int.lt_floor_add_one (x + 1 / 2)
    rw [abs_le]; constructor <;> linarith
  · have h1 := Int.le_ceil (x - 1 / 2)
    have h2 := Int.ceil_lt_add_one (x - 1 / 2)
    rw [abs_le]; constructor <;> linarith

theorem quantise_near {fl : ℚ → ℚ} (h : SingleRounding fl) {lo hi p : ℚ} (hb : Range lo hi)
    (h1 : lo - (hi - lo) / 1000 ≤ p) (h2 : p ≤ hi + (hi - lo) / 1000) :
    |(quantise fl lo hi p : ℚ) - (p - lo) / (hi - lo) * 255| ≤ 501 / 1000 := by
  have a := quantity_near h hb h1 h2
  have b := roundToInt_near (fl (fl (p - lo) * fl (255 / fl (hi - lo))))
  have tri := abs_sub_le (quantise fl lo hi p : ℚ) (fl (fl (p - lo) * fl (255 / fl (hi - lo)))) ((p - lo) / (hi - lo) * 255)
  unfold quantise at tri ⊢
  linarith

theorem quantise_mono {fl : ℚ → ℚ} (h : SingleRounding fl) {lo hi p q : ℚ} (hb : Range lo hi) (hpq : p ≤ q) :
    quantise fl lo hi p ≤ quantise fl lo hi q := by
  apply round_mono
  apply h.mono
  apply mul_le_mul_of_nonneg_right (h.mono (by linarith))
  exact fl_nonneg h (by have := width_pos h hb; positivity)

theorem quantise_range {fl : ℚ → ℚ} (h : SingleRounding fl) {lo hi p : ℚ} (hb : Range lo hi)
    (h1 : lo - (hi - lo) / 1000 ≤ p) (h2 : p ≤ hi + (hi - lo) / 1000) :
    0 ≤ quantise fl lo hi p ∧ quantise fl lo hi p ≤ 255 := by
  have hR := hb.pos
  obtain ⟨a1, a2⟩ := abs_le.1 (quantise_near h hb h1 h2)
  have b1 : -(1 / 1000) ≤ (p - lo) / (hi - lo) := by rw [le_div_iff₀ hR]; linarith
  have b2 : (p - lo) / (hi - lo) ≤ 1001 / 1000 := by rw [div_le_iff₀ hR]; linarith
  constructor
  · by_contra hn
    have : quantise fl lo hi p ≤ -1 := by omega
    have : (quantise fl lo hi p : ℚ) ≤ -1 := by exact_mod_cast this
    linarith
  · by_contra hn
    have : 256 ≤ quantise fl lo hi p := by omega
    have : (256 : ℚ) ≤ quantise fl lo hi p := by exact_mod_cast this
    linarith

/-- `ToScore` of the quotient is near the exact number. -/
theorem candidateScore_near {fl : ℚ → ℚ} (h : SingleRounding fl) (fused : Bool) {lo hi : ℚ} (hb : Range lo hi) {n : Nat} {sum : Int}
    (hn : 1 ≤ n) (h0 : 0 ≤ sum) (h1 : sum ≤ 255 * n) :
    |candidateScore fl fused lo hi n sum - (lo + (sum / n : ℚ) * ((hi - lo) / 255))| ≤ 36 * u := by
  have hu := u_pos
  have hus := u_small
  norm_num at hus
  have hnq : (1 : ℚ) ≤ n := by exact_mod_cast hn
  have hsq : (0 : ℚ) ≤ sum := by exact_mod_cast h0
  have hsq1 : (sum : ℚ) ≤ 255 * n := by exact_mod_cast h1
  have hR := hb.pos
  have hR4 := hb.large
  have hlo := hb.lower
  have hfs : |fl sum - sum| ≤ u * sum := by
    rcases Int.lt_or_eq_of_le h0 with hp | hp
    · have : (1 : ℚ) ≤ sum := by exact_mod_cast hp
      have := near_rel h (x := (sum : ℚ)) (by rw [abs_of_nonneg hsq]; exact le_trans (by norm_num) this)
      rwa [abs_of_nonneg hsq] at this
    · rw [← hp]; simp [h.zero]
  have hfn : |fl n - n| ≤ u * n := by
    have := near_rel h (x := (n : ℚ)) (by rw [abs_of_nonneg (by linarith)]; exact le_trans (by norm_num) hnq)
    rwa [abs_of_nonneg (show (0 : ℚ) ≤ n by linarith)] at this
  obtain ⟨s1, s2⟩ := abs_le.1 hfs
  obtain ⟨m1, m2⟩ := abs_le.1 hfn
  set y : ℚ := (sum / n : ℚ) with hy
  have hn0 : (0 : ℚ) < n := by linarith
  have hy0 : 0 ≤ y := div_nonneg hsq (le_of_lt hn0)
  have hy1 : y ≤ 255 := by rw [hy, div_le_iff₀ hn0]; exact hsq1
  have hyn : y * n = sum := by rw [hy]; field_simp
  have hfn0 : 0 < fl n := by
    have : (1 - u) * n ≤ fl n := by linarith
    refine lt_of_lt_of_le (mul_pos (by linarith) hn0) this
  have hquot : |fl sum / fl n - y| ≤ 21 / 10 * u * y := by
    have hyu : 0 ≤ y * u := mul_nonneg hy0 (le_of_lt hu)
    rw [abs_le]
    constructor
    · have : (1 - 21 / 10 * u) * y ≤ fl sum / fl n := by
        rw [le_div_iff₀ hfn0]
        have b1 : (1 - 21 / 10 * u) * y * fl n ≤ (1 - 21 / 10 * u) * y * ((1 + u) * n) :=
          mul_le_mul_of_nonneg_left (by linarith) (mul_nonneg (by linarith) hy0)
        have b2 : (1 - 21 / 10 * u) * y * ((1 + u) * n) = (1 - 21 / 10 * u) * (1 + u) * sum := by rw [← hyn]; ring
        have b3 : (1 - 21 / 10 * u) * (1 + u) * sum ≤ (1 - u) * sum := by
          apply mul_le_mul_of_nonneg_right _ hsq
          nlinarith
        linarith
      linarith
    · have : fl sum / fl n ≤ (1 + 21 / 10 * u) * y := by
        rw [div_le_iff₀ hfn0]
        have b1 : (1 + 21 / 10 * u) * y * ((1 - u) * n) ≤ (1 + 21 / 10 * u) * y * fl n :=
          mul_le_mul_of_nonneg_left (by linarith) (mul_nonneg (by linarith) hy0)
        have b2 : (1 + 21 / 10 * u) * y * ((1 - u) * n) = (1 + 21 / 10 * u) * (1 - u) * sum := by rw [← hyn]; ring
        have b3 : (1 + u) * sum ≤ (1 + 21 / 10 * u) * (1 - u) * sum := by
          apply mul_le_mul_of_nonneg_right _ hsq
          nlinarith
        linarith
      linarith
  have hquot' : |fl sum / fl n - y| ≤ 536 * u := le_trans hquot (by nlinarith)
  have hq256 : |fl sum / fl n| ≤ 256 := by
    obtain ⟨a, b⟩ := abs_le.1 hquot'
    rw [abs_le]; constructor <;> linarith
  have hv := near h hq256 (by norm_num)
  set v := fl (fl sum / fl n) with hvdef
  have hv' : |v - y| ≤ 792 * u := by
    have := abs_sub_le v (fl sum / fl n) y
    linarith
  have hv256 : |v| ≤ 256 := by
    obtain ⟨a, b⟩ := abs_le.1 hv'
    rw [abs_le]; constructor <;> linarith
  -- the factor
  have hW := width_near h hb
  have hWp := width_pos h hb
  obtain ⟨w1, w2⟩ := width_bounds h hb
  set R := hi - lo with hRdef
  set W := fl R with hWdef
  have hW1 : |W / 255| ≤ 1 / 250 * R := by
    rw [abs_of_pos (by positivity)]
    have : W ≤ 102 / 100 * R := le_trans w2 (mul_le_mul_of_nonneg_right (by linarith) (le_of_lt hR))
    linarith
  have hs := near h hW1 (by have := hb.small; norm_num; linarith)
  set s := fl (W / 255) with hsdef
  have hs' : |s - R / 255| ≤ 1 / 100 * u * R := by
    have e : |W / 255 - R / 255| ≤ u * R / 255 := by
      rw [← sub_div, abs_div, abs_of_pos (show (0 : ℚ) < 255 by norm_num)]
      exact div_le_div_of_nonneg_right hW (by norm_num)
    have := abs_sub_le s (W / 255) (R / 255)
    have : 0 ≤ u * R := mul_nonneg (le_of_lt hu) (le_of_lt hR)
    linarith
  have hs1 : |s| ≤ 1 / 240 * R := by
    obtain ⟨a, b⟩ := abs_le.1 hs'
    have : u * R ≤ 1 / 4194304 * R := mul_le_mul_of_nonneg_right hus (le_of_lt hR)
    rw [abs_le]; constructor <;> linarith
  have hp := err_mul hv' hs' (show |y| ≤ 255 by rw [abs_of_nonneg hy0]; exact hy1) hs1
  have huR : 0 ≤ u * R := mul_nonneg (le_of_lt hu) (le_of_lt hR)
  have huR4 : u * R ≤ 4 * u := by nlinarith
  have hp' : |v * s - y * (R / 255)| ≤ 24 * u := by linarith
  have hyR : |y * (R / 255)| ≤ 4 := by
    rw [abs_of_nonneg (mul_nonneg hy0 (by positivity))]
    nlinarith
  have hvs : |v * s| ≤ 41 / 10 := by
    have := abs_add_le (v * s - y * (R / 255)) (y * (R / 255))
    simp only [sub_add_cancel] at this
    linarith
  unfold candidateScore toScore mulAdd
  split
  · have hsum : |v * s + lo| ≤ 71 / 10 := by
      have := abs_add_le (v * s) lo
      linarith
    have hf := near h hsum (by norm_num)
    have tri := abs_sub_le (fl (v * s + lo)) (v * s + lo) (lo + y * (R / 255))
    rw [show v * s + lo - (lo + y * (R / 255)) = v * s - y * (R / 255) by ring] at tri
    linarith
  · have hr := near h hvs (by norm_num)
    have hr4 : |fl (v * s)| ≤ 42 / 10 := by
      have := abs_add_le (fl (v * s) - v * s) (v * s)
      simp only [sub_add_cancel] at this
      linarith
    have hsum : |fl (v * s) + lo| ≤ 72 / 10 := by
      have := abs_add_le (fl (v * s)) lo
      linarith
    have hf := near h hsum (by norm_num)
    have tri := abs_sub_le (fl (fl (v * s) + lo)) (fl (v * s) + lo) (lo + y * (R / 255))
    rw [show fl (v * s) + lo - (lo + y * (R / 255)) = fl (v * s) - y * (R / 255) by ring] at tri
    have tri2 := abs_sub_le (fl (v * s)) (v * s) (y * (R / 255))
    linarith

/-- The score does not decrease with the sum. -/
theorem candidateScore_mono {fl : ℚ → ℚ} (h : SingleRounding fl) (fused : Bool) {lo hi : ℚ} (hb : Range lo hi) (n : Nat) {a b : Int}
    (hab : a ≤ b) : candidateScore fl fused lo hi n a ≤ candidateScore fl fused lo hi n b := by
  have hs : 0 ≤ fl (fl (hi - lo) / 255) := fl_nonneg h (by have := width_pos h hb; positivity)
  have hq : fl (fl a / fl n) ≤ fl (fl b / fl n) := by
    apply h.mono
    apply div_le_div_of_nonneg_right (h.mono (by exact_mod_cast hab)) (fl_nonneg h (by positivity))
  unfold candidateScore toScore mulAdd
  split
  · exact h.mono (by have := mul_le_mul_of_nonneg_right hq hs; linarith)
  · exact h.mono (by have := h.mono (mul_le_mul_of_nonneg_right hq hs); linarith)

end Verif.FloatMatch
