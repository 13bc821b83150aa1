import Verif.FloatProbability
import Verif.Props.FloatFormat
import Verif.Props.ProbabilityValues

/-!
# Lemmas on quantised probabilities in floating point arithmetic

Rounding errors are collected as multiples of `u`, a little more than `2⁻²³`.
-/

namespace Verif.FloatProb

open Verif.Prob (clamp roundToInt)
open Verif.Fp

/-- The bound of the relative error used here. -/
def u : ℚ := 9 / 2 ^ 26

theorem near {fl : ℚ → ℚ} (h : SingleRounding fl) {x B : ℚ} (hx : |x| ≤ B) (hB : 1 / 2 ^ 100 ≤ B) : |fl x - x| ≤ u * B := by
  refine le_trans (h.err x) ?_
  unfold u
  linarith

theorem near_rel {fl : ℚ → ℚ} (h : SingleRounding fl) {x : ℚ} (hB : 1 / 2 ^ 100 ≤ |x|) : |fl x - x| ≤ u * |x| :=
  near h le_rfl hB

theorem fl_nonneg {fl : ℚ → ℚ} (h : SingleRounding fl) {x : ℚ} (hx : 0 ≤ x) : 0 ≤ fl x := by
  have := h.mono hx
  rwa [h.zero] at this

theorem err_mul {a a0 b b0 α β A B : ℚ} (ha : |a - a0| ≤ α) (hb : |b - b0| ≤ β) (hA : |a0| ≤ A) (hB : |b| ≤ B) :
    |a * b - a0 * b0| ≤ α * B + A * β := by
  have e : a * b - a0 * b0 = (a - a0) * b + a0 * (b - b0) := by ring
  rw [e]
  refine le_trans (abs_add_le _ _) ?_
  rw [abs_mul, abs_mul]
  exact add_le_add (mul_le_mul ha hB (abs_nonneg _) (le_trans (abs_nonneg _) ha))
    (mul_le_mul hA hb (abs_nonneg _) (le_trans (abs_nonneg _) hA))

/-! ### `Clamp` and `RoundToInt` -/

theorem clamp_mem {x lo hi : ℚ} (h : lo ≤ hi) : lo ≤ clamp x lo hi ∧ clamp x lo hi ≤ hi := by
  unfold clamp; split_ifs <;> constructor <;> linarith

theorem clamp_mono {x y lo hi : ℚ} (h : lo ≤ hi) (hxy : x ≤ y) : clamp x lo hi ≤ clamp y lo hi := by
  unfold clamp; split_ifs <;> linarith

theorem clamp_of_mem {x lo hi : ℚ} (h1 : lo ≤ x) (h2 : x ≤ hi) : clamp x lo hi = x := by
  unfold clamp; split_ifs <;> linarith

/-- Clamping to an interval that contains `y` does not move away from `y`. -/
theorem clamp_near {x y lo hi e : ℚ} (h1 : lo ≤ y) (h2 : y ≤ hi) (h : |x - y| ≤ e) : |clamp x lo hi - y| ≤ e := by
  rw [abs_le] at h ⊢
  unfold clamp
  split_ifs <;> constructor <;> linarith

theorem clamp_of_le {x lo hi : ℚ} (h : lo ≤ hi) (hx : x ≤ lo) : clamp x lo hi = lo := by
  unfold clamp; split_ifs <;> linarith

theorem clamp_of_ge {x lo hi : ℚ} (h : lo ≤ hi) (hx : hi ≤ x) : clamp x lo hi = hi := by
  unfold clamp; split_ifs <;> linarith

theorem roundToInt_near {x : ℚ} : |(roundToInt x : ℚ) - x| ≤ 1 / 2 := by
  unfold roundToInt
  split
  · have a := Int.floor_le (x + 1 / 2)
    have b := Int.lt_floor_add_one (x + 1 / 2)
    rw [abs_le]; constructor <;> linarith
  · have a := Int.le_ceil (x - 1 / 2)
    have b := Int.ceil_lt_add_one (x - 1 / 2)
    rw [abs_le]; constructor <;> linarith

/-! ### Bounds -/

/-- Bounds of an interval for which the error estimates hold: not very small or large, and not far from zero relative to
their distance. -/
structure Bounds (lo hi : ℚ) : Prop where
  small : 1 / 2 ^ 60 ≤ hi - lo
  large : hi - lo ≤ 2 ^ 60
  lower : |lo| ≤ 2 * (hi - lo)

theorem Bounds.pos {lo hi : ℚ} (h : Bounds lo hi) : 0 < hi - lo := lt_of_lt_of_le (by norm_num) h.small

theorem width_error {fl : ℚ → ℚ} (h : SingleRounding fl) {lo hi : ℚ} (hb : Bounds lo hi) :
    |fl (hi - lo) - (hi - lo)| ≤ u * (hi - lo) :=
  near h (le_of_eq (abs_of_pos hb.pos)) (le_trans (by norm_num) hb.small)

theorem scale_error {fl : ℚ → ℚ} (h : SingleRounding fl) {lo hi : ℚ} (hb : Bounds lo hi) :
    |scale fl lo hi - (hi - lo) / 32766| ≤ 21 / 10 * u * (hi - lo) / 32766 := by
  have h0 := width_error h hb
  have hs := hb.small
  unfold scale
  set D := hi - lo
  set D' := fl D
  unfold u at *
  rw [abs_le] at h0
  have h1 := near h (x := D' / 32766) (B := (1 + 9 / 2 ^ 26) * D / 32766)
    (by rw [abs_le]; constructor <;> linarith) (by linarith)
  unfold u at h1
  rw [abs_le] at h1 ⊢
  constructor <;> linarith

/-- The exact value of the conversion table. -/
def exactValue (lo hi : ℚ) (v : Nat) : ℚ := lo + (v - 1) * ((hi - lo) / 32766)

theorem decode_error {fl : ℚ → ℚ} (h : SingleRounding fl) {lo hi : ℚ} (hb : Bounds lo hi) (fused : Bool) {v : Nat}
    (h1 : 1 ≤ v) (h2 : v ≤ 32767) (ur : ℚ) :
    |slowValueToBoundedFloat fl fused v ur lo hi - exactValue lo hi v| ≤ 17 / 2 * u * (hi - lo) := by
  have hs := scale_error h hb
  have hsm := hb.small
  have hlo := hb.lower
  unfold slowValueToBoundedFloat exactValue
  rw [if_neg (by omega)]
  set s := scale fl lo hi
  have hD : hi = lo + (hi - lo) := by ring
  set D := hi - lo
  have hv1 : (1 : ℚ) ≤ v := by exact_mod_cast h1
  have hv2 : (v : ℚ) ≤ 32767 := by exact_mod_cast h2
  rw [abs_le] at hs hlo
  -- the product with the exact scale
  have hvs : |(v : ℚ) * s - v * (D / 32766)| ≤ 22 / 10 * u * D := by
    rw [← mul_sub, abs_mul, abs_of_nonneg (by linarith : (0 : ℚ) ≤ v)]
    calc (v : ℚ) * |s - D / 32766| ≤ 32767 * (21 / 10 * u * D / 32766) :=
          mul_le_mul hv2 (abs_le.2 hs) (abs_nonneg _) (by norm_num)
      _ ≤ 22 / 10 * u * D := by unfold u; linarith
  have hvD : (v : ℚ) * (D / 32766) ≤ 32767 * (D / 32766) := mul_le_mul_of_nonneg_right hv2 (by linarith)
  have hvD0 : D / 32766 ≤ (v : ℚ) * (D / 32766) := by
    have := mul_le_mul_of_nonneg_right hv1 (show 0 ≤ D / 32766 by linarith)
    linarith
  have hsub : |(v : ℚ) * s - s - (v * (D / 32766) - D / 32766)| ≤ 21 / 10 * u * D := by
    have : (v : ℚ) * s - s - (v * (D / 32766) - D / 32766) = (v - 1) * (s - D / 32766) := by ring
    rw [this, abs_mul, abs_of_nonneg (by linarith : (0 : ℚ) ≤ v - 1)]
    calc ((v : ℚ) - 1) * |s - D / 32766| ≤ 32766 * (21 / 10 * u * D / 32766) :=
          mul_le_mul (by linarith) (abs_le.2 hs) (abs_nonneg _) (by norm_num)
      _ = 21 / 10 * u * D := by ring
  have hexp : ((v : ℚ) - 1) * (D / 32766) = v * (D / 32766) - D / 32766 := by ring
  rw [hexp]
  set P := (v : ℚ) * (D / 32766)
  set Q := (v : ℚ) * s
  unfold u at *
  rw [abs_le] at hvs hsub
  have hc := near h (x := lo - s) (B := 21 / 10 * D) (by rw [abs_le]; constructor <;> linarith) (by linarith)
  have hp := near h (x := Q) (B := 11 / 10 * D) (by rw [abs_le]; constructor <;> linarith) (by linarith)
  unfold u at hc hp
  set c := fl (lo - s)
  rw [abs_le] at hc hp
  unfold mulAdd
  cases fused with
  | true =>
    rw [if_pos rfl]
    have hf := near h (x := Q + c) (B := 31 / 10 * D) (by rw [abs_le]; constructor <;> linarith) (by linarith)
    unfold u at hf
    rw [abs_le] at hf ⊢
    constructor <;> linarith
  | false =>
    rw [if_neg (by simp)]
    have hf := near h (x := fl Q + c) (B := 31 / 10 * D) (by rw [abs_le]; constructor <;> linarith) (by linarith)
    unfold u at hf
    rw [abs_le] at hf ⊢
    constructor <;> linarith

/-- The position of a number in the interval, in steps of the table. -/
def position (x lo hi : ℚ) : ℚ := (clamp x lo hi - lo) * (32766 / (hi - lo))

theorem encode_error {fl : ℚ → ℚ} (h : SingleRounding fl) {lo hi : ℚ} (hb : Bounds lo hi) (x : ℚ) :
    |fl (fl (clamp x lo hi - lo) * fl (32766 / fl (hi - lo))) - position x lo hi| ≤ 1 / 50 := by
  have h0 := width_error h hb
  have hsm := hb.small
  have hla := hb.large
  have hpos := hb.pos
  obtain ⟨c1, c2⟩ := clamp_mem (x := x) (lo := lo) (hi := hi) (by linarith)
  unfold position
  set y := clamp x lo hi
  set D := hi - lo
  set D' := fl D
  set R := 32766 / D
  have hDR : D * R = 32766 := by unfold R; field_simp
  have hR0 : 0 < R := by positivity
  have hRl : 1 / 2 ^ 60 ≤ R := by
    unfold R; rw [le_div_iff₀ hpos]; nlinarith
  rw [abs_le] at h0
  have hP1 := mul_le_mul_of_nonneg_right h0.1 hR0.le
  have hP2 := mul_le_mul_of_nonneg_right h0.2 hR0.le
  have eP : (D' - D) * R = D' * R - 32766 := by rw [sub_mul, hDR]
  have eP1 : -(u * D) * R = -(u * 32766) := by rw [← hDR]; ring
  have eP2 : u * D * R = u * 32766 := by rw [← hDR]; ring
  rw [eP, eP1] at hP1
  rw [eP, eP2] at hP2
  have hD'0 : 0 < D' := by unfold u at h0; linarith
  have hq : |32766 / D' - R| ≤ 101 / 100 * u * R := by
    rw [abs_le]
    constructor
    · rw [← sub_nonneg]
      have : 32766 / D' - R - -(101 / 100 * u * R) = (32766 - (1 - 101 / 100 * u) * (D' * R)) / D' := by field_simp; ring
      rw [this]
      apply div_nonneg _ hD'0.le
      unfold u at *; linarith
    · rw [← sub_nonneg]
      have : 101 / 100 * u * R - (32766 / D' - R) = ((1 + 101 / 100 * u) * (D' * R) - 32766) / D' := by field_simp; ring
      rw [this]
      apply div_nonneg _ hD'0.le
      unfold u at *; linarith
  rw [abs_le] at hq
  have hk := near h (x := 32766 / D') (B := 101 / 100 * R) (by unfold u at hq; rw [abs_le]; constructor <;> linarith) (by linarith)
  set k := fl (32766 / D')
  rw [abs_le] at hk
  have hkR : |k - R| ≤ 21 / 10 * u * R := by unfold u at *; rw [abs_le]; constructor <;> linarith
  have hkB : |k| ≤ 11 / 10 * R := by unfold u at *; rw [abs_le] at *; constructor <;> linarith
  have hd := near h (x := y - lo) (B := D) (by rw [abs_le]; constructor <;> linarith) (by linarith)
  set d := fl (y - lo)
  have hm := err_mul hd hkR (A := D) (by rw [abs_le]; constructor <;> linarith) hkB
  have em : u * D * (11 / 10 * R) + D * (21 / 10 * u * R) = 32 / 10 * u * 32766 := by rw [← hDR]; ring
  rw [em] at hm
  have hyR : (y - lo) * R ≤ 32766 := by
    rw [← hDR]; exact mul_le_mul_of_nonneg_right (by linarith) hR0.le
  have hyR0 : 0 ≤ (y - lo) * R := mul_nonneg (by linarith) hR0.le
  unfold u at hm
  rw [abs_le] at hm
  have hf := near h (x := d * k) (B := 33000) (by rw [abs_le]; constructor <;> linarith) (by norm_num)
  unfold u at hf
  rw [abs_le] at hf ⊢
  constructor <;> linarith

theorem position_mem {x lo hi : ℚ} (hb : Bounds lo hi) : 0 ≤ position x lo hi ∧ position x lo hi ≤ 32766 := by
  have hpos := hb.pos
  obtain ⟨c1, c2⟩ := clamp_mem (x := x) (lo := lo) (hi := hi) (by linarith)
  unfold position
  constructor
  · exact mul_nonneg (by linarith) (by positivity)
  · calc (clamp x lo hi - lo) * (32766 / (hi - lo)) ≤ (hi - lo) * (32766 / (hi - lo)) :=
          mul_le_mul_of_nonneg_right (by linarith) (by positivity)
      _ = 32766 := by field_simp

/-- The conversion to a value never fails its checks, and the value is the nearest one up to rounding errors. -/
theorem encode_spec {fl : ℚ → ℚ} (h : SingleRounding fl) {lo hi : ℚ} (hb : Bounds lo hi) (x : ℚ) :
    ∃ n : Nat, boundedFloatToValue fl x lo hi = some n ∧ 1 ≤ n ∧ n ≤ 32767 ∧
      |(n : ℚ) - 1 - position x lo hi| ≤ 13 / 25 := by
  have he := encode_error h hb x
  obtain ⟨p1, p2⟩ := position_mem (x := x) hb
  have hr := roundToInt_near (x := fl (fl (clamp x lo hi - lo) * fl (32766 / fl (hi - lo))))
  have hI : boundedFloatToInt fl x lo hi = roundToInt (fl (fl (clamp x lo hi - lo) * fl (32766 / fl (hi - lo)))) + 1 := rfl
  set r := roundToInt (fl (fl (clamp x lo hi - lo) * fl (32766 / fl (hi - lo))))
  rw [abs_le] at he hr
  have r1 : (-1 : ℚ) < r := by linarith
  have r2 : (r : ℚ) < 32767 := by linarith
  have r1' : -1 < r := by exact_mod_cast r1
  have r2' : r < 32767 := by exact_mod_cast r2
  refine ⟨(r + 1).toNat, ?_, by omega, by omega, ?_⟩
  · unfold boundedFloatToValue
    rw [hI, if_pos ⟨by omega, by omega⟩]
  · have : (((r + 1).toNat : Nat) : ℚ) = r + 1 := by
      have : (((r + 1).toNat : Nat) : Int) = r + 1 := Int.toNat_of_nonneg (by omega)
      exact_mod_cast this
    rw [this, abs_le]
    constructor <;> linarith

theorem encode_mono {fl : ℚ → ℚ} (h : SingleRounding fl) {lo hi : ℚ} (hb : Bounds lo hi) {x y : ℚ} (hxy : x ≤ y) {n m : Nat}
    (hn : boundedFloatToValue fl x lo hi = some n) (hm : boundedFloatToValue fl y lo hi = some m) : n ≤ m := by
  have hpos := hb.pos
  have hk : 0 ≤ fl (32766 / fl (hi - lo)) := fl_nonneg h (div_nonneg (by norm_num) (fl_nonneg h hpos.le))
  have hle : boundedFloatToInt fl x lo hi ≤ boundedFloatToInt fl y lo hi := by
    unfold boundedFloatToInt
    have := Prob.roundToInt_mono
      (fl_nonneg h (mul_nonneg (fl_nonneg h (sub_nonneg.2 (clamp_mem (x := x) (by linarith : lo ≤ hi)).1)) hk)) (h.mono (mul_le_mul_of_nonneg_right
      (h.mono (sub_le_sub_right (clamp_mono (by linarith : lo ≤ hi) hxy) lo)) hk))
    omega
  unfold boundedFloatToValue at hn hm
  split_ifs at hn hm
  simp only [Option.some.injEq] at hn hm
  omega

/-- The value of a number close to the exact table entry. -/
theorem encode_near {fl : ℚ → ℚ} (h : SingleRounding fl) {lo hi : ℚ} (hb : Bounds lo hi) {x : ℚ} {v : Nat}
    (h1 : 1 ≤ v) (h2 : v ≤ 32767) (hx : |x - exactValue lo hi v| ≤ 9 / 20 * ((hi - lo) / 32766)) :
    boundedFloatToValue fl x lo hi = some v := by
  obtain ⟨n, hn, n1, n2, ne⟩ := encode_spec h hb x
  have hpos := hb.pos
  have hv1 : (1 : ℚ) ≤ v := by exact_mod_cast h1
  have hv2 : (v : ℚ) ≤ 32767 := by exact_mod_cast h2
  have hst : 0 < (hi - lo) / 32766 := by positivity
  have hm1 : lo ≤ exactValue lo hi v := by
    unfold exactValue
    have := mul_nonneg (show (0 : ℚ) ≤ v - 1 by linarith) hst.le
    linarith
  have hm2 : exactValue lo hi v ≤ hi := by
    unfold exactValue
    have := mul_le_mul_of_nonneg_right (show (v : ℚ) - 1 ≤ 32766 by linarith) hst.le
    linarith
  have hc := clamp_near hm1 hm2 hx
  have hp : |position x lo hi - (v - 1)| ≤ 9 / 20 := by
    have e : position x lo hi - (v - 1) = (clamp x lo hi - exactValue lo hi v) * (32766 / (hi - lo)) := by
      unfold position exactValue; field_simp; ring
    rw [e, abs_mul, abs_of_pos (a := 32766 / (hi - lo)) (by positivity)]
    calc |clamp x lo hi - exactValue lo hi v| * (32766 / (hi - lo))
        ≤ 9 / 20 * ((hi - lo) / 32766) * (32766 / (hi - lo)) := mul_le_mul_of_nonneg_right hc (by positivity)
      _ = 9 / 20 := by field_simp
  rw [abs_le] at ne hp
  have a : (n : ℚ) < v + 1 := by linarith
  have b : (v : ℚ) < n + 1 := by linarith
  have a' : n < v + 1 := by exact_mod_cast a
  have b' : v < n + 1 := by exact_mod_cast b
  rw [hn]
  congr 1
  omega

theorem exactValue_diff {lo hi : ℚ} (hb : Bounds lo hi) {v w : Nat} (h : v < w) :
    (hi - lo) / 32766 ≤ exactValue lo hi w - exactValue lo hi v := by
  have hpos := hb.pos
  have h1 : (v : ℚ) + 1 ≤ w := by exact_mod_cast h
  have e : exactValue lo hi w - exactValue lo hi v = (w - v) * ((hi - lo) / 32766) := by unfold exactValue; ring
  rw [e]
  have := mul_le_mul_of_nonneg_right (show (1 : ℚ) ≤ w - v by linarith) (show 0 ≤ (hi - lo) / 32766 by positivity)
  linarith

theorem exactValue_mem {lo hi : ℚ} (hb : Bounds lo hi) {v : Nat} (h1 : 1 ≤ v) (h2 : v ≤ 32767) :
    lo ≤ exactValue lo hi v ∧ exactValue lo hi v ≤ hi := by
  have hpos := hb.pos
  have hv1 : (1 : ℚ) ≤ v := by exact_mod_cast h1
  have hv2 : (v : ℚ) ≤ 32767 := by exact_mod_cast h2
  have hst : 0 < (hi - lo) / 32766 := by positivity
  unfold exactValue
  have a := mul_nonneg (show (0 : ℚ) ≤ v - 1 by linarith) hst.le
  have b := mul_le_mul_of_nonneg_right (show (v : ℚ) - 1 ≤ 32766 by linarith) hst.le
  constructor <;> linarith

/-- Neighbouring entries of the conversion table stay apart by most of a step. -/
theorem decode_gap {fl : ℚ → ℚ} (h : SingleRounding fl) {lo hi : ℚ} (hb : Bounds lo hi) (fused : Bool) {v w : Nat}
    (h1 : 1 ≤ v) (hvw : v < w) (h2 : w ≤ 32767) (ur : ℚ) :
    slowValueToBoundedFloat fl fused v ur lo hi + 9 / 10 * ((hi - lo) / 32766) ≤ slowValueToBoundedFloat fl fused w ur lo hi := by
  have a := decode_error h hb fused h1 (by omega) ur
  have b := decode_error h hb fused (v := w) (by omega) h2 ur
  have c := exactValue_diff hb hvw
  have hpos := hb.pos
  unfold u at a b
  rw [abs_le] at a b
  linarith

/-! ### Relative errors -/

/-- `a` approximates the positive number `a0` with relative error `δ`. -/
def Rel (δ a a0 : ℚ) : Prop := a0 * (1 - δ) ≤ a ∧ a ≤ a0 * (1 + δ)

theorem Rel.refl {a : ℚ} : Rel 0 a a := ⟨by linarith, by linarith⟩

theorem Rel.fl {fl : ℚ → ℚ} (h : SingleRounding fl) {δ δ' a a0 : ℚ} (hr : Rel δ a a0) (h0 : 1 / 2 ^ 99 ≤ a0)
    (hδ : 0 ≤ δ) (h1 : δ ≤ 1 / 2) (h2 : δ + u * (1 + δ) ≤ δ') : Rel δ' (fl a) a0 := by
  obtain ⟨r1, r2⟩ := hr
  have p0 : (0 : ℚ) < a0 := lt_of_lt_of_le (by norm_num) h0
  have ha : a0 * (1 / 2) ≤ a := le_trans (mul_le_mul_of_nonneg_left (by linarith) p0.le) r1
  have hn := near h (x := a) (B := a0 * (1 + δ)) (by rw [abs_le]; constructor <;> nlinarith)
    (by nlinarith)
  rw [abs_le] at hn
  have h3 := mul_le_mul_of_nonneg_left h2 p0.le
  constructor <;> nlinarith

theorem Rel.div {α β γ a a0 b b0 : ℚ} (ha : Rel α a a0) (hb : Rel β b b0) (a0p : 0 < a0) (b0p : 0 < b0) (hβ : β < 1)
    (hγ : 0 ≤ γ) (hγ1 : γ ≤ 1)
    (h1 : 1 + α ≤ (1 + γ) * (1 - β)) (h2 : (1 - γ) * (1 + β) ≤ 1 - α) : Rel γ (a / b) (a0 / b0) := by
  have bp : 0 < b := lt_of_lt_of_le (mul_pos b0p (by linarith)) hb.1
  constructor
  · rw [le_div_iff₀ bp]
    calc a0 / b0 * (1 - γ) * b ≤ a0 / b0 * (1 - γ) * (b0 * (1 + β)) :=
          mul_le_mul_of_nonneg_left hb.2 (mul_nonneg (div_pos a0p b0p).le (by linarith))
      _ = a0 * ((1 - γ) * (1 + β)) := by field_simp
      _ ≤ a0 * (1 - α) := mul_le_mul_of_nonneg_left h2 a0p.le
      _ ≤ a := ha.1
  · rw [div_le_iff₀ bp]
    calc a ≤ a0 * (1 + α) := ha.2
      _ ≤ a0 * ((1 + γ) * (1 - β)) := mul_le_mul_of_nonneg_left h1 a0p.le
      _ = a0 / b0 * (1 + γ) * (b0 * (1 - β)) := by field_simp
      _ ≤ a0 / b0 * (1 + γ) * b := mul_le_mul_of_nonneg_left hb.1 (mul_nonneg (div_pos a0p b0p).le (by linarith))

theorem Rel.mul_left {α a a0 : ℚ} (o : ℚ) (ho : 0 ≤ o) (ha : Rel α a a0) : Rel α (o * a) (o * a0) := by
  constructor
  · have := mul_le_mul_of_nonneg_left ha.1 ho; linarith
  · have := mul_le_mul_of_nonneg_left ha.2 ho; linarith

theorem Rel.add_one {α a a0 : ℚ} (hα : 0 ≤ α) (ha : Rel α a a0) : Rel α (a + 1) (a0 + 1) := by
  constructor
  · have := ha.1; linarith
  · have := ha.2; linarith

/-! ### Applying odds -/

/-- The exact result of applying odds to a probability. -/
def exactUpdate (o p : ℚ) : ℚ := o * p / (o * p + (1 - p))

/-- The odds for which the estimates hold. -/
def OddsOk (o : ℚ) : Prop := 1 / 2 ^ 40 ≤ o ∧ o ≤ 2 ^ 40

theorem OddsOk.pos {o : ℚ} (h : OddsOk o) : 0 < o := lt_of_lt_of_le (by norm_num) h.1

theorem updated_error {fl : ℚ → ℚ} (h : SingleRounding fl) (fused : Bool) {o p : ℚ} (ho : OddsOk o) (hp1 : 1 / 20 ≤ p)
    (hp2 : p ≤ 19 / 20) : |updated fl fused o p - exactUpdate o p| ≤ 9 * u := by
  have op := ho.pos
  have pp : 0 < p := by linarith
  have qp : 0 < 1 - p := by linarith
  have W1 : 1 / 20 ≤ p / (1 - p) := by rw [le_div_iff₀ qp]; nlinarith
  have W0 : 0 < p / (1 - p) := by linarith
  have hq : Rel (101 / 100 * u) (fl (1 - p)) (1 - p) :=
    Rel.refl.fl h (by linarith) le_rfl (by norm_num) (by norm_num [u])
  have hd : Rel (102 / 100 * u) (p / fl (1 - p)) (p / (1 - p)) :=
    Rel.refl.div hq pp qp (by norm_num [u]) (by norm_num [u]) (by norm_num [u]) (by norm_num [u]) (by norm_num [u])
  have hod : Rel (203 / 100 * u) (odds fl p) (p / (1 - p)) :=
    hd.fl h (by linarith) (by norm_num [u]) (by norm_num [u]) (by norm_num [u])
  have hm := hod.mul_left o op.le
  have X1 : 1 / 2 ^ 99 ≤ o * (p / (1 - p)) := by
    have := mul_le_mul ho.1 W1 (by norm_num) op.le
    exact le_trans (by norm_num) this
  have X0 : 0 < o * (p / (1 - p)) := mul_pos op W0
  have hx : Rel (304 / 100 * u) (fl (o * odds fl p)) (o * (p / (1 - p))) :=
    hm.fl h X1 (by norm_num [u]) (by norm_num [u]) (by norm_num [u])
  have hden : Rel (406 / 100 * u) (mulAdd fl fused o (odds fl p) 1) (o * (p / (1 - p)) + 1) := by
    unfold mulAdd
    cases fused with
    | true =>
      rw [if_pos rfl]
      exact (hm.add_one (by norm_num [u])).fl h (by linarith) (by norm_num [u]) (by norm_num [u]) (by norm_num [u])
    | false =>
      rw [if_neg (by simp)]
      exact (hx.add_one (by norm_num [u])).fl h (by linarith) (by norm_num [u]) (by norm_num [u]) (by norm_num [u])
  have hdiv : Rel (72 / 10 * u) (fl (o * odds fl p) / mulAdd fl fused o (odds fl p) 1)
      (o * (p / (1 - p)) / (o * (p / (1 - p)) + 1)) :=
    hx.div hden X0 (by linarith) (by norm_num [u]) (by norm_num [u]) (by norm_num [u]) (by norm_num [u]) (by norm_num [u])
  have eF : o * (p / (1 - p)) / (o * (p / (1 - p)) + 1) = exactUpdate o p := by
    unfold exactUpdate
    have : o * p + (1 - p) ≠ 0 := by positivity
    field_simp
  rw [eF] at hdiv
  have F1 : exactUpdate o p ≤ 1 := by
    unfold exactUpdate
    rw [div_le_one (by positivity)]
    linarith
  have F0 : 1 / 2 ^ 99 ≤ exactUpdate o p := by
    rw [← eF, le_div_iff₀ (by linarith)]
    have W2 : p / (1 - p) ≤ 19 := by rw [div_le_iff₀ qp]; linarith
    have hX2 := mul_le_mul ho.2 W2 W0.le (by norm_num)
    have hX1 := mul_le_mul ho.1 W1 (by norm_num) op.le
    set X := o * (p / (1 - p))
    linarith
  have hf : Rel (9 * u) (updated fl fused o p) (exactUpdate o p) :=
    hdiv.fl h F0 (by norm_num [u]) (by norm_num [u]) (by norm_num [u])
  have u0 : 0 < u := by norm_num [u]
  have := mul_le_mul_of_nonneg_right F1 (show 0 ≤ 9 * u by linarith)
  rw [abs_le]
  constructor
  · linarith [hf.1]
  · linarith [hf.2]

theorem exactUpdate_one {o p : ℚ} (h : 0 < o) (h1 : 0 < p) (h2 : p < 1) :
    (1 ≤ o → p ≤ exactUpdate o p) ∧ (o ≤ 1 → exactUpdate o p ≤ p) := by
  have hq : 0 < 1 - p := by linarith
  have hd : 0 < o * p + (1 - p) := by positivity
  unfold exactUpdate
  constructor
  · intro ho
    rw [le_div_iff₀ hd]
    nlinarith [mul_nonneg (mul_nonneg h1.le hq.le) (sub_nonneg.2 ho)]
  · intro ho
    rw [div_le_iff₀ hd]
    nlinarith [mul_nonneg (mul_nonneg h1.le hq.le) (sub_nonneg.2 ho)]

/-- Odds that differ from one by a thousandth move every probability by more than three steps. -/
theorem exactUpdate_strict {o p : ℚ} (h : 0 < o) (h1 : 999 / 10000 ≤ p) (h2 : p ≤ 9001 / 10000) :
    (1001 / 1000 ≤ o → p + 8 / 100000 ≤ exactUpdate o p) ∧ (o ≤ 999 / 1000 → exactUpdate o p ≤ p - 8 / 100000) := by
  have hq : 0 < 1 - p := by linarith
  have hp0 : 0 < p := by linarith
  have hd : 0 < o * p + (1 - p) := by positivity
  have hpq : 898 / 10000 ≤ p * (1 - p) := by nlinarith
  unfold exactUpdate
  constructor
  · intro ho
    rw [le_div_iff₀ hd]
    have := mul_le_mul_of_nonneg_right ho (show 0 ≤ p * (1 - p - 8 / 100000) by nlinarith)
    nlinarith
  · intro ho
    rw [div_le_iff₀ hd]
    have := mul_le_mul_of_nonneg_right ho (show 0 ≤ p * (1 - p + 8 / 100000) by nlinarith)
    nlinarith

theorem exactUpdate_diff {o p q : ℚ} (h : 0 < o) (h1 : 0 < p) (h2 : p < 1) (h3 : 0 < q) (h4 : q < 1) :
    (exactUpdate o q - exactUpdate o p) * (p * (1 - q)) = exactUpdate o p * (1 - exactUpdate o q) * (q - p) := by
  have d1 : o * p + (1 - p) ≠ 0 := by have : 0 < 1 - p := by linarith
                                      positivity
  have d2 : o * q + (1 - q) ≠ 0 := by have : 0 < 1 - q := by linarith
                                      positivity
  unfold exactUpdate
  field_simp
  ring

/-- Different probabilities stay in order, as far as they are not clamped. -/
theorem updated_order {fl : ℚ → ℚ} (h : SingleRounding fl) (fused : Bool) {o p q : ℚ} (ho : OddsOk o)
    (h1 : 999 / 10000 ≤ p) (h2 : q ≤ 9001 / 10000) (hpq : p + 2 / 100000 ≤ q) {lo hi : ℚ} (hlo : 1 / 10 - 3 * u ≤ lo)
    (hhi : hi ≤ 9 / 10 + 3 * u) :
    updated fl fused o p ≤ updated fl fused o q ∨ updated fl fused o p ≤ lo ∨ hi ≤ updated fl fused o q := by
  by_contra hcon
  push Not at hcon
  obtain ⟨c1, c2, c3⟩ := hcon
  have ea := updated_error h fused (p := p) ho (by linarith) (by linarith)
  have eb := updated_error h fused (p := q) ho (by linarith) (by linarith)
  have hd := exactUpdate_diff (p := p) (q := q) ho.pos (by linarith) (by linarith) (by linarith) (by linarith)
  set a' := updated fl fused o p
  set b' := updated fl fused o q
  set a := exactUpdate o p
  set b := exactUpdate o q
  unfold u at *
  rw [abs_le] at ea eb
  have ha : 9999 / 100000 ≤ a := by linarith
  have hb : b ≤ 90001 / 100000 := by linarith
  have hab : b - a ≤ 3 / 1000000 := by linarith
  have hprod : 79 / 1000 ≤ a * (1 - b) := by
    rcases le_total b (1 / 5) with hb5 | hb5
    · nlinarith
    · have : b - 1 / 10 ≤ a := by linarith
      nlinarith
  have hr : a * (1 - b) * (q - p) ≥ 79 / 1000 * (2 / 100000) :=
    mul_le_mul hprod (by linarith) (by norm_num) (by linarith)
  have hpq4 : p * (1 - q) ≤ 1 / 4 := by nlinarith [sq_nonneg (p - 1 / 2)]
  have hpq0 : 0 < p * (1 - q) := mul_pos (by linarith) (by linarith)
  nlinarith

/-- The exact update does not spread out small differences. -/
theorem exactUpdate_lipschitz {o p q e : ℚ} (h : 0 < o) (h1 : 999 / 10000 ≤ p) (h2 : p ≤ 9001 / 10000)
    (h3 : 999 / 10000 ≤ q) (h4 : q ≤ 9001 / 10000) (hpq : |q - p| ≤ e) (he : e ≤ 1 / 10000) :
    |exactUpdate o q - exactUpdate o p| ≤ 3 * e := by
  wlog hle : p ≤ q generalizing p q with H
  · rw [abs_sub_comm]
    exact H h3 h4 h1 h2 (by rwa [abs_sub_comm]) (by linarith)
  have hd := exactUpdate_diff (p := p) (q := q) h (by linarith) (by linarith) (by linarith) (by linarith)
  have hq0 : 0 < 1 - q := by linarith
  have hp0 : 0 < 1 - p := by linarith
  have da : 0 < o * p + (1 - p) := by have : 0 < p := by linarith
                                      positivity
  have db : 0 < o * q + (1 - q) := by have : 0 < q := by linarith
                                      positivity
  have a0 : 0 ≤ exactUpdate o p := div_nonneg (mul_nonneg h.le (by linarith)) da.le
  have a1 : exactUpdate o p ≤ 1 := by unfold exactUpdate; rw [div_le_one da]; linarith
  have b1 : exactUpdate o q ≤ 1 := by unfold exactUpdate; rw [div_le_one db]; linarith
  set a := exactUpdate o p
  set b := exactUpdate o q
  rw [abs_of_nonneg (by linarith)] at hpq
  have hpos : 89 / 1000 ≤ p * (1 - q) := by nlinarith
  have hba : 0 ≤ b - a := by
    by_contra hneg
    push Not at hneg
    have l : (b - a) * (p * (1 - q)) < 0 := mul_neg_of_neg_of_pos hneg (by linarith)
    have r : 0 ≤ a * (1 - b) * (q - p) := mul_nonneg (mul_nonneg a0 (by linarith)) (by linarith)
    linarith
  rw [abs_of_nonneg hba]
  have hab4 : a * (1 - b) ≤ 1 / 4 := by nlinarith [sq_nonneg (a - 1 / 2)]
  have hr : a * (1 - b) * (q - p) ≤ 1 / 4 * e := mul_le_mul hab4 hpq (by linarith) (by norm_num)
  nlinarith

/-! ### The constants -/

theorem minProbability_near {fl : ℚ → ℚ} (h : SingleRounding fl) : |minProbability fl - 1 / 10| ≤ 1 / 10 * u := by
  have := near h (x := 1 / 10) (B := 1 / 10) (by norm_num) (by norm_num)
  unfold minProbability; linarith

theorem maxProbability_near {fl : ℚ → ℚ} (h : SingleRounding fl) : |maxProbability fl - 9 / 10| ≤ 101 / 100 * u := by
  have a := minProbability_near h
  unfold maxProbability
  set m := minProbability fl
  unfold u at *
  rw [abs_le] at a
  have b := near h (x := 1 - m) (B := 901 / 1000) (by rw [abs_le]; constructor <;> linarith) (by norm_num)
  unfold u at b
  rw [abs_le] at b ⊢
  constructor <;> linarith

theorem minCost_near {fl : ℚ → ℚ} (h : SingleRounding fl) : |minCost fl - 1 / 10| ≤ 12 / 10 * u := by
  have a := maxProbability_near h
  unfold minCost
  set m := maxProbability fl
  unfold u at *
  rw [abs_le] at a
  have b := near h (x := 1 - m) (B := 101 / 1000) (by rw [abs_le]; constructor <;> linarith) (by norm_num)
  unfold u at b
  rw [abs_le] at b ⊢
  constructor <;> linarith

theorem maxCost_near {fl : ℚ → ℚ} (h : SingleRounding fl) : |maxCost fl - 9 / 10| ≤ 101 / 100 * u := maxProbability_near h

theorem bounds_of_near {lo hi : ℚ} (h1 : |lo - 1 / 10| ≤ 2 * u) (h2 : |hi - 9 / 10| ≤ 2 * u) : Bounds lo hi := by
  unfold u at *
  rw [abs_le] at h1 h2
  refine ⟨by linarith, by linarith, ?_⟩
  rw [abs_le]; constructor <;> linarith

theorem probBounds {fl : ℚ → ℚ} (h : SingleRounding fl) : Bounds (minProbability fl) (maxProbability fl) :=
  bounds_of_near (le_trans (minProbability_near h) (by norm_num [u])) (le_trans (maxProbability_near h) (by norm_num [u]))

theorem costBounds {fl : ℚ → ℚ} (h : SingleRounding fl) : Bounds (minCost fl) (maxCost fl) :=
  bounds_of_near (le_trans (minCost_near h) (by norm_num [u])) (le_trans (maxCost_near h) (by norm_num [u]))

end Verif.FloatProb
