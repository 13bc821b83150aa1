import Verif.Colors
import Verif.Props.FloatLoops
import Mathlib.Tactic.NormNum
import Mathlib.Tactic.Linarith
import Mathlib.Tactic.Ring

/-! # C123: colors of trajectories -/

namespace Verif.Colors

open Verif.Fp
open Verif.FloatLoops (rnd_single rnd_mono repr_rnd single_err repr_multiple)
open Verif.FloatProb (mulAdd roundToInt_near)
open Verif.FloatCells (roundToInt_eq roundToInt_mono)
open Verif.Prob (clamp roundToInt)

/-! ### What a color is

The intensity of a color with hue `x` (in sixths of a turn), saturation `s` and value `v` in the channel `n` (5 for red, 3 for green,
1 for blue), as it is usually defined: `v - v * s * wave n x`. -/

/-- The darkness of a channel, `k` sixths of a turn away. -/
def tent (k : ℚ) : ℚ := max 0 (min 1 (min k (4 - k)))

/-- The darkness of channel `n` at `x` sixths of a turn. -/
def wave (n : Int) (x : ℚ) : ℚ := tent (n + x - 6 * ⌊(n + x) / 6⌋)

/-- A color of hue `x`, in sixths of a turn. -/
def ideal (x s v : ℚ) : Color := ⟨v - v * s * wave 5 x, v - v * s * wave 3 x, v - v * s * wave 1 x⟩

/-- The channels differ by no more than `e`. -/
def Near (e : ℚ) (c d : Color) : Prop := |c.r - d.r| ≤ e ∧ |c.g - d.g| ≤ e ∧ |c.b - d.b| ≤ e

/-! ### The hexagon of hues -/

theorem floor_div {n x : ℚ} {m : Int} (h1 : 6 * m ≤ n + x) (h2 : n + x < 6 * m + 6) : ⌊(n + x) / 6⌋ = m := by
  rw [Int.floor_eq_iff]
  constructor
  · rw [le_div_iff₀ (by norm_num)]; linarith
  · rw [div_lt_iff₀ (by norm_num)]; linarith

theorem wave_at {n : Int} {x : ℚ} (m : Int) (h1 : 6 * (m : ℚ) ≤ n + x) (h2 : (n : ℚ) + x < 6 * m + 6) :
    wave n x = tent (n + x - 6 * m) := by
  unfold wave
  rw [floor_div h1 h2]

theorem tent_zero {k : ℚ} (h : k ≤ 0 ∨ 4 ≤ k) : tent k = 0 := by
  unfold tent
  apply max_eq_left
  rcases h with h | h
  · exact le_trans (min_le_right _ _) (le_trans (min_le_left _ _) h)
  · exact le_trans (min_le_right _ _) (le_trans (min_le_right _ _) (by linarith))

theorem tent_one {k : ℚ} (h1 : 1 ≤ k) (h2 : k ≤ 3) : tent k = 1 := by
  unfold tent
  rw [min_eq_left (le_min h1 (by linarith))]
  exact max_eq_right (by norm_num)

theorem tent_up {k : ℚ} (h1 : 0 ≤ k) (h2 : k ≤ 1) : tent k = k := by
  unfold tent
  rw [min_eq_left (a := k) (by linarith), min_eq_right h2, max_eq_right h1]

theorem tent_down {k : ℚ} (h1 : 3 ≤ k) (h2 : k ≤ 4) : tent k = 4 - k := by
  unfold tent
  rw [min_eq_right (a := k) (by linarith), min_eq_right (by linarith), max_eq_right (by linarith)]

/-- Around the hexagon one channel changes at a time. -/
theorem wave_cases {x : ℚ} (h0 : 0 ≤ x) (h6 : x < 6) :
    (0 ≤ x ∧ x < 1 ∧ wave 5 x = 0 ∧ wave 3 x = 1 - x ∧ wave 1 x = 1) ∨
    (1 ≤ x ∧ x < 2 ∧ wave 5 x = x - 1 ∧ wave 3 x = 0 ∧ wave 1 x = 1) ∨
    (2 ≤ x ∧ x < 3 ∧ wave 5 x = 1 ∧ wave 3 x = 0 ∧ wave 1 x = 3 - x) ∨
    (3 ≤ x ∧ x < 4 ∧ wave 5 x = 1 ∧ wave 3 x = x - 3 ∧ wave 1 x = 0) ∨
    (4 ≤ x ∧ x < 5 ∧ wave 5 x = 5 - x ∧ wave 3 x = 1 ∧ wave 1 x = 0) ∨
    (5 ≤ x ∧ x < 6 ∧ wave 5 x = 0 ∧ wave 3 x = 1 ∧ wave 1 x = x - 5) := by
  have z : ∀ {n : Int}, (n : ℚ) + x < 6 → 0 ≤ (n : ℚ) → wave n x = tent (n + x) := by
    intro n h hn
    rw [wave_at 0 (by push_cast; linarith) (by push_cast; linarith)]
    push_cast; rw [mul_zero, sub_zero]
  have o : ∀ {n : Int}, 6 ≤ (n : ℚ) + x → (n : ℚ) ≤ 5 → wave n x = tent (n + x - 6) := by
    intro n h hn
    rw [wave_at 1 (by push_cast; linarith) (by push_cast; linarith)]
    push_cast; rw [mul_one]
  rcases lt_or_ge x 1 with a1 | a1
  · left
    rw [z (n := 5) (by push_cast; linarith) (by norm_num), z (n := 3) (by push_cast; linarith) (by norm_num),
      z (n := 1) (by push_cast; linarith) (by norm_num)]
    push_cast
    rw [tent_zero (Or.inr (by linarith)), tent_down (by linarith) (by linarith), tent_one (by linarith) (by linarith)]
    exact ⟨h0, a1, rfl, by ring, rfl⟩
  rcases lt_or_ge x 2 with a2 | a2
  · right; left
    rw [o (n := 5) (by push_cast; linarith) (by norm_num), z (n := 3) (by push_cast; linarith) (by norm_num),
      z (n := 1) (by push_cast; linarith) (by norm_num)]
    push_cast
    rw [tent_up (by linarith) (by linarith), tent_zero (Or.inr (by linarith)), tent_one (by linarith) (by linarith)]
    exact ⟨a1, a2, by ring, rfl, rfl⟩
  rcases lt_or_ge x 3 with a3 | a3
  · right; right; left
    rw [o (n := 5) (by push_cast; linarith) (by norm_num), z (n := 3) (by push_cast; linarith) (by norm_num),
      z (n := 1) (by push_cast; linarith) (by norm_num)]
    push_cast
    rw [tent_one (by linarith) (by linarith), tent_zero (Or.inr (by linarith)), tent_down (by linarith) (by linarith)]
    exact ⟨a2, a3, rfl, rfl, by ring⟩
  rcases lt_or_ge x 4 with a4 | a4
  · right; right; right; left
    rw [o (n := 5) (by push_cast; linarith) (by norm_num), o (n := 3) (by push_cast; linarith) (by norm_num),
      z (n := 1) (by push_cast; linarith) (by norm_num)]
    push_cast
    rw [tent_one (by linarith) (by linarith), tent_up (by linarith) (by linarith), tent_zero (Or.inr (by linarith))]
    exact ⟨a3, a4, rfl, by ring, rfl⟩
  rcases lt_or_ge x 5 with a5 | a5
  · right; right; right; right; left
    rw [o (n := 5) (by push_cast; linarith) (by norm_num), o (n := 3) (by push_cast; linarith) (by norm_num),
      z (n := 1) (by push_cast; linarith) (by norm_num)]
    push_cast
    rw [tent_down (by linarith) (by linarith), tent_one (by linarith) (by linarith), tent_zero (Or.inr (by linarith))]
    exact ⟨a4, a5, by ring, rfl, rfl⟩
  · right; right; right; right; right
    rw [o (n := 5) (by push_cast; linarith) (by norm_num), o (n := 3) (by push_cast; linarith) (by norm_num),
      o (n := 1) (by push_cast; linarith) (by norm_num)]
    push_cast
    rw [tent_zero (Or.inr (by linarith)), tent_one (by linarith) (by linarith), tent_up (by linarith) (by linarith)]
    exact ⟨a5, h6, rfl, rfl, by ring⟩

theorem wave_range {x : ℚ} (h0 : 0 ≤ x) (h6 : x < 6) :
    (0 ≤ wave 5 x ∧ wave 5 x ≤ 1) ∧ (0 ≤ wave 3 x ∧ wave 3 x ≤ 1) ∧ (0 ≤ wave 1 x ∧ wave 1 x ≤ 1) := by
  rcases wave_cases h0 h6 with h | h | h | h | h | h <;> obtain ⟨a, b, h1, h2, h3⟩ := h <;> rw [h1, h2, h3] <;>
    refine ⟨⟨?_, ?_⟩, ⟨?_, ?_⟩, ⟨?_, ?_⟩⟩ <;> linarith

/-- A small change of the hue changes each channel little. -/
theorem wave_lipschitz {x y : ℚ} (x0 : 0 ≤ x) (x6 : x < 6) (y0 : 0 ≤ y) (y6 : y < 6) :
    |wave 5 x - wave 5 y| ≤ |x - y| ∧ |wave 3 x - wave 3 y| ≤ |x - y| ∧ |wave 1 x - wave 1 y| ≤ |x - y| := by
  wlog h : y ≤ x generalizing x y
  · have := this y0 y6 x0 x6 (le_of_not_ge h)
    rwa [abs_sub_comm y x, abs_sub_comm (wave 5 y), abs_sub_comm (wave 3 y), abs_sub_comm (wave 1 y)] at this
  rw [abs_of_nonneg (sub_nonneg.2 h)]
  simp only [abs_le]
  rcases wave_cases x0 x6 with hx | hx | hx | hx | hx | hx <;> obtain ⟨a, b, h1, h2, h3⟩ := hx <;> rw [h1, h2, h3] <;>
    rcases wave_cases y0 y6 with hy | hy | hy | hy | hy | hy <;> obtain ⟨c, d, k1, k2, k3⟩ := hy <;> rw [k1, k2, k3] <;>
      refine ⟨⟨?_, ?_⟩, ⟨?_, ?_⟩, ⟨?_, ?_⟩⟩ <;> linarith

/-- If no channel differs by `e`, the hues differ by less than `2 * e`, one way or the other. -/
theorem wave_separates {x y e : ℚ} (x0 : 0 ≤ x) (x6 : x < 6) (y0 : 0 ≤ y) (y6 : y < 6) (he : e ≤ 1 / 2)
    (h5 : |wave 5 x - wave 5 y| < e) (h3 : |wave 3 x - wave 3 y| < e) (h1 : |wave 1 x - wave 1 y| < e) :
    |x - y| < 2 * e ∨ 6 - |x - y| < 2 * e := by
  wlog h : y ≤ x generalizing x y
  · have := this y0 y6 x0 x6 (by rwa [abs_sub_comm]) (by rwa [abs_sub_comm]) (by rwa [abs_sub_comm]) (le_of_not_ge h)
    rwa [abs_sub_comm y x] at this
  rw [abs_of_nonneg (sub_nonneg.2 h)]
  by_contra hc
  simp only [not_or, not_lt] at hc
  obtain ⟨g1, g2⟩ := hc
  rw [abs_lt] at h5 h3 h1
  rcases wave_cases x0 x6 with hx | hx | hx | hx | hx | hx <;> obtain ⟨a, b, p1, p2, p3⟩ := hx <;> rw [p1] at h5 <;> rw [p2] at h3 <;>
    rw [p3] at h1 <;>
    rcases wave_cases y0 y6 with hy | hy | hy | hy | hy | hy <;> obtain ⟨c, d, k1, k2, k3⟩ := hy <;> rw [k1] at h5 <;>
      rw [k2] at h3 <;> rw [k3] at h1 <;> linarith

/-! ### Conversion of a hue -/

/-- **C123.** With exact arithmetic the conversion gives the color of that hue, saturation and value. -/
theorem exact {h : ℚ} (h0 : 0 ≤ h) (h1 : h < 1) (s v : ℚ) (fused : Bool) : hsvToRgb (fun x => x) fused h s v = ideal (6 * h) s v := by
  have one : ∀ a b : ℚ, oneMinus (fun x => x) fused a b = 1 - a * b := by intro a b; unfold oneMinus; split <;> rfl
  unfold hsvToRgb
  rw [if_neg h1.ne]
  simp only [one]
  rcases wave_cases (x := 6 * h) (by linarith) (by linarith) with c | c | c | c | c | c <;> obtain ⟨a, b, e5, e3, e1⟩ := c <;>
    unfold ideal <;> rw [e5, e3, e1]
  · rw [show ⌊6 * h⌋ = 0 from Int.floor_eq_iff.2 ⟨by push_cast; linarith, by push_cast; linarith⟩]
    simp only [if_true, Color.mk.injEq]
    exact ⟨by ring, by push_cast; ring, by ring⟩
  · rw [show ⌊6 * h⌋ = 1 from Int.floor_eq_iff.2 ⟨by push_cast; linarith, by push_cast; linarith⟩]
    simp only [if_true, Color.mk.injEq, Int.reduceEq, if_false]
    exact ⟨by push_cast; ring, by ring, by ring⟩
  · rw [show ⌊6 * h⌋ = 2 from Int.floor_eq_iff.2 ⟨by push_cast; linarith, by push_cast; linarith⟩]
    simp only [if_true, Color.mk.injEq, Int.reduceEq, if_false]
    exact ⟨by ring, by ring, by push_cast; ring⟩
  · rw [show ⌊6 * h⌋ = 3 from Int.floor_eq_iff.2 ⟨by push_cast; linarith, by push_cast; linarith⟩]
    simp only [if_true, Color.mk.injEq, Int.reduceEq, if_false]
    exact ⟨by ring, by push_cast; ring, by ring⟩
  · rw [show ⌊6 * h⌋ = 4 from Int.floor_eq_iff.2 ⟨by push_cast; linarith, by push_cast; linarith⟩]
    simp only [if_true, Color.mk.injEq, Int.reduceEq, if_false]
    exact ⟨by push_cast; ring, by ring, by ring⟩
  · rw [show ⌊6 * h⌋ = 5 from Int.floor_eq_iff.2 ⟨by push_cast; linarith, by push_cast; linarith⟩]
    simp only [if_true, Color.mk.injEq, Int.reduceEq, if_false]
    exact ⟨by ring, by ring, by push_cast; ring⟩

/-- Numbers up to one are rounded by no more than this. -/
def unit : ℚ := 1 / 2 ^ 23

theorem err_one {x : ℚ} (h0 : 0 ≤ x) (h1 : x ≤ 1) : |single.rnd x - x| ≤ unit := by
  have := single_err x
  rw [abs_of_nonneg h0] at this
  unfold unit
  have : 1 / 2 ^ 24 * x + 1 / 2 ^ 150 ≤ 1 / 2 ^ 23 := by
    have : (1 : ℚ) / 2 ^ 24 * x ≤ 1 / 2 ^ 24 := by linarith
    have : (1 : ℚ) / 2 ^ 150 ≤ 1 / 2 ^ 24 := by norm_num
    have : (1 : ℚ) / 2 ^ 24 + 1 / 2 ^ 24 = 1 / 2 ^ 23 := by norm_num
    linarith
  linarith

theorem fl_zero : single.rnd 0 = 0 := by decide +kernel
theorem fl_one : single.rnd 1 = 1 := by decide +kernel

theorem fl_mono {x y : ℚ} (h : x ≤ y) : single.rnd x ≤ single.rnd y := rnd_mono (by decide) h

theorem fl_unit {x : ℚ} (h0 : 0 ≤ x) (h1 : x ≤ 1) : 0 ≤ single.rnd x ∧ single.rnd x ≤ 1 := by
  have a := fl_mono h0
  have b := fl_mono h1
  rw [fl_zero] at a
  rw [fl_one] at b
  exact ⟨a, b⟩

/-- The largest `float` below one. -/
theorem below_one {h : ℚ} (hr : single.Repr h) (h1 : h < 1) : h ≤ 1 - 1 / 2 ^ 24 := by
  rcases lt_or_ge h (1 / 2) with a | a
  · refine le_trans a.le ?_; norm_num
  · have hm := repr_multiple (f := single) (j := -24) (by decide) hr (by
      rw [show ((single.prec : Int) + -24 - 1) = -1 from by decide, abs_of_nonneg (by linarith)]
      rw [zpow_neg_one]; linarith)
    obtain ⟨n, hn⟩ := hm
    have e : (2 : ℚ) ^ (-24 : Int) = 1 / 2 ^ 24 := by norm_num [zpow_neg]
    rw [e] at hn
    have : (n : ℚ) < 2 ^ 24 := by
      have : (n : ℚ) * (1 / 2 ^ 24) < 1 := hn ▸ h1
      rw [mul_one_div, div_lt_iff₀ (by norm_num)] at this
      linarith
    have : n < 2 ^ 24 := by exact_mod_cast this
    have : n ≤ 2 ^ 24 - 1 := by omega
    have : (n : ℚ) ≤ 2 ^ 24 - 1 := by exact_mod_cast this
    rw [hn]
    have : (n : ℚ) * (1 / 2 ^ 24) ≤ (2 ^ 24 - 1) * (1 / 2 ^ 24) := mul_le_mul_of_nonneg_right this (by norm_num)
    refine le_trans this ?_
    norm_num

/-- Six times a hue is never rounded up to six. -/
theorem six {h : ℚ} (hr : single.Repr h) (h0 : 0 ≤ h) (h1 : h < 1) : 0 ≤ single.rnd (6 * h) ∧ single.rnd (6 * h) < 6 := by
  have a := fl_mono (show 0 ≤ 6 * h by linarith)
  rw [fl_zero] at a
  refine ⟨a, lt_of_le_of_lt (fl_mono (show 6 * h ≤ 6 * (1 - 1 / 2 ^ 24) by have := below_one hr h1; linarith)) ?_⟩
  decide +kernel

theorem six_near {h : ℚ} (h0 : 0 ≤ h) (h1 : h < 1) : |single.rnd (6 * h) - 6 * h| ≤ 4 * unit := by
  have := single_err (6 * h)
  rw [abs_of_nonneg (show 0 ≤ 6 * h by linarith)] at this
  unfold unit
  have : 1 / 2 ^ 24 * (6 * h) + 1 / 2 ^ 150 ≤ 4 * (1 / 2 ^ 23 : ℚ) := by
    have : (1 : ℚ) / 2 ^ 24 * (6 * h) ≤ 1 / 2 ^ 24 * 6 := mul_le_mul_of_nonneg_left (by linarith) (by norm_num)
    have : (1 : ℚ) / 2 ^ 24 * 6 + 1 / 2 ^ 150 ≤ 4 * (1 / 2 ^ 23) := by norm_num
    linarith
  linarith

/-- `1.f - a * b` for numbers between zero and one. -/
theorem oneMinus_spec {a b : ℚ} (fused : Bool) (a0 : 0 ≤ a) (a1 : a ≤ 1) (b0 : 0 ≤ b) (b1 : b ≤ 1) (hb : single.Repr b) :
    single.rnd (1 - b) ≤ oneMinus single.rnd fused a b ∧ oneMinus single.rnd fused a b ≤ 1 ∧
      |oneMinus single.rnd fused a b - (1 - a * b)| ≤ 2 * unit := by
  have m0 : 0 ≤ a * b := mul_nonneg a0 b0
  have m1 : a * b ≤ b := by nlinarith
  have u0 : 0 ≤ unit := by unfold unit; norm_num
  unfold oneMinus
  split
  · refine ⟨fl_mono (by linarith), (fl_unit (by linarith) (by linarith)).2, ?_⟩
    have := err_one (x := 1 - a * b) (by linarith) (by linarith)
    linarith
  · have f0 := fl_mono m0
    have f1 := fl_mono m1
    rw [fl_zero] at f0
    rw [rnd_single hb] at f1
    refine ⟨fl_mono (by linarith), (fl_unit (by linarith) (by linarith)).2, ?_⟩
    have e1 := err_one m0 (by linarith)
    have e2 := err_one (x := 1 - single.rnd (a * b)) (by linarith) (by linarith)
    rw [abs_le] at *
    constructor <;> linarith

/-- The parts of a color: saturation and value are numbers between zero and one. -/
structure Parts (s v : ℚ) : Prop where
  s0 : 0 ≤ s
  s1 : s ≤ 1
  sr : single.Repr s
  v0 : 0 ≤ v
  v1 : v ≤ 1
  vr : single.Repr v

/-- The least channel of every color (`p` in the code). -/
def least (s v : ℚ) : ℚ := single.rnd (v * single.rnd (1 - s))

theorem channel_spec {s v a : ℚ} (hp : Parts s v) (fused : Bool) (a0 : 0 ≤ a) (a1 : a ≤ 1) :
    least s v ≤ single.rnd (v * oneMinus single.rnd fused a s) ∧ single.rnd (v * oneMinus single.rnd fused a s) ≤ v ∧
      |single.rnd (v * oneMinus single.rnd fused a s) - (v - v * s * a)| ≤ 3 * unit := by
  obtain ⟨l, u, e⟩ := oneMinus_spec (b := s) fused a0 a1 hp.s0 hp.s1 hp.sr
  have v0 := hp.v0
  have v1 := hp.v1
  have l0 := (fl_unit (x := 1 - s) (by linarith [hp.s1]) (by linarith [hp.s0])).1
  have o0 := le_trans l0 l
  refine ⟨fl_mono (mul_le_mul_of_nonneg_left l v0), ?_, ?_⟩
  · have := fl_mono (show v * oneMinus single.rnd fused a s ≤ v by nlinarith)
    rwa [rnd_single hp.vr] at this
  · have e2 := err_one (x := v * oneMinus single.rnd fused a s) (mul_nonneg v0 o0) (by nlinarith)
    have e3 : |v * oneMinus single.rnd fused a s - (v - v * s * a)| ≤ 2 * unit := by
      rw [show v * oneMinus single.rnd fused a s - (v - v * s * a) = v * (oneMinus single.rnd fused a s - (1 - a * s)) by ring, abs_mul,
        abs_of_nonneg v0]
      have := abs_nonneg (oneMinus single.rnd fused a s - (1 - a * s))
      nlinarith
    rw [abs_le] at *
    constructor <;> linarith

theorem least_spec {s v : ℚ} (hp : Parts s v) : 0 ≤ least s v ∧ least s v ≤ v ∧ |least s v - (v - v * s)| ≤ 2 * unit := by
  have v0 := hp.v0
  have v1 := hp.v1
  have s0 := hp.s0
  have s1 := hp.s1
  obtain ⟨a, b⟩ := fl_unit (x := 1 - s) (by linarith) (by linarith)
  refine ⟨(fl_unit (mul_nonneg v0 a) (by nlinarith)).1, ?_, ?_⟩
  · have := fl_mono (show v * single.rnd (1 - s) ≤ v by nlinarith)
    rwa [rnd_single hp.vr] at this
  · have e1 := err_one (x := 1 - s) (by linarith) (by linarith)
    have e2 := err_one (x := v * single.rnd (1 - s)) (mul_nonneg v0 a) (by nlinarith)
    have e3 : |v * single.rnd (1 - s) - (v - v * s)| ≤ unit := by
      rw [show v * single.rnd (1 - s) - (v - v * s) = v * (single.rnd (1 - s) - (1 - s)) by ring, abs_mul, abs_of_nonneg v0]
      have := abs_nonneg (single.rnd (1 - s) - (1 - s))
      nlinarith
    unfold least
    rw [abs_le] at *
    constructor <;> linarith

/-- A color of full saturation and value: the brightest channel is the value, the darkest the least one. -/
def Full (s v : ℚ) (c : Color) : Prop :=
  max c.r (max c.g c.b) = v ∧ min c.r (min c.g c.b) = least s v

theorem hsv_both {h s v : ℚ} (hp : Parts s v) (hr : single.Repr h) (h0 : 0 ≤ h) (h1 : h < 1) (fused : Bool) :
    Full s v (hsvToRgb single.rnd fused h s v) ∧ Near (5 * unit) (hsvToRgb single.rnd fused h s v) (ideal (single.rnd (6 * h)) s v) := by
  obtain ⟨g0, g6⟩ := six hr h0 h1
  have u0 : 0 ≤ unit := by unfold unit; norm_num
  have vs : 0 ≤ v * s ∧ v * s ≤ 1 := ⟨mul_nonneg hp.v0 hp.s0, by nlinarith [hp.v0, hp.v1, hp.s0, hp.s1]⟩
  unfold hsvToRgb
  rw [if_neg h1.ne]
  generalize single.rnd (6 * h) = x at *
  obtain ⟨l0, lv, le⟩ := least_spec hp
  have key : ∀ i : Int, (i : ℚ) ≤ x → x < i + 1 →
      (least s v ≤ single.rnd (v * oneMinus single.rnd fused (single.rnd (x - i)) s) ∧
        single.rnd (v * oneMinus single.rnd fused (single.rnd (x - i)) s) ≤ v ∧
        |single.rnd (v * oneMinus single.rnd fused (single.rnd (x - i)) s) - (v - v * s * (x - i))| ≤ 5 * unit) ∧
      (least s v ≤ single.rnd (v * oneMinus single.rnd fused (single.rnd (1 - single.rnd (x - i))) s) ∧
        single.rnd (v * oneMinus single.rnd fused (single.rnd (1 - single.rnd (x - i))) s) ≤ v ∧
        |single.rnd (v * oneMinus single.rnd fused (single.rnd (1 - single.rnd (x - i))) s) - (v - v * s * (1 - (x - i)))| ≤ 5 * unit) := by
    intro i i1 i2
    obtain ⟨f0, f1⟩ := fl_unit (x := x - i) (by linarith) (by linarith)
    obtain ⟨k0, k1⟩ := fl_unit (x := 1 - single.rnd (x - i)) (by linarith) (by linarith)
    have e1 := err_one (x := x - i) (by linarith) (by linarith)
    have e2 := err_one (x := 1 - single.rnd (x - i)) (by linarith) (by linarith)
    obtain ⟨a1, a2, a3⟩ := channel_spec hp fused f0 f1
    obtain ⟨b1, b2, b3⟩ := channel_spec hp fused k0 k1
    refine ⟨⟨a1, a2, ?_⟩, ⟨b1, b2, ?_⟩⟩
    · have : |v * s * single.rnd (x - i) - v * s * (x - i)| ≤ unit := by
        rw [← mul_sub, abs_mul, abs_of_nonneg vs.1]
        have := abs_nonneg (single.rnd (x - i) - (x - i))
        nlinarith
      rw [abs_le] at *
      constructor <;> linarith
    · have : |v * s * single.rnd (1 - single.rnd (x - i)) - v * s * (1 - (x - i))| ≤ 2 * unit := by
        rw [← mul_sub, abs_mul, abs_of_nonneg vs.1]
        have e3 : |single.rnd (1 - single.rnd (x - i)) - (1 - (x - i))| ≤ 2 * unit := by
          rw [abs_le] at *
          constructor <;> linarith
        have := abs_nonneg (single.rnd (1 - single.rnd (x - i)) - (1 - (x - i)))
        nlinarith
      rw [abs_le] at *
      constructor <;> linarith
  dsimp only
  rw [show single.rnd (v * single.rnd (1 - s)) = least s v from rfl]
  have le' : |least s v - (v - v * s * 1)| ≤ 5 * unit := by rw [mul_one]; linarith
  have lv' : |v - (v - v * s * 0)| ≤ 5 * unit := by rw [mul_zero, sub_zero, sub_self, abs_zero]; linarith
  have full : ∀ {t : ℚ}, least s v ≤ t → t ≤ v →
      Full s v ⟨v, t, least s v⟩ ∧ Full s v ⟨t, v, least s v⟩ ∧ Full s v ⟨least s v, v, t⟩ ∧ Full s v ⟨least s v, t, v⟩ ∧
        Full s v ⟨t, least s v, v⟩ ∧ Full s v ⟨v, least s v, t⟩ := by
    intro t t1 t2
    simp only [Full]
    refine ⟨⟨?_, ?_⟩, ⟨?_, ?_⟩, ⟨?_, ?_⟩, ⟨?_, ?_⟩, ⟨?_, ?_⟩, ⟨?_, ?_⟩⟩ <;> simp [t1, t2, lv]
  rcases wave_cases g0 g6 with c | c | c | c | c | c <;> obtain ⟨a, b, e5, e3, e1⟩ := c <;>
    unfold ideal <;> rw [e5, e3, e1]
  · rw [show ⌊x⌋ = 0 from Int.floor_eq_iff.2 ⟨by push_cast; linarith, by push_cast; linarith⟩]
    simp only [if_true]
    obtain ⟨-, k1, k2, k3⟩ := key 0 (by push_cast; linarith) (by push_cast; linarith)
    refine ⟨(full k1 k2).1, lv', ?_, le'⟩
    push_cast at k3 ⊢
    rwa [show 1 - (x - 0) = 1 - x by ring] at k3
  · rw [show ⌊x⌋ = 1 from Int.floor_eq_iff.2 ⟨by push_cast; linarith, by push_cast; linarith⟩]
    simp only [if_true, Int.reduceEq, if_false]
    obtain ⟨⟨k1, k2, k3⟩, -⟩ := key 1 (by push_cast; linarith) (by push_cast; linarith)
    exact ⟨(full k1 k2).2.1, by push_cast at k3 ⊢; exact k3, lv', le'⟩
  · rw [show ⌊x⌋ = 2 from Int.floor_eq_iff.2 ⟨by push_cast; linarith, by push_cast; linarith⟩]
    simp only [if_true, Int.reduceEq, if_false]
    obtain ⟨-, k1, k2, k3⟩ := key 2 (by push_cast; linarith) (by push_cast; linarith)
    refine ⟨(full k1 k2).2.2.1, le', lv', ?_⟩
    push_cast at k3 ⊢
    rwa [show 1 - (x - 2) = 3 - x by ring] at k3
  · rw [show ⌊x⌋ = 3 from Int.floor_eq_iff.2 ⟨by push_cast; linarith, by push_cast; linarith⟩]
    simp only [if_true, Int.reduceEq, if_false]
    obtain ⟨⟨k1, k2, k3⟩, -⟩ := key 3 (by push_cast; linarith) (by push_cast; linarith)
    exact ⟨(full k1 k2).2.2.2.1, le', by push_cast at k3 ⊢; exact k3, lv'⟩
  · rw [show ⌊x⌋ = 4 from Int.floor_eq_iff.2 ⟨by push_cast; linarith, by push_cast; linarith⟩]
    simp only [if_true, Int.reduceEq, if_false]
    obtain ⟨-, k1, k2, k3⟩ := key 4 (by push_cast; linarith) (by push_cast; linarith)
    refine ⟨(full k1 k2).2.2.2.2.1, ?_, le', lv'⟩
    push_cast at k3 ⊢
    rwa [show 1 - (x - 4) = 5 - x by ring] at k3
  · rw [show ⌊x⌋ = 5 from Int.floor_eq_iff.2 ⟨by push_cast; linarith, by push_cast; linarith⟩]
    simp only [if_true, Int.reduceEq, if_false]
    obtain ⟨⟨k1, k2, k3⟩, -⟩ := key 5 (by push_cast; linarith) (by push_cast; linarith)
    exact ⟨(full k1 k2).2.2.2.2.2, lv', le', by push_cast at k3 ⊢; exact k3⟩

/-- **C123.** With `float`s the conversion gives a color of exactly the wanted value whose channels are within 2^-19 of those of the
color of that hue. In particular it never reaches the case that returns black. -/
theorem converted {h s v : ℚ} (hp : Parts s v) (hr : single.Repr h) (h0 : 0 ≤ h) (h1 : h < 1) (fused : Bool) :
    Full s v (hsvToRgb single.rnd fused h s v) ∧ Near (1 / 2 ^ 19) (hsvToRgb single.rnd fused h s v) (ideal (6 * h) s v) := by
  obtain ⟨hf, n1, n2, n3⟩ := hsv_both hp hr h0 h1 fused
  refine ⟨hf, ?_⟩
  obtain ⟨g0, g6⟩ := six hr h0 h1
  obtain ⟨w5, w3, w1⟩ := wave_lipschitz g0 g6 (show 0 ≤ 6 * h by linarith) (by linarith)
  have hn := six_near h0 h1
  have vs : 0 ≤ v * s ∧ v * s ≤ 1 := ⟨mul_nonneg hp.v0 hp.s0, by nlinarith [hp.v0, hp.v1, hp.s0, hp.s1]⟩
  have step : ∀ {c a b : ℚ}, |c - (v - v * s * a)| ≤ 5 * unit → |a - b| ≤ |single.rnd (6 * h) - 6 * h| → |c - (v - v * s * b)| ≤ 1 / 2 ^ 19 := by
    intro c a b k1 k2
    have k3 : |v * s * a - v * s * b| ≤ 4 * unit := by
      rw [← mul_sub, abs_mul, abs_of_nonneg vs.1]
      have := abs_nonneg (a - b)
      nlinarith
    have : 9 * unit ≤ 1 / 2 ^ 19 := by unfold unit; norm_num
    rw [abs_le] at k1 k3 ⊢
    constructor <;> linarith
  exact ⟨step n1 w5, step n2 w3, step n3 w1⟩

/-! ### The palette -/

theorem parts : Parts (saturation single.rnd) (value single.rnd) := by
  have a := fl_unit (x := 85 / 100) (by norm_num) (by norm_num)
  have b := fl_unit (x := 77 / 100) (by norm_num) (by norm_num)
  exact ⟨a.1, a.2, repr_rnd _, b.1, b.2, repr_rnd _⟩

/-- The exact position of the hue of an identifier, without taking the fraction. -/
def turn (id : Int) : ℚ := 69 / 100 + 6180339887498949 / 10 ^ 16 * id

/-- The sum before the fraction is taken. -/
def rawHue (fused : Bool) (id : Int) : ℚ :=
  mulAdd single.rnd fused (golden single.rnd) (single.rnd id) (initialHue single.rnd)

theorem hue_eq (fused : Bool) (id : Int) : hue single.rnd fused id = rawHue fused id - ⌊rawHue fused id⌋ := rfl

theorem raw_repr (fused : Bool) (id : Int) : single.Repr (rawHue fused id) := by
  unfold rawHue mulAdd
  split <;> exact repr_rnd _

theorem raw_nonneg (fused : Bool) {id : Int} (h : 0 ≤ id) : 0 ≤ rawHue fused id := by
  have hi : (0 : ℚ) ≤ id := by exact_mod_cast h
  have a : 0 ≤ single.rnd (id : ℚ) := by have := fl_mono hi; rwa [fl_zero] at this
  have g : 0 ≤ golden single.rnd := (fl_unit (by norm_num) (by norm_num)).1
  have i : 0 ≤ initialHue single.rnd := (fl_unit (by norm_num) (by norm_num)).1
  have m := mul_nonneg g a
  unfold rawHue mulAdd
  split
  · have := fl_mono (show 0 ≤ golden single.rnd * single.rnd (id : ℚ) + initialHue single.rnd by linarith)
    rwa [fl_zero] at this
  · have m' := fl_mono m
    rw [fl_zero] at m'
    have := fl_mono (show 0 ≤ single.rnd (golden single.rnd * single.rnd (id : ℚ)) + initialHue single.rnd by linarith)
    rwa [fl_zero] at this

theorem hue_range (fused : Bool) (id : Int) : 0 ≤ hue single.rnd fused id ∧ hue single.rnd fused id < 1 := by
  rw [hue_eq]
  have a := Int.floor_le (rawHue fused id)
  have b := Int.lt_floor_add_one (rawHue fused id)
  constructor <;> linarith

/-- The fraction of a number of the format is one, too. -/
theorem fract_repr {x : ℚ} (hx : single.Repr x) (h0 : 0 ≤ x) : single.Repr (x - ⌊x⌋) := by
  have f0 : 0 ≤ ⌊x⌋ := Int.floor_nonneg.2 h0
  obtain ⟨m, e, h1, h2, rfl⟩ := hx
  have hp : (0 : ℚ) < 2 ^ e := zpow_pos (by norm_num) _
  have m0 : 0 ≤ m := by
    by_contra hc
    have : (m : ℚ) < 0 := by exact_mod_cast not_le.1 hc
    nlinarith
  rcases le_or_gt 0 e with he | he
  · obtain ⟨k, rfl⟩ := Int.eq_ofNat_of_zero_le he
    have : ((m : ℚ) * 2 ^ ((k : Nat) : Int)) = ((m * 2 ^ k : Int) : ℚ) := by push_cast; rw [zpow_natCast]
    rw [this, Int.floor_intCast, sub_self]
    exact ⟨0, 0, by decide, by decide, by simp⟩
  · obtain ⟨k, hk⟩ := Int.eq_ofNat_of_zero_le (show 0 ≤ -e by omega)
    have hpow : (1 : ℚ) = ((2 ^ k : Int) : ℚ) * 2 ^ e := by
      rw [show e = -((k : Nat) : Int) by omega, zpow_neg, zpow_natCast]
      push_cast
      rw [mul_inv_cancel₀ (by positivity)]
    refine ⟨m - ⌊(m : ℚ) * 2 ^ e⌋ * 2 ^ k, e, ?_, h2, ?_⟩
    · have l : 0 ≤ m - ⌊(m : ℚ) * 2 ^ e⌋ * 2 ^ k := by
        have := Int.floor_le ((m : ℚ) * 2 ^ e)
        have : (⌊(m : ℚ) * 2 ^ e⌋ : ℚ) * (((2 ^ k : Int) : ℚ) * 2 ^ e) ≤ m * 2 ^ e := by rw [← hpow, mul_one]; exact this
        rw [← mul_assoc] at this
        have := le_of_mul_le_mul_right this hp
        have : ⌊(m : ℚ) * 2 ^ e⌋ * 2 ^ k ≤ m := by exact_mod_cast this
        omega
      have u : m - ⌊(m : ℚ) * 2 ^ e⌋ * 2 ^ k ≤ m := by
        have : (0 : Int) ≤ ⌊(m : ℚ) * 2 ^ e⌋ * 2 ^ k := mul_nonneg f0 (by positivity)
        omega
      rw [abs_of_nonneg l]
      rw [abs_of_nonneg m0] at h1
      exact le_trans u h1
    · push_cast
      rw [sub_mul]
      congr 1
      calc (⌊(m : ℚ) * 2 ^ e⌋ : ℚ) = ⌊(m : ℚ) * 2 ^ e⌋ * (((2 ^ k : Int) : ℚ) * 2 ^ e) := by rw [← hpow, mul_one]
        _ = _ := by push_cast; ring

/-- **C123.** Every identifier that is not negative has a color, of full saturation and value and with the channels of the color of
its hue; a negative one aborts. -/
theorem palette (fused : Bool) (id : Int) :
    (id < 0 → getColor single.rnd fused id = none) ∧
    (0 ≤ id → ∃ c, getColor single.rnd fused id = some c ∧ Full (saturation single.rnd) (value single.rnd) c ∧
      Near (1 / 2 ^ 19) c (ideal (6 * hue single.rnd fused id) (saturation single.rnd) (value single.rnd))) := by
  constructor
  · intro h; unfold getColor; rw [if_neg (by omega)]
  · intro h
    unfold getColor
    rw [if_pos h]
    obtain ⟨h0, h1⟩ := hue_range fused id
    exact ⟨_, rfl, converted parts (hue_eq fused id ▸ fract_repr (raw_repr fused id) (raw_nonneg fused h)) h0 h1 fused⟩

/-- The errors added up: `g` and `k` are the rounded constants, `w` the product and `r` the sum. -/
theorem raw_aux {i g k w r u η : ℚ} (i0 : 0 ≤ i) (g0 : 0 ≤ g) (g1 : g ≤ 6181 / 10000) (k1 : k ≤ 691 / 1000)
    (eg : |g - 6180339887498949 / 10 ^ 16| ≤ u * (6180339887498949 / 10 ^ 16) + η) (ek : |k - 69 / 100| ≤ u * (69 / 100) + η)
    (ew : |w - g * i| ≤ u * (g * i) + η) (er : |r - (w + k)| ≤ u * (w + k) + η)
    (u0 : 0 ≤ u) (us : u ≤ 1 / 1000) (hη : η ≤ u / 1000) :
    |r - (69 / 100 + 6180339887498949 / 10 ^ 16 * i)| ≤ 2 * u * (i + 1) := by
  have m0 : 0 ≤ g * i := mul_nonneg g0 i0
  have m1 : g * i ≤ 6181 / 10000 * i := mul_le_mul_of_nonneg_right g1 i0
  have eg' : |g * i - 6180339887498949 / 10 ^ 16 * i| ≤ (u * (6180339887498949 / 10 ^ 16) + η) * i := by
    rw [← sub_mul, abs_mul, abs_of_nonneg i0]
    exact mul_le_mul_of_nonneg_right eg i0
  have ηi : η * i ≤ u / 1000 * i := mul_le_mul_of_nonneg_right hη i0
  have ui : 0 ≤ u * i := mul_nonneg u0 i0
  have b1 : u * (g * i) ≤ u * (6181 / 10000 * i) := mul_le_mul_of_nonneg_left m1 u0
  have w1 : w ≤ 6191 / 10000 * i + 1 / 1000 := by
    have := (abs_le.1 ew).2
    have : u * (g * i) ≤ 1 / 1000 * (6181 / 10000 * i) := mul_le_mul us m1 m0 (by norm_num)
    linarith
  have b2 : u * (w + k) ≤ u * (6191 / 10000 * i + 692 / 1000) := mul_le_mul_of_nonneg_left (by linarith) u0
  rw [abs_le] at *
  constructor <;> linarith

/-- How far the hue is from its exact position. -/
theorem raw_near (fused : Bool) {id : Int} (h0 : 0 ≤ id) (h1 : id ≤ 2 ^ 24) : |rawHue fused id - turn id| ≤ 1 / 2 ^ 23 * (id + 1) := by
  have hid : single.rnd (id : ℚ) = id := FloatCells.single_int isInt_roundEven (by rw [abs_of_nonneg h0]; exact h1)
  have i0 : (0 : ℚ) ≤ id := by exact_mod_cast h0
  have eg := single_err (6180339887498949 / 10 ^ 16)
  have ei := single_err (69 / 100)
  rw [abs_of_nonneg (a := (6180339887498949 / 10 ^ 16 : ℚ)) (by norm_num)] at eg
  rw [abs_of_nonneg (a := (69 / 100 : ℚ)) (by norm_num)] at ei
  have g0 : 0 ≤ golden single.rnd := (fl_unit (by norm_num) (by norm_num)).1
  have i0' : 0 ≤ initialHue single.rnd := (fl_unit (by norm_num) (by norm_num)).1
  have g1 : golden single.rnd ≤ 6181 / 10000 := by
    refine le_trans (fl_mono (show (6180339887498949 / 10 ^ 16 : ℚ) ≤ 5184800 / 2 ^ 23 by norm_num)) ?_
    rw [rnd_single ⟨5184800, -23, by decide, by decide, by norm_num [zpow_neg]⟩]
    norm_num
  have i1 : initialHue single.rnd ≤ 691 / 1000 := by
    refine le_trans (fl_mono (show (69 / 100 : ℚ) ≤ 5790000 / 2 ^ 23 by norm_num)) ?_
    rw [rnd_single ⟨5790000, -23, by decide, by decide, by norm_num [zpow_neg]⟩]
    norm_num
  unfold rawHue mulAdd turn
  rw [hid]
  rw [show (1 : ℚ) / 2 ^ 23 * (id + 1) = 2 * (1 / 2 ^ 24) * (id + 1) by norm_num]
  have m0 := mul_nonneg g0 i0
  have hη : (1 : ℚ) / 2 ^ 150 ≤ 1 / 2 ^ 24 / 1000 := by norm_num
  split
  · have e := single_err (golden single.rnd * id + initialHue single.rnd)
    rw [abs_of_nonneg (a := golden single.rnd * id + initialHue single.rnd) (by linarith)] at e
    refine raw_aux i0 g0 g1 i1 eg ei (w := golden single.rnd * id) ?_ e (by norm_num) (by norm_num) hη
    rw [sub_self, abs_zero]
    exact add_nonneg (mul_nonneg (by norm_num) m0) (by norm_num)
  · have e1 := single_err (golden single.rnd * id)
    rw [abs_of_nonneg m0] at e1
    have f0 : 0 ≤ single.rnd (golden single.rnd * id) := by have := fl_mono m0; rwa [fl_zero] at this
    have e2 := single_err (single.rnd (golden single.rnd * id) + initialHue single.rnd)
    rw [abs_of_nonneg (a := single.rnd (golden single.rnd * id) + initialHue single.rnd) (by linarith)] at e2
    exact raw_aux i0 g0 g1 i1 eg ei e1 e2 (by norm_num) (by norm_num) hη

/-- The hue is near its exact position, up to whole turns. -/
theorem hue_near (fused : Bool) {id : Int} (h0 : 0 ≤ id) (h1 : id ≤ 2 ^ 24) :
    ∃ n : Int, |hue single.rnd fused id - (turn id - n)| ≤ 1 / 2 ^ 23 * (id + 1) := by
  refine ⟨⌊rawHue fused id⌋, ?_⟩
  have := raw_near fused h0 h1
  rw [hue_eq, show rawHue fused id - ⌊rawHue fused id⌋ - (turn id - ⌊rawHue fused id⌋) = rawHue fused id - turn id by ring]
  exact this

/-- **C123.** The hues of successive identifiers below 8192 are apart by more than 0.38 of a turn in both directions. -/
theorem contrast (fused : Bool) {id : Int} (h0 : 0 ≤ id) (h1 : id < 8192) :
    38 / 100 < |hue single.rnd fused (id + 1) - hue single.rnd fused id| ∧
      |hue single.rnd fused (id + 1) - hue single.rnd fused id| < 62 / 100 := by
  obtain ⟨n, hn⟩ := hue_near fused h0 (by omega)
  obtain ⟨m, hm⟩ := hue_near fused (id := id + 1) (by omega) (by omega)
  obtain ⟨a0, a1⟩ := hue_range fused id
  obtain ⟨b0, b1⟩ := hue_range fused (id + 1)
  generalize hue single.rnd fused id = a at *
  generalize hue single.rnd fused (id + 1) = b at *
  have hid : (id : ℚ) ≤ 8191 := by exact_mod_cast (show id ≤ 8191 by omega)
  have bn : (1 : ℚ) / 2 ^ 23 * (id + 1) ≤ 1 / 2 ^ 23 * 8192 := by apply mul_le_mul_of_nonneg_left <;> [linarith; norm_num]
  have bm : (1 : ℚ) / 2 ^ 23 * ((id + 1 : Int) + 1) ≤ 1 / 2 ^ 23 * 8193 := by
    apply mul_le_mul_of_nonneg_left
    · push_cast; linarith
    · norm_num
  have c1 : (1 : ℚ) / 2 ^ 23 * 8192 = 1 / 1024 := by norm_num
  have c2 : (1 : ℚ) / 2 ^ 23 * 8193 ≤ 9768 / 10 ^ 7 := by norm_num
  unfold turn at hn hm
  push_cast at hm
  have hn' := abs_le.1 (le_trans hn bn)
  have hm' := abs_le.1 (le_trans hm (by push_cast at bm; exact bm))
  -- the difference of the whole turns is zero or one
  have d0 : (-1 : ℚ) < m - n := by linarith
  have d1 : (m : ℚ) - n < 2 := by linarith
  have e0 : -1 < m - n := by exact_mod_cast d0
  have e1 : m - n < 2 := by exact_mod_cast d1
  rcases (show m = n ∨ m = n + 1 by omega) with rfl | rfl
  · rw [abs_of_nonneg (by linarith)]
    constructor <;> linarith
  · push_cast at hm'
    rw [abs_of_neg (by linarith)]
    constructor <;> linarith

/-- Multiples of the ratio stay away from whole turns. -/
theorem far_1000 : ∀ k < 1000, 0 < k → 45 * 10 ^ 11 ≤ k * 6180339887498949 % 10 ^ 16 ∧
    k * 6180339887498949 % 10 ^ 16 ≤ 10 ^ 16 - 45 * 10 ^ 11 := by decide +kernel

theorem far_233 : ∀ k < 233, 0 < k → 31 * 10 ^ 12 ≤ k * 6180339887498949 % 10 ^ 16 ∧
    k * 6180339887498949 % 10 ^ 16 ≤ 10 ^ 16 - 31 * 10 ^ 12 := by decide +kernel

/-- Two numbers in `[0, 1)` whose difference is `w + ρ` up to `2 * t`. -/
theorem apart_aux {a b ρ δ t : ℚ} {w : Int} (hw : |b - a - ((w : ℚ) + ρ)| ≤ 2 * t) (a0 : 0 ≤ a) (a1 : a < 1) (b0 : 0 ≤ b) (b1 : b < 1)
    (l : δ ≤ ρ) (r : ρ + δ ≤ 1) : δ - 2 * t ≤ |b - a| ∧ |b - a| ≤ 1 - (δ - 2 * t) := by
  rw [abs_le] at hw
  rcases le_or_gt 1 w with h | h
  · have w1 : (1 : ℚ) ≤ w := by exact_mod_cast h
    refine ⟨le_trans ?_ (le_abs_self _), ?_⟩
    · linarith
    · rw [abs_le]; constructor <;> linarith
  rcases le_or_gt w (-2) with h' | h'
  · have w1 : (w : ℚ) ≤ -2 := by exact_mod_cast h'
    refine ⟨le_trans ?_ (neg_le_abs _), ?_⟩
    · linarith
    · rw [abs_le]; constructor <;> linarith
  rcases (show w = 0 ∨ w = -1 by omega) with rfl | rfl
  · push_cast at hw
    refine ⟨le_trans ?_ (le_abs_self _), ?_⟩
    · linarith
    · rw [abs_le]; constructor <;> linarith
  · push_cast at hw
    refine ⟨le_trans ?_ (neg_le_abs _), ?_⟩
    · linarith
    · rw [abs_le]; constructor <;> linarith

/-- Hues of identifiers that differ by `k` are apart if `k` times the ratio is away from whole turns. -/
theorem apart (fused : Bool) {i j : Int} {N d : Nat} (hN : N ≤ 2 ^ 24)
    (hd : ∀ k < N, 0 < k → d ≤ k * 6180339887498949 % 10 ^ 16 ∧ k * 6180339887498949 % 10 ^ 16 ≤ 10 ^ 16 - d)
    (h0 : 0 ≤ i) (hij : i < j) (hj : j < N) :
    (d : ℚ) / 10 ^ 16 - 2 * (1 / 2 ^ 23 * N) ≤ |hue single.rnd fused j - hue single.rnd fused i| ∧
      |hue single.rnd fused j - hue single.rnd fused i| ≤ 1 - ((d : ℚ) / 10 ^ 16 - 2 * (1 / 2 ^ 23 * N)) := by
  obtain ⟨n, hn⟩ := hue_near fused h0 (by omega)
  obtain ⟨m, hm⟩ := hue_near fused (id := j) (by omega) (by omega)
  obtain ⟨a0, a1⟩ := hue_range fused i
  obtain ⟨b0, b1⟩ := hue_range fused j
  have up : (0 : ℚ) ≤ 1 / 2 ^ 23 := by norm_num
  have hi' : (i : ℚ) + 1 ≤ N := by exact_mod_cast (show i + 1 ≤ N by omega)
  have hj' : (j : ℚ) + 1 ≤ N := by exact_mod_cast (show j + 1 ≤ N by omega)
  have hn' := abs_le.1 (le_trans hn (mul_le_mul_of_nonneg_left hi' up))
  have hm' := abs_le.1 (le_trans hm (mul_le_mul_of_nonneg_left hj' up))
  unfold turn at hn' hm'
  obtain ⟨k, hk⟩ := Int.eq_ofNat_of_zero_le (show 0 ≤ j - i by omega)
  obtain ⟨l, r⟩ := hd k (by omega) (by omega)
  have hdm := Nat.div_add_mod (k * 6180339887498949) (10 ^ 16)
  have r3 : k * 6180339887498949 % 10 ^ 16 + d ≤ 10 ^ 16 := by omega
  obtain ⟨rem, hrem⟩ : ∃ rem, rem = k * 6180339887498949 % 10 ^ 16 := ⟨_, rfl⟩
  obtain ⟨q, hq⟩ : ∃ q, q = k * 6180339887498949 / 10 ^ 16 := ⟨_, rfl⟩
  rw [← hrem] at l r3 hdm
  rw [← hq] at hdm
  have hk' : (j : ℚ) - i = k := by exact_mod_cast hk
  have hdm' : (10 : ℚ) ^ 16 * q + rem = k * 6180339887498949 := by exact_mod_cast hdm
  have l' : (d : ℚ) ≤ rem := by exact_mod_cast l
  have r' : (rem : ℚ) + d ≤ 10 ^ 16 := by exact_mod_cast r3
  have key : (6180339887498949 : ℚ) / 10 ^ 16 * j - 6180339887498949 / 10 ^ 16 * i = q + rem / 10 ^ 16 := by
    rw [← mul_sub, hk', div_mul_eq_mul_div, mul_comm, ← hdm', add_div, mul_div_cancel_left₀ _ (by norm_num)]
  refine apart_aux (ρ := (rem : ℚ) / 10 ^ 16) (w := q - m + n) ?_ a0 a1 b0 b1 (div_le_div_of_nonneg_right l' (by norm_num)) ?_
  · push_cast
    rw [abs_le]
    constructor <;> linarith
  · rw [← add_div, div_le_one (by norm_num)]; exact r'

/-- Colors of nearly the same channels have nearly the same hue. -/
theorem hues_of_colors {fused : Bool} {i j : Int} {c d : Color} {e : ℚ} (hc : getColor single.rnd fused i = some c)
    (hd : getColor single.rnd fused j = some d) (he : e ≤ 1 / 2) (e0 : 0 ≤ e) (hr : |c.r - d.r| + 2 * (1 / 2 ^ 19) < 65 / 100 * e)
    (hg : |c.g - d.g| + 2 * (1 / 2 ^ 19) < 65 / 100 * e) (hb : |c.b - d.b| + 2 * (1 / 2 ^ 19) < 65 / 100 * e) :
    |hue single.rnd fused j - hue single.rnd fused i| < e / 3 ∨ 1 - e / 3 < |hue single.rnd fused j - hue single.rnd fused i| := by
  have hi : 0 ≤ i := by
    by_contra h
    rw [(palette fused i).1 (by omega)] at hc
    exact absurd hc (by simp)
  have hj : 0 ≤ j := by
    by_contra h
    rw [(palette fused j).1 (by omega)] at hd
    exact absurd hd (by simp)
  obtain ⟨c', k1, -, n1, n2, n3⟩ := (palette fused i).2 hi
  obtain ⟨d', k2, -, m1, m2, m3⟩ := (palette fused j).2 hj
  obtain rfl : c = c' := by simpa [hc] using k1
  obtain rfl : d = d' := by simpa [hd] using k2
  obtain ⟨a0, a1⟩ := hue_range fused i
  obtain ⟨b0, b1⟩ := hue_range fused j
  have vl : 769 / 1000 ≤ value single.rnd := by
    have := fl_mono (show (6453000 / 2 ^ 23 : ℚ) ≤ 77 / 100 by norm_num)
    rw [rnd_single ⟨6453000, -23, by decide, by decide, by norm_num [zpow_neg]⟩] at this
    refine le_trans ?_ this
    norm_num
  have sl : 849 / 1000 ≤ saturation single.rnd := by
    have := fl_mono (show (7128000 / 2 ^ 23 : ℚ) ≤ 85 / 100 by norm_num)
    rw [rnd_single ⟨7128000, -23, by decide, by decide, by norm_num [zpow_neg]⟩] at this
    refine le_trans ?_ this
    norm_num
  have vs : 65 / 100 ≤ value single.rnd * saturation single.rnd :=
    le_trans (by norm_num) (mul_le_mul vl sl (by norm_num) (by linarith))
  have step : ∀ {x y p q : ℚ}, |x - (value single.rnd - value single.rnd * saturation single.rnd * p)| ≤ 1 / 2 ^ 19 →
      |y - (value single.rnd - value single.rnd * saturation single.rnd * q)| ≤ 1 / 2 ^ 19 → |x - y| + 2 * (1 / 2 ^ 19) < 65 / 100 * e →
      |q - p| < e := by
    intro x y p q g1 g2 g3
    have g4 : |value single.rnd * saturation single.rnd * (q - p)| < 65 / 100 * e := by
      have e1 := abs_le.1 g1
      have e2 := abs_le.1 g2
      have e3 := abs_le.1 (le_refl |x - y|)
      rw [abs_lt]
      constructor <;> linarith
    rw [abs_mul, abs_of_nonneg (by linarith)] at g4
    by_contra hcon
    rw [not_lt] at hcon
    have := mul_le_mul vs hcon e0 (by linarith)
    linarith
  have w := wave_separates (x := 6 * hue single.rnd fused j) (y := 6 * hue single.rnd fused i) (by linarith) (by linarith) (by linarith)
    (by linarith) he (step n1 m1 hr) (step n2 m2 hg) (step n3 m3 hb)
  rw [← mul_sub, abs_mul, abs_of_nonneg (show (0 : ℚ) ≤ 6 by norm_num)] at w
  rcases w with w | w
  · left; linarith
  · right; linarith

/-- **C123.** The first thousand colors are pairwise different. -/
theorem distinct (fused : Bool) {i j : Int} (h0 : 0 ≤ i) (hij : i < j) (hj : j < 1000) :
    getColor single.rnd fused i ≠ getColor single.rnd fused j := by
  intro h
  obtain ⟨c, hc, -⟩ := (palette fused i).2 h0
  obtain ⟨l, u⟩ := apart fused (N := 1000) (by norm_num) far_1000 h0 hij hj
  have z : ∀ x : ℚ, |x - x| + 2 * (1 / 2 ^ 19) < 65 / 100 * (1 / 10000 : ℚ) := by intro x; rw [sub_self, abs_zero]; norm_num
  have := hues_of_colors hc (h ▸ hc) (e := 1 / 10000) (by norm_num) (by norm_num) (z _) (z _) (z _)
  have k : (1 : ℚ) / 10000 / 3 < (45 * 10 ^ 11 : Nat) / 10 ^ 16 - 2 * (1 / 2 ^ 23 * (1000 : Nat)) := by norm_num
  rcases this with w | w <;> linarith

/-! ### Bytes -/

theorem clamp_spec (x : ℚ) : 0 ≤ clamp x 0 1 ∧ clamp x 0 1 ≤ 1 ∧ (0 ≤ x → x ≤ 1 → clamp x 0 1 = x) := by
  unfold clamp
  split_ifs with h1 h2
  · exact ⟨by norm_num, le_refl _, fun _ h => absurd h (by linarith)⟩
  · exact ⟨le_refl _, by norm_num, fun h _ => absurd h (by linarith)⟩
  · exact ⟨by linarith, by linarith, fun _ _ => rfl⟩

theorem scaled_spec {x : ℚ} (h0 : 0 ≤ x) (h1 : x ≤ 1) :
    0 ≤ single.rnd (x * 255) ∧ single.rnd (x * 255) ≤ 255 ∧ |single.rnd (x * 255) - 255 * x| ≤ 1 / 2 ^ 15 := by
  have a := fl_mono (show 0 ≤ x * 255 by linarith)
  have b := fl_mono (show x * 255 ≤ 255 by linarith)
  rw [fl_zero] at a
  rw [rnd_single (x := 255) ⟨255, 0, by decide, by decide, by norm_num⟩] at b
  refine ⟨a, b, ?_⟩
  have e := single_err (x * 255)
  rw [abs_of_nonneg (show 0 ≤ x * 255 by linarith)] at e
  rw [mul_comm 255 x]
  refine le_trans e ?_
  have : (1 : ℚ) / 2 ^ 24 * (x * 255) ≤ 1 / 2 ^ 24 * 255 := mul_le_mul_of_nonneg_left (by linarith) (by norm_num)
  refine le_trans (add_le_add_left this _) ?_
  norm_num

theorem toByte_eq (x : ℚ) : (toByte single.rnd x : Int) = roundToInt (single.rnd (clamp x 0 1 * 255)) ∧ toByte single.rnd x ≤ 255 := by
  obtain ⟨c0, c1, -⟩ := clamp_spec x
  obtain ⟨a, b, -⟩ := scaled_spec c0 c1
  have l : 0 ≤ roundToInt (single.rnd (clamp x 0 1 * 255)) := by
    have := roundToInt_mono a
    rwa [roundToInt_eq (x := 0) (n := 0) (by norm_num)] at this
  have u : roundToInt (single.rnd (clamp x 0 1 * 255)) ≤ 255 := by
    have := roundToInt_mono b
    rwa [roundToInt_eq (x := 255) (n := 255) (by norm_num)] at this
  unfold toByte
  generalize roundToInt (single.rnd (clamp x 0 1 * 255)) = r at *
  omega

/-- **C123.** The byte of a channel is the nearest one, up to the rounding of one product; nothing is cut off. -/
theorem byte_near (x : ℚ) : |(toByte single.rnd x : ℚ) - 255 * clamp x 0 1| ≤ 1 / 2 + 1 / 2 ^ 15 ∧ toByte single.rnd x ≤ 255 := by
  obtain ⟨e, u⟩ := toByte_eq x
  obtain ⟨c0, c1, -⟩ := clamp_spec x
  obtain ⟨-, -, n⟩ := scaled_spec c0 c1
  refine ⟨?_, u⟩
  have e' : (toByte single.rnd x : ℚ) = (roundToInt (single.rnd (clamp x 0 1 * 255)) : Int) := by
    rw [← e]; push_cast; rfl
  rw [e']
  have r := roundToInt_near (x := single.rnd (clamp x 0 1 * 255))
  rw [abs_le] at *
  constructor <;> linarith

/-- **C123.** Brighter channels have larger bytes. -/
theorem byte_mono {x y : ℚ} (h : x ≤ y) : toByte single.rnd x ≤ toByte single.rnd y := by
  have c : clamp x 0 1 ≤ clamp y 0 1 := by
    unfold clamp; split_ifs <;> linarith
  have := roundToInt_mono (fl_mono (mul_le_mul_of_nonneg_right c (show (0 : ℚ) ≤ 255 by norm_num)))
  rw [← (toByte_eq x).1, ← (toByte_eq y).1] at this
  exact_mod_cast this

/-- **C123.** Bytes survive the conversion to `float` and back. -/
theorem byte_roundtrip {n : Nat} (h : n ≤ 255) : toByte single.rnd (ofByte single.rnd n) = n := by
  have hn : (n : ℚ) ≤ 255 := by exact_mod_cast h
  have n0 : (0 : ℚ) ≤ n := Nat.cast_nonneg n
  have d0 : (0 : ℚ) ≤ n / 255 := by linarith
  have d1 : (n : ℚ) / 255 ≤ 1 := by linarith
  obtain ⟨f0, f1⟩ := fl_unit d0 d1
  have e := err_one d0 d1
  obtain ⟨-, -, s⟩ := scaled_spec f0 f1
  have t := (toByte_eq (ofByte single.rnd n)).1
  unfold ofByte at t ⊢
  rw [(clamp_spec _).2.2 f0 f1, roundToInt_eq (n := n)] at t
  · exact_mod_cast t
  · have hu : 255 * unit + 1 / 2 ^ 15 < 1 / 2 := by unfold unit; norm_num
    push_cast
    rw [abs_le] at e s
    rw [abs_lt]
    constructor <;> linarith

theorem bytes_roundtrip {c : Nat × Nat × Nat} (h1 : c.1 ≤ 255) (h2 : c.2.1 ≤ 255) (h3 : c.2.2 ≤ 255) :
    toBytes single.rnd (ofBytes single.rnd c) = c := by
  unfold toBytes ofBytes
  rw [byte_roundtrip h1, byte_roundtrip h2, byte_roundtrip h3]

/-- The channels of the palette are between zero and one. -/
theorem channels {fused : Bool} {i : Int} {c : Color} (hc : getColor single.rnd fused i = some c) :
    (0 ≤ c.r ∧ c.r ≤ 1) ∧ (0 ≤ c.g ∧ c.g ≤ 1) ∧ (0 ≤ c.b ∧ c.b ≤ 1) := by
  have hi : 0 ≤ i := by
    by_contra h
    rw [(palette fused i).1 (by omega)] at hc
    exact absurd hc (by simp)
  obtain ⟨c', k1, ⟨f1, f2⟩, -⟩ := (palette fused i).2 hi
  obtain rfl : c = c' := by simpa [hc] using k1
  have v1 := parts.v1
  have l0 := (least_spec parts).1
  have a1 := le_max_left c.r (max c.g c.b)
  have a2 := le_trans (le_max_left c.g c.b) (le_max_right c.r _)
  have a3 := le_trans (le_max_right c.g c.b) (le_max_right c.r _)
  have b1 := min_le_left c.r (min c.g c.b)
  have b2 := le_trans (min_le_right c.r _) (min_le_left c.g c.b)
  have b3 := le_trans (min_le_right c.r _) (min_le_right c.g c.b)
  rw [f1] at a1 a2 a3
  rw [f2] at b1 b2 b3
  refine ⟨⟨?_, ?_⟩, ⟨?_, ?_⟩, ⟨?_, ?_⟩⟩ <;> linarith

/-- **C123.** The first 233 colors are pairwise different also as bytes. -/
theorem distinct_bytes (fused : Bool) {i j : Int} (h0 : 0 ≤ i) (hij : i < j) (hj : j < 233) {c d : Color}
    (hc : getColor single.rnd fused i = some c) (hd : getColor single.rnd fused j = some d) :
    toBytes single.rnd c ≠ toBytes single.rnd d := by
  intro h
  simp only [toBytes, Prod.mk.injEq] at h
  obtain ⟨cr, cg, cb⟩ := channels hc
  obtain ⟨dr, dg, db⟩ := channels hd
  obtain ⟨l, u⟩ := apart fused (N := 233) (by norm_num) far_233 h0 hij hj
  have step : ∀ {x y : ℚ}, 0 ≤ x ∧ x ≤ 1 → 0 ≤ y ∧ y ≤ 1 → toByte single.rnd x = toByte single.rnd y →
      |x - y| + 2 * (1 / 2 ^ 19) < 65 / 100 * (62 / 10000) := by
    intro x y hx hy hxy
    have n1 := (byte_near x).1
    have n2 := (byte_near y).1
    rw [(clamp_spec x).2.2 hx.1 hx.2] at n1
    rw [(clamp_spec y).2.2 hy.1 hy.2, ← hxy] at n2
    have hk : (1 + 2 * (1 / 2 ^ 15)) / 255 + 2 * (1 / 2 ^ 19) < (65 / 100 * (62 / 10000) : ℚ) := by norm_num
    have : |x - y| ≤ (1 + 2 * (1 / 2 ^ 15)) / 255 := by
      rw [abs_le] at n1 n2 ⊢
      constructor <;> linarith
    linarith
  have := hues_of_colors hc hd (e := 62 / 10000) (by norm_num) (by norm_num) (step cr dr h.1) (step cg dg h.2.1) (step cb db h.2.2)
  have k : (62 : ℚ) / 10000 / 3 < (31 * 10 ^ 12 : Nat) / 10 ^ 16 - 2 * (1 / 2 ^ 23 * (233 : Nat)) := by norm_num
  rcases this with w | w <;> linarith

/-! ### Large identifiers -/

/-- **C123.** Without a bound on the identifiers there is no contrast: from 13600000 on the hue is zero. -/
theorem no_contrast (fused : Bool) {id : Int} (h : 13600000 ≤ id) : hue single.rnd fused id = 0 := by
  have hq : (13600000 : ℚ) ≤ id := by exact_mod_cast h
  have hid := fl_mono hq
  rw [rnd_single (x := 13600000) ⟨13600000, 0, by decide, by decide, by norm_num⟩] at hid
  have g1 : 618 / 1000 ≤ golden single.rnd := by
    have := fl_mono (show (5184400 / 2 ^ 23 : ℚ) ≤ 6180339887498949 / 10 ^ 16 by norm_num)
    rw [rnd_single ⟨5184400, -23, by decide, by decide, by norm_num [zpow_neg]⟩] at this
    refine le_trans ?_ this
    norm_num
  have i0 : 0 ≤ initialHue single.rnd := (fl_unit (by norm_num) (by norm_num)).1
  have m : 8388608 ≤ golden single.rnd * single.rnd (id : ℚ) :=
    le_trans (by norm_num) (mul_le_mul g1 hid (by norm_num) (by linarith))
  have big : single.rnd 8388608 = 8388608 := rnd_single ⟨8388608, 0, by decide, by decide, by norm_num⟩
  have raw : 8388608 ≤ rawHue fused id := by
    unfold rawHue mulAdd
    split
    · have := fl_mono (show 8388608 ≤ golden single.rnd * single.rnd (id : ℚ) + initialHue single.rnd by linarith)
      rwa [big] at this
    · have m' := fl_mono m
      rw [big] at m'
      have := fl_mono (show 8388608 ≤ single.rnd (golden single.rnd * single.rnd (id : ℚ)) + initialHue single.rnd by linarith)
      rwa [big] at this
  obtain ⟨n, hn⟩ := repr_multiple (f := single) (j := 0) (by decide) (raw_repr fused id) (by
    rw [show ((single.prec : Int) + 0 - 1) = 23 from by decide, abs_of_nonneg (by linarith)]
    refine le_trans ?_ raw
    norm_num)
  rw [zpow_zero, mul_one] at hn
  rw [hue_eq, hn, Int.floor_intCast, sub_self]

/-- **C123.** All these identifiers have the same color. -/
theorem one_color (fused : Bool) {i j : Int} (hi : 13600000 ≤ i) (hj : 13600000 ≤ j) :
    getColor single.rnd fused i = getColor single.rnd fused j ∧ getColor single.rnd fused i ≠ none := by
  unfold getColor
  rw [if_pos (by omega), if_pos (by omega), no_contrast fused hi, no_contrast fused hj]
  exact ⟨rfl, by simp⟩

/-! ### Examples -/

/-- The colors of the first three trajectories. -/
example : (getColor single.rnd false 0).map (toBytes single.rnd) = some (53, 29, 196) ∧
    (getColor single.rnd false 1).map (toBytes single.rnd) = some (55, 196, 29) ∧
    (getColor single.rnd false 2).map (toBytes single.rnd) = some (196, 29, 103) := by decide +kernel

/-- Exact arithmetic gives the middle of the first sixth for a twelfth of a turn. -/
example : ideal (6 * (1 / 12)) (1 / 2) 1 = ⟨1, 3 / 4, 1 / 2⟩ := by decide +kernel

/-- Two identifiers that a map with two trajectories could have. -/
example : getColor single.rnd false 20000000 = getColor single.rnd false 20000001 := (one_color false (by norm_num) (by norm_num)).1

/-- A channel out of range. -/
example : toByte single.rnd 2 = 255 ∧ toByte single.rnd (-1) = 0 ∧ toByte single.rnd (1 / 2) = 128 := by decide +kernel

end Verif.Colors
