import Verif.FloatLoops
import Verif.Props.FloatCells
import Mathlib.Algebra.Order.Archimedean.Basic
import Mathlib.Tactic.NormNum
import Mathlib.Tactic.Linarith
import Mathlib.Tactic.Ring
import Mathlib.Tactic.FieldSimp
import Mathlib.Tactic.Positivity

/-! # C113: loops over floating point numbers end -/

namespace Verif.FloatLoops
open Verif.Fp
open Verif.Ticks (roundEven)
open Verif.FloatCells (nearest_error)

/-! ### Numbers of a format -/

section
variable {f : Format}

theorem roundEven_neg (x : ℚ) : roundEven (-x) = -roundEven x := by
  by_cases hx : x = ⌊x⌋
  · rw [hx, Ticks.roundEven_int]
    have := Ticks.roundEven_int (-⌊x⌋)
    push_cast at this
    exact this
  · have h1 := Int.floor_le x
    have h2 := Int.lt_floor_add_one x
    have hf : ⌊-x⌋ = -⌊x⌋ - 1 := by
      rw [Int.floor_eq_iff]
      push_cast
      have : ((⌊x⌋ : Int) : ℚ) < x := lt_of_le_of_ne h1 (Ne.symm hx)
      constructor <;> linarith
    unfold Ticks.roundEven
    rw [hf]
    push_cast
    split_ifs <;> first | omega | (exfalso; linarith)

theorem ulp_neg (x : ℚ) : f.ulp (-x) = f.ulp x := by unfold Format.ulp Format.ulpExp; rw [abs_neg]

theorem rnd_neg (x : ℚ) : f.rnd (-x) = -f.rnd x := by
  unfold Format.rnd Format.rndWith
  rw [ulp_neg, neg_div, roundEven_neg]
  push_cast
  ring

theorem repr_neg {x : ℚ} (h : f.Repr x) : f.Repr (-x) := by
  obtain ⟨m, e, h1, h2, rfl⟩ := h
  exact ⟨-m, e, by rwa [abs_neg], h2, by push_cast; ring⟩

theorem repr_rnd (x : ℚ) : f.Repr (f.rnd x) := rndWith_repr isInt_roundEven x

theorem rnd_repr (hf : 1 ≤ f.prec) {x : ℚ} (h : f.Repr x) : f.rnd x = x := rndWith_exact hf isInt_roundEven h

theorem rnd_mono (hf : 1 ≤ f.prec) {x y : ℚ} (h : x ≤ y) : f.rnd x ≤ f.rnd y := rndWith_mono hf isInt_roundEven h

theorem two_zpow_le {a b : Int} (h : a ≤ b) : (2 : ℚ) ^ a ≤ 2 ^ b := zpow_le_zpow_right₀ (by norm_num) h

/-- Large numbers of a format are multiples of a large power of two. -/
theorem repr_multiple (hf : 1 ≤ f.prec) {y : ℚ} {j : Int} (hy : f.Repr y) (h : (2 : ℚ) ^ (f.prec + j - 1) ≤ |y|) :
    ∃ n : Int, y = n * 2 ^ j := by
  obtain ⟨m, e, h1, h2, rfl⟩ := hy
  have he : (0 : ℚ) < 2 ^ e := zpow_pos (by norm_num) _
  rcases le_or_gt j e with hj | hj
  · obtain ⟨k, hk⟩ := zpow_multiple hj
    exact ⟨m * k, by rw [hk]; push_cast; ring⟩
  · rw [abs_mul, abs_of_pos he] at h
    have hm : (|(m : ℚ)|) ≤ 2 ^ (f.prec : Int) := by
      rw [zpow_natCast]; exact_mod_cast h1
    have h3 : (2 : ℚ) ^ (f.prec + j - 1) ≤ 2 ^ (f.prec + e) := by
      rw [zpow_add₀ (by norm_num) (f.prec : Int) e]
      exact le_trans h (mul_le_mul_of_nonneg_right hm he.le)
    have h4 := (zpow_le_zpow_iff_right₀ (by norm_num : (1 : ℚ) < 2)).1 h3
    have hje : j = e + 1 := by omega
    subst hje
    rw [show (f.prec : Int) + (e + 1) - 1 = f.prec + e by omega, zpow_add₀ (by norm_num)] at h
    have h5 := le_of_mul_le_mul_right h he
    have h6 : |m| = 2 ^ f.prec := by
      refine le_antisymm h1 ?_
      rw [zpow_natCast] at h5
      exact_mod_cast h5
    obtain ⟨p, hp⟩ : ∃ p, f.prec = p + 1 := ⟨f.prec - 1, by omega⟩
    rw [hp, pow_succ] at h6
    rcases abs_choice m with hc | hc
    · refine ⟨2 ^ p, ?_⟩
      rw [hc] at h6
      rw [h6, zpow_add₀ (by norm_num)]; push_cast; ring
    · refine ⟨-2 ^ p, ?_⟩
      rw [hc] at h6
      rw [show m = -(2 ^ p * 2) by omega, zpow_add₀ (by norm_num)]; push_cast; ring

/-- Numbers of a format are multiples of the smallest positive one. -/
theorem repr_smallest {y : ℚ} (hy : f.Repr y) : ∃ n : Int, y = n * 2 ^ (f.emin - (f.prec - 1)) := by
  obtain ⟨m, e, _, h2, rfl⟩ := hy
  obtain ⟨k, hk⟩ := zpow_multiple h2
  exact ⟨m * k, by rw [hk]; push_cast; ring⟩

theorem smallest_le {y : ℚ} (hy : f.Repr y) (h0 : 0 < y) : (2 : ℚ) ^ (f.emin - (f.prec - 1)) ≤ y := by
  obtain ⟨n, hn⟩ := repr_smallest hy
  have hp : (0 : ℚ) < 2 ^ (f.emin - (f.prec - 1)) := zpow_pos (by norm_num) _
  rw [hn] at h0 ⊢
  have : 0 < n := by
    have := (mul_pos_iff_of_pos_right hp).1 h0
    exact_mod_cast this
  have : (1 : ℚ) ≤ n := by exact_mod_cast this
  nlinarith

/-- The difference of two numbers within a factor of two of each other is exact. -/
theorem sterbenz {a b : ℚ} (ha : f.Repr a) (hb : f.Repr b) (h1 : b ≤ 2 * a) (h2 : a ≤ 2 * b) : f.Repr (a - b) := by
  have a0 : 0 ≤ a := by linarith
  have b0 : 0 ≤ b := by linarith
  have ha' := ha
  have hb' := hb
  obtain ⟨m, e, m1, e1, hm⟩ := ha
  obtain ⟨n, g, n1, g1, hn⟩ := hb
  have key : ∀ (t : Int) (k : Int) (z : ℚ) (q : Int), f.emin - (f.prec - 1) ≤ k → a - b = t * 2 ^ k → z = q * 2 ^ k →
      |q| ≤ 2 ^ f.prec → |a - b| ≤ z → f.Repr (a - b) := by
    intro t k z q hk ht hz hq hle
    refine ⟨t, k, ?_, hk, ht⟩
    have hp : (0 : ℚ) < 2 ^ k := zpow_pos (by norm_num) _
    rw [ht, hz, abs_mul, abs_of_pos hp] at hle
    have h3 := le_of_mul_le_mul_right hle hp
    have h4 : (q : ℚ) ≤ |(q : ℚ)| := le_abs_self _
    have h5 : |(t : ℚ)| ≤ |(q : ℚ)| := le_trans h3 h4
    have h6 : |t| ≤ |q| := by exact_mod_cast h5
    omega
  rcases le_total g e with hge | hge
  · obtain ⟨k, hk⟩ := zpow_multiple hge
    refine key (m * k - n) g b n g1 ?_ hn n1 (abs_le.2 ⟨by linarith, by linarith⟩)
    rw [hm, hn, hk]; push_cast; ring
  · obtain ⟨k, hk⟩ := zpow_multiple hge
    refine key (m - n * k) e a m e1 ?_ hm m1 (abs_le.2 ⟨by linarith, by linarith⟩)
    rw [hm, hn, hk]; push_cast; ring

/-- Subtracting less than half the distance of neighbours from a large number changes nothing. -/
theorem stuck (hf : 1 ≤ f.prec) {x c : ℚ} {k : Int} (hx : f.Repr x) (c0 : 0 ≤ c) (c1 : c < 2 ^ (k + 1))
    (h : (2 : ℚ) ^ (f.prec + k + 1) < x) : f.rnd (x - c) = x := by
  have hB : (0 : ℚ) < 2 ^ (f.prec + k + 1) := zpow_pos (by norm_num) _
  have hU : (0 : ℚ) < 2 ^ (k + 2) := zpow_pos (by norm_num) _
  have hU2 : (2 : ℚ) ^ (k + 2) = 2 * 2 ^ (k + 1) := by
    rw [show k + 2 = (k + 1) + 1 by ring, zpow_add₀ (by norm_num) (k + 1) 1]; ring
  obtain ⟨n, hn⟩ := repr_multiple (j := k + 2) hf hx (by
    rw [abs_of_pos (by linarith), show (f.prec : Int) + (k + 2) - 1 = f.prec + k + 1 by ring]; exact h.le)
  obtain ⟨b, hb⟩ : ∃ b : Int, (2 : ℚ) ^ (f.prec + k + 1) = b * 2 ^ (k + 2) := zpow_multiple (by omega)
  have hnb : b + 1 ≤ n := by
    rw [hn, hb] at h
    have := lt_of_mul_lt_mul_right h hU.le
    have : b < n := by exact_mod_cast this
    omega
  have hnb' : (b : ℚ) + 1 ≤ n := by exact_mod_cast hnb
  have hge : (2 : ℚ) ^ (f.prec + k + 1) + 2 ^ (k + 2) ≤ x := by rw [hn, hb]; nlinarith
  have hy1 : f.rnd (x - c) ≤ x := by
    have := rnd_mono hf (show x - c ≤ x by linarith)
    rwa [rnd_repr hf hx] at this
  have hy2 := rnd_nearest hf (x - c) hx
  rw [show x - (x - c) = c by ring, abs_of_nonneg c0] at hy2
  have hy3 := (abs_le.1 hy2).1
  have hy4 : x - 2 ^ (k + 2) < f.rnd (x - c) := by linarith
  obtain ⟨q, hq⟩ := repr_multiple (j := k + 2) hf (repr_rnd (f := f) (x - c)) (by
    rw [abs_of_pos (by linarith), show (f.prec : Int) + (k + 2) - 1 = f.prec + k + 1 by ring]; linarith)
  rw [hq, hn] at hy1 hy4
  rw [hq, hn]
  have a1 : q ≤ n := by
    have := le_of_mul_le_mul_right hy1 hU
    exact_mod_cast this
  have a2 : n - 1 < q := by
    rw [show (n : ℚ) * 2 ^ (k + 2) - 2 ^ (k + 2) = ((n : ℚ) - 1) * 2 ^ (k + 2) by ring] at hy4
    have := lt_of_mul_lt_mul_right hy4 hU.le
    exact_mod_cast this
  rw [show q = n by omega]

/-- The rounding error for numbers of a known size. -/
theorem error_le {x : ℚ} {e : Int} (h : |x| < 2 ^ (e + 1)) (he : f.emin ≤ e) :
    |f.rnd x - x| ≤ 2 ^ (e - (f.prec - 1)) / 2 := by
  by_cases h0 : x = 0
  · subst h0
    have : f.rnd 0 = 0 := rndWith_zero isInt_roundEven
    rw [this, sub_zero, abs_zero]
    exact div_nonneg (zpow_nonneg (by norm_num) _) (by norm_num)
  · have a := nearest_error f x
    have b : f.ulp x ≤ 2 ^ (e - (f.prec - 1)) := by
      unfold Format.ulp Format.ulpExp
      apply two_zpow_le
      have := log_le h0 h
      omega
    linarith

/-- The next number of a format above a non-negative one. -/
theorem repr_next {b : ℚ} (hb : f.Repr b) (b0 : 0 ≤ b) (hf : 1 ≤ f.prec) (he : f.emin ≤ 0) : f.Repr (b + f.ulp b) := by
  by_cases h0 : b = 0
  · subst h0
    refine ⟨1, 0 - (f.prec - 1), ?_, by omega, ?_⟩
    · rw [abs_one]; exact one_le_pow₀ (by norm_num)
    · unfold Format.ulp Format.ulpExp
      rw [abs_zero, Int.log_zero_right, max_eq_left he, zero_add, Int.cast_one, one_mul]
  · have hfix := rnd_repr hf hb
    have hlt := abs_div_ulp_lt (f := f) b
    unfold Format.rnd Format.rndWith at hfix
    refine ⟨roundEven (b / f.ulp b) + 1, f.ulpExp b, ?_, by unfold Format.ulpExp; omega, ?_⟩
    · have hq : b / f.ulp b = roundEven (b / f.ulp b) := by
        rw [div_eq_iff (f.ulp_pos b).ne']; exact hfix.symm
      have h1 : (0 : ℚ) ≤ b / f.ulp b := div_nonneg b0 (f.ulp_pos b).le
      rw [hq] at h1 hlt
      have h2 : (0 : Int) ≤ roundEven (b / f.ulp b) := by exact_mod_cast h1
      rw [abs_of_nonneg h1] at hlt
      have h3 : roundEven (b / f.ulp b) < 2 ^ f.prec := by exact_mod_cast hlt
      rw [abs_of_nonneg (by omega)]
      omega
    · push_cast
      rw [add_mul, one_mul]
      conv_lhs => rw [← hfix]
      have : f.ulp (roundEven (b / f.ulp b) * f.ulp b) = f.ulp b := by rw [hfix]
      rw [this]
      rfl

/-! ### The loops that subtract and add -/

theorem down_fuel {hi c : ℚ} : ∀ {n m : Nat} {x r : ℚ}, n ≤ m → down f hi c n x = some r → down f hi c m x = some r
  | 0, _, _, _, _, h => by simp [down] at h
  | n + 1, 0, _, _, hm, _ => by omega
  | n + 1, m + 1, x, r, hm, h => by
    simp only [down] at h ⊢
    by_cases hx : hi < x
    · rw [if_pos hx] at h ⊢
      exact down_fuel (by omega) h
    · rw [if_neg hx] at h ⊢
      exact h

/-- Adding is the mirror image of subtracting. -/
theorem up_eq (lo c : ℚ) : ∀ (n : Nat) (x : ℚ), up f lo c n x = (down f (-lo) c n (-x)).map (- ·)
  | 0, _ => rfl
  | n + 1, x => by
    simp only [up, down]
    by_cases hx : x < lo
    · rw [if_pos hx, if_pos (by linarith), up_eq lo c n, ← rnd_neg, neg_add']
    · rw [if_neg hx, if_neg (by linarith)]
      simp

theorem up_fuel {lo c : ℚ} {n m : Nat} {x r : ℚ} (hm : n ≤ m) (h : up f lo c n x = some r) : up f lo c m x = some r := by
  rw [up_eq] at h ⊢
  obtain ⟨y, hy, rfl⟩ := Option.map_eq_some_iff.1 h
  rw [down_fuel hm hy]; rfl

theorem down_result (hf : 1 ≤ f.prec) {hi c : ℚ} : ∀ {n : Nat} {x r : ℚ}, down f hi c n x = some r →
    r ≤ hi ∧ (x ≤ hi → r = x) ∧ (hi < x → f.rnd (hi - c) ≤ r) ∧ (f.Repr x → f.Repr r)
  | 0, _, _, h => by simp [down] at h
  | n + 1, x, r, h => by
    simp only [down] at h
    by_cases hx : hi < x
    · rw [if_pos hx] at h
      obtain ⟨h1, h2, h3, h4⟩ := down_result hf h
      refine ⟨h1, fun h' => absurd hx (not_lt.2 h'), fun _ => ?_, fun _ => h4 (repr_rnd _)⟩
      by_cases hy : hi < f.rnd (x - c)
      · exact h3 hy
      · rw [h2 (not_lt.1 hy)]
        exact rnd_mono hf (by linarith)
    · rw [if_neg hx] at h
      obtain rfl := Option.some.inj h
      exact ⟨not_lt.1 hx, fun _ => rfl, fun h' => absurd h' hx, id⟩

theorem down_stuck {hi c x : ℚ} (hx : hi < x) (hs : f.rnd (x - c) = x) : ∀ n, down f hi c n x = none
  | 0 => rfl
  | n + 1 => by simp only [down]; rw [if_pos hx, hs, down_stuck hx hs n]

theorem down_ends (hf : 1 ≤ f.prec) {hi c : ℚ} {k : Int} (he : f.emin ≤ k) (h0 : 0 ≤ hi) (c1 : 2 ^ k < c) (c2 : c ≤ 2 ^ (k + 1)) :
    ∀ (n : Nat) (x : ℚ), x ≤ 2 ^ (f.prec + k + 1) → x ≤ hi + n * (c - 2 ^ k) → ∃ r, down f hi c (n + 1) x = some r
  | 0, x, _, hx => by
    refine ⟨x, ?_⟩
    simp only [down]
    rw [if_neg (by simp at hx; linarith)]
  | n + 1, x, hB, hx => by
    rw [down]
    by_cases h : hi < x
    · rw [if_pos h]
      have hk : (0 : ℚ) < 2 ^ k := zpow_pos (by norm_num) _
      have hle : (2 : ℚ) ^ (k + 1) ≤ 2 ^ (f.prec + k + 1) := two_zpow_le (by omega)
      have herr := error_le (f := f) (x := x - c) (e := f.prec + k) (abs_lt.2 ⟨by linarith, by linarith⟩) (by omega)
      rw [show (f.prec : Int) + k - (f.prec - 1) = k + 1 by ring, zpow_add₀ (by norm_num), zpow_one] at herr
      have herr' := (abs_le.1 herr).2
      refine down_ends hf he h0 c1 c2 n _ (by linarith) ?_
      push_cast at hx
      linarith
    · rw [if_neg h]; exact ⟨x, rfl⟩

end

/-! ### Angles -/

theorem pi64_repr : double.Repr pi64 := ⟨884279719003555, -48, by decide, by decide, by norm_num [pi64, zpow_neg]⟩
theorem pi32_repr : single.Repr pi32 := ⟨13176795, -22, by decide, by decide, by norm_num [pi32, zpow_neg]⟩
theorem two_pi64 : double.rnd (2 * pi64) = 2 * pi64 :=
  rnd_repr (by decide) ⟨884279719003555, -47, by decide, by decide, by norm_num [pi64, zpow_neg]⟩

/-- The loop of subtractions from a given size. -/
theorem down_iff {f : Format} (hf : 1 ≤ f.prec) {hi c : ℚ} {k : Int} (he : f.emin ≤ k) (h0 : 0 ≤ hi) (c1 : 2 ^ k < c)
    (c2 : c < 2 ^ (k + 1)) (hh : hi ≤ 2 ^ (f.prec + k + 1)) {x : ℚ} (hx : f.Repr x) :
    (∃ n r, down f hi c n x = some r) ↔ x ≤ 2 ^ (f.prec + k + 1) := by
  have hk : (0 : ℚ) < 2 ^ k := zpow_pos (by norm_num) _
  constructor
  · rintro ⟨n, r, h⟩
    by_contra hlt
    rw [down_stuck (lt_of_le_of_lt hh (not_le.1 hlt)) (stuck hf hx (by linarith) c2 (not_le.1 hlt)) n] at h
    exact absurd h (by simp)
  · intro h
    obtain ⟨n, hn⟩ := exists_nat_ge ((x - hi) / (c - 2 ^ k))
    rw [div_le_iff₀ (by linarith)] at hn
    exact ⟨n + 1, down_ends hf he h0 c1 c2.le n x h (by linarith)⟩

/-- **C113.** Both loops of a normalization end exactly up to a known size. -/
theorem both_iff {f : Format} (hf : 1 ≤ f.prec) {lo hi c : ℚ} {k : Int} (he : f.emin ≤ k) (hl : lo ≤ 0) (h0 : 0 ≤ hi)
    (c1 : 2 ^ k < c) (c2 : c < 2 ^ (k + 1)) (hh : hi ≤ 2 ^ (f.prec + k + 1)) (hlo : -lo ≤ 2 ^ (f.prec + k + 1))
    (hr : lo ≤ f.rnd (hi - c)) {x : ℚ} (hx : f.Repr x) :
    (∃ n r, (down f hi c n x).bind (up f lo c n) = some r) ↔ |x| ≤ 2 ^ (f.prec + k + 1) := by
  constructor
  · rintro ⟨n, r, h⟩
    obtain ⟨y, h1, h2⟩ := Option.bind_eq_some_iff.1 h
    have a := (down_iff hf he h0 c1 c2 hh hx).1 ⟨n, y, h1⟩
    rw [up_eq] at h2
    obtain ⟨z, h3, _⟩ := Option.map_eq_some_iff.1 h2
    obtain ⟨_, d2, _, d4⟩ := down_result hf h1
    have b := (down_iff hf he (by linarith : 0 ≤ -lo) c1 c2 hlo (repr_neg (d4 hx))).1 ⟨n, z, h3⟩
    refine abs_le.2 ⟨?_, a⟩
    by_cases hc : x ≤ hi
    · rw [d2 hc] at b; linarith
    · have : (0 : ℚ) < 2 ^ (f.prec + k + 1) := zpow_pos (by norm_num) _
      linarith
  · intro h
    obtain ⟨a, b⟩ := abs_le.1 h
    obtain ⟨n, y, h1⟩ := (down_iff hf he h0 c1 c2 hh hx).2 b
    obtain ⟨_, d2, d3, d4⟩ := down_result hf h1
    have hy : -y ≤ 2 ^ (f.prec + k + 1) := by
      by_cases hc : x ≤ hi
      · rw [d2 hc]; linarith
      · have := d3 (not_le.1 hc); linarith
    obtain ⟨m, z, h2⟩ := (down_iff hf he (by linarith : 0 ≤ -lo) c1 c2 hlo (repr_neg (d4 hx))).2 hy
    refine ⟨max n m, -z, ?_⟩
    rw [down_fuel (le_max_left n m) h1, Option.bind_some]
    apply up_fuel (le_max_right n m)
    rw [up_eq, h2]; rfl

/-- Where both loops end: in the range. -/
theorem both_range {f : Format} (hf : 1 ≤ f.prec) {lo hi c : ℚ} (hr' : f.rnd (lo + c) ≤ hi) {n : Nat} {x r : ℚ}
    (h : (down f hi c n x).bind (up f lo c n) = some r) :
    lo ≤ r ∧ r ≤ hi ∧ (lo ≤ x → x ≤ hi → r = x) ∧ (f.Repr x → f.Repr r) := by
  obtain ⟨y, h1, h2⟩ := Option.bind_eq_some_iff.1 h
  obtain ⟨d1, d2, d3, d4⟩ := down_result hf h1
  rw [up_eq] at h2
  obtain ⟨z, h3, rfl⟩ := Option.map_eq_some_iff.1 h2
  obtain ⟨e1, e2, e3, e4⟩ := down_result hf h3
  refine ⟨by linarith, ?_, fun l u => ?_, fun hx => repr_neg (e4 (repr_neg (d4 hx)))⟩
  · by_cases hc : -y ≤ -lo
    · rw [e2 hc]; linarith
    · have := e3 (not_le.1 hc)
      rw [show -lo - c = -(lo + c) by ring, rnd_neg] at this
      linarith
  · have := d2 u
    subst this
    rw [e2 (by linarith), neg_neg]

/-- How far subtracting is from removing a multiple of `c`. -/
theorem down_error {f : Format} (hf : 1 ≤ f.prec) {hi c : ℚ} {e : Int} (he : f.emin ≤ e) (h0 : 0 ≤ hi) (c0 : 0 < c)
    (c1 : c < 2 ^ (e + 1)) : ∀ {n : Nat} {x r : ℚ}, x ≤ 2 ^ (e + 1) → down f hi c n x = some r →
    ∃ k : Nat, |r - (x - c * k)| ≤ k * (2 ^ (e - (f.prec - 1)) / 2)
  | 0, _, _, _, h => by simp [down] at h
  | n + 1, x, r, hx, h => by
    simp only [down] at h
    by_cases hc : hi < x
    · rw [if_pos hc] at h
      have h1 := error_le (f := f) (x := x - c) (e := e) (abs_lt.2 ⟨by linarith, by linarith⟩) he
      have hp : f.Repr (2 ^ (e + 1)) := ⟨1, e + 1, by rw [abs_one]; exact one_le_pow₀ (by norm_num), by omega, by simp⟩
      have h2 : f.rnd (x - c) ≤ 2 ^ (e + 1) := by
        have := rnd_mono hf (show x - c ≤ 2 ^ (e + 1) by linarith)
        rwa [rnd_repr hf hp] at this
      obtain ⟨k, hk⟩ := down_error hf he h0 c0 c1 h2 h
      refine ⟨k + 1, ?_⟩
      push_cast
      have a := abs_le.1 h1
      have b := abs_le.1 hk
      rw [abs_le]
      constructor <;> linarith
    · rw [if_neg hc] at h
      obtain rfl := Option.some.inj h
      exact ⟨0, by simp⟩

/-- Subtracting is exact near the range. -/
theorem down_exact {f : Format} (hf : 1 ≤ f.prec) {hi c : ℚ} (hc : f.Repr c) (h1 : c ≤ 2 * hi) : ∀ {n : Nat} {x r : ℚ}, f.Repr x →
    x ≤ 2 * c → down f hi c n x = some r → ∃ k : Nat, r = x - c * k
  | 0, _, _, _, _, h => by simp [down] at h
  | n + 1, x, r, hx, hx', h => by
    simp only [down] at h
    by_cases hlt : hi < x
    · rw [if_pos hlt] at h
      have hs := sterbenz hx hc (by linarith) hx'
      rw [rnd_repr hf hs] at h
      have c0 : 0 ≤ c := by linarith
      obtain ⟨k, hk⟩ := down_exact hf hc h1 hs (by linarith) h
      exact ⟨k + 1, by rw [hk]; push_cast; ring⟩
    · rw [if_neg hlt] at h
      obtain rfl := Option.some.inj h
      exact ⟨0, by simp⟩

/-- **C113.** `NormalizeAngleDifference` returns for a `double` exactly if its absolute value is at most `2⁵⁶`. -/
theorem normalize_ends_iff {x : ℚ} (hx : double.Repr x) : (∃ n r, normalizeAngle n x = some r) ↔ |x| ≤ 2 ^ 56 := by
  have := both_iff (f := double) (lo := -pi64) (hi := pi64) (c := double.rnd (2 * pi64)) (k := 2) (by decide) (by decide)
    (by norm_num [pi64]) (by norm_num [pi64]) (by rw [two_pi64]; norm_num [pi64]) (by rw [two_pi64]; norm_num [pi64])
    (by norm_num [pi64, double]) (by norm_num [pi64, double])
    (by rw [two_pi64, show pi64 - 2 * pi64 = -pi64 by ring, rnd_repr (by decide) (repr_neg pi64_repr)]) hx
  rw [show ((double.prec : Int) + 2 + 1) = ((56 : Nat) : Int) from rfl, zpow_natCast] at this
  exact this

/-- **C113.** The result is a `double` in the range of the comment; angles in the range are not changed. -/
theorem normalize_range {n : Nat} {x r : ℚ} (h : normalizeAngle n x = some r) :
    -pi64 ≤ r ∧ r ≤ pi64 ∧ (|x| ≤ pi64 → r = x) ∧ (double.Repr x → double.Repr r) := by
  obtain ⟨a, b, c, d⟩ := both_range (f := double) (by decide)
    (by rw [two_pi64, show -pi64 + 2 * pi64 = pi64 by ring, rnd_repr (by decide) pi64_repr]) h
  exact ⟨a, b, fun hx => c (abs_le.1 hx).1 (abs_le.1 hx).2, d⟩

/-- **C113.** Near the range, in particular for differences of two angles in the range, the result is exact. -/
theorem normalize_exact {n : Nat} {x r : ℚ} (hx : double.Repr x) (h4 : |x| ≤ 4 * pi64) (h : normalizeAngle n x = some r) :
    ∃ k : Int, r = x - 2 * pi64 * k := by
  obtain ⟨l, u⟩ := abs_le.1 h4
  have hc : double.Repr (2 * pi64) := by rw [← two_pi64]; exact repr_rnd _
  unfold normalizeAngle at h
  rw [two_pi64] at h
  obtain ⟨y, h1, h2⟩ := Option.bind_eq_some_iff.1 h
  rw [up_eq] at h2
  obtain ⟨z, h3, rfl⟩ := Option.map_eq_some_iff.1 h2
  obtain ⟨d1, d2, d3, d4⟩ := down_result (by decide) h1
  obtain ⟨k, hk⟩ := down_exact (by decide) hc le_rfl hx (by linarith) h1
  have hy : -y ≤ 2 * (2 * pi64) := by
    have hp : 0 < pi64 := by norm_num [pi64]
    by_cases hb : x ≤ pi64
    · rw [d2 hb]; linarith
    · have := d3 (not_le.1 hb)
      rw [show pi64 - 2 * pi64 = -pi64 by ring, rnd_repr (by decide) (repr_neg pi64_repr)] at this
      linarith
  obtain ⟨m, hm⟩ := down_exact (by decide) hc (by linarith) (repr_neg (d4 hx)) hy h3
  exact ⟨k - m, by rw [hm, hk]; push_cast; ring⟩

/-- **C113.** In general the result is a multiple of the turn away from `x` up to one rounding error per round. -/
theorem normalize_error {n : Nat} {x r : ℚ} {e : Int} (he : 2 ≤ e) (hx : |x| ≤ 2 ^ (e + 1)) (h : normalizeAngle n x = some r) :
    ∃ k m : Nat, |r - (x - 2 * pi64 * ((k : Int) - (m : Int) : Int))| ≤ (k + m : Nat) * 2 ^ (e - 53) := by
  obtain ⟨l, u⟩ := abs_le.1 hx
  have hb : (8 : ℚ) ≤ 2 ^ (e + 1) := by
    have := two_zpow_le (show (3 : Int) ≤ e + 1 by omega)
    norm_num at this ⊢
    exact this
  have hpi : pi64 < 4 := by norm_num [pi64]
  have hp : 0 < pi64 := by norm_num [pi64]
  have hs : (2 : ℚ) ^ (e - ((double.prec : Int) - 1)) / 2 = 2 ^ (e - 53) := by
    rw [show e - ((double.prec : Int) - 1) = (e - 53) + 1 by rw [show double.prec = 53 from rfl]; push_cast; ring,
      zpow_add₀ (by norm_num)]
    ring
  unfold normalizeAngle at h
  rw [two_pi64] at h
  obtain ⟨y, h1, h2⟩ := Option.bind_eq_some_iff.1 h
  rw [up_eq] at h2
  obtain ⟨z, h3, rfl⟩ := Option.map_eq_some_iff.1 h2
  obtain ⟨d1, d2, d3, d4⟩ := down_result (by decide) h1
  have hem : double.emin ≤ e := le_trans (by decide) he
  obtain ⟨k, hk⟩ := down_error (e := e) (by decide) hem hp.le (by linarith) (by linarith) u h1
  have hy : -y ≤ 2 ^ (e + 1) := by
    by_cases hb : x ≤ pi64
    · rw [d2 hb]; linarith
    · have := d3 (not_le.1 hb)
      rw [show pi64 - 2 * pi64 = -pi64 by ring, rnd_repr (by decide) (repr_neg pi64_repr)] at this
      linarith
  obtain ⟨m, hm⟩ := down_error (e := e) (by decide) hem (by linarith) (by linarith) (by linarith) hy h3
  rw [hs] at hk hm
  refine ⟨k, m, ?_⟩
  have a := abs_le.1 hk
  have b := abs_le.1 hm
  push_cast
  rw [abs_le]
  constructor <;> linarith

/-- **C113.** The loops of `AddValueToHistogram` end for a `float` exactly if its absolute value is at most `2²⁶`. -/
theorem half_turn_ends_iff {x : ℚ} (hx : single.Repr x) : (∃ n r, halfTurn n x = some r) ↔ |x| ≤ 2 ^ 26 := by
  have := both_iff (f := single) (lo := 0) (hi := pi32) (c := pi32) (k := 1) (by decide) (by decide)
    le_rfl (by norm_num [pi32]) (by norm_num [pi32]) (by norm_num [pi32])
    (by norm_num [pi32, single]) (by norm_num [single])
    (by rw [sub_self]; exact (rndWith_zero isInt_roundEven).ge) hx
  rw [show ((single.prec : Int) + 1 + 1) = ((26 : Nat) : Int) from rfl, zpow_natCast] at this
  exact this

/-- **C113.** The angle is then in the half turn, so that the bucket is computed from a number between zero and one. -/
theorem half_turn_range {n : Nat} {x r : ℚ} (h : halfTurn n x = some r) :
    0 ≤ r ∧ r ≤ pi32 ∧ (0 ≤ x → x ≤ pi32 → r = x) ∧ (single.Repr x → single.Repr r) :=
  both_range (f := single) (by decide) (by rw [zero_add, rnd_repr (by decide) pi32_repr]) h

/-! ### Boundaries of histograms -/

theorem double_pow (e : Int) (he : -1074 ≤ e) : double.Repr (2 ^ e) :=
  ⟨1, e, by decide, by rw [show double.emin = -1022 from rfl, show double.prec = 53 from rfl]; push_cast; omega, by simp⟩

/-- Adding at least the distance to the next number of the format makes progress. -/
theorem add_progress {f : Format} (hf : 1 ≤ f.prec) (he : f.emin ≤ 0) {b w : ℚ} (hb : f.Repr b) (b0 : 0 ≤ b) (h : f.ulp b ≤ w) :
    b + f.ulp b ≤ f.rnd (b + w) := by
  have := rnd_mono hf (show b + f.ulp b ≤ b + w by linarith)
  rwa [rnd_repr hf (repr_next hb b0 hf he)] at this

theorem widths_length (w : ℚ) : ∀ (n : Nat) (b : ℚ), (widths w n b).length = n
  | 0, _ => rfl
  | n + 1, b => by simp [widths, widths_length w n]

/-- The boundary `b` that comes after `i` additions stays below `i` times a power of two, as long as `i` fits into the
significand. -/
theorem widths_sorted {w : ℚ} {k : Int} (hk : -1074 ≤ k) (hw : double.Repr w) (w0 : 0 < w) (h1 : 2 ^ (k - 1) < w) (h2 : w ≤ 2 ^ k) :
    ∀ (n i : Nat) (b : ℚ), n + i ≤ 2 ^ 51 → double.Repr b → 0 ≤ b → b ≤ i * 2 ^ k →
      (b :: widths w n b).Pairwise (· < ·)
  | 0, _, b, _, _, _, _ => by simp [widths]
  | n + 1, i, b, hn, hb, b0, hi => by
    have hkp : (0 : ℚ) < 2 ^ k := zpow_pos (by norm_num) _
    have hmul : double.Repr ((i + 1 : Nat) * 2 ^ k) := by
      refine ⟨(i + 1 : Nat), k, ?_, by rw [show double.emin = -1022 from rfl, show double.prec = 53 from rfl]; push_cast; omega, by push_cast; ring⟩
      rw [abs_of_nonneg (by positivity), show double.prec = 53 from rfl]
      have : i + 1 ≤ 2 ^ 53 := le_trans (by omega) (show 2 ^ 51 ≤ 2 ^ 53 by norm_num)
      exact_mod_cast this
    have hnext : double.rnd (b + w) ≤ (i + 1 : Nat) * 2 ^ k := by
      have := rnd_mono (f := double) (by decide) (show b + w ≤ (i + 1 : Nat) * 2 ^ k by push_cast; linarith)
      rwa [rnd_repr (by decide) hmul] at this
    have hlt : b < double.rnd (b + w) := by
      by_cases hb0 : b = 0
      · subst hb0; rw [zero_add, rnd_repr (by decide) hw]; exact w0
      · have hu : double.ulp b ≤ w := by
          have hbl : |b| < 2 ^ (50 + k + 1) := by
            rw [abs_of_nonneg b0]
            have hi2 : (i : ℚ) < 2 ^ 51 := by
              have : i < 2 ^ 51 := by omega
              exact_mod_cast this
            rw [show (50 : Int) + k + 1 = 51 + k by ring, zpow_add₀ (by norm_num)]
            refine lt_of_le_of_lt hi ?_
            refine mul_lt_mul_of_pos_right ?_ hkp
            exact_mod_cast hi2
          have hl := log_le hb0 hbl
          unfold Format.ulp Format.ulpExp
          rw [show double.emin = -1022 from rfl, show double.prec = 53 from rfl]
          rcases le_total (Int.log 2 |b|) (-1022) with hc | hc
          · rw [max_eq_right hc]
            exact smallest_le hw w0
          · rw [max_eq_left hc]
            exact le_trans (two_zpow_le (by push_cast; omega)) h1.le
        have := add_progress (f := double) (by decide) (by decide) hb b0 hu
        have := double.ulp_pos b
        linarith
    have ih := widths_sorted hk hw w0 h1 h2 n (i + 1) (double.rnd (b + w)) (by omega) (repr_rnd _) (by linarith) hnext
    simp only [widths]
    rw [List.pairwise_cons]
    refine ⟨fun y hy => ?_, ih⟩
    rcases List.mem_cons.1 hy with rfl | hy
    · exact hlt
    · exact lt_trans hlt ((List.pairwise_cons.1 ih).1 y hy)

theorem exists_pow {w : ℚ} (w0 : 0 < w) : ∃ k : Int, (2 : ℚ) ^ (k - 1) < w ∧ w ≤ 2 ^ k := by
  obtain ⟨n, h1, h2⟩ := exists_mem_Ioc_zpow w0 (by norm_num : (1 : ℚ) < 2)
  exact ⟨n + 1, by simpa using h1, h2⟩

/-- **C113.** `FixedWidth` gives as many boundaries as asked for; they increase strictly and start above zero, for every
positive width and for every number of buckets an `int` can hold. -/
theorem fixedWidth_sorted {w : ℚ} (hw : double.Repr w) (w0 : 0 < w) {n : Nat} (hn : n < 2 ^ 31) :
    (fixedWidth w n).length = n ∧ (0 :: fixedWidth w n).Pairwise (· < ·) := by
  refine ⟨widths_length w n 0, ?_⟩
  obtain ⟨k, h1, h2⟩ := exists_pow w0
  have hk : -1074 ≤ k := by
    have := le_trans (smallest_le hw w0) h2
    have := (zpow_le_zpow_iff_right₀ (by norm_num : (1 : ℚ) < 2)).1 this
    rw [show double.emin = -1022 from rfl, show double.prec = 53 from rfl] at this
    push_cast at this
    omega
  refine widths_sorted hk hw w0 h1 h2 n 0 0 ?_ ⟨0, 0, by decide, by decide, by simp⟩ le_rfl (by simp)
  exact le_trans (by omega) (show 2 ^ 31 ≤ 2 ^ 51 by norm_num)

/-- **C113.** The first boundary is the width. -/
theorem fixedWidth_head {w : ℚ} (hw : double.Repr w) (n : Nat) : (fixedWidth w (n + 1)).head? = some w := by
  simp [fixedWidth, widths, rnd_repr (f := double) (by decide) hw]

/-- Multiplying a normal number by a base greater than one makes progress. -/
theorem mul_progress {b base : ℚ} (hb : double.Repr b) (h : (2 : ℚ) ^ (-1022 : Int) ≤ b) (hbase : double.Repr base) (h1 : 1 < base) :
    b + 2 ^ (-1074 : Int) ≤ double.rnd (b * base) := by
  have hp : (0 : ℚ) < 2 ^ (-1022 : Int) := zpow_pos (by norm_num) _
  have b0 : 0 < b := lt_of_lt_of_le hp h
  have hnext : 1 + (2 : ℚ) ^ (-52 : Int) ≤ base := by
    obtain ⟨n, hn⟩ := repr_multiple (f := double) (j := -52) (by decide) hbase (by
      rw [abs_of_pos (by linarith), show double.prec = 53 from rfl]; norm_num; exact h1.le)
    have hq : (0 : ℚ) < 2 ^ (-52 : Int) := zpow_pos (by norm_num) _
    have e1 : (1 : ℚ) = (2 ^ 52 : Int) * 2 ^ (-52 : Int) := by norm_num [zpow_neg]
    have : (2 ^ 52 : Int) < n := by
      rw [hn, e1] at h1
      have := lt_of_mul_lt_mul_right h1 hq.le
      exact_mod_cast this
    have : ((2 ^ 52 : Int) : ℚ) + 1 ≤ n := by exact_mod_cast this
    have := mul_le_mul_of_nonneg_right this hq.le
    rw [add_mul, ← e1, ← hn] at this
    linarith
  have hlog : (-1022 : Int) ≤ Int.log 2 |b| := by
    rw [abs_of_pos b0]
    exact (Int.zpow_le_iff_le_log (b := 2) (by norm_num) b0).1 (by exact_mod_cast h)
  have hu : double.ulp b = 2 ^ (Int.log 2 |b| - 52) := by
    unfold Format.ulp Format.ulpExp
    rw [show double.emin = -1022 from rfl, show double.prec = 53 from rfl, max_eq_left hlog]
    norm_num
  have hul : double.ulp b ≤ b * (base - 1) := by
    have a := le_of_log b0.ne' (le_refl (Int.log 2 |b|))
    rw [abs_of_pos b0] at a hu
    rw [hu, sub_eq_add_neg, zpow_add₀ (by norm_num)]
    have hq : (0 : ℚ) < 2 ^ (-52 : Int) := zpow_pos (by norm_num) _
    exact mul_le_mul a (by linarith) hq.le b0.le
  have := add_progress (f := double) (by decide) (by decide) hb b0.le hul
  rw [show b + b * (base - 1) = b * base by ring] at this
  have : (2 : ℚ) ^ (-1074 : Int) ≤ double.ulp b := by rw [hu]; exact two_zpow_le (by omega)
  linarith

theorem powers_ends {base max : ℚ} (hbase : double.Repr base) (h1 : 1 < base) : ∀ (n : Nat) (b : ℚ), double.Repr b →
    (2 : ℚ) ^ (-1022 : Int) ≤ b → max ≤ b + n * 2 ^ (-1074 : Int) → ∃ l, powers base max (n + 1) b = some l
  | 0, b, _, _, h => ⟨[], by rw [powers, if_neg (by simp at h; linarith)]⟩
  | n + 1, b, hb, hn, h => by
    rw [powers]
    by_cases hc : b < max
    · rw [if_pos hc]
      have hp := mul_progress hb hn hbase h1
      have hq : (0 : ℚ) < 2 ^ (-1074 : Int) := zpow_pos (by norm_num) _
      push_cast at h
      obtain ⟨l, hl⟩ := powers_ends (max := max) hbase h1 n (double.rnd (b * base)) (repr_rnd _) (by linarith) (by linarith)
      exact ⟨b :: l, by rw [hl]; rfl⟩
    · rw [if_neg hc]; exact ⟨[], rfl⟩

theorem powers_sorted {base max : ℚ} (hbase : double.Repr base) (h1 : 1 < base) : ∀ {n : Nat} {b : ℚ} {l : List ℚ}, double.Repr b →
    (2 : ℚ) ^ (-1022 : Int) ≤ b → powers base max n b = some l → l.Pairwise (· < ·) ∧ ∀ y ∈ l, b ≤ y ∧ y < max
  | 0, _, _, _, _, h => by simp [powers] at h
  | n + 1, b, l, hb, hn, h => by
    rw [powers] at h
    by_cases hc : b < max
    · rw [if_pos hc] at h
      obtain ⟨t, ht, rfl⟩ := Option.map_eq_some_iff.1 h
      have hp := mul_progress hb hn hbase h1
      have hq : (0 : ℚ) < 2 ^ (-1074 : Int) := zpow_pos (by norm_num) _
      obtain ⟨s1, s2⟩ := powers_sorted hbase h1 (repr_rnd _) (by linarith) ht
      refine ⟨List.pairwise_cons.2 ⟨fun y hy => ?_, s1⟩, fun y hy => ?_⟩
      · have := (s2 y hy).1; linarith
      · rcases List.mem_cons.1 hy with rfl | hy
        · exact ⟨le_rfl, hc⟩
        · have := s2 y hy
          exact ⟨by linarith, this.2⟩
    · rw [if_neg hc] at h
      obtain rfl := Option.some.inj h
      simp

/-- **C113.** `ScaledPowersOf` fails its checks, or it ends: for every base greater than one and every normal scale. -/
theorem powers_end {base scale : ℚ} (max : ℚ) (hbase : double.Repr base) (hscale : double.Repr scale) (h1 : 1 < base)
    (h0 : (2 : ℚ) ^ (-1022 : Int) ≤ scale) : ∃ n l, scaledPowersOf n base scale max = .done l := by
  have hq : (0 : ℚ) < 2 ^ (-1074 : Int) := zpow_pos (by norm_num) _
  have hp : (0 : ℚ) < 2 ^ (-1022 : Int) := zpow_pos (by norm_num) _
  obtain ⟨n, hn⟩ := exists_nat_ge ((max - scale) / 2 ^ (-1074 : Int))
  rw [div_le_iff₀ hq] at hn
  obtain ⟨l, hl⟩ := powers_ends hbase h1 n scale hscale h0 (by linarith)
  refine ⟨n + 1, l, ?_⟩
  unfold scaledPowersOf
  rw [if_neg (by linarith), if_neg (by linarith), hl]

/-- **C113.** Its boundaries increase strictly, start with the scale and are below the maximum. -/
theorem powers_increase {base scale max : ℚ} (hbase : double.Repr base) (hscale : double.Repr scale)
    (h0 : (2 : ℚ) ^ (-1022 : Int) ≤ scale) {n : Nat} {l : List ℚ} (h : scaledPowersOf n base scale max = .done l) :
    l.Pairwise (· < ·) ∧ (∀ y ∈ l, scale ≤ y ∧ y < max) ∧ (scale < max → l.head? = some scale) := by
  unfold scaledPowersOf at h
  by_cases hb : base ≤ 1
  · rw [if_pos hb] at h; cases h
  rw [if_neg hb] at h
  by_cases hs : scale ≤ 0
  · rw [if_pos hs] at h; cases h
  rw [if_neg hs] at h
  cases hp : powers base max n scale with
  | none => rw [hp] at h; cases h
  | some t =>
    rw [hp] at h
    cases h
    obtain ⟨s1, s2⟩ := powers_sorted hbase (not_le.1 hb) hscale h0 hp
    refine ⟨s1, s2, fun hlt => ?_⟩
    cases n with
    | zero => simp [powers] at hp
    | succ n =>
      rw [powers, if_pos hlt] at hp
      obtain ⟨t', _, rfl⟩ := Option.map_eq_some_iff.1 hp
      rfl

theorem double_two_mul {b : ℚ} (hb : double.Repr b) : double.Repr (b * 2) := by
  obtain ⟨m, e, h1, h2, rfl⟩ := hb
  exact ⟨m, e + 1, h1, by omega, by rw [zpow_add₀ (by norm_num)]; ring⟩

theorem powers_two {max : ℚ} : ∀ {n : Nat} {b : ℚ} {l : List ℚ}, double.Repr b → powers 2 max n b = some l →
    ∀ i (hi : i < l.length), l[i] = b * 2 ^ i
  | 0, _, _, _, h, _, _ => by simp [powers] at h
  | n + 1, b, l, hb, h, i, hi => by
    rw [powers] at h
    by_cases hc : b < max
    · rw [if_pos hc] at h
      obtain ⟨t, ht, rfl⟩ := Option.map_eq_some_iff.1 h
      rw [rnd_repr (by decide) (double_two_mul hb)] at ht
      cases i with
      | zero => simp
      | succ i =>
        have := powers_two (double_two_mul hb) ht i (by simpa using hi)
        simp only [List.getElem_cons_succ]
        rw [this, pow_succ]
        ring
    · rw [if_neg hc] at h
      obtain rfl := Option.some.inj h
      simp at hi

/-- **C113.** With base two, as in all uses, the boundaries are exact. -/
theorem powers_of_two {scale max : ℚ} (hscale : double.Repr scale) {n : Nat} {l : List ℚ}
    (h : scaledPowersOf n 2 scale max = .done l) : ∀ i (hi : i < l.length), l[i] = scale * 2 ^ i := by
  unfold scaledPowersOf at h
  rw [if_neg (by norm_num)] at h
  by_cases hs : scale ≤ 0
  · rw [if_pos hs] at h; cases h
  rw [if_neg hs] at h
  cases hp : powers 2 max n scale with
  | none => rw [hp] at h; cases h
  | some t => rw [hp] at h; cases h; exact powers_two hscale hp

/-- **C113.** The checks are not enough: with the smallest positive number as scale the loop never ends. -/
theorem powers_run_forever : ∀ n, scaledPowersOf n (5 / 4) (1 / 2 ^ 1074) 1 = .running := by
  have hr : double.rnd (1 / 2 ^ 1074 * (5 / 4)) = 1 / 2 ^ 1074 := by decide +kernel
  have hp : ∀ n, powers (5 / 4) 1 n (1 / 2 ^ 1074) = none := by
    intro n
    induction n with
    | zero => rfl
    | succ n ih =>
      rw [powers, if_pos (by rw [div_lt_one (by positivity)]; exact one_lt_pow₀ (by norm_num) (by norm_num)), hr, ih]
      rfl
  intro n
  unfold scaledPowersOf
  rw [if_neg (by norm_num), if_neg (by rw [not_le]; positivity), hp n]

/-! ### The search for an edge length -/

theorem tenth_repr : single.Repr tenth := ⟨13421773, -27, by decide, by decide, by norm_num [tenth, zpow_neg]⟩

theorem single_half {x : ℚ} (hx : single.Repr x) (h : (2 : ℚ) ^ (-120 : Int) ≤ |x|) : single.Repr (x / 2) := by
  obtain ⟨n, hn⟩ := repr_multiple (f := single) (j := -143) (by decide) hx (by
    rw [show single.prec = 24 from rfl]; exact le_trans (two_zpow_le (by norm_num)) h)
  obtain ⟨m, e, h1, h2, rfl⟩ := hx
  rw [show single.emin = -126 from rfl, show single.prec = 24 from rfl] at h2
  push_cast at h2
  by_cases he : -148 ≤ e
  · refine ⟨m, e - 1, h1, ?_, ?_⟩
    · rw [show single.emin = -126 from rfl, show single.prec = 24 from rfl]; push_cast; omega
    · rw [sub_eq_add_neg, zpow_add₀ (by norm_num)]; norm_num; ring
  · exfalso
    have he' : e = -149 := by omega
    subst he'
    rw [abs_mul, abs_of_pos (a := (2 : ℚ) ^ (-149 : Int)) (zpow_pos (by norm_num) _)] at h
    have h3 : |(m : ℚ)| ≤ 2 ^ 24 := by exact_mod_cast h1
    have h4 : (2 : ℚ) ^ (-120 : Int) = 2 ^ 29 * 2 ^ (-149 : Int) := by norm_num [zpow_neg]
    rw [h4] at h
    have := le_of_mul_le_mul_right h (zpow_pos (by norm_num) _)
    linarith

theorem rnd_single {x : ℚ} (hx : single.Repr x) : single.rnd x = x := rnd_repr (by decide) hx

theorem single_err (x : ℚ) : |single.rnd x - x| ≤ 1 / 2 ^ 24 * |x| + 1 / 2 ^ 150 := Verif.FloatCells.single_nearest_half.err x

/-- The middle of two lengths. -/
theorem mid_spec {low high : ℚ} (hl : single.Repr low) (hh : single.Repr high) (h0 : (2 : ℚ) ^ (-120 : Int) ≤ low) (h1 : low ≤ high)
    (h2 : high ≤ 2 * low) :
    single.Repr (single.rnd (single.rnd (low + high) / 2)) ∧ low ≤ single.rnd (single.rnd (low + high) / 2) ∧
      single.rnd (single.rnd (low + high) / 2) ≤ high ∧
      |single.rnd (single.rnd (low + high) / 2) - (low + high) / 2| ≤ low / 2 ^ 22 := by
  have hp : (0 : ℚ) < 2 ^ (-120 : Int) := zpow_pos (by norm_num) _
  have l0 : 0 < low := lt_of_lt_of_le hp h0
  have dbl : ∀ {z : ℚ}, single.Repr z → single.Repr (2 * z) := by
    rintro _ ⟨m, e, a, b, rfl⟩
    exact ⟨m, e + 1, a, by omega, by rw [zpow_add₀ (by norm_num)]; ring⟩
  have s1 : 2 * low ≤ single.rnd (low + high) := by
    have := rnd_mono (f := single) (by decide) (show 2 * low ≤ low + high by linarith)
    rwa [rnd_single (dbl hl)] at this
  have s2 : single.rnd (low + high) ≤ 2 * high := by
    have := rnd_mono (f := single) (by decide) (show low + high ≤ 2 * high by linarith)
    rwa [rnd_single (dbl hh)] at this
  have hr : single.Repr (single.rnd (low + high) / 2) := single_half (repr_rnd _) (by
    rw [abs_of_nonneg (by linarith)]; linarith)
  rw [rnd_single hr]
  refine ⟨hr, by linarith, by linarith, ?_⟩
  have e := single_err (low + high)
  rw [abs_of_nonneg (by linarith : 0 ≤ low + high)] at e
  have h3 : (1 : ℚ) / 2 ^ 150 ≤ low / 2 ^ 24 := by
    have : (1 : ℚ) / 2 ^ 126 ≤ 2 ^ (-120 : Int) := by norm_num [zpow_neg]
    have : (1 : ℚ) / 2 ^ 126 ≤ low := le_trans this h0
    calc (1 : ℚ) / 2 ^ 150 = (1 / 2 ^ 126) / 2 ^ 24 := by norm_num
      _ ≤ low / 2 ^ 24 := div_le_div_of_nonneg_right this (by positivity)
  have a := abs_le.1 e
  rw [abs_le]
  constructor <;> linarith

/-- One more round halves the distance. -/
theorem binary_ends (dense : ℚ → Bool) : ∀ (n : Nat) (low high : ℚ) (tried : List ℚ), single.Repr low → single.Repr high →
    (2 : ℚ) ^ (-120 : Int) ≤ low → low ≤ high → high ≤ 2 * low → high - low ≤ low * (9 / 100 * ((2 ^ n : Nat) : ℚ) + 1 / 2 ^ 20) →
    ∃ mids kept, binary dense (n + 1) low high tried = some ⟨tried ++ mids, kept⟩ ∧ mids.length ≤ n ∧
      (∀ m ∈ mids, low ≤ m ∧ m ≤ high) ∧ (kept = low ∨ kept ∈ mids ∧ dense kept = true) ∧
      ∃ top, (top = high ∨ top ∈ mids ∧ dense top = false) ∧ low ≤ kept ∧ kept ≤ top ∧ top ≤ high ∧ top - kept ≤ kept * (13421774 / 2 ^ 27)
  | n, low, high, tried, hl, hh, h0, h1, h2, h3 => by
    have hp : (0 : ℚ) < 2 ^ (-120 : Int) := zpow_pos (by norm_num) _
    have l0 : 0 < low := lt_of_lt_of_le hp h0
    have hd : single.rnd (high - low) = high - low := rnd_single (sterbenz hh hl (by linarith) h2)
    by_cases hc : tenth < single.rnd (single.rnd (high - low) / low)
    · have hgt : tenth * low < high - low := by
        rw [hd] at hc
        by_contra hle
        have : (high - low) / low ≤ tenth := by rw [div_le_iff₀ l0]; exact not_lt.1 hle
        have := rnd_mono (f := single) (by decide) this
        rw [rnd_single tenth_repr] at this
        linarith
      cases n with
      | zero =>
        exfalso
        norm_num [tenth] at hgt h3
        nlinarith
      | succ n =>
        obtain ⟨m1, m2, m3, m4⟩ := mid_spec hl hh h0 h1 h2
        rw [binary, if_pos hc]
        generalize single.rnd (single.rnd (low + high) / 2) = mid at m1 m2 m3 m4 ⊢
        have a := abs_le.1 m4
        rw [pow_succ] at h3
        push_cast at h3
        have e1 : low / 2 ^ 22 = low * (1 / 2 ^ 22) := by ring
        rw [e1] at a
        have hb : mid - low ≤ low * (9 / 100 * ((2 ^ n : Nat) : ℚ) + 1 / 2 ^ 20) ∧ high - mid ≤ low * (9 / 100 * ((2 ^ n : Nat) : ℚ) + 1 / 2 ^ 20) := by
          push_cast
          constructor <;> nlinarith
        by_cases hdm : dense mid = true
        · rw [if_pos hdm]
          have hpos : 0 ≤ 9 / 100 * ((2 ^ n : Nat) : ℚ) + 1 / 2 ^ 20 := by positivity
          obtain ⟨mids, kept, r1, r2, r3, r4, top, t1, t2, t3, t4, t5⟩ := binary_ends dense n mid high (tried ++ [mid]) m1 hh (by linarith) m3 (by linarith)
            (by have := mul_le_mul_of_nonneg_right m2 hpos; linarith [hb.2])
          refine ⟨mid :: mids, kept, by rw [r1]; simp, by simp; omega, ?_, ?_, top, ?_, by linarith, t3, t4, t5⟩
          · intro m hm
            rcases List.mem_cons.1 hm with rfl | hm
            · exact ⟨m2, m3⟩
            · have := r3 m hm; exact ⟨by linarith, this.2⟩
          · right
            rcases r4 with rfl | ⟨r4, r5⟩
            · exact ⟨List.mem_cons_self .., hdm⟩
            · exact ⟨List.mem_cons_of_mem _ r4, r5⟩
          · rcases t1 with rfl | ⟨t1, t1'⟩
            · exact Or.inl rfl
            · exact Or.inr ⟨List.mem_cons_of_mem _ t1, t1'⟩
        · rw [if_neg hdm]
          obtain ⟨mids, kept, r1, r2, r3, r4, top, t1, t2, t3, t4, t5⟩ := binary_ends dense n low mid (tried ++ [mid]) hl m1 h0 m2 (by linarith) hb.1
          refine ⟨mid :: mids, kept, by rw [r1]; simp, by simp; omega, ?_, ?_, top, ?_, t2, t3, by linarith, t5⟩
          · intro m hm
            rcases List.mem_cons.1 hm with rfl | hm
            · exact ⟨m2, m3⟩
            · have := r3 m hm; exact ⟨this.1, by linarith⟩
          · rcases r4 with rfl | ⟨r4, r5⟩
            · exact Or.inl rfl
            · exact Or.inr ⟨List.mem_cons_of_mem _ r4, r5⟩
          · right
            rcases t1 with rfl | ⟨t1, t1'⟩
            · exact ⟨List.mem_cons_self .., by simpa using hdm⟩
            · exact ⟨List.mem_cons_of_mem _ t1, t1'⟩
    · refine ⟨[], low, by rw [binary, if_neg hc]; simp, by simp, by simp, Or.inl rfl, high, Or.inl rfl, le_rfl, h1, le_rfl, ?_⟩
      by_contra hgt
      have : (13421774 : ℚ) / 2 ^ 27 ≤ (high - low) / low := by rw [le_div_iff₀ l0]; linarith [not_le.1 hgt]
      have := rnd_mono (f := single) (by decide) this
      rw [rnd_single ⟨13421774, -27, by decide, by decide, by norm_num [zpow_neg]⟩, ← hd] at this
      have h4 : tenth < 13421774 / 2 ^ 27 := by norm_num [tenth]
      exact hc (lt_of_lt_of_le h4 this)

/-- The lengths of the outer loop are exact. -/
theorem halving_ends (dense : ℚ → Bool) {max : ℚ} (hmax : single.Repr max) (h0 : (2 : ℚ) ^ (-100 : Int) ≤ max) :
    ∀ (m i : Nat) (kept : ℚ) (tried : List ℚ), m + i = 7 → single.Repr (max / 2 ^ i) → (kept = max / 2 ^ i) →
    ∃ more result, halving dense 5 max (m + 1) (max / 2 ^ i) kept tried = some ⟨tried ++ more, result⟩ ∧ more.length ≤ m + 4 ∧
      (∀ l ∈ more, max / 128 ≤ l ∧ l ≤ max / 2 ^ i) ∧ (result = kept ∨ result ∈ more) ∧
      ((dense result = true ∧ result ∈ more ∧
        ∃ top, (top = max / 2 ^ i ∨ top ∈ more ∧ dense top = false) ∧ result ≤ top ∧ top - result ≤ result * (13421774 / 2 ^ 27)) ∨
        (result = max / 128 ∧ ∀ l ∈ more, dense l = false))
  | m, i, kept, tried, hm, hr, hk => by
    have hp : (0 : ℚ) < 2 ^ (-100 : Int) := zpow_pos (by norm_num) _
    have hp0 : 0 < max := lt_of_lt_of_le hp h0
    have hsmall : (2 : ℚ) ^ (-120 : Int) ≤ max / 256 := by
      have : (2 : ℚ) ^ (-120 : Int) ≤ 2 ^ (-100 : Int) / 256 := by norm_num [zpow_neg]
      have := div_le_div_of_nonneg_right h0 (show (0 : ℚ) ≤ 256 by norm_num)
      linarith
    have he := single_err (hundredth * max)
    rw [abs_of_nonneg (a := hundredth * max) (by norm_num [hundredth]; linarith)] at he
    have he2 : (1 : ℚ) / 2 ^ 150 ≤ max / 2 ^ 30 := by
      have : (1 : ℚ) / 2 ^ 120 ≤ 2 ^ (-100 : Int) := by norm_num [zpow_neg]
      have : (1 : ℚ) / 2 ^ 120 ≤ max := le_trans this h0
      calc (1 : ℚ) / 2 ^ 150 = (1 / 2 ^ 120) / 2 ^ 30 := by norm_num
        _ ≤ max / 2 ^ 30 := div_le_div_of_nonneg_right this (by positivity)
    have ha := abs_le.1 he
    norm_num [hundredth] at ha he2
    cases m with
    | zero =>
      have hi : i = 7 := by omega
      subst hi
      refine ⟨[], kept, ?_, by simp, by simp, Or.inl rfl, Or.inr ⟨by rw [hk]; norm_num, by simp⟩⟩
      rw [halving, if_neg]
      · simp
      · rw [not_lt]
        norm_num [hundredth]
        linarith
    | succ m =>
      have hi : i ≤ 6 := by omega
      have hle : (2 : ℚ) ^ i ≤ 2 ^ 6 := pow_le_pow_right₀ (by norm_num) hi
      have hpi : (0 : ℚ) < 2 ^ i := by positivity
      have hge : max / 64 ≤ max / 2 ^ i := div_le_div_of_nonneg_left hp0.le hpi (by norm_num at hle ⊢; exact hle)
      rw [halving, if_pos (by norm_num [hundredth]; linarith)]
      have hh : single.Repr (max / 2 ^ i / 2) := single_half hr (by rw [abs_of_nonneg (by positivity)]; linarith)
      rw [rnd_single hh]
      have hnext : max / 2 ^ i / 2 = max / 2 ^ (i + 1) := by rw [pow_succ, div_div]
      have hlow : max / 128 ≤ max / 2 ^ i / 2 := by linarith
      have hpos : 0 < max / 2 ^ i := by positivity
      by_cases hd : dense (max / 2 ^ i / 2) = true
      · dsimp only
        rw [if_pos hd]
        obtain ⟨mids, kp, r1, r2, r3, r4, top, t1, t2, t3, t4, t5⟩ := binary_ends dense 4 (max / 2 ^ i / 2) (max / 2 ^ i) (tried ++ [max / 2 ^ i / 2]) hh hr
          (by linarith) (by linarith) (by linarith) (by norm_num; linarith)
        refine ⟨max / 2 ^ i / 2 :: mids, kp, by rw [r1]; simp, by simp; omega, ?_, Or.inr ?_, Or.inl ⟨?_, ?_, top, ?_, t3, t5⟩⟩
        · intro l hl
          rcases List.mem_cons.1 hl with rfl | hl
          · exact ⟨hlow, by linarith⟩
          · have := r3 l hl; exact ⟨by linarith, this.2⟩
        · rcases r4 with rfl | ⟨r4, _⟩
          · exact List.mem_cons_self ..
          · exact List.mem_cons_of_mem _ r4
        · rcases r4 with rfl | ⟨_, r4⟩
          · exact hd
          · exact r4
        · rcases r4 with rfl | ⟨r4, _⟩
          · exact List.mem_cons_self ..
          · exact List.mem_cons_of_mem _ r4
        · rcases t1 with rfl | ⟨t1, t1'⟩
          · exact Or.inl rfl
          · exact Or.inr ⟨List.mem_cons_of_mem _ t1, t1'⟩
      · dsimp only
        rw [if_neg hd]
        rw [hnext] at hd hlow hh ⊢
        obtain ⟨more, result, r1, r2, r3, r5, r4⟩ := halving_ends dense hmax h0 m (i + 1) (max / 2 ^ (i + 1)) (tried ++ [max / 2 ^ (i + 1)]) (by omega) hh rfl
        have hlt : max / 2 ^ (i + 1) ≤ max / 2 ^ i := by rw [← hnext]; linarith
        refine ⟨max / 2 ^ (i + 1) :: more, result, by rw [r1]; simp, by simp; omega, ?_, Or.inr ?_, ?_⟩
        · intro l hl
          rcases List.mem_cons.1 hl with rfl | hl
          · exact ⟨hlow, hlt⟩
          · have := r3 l hl; exact ⟨this.1, by linarith⟩
        · rcases r5 with rfl | r5
          · exact List.mem_cons_self ..
          · exact List.mem_cons_of_mem _ r5
        · rcases r4 with ⟨a, b, top, t1, t2, t3⟩ | ⟨a, b⟩
          · refine Or.inl ⟨a, List.mem_cons_of_mem _ b, top, Or.inr ?_, t2, t3⟩
            rcases t1 with rfl | ⟨t1, t1'⟩
            · exact ⟨List.mem_cons_self .., by simpa using hd⟩
            · exact ⟨List.mem_cons_of_mem _ t1, t1'⟩
          · refine Or.inr ⟨a, fun l hl => ?_⟩
            rcases List.mem_cons.1 hl with rfl | hl
            · simpa using hd
            · exact b l hl

theorem binary_fuel (dense : ℚ → Bool) : ∀ {n m : Nat} {low high : ℚ} {t : List ℚ} {r : Search}, n ≤ m →
    binary dense n low high t = some r → binary dense m low high t = some r
  | 0, _, _, _, _, _, _, h => by simp [binary] at h
  | n + 1, 0, _, _, _, _, hm, _ => by omega
  | n + 1, m + 1, low, high, t, r, hm, h => by
    simp only [binary] at h ⊢
    split_ifs at h ⊢
    · exact binary_fuel dense (by omega) h
    · exact binary_fuel dense (by omega) h
    · exact h

theorem halving_fuel (dense : ℚ → Bool) {n n' : Nat} {max : ℚ} (hn : n ≤ n') : ∀ {k m : Nat} {high kept : ℚ} {t : List ℚ} {r : Search}, k ≤ m →
    halving dense n max k high kept t = some r → halving dense n' max m high kept t = some r
  | 0, _, _, _, _, _, _, h => by simp [halving] at h
  | k + 1, 0, _, _, _, _, hm, _ => by omega
  | k + 1, m + 1, high, kept, t, r, hm, h => by
    simp only [halving] at h ⊢
    split_ifs at h ⊢
    · exact binary_fuel dense hn h
    · exact halving_fuel dense hn (by omega) h
    · exact h

/-- **C113.** The search for an edge length ends for every maximal length that is not absurdly small, whatever the point cloud
is: after at most twelve filterings, all of them with an edge length between 1/128 of the maximal length and the maximal
length. Either the kept length leaves enough points and a length at most ten percent larger was tried and does not, or it is
the maximal length and leaves enough points, or no tried length leaves enough points. -/
theorem adaptive_ends (dense : ℚ → Bool) {max : ℚ} (hmax : single.Repr max) (h0 : (2 : ℚ) ^ (-100 : Int) ≤ max) {n : Nat} (hn : 8 ≤ n) :
    ∃ r, adaptive dense n max = some r ∧ r.tried.length ≤ 12 ∧ (∀ l ∈ r.tried, max / 128 ≤ l ∧ l ≤ max) ∧ r.kept ∈ r.tried ∧
      ((dense r.kept = true ∧ (r.kept = max ∨ ∃ top ∈ r.tried, dense top = false ∧ r.kept ≤ top ∧ top ≤ r.kept * (1 + 13421774 / 2 ^ 27))) ∨
        ∀ l ∈ r.tried, dense l = false) := by
  have hp0 : 0 < max := lt_of_lt_of_le (zpow_pos (by norm_num) _) h0
  unfold adaptive
  by_cases hd : dense max = true
  · rw [if_pos hd]
    refine ⟨_, rfl, by simp, ?_, by simp, Or.inl ⟨hd, Or.inl rfl⟩⟩
    intro l hl
    rw [List.mem_singleton.1 hl]
    exact ⟨by linarith, le_rfl⟩
  · rw [if_neg hd]
    have hd' : dense max = false := by simpa using hd
    obtain ⟨more, result, r1, r2, r3, r5, r4⟩ := halving_ends dense hmax h0 7 0 max [max] rfl (by simpa using hmax) (by simp)
    rw [pow_zero, div_one] at r1 r3 r4
    refine ⟨_, halving_fuel dense (by omega) hn r1, by simp; omega, ?_, ?_, ?_⟩
    · intro l hl
      rcases List.mem_cons.1 hl with rfl | hl
      · exact ⟨by linarith, le_rfl⟩
      · exact r3 l hl
    · rcases r5 with rfl | r5
      · exact List.mem_cons_self ..
      · exact List.mem_cons_of_mem _ r5
    · rcases r4 with ⟨a, b, top, t1, t2, t3⟩ | ⟨a, b⟩
      · refine Or.inl ⟨a, Or.inr ⟨top, ?_, ?_, t2, by linarith⟩⟩
        · rcases t1 with rfl | ⟨t1, _⟩
          · exact List.mem_cons_self ..
          · exact List.mem_cons_of_mem _ t1
        · rcases t1 with rfl | ⟨_, t1⟩
          · exact hd'
          · exact t1
      · refine Or.inr fun l hl => ?_
        rcases List.mem_cons.1 hl with rfl | hl
        · exact hd'
        · exact b l hl

/-- **C113.** For the smallest positive length the binary search never ends: the middle of two neighbouring numbers is one
of them. -/
theorem binary_runs_forever : ∀ n t, binary (fun l => decide (l ≤ 1 / 2 ^ 149)) n (1 / 2 ^ 149) (2 / 2 ^ 149) t = none := by
  have h1 : tenth < single.rnd (single.rnd (2 / 2 ^ 149 - 1 / 2 ^ 149) / (1 / 2 ^ 149)) := by decide +kernel
  have h2 : single.rnd (single.rnd (1 / 2 ^ 149 + 2 / 2 ^ 149) / 2) = 2 / 2 ^ 149 := by decide +kernel
  intro n
  induction n with
  | zero => intro t; rfl
  | succ n ih =>
    intro t
    rw [binary, if_pos h1]
    dsimp only
    rw [h2, if_neg (by rw [decide_eq_true_eq, not_le]; norm_num), ih]

/-! ### Examples -/

/-- The constants are the roundings of their decimal texts and of a neighbourhood of `π`. -/
example : single.rnd (1 / 10) = tenth ∧ single.rnd (1 / 100) = hundredth ∧ single.rnd pi64 = pi32 ∧
    double.rnd (314159265358979323846 / 100000000000000000000) = pi64 := by decide +kernel

/-- One turn and a bit: one round, exact. -/
example : normalizeAngle 3 7 = some (7 - 2 * pi64) ∧ normalizeAngle 3 (-7) = some (2 * pi64 - 7) ∧ normalizeAngle 1 3 = some 3 := by
  decide +kernel

/-- A `double` for which the loop does not end. -/
example : double.rnd (2 ^ 56 + 16 - 2 * pi64) = 2 ^ 56 + 16 ∧ double.rnd (2 ^ 56 - 2 * pi64) = 2 ^ 56 - 8 := by decide +kernel

example : ∀ n, normalizeAngle n (2 ^ 60) = none := by
  intro n
  cases h : normalizeAngle n (2 ^ 60) with
  | none => rfl
  | some r =>
    have := (normalize_ends_iff ⟨1, 60, by decide, by decide, by norm_num⟩).1 ⟨n, r, h⟩
    norm_num at this

/-- The half turn is closed at both ends, unlike the comment "[0, pi)" says. -/
example : halfTurn 2 pi32 = some pi32 ∧ halfTurn 2 0 = some 0 ∧ halfTurn 2 (-1 / 2 ^ 60) = some pi32 ∧ halfTurn 3 4 = some (4 - pi32) := by
  decide +kernel

/-- The boundaries of the histograms of the code (local_trajectory_builder_2d.cc:350-361, constraint_builder_2d.cc:333). -/
example : (fixedWidth (double.rnd (5 / 100)) 20).length = 20 ∧
    (fixedWidth (double.rnd (5 / 100)) 20).Pairwise (· < ·) :=
  ⟨(fixedWidth_sorted (repr_rnd _) (by decide +kernel) (by norm_num)).1,
    (List.pairwise_cons.1 (fixedWidth_sorted (repr_rnd _) (by decide +kernel) (by norm_num)).2).2⟩

/-- The third boundary is not the rounding of three times the width. -/
example : (fixedWidth (double.rnd (5 / 100)) 3)[2]? ≠ some (double.rnd (15 / 100)) := by decide +kernel

example : scaledPowersOf 15 2 (double.rnd (1 / 100)) 100 = .done ((List.range 14).map fun i => double.rnd (1 / 100) * 2 ^ i) := by
  decide +kernel

example : scaledPowersOf 5 1 1 100 = .failed ∧ scaledPowersOf 5 2 0 100 = .failed ∧ scaledPowersOf 5 2 1 1 = .done [] := by decide +kernel

/-- A search with two thirds as the largest length that leaves enough points. -/
example : (adaptive (fun l => decide (l ≤ 2 / 3)) 8 1).map (fun r => (r.tried, r.kept)) =
    some ([1, 1 / 2, 3 / 4, 5 / 8, 11 / 16], 5 / 8) := by decide +kernel

/-- No length leaves enough points: eight filterings. -/
example : (adaptive (fun _ => false) 8 1).map (fun r => (r.tried.length, r.kept)) = some (8, 1 / 128) := by decide +kernel

end Verif.FloatLoops
