import Verif.Time
import Mathlib.Tactic.Linarith
import Mathlib.Tactic.Ring
import Mathlib.Tactic.NormNum
import Mathlib.Tactic.Positivity
import Mathlib.Tactic.FieldSimp
import Mathlib.Tactic.LinearCombination

/-!
# C45: times and durations
-/

namespace Verif.Ticks

theorem toInt64_eq_some {n m : Int} : toInt64 n = some m ↔ Int64 n ∧ n = m := by
  unfold toInt64; split <;> simp [*]

theorem toInt64_eq_none {n : Int} : toInt64 n = none ↔ ¬ Int64 n := by
  unfold toInt64; split <;> simp [*]

/-! ### Rounding -/

theorem roundEven_error (x : ℚ) : |(roundEven x : ℚ) - x| ≤ 1 / 2 := by
  have h1 := Int.floor_le x
  have h2 := Int.lt_floor_add_one x
  unfold roundEven
  rw [abs_le]
  split_ifs <;> push_cast <;> constructor <;> linarith

theorem le_roundEven {x : ℚ} {n : Int} (h : (n : ℚ) ≤ x) : n ≤ roundEven x := by
  have := Int.le_floor.2 h
  unfold roundEven
  split_ifs <;> omega

theorem roundEven_le {x : ℚ} {n : Int} (h : x ≤ (n : ℚ)) : roundEven x ≤ n := by
  have h1 := Int.floor_le x
  have h2 : ⌊x⌋ ≤ n := by
    have : ((⌊x⌋ : Int) : ℚ) ≤ n := le_trans h1 h
    exact_mod_cast this
  unfold roundEven
  by_cases heq : ⌊x⌋ = n
  · have : x - ⌊x⌋ < 1 / 2 := by rw [heq]; linarith
    rw [if_pos this]; omega
  · split_ifs <;> omega

theorem roundEven_int (n : Int) : roundEven (n : ℚ) = n :=
  le_antisymm (roundEven_le le_rfl) (le_roundEven le_rfl)

theorem ulp_pos (x : ℚ) : 0 < ulp x := zpow_pos (by norm_num) _

theorem rnd_error (x : ℚ) : |rnd x - x| ≤ ulp x / 2 := by
  have hp := ulp_pos x
  have h := roundEven_error (x / ulp x)
  have : rnd x - x = ((roundEven (x / ulp x) : ℚ) - x / ulp x) * ulp x := by
    unfold rnd; field_simp
  rw [this, abs_mul, abs_of_pos hp]
  nlinarith

/-- Multiples of the distance of neighbouring doubles bound the rounded value. -/
theorem le_rnd {x : ℚ} {m : Int} (h : m * ulp x ≤ x) : m * ulp x ≤ rnd x := by
  have hp := ulp_pos x
  unfold rnd
  apply mul_le_mul_of_nonneg_right _ hp.le
  have : m ≤ roundEven (x / ulp x) := le_roundEven (by rwa [le_div_iff₀ hp])
  exact_mod_cast this

theorem rnd_le {x : ℚ} {m : Int} (h : x ≤ m * ulp x) : rnd x ≤ m * ulp x := by
  have hp := ulp_pos x
  unfold rnd
  apply mul_le_mul_of_nonneg_right _ hp.le
  have : roundEven (x / ulp x) ≤ m := roundEven_le (by rwa [div_le_iff₀ hp])
  exact_mod_cast this

theorem log_lt {x : ℚ} {e : Int} (h : |x| < 2 ^ (e + 1)) (he : 0 ≤ e) : Int.log 2 |x| ≤ e := by
  rcases (abs_nonneg x).eq_or_lt with h0 | h0
  · rw [← h0, Int.log_zero_right]; exact he
  · have := (Int.lt_zpow_iff_log_lt (b := 2) (by norm_num) h0).1 (by exact_mod_cast h)
    omega

/-- Below 2⁵³ every integer is a multiple of the distance of neighbouring doubles. -/
theorem int_multiple {x : ℚ} (h : |x| < 2 ^ 53) (n : Int) : ∃ m : Int, (n : ℚ) = m * ulp x := by
  have hl := log_lt (e := 52) (x := x) (by exact_mod_cast h) (by norm_num)
  set e := max (Int.log 2 |x|) (-1022) - 52 with he
  have : e ≤ 0 := by omega
  obtain ⟨k, hk⟩ := Int.eq_ofNat_of_zero_le (a := -e) (by omega)
  refine ⟨n * 2 ^ k, ?_⟩
  have hu : ulp x = ((2 : ℚ) ^ k)⁻¹ := by
    unfold ulp
    rw [← he, show e = -(k : Int) by omega, zpow_neg, zpow_natCast]
  rw [hu]
  push_cast
  field_simp

theorem le_rnd_int {x : ℚ} (h : |x| < 2 ^ 53) {n : Int} (hn : (n : ℚ) ≤ x) : (n : ℚ) ≤ rnd x := by
  obtain ⟨m, hm⟩ := int_multiple h n
  rw [hm] at hn ⊢
  exact le_rnd hn

theorem rnd_int_le {x : ℚ} (h : |x| < 2 ^ 53) {n : Int} (hn : x ≤ (n : ℚ)) : rnd x ≤ (n : ℚ) := by
  obtain ⟨m, hm⟩ := int_multiple h n
  rw [hm] at hn ⊢
  exact rnd_le hn

theorem rnd_int {n : Int} (h : |(n : ℚ)| < 2 ^ 53) : rnd n = n :=
  le_antisymm (rnd_int_le h le_rfl) (le_rnd_int h le_rfl)

theorem rnd_nonneg {x : ℚ} (h : 0 ≤ x) : 0 ≤ rnd x := by
  have := le_rnd (x := x) (m := 0) (by simpa using h)
  simpa using this

theorem rnd_nonpos {x : ℚ} (h : x ≤ 0) : rnd x ≤ 0 := by
  have := rnd_le (x := x) (m := 0) (by simpa using h)
  simpa using this

theorem trunc_error (x : ℚ) : |(trunc x : ℚ) - x| < 1 := by
  unfold trunc
  split
  · rw [abs_lt]; constructor <;> linarith [Int.floor_le x, Int.lt_floor_add_one x]
  · rw [abs_lt]; constructor <;> linarith [Int.le_ceil x, Int.ceil_lt_add_one x]

theorem trunc_int (n : Int) : trunc (n : ℚ) = n := by
  unfold trunc; split <;> simp

theorem le_trunc {x : ℚ} {n : Int} (h : (n : ℚ) ≤ x) : n ≤ trunc x := by
  unfold trunc
  split
  · exact Int.le_floor.2 h
  · have : (n : ℚ) ≤ ⌈x⌉ := le_trans h (Int.le_ceil x)
    exact_mod_cast this

theorem trunc_le {x : ℚ} {n : Int} (h : x ≤ (n : ℚ)) : trunc x ≤ n := by
  unfold trunc
  split
  · have : (⌊x⌋ : ℚ) ≤ n := le_trans (Int.floor_le x) h
    exact_mod_cast this
  · exact Int.ceil_le.2 h

/-- From 2⁵³ on all doubles are integers. -/
theorem rnd_isInt {x : ℚ} (h : 2 ^ 53 ≤ |x|) : ∃ m : Int, rnd x = m := by
  have hl : 53 ≤ Int.log 2 |x| := by
    apply (Int.zpow_le_iff_le_log (b := 2) (by norm_num) (by linarith [show (0 : ℚ) < 2 ^ 53 by norm_num])).1
    exact_mod_cast h
  set e := max (Int.log 2 |x|) (-1022) - 52 with he
  obtain ⟨k, hk⟩ := Int.eq_ofNat_of_zero_le (a := e) (by omega)
  refine ⟨roundEven (x / ulp x) * 2 ^ k, ?_⟩
  have hu : ulp x = (2 : ℚ) ^ k := by
    unfold ulp
    rw [← he, hk]; exact zpow_natCast 2 k
  conv_lhs => unfold rnd
  rw [hu]
  push_cast
  rfl

/-- Rounding and truncation together: below 2⁵³ less than one tick, above half the distance of neighbouring doubles. -/
theorem trunc_rnd_error (x : ℚ) :
    (|x| < 2 ^ 53 → |(trunc (rnd x) : ℚ) - x| < 1) ∧ (2 ^ 53 ≤ |x| → |(trunc (rnd x) : ℚ) - x| ≤ ulp x / 2) := by
  constructor
  · intro h
    have hf := Int.floor_le x
    have hc := Int.le_ceil x
    have h1 := le_rnd_int h hf
    have h2 := rnd_int_le h hc
    have h3 : ((⌊x⌋ : Int) : ℚ) ≤ trunc (rnd x) := by exact_mod_cast le_trunc h1
    have h4 : (trunc (rnd x) : ℚ) ≤ (⌈x⌉ : Int) := by exact_mod_cast trunc_le h2
    have h5 := Int.lt_floor_add_one x
    have h6 := Int.ceil_lt_add_one x
    rw [abs_lt]; constructor <;> linarith
  · intro h
    obtain ⟨m, hm⟩ := rnd_isInt h
    have := rnd_error x
    rw [hm] at this ⊢
    rwa [trunc_int]

/-! ### Theorems -/

/-- **C45.** Converting to universal ticks and back is the identity, both ways. -/
theorem universal_inverse (n : Int) (t : Time) : toUniversal (fromUniversal n) = n ∧ fromUniversal (toUniversal t) = t :=
  ⟨rfl, rfl⟩

/-- **C45.** The conversion preserves the order. -/
theorem universal_order (n m : Int) : before (fromUniversal n) (fromUniversal m) = true ↔ n < m := by
  unfold before fromUniversal
  exact decide_eq_true_iff

/-- **C45.** The conversion preserves differences; the difference is undefined exactly if it does not fit into 64 bits. -/
theorem universal_difference (n m : Int) :
    (∀ d, minus (fromUniversal n) (fromUniversal m) = some d → d.count = n - m) ∧
      (minus (fromUniversal n) (fromUniversal m) = none ↔ ¬ Int64 (n - m)) := by
  refine ⟨fun d h => ?_, ?_⟩
  · simp only [minus, fromUniversal, Option.map_eq_some_iff, toInt64_eq_some] at h
    obtain ⟨k, ⟨-, rfl⟩, rfl⟩ := h
    rfl
  · simp [minus, fromUniversal, toInt64_eq_none]

/-- Two valid times may have a difference that is not defined. -/
theorem difference_overflow : ∃ n m, Int64 n ∧ Int64 m ∧ minus (fromUniversal n) (fromUniversal m) = none :=
  ⟨9223372036854775807, -1, by decide, by decide, by decide⟩

/-- Adding the difference of two times to the second one yields the first. -/
theorem plus_minus {a b : Time} {d : Duration} (ha : Int64 (toUniversal a)) (h : minus a b = some d) : plus b d = some a := by
  simp only [minus, Option.map_eq_some_iff, toInt64_eq_some] at h
  obtain ⟨k, ⟨-, rfl⟩, rfl⟩ := h
  simp only [plus, Option.map_eq_some_iff, toInt64_eq_some]
  refine ⟨toUniversal a, ⟨?_, ?_⟩, rfl⟩ <;> simp only [toUniversal] at * <;> first | omega | skip
  have : b.sinceEpoch.count + (a.sinceEpoch.count - b.sinceEpoch.count) = a.sinceEpoch.count := by omega
  rw [this]; exact ha

/-- **C45.** Milliseconds are converted exactly. -/
theorem fromMilliseconds_exact (ms : Int) :
    (∀ d, fromMilliseconds ms = some d → d.count = 10000 * ms) ∧ (fromMilliseconds ms = none ↔ ¬ Int64 (10000 * ms)) := by
  refine ⟨fun d h => ?_, ?_⟩
  · simp only [fromMilliseconds, Option.map_eq_some_iff, toInt64_eq_some] at h
    obtain ⟨k, ⟨-, rfl⟩, rfl⟩ := h
    simp only; omega
  · simp only [fromMilliseconds, Option.map_eq_none_iff, toInt64_eq_none, Int.mul_comm]

/-- **C45 (partial).** Seconds are converted with an error of less than one tick as long as the duration is below 2⁵³
ticks, about 28.5 years. Missing: longer durations, where the statement is false (`fromSeconds_inexact`). -/
theorem fromSeconds_error_partial {s : ℚ} {d : Duration} (h : fromSeconds s = some d) (hs : |s * 10000000| < 2 ^ 53) :
    |(d.count : ℚ) - s * 10000000| < 1 := by
  simp only [fromSeconds, Option.map_eq_some_iff, toInt64_eq_some] at h
  obtain ⟨k, ⟨-, rfl⟩, rfl⟩ := h
  exact (trunc_rnd_error _).1 hs

/-- For longer durations the error is at most half the distance of neighbouring doubles. -/
theorem fromSeconds_error_long {s : ℚ} {d : Duration} (h : fromSeconds s = some d) (hs : 2 ^ 53 ≤ |s * 10000000|) :
    |(d.count : ℚ) - s * 10000000| ≤ 2 ^ (Int.log 2 |s * 10000000| - 53) := by
  simp only [fromSeconds, Option.map_eq_some_iff, toInt64_eq_some] at h
  obtain ⟨k, ⟨-, rfl⟩, rfl⟩ := h
  have hl : 53 ≤ Int.log 2 |s * 10000000| := by
    apply (Int.zpow_le_iff_le_log (b := 2) (by norm_num) (by linarith [show (0 : ℚ) < 2 ^ 53 by norm_num])).1
    exact_mod_cast hs
  have := (trunc_rnd_error _).2 hs
  unfold ulp at this
  rw [max_eq_left (by omega)] at this
  rw [show Int.log 2 |s * 10000000| - 53 = (Int.log 2 |s * 10000000| - 52) - 1 by ring, zpow_sub_one₀ (by norm_num)]
  simpa [div_eq_mul_inv] using this

/-- So up to 2⁵⁴ ticks the error is at most one tick. -/
theorem fromSeconds_error_one {s : ℚ} {d : Duration} (h : fromSeconds s = some d) (hs : |s * 10000000| < 2 ^ 54) :
    |(d.count : ℚ) - s * 10000000| ≤ 1 := by
  by_cases h53 : |s * 10000000| < 2 ^ 53
  · exact (fromSeconds_error_partial h h53).le
  · push Not at h53
    have h1 := fromSeconds_error_long h h53
    have h2 := log_lt (e := 53) (x := s * 10000000) (by exact_mod_cast hs) (by norm_num)
    refine le_trans h1 ?_
    calc (2 : ℚ) ^ (Int.log 2 |s * 10000000| - 53) ≤ 2 ^ (0 : Int) := zpow_le_zpow_right₀ (by norm_num) (by omega)
      _ = 1 := by norm_num

/-- `FromSeconds` is defined for all durations of up to 9·10¹¹ seconds, about 28500 years. -/
theorem fromSeconds_defined {s : ℚ} (hs : |s| ≤ 900000000000) : ∃ d, fromSeconds s = some d := by
  set x := s * 10000000 with hx
  have hxb : |x| ≤ 9000000000000000000 := by
    rw [hx, abs_mul, abs_of_pos (show (0 : ℚ) < 10000000 by norm_num)]; linarith
  have h2 := log_lt (e := 62) (x := x) (by refine lt_of_le_of_lt hxb ?_; norm_num) (by norm_num)
  have hu : ulp x ≤ 1024 := by
    unfold ulp
    calc (2 : ℚ) ^ (max (Int.log 2 |x|) (-1022) - 52) ≤ 2 ^ (10 : Int) := zpow_le_zpow_right₀ (by norm_num) (by omega)
      _ = 1024 := by norm_num
  have h3 : |(trunc (rnd x) : ℚ) - x| ≤ 512 := by
    by_cases h53 : |x| < 2 ^ 53
    · linarith [(trunc_rnd_error x).1 h53]
    · linarith [(trunc_rnd_error x).2 (not_lt.1 h53)]
  have h4 : Int64 (trunc (rnd x)) := by
    rw [abs_le] at h3 hxb
    constructor
    · have : (-9223372036854775808 : ℚ) ≤ trunc (rnd x) := by linarith [h3.1, hxb.1]
      exact_mod_cast this
    · have : (trunc (rnd x) : ℚ) ≤ 9223372036854775807 := by linarith [h3.2, hxb.2]
      exact_mod_cast this
  exact ⟨⟨trunc (rnd x)⟩, by simp [fromSeconds, toInt64, ← hx, h4]⟩

/-- Conversion to seconds has a relative error of at most 2⁻⁵³ for durations below 2⁵³ ticks. -/
theorem toSeconds_error {d : Duration} (hd : |(d.count : ℚ)| < 2 ^ 53) :
    |toSeconds d - d.count / 10000000| ≤ |(d.count : ℚ)| / 10000000 / 2 ^ 53 := by
  unfold toSeconds
  rw [rnd_int hd]
  by_cases h0 : d.count = 0
  · have : rnd 0 = 0 := by simpa using rnd_int (n := 0) (by norm_num)
    rw [h0]; simp [this]
  · refine le_trans (rnd_error _) ?_
    have hx : |(d.count : ℚ) / 10000000| = |(d.count : ℚ)| / 10000000 := by
      rw [abs_div, abs_of_pos (show (0 : ℚ) < 10000000 by norm_num)]
    have h1 : (1 : ℚ) ≤ |(d.count : ℚ)| := by
      have : 1 ≤ |d.count| := Int.one_le_abs h0
      exact_mod_cast this
    have hpos : 0 < |(d.count : ℚ) / 10000000| := by rw [hx]; linarith
    have hl : -24 ≤ Int.log 2 |(d.count : ℚ) / 10000000| := by
      apply (Int.zpow_le_iff_le_log (b := 2) (by norm_num) hpos).1
      rw [hx]
      refine le_trans ?_ (div_le_div_of_nonneg_right h1 (by norm_num))
      norm_num
    have hp := Int.zpow_log_le_self (b := 2) (by norm_num) hpos
    unfold ulp
    rw [max_eq_left (by omega), zpow_sub₀ (by norm_num), ← hx]
    rw [div_div, div_le_div_iff₀ (by norm_num) (by norm_num)]
    push_cast at hp
    norm_num at hp ⊢
    linarith

/-- Converting a duration below 2⁵³ ticks to seconds and back changes it by at most one tick. -/
theorem roundtrip_error {d : Duration} (hd : |(d.count : ℚ)| < 2 ^ 53) :
    ∃ d', fromSeconds (toSeconds d) = some d' ∧ |d'.count - d.count| ≤ 1 := by
  have h := toSeconds_error hd
  set x := toSeconds d * 10000000 with hx
  have h1 : |x - d.count| < 1 := by
    have : x - d.count = (toSeconds d - d.count / 10000000) * 10000000 := by rw [hx]; ring
    rw [this, abs_mul, abs_of_pos (show (0 : ℚ) < 10000000 by norm_num)]
    have h2 : |(d.count : ℚ)| / 10000000 / 2 ^ 53 * 10000000 < 1 := by
      rw [div_div, div_mul_eq_mul_div, div_lt_one (by norm_num)]
      norm_num at hd ⊢
      linarith
    nlinarith
  have hd' : |d.count| ≤ 2 ^ 53 - 1 := by
    have : |d.count| < 2 ^ 53 := by exact_mod_cast hd
    omega
  obtain ⟨hb1, hb2⟩ := abs_le.1 hd'
  obtain ⟨h11, h12⟩ := abs_lt.1 h1
  have hb1' : (-(2 ^ 53 - 1) : ℚ) ≤ d.count := by exact_mod_cast hb1
  have hb2' : (d.count : ℚ) ≤ 2 ^ 53 - 1 := by exact_mod_cast hb2
  have hxb : |x| < 2 ^ 53 := by rw [abs_lt]; constructor <;> linarith
  have h3 : d.count - 1 ≤ trunc (rnd x) := le_trunc (le_rnd_int hxb (by push_cast; linarith))
  have h4 : trunc (rnd x) ≤ d.count + 1 := trunc_le (rnd_int_le hxb (by push_cast; linarith))
  have h5 : Int64 (trunc (rnd x)) := by
    constructor
    · norm_num at hb1; omega
    · norm_num at hb2; omega
  refine ⟨⟨trunc (rnd x)⟩, by simp [fromSeconds, toInt64, ← hx, h5], ?_⟩
  rw [abs_le]; constructor <;> simp only <;> omega

/-! ### Concrete values -/

/-- A helper to evaluate `rnd`. -/
theorem rnd_eq {x : ℚ} {e : Int} (h1 : (2 : ℚ) ^ e ≤ |x|) (h2 : |x| < 2 ^ (e + 1)) (he : -1022 ≤ e) :
    rnd x = roundEven (x / 2 ^ (e - 52)) * 2 ^ (e - 52) := by
  have hpos : 0 < |x| := lt_of_lt_of_le (zpow_pos (by norm_num) _) h1
  have g1 := (Int.zpow_le_iff_le_log (b := 2) (by norm_num) hpos).1 (by exact_mod_cast h1)
  have g2 := (Int.lt_zpow_iff_log_lt (b := 2) (by norm_num) hpos).1 (by exact_mod_cast h2)
  have : ulp x = 2 ^ (e - 52) := by
    unfold ulp
    rw [show Int.log 2 |x| = e by omega, max_eq_left he]
  unfold rnd
  rw [this]

theorem roundEven_eq {x : ℚ} {n : Int} (h : |(n : ℚ) - x| < 1 / 2) : roundEven x = n := by
  have h1 := roundEven_error x
  have h2 : |((roundEven x - n : Int) : ℚ)| < 1 := by
    rw [abs_lt] at *
    rw [abs_le] at h1
    push_cast
    constructor <;> linarith [h.1, h.2, h1.1, h1.2]
  have : |roundEven x - n| < 1 := by exact_mod_cast h2
  rw [abs_lt] at this
  omega

/-- **C45, negation.** The integer number of seconds 461168601843, which is a double, is converted with an error of 128
ticks. -/
theorem fromSeconds_inexact : ∃ (s : ℚ) (d : Duration), rnd s = s ∧ fromSeconds s = some d ∧
    128 ≤ |(d.count : ℚ) - s * 10000000| := by
  refine ⟨461168601843, ⟨4611686018430000128⟩, ?_, ?_, by norm_num⟩
  · have := rnd_int (n := 461168601843) (by norm_num)
    exact_mod_cast this
  · have : rnd (461168601843 * 10000000) = ((4611686018430000128 : Int) : ℚ) := by
      rw [rnd_eq (e := 62) (by norm_num) (by norm_num) (by norm_num),
        roundEven_eq (n := 4503599627373047) (by norm_num [abs_lt])]
      norm_num
    unfold fromSeconds
    rw [this, trunc_int]
    decide

/-- Converting to seconds and back is not the identity: 21 ticks become 20. -/
theorem roundtrip_lossy : fromSeconds (toSeconds ⟨21⟩) = some ⟨20⟩ := by
  have h1 : rnd (21 : ℚ) = 21 := by
    have := rnd_int (n := 21) (by norm_num)
    exact_mod_cast this
  have h2 : rnd ((21 : ℚ) / 10000000) = 4958484807013127 / 2361183241434822606848 := by
    rw [rnd_eq (e := -19) (by norm_num [abs_of_pos]) (by norm_num [abs_of_pos]) (by norm_num),
      roundEven_eq (n := 4958484807013127) (by norm_num [abs_lt])]
    norm_num
  have h3 : rnd ((4958484807013127 : ℚ) / 2361183241434822606848 * 10000000) = 5910974510923775 / 281474976710656 := by
    rw [rnd_eq (e := 4) (by norm_num [abs_of_pos]) (by norm_num [abs_of_pos]) (by norm_num),
      roundEven_eq (n := 5910974510923775) (by norm_num [abs_lt])]
    norm_num
  have h4 : trunc ((5910974510923775 : ℚ) / 281474976710656) = 20 := by
    unfold trunc
    rw [if_pos (by norm_num), Int.floor_eq_iff]
    norm_num
  unfold fromSeconds toSeconds
  simp only
  push_cast
  rw [h1, h2, h3, h4]
  decide

/-- A quarter of a second is two and a half million ticks. -/
example : fromMilliseconds 250 = some ⟨2500000⟩ := rfl

/-- More milliseconds than fit. -/
example : fromMilliseconds 922337203685478 = none := rfl

end Verif.Ticks
