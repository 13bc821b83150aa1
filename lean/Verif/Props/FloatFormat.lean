import Verif.FloatFormat
import Verif.Props.Time

/-!
# Rounding to floating point numbers
-/

namespace Verif.Fp

open Ticks (roundEven)

/-- The numbers of a format, described without reference to rounding. -/
def Format.Repr (f : Format) (y : ℚ) : Prop :=
  ∃ m e : Int, |m| ≤ 2 ^ f.prec ∧ f.emin - (f.prec - 1) ≤ e ∧ y = m * 2 ^ e

/-- A rounding to integers: monotone and the identity on integers. -/
structure IsIntRounding (g : ℚ → Int) : Prop where
  mono : ∀ {x y : ℚ}, x ≤ y → g x ≤ g y
  int : ∀ n : Int, g n = n

theorem IsIntRounding.error {g : ℚ → Int} (h : IsIntRounding g) (x : ℚ) : |(g x : ℚ) - x| ≤ 1 := by
  have h1 := h.mono (Int.floor_le x)
  have h2 := h.mono (Int.le_ceil x)
  rw [h.int] at h1 h2
  have h1' : ((⌊x⌋ : Int) : ℚ) ≤ g x := by exact_mod_cast h1
  have h2' : (g x : ℚ) ≤ (⌈x⌉ : Int) := by exact_mod_cast h2
  rw [abs_le]
  constructor <;> linarith [Int.lt_floor_add_one x, Int.ceil_lt_add_one x]

theorem roundEven_mono {x y : ℚ} (h : x ≤ y) : roundEven x ≤ roundEven y := by
  rcases (Int.floor_mono h).lt_or_eq with hf | hf
  · have h1 : roundEven x ≤ ⌊x⌋ + 1 := Ticks.roundEven_le (by push_cast; exact (Int.lt_floor_add_one x).le)
    have h2 : ⌊y⌋ ≤ roundEven y := Ticks.le_roundEven (Int.floor_le y)
    omega
  · unfold roundEven
    rw [hf]
    have : x - (⌊y⌋ : Int) ≤ y - (⌊y⌋ : Int) := by linarith
    split_ifs <;> first | omega | (exfalso; linarith)

theorem isInt_roundEven : IsIntRounding roundEven := ⟨roundEven_mono, Ticks.roundEven_int⟩
theorem isInt_floor : IsIntRounding (fun x => ⌊x⌋) := ⟨fun h => Int.floor_mono h, fun n => Int.floor_intCast n⟩
theorem isInt_ceil : IsIntRounding (fun x => ⌈x⌉) := ⟨fun h => Int.ceil_mono h, fun n => Int.ceil_intCast n⟩

theorem isInt_trunc : IsIntRounding Ticks.trunc := by
  refine ⟨fun {x y} h => ?_, Ticks.trunc_int⟩
  unfold Ticks.trunc
  split_ifs with h1 h2 h2
  · exact Int.floor_mono h
  · exact absurd (le_trans h1 h) h2
  · have a : ⌈x⌉ ≤ 0 := Int.ceil_le.2 (by push_cast; linarith)
    have b : 0 ≤ ⌊y⌋ := Int.floor_nonneg.2 h2
    omega
  · exact Int.ceil_mono h

section
variable (f : Format)

theorem Format.ulp_pos (x : ℚ) : 0 < f.ulp x := zpow_pos (by norm_num) _

theorem zpow_multiple {a b : Int} (h : a ≤ b) : ∃ m : Int, (2 : ℚ) ^ b = m * 2 ^ a := by
  obtain ⟨k, hk⟩ := Int.eq_ofNat_of_zero_le (a := b - a) (by omega)
  refine ⟨2 ^ k, ?_⟩
  rw [show b = (k : Int) + a by omega, zpow_add₀ (by norm_num), zpow_natCast]
  push_cast
  rfl

theorem lt_of_log {x : ℚ} {e : Int} (h : Int.log 2 |x| ≤ e) : |x| < 2 ^ (e + 1) := by
  have h1 : |x| < ((2 : Nat) : ℚ) ^ (Int.log 2 |x| + 1) := Int.lt_zpow_succ_log_self (by norm_num) _
  have h2 : ((2 : Nat) : ℚ) ^ (Int.log 2 |x| + 1) ≤ ((2 : Nat) : ℚ) ^ (e + 1) :=
    zpow_le_zpow_right₀ (by norm_num) (by omega)
  exact_mod_cast lt_of_lt_of_le h1 h2

theorem le_of_log {x : ℚ} {e : Int} (hx : x ≠ 0) (h : e ≤ Int.log 2 |x|) : (2 : ℚ) ^ e ≤ |x| := by
  have h1 : ((2 : Nat) : ℚ) ^ Int.log 2 |x| ≤ |x| := Int.zpow_log_le_self (by norm_num) (abs_pos.2 hx)
  have h2 : ((2 : Nat) : ℚ) ^ e ≤ ((2 : Nat) : ℚ) ^ Int.log 2 |x| := zpow_le_zpow_right₀ (by norm_num) h
  exact_mod_cast le_trans h2 h1

theorem log_le {x : ℚ} {e : Int} (hx : x ≠ 0) (h : |x| < 2 ^ (e + 1)) : Int.log 2 |x| ≤ e := by
  have := (Int.lt_zpow_iff_log_lt (b := 2) (by norm_num) (abs_pos.2 hx)).1 (by exact_mod_cast h)
  omega

variable {f} {g : ℚ → Int}

theorem le_rndWith (hg : IsIntRounding g) {x : ℚ} {m : Int} (h : m * f.ulp x ≤ x) : m * f.ulp x ≤ f.rndWith g x := by
  have hp := f.ulp_pos x
  unfold Format.rndWith
  apply mul_le_mul_of_nonneg_right _ hp.le
  have : g m ≤ g (x / f.ulp x) := hg.mono (by rwa [le_div_iff₀ hp])
  rw [hg.int] at this
  exact_mod_cast this

theorem rndWith_le (hg : IsIntRounding g) {x : ℚ} {m : Int} (h : x ≤ m * f.ulp x) : f.rndWith g x ≤ m * f.ulp x := by
  have hp := f.ulp_pos x
  unfold Format.rndWith
  apply mul_le_mul_of_nonneg_right _ hp.le
  have : g (x / f.ulp x) ≤ g m := hg.mono (by rwa [div_le_iff₀ hp])
  rw [hg.int] at this
  exact_mod_cast this

theorem rndWith_multiple (hg : IsIntRounding g) {x : ℚ} {m : Int} (h : x = m * f.ulp x) : f.rndWith g x = x := by
  refine le_antisymm ?_ ?_
  · have := rndWith_le hg h.le; rwa [← h] at this
  · have := le_rndWith hg h.ge; rwa [← h] at this

theorem rndWith_zero (hg : IsIntRounding g) : f.rndWith g 0 = 0 := rndWith_multiple hg (m := 0) (by simp)

theorem rndWith_nonneg (hg : IsIntRounding g) {x : ℚ} (h : 0 ≤ x) : 0 ≤ f.rndWith g x := by
  have := le_rndWith (f := f) hg (x := x) (m := 0) (by simpa using h)
  simpa using this

theorem rndWith_nonpos (hg : IsIntRounding g) {x : ℚ} (h : x ≤ 0) : f.rndWith g x ≤ 0 := by
  have := rndWith_le (f := f) hg (x := x) (m := 0) (by simpa using h)
  simpa using this

theorem ulpExp_multiple {x : ℚ} {e : Int} (h : f.ulpExp x ≤ e) : ∃ m : Int, (2 : ℚ) ^ e = m * f.ulp x := zpow_multiple h

/-- A power of two separates the numbers with the smaller distance from those with the larger one. -/
theorem exists_separator (hf : 1 ≤ f.prec) {x y : ℚ} (hy0 : y ≠ 0) (h : f.ulpExp x < f.ulpExp y) :
    ∃ k : Int, |x| ≤ 2 ^ k ∧ (2 : ℚ) ^ k ≤ |y| ∧ f.ulpExp x ≤ k ∧ f.ulpExp y ≤ k := by
  unfold Format.ulpExp at h ⊢
  refine ⟨Int.log 2 |y|, ?_, le_of_log hy0 le_rfl, by omega, by omega⟩
  have h1 : Int.log 2 |x| ≤ Int.log 2 |y| - 1 := by omega
  have := lt_of_log h1
  rw [show Int.log 2 |y| - 1 + 1 = Int.log 2 |y| by omega] at this
  exact this.le

/-- **C104.** Rounding is monotone. -/
theorem rndWith_mono (hf : 1 ≤ f.prec) (hg : IsIntRounding g) {x y : ℚ} (h : x ≤ y) :
    f.rndWith g x ≤ f.rndWith g y := by
  rcases le_or_gt x 0 with hx | hx
  · rcases le_or_gt 0 y with hy | hy
    · exact le_trans (rndWith_nonpos hg hx) (rndWith_nonneg hg hy)
    · have hx' : x < 0 := lt_of_le_of_lt h hy
      rcases lt_trichotomy (f.ulpExp y) (f.ulpExp x) with hlt | heq | hlt
      · obtain ⟨k, h1, h2, h3, h4⟩ := exists_separator hf hx'.ne hlt
        rw [abs_of_neg hy] at h1
        rw [abs_of_neg hx'] at h2
        obtain ⟨m, hm⟩ := ulpExp_multiple h3
        obtain ⟨n, hn⟩ := ulpExp_multiple h4
        have a := le_rndWith (f := f) hg (x := y) (m := -m) (by push_cast; linarith)
        have b := rndWith_le (f := f) hg (x := x) (m := -n) (by push_cast; linarith)
        push_cast at a b
        linarith
      · have hu : f.ulp x = f.ulp y := by unfold Format.ulp; rw [heq]
        unfold Format.rndWith
        rw [hu]
        apply mul_le_mul_of_nonneg_right _ (f.ulp_pos y).le
        exact_mod_cast hg.mono (div_le_div_of_nonneg_right h (f.ulp_pos y).le)
      · obtain ⟨k, h1, h2, h3, h4⟩ := exists_separator hf hy.ne hlt
        rw [abs_of_neg hx'] at h1
        rw [abs_of_neg hy] at h2
        have hxy : x = y := by linarith
        rw [hxy]
  · have hy : 0 < y := lt_of_lt_of_le hx h
    rcases lt_trichotomy (f.ulpExp x) (f.ulpExp y) with hlt | heq | hlt
    · obtain ⟨k, h1, h2, h3, h4⟩ := exists_separator hf hy.ne' hlt
      rw [abs_of_pos hx] at h1
      rw [abs_of_pos hy] at h2
      obtain ⟨m, hm⟩ := ulpExp_multiple h3
      obtain ⟨n, hn⟩ := ulpExp_multiple h4
      have a := rndWith_le (f := f) hg (x := x) (m := m) (by linarith)
      have b := le_rndWith (f := f) hg (x := y) (m := n) (by linarith)
      linarith
    · have hu : f.ulp x = f.ulp y := by unfold Format.ulp; rw [heq]
      unfold Format.rndWith
      rw [hu]
      apply mul_le_mul_of_nonneg_right _ (f.ulp_pos y).le
      exact_mod_cast hg.mono (div_le_div_of_nonneg_right h (f.ulp_pos y).le)
    · obtain ⟨k, h1, h2, h3, h4⟩ := exists_separator hf hx.ne' hlt
      rw [abs_of_pos hy] at h1
      rw [abs_of_pos hx] at h2
      have hxy : x = y := by linarith
      rw [hxy]

theorem exists_multiple_of_lt {m e : Int} (h1 : |m| < 2 ^ f.prec) (h2 : f.emin - (f.prec - 1) ≤ e)
    (h0 : (m : ℚ) * 2 ^ e ≠ 0) : ∃ n : Int, (m : ℚ) * 2 ^ e = n * f.ulp (m * 2 ^ e) := by
  have hm : |(m : ℚ) * 2 ^ e| < 2 ^ (f.prec + e - 1 + 1) := by
    rw [abs_mul, abs_of_pos (a := (2 : ℚ) ^ e) (zpow_pos (by norm_num) _),
      show (f.prec : Int) + e - 1 + 1 = f.prec + e by omega, zpow_add₀ (by norm_num), zpow_natCast]
    apply mul_lt_mul_of_pos_right _ (zpow_pos (by norm_num) _)
    exact_mod_cast h1
  have hl := log_le h0 hm
  obtain ⟨k, hk⟩ := ulpExp_multiple (f := f) (x := m * 2 ^ e) (e := e) (by unfold Format.ulpExp; omega)
  refine ⟨m * k, ?_⟩
  push_cast
  rw [mul_assoc, ← hk]

/-- **C104.** Rounding keeps every number of the format. -/
theorem rndWith_exact (hf : 1 ≤ f.prec) (hg : IsIntRounding g) {y : ℚ} (h : f.Repr y) : f.rndWith g y = y := by
  obtain ⟨m, e, h1, h2, rfl⟩ := h
  by_cases h0 : (m : ℚ) * 2 ^ e = 0
  · rw [h0]; exact rndWith_zero hg
  rcases h1.lt_or_eq with hlt | heq
  · obtain ⟨n, hn⟩ := exists_multiple_of_lt hlt h2 h0
    exact rndWith_multiple hg hn
  · obtain ⟨p, hp⟩ : ∃ p, f.prec = p + 1 := ⟨f.prec - 1, by omega⟩
    obtain ⟨s, hs, hms⟩ : ∃ s : Int, |s| = 1 ∧ m = 2 * (s * 2 ^ p) := by
      rw [hp, pow_succ] at heq
      rcases abs_choice m with hc | hc
      · exact ⟨1, by norm_num, by rw [hc] at heq; rw [heq]; ring⟩
      · exact ⟨-1, by norm_num, by rw [hc] at heq; linarith⟩
    have he : (m : ℚ) * 2 ^ e = ((s * 2 ^ p : Int) : ℚ) * 2 ^ (e + 1) := by
      rw [hms, zpow_add₀ (by norm_num)]; push_cast; ring
    rw [he] at h0 ⊢
    obtain ⟨n, hn⟩ := exists_multiple_of_lt (f := f) (m := s * 2 ^ p) (e := e + 1)
      (by rw [abs_mul, hs, one_mul, abs_of_pos (by positivity), hp]; exact pow_lt_pow_right₀ (by norm_num) (by omega))
      (by omega) h0
    exact rndWith_multiple hg hn

theorem abs_div_ulp_lt (x : ℚ) : |x / f.ulp x| < 2 ^ f.prec := by
  have hp := f.ulp_pos x
  rw [abs_div, abs_of_pos hp, div_lt_iff₀ hp]
  have h := lt_of_log (x := x) (e := max (Int.log 2 |x|) f.emin) (le_max_left _ _)
  have : (2 : ℚ) ^ f.prec * f.ulp x = 2 ^ (max (Int.log 2 |x|) f.emin + 1) := by
    unfold Format.ulp Format.ulpExp
    rw [← zpow_natCast, ← zpow_add₀ (by norm_num)]
    congr 1
    omega
  rwa [this]

/-- **C104.** The result of rounding is a number of the format. -/
theorem rndWith_repr (hg : IsIntRounding g) (x : ℚ) : f.Repr (f.rndWith g x) := by
  refine ⟨g (x / f.ulp x), f.ulpExp x, ?_, by unfold Format.ulpExp; omega, rfl⟩
  have h := (abs_lt.1 (abs_div_ulp_lt (f := f) x))
  have h1 := hg.mono (x := ((-2 ^ f.prec : Int) : ℚ)) (y := x / f.ulp x) (by push_cast; exact h.1.le)
  have h2 := hg.mono (x := x / f.ulp x) (y := ((2 ^ f.prec : Int) : ℚ)) (by push_cast; exact h.2.le)
  rw [hg.int] at h1 h2
  exact abs_le.2 ⟨h1, h2⟩

theorem rndWith_error (hg : IsIntRounding g) (x : ℚ) : |f.rndWith g x - x| ≤ f.ulp x := by
  have hp := f.ulp_pos x
  have h := hg.error (x / f.ulp x)
  have : f.rndWith g x - x = ((g (x / f.ulp x) : ℚ) - x / f.ulp x) * f.ulp x := by
    unfold Format.rndWith; field_simp
  rw [this, abs_mul, abs_of_pos hp]
  nlinarith

/-- The distance of neighbouring numbers is small relative to the number or is the smallest one. -/
theorem ulp_le {x : ℚ} (h0 : x ≠ 0) :
    f.ulp x ≤ 2 ^ (-(f.prec - 1 : Int)) * |x| + 2 ^ (f.emin - (f.prec - 1)) := by
  have a : (0 : ℚ) < 2 ^ (-(f.prec - 1 : Int)) := zpow_pos (by norm_num) _
  have b : (0 : ℚ) < 2 ^ (f.emin - (f.prec - 1)) := zpow_pos (by norm_num) _
  unfold Format.ulp Format.ulpExp
  rcases le_total (Int.log 2 |x|) f.emin with h | h
  · rw [max_eq_right h]
    have := mul_nonneg a.le (abs_nonneg x)
    linarith
  · rw [max_eq_left h, show Int.log 2 |x| - ((f.prec : Int) - 1) = -(f.prec - 1 : Int) + Int.log 2 |x| by omega,
      zpow_add₀ (by norm_num)]
    have := mul_le_mul_of_nonneg_left (le_of_log h0 le_rfl) a.le
    linarith

/-- **C104.** Rounding to `float` in any mode is monotone, keeps `float`s and has a relative error of at most `2⁻²³` or an
absolute error of at most `2⁻¹⁴⁹`. -/
theorem single_rounding (hg : IsIntRounding g) : SingleRounding (single.rndWith g) := by
  refine ⟨fun h => rndWith_mono (by decide) hg h, fun x => rndWith_exact (by decide) hg (rndWith_repr hg x), rndWith_zero hg,
    fun x => ?_⟩
  by_cases h0 : x = 0
  · rw [h0, rndWith_zero hg]; norm_num
  · refine le_trans (rndWith_error hg x) (le_trans (ulp_le h0) (le_of_eq ?_))
    rw [show single.prec = 24 from rfl, show single.emin = -126 from rfl]
    norm_num [zpow_neg]

theorem single_nearest : SingleRounding single.rnd := single_rounding isInt_roundEven

theorem roundEven_nearest (x : ℚ) : |(roundEven x : ℚ) - x| ≤ x - ⌊x⌋ ∧ |(roundEven x : ℚ) - x| ≤ ⌈x⌉ - x := by
  have h1 := Int.floor_le x
  have h2 := Int.lt_floor_add_one x
  have h3 := Int.le_ceil x
  by_cases hx : x = ⌊x⌋
  · have : roundEven x = ⌊x⌋ := by conv_lhs => rw [hx]
                                   exact Ticks.roundEven_int _
    rw [this, ← hx]
    constructor
    · simp
    · simpa using h3
  · have hc : ⌈x⌉ = ⌊x⌋ + 1 := by
      have a := Int.ceil_le_floor_add_one x
      have b : ⌊x⌋ < ⌈x⌉ := by
        have : ((⌊x⌋ : Int) : ℚ) < ⌈x⌉ := lt_of_lt_of_le (lt_of_le_of_ne h1 (Ne.symm hx)) h3
        exact_mod_cast this
      omega
    rw [hc]
    push_cast
    unfold roundEven
    constructor <;> rw [abs_le] <;> split_ifs <;> push_cast <;> constructor <;> linarith

/-- **C104.** Rounding to nearest: no number of the format is closer to the exact result. -/
theorem rnd_nearest (hf : 1 ≤ f.prec) (x : ℚ) {y : ℚ} (hy : f.Repr y) : |f.rnd x - x| ≤ |y - x| := by
  have hp := f.ulp_pos x
  have e : |f.rnd x - x| = |(roundEven (x / f.ulp x) : ℚ) - x / f.ulp x| * f.ulp x := by
    have : f.rnd x - x = ((roundEven (x / f.ulp x) : ℚ) - x / f.ulp x) * f.ulp x := by
      unfold Format.rnd Format.rndWith; field_simp
    rw [this, abs_mul, abs_of_pos hp]
  obtain ⟨n1, n2⟩ := roundEven_nearest (x / f.ulp x)
  have hx : x / f.ulp x * f.ulp x = x := by field_simp
  rw [e]
  rcases le_total y x with h | h
  · have h1 := rndWith_mono hf isInt_floor h
    rw [rndWith_exact hf isInt_floor hy] at h1
    unfold Format.rndWith at h1
    beta_reduce at h1
    rw [abs_sub_comm y x, abs_of_nonneg (by linarith : 0 ≤ x - y)]
    have := mul_le_mul_of_nonneg_right n1 hp.le
    rw [sub_mul, hx] at this
    linarith
  · have h1 := rndWith_mono hf isInt_ceil h
    rw [rndWith_exact hf isInt_ceil hy] at h1
    unfold Format.rndWith at h1
    beta_reduce at h1
    rw [abs_of_nonneg (by linarith : 0 ≤ y - x)]
    have := mul_le_mul_of_nonneg_right n2 hp.le
    rw [sub_mul, hx] at this
    linarith

end

/-- The value of a rounding whose exponent is known. -/
theorem rnd_eq {f : Format} {x : ℚ} {e : Int} (h0 : x ≠ 0) (h1 : (2 : ℚ) ^ e ≤ |x|) (h2 : |x| < 2 ^ (e + 1)) (he : f.emin ≤ e) :
    f.rnd x = roundEven (x / 2 ^ (e - (f.prec - 1))) * 2 ^ (e - (f.prec - 1)) := by
  have hl : Int.log 2 |x| = e := by
    refine le_antisymm (log_le h0 h2) ?_
    exact (Int.zpow_le_iff_le_log (b := 2) (by norm_num) (abs_pos.2 h0)).1 (by exact_mod_cast h1)
  have hu : f.ulp x = 2 ^ (e - (f.prec - 1 : Int)) := by
    unfold Format.ulp Format.ulpExp; rw [hl, max_eq_left he]
  unfold Format.rnd Format.rndWith
  rw [hu]

/-- Non-vacuity: one tenth is not a `float`; the nearest one is a little larger. -/
example : single.rnd (1 / 10) = 13421773 / 134217728 := by decide +kernel

end Verif.Fp
