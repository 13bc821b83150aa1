import Verif.FloatProbabilityLemmas

/-!
# C104: quantised probabilities in floating point arithmetic

All theorems hold for every rounding mode (`SingleRounding fl`) and with or without contraction of products and sums
(`fused`), unless they name `single.rnd`, rounding to nearest.
-/

namespace Verif.FloatProb

open Verif.Prob (clamp roundToInt)
open Verif.Fp

variable {fl : ℚ → ℚ}

/-! ### Conversion -/

/-- **C104.** The conversion of any number to a value passes its checks, and larger numbers do not get smaller values. -/
theorem encode_total (h : SingleRounding fl) {lo hi : ℚ} (hb : Bounds lo hi) (x : ℚ) :
    ∃ n : Nat, boundedFloatToValue fl x lo hi = some n ∧ 1 ≤ n ∧ n ≤ 32767 ∧
      ∀ y m, x ≤ y → boundedFloatToValue fl y lo hi = some m → n ≤ m := by
  obtain ⟨n, hn, n1, n2, -⟩ := encode_spec h hb x
  exact ⟨n, hn, n1, n2, fun y m hxy hm => encode_mono h hb hxy hn hm⟩

/-- **C104.** A value survives the conversion to a number and back, for all bounds in range. -/
theorem encode_decode (h : SingleRounding fl) {lo hi : ℚ} (hb : Bounds lo hi) (fused : Bool) (ur : ℚ) {v : Nat}
    (h1 : 1 ≤ v) (h2 : v ≤ 32767) :
    boundedFloatToValue fl (valueToBoundedFloat fl fused v ur lo hi) lo hi = some v ∧
    boundedFloatToValue fl (valueToBoundedFloat fl fused (v + 32768) ur lo hi) lo hi = some v := by
  have e : ∀ w, w % 32768 = v → boundedFloatToValue fl (valueToBoundedFloat fl fused w ur lo hi) lo hi = some v := by
    intro w hw
    unfold valueToBoundedFloat
    rw [hw]
    refine encode_near h hb h1 h2 (le_trans (decode_error h hb fused h1 h2 ur) ?_)
    have := hb.pos
    unfold u
    linarith
  exact ⟨e v (by omega), e (v + 32768) (by omega)⟩

/-- **C104.** The conversion of values to numbers is strictly increasing and close to equally spaced: it is off by less than
a thirtieth of a step. -/
theorem decode_spec (h : SingleRounding fl) {lo hi : ℚ} (hb : Bounds lo hi) (fused : Bool) (ur : ℚ) {v : Nat} (h1 : 1 ≤ v)
    (h2 : v ≤ 32767) :
    |valueToBoundedFloat fl fused v ur lo hi - (lo + (v - 1) * ((hi - lo) / 32766))| ≤ (hi - lo) / 32766 / 26 ∧
    ∀ w, v < w → w ≤ 32767 → valueToBoundedFloat fl fused v ur lo hi < valueToBoundedFloat fl fused w ur lo hi := by
  have hpos := hb.pos
  constructor
  · unfold valueToBoundedFloat
    rw [Nat.mod_eq_of_lt (by omega)]
    refine le_trans (decode_error h hb fused h1 h2 ur) ?_
    unfold u
    linarith
  · intro w hvw hw
    unfold valueToBoundedFloat
    rw [Nat.mod_eq_of_lt (by omega), Nat.mod_eq_of_lt (by omega)]
    have := decode_gap h hb fused h1 hvw hw ur
    linarith

/-- **C104.** Probabilities and correspondence costs: values survive the conversion to `float` and back. -/
theorem probability_roundtrip (h : SingleRounding fl) (fused : Bool) {v : Nat} (h1 : 1 ≤ v) (h2 : v ≤ 32767) :
    probabilityToValue fl (valueToProbability fl fused v) = some v ∧ costToValue fl (valueToCost fl fused v) = some v :=
  ⟨(encode_decode h (probBounds h) fused _ h1 h2).1, (encode_decode h (costBounds h) fused _ h1 h2).1⟩

/-- **C104.** Truncated signed distances and weights: values survive as well, whatever the truncation distance and the
maximum weight. -/
theorem tsd_roundtrip (h : SingleRounding fl) (fused : Bool) {v : Nat} (h1 : 1 ≤ v) (h2 : v ≤ 32767) {maxTsd maxWeight : ℚ}
    (t1 : 1 / 2 ^ 60 ≤ maxTsd) (t2 : maxTsd ≤ 2 ^ 59) (w1 : 1 / 2 ^ 60 ≤ maxWeight) (w2 : maxWeight ≤ 2 ^ 60) :
    tsdToValue fl maxTsd (valueToTsd fl fused maxTsd v) = some v ∧
    weightToValue fl maxWeight (valueToWeight fl fused maxWeight v) = some v := by
  have b1 : Bounds (-maxTsd) maxTsd := by
    refine ⟨by linarith, by linarith, ?_⟩
    rw [abs_neg, abs_of_pos (by linarith)]; linarith
  have b2 : Bounds 0 maxWeight := ⟨by linarith, by linarith, by rw [abs_zero]; linarith⟩
  exact ⟨(encode_decode h b1 fused _ h1 h2).1, (encode_decode h b2 fused _ h1 h2).1⟩

/-! ### Change of representation -/

theorem valueToProbability_near (h : SingleRounding fl) (fused : Bool) {v : Nat} (h1 : 1 ≤ v) (h2 : v ≤ 32767) :
    |valueToProbability fl fused v - exactValue (minProbability fl) (maxProbability fl) v| ≤ 69 / 10 * u := by
  unfold valueToProbability valueToBoundedFloat
  rw [Nat.mod_eq_of_lt (by omega)]
  refine le_trans (decode_error h (probBounds h) fused h1 h2 _) ?_
  have a := minProbability_near h
  have b := maxProbability_near h
  unfold u at *
  rw [abs_le] at a b
  linarith

theorem valueToCost_near (h : SingleRounding fl) (fused : Bool) {v : Nat} (h1 : 1 ≤ v) (h2 : v ≤ 32767) :
    |valueToCost fl fused v - exactValue (minCost fl) (maxCost fl) v| ≤ 69 / 10 * u := by
  unfold valueToCost valueToBoundedFloat
  rw [Nat.mod_eq_of_lt (by omega)]
  refine le_trans (decode_error h (costBounds h) fused h1 h2 _) ?_
  have a := minCost_near h
  have b := maxCost_near h
  unfold u at *
  rw [abs_le] at a b
  linarith

/-- A step of both tables is nearly the same. -/
theorem exactValue_flip {lo hi lo' hi' : ℚ} (h1 : |lo - 1 / 10| ≤ 2 * u) (h2 : |hi - 9 / 10| ≤ 2 * u)
    (h3 : |lo' - 1 / 10| ≤ 2 * u) (h4 : |hi' - 9 / 10| ≤ 2 * u) {v : Nat} (hv1 : 1 ≤ v) (hv2 : v ≤ 32767) :
    |1 - exactValue lo hi v - exactValue lo' hi' (32768 - v)| ≤ 4 * u := by
  have c1 : (1 : ℚ) ≤ v := by exact_mod_cast hv1
  have c2 : (v : ℚ) ≤ 32767 := by exact_mod_cast hv2
  have hc : ((32768 - v : Nat) : ℚ) = 32768 - v := by rw [Nat.cast_sub (by omega)]; norm_num
  set t : ℚ := (v - 1) / 32766
  have t0 : 0 ≤ t := by unfold t; apply div_nonneg <;> linarith
  have t1 : t ≤ 1 := by unfold t; rw [div_le_one (by norm_num)]; linarith
  have e : 1 - exactValue lo hi v - exactValue lo' hi' (32768 - v) =
      -((lo - 1 / 10) * (1 - t) + (hi - 9 / 10) * t + ((lo' - 1 / 10) * t + (hi' - 9 / 10) * (1 - t))) := by
    unfold exactValue t; rw [hc]; ring
  rw [e, abs_neg]
  rw [abs_le] at *
  have t1' : 0 ≤ 1 - t := by linarith
  have a1 := mul_le_mul_of_nonneg_right h1.1 t1'
  have a2 := mul_le_mul_of_nonneg_right h1.2 t1'
  have a3 := mul_le_mul_of_nonneg_right h2.1 t0
  have a4 := mul_le_mul_of_nonneg_right h2.2 t0
  have a5 := mul_le_mul_of_nonneg_right h3.1 t0
  have a6 := mul_le_mul_of_nonneg_right h3.2 t0
  have a7 := mul_le_mul_of_nonneg_right h4.1 t1'
  have a8 := mul_le_mul_of_nonneg_right h4.2 t1'
  constructor <;> linarith

theorem convert_value (h : SingleRounding fl) (fused : Bool) {v : Nat} (h1 : 1 ≤ v) (h2 : v ≤ 32767) :
    costToValue fl (probabilityToCost fl (valueToProbability fl fused v)) = some (32768 - v) ∧
    probabilityToValue fl (costToProbability fl (valueToCost fl fused v)) = some (32768 - v) := by
  have m1 := minProbability_near h
  have m2 := maxProbability_near h
  have m3 := minCost_near h
  have m4 := maxCost_near h
  have u0 : 0 < u := by norm_num [u]
  have f1 := exactValue_flip (le_trans m1 (by linarith)) (le_trans m2 (by linarith)) (le_trans m3 (by linarith))
    (le_trans m4 (by linarith)) h1 h2
  have f2 := exactValue_flip (le_trans m3 (by linarith)) (le_trans m4 (by linarith)) (le_trans m1 (by linarith))
    (le_trans m2 (by linarith)) h1 h2
  have d1 := valueToProbability_near h fused h1 h2
  have d2 := valueToCost_near h fused h1 h2
  have i1 := exactValue_mem (probBounds h) h1 h2
  have i2 := exactValue_mem (costBounds h) h1 h2
  unfold u at *
  rw [abs_le] at m1 m2 m3 m4 f1 f2 d1 d2
  constructor
  · refine encode_near h (costBounds h) (by omega) (by omega) ?_
    unfold probabilityToCost
    have n := near h (x := 1 - valueToProbability fl fused v) (B := 1) (by rw [abs_le]; constructor <;> linarith) (by norm_num)
    unfold u at n
    rw [abs_le] at n ⊢
    constructor <;> linarith
  · refine encode_near h (probBounds h) (by omega) (by omega) ?_
    unfold costToProbability
    have n := near h (x := 1 - valueToCost fl fused v) (B := 1) (by rw [abs_le]; constructor <;> linarith) (by norm_num)
    unfold u at n
    rw [abs_le] at n ⊢
    constructor <;> linarith

/-- **C104.** Changing between probability and cost values maps `v` to `32768 - v` in both directions, with and without
update marker; it is an involution although each direction rounds several times. -/
theorem convert_representation (h : SingleRounding fl) (fused : Bool) {v : Nat} (h1 : 1 ≤ v) (h2 : v ≤ 32767) :
    probabilityValueToCostValue fl fused v = some (32768 - v) ∧
    costValueToProbabilityValue fl fused v = some (32768 - v) ∧
    probabilityValueToCostValue fl fused (v + 32768) = some (32768 - v + 32768) ∧
    costValueToProbabilityValue fl fused (v + 32768) = some (32768 - v + 32768) := by
  obtain ⟨a, b⟩ := convert_value h fused h1 h2
  have k1 : ∀ f : Nat → Option Nat, keepingMarker f v = f v := fun f => by
    unfold keepingMarker; rw [if_neg (by omega), if_neg (by omega)]
  have k2 : ∀ f : Nat → Option Nat, keepingMarker f (v + 32768) = (f v).map (· + 32768) := fun f => by
    unfold keepingMarker; rw [if_neg (by omega), if_pos (by omega), Nat.add_sub_cancel]
  unfold probabilityValueToCostValue costValueToProbabilityValue
  rw [k1, k1, k2, k2]
  beta_reduce
  rw [a, b]
  exact ⟨rfl, rfl, rfl, rfl⟩

/-- **C104.** What an unknown cell is taken for, with and without update marker, and that it remains unknown when the representation
changes. -/
theorem unknown_values (fused : Bool) (maxTsd maxWeight : ℚ) :
    (∀ v ∈ [0, 32768], valueToProbability fl fused v = minProbability fl ∧ valueToCost fl fused v = maxCost fl ∧
      valueToTsd fl fused maxTsd v = -maxTsd ∧ valueToWeight fl fused maxWeight v = 0) ∧
    probabilityValueToCostValue fl fused 0 = some 0 ∧ costValueToProbabilityValue fl fused 0 = some 0 := by
  refine ⟨?_, rfl, rfl⟩
  intro v hv
  simp only [List.mem_cons, List.not_mem_nil, or_false] at hv
  rcases hv with rfl | rfl <;> exact ⟨rfl, rfl, rfl, rfl⟩

/-- **C104.** Only the bare marker does not: it becomes a known cell, in both directions. -/
theorem bare_marker (h : SingleRounding fl) (fused : Bool) :
    probabilityValueToCostValue fl fused 32768 = some 32767 ∧ costValueToProbabilityValue fl fused 32768 = some 1 := by
  have k : ∀ f : Nat → Option Nat, keepingMarker f 32768 = f 32768 := fun f => by
    unfold keepingMarker; rw [if_neg (by omega), if_neg (by omega)]
  have u0 : 0 < u := by norm_num [u]
  have m1 := minProbability_near h
  have m2 := maxProbability_near h
  have m3 := minCost_near h
  have m4 := maxCost_near h
  unfold probabilityValueToCostValue costValueToProbabilityValue
  rw [k, k]
  beta_reduce
  obtain ⟨a, -⟩ := unknown_values (fl := fl) fused 0 0
  obtain ⟨a1, a2, -⟩ := a 32768 (by simp)
  rw [a1, a2]
  constructor
  · refine encode_near h (costBounds h) (v := 32767) (by omega) (by omega) ?_
    have e : exactValue (minCost fl) (maxCost fl) 32767 = maxCost fl := by
      unfold exactValue
      push_cast
      ring
    rw [e]
    have : probabilityToCost fl (minProbability fl) = maxCost fl := rfl
    rw [this, sub_self, abs_zero]
    unfold u at *
    rw [abs_le] at m3 m4
    linarith
  · refine encode_near h (probBounds h) (v := 1) (by omega) (by omega) ?_
    have e : exactValue (minProbability fl) (maxProbability fl) 1 = minProbability fl := by
      unfold exactValue
      push_cast
      ring
    rw [e]
    unfold costToProbability
    have n := near h (x := 1 - maxCost fl) (B := 1) (by unfold u at *; rw [abs_le] at *; constructor <;> linarith) (by norm_num)
    unfold u at *
    rw [abs_le] at *
    constructor <;> linarith

/-! ### Applying odds -/

theorem encode_ge (h : SingleRounding fl) {lo hi : ℚ} (hb : Bounds lo hi) {x : ℚ} {v n : Nat} (h1 : 1 ≤ v) (h2 : v ≤ 32767)
    (hx : exactValue lo hi v - 9 / 20 * ((hi - lo) / 32766) ≤ x) (hn : boundedFloatToValue fl x lo hi = some n) : v ≤ n := by
  have hpos := hb.pos
  refine encode_mono h hb hx (encode_near h hb h1 h2 ?_) hn
  rw [abs_le]; constructor <;> linarith

theorem encode_le (h : SingleRounding fl) {lo hi : ℚ} (hb : Bounds lo hi) {x : ℚ} {v n : Nat} (h1 : 1 ≤ v) (h2 : v ≤ 32767)
    (hx : x ≤ exactValue lo hi v + 9 / 20 * ((hi - lo) / 32766)) (hn : boundedFloatToValue fl x lo hi = some n) : n ≤ v := by
  have hpos := hb.pos
  refine encode_mono h hb hx hn (encode_near h hb h1 h2 ?_)
  rw [abs_le]; constructor <;> linarith

theorem exactValue_succ (lo hi : ℚ) (v : Nat) : exactValue lo hi (v + 1) = exactValue lo hi v + (hi - lo) / 32766 := by
  unfold exactValue; push_cast; ring

theorem oddsTable_some (h : SingleRounding fl) (fused : Bool) (o : ℚ) (v : Nat) :
    ∃ n, oddsTable fl fused o v = some (n + 32768) ∧ 1 ≤ n ∧ n ≤ 32767 ∧
      (1 ≤ v → probabilityToValue fl (updated fl fused o (valueToProbability fl fused v)) = some n) := by
  unfold oddsTable
  split
  · obtain ⟨n, hn, n1, n2, -⟩ := encode_spec h (probBounds h) (probabilityFromOdds fl o)
    refine ⟨n, ?_, n1, n2, fun hv => by omega⟩
    unfold probabilityToValue; rw [hn]; rfl
  · obtain ⟨n, hn, n1, n2, -⟩ := encode_spec h (probBounds h) (updated fl fused o (valueToProbability fl fused v))
    refine ⟨n, ?_, n1, n2, fun _ => hn⟩
    unfold probabilityToValue; rw [hn]; rfl

theorem costOddsTable_some (h : SingleRounding fl) (fused : Bool) (o : ℚ) (v : Nat) :
    ∃ n, costOddsTable fl fused o v = some (n + 32768) ∧ 1 ≤ n ∧ n ≤ 32767 ∧
      (1 ≤ v → costToValue fl (probabilityToCost fl
        (updated fl fused o (costToProbability fl (valueToCost fl fused v)))) = some n) := by
  unfold costOddsTable
  split
  · obtain ⟨n, hn, n1, n2, -⟩ := encode_spec h (costBounds h) (probabilityToCost fl (probabilityFromOdds fl o))
    refine ⟨n, ?_, n1, n2, fun hv => by omega⟩
    unfold costToValue; rw [hn]; rfl
  · obtain ⟨n, hn, n1, n2, -⟩ := encode_spec h (costBounds h)
      (probabilityToCost fl (updated fl fused o (costToProbability fl (valueToCost fl fused v))))
    refine ⟨n, ?_, n1, n2, fun _ => hn⟩
    unfold costToValue; rw [hn]; rfl

theorem valueToProbability_mem (h : SingleRounding fl) (fused : Bool) {v : Nat} (h1 : 1 ≤ v) (h2 : v ≤ 32767) :
    1 / 10 - 8 * u ≤ valueToProbability fl fused v ∧ valueToProbability fl fused v ≤ 9 / 10 + 8 * u := by
  have m1 := minProbability_near h
  have m2 := maxProbability_near h
  have d1 := valueToProbability_near h fused h1 h2
  have i1 := exactValue_mem (probBounds h) h1 h2
  unfold u at *
  rw [abs_le] at m1 m2 d1
  constructor <;> linarith

theorem costProbability_near (h : SingleRounding fl) (fused : Bool) {v : Nat} (h1 : 1 ≤ v) (h2 : v ≤ 32767) :
    |costToProbability fl (valueToCost fl fused v) - (1 - exactValue (minCost fl) (maxCost fl) v)| ≤ 8 * u ∧
    1 / 10 - 10 * u ≤ costToProbability fl (valueToCost fl fused v) ∧
    costToProbability fl (valueToCost fl fused v) ≤ 9 / 10 + 10 * u := by
  have m1 := minCost_near h
  have m2 := maxCost_near h
  have d1 := valueToCost_near h fused h1 h2
  have i1 := exactValue_mem (costBounds h) h1 h2
  unfold costToProbability u at *
  rw [abs_le] at m1 m2 d1
  have n := near h (x := 1 - valueToCost fl fused v) (B := 901 / 1000) (by rw [abs_le]; constructor <;> linarith) (by norm_num)
  unfold u at n
  rw [abs_le] at n
  refine ⟨?_, ?_, ?_⟩
  · rw [abs_le]; constructor <;> linarith
  · linarith
  · linarith

/-- **C104.** Grids that store probabilities: a table for hits (odds at least one) never lowers the value of a known cell
and a table for misses never raises it, and if the odds differ from one by at least a thousandth the value really moves,
unless it is at the end of the range. No entry fails a check. -/
theorem odds_update (h : SingleRounding fl) (fused : Bool) {o : ℚ} (ho : OddsOk o) {v : Nat} (h1 : 1 ≤ v) (h2 : v ≤ 32767) :
    ∃ n, oddsTable fl fused o v = some (n + 32768) ∧ 1 ≤ n ∧ n ≤ 32767 ∧
      (1 ≤ o → v ≤ n) ∧ (o ≤ 1 → n ≤ v) ∧
      (1001 / 1000 ≤ o → v < 32767 → v < n) ∧ (o ≤ 999 / 1000 → 1 < v → n < v) := by
  obtain ⟨n, ht, n1, n2, he⟩ := oddsTable_some h fused o v
  have he := he h1
  unfold probabilityToValue at he
  have hb := probBounds h
  have m1 := minProbability_near h
  have m2 := maxProbability_near h
  have d1 := valueToProbability_near h fused h1 h2
  obtain ⟨p1, p2⟩ := valueToProbability_mem h fused h1 h2
  set p := valueToProbability fl fused v
  have ue := updated_error h fused (p := p) ho (by unfold u at p1; linarith) (by unfold u at p2; linarith)
  have x1 := exactUpdate_one (p := p) ho.pos (by unfold u at p1; linarith) (by unfold u at p2; linarith)
  have x2 := exactUpdate_strict (p := p) ho.pos (by unfold u at p1; linarith) (by unfold u at p2; linarith)
  unfold u at *
  rw [abs_le] at m1 m2 d1 ue
  refine ⟨n, ht, n1, n2, fun c => ?_, fun c => ?_, fun c c' => ?_, fun c c' => ?_⟩
  · exact encode_ge h hb h1 h2 (by linarith [x1.1 c]) he
  · exact encode_le h hb h1 h2 (by linarith [x1.2 c]) he
  · have := encode_ge h hb (v := v + 1) (by omega) (by omega) (by rw [exactValue_succ]; linarith [x2.1 c]) he
    omega
  · obtain ⟨w, rfl⟩ : ∃ w, v = w + 1 := ⟨v - 1, by omega⟩
    rw [exactValue_succ] at d1
    have := encode_le h hb (v := w) (by omega) (by omega) (by linarith [x2.2 c]) he
    omega

/-- **C104.** Grids that store correspondence costs (2D probability grids): the same with the order reversed. -/
theorem cost_odds_update (h : SingleRounding fl) (fused : Bool) {o : ℚ} (ho : OddsOk o) {v : Nat} (h1 : 1 ≤ v)
    (h2 : v ≤ 32767) :
    ∃ n, costOddsTable fl fused o v = some (n + 32768) ∧ 1 ≤ n ∧ n ≤ 32767 ∧
      (1 ≤ o → n ≤ v) ∧ (o ≤ 1 → v ≤ n) ∧
      (1001 / 1000 ≤ o → 1 < v → n < v) ∧ (o ≤ 999 / 1000 → v < 32767 → v < n) := by
  obtain ⟨n, ht, n1, n2, he⟩ := costOddsTable_some h fused o v
  have he := he h1
  unfold costToValue probabilityToCost at he
  have hb := costBounds h
  have m1 := minCost_near h
  have m2 := maxCost_near h
  obtain ⟨d1, p1, p2⟩ := costProbability_near h fused h1 h2
  set p := costToProbability fl (valueToCost fl fused v)
  have ue := updated_error h fused (p := p) ho (by unfold u at p1; linarith) (by unfold u at p2; linarith)
  have x1 := exactUpdate_one (p := p) ho.pos (by unfold u at p1; linarith) (by unfold u at p2; linarith)
  have x2 := exactUpdate_strict (p := p) ho.pos (by unfold u at p1; linarith) (by unfold u at p2; linarith)
  have dd : 0 < o * p + (1 - p) := by
    have a1 : 0 < p := by unfold u at p1; linarith
    have a2 : 0 < 1 - p := by unfold u at p2; linarith
    have := ho.pos
    positivity
  have F0 : 0 ≤ exactUpdate o p :=
    div_nonneg (mul_nonneg ho.pos.le (by unfold u at p1; linarith)) dd.le
  have F1 : exactUpdate o p ≤ 1 := by
    unfold exactUpdate; rw [div_le_one dd]; unfold u at p2; linarith
  unfold u at *
  rw [abs_le] at m1 m2 d1 ue
  have nr := near h (x := 1 - updated fl fused o p) (B := 1001 / 1000) (by rw [abs_le]; constructor <;> linarith) (by norm_num)
  unfold u at nr
  rw [abs_le] at nr
  refine ⟨n, ht, n1, n2, fun c => ?_, fun c => ?_, fun c c' => ?_, fun c c' => ?_⟩
  · exact encode_le h hb h1 h2 (by linarith [x1.1 c]) he
  · exact encode_ge h hb h1 h2 (by linarith [x1.2 c]) he
  · obtain ⟨w, rfl⟩ : ∃ w, v = w + 1 := ⟨v - 1, by omega⟩
    rw [exactValue_succ] at d1
    have := encode_le h hb (v := w) (by omega) (by omega) (by linarith [x2.1 c]) he
    omega
  · have := encode_ge h hb (v := v + 1) (by omega) (by omega) (by rw [exactValue_succ]; linarith [x2.2 c]) he
    omega

theorem encode_lo (h : SingleRounding fl) {lo hi : ℚ} (hb : Bounds lo hi) {x : ℚ} (hx : x ≤ lo) {n m : Nat}
    (hn : boundedFloatToValue fl x lo hi = some n) (hm1 : 1 ≤ m) : n ≤ m := by
  have hpos := hb.pos
  have := encode_le h hb (v := 1) (by omega) (by omega) (x := x) (n := n)
    (by have e : exactValue lo hi 1 = lo := by unfold exactValue; push_cast; ring
        rw [e]; linarith) hn
  omega

theorem encode_hi (h : SingleRounding fl) {lo hi : ℚ} (hb : Bounds lo hi) {x : ℚ} (hx : hi ≤ x) {n m : Nat}
    (hn : boundedFloatToValue fl x lo hi = some n) (hm1 : m ≤ 32767) : m ≤ n := by
  have hpos := hb.pos
  have := encode_ge h hb (v := 32767) (by omega) (by omega) (x := x) (n := n)
    (by have e : exactValue lo hi 32767 = hi := by unfold exactValue; push_cast; ring
        rw [e]; linarith) hn
  omega

/-- **C104.** The tables are monotone in the old value: a cell with a larger value never ends up below one with a smaller
value after the same update. -/
theorem tables_monotone (h : SingleRounding fl) (fused : Bool) {o : ℚ} (ho : OddsOk o) {v w n m : Nat} (h1 : 1 ≤ v)
    (hvw : v ≤ w) (h2 : w ≤ 32767) :
    (oddsTable fl fused o v = some n → oddsTable fl fused o w = some m → n ≤ m) ∧
    (costOddsTable fl fused o v = some n → costOddsTable fl fused o w = some m → n ≤ m) := by
  rcases Nat.eq_or_lt_of_le hvw with rfl | hlt
  · exact ⟨fun a b => by rw [a] at b; simp only [Option.some.injEq] at b; omega,
      fun a b => by rw [a] at b; simp only [Option.some.injEq] at b; omega⟩
  have m1 := minProbability_near h
  have m2 := maxProbability_near h
  have m3 := minCost_near h
  have m4 := maxCost_near h
  constructor
  · intro hn hm
    obtain ⟨n', hn', n1, n2, en⟩ := oddsTable_some h fused o v
    obtain ⟨m', hm', k1, k2, em⟩ := oddsTable_some h fused o w
    have en := en h1
    have em := em (by omega)
    rw [hn] at hn'
    rw [hm] at hm'
    simp only [Option.some.injEq] at hn' hm'
    unfold probabilityToValue at en em
    have g := decode_gap h (probBounds h) fused h1 hlt h2 (minProbability fl)
    have q1 := (valueToProbability_mem h fused h1 (by omega)).1
    have q2 := (valueToProbability_mem h fused (v := w) (by omega) h2).2
    have r1 : valueToProbability fl fused v =
        slowValueToBoundedFloat fl fused v (minProbability fl) (minProbability fl) (maxProbability fl) := by
      unfold valueToProbability valueToBoundedFloat; rw [Nat.mod_eq_of_lt (by omega)]
    have r2 : valueToProbability fl fused w =
        slowValueToBoundedFloat fl fused w (minProbability fl) (minProbability fl) (maxProbability fl) := by
      unfold valueToProbability valueToBoundedFloat; rw [Nat.mod_eq_of_lt (by omega)]
    rw [← r1, ← r2] at g
    have hu : u = 9 / 2 ^ 26 := rfl
    rw [abs_le] at m1 m2
    have key := updated_order h fused (o := o) (p := valueToProbability fl fused v) (q := valueToProbability fl fused w)
      ho (by linarith) (by linarith) (by linarith) (lo := minProbability fl) (hi := maxProbability fl) (by linarith) (by linarith)
    have : n' ≤ m' := by
      rcases key with c | c | c
      · exact encode_mono h (probBounds h) c en em
      · exact encode_lo h (probBounds h) c en k1
      · exact encode_hi h (probBounds h) c em n2
    omega
  · intro hn hm
    obtain ⟨n', hn', n1, n2, en⟩ := costOddsTable_some h fused o v
    obtain ⟨m', hm', k1, k2, em⟩ := costOddsTable_some h fused o w
    have en := en h1
    have em := em (by omega)
    rw [hn] at hn'
    rw [hm] at hm'
    simp only [Option.some.injEq] at hn' hm'
    unfold costToValue probabilityToCost at en em
    obtain ⟨a1, a2, a3⟩ := costProbability_near h fused h1 (by omega)
    obtain ⟨b1, b2, b3⟩ := costProbability_near h fused (v := w) (by omega) h2
    have g := exactValue_diff (costBounds h) hlt
    have hu : u = 9 / 2 ^ 26 := rfl
    rw [abs_le] at m1 m2 m3 m4 a1 b1
    have key := updated_order h fused (o := o) (p := costToProbability fl (valueToCost fl fused w))
      (q := costToProbability fl (valueToCost fl fused v))
      ho (by linarith) (by linarith) (by linarith) (lo := minProbability fl) (hi := maxProbability fl) (by linarith) (by linarith)
    have : n' ≤ m' := by
      rcases key with c | c | c
      · exact encode_mono h (costBounds h) (h.mono (by linarith)) en em
      · exact encode_hi h (costBounds h) (h.mono (by linarith)) em n2
      · exact encode_lo h (costBounds h) (h.mono (by linarith)) en k1
    omega

/-! ### Comparison with exact arithmetic -/

theorem clamp_close {x x' lo hi : ℚ} (h1 : |lo - 1 / 10| ≤ 2 * u) (h2 : |hi - 9 / 10| ≤ 2 * u) (hx : |x' - x| ≤ 42 * u) :
    |clamp x' lo hi - clamp x (1 / 10) (9 / 10)| ≤ 42 * u := by
  unfold u at *
  rw [abs_le] at *
  unfold clamp
  split_ifs <;> constructor <;> linarith

theorem position_close {x x' lo hi : ℚ} (h1 : |lo - 1 / 10| ≤ 2 * u) (h2 : |hi - 9 / 10| ≤ 2 * u) (hx : |x' - x| ≤ 42 * u) :
    |position x' lo hi - position x (1 / 10) (9 / 10)| ≤ 3 / 10 := by
  have hb := bounds_of_near h1 h2
  have hc := clamp_close h1 h2 hx
  have hpos := hb.pos
  obtain ⟨p1, p2⟩ := position_mem (x := x') hb
  have e1 : position x' lo hi * (hi - lo) = 32766 * (clamp x' lo hi - lo) := by unfold position; field_simp
  have e2 : position x (1 / 10) (9 / 10) = (clamp x (1 / 10) (9 / 10) - 1 / 10) * (32766 / (4 / 5)) := by
    unfold position; norm_num
  set P := position x' lo hi
  set c' := clamp x' lo hi
  set c := clamp x (1 / 10) (9 / 10)
  rw [e2]
  have e3 : P * (4 / 5) = 32766 * (c' - lo) + P * (4 / 5 - (hi - lo)) := by rw [← e1]; ring
  unfold u at *
  rw [abs_le] at h1 h2 hc
  have b1 : P * (4 / 5 - (hi - lo)) ≤ 32766 * (4 * (9 / 2 ^ 26)) := by
    calc P * (4 / 5 - (hi - lo)) ≤ P * (4 * (9 / 2 ^ 26)) := mul_le_mul_of_nonneg_left (by linarith) p1
      _ ≤ _ := mul_le_mul_of_nonneg_right p2 (by norm_num)
  have b2 : -(32766 * (4 * (9 / 2 ^ 26))) ≤ P * (4 / 5 - (hi - lo)) := by
    calc -(32766 * (4 * (9 / 2 ^ 26))) ≤ -(P * (4 * (9 / 2 ^ 26))) := by
          have := mul_le_mul_of_nonneg_right p2 (show (0 : ℚ) ≤ 4 * (9 / 2 ^ 26) by norm_num)
          linarith
      _ = P * (-(4 * (9 / 2 ^ 26))) := by ring
      _ ≤ _ := mul_le_mul_of_nonneg_left (by linarith) p1
  rw [abs_le]
  constructor <;> linarith

theorem exact_position (x : ℚ) :
    |(Prob.boundedFloatToValue x (1 / 10) (9 / 10) : ℚ) - 1 - position x (1 / 10) (9 / 10)| ≤ 1 / 2 := by
  have hc := Prob.boundedFloatToValue_cast (lo := 1 / 10) (hi := 9 / 10) (by norm_num) x
  have hr := roundToInt_near (x := position x (1 / 10) (9 / 10))
  have : ((Prob.boundedFloatToValue x (1 / 10) (9 / 10) : Nat) : ℚ) = roundToInt (position x (1 / 10) (9 / 10)) + 1 := by
    have : ((Prob.boundedFloatToValue x (1 / 10) (9 / 10) : Nat) : ℚ) =
        ((Prob.boundedFloatToInt x (1 / 10) (9 / 10) : Int) : ℚ) := by exact_mod_cast hc
    rw [this]
    unfold Prob.boundedFloatToInt position
    push_cast
    rfl
  rw [this]
  simpa using hr

/-- Numbers that are close get values that differ by at most one in `float` and in exact arithmetic. -/
theorem encode_close (h : SingleRounding fl) {x x' lo hi : ℚ} (h1 : |lo - 1 / 10| ≤ 2 * u) (h2 : |hi - 9 / 10| ≤ 2 * u)
    (hx : |x' - x| ≤ 42 * u) {n : Nat} (hn : boundedFloatToValue fl x' lo hi = some n) :
    n ≤ Prob.boundedFloatToValue x (1 / 10) (9 / 10) + 1 ∧ Prob.boundedFloatToValue x (1 / 10) (9 / 10) ≤ n + 1 := by
  obtain ⟨n', hn', -, -, he⟩ := encode_spec h (bounds_of_near h1 h2) x'
  rw [hn] at hn'
  simp only [Option.some.injEq] at hn'
  subst hn'
  have hp := position_close h1 h2 hx
  have hq := exact_position x
  set m := Prob.boundedFloatToValue x (1 / 10) (9 / 10)
  rw [abs_le] at he hp hq
  have a : (n : ℚ) < m + 2 := by linarith
  have b : (m : ℚ) < n + 2 := by linarith
  have a' : n < m + 2 := by exact_mod_cast a
  have b' : m < n + 2 := by exact_mod_cast b
  omega

theorem exactValue_close {lo hi : ℚ} (h1 : |lo - 1 / 10| ≤ 2 * u) (h2 : |hi - 9 / 10| ≤ 2 * u) {v : Nat} (hv1 : 1 ≤ v)
    (hv2 : v ≤ 32767) : |exactValue lo hi v - exactValue (1 / 10) (9 / 10) v| ≤ 2 * u := by
  have c1 : (1 : ℚ) ≤ v := by exact_mod_cast hv1
  have c2 : (v : ℚ) ≤ 32767 := by exact_mod_cast hv2
  set t : ℚ := (v - 1) / 32766
  have t0 : 0 ≤ t := by unfold t; apply div_nonneg <;> linarith
  have t1 : t ≤ 1 := by unfold t; rw [div_le_one (by norm_num)]; linarith
  have e : exactValue lo hi v - exactValue (1 / 10) (9 / 10) v = (lo - 1 / 10) * (1 - t) + (hi - 9 / 10) * t := by
    unfold exactValue t; ring
  rw [e]
  rw [abs_le] at *
  have t1' : 0 ≤ 1 - t := by linarith
  have a1 := mul_le_mul_of_nonneg_right h1.1 t1'
  have a2 := mul_le_mul_of_nonneg_right h1.2 t1'
  have a3 := mul_le_mul_of_nonneg_right h2.1 t0
  have a4 := mul_le_mul_of_nonneg_right h2.2 t0
  constructor <;> linarith

theorem fromOdds_error (h : SingleRounding fl) {o : ℚ} (ho : OddsOk o) :
    |probabilityFromOdds fl o - Prob.probabilityFromOdds o| ≤ 3 * u ∧
    0 ≤ Prob.probabilityFromOdds o ∧ Prob.probabilityFromOdds o ≤ 1 := by
  have op := ho.pos
  have hd : Rel (101 / 100 * u) (fl (o + 1)) (o + 1) :=
    Rel.refl.fl h (by linarith) le_rfl (by norm_num) (by norm_num [u])
  have hq : Rel (102 / 100 * u) (o / fl (o + 1)) (o / (o + 1)) :=
    Rel.refl.div hd op (by linarith) (by norm_num [u]) (by norm_num [u]) (by norm_num [u]) (by norm_num [u]) (by norm_num [u])
  have h0 : 1 / 2 ^ 99 ≤ o / (o + 1) := by
    rw [le_div_iff₀ (by linarith)]
    have := ho.1
    have := ho.2
    linarith
  have hf : Rel (3 * u) (probabilityFromOdds fl o) (o / (o + 1)) :=
    hq.fl h h0 (by norm_num [u]) (by norm_num [u]) (by norm_num [u])
  have F1 : o / (o + 1) ≤ 1 := by rw [div_le_one (by linarith)]; linarith
  unfold Prob.probabilityFromOdds
  have u0 : 0 < u := by norm_num [u]
  have := mul_le_mul_of_nonneg_right F1 (show 0 ≤ 3 * u by linarith)
  refine ⟨?_, by positivity, F1⟩
  rw [abs_le]
  constructor
  · linarith [hf.1]
  · linarith [hf.2]

theorem exactUpdate_eq {o p : ℚ} (ho : 0 < o) (h1 : 0 < p) (h2 : p < 1) :
    Prob.probabilityFromOdds (o * Prob.odds p) = exactUpdate o p := by
  have hq : 0 < 1 - p := by linarith
  have : o * p + (1 - p) ≠ 0 := by positivity
  unfold Prob.probabilityFromOdds Prob.odds exactUpdate
  field_simp

theorem exact_table (o : ℚ) (v : Nat) :
    ∃ m, Prob.oddsTable o v = m + 32768 ∧
      m = Prob.boundedFloatToValue (if v = 0 then Prob.probabilityFromOdds o
        else Prob.probabilityFromOdds (o * Prob.odds (Prob.valueToProbability v))) (1 / 10) (9 / 10) := by
  have e9 : Prob.maxProbability = 9 / 10 := by norm_num [Prob.maxProbability, Prob.minProbability]
  refine ⟨_, ?_, rfl⟩
  unfold Prob.oddsTable Prob.probabilityToValue
  rw [e9, Prob.updateMarker_eq, show Prob.minProbability = 1 / 10 from rfl]
  split
  · have := (Prob.value_range (lo := 1 / 10) (hi := 9 / 10) (by norm_num) (Prob.probabilityFromOdds o)).2
    omega
  · have := (Prob.value_range (lo := 1 / 10) (hi := 9 / 10) (by norm_num)
      (Prob.probabilityFromOdds (o * Prob.odds (Prob.valueToProbability v)))).2
    omega

theorem exact_cost_table (o : ℚ) (v : Nat) :
    ∃ m, Prob.costOddsTable o v = m + 32768 ∧
      m = Prob.boundedFloatToValue (if v = 0 then 1 - Prob.probabilityFromOdds o
        else 1 - Prob.probabilityFromOdds (o * Prob.odds (1 - Prob.valueToCost v))) (1 / 10) (9 / 10) := by
  have e9 : Prob.maxCost = 9 / 10 := by norm_num [Prob.maxCost, Prob.minProbability]
  have e1 : Prob.minCost = 1 / 10 := by norm_num [Prob.minCost, Prob.maxProbability, Prob.minProbability]
  refine ⟨_, ?_, rfl⟩
  unfold Prob.costOddsTable Prob.costToValue Prob.probabilityToCost Prob.costToProbability
  rw [e9, e1, Prob.updateMarker_eq]
  split
  · have := (Prob.value_range (lo := 1 / 10) (hi := 9 / 10) (by norm_num) (1 - Prob.probabilityFromOdds o)).2
    omega
  · have := (Prob.value_range (lo := 1 / 10) (hi := 9 / 10) (by norm_num)
      (1 - Prob.probabilityFromOdds (o * Prob.odds (1 - Prob.valueToCost v)))).2
    omega

theorem exactValue_std {v : Nat} (h1 : 1 ≤ v) (h2 : v ≤ 32767) :
    Prob.valueToProbability v = exactValue (1 / 10) (9 / 10) v ∧ Prob.valueToCost v = exactValue (1 / 10) (9 / 10) v := by
  have e9 : Prob.maxProbability = 9 / 10 := by norm_num [Prob.maxProbability, Prob.minProbability]
  have c9 : Prob.maxCost = 9 / 10 := by norm_num [Prob.maxCost, Prob.minProbability]
  have c1 : Prob.minCost = 1 / 10 := by norm_num [Prob.minCost, Prob.maxProbability, Prob.minProbability]
  unfold Prob.valueToProbability Prob.valueToCost exactValue
  rw [Prob.decode_eq _ h1 h2, Prob.decode_eq _ h1 h2, e9, c9, c1]
  exact ⟨rfl, rfl⟩

/-- **C104.** Every entry of both tables, that for unknown cells included, differs by at most one from the entry computed
with exact arithmetic, so that the results on the exact model carry over up to one step of the `uint16` scale. -/
theorem tables_close (h : SingleRounding fl) (fused : Bool) {o : ℚ} (ho : OddsOk o) {v : Nat} (h2 : v ≤ 32767) :
    (∃ n, oddsTable fl fused o v = some n ∧ n ≤ Prob.oddsTable o v + 1 ∧ Prob.oddsTable o v ≤ n + 1) ∧
    (∃ n, costOddsTable fl fused o v = some n ∧ n ≤ Prob.costOddsTable o v + 1 ∧ Prob.costOddsTable o v ≤ n + 1) := by
  have u0 : 0 < u := by norm_num [u]
  have m1 := le_trans (minProbability_near h) (show 1 / 10 * u ≤ 2 * u by linarith)
  have m2 := le_trans (maxProbability_near h) (show 101 / 100 * u ≤ 2 * u by linarith)
  have m3 := le_trans (minCost_near h) (show 12 / 10 * u ≤ 2 * u by linarith)
  have m4 := le_trans (maxCost_near h) (show 101 / 100 * u ≤ 2 * u by linarith)
  constructor
  · obtain ⟨m, hm, hme⟩ := exact_table o v
    obtain ⟨n, hn, -, -, he⟩ := oddsTable_some h fused o v
    refine ⟨n + 32768, hn, ?_⟩
    rw [hm]
    suffices hs : n ≤ m + 1 ∧ m ≤ n + 1 by omega
    rw [hme]
    by_cases h0 : v = 0
    · rw [if_pos h0]
      unfold oddsTable at hn
      rw [if_pos h0, Option.map_eq_some_iff] at hn
      obtain ⟨k, hk, hk'⟩ := hn
      obtain rfl : k = n := by omega
      exact encode_close h m1 m2 (le_trans (fromOdds_error h ho).1 (by linarith)) hk
    · rw [if_neg h0]
      have h1 : 1 ≤ v := by omega
      refine encode_close h m1 m2 ?_ (he h1)
      have d := valueToProbability_near h fused h1 h2
      have c := exactValue_close m1 m2 h1 h2
      obtain ⟨p1, p2⟩ := valueToProbability_mem h fused h1 h2
      obtain ⟨q1, q2⟩ := exactValue_mem (bounds_of_near (lo := 1 / 10) (hi := 9 / 10) (by norm_num [u]) (by norm_num [u])) h1 h2
      rw [(exactValue_std h1 h2).1, exactUpdate_eq ho.pos (by linarith) (by linarith)]
      have hu : u = 9 / 2 ^ 26 := rfl
      have a := updated_error h fused (p := valueToProbability fl fused v) ho (by linarith) (by linarith)
      have b := exactUpdate_lipschitz (o := o) (p := exactValue (1 / 10) (9 / 10) v) (q := valueToProbability fl fused v)
        (e := 9 * u) ho.pos (by linarith) (by linarith) (by linarith) (by linarith)
        (by rw [abs_le] at *; constructor <;> linarith) (by linarith)
      rw [abs_le] at *
      constructor <;> linarith
  · obtain ⟨m, hm, hme⟩ := exact_cost_table o v
    obtain ⟨n, hn, -, -, he⟩ := costOddsTable_some h fused o v
    refine ⟨n + 32768, hn, ?_⟩
    rw [hm]
    suffices hs : n ≤ m + 1 ∧ m ≤ n + 1 by omega
    rw [hme]
    by_cases h0 : v = 0
    · rw [if_pos h0]
      unfold costOddsTable at hn
      rw [if_pos h0, Option.map_eq_some_iff] at hn
      obtain ⟨k, hk, hk'⟩ := hn
      obtain rfl : k = n := by omega
      obtain ⟨f1, f2, f3⟩ := fromOdds_error h ho
      refine encode_close h m3 m4 ?_ hk
      unfold probabilityToCost
      unfold u at *
      rw [abs_le] at f1
      have nr := near h (x := 1 - probabilityFromOdds fl o) (B := 1001 / 1000) (by rw [abs_le]; constructor <;> linarith)
        (by norm_num)
      unfold u at nr
      rw [abs_le] at nr ⊢
      constructor <;> linarith
    · rw [if_neg h0]
      have h1 : 1 ≤ v := by omega
      refine encode_close h m3 m4 ?_ (he h1)
      obtain ⟨d, p1, p2⟩ := costProbability_near h fused h1 h2
      have c := exactValue_close m3 m4 h1 h2
      obtain ⟨q1, q2⟩ := exactValue_mem (bounds_of_near (lo := 1 / 10) (hi := 9 / 10) (by norm_num [u]) (by norm_num [u])) h1 h2
      rw [(exactValue_std h1 h2).2, exactUpdate_eq ho.pos (by linarith) (by linarith)]
      have hu : u = 9 / 2 ^ 26 := rfl
      set p := costToProbability fl (valueToCost fl fused v)
      have a := updated_error h fused (p := p) ho (by linarith) (by linarith)
      have b := exactUpdate_lipschitz (o := o) (p := 1 - exactValue (1 / 10) (9 / 10) v) (q := p)
        (e := 10 * u) ho.pos (by linarith) (by linarith) (by linarith) (by linarith)
        (by rw [abs_le] at *; constructor <;> linarith) (by linarith)
      have dd : 0 < o * p + (1 - p) := by
        have a1 : 0 < p := by linarith
        have a2 : 0 < 1 - p := by linarith
        have := ho.pos
        positivity
      have F0 : 0 ≤ exactUpdate o p := div_nonneg (mul_nonneg ho.pos.le (by linarith)) dd.le
      have F1 : exactUpdate o p ≤ 1 := by unfold exactUpdate; rw [div_le_one dd]; linarith
      unfold probabilityToCost
      rw [abs_le] at *
      have nr := near h (x := 1 - updated fl fused o p) (B := 1001 / 1000) (by rw [abs_le]; constructor <;> linarith)
        (by norm_num)
      rw [abs_le] at nr
      constructor <;> linarith

/-! ### Histories -/

/-- A cell of a 2D probability grid after a list of updates, each applying a table and then taking the marker off. -/
def cellAfter (fl : ℚ → ℚ) (fused : Bool) : Nat → List ℚ → Option Nat
  | v, [] => some v
  | v, o :: os => (costOddsTable fl fused o v).bind fun n => cellAfter fl fused (n - 32768) os

/-- **C104.** Over any history of updates: no check fails, the cell stays in range and is known once it was updated; hits
alone never raise its cost and misses alone never lower it; and a run of clear hits as long as the scale is long brings every
cell to the smallest cost, where it stays. -/
theorem update_history (h : SingleRounding fl) (fused : Bool) (os : List ℚ) (hos : ∀ o ∈ os, OddsOk o) (v : Nat)
    (hv : v ≤ 32767) :
    ∃ n, cellAfter fl fused v os = some n ∧ n ≤ 32767 ∧ (os ≠ [] ∨ 1 ≤ v → 1 ≤ n) ∧
      (1 ≤ v → (∀ o ∈ os, 1 ≤ o) → n ≤ v) ∧ (1 ≤ v → (∀ o ∈ os, o ≤ 1) → v ≤ n) ∧
      (1 ≤ v → (∀ o ∈ os, 1001 / 1000 ≤ o) → n = 1 ∨ n + os.length ≤ v) ∧
      (1 ≤ v → (∀ o ∈ os, o ≤ 999 / 1000) → n = 32767 ∨ v + os.length ≤ n) := by
  induction os generalizing v with
  | nil => exact ⟨v, rfl, hv, by simp, fun _ _ => le_rfl, fun _ _ => le_rfl, fun _ _ => Or.inr (by simp),
      fun _ _ => Or.inr (by simp)⟩
  | cons o os ih =>
    have ho := hos o List.mem_cons_self
    have hos' : ∀ o' ∈ os, OddsOk o' := fun o' ho' => hos o' (List.mem_cons_of_mem _ ho')
    obtain ⟨m, hm, k1, k2, -⟩ := costOddsTable_some h fused o v
    obtain ⟨n, hn, r1, r2, r3, r4, r5, r6⟩ := ih hos' m k2
    have upd : 1 ≤ v → (1 ≤ o → m ≤ v) ∧ (o ≤ 1 → v ≤ m) ∧ (1001 / 1000 ≤ o → 1 < v → m < v) ∧
        (o ≤ 999 / 1000 → v < 32767 → v < m) := by
      intro h1
      obtain ⟨m', hm', -, -, q⟩ := cost_odds_update h fused ho h1 hv
      rw [hm] at hm'
      simp only [Option.some.injEq, Nat.add_right_cancel_iff] at hm'
      rw [hm']; exact q
    refine ⟨n, ?_, r1, fun _ => r2 (Or.inr k1), fun h1 c => ?_, fun h1 c => ?_, fun h1 c => ?_, fun h1 c => ?_⟩
    · rw [cellAfter, hm, Option.bind_some, Nat.add_sub_cancel]; exact hn
    · exact le_trans (r3 k1 fun o' h' => c o' (List.mem_cons_of_mem _ h')) ((upd h1).1 (c o List.mem_cons_self))
    · exact le_trans ((upd h1).2.1 (c o List.mem_cons_self)) (r4 k1 fun o' h' => c o' (List.mem_cons_of_mem _ h'))
    · have c0 := c o List.mem_cons_self
      have a := (upd h1).1 (by linarith)
      have b := (upd h1).2.2.1 c0
      have e := r5 k1 fun o' h' => c o' (List.mem_cons_of_mem _ h')
      rw [List.length_cons]
      omega
    · have c0 := c o List.mem_cons_self
      have a := (upd h1).2.1 (by linarith)
      have b := (upd h1).2.2.2 c0
      have e := r6 k1 fun o' h' => c o' (List.mem_cons_of_mem _ h')
      rw [List.length_cons]
      omega

/-- **C104.** A cell that is hit 32767 times in a row, with odds of at least 1.001, has the smallest cost, whatever was
known about it before. -/
theorem hits_saturate (h : SingleRounding fl) (fused : Bool) (os : List ℚ) (hos : ∀ o ∈ os, OddsOk o ∧ 1001 / 1000 ≤ o)
    (hl : 32767 ≤ os.length) (v : Nat) (hv : v ≤ 32767) : cellAfter fl fused v os = some 1 := by
  obtain ⟨o, os, rfl⟩ : ∃ o os', os = o :: os' := by
    cases os with
    | nil => simp at hl
    | cons o os => exact ⟨o, os, rfl⟩
  obtain ⟨m, hm, k1, k2, -⟩ := costOddsTable_some h fused o v
  obtain ⟨n, hn, r1, r2, -, -, r5, -⟩ := update_history h fused os (fun o' h' => (hos o' (List.mem_cons_of_mem _ h')).1) m k2
  rw [cellAfter, hm, Option.bind_some, Nat.add_sub_cancel, hn]
  have := r5 k1 fun o' h' => (hos o' (List.mem_cons_of_mem _ h')).2
  have := r2 (Or.inr k1)
  rw [List.length_cons] at hl
  congr 1
  omega

/-! ### Rounding to nearest -/

/-- The ends of the conversion tables. -/
theorem nearest_ends : ∀ fused : Bool,
    valueToProbability single.rnd fused 1 = minProbability single.rnd ∧
    valueToProbability single.rnd fused 32767 = maxProbability single.rnd - 1 / 2 ^ 24 ∧
    valueToCost single.rnd fused 1 = minCost single.rnd ∧
    valueToCost single.rnd fused 32767 = maxCost single.rnd - (if fused then 0 else 1 / 2 ^ 24) := by
  decide +kernel

/-- **C104.** With rounding to nearest, converted values lie in the documented ranges. -/
theorem nearest_range (fused : Bool) {v : Nat} (h1 : 1 ≤ v) (h2 : v ≤ 32767) :
    minProbability single.rnd ≤ valueToProbability single.rnd fused v ∧
    valueToProbability single.rnd fused v < maxProbability single.rnd ∧
    minCost single.rnd ≤ valueToCost single.rnd fused v ∧
    valueToCost single.rnd fused v ≤ maxCost single.rnd := by
  have hs := single_nearest
  obtain ⟨e1, e2, e3, e4⟩ := nearest_ends fused
  have mono : ∀ {lo hi : ℚ} (_ : Bounds lo hi) (ur : ℚ) {a b : Nat}, 1 ≤ a → a ≤ b → b ≤ 32767 →
      valueToBoundedFloat single.rnd fused a ur lo hi ≤ valueToBoundedFloat single.rnd fused b ur lo hi := by
    intro lo hi hb ur a b ha hab hb2
    rcases Nat.eq_or_lt_of_le hab with rfl | hlt
    · exact le_rfl
    · exact ((decode_spec hs hb fused ur ha (by omega)).2 b hlt hb2).le
  have a1 := mono (probBounds hs) (minProbability single.rnd) le_rfl h1 h2
  have a2 := mono (probBounds hs) (minProbability single.rnd) h1 h2 le_rfl
  have a3 := mono (costBounds hs) (maxCost single.rnd) le_rfl h1 h2
  have a4 := mono (costBounds hs) (maxCost single.rnd) h1 h2 le_rfl
  change valueToProbability single.rnd fused 1 ≤ valueToProbability single.rnd fused v at a1
  change valueToProbability single.rnd fused v ≤ valueToProbability single.rnd fused 32767 at a2
  change valueToCost single.rnd fused 1 ≤ valueToCost single.rnd fused v at a3
  change valueToCost single.rnd fused v ≤ valueToCost single.rnd fused 32767 at a4
  rw [e1] at a1
  rw [e2] at a2
  rw [e3] at a3
  rw [e4] at a4
  refine ⟨a1, by linarith, a3, le_trans a4 ?_⟩
  cases fused <;> norm_num

/-- **C104**, what is lost: no value converts to `kMaxProbability`, so this probability does not survive the conversion to a
value and back. -/
theorem max_probability_lost (fused : Bool) :
    probabilityToValue single.rnd (maxProbability single.rnd) = some 32767 ∧
    ∀ v, 1 ≤ v → v ≤ 32767 → valueToProbability single.rnd fused v ≠ maxProbability single.rnd := by
  refine ⟨?_, fun v h1 h2 => (nearest_range fused h1 h2).2.1.ne⟩
  have hs := single_nearest
  obtain ⟨n, hn, n1, n2, -⟩ := encode_spec hs (probBounds hs) (maxProbability single.rnd)
  have := encode_hi hs (probBounds hs) le_rfl hn (m := 32767) le_rfl
  unfold probabilityToValue
  rw [hn]
  congr 1
  omega

/-- **C104**, what is lost: the bounds of costs are not those of probabilities. -/
theorem bounds_differ : minProbability single.rnd < minCost single.rnd ∧ maxProbability single.rnd = maxCost single.rnd := by
  decide +kernel

/-- Non-vacuity: a hit table with odds 5/4 raises the value of an undecided cell, with both roundings. -/
example : oddsTable single.rnd false (5 / 4) 16384 = some (18659 + 32768) ∧
    costOddsTable single.rnd true (5 / 4) 16384 = some (14109 + 32768) := by decide +kernel

/-- Non-vacuity: the bounds used for probabilities, for distances truncated at 0.3 and for weights up to 10 are in range. -/
example : Bounds (-(3 / 10)) (3 / 10) ∧ Bounds 0 10 ∧ OddsOk (11 / 9) ∧ OddsOk (49 / 51) := by
  refine ⟨⟨?_, ?_, ?_⟩, ⟨?_, ?_, ?_⟩, ?_, ?_⟩ <;> norm_num [OddsOk, abs_of_pos, abs_of_neg]

end Verif.FloatProb
