import Verif.ProbabilityValues
import Mathlib.Tactic.IntervalCases

/-! # C12, C13: quantisation of probabilities and occupancy updates -/

namespace Verif.Prob

theorem clamp_eq {x lo hi : ℚ} (h : lo ≤ hi) : clamp x lo hi = max lo (min x hi) := by
  unfold clamp
  split
  · rename_i h1; rw [min_eq_right (le_of_lt h1), max_eq_right h]
  · rename_i h1
    rw [min_eq_left (not_lt.1 h1)]
    split
    · rename_i h2; rw [max_eq_left (le_of_lt h2)]
    · rename_i h2; rw [max_eq_right (not_lt.1 h2)]

theorem clamp_mem {x lo hi : ℚ} (h : lo ≤ hi) : lo ≤ clamp x lo hi ∧ clamp x lo hi ≤ hi := by
  unfold clamp
  split
  · exact ⟨h, le_refl _⟩
  · split
    · exact ⟨le_refl _, h⟩
    · constructor <;> linarith

theorem clamp_mono {x y lo hi : ℚ} (h : lo ≤ hi) (hxy : x ≤ y) : clamp x lo hi ≤ clamp y lo hi := by
  unfold clamp
  repeat' split
  all_goals linarith

theorem clamp_self {x lo hi : ℚ} (h1 : lo ≤ x) (h2 : x ≤ hi) : clamp x lo hi = x := by
  unfold clamp
  rw [if_neg (not_lt.2 h2), if_neg (not_lt.2 h1)]

theorem roundToInt_mono {x y : ℚ} (h0 : 0 ≤ x) (h : x ≤ y) : roundToInt x ≤ roundToInt y := by
  unfold roundToInt
  rw [if_pos h0, if_pos (le_trans h0 h)]
  exact Int.floor_mono (by linarith)

theorem roundToInt_spec {x : ℚ} (h0 : 0 ≤ x) : (roundToInt x : ℚ) ≤ x + 1 / 2 ∧ x - 1 / 2 < (roundToInt x : ℚ) := by
  unfold roundToInt
  rw [if_pos h0]
  exact ⟨Int.floor_le _, by have := Int.lt_floor_add_one (x + 1 / 2); linarith⟩

/-- Rounding is to the nearest integer for negative arguments as well. -/
theorem roundToInt_nearest (x : ℚ) : |(roundToInt x : ℚ) - x| ≤ 1 / 2 := by
  unfold roundToInt
  split
  · rw [abs_le]
    have h1 := Int.floor_le (x + 1 / 2)
    have h2 := Int.lt_floor_add_one (x + 1 / 2)
    constructor <;> linarith
  · rw [abs_le]
    have h1 := Int.le_ceil (x - 1 / 2)
    have h2 := Int.ceil_lt_add_one (x - 1 / 2)
    constructor <;> linarith

theorem roundToInt_intCast (n : Int) (h : 0 ≤ n) : roundToInt (n : ℚ) = n := by
  unfold roundToInt
  rw [if_pos (by exact_mod_cast h), Int.floor_eq_iff]
  constructor <;> norm_num

theorem roundToInt_le_int {x : ℚ} {n : Int} (h0 : 0 ≤ x) (h : x ≤ n) : roundToInt x ≤ n := by
  have : 0 ≤ n := by have := le_trans h0 h; exact_mod_cast this
  rw [← roundToInt_intCast n this]
  exact roundToInt_mono h0 h

section Generic

variable {lo hi : ℚ} (hlt : lo < hi)
include hlt

/-- The rounded quantity. -/
theorem scaled_range (x : ℚ) : 0 ≤ (clamp x lo hi - lo) * (32766 / (hi - lo)) ∧
    (clamp x lo hi - lo) * (32766 / (hi - lo)) ≤ 32766 := by
  obtain ⟨h1, h2⟩ := clamp_mem (x := x) (le_of_lt hlt)
  have hd : 0 < hi - lo := by linarith
  constructor
  · apply mul_nonneg (by linarith); positivity
  · rw [mul_div_assoc', div_le_iff₀ hd]
    nlinarith

theorem boundedFloatToInt_range (x : ℚ) : 1 ≤ boundedFloatToInt x lo hi ∧ boundedFloatToInt x lo hi ≤ 32767 := by
  obtain ⟨h1, h2⟩ := scaled_range hlt x
  unfold boundedFloatToInt
  constructor
  · have := roundToInt_mono (le_refl 0) h1
    have h0 : roundToInt 0 = 0 := by simpa using roundToInt_intCast 0 (le_refl 0)
    omega
  · have := roundToInt_le_int (n := 32766) h1 (by exact_mod_cast h2)
    omega

theorem boundedFloatToValue_cast (x : ℚ) : (boundedFloatToValue x lo hi : Int) = boundedFloatToInt x lo hi := by
  obtain ⟨h1, h2⟩ := boundedFloatToInt_range hlt x
  unfold boundedFloatToValue
  omega

theorem value_range (x : ℚ) : 1 ≤ boundedFloatToValue x lo hi ∧ boundedFloatToValue x lo hi ≤ 32767 := by
  have h := boundedFloatToValue_cast hlt x
  have := boundedFloatToInt_range hlt x
  omega

theorem value_mono {x y : ℚ} (h : x ≤ y) : boundedFloatToValue x lo hi ≤ boundedFloatToValue y lo hi := by
  have hx := boundedFloatToValue_cast hlt x
  have hy := boundedFloatToValue_cast hlt y
  have : boundedFloatToInt x lo hi ≤ boundedFloatToInt y lo hi := by
    unfold boundedFloatToInt
    have := roundToInt_mono (scaled_range hlt x).1 (y := (clamp y lo hi - lo) * (32766 / (hi - lo))) (by
      apply mul_le_mul_of_nonneg_right
      · have := clamp_mono (le_of_lt hlt) h; linarith
      · have : 0 < hi - lo := by linarith
        positivity)
    omega
  omega

omit hlt in
theorem decode_eq (u : ℚ) {v : Nat} (h1 : 1 ≤ v) (h2 : v ≤ 32767) :
    valueToBoundedFloat v u lo hi = lo + (v - 1) * ((hi - lo) / 32766) := by
  unfold valueToBoundedFloat slowValueToBoundedFloat valueCount
  rw [Nat.mod_eq_of_lt (by omega), if_neg (by omega)]
  ring

omit hlt in
theorem decode_marker (u : ℚ) (v : Nat) : valueToBoundedFloat (v + updateMarker) u lo hi = valueToBoundedFloat v u lo hi := by
  have h : (v + updateMarker) % valueCount = v % valueCount := by
    have h1 : updateMarker = 32768 := by norm_num [updateMarker]
    have h2 : valueCount = 32768 := rfl
    rw [h1, h2]
    omega
  unfold valueToBoundedFloat
  rw [h]

theorem decode_range (u : ℚ) {v : Nat} (h1 : 1 ≤ v) (h2 : v ≤ 32767) :
    lo ≤ valueToBoundedFloat v u lo hi ∧ valueToBoundedFloat v u lo hi ≤ hi := by
  rw [decode_eq u h1 h2]
  have ha : (1 : ℚ) ≤ v := by exact_mod_cast h1
  have hb : (v : ℚ) ≤ 32767 := by exact_mod_cast h2
  have hd : 0 < hi - lo := by linarith
  constructor
  · have : 0 ≤ ((v : ℚ) - 1) * ((hi - lo) / 32766) := mul_nonneg (by linarith) (by positivity)
    linarith
  · have : ((v : ℚ) - 1) * ((hi - lo) / 32766) ≤ 32766 * ((hi - lo) / 32766) :=
      mul_le_mul_of_nonneg_right (by linarith) (by positivity)
    have e : 32766 * ((hi - lo) / 32766) = hi - lo := by field_simp
    linarith

theorem decode_lt (u : ℚ) {v w : Nat} (h1 : 1 ≤ v) (h2 : w ≤ 32767) (h : v < w) :
    valueToBoundedFloat v u lo hi < valueToBoundedFloat w u lo hi := by
  rw [decode_eq u h1 (by omega), decode_eq u (by omega) h2]
  have hd : 0 < (hi - lo) / 32766 := by have : 0 < hi - lo := by linarith
                                        positivity
  have : (v : ℚ) < w := by exact_mod_cast h
  nlinarith

/-- Encoding a decoded value. -/
theorem encode_decode (u : ℚ) {v : Nat} (h1 : 1 ≤ v) (h2 : v ≤ 32767) :
    boundedFloatToValue (valueToBoundedFloat v u lo hi) lo hi = v := by
  have hr := decode_range hlt u h1 h2
  have hc := boundedFloatToValue_cast hlt (valueToBoundedFloat v u lo hi)
  have hd : hi - lo ≠ 0 := by linarith
  have : boundedFloatToInt (valueToBoundedFloat v u lo hi) lo hi = v := by
    unfold boundedFloatToInt
    rw [clamp_self hr.1 hr.2, decode_eq u h1 h2]
    have e : (lo + ((v : ℚ) - 1) * ((hi - lo) / 32766) - lo) * (32766 / (hi - lo)) = (((v : Int) - 1 : Int) : ℚ) := by
      push_cast
      field_simp
      ring
    rw [e, roundToInt_intCast _ (by omega)]
    omega
  omega

/-- Decoding an encoded value: within half a step of the clamped input. -/
theorem decode_encode (u x : ℚ) :
    |valueToBoundedFloat (boundedFloatToValue x lo hi) u lo hi - clamp x lo hi| ≤ (hi - lo) / 32766 / 2 := by
  obtain ⟨h1, h2⟩ := value_range hlt x
  have hd : 0 < hi - lo := by linarith
  rw [decode_eq u h1 h2]
  have hc : ((boundedFloatToValue x lo hi : Nat) : ℚ) = (boundedFloatToInt x lo hi : ℚ) := by
    rw [← boundedFloatToValue_cast hlt x]; norm_cast
  rw [hc]
  obtain ⟨q1, q2⟩ := roundToInt_spec (scaled_range hlt x).1
  unfold boundedFloatToInt
  push_cast
  set r : ℚ := (roundToInt ((clamp x lo hi - lo) * (32766 / (hi - lo))) : ℚ) with hr
  set s := (clamp x lo hi - lo) * (32766 / (hi - lo)) with hs
  have hcl : clamp x lo hi = lo + s * ((hi - lo) / 32766) := by
    rw [hs]; field_simp; ring
  rw [hcl]
  have e : lo + (r + 1 - 1) * ((hi - lo) / 32766) - (lo + s * ((hi - lo) / 32766)) = (r - s) * ((hi - lo) / 32766) := by ring
  rw [e, abs_mul, abs_of_pos (show 0 < (hi - lo) / 32766 by positivity)]
  have : |r - s| ≤ 1 / 2 := by rw [abs_le]; constructor <;> linarith
  calc |r - s| * ((hi - lo) / 32766) ≤ 1 / 2 * ((hi - lo) / 32766) := mul_le_mul_of_nonneg_right this (by positivity)
    _ = (hi - lo) / 32766 / 2 := by ring

end Generic

theorem updateMarker_eq : updateMarker = 32768 := by norm_num [updateMarker]

theorem minmax : minProbability < maxProbability := by norm_num [minProbability, maxProbability]

theorem minmaxCost : minCost < maxCost := by norm_num [minProbability, maxProbability, minCost, maxCost]

/-- **C12**, encoding: the code is in `1..32767`, monotone, decoding gives the clamped input within half a
quantisation step and encoding a decoded value is the identity; for probabilities and costs (and for all
bounds). -/
theorem quantisation {lo hi : ℚ} (hlt : lo < hi) (u : ℚ) :
    (∀ x, 1 ≤ boundedFloatToValue x lo hi ∧ boundedFloatToValue x lo hi ≤ 32767) ∧
    (∀ x y, x ≤ y → boundedFloatToValue x lo hi ≤ boundedFloatToValue y lo hi) ∧
    (∀ x, |valueToBoundedFloat (boundedFloatToValue x lo hi) u lo hi - max lo (min x hi)| ≤ (hi - lo) / 32766 / 2) ∧
    (∀ v, 1 ≤ v → v ≤ 32767 → boundedFloatToValue (valueToBoundedFloat v u lo hi) lo hi = v ∧
      lo ≤ valueToBoundedFloat v u lo hi ∧ valueToBoundedFloat v u lo hi ≤ hi) ∧
    (∀ v w, 1 ≤ v → w ≤ 32767 → v < w → valueToBoundedFloat v u lo hi < valueToBoundedFloat w u lo hi) ∧
    (∀ v, valueToBoundedFloat (v + updateMarker) u lo hi = valueToBoundedFloat v u lo hi) ∧
    valueToBoundedFloat 0 u lo hi = u :=
  ⟨value_range hlt, fun _ _ h => value_mono hlt h, fun x => by rw [← clamp_eq (le_of_lt hlt)]; exact decode_encode hlt u x,
    fun _ h1 h2 => ⟨encode_decode hlt u h1 h2, decode_range hlt u h1 h2⟩, fun _ _ => decode_lt hlt u,
    decode_marker u, by simp [valueToBoundedFloat, slowValueToBoundedFloat]⟩

/-- The two decoding tables agree on every 16 bit value. -/
theorem tables_agree (v : Nat) (u lo hi : ℚ) : conversionTable v u lo hi = valueToBoundedFloat v u lo hi := by
  unfold conversionTable valueToBoundedFloat valueCount updateMarker
  congr 1
  have : (65535 - 2 ^ 15 : Nat) = 2 ^ 15 - 1 := by norm_num
  rw [this, Nat.and_two_pow_sub_one_eq_mod]

/-- The value of the other representation. -/
theorem convert_value {v : Nat} (h1 : 1 ≤ v) (h2 : v ≤ 32767) :
    costToValue (probabilityToCost (valueToProbability v)) = 32768 - v ∧
    probabilityToValue (costToProbability (valueToCost v)) = 32768 - v := by
  have a1 : probabilityToCost (valueToProbability v) = valueToCost (32768 - v) := by
    unfold probabilityToCost valueToProbability valueToCost
    rw [decode_eq _ h1 h2, decode_eq _ (by omega) (by omega), Nat.cast_sub (by omega)]
    norm_num [minProbability, maxProbability, minCost, maxCost]
    ring
  have a2 : costToProbability (valueToCost v) = valueToProbability (32768 - v) := by
    unfold costToProbability valueToProbability valueToCost
    rw [decode_eq _ h1 h2, decode_eq _ (by omega) (by omega), Nat.cast_sub (by omega)]
    norm_num [minProbability, maxProbability, minCost, maxCost]
    ring
  rw [a1, a2]
  exact ⟨encode_decode minmaxCost _ (by omega) (by omega), encode_decode minmax _ (by omega) (by omega)⟩

theorem pv2cv {v : Nat} (hv : v < 65536) : (v = 0 → probabilityValueToCostValue v = 0) ∧
    (1 ≤ v → v ≤ 32767 → probabilityValueToCostValue v = 32768 - v) ∧
    (32769 ≤ v → probabilityValueToCostValue v = 32768 + (65536 - v)) := by
  have hu : updateMarker = 32768 := by norm_num [updateMarker]
  refine ⟨fun h => by simp [probabilityValueToCostValue, h], fun h1 h2 => ?_, fun h1 => ?_⟩
  · have hn : ¬ v > updateMarker := by omega
    simp only [probabilityValueToCostValue, if_neg (by omega : ¬ v = 0), hn, decide_false, Bool.false_eq_true, if_false]
    exact (convert_value h1 h2).1
  · have hn : v > updateMarker := by omega
    simp only [probabilityValueToCostValue, if_neg (by omega : ¬ v = 0), hn, decide_true, if_true]
    rw [(convert_value (v := v - updateMarker) (by omega) (by omega)).1]
    omega

theorem cv2pv {v : Nat} (hv : v < 65536) : (v = 0 → costValueToProbabilityValue v = 0) ∧
    (1 ≤ v → v ≤ 32767 → costValueToProbabilityValue v = 32768 - v) ∧
    (32769 ≤ v → costValueToProbabilityValue v = 32768 + (65536 - v)) := by
  have hu : updateMarker = 32768 := by norm_num [updateMarker]
  refine ⟨fun h => by simp [costValueToProbabilityValue, h], fun h1 h2 => ?_, fun h1 => ?_⟩
  · have hn : ¬ v > updateMarker := by omega
    simp only [costValueToProbabilityValue, if_neg (by omega : ¬ v = 0), hn, decide_false, Bool.false_eq_true, if_false]
    exact (convert_value h1 h2).2
  · have hn : v > updateMarker := by omega
    simp only [costValueToProbabilityValue, if_neg (by omega : ¬ v = 0), hn, decide_true, if_true]
    rw [(convert_value (v := v - updateMarker) (by omega) (by omega)).2]
    omega

/-- **C12**, representations: converting a stored value to the other representation and back is the identity
and keeps the update marker, in both directions, for every 16 bit value other than the bare marker. -/
theorem convert_roundtrip_partial (v : Nat) (hv : v < 65536) (hm : v ≠ updateMarker) :
    costValueToProbabilityValue (probabilityValueToCostValue v) = v ∧
    probabilityValueToCostValue (costValueToProbabilityValue v) = v ∧
    (probabilityValueToCostValue v < 65536) ∧ (costValueToProbabilityValue v < 65536) ∧
    (updateMarker ≤ probabilityValueToCostValue v ↔ updateMarker ≤ v) ∧
    (updateMarker ≤ costValueToProbabilityValue v ↔ updateMarker ≤ v) ∧
    (probabilityValueToCostValue v = 0 ↔ v = 0) := by
  have hm' : v ≠ 32768 := hm
  obtain ⟨a0, a1, a2⟩ := pv2cv hv
  obtain ⟨b0, b1, b2⟩ := cv2pv hv
  have hu : updateMarker = 32768 := by norm_num [updateMarker]
  rw [hu]
  rcases Nat.eq_zero_or_pos v with h0 | h0
  · rw [a0 h0, b0 h0]
    have e1 := (cv2pv (v := 0) (by omega)).1 rfl
    have e2 := (pv2cv (v := 0) (by omega)).1 rfl
    omega
  · rcases Nat.lt_or_ge 32767 v with h1 | h1
    · have e1 := (cv2pv (v := 32768 + (65536 - v)) (by omega)).2.2 (by omega)
      have e2 := (pv2cv (v := 32768 + (65536 - v)) (by omega)).2.2 (by omega)
      rw [a2 (by omega), b2 (by omega)]
      omega
    · have e1 := (cv2pv (v := 32768 - v) (by omega)).2.1 (by omega) (by omega)
      have e2 := (pv2cv (v := 32768 - v) (by omega)).2.1 (by omega) (by omega)
      rw [a1 (by omega) h1, b1 (by omega) h1]
      omega

/-- The bare update marker (unknown and marked) is not preserved: the carry test is `>` instead of `>=`.
It is turned into a known cell without the marker. -/
theorem bare_marker_not_preserved :
    probabilityValueToCostValue updateMarker = 32767 ∧
    costValueToProbabilityValue (probabilityValueToCostValue updateMarker) = 1 := by
  have h : probabilityValueToCostValue updateMarker = 32767 := by
    have h0 : ¬ updateMarker = 0 := by norm_num [updateMarker]
    simp only [probabilityValueToCostValue, h0, gt_iff_lt, lt_irrefl, decide_false, Bool.false_eq_true, if_false]
    have : probabilityToCost (valueToProbability updateMarker) = valueToCost 32767 := by
      unfold probabilityToCost valueToProbability valueToCost
      rw [decode_eq (v := 32767) _ (by omega) (by omega)]
      norm_num [valueToBoundedFloat, slowValueToBoundedFloat, updateMarker, valueCount, minProbability, maxProbability, minCost, maxCost]
    rw [this]
    exact encode_decode minmaxCost _ (by omega) (by omega)
  refine ⟨h, ?_⟩
  rw [h]
  exact (cv2pv (v := 32767) (by omega)).2.1 (by omega) (by omega)

/-! ## C13 -/

theorem probabilityFromOdds_mono {a b : ℚ} (ha : 0 ≤ a) (h : a ≤ b) : probabilityFromOdds a ≤ probabilityFromOdds b := by
  unfold probabilityFromOdds
  rw [div_le_div_iff₀ (by linarith) (by linarith)]
  nlinarith

theorem probabilityFromOdds_odds {p : ℚ} (h : p < 1) : probabilityFromOdds (odds p) = p := by
  unfold probabilityFromOdds odds
  have : (1 : ℚ) - p ≠ 0 := by linarith
  field_simp
  ring

theorem odds_nonneg {p : ℚ} (h0 : 0 ≤ p) (h : p < 1) : 0 ≤ odds p := by
  unfold odds
  apply div_nonneg h0; linarith

theorem odds_mono {p q : ℚ} (h : p ≤ q) (hq : q < 1) : odds p ≤ odds q := by
  unfold odds
  rw [div_le_div_iff₀ (by linarith) (by linarith)]
  nlinarith

theorem prob_range {v : Nat} (h1 : 1 ≤ v) (h2 : v ≤ 32767) : 1 / 10 ≤ valueToProbability v ∧ valueToProbability v ≤ 9 / 10 := by
  have := decode_range minmax minProbability h1 h2
  have e1 : minProbability = 1 / 10 := rfl
  have e2 : maxProbability = 9 / 10 := by norm_num [maxProbability, minProbability]
  rw [← e1, ← e2]
  exact this

/-- Probability of a cell of a grid that stores costs (`ProbabilityGrid::GetProbability`,
probability_grid.cc:76-80, `CorrespondenceCostToProbability(ValueToCorrespondenceCost(v))`). -/
def cellProbability (v : Nat) : ℚ := costToProbability (valueToCost v)

theorem cellProbability_eq {v : Nat} (h1 : 1 ≤ v) (h2 : v ≤ 32767) : cellProbability v = valueToProbability (32768 - v) := by
  unfold cellProbability costToProbability valueToProbability valueToCost
  rw [decode_eq _ h1 h2, decode_eq _ (by omega) (by omega), Nat.cast_sub (by omega)]
  norm_num [minProbability, maxProbability, minCost, maxCost]
  ring

/-- A table entry is a marked, known value. -/
theorem table_range (o : ℚ) (v : Nat) : (updateMarker + 1 ≤ oddsTable o v ∧ oddsTable o v ≤ updateMarker + 32767) ∧
    (updateMarker + 1 ≤ costOddsTable o v ∧ costOddsTable o v ≤ updateMarker + 32767) := by
  have h1 := fun x => value_range minmax x
  have h2 := fun x => value_range minmaxCost x
  have hu : updateMarker = 32768 := by norm_num [updateMarker]
  constructor
  · unfold oddsTable probabilityToValue
    split
    · have := h1 (probabilityFromOdds o); omega
    · have := h1 (probabilityFromOdds (o * odds (valueToProbability v))); omega
  · unfold costOddsTable costToValue
    split
    · have := h2 (probabilityToCost (probabilityFromOdds o)); omega
    · have := h2 (probabilityToCost (probabilityFromOdds (o * odds (costToProbability (valueToCost v))))); omega

theorem oddsTable_eq {o : ℚ} {v : Nat} (h1 : 1 ≤ v) : oddsTable o v - updateMarker =
    probabilityToValue (probabilityFromOdds (o * odds (valueToProbability v))) := by
  unfold oddsTable
  rw [if_neg (by omega)]
  have := value_range minmax (probabilityFromOdds (o * odds (valueToProbability v)))
  have hu : updateMarker = 32768 := by norm_num [updateMarker]
  unfold probabilityToValue
  omega

theorem costOddsTable_eq {o : ℚ} {v : Nat} (h1 : 1 ≤ v) : costOddsTable o v - updateMarker =
    costToValue (probabilityToCost (probabilityFromOdds (o * odds (cellProbability v)))) := by
  unfold costOddsTable cellProbability
  rw [if_neg (by omega)]
  have := value_range minmaxCost (probabilityToCost (probabilityFromOdds (o * odds (costToProbability (valueToCost v)))))
  have hu : updateMarker = 32768 := by norm_num [updateMarker]
  unfold costToValue
  omega

/-- Decoded probability of a value that may carry the marker. -/
theorem valueToProbability_mod (v : Nat) : valueToProbability (v % 32768) = valueToProbability v := by
  unfold valueToProbability valueToBoundedFloat valueCount; simp

theorem decode_le {lo hi u : ℚ} (hlt : lo < hi) {v w : Nat} (h1 : 1 ≤ v) (h2 : w ≤ 32767) (h : v ≤ w) :
    valueToBoundedFloat v u lo hi ≤ valueToBoundedFloat w u lo hi := by
  rcases Nat.lt_or_eq_of_le h with h | h
  · exact le_of_lt (decode_lt hlt u h1 h2 h)
  · rw [h]

theorem probabilityToValue_range (x : ℚ) : 1 ≤ probabilityToValue x ∧ probabilityToValue x ≤ 32767 := value_range minmax x

theorem costToValue_range (x : ℚ) : 1 ≤ costToValue x ∧ costToValue x ≤ 32767 := value_range minmaxCost x

theorem valueToProbability_le {v w : Nat} (h1 : 1 ≤ v) (h2 : w ≤ 32767) (h : v ≤ w) :
    valueToProbability v ≤ valueToProbability w := decode_le minmax h1 h2 h

theorem valueToCost_le {v w : Nat} (h1 : 1 ≤ v) (h2 : w ≤ 32767) (h : v ≤ w) :
    valueToCost v ≤ valueToCost w := decode_le minmaxCost h1 h2 h

/-- **C13**, grids storing probabilities: a hit table (odds at least one) never lowers, a miss table (odds
at most one) never raises the probability of a known cell; an update makes every cell known, marked and
in range; the tables are monotone in the odds and in the old value. -/
theorem odds_update {o : ℚ} (ho : 0 < o) {v : Nat} (h1 : 1 ≤ v) (h2 : v ≤ 32767) :
    (1 ≤ o → valueToProbability v ≤ valueToProbability (oddsTable o v)) ∧
    (o ≤ 1 → valueToProbability (oddsTable o v) ≤ valueToProbability v) ∧
    (∀ o', o ≤ o' → oddsTable o v ≤ oddsTable o' v) ∧
    (∀ w, v ≤ w → w ≤ 32767 → oddsTable o v ≤ oddsTable o w) := by
  obtain ⟨p1, p2⟩ := prob_range h1 h2
  have hodds := odds_nonneg (p := valueToProbability v) (by linarith) (by linarith)
  have hmod : oddsTable o v % 32768 = oddsTable o v - updateMarker := by
    have := (table_range o v).1
    have hu : updateMarker = 32768 := by norm_num [updateMarker]
    omega
  have hmul : ∀ w, 1 ≤ w → oddsTable o w = updateMarker + probabilityToValue (probabilityFromOdds (o * odds (valueToProbability w))) := by
    intro w hw
    have := oddsTable_eq (o := o) hw
    have := (table_range o w).1
    omega
  refine ⟨fun h => ?_, fun h => ?_, fun o' h => ?_, fun w hvw hw => ?_⟩
  · rw [← valueToProbability_mod (oddsTable o v), hmod, oddsTable_eq h1]
    have hv : v = probabilityToValue (valueToProbability v) := (encode_decode minmax _ h1 h2).symm
    have hle : v ≤ probabilityToValue (probabilityFromOdds (o * odds (valueToProbability v))) := by
      conv_lhs => rw [hv]
      apply value_mono minmax
      conv_lhs => rw [← probabilityFromOdds_odds (p := valueToProbability v) (by linarith)]
      exact probabilityFromOdds_mono hodds (le_mul_of_one_le_left hodds h)
    exact valueToProbability_le h1 (probabilityToValue_range _).2 hle
  · rw [← valueToProbability_mod (oddsTable o v), hmod, oddsTable_eq h1]
    have hv : v = probabilityToValue (valueToProbability v) := (encode_decode minmax _ h1 h2).symm
    have hle : probabilityToValue (probabilityFromOdds (o * odds (valueToProbability v))) ≤ v := by
      conv_rhs => rw [hv]
      apply value_mono minmax
      conv_rhs => rw [← probabilityFromOdds_odds (p := valueToProbability v) (by linarith)]
      exact probabilityFromOdds_mono (mul_nonneg (le_of_lt ho) hodds) (mul_le_of_le_one_left hodds h)
    exact valueToProbability_le (probabilityToValue_range _).1 h2 hle
  · have e2 := oddsTable_eq (o := o') h1
    have := (table_range o' v).1
    have hm : probabilityToValue (probabilityFromOdds (o * odds (valueToProbability v))) ≤
        probabilityToValue (probabilityFromOdds (o' * odds (valueToProbability v))) :=
      value_mono minmax (probabilityFromOdds_mono (mul_nonneg (le_of_lt ho) hodds) (mul_le_mul_of_nonneg_right h hodds))
    rw [hmul v h1]
    omega
  · rw [hmul v h1, hmul w (by omega)]
    obtain ⟨w1, w2⟩ := prob_range (v := w) (by omega) hw
    have : probabilityToValue (probabilityFromOdds (o * odds (valueToProbability v))) ≤
        probabilityToValue (probabilityFromOdds (o * odds (valueToProbability w))) :=
      value_mono minmax (probabilityFromOdds_mono (mul_nonneg (le_of_lt ho) hodds)
        (mul_le_mul_of_nonneg_left (odds_mono (valueToProbability_le h1 hw hvw) (by linarith)) (le_of_lt ho)))
    omega

theorem valueToCost_mod (v : Nat) : valueToCost (v % 32768) = valueToCost v := by
  unfold valueToCost valueToBoundedFloat valueCount; simp

/-- **C13**, grids storing correspondence costs (2D probability grids). -/
theorem cost_odds_update {o : ℚ} (ho : 0 < o) {v : Nat} (h1 : 1 ≤ v) (h2 : v ≤ 32767) :
    (1 ≤ o → cellProbability v ≤ cellProbability (costOddsTable o v)) ∧
    (o ≤ 1 → cellProbability (costOddsTable o v) ≤ cellProbability v) := by
  have hp := cellProbability_eq h1 h2
  obtain ⟨p1, p2⟩ := prob_range (v := 32768 - v) (by omega) (by omega)
  rw [← hp] at p1 p2
  have hodds := odds_nonneg (p := cellProbability v) (by linarith) (by linarith)
  have hmod : costOddsTable o v % 32768 = costOddsTable o v - updateMarker := by
    have := (table_range o v).2
    have hu : updateMarker = 32768 := by norm_num [updateMarker]
    omega
  have hcv : probabilityToCost (cellProbability v) = valueToCost v := by
    unfold probabilityToCost cellProbability costToProbability; ring
  have hv : v = costToValue (valueToCost v) := (encode_decode minmaxCost _ h1 h2).symm
  refine ⟨fun h => ?_, fun h => ?_⟩
  · have hle : costToValue (probabilityToCost (probabilityFromOdds (o * odds (cellProbability v)))) ≤ v := by
      conv_rhs => rw [hv]
      apply value_mono minmaxCost
      rw [← hcv]
      unfold probabilityToCost
      have : cellProbability v ≤ probabilityFromOdds (o * odds (cellProbability v)) := by
        conv_lhs => rw [← probabilityFromOdds_odds (p := cellProbability v) (by linarith)]
        exact probabilityFromOdds_mono hodds (le_mul_of_one_le_left hodds h)
      linarith
    have := valueToCost_le (costToValue_range _).1 h2 hle
    have e : cellProbability (costOddsTable o v) = 1 - valueToCost (costOddsTable o v) := rfl
    rw [e, ← valueToCost_mod (costOddsTable o v), hmod, costOddsTable_eq h1]
    have e2 : cellProbability v = 1 - valueToCost v := rfl
    linarith
  · have hle : v ≤ costToValue (probabilityToCost (probabilityFromOdds (o * odds (cellProbability v)))) := by
      conv_lhs => rw [hv]
      apply value_mono minmaxCost
      rw [← hcv]
      unfold probabilityToCost
      have : probabilityFromOdds (o * odds (cellProbability v)) ≤ cellProbability v := by
        conv_rhs => rw [← probabilityFromOdds_odds (p := cellProbability v) (by linarith)]
        exact probabilityFromOdds_mono (mul_nonneg (le_of_lt ho) hodds) (mul_le_of_le_one_left hodds h)
      linarith
    have := valueToCost_le h1 (costToValue_range _).2 hle
    have e : cellProbability (costOddsTable o v) = 1 - valueToCost (costOddsTable o v) := rfl
    rw [e, ← valueToCost_mod (costOddsTable o v), hmod, costOddsTable_eq h1]
    have e2 : cellProbability v = 1 - valueToCost v := rfl
    linarith

/-- A cell after a list of scans, each applying a table and finishing the update (subtracting the marker). -/
def cellAfter (v : Nat) (os : List ℚ) : Nat := os.foldl (fun v o => costOddsTable o v - updateMarker) v

theorem cellAfter_nil (v : Nat) : cellAfter v [] = v := rfl

theorem cellAfter_cons (v : Nat) (o : ℚ) (os : List ℚ) :
    cellAfter v (o :: os) = cellAfter (costOddsTable o v - updateMarker) os := by
  unfold cellAfter; rw [List.foldl_cons]

theorem cellStep (o : ℚ) (v : Nat) : 1 ≤ costOddsTable o v - updateMarker ∧ costOddsTable o v - updateMarker ≤ 32767 ∧
    cellProbability (costOddsTable o v - updateMarker) = cellProbability (costOddsTable o v) := by
  have hr := (table_range o v).2
  have hu := updateMarker_eq
  have h : costOddsTable o v - updateMarker = costOddsTable o v % 32768 := by omega
  have h' : valueToCost (costOddsTable o v - updateMarker) = valueToCost (costOddsTable o v) :=
    (congrArg valueToCost h).trans (valueToCost_mod _)
  exact ⟨by omega, by omega, congrArg costToProbability h'⟩

/-- **C13**, histories: a cell that was updated at least once is known and its probability is within
`[0.1, 0.9]`; under hits only the probability never decreases, under misses only it never increases. -/
theorem update_history (v : Nat) (hv : v ≤ 32767) (os : List ℚ) (hos : os ≠ [] ∨ 1 ≤ v) :
    1 ≤ cellAfter v os ∧ cellAfter v os ≤ 32767 ∧ 1 / 10 ≤ cellProbability (cellAfter v os) ∧
    cellProbability (cellAfter v os) ≤ 9 / 10 ∧
    (1 ≤ v → (∀ o ∈ os, 1 ≤ o) → cellProbability v ≤ cellProbability (cellAfter v os)) ∧
    (1 ≤ v → (∀ o ∈ os, 0 < o ∧ o ≤ 1) → cellProbability (cellAfter v os) ≤ cellProbability v) := by
  have hu := updateMarker_eq
  induction os generalizing v with
  | nil =>
    have h1 : 1 ≤ v := by simpa using hos
    have := prob_range (v := 32768 - v) (by omega) (by omega)
    rw [← cellProbability_eq h1 hv] at this
    rw [cellAfter_nil]
    exact ⟨h1, hv, this.1, this.2, fun _ _ => le_refl _, fun _ _ => le_refl _⟩
  | cons o os ih =>
    obtain ⟨r1, r2, hpe⟩ := cellStep o v
    rw [cellAfter_cons]
    generalize costOddsTable o v - updateMarker = w at r1 r2 hpe ⊢
    have ih := ih w r2 (Or.inr r1)
    refine ⟨ih.1, ih.2.1, ih.2.2.1, ih.2.2.2.1, fun h1 ho => ?_, fun h1 ho => ?_⟩
    · have h0 := ho o List.mem_cons_self
      have q1 := (cost_odds_update (o := o) (lt_of_lt_of_le one_pos h0) h1 hv).1 h0
      have q2 := ih.2.2.2.2.1 r1 (fun x hx => ho x (List.mem_cons_of_mem _ hx))
      rw [hpe] at q2
      exact le_trans q1 q2
    · have h0 := ho o List.mem_cons_self
      have q1 := (cost_odds_update (o := o) h0.1 h1 hv).2 h0.2
      have q2 := ih.2.2.2.2.2 r1 (fun x hx => ho x (List.mem_cons_of_mem _ hx))
      rw [hpe] at q2
      exact le_trans q2 q1

/-- Non-vacuity: one half is encoded as 16384 and a hit with odds 3 really raises it. -/
example : probabilityToValue (1 / 2) = 16384 ∧ valueToProbability 16384 = 1 / 2 ∧
    valueToProbability 16384 < valueToProbability (oddsTable 3 16384) := by
  have e : valueToProbability 16384 = 1 / 2 := by
    unfold valueToProbability
    rw [decode_eq _ (by omega) (by omega)]
    norm_num [minProbability, maxProbability]
  refine ⟨by rw [← e]; exact encode_decode minmax _ (by omega) (by omega), e, ?_⟩
  have e2 : oddsTable 3 16384 = updateMarker + (oddsTable 3 16384 - updateMarker) := by
    have := (table_range 3 16384).1; omega
  rw [e2, oddsTable_eq (by omega), e]
  have e3 : probabilityFromOdds (3 * odds (1 / 2)) = 3 / 4 := by norm_num [probabilityFromOdds, odds]
  rw [e3]
  have h1 : |valueToProbability (probabilityToValue (3 / 4)) - 3 / 4| ≤ (maxProbability - minProbability) / 32766 / 2 := by
    have := decode_encode minmax minProbability (3 / 4)
    rw [clamp_self (by norm_num [minProbability]) (by norm_num [minProbability, maxProbability])] at this
    exact this
  have h2 : valueToProbability (updateMarker + probabilityToValue (3 / 4)) = valueToProbability (probabilityToValue (3 / 4)) := by
    rw [Nat.add_comm]; exact decode_marker _ _
  rw [h2]
  rw [abs_le] at h1
  norm_num [minProbability, maxProbability] at h1
  linarith

end Verif.Prob
