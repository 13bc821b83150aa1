import Verif.Tsdf2D
import Verif.Props.RangeDataInserter2D

/-!
# Inserting range data into a truncated signed distance map (C48)
-/

namespace Verif.Tsdf

open Verif.Prob Verif.Grid2D Verif.Ray
open Verif.Insert2D (Pt minPt maxPt padding scale foldl_min foldl_max subCell superLimits super_index subCell_bounds meets_inside Inside)

/-! ## Values -/

theorem tsd_eq (T : ℚ) (v : Nat) : valueToTsd T v = valueToBoundedFloat v (-T) (-T) T := tables_agree v _ _ _

theorem weight_eq (W : ℚ) (v : Nat) : valueToWeight W v = valueToBoundedFloat v 0 0 W := tables_agree v _ _ _

theorem decode_any {lo hi : ℚ} (h : lo < hi) (v : Nat) :
    lo ≤ valueToBoundedFloat v lo lo hi ∧ valueToBoundedFloat v lo lo hi ≤ hi := by
  have e : valueToBoundedFloat v lo lo hi = valueToBoundedFloat (v % 32768) lo lo hi := by
    simp [valueToBoundedFloat, valueCount]
  rw [e]
  rcases Nat.eq_zero_or_pos (v % 32768) with h0 | h0
  · rw [h0]
    simp only [valueToBoundedFloat, slowValueToBoundedFloat]
    rw [if_pos (by simp)]
    exact ⟨le_refl _, h.le⟩
  · exact decode_range h lo h0 (by omega)

theorem decode_zero (lo hi : ℚ) : valueToBoundedFloat 0 lo lo hi = lo := by
  simp [valueToBoundedFloat, slowValueToBoundedFloat]

theorem tsd_band {T : ℚ} (h : 0 < T) (v : Nat) : -T ≤ valueToTsd T v ∧ valueToTsd T v ≤ T := by
  rw [tsd_eq]; exact decode_any (by linarith) v

theorem weight_band {W : ℚ} (h : 0 < W) (v : Nat) : 0 ≤ valueToWeight W v ∧ valueToWeight W v ≤ W := by
  rw [weight_eq]; exact decode_any h v

theorem tsd_marker (T : ℚ) (v : Nat) : valueToTsd T (v + updateMarker) = valueToTsd T v := by
  rw [tsd_eq, tsd_eq]
  have h : (v + updateMarker) % valueCount = v % valueCount := by
    have h1 : updateMarker = 32768 := updateMarker_eq
    have h2 : valueCount = 32768 := rfl
    rw [h1, h2]
    omega
  simp [valueToBoundedFloat, h]

/-! ## What one observation does to a cell -/

/-- The distance `d` and the weight `w` of a cell become `d'` and `w'` by an observation `u` of weight `uw`. -/
structure Blend (T W d w u uw d' w' : ℚ) : Prop where
  /-- the weighted mean, up to half a step of the representation -/
  mean : |d' - (d * w + u * uw) / (w + uw)| ≤ T / 32766
  /-- the sum of the weights up to the maximum, up to half a step -/
  weight : |w' - min (w + uw) W| ≤ W / 65532
  /-- between the old distance and the observation, which is itself only represented up to half a step -/
  between : ∃ q, |q - u| ≤ T / 32766 ∧ min d q ≤ d' ∧ d' ≤ max d q
  /-- a cell without weight takes the observation -/
  fresh : w = 0 → |d' - u| ≤ T / 32766
  /-- the weight never decreases -/
  grows : w ≤ w'

theorem blend {T W u uw : ℚ} (hT : 0 < T) (hW : 0 < W) {v x : Nat} (hv : v ≤ 32767) (hx : x ≤ 32767)
    (h0 : v = 0 → x = 0) (hu : -T ≤ u ∧ u ≤ T) (huw : 0 < uw) :
    Blend T W (valueToTsd T v) (valueToWeight W x) u uw
      (valueToTsd T (tsdToValue T ((valueToTsd T v * valueToWeight W x + u * uw) / (valueToWeight W x + uw))))
      (valueToWeight W (weightToValue W (min (valueToWeight W x + uw) W))) := by
  obtain ⟨d1, d2⟩ := tsd_band hT v
  obtain ⟨w1, w2⟩ := weight_band hW x
  have hTT : -T < T := by linarith
  have hfresh : v = 0 → valueToWeight W x = 0 := by
    intro h
    rw [h0 h, weight_eq, decode_zero]
  have hd : ∀ v', 1 ≤ v' → v' ≤ 32767 → boundedFloatToValue (valueToTsd T v') (-T) T = v' := by
    intro v' a b
    rw [tsd_eq]
    exact encode_decode hTT _ a b
  generalize hdd : valueToTsd T v = d at *
  generalize hww : valueToWeight W x = w at *
  have hs : 0 < w + uw := by linarith
  generalize hm : (d * w + u * uw) / (w + uw) = m
  have hm' : d * w + u * uw = m * (w + uw) := by rw [← hm]; field_simp
  have hmT : -T ≤ m ∧ m ≤ T := by
    constructor
    · rw [← hm, le_div_iff₀ hs]; nlinarith
    · rw [← hm, div_le_iff₀ hs]; nlinarith
  have hq : ∀ y, -T ≤ y → y ≤ T → |valueToTsd T (tsdToValue T y) - y| ≤ T / 32766 := by
    intro y a b
    have := decode_encode hTT (-T) y
    rw [clamp_self a b] at this
    rw [tsd_eq, tsdToValue]
    refine this.trans (le_of_eq ?_)
    ring
  have hle : ∀ a b : ℚ, a ≤ b → valueToTsd T (tsdToValue T a) ≤ valueToTsd T (tsdToValue T b) := by
    intro a b h
    rw [tsd_eq, tsd_eq]
    exact decode_le hTT (value_range hTT a).1 (value_range hTT b).2 (value_mono hTT h)
  have hself : 1 ≤ v → valueToTsd T (tsdToValue T d) = d := by
    intro h
    have := hd v h hv
    rw [hdd] at this
    rw [tsdToValue, this, hdd]
  have hwm : 0 ≤ min (w + uw) W ∧ min (w + uw) W ≤ W := ⟨le_min hs.le hW.le, min_le_right _ _⟩
  refine ⟨by rw [hm]; exact hq m hmT.1 hmT.2, ?_, ⟨valueToTsd T (tsdToValue T u), hq u hu.1 hu.2, ?_⟩, ?_, ?_⟩
  · have := decode_encode hW 0 (min (w + uw) W)
    rw [clamp_self hwm.1 hwm.2] at this
    rw [weight_eq, weightToValue]
    refine this.trans (le_of_eq ?_)
    ring
  · rcases Nat.eq_zero_or_pos v with hv0 | hv0
    · have hw0 := hfresh hv0
      have : m = u := by
        rw [hw0] at hm'
        have : uw * (m - u) = 0 := by linarith
        rcases mul_eq_zero.1 this with h | h <;> linarith
      rw [this]
      exact ⟨min_le_right _ _, le_max_right _ _⟩
    · have e := hself hv0
      rcases le_total d u with h | h
      · have a : d ≤ m := by rw [← hm, le_div_iff₀ hs]; nlinarith
        have b : m ≤ u := by rw [← hm, div_le_iff₀ hs]; nlinarith
        have a' := hle _ _ a
        rw [e] at a'
        exact ⟨(min_le_left _ _).trans a', (hle _ _ b).trans (le_max_right _ _)⟩
      · have a : m ≤ d := by rw [← hm, div_le_iff₀ hs]; nlinarith
        have b : u ≤ m := by rw [← hm, le_div_iff₀ hs]; nlinarith
        have a' := hle _ _ a
        rw [e] at a'
        exact ⟨(min_le_right _ _).trans (hle _ _ b), a'.trans (le_max_left _ _)⟩
  · intro hw0
    have : m = u := by
      rw [hw0] at hm'
      have : uw * (m - u) = 0 := by linarith
      rcases mul_eq_zero.1 this with h | h <;> linarith
    rw [this]
    exact hq u hu.1 hu.2
  · rcases Nat.eq_zero_or_pos x with hx0 | hx0
    · have : w = 0 := by rw [← hww, hx0, weight_eq, decode_zero]
      rw [this]
      exact (weight_band hW _).1
    · have e : boundedFloatToValue w 0 W = x := by
        rw [← hww, weight_eq]; exact encode_decode hW _ hx0 hx
      have := value_mono hW (show w ≤ min (w + uw) W from le_min (by linarith) w2)
      rw [e] at this
      have h := decode_le (u := 0) hW hx0 (value_range hW _).2 this
      rw [← weight_eq, ← weight_eq, hww] at h
      exact h

/-! ## Well-formed maps -/

/-- The weights seen as a grid. -/
def wview (t : Map) : Grid := { t.grid with cells := t.weights }

/-- The invariant of a `TSDF2D`. -/
structure WfT (t : Map) : Prop where
  grid : Wf t.grid
  tsd : 0 < t.maxTsd
  wt : 0 < t.maxWeight
  wlen : t.weights.length = t.grid.cells.length
  wsmall : ∀ w ∈ t.weights, w ≤ 32767
  wknown : ∀ i, val (wview t) i ≠ 0 → val t.grid i ≠ 0

theorem WfT.view {t : Map} (w : WfT t) (hu : t.grid.updates = []) : Wf (wview t) := by
  have hm := updateMarker_eq
  refine ⟨w.grid.res, w.grid.nx, w.grid.ny, w.grid.cost, w.wlen.trans w.grid.len, ?_, ?_, ?_, ?_, ?_, ?_, w.grid.boxIn⟩
  · intro c hc; have := w.wsmall c hc; omega
  · show t.grid.updates.Nodup
    rw [hu]; exact List.nodup_nil
  · intro k c hc
    show k ∈ t.grid.updates ↔ _
    have := w.wsmall c (List.mem_of_getElem? hc)
    rw [hu]
    simp
    omega
  · intro c hc; have := w.wsmall c hc; omega
  · intro k hk
    have : k ∈ t.grid.updates := hk
    rw [hu] at this
    simp at this
  · intro i hi
    exact w.grid.box i (w.wknown i hi)

theorem WfT.getW {t : Map} (w : WfT t) {i : Px} (h : t.grid.limits.contains i = true) :
    t.weights[flat t.grid.limits i]? = some (val (wview t) i) := by
  have hl : flat t.grid.limits i < t.weights.length := by rw [w.wlen, w.grid.len]; exact flat_lt h
  rw [val_eq (g := wview t) h]
  show _ = some ((t.weights[flat t.grid.limits i]?).getD 0)
  rw [List.getElem?_eq_getElem hl]
  rfl

theorem WfT.wval_le {t : Map} (w : WfT t) (i : Px) : val (wview t) i ≤ 32767 := by
  by_cases h : t.grid.limits.contains i = true
  · exact w.wsmall _ (List.mem_of_getElem? (w.getW h))
  · rw [val_out (g := wview t) h]; omega

theorem get_eq {t : Map} (w : WfT t) (i : Px) :
    t.getTsdAndWeight i = some (valueToTsd t.maxTsd (val t.grid i), valueToWeight t.maxWeight (val (wview t) i)) := by
  unfold Map.getTsdAndWeight
  by_cases h : t.grid.limits.contains i = true
  · simp [h, toFlatIndex_eq h, w.grid.get h, w.getW h]
  · rw [if_neg h, val_out h, val_out (g := wview t) h, tsd_eq, weight_eq, decode_zero, decode_zero]

theorem create_spec {l : MapLimits} {T W : ℚ} (hr : 0 < l.resolution) (hx : 0 < l.numX) (hy : 0 < l.numY) (hT : 0 < T)
    (hW : 0 < W) : ∃ t, create l T W = some t ∧ WfT t ∧ t.grid.updates = [] ∧ t.grid.limits = l ∧ t.maxTsd = T ∧
      t.maxWeight = W ∧ ∀ i, t.getTsdAndWeight i = some (-T, 0) := by
  have hc : Grid2D.create l (-T) T = some ⟨l, List.replicate (l.numX * l.numY) 0, -T, T, [], none⟩ := by
    rw [Grid2D.create, if_pos (by linarith)]
  obtain ⟨w, h1, h2, -, h4⟩ := create_wf hr hx hy hc
  refine ⟨_, by rw [create, hc]; rfl, ?_⟩
  have hw : WfT ⟨⟨l, List.replicate (l.numX * l.numY) 0, -T, T, [], none⟩, List.replicate (l.numX * l.numY) 0, T, W⟩ :=
    ⟨w, hT, hW, rfl, by intro c hc; rw [List.eq_of_mem_replicate hc]; omega, fun i hi => hi⟩
  refine ⟨hw, rfl, rfl, rfl, rfl, ?_⟩
  intro i
  rw [get_eq hw]
  have e1 : val (wview ⟨⟨l, List.replicate (l.numX * l.numY) 0, -T, T, [], none⟩, List.replicate (l.numX * l.numY) 0, T, W⟩) i = 0 := h4 i
  rw [e1, h4 i, tsd_eq, weight_eq, decode_zero, decode_zero]

/-! ## Growing -/

theorem growStep_eq (t : Map) : t.growStep = t.grid.growStep.bind fun g => (wview t).growStep.bind fun v =>
    some { t with grid := g, weights := v.cells } := by
  unfold Map.growStep Grid.growStep wview
  cases growMapLimits t.grid.limits with
  | none => rfl
  | some l =>
    cases h : growCells t.grid.limits.numX t.grid.limits.numY 0 t.grid.cells with
    | none => simp [h]
    | some c =>
      cases h2 : growCells t.grid.limits.numX t.grid.limits.numY 0 t.weights with
      | none => simp [h, h2]
      | some d => simp [h, h2]

theorem growStep_view {t : Map} {g v : Grid} (h1 : t.grid.growStep = some g) (h2 : (wview t).growStep = some v) :
    wview { t with grid := g, weights := v.cells } = v := by
  simp only [Grid.growStep, wview, Option.bind_eq_bind, Option.bind_eq_some_iff, Option.some.injEq] at h1 h2
  obtain ⟨l, a1, c, a2, rfl⟩ := h1
  obtain ⟨l', b1, c', b2, rfl⟩ := h2
  rw [a1] at b1
  cases b1
  rfl

theorem growLoop_eq (px py : ℚ) (n : Nat) : ∀ (t : Map) (g v : Grid), t.grid.growLoop n px py = some g →
    (wview t).growLoop n px py = some v →
    t.growLoop n px py = some { t with grid := g, weights := v.cells } ∧ wview { t with grid := g, weights := v.cells } = v := by
  induction n with
  | zero =>
    intro t g v h1 h2
    simp only [Grid.growLoop, Map.growLoop] at *
    split at h1
    · rename_i hc
      have hc' : (wview t).limits.contains ((wview t).limits.getCellIndex px py) = true := hc
      rw [if_pos hc'] at h2
      cases h1
      cases h2
      rw [if_pos hc]
      exact ⟨rfl, rfl⟩
    · cases h1
  | succ n ih =>
    intro t g v h1 h2
    simp only [Grid.growLoop, Map.growLoop] at *
    by_cases hc : t.grid.limits.contains (t.grid.limits.getCellIndex px py) = true
    · have hc' : (wview t).limits.contains ((wview t).limits.getCellIndex px py) = true := hc
      rw [if_pos hc] at h1
      rw [if_pos hc'] at h2
      cases h1
      cases h2
      rw [if_pos hc]
      exact ⟨rfl, rfl⟩
    · have hc' : ¬ (wview t).limits.contains ((wview t).limits.getCellIndex px py) = true := hc
      rw [if_neg hc] at h1
      rw [if_neg hc'] at h2
      rw [if_neg hc]
      simp only [Option.bind_eq_bind, Option.bind_eq_some_iff] at h1 h2
      obtain ⟨g1, a1, a2⟩ := h1
      obtain ⟨v1, b1, b2⟩ := h2
      have hv := growStep_view a1 b1
      obtain ⟨c1, c2⟩ := ih { t with grid := g1, weights := v1.cells } g v a2 (by rw [hv]; exact b2)
      refine ⟨?_, c2⟩
      rw [growStep_eq, a1]
      simp only [Option.bind_eq_bind, Option.bind_some, b1]
      exact c1

/-- `t'` is `t` with more cells, the old ones moved by `(ox, oy)`. -/
structure GrownT (t t' : Map) (ox oy : Nat) : Prop where
  grid : Grown t.grid t'.grid ox oy
  weights : Grown (wview t) (wview t') ox oy
  tsd : t'.maxTsd = t.maxTsd
  wt : t'.maxWeight = t.maxWeight

theorem GrownT.trans {t t' t'' : Map} {ox oy ox' oy' : Nat} (h : GrownT t t' ox oy) (h' : GrownT t' t'' ox' oy') :
    GrownT t t'' (ox + ox') (oy + oy') :=
  ⟨h.grid.trans h'.grid, h.weights.trans h'.weights, h'.tsd.trans h.tsd, h'.wt.trans h.wt⟩

theorem growLimits_total {t : Map} (w : WfT t) (hu : t.grid.updates = []) (px py : ℚ) :
    ∃ m t' ox oy, WfT t' ∧ GrownT t t' ox oy ∧ t'.grid.limits.contains (t'.grid.limits.getCellIndex px py) = true ∧
      ∀ n, m ≤ n → t.growLimits n px py = some t' := by
  obtain ⟨m1, g, ox, oy, g1, g2, g3, g4⟩ := growLoop_total w.grid hu px py
  obtain ⟨m2, v, ox', oy', v1, v2, v3, v4⟩ := growLoop_total (w.view hu) hu px py
  obtain ⟨-, hv⟩ := growLoop_eq px py (max m1 m2) t g v (g4 _ (le_max_left _ _)) (v4 _ (le_max_right _ _))
  have hlim : v.limits = g.limits := by rw [← hv]; rfl
  have hbox : v.box = g.box := by rw [← hv]; rfl
  have hr := w.grid.res
  have ey : oy' = oy := by
    have a := v2.maxX
    have b := g2.maxX
    rw [hlim] at a
    have : t.grid.limits.maxX + t.grid.limits.resolution * (oy' : ℚ) = t.grid.limits.maxX + t.grid.limits.resolution * oy := by
      rw [← b, a]; rfl
    have : t.grid.limits.resolution * (oy' : ℚ) = t.grid.limits.resolution * oy := by linarith
    exact_mod_cast mul_left_cancel₀ hr.ne' this
  have ex : ox' = ox := by
    have a := v2.maxY
    have b := g2.maxY
    rw [hlim] at a
    have : t.grid.limits.maxY + t.grid.limits.resolution * (ox' : ℚ) = t.grid.limits.maxY + t.grid.limits.resolution * ox := by
      rw [← b, a]; rfl
    have : t.grid.limits.resolution * (ox' : ℚ) = t.grid.limits.resolution * ox := by linarith
    exact_mod_cast mul_left_cancel₀ hr.ne' this
  subst ex ey
  have hgu : g.updates = [] := g2.updates.trans hu
  have hvu : v.updates = [] := v2.updates.trans hu
  refine ⟨max m1 m2, { t with grid := g, weights := v.cells }, ox', oy', ?_, ⟨g2, ?_, rfl, rfl⟩, g3, ?_⟩
  · refine ⟨g1, w.tsd, w.wt, ?_, ?_, ?_⟩
    · show v.cells.length = g.cells.length
      rw [v1.len, g1.len, hlim]
    · intro c hc
      obtain ⟨k, hk⟩ := List.mem_iff_getElem?.1 hc
      have := (v1.pend k c hk).not.1 (by rw [hvu]; simp)
      have := updateMarker_eq
      omega
    · intro i hi
      rw [hv, v2.val] at hi
      have := w.wknown _ hi
      rw [g2.val]
      exact this
  · rw [hv]; exact v2
  · intro n hn
    rw [Map.growLimits, if_neg (by simp [hu])]
    exact (growLoop_eq px py n t g v (g4 _ ((le_max_left _ _).trans hn)) (v4 _ ((le_max_right _ _).trans hn))).1

/-- The points of the bounding box computed by `GrowAsNeeded`. -/
def InHull (env : Env) (T : ℚ) (s : Scan) (p : Pt) : Prop :=
  (∃ a ∈ s.origin.head :: s.returns.map (endPosition env T s.origin), a.1 ≤ p.1) ∧
  (∃ a ∈ s.origin.head :: s.returns.map (endPosition env T s.origin), p.1 ≤ a.1) ∧
  (∃ a ∈ s.origin.head :: s.returns.map (endPosition env T s.origin), a.2 ≤ p.2) ∧
  ∃ a ∈ s.origin.head :: s.returns.map (endPosition env T s.origin), p.2 ≤ a.2

theorem grow_spec (env : Env) (T : ℚ) (s : Scan) {t : Map} (w : WfT t) (hu : t.grid.updates = []) :
    ∃ m G ox oy, (∀ n, m ≤ n → growAsNeeded env T n s t = some G) ∧ WfT G ∧ GrownT t G ox oy ∧
      ∀ p, InHull env T s p → Inside G.grid.limits p := by
  unfold growAsNeeded
  generalize hes : s.returns.map (endPosition env T s.origin) = es
  generalize hlo : es.foldl minPt s.origin.head = lo
  generalize hhi : es.foldl maxPt s.origin.head = hi
  have hbox : ∀ a ∈ s.origin.head :: es, lo.1 ≤ a.1 ∧ lo.2 ≤ a.2 ∧ a.1 ≤ hi.1 ∧ a.2 ≤ hi.2 := by
    obtain ⟨a1, a2, a3⟩ := foldl_min es s.origin.head
    obtain ⟨c1, c2, c3⟩ := foldl_max es s.origin.head
    rw [hlo] at a1 a2 a3
    rw [hhi] at c1 c2 c3
    intro p hp
    rcases List.mem_cons.1 hp with rfl | hp
    · exact ⟨a1, a2, c1, c2⟩
    · exact ⟨(a3 p hp).1, (a3 p hp).2, (c3 p hp).1, (c3 p hp).2⟩
  obtain ⟨m1, g1, ox1, oy1, w1, gr1, c1, e1⟩ := growLimits_total w hu (lo.1 - padding) (lo.2 - padding)
  have hu1 : g1.grid.updates = [] := gr1.grid.updates.trans hu
  obtain ⟨m2, g2, ox2, oy2, w2, gr2, c2, e2⟩ := growLimits_total w1 hu1 (hi.1 + padding) (hi.2 + padding)
  refine ⟨max m1 m2, g2, _, _, ?_, w2, gr1.trans gr2, ?_⟩
  · intro n hn
    simp [hlo, hhi, e1 n (le_trans (le_max_left _ _) hn), e2 n (le_trans (le_max_right _ _) hn)]
  · intro p hp
    have c1' := Insert2D.Grown.contains gr2.grid w1.grid w2.grid c1
    have hpad : 0 < padding := by norm_num [padding]
    unfold Inside
    rw [contains_iff w2.grid.res w2.grid.nx w2.grid.ny] at c1' c2 ⊢
    unfold InHull at hp
    rw [hes] at hp
    obtain ⟨⟨p1, m1, q1⟩, ⟨p2, m2, q2⟩, ⟨p3, m3, q3⟩, ⟨p4, m4, q4⟩⟩ := hp
    have r1 := hbox _ m1
    have r2 := hbox _ m2
    have r3 := hbox _ m3
    have r4 := hbox _ m4
    obtain ⟨⟨a1, a2⟩, a3, a4⟩ := c1'
    obtain ⟨⟨b1, b2⟩, b3, b4⟩ := c2
    refine ⟨⟨?_, ?_⟩, ?_, ?_⟩ <;> linarith

/-! ## Cells -/

/-- The cells of `P` whose observation has a weight are updated, unless they were updated before. -/
structure Upd (t t' : Map) (P : Px → Prop) (u uw : Px → ℚ) : Prop where
  wf : WfT t'
  limits : t'.grid.limits = t.grid.limits
  tsd : t'.maxTsd = t.maxTsd
  wt : t'.maxWeight = t.maxWeight
  keep : ∀ i, ¬ (P i ∧ uw i ≠ 0) ∨ updateMarker ≤ val t.grid i →
    val t'.grid i = val t.grid i ∧ val (wview t') i = val (wview t) i
  set : ∀ i, P i → uw i ≠ 0 → val t.grid i < updateMarker →
    val t'.grid i = tsdToValue t.maxTsd ((valueToTsd t.maxTsd (val t.grid i) * valueToWeight t.maxWeight (val (wview t) i) +
      u i * uw i) / (valueToWeight t.maxWeight (val (wview t) i) + uw i)) + updateMarker ∧
    val (wview t') i = weightToValue t.maxWeight (min (valueToWeight t.maxWeight (val (wview t) i) + uw i) t.maxWeight)

theorem Upd.refl {t : Map} (w : WfT t) (u uw : Px → ℚ) : Upd t t (fun _ => False) u uw :=
  ⟨w, rfl, rfl, rfl, fun _ _ => ⟨rfl, rfl⟩, fun _ h => h.elim⟩

theorem Upd.trans {t t' t'' : Map} {P Q : Px → Prop} {u uw : Px → ℚ} (h : Upd t t' P u uw) (h' : Upd t' t'' Q u uw) :
    Upd t t'' (fun i => P i ∨ Q i) u uw := by
  refine ⟨h'.wf, h'.limits.trans h.limits, h'.tsd.trans h.tsd, h'.wt.trans h.wt, ?_, ?_⟩
  · rintro i hi
    obtain ⟨a, b⟩ := h.keep i (by tauto)
    obtain ⟨a', b'⟩ := h'.keep i (by rw [a]; tauto)
    exact ⟨a'.trans a, b'.trans b⟩
  · intro i hi hw hm
    by_cases hp : P i
    · obtain ⟨a, b⟩ := h.set i hp hw hm
      obtain ⟨a', b'⟩ := h'.keep i (Or.inr (by rw [a]; omega))
      exact ⟨a'.trans a, b'.trans b⟩
    · obtain ⟨a, b⟩ := h.keep i (Or.inl (by tauto))
      have := h'.set i (by tauto) hw (by rw [a]; exact hm)
      rwa [a, b, h.tsd, h.wt] at this

theorem setCell_spec {t : Map} (w : WfT t) {i : Px} (h : t.grid.limits.contains i = true) (hm : val t.grid i < updateMarker)
    (d x : ℚ) : ∃ t', t.setCell i d x = some t' ∧ WfT t' ∧ t'.grid.limits = t.grid.limits ∧ t'.maxTsd = t.maxTsd ∧
      t'.maxWeight = t.maxWeight ∧
      (∀ j, val t'.grid j = if j = i then tsdToValue t.maxTsd d + updateMarker else val t.grid j) ∧
      ∀ j, val (wview t') j = if j = i then weightToValue t.maxWeight x else val (wview t) j := by
  have hmk := updateMarker_eq
  have hl : flat t.grid.limits i < t.weights.length := by rw [w.wlen, w.grid.len]; exact flat_lt h
  have r1 := value_range (show -t.maxTsd < t.maxTsd by have := w.tsd; linarith) d
  have r2 := value_range w.wt x
  refine ⟨_, by
    unfold Map.setCell
    rw [toFlatIndex_eq h]
    simp only [Option.bind_eq_bind, Option.bind_some, w.grid.get h]
    rw [if_neg (by omega), setAt?, if_pos hl]
    rfl, ?_⟩
  have hv : ∀ j, val { t.grid with
        cells := t.grid.cells.set (flat t.grid.limits i) (tsdToValue t.maxTsd d + updateMarker),
        updates := flat t.grid.limits i :: t.grid.updates, box := extendBox t.grid.box i } j =
      if j = i then tsdToValue t.maxTsd d + updateMarker else val t.grid j := fun j => val_set w.grid h _ _ _ j
  have hlen : t.weights.length = t.grid.limits.numX * t.grid.limits.numY := w.wlen.trans w.grid.len
  have hwv : ∀ (j : Px) (g : Grid), g.limits = t.grid.limits →
      val { g with cells := t.weights.set (flat t.grid.limits i) (weightToValue t.maxWeight x) } j =
      if j = i then weightToValue t.maxWeight x else val (wview t) j := by
    intro j g hg
    by_cases hj : t.grid.limits.contains j = true
    · rw [val_eq (g := wview t) hj, val_eq (by rw [hg]; exact hj)]
      simp only [hg]
      by_cases e : j = i
      · subst e
        simp [List.getElem?_set_self hl]
      · have : flat t.grid.limits i ≠ flat t.grid.limits j := fun e' => e (flat_inj hj h e'.symm)
        rw [List.getElem?_set_ne this]
        simp [e, wview]
    · have e : j ≠ i := fun e => hj (e ▸ h)
      rw [val_out (g := wview t) hj, val_out (by rw [hg]; exact hj)]
      simp [e]
  refine ⟨⟨?_, w.tsd, w.wt, ?_, ?_, ?_⟩, rfl, rfl, rfl, hv, ?_⟩
  · refine wf_set w.grid h _ _ ?_ ?_ ?_ hm
    · unfold tsdToValue; omega
    · unfold tsdToValue; omega
    · rw [if_pos (by omega)]
  · simp [w.wlen]
  · intro c hc
    rcases List.mem_or_eq_of_mem_set hc with hc | hc
    · exact w.wsmall c hc
    · rw [hc]; exact r2.2
  · intro j hj
    rw [hv j]
    split
    · unfold tsdToValue; omega
    · rename_i hne
      refine w.wknown j ?_
      intro h0
      apply hj
      have := hwv j { t.grid with
        cells := t.grid.cells.set (flat t.grid.limits i) (tsdToValue t.maxTsd d + updateMarker),
        updates := flat t.grid.limits i :: t.grid.updates, box := extendBox t.grid.box i } rfl
      rw [if_neg hne, h0] at this
      exact this
  · intro j
    exact hwv j _ rfl

/-- What a hit observes in a cell. -/
def obsTsd (env : Env) (o : Opts) (origin : Pt) (l : MapLimits) (kh : P3 × Nat) (i : Px) : ℚ :=
  updateTsd env o origin kh.2 kh.1.head (env.norm2 (kh.1.head.1 - origin.1) (kh.1.head.2 - origin.2)) (l.getCellCenter i)

/-- The weight of this observation. -/
def obsWeight (env : Env) (o : Opts) (origin : Pt) (l : MapLimits) (kh : P3 × Nat) (i : Px) : ℚ :=
  updateWeight env o kh.2 (env.norm2 (kh.1.head.1 - origin.1) (kh.1.head.2 - origin.2)) (obsTsd env o origin l kh i)

theorem visit_spec (env : Env) (o : Opts) (origin : Pt) (kh : P3 × Nat) {t : Map} (w : WfT t) (hW : t.maxWeight = o.maximumWeight)
    {i : Px} (h : t.grid.limits.contains i = true) :
    ∃ t', visitCell env o origin kh.2 kh.1.head (env.norm2 (kh.1.head.1 - origin.1) (kh.1.head.2 - origin.2)) t i = some t' ∧
      Upd t t' (· = i) (obsTsd env o origin t.grid.limits kh) (obsWeight env o origin t.grid.limits kh) := by
  unfold visitCell
  have hc : t.cellIsUpdated i = some (decide (updateMarker ≤ val t.grid i)) := by
    simp [Map.cellIsUpdated, toFlatIndex_eq h, w.grid.get h]
  rw [hc]
  simp only [Option.bind_eq_bind, Option.bind_some]
  by_cases hm : updateMarker ≤ val t.grid i
  · refine ⟨t, by simp [hm], w, rfl, rfl, rfl, fun _ _ => ⟨rfl, rfl⟩, ?_⟩
    rintro j rfl _ hlt
    omega
  · rw [if_neg (by simpa using hm)]
    show ∃ t', updateCell o t i (obsTsd env o origin t.grid.limits kh i) (obsWeight env o origin t.grid.limits kh i) = some t' ∧ _
    unfold updateCell
    by_cases hw : obsWeight env o origin t.grid.limits kh i = 0
    · rw [if_pos hw]
      refine ⟨t, rfl, w, rfl, rfl, rfl, fun _ _ => ⟨rfl, rfl⟩, ?_⟩
      rintro j rfl h' _
      exact absurd hw h'
    · rw [if_neg hw, get_eq w]
      simp only [Option.bind_eq_bind, Option.bind_some]
      obtain ⟨t', e, w', l', a, b, c, d⟩ := setCell_spec w h (by omega)
        ((valueToTsd t.maxTsd (val t.grid i) * valueToWeight t.maxWeight (val (wview t) i) +
          obsTsd env o origin t.grid.limits kh i * obsWeight env o origin t.grid.limits kh i) /
          (valueToWeight t.maxWeight (val (wview t) i) + obsWeight env o origin t.grid.limits kh i))
        (min (valueToWeight t.maxWeight (val (wview t) i) + obsWeight env o origin t.grid.limits kh i) o.maximumWeight)
      refine ⟨t', e, w', l', a, b, ?_, ?_⟩
      · rintro j (hj | hj)
        · have : j ≠ i := by
            rintro rfl
            exact hj ⟨rfl, hw⟩
          rw [c, d, if_neg this, if_neg this]
          exact ⟨rfl, rfl⟩
        · have : j ≠ i := by
            rintro rfl
            omega
          rw [c, d, if_neg this, if_neg this]
          exact ⟨rfl, rfl⟩
      · rintro j rfl _ _
        rw [c, d, if_pos rfl, if_pos rfl, hW]
        exact ⟨rfl, rfl⟩

theorem visits_spec (env : Env) (o : Opts) (origin : Pt) (kh : P3 × Nat) (l : MapLimits) (cells : List Px) : ∀ {t : Map}, WfT t →
    t.maxWeight = o.maximumWeight → t.grid.limits = l → (∀ i ∈ cells, l.contains i = true) →
    ∃ t', cells.foldlM (visitCell env o origin kh.2 kh.1.head (env.norm2 (kh.1.head.1 - origin.1) (kh.1.head.2 - origin.2))) t =
      some t' ∧ Upd t t' (· ∈ cells) (obsTsd env o origin l kh) (obsWeight env o origin l kh) := by
  induction cells with
  | nil => intro t w _ _ _; exact ⟨t, rfl, by simpa using Upd.refl w _ _⟩
  | cons i cells ih =>
    intro t w hW hl h
    obtain ⟨t1, e1, A1⟩ := visit_spec env o origin kh w hW (by rw [hl]; exact h i (by simp))
    rw [hl] at A1
    obtain ⟨t2, e2, A2⟩ := ih A1.wf (A1.wt.trans hW) (A1.limits.trans hl) (fun j hj => h j (by simp [hj]))
    refine ⟨t2, ?_, ?_⟩
    · rw [List.foldlM_cons, e1]
      exact e2
    · have := A1.trans A2
      simpa [List.mem_cons] using this

/-! ## Hits -/

/-- The distance of a hit from the origin. -/
def range (env : Env) (origin : Pt) (kh : P3 × Nat) : ℚ := env.norm2 (kh.1.head.1 - origin.1) (kh.1.head.2 - origin.2)

/-- The ray of a hit that is not too close crosses cell `i`: its part around the hit or all of it. -/
def Crosses (env : Env) (o : Opts) (origin : Pt) (l : MapLimits) (kh : P3 × Nat) (i : Px) : Prop :=
  o.truncation ≤ range env origin kh ∧
    Meets 1000 (subCell l (rayBegin o origin kh.1.head (range env origin kh)))
      (subCell l (rayEnd o origin kh.1.head (range env origin kh))) i

theorem insertHit_spec (env : Env) (o : Opts) (origin : Pt) (kh : P3 × Nat) (l : MapLimits) (hr : 0 < l.resolution)
    (hx : 0 < l.numX) (hy : 0 < l.numY)
    (hb : o.truncation ≤ range env origin kh → Inside l (rayBegin o origin kh.1.head (range env origin kh)))
    (he : o.truncation ≤ range env origin kh → Inside l (rayEnd o origin kh.1.head (range env origin kh))) :
    ∃ m, ∀ t, WfT t → t.maxWeight = o.maximumWeight → t.grid.limits = l →
      ∃ t', (∀ n, m ≤ n → insertHit env o n origin t kh = some t') ∧
        Upd t t' (Crosses env o origin l kh) (obsTsd env o origin l kh) (obsWeight env o origin l kh) := by
  by_cases hlt : range env origin kh < o.truncation
  · refine ⟨0, fun t w _ _ => ⟨t, ?_, ?_⟩⟩
    · intro n _
      unfold insertHit
      exact if_pos hlt
    · have := Upd.refl w (obsTsd env o origin l kh) (obsWeight env o origin l kh)
      have e : (fun _ : Px => False) = Crosses env o origin l kh := by
        funext i
        refine propext ⟨fun h => h.elim, fun h => ?_⟩
        have := h.1
        linarith
      rwa [e] at this
  · have hge : o.truncation ≤ range env origin kh := le_of_not_gt hlt
    have hb := hb hge
    have he := he hge
    have lt : ∀ p, Inside l p → p.1 < l.maxX ∧ p.2 < l.maxY := by
      intro p hp
      have := (contains_iff hr hx hy p.1 p.2).1 hp
      exact ⟨this.1.2, this.2.2⟩
    have b1 := subCell_bounds hr (lt _ hb) hb
    have b2 := subCell_bounds hr (lt _ he) he
    obtain ⟨m, mask, hm, ok⟩ := ray_mask_exact 1000 (by norm_num) _ _ ⟨b1.1, b1.2.1⟩ ⟨b2.1, b2.2.1⟩
    refine ⟨m, fun t w hW hl => ?_⟩
    obtain ⟨t', e1, A⟩ := visits_spec env o origin kh l mask w hW hl (by
      intro i hi
      rw [contains_def]
      exact meets_inside (by norm_num) b1 b2 ((ok.mem i).1 hi))
    refine ⟨t', ?_, ?_⟩
    · intro n hn
      have hsup : mkLimits (l.resolution / scale) l.maxX l.maxY (l.numX * scale) (l.numY * scale) = some (superLimits l) := by
        unfold mkLimits superLimits
        rw [if_pos]
        refine ⟨div_pos hr (by norm_num [scale]), ?_, ?_⟩ <;> simp only [scale] <;> omega
      unfold insertHit
      simp only [Option.bind_eq_bind]
      rw [if_neg (show ¬ env.norm2 (kh.1.head.1 - origin.1) (kh.1.head.2 - origin.2) < o.truncation from hlt), hl, hsup]
      simp only [Option.bind_some]
      have s1 := super_index hr (lt _ hb)
      have s2 := super_index hr (lt _ he)
      unfold range at s1 s2 hm
      rw [s1, s2]
      have := hm n hn
      rw [show ((1000 : Int)) = ((scale : Nat) : Int) from rfl] at this
      rw [this]
      exact e1
    · have : (fun i => i ∈ mask) = Crosses env o origin l kh :=
        funext fun i => propext ((ok.mem i).trans ⟨fun h => ⟨hge, h⟩, fun h => h.2⟩)
      rwa [this] at A

/-- `a` is the first element of the list with the property. -/
def First {α : Type} (as : List α) (p : α → Prop) (a : α) : Prop :=
  ∃ pre post, as = pre ++ a :: post ∧ p a ∧ ∀ b ∈ pre, ¬ p b

theorem first_cons {α : Type} {a b : α} {as : List α} {p : α → Prop} :
    First (a :: as) p b ↔ (p a ∧ b = a) ∨ (¬ p a ∧ First as p b) := by
  constructor
  · rintro ⟨pre, post, e, h1, h2⟩
    cases pre with
    | nil =>
      simp only [List.nil_append, List.cons.injEq] at e
      exact Or.inl ⟨e.1 ▸ h1, e.1.symm⟩
    | cons c pre =>
      simp only [List.cons_append, List.cons.injEq] at e
      obtain ⟨rfl, rfl⟩ := e
      exact Or.inr ⟨h2 a (by simp), pre, post, rfl, h1, fun x hx => h2 x (by simp [hx])⟩
  · rintro (⟨h, rfl⟩ | ⟨h, pre, post, rfl, h1, h2⟩)
    · exact ⟨[], as, rfl, h, by simp⟩
    · refine ⟨a :: pre, post, rfl, h1, ?_⟩
      intro x hx
      rcases List.mem_cons.1 hx with rfl | hx
      · exact h
      · exact h2 x hx

/-- The cells are updated by the first hit that observes them. -/
structure UpdAll (t t' : Map) (as : List (P3 × Nat)) (P : P3 × Nat → Px → Prop) (u uw : P3 × Nat → Px → ℚ) : Prop where
  wf : WfT t'
  limits : t'.grid.limits = t.grid.limits
  tsd : t'.maxTsd = t.maxTsd
  wt : t'.maxWeight = t.maxWeight
  keep : ∀ i, (∀ a ∈ as, ¬ (P a i ∧ uw a i ≠ 0)) ∨ updateMarker ≤ val t.grid i →
    val t'.grid i = val t.grid i ∧ val (wview t') i = val (wview t) i
  set : ∀ i a, First as (fun a => P a i ∧ uw a i ≠ 0) a → val t.grid i < updateMarker →
    val t'.grid i = tsdToValue t.maxTsd ((valueToTsd t.maxTsd (val t.grid i) * valueToWeight t.maxWeight (val (wview t) i) +
      u a i * uw a i) / (valueToWeight t.maxWeight (val (wview t) i) + uw a i)) + updateMarker ∧
    val (wview t') i = weightToValue t.maxWeight (min (valueToWeight t.maxWeight (val (wview t) i) + uw a i) t.maxWeight)

theorem hits_spec (f : Nat → Map → P3 × Nat → Option Map) (P : P3 × Nat → Px → Prop) (u uw : P3 × Nat → Px → ℚ) (l : MapLimits)
    (W : ℚ) (as : List (P3 × Nat))
    (hf : ∀ a ∈ as, ∃ m, ∀ t, WfT t → t.maxWeight = W → t.grid.limits = l →
      ∃ t', (∀ n, m ≤ n → f n t a = some t') ∧ Upd t t' (P a) (u a) (uw a)) :
    ∀ t, WfT t → t.maxWeight = W → t.grid.limits = l →
      ∃ m t', (∀ n, m ≤ n → as.foldlM (f n) t = some t') ∧ UpdAll t t' as P u uw := by
  induction as with
  | nil =>
    intro t w _ _
    refine ⟨0, t, fun _ _ => rfl, w, rfl, rfl, rfl, fun _ _ => ⟨rfl, rfl⟩, ?_⟩
    rintro i a ⟨pre, post, e, -⟩ _
    simp at e
  | cons a as ih =>
    intro t w hW hl
    obtain ⟨m1, h1⟩ := hf a (by simp)
    obtain ⟨t1, e1, A⟩ := h1 t w hW hl
    obtain ⟨m2, t2, e2, B⟩ := ih (fun b hb => hf b (by simp [hb])) t1 A.wf (A.wt.trans hW) (A.limits.trans hl)
    refine ⟨max m1 m2, t2, ?_, B.wf, B.limits.trans A.limits, B.tsd.trans A.tsd, B.wt.trans A.wt, ?_, ?_⟩
    · intro n hn
      rw [List.foldlM_cons, e1 n (le_trans (le_max_left _ _) hn)]
      exact e2 n (le_trans (le_max_right _ _) hn)
    · intro i hi
      have hA : ¬ (P a i ∧ uw a i ≠ 0) ∨ updateMarker ≤ val t.grid i := hi.imp (fun h => h a (by simp)) id
      obtain ⟨x, y⟩ := A.keep i hA
      obtain ⟨x', y'⟩ := B.keep i (hi.imp (fun h b hb => h b (by simp [hb])) (by rw [x]; exact id))
      exact ⟨x'.trans x, y'.trans y⟩
    · intro i b hb hm
      rcases first_cons.1 hb with ⟨h, rfl⟩ | ⟨h, hb⟩
      · obtain ⟨x, y⟩ := A.set i h.1 h.2 hm
        obtain ⟨x', y'⟩ := B.keep i (Or.inr (by rw [x]; omega))
        exact ⟨x'.trans x, y'.trans y⟩
      · obtain ⟨x, y⟩ := A.keep i (Or.inl h)
        have := B.set i b hb (by rw [x]; exact hm)
        rwa [x, y, A.tsd, A.wt] at this

/-! ## The rays stay inside of the grown map -/

theorem between_hull {a b p : ℚ} {x : ℚ} (h0 : 0 ≤ x) (h1 : x ≤ 1) (h : p = a + x * (b - a)) :
    (a ≤ p ∨ b ≤ p) ∧ (p ≤ a ∨ p ≤ b) := by
  rcases le_total a b with hab | hab
  · have := mul_nonneg h0 (show 0 ≤ b - a by linarith)
    have := mul_le_mul_of_nonneg_right h1 (show 0 ≤ b - a by linarith)
    exact ⟨Or.inl (by linarith), Or.inr (by linarith)⟩
  · have := mul_nonneg h0 (show 0 ≤ a - b by linarith)
    have := mul_le_mul_of_nonneg_right h1 (show 0 ≤ a - b by linarith)
    exact ⟨Or.inr (by linarith), Or.inl (by linarith)⟩

theorem hull_of {env : Env} {T : ℚ} {s : Scan} {h : P3} (hh : h ∈ s.returns) {p : Pt} {x : ℚ} (h0 : 0 ≤ x) (h1 : x ≤ 1)
    (e1 : p.1 = s.origin.head.1 + x * ((endPosition env T s.origin h).1 - s.origin.head.1))
    (e2 : p.2 = s.origin.head.2 + x * ((endPosition env T s.origin h).2 - s.origin.head.2)) : InHull env T s p := by
  have mo : s.origin.head ∈ s.origin.head :: s.returns.map (endPosition env T s.origin) := by simp
  have me : endPosition env T s.origin h ∈ s.origin.head :: s.returns.map (endPosition env T s.origin) := by
    simp only [List.mem_cons, List.mem_map]
    exact Or.inr ⟨h, hh, rfl⟩
  obtain ⟨a, b⟩ := between_hull h0 h1 e1
  obtain ⟨c, d⟩ := between_hull h0 h1 e2
  refine ⟨?_, ?_, ?_, ?_⟩
  · rcases a with a | a
    · exact ⟨_, mo, a⟩
    · exact ⟨_, me, a⟩
  · rcases b with a | a
    · exact ⟨_, mo, a⟩
    · exact ⟨_, me, a⟩
  · rcases c with a | a
    · exact ⟨_, mo, a⟩
    · exact ⟨_, me, a⟩
  · rcases d with a | a
    · exact ⟨_, mo, a⟩
    · exact ⟨_, me, a⟩

/-- For a hit at the height of the origin, `GrowAsNeeded` and `InsertHit` compute the same end of the ray. -/
theorem planar_end {env : Env} {o : Opts} {org h : P3} {k : Nat} (hn : ∀ x y, env.norm3 x y 0 = env.norm2 x y) (hz : h.z = org.z)
    (hT : 0 < o.truncation) (hr : o.truncation ≤ range env org.head (h, k)) :
    rayEnd o org.head h.head (range env org.head (h, k)) = endPosition env o.truncation org h := by
  have e : env.norm3 (h.x - org.x) (h.y - org.y) (h.z - org.z) = range env org.head (h, k) := by
    rw [hz, sub_self, hn]; rfl
  unfold rayEnd endPosition unit
  rw [e]
  have hp : 0 < range env org.head (h, k) := by linarith
  generalize range env org.head (h, k) = r at *
  simp only [if_pos hp, P3.head, Prod.mk.injEq]
  constructor <;> field_simp <;> ring

theorem planar_inside {env : Env} {o : Opts} {s : Scan} {h : P3} {k : Nat} (hn : ∀ x y, env.norm3 x y 0 = env.norm2 x y)
    (hh : h ∈ s.returns) (hz : h.z = s.origin.z) (hT : 0 < o.truncation) (hr : o.truncation ≤ range env s.origin.head (h, k)) :
    InHull env o.truncation s (rayBegin o s.origin.head h.head (range env s.origin.head (h, k))) ∧
    InHull env o.truncation s (rayEnd o s.origin.head h.head (range env s.origin.head (h, k))) := by
  have e := planar_end hn hz hT hr
  refine ⟨?_, ?_⟩
  · unfold rayBegin
    split
    · exact hull_of hh (x := 0) (le_refl _) zero_le_one (by ring) (by ring)
    · have hp : 0 < range env s.origin.head (h, k) := by linarith
      generalize range env s.origin.head (h, k) = r at *
      have q0 : 0 < o.truncation / r := div_pos hT hp
      have q1 : o.truncation / r ≤ 1 := by rw [div_le_one hp]; exact hr
      have q2 : 0 < 1 + o.truncation / r := by linarith
      refine hull_of hh (x := (1 - o.truncation / r) / (1 + o.truncation / r)) (div_nonneg (by linarith) q2.le) ?_ ?_ ?_
      · rw [div_le_one q2]; linarith
      · rw [← e]
        simp only [rayEnd]
        generalize o.truncation / r = q at *
        field_simp
        ring
      · rw [← e]
        simp only [rayEnd]
        generalize o.truncation / r = q at *
        field_simp
        ring
  · rw [e]
    exact hull_of hh (x := 1) zero_le_one (le_refl _) (by ring) (by ring)

theorem updateWeight_nonneg {env : Env} {o : Opts} (ha : ∀ k, 0 ≤ env.angleFactor k) (hk : ∀ d, 0 ≤ env.kernel d) {k : Nat}
    {r : ℚ} (hr : 0 < r) (d : ℚ) : 0 ≤ updateWeight env o k r d := by
  have h1 : 0 ≤ rangeWeightFactor r o.rangeExponent := by
    unfold rangeWeightFactor
    split
    · exact one_div_nonneg.2 (zpow_pos hr _).le
    · exact le_refl _
  unfold updateWeight
  have h2 : 0 ≤ (if o.rangeExponent ≠ 0 then rangeWeightFactor r o.rangeExponent else 1) *
      (if o.useAngle = true then env.angleFactor k else 1) := by
    refine mul_nonneg ?_ ?_
    · split
      · exact h1
      · exact zero_le_one
    · split
      · exact ha k
      · exact zero_le_one
  simp only
  split
  · exact mul_nonneg h2 (hk d)
  · exact h2

/-! ## The property -/

/-- The first hit whose ray crosses cell `i` and whose observation has a weight. -/
def Observes (env : Env) (o : Opts) (s : Scan) (l : MapLimits) (i : Px) (kh : P3 × Nat) : Prop :=
  First (ordered env o s).zipIdx
    (fun a => Crosses env o s.origin.head l a i ∧ obsWeight env o s.origin.head l a i ≠ 0) kh

/-- **C48**, for scans in a plane (`_partial`: the origin and the hits have the same height; see `insert_aborts` for scans
where they have not).  Inserting such a scan never aborts; the map only grows, its cells keep their places in the world;
every cell is blended with the observation of the first ray that crosses it, and every other cell keeps its distance and
weight.  `norm2` and `norm3` are the norms, `angleFactor` and `kernel` are not negative, `sort` permutes. -/
theorem insert_spec_partial (env : Env) (o : Opts) (s : Scan) {t : Map} (w : WfT t) (hu : t.grid.updates = [])
    (hTt : t.maxTsd = o.truncation) (hWt : t.maxWeight = o.maximumWeight) (hn : ∀ x y, env.norm3 x y 0 = env.norm2 x y)
    (ha : ∀ k, 0 ≤ env.angleFactor k) (hk : ∀ d, 0 ≤ env.kernel d) (hs : ∀ l, (env.sort l).Perm l)
    (hz : ∀ h ∈ s.returns, h.z = s.origin.z) :
    ∃ (m : Nat) (t' : Map) (ox oy : Nat), (∀ n, m ≤ n → insert env o n s t = some t') ∧ WfT t' ∧ t'.grid.updates = [] ∧
      t'.maxTsd = t.maxTsd ∧ t'.maxWeight = t.maxWeight ∧ t'.grid.limits.resolution = t.grid.limits.resolution ∧
      (∀ i, t'.grid.limits.getCellCenter (addIdx i (ox, oy)) = t.grid.limits.getCellCenter i) ∧
      (∀ i, t.grid.limits.contains i = true → t'.grid.limits.contains (addIdx i (ox, oy)) = true) ∧
      ∀ i d x, t.getTsdAndWeight i = some (d, x) → ∃ d' x', t'.getTsdAndWeight (addIdx i (ox, oy)) = some (d', x') ∧
        (-o.truncation ≤ d' ∧ d' ≤ o.truncation ∧ 0 ≤ x' ∧ x' ≤ o.maximumWeight) ∧
        (∀ kh, Observes env o s t'.grid.limits (addIdx i (ox, oy)) kh →
          Blend o.truncation o.maximumWeight d x (obsTsd env o s.origin.head t'.grid.limits kh (addIdx i (ox, oy)))
            (obsWeight env o s.origin.head t'.grid.limits kh (addIdx i (ox, oy))) d' x') ∧
        ((∀ kh, ¬ Observes env o s t'.grid.limits (addIdx i (ox, oy)) kh) → d' = d ∧ x' = x) := by
  have hT : 0 < o.truncation := hTt ▸ w.tsd
  have hW : 0 < o.maximumWeight := hWt ▸ w.wt
  have hmk := updateMarker_eq
  obtain ⟨m1, G, ox, oy, e1, wG, gr, hin⟩ := grow_spec env o.truncation s w hu
  have hmem : ∀ kh ∈ (ordered env o s).zipIdx, kh.1 ∈ s.returns := by
    intro kh h
    have := List.fst_mem_of_mem_zipIdx h
    unfold ordered at this
    split at this
    · exact (hs _).mem_iff.1 this
    · exact this
  have huG : G.grid.updates = [] := gr.grid.updates.trans hu
  obtain ⟨m2, t2, e2, U⟩ := hits_spec (fun n => insertHit env o n s.origin.head) (Crosses env o s.origin.head G.grid.limits)
    (obsTsd env o s.origin.head G.grid.limits) (obsWeight env o s.origin.head G.grid.limits) G.grid.limits o.maximumWeight
    (ordered env o s).zipIdx (by
      intro kh hkh
      have hm := hmem kh hkh
      exact insertHit_spec env o s.origin.head kh G.grid.limits wG.grid.res wG.grid.nx wG.grid.ny
        (fun h => hin _ (planar_inside (k := kh.2) hn hm (hz _ hm) hT h).1)
        (fun h => hin _ (planar_inside (k := kh.2) hn hm (hz _ hm) hT h).2)) G wG (gr.wt.trans hWt) rfl
  obtain ⟨g3, e3, w3, l3, u3, b3, s3, v3⟩ := finishUpdate_spec U.wf.grid
  have hv3 : ∀ i, val (wview { t2 with grid := g3 }) i = val (wview t2) i := by
    intro i
    unfold val wview
    rw [show ({ t2 with grid := g3 } : Map).grid.limits = t2.grid.limits from l3]
  have w' : WfT { t2 with grid := g3 } := by
    refine ⟨w3, U.wf.tsd, U.wf.wt, ?_, U.wf.wsmall, ?_⟩
    · show t2.weights.length = g3.cells.length
      rw [w3.len, U.wf.wlen, U.wf.grid.len, l3]
    · intro i hi
      rw [hv3] at hi
      show val g3 i ≠ 0
      rw [v3]
      have := U.wf.wknown i hi
      have := U.wf.grid.val_ne i
      split <;> omega
  have hlim : ({ t2 with grid := g3 } : Map).grid.limits = G.grid.limits := l3.trans U.limits
  refine ⟨max m1 m2, { t2 with grid := g3 }, ox, oy, ?_, w', u3, U.tsd.trans gr.tsd, U.wt.trans gr.wt, ?_, ?_, ?_, ?_⟩
  · intro n hn
    unfold insert
    rw [e1 n (le_trans (le_max_left _ _) hn)]
    simp only [Option.bind_eq_bind, Option.bind_some]
    rw [e2 n (le_trans (le_max_right _ _) hn)]
    simp only [Option.bind_some, Map.finishUpdate, Option.bind_eq_bind, e3]
  · rw [hlim]; exact gr.grid.res
  · intro i; rw [hlim]; exact gr.grid.center i
  · intro i hi
    rw [hlim, contains_def]
    rw [contains_def] at hi
    have := gr.grid.numX
    have := gr.grid.numY
    simp only [addIdx]
    omega
  · intro i d x hdx
    rw [get_eq w] at hdx
    simp only [Option.some.injEq, Prod.mk.injEq] at hdx
    obtain ⟨rfl, rfl⟩ := hdx
    rw [hlim]
    set j := addIdx i ((ox : Int), (oy : Int)) with hj
    have hback : addIdx j (-(ox : Int), -(oy : Int)) = i := by
      simp [hj, addIdx]
    have vG : val G.grid j = val t.grid i := by rw [gr.grid.val, hback]
    have vW : val (wview G) j = val (wview t) i := by rw [gr.weights.val, hback]
    have hlt : val t.grid i < updateMarker := w.grid.lt_marker hu i
    refine ⟨_, _, get_eq w' j, ?_, ?_, ?_⟩
    · have a := tsd_band w'.tsd (val g3 j)
      have b := weight_band w'.wt (val (wview { t2 with grid := g3 }) j)
      have et : ({ t2 with grid := g3 } : Map).maxTsd = o.truncation := (U.tsd.trans gr.tsd).trans hTt
      have ew : ({ t2 with grid := g3 } : Map).maxWeight = o.maximumWeight := (U.wt.trans gr.wt).trans hWt
      rw [et] at a ⊢
      rw [ew] at b ⊢
      exact ⟨a.1, a.2, b.1, b.2⟩
    · intro kh hkh
      obtain ⟨A, B⟩ := U.set j kh hkh (by rw [vG]; exact hlt)
      rw [hv3, B]
      show Blend _ _ _ _ _ _ (valueToTsd t2.maxTsd (val g3 j)) _
      rw [v3, if_pos (by rw [A]; omega), A, Nat.add_sub_cancel, vG, vW]
      show Blend _ _ _ _ _ _ _ (valueToWeight t2.maxWeight _)
      rw [U.tsd, U.wt, gr.tsd, gr.wt, hTt, hWt]
      obtain ⟨pre, post, -, ⟨hc, hne⟩, -⟩ := hkh
      have hrange : 0 < range env s.origin.head kh := lt_of_lt_of_le hT hc.1
      have hpos : 0 < obsWeight env o s.origin.head G.grid.limits kh j :=
        lt_of_le_of_ne (updateWeight_nonneg ha hk hrange _) (Ne.symm hne)
      refine blend hT hW (by omega) (w.wval_le i) ?_ ?_ hpos
      · intro h0
        by_contra hx
        exact w.wknown i hx h0
      · exact clamp_mem (by linarith)
    · intro hno
      have hno' : ∀ a ∈ (ordered env o s).zipIdx,
          ¬ (Crosses env o s.origin.head G.grid.limits a j ∧ obsWeight env o s.origin.head G.grid.limits a j ≠ 0) := by
        by_contra hc
        push Not at hc
        have : ∀ as : List (P3 × Nat), (∃ a ∈ as, Crosses env o s.origin.head G.grid.limits a j ∧
            obsWeight env o s.origin.head G.grid.limits a j ≠ 0) → ∃ a, First as
              (fun a => Crosses env o s.origin.head G.grid.limits a j ∧ obsWeight env o s.origin.head G.grid.limits a j ≠ 0) a := by
          intro as
          induction as with
          | nil => simp
          | cons b as ih =>
            rintro ⟨a, ha, h⟩
            by_cases hb : Crosses env o s.origin.head G.grid.limits b j ∧ obsWeight env o s.origin.head G.grid.limits b j ≠ 0
            · exact ⟨b, first_cons.2 (Or.inl ⟨hb, rfl⟩)⟩
            · rcases List.mem_cons.1 ha with rfl | ha
              · exact absurd h hb
              · obtain ⟨c, hc⟩ := ih ⟨a, ha, h⟩
                exact ⟨c, first_cons.2 (Or.inr ⟨hb, hc⟩)⟩
        obtain ⟨a, h⟩ := this _ hc
        exact hno a h
      obtain ⟨A, B⟩ := U.keep j (Or.inl hno')
      show valueToTsd t2.maxTsd (val g3 j) = _ ∧ valueToWeight t2.maxWeight _ = _
      rw [hv3, B, v3, A, if_neg (by rw [vG]; omega), vG, vW, U.tsd, U.wt, gr.tsd, gr.wt]
      exact ⟨rfl, rfl⟩

/-- Whatever is stored, the map only ever reads distances within the truncation band and weights up to the maximum. -/
theorem reading_range {t : Map} (hT : 0 < t.maxTsd) (hW : 0 < t.maxWeight) {i : Px} {d x : ℚ}
    (h : t.getTsdAndWeight i = some (d, x)) : -t.maxTsd ≤ d ∧ d ≤ t.maxTsd ∧ 0 ≤ x ∧ x ≤ t.maxWeight := by
  unfold Map.getTsdAndWeight at h
  split at h
  · simp only [Option.bind_eq_bind, Option.bind_eq_some_iff, Option.some.injEq, Prod.mk.injEq] at h
    obtain ⟨_, _, c, _, y, _, rfl, rfl⟩ := h
    have := tsd_band hT c
    have := weight_band hW y
    tauto
  · simp only [Option.some.injEq, Prod.mk.injEq] at h
    obtain ⟨rfl, rfl⟩ := h
    exact ⟨le_refl _, by linarith, le_refl _, hW.le⟩

/-- An observation whose weight is less than half a step is forgotten: the cell keeps weight 0. -/
theorem small_weight_forgotten {W uw : ℚ} (hW : 0 < W) (h0 : 0 ≤ uw) (h : uw < W / 65532) :
    valueToWeight W (weightToValue W (min (0 + uw) W)) = 0 := by
  have hle : uw ≤ W := by
    have : W / 65532 ≤ W := by rw [div_le_iff₀ (by norm_num)]; linarith
    linarith
  rw [zero_add, min_eq_left hle]
  have : weightToValue W uw = 1 := by
    unfold weightToValue boundedFloatToValue boundedFloatToInt
    rw [clamp_self h0 hle]
    have e : roundToInt ((uw - 0) * (32766 / (W - 0))) = 0 := by
      have hx : (uw - 0) * (32766 / (W - 0)) < 1 / 2 := by
        rw [sub_zero, sub_zero]
        rw [lt_div_iff₀ (by norm_num)] at h
        rw [mul_div_assoc', div_lt_iff₀ hW]
        linarith
      have hx0 : 0 ≤ (uw - 0) * (32766 / (W - 0)) := by
        rw [sub_zero, sub_zero]; positivity
      unfold roundToInt
      rw [if_pos hx0, Int.floor_eq_zero_iff]
      exact ⟨by linarith, by linarith⟩
    rw [e]
    rfl
  rw [this, weight_eq, decode_eq 0 (le_refl 1) (by norm_num)]
  norm_num

/-! ## A scan that aborts -/

/-- The limits of the map in the counterexample. -/
def badLimits : MapLimits := ⟨1, 37 / 10, 1, 8, 8⟩

/-- The map of the counterexample: all cells are unknown. -/
def badMap : Map := ⟨⟨badLimits, List.replicate 64 0, -1, 1, [], none⟩, List.replicate 64 0, 1, 10⟩

/-- Truncation distance 1, no weighting. -/
def badOpts : Opts := ⟨1, 10, true, false, 0, false, false⟩

/-- One hit, four metres above the origin. -/
def badScan : Scan := ⟨⟨0, 0, 0⟩, [⟨3, 0, 4⟩]⟩

/-- C48 is false for scans that are not in a plane: `GrowAsNeeded` extends the hit by the truncation distance along the ray in
space, of which only a part counts in the plane, but `InsertHit` extends it by the full distance in the plane.  The end
of the ray is then outside of the grown map and the insertion fails a `CHECK`. -/
theorem insert_aborts (env : Env) (h2 : env.norm2 3 0 = 3) (h3 : env.norm3 3 0 4 = 5) (n : Nat) :
    create badLimits 1 10 = some badMap ∧ insert env badOpts n badScan badMap = none := by
  refine ⟨by rfl, ?_⟩
  have c1 : badLimits.contains (badLimits.getCellIndex (0 - padding) (0 - padding)) = true := by decide +kernel
  have c2 : badLimits.contains (badLimits.getCellIndex (18 / 5 + padding) (0 + padding)) = true := by decide +kernel
  have hgrow : ∀ p q : ℚ, badLimits.contains (badLimits.getCellIndex p q) = true → badMap.growLimits n p q = some badMap := by
    intro p q h
    unfold Map.growLimits
    rw [if_neg (by simp [badMap])]
    cases n with
    | zero => exact if_pos h
    | succ n => exact if_pos h
  have he : endPosition env 1 badScan.origin ⟨3, 0, 4⟩ = (18 / 5, 0) := by
    simp only [endPosition, badScan, sub_zero, h3, unit]
    norm_num
  have hg : growAsNeeded env 1 n badScan badMap = some badMap := by
    unfold growAsNeeded
    have hm : badScan.returns.map (endPosition env 1 badScan.origin) = [(18 / 5, 0)] := by
      rw [← he]; rfl
    rw [hm]
    have l1 : List.foldl minPt badScan.origin.head [((18 : ℚ) / 5, (0 : ℚ))] = (0, 0) := by
      norm_num [minPt, badScan, P3.head]
    have l2 : List.foldl maxPt badScan.origin.head [((18 : ℚ) / 5, (0 : ℚ))] = (18 / 5, 0) := by
      norm_num [maxPt, badScan, P3.head]
    simp only [l1, l2, hgrow _ _ c1, Option.bind_eq_bind, Option.bind_some, hgrow _ _ c2]
  have hh : insertHit env badOpts n badScan.origin.head badMap (⟨3, 0, 4⟩, 0) = none := by
    unfold insertHit
    have hr : env.norm2 ((3 : ℚ) - 0) (0 - 0) = 3 := by rw [sub_zero, sub_zero]; exact h2
    simp only [badScan, P3.head, hr, Option.bind_eq_bind]
    rw [if_neg (by norm_num [badOpts])]
    have hsup : mkLimits (badMap.grid.limits.resolution / scale) badMap.grid.limits.maxX badMap.grid.limits.maxY
        (badMap.grid.limits.numX * scale) (badMap.grid.limits.numY * scale) = some (superLimits badLimits) := by decide +kernel
    rw [hsup]
    simp only [Option.bind_some]
    rw [ray_mask_negative]
    · rfl
    · right; left
      decide +kernel
  have ho : (ordered env badOpts badScan).zipIdx = [(⟨3, 0, 4⟩, 0)] := by
    simp [ordered, badOpts, badScan]
  unfold insert
  rw [show badOpts.truncation = 1 from rfl, hg]
  simp only [Option.bind_eq_bind, Option.bind_some, ho, List.foldlM_cons, hh]
  rfl

/-! ## Non-vacuity -/

/-- Norms which are exact on the axes (all that the example needs). -/
def axisEnv : Env :=
  ⟨fun x y => max x (-x) + max y (-y), fun x y z => max x (-x) + max y (-y) + max z (-z), fun _ => (1, 0), fun _ => 1, fun _ => 1, id⟩

/-- Truncation distance 1, maximum weight 10, only the cells around the hit are updated. -/
def exOpts : Opts := ⟨1, 10, false, false, 0, false, false⟩

/-- A hit at 2.5 m: the cells at 1.5 m, 2.5 m and 3.5 m hold the distances 1, 0 and -1 with the weight 1 (up to the
representation), all others are unknown; a second hit at 2.25 m moves the first two to the means 7/8 and -1/8. -/
example :
    let t0 : Map := ⟨⟨⟨1, 4, 1, 2, 4⟩, List.replicate 8 0, -1, 1, [], none⟩, List.replicate 8 0, 1, 10⟩
    let t1 := insert axisEnv exOpts 10 ⟨⟨1 / 2, 1 / 2, 0⟩, [⟨5 / 2, 1 / 2, 0⟩]⟩ t0
    let t2 := t1.bind (insert axisEnv exOpts 10 ⟨⟨1 / 2, 1 / 2, 0⟩, [⟨9 / 4, 1 / 2, 0⟩]⟩)
    t1.map (fun t => (t.grid.limits, t.grid.cells, t.weights)) =
      some (⟨1, 4, 1, 2, 4⟩, [1, 0, 16384, 0, 32767, 0, 0, 0], [3278, 0, 3278, 0, 3278, 0, 0, 0]) ∧
    t2.map (fun t => (t.grid.limits, t.grid.cells, t.weights)) =
      some (⟨1, 4, 1, 2, 4⟩, [1, 0, 14336, 0, 30719, 0, 0, 0], [6555, 0, 6555, 0, 6555, 0, 0, 0]) := by
  decide +kernel

end Verif.Tsdf
