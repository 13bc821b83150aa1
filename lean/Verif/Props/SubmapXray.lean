import Verif.Props.SubmapTexture
import Mathlib.Algebra.Order.BigOperators.Group.List

/-!
# The X-ray view of three-dimensional submaps
-/

namespace Verif.Texture

open Verif.Grid2D Verif.Prob Verif.Rigid

/-! ### Specification -/

/-- The probability of a voxel. -/
def voxelProb (c : Hybrid.I3 × Nat) : ℚ := valueToProbability c.2

/-- The obstructed cells of a grid. -/
def obstructed (cells : List (Hybrid.I3 × Nat)) : List (Hybrid.I3 × Nat) := cells.filter (fun c => decide (501 / 1000 ≤ voxelProb c))

/-- Those that are seen in column `(i, j)` of the global map. -/
def column (index : Hybrid.I3 → Hybrid.I3) (cells : List (Hybrid.I3 × Nat)) (i j : Int) : List (Hybrid.I3 × Nat) :=
  (obstructed cells).filter (fun c => decide ((index c.1).x = i) && decide ((index c.1).y = j))

/-- `d` is the height of a column: the largest difference of two of its cells. -/
def Extent (index : Hybrid.I3 → Hybrid.I3) (cs : List (Hybrid.I3 × Nat)) (d : Int) : Prop :=
  (∀ a ∈ cs, ∀ b ∈ cs, (index a.1).z - (index b.1).z ≤ d) ∧ ∃ a ∈ cs, ∃ b ∈ cs, (index a.1).z - (index b.1).z = d

/-- The average drawn for a column of height `d`: the cells of the column that are not obstructed count as free space, with weight 0.15
and the complement of the largest probability. -/
def columnAverage (cs : List (Hybrid.I3 × Nat)) (d : Int) (m : ℚ) : ℚ :=
  let free : ℚ := max ((d : ℚ) - cs.length) 0
  ((cs.map voxelProb).sum + (1 - m) * (15 / 100 * free)) / (cs.length + 15 / 100 * free)

/-! ### Accumulating -/

/-- What a pixel accumulates. -/
def pixelOf (vs : List Voxel) (i j : Int) : PixelData := (vs.filter (fun v => decide (v.x = i) && decide (v.y = j))).foldl PixelData.add .new

theorem pixelOf_append (vs : List Voxel) (v : Voxel) (i j : Int) :
    pixelOf (vs ++ [v]) i j = if v.x = i ∧ v.y = j then (pixelOf vs i j).add v else pixelOf vs i j := by
  simp only [pixelOf, List.filter_append, List.foldl_append]
  by_cases h : v.x = i ∧ v.y = j
  · simp [List.filter_cons, h.1, h.2]
  · rw [if_neg h]
    have : (decide (v.x = i) && decide (v.y = j)) = false := by
      rw [Bool.eq_false_iff]
      simpa using h
    simp [List.filter_cons, this]

theorem row_inj {w x y x' y' : Int} (hy : 0 ≤ y) (hyw : y < w) (hy' : 0 ≤ y') (hyw' : y' < w) (h : x * w + y = x' * w + y') :
    x = x' ∧ y = y' := by
  have : x = x' := by
    rcases lt_trichotomy x x' with h1 | h1 | h1
    · nlinarith
    · exact h1
    · nlinarith
  subst this
  exact ⟨rfl, by linarith⟩

/-- `AccumulatePixelData`: pixel `(x, y)` has the voxels of its column. -/
theorem accumulate_spec {w h : Nat} {mn mx : Int × Int} (hw : (w : Int) = mx.2 - mn.2 + 1) (hh : (h : Int) = mx.1 - mn.1 + 1)
    (hn : (w : Int) * h ≤ intMax) (vs : List Voxel) (hv : ∀ v ∈ vs, mn.1 ≤ v.x ∧ v.x ≤ mx.1 ∧ mn.2 ≤ v.y ∧ v.y ≤ mx.2) :
    ∃ acc, accumulate w h mn mx vs = some acc ∧ acc.length = w * h ∧
      ∀ x y : Nat, x < h → y < w → acc[x * w + y]? = some (pixelOf vs (mx.1 - x) (mx.2 - y)) := by
  have hnn : int32 ((w : Int) * h) = some ((w : Int) * h) := by
    rw [int32, if_pos ⟨le_trans (by decide : intMin ≤ 0) (by positivity), hn⟩]
  simp only [accumulate, hnn, Option.bind_eq_bind, Option.bind_some]
  induction vs using List.reverseRecOn with
  | nil =>
    refine ⟨_, rfl, by rw [List.length_replicate, ← Nat.cast_mul, Int.toNat_natCast], fun x y hx hy => ?_⟩
    have : x * w + y < w * h := by
      calc x * w + y < x * w + w := by omega
        _ = (x + 1) * w := by ring
        _ ≤ h * w := Nat.mul_le_mul_right _ hx
        _ = w * h := mul_comm _ _
    rw [List.getElem?_replicate, if_pos (by rw [← Nat.cast_mul, Int.toNat_natCast]; exact this)]
    rfl
  | append_singleton vs v ih =>
    obtain ⟨acc, h1, h2, h3⟩ := ih (fun v hv' => hv v (List.mem_append_left _ hv'))
    have hb := hv v (by simp)
    rw [List.foldlM_append, h1]
    simp only [Option.bind_eq_bind, Option.bind_some, List.foldlM_cons, List.foldlM_nil]
    rw [if_neg (by omega)]
    have ex : mx.1 - v.x = ((mx.1 - v.x).toNat : Int) := by omega
    have ey : mx.2 - v.y = ((mx.2 - v.y).toNat : Int) := by omega
    have eidx : ((mx.1 - v.x) * w + (mx.2 - v.y)).toNat = (mx.1 - v.x).toNat * w + (mx.2 - v.y).toNat := by
      rw [ex, ey]
      simp only [← Nat.cast_mul, ← Nat.cast_add, Int.toNat_natCast]
    have hge : ¬ ((mx.1 - v.x) * (w : Int) + (mx.2 - v.y) < 0) := by
      rw [ex, ey, not_lt]
      positivity
    rw [if_neg hge, eidx]
    have hacc := h3 (mx.1 - v.x).toNat (mx.2 - v.y).toNat (by omega) (by omega)
    rw [hacc]
    refine ⟨_, rfl, by rw [List.length_set, h2], fun x y hx hy => ?_⟩
    rw [pixelOf_append]
    by_cases hxy : v.x = mx.1 - x ∧ v.y = mx.2 - y
    · have e1 : (mx.1 - v.x).toNat = x := by omega
      have e2 : (mx.2 - v.y).toNat = y := by omega
      rw [if_pos hxy, e1, e2]
      rw [List.getElem?_set_self (by
        obtain ⟨hlt, _⟩ := List.getElem?_eq_some_iff.1 (h3 x y hx hy)
        exact hlt)]
    · rw [if_neg hxy, List.getElem?_set_ne, h3 x y hx hy]
      intro he
      have : ((mx.1 - v.x).toNat : Int) * w + (mx.2 - v.y).toNat = (x : Int) * w + y := by exact_mod_cast he
      have := row_inj (by omega) (by omega) (by omega) (by omega) this
      omega

/-! ### The voxels -/

/-- The voxel of a cell. -/
def voxelOf (index : Hybrid.I3 → Hybrid.I3) (c : Hybrid.I3 × Nat) : Voxel := ⟨(index c.1).x, (index c.1).y, (index c.1).z, c.2⟩

theorem extractVoxels_fst (index : Hybrid.I3 → Hybrid.I3) (cells : List (Hybrid.I3 × Nat)) :
    (extractVoxels index cells).1 = (obstructed cells).map (voxelOf index) := by
  have : ∀ (cells : List (Hybrid.I3 × Nat)) (a : List Voxel × (Int × Int) × (Int × Int)),
      (cells.foldl (fun a c => if valueToProbability c.2 < 501 / 1000 then a
        else
          let i := index c.1
          (a.1 ++ [(⟨i.x, i.y, i.z, c.2⟩ : Voxel)], (min a.2.1.1 i.x, min a.2.1.2 i.y), (max a.2.2.1 i.x, max a.2.2.2 i.y))) a).1 =
        a.1 ++ (obstructed cells).map (voxelOf index) := by
    intro cells
    induction cells with
    | nil => intro a; simp [obstructed]
    | cons c cells ih =>
      intro a
      rw [List.foldl_cons, ih]
      by_cases h : valueToProbability c.2 < 501 / 1000
      · simp [h, obstructed, voxelProb, not_le.2 h]
      · rw [if_neg h]
        simp [obstructed, voxelProb, not_lt.1 h, voxelOf]
  exact (this cells ([], (intMax, intMax), (intMin, intMin))).trans (by simp)

theorem extract_nil {index : Hybrid.I3 → Hybrid.I3} {cells : List (Hybrid.I3 × Nat)} (h : obstructed cells = []) :
    extractVoxels index cells = ([], (intMax, intMax), (intMin, intMin)) := by
  have hc : ∀ c ∈ cells, valueToProbability c.2 < 501 / 1000 := by
    intro c hc
    by_contra hn
    have : c ∈ obstructed cells := List.mem_filter.2 ⟨hc, decide_eq_true (not_lt.1 hn)⟩
    rw [h] at this
    cases this
  unfold extractVoxels
  clear h
  induction cells with
  | nil => rfl
  | cons d cells ih =>
    rw [List.foldl_cons, if_pos (hc d (by simp))]
    exact ih (fun c h => hc c (List.mem_cons_of_mem _ h))

/-- `min_index` and `max_index`: bounds of the obstructed cells, and attained. -/
theorem extractVoxels_bounds (index : Hybrid.I3 → Hybrid.I3) (cells : List (Hybrid.I3 × Nat))
    (hi : ∀ c ∈ obstructed cells, intMin ≤ (index c.1).x ∧ (index c.1).x ≤ intMax ∧ intMin ≤ (index c.1).y ∧ (index c.1).y ≤ intMax)
    (hne : obstructed cells ≠ []) :
    (∀ c ∈ obstructed cells, (extractVoxels index cells).2.1.1 ≤ (index c.1).x ∧ (index c.1).x ≤ (extractVoxels index cells).2.2.1 ∧
      (extractVoxels index cells).2.1.2 ≤ (index c.1).y ∧ (index c.1).y ≤ (extractVoxels index cells).2.2.2) ∧
    (∃ c ∈ obstructed cells, (index c.1).x = (extractVoxels index cells).2.1.1) ∧
    (∃ c ∈ obstructed cells, (index c.1).x = (extractVoxels index cells).2.2.1) ∧
    (∃ c ∈ obstructed cells, (index c.1).y = (extractVoxels index cells).2.1.2) ∧
    (∃ c ∈ obstructed cells, (index c.1).y = (extractVoxels index cells).2.2.2) := by
  induction cells using List.reverseRecOn with
  | nil => exact absurd rfl hne
  | append_singleton cells c ih =>
    have e : extractVoxels index (cells ++ [c]) = if valueToProbability c.2 < 501 / 1000 then extractVoxels index cells
        else ((extractVoxels index cells).1 ++ [⟨(index c.1).x, (index c.1).y, (index c.1).z, c.2⟩],
          (min (extractVoxels index cells).2.1.1 (index c.1).x, min (extractVoxels index cells).2.1.2 (index c.1).y),
          (max (extractVoxels index cells).2.2.1 (index c.1).x, max (extractVoxels index cells).2.2.2 (index c.1).y)) := by
      simp only [extractVoxels, List.foldl_append, List.foldl_cons, List.foldl_nil]
    by_cases h : valueToProbability c.2 < 501 / 1000
    · have eo : obstructed (cells ++ [c]) = obstructed cells := by
        simp [obstructed, voxelProb, not_le.2 h]
      rw [e, if_pos h, eo]
      rw [eo] at hi hne
      exact ih hi hne
    · have eo : obstructed (cells ++ [c]) = obstructed cells ++ [c] := by
        simp [obstructed, voxelProb, not_lt.1 h]
      rw [e, if_neg h, eo]
      rw [eo] at hi
      have hc := hi c (by simp)
      by_cases h0 : obstructed cells = []
      · have hb : (extractVoxels index cells).2 = ((intMax, intMax), (intMin, intMin)) := by
          rw [extract_nil h0]
        rw [h0, hb]
        simp only [List.nil_append, List.mem_singleton, forall_eq, exists_eq_left]
        omega
      · obtain ⟨i1, ⟨a1, a2, a3⟩, ⟨b1, b2, b3⟩, ⟨c1, c2, c3⟩, ⟨d1, d2, d3⟩⟩ := ih (fun c hc => hi c (List.mem_append_left _ hc)) h0
        refine ⟨?_, ?_, ?_, ?_, ?_⟩
        · intro d hd
          rcases List.mem_append.1 hd with hd | hd
          · have := i1 d hd
            simp only
            omega
          · rw [List.mem_singleton.1 hd]
            simp only
            omega
        · by_cases hx : (extractVoxels index cells).2.1.1 ≤ (index c.1).x
          · exact ⟨a1, List.mem_append_left _ a2, by simp only; omega⟩
          · exact ⟨c, by simp, by simp only; omega⟩
        · by_cases hx : (index c.1).x ≤ (extractVoxels index cells).2.2.1
          · exact ⟨b1, List.mem_append_left _ b2, by simp only; omega⟩
          · exact ⟨c, by simp, by simp only; omega⟩
        · by_cases hx : (extractVoxels index cells).2.1.2 ≤ (index c.1).y
          · exact ⟨c1, List.mem_append_left _ c2, by simp only; omega⟩
          · exact ⟨c, by simp, by simp only; omega⟩
        · by_cases hx : (index c.1).y ≤ (extractVoxels index cells).2.2.2
          · exact ⟨d1, List.mem_append_left _ d2, by simp only; omega⟩
          · exact ⟨c, by simp, by simp only; omega⟩

theorem pixelOf_column (index : Hybrid.I3 → Hybrid.I3) (cells : List (Hybrid.I3 × Nat)) (i j : Int) :
    pixelOf ((obstructed cells).map (voxelOf index)) i j = ((column index cells i j).map (voxelOf index)).foldl PixelData.add .new := by
  simp only [pixelOf, column, List.filter_map]
  rfl

/-- The content of a pixel. -/
theorem foldl_add (index : Hybrid.I3 → Hybrid.I3) (cs : List (Hybrid.I3 × Nat)) (hz : ∀ c ∈ cs, intMin ≤ (index c.1).z ∧ (index c.1).z ≤ intMax) :
    let p := (cs.map (voxelOf index)).foldl PixelData.add .new
    p.count = cs.length ∧ p.sum = (cs.map voxelProb).sum ∧ 1 / 2 ≤ p.max ∧ (∀ c ∈ cs, voxelProb c ≤ p.max) ∧
      (p.max = 1 / 2 ∨ ∃ c ∈ cs, voxelProb c = p.max) ∧ (cs ≠ [] → Extent index cs (p.maxZ - p.minZ) ∧
        (∃ c ∈ cs, (index c.1).z = p.maxZ) ∧ ∃ c ∈ cs, (index c.1).z = p.minZ) ∧
      (∀ c ∈ cs, p.minZ ≤ (index c.1).z ∧ (index c.1).z ≤ p.maxZ) ∧ (cs = [] → p = .new) := by
  induction cs using List.reverseRecOn with
  | nil => simp [PixelData.new]
  | append_singleton cs c ih =>
    obtain ⟨h1, h2, h3, h4, h5, h6, h7, h8⟩ := ih (fun c hc => hz c (List.mem_append_left _ hc))
    have hzc := hz c (by simp)
    simp only [List.map_append, List.map_cons, List.map_nil, List.foldl_append, List.foldl_cons, List.foldl_nil]
    generalize (cs.map (voxelOf index)).foldl PixelData.add .new = p at *
    have e : p.add (voxelOf index c) = ⟨min p.minZ (index c.1).z, max p.maxZ (index c.1).z, p.count + 1, p.sum + voxelProb c,
      max p.max (voxelProb c)⟩ := rfl
    rw [e]
    simp only
    have hlast : (∃ d ∈ cs ++ [c], (index d.1).z = max p.maxZ (index c.1).z) ∧ ∃ d ∈ cs ++ [c], (index d.1).z = min p.minZ (index c.1).z := by
      by_cases hcs : cs = []
      · have := h8 hcs
        subst this hcs
        simp only [PixelData.new]
        exact ⟨⟨c, by simp, by omega⟩, ⟨c, by simp, by omega⟩⟩
      · obtain ⟨_, ⟨a, ha, ea⟩, b, hb, eb⟩ := h6 hcs
        constructor
        · rcases le_total p.maxZ (index c.1).z with h | h
          · exact ⟨c, by simp, by rw [max_eq_right h]⟩
          · exact ⟨a, List.mem_append_left _ ha, by rw [max_eq_left h, ea]⟩
        · rcases le_total p.minZ (index c.1).z with h | h
          · exact ⟨b, List.mem_append_left _ hb, by rw [min_eq_left h, eb]⟩
          · exact ⟨c, by simp, by rw [min_eq_right h]⟩
    have hbound : ∀ d ∈ cs ++ [c], min p.minZ (index c.1).z ≤ (index d.1).z ∧ (index d.1).z ≤ max p.maxZ (index c.1).z := by
      intro d hd
      rcases List.mem_append.1 hd with hd | hd
      · have := h7 d hd; omega
      · rw [List.mem_singleton.1 hd]; omega
    refine ⟨by simp [h1], by simp [h2], le_max_of_le_left h3, ?_, ?_, ?_, hbound, by simp⟩
    · intro d hd
      rcases List.mem_append.1 hd with hd | hd
      · exact le_max_of_le_left (h4 d hd)
      · rw [List.mem_singleton.1 hd]; exact le_max_right _ _
    · rcases le_total p.max (voxelProb c) with h | h
      · exact Or.inr ⟨c, by simp, (max_eq_right h).symm⟩
      · rw [max_eq_left h]
        rcases h5 with h5 | ⟨d, hd, e⟩
        · exact Or.inl h5
        · exact Or.inr ⟨d, List.mem_append_left _ hd, e⟩
    · intro _
      refine ⟨⟨fun a ha b hb => ?_, ?_⟩, hlast⟩
      · have := hbound a ha
        have := hbound b hb
        omega
      · obtain ⟨⟨a, ha, ea⟩, b, hb, eb⟩ := hlast
        exact ⟨a, ha, b, hb, by rw [ea, eb]⟩

theorem extent_unique {index : Hybrid.I3 → Hybrid.I3} {cs : List (Hybrid.I3 × Nat)} {d d' : Int} (h : Extent index cs d) (h' : Extent index cs d') :
    d = d' := by
  obtain ⟨h1, a, ha, b, hb, e⟩ := h
  obtain ⟨h1', a', ha', b', hb', e'⟩ := h'
  have := h1 a' ha' b' hb'
  have := h1' a ha b hb
  omega

/-! ### The pixels -/

/-- What is drawn for a column: nothing if its height is less than three, otherwise the log odds of its average. -/
def ShowsColumn (index : Hybrid.I3 → Hybrid.I3) (cs : List (Hybrid.I3 × Nat)) (p : Nat × Nat) : Prop :=
  (Observed p ↔ ∃ a ∈ cs, ∃ b ∈ cs, 3 ≤ (index a.1).z - (index b.1).z) ∧
  (Observed p → ∃ d m, Extent index cs d ∧ (∀ c ∈ cs, voxelProb c ≤ m) ∧ (∃ c ∈ cs, voxelProb c = m) ∧
    Shows (logOddsReal (max minProbability (min maxProbability (columnAverage cs d m)))) p)

theorem clamp_eq (p : ℚ) : clampProbability p = max minProbability (min maxProbability p) := by
  have h : minProbability ≤ maxProbability := by norm_num [minProbability, maxProbability]
  simp only [clampProbability, clamp]
  split
  · rename_i h1
    rw [min_eq_left h1.le, max_eq_right h]
  · rename_i h1
    rw [min_eq_right (not_lt.1 h1)]
    split
    · rename_i h2
      rw [max_eq_left h2.le]
    · rename_i h2
      rw [max_eq_right (not_lt.1 h2)]

theorem pixelValue_spec (index : Hybrid.I3 → Hybrid.I3) (cs : List (Hybrid.I3 × Nat))
    (hz : ∀ c ∈ cs, intMin / 2 ≤ (index c.1).z ∧ (index c.1).z ≤ intMax / 2) (hp : ∀ c ∈ cs, 501 / 1000 ≤ voxelProb c) :
    ∃ p, pixelValue logOddsReal ((cs.map (voxelOf index)).foldl PixelData.add .new) = some [p.1, p.2] ∧ ShowsColumn index cs p := by
  obtain ⟨h1, h2, h3, h4, h5, h6, h7, h8⟩ := foldl_add index cs (fun c hc => by
    have := hz c hc
    simp only [intMin, intMax] at this ⊢
    omega)
  generalize (cs.map (voxelOf index)).foldl PixelData.add .new = q at *
  by_cases hcs : cs = []
  · subst hcs
    refine ⟨(0, 0), ?_, ?_⟩
    · rw [h8 rfl]
      rfl
    · simp [ShowsColumn, Observed]
  · obtain ⟨he, ⟨a, ha, ea⟩, b, hb, eb⟩ := h6 hcs
    have hd : int32 (q.maxZ - q.minZ) = some (q.maxZ - q.minZ) := by
      have x1 := hz a ha
      have x2 := hz b hb
      rw [int32, if_pos]
      simp only [intMin, intMax] at *
      omega
    have hlen : 0 < q.count := by rw [h1]; exact List.length_pos_iff.2 hcs
    have hm : ∃ c ∈ cs, voxelProb c = q.max := by
      rcases h5 with h5 | h5
      · exfalso
        have x1 := hp a ha
        have x2 := h4 a ha
        rw [h5] at x2
        norm_num at x1 x2
        linarith
      · exact h5
    simp only [pixelValue, if_pos hlen, hd, Option.bind_eq_bind, Option.bind_some]
    by_cases h3z : q.maxZ - q.minZ < 3
    · rw [if_pos h3z]
      refine ⟨(0, 0), rfl, ?_, fun h => absurd rfl h⟩
      refine ⟨fun h => absurd rfl h, ?_⟩
      rintro ⟨x, hx, y, hy, hxy⟩
      have := he.1 x hx y hy
      omega
    · rw [if_neg h3z, clamp_eq]
      have r1 : minProbability ≤ max minProbability (min maxProbability
          ((q.sum + (1 - q.max) * (15 / 100 * max (((q.maxZ - q.minZ : Int) : ℚ) - q.count) 0)) /
            (q.count + 15 / 100 * max (((q.maxZ - q.minZ : Int) : ℚ) - q.count) 0))) := le_max_left _ _
      have r2 : max minProbability (min maxProbability
          ((q.sum + (1 - q.max) * (15 / 100 * max (((q.maxZ - q.minZ : Int) : ℚ) - q.count) 0)) /
            (q.count + 15 / 100 * max (((q.maxZ - q.minZ : Int) : ℚ) - q.count) 0))) ≤ maxProbability :=
        max_le (by norm_num [minProbability, maxProbability]) (min_le_left _ _)
      have hl := logOdds_range r1 r2
      rw [logOddsInteger, if_pos hl, Option.bind_some, pixelBytes_eq]
      have hs := pixelPair_shows hl.1 (by omega : _ ≤ (256 : Int))
      refine ⟨_, rfl, ?_, fun _ => ⟨_, _, he, h4, hm, ?_⟩⟩
      · refine ⟨fun _ => ⟨a, ha, b, hb, by rw [ea, eb]; omega⟩, fun _ => shows_observed hs⟩
      · rw [columnAverage, ← h1, ← h2]
        exact hs

theorem pixelValues_spec {f : ℚ → Int} {ps : List PixelData} {px : List (Nat × Nat)}
    (h : List.Forall₂ (fun q p => pixelValue f q = some [p.1, p.2]) ps px) : pixelValues f ps = some (px.flatMap (fun p => [p.1, p.2])) := by
  have : ∀ (cells : List Nat), ps.foldlM (fun (cells : List Nat) p => (pixelValue f p).map (cells ++ ·)) cells =
      some (cells ++ px.flatMap (fun p => [p.1, p.2])) := by
    induction h with
    | nil => intro cells; simp
    | cons h1 _ ih =>
      intro cells
      rw [List.foldlM_cons, h1]
      simp only [Option.map_some, Option.bind_eq_bind, Option.bind_some]
      rw [ih]
      simp
  exact (this []).trans (by simp)

set_option maxHeartbeats 1000000 in
/-- **C69**: the X-ray view of a submap with at least one obstructed cell.  Every obstructed cell is in the texture, and the pixel in
row `x` and column `y` shows the column of the map that is `x` and `y` cells before the corner with the largest indices. -/
theorem xray_texture {index : Hybrid.I3 → Hybrid.I3} {cells : List (Hybrid.I3 × Nat)} (hne : obstructed cells ≠ [])
    {lo hi : Hybrid.I3} (hb : ∀ c ∈ obstructed cells, lo.x ≤ (index c.1).x ∧ (index c.1).x ≤ hi.x ∧ lo.y ≤ (index c.1).y ∧
      (index c.1).y ≤ hi.y ∧ intMin / 2 ≤ (index c.1).z ∧ (index c.1).z ≤ intMax / 2)
    (hlo : intMin ≤ lo.x ∧ intMin ≤ lo.y) (hhi : hi.x ≤ intMax ∧ hi.y ≤ intMax) (hsz : (hi.x - lo.x + 1) * (hi.y - lo.y + 1) ≤ intMax) :
    ∃ mx w h bytes px, xray logOddsReal index cells = some (mx, (w, h), bytes) ∧ unpack bytes w h = some px ∧
      (∀ c ∈ obstructed cells, ∃ x y : Nat, x < h ∧ y < w ∧ (index c.1).x = mx.1 - x ∧ (index c.1).y = mx.2 - y) ∧
      ∀ x y : Nat, x < h → y < w → ∃ p, pixelAt w px y x = some p ∧ ShowsColumn index (column index cells (mx.1 - x) (mx.2 - y)) p := by
  obtain ⟨b1, ⟨a1, m1, e1⟩, ⟨a2, m2, e2⟩, ⟨a3, m3, e3⟩, ⟨a4, m4, e4⟩⟩ := extractVoxels_bounds index cells (fun c hc => by
    have := hb c hc; omega) hne
  have q1 := hb _ m1
  have q2 := hb _ m2
  have q3 := hb _ m3
  have q4 := hb _ m4
  have hfst := extractVoxels_fst index cells
  generalize hx : extractVoxels index cells = ex at *
  obtain ⟨vs, mn, mx⟩ := ex
  simp only at *
  subst hfst
  have n1 := b1 _ m1
  have n2 := b1 _ m3
  obtain ⟨w, hw⟩ := Int.eq_ofNat_of_zero_le (show 0 ≤ mx.2 - mn.2 + 1 by omega)
  obtain ⟨h, hh⟩ := Int.eq_ofNat_of_zero_le (show 0 ≤ mx.1 - mn.1 + 1 by omega)
  have hsz' : (w : Int) * h ≤ intMax := by
    have x1 : (w : Int) ≤ hi.y - lo.y + 1 := by omega
    have x2 : (h : Int) ≤ hi.x - lo.x + 1 := by omega
    have x3 : 0 ≤ (w : Int) := by omega
    have x4 : 0 ≤ (h : Int) := by omega
    nlinarith
  have hw1 : (w : Int) ≤ intMax := by
    have x4 : 1 ≤ (h : Int) := by omega
    have x3 : 0 ≤ (w : Int) := by omega
    nlinarith
  have hh1 : (h : Int) ≤ intMax := by
    have x4 : 1 ≤ (w : Int) := by omega
    have x3 : 0 ≤ (h : Int) := by omega
    nlinarith
  obtain ⟨acc, c1, c2, c3⟩ := accumulate_spec hw.symm hh.symm hsz' ((obstructed cells).map (voxelOf index)) (by
    intro v hv
    obtain ⟨c, hc, rfl⟩ := List.mem_map.1 hv
    have := b1 c hc
    simp only [voxelOf]
    omega)
  have i1 : ∀ z : Int, 0 ≤ z → z ≤ intMax → int32 z = some z := by
    intro z z0 z1
    rw [int32, if_pos ⟨by simp only [intMin]; omega, z1⟩]
  -- the pixels one by one
  have hpix : ∀ k, k < acc.length → ∃ p : Nat × Nat, (∀ q, acc[k]? = some q → pixelValue logOddsReal q = some [p.1, p.2]) ∧
      ShowsColumn index (column index cells (mx.1 - (k / w : Nat)) (mx.2 - (k % w : Nat))) p := by
    intro k hk
    rw [c2] at hk
    have hwpos : 0 < w := by omega
    have k1 : k / w < h := Nat.div_lt_of_lt_mul hk
    have k2 : k % w < w := Nat.mod_lt _ hwpos
    have e := c3 (k / w) (k % w) k1 k2
    rw [show k / w * w + k % w = k by rw [mul_comm]; exact Nat.div_add_mod k w, pixelOf_column] at e
    have hcol : ∀ c ∈ column index cells (mx.1 - (k / w : Nat)) (mx.2 - (k % w : Nat)), c ∈ obstructed cells :=
      fun c hc => (List.mem_filter.1 hc).1
    obtain ⟨p, p1, p2⟩ := pixelValue_spec index (column index cells (mx.1 - (k / w : Nat)) (mx.2 - (k % w : Nat)))
      (fun c hc => by have := hb c (hcol c hc); omega)
      (fun c hc => by
        have := (List.mem_filter.1 (hcol c hc)).2
        simpa using this)
    refine ⟨p, fun q hq => ?_, p2⟩
    rw [e] at hq
    cases hq
    exact p1
  choose! pf hpf1 hpf2 using hpix
  have hall : List.Forall₂ (fun q p => pixelValue logOddsReal q = some [p.1, p.2]) acc ((List.range acc.length).map pf) := by
    rw [List.forall₂_iff_get]
    refine ⟨by simp, fun i hi1 hi2 => ?_⟩
    have := hpf1 i hi1 acc[i] (List.getElem?_eq_getElem hi1)
    simpa using this
  refine ⟨mx, w, h, _, (List.range acc.length).map pf, ?_, unpack_pairs (by simp [c2]), ?_, ?_⟩
  · simp only [xray, hx, Option.bind_eq_bind]
    rw [i1 _ (by omega) (by omega), Option.bind_some, hw, i1 _ (by omega) (by exact hw1), Option.bind_some,
      i1 _ (by omega) (by omega), Option.bind_some, hh, i1 _ (by omega) (by exact hh1), Option.bind_some]
    rw [c1, Option.bind_some, pixelValues_spec hall,
      Option.bind_some]
  · intro c hc
    have := b1 c hc
    exact ⟨(mx.1 - (index c.1).x).toNat, (mx.2 - (index c.1).y).toNat, by omega, by omega, by omega, by omega⟩
  · intro x y hx' hy
    have hx2 : x < h := by omega
    have hy2 : y < w := by omega
    have hk : x * w + y < acc.length := by
      rw [c2]
      calc x * w + y < x * w + w := by omega
        _ = (x + 1) * w := by ring
        _ ≤ h * w := Nat.mul_le_mul_right _ hx2
        _ = w * h := mul_comm _ _
    refine ⟨pf (x * w + y), ?_, ?_⟩
    · simp only [pixelAt, Int.toNat_natCast, List.getElem?_map, List.getElem?_range hk, Option.map_some]
    · have := hpf2 (x * w + y) hk
      have hwpos : 0 < w := by omega
      rwa [show (x * w + y) / w = x by
          rw [mul_comm, Nat.mul_add_div hwpos, Nat.div_eq_of_lt hy2, add_zero],
        show (x * w + y) % w = y by rw [mul_comm, Nat.mul_add_mod, Nat.mod_eq_of_lt hy2]] at this

/-! ### Where it does not do what it should -/

/-- The view of a submap without obstructed cells, for instance of one in which nothing was inserted, is undefined behaviour. -/
theorem xray_empty {f : ℚ → Int} {index : Hybrid.I3 → Hybrid.I3} {cells : List (Hybrid.I3 × Nat)} (h : obstructed cells = []) :
    xray f index cells = none := by
  simp only [xray, extract_nil h]
  rfl

/-- The pose of the slice in the global frame: not turned, whatever the pose of the submap. -/
theorem xray_slicePose {pose : Rigid3} (hp : pose.Proper) (v : V3) : pose.mul (pose.inverse.mul (translation v)) = translation v := by
  have ht : (translation v).Proper := by simp [translation, Rigid3.Proper, Quat.Unit, Quat.normSq]
  rw [← mul3_assoc hp (proper_inverse hp) ht, (mul3_inverse hp).1, (mul3_identity ht).2]

/-- **C69**: where the pixels of the X-ray view are painted.  The pixel of the voxels with indices `(i, j)` has its centre half a voxel
before the centre of these voxels, in both directions. -/
theorem xray_placed {f : ℚ → Int} {r : ℝ} {cells : List (Hybrid.I3 × Nat)} {pose : Rigid3} (hp : pose.Proper) {t : Texture} {s : Slice}
    {mx size : Int × Int} {bytes : List Nat} (hx : xray f (globalIndex pose r) cells = some (mx, size, bytes))
    (ht : drawHybridGrid f r cells pose = some t) (hs : fillSlice pose t = some s) (resolution : ℝ) (x y : Nat) :
    toDevice (1 / resolution) s (y + 1 / 2) (x + 1 / 2) =
      (r * (((mx.1 - x : Int) : ℝ) - 1 / 2) / resolution, -(r * (((mx.2 - y : Int) : ℝ) - 1 / 2) / resolution)) := by
  simp only [drawHybridGrid, hx, Option.bind_eq_bind, Option.bind_some, Option.some.injEq] at ht
  subst ht
  simp only [fillSlice, Option.bind_eq_bind, Option.bind_eq_some_iff, Option.some.injEq] at hs
  obtain ⟨px, _, rfl⟩ := hs
  simp only [toDevice, xray_slicePose hp]
  simp only [sliceMatrix, translation, rotate_one, Matrix.apply]
  apply Prod.ext <;> simp only <;> push_cast <;> ring

/-- **C69**: a voxel is drawn where its centre is: the voxel of the global frame it is counted in is one with the centre nearest to it. -/
theorem globalIndex_near (pose : Rigid3) {r : ℝ} (hr : 0 < r) (i : Hybrid.I3) :
    let c := pose.apply ⟨r * i.x, r * i.y, r * i.z⟩
    let g := globalIndex pose r i
    |c.x - r * g.x| ≤ r / 2 ∧ |c.y - r * g.y| ≤ r / 2 ∧ |c.z - r * g.z| ≤ r / 2 := by
  have h : ∀ x : ℝ, |x - r * roundReal (x * (1 / r))| ≤ r / 2 := by
    intro x
    have e : x * (1 / r) * r = x := by field_simp
    have hb : (roundReal (x * (1 / r)) : ℝ) - 1 / 2 ≤ x * (1 / r) ∧ x * (1 / r) ≤ roundReal (x * (1 / r)) + 1 / 2 := by
      generalize x * (1 / r) = y
      unfold roundReal
      split
      · have h1 := Int.floor_le (y + 1 / 2)
        have h2 := Int.lt_floor_add_one (y + 1 / 2)
        constructor <;> linarith
      · have h1 := Int.le_ceil (y - 1 / 2)
        have h2 := Int.ceil_lt_add_one (y - 1 / 2)
        constructor <;> linarith
    exact abs_le.2 ⟨by nlinarith [hb.1, hb.2], by nlinarith [hb.1, hb.2]⟩
  intro c g
  have hc : c = pose.apply ⟨i.x * r, i.y * r, i.z * r⟩ := by simp only [c, mul_comm]
  rw [hc]
  exact ⟨h _, h _, h _⟩

/-- **C69**: the slice is at the height of the submap. -/
theorem xray_height {f : ℚ → Int} {r : ℝ} {cells : List (Hybrid.I3 × Nat)} {pose : Rigid3} (hp : pose.Proper) {t : Texture} {s : Slice}
    (ht : drawHybridGrid f r cells pose = some t) (hs : fillSlice pose t = some s) : (s.pose.mul s.slicePose).translation.z = pose.translation.z := by
  simp only [drawHybridGrid, Option.bind_eq_bind, Option.bind_eq_some_iff, Option.some.injEq] at ht
  obtain ⟨⟨mx, size, bytes⟩, -, rfl⟩ := ht
  simp only [fillSlice, Option.bind_eq_bind, Option.bind_eq_some_iff, Option.some.injEq] at hs
  obtain ⟨px, _, rfl⟩ := hs
  simp only [xray_slicePose hp]
  rfl

/-! ### Examples -/

/-- Voxels as they are, a column of five and one of two obstructed cells, and a free one. -/
def wall : List (Hybrid.I3 × Nat) :=
  [(⟨2, 3, 0⟩, 32767), (⟨2, 3, 1⟩, 32767), (⟨2, 3, 4⟩, 32767), (⟨3, 5, 0⟩, 32767), (⟨3, 5, 2⟩, 32767), (⟨9, 9, 0⟩, 1)]

example : obstructed wall = wall.take 5 := by decide +kernel

example : (xray linearOdds id wall).map (fun r => (r.1, r.2.1, r.2.2.length)) = some ((3, 5), (3, 2), 12) := by decide +kernel

example : xray linearOdds id wall = some ((3, 5), (3, 2), [0, 0, 0, 0, 0, 0, 0, 0, 0, 0, 0, 115]) := by decide +kernel

example : Extent id (column id wall 2 3) 4 ∧ column id wall 2 3 = wall.take 3 := by
  refine ⟨⟨?_, ?_⟩, ?_⟩ <;> decide +kernel

example : xray linearOdds id [(⟨9, 9, 0⟩, 1)] = none := by decide +kernel

end Verif.Texture
