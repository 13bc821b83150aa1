import Verif.SubmapTexture
import Verif.Props.Grid2DProto
import Verif.Props.Tsdf2D
import Verif.Props.Rigid
import Mathlib.Tactic.Linarith
import Mathlib.Tactic.Positivity

/-!
# Submap textures show every known cell where it is (two dimensions)
-/

namespace Verif.Texture

open Verif.Grid2D Verif.Prob Verif.Rigid

/-! ### Specification -/

/-- The code of a value between 1 and 255 in a texture: values below 128 are written as intensity, values above as alpha. -/
def Shows (l : Int) (p : Nat × Nat) : Prop :=
  (l < 128 → (p.1 : Int) = 128 - l ∧ p.2 = 0) ∧ (128 < l → p.1 = 0 ∧ (p.2 : Int) = l - 128) ∧ (l = 128 → p = (0, 1))

/-- A pixel that was observed. -/
def Observed (p : Nat × Nat) : Prop := p ≠ (0, 0)

/-- What a pixel says about the value. -/
def decoded (p : Nat × Nat) : Int := 128 - p.1 + p.2

/-- The pixel of column `u` and row `v`. -/
def pixelAt (width : Int) (px : List (Nat × Nat)) (u v : Nat) : Option (Nat × Nat) := px[v * width.toNat + u]?

/-- The probability of a cell with a certain value. -/
def cellProb (v : Nat) : ℚ := costToProbability (valueToCost v)

/-! ### The two bytes of a pixel -/

/-- Intensity and alpha of a value. -/
def pixelPair (delta : Int) : Nat × Nat :=
  ((if 0 < delta then (delta % 256).toNat else 0),
    if (if 0 < delta then (delta % 256).toNat else 0) ≠ 0 ∨ (if 0 < delta then 0 else (-delta % 256).toNat) ≠ 0 then
      (if 0 < delta then 0 else (-delta % 256).toNat) else 1)

theorem pixelBytes_eq (delta : Int) : pixelBytes delta = [(pixelPair delta).1, (pixelPair delta).2] := rfl

theorem pixelPair_shows {l : Int} (h1 : 1 ≤ l) (h2 : l ≤ 256) : Shows l (pixelPair (128 - l)) := by
  simp only [Shows, pixelPair]
  refine ⟨fun h => ?_, fun h => ?_, fun h => ?_⟩
  · rw [if_pos (by omega), if_pos (by omega)]
    refine ⟨by omega, ?_⟩
    split <;> omega
  · have e : ¬ (0 < 128 - l) := by omega
    simp only [e, if_false]
    refine ⟨trivial, ?_⟩
    rw [if_pos (by omega)]
    omega
  · subst h
    rfl

/-- A pixel of a known cell is observed, and says which value it has up to one. -/
theorem shows_observed {l : Int} {p : Nat × Nat} (h : Shows l p) : Observed p := by
  obtain ⟨a, b, c⟩ := h
  obtain ⟨p1, p2⟩ := p
  simp only [Observed, ne_eq, Prod.mk.injEq] at *
  rcases lt_trichotomy l 128 with hl | hl | hl
  · have := a hl; omega
  · have := c hl; omega
  · have := b hl; omega

theorem shows_decoded {l : Int} {p : Nat × Nat} (h : Shows l p) : l ≤ decoded p ∧ decoded p ≤ l + 1 ∧ (l ≠ 128 → decoded p = l) := by
  obtain ⟨a, b, c⟩ := h
  obtain ⟨p1, p2⟩ := p
  simp only [decoded, Prod.mk.injEq] at *
  rcases lt_trichotomy l 128 with hl | hl | hl
  · have := a hl; omega
  · have := c hl; omega
  · have := b hl; omega

/-! ### Reading back what was written -/

theorem indices_eq (w h : Nat) :
    ((List.range h).flatMap (fun i => (List.range w).map (fun j => (i, j)))).map (fun ij => ij.1 * w + ij.2) = List.range (h * w) := by
  induction h with
  | zero => simp
  | succ h ih =>
    rw [List.range_succ, List.flatMap_append, List.map_append, ih, Nat.succ_mul, List.range_add]
    simp

theorem range_mapM {α : Type} (l : List α) : (List.range l.length).mapM (fun k => l[k]?) = some l := by
  have : ∀ (l : List α) (ks : List Nat), (∀ k ∈ ks, k < l.length) → ks.mapM (fun k => l[k]?) = some (ks.filterMap (fun k => l[k]?)) := by
    intro l ks
    induction ks with
    | nil => intro _; rfl
    | cons k ks ih =>
      intro h
      have hk := h k (by simp)
      rw [List.mapM_cons, ih (fun k hk => h k (List.mem_cons_of_mem _ hk))]
      simp [List.getElem?_eq_getElem hk]
  rw [this l _ (fun k hk => List.mem_range.1 hk)]
  congr 1
  induction l using List.reverseRecOn with
  | nil => rfl
  | append_singleton l a ih =>
    rw [List.length_append, List.length_singleton, List.range_succ, List.filterMap_append]
    congr 1
    · conv => rhs; rw [← ih]
      apply List.filterMap_congr
      intro k hk
      rw [List.getElem?_append_left (List.mem_range.1 hk)]
    · simp

theorem pairs_length (l : List (Nat × Nat)) : (l.flatMap (fun p => [p.1, p.2])).length = 2 * l.length := by
  induction l with
  | nil => rfl
  | cons p l ih => rw [List.flatMap_cons, List.length_append, ih]; simp; ring

theorem pairs_get (l : List (Nat × Nat)) (k : Nat) :
    (l.flatMap (fun p => [p.1, p.2]))[k * 2]? = (l[k]?).map (·.1) ∧ (l.flatMap (fun p => [p.1, p.2]))[k * 2 + 1]? = (l[k]?).map (·.2) := by
  induction l generalizing k with
  | nil => simp
  | cons p l ih =>
    cases k with
    | zero => simp
    | succ k =>
      have e : (k + 1) * 2 = k * 2 + 1 + 1 := by ring
      simp only [List.flatMap_cons, List.cons_append, List.nil_append, e, List.getElem?_cons_succ]
      exact ih k

/-- `UnpackTextureData` reads what was written. -/
theorem unpack_pairs {w h : Nat} {l : List (Nat × Nat)} (hl : l.length = w * h) :
    unpack (l.flatMap (fun p => [p.1, p.2])) w h = some l := by
  unfold unpack
  rw [if_pos (by rw [pairs_length, hl]; push_cast; ring)]
  simp only [Int.toNat_natCast]
  have : ∀ ijs : List (Nat × Nat), ijs.mapM (fun ij => (do
      let a ← (l.flatMap (fun p => [p.1, p.2]))[(ij.1 * w + ij.2) * 2]?
      let b ← (l.flatMap (fun p => [p.1, p.2]))[(ij.1 * w + ij.2) * 2 + 1]?
      some (a, b) : Option (Nat × Nat))) = (ijs.map (fun ij => ij.1 * w + ij.2)).mapM (fun k => l[k]?) := by
    intro ijs
    induction ijs with
    | nil => rfl
    | cons ij ijs ih =>
      rw [List.mapM_cons, ih, List.map_cons, List.mapM_cons, (pairs_get l _).1, (pairs_get l _).2]
      cases l[ij.1 * w + ij.2]? <;> rfl
  rw [this, indices_eq, show h * w = l.length by rw [hl, mul_comm]]
  exact range_mapM l

theorem xyIndices_eq {w h : Nat} (hw : 1 ≤ w) : xyIndices w h = some (rowMajor 0 0 w h) := by
  unfold xyIndices xyBegin
  have := xyVisit_rows (0, 0) ((w : Int) - 1, (h : Int) - 1) w h (by simp) (by simp) hw h 0 (w * h) (by omega) (by rw [mul_comm])
  simpa using this

theorem rowMajor_length (w h : Nat) : (rowMajor 0 0 w h).length = w * h := by
  simp [rowMajor, List.length_flatMap, mul_comm]

theorem rowMajor_get {w h u v : Nat} (hu : u < w) (hv : v < h) : (rowMajor 0 0 w h)[v * w + u]? = some ((u : Int), (v : Int)) := by
  induction h with
  | zero => omega
  | succ h ih =>
    have e : rowMajor 0 0 w (h + 1) = rowMajor 0 0 w h ++ (List.range w).map (fun c : Nat => ((c : Int), (h : Int))) := by
      simp [rowMajor, List.range_succ, List.flatMap_append]
    rw [e]
    rcases Nat.lt_or_ge v h with h1 | h1
    · rw [List.getElem?_append_left, ih h1]
      rw [rowMajor_length]
      calc v * w + u < v * w + w := by omega
        _ = (v + 1) * w := by ring
        _ ≤ h * w := Nat.mul_le_mul_right _ h1
        _ = w * h := mul_comm _ _
    · obtain rfl : v = h := by omega
      rw [List.getElem?_append_right (by rw [rowMajor_length, mul_comm]; omega), rowMajor_length, mul_comm w v, Nat.add_sub_cancel_left]
      simp [hu]

/-- The loop of `DrawToSubmapTexture`: the pixels in row-major order. -/
theorem drawCells_spec {known : Int × Int → Option Bool} {delta : Int × Int → Option Int} {off : Int × Int} {w h : Nat} (hw : 1 ≤ w)
    {pix : Int × Int → Nat × Nat} (hp : ∀ i ∈ rowMajor 0 0 w h, drawCell known delta off i = some [(pix i).1, (pix i).2]) :
    drawCells known delta off ((w : Int), (h : Int)) = some (((rowMajor 0 0 w h).map pix).flatMap (fun p => [p.1, p.2])) := by
  simp only [drawCells, xyIndices_eq hw, Option.bind_eq_bind, Option.bind_some]
  have : ∀ (is : List (Int × Int)) (cells : List Nat), (∀ i ∈ is, drawCell known delta off i = some [(pix i).1, (pix i).2]) →
      is.foldlM (fun (cells : List Nat) i => (drawCell known delta off i).map (cells ++ ·)) cells =
        some (cells ++ (is.map pix).flatMap (fun p => [p.1, p.2])) := by
    intro is
    induction is with
    | nil => intro cells _; simp
    | cons i is ih =>
      intro cells hh
      rw [List.foldlM_cons, hh i (by simp)]
      simp only [Option.map_some, Option.bind_eq_bind, Option.bind_some]
      rw [ih _ (fun i hi => hh i (List.mem_cons_of_mem _ hi))]
      simp
  simpa using this _ [] hp

/-- The size of the texture of a grid. -/
theorem cropped_size {g : Grid} (w : Wf g) : ∃ nx ny : Nat, 1 ≤ nx ∧ 1 ≤ ny ∧ g.croppedLimits.2 = ((nx : Int), (ny : Int)) ∧
    (∀ i, val g i ≠ 0 → ∃ u v : Nat, u < nx ∧ v < ny ∧ i = addIdx ((u : Int), (v : Int)) g.croppedLimits.1) ∧
    ∀ u v : Nat, u < nx → v < ny → g.limits.contains (addIdx ((u : Int), (v : Int)) g.croppedLimits.1) = true := by
  unfold Grid.croppedLimits
  cases hb : g.box with
  | none =>
    refine ⟨1, 1, le_rfl, le_rfl, rfl, ?_, ?_⟩
    · intro i hi
      obtain ⟨b, e, _⟩ := w.box i hi
      rw [hb] at e
      cases e
    · intro u v hu hv
      have h1 := w.nx
      have h2 := w.ny
      simp only [addIdx, MapLimits.contains, Bool.and_eq_true, decide_eq_true_eq]
      exact ⟨⟨⟨decide_eq_true (by omega), decide_eq_true (by omega)⟩, decide_eq_true (by omega)⟩, decide_eq_true (by omega)⟩
  | some b =>
    obtain ⟨h1, h2, h3, h4⟩ := w.boxIn b hb
    simp only [MapLimits.contains, Bool.and_eq_true, decide_eq_true_eq] at h3 h4
    refine ⟨(b.maxX - b.minX + 1).toNat, (b.maxY - b.minY + 1).toNat, by omega, by omega, ?_, ?_, ?_⟩
    · simp only [Prod.mk.injEq]; omega
    · intro i hi
      obtain ⟨b', e, hi⟩ := w.box i hi
      rw [hb] at e
      cases e
      obtain ⟨i1, i2, i3, i4⟩ := hi
      refine ⟨(i.1 - b.minX).toNat, (i.2 - b.minY).toNat, by omega, by omega, ?_⟩
      apply Prod.ext <;> simp only [addIdx] <;> omega
    · intro u v hu hv
      simp only [addIdx, MapLimits.contains, Bool.and_eq_true, decide_eq_true_eq]
      exact ⟨⟨⟨decide_eq_true (by omega), decide_eq_true (by omega)⟩, decide_eq_true (by omega)⟩, decide_eq_true (by omega)⟩

/-- The texture of a grid, for both kinds of grids. -/
theorem texture_spec {g : Grid} (w : Wf g) {delta : Int × Int → Option Int} {lv : Int × Int → Int}
    (hd : ∀ i, g.limits.contains i = true → val g i ≠ 0 → delta i = some (128 - lv i) ∧ 1 ≤ lv i ∧ lv i ≤ 256) (localPose : Rigid3) :
    ∃ cells px, drawCells g.isKnown delta g.croppedLimits.1 g.croppedLimits.2 = some cells ∧
      unpack (texture2D g localPose cells).cells (texture2D g localPose cells).width (texture2D g localPose cells).height = some px ∧
      (∀ i, val g i ≠ 0 → ∃ u v : Nat, u < (texture2D g localPose cells).width ∧ v < (texture2D g localPose cells).height ∧
        i = addIdx ((u : Int), (v : Int)) g.croppedLimits.1) ∧
      ∀ u v : Nat, u < (texture2D g localPose cells).width → v < (texture2D g localPose cells).height →
        ∃ p, pixelAt (texture2D g localPose cells).width px u v = some p ∧
          (Observed p ↔ val g (addIdx ((u : Int), (v : Int)) g.croppedLimits.1) ≠ 0) ∧
          (val g (addIdx ((u : Int), (v : Int)) g.croppedLimits.1) ≠ 0 →
            Shows (lv (addIdx ((u : Int), (v : Int)) g.croppedLimits.1)) p) := by
  obtain ⟨nx, ny, h1, h2, h3, h4, h5⟩ := cropped_size w
  let pix : Int × Int → Nat × Nat := fun i => if val g (addIdx i g.croppedLimits.1) = 0 then (0, 0)
    else pixelPair (128 - lv (addIdx i g.croppedLimits.1))
  have hc : drawCells g.isKnown delta g.croppedLimits.1 g.croppedLimits.2 =
      some (((rowMajor 0 0 nx ny).map pix).flatMap (fun p => [p.1, p.2])) := by
    rw [h3]
    refine drawCells_spec h1 ?_
    intro i hi
    obtain ⟨r, hr, hi⟩ := List.mem_flatMap.1 hi
    obtain ⟨c, hc, rfl⟩ := List.mem_map.1 hi
    rw [List.mem_range] at hr hc
    have hin := h5 c r hc hr
    simp only [zero_add]
    simp only [drawCell, isKnown_eq w, Option.bind_eq_bind, Option.bind_some, pix]
    by_cases hv : val g (addIdx ((c : Int), (r : Int)) g.croppedLimits.1) = 0
    · simp [hv]
    · simp only [hv, bne_iff_ne, ne_eq, not_false_eq_true, if_true, if_false, (hd _ hin hv).1, Option.bind_some, pixelBytes_eq]
  refine ⟨_, (rowMajor 0 0 nx ny).map pix, hc, ?_, ?_, ?_⟩
  · simp only [texture2D, h3]
    exact unpack_pairs (by rw [List.length_map, rowMajor_length])
  · intro i hi
    obtain ⟨u, v, hu, hv, e⟩ := h4 i hi
    refine ⟨u, v, ?_, ?_, e⟩ <;> simp only [texture2D, h3] <;> omega
  · intro u v hu hv
    simp only [texture2D, h3, Nat.cast_lt] at hu hv
    refine ⟨pix ((u : Int), (v : Int)), ?_, ?_, ?_⟩
    · simp only [pixelAt, texture2D, h3, Int.toNat_natCast, List.getElem?_map, rowMajor_get hu hv, Option.map_some]
    · have hin := h5 u v hu hv
      simp only [pix]
      constructor
      · intro h hz
        rw [if_pos hz] at h
        exact h rfl
      · intro h
        rw [if_neg h]
        exact shows_observed (pixelPair_shows (hd _ hin h).2.1 (hd _ hin h).2.2)
    · intro h
      have hin := h5 u v hu hv
      simp only [pix, if_neg h]
      exact pixelPair_shows (hd _ hin h).2.1 (hd _ hin h).2.2

/-! ### Log odds -/

theorem roundReal_range {x : ℝ} {n : Int} (h0 : 0 ≤ x) (h : x ≤ n) : 0 ≤ roundReal x ∧ roundReal x ≤ n := by
  rw [roundReal, if_pos h0]
  constructor
  · exact Int.floor_nonneg.2 (by linarith)
  · rw [← Int.lt_add_one_iff, Int.floor_lt]
    push_cast
    linarith

theorem logit_mono {p q : ℝ} (hp : 0 < p) (h : p ≤ q) (hq : q < 1) : logit p ≤ logit q := by
  unfold logit
  refine Real.log_le_log (div_pos hp (by linarith)) ?_
  exact div_le_div₀ (by linarith) h (by linarith) (by linarith)

theorem logit_strict {p q : ℝ} (hp : 0 < p) (h : p < q) (hq : q < 1) : logit p < logit q := by
  unfold logit
  refine Real.log_lt_log (div_pos hp (by linarith)) ?_
  rw [div_lt_div_iff₀ (by linarith) (by linarith)]
  nlinarith

theorem roundReal_mono {x y : ℝ} (h0 : 0 ≤ x) (h : x ≤ y) : roundReal x ≤ roundReal y := by
  rw [roundReal, roundReal, if_pos h0, if_pos (h0.trans h)]
  exact Int.floor_le_floor (by linarith)

/-- The `CHECK`s of `ProbabilityToLogOddsInteger` hold for all probabilities of cells, larger probabilities have larger values, and
the extreme ones have the values 1 and 255. -/
theorem logOdds_range {p : ℚ} (h1 : minProbability ≤ p) (h2 : p ≤ maxProbability) : 1 ≤ logOddsReal p ∧ logOddsReal p ≤ 255 := by
  have a1 : (minProbability : ℝ) ≤ p := by exact_mod_cast h1
  have a2 : (p : ℝ) ≤ maxProbability := by exact_mod_cast h2
  have b1 : (0 : ℝ) < (minProbability : ℚ) := by norm_num [minProbability]
  have b2 : ((maxProbability : ℚ) : ℝ) < 1 := by norm_num [maxProbability, minProbability]
  have b3 : ((minProbability : ℚ) : ℝ) < (maxProbability : ℚ) := by norm_num [maxProbability, minProbability]
  have c1 := logit_mono b1 a1 (lt_of_le_of_lt a2 b2)
  have c2 := logit_mono (lt_of_lt_of_le b1 a1) a2 b2
  have c3 := logit_strict b1 b3 b2
  have h := roundReal_range (x := (logit p - logit minProbability) * 254 / (logit maxProbability - logit minProbability)) (n := 254)
    (div_nonneg (mul_nonneg (by linarith) (by norm_num)) (by linarith))
    (by rw [div_le_iff₀ (by linarith)]; push_cast; nlinarith)
  unfold logOddsReal
  omega

theorem logOdds_mono {p q : ℚ} (h1 : minProbability ≤ p) (h : p ≤ q) (h2 : q ≤ maxProbability) : logOddsReal p ≤ logOddsReal q := by
  have a0 : (minProbability : ℝ) ≤ p := by exact_mod_cast h1
  have a1 : (p : ℝ) ≤ q := by exact_mod_cast h
  have a2 : (q : ℝ) ≤ maxProbability := by exact_mod_cast h2
  have b1 : (0 : ℝ) < (minProbability : ℚ) := by norm_num [minProbability]
  have b2 : ((maxProbability : ℚ) : ℝ) < 1 := by norm_num [maxProbability, minProbability]
  have b3 : ((minProbability : ℚ) : ℝ) < (maxProbability : ℚ) := by norm_num [maxProbability, minProbability]
  have c0 := logit_mono b1 a0 (lt_of_le_of_lt (a1.trans a2) b2)
  have c1 := logit_mono (lt_of_lt_of_le b1 a0) a1 (lt_of_le_of_lt a2 b2)
  have c3 := logit_strict b1 b3 b2
  unfold logOddsReal
  have := roundReal_mono (x := (logit p - logit minProbability) * 254 / (logit maxProbability - logit minProbability))
    (y := (logit q - logit minProbability) * 254 / (logit maxProbability - logit minProbability))
    (div_nonneg (mul_nonneg (by linarith) (by norm_num)) (by linarith))
    (div_le_div_of_nonneg_right (by nlinarith) (by linarith))
  omega

theorem logOdds_ends : logOddsReal minProbability = 1 ∧ logOddsReal maxProbability = 255 := by
  have b1 : (0 : ℝ) < (minProbability : ℚ) := by norm_num [minProbability]
  have b2 : ((maxProbability : ℚ) : ℝ) < 1 := by norm_num [maxProbability, minProbability]
  have b3 : ((minProbability : ℚ) : ℝ) < (maxProbability : ℚ) := by norm_num [maxProbability, minProbability]
  have c3 := logit_strict b1 b3 b2
  unfold logOddsReal
  constructor
  · rw [sub_self, zero_mul, zero_div]
    norm_num [roundReal]
  · rw [mul_comm, mul_div_assoc, div_self (by linarith), mul_one, roundReal, if_pos (by norm_num)]
    norm_num

/-! ### The textures -/

theorem cellProb_range {v : Nat} (h1 : 1 ≤ v) (h2 : v ≤ 32767) : minProbability ≤ cellProb v ∧ cellProb v ≤ maxProbability := by
  have h := decode_range minmaxCost maxCost h1 h2
  simp only [cellProb, costToProbability, valueToCost]
  simp only [minCost, maxCost] at h ⊢
  constructor <;> linarith [h.1, h.2]

/-- **C68**: the texture of a probability grid.  Reading it back gives a pixel for every cell of the bounding box of the known cells;
a pixel is observed exactly if the cell is known, and then it shows the log odds of the cell.  Every known cell has a pixel. -/
theorem probability_texture {g : Grid} (w : Wf g) (hu : g.updates = []) (localPose : Rigid3) :
    ∃ t px, drawProbabilityGrid logOddsReal g localPose = some t ∧ unpack t.cells t.width t.height = some px ∧
      (∀ i, val g i ≠ 0 → ∃ u v : Nat, u < t.width ∧ v < t.height ∧ i = addIdx ((u : Int), (v : Int)) g.croppedLimits.1) ∧
      ∀ u v : Nat, u < t.width → v < t.height → ∃ p, pixelAt t.width px u v = some p ∧
        (Observed p ↔ val g (addIdx ((u : Int), (v : Int)) g.croppedLimits.1) ≠ 0) ∧
        (val g (addIdx ((u : Int), (v : Int)) g.croppedLimits.1) ≠ 0 →
          Shows (logOddsReal (cellProb (val g (addIdx ((u : Int), (v : Int)) g.croppedLimits.1)))) p) := by
  obtain ⟨cells, px, h1, h2, h3, h4⟩ := texture_spec w (delta := probabilityDelta logOddsReal g)
    (lv := fun i => logOddsReal (cellProb (val g i))) (fun i hi hv => by
      have hlt := Wf.lt_marker w hu i
      rw [updateMarker_eq] at hlt
      have hr := cellProb_range (v := val g i) (by omega) (by omega)
      have hl := logOdds_range hr.1 hr.2
      refine ⟨?_, hl.1, by omega⟩
      have e : costToProbability (valueToCost (val g i)) = cellProb (val g i) := rfl
      simp only [probabilityDelta, getProbability_eq w i hi, logOddsInteger, e, Option.bind_eq_bind, Option.bind_some, if_pos hl]) localPose
  exact ⟨_, px, by simp only [drawProbabilityGrid, h1, Option.bind_eq_bind, Option.bind_some], h2, h3, h4⟩

/-- **C68**: the texture of a signed distance grid, likewise; a cell shows its distance, faded with its weight. -/
theorem tsdf_texture {t : Tsdf.Map} (w : Tsdf.WfT t) {root : ℚ → ℚ} (hr : ∀ x, 0 ≤ x → x ≤ 1 → 0 ≤ root x ∧ root x ≤ 1)
    (localPose : Rigid3) :
    ∃ s px, drawTsdf root t localPose = some s ∧ unpack s.cells s.width s.height = some px ∧
      (∀ i, val t.grid i ≠ 0 → ∃ u v : Nat, u < s.width ∧ v < s.height ∧ i = addIdx ((u : Int), (v : Int)) t.grid.croppedLimits.1) ∧
      ∀ u v : Nat, u < s.width → v < s.height → ∃ p, pixelAt s.width px u v = some p ∧
        (Observed p ↔ val t.grid (addIdx ((u : Int), (v : Int)) t.grid.croppedLimits.1) ≠ 0) ∧
        (val t.grid (addIdx ((u : Int), (v : Int)) t.grid.croppedLimits.1) ≠ 0 → ∃ d x,
          t.getTsdAndWeight (addIdx ((u : Int), (v : Int)) t.grid.croppedLimits.1) = some (d, x) ∧
          Shows (128 - roundToInt (x / t.maxWeight * (root (|d| / t.maxTsd) * 255 - 128))) p) := by
  obtain ⟨cells, px, h1, h2, h3, h4⟩ := texture_spec w.grid (delta := tsdfDelta root t)
    (lv := fun i => 128 - roundToInt (Tsdf.valueToWeight t.maxWeight (val (Tsdf.wview t) i) / t.maxWeight *
      (root (|Tsdf.valueToTsd t.maxTsd (val t.grid i)| / t.maxTsd) * 255 - 128))) (fun i hi hv => by
      have hT := w.tsd
      have hW := w.wt
      have a := Tsdf.tsd_band hT (val t.grid i)
      have b := Tsdf.weight_band hW (val (Tsdf.wview t) i)
      have a' : |Tsdf.valueToTsd t.maxTsd (val t.grid i)| ≤ t.maxTsd := abs_le.2 a
      have c := hr (|Tsdf.valueToTsd t.maxTsd (val t.grid i)| / t.maxTsd) (by positivity) (by rw [div_le_one hT]; exact a')
      have d1 : 0 ≤ Tsdf.valueToWeight t.maxWeight (val (Tsdf.wview t) i) / t.maxWeight := div_nonneg b.1 hW.le
      have d2 : Tsdf.valueToWeight t.maxWeight (val (Tsdf.wview t) i) / t.maxWeight ≤ 1 := by rw [div_le_one hW]; exact b.2
      have e := abs_le.1 (roundToInt_nearest (Tsdf.valueToWeight t.maxWeight (val (Tsdf.wview t) i) / t.maxWeight *
        (root (|Tsdf.valueToTsd t.maxTsd (val t.grid i)| / t.maxTsd) * 255 - 128)))
      have f1 : Tsdf.valueToWeight t.maxWeight (val (Tsdf.wview t) i) / t.maxWeight *
        (root (|Tsdf.valueToTsd t.maxTsd (val t.grid i)| / t.maxTsd) * 255 - 128) ≤ 127 := by nlinarith
      have f2 : -128 ≤ Tsdf.valueToWeight t.maxWeight (val (Tsdf.wview t) i) / t.maxWeight *
        (root (|Tsdf.valueToTsd t.maxTsd (val t.grid i)| / t.maxTsd) * 255 - 128) := by nlinarith
      refine ⟨by simp only [tsdfDelta, Tsdf.get_eq w, Option.bind_eq_bind, Option.bind_some]; congr 1; ring, ?_, ?_⟩
      · have : (roundToInt (Tsdf.valueToWeight t.maxWeight (val (Tsdf.wview t) i) / t.maxWeight *
          (root (|Tsdf.valueToTsd t.maxTsd (val t.grid i)| / t.maxTsd) * 255 - 128)) : ℚ) < ((128 : Int) : ℚ) := by
          push_cast; linarith [e.2]
        have := Int.cast_lt.1 this
        omega
      · have : (((-129 : Int)) : ℚ) < roundToInt (Tsdf.valueToWeight t.maxWeight (val (Tsdf.wview t) i) / t.maxWeight *
          (root (|Tsdf.valueToTsd t.maxTsd (val t.grid i)| / t.maxTsd) * 255 - 128)) := by
          push_cast; linarith [e.1]
        have := Int.cast_lt.1 this
        omega) localPose
  refine ⟨_, px, by simp only [drawTsdf, h1, Option.bind_eq_bind, Option.bind_some], h2, h3, fun u v hu hv => ?_⟩
  obtain ⟨p, q1, q2, q3⟩ := h4 u v hu hv
  exact ⟨p, q1, q2, fun h => ⟨_, _, Tsdf.get_eq w _, q3 h⟩⟩

/-! ### Where the pixels are painted -/

/-- The centre of a cell as a point of the plane. -/
noncomputable def centre (l : MapLimits) (i : Int × Int) : V2 := ⟨((l.getCellCenter i).1 : ℝ), ((l.getCellCenter i).2 : ℝ)⟩

theorem translation_eq (x y : ℝ) : translation ⟨x, y, 0⟩ = embed3D ⟨⟨x, y⟩, 0⟩ := by
  simp [translation, embed3D, aroundZ]

/-- A point of a planar slice: `v` pixels down and `u` to the right are in the directions of the negative axes. -/
theorem toDevice_planar {scale : ℝ} {s : Slice} {a : Rigid2} (h : s.pose.mul s.slicePose = embed3D a) (u v : ℝ) :
    toDevice scale s u v = (scale * (a.apply ⟨-(s.resolution * v), -(s.resolution * u)⟩).x,
      -(scale * (a.apply ⟨-(s.resolution * v), -(s.resolution * u)⟩).y)) := by
  simp only [toDevice, h, sliceMatrix, embed3D, Matrix.apply, aroundZ_rotate, Rigid2.apply, rotate2]
  apply Prod.ext <;> simp only <;> ring

/-- **C68**: with poses in the plane, the pixel of a cell is painted where the cell is: its centre is at the position of the centre
of the cell, moved from the local frame to the submap's and from there to the global one, with the y-axis pointing up. -/
theorem cell_placed {g : Grid} (localPose globalPose : Rigid2) (cells : List Nat) {s : Slice}
    (hs : fillSlice (embed3D globalPose) (texture2D g (embed3D localPose) cells) = some s) (resolution : ℝ) (u v : Nat) :
    toDevice (1 / resolution) s (u + 1 / 2) (v + 1 / 2) =
      (((globalPose.mul localPose.inverse).apply (centre g.limits (addIdx ((u : Int), (v : Int)) g.croppedLimits.1))).x / resolution,
       -(((globalPose.mul localPose.inverse).apply (centre g.limits (addIdx ((u : Int), (v : Int)) g.croppedLimits.1))).y / resolution)) := by
  simp only [fillSlice, Option.bind_eq_bind, Option.bind_eq_some_iff, Option.some.injEq] at hs
  obtain ⟨px, _, rfl⟩ := hs
  have e : (embed3D globalPose).mul (texture2D g (embed3D localPose) cells).slicePose =
      embed3D ((globalPose.mul localPose.inverse).mul ⟨⟨g.limits.maxX - g.limits.resolution * g.croppedLimits.1.2,
        g.limits.maxY - g.limits.resolution * g.croppedLimits.1.1⟩, 0⟩) := by
    rw [mul2_assoc, embed3D_mul, embed3D_mul, embed3D_inverse, ← translation_eq]
    rfl
  refine (toDevice_planar e _ _).trans ?_
  simp only [apply2_mul (globalPose.mul localPose.inverse)]
  have hp : Rigid2.apply ⟨⟨(g.limits.maxX : ℝ) - g.limits.resolution * g.croppedLimits.1.2,
      g.limits.maxY - g.limits.resolution * g.croppedLimits.1.1⟩, 0⟩
      ⟨-((texture2D g (embed3D localPose) cells).resolution * ((v : ℝ) + 1 / 2)),
        -((texture2D g (embed3D localPose) cells).resolution * ((u : ℝ) + 1 / 2))⟩ =
      centre g.limits (addIdx ((u : Int), (v : Int)) g.croppedLimits.1) := by
    simp only [Rigid2.apply, rotate2, centre, MapLimits.getCellCenter, texture2D, addIdx, Real.cos_zero, Real.sin_zero]
    ext <;> simp only <;> push_cast <;> ring
  rw [hp]
  apply Prod.ext <;> simp only <;> ring

/-! ### The painted image -/

/-- Alpha, intensity and the flag for observed pixels in the channels of a pixel. -/
theorem surface_channels {px : List (Nat × Nat)} {k : Nat} {p : Nat × Nat} (hb : p.1 < 256 ∧ p.2 < 256) (hp : px[k]? = some p) :
    ∃ c, (surface px)[k]? = some c ∧ c / 2 ^ 24 = p.2 ∧ c / 2 ^ 16 % 256 = p.1 ∧ (c / 2 ^ 8 % 256 = 255 ∨ c / 2 ^ 8 % 256 = 0) ∧
      (c / 2 ^ 8 % 256 = 255 ↔ Observed p) ∧ c % 256 = 0 := by
  obtain ⟨a, b⟩ := p
  simp only at hb
  refine ⟨_, by rw [surface, List.getElem?_map, hp]; rfl, ?_⟩
  have e : ∀ o : Nat, o < 256 → b <<< 24 ||| a <<< 16 ||| o <<< 8 ||| 0 = b * 2 ^ 24 + a * 2 ^ 16 + o * 2 ^ 8 := by
    intro o ho
    have e1 : b <<< 24 ||| a <<< 16 = b <<< 24 + a <<< 16 := (Nat.shiftLeft_add_eq_or_of_lt (by rw [Nat.shiftLeft_eq]; omega) b).symm
    have e2 : b <<< 24 + a <<< 16 = (b * 2 ^ 8 + a) <<< 16 := by simp only [Nat.shiftLeft_eq]; ring
    have e3 : (b * 2 ^ 8 + a) <<< 16 ||| o <<< 8 = (b * 2 ^ 8 + a) <<< 16 + o <<< 8 :=
      (Nat.shiftLeft_add_eq_or_of_lt (by rw [Nat.shiftLeft_eq]; omega) _).symm
    rw [Nat.or_zero, e1, e2, e3]
    simp only [Nat.shiftLeft_eq]
    ring
  simp only [Observed, ne_eq, Prod.mk.injEq]
  by_cases hz : a = 0 ∧ b = 0
  · rw [if_pos hz, e 0 (by omega)]
    omega
  · rw [if_neg hz, e 255 (by omega)]
    omega

theorem foldl_extend_some (ps : List (ℝ × ℝ)) : ∀ (b : (ℝ × ℝ) × (ℝ × ℝ)), ∃ c, ps.foldl extend (some b) = some c ∧
    c.1.1 ≤ b.1.1 ∧ c.1.2 ≤ b.1.2 ∧ b.2.1 ≤ c.2.1 ∧ b.2.2 ≤ c.2.2 ∧
    ∀ p ∈ ps, c.1.1 ≤ p.1 ∧ p.1 ≤ c.2.1 ∧ c.1.2 ≤ p.2 ∧ p.2 ≤ c.2.2 := by
  induction ps with
  | nil => intro b; exact ⟨b, rfl, le_rfl, le_rfl, le_rfl, le_rfl, by simp⟩
  | cons q ps ih =>
    intro b
    obtain ⟨c, h1, h2, h3, h4, h5, h6⟩ := ih ((min b.1.1 q.1, min b.1.2 q.2), (max b.2.1 q.1, max b.2.2 q.2))
    simp only [le_min_iff, max_le_iff] at h2 h3 h4 h5
    refine ⟨c, h1, h2.1, h3.1, h4.1, h5.1, ?_⟩
    exact List.forall_mem_cons.2 ⟨⟨h2.2, h4.2, h3.2, h5.2⟩, h6⟩

theorem foldl_extend (ps : List (ℝ × ℝ)) {lo hi : ℝ × ℝ} (h : ps.foldl extend none = some (lo, hi)) :
    ∀ p ∈ ps, lo.1 ≤ p.1 ∧ p.1 ≤ hi.1 ∧ lo.2 ≤ p.2 ∧ p.2 ≤ hi.2 := by
  cases ps with
  | nil => simp
  | cons q ps =>
    obtain ⟨c, h1, h2, h3, h4, h5, h6⟩ := foldl_extend_some ps (q, q)
    simp only [List.foldl_cons, extend] at h
    rw [h1] at h
    cases h
    exact List.forall_mem_cons.2 ⟨⟨h2, h4, h3, h5⟩, h6⟩

/-- A function that is linear in both arguments takes its extremes on a rectangle in the corners. -/
theorem affine_bound {a b c w h u v lo : ℝ} (hu0 : 0 ≤ u) (hu : u ≤ w) (hv0 : 0 ≤ v) (hv : v ≤ h) (h1 : lo ≤ c) (h2 : lo ≤ a * w + c)
    (h3 : lo ≤ b * h + c) (h4 : lo ≤ a * w + b * h + c) : lo ≤ a * u + b * v + c := by
  rcases le_total 0 a with ha | ha <;> rcases le_total 0 b with hb | hb
  · nlinarith [mul_nonneg ha hu0, mul_nonneg hb hv0]
  · nlinarith [mul_nonneg ha hu0, mul_le_mul_of_nonpos_left hv hb]
  · nlinarith [mul_le_mul_of_nonpos_left hu ha, mul_nonneg hb hv0]
  · nlinarith [mul_le_mul_of_nonpos_left hu ha, mul_le_mul_of_nonpos_left hv hb]

theorem toDevice_affine (scale : ℝ) (s : Slice) : ∃ a b c a' b' c' : ℝ, ∀ u v, toDevice scale s u v = (a * u + b * v + c, a' * u + b' * v + c') := by
  refine ⟨scale * (sliceMatrix (s.pose.mul s.slicePose)).xx * s.resolution, scale * (sliceMatrix (s.pose.mul s.slicePose)).xy * s.resolution,
    scale * (sliceMatrix (s.pose.mul s.slicePose)).x0, scale * (sliceMatrix (s.pose.mul s.slicePose)).yx * s.resolution,
    scale * (sliceMatrix (s.pose.mul s.slicePose)).yy * s.resolution, scale * (sliceMatrix (s.pose.mul s.slicePose)).y0, fun u v => ?_⟩
  simp only [toDevice, Matrix.apply]
  apply Prod.ext <;> simp only <;> ring

/-- **C68**: all drawn slices are in the image, at least five pixels from its border, whatever the poses. -/
theorem inside_image {resolution : ℝ} {slices : List Slice} {P : Painting} (h : paint resolution slices = some P) {s : Slice}
    (hs : s ∈ P.slices) {u v : ℝ} (hu : 0 ≤ u ∧ u ≤ s.width) (hv : 0 ≤ v ∧ v ≤ s.height) :
    5 ≤ (P.position resolution s u v).1 ∧ (P.position resolution s u v).1 ≤ P.size.1 - 5 ∧
    5 ≤ (P.position resolution s u v).2 ∧ (P.position resolution s u v).2 ≤ P.size.2 - 5 := by
  simp only [paint, Option.bind_eq_bind, Option.bind_eq_some_iff, Option.some.injEq] at h
  obtain ⟨⟨lo, hi⟩, hb, rfl⟩ := h
  have hc := foldl_extend _ hb
  have c1 := hc _ (List.mem_flatMap.2 ⟨s, hs, show toDevice (1 / resolution) s 0 0 ∈ _ by simp [corners]⟩)
  have c2 := hc _ (List.mem_flatMap.2 ⟨s, hs, show toDevice (1 / resolution) s s.width 0 ∈ _ by simp [corners]⟩)
  have c3 := hc _ (List.mem_flatMap.2 ⟨s, hs, show toDevice (1 / resolution) s 0 s.height ∈ _ by simp [corners]⟩)
  have c4 := hc _ (List.mem_flatMap.2 ⟨s, hs, show toDevice (1 / resolution) s s.width s.height ∈ _ by simp [corners]⟩)
  obtain ⟨a, b, c, a', b', c', e⟩ := toDevice_affine (1 / resolution) s
  simp only [e, mul_zero, zero_add, add_zero] at c1 c2 c3 c4
  simp only [Painting.position, e]
  have x1 := affine_bound (a := a) (b := b) (c := c) hu.1 hu.2 hv.1 hv.2 c1.1 c2.1 c3.1 c4.1
  have x2 := affine_bound (a := a') (b := b') (c := c') hu.1 hu.2 hv.1 hv.2 c1.2.2.1 c2.2.2.1 c3.2.2.1 c4.2.2.1
  have y1 := affine_bound (a := -a) (b := -b) (c := -c) (lo := -hi.1) hu.1 hu.2 hv.1 hv.2 (by linarith [c1.2.1]) (by linarith [c2.2.1])
    (by linarith [c3.2.1]) (by linarith [c4.2.1])
  have y2 := affine_bound (a := -a') (b := -b') (c := -c') (lo := -hi.2) hu.1 hu.2 hv.1 hv.2 (by linarith [c1.2.2.2])
    (by linarith [c2.2.2.2]) (by linarith [c3.2.2.2]) (by linarith [c4.2.2.2])
  have z1 := Int.le_ceil (hi.1 - lo.1)
  have z2 := Int.le_ceil (hi.2 - lo.2)
  push_cast
  refine ⟨by linarith, by linarith, by linarith, by linarith⟩

/-- All slices are drawn if all have a surface. -/
theorem all_drawn {slices : List Slice} (h : ∀ s ∈ slices, s.surface ≠ none) : drawn slices = slices := by
  induction slices with
  | nil => rfl
  | cons s rest ih =>
    have h1 := h s (by simp)
    cases hs : s.surface with
    | none => exact absurd hs h1
    | some x => simp only [drawn, hs, ih (fun s hs => h s (List.mem_cons_of_mem _ hs))]

theorem paint_total {resolution : ℝ} {slices : List Slice} (h : ∀ s ∈ slices, s.surface ≠ none) (hne : slices ≠ []) :
    ∃ P, paint resolution slices = some P ∧ P.slices = slices := by
  cases slices with
  | nil => exact absurd rfl hne
  | cons s rest =>
    simp only [paint, all_drawn h, List.flatMap_cons, corners, List.cons_append, List.nil_append, List.foldl_cons, extend]
    generalize hb : List.foldl extend (some _) _ = b
    obtain ⟨c, hc, _⟩ := foldl_extend_some (List.flatMap (corners (1 / resolution)) rest) _
    rw [hc] at hb
    subst hb
    exact ⟨_, rfl, rfl⟩

/-- The code ends with the first slice that has no surface: later ones are not painted although they have one. -/
theorem later_slices_lost (before after : List Slice) {s : Slice} (hs : s.surface = none) (h : ∀ s ∈ before, s.surface ≠ none) :
    drawn (before ++ s :: after) = before := by
  induction before with
  | nil => simp [drawn, hs]
  | cons b before ih =>
    have h1 := h b (by simp)
    cases hb : b.surface with
    | none => exact absurd hb h1
    | some x => simp only [List.cons_append, drawn, hb, ih (fun s hs => h s (List.mem_cons_of_mem _ hs))]

/-- **C68**, all of it: a known cell of a probability grid is in the slice made from the texture, its pixel says that it is
observed and what its log odds are, and it is painted at the place of the cell. -/
theorem known_cell_painted {g : Grid} (w : Wf g) (hu : g.updates = []) (localPose globalPose : Rigid2) :
    ∃ t s, drawProbabilityGrid logOddsReal g (embed3D localPose) = some t ∧ fillSlice (embed3D globalPose) t = some s ∧
      ∀ i, val g i ≠ 0 → ∃ u v : Nat, u < s.width ∧ v < s.height ∧
        (∃ px c, s.surface = some px ∧ px[v * s.width.toNat + u]? = some c ∧ c / 2 ^ 8 % 256 = 255 ∧
          Shows (logOddsReal (cellProb (val g i))) (c / 2 ^ 16 % 256, c / 2 ^ 24)) ∧
        ∀ resolution : ℝ, toDevice (1 / resolution) s (u + 1 / 2) (v + 1 / 2) =
          (((globalPose.mul localPose.inverse).apply (centre g.limits i)).x / resolution,
            -(((globalPose.mul localPose.inverse).apply (centre g.limits i)).y / resolution)) := by
  obtain ⟨t, px, h1, h2, h3, h4⟩ := probability_texture w hu (embed3D localPose)
  have ht := h1
  simp only [drawProbabilityGrid, Option.bind_eq_bind, Option.bind_eq_some_iff, Option.some.injEq] at ht
  obtain ⟨cells, _, ht⟩ := ht
  have hs : fillSlice (embed3D globalPose) t = some ⟨t.width, t.height, t.resolution, t.slicePose, embed3D globalPose, some (surface px)⟩ := by
    simp only [fillSlice, h2, Option.bind_eq_bind, Option.bind_some]
  refine ⟨t, _, h1, hs, fun i hi => ?_⟩
  obtain ⟨u, v, hu, hv, rfl⟩ := h3 i hi
  obtain ⟨p, q1, q2, q3⟩ := h4 u v hu hv
  have hsm : ∀ l, 1 ≤ l → l ≤ 255 → ∀ p, Shows l p → p.1 < 256 ∧ p.2 < 256 := by
    intro l l1 l2 p ⟨a, b, c⟩
    rcases lt_trichotomy l 128 with hl | hl | hl
    · have := a hl; omega
    · rw [c hl]; omega
    · have := b hl; omega
  have hlt := Wf.lt_marker w ‹_› (addIdx ((u : Int), (v : Int)) g.croppedLimits.1)
  rw [updateMarker_eq] at hlt
  have hr := cellProb_range (v := val g (addIdx ((u : Int), (v : Int)) g.croppedLimits.1)) (by omega) (by omega)
  have hl := logOdds_range hr.1 hr.2
  have hp := hsm _ hl.1 hl.2 _ (q3 hi)
  refine ⟨u, v, hu, hv, ?_, ?_⟩
  · obtain ⟨c, c1, c2, c3, c4, c5, c6⟩ := surface_channels hp q1
    refine ⟨_, c, rfl, c1, c5.2 (q2.2 hi), ?_⟩
    rw [c2, c3]
    exact q3 hi
  · intro resolution
    subst ht
    exact cell_placed localPose globalPose cells hs resolution u v

/-! ### Examples -/

/-- A grid with three known cells. -/
def sample : Grid := ⟨⟨1, 2, 3, 3, 4⟩, [0, 0, 0, 0, 0, 16384, 0, 1, 0, 0, 32767, 0], minCost, maxCost, [], some ⟨1, 1, 2, 3⟩⟩

example : xyIndices sample.croppedLimits.2.1 sample.croppedLimits.2.2 = some [(0, 0), (1, 0), (0, 1), (1, 1), (0, 2), (1, 2)] := by
  decide +kernel

/-- The function used in the example in place of the logarithm: linear between the bounds. -/
def linearOdds (p : ℚ) : Int := roundToInt ((p - minProbability) * 254 / (maxProbability - minProbability)) + 1

example : drawCells sample.isKnown (probabilityDelta linearOdds sample) sample.croppedLimits.1 sample.croppedLimits.2 =
    some [0, 0, 0, 1, 0, 127, 0, 0, 127, 0, 0, 0] := by
  decide +kernel

example : unpack [0, 0, 0, 1, 0, 127, 0, 0, 127, 0, 0, 0] 2 3 = some [(0, 0), (0, 1), (0, 127), (0, 0), (127, 0), (0, 0)] := by
  decide +kernel

example : surface [(0, 0), (0, 1), (0, 127), (127, 0)] = [0, 0x0100ff00, 0x7f00ff00, 0x007fff00] := by decide +kernel

example : Shows 255 (0, 127) ∧ Shows 1 (127, 0) ∧ Shows 128 (0, 1) ∧ Shows 129 (0, 1) := by
  simp [Shows]

end Verif.Texture
