import Verif.Grid2DLemmas
import Verif.Props.Grid2DUpdate
import Mathlib.Algebra.Order.Archimedean.Basic

/-!
# C15: growing a map never changes what is known where
-/

namespace Verif.Grid2D

open Verif.Prob

theorem scatter_spec {α : Type} (pos : α → Nat) (rd : α → Option Nat) (as : List α) : ∀ (l : List Nat),
    (∀ a ∈ as, pos a < l.length) → (∀ a ∈ as, ∃ v, rd a = some v) → (∀ a ∈ as, ∀ b ∈ as, pos a = pos b → a = b) →
    ∃ l', scatter pos rd as l = some l' ∧ l'.length = l.length ∧ (∀ a ∈ as, l'[pos a]? = rd a) ∧
      ∀ k : Nat, (∀ a ∈ as, pos a ≠ k) → l'[k]? = l[k]? := by
  induction as with
  | nil => intro l _ _ _; exact ⟨l, rfl, rfl, by simp, by simp⟩
  | cons a as ih =>
    intro l hpos hrd inj
    obtain ⟨v, hv⟩ := hrd a (by simp)
    have hp := hpos a (by simp)
    obtain ⟨l', e1, e2, e3, e4⟩ := ih (l.set (pos a) v) (fun b hb => by simpa using hpos b (by simp [hb]))
      (fun b hb => hrd b (by simp [hb])) (fun b hb c hc => inj b (by simp [hb]) c (by simp [hc]))
    refine ⟨l', ?_, by simpa using e2, ?_, ?_⟩
    · simp only [scatter, List.foldlM_cons, hv, setAt?, hp, if_true]
      exact e1
    · intro b hb
      by_cases hba : b ∈ as
      · exact e3 b hba
      · obtain rfl : b = a := by simpa [hba] using hb
        rw [e4 (pos b), List.getElem?_set_self hp, hv]
        intro c hc e
        exact hba (inj c (by simp [hc]) b (by simp) e ▸ hc)
    · intro k hk
      rw [e4 k (fun b hb => hk b (by simp [hb])), List.getElem?_set_ne (hk a (by simp))]

theorem divmod_inj {a q r q' r' : Nat} (h1 : r < a) (h2 : r' < a) (h : a * q + r = a * q' + r') : q = q' ∧ r = r' := by
  have e1 : (a * q + r) / a = q := by rw [Nat.mul_add_div (by omega), Nat.div_eq_of_lt h1]; omega
  have e2 : (a * q' + r') / a = q' := by rw [Nat.mul_add_div (by omega), Nat.div_eq_of_lt h2]; omega
  have : q = q' := by rw [← e1, ← e2, h]
  subst this
  exact ⟨rfl, by omega⟩

theorem growCells_spec {nx ny u : Nat} {cells : List Nat} (hx : 0 < nx) (hl : cells.length = nx * ny) :
    ∃ cells', growCells nx ny u cells = some cells' ∧ cells'.length = 2 * nx * (2 * ny) ∧
      (∀ i j, i < ny → j < nx → cells'[2 * nx * (ny / 2 + i) + (nx / 2 + j)]? = cells[nx * i + j]?) ∧
      (∀ x y, x < 2 * nx → y < 2 * ny → ¬ (nx / 2 ≤ x ∧ x < nx / 2 + nx ∧ ny / 2 ≤ y ∧ y < ny / 2 + ny) →
        cells'[2 * nx * y + x]? = some u) := by
  have hmem : ∀ ij : Nat × Nat, ij ∈ ((List.range ny).flatMap fun i => (List.range nx).map fun j => (i, j)) ↔
      ij.1 < ny ∧ ij.2 < nx := by
    rintro ⟨i, j⟩
    simp
  have hpos : ∀ i j : Nat, nx / 2 + 2 * nx * (ny / 2) + j + i * (2 * nx) = 2 * nx * (ny / 2 + i) + (nx / 2 + j) := by
    intro i j; ring
  have hb : ∀ q r : Nat, q < 2 * ny → r < 2 * nx → 2 * nx * q + r < 2 * nx * (2 * ny) := by
    intro q r hq hr
    calc 2 * nx * q + r < 2 * nx * q + 2 * nx := by omega
      _ = 2 * nx * (q + 1) := by ring
      _ ≤ 2 * nx * (2 * ny) := Nat.mul_le_mul_left _ (by omega)
  obtain ⟨l', e1, e2, e3, e4⟩ := scatter_spec (fun ij : Nat × Nat => nx / 2 + 2 * nx * (ny / 2) + ij.2 + ij.1 * (2 * nx))
    (fun ij => cells[ij.2 + ij.1 * nx]?) ((List.range ny).flatMap fun i => (List.range nx).map fun j => (i, j))
    (List.replicate (2 * nx * (2 * ny)) u) (by
      rintro ⟨i, j⟩ hij
      obtain ⟨hi, hj⟩ := (hmem _).1 hij
      simp only at hi hj
      simp only [List.length_replicate, hpos]
      exact hb _ _ (by omega) (by omega)) (by
      rintro ⟨i, j⟩ hij
      obtain ⟨hi, hj⟩ := (hmem _).1 hij
      simp only at hi hj
      refine ⟨_, List.getElem?_eq_getElem ?_⟩
      rw [hl]
      calc j + i * nx < nx + i * nx := by omega
        _ = nx * (i + 1) := by ring
        _ ≤ nx * ny := Nat.mul_le_mul_left _ (by omega)) (by
      rintro ⟨i, j⟩ hij ⟨i', j'⟩ hij' h
      obtain ⟨hi, hj⟩ := (hmem _).1 hij
      obtain ⟨hi', hj'⟩ := (hmem _).1 hij'
      simp only at hi hj hi' hj'
      simp only [hpos] at h
      have := divmod_inj (by omega) (by omega) h
      simp only [Prod.mk.injEq]
      omega)
  refine ⟨l', e1, by simpa using e2, ?_, ?_⟩
  · intro i j hi hj
    have := e3 (i, j) ((hmem _).2 ⟨hi, hj⟩)
    simp only [hpos] at this
    rw [this]
    congr 1
    ring
  · intro x y hx' hy hn
    rw [e4]
    · rw [List.getElem?_replicate, if_pos (hb y x hy hx')]
    · rintro ⟨i, j⟩ hij h
      obtain ⟨hi, hj⟩ := (hmem _).1 hij
      simp only at hi hj
      simp only [hpos] at h
      have := divmod_inj (by omega) hx' h
      omega

theorem Wf.lt_marker {g : Grid} (w : Wf g) (hu : g.updates = []) (i : Int × Int) : val g i < updateMarker := by
  have := updateMarker_eq
  by_cases hi : g.limits.contains i = true
  · by_contra hc
    have := (w.pend _ _ (w.get hi)).2 (by omega)
    rw [hu] at this
    simp at this
  · rw [val_out hi]; omega

/-- How a grid relates to a grown version of it: the old cell `(x, y)` is the new cell `(x + ox, y + oy)`. -/
structure Grown (g g' : Grid) (ox oy : Nat) : Prop where
  res : g'.limits.resolution = g.limits.resolution
  maxX : g'.limits.maxX = g.limits.maxX + g.limits.resolution * oy
  maxY : g'.limits.maxY = g.limits.maxY + g.limits.resolution * ox
  numX : ox + g.limits.numX ≤ g'.limits.numX
  numY : oy + g.limits.numY ≤ g'.limits.numY
  minCost : g'.minCost = g.minCost
  maxCost : g'.maxCost = g.maxCost
  updates : g'.updates = g.updates
  val : ∀ j, val g' j = val g (addIdx j (-ox, -oy))

theorem Grown.refl (g : Grid) : Grown g g 0 0 :=
  ⟨rfl, by simp, by simp, by simp, by simp, rfl, rfl, rfl, by intro j; simp [addIdx]⟩

theorem Grown.trans {g g' g'' : Grid} {ox oy ox' oy' : Nat} (h : Grown g g' ox oy) (h' : Grown g' g'' ox' oy') :
    Grown g g'' (ox + ox') (oy + oy') := by
  refine ⟨h'.res.trans h.res, ?_, ?_, ?_, ?_, h'.minCost.trans h.minCost, h'.maxCost.trans h.maxCost,
    h'.updates.trans h.updates, ?_⟩
  · rw [h'.maxX, h.maxX, h.res]; push_cast; ring
  · rw [h'.maxY, h.maxY, h.res]; push_cast; ring
  · have := h.numX; have := h'.numX; omega
  · have := h.numY; have := h'.numY; omega
  · intro j
    rw [h'.val, h.val]
    congr 1
    simp only [addIdx, Prod.mk.injEq]
    push_cast
    constructor <;> ring

theorem growStep_spec {g : Grid} (w : Wf g) (hu : g.updates = []) : ∃ g', g.growStep = some g' ∧ Wf g' ∧
    Grown g g' (g.limits.numX / 2) (g.limits.numY / 2) ∧ g'.limits.numX = 2 * g.limits.numX ∧
    g'.limits.numY = 2 * g.limits.numY := by
  obtain ⟨cells', e1, e2, e3, e4⟩ := growCells_spec (u := 0) w.nx w.len
  have hx := w.nx
  have hy := w.ny
  generalize hl : (⟨g.limits.resolution, g.limits.maxX + g.limits.resolution * ((g.limits.numY / 2 : Nat) : ℚ),
    g.limits.maxY + g.limits.resolution * ((g.limits.numX / 2 : Nat) : ℚ), 2 * g.limits.numX, 2 * g.limits.numY⟩ : MapLimits) = l
  have hgl : growMapLimits g.limits = some l := by
    have := w.res
    rw [growMapLimits, mkLimits, if_pos ⟨this, by omega, by omega⟩, hl]
  have lx : l.numX = 2 * g.limits.numX := by rw [← hl]
  have ly : l.numY = 2 * g.limits.numY := by rw [← hl]
  generalize hg' : ({ g with limits := l, cells := cells', box := translateBox g.box (g.limits.numX / 2 : Nat) (g.limits.numY / 2 : Nat) } : Grid) = g'
  have gl : g'.limits = l := by rw [← hg']
  have gc : g'.cells = cells' := by rw [← hg']
  have hv : ∀ j, val g' j = val g (addIdx j (-(g.limits.numX / 2 : Nat), -(g.limits.numY / 2 : Nat))) := by
    rintro ⟨x, y⟩
    by_cases hj : l.contains (x, y) = true
    · obtain ⟨h1, h2, h3, h4⟩ := (contains_def _).1 hj
      simp only at h1 h2 h3 h4
      obtain ⟨x, rfl⟩ := Int.eq_ofNat_of_zero_le h1
      obtain ⟨y, rfl⟩ := Int.eq_ofNat_of_zero_le h2
      have ev : val g' ((x : Int), (y : Int)) = (cells'[2 * g.limits.numX * y + x]?).getD 0 := by
        rw [val_eq (by rw [gl]; exact hj), gc, gl]
        simp only [flat, lx]
        rw [← Int.natCast_mul, ← Int.natCast_add, Int.toNat_natCast]
      rw [ev]
      by_cases hin : g.limits.numX / 2 ≤ x ∧ x < g.limits.numX / 2 + g.limits.numX ∧ g.limits.numY / 2 ≤ y ∧
          y < g.limits.numY / 2 + g.limits.numY
      · obtain ⟨a1, a2, a3, a4⟩ := hin
        obtain ⟨j, rfl⟩ := Nat.exists_eq_add_of_le a1
        obtain ⟨i, rfl⟩ := Nat.exists_eq_add_of_le a3
        rw [e3 i j (by omega) (by omega)]
        have ha : addIdx (((g.limits.numX / 2 + j : Nat) : Int), ((g.limits.numY / 2 + i : Nat) : Int))
            (-((g.limits.numX / 2 : Nat) : Int), -((g.limits.numY / 2 : Nat) : Int)) = ((j : Int), (i : Int)) := by
          simp only [addIdx, Prod.mk.injEq]
          omega
        rw [ha, val_eq]
        · simp only [flat]
          rw [← Int.natCast_mul, ← Int.natCast_add, Int.toNat_natCast]
        · rw [contains_def]
          simp only
          omega
      · rw [e4 x y (by omega) (by omega) hin, val_out]
        · rfl
        · rw [contains_def]
          simp only [addIdx]
          omega
    · rw [val_out (by rw [gl]; exact hj), val_out]
      rw [contains_def] at hj ⊢
      simp only [addIdx] at hj ⊢
      omega
  have hlen : g'.cells.length = g'.limits.numX * g'.limits.numY := by rw [gc, gl, lx, ly, e2]
  have hcell : ∀ c ∈ g'.cells, ∃ i, c = val g i := by
    intro c hc
    obtain ⟨k, hk⟩ := List.mem_iff_getElem?.1 hc
    have hlt : k < g'.limits.numX * g'.limits.numY := by
      rw [← hlen]; exact (List.getElem?_eq_some_iff.1 hk).1
    obtain ⟨i, hi, rfl⟩ := flat_surj hlt
    refine ⟨addIdx i (-(g.limits.numX / 2 : Nat), -(g.limits.numY / 2 : Nat)), ?_⟩
    rw [← hv i, val_eq hi, hk]
    rfl
  refine ⟨g', ?_, ?_, ?_, by rw [gl, lx], by rw [gl, ly]⟩
  · rw [← hg']
    simp [Grid.growStep, hgl, e1]
  · refine ⟨by rw [gl, ← hl]; exact w.res, by rw [gl, lx]; omega, by rw [gl, ly]; omega, by rw [← hg']; exact w.cost, hlen, ?_,
      by rw [← hg']; exact w.nodup, ?_, ?_, ?_, ?_, ?_⟩
    · intro c hc
      obtain ⟨i, rfl⟩ := hcell c hc
      exact w.val_lt i
    · intro k c hc
      obtain ⟨i, rfl⟩ := hcell c (List.mem_of_getElem? hc)
      have := w.lt_marker hu i
      rw [← hg']
      simp only [hu, List.not_mem_nil, false_iff]
      omega
    · intro c hc
      obtain ⟨i, rfl⟩ := hcell c hc
      exact w.val_ne i
    · intro k hk
      rw [← hg'] at hk
      simp [hu] at hk
    · intro i hi
      rw [hv] at hi
      obtain ⟨b, hb1, hb2⟩ := w.box _ hi
      refine ⟨_, by rw [← hg']; simp only [translateBox, hb1]; rfl, ?_⟩
      simp only [InBox, addIdx] at hb2 ⊢
      omega
    · intro b hb
      rw [← hg'] at hb
      simp only [translateBox, Option.map_eq_some_iff] at hb
      obtain ⟨b0, h0, rfl⟩ := hb
      have := w.boxIn b0 h0
      rw [gl]
      simp only [contains_def, lx, ly] at this ⊢
      omega
  · refine ⟨by rw [gl, ← hl], by rw [gl, ← hl], by rw [gl, ← hl], by rw [gl, lx]; omega, by rw [gl, ly]; omega, by rw [← hg'], by rw [← hg'],
      by rw [← hg'], hv⟩

/-- The loop terminates within `m` iterations if the point is within `m` cells of the open rectangle and the
grid has at least two cells in each direction. -/
theorem growLoop_terminates (px py : ℚ) : ∀ (m : Nat) (g : Grid), Wf g → g.updates = [] → 2 ≤ g.limits.numX → 2 ≤ g.limits.numY →
    px < g.limits.maxX + g.limits.resolution * m → py < g.limits.maxY + g.limits.resolution * m →
    g.limits.maxX - g.limits.resolution * g.limits.numY - g.limits.resolution * m < px →
    g.limits.maxY - g.limits.resolution * g.limits.numX - g.limits.resolution * m < py →
    ∃ g' ox oy, Wf g' ∧ Grown g g' ox oy ∧ g'.limits.contains (g'.limits.getCellIndex px py) = true ∧
      ∀ n, m ≤ n → g.growLoop n px py = some g' := by
  intro m
  induction m with
  | zero =>
    intro g w hu hx hy h1 h2 h3 h4
    simp only [Nat.cast_zero, mul_zero, add_zero, sub_zero] at h1 h2 h3 h4
    have hc : g.limits.contains (g.limits.getCellIndex px py) = true := (contains_iff w.res w.nx w.ny px py).2 ⟨⟨h3, h1⟩, h4, h2⟩
    refine ⟨g, 0, 0, w, Grown.refl g, hc, ?_⟩
    intro n _
    cases n <;> simp [Grid.growLoop, hc]
  | succ m ih =>
    intro g w hu hx hy h1 h2 h3 h4
    by_cases hc : g.limits.contains (g.limits.getCellIndex px py) = true
    · refine ⟨g, 0, 0, w, Grown.refl g, hc, ?_⟩
      intro n _
      cases n <;> simp [Grid.growLoop, hc]
    · obtain ⟨g1, e1, w1, gr, nx1, ny1⟩ := growStep_spec w hu
      have r1 := gr.res
      have hr := w.res
      have kx : (1 : ℚ) ≤ ((g.limits.numX / 2 : Nat) : ℚ) := by exact_mod_cast (by omega : 1 ≤ g.limits.numX / 2)
      have ky : (1 : ℚ) ≤ ((g.limits.numY / 2 : Nat) : ℚ) := by exact_mod_cast (by omega : 1 ≤ g.limits.numY / 2)
      have jx : ((g.limits.numX / 2 : Nat) : ℚ) + 1 ≤ g.limits.numX := by exact_mod_cast (by omega : g.limits.numX / 2 + 1 ≤ g.limits.numX)
      have jy : ((g.limits.numY / 2 : Nat) : ℚ) + 1 ≤ g.limits.numY := by exact_mod_cast (by omega : g.limits.numY / 2 + 1 ≤ g.limits.numY)
      have kx' := mul_le_mul_of_nonneg_left kx hr.le
      have ky' := mul_le_mul_of_nonneg_left ky hr.le
      have jx' := mul_le_mul_of_nonneg_left jx hr.le
      have jy' := mul_le_mul_of_nonneg_left jy hr.le
      push_cast at h1 h2 h3 h4
      obtain ⟨g', ox, oy, w', gr', hc', hn⟩ := ih g1 w1 (gr.updates.trans hu) (by omega) (by omega)
        (by rw [gr.maxX, r1]; linarith) (by rw [gr.maxY, r1]; linarith)
        (by rw [gr.maxX, r1, ny1]; push_cast; linarith) (by rw [gr.maxY, r1, nx1]; push_cast; linarith)
      refine ⟨g', _, _, w', gr.trans gr', hc', ?_⟩
      intro n hmn
      obtain ⟨n, rfl⟩ : ∃ k, n = k + 1 := ⟨n - 1, by omega⟩
      simp only [Grid.growLoop, hc, e1]
      exact hn n (by omega)

theorem growLoop_total {g : Grid} (w : Wf g) (hu : g.updates = []) (px py : ℚ) :
    ∃ m g' ox oy, Wf g' ∧ Grown g g' ox oy ∧ g'.limits.contains (g'.limits.getCellIndex px py) = true ∧
      ∀ n, m ≤ n → g.growLoop n px py = some g' := by
  by_cases hc : g.limits.contains (g.limits.getCellIndex px py) = true
  · refine ⟨0, g, 0, 0, w, Grown.refl g, hc, ?_⟩
    intro n _
    cases n <;> simp [Grid.growLoop, hc]
  · obtain ⟨g1, e1, w1, gr, nx1, ny1⟩ := growStep_spec w hu
    have := w.nx
    have := w.ny
    have hr := w1.res
    have arch : ∀ x : ℚ, ∃ m : Nat, ∀ k : Nat, m ≤ k → x < g1.limits.resolution * k := by
      intro x
      obtain ⟨m, hm⟩ := exists_nat_gt (x / g1.limits.resolution)
      refine ⟨m, fun k hk => ?_⟩
      have : (m : ℚ) ≤ k := by exact_mod_cast hk
      rw [div_lt_iff₀ hr] at hm
      nlinarith
    obtain ⟨m1, h1⟩ := arch (px - g1.limits.maxX)
    obtain ⟨m2, h2⟩ := arch (py - g1.limits.maxY)
    obtain ⟨m3, h3⟩ := arch (g1.limits.maxX - g1.limits.resolution * g1.limits.numY - px)
    obtain ⟨m4, h4⟩ := arch (g1.limits.maxY - g1.limits.resolution * g1.limits.numX - py)
    have k1 := h1 (m1 + m2 + m3 + m4) (by omega)
    have k2 := h2 (m1 + m2 + m3 + m4) (by omega)
    have k3 := h3 (m1 + m2 + m3 + m4) (by omega)
    have k4 := h4 (m1 + m2 + m3 + m4) (by omega)
    obtain ⟨g', ox, oy, w', gr', hc', hn⟩ := growLoop_terminates px py (m1 + m2 + m3 + m4) g1 w1 (gr.updates.trans hu) (by omega) (by omega)
      (by linarith) (by linarith) (by linarith) (by linarith)
    refine ⟨m1 + m2 + m3 + m4 + 1, g', _, _, w', gr.trans gr', hc', ?_⟩
    intro n hmn
    obtain ⟨n, rfl⟩ : ∃ k, n = k + 1 := ⟨n - 1, by omega⟩
    simp only [Grid.growLoop, hc, e1]
    exact hn n (by omega)

theorem Grown.center {g g' : Grid} {ox oy : Nat} (h : Grown g g' ox oy) (i : Int × Int) :
    g'.limits.getCellCenter (addIdx i (ox, oy)) = g.limits.getCellCenter i := by
  simp only [MapLimits.getCellCenter, addIdx, h.res, h.maxX, h.maxY, Prod.mk.injEq]
  push_cast
  constructor <;> ring

theorem axis_shift {m r p : ℚ} (hr : 0 < r) (n : Nat) (hp : p < m) :
    roundToInt ((m + r * n - p) / r - 1 / 2) = roundToInt ((m - p) / r - 1 / 2) + n := by
  have e : (m + r * n - p) / r - 1 / 2 = ((m - p) / r - 1 / 2) + n := by field_simp; ring
  rw [e]
  have hx : -1 / 2 < (m - p) / r - 1 / 2 := by
    have : 0 < (m - p) / r := div_pos (by linarith) hr
    linarith
  generalize (m - p) / r - 1 / 2 = x at *
  have h0 : 0 ≤ roundToInt x := by
    by_contra h
    have h1 : roundToInt x ≤ -1 := by omega
    obtain ⟨a, b⟩ := (round_neg_iff h1).1 rfl
    have : ((roundToInt x : Int) : ℚ) ≤ -1 := by exact_mod_cast h1
    linarith
  rcases h0.lt_or_eq with h | h
  · obtain ⟨a, b⟩ := (round_nonneg_iff (x := x) (n := roundToInt x) (by omega)).1 rfl
    rw [round_nonneg_iff (by omega)]
    push_cast
    constructor <;> linarith
  · obtain ⟨a, b⟩ := round_zero_iff.1 h.symm
    rw [← h]
    apply round_of_near <;> push_cast <;> linarith

theorem axis_outside {m r p : ℚ} (hr : 0 < r) (n k : Nat) (hp : p < m - r * k ∨ m < p) :
    ¬ ((n : Int) ≤ roundToInt ((m + r * n - p) / r - 1 / 2) ∧ roundToInt ((m + r * n - p) / r - 1 / 2) < n + k) := by
  rintro ⟨h1, h2⟩
  have e : (m + r * n - p) / r - 1 / 2 = (m - p) / r - 1 / 2 + n := by field_simp; ring
  rw [e] at h1 h2
  obtain ⟨a, b⟩ := near_of_round (x := (m - p) / r - 1 / 2 + n) rfl
  have h1' : (n : ℚ) ≤ ((roundToInt ((m - p) / r - 1 / 2 + n) : Int) : ℚ) := by exact_mod_cast h1
  have h2' : ((roundToInt ((m - p) / r - 1 / 2 + n) : Int) : ℚ) + 1 ≤ n + k := by exact_mod_cast (by omega)
  rcases hp with hp | hp
  · have : (k : ℚ) < (m - p) / r := by rw [lt_div_iff₀ hr]; linarith
    linarith
  · have : (m - p) / r < 0 := div_neg_of_neg_of_pos (by linarith) hr
    linarith

/-- **C15**: growing a grid without pending updates to contain a point terminates (the loop count `m` is some
bound and any larger bound gives the same result), the result contains the point and is well-formed, and for some
offset: cells keep their world position, cells of the old map keep their value, all other cells of the new map
are unknown.  In terms of points: every point inside the old map has the same cost as before, every point beyond
the border of the old map is unknown. -/
theorem grow_preserves {g : Grid} (w : Wf g) (hu : g.updates = []) (px py : ℚ) :
    ∃ (m : Nat) (g' : Grid) (ox oy : Nat), (∀ n, m ≤ n → g.growLimits n px py = some g') ∧ Wf g' ∧ g'.updates = [] ∧
      g'.limits.contains (g'.limits.getCellIndex px py) = true ∧ g'.limits.resolution = g.limits.resolution ∧
      (∀ i, g'.limits.getCellCenter (addIdx i (ox, oy)) = g.limits.getCellCenter i) ∧
      (∀ i, g.limits.contains i = true →
        g'.limits.contains (addIdx i (ox, oy)) = true ∧ val g' (addIdx i (ox, oy)) = val g i) ∧
      (∀ i, g.limits.contains i = false → val g' (addIdx i (ox, oy)) = 0 ∧ g'.isKnown (addIdx i (ox, oy)) = some false) ∧
      (∀ qx qy, g.limits.contains (g.limits.getCellIndex qx qy) = true →
        g'.getCorrespondenceCost (g'.limits.getCellIndex qx qy) = g.getCorrespondenceCost (g.limits.getCellIndex qx qy) ∧
        g'.isKnown (g'.limits.getCellIndex qx qy) = g.isKnown (g.limits.getCellIndex qx qy)) ∧
      (∀ qx qy, (qx < g.limits.maxX - g.limits.resolution * g.limits.numY ∨ g.limits.maxX < qx ∨
          qy < g.limits.maxY - g.limits.resolution * g.limits.numX ∨ g.limits.maxY < qy) →
        g'.isKnown (g'.limits.getCellIndex qx qy) = some false) := by
  obtain ⟨m, g', ox, oy, w', gr, hc, hn⟩ := growLoop_total w hu px py
  have hv : ∀ i, val g' (addIdx i (ox, oy)) = val g i := by
    intro i
    rw [gr.val]
    congr 1
    simp [addIdx]
  refine ⟨m, g', ox, oy, ?_, w', gr.updates.trans hu, hc, gr.res, gr.center, ?_, ?_, ?_, ?_⟩
  · intro n hmn
    rw [Grid.growLimits, if_neg (by simp [hu])]
    exact hn n hmn
  · intro i hi
    refine ⟨?_, hv i⟩
    have := gr.numX
    have := gr.numY
    rw [contains_def] at hi ⊢
    simp only [addIdx]
    omega
  · intro i hi
    have : val g' (addIdx i (ox, oy)) = 0 := by rw [hv, val_out]; simp [hi]
    refine ⟨this, ?_⟩
    rw [isKnown_eq w', this]
    rfl
  · intro qx qy hq
    have hin := (contains_iff w.res w.nx w.ny qx qy).1 hq
    have e : g'.limits.getCellIndex qx qy = addIdx (g.limits.getCellIndex qx qy) (ox, oy) := by
      simp only [MapLimits.getCellIndex, addIdx, gr.res, gr.maxX, gr.maxY]
      rw [axis_shift w.res ox hin.2.2, axis_shift w.res oy hin.1.2]
    rw [e, getCost_eq w', getCost_eq w, isKnown_eq w', isKnown_eq w, hv, gr.minCost, gr.maxCost]
    exact ⟨rfl, rfl⟩
  · intro qx qy hq
    rw [isKnown_eq w', gr.val, val_out]
    · rfl
    · rw [contains_def]
      simp only [MapLimits.getCellIndex, addIdx, gr.res, gr.maxX, gr.maxY]
      have ax := axis_outside (p := qx) (m := g.limits.maxX) w.res oy g.limits.numY
      have ay := axis_outside (p := qy) (m := g.limits.maxY) w.res ox g.limits.numX
      rcases hq with hq | hq | hq | hq
      · have := ax (Or.inl hq); omega
      · have := ax (Or.inr hq); omega
      · have := ay (Or.inl hq); omega
      · have := ay (Or.inr hq); omega

/-- Growing during an update aborts. -/
theorem grow_pending_aborts {g : Grid} (hu : g.updates ≠ []) (n : Nat) (px py : ℚ) : g.growLimits n px py = none := by
  simp [Grid.growLimits, hu]

/-- Non-vacuity: a 1 x 2 grid with a known cell that grows twice. -/
example : let g : Grid := ⟨⟨1, 0, 0, 1, 2⟩, [7, 9], 1 / 10, 9 / 10, [], some ⟨0, 0, 0, 1⟩⟩
    (g.growLimits 10 1 (-1 / 2)).map (fun g' => (g'.limits, g'.cells, g'.box)) =
      some (⟨1, 3, 1, 4, 8⟩, [0, 0, 0, 0, 0, 0, 0, 0, 0, 0, 0, 0, 0, 7, 0, 0, 0, 9, 0, 0, 0, 0, 0, 0, 0, 0, 0, 0, 0, 0, 0, 0],
        some ⟨1, 3, 1, 4⟩) := by
  decide +kernel

end Verif.Grid2D
