import Verif.RangeDataInserter2D
import Verif.Props.RayMask
import Verif.Props.Grid2DUpdate
import Verif.Props.Grid2DGrow

/-!
# Inserting a scan applies hits over misses, once per cell (C21, 2D)
-/

namespace Verif.Insert2D

open Verif.Prob Verif.Grid2D Verif.Ray

/-! ## Growing -/

theorem Grown.contains {g g' : Grid} {ox oy : Nat} (h : Grown g g' ox oy) (w : Wf g) (w' : Wf g') {px py : ℚ}
    (hc : g.limits.contains (g.limits.getCellIndex px py) = true) :
    g'.limits.contains (g'.limits.getCellIndex px py) = true := by
  rw [contains_iff w.res w.nx w.ny] at hc
  rw [contains_iff w'.res w'.nx w'.ny, h.res, h.maxX, h.maxY]
  obtain ⟨⟨a1, a2⟩, a3, a4⟩ := hc
  have hr := w.res
  have n1 : ((oy : ℚ) + g.limits.numY) ≤ g'.limits.numY := by exact_mod_cast h.numY
  have n2 : ((ox : ℚ) + g.limits.numX) ≤ g'.limits.numX := by exact_mod_cast h.numX
  have m1 := mul_le_mul_of_nonneg_left n1 hr.le
  have m2 := mul_le_mul_of_nonneg_left n2 hr.le
  have p1 : 0 ≤ g.limits.resolution * (oy : ℚ) := by positivity
  have p2 : 0 ≤ g.limits.resolution * (ox : ℚ) := by positivity
  refine ⟨⟨?_, ?_⟩, ?_, ?_⟩ <;> linarith

theorem growLimits_total {g : Grid} (w : Wf g) (hu : g.updates = []) (px py : ℚ) :
    ∃ m g' ox oy, Wf g' ∧ Grown g g' ox oy ∧ g'.limits.contains (g'.limits.getCellIndex px py) = true ∧
      ∀ n, m ≤ n → g.growLimits n px py = some g' := by
  obtain ⟨m, g', ox, oy, h1, h2, h3, h4⟩ := growLoop_total w hu px py
  exact ⟨m, g', ox, oy, h1, h2, h3, fun n hn => by simp [Grid.growLimits, hu, h4 n hn]⟩

theorem foldl_min (ps : List Pt) : ∀ a : Pt, (ps.foldl minPt a).1 ≤ a.1 ∧ (ps.foldl minPt a).2 ≤ a.2 ∧
    ∀ p ∈ ps, (ps.foldl minPt a).1 ≤ p.1 ∧ (ps.foldl minPt a).2 ≤ p.2 := by
  induction ps with
  | nil => intro a; simp
  | cons q ps ih =>
    intro a
    obtain ⟨h1, h2, h3⟩ := ih (minPt a q)
    simp only [List.foldl_cons, List.mem_cons, forall_eq_or_imp]
    exact ⟨h1.trans (min_le_left _ _), h2.trans (min_le_left _ _), ⟨h1.trans (min_le_right _ _), h2.trans (min_le_right _ _)⟩, h3⟩

theorem foldl_max (ps : List Pt) : ∀ a : Pt, a.1 ≤ (ps.foldl maxPt a).1 ∧ a.2 ≤ (ps.foldl maxPt a).2 ∧
    ∀ p ∈ ps, p.1 ≤ (ps.foldl maxPt a).1 ∧ p.2 ≤ (ps.foldl maxPt a).2 := by
  induction ps with
  | nil => intro a; simp
  | cons q ps ih =>
    intro a
    obtain ⟨h1, h2, h3⟩ := ih (maxPt a q)
    simp only [List.foldl_cons, List.mem_cons, forall_eq_or_imp]
    exact ⟨(le_max_left _ _).trans h1, (le_max_left _ _).trans h2, ⟨(le_max_right _ _).trans h1, (le_max_right _ _).trans h2⟩, h3⟩

/-- All points of a scan. -/
def Scan.points (s : Scan) : List Pt := s.origin :: (s.returns ++ s.misses)

/-- A point lies in a cell of the grid. -/
def Inside (l : MapLimits) (p : Pt) : Prop := l.contains (l.getCellIndex p.1 p.2) = true

theorem grow_spec (s : Scan) {g : Grid} (w : Wf g) (hu : g.updates = []) :
    ∃ m G ox oy, (∀ n, m ≤ n → growAsNeeded n s g = some G) ∧ Wf G ∧ Grown g G ox oy ∧ ∀ p ∈ s.points, Inside G.limits p := by
  unfold growAsNeeded
  generalize hlo : s.misses.foldl minPt (s.returns.foldl minPt s.origin) = lo
  generalize hhi : s.misses.foldl maxPt (s.returns.foldl maxPt s.origin) = hi
  have hbox : ∀ p ∈ s.points, lo.1 ≤ p.1 ∧ lo.2 ≤ p.2 ∧ p.1 ≤ hi.1 ∧ p.2 ≤ hi.2 := by
    obtain ⟨a1, a2, a3⟩ := foldl_min s.returns s.origin
    obtain ⟨b1, b2, b3⟩ := foldl_min s.misses (s.returns.foldl minPt s.origin)
    obtain ⟨c1, c2, c3⟩ := foldl_max s.returns s.origin
    obtain ⟨d1, d2, d3⟩ := foldl_max s.misses (s.returns.foldl maxPt s.origin)
    rw [hlo] at b1 b2 b3
    rw [hhi] at d1 d2 d3
    intro p hp
    simp only [Scan.points, List.mem_cons, List.mem_append] at hp
    rcases hp with rfl | hp | hp
    · exact ⟨b1.trans a1, b2.trans a2, c1.trans d1, c2.trans d2⟩
    · exact ⟨b1.trans (a3 p hp).1, b2.trans (a3 p hp).2, (c3 p hp).1.trans d1, (c3 p hp).2.trans d2⟩
    · exact ⟨(b3 p hp).1, (b3 p hp).2, (d3 p hp).1, (d3 p hp).2⟩
  obtain ⟨m1, g1, ox1, oy1, w1, gr1, c1, e1⟩ := growLimits_total w hu (lo.1 - padding) (lo.2 - padding)
  have hu1 : g1.updates = [] := gr1.updates.trans hu
  obtain ⟨m2, g2, ox2, oy2, w2, gr2, c2, e2⟩ := growLimits_total w1 hu1 (hi.1 + padding) (hi.2 + padding)
  refine ⟨max m1 m2, g2, _, _, ?_, w2, gr1.trans gr2, ?_⟩
  · intro n hn
    simp [e1 n (le_trans (le_max_left _ _) hn), e2 n (le_trans (le_max_right _ _) hn)]
  · intro p hp
    have c1' := Grown.contains gr2 w1 w2 c1
    have hpad : 0 < padding := by norm_num [padding]
    unfold Inside
    rw [contains_iff w2.res w2.nx w2.ny] at c1' c2 ⊢
    obtain ⟨q1, q2, q3, q4⟩ := hbox p hp
    obtain ⟨⟨a1, a2⟩, a3, a4⟩ := c1'
    obtain ⟨⟨b1, b2⟩, b3, b4⟩ := c2
    refine ⟨⟨?_, ?_⟩, ?_, ?_⟩ <;> linarith

/-! ## Sub-cells -/

/-- The index of the sub-cell of a point: cells are divided in `1000 * 1000` sub-cells. -/
def subCell (l : MapLimits) (p : Pt) : Px :=
  (⌊1000 * ((l.maxY - p.2) / l.resolution)⌋, ⌊1000 * ((l.maxX - p.1) / l.resolution)⌋)

theorem round_floor {y : ℚ} (h : 0 < y) : roundToInt (y - 1 / 2) = ⌊y⌋ := by
  unfold roundToInt
  split
  · congr 1; ring
  · rw [Int.floor_eq_zero_iff.2 ⟨h.le, by linarith⟩, Int.ceil_eq_iff]
    push_cast
    constructor <;> linarith

theorem floor_scale {x : ℚ} : ⌊1000 * x⌋ / 1000 = ⌊x⌋ := by
  have := Int.floor_div_natCast (1000 * x) 1000
  rw [show 1000 * x / ((1000 : Nat) : ℚ) = x by push_cast; ring] at this
  rw [this]
  norm_num

theorem cell_of_inside {l : MapLimits} {p : Pt} (hr : 0 < l.resolution) (h : p.1 < l.maxX ∧ p.2 < l.maxY) :
    l.getCellIndex p.1 p.2 = ((subCell l p).1 / 1000, (subCell l p).2 / 1000) := by
  simp only [MapLimits.getCellIndex, subCell, floor_scale]
  rw [round_floor (div_pos (by linarith) hr), round_floor (div_pos (by linarith) hr)]

/-- The limits used for the ray casting. -/
def superLimits (l : MapLimits) : MapLimits := ⟨l.resolution / scale, l.maxX, l.maxY, l.numX * scale, l.numY * scale⟩

theorem super_index {l : MapLimits} {p : Pt} (hr : 0 < l.resolution) (h : p.1 < l.maxX ∧ p.2 < l.maxY) :
    (superLimits l).getCellIndex p.1 p.2 = subCell l p := by
  have e : ∀ d : ℚ, d / (l.resolution / ((scale : Nat) : ℚ)) = 1000 * (d / l.resolution) := by
    intro d
    simp only [scale]
    push_cast
    field_simp
  simp only [MapLimits.getCellIndex, superLimits, subCell, e]
  rw [round_floor, round_floor]
  · have := div_pos (show 0 < l.maxX - p.1 by linarith) hr; linarith
  · have := div_pos (show 0 < l.maxY - p.2 by linarith) hr; linarith

theorem subCell_bounds {l : MapLimits} {p : Pt} (hr : 0 < l.resolution) (h : p.1 < l.maxX ∧ p.2 < l.maxY)
    (h' : Inside l p) : 0 ≤ (subCell l p).1 ∧ 0 ≤ (subCell l p).2 ∧ (subCell l p).1 < 1000 * l.numX ∧ (subCell l p).2 < 1000 * l.numY := by
  unfold Inside at h'
  rw [cell_of_inside hr h, contains_def] at h'
  simp only at h'
  omega

theorem meets_inside {s : Int} (hs : 0 < s) {b e p : Px} {n1 n2 : Nat} (hb : 0 ≤ b.1 ∧ 0 ≤ b.2 ∧ b.1 < s * n1 ∧ b.2 < s * n2)
    (he : 0 ≤ e.1 ∧ 0 ≤ e.2 ∧ e.1 < s * n1 ∧ e.2 < s * n2) (h : Meets s b e p) : 0 ≤ p.1 ∧ 0 ≤ p.2 ∧ p.1 < n1 ∧ p.2 < n2 := by
  obtain ⟨t, t0, t1, a1, a2, a3, a4⟩ := h
  have hsQ : (0 : ℚ) < s := by exact_mod_cast hs
  have key : ∀ (u v w : Int) (n : Nat), 0 ≤ u → 0 ≤ v → u < s * n → v < s * n →
      (s * w : ℚ) < u + 1 / 2 + t * (v - u) → (u + 1 / 2 + t * (v - u) : ℚ) < s * (w + 1) → 0 ≤ w ∧ w < n := by
    intro u v w n hu hv hu' hv' k1 k2
    have e0 : (u + 1 / 2 + t * (v - u) : ℚ) = (1 - t) * u + t * v + 1 / 2 := by ring
    rw [e0] at k1 k2
    have q1 : (0 : ℚ) ≤ (1 - t) * u := mul_nonneg (by linarith) (by exact_mod_cast hu)
    have q2 : (0 : ℚ) ≤ t * v := mul_nonneg t0 (by exact_mod_cast hv)
    have r1 : (1 - t) * (u : ℚ) ≤ (1 - t) * (s * n - 1) :=
      mul_le_mul_of_nonneg_left (by have : u ≤ s * n - 1 := by omega
                                    exact_mod_cast this) (by linarith)
    have r2 : t * (v : ℚ) ≤ t * (s * n - 1) :=
      mul_le_mul_of_nonneg_left (by have : v ≤ s * n - 1 := by omega
                                    exact_mod_cast this) t0
    constructor
    · have : (0 : ℚ) < s * (w + 1) := by linarith
      have : (0 : ℚ) < w + 1 := (mul_pos_iff_of_pos_left hsQ).1 this
      have : 0 < w + 1 := by exact_mod_cast this
      omega
    · have : (s * w : ℚ) < s * n := by linarith
      have := lt_of_mul_lt_mul_left this hsQ.le
      exact_mod_cast this
  have x := key b.1 e.1 p.1 n1 hb.1 he.1 hb.2.2.1 he.2.2.1 (by linarith) (by linarith)
  have y := key b.2 e.2 p.2 n2 hb.2.1 he.2.1 hb.2.2.2 he.2.2.2 (by linarith) (by linarith)
  exact ⟨x.1, y.1, x.2, y.2⟩

/-! ## Applying tables -/

/-- `g'` is `g` after the table was applied to the cells of `P`, unless an earlier update was pending. -/
structure Applied (g g' : Grid) (P : Px → Prop) (t : List Nat) : Prop where
  wf : Wf g'
  limits : g'.limits = g.limits
  other : ∀ i, ¬ P i ∨ updateMarker ≤ Grid2D.val g i → Grid2D.val g' i = Grid2D.val g i
  hit : ∀ i, P i → Grid2D.val g i < updateMarker → t[Grid2D.val g i]? = some (Grid2D.val g' i) ∧ updateMarker < Grid2D.val g' i

theorem Applied.refl {g : Grid} (w : Wf g) (t : List Nat) : Applied g g (fun _ => False) t :=
  ⟨w, rfl, fun _ _ => rfl, fun _ h => h.elim⟩

theorem Applied.trans {g g' g'' : Grid} {P Q : Px → Prop} {t : List Nat} (h : Applied g g' P t) (h' : Applied g' g'' Q t) :
    Applied g g'' (fun i => P i ∨ Q i) t := by
  refine ⟨h'.wf, h'.limits.trans h.limits, ?_, ?_⟩
  · rintro i (hi | hi)
    · rw [not_or] at hi
      rw [h'.other i (Or.inl hi.2), h.other i (Or.inl hi.1)]
    · have := h.other i (Or.inr hi)
      rw [h'.other i (Or.inr (by rw [this]; exact hi)), this]
  · intro i hi hm
    by_cases hp : P i
    · obtain ⟨h1, h2⟩ := h.hit i hp hm
      rw [h'.other i (Or.inr h2.le)]
      exact ⟨h1, h2⟩
    · have e := h.other i (Or.inl hp)
      have := h'.hit i (hi.resolve_left hp) (by rw [e]; exact hm)
      rwa [e] at this

theorem applyAll_spec {t : List Nat} (ht : TableOk t) (cells : List Px) : ∀ {g : Grid}, Wf g →
    (∀ i ∈ cells, g.limits.contains i = true) → ∃ g', applyAll cells t g = some g' ∧ Applied g g' (· ∈ cells) t := by
  induction cells with
  | nil => intro g w _; exact ⟨g, rfl, by simpa using Applied.refl w t⟩
  | cons i cells ih =>
    intro g w h
    obtain ⟨b, g1, e1, w1, l1, hb, hf, htr⟩ := apply_spec w (h i (by simp)) ht
    have A1 : Applied g g1 (· = i) t := by
      cases b with
      | false =>
        obtain rfl := hf rfl
        have hm : ¬ Grid2D.val g1 i < updateMarker := by simpa using hb
        exact ⟨w, rfl, fun _ _ => rfl, fun j hj hlt => by subst hj; exact absurd hlt hm⟩
      | true =>
        obtain ⟨e, he, hem, hv⟩ := htr rfl
        have hm := hb.1 rfl
        refine ⟨w1, l1, ?_, ?_⟩
        · rintro j (hj | hj)
          · rw [hv, if_neg hj]
          · rw [hv, if_neg]
            rintro rfl
            omega
        · rintro j rfl _
          rw [hv, if_pos rfl]
          exact ⟨he, (ht.2 e hem).1⟩
    obtain ⟨g2, e2, A2⟩ := ih w1 (fun j hj => by rw [l1]; exact h j (by simp [hj]))
    refine ⟨g2, ?_, ?_⟩
    · simp only [applyAll, List.foldlM_cons, e1, Option.bind_eq_bind, Option.bind_some]
      exact e2
    · have := A1.trans A2
      simpa [List.mem_cons] using this

/-- A fold of updates. -/
theorem fold_spec {α : Type} {t : List Nat} (f : Nat → Grid → α → Option Grid) (P : α → Px → Prop) (l : MapLimits)
    (as : List α) (hf : ∀ a ∈ as, ∃ m, ∀ g, Wf g → g.limits = l → ∃ g', (∀ n, m ≤ n → f n g a = some g') ∧ Applied g g' (P a) t) :
    ∀ g, Wf g → g.limits = l → ∃ m g', (∀ n, m ≤ n → as.foldlM (f n) g = some g') ∧ Applied g g' (fun i => ∃ a ∈ as, P a i) t := by
  induction as with
  | nil => intro g w _; exact ⟨0, g, fun _ _ => rfl, by simpa using Applied.refl w t⟩
  | cons a as ih =>
    intro g w hl
    obtain ⟨m1, h1⟩ := hf a (by simp)
    obtain ⟨g1, e1, A1⟩ := h1 g w hl
    obtain ⟨m2, g2, e2, A2⟩ := ih (fun b hb => hf b (by simp [hb])) g1 A1.wf (A1.limits.trans hl)
    refine ⟨max m1 m2, g2, ?_, by simpa using A1.trans A2⟩
    intro n hn
    simp [List.foldlM_cons, e1 n (le_trans (le_max_left _ _) hn), e2 n (le_trans (le_max_right _ _) hn)]

/-! ## The theorem -/

/-- Cell `i` contains a return. -/
def IsHit (l : MapLimits) (s : Scan) (i : Px) : Prop := ∃ p ∈ s.returns, l.getCellIndex p.1 p.2 = i

/-- Cell `i` is crossed by a ray of the scan. -/
def IsFree (l : MapLimits) (s : Scan) (i : Px) : Prop :=
  ∃ p ∈ s.returns ++ s.misses, Meets 1000 (subCell l s.origin) (subCell l p) i

/-- What inserting a scan does to the value `v` of a cell. -/
def NewValue (hit miss : List Nat) (isHit isFree : Prop) (v v' : Nat) : Prop :=
  (isHit → hit[v]? = some (v' + updateMarker)) ∧ (¬ isHit → isFree → miss[v]? = some (v' + updateMarker)) ∧
    (¬ isHit → ¬ isFree → v' = v)

theorem castRay_spec {t : List Nat} (ht : TableOk t) (l : MapLimits) (b e : Px)
    (hb : 0 ≤ b.1 ∧ 0 ≤ b.2 ∧ b.1 < 1000 * l.numX ∧ b.2 < 1000 * l.numY)
    (he : 0 ≤ e.1 ∧ 0 ≤ e.2 ∧ e.1 < 1000 * l.numX ∧ e.2 < 1000 * l.numY) :
    ∃ m, ∀ g, Wf g → g.limits = l → ∃ g', (∀ n, m ≤ n → castRay n b t g e = some g') ∧ Applied g g' (Meets 1000 b e) t := by
  obtain ⟨m, mask, hm, ok⟩ := ray_mask_exact 1000 (by norm_num) b e ⟨hb.1, hb.2.1⟩ ⟨he.1, he.2.1⟩
  refine ⟨m, ?_⟩
  intro g w hl
  obtain ⟨g', e1, A⟩ := applyAll_spec ht mask w (by
    intro i hi
    rw [hl, contains_def]
    exact meets_inside (by norm_num) hb he ((ok.mem i).1 hi))
  refine ⟨g', ?_, ?_⟩
  · intro n hn
    have : rayToPixelMask n b e ((scale : Nat) : Int) = some mask := hm n hn
    simp [castRay, this, e1]
  · have : (fun i => i ∈ mask) = Meets 1000 b e := funext fun i => propext (ok.mem i)
    rwa [this] at A

/-- The effect relative to the grown grid. -/
theorem castRays_spec (s : Scan) {hit miss : List Nat} (hh : TableOk hit) (hmi : TableOk miss) (free : Bool)
    {g G : Grid} (hg : ∃ m, ∀ n, m ≤ n → growAsNeeded n s g = some G) (w : Wf G) (hu : G.updates = [])
    (hin : ∀ p ∈ s.points, Inside G.limits p) :
    ∃ m g', (∀ n, m ≤ n → insert n s hit miss free g = some g') ∧ Wf g' ∧ g'.updates = [] ∧ g'.limits = G.limits ∧
      ∀ i, NewValue hit miss (IsHit G.limits s i) (free = true ∧ IsFree G.limits s i) (Grid2D.val G i) (Grid2D.val g' i) := by
  obtain ⟨m0, hg⟩ := hg
  have hr := w.res
  have hlt : ∀ p ∈ s.points, p.1 < G.limits.maxX ∧ p.2 < G.limits.maxY := by
    intro p hp
    have := (contains_iff w.res w.nx w.ny p.1 p.2).1 (hin p hp)
    exact ⟨this.1.2, this.2.2⟩
  have hsup : mkLimits (G.limits.resolution / scale) G.limits.maxX G.limits.maxY (G.limits.numX * scale) (G.limits.numY * scale) =
      some (superLimits G.limits) := by
    unfold mkLimits superLimits
    rw [if_pos]
    have := w.nx
    have := w.ny
    refine ⟨div_pos hr (by norm_num [scale]), ?_, ?_⟩ <;> simp only [scale] <;> omega
  have hsub : ∀ p ∈ s.points, (superLimits G.limits).getCellIndex p.1 p.2 = subCell G.limits p :=
    fun p hp => super_index hr (hlt p hp)
  have hbd : ∀ p ∈ s.points, _ := fun p hp => subCell_bounds hr (hlt p hp) (hin p hp)
  have mo : s.origin ∈ s.points := by simp [Scan.points]
  have mr : ∀ p ∈ s.returns, p ∈ s.points := fun p hp => by simp [Scan.points, hp]
  have mm : ∀ p ∈ s.misses, p ∈ s.points := fun p hp => by simp [Scan.points, hp]
  -- the hits
  have hends : (s.returns.map fun p => (superLimits G.limits).getCellIndex p.1 p.2) = s.returns.map (subCell G.limits) :=
    List.map_congr_left fun p hp => hsub p (mr p hp)
  have hcells : ((s.returns.map (subCell G.limits)).map fun e : Px => (e.1.tdiv ((scale : Nat) : Int), e.2.tdiv ((scale : Nat) : Int))) =
      s.returns.map fun p => G.limits.getCellIndex p.1 p.2 := by
    rw [List.map_map]
    apply List.map_congr_left
    intro p hp
    obtain ⟨b1, b2, -⟩ := hbd p (mr p hp)
    rw [cell_of_inside hr (hlt p (mr p hp)), Function.comp, Int.tdiv_eq_ediv_of_nonneg b1, Int.tdiv_eq_ediv_of_nonneg b2]
    rfl
  obtain ⟨g1, e1, A1⟩ := applyAll_spec hh (s.returns.map fun p => G.limits.getCellIndex p.1 p.2) w (by
    intro i hi
    obtain ⟨p, hp, rfl⟩ := List.mem_map.1 hi
    exact hin p (mr p hp))
  have hmem : ∀ i, i ∈ (s.returns.map fun p => G.limits.getCellIndex p.1 p.2) ↔ IsHit G.limits s i := by
    intro i; rw [List.mem_map]; rfl
  -- the misses
  obtain ⟨m2, g2, e2, A2⟩ := fold_spec (t := miss) (fun n => castRay n (subCell G.limits s.origin) miss)
    (fun e => Meets 1000 (subCell G.limits s.origin) e) G.limits (s.returns.map (subCell G.limits)) (by
      intro e he
      obtain ⟨p, hp, rfl⟩ := List.mem_map.1 he
      exact castRay_spec hmi _ _ _ (hbd _ mo) (hbd p (mr p hp))) g1 A1.wf A1.limits
  obtain ⟨m3, g3, e3, A3⟩ := fold_spec (t := miss)
    (fun n g (p : Pt) => castRay n (subCell G.limits s.origin) miss g ((superLimits G.limits).getCellIndex p.1 p.2))
    (fun p => Meets 1000 (subCell G.limits s.origin) (subCell G.limits p)) G.limits s.misses (by
      intro p hp
      rw [hsub p (mm p hp)]
      exact castRay_spec hmi _ _ _ (hbd _ mo) (hbd p (mm p hp))) g2 A2.wf (A2.limits.trans A1.limits)
  have hlow : ∀ i, Grid2D.val G i < updateMarker := fun i => w.lt_marker hu i
  -- the values before and after finishing
  have fin : ∀ (gf : Grid) (Q : Px → Prop), Applied g1 gf Q miss → ∃ g', gf.finishUpdate = some g' ∧ Wf g' ∧ g'.updates = [] ∧
      g'.limits = G.limits ∧ ∀ i, NewValue hit miss (IsHit G.limits s i) (Q i) (Grid2D.val G i) (Grid2D.val g' i) := by
    intro gf Q A
    obtain ⟨g', e, w', l', u', -, -, v'⟩ := finishUpdate_spec A.wf
    refine ⟨g', e, w', u', l'.trans (A.limits.trans A1.limits), ?_⟩
    intro i
    have step : ∀ x, updateMarker < x → (if updateMarker ≤ x then x - updateMarker else x) + updateMarker = x := by
      intro x hx; rw [if_pos hx.le]; omega
    refine ⟨?_, ?_, ?_⟩
    · intro hi
      obtain ⟨h1, h2⟩ := A1.hit i ((hmem i).2 hi) (hlow i)
      rw [v', A.other i (Or.inr h2.le), step _ h2]
      exact h1
    · intro hi hq
      have e0 := A1.other i (Or.inl fun h => hi ((hmem i).1 h))
      obtain ⟨h1, h2⟩ := A.hit i hq (by rw [e0]; exact hlow i)
      rw [v', step _ h2, ← e0]
      exact h1
    · intro hi hq
      have e0 := A1.other i (Or.inl fun h => hi ((hmem i).1 h))
      rw [v', A.other i (Or.inl hq), e0, if_neg (by have := hlow i; omega)]
  cases free with
  | false =>
    obtain ⟨g', e, w', u', l', v'⟩ := fin g1 (fun _ => False) (Applied.refl A1.wf miss)
    refine ⟨m0, g', ?_, w', u', l', fun i => by simpa using v' i⟩
    intro n hn
    simp only [insert, castRays, hg n hn, hsup, hends, hcells, e1, Option.bind_eq_bind, Option.bind_some]
    exact e
  | true =>
    obtain ⟨g', e, w', u', l', v'⟩ := fin g3 _ (A2.trans A3)
    refine ⟨max m0 (max m2 m3), g', ?_, w', u', l', fun i => ?_⟩
    · intro n hn
      have n0 := le_trans (le_max_left _ _) hn
      have n2 := le_trans (le_trans (le_max_left _ _) (le_max_right _ _)) hn
      have n3 := le_trans (le_trans (le_max_right _ _) (le_max_right _ _)) hn
      simp only [insert, castRays, hg n n0, hsup, hends, hcells, e1, Option.bind_eq_bind, Option.bind_some, if_true,
        hsub _ mo, e2 n n2, e3 n n3]
      exact e
    · have h1 : (true = true ∧ IsFree G.limits s i) ↔
          ((∃ a ∈ s.returns.map (subCell G.limits), Meets 1000 (subCell G.limits s.origin) a i) ∨
            ∃ a ∈ s.misses, Meets 1000 (subCell G.limits s.origin) (subCell G.limits a) i) := by
        simp only [IsFree, List.mem_append, or_and_right, exists_or, true_and, List.mem_map, exists_exists_and_eq_and]
      rw [h1]
      exact v' i

/-- C21 (2D): for every scan and every grid without pending updates, inserting the scan succeeds.  The grid is grown by some
offset so that it contains all points.  In the grown grid every cell containing a return has got exactly one hit update,
every other cell crossed by a ray exactly one miss update if free space is inserted, and all other cells, in particular
those that did not exist before, have their old value (0, unknown, for new cells). -/
theorem insert_hits_over_misses (s : Scan) {hit miss : List Nat} (hh : TableOk hit) (hmi : TableOk miss) (free : Bool)
    {g : Grid} (w : Wf g) (hu : g.updates = []) :
    ∃ m g' ox oy, (∀ n, m ≤ n → insert n s hit miss free g = some g') ∧ Wf g' ∧ g'.updates = [] ∧
      (∀ i, g'.limits.getCellCenter (addIdx i ((ox : Nat), (oy : Nat))) = g.limits.getCellCenter i) ∧
      (∀ p ∈ s.points, Inside g'.limits p) ∧
      ∀ i, NewValue hit miss (IsHit g'.limits s i) (free = true ∧ IsFree g'.limits s i)
        (Grid2D.val g (addIdx i (-(ox : Int), -(oy : Int)))) (Grid2D.val g' i) := by
  obtain ⟨m0, G, ox, oy, hg, wG, gr, hin⟩ := grow_spec s w hu
  obtain ⟨m, g', e, w', u', l', v'⟩ := castRays_spec s hh hmi free ⟨m0, hg⟩ wG (gr.updates.trans hu) hin
  refine ⟨m, g', ox, oy, e, w', u', ?_, ?_, ?_⟩
  · intro i; rw [l']; exact gr.center i
  · intro p hp; rw [l']; exact hin p hp
  · intro i
    have := v' i
    rw [gr.val, ← l'] at this
    exact this

/-- The values determine the cells. -/
theorem cells_ext {g g' : Grid} (w : Wf g) (w' : Wf g') (hl : g.limits = g'.limits) (h : ∀ i, Grid2D.val g i = Grid2D.val g' i) :
    g.cells = g'.cells := by
  apply List.ext_getElem?
  intro k
  by_cases hk : k < g.limits.numX * g.limits.numY
  · obtain ⟨i, hi, rfl⟩ := flat_surj hk
    rw [w.get hi, h i, hl]
    rw [hl] at hi
    rw [w'.get hi]
  · rw [List.getElem?_eq_none, List.getElem?_eq_none]
    · rw [w'.len, ← hl]; omega
    · rw [w.len]; omega

theorem NewValue.unique {hit miss : List Nat} {p q : Prop} {v a b : Nat} (ha : NewValue hit miss p q v a) (hb : NewValue hit miss p q v b) :
    a = b := by
  by_cases hp : p
  · have := (ha.1 hp).symm.trans (hb.1 hp)
    simpa using this
  · by_cases hq : q
    · have := (ha.2.1 hp hq).symm.trans (hb.2.1 hp hq)
      simpa using this
    · rw [ha.2.2 hp hq, hb.2.2 hp hq]

/-- C21 (2D): the order of the points in the scan does not matter. -/
theorem insert_order_irrelevant (s s' : Scan) (ho : s'.origin = s.origin) (hr : s'.returns.Perm s.returns)
    (hm : s'.misses.Perm s.misses) {hit miss : List Nat} (hh : TableOk hit) (hmi : TableOk miss) (free : Bool)
    {g : Grid} (w : Wf g) (hu : g.updates = []) :
    ∃ m g1 g2, (∀ n, m ≤ n → insert n s hit miss free g = some g1 ∧ insert n s' hit miss free g = some g2) ∧
      g1.limits = g2.limits ∧ g1.cells = g2.cells := by
  have cmin : RightCommutative minPt := ⟨fun a b c => by simp [minPt, min_right_comm]⟩
  have cmax : RightCommutative maxPt := ⟨fun a b c => by simp [maxPt, max_right_comm]⟩
  have hgrow : ∀ n, growAsNeeded n s' g = growAsNeeded n s g := by
    intro n
    unfold growAsNeeded
    rw [ho, hr.foldl_eq, hm.foldl_eq, hr.foldl_eq (f := maxPt), hm.foldl_eq (f := maxPt)]
  obtain ⟨m0, G, ox, oy, hg, wG, gr, hin⟩ := grow_spec s w hu
  have hin' : ∀ p ∈ s'.points, Inside G.limits p := by
    intro p hp
    apply hin
    simp only [Scan.points, List.mem_cons, List.mem_append, ho, hr.mem_iff, hm.mem_iff] at hp ⊢
    exact hp
  obtain ⟨m1, g1, e1, w1, u1, l1, v1⟩ := castRays_spec s hh hmi free ⟨m0, hg⟩ wG (gr.updates.trans hu) hin
  obtain ⟨m2, g2, e2, w2, u2, l2, v2⟩ := castRays_spec s' hh hmi free ⟨m0, fun n hn => by rw [hgrow, hg n hn]⟩ wG (gr.updates.trans hu) hin'
  refine ⟨max m1 m2, g1, g2, fun n hn => ⟨e1 n (le_trans (le_max_left _ _) hn), e2 n (le_trans (le_max_right _ _) hn)⟩, l1.trans l2.symm, ?_⟩
  apply cells_ext w1 w2 (l1.trans l2.symm)
  intro i
  have h1 : IsHit G.limits s' i ↔ IsHit G.limits s i := by simp only [IsHit, hr.mem_iff]
  have h2 : IsFree G.limits s' i ↔ IsFree G.limits s i := by simp only [IsFree, ho, List.mem_append, hr.mem_iff, hm.mem_iff]
  have := v2 i
  rw [h1, h2] at this
  exact (v1 i).unique this

/-- Non-vacuity: a grid of 4 x 4 cells of 1 m and a scan with one return, three cells away from the origin. -/
example : let l : MapLimits := ⟨1, 2, 2, 4, 4⟩
    let s : Scan := ⟨(3 / 2, 3 / 2), [(-3 / 2, 3 / 2)], []⟩
    IsHit l s (0, 3) ∧ ¬ IsHit l s (0, 1) ∧ IsFree l s (0, 1) ∧ ¬ IsFree l s (1, 1) := by
  have b : subCell ⟨1, 2, 2, 4, 4⟩ (3 / 2, 3 / 2) = (500, 500) := by decide +kernel
  have e : subCell ⟨1, 2, 2, 4, 4⟩ (-3 / 2, 3 / 2) = (500, 3500) := by decide +kernel
  simp only [IsHit, IsFree, List.append_nil, List.mem_singleton, exists_eq_left, b, e]
  refine ⟨by decide +kernel, by decide +kernel, ⟨1 / 3, ?_⟩, ?_⟩
  · norm_num
  · rintro ⟨t, -, -, h, -⟩
    norm_num at h

example : ∃ g, create ⟨1, 2, 2, 4, 4⟩ Prob.minCost Prob.maxCost = some g ∧ Wf g ∧ g.updates = [] ∧ TableOk (costTable 2) := by
  have h : ∃ g, create ⟨1, 2, 2, 4, 4⟩ Prob.minCost Prob.maxCost = some g := by
    unfold create
    rw [if_pos (by norm_num [Prob.minCost, Prob.maxCost, minProbability, maxProbability])]
    exact ⟨_, rfl⟩
  obtain ⟨g, h⟩ := h
  obtain ⟨w, -, u, -⟩ := create_wf (by norm_num) (by norm_num) (by norm_num) h
  exact ⟨g, h, w, u, costTable_ok 2⟩

end Verif.Insert2D
