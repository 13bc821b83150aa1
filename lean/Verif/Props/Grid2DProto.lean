import Verif.Props.Grid2DGrow

/-!
# C17: saving, loading and cropping a 2D grid loses nothing
-/

namespace Verif.Grid2D

open Verif.Prob

/-! ### The index range iterator -/

/-- Row-major enumeration of the indices `(x0 + c, y0 + r)` with `c < w` and `r < h`. -/
def rowMajor (x0 y0 : Int) (w h : Nat) : List (Int × Int) :=
  (List.range h).flatMap fun r : Nat => (List.range w).map fun c : Nat => (x0 + (c : Int), y0 + (r : Int))

theorem xyVisit_row (mn mx : Int × Int) (w h : Nat) (hw : mx.1 - mn.1 + 1 = w) (hh : mx.2 - mn.2 + 1 = h) (r : Nat) (hr : r < h) (n : Nat) :
    ∀ j, 1 ≤ j → j ≤ w → xyVisit (n + j) ⟨mn, mx, (mn.1 + (w - j : Nat), mn.2 + r)⟩ =
      (xyVisit n ⟨mn, mx, (mn.1, mn.2 + (r + 1 : Nat))⟩).map
        (((List.range j).map fun c : Nat => (mn.1 + (w - j : Nat) + (c : Int), mn.2 + (r : Int))) ++ ·) := by
  intro j
  induction j with
  | zero => omega
  | succ j ih =>
    intro _ h2
    have hne : ¬ ((mn.1 + ((w - (j + 1) : Nat) : Int), mn.2 + (r : Int)) = (mn.1, mx.2 + 1)) := by
      simp only [Prod.mk.injEq]
      omega
    rw [← Nat.add_assoc, xyVisit]
    simp only [xyEnd, hne, if_false]
    rcases Nat.eq_zero_or_pos j with rfl | hj
    · have hnext : XYIter.next ⟨mn, mx, (mn.1 + ((w - (0 + 1) : Nat) : Int), mn.2 + (r : Int))⟩ =
          ⟨mn, mx, (mn.1, mn.2 + ((r + 1 : Nat) : Int))⟩ := by
        rw [XYIter.next]
        simp only
        rw [if_neg (by omega)]
        simp only [XYIter.mk.injEq, Prod.mk.injEq, true_and]
        omega
      rw [hnext]
      simp
    · have hnext : XYIter.next ⟨mn, mx, (mn.1 + ((w - (j + 1) : Nat) : Int), mn.2 + (r : Int))⟩ =
          ⟨mn, mx, (mn.1 + ((w - j : Nat) : Int), mn.2 + (r : Int))⟩ := by
        rw [XYIter.next]
        simp only
        rw [if_pos (by omega)]
        simp only [XYIter.mk.injEq, Prod.mk.injEq, true_and, and_true]
        omega
      rw [hnext, ih hj (by omega), Option.map_map]
      congr 1
      funext l
      simp only [Function.comp, List.range_succ_eq_map, List.map_cons, List.map_map, List.cons_append]
      congr 1
      · simp
      · congr 1
        apply List.map_congr_left
        intro c hc
        simp only [Function.comp, Prod.mk.injEq, and_true]
        omega

theorem xyVisit_rows (mn mx : Int × Int) (w h : Nat) (hw : mx.1 - mn.1 + 1 = w) (hh : mx.2 - mn.2 + 1 = h) (h1 : 1 ≤ w) :
    ∀ (m r n : Nat), r + m = h → m * w ≤ n → xyVisit n ⟨mn, mx, (mn.1, mn.2 + (r : Int))⟩ = some (rowMajor mn.1 (mn.2 + r) w m) := by
  intro m
  induction m with
  | zero =>
    intro r n hr _
    have : (mn.1, mn.2 + (r : Int)) = (mn.1, mx.2 + 1) := by
      simp only [Prod.mk.injEq, true_and]
      omega
    cases n <;> simp [xyVisit, xyEnd, this, rowMajor]
  | succ m ih =>
    intro r n hr hn
    have e : (m + 1) * w = m * w + w := by ring
    obtain ⟨n, rfl⟩ : ∃ k, n = k + w := ⟨n - w, by omega⟩
    have := xyVisit_row mn mx w h hw hh r (by omega) n w h1 le_rfl
    simp only [Nat.sub_self, Nat.cast_zero, add_zero] at this
    rw [this, ih (r + 1) n (by omega) (by omega)]
    simp only [Option.map_some, rowMajor, List.range_succ_eq_map, List.flatMap_cons, List.flatMap_map]
    congr 1
    congr 1
    · apply List.map_congr_left
      intro c _
      simp
    · congr 1
      funext r'
      apply List.map_congr_left
      intro c _
      simp only [Prod.mk.injEq, true_and]
      push_cast
      ring

/-- The loop over a non-empty index range visits exactly the indices of the range, each once, in row-major order. -/
theorem xyVisit_spec (mn mx : Int × Int) (hx : mn.1 ≤ mx.1) (hy : mn.2 ≤ mx.2) (n : Nat)
    (hn : (mx.2 - mn.2 + 1).toNat * (mx.1 - mn.1 + 1).toNat ≤ n) :
    ∃ is, xyVisit n (xyBegin mn mx) = some is ∧ is.Nodup ∧
      (∀ i, i ∈ is ↔ mn.1 ≤ i.1 ∧ i.1 ≤ mx.1 ∧ mn.2 ≤ i.2 ∧ i.2 ≤ mx.2) ∧
      is.Pairwise (fun i j => i.2 < j.2 ∨ (i.2 = j.2 ∧ i.1 < j.1)) := by
  have := xyVisit_rows mn mx (mx.1 - mn.1 + 1).toNat (mx.2 - mn.2 + 1).toNat (by omega) (by omega) (by omega) _ 0 n (by rw [Nat.zero_add]) hn
  simp only [Nat.cast_zero, add_zero] at this
  refine ⟨_, this, ?_, ?_, ?_⟩
  · rw [rowMajor, List.nodup_flatMap]
    constructor
    · intro r _
      refine List.Nodup.map ?_ List.nodup_range
      intro a b h
      simp only [Prod.mk.injEq] at h
      omega
    · refine List.Pairwise.imp ?_ List.pairwise_lt_range
      intro a b hab
      simp only [Function.onFun]
      intro i hi hj
      simp only [List.mem_map] at hi hj
      obtain ⟨c, _, rfl⟩ := hi
      obtain ⟨d, _, e⟩ := hj
      simp only [Prod.mk.injEq] at e
      omega
  · rintro ⟨x, y⟩
    simp only [rowMajor, List.mem_flatMap, List.mem_range, List.mem_map, Prod.mk.injEq]
    constructor
    · rintro ⟨r, hr, c, hc, h1, h2⟩
      omega
    · rintro ⟨h1, h2, h3, h4⟩
      exact ⟨(y - mn.2).toNat, by omega, (x - mn.1).toNat, by omega, by omega, by omega⟩
  · rw [rowMajor, List.pairwise_flatMap]
    constructor
    · intro r _
      rw [List.pairwise_map]
      refine List.Pairwise.imp ?_ List.pairwise_lt_range
      intro a b hab
      right
      simp only [true_and]
      omega
    · refine List.Pairwise.imp ?_ List.pairwise_lt_range
      intro a b hab i hi j hj
      simp only [List.mem_map] at hi hj
      obtain ⟨c, _, rfl⟩ := hi
      obtain ⟨d, _, rfl⟩ := hj
      left
      simp only
      omega

/-- An empty range in `x` is not recognised: the loop visits indices outside of the range.  (Not reachable from
cropping, which always asks for at least one cell.) -/
theorem xyVisit_empty_range_wrong :
    xyVisit 10 (xyBegin (0, 0) (-1, 2)) = some [(0, 0), (0, 1), (0, 2)] := by
  decide +kernel

example : xyIndices 3 2 = some [(0, 0), (1, 0), (2, 0), (0, 1), (1, 1), (2, 1)] := by decide +kernel

/-! ### Serialization -/

/-- **C17**: a grid without pending updates survives writing and reading unchanged, so every query has the same
answer. -/
theorem proto_roundtrip {g : Grid} (w : Wf g) (hu : g.updates = []) :
    ∃ p, g.toProto = some p ∧ fromProto p = some g := by
  refine ⟨_, by simp only [Grid.toProto, hu]; rfl, ?_⟩
  have hc : ¬ (g.minCost = 0 ∧ g.maxCost = 0) := by
    rintro ⟨a, b⟩
    have := w.cost
    rw [a, b] at this
    exact lt_irrefl _ this
  have h1 : (g.cells.map Int.ofNat).any (fun c => decide (65535 < c)) = false := by
    rw [List.any_eq_false]
    intro c' hc'
    obtain ⟨c, hm, rfl⟩ := List.mem_map.1 hc'
    have := w.small c hm
    simp only [Int.ofNat_eq_natCast, decide_eq_true_eq]
    omega
  have h2 : (g.cells.map Int.ofNat).map (fun c => (c % 65536).toNat) = g.cells := by
    rw [List.map_map]
    conv => rhs; rw [← List.map_id g.cells]
    apply List.map_congr_left
    intro c hc
    have := w.small c hc
    simp only [Function.comp, Int.ofNat_eq_natCast, id_eq]
    omega
  have h3 : ∀ a : Nat, ¬ ((a : Int) < 0) := by intro a; omega
  unfold fromProto
  simp only [Proto.minCostFrom, Proto.maxCostFrom, hc, h1, h2, h3]
  obtain ⟨l, cells, mi, ma, u, b⟩ := g
  simp only at hu
  subst hu
  have h4 : normBox b = b := by
    cases b with
    | none => rfl
    | some b =>
      have := w.boxIn b rfl
      simp [normBox, this.1, this.2.1]
  have h5 : mi < ma := w.cost
  simp [h4, h5]

/-- Serializing during an update aborts. -/
theorem proto_pending_aborts {g : Grid} (hu : g.updates ≠ []) : g.toProto = none := by
  simp [Grid.toProto, hu]

/-! ### Cropping -/

theorem recode {v : Nat} (h1 : 1 ≤ v) (h2 : v ≤ 32767) :
    costToValue (probabilityToCost (costToProbability (valueToCost v))) = v := by
  have : probabilityToCost (costToProbability (valueToCost v)) = valueToCost v := by
    simp [probabilityToCost, costToProbability]
  rw [this]
  exact encode_decode minmaxCost _ h1 h2

theorem crop_loop {g : Grid} (w : Wf g) (hu : g.updates = []) (off : Int × Int) (is : List (Int × Int)) :
    ∀ (c : Grid), Wf c → is.Nodup → (∀ i ∈ is, c.limits.contains i = true ∧ val c i = 0) →
    ∃ c', is.foldlM (g.cropCell off) c = some c' ∧ Wf c' ∧ c'.limits = c.limits ∧ c'.updates = c.updates ∧
      c'.minCost = c.minCost ∧ c'.maxCost = c.maxCost ∧
      (∀ i ∈ is, val c' i = val g (addIdx i off)) ∧ ∀ i, i ∉ is → val c' i = val c i := by
  induction is with
  | nil => intro c wc _ _; exact ⟨c, rfl, wc, rfl, rfl, rfl, rfl, by simp, by simp⟩
  | cons i is ih =>
    intro c wc nd h
    obtain ⟨hi, nd⟩ := List.nodup_cons.1 nd
    obtain ⟨hci, h0⟩ := h i (by simp)
    have hstep : ∃ c1, g.cropCell off c i = some c1 ∧ Wf c1 ∧ c1.limits = c.limits ∧ c1.updates = c.updates ∧
        c1.minCost = c.minCost ∧ c1.maxCost = c.maxCost ∧ ∀ j, val c1 j = if j = i then val g (addIdx i off) else val c j := by
      unfold Grid.cropCell
      rw [isKnown_eq w]
      by_cases hk : val g (addIdx i off) = 0
      · refine ⟨c, by simp [hk], wc, rfl, rfl, rfl, rfl, ?_⟩
        intro j
        split
        · rename_i e; rw [e, h0, hk]
        · rfl
      · have hgc : g.limits.contains (addIdx i off) = true := by
          by_contra hn
          exact hk (val_out hn)
        have hlt := w.lt_marker hu (addIdx i off)
        have := updateMarker_eq
        obtain ⟨c1, e1, w1, l1, u1, v1, m1, m2⟩ := setProbability_spec wc hci h0 (costToProbability (valueToCost (val g (addIdx i off))))
        rw [recode (by omega) (by omega)] at v1
        refine ⟨c1, ?_, w1, l1, u1, m1, m2, v1⟩
        simp [hk, getProbability_eq w _ hgc, e1]
    obtain ⟨c1, e1, w1, l1, u1, m1, m2, v1⟩ := hstep
    obtain ⟨c', e2, w2, l2, u2, m3, m4, v2, v3⟩ := ih c1 w1 nd (by
      intro j hj
      obtain ⟨a, b⟩ := h j (by simp [hj])
      refine ⟨by rw [l1]; exact a, ?_⟩
      have hne : j ≠ i := by rintro rfl; exact hi hj
      rw [v1, if_neg hne, b])
    refine ⟨c', ?_, w2, l2.trans l1, u2.trans u1, m3.trans m1, m4.trans m2, ?_, ?_⟩
    · simp only [List.foldlM_cons, e1]
      exact e2
    · intro j hj
      rcases List.mem_cons.1 hj with rfl | hj
      · rw [v3 j hi, v1, if_pos rfl]
      · exact v2 j hj
    · intro j hj
      simp only [List.mem_cons, not_or] at hj
      rw [v3 j hj.2, v1, if_neg hj.1]

/-- **C17**: cropping a grid without pending updates does not abort and gives a grid with the same resolution in
which every cell is at its old world position and has its old value, and every known cell of the original lies
within the limits of the cropped grid. -/
theorem crop_preserves {g : Grid} (w : Wf g) (hu : g.updates = []) :
    ∃ (c : Grid) (off : Int × Int), g.computeCroppedGrid = some c ∧ Wf c ∧ c.updates = [] ∧
      c.limits.resolution = g.limits.resolution ∧
      (∀ i, c.limits.getCellCenter i = g.limits.getCellCenter (addIdx i off)) ∧
      (∀ i, c.limits.contains i = true → val c i = val g (addIdx i off)) ∧
      (∀ j, val g j ≠ 0 → ∃ i, c.limits.contains i = true ∧ addIdx i off = j) ∧
      (∀ i, c.limits.contains i = true → c.isKnown i = g.isKnown (addIdx i off)) := by
  have hsz : 1 ≤ g.croppedLimits.2.1 ∧ 1 ≤ g.croppedLimits.2.2 := by
    unfold Grid.croppedLimits
    cases hb : g.box with
    | none => simp
    | some b =>
      have := w.boxIn b hb
      simp only
      omega
  generalize hoff : g.croppedLimits.1 = off at *
  generalize hsize : g.croppedLimits.2 = size at *
  generalize hl : (⟨g.limits.resolution, g.limits.maxX - g.limits.resolution * off.2,
    g.limits.maxY - g.limits.resolution * off.1, size.1.toNat, size.2.toNat⟩ : MapLimits) = l
  have hml : mkLimits g.limits.resolution (g.limits.maxX - g.limits.resolution * off.2)
      (g.limits.maxY - g.limits.resolution * off.1) size.1.toNat size.2.toNat = some l := by
    rw [mkLimits, if_pos ⟨w.res, by omega, by omega⟩, hl]
  obtain ⟨c0, hc0⟩ : ∃ c, create l Verif.Prob.minCost Verif.Prob.maxCost = some c := ⟨_, by rw [create, if_pos minmaxCost]⟩
  obtain ⟨w0, l0, u0, -, v0⟩ := create_wf (by rw [← hl]; exact w.res) (by rw [← hl]; simp only; omega)
    (by rw [← hl]; simp only; omega) hc0
  obtain ⟨is, e1, nd, hmem, -⟩ := xyVisit_spec (0, 0) (size.1 - 1, size.2 - 1) (by simp only; omega) (by simp only; omega)
    (size.1.toNat * size.2.toNat) (by
      simp only [Int.sub_zero, Int.sub_add_cancel]
      rw [Nat.mul_comm])
  have hin : ∀ i, l.contains i = true ↔ i ∈ is := by
    intro i
    rw [hmem, contains_def, ← hl]
    simp only
    omega
  obtain ⟨c, e2, wc, lc, uc, -, -, v1, -⟩ := crop_loop w hu off is c0 w0 nd (by
    intro i hi
    rw [l0]
    exact ⟨(hin i).2 hi, v0 i⟩)
  have hval : ∀ i, c.limits.contains i = true → val c i = val g (addIdx i off) := by
    intro i hi
    rw [lc, l0, hin] at hi
    exact v1 i hi
  refine ⟨c, off, ?_, wc, uc.trans u0, ?_, ?_, hval, ?_, ?_⟩
  · simp only [Grid.computeCroppedGrid, hoff, hsize, hml]
    simp only [Option.bind_eq_bind, Option.bind_some, xyIndices, e1, hc0]
    exact e2
  · rw [lc, l0, ← hl]
  · intro i
    rw [lc, l0, ← hl]
    simp only [MapLimits.getCellCenter, addIdx, Prod.mk.injEq]
    push_cast
    constructor <;> ring
  · intro j hj
    obtain ⟨b, hb, hbox⟩ := w.box j hj
    refine ⟨addIdx j (-off.1, -off.2), ?_, by simp [addIdx]⟩
    rw [lc, l0, contains_def, ← hl]
    rw [Grid.croppedLimits, hb] at hoff hsize
    subst hoff hsize
    simp only [InBox] at hbox
    simp only [addIdx]
    omega
  · intro i hi
    rw [isKnown_eq wc, isKnown_eq w, hval i hi]

/-! ### All reachable grids -/

/-- The probability grids that the operations can produce. -/
inductive Reach : Grid → Prop
  | create {r mx my : ℚ} {nx ny : Nat} {l : MapLimits} {g : Grid} (h1 : mkLimits r mx my nx ny = some l)
      (h2 : create l Verif.Prob.minCost Verif.Prob.maxCost = some g) : Reach g
  | apply {g g' : Grid} {b : Bool} {i : Int × Int} {t : List Nat} (h : Reach g) (ht : TableOk t)
      (h' : g.applyLookupTable i t = some (b, g')) : Reach g'
  | set {g g' : Grid} {i : Int × Int} {p : ℚ} (h : Reach g) (h' : g.setProbability i p = some g') : Reach g'
  | finish {g g' : Grid} (h : Reach g) (h' : g.finishUpdate = some g') : Reach g'
  | grow {g g' : Grid} {n : Nat} {px py : ℚ} (h : Reach g) (h' : g.growLimits n px py = some g') : Reach g'
  | crop {g g' : Grid} (h : Reach g) (hu : g.updates = []) (h' : g.computeCroppedGrid = some g') : Reach g'
  | load {g g' : Grid} {p : Proto} (h : Reach g) (h1 : g.toProto = some p) (h2 : fromProto p = some g') : Reach g'

theorem growLoop_wf : ∀ (n : Nat) {g g' : Grid} {px py : ℚ}, Wf g → g.updates = [] → g.growLoop n px py = some g' → Wf g' := by
  intro n
  induction n with
  | zero =>
    intro g g' px py w hu h
    simp only [Grid.growLoop] at h
    split at h
    · obtain rfl : g = g' := by simpa using h
      exact w
    · simp at h
  | succ n ih =>
    intro g g' px py w hu h
    simp only [Grid.growLoop] at h
    split at h
    · obtain rfl : g = g' := by simpa using h
      exact w
    · obtain ⟨g1, e1, w1, gr, -, -⟩ := growStep_spec w hu
      rw [e1] at h
      exact ih w1 (gr.updates.trans hu) h

/-- The representation invariant holds for every reachable grid, so the theorems above apply to all of them. -/
theorem reach_wf {g : Grid} (h : Reach g) : Wf g := by
  induction h with
  | create h1 h2 =>
    unfold mkLimits at h1
    split at h1
    · rename_i hc
      obtain rfl := by simpa using h1
      exact (create_wf hc.1 hc.2.1 hc.2.2 h2).1
    · simp at h1
  | @apply g g' b i t h ht h' ih =>
    by_cases hi : g.limits.contains i = true
    · obtain ⟨b1, g1, e1, w1, -⟩ := apply_spec ih hi ht
      rw [h'] at e1
      simp only [Option.some.injEq, Prod.mk.injEq] at e1
      rw [e1.2]; exact w1
    · simp [Grid.applyLookupTable, Grid.toFlatIndex, hi, ht.1] at h'
  | @set g g' i p h h' ih =>
    by_cases hi : g.limits.contains i = true
    · by_cases h0 : val g i = 0
      · obtain ⟨g1, e1, w1, -⟩ := setProbability_spec ih hi h0 p
        rw [h'] at e1
        simp only [Option.some.injEq] at e1
        rw [e1]; exact w1
      · simp [Grid.setProbability, toFlatIndex_eq hi, ih.get hi, h0] at h'
    · simp [Grid.setProbability, Grid.toFlatIndex, hi] at h'
  | finish h h' ih =>
    obtain ⟨g1, e1, w1, -⟩ := finishUpdate_spec ih
    rw [h'] at e1
    simp only [Option.some.injEq] at e1
    rw [e1]; exact w1
  | grow h h' ih =>
    unfold Grid.growLimits at h'
    split at h'
    · simp at h'
    · rename_i hu
      exact growLoop_wf _ ih (by simpa using hu) h'
  | crop h hu h' ih =>
    obtain ⟨g1, _, e1, w1, -⟩ := crop_preserves ih hu
    rw [h'] at e1
    simp only [Option.some.injEq] at e1
    rw [e1]; exact w1
  | @load g g' p h h1 h2 ih =>
    by_cases hu : g.updates = []
    · obtain ⟨p1, e1, e2⟩ := proto_roundtrip ih hu
      rw [h1] at e1
      simp only [Option.some.injEq] at e1
      rw [← e1, h2] at e2
      simp only [Option.some.injEq] at e2
      rw [e2]; exact ih
    · rw [proto_pending_aborts hu] at h1
      simp at h1

/-- Non-vacuity: cropping a 3 x 4 grid with two known cells. -/
example : let g : Grid := ⟨⟨1, 0, 0, 3, 4⟩, [0, 0, 0, 0, 0, 7, 0, 0, 0, 0, 9, 0], Verif.Prob.minCost, Verif.Prob.maxCost, [], some ⟨1, 1, 2, 3⟩⟩
    g.computeCroppedGrid.map (fun c => (c.limits, c.cells)) = some (⟨1, -1, -1, 2, 3⟩, [0, 7, 0, 0, 9, 0]) := by
  decide +kernel

end Verif.Grid2D
