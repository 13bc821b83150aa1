import Verif.Grid2D
import Verif.Props.MapLimits
import Mathlib.Data.List.Nodup

/-!
# Well-formed grids and the effect of the primitive operations
-/

namespace Verif.Grid2D

open Verif.Prob

/-- Value stored for the cell with index `i`; 0 (unknown) outside of the limits. -/
def val (g : Grid) (i : Int × Int) : Nat :=
  if g.limits.contains i then (g.cells[(g.limits.numX * i.2 + i.1).toNat]?).getD 0 else 0

/-- A box contains an index. -/
def InBox (b : Box) (i : Int × Int) : Prop := b.minX ≤ i.1 ∧ i.1 ≤ b.maxX ∧ b.minY ≤ i.2 ∧ i.2 ≤ b.maxY

/-- Flat index of a contained cell. -/
def flat (l : MapLimits) (i : Int × Int) : Nat := (l.numX * i.2 + i.1).toNat

/-- The representation invariant of a grid. -/
structure Wf (g : Grid) : Prop where
  res : 0 < g.limits.resolution
  nx : 0 < g.limits.numX
  ny : 0 < g.limits.numY
  cost : g.minCost < g.maxCost
  len : g.cells.length = g.limits.numX * g.limits.numY
  small : ∀ c ∈ g.cells, c < 65536
  nodup : g.updates.Nodup
  pend : ∀ k c, g.cells[k]? = some c → (k ∈ g.updates ↔ updateMarker ≤ c)
  pendKnown : ∀ c ∈ g.cells, c ≠ updateMarker
  upd : ∀ k ∈ g.updates, k < g.cells.length
  box : ∀ i, val g i ≠ 0 → ∃ b, g.box = some b ∧ InBox b i
  boxIn : ∀ b, g.box = some b → b.minX ≤ b.maxX ∧ b.minY ≤ b.maxY ∧ g.limits.contains (b.minX, b.minY) = true ∧
    g.limits.contains (b.maxX, b.maxY) = true

theorem flat_lt {l : MapLimits} {i : Int × Int} (h : l.contains i = true) : flat l i < l.numX * l.numY := by
  obtain ⟨h1, h2, h3, h4⟩ := (contains_def i).1 h
  obtain ⟨x, y⟩ := i
  simp only [flat] at *
  obtain ⟨x, rfl⟩ := Int.eq_ofNat_of_zero_le h1
  obtain ⟨y, rfl⟩ := Int.eq_ofNat_of_zero_le h2
  have h3' : x < l.numX := by omega
  have h4' : y + 1 ≤ l.numY := by omega
  have e : ((l.numX : Int) * y + x).toNat = l.numX * y + x := by
    rw [← Int.natCast_mul, ← Int.natCast_add, Int.toNat_natCast]
  rw [e]
  calc l.numX * y + x < l.numX * y + l.numX := by omega
    _ = l.numX * (y + 1) := by ring
    _ ≤ l.numX * l.numY := Nat.mul_le_mul_left _ h4'

theorem flat_inj {l : MapLimits} {i j : Int × Int} (hi : l.contains i = true) (hj : l.contains j = true)
    (h : flat l i = flat l j) : i = j := by
  obtain ⟨h1, h2, h3, h4⟩ := (contains_def i).1 hi
  obtain ⟨g1, g2, g3, g4⟩ := (contains_def j).1 hj
  obtain ⟨x, y⟩ := i
  obtain ⟨u, v⟩ := j
  simp only [flat] at *
  obtain ⟨x, rfl⟩ := Int.eq_ofNat_of_zero_le h1
  obtain ⟨y, rfl⟩ := Int.eq_ofNat_of_zero_le h2
  obtain ⟨u, rfl⟩ := Int.eq_ofNat_of_zero_le g1
  obtain ⟨v, rfl⟩ := Int.eq_ofNat_of_zero_le g2
  have e : ∀ x y : Nat, ((l.numX : Int) * y + x).toNat = l.numX * y + x := by
    intro x y
    rw [← Int.natCast_mul, ← Int.natCast_add, Int.toNat_natCast]
  rw [e, e] at h
  have hx : x < l.numX := by omega
  have hu : u < l.numX := by omega
  have a : (l.numX * y + x) / l.numX = y := by
    rw [Nat.mul_add_div (by omega), Nat.div_eq_of_lt hx]; omega
  have b : (l.numX * v + u) / l.numX = v := by
    rw [Nat.mul_add_div (by omega), Nat.div_eq_of_lt hu]; omega
  have : y = v := by rw [← a, ← b, h]
  subst this
  have : x = u := by omega
  subst this
  rfl

theorem flat_surj {l : MapLimits} {k : Nat} (h : k < l.numX * l.numY) : ∃ i, l.contains i = true ∧ flat l i = k := by
  have hx : 0 < l.numX := by
    rcases Nat.eq_zero_or_pos l.numX with h0 | h0
    · rw [h0] at h; omega
    · exact h0
  refine ⟨((k % l.numX : Nat), (k / l.numX : Nat)), (contains_def _).2 ⟨Int.natCast_nonneg _, Int.natCast_nonneg _, ?_, ?_⟩, ?_⟩
  · simp only
    exact_mod_cast Nat.mod_lt _ hx
  · simp only
    exact_mod_cast Nat.div_lt_of_lt_mul h
  · simp only [flat]
    rw [← Int.natCast_mul, ← Int.natCast_add, Int.toNat_natCast, Nat.div_add_mod]

theorem toFlatIndex_eq {g : Grid} {i : Int × Int} (h : g.limits.contains i = true) :
    g.toFlatIndex i = some (flat g.limits i) := by
  simp [Grid.toFlatIndex, h, flat]

theorem val_eq {g : Grid} {i : Int × Int} (h : g.limits.contains i = true) :
    val g i = (g.cells[flat g.limits i]?).getD 0 := by
  simp [val, h, flat]

theorem val_out {g : Grid} {i : Int × Int} (h : ¬ g.limits.contains i = true) : val g i = 0 := by
  simp [val, h]

theorem Wf.get {g : Grid} (w : Wf g) {i : Int × Int} (h : g.limits.contains i = true) :
    g.cells[flat g.limits i]? = some (val g i) := by
  have : flat g.limits i < g.cells.length := by rw [w.len]; exact flat_lt h
  rw [val_eq h]
  rw [List.getElem?_eq_getElem this]
  rfl

theorem Wf.val_lt {g : Grid} (w : Wf g) (i : Int × Int) : val g i < 65536 := by
  by_cases h : g.limits.contains i = true
  · exact w.small _ (List.mem_of_getElem? (w.get h))
  · rw [val_out h]; omega

theorem Wf.val_ne {g : Grid} (w : Wf g) (i : Int × Int) : val g i ≠ updateMarker := by
  by_cases h : g.limits.contains i = true
  · exact w.pendKnown _ (List.mem_of_getElem? (w.get h))
  · rw [val_out h, updateMarker_eq]; omega

theorem isKnown_eq {g : Grid} (w : Wf g) (i : Int × Int) : g.isKnown i = some (val g i != 0) := by
  unfold Grid.isKnown
  by_cases h : g.limits.contains i = true
  · simp [h, toFlatIndex_eq h, w.get h]
  · simp [h, val_out h]

theorem getCost_eq {g : Grid} (w : Wf g) (i : Int × Int) :
    g.getCorrespondenceCost i = some (conversionTable (val g i) g.maxCost g.minCost g.maxCost) := by
  unfold Grid.getCorrespondenceCost
  by_cases h : g.limits.contains i = true
  · simp [h, toFlatIndex_eq h, w.get h]
  · simp [h, val_out h, conversionTable, slowValueToBoundedFloat]

theorem getProbability_eq {g : Grid} (w : Wf g) (i : Int × Int) (h : g.limits.contains i = true) :
    g.getProbability i = some (costToProbability (valueToCost (val g i))) := by
  simp [Grid.getProbability, h, toFlatIndex_eq h, w.get h]

/-- Writing one cell. -/
theorem val_set {g : Grid} (w : Wf g) {i : Int × Int} (h : g.limits.contains i = true) (c : Nat) (u : List Nat)
    (b : Option Box) (j : Int × Int) :
    val { g with cells := g.cells.set (flat g.limits i) c, updates := u, box := b } j = if j = i then c else val g j := by
  have hl : flat g.limits i < g.cells.length := by rw [w.len]; exact flat_lt h
  by_cases hj : g.limits.contains j = true
  · rw [val_eq hj, val_eq (g := { g with cells := g.cells.set (flat g.limits i) c, updates := u, box := b }) hj]
    simp only
    by_cases e : j = i
    · subst e
      simp [List.getElem?_set_self hl]
    · have : flat g.limits i ≠ flat g.limits j := fun e' => e (flat_inj hj h e'.symm)
      rw [List.getElem?_set_ne this]
      simp [e]
  · have e : j ≠ i := fun e => hj (e ▸ h)
    rw [val_out hj, val_out (g := { g with cells := g.cells.set (flat g.limits i) c, updates := u, box := b }) hj]
    simp [e]

theorem extendBox_spec (b : Option Box) (i : Int × Int) : ∃ b', extendBox b i = some b' ∧ InBox b' i ∧
    (∀ b0, b = some b0 → ∀ j, InBox b0 j → InBox b' j) := by
  cases b with
  | none => exact ⟨_, rfl, by simp [InBox], by simp⟩
  | some b =>
    refine ⟨_, rfl, ?_, ?_⟩
    · simp only [InBox]
      refine ⟨?_, ?_, ?_, ?_⟩ <;> omega
    · rintro b0 ⟨⟩ j ⟨h1, h2, h3, h4⟩
      refine ⟨?_, ?_, ?_, ?_⟩ <;> simp only <;> omega

theorem extendBox_in {l : MapLimits} {b : Option Box} {i : Int × Int} (hi : l.contains i = true)
    (hb : ∀ b0, b = some b0 → b0.minX ≤ b0.maxX ∧ b0.minY ≤ b0.maxY ∧ l.contains (b0.minX, b0.minY) = true ∧
      l.contains (b0.maxX, b0.maxY) = true) (b' : Box) (h : extendBox b i = some b') :
    b'.minX ≤ b'.maxX ∧ b'.minY ≤ b'.maxY ∧ l.contains (b'.minX, b'.minY) = true ∧ l.contains (b'.maxX, b'.maxY) = true := by
  simp only [contains_def] at *
  cases b with
  | none =>
    simp only [extendBox, Option.some.injEq] at h
    subst h
    simp only
    omega
  | some b0 =>
    simp only [extendBox, Option.some.injEq] at h
    subst h
    have := hb b0 rfl
    simp only
    omega

/-- Any single-cell write that keeps the bookkeeping keeps the invariant. -/
theorem wf_set {g : Grid} (w : Wf g) {i : Int × Int} (h : g.limits.contains i = true) (c : Nat) (u : List Nat)
    (hc : c < 65536) (hm : c ≠ updateMarker)
    (hu : if updateMarker ≤ c then u = flat g.limits i :: g.updates else u = g.updates) (hold : val g i < updateMarker) :
    Wf { g with cells := g.cells.set (flat g.limits i) c, updates := u, box := extendBox g.box i } := by
  have hl : flat g.limits i < g.cells.length := by rw [w.len]; exact flat_lt h
  have hnot : flat g.limits i ∉ g.updates := by
    rw [w.pend _ _ (w.get h)]; omega
  refine ⟨w.res, w.nx, w.ny, w.cost, by simp [w.len], ?_, ?_, ?_, ?_, ?_, ?_, ?_⟩
  · intro x hx
    rcases List.mem_or_eq_of_mem_set hx with hx | hx
    · exact w.small x hx
    · exact hx ▸ hc
  · simp only
    split at hu
    · subst hu
      exact List.nodup_cons.2 ⟨hnot, w.nodup⟩
    · subst hu; exact w.nodup
  · intro k x hx
    simp only at hx ⊢
    by_cases e : flat g.limits i = k
    · subst e
      rw [List.getElem?_set_self hl] at hx
      obtain rfl : c = x := by simpa using hx
      split at hu
      · subst hu; simp_all
      · subst hu; simp_all
    · rw [List.getElem?_set_ne e] at hx
      rw [← w.pend k x hx]
      split at hu
      · subst hu
        simp only [List.mem_cons]
        constructor
        · rintro (rfl | h')
          · exact absurd rfl e
          · exact h'
        · exact Or.inr
      · subst hu; rfl
  · intro x hx
    rcases List.mem_or_eq_of_mem_set hx with hx | hx
    · exact w.pendKnown x hx
    · exact hx ▸ hm
  · intro k hk
    simp only [List.length_set]
    simp only at hk
    split at hu
    · subst hu
      rcases List.mem_cons.1 hk with rfl | hk
      · exact hl
      · exact w.upd k hk
    · subst hu
      exact w.upd k hk
  · intro j hj
    rw [val_set w h] at hj
    obtain ⟨b', hb1, hb2, hb3⟩ := extendBox_spec g.box i
    refine ⟨b', hb1, ?_⟩
    by_cases e : j = i
    · subst e; exact hb2
    · rw [if_neg e] at hj
      obtain ⟨b0, h0, h0'⟩ := w.box j hj
      exact hb3 b0 h0 j h0'
  · exact extendBox_in h w.boxIn

theorem create_wf {l : MapLimits} {a b : ℚ} {g : Grid} (hr : 0 < l.resolution) (hx : 0 < l.numX) (hy : 0 < l.numY)
    (h : create l a b = some g) : Wf g ∧ g.limits = l ∧ g.updates = [] ∧ g.box = none ∧ ∀ i, val g i = 0 := by
  unfold create at h
  split at h
  · rename_i hc
    obtain rfl := by simpa using h
    have v : ∀ i, val ⟨l, List.replicate (l.numX * l.numY) 0, a, b, [], none⟩ i = 0 := by
      intro i
      unfold val
      split
      · simp only [List.getElem?_replicate]
        split <;> rfl
      · rfl
    refine ⟨⟨hr, hx, hy, hc, by simp, ?_, by simp, ?_, ?_, by simp, ?_, by simp⟩, rfl, rfl, rfl, v⟩
    · intro c hc
      have := List.eq_of_mem_replicate hc
      omega
    · intro k c hc
      have := List.eq_of_mem_replicate (List.mem_of_getElem? hc)
      subst this
      simp [updateMarker_eq]
    · intro c hc
      have := List.eq_of_mem_replicate hc
      rw [this, updateMarker_eq]
      omega
    · intro i hi
      exact absurd (v i) hi
  · simp at h

theorem setProbability_spec {g : Grid} (w : Wf g) {i : Int × Int} (h : g.limits.contains i = true) (h0 : val g i = 0) (p : ℚ) :
    ∃ g', g.setProbability i p = some g' ∧ Wf g' ∧ g'.limits = g.limits ∧ g'.updates = g.updates ∧
      (∀ j, val g' j = if j = i then costToValue (probabilityToCost p) else val g j) ∧
      g'.minCost = g.minCost ∧ g'.maxCost = g.maxCost := by
  have hr := costToValue_range (probabilityToCost p)
  generalize hc : costToValue (probabilityToCost p) = c at *
  refine ⟨{ g with cells := g.cells.set (flat g.limits i) c, box := extendBox g.box i }, ?_, ?_, rfl, rfl, ?_, rfl, rfl⟩
  · simp [Grid.setProbability, toFlatIndex_eq h, w.get h, h0, hc]
  · have := updateMarker_eq
    refine wf_set w h c g.updates (by omega) (by omega) ?_ (by omega)
    rw [if_neg (by omega)]
  · intro j
    exact val_set w h c g.updates _ j

theorem finishLoop_spec (ks : List Nat) : ∀ (cells : List Nat), ks.Nodup →
    (∀ k ∈ ks, ∃ c, cells[k]? = some c ∧ updateMarker ≤ c) →
    ∃ cells', finishLoop ks cells = some cells' ∧ cells'.length = cells.length ∧
      ∀ k : Nat, cells'[k]? = if k ∈ ks then (cells[k]?).map (· - updateMarker) else cells[k]? := by
  induction ks with
  | nil => intro cells _ _; exact ⟨cells, rfl, rfl, by simp⟩
  | cons k ks ih =>
    intro cells nd h
    obtain ⟨c, hc1, hc2⟩ := h k (by simp)
    obtain ⟨hk, nd⟩ := List.nodup_cons.1 nd
    obtain ⟨cells', e1, e2, e3⟩ := ih (cells.set k (c - updateMarker)) nd (by
      intro k' hk'
      obtain ⟨c', h1, h2⟩ := h k' (by simp [hk'])
      refine ⟨c', ?_, h2⟩
      rw [List.getElem?_set_ne]
      · exact h1
      · rintro rfl; exact hk hk')
    refine ⟨cells', ?_, by simpa using e2, ?_⟩
    · simp only [finishLoop, hc1, Option.bind_eq_bind, Option.bind_some]
      rw [if_neg (by omega)]
      exact e1
    · intro k'
      rw [e3]
      by_cases e : k' = k
      · subst e
        have : k' < cells.length := (List.getElem?_eq_some_iff.1 hc1).1
        simp [hk, hc1, List.getElem?_set_self this]
      · rw [List.getElem?_set_ne (Ne.symm e)]
        simp [e]

theorem finishUpdate_spec {g : Grid} (w : Wf g) : ∃ g', g.finishUpdate = some g' ∧ Wf g' ∧ g'.limits = g.limits ∧
    g'.updates = [] ∧ g'.box = g.box ∧ (∀ c ∈ g'.cells, c < updateMarker) ∧
    ∀ i, val g' i = if updateMarker ≤ val g i then val g i - updateMarker else val g i := by
  obtain ⟨cells', e1, e2, e3⟩ := finishLoop_spec g.updates g.cells w.nodup (by
    intro k hk
    have hl := w.upd k hk
    exact ⟨g.cells[k], List.getElem?_eq_getElem hl, (w.pend k _ (List.getElem?_eq_getElem hl)).1 hk⟩)
  have hget : ∀ k c : Nat, cells'[k]? = some c → ∃ c0, g.cells[k]? = some c0 ∧
      c = if updateMarker ≤ c0 then c0 - updateMarker else c0 := by
    intro k c hc
    rw [e3] at hc
    cases h : g.cells[k]? with
    | none => rw [h] at hc; split at hc <;> simp at hc
    | some c0 =>
      refine ⟨c0, rfl, ?_⟩
      have := w.pend k c0 h
      rw [h] at hc
      by_cases hk : k ∈ g.updates
      · rw [if_pos hk] at hc
        rw [if_pos (this.1 hk)]
        simpa using hc.symm
      · rw [if_neg hk] at hc
        rw [if_neg (fun h => hk (this.2 h))]
        simpa using hc.symm
  have hsm : ∀ c ∈ cells', c < updateMarker := by
    intro c hc
    obtain ⟨k, hk⟩ := List.mem_iff_getElem?.1 hc
    obtain ⟨c0, h1, h2⟩ := hget k c hk
    have := w.small c0 (List.mem_of_getElem? h1)
    have := updateMarker_eq
    split at h2 <;> omega
  have hv : ∀ i, val { g with cells := cells', updates := [] } i = if updateMarker ≤ val g i then val g i - updateMarker else val g i := by
    intro i
    have := updateMarker_eq
    by_cases h : g.limits.contains i = true
    · rw [val_eq (g := { g with cells := cells', updates := [] }) h]
      simp only
      have hl : flat g.limits i < cells'.length := by rw [e2, w.len]; exact flat_lt h
      obtain ⟨c0, h1, h2⟩ := hget _ _ (List.getElem?_eq_getElem hl)
      rw [w.get h] at h1
      obtain rfl : val g i = c0 := by simpa using h1
      rw [List.getElem?_eq_getElem hl, ← h2]
      rfl
    · rw [val_out h, val_out (g := { g with cells := cells', updates := [] }) h]
      rw [if_neg (by omega)]
  refine ⟨{ g with cells := cells', updates := [] }, ?_, ?_, rfl, rfl, rfl, hsm, hv⟩
  · simp [Grid.finishUpdate, e1]
  · have := updateMarker_eq
    refine ⟨w.res, w.nx, w.ny, w.cost, by simp only [e2]; exact w.len, ?_, by simp, ?_, ?_, by simp, ?_, w.boxIn⟩
    · intro c hc
      have := hsm c hc
      omega
    · intro k c hc
      have := hsm c (List.mem_of_getElem? hc)
      simp
      omega
    · intro c hc
      have := hsm c hc
      omega
    · intro i hi
      rw [hv] at hi
      refine w.box i ?_
      intro h0
      rw [h0] at hi
      split at hi <;> simp at hi

end Verif.Grid2D
