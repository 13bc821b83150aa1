import Verif.Grid2DLemmas

/-!
# C14: each cell is updated at most once per scan
-/

namespace Verif.Grid2D

open Verif.Prob

/-- What is required of a lookup table: one entry per unmarked value, and every entry is a marked known value. -/
def TableOk (t : List Nat) : Prop :=
  t.length = updateMarker ∧ ∀ e ∈ t, updateMarker < e ∧ e < 65536

/-- The tables that the range data inserters use (`ComputeLookupTableToApplyCorrespondenceCostOdds`,
probability_values.cc:89-105) satisfy the requirement. -/
def costTable (o : ℚ) : List Nat := (List.range valueCount).map (costOddsTable o)

theorem costTable_ok (o : ℚ) : TableOk (costTable o) := by
  constructor
  · simp [costTable, valueCount, updateMarker]
  · intro e he
    obtain ⟨v, -, rfl⟩ := List.mem_map.1 he
    have := (table_range o v).2
    have h := updateMarker_eq
    omega

theorem apply_spec {g : Grid} (w : Wf g) {i : Int × Int} (h : g.limits.contains i = true) {t : List Nat} (ht : TableOk t) :
    ∃ b g', g.applyLookupTable i t = some (b, g') ∧ Wf g' ∧ g'.limits = g.limits ∧
      (b = true ↔ val g i < updateMarker) ∧ (b = false → g' = g) ∧
      (b = true → ∃ e, t[val g i]? = some e ∧ e ∈ t ∧ ∀ j, val g' j = if j = i then e else val g j) := by
  by_cases hm : updateMarker ≤ val g i
  · refine ⟨false, g, ?_, w, rfl, by simpa using hm, by simp, by simp⟩
    simp [Grid.applyLookupTable, ht.1, toFlatIndex_eq h, w.get h, hm]
  · have hl : val g i < t.length := by rw [ht.1]; omega
    have he := List.getElem_mem hl
    obtain ⟨h1, h2⟩ := ht.2 _ he
    refine ⟨true, { g with
        cells := g.cells.set (flat g.limits i) (t[val g i]), updates := flat g.limits i :: g.updates
        box := extendBox g.box i }, ?_, ?_, rfl, by simp; omega, by simp, fun _ => ⟨t[val g i], List.getElem?_eq_getElem hl, he, ?_⟩⟩
    · have h3 : ¬ t[val g i] < updateMarker := by omega
      have hw := w.get h
      have ht' := List.getElem?_eq_getElem hl
      simp [Grid.applyLookupTable, ht.1, toFlatIndex_eq h, hw, hm, ht', h3]
    · refine wf_set w h _ _ h2 (by omega) ?_ (by omega)
      rw [if_pos (by omega)]
    · intro j
      exact val_set w h _ _ _ j

/-- A sequence of table applications: the reported results and the final grid. -/
def applySeq : List ((Int × Int) × List Nat) → Grid → Option (List Bool × Grid)
  | [], g => some ([], g)
  | (i, t) :: us, g => do
    let (b, g1) ← g.applyLookupTable i t
    let (bs, g2) ← applySeq us g1
    some (b :: bs, g2)

/-- Value of a cell after the pending applications: the first application to the cell decides. -/
def firstApplied (us : List ((Int × Int) × List Nat)) (i : Int × Int) (v : Nat) : Option Nat :=
  match us.find? (fun u => u.1 == i) with
  | none => some v
  | some u => u.2[v]?

theorem applySeq_spec (us : List ((Int × Int) × List Nat)) : ∀ {g : Grid}, Wf g →
    (∀ u ∈ us, g.limits.contains u.1 = true ∧ TableOk u.2) →
    ∃ bs g', applySeq us g = some (bs, g') ∧ Wf g' ∧ g'.limits = g.limits ∧ bs.length = us.length ∧
      (∀ (n : Nat) (u : (Int × Int) × List Nat), us[n]? = some u →
        (bs[n]? = some true ↔ val g u.1 < updateMarker ∧ u.1 ∉ (us.take n).map Prod.fst)) ∧
      (∀ i, updateMarker ≤ val g i → val g' i = val g i) ∧
      (∀ i, val g i < updateMarker → firstApplied us i (val g i) = some (val g' i)) ∧
      (∀ i, val g i < updateMarker → i ∈ us.map Prod.fst → updateMarker < val g' i) := by
  induction us with
  | nil =>
    intro g w _
    exact ⟨[], g, rfl, w, rfl, rfl, by simp, by simp, by simp [firstApplied], by simp⟩
  | cons u us ih =>
    obtain ⟨i, t⟩ := u
    intro g w h
    obtain ⟨hi, ht⟩ := h (i, t) (by simp)
    simp only at hi ht
    obtain ⟨b, g1, e1, w1, l1, hb, hf, htr⟩ := apply_spec w hi ht
    obtain ⟨bs, g2, e2, w2, l2, len, hbs, hp, hv, hq⟩ := ih w1 (by
      intro u hu
      rw [l1]
      exact h u (by simp [hu]))
    refine ⟨b :: bs, g2, ?_, w2, l2.trans l1, by simp [len], ?_, ?_, ?_, ?_⟩
    · simp [applySeq, e1, e2]
    · intro n u hu
      cases n with
      | zero =>
        obtain rfl : (i, t) = u := by simpa using hu
        simp [hb]
      | succ n =>
        simp only [List.getElem?_cons_succ] at hu
        have := hbs n u hu
        simp only [List.getElem?_cons_succ, this, List.take_succ_cons, List.map_cons, List.mem_cons, not_or]
        cases b with
        | false =>
          obtain rfl := hf rfl
          have : ¬ val g1 i < updateMarker := by simpa using hb
          constructor
          · rintro ⟨a1, a2⟩
            refine ⟨a1, ?_, a2⟩
            rintro e; rw [e] at a1; exact this a1
          · rintro ⟨a1, a2, a3⟩; exact ⟨a1, a3⟩
        | true =>
          obtain ⟨e, he, hem, hv1⟩ := htr rfl
          have := (ht.2 e hem).1
          rw [hv1]
          by_cases e' : u.1 = i
          · simp [e']; intro; omega
          · simp [e']
    · intro j hj
      cases b with
      | false =>
        obtain rfl := hf rfl
        exact hp j hj
      | true =>
        obtain ⟨e, he, hem, hv1⟩ := htr rfl
        have hne : j ≠ i := by
          rintro rfl
          have := hb.1 rfl
          omega
        have : val g1 j = val g j := by rw [hv1, if_neg hne]
        rw [← this]
        exact hp j (by omega)
    · intro j hj
      cases b with
      | false =>
        obtain rfl := hf rfl
        have hne : i ≠ j := by
          rintro rfl
          have := hb.2 hj
          simp at this
        have := hv j hj
        simpa [firstApplied, List.find?_cons, hne] using this
      | true =>
        obtain ⟨e, he, hem, hv1⟩ := htr rfl
        by_cases hne : i = j
        · subst hne
          have h1 : val g1 i = e := by rw [hv1, if_pos rfl]
          have := hp i (by rw [h1]; exact (ht.2 e hem).1.le)
          simp [firstApplied, List.find?_cons, he, this, h1]
        · have h1 : val g1 j = val g j := by rw [hv1, if_neg (Ne.symm hne)]
          have := hv j (by omega)
          rw [h1] at this
          simpa [firstApplied, List.find?_cons, hne] using this
    · intro j hj hm
      cases b with
      | false =>
        obtain rfl := hf rfl
        have hne : i ≠ j := by
          rintro rfl
          have := hb.2 hj
          simp at this
        exact hq j hj (by simpa [Ne.symm hne] using hm)
      | true =>
        obtain ⟨e, he, hem, hv1⟩ := htr rfl
        by_cases hne : i = j
        · subst hne
          have h1 : val g1 i = e := by rw [hv1, if_pos rfl]
          have h2 := (ht.2 e hem).1
          have := hp i (by omega)
          omega
        · have h1 : val g1 j = val g j := by rw [hv1, if_neg (Ne.symm hne)]
          exact hq j (by omega) (by simpa [Ne.symm hne] using hm)

/-- **C14**: starting without pending updates, for every sequence of table applications to cells of the grid:
nothing aborts; an application reports `true` exactly when no earlier one of the sequence concerned the same cell;
after finishing, a cell that was not touched has its old value, a touched cell has the value of the first table
applied to it without the mark, which is a known value; nothing is pending and every cell is below the mark, so
that the grid is again in the state this theorem starts from. -/
theorem once_per_scan {g : Grid} (w : Wf g) (hu : g.updates = []) (us : List ((Int × Int) × List Nat))
    (h : ∀ u ∈ us, g.limits.contains u.1 = true ∧ TableOk u.2) :
    ∃ bs g1 g2, applySeq us g = some (bs, g1) ∧ g1.finishUpdate = some g2 ∧ Wf g2 ∧ g2.updates = [] ∧
      g2.limits = g.limits ∧ (∀ c ∈ g2.cells, c < updateMarker) ∧ bs.length = us.length ∧
      (∀ (n : Nat) (u : (Int × Int) × List Nat), us[n]? = some u →
        (bs[n]? = some true ↔ ∀ m < n, ∀ u' : (Int × Int) × List Nat, us[m]? = some u' → u'.1 ≠ u.1)) ∧
      (∀ i, (∀ u ∈ us, u.1 ≠ i) → val g2 i = val g i) ∧
      (∀ (n : Nat) (u : (Int × Int) × List Nat), us[n]? = some u →
        (∀ m < n, ∀ u' : (Int × Int) × List Nat, us[m]? = some u' → u'.1 ≠ u.1) →
        u.2[val g u.1]? = some (val g2 u.1 + updateMarker) ∧ val g2 u.1 ≠ 0 ∧ g2.isKnown u.1 = some true) := by
  have h0 : ∀ i, val g i < updateMarker := by
    intro i
    have := updateMarker_eq
    by_cases hi : g.limits.contains i = true
    · by_contra hc
      have := (w.pend _ _ (w.get hi)).2 (by omega)
      rw [hu] at this
      simp at this
    · rw [val_out hi]; omega
  obtain ⟨bs, g1, e1, w1, l1, len, hbs, hp, hv, hq⟩ := applySeq_spec us w h
  obtain ⟨g2, e2, w2, l2, u2, -, sm, v2⟩ := finishUpdate_spec w1
  have hnot : ∀ (n : Nat) (u : (Int × Int) × List Nat), u.1 ∉ (us.take n).map Prod.fst ↔
      ∀ m < n, ∀ u' : (Int × Int) × List Nat, us[m]? = some u' → u'.1 ≠ u.1 := by
    intro n u
    constructor
    · intro hn m hm u' hu' e
      refine hn (List.mem_map.2 ⟨u', ?_, e⟩)
      refine List.mem_of_getElem? (i := m) ?_
      rw [List.getElem?_take_of_lt hm]
      exact hu'
    · intro hn hm
      obtain ⟨u', hu', e⟩ := List.mem_map.1 hm
      obtain ⟨m, hm'⟩ := List.mem_iff_getElem?.1 hu'
      have hmn : m < n := by
        by_contra hc
        rw [List.getElem?_eq_none (by rw [List.length_take]; omega)] at hm'
        simp at hm'
      rw [List.getElem?_take_of_lt hmn] at hm'
      exact hn m hmn u' hm' e
  refine ⟨bs, g1, g2, e1, e2, w2, u2, l2.trans l1, sm, len, ?_, ?_, ?_⟩
  · intro n u hu'
    rw [hbs n u hu', hnot]
    simp [h0]
  · intro i hi
    have := hv i (h0 i)
    have hf : us.find? (fun u => u.1 == i) = none := by
      rw [List.find?_eq_none]
      intro u hu; simpa using hi u hu
    rw [firstApplied, hf] at this
    have hg : val g i = val g1 i := by simpa using this
    have := h0 i
    rw [v2, if_neg (by omega), hg]
  · intro n u hu' hfirst
    have hf : us.find? (fun u' => u'.1 == u.1) = some u := by
      rw [List.find?_eq_some_iff_getElem]
      obtain ⟨hn, e⟩ := List.getElem?_eq_some_iff.1 hu'
      refine ⟨by simp, n, hn, e, ?_⟩
      intro m hm
      have := hfirst m hm us[m] (List.getElem?_eq_getElem (by omega))
      simpa using this
    have h1 := hv u.1 (h0 u.1)
    rw [firstApplied, hf] at h1
    have h2 := hq u.1 (h0 u.1) (List.mem_map.2 ⟨u, List.mem_of_getElem? hu', rfl⟩)
    have h3 := v2 u.1
    rw [if_pos h2.le] at h3
    have h4 : val g2 u.1 ≠ 0 := by omega
    refine ⟨?_, h4, ?_⟩
    · simp only at h1
      rw [h1, h3]
      congr 1
      omega
    · rw [isKnown_eq w2]
      simp [h4]

/-- Non-vacuity: two applications to the same cell of a fresh 2 x 2 grid and one to another cell; only the first
one of each cell is reported as successful. -/
example (a b : ℚ) : ∃ g g1 g2, create ⟨1, 0, 0, 2, 2⟩ minCost maxCost = some g ∧
    applySeq [((0, 1), costTable a), ((1, 1), costTable b), ((0, 1), costTable b)] g = some ([true, true, false], g1) ∧
    g1.finishUpdate = some g2 ∧ g2.isKnown (0, 1) = some true ∧ g2.isKnown (0, 0) = some false := by
  have hc : (minCost : ℚ) < maxCost := minmaxCost
  obtain ⟨g, hg⟩ : ∃ g, create ⟨1, 0, 0, 2, 2⟩ minCost maxCost = some g := ⟨_, by rw [create, if_pos hc]⟩
  obtain ⟨w, l, u, -, v⟩ := create_wf (by norm_num) (by norm_num) (by norm_num) hg
  obtain ⟨bs, g1, g2, e1, e2, w2, -, l2, -, len, hb, hk, ht⟩ := once_per_scan w u
    [((0, 1), costTable a), ((1, 1), costTable b), ((0, 1), costTable b)] (by
      intro u hu
      rw [l]
      simp only [List.mem_cons, List.not_mem_nil, or_false] at hu
      rcases hu with rfl | rfl | rfl
      all_goals dsimp only
      · exact ⟨by decide, costTable_ok a⟩
      · exact ⟨by decide, costTable_ok b⟩
      · exact ⟨by decide, costTable_ok b⟩)
  have h0 := (hb 0 _ rfl).2 (by simp)
  have h1 := (hb 1 _ rfl).2 (by
    intro m hm u' hu'
    obtain rfl : m = 0 := by omega
    simp at hu'
    subst hu'
    simp)
  have h2 : bs[2]? ≠ some true := by
    intro h
    exact (hb 2 _ rfl).1 h 0 (by omega) _ rfl rfl
  have e : bs = [true, true, false] := by
    match bs, len with
    | [x, y, z], _ =>
      simp at h0 h1 h2
      simp [h0, h1, h2]
  subst e
  refine ⟨g, g1, g2, hg, e1, e2, (ht 0 _ rfl (by simp)).2.2, ?_⟩
  rw [isKnown_eq w2, hk (0, 0) (by simp), v]
  rfl

end Verif.Grid2D
