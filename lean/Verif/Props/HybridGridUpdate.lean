import Verif.Props.HybridGrid
import Verif.Props.ProbabilityValues
import Verif.Props.Grid2DUpdate

/-!
# C19 (serialization) and C14 for three dimensions
-/

namespace Verif.Hybrid

open Verif.Prob
open Verif.Grid2D (TableOk)

/-- The value of a voxel of a `HybridGrid`. -/
def val (g : HG) (i : I3) : Nat := dlook (baseLaws Nat 0) g.grid i

/-- Invariant of `HybridGrid`: the cells with the update mark are exactly those remembered in `update_indices_`. -/
structure HGWf (g : HG) : Prop where
  grid : DynWf (baseLaws Nat 0) g.grid
  lt : ∀ i, val g i < 65536
  ne : ∀ i, val g i ≠ updateMarker
  nodup : g.updates.Nodup
  pend : ∀ i, i ∈ g.updates ↔ updateMarker ≤ val g i

theorem HGWf.valid {g : HG} (w : HGWf g) {i : I3} (h : val g i ≠ 0) : Valid i :=
  (supported_base 0 i).1 (dlook_ne_supported _ w.grid h)

theorem create_wf (r : ℚ) : HGWf (HG.create r) := by
  have hv : ∀ i, val (HG.create r) i = 0 := fun i => empty_dlook _ i
  have := updateMarker_eq
  refine ⟨empty_wf _, fun i => by rw [hv]; omega, fun i => by rw [hv]; omega, List.nodup_nil, fun i => ?_⟩
  rw [hv]
  simp [HG.create]
  omega

theorem apply_spec3 {g : HG} (w : HGWf g) {i : I3} (hi : Valid i) {t : List Nat} (ht : TableOk t) :
    ∃ b g', g.applyLookupTable i t = some (b, g') ∧ HGWf g' ∧ g'.resolution = g.resolution ∧
      (b = true ↔ val g i < updateMarker) ∧ (b = false → ∀ j, val g' j = val g j) ∧
      (b = true → ∃ e, t[val g i]? = some e ∧ e ∈ t ∧ ∀ j, val g' j = if j = i then e else val g j) := by
  obtain ⟨tl, te⟩ := ht
  have hs := (supported_base (0 : Nat) i).2 hi
  obtain ⟨g1, e1, w1, l1⟩ := modify_spec (baseLaws Nat 0) w.grid hs id
  have l1' : ∀ j, dlook (baseLaws Nat 0) g1 j = val g j := by
    intro j
    rw [l1 j]
    by_cases h : j = i
    · subst h; simp [val]
    · simp [h, val]
  have hv1 : g1.value 0 i = some (val g i) := by rw [dyn_value (baseLaws Nat 0) w1, l1']
  unfold HG.applyLookupTable
  rw [if_pos tl]
  simp only [e1, hv1, Option.bind_eq_bind, Option.bind_some]
  by_cases hm : updateMarker ≤ val g i
  · refine ⟨false, { g with grid := g1 }, by rw [if_pos hm], ?_, rfl, by simp; omega, fun _ j => l1' j, by simp⟩
    exact ⟨w1, fun j => by rw [val, l1']; exact w.lt j, fun j => by rw [val, l1']; exact w.ne j, w.nodup, fun j => by
      rw [val, l1']; exact w.pend j⟩
  · have hlt : val g i < t.length := by omega
    obtain ⟨g2, e2, w2, l2⟩ := modify_spec (baseLaws Nat 0) w1 hs (fun _ => t[val g i])
    have hmem : t[val g i] ∈ t := List.getElem_mem hlt
    obtain ⟨t1, t2⟩ := te _ hmem
    have l2' : ∀ j, dlook (baseLaws Nat 0) g2 j = if j = i then t[val g i] else val g j := by
      intro j
      rw [l2 j, l1']
    refine ⟨true, { g with grid := g2, updates := i :: g.updates }, ?_, ?_, rfl, by simp; omega, by simp, ?_⟩
    · rw [if_neg hm]
      simp only [List.getElem?_eq_getElem hlt, Option.bind_some, e2]
      rw [if_pos (by omega)]
    · have hni : i ∉ g.updates := fun h => hm ((w.pend i).1 h)
      have hv2 : ∀ j, val { g with grid := g2, updates := i :: g.updates } j = if j = i then t[val g i] else val g j := l2'
      refine ⟨w2, ?_, ?_, ?_, ?_⟩
      · intro j
        rw [hv2]
        have := w.lt j
        split
        · omega
        · exact this
      · intro j
        rw [hv2]
        have := w.ne j
        split
        · omega
        · exact this
      · exact List.nodup_cons.2 ⟨hni, w.nodup⟩
      · intro j
        rw [hv2]
        simp only [List.mem_cons, w.pend j]
        by_cases h : j = i
        · simp only [h, if_true, true_or, true_iff]; omega
        · simp [h]
    · intro _
      exact ⟨t[val g i], List.getElem?_eq_getElem hlt, hmem, l2'⟩

/-- A sequence of table applications: the reported results and the final grid. -/
def applySeq3 : List (I3 × List Nat) → HG → Option (List Bool × HG)
  | [], g => some ([], g)
  | (i, t) :: us, g => do
    let (b, g1) ← g.applyLookupTable i t
    let (bs, g2) ← applySeq3 us g1
    some (b :: bs, g2)

theorem applySeq3_spec (us : List (I3 × List Nat)) : ∀ {g : HG}, HGWf g →
    (∀ u ∈ us, Valid u.1 ∧ TableOk u.2) →
    ∃ bs g', applySeq3 us g = some (bs, g') ∧ HGWf g' ∧ g'.resolution = g.resolution ∧ bs.length = us.length ∧
      (∀ (n : Nat) (u : I3 × List Nat), us[n]? = some u →
        (bs[n]? = some true ↔ val g u.1 < updateMarker ∧ ∀ m < n, ∀ u' : I3 × List Nat, us[m]? = some u' → u'.1 ≠ u.1)) ∧
      (∀ i, updateMarker ≤ val g i → val g' i = val g i) ∧
      (∀ i, (∀ u ∈ us, u.1 ≠ i) → val g' i = val g i) ∧
      (∀ (n : Nat) (u : I3 × List Nat), us[n]? = some u → val g u.1 < updateMarker →
        (∀ m < n, ∀ u' : I3 × List Nat, us[m]? = some u' → u'.1 ≠ u.1) → u.2[val g u.1]? = some (val g' u.1)) := by
  induction us with
  | nil =>
    intro g w _
    exact ⟨[], g, rfl, w, rfl, rfl, by simp, by simp, by simp, by simp⟩
  | cons u us ih =>
    obtain ⟨i, t⟩ := u
    intro g w h
    obtain ⟨hi, ht⟩ := h (i, t) (by simp)
    simp only at hi ht
    obtain ⟨b, g1, e1, w1, r1, hb, hf, htr⟩ := apply_spec3 w hi ht
    obtain ⟨bs, g2, e2, w2, r2, len, hbs, hp, hv, hq⟩ := ih w1 (fun u hu => h u (by simp [hu]))
    have hother : ∀ j, j ≠ i → val g1 j = val g j := by
      intro j hj
      cases b with
      | false => exact hf rfl j
      | true =>
        obtain ⟨e, -, -, hv1⟩ := htr rfl
        rw [hv1, if_neg hj]
    have hself : updateMarker ≤ val g1 i := by
      cases b with
      | false =>
        rw [hf rfl]
        by_contra hc
        have := hb.2 (by omega)
        simp at this
      | true =>
        obtain ⟨e, he, hem, hv1⟩ := htr rfl
        rw [hv1, if_pos rfl]
        exact (ht.2 e hem).1.le
    have hstep : ∀ (n : Nat) (u : I3 × List Nat),
        (∀ m < n + 1, ∀ u' : I3 × List Nat, ((i, t) :: us)[m]? = some u' → u'.1 ≠ u.1) ↔
        i ≠ u.1 ∧ ∀ m < n, ∀ u' : I3 × List Nat, us[m]? = some u' → u'.1 ≠ u.1 := by
      intro n u
      constructor
      · intro hm
        refine ⟨hm 0 (by omega) (i, t) (by simp), ?_⟩
        intro m hmn u' hu'
        exact hm (m + 1) (by omega) u' (by simpa using hu')
      · rintro ⟨h1, h2⟩ m hm u' hu'
        cases m with
        | zero =>
          obtain rfl : (i, t) = u' := by simpa using hu'
          exact h1
        | succ m => exact h2 m (by omega) u' (by simpa using hu')
    refine ⟨b :: bs, g2, by simp [applySeq3, e1, e2], w2, r2.trans r1, by simp [len], ?_, ?_, ?_, ?_⟩
    · intro n u hu
      cases n with
      | zero =>
        obtain rfl : (i, t) = u := by simpa using hu
        simp [hb]
      | succ n =>
        simp only [List.getElem?_cons_succ] at hu ⊢
        rw [hbs n u hu, hstep n u]
        constructor
        · rintro ⟨a1, a2⟩
          have hne : u.1 ≠ i := by
            intro e; rw [e] at a1; omega
          exact ⟨by rw [← hother _ hne]; exact a1, hne.symm, a2⟩
        · rintro ⟨a1, a2, a3⟩
          exact ⟨by rw [hother _ a2.symm]; exact a1, a3⟩
    · intro j hj
      have : val g1 j = val g j := by
        by_cases hji : j = i
        · subst hji
          cases b with
          | false => exact hf rfl j
          | true => have := hb.1 rfl; omega
        · exact hother j hji
      rw [hp j (by omega), this]
    · intro j hj
      rw [hv j (fun u hu => hj u (by simp [hu])), hother j (Ne.symm (hj (i, t) (by simp)))]
    · intro n u hu hlt hm
      cases n with
      | zero =>
        obtain rfl : (i, t) = u := by simpa using hu
        have hbt := hb.2 hlt
        obtain ⟨e, he, -, hv1⟩ := htr hbt
        simp only
        rw [hp i hself, hv1, if_pos rfl]
        exact he
      | succ n =>
        simp only [List.getElem?_cons_succ] at hu
        obtain ⟨h1, h2⟩ := (hstep n u).1 hm
        have := hq n u hu (by rw [hother _ h1.symm]; exact hlt) h2
        rwa [hother _ h1.symm] at this

theorem finishLoop_spec (is : List I3) : ∀ (g : Dyn (base Nat 0)), DynWf (baseLaws Nat 0) g → is.Nodup →
    (∀ i ∈ is, updateMarker ≤ dlook (baseLaws Nat 0) g i) →
    ∃ g', finishLoop is g = some g' ∧ DynWf (baseLaws Nat 0) g' ∧
      ∀ j, dlook (baseLaws Nat 0) g' j = if j ∈ is then dlook (baseLaws Nat 0) g j - updateMarker else dlook (baseLaws Nat 0) g j := by
  induction is with
  | nil => intro g hw _ _; exact ⟨g, rfl, hw, by simp⟩
  | cons i is ih =>
    intro g hw hn hm
    obtain ⟨hni, hn'⟩ := List.nodup_cons.1 hn
    have hmi := hm i (by simp)
    have hne : dlook (baseLaws Nat 0) g i ≠ 0 := by have := updateMarker_eq; omega
    obtain ⟨g1, e1, w1, l1⟩ := modify_spec (baseLaws Nat 0) hw (dlook_ne_supported _ hw hne) (fun c => c - updateMarker)
    obtain ⟨g2, e2, w2, l2⟩ := ih g1 w1 hn' (by
      intro j hj
      rw [l1 j, if_neg (by rintro rfl; exact hni hj)]
      exact hm j (by simp [hj]))
    refine ⟨g2, ?_, w2, ?_⟩
    · simp only [finishLoop, dyn_value (baseLaws Nat 0) hw, Option.bind_eq_bind, Option.bind_some, hmi, if_true, e1, e2]
    · intro j
      rw [l2 j, l1 j]
      by_cases hji : j = i
      · subst hji; simp [hni]
      · simp [hji]

theorem finishUpdate_spec3 {g : HG} (w : HGWf g) : ∃ g', g.finishUpdate = some g' ∧ HGWf g' ∧ g'.resolution = g.resolution ∧
    g'.updates = [] ∧ ∀ i, val g' i = if updateMarker ≤ val g i then val g i - updateMarker else val g i := by
  obtain ⟨g', e, hw, l⟩ := finishLoop_spec g.updates g.grid w.grid w.nodup (fun i hi => (w.pend i).1 hi)
  have hv : ∀ i, val { g with grid := g', updates := [] } i = if updateMarker ≤ val g i then val g i - updateMarker else val g i := by
    intro i
    have hl : val { g with grid := g', updates := [] } i = if i ∈ g.updates then val g i - updateMarker else val g i := l i
    rw [hl]
    by_cases h : i ∈ g.updates
    · rw [if_pos h, if_pos ((w.pend i).1 h)]
    · rw [if_neg h, if_neg (fun hc => h ((w.pend i).2 hc))]
  refine ⟨{ g with grid := g', updates := [] }, by simp [HG.finishUpdate, e], ?_, rfl, rfl, hv⟩
  have hlt : ∀ i, val { g with grid := g', updates := [] } i < updateMarker := by
    intro i
    rw [hv]
    have := w.lt i
    have := updateMarker_eq
    split <;> omega
  refine ⟨hw, ?_, ?_, List.nodup_nil, ?_⟩
  · intro i; have := hlt i; have := updateMarker_eq; omega
  · intro i; have := hlt i; omega
  · intro i
    have := hlt i
    simp only [List.not_mem_nil, false_iff]
    omega

/-- **C14 in three dimensions**: starting without pending updates, for every sequence of table applications to voxels
with valid indices: nothing aborts; an application reports `true` exactly when no earlier one of the sequence
concerned the same voxel; after finishing, an untouched voxel has its old value and a touched one the value of the
first table applied to it without the mark, which is not the unknown value. -/
theorem once_per_scan_3d {g : HG} (w : HGWf g) (hu : g.updates = []) (us : List (I3 × List Nat))
    (h : ∀ u ∈ us, Valid u.1 ∧ TableOk u.2) :
    ∃ bs g1 g2, applySeq3 us g = some (bs, g1) ∧ g1.finishUpdate = some g2 ∧ HGWf g2 ∧ g2.updates = [] ∧
      g2.resolution = g.resolution ∧ bs.length = us.length ∧ (∀ i, val g2 i < updateMarker) ∧
      (∀ (n : Nat) (u : I3 × List Nat), us[n]? = some u →
        (bs[n]? = some true ↔ ∀ m < n, ∀ u' : I3 × List Nat, us[m]? = some u' → u'.1 ≠ u.1)) ∧
      (∀ i, (∀ u ∈ us, u.1 ≠ i) → g2.grid.value 0 i = g.grid.value 0 i) ∧
      (∀ (n : Nat) (u : I3 × List Nat), us[n]? = some u →
        (∀ m < n, ∀ u' : I3 × List Nat, us[m]? = some u' → u'.1 ≠ u.1) →
        ∃ v v', g.grid.value 0 u.1 = some v ∧ g2.grid.value 0 u.1 = some v' ∧ u.2[v]? = some (v' + updateMarker) ∧
          g2.isKnown u.1 = some true) := by
  have h0 : ∀ i, val g i < updateMarker := by
    intro i
    by_contra hc
    have := (w.pend i).2 (by omega)
    rw [hu] at this
    simp at this
  obtain ⟨bs, g1, e1, w1, r1, len, hbs, hp, hv, hq⟩ := applySeq3_spec us w h
  obtain ⟨g2, e2, w2, r2, u2, v2⟩ := finishUpdate_spec3 w1
  have hval : ∀ (g : HG), HGWf g → ∀ i, g.grid.value 0 i = some (val g i) := fun g w i => dyn_value (baseLaws Nat 0) w.grid i
  refine ⟨bs, g1, g2, e1, e2, w2, u2, r2.trans r1, len, ?_, ?_, ?_, ?_⟩
  · intro i
    by_contra hc
    have := (w2.pend i).2 (by omega)
    rw [u2] at this
    simp at this
  · intro n u hn
    rw [hbs n u hn]
    simp [h0]
  · intro i hi
    rw [hval g2 w2, hval g w, v2, hv i hi, if_neg (by have := h0 i; omega)]
  · intro n u hn hm
    have hmem := (h u (List.mem_of_getElem? hn)).2.2
    have hq' := hq n u hn (h0 u.1) hm
    have := hmem _ (List.mem_of_getElem? hq')
    have hge : updateMarker ≤ val g1 u.1 := by omega
    refine ⟨val g u.1, val g2 u.1, hval g w _, hval g2 w2 _, ?_, ?_⟩
    · rw [hq', v2, if_pos hge]
      congr 1
      omega
    · unfold HG.isKnown
      rw [hval g2 w2]
      simp only [Option.bind_eq_bind, Option.bind_some, Option.some.injEq, bne_iff_ne]
      rw [v2, if_pos hge]
      omega

/-- Recoding a stored value on loading. -/
theorem recode3 {v : Nat} (h1 : 1 ≤ v) (h2 : v ≤ 32767) : probabilityToValue (valueToProbability v) = v :=
  encode_decode minmax _ h1 h2

theorem loadLoop_spec (p : Proto3) (l : List (I3 × Nat)) (hx : p.xs = l.map (·.1.x)) (hy : p.ys = l.map (·.1.y))
    (hz : p.zs = l.map (·.1.z)) (hv : p.values = l.map fun q : I3 × Nat => (q.2 : Int))
    (hl : ∀ q ∈ l, Valid q.1 ∧ 1 ≤ q.2 ∧ q.2 ≤ 32767) (ls : List (I3 × Nat)) : ∀ (pre : List (I3 × Nat)) (g : HG), l = pre ++ ls →
    DynWf (baseLaws Nat 0) g.grid →
    ∃ g', loadLoop p (List.range' pre.length ls.length) g = some g' ∧ DynWf (baseLaws Nat 0) g'.grid ∧
      g'.resolution = g.resolution ∧ g'.updates = g.updates ∧
      val g' = ls.foldl (fun m q => Function.update m q.1 q.2) (val g) := by
  induction ls with
  | nil => intro pre g _ hw; exact ⟨g, rfl, hw, rfl, rfl, rfl⟩
  | cons q ls ih =>
    intro pre g hpre hw
    obtain ⟨q1, q2, q3⟩ := hl q (by simp [hpre])
    obtain ⟨grid', e1, w1, l1⟩ := modify_spec (baseLaws Nat 0) hw ((supported_base (0 : Nat) q.1).2 q1)
      (fun _ => probabilityToValue (valueToProbability q.2))
    obtain ⟨g', e2, w2, r2, u2, l2⟩ := ih (pre ++ [q]) { g with grid := grid' } (by simp [hpre]) w1
    have hget : l[pre.length]? = some q := by simp [hpre]
    refine ⟨g', ?_, w2, r2, u2, ?_⟩
    · have hmod : (((q.2 : Nat) : Int) % 65536).toNat = q.2 := by omega
      rw [List.length_cons, List.range'_succ]
      simp only [loadLoop, hx, hy, hz, hv, List.getElem?_map, hget, Option.map_some, Option.bind_eq_bind, Option.bind_some, hmod,
        HG.setProbability, e1]
      rw [List.length_append, List.length_singleton] at e2
      exact e2
    · rw [l2, List.foldl_cons]
      congr 1
      funext j
      simp only [val, l1 j, Function.update_apply, recode3 q2 q3]

theorem foldl_update_apply (l : List (I3 × Nat)) : ∀ (m : I3 → Nat), (l.map Prod.fst).Nodup → ∀ i,
    ((∀ v, (i, v) ∈ l → l.foldl (fun m q => Function.update m q.1 q.2) m i = v) ∧
      (i ∉ l.map Prod.fst → l.foldl (fun m q => Function.update m q.1 q.2) m i = m i)) := by
  induction l with
  | nil => intro m _ i; simp
  | cons q l ih =>
    intro m hn i
    obtain ⟨hq, hn'⟩ := List.nodup_cons.1 hn
    obtain ⟨a1, a2⟩ := ih (Function.update m q.1 q.2) hn' i
    refine ⟨?_, ?_⟩
    · intro v hv
      rw [List.foldl_cons]
      rcases List.mem_cons.1 hv with h | h
      · subst h
        rw [a2 hq]
        simp
      · exact a1 v h
    · intro hi
      simp only [List.map_cons, List.mem_cons, not_or] at hi
      rw [List.foldl_cons, a2 hi.2, Function.update_apply, if_neg hi.1]

/-- **C19**, second part: a grid without pending updates can be serialized, and loading the result gives a grid with
the same resolution that has the same value in every voxel and satisfies the invariant. -/
theorem proto_roundtrip_3d {g : HG} (w : HGWf g) (hu : g.updates = []) : ∃ m p g', (∀ n, m ≤ n → g.toProto n = some p) ∧
    HG.fromProto p = some g' ∧ HGWf g' ∧ g'.updates = [] ∧ g'.resolution = g.resolution ∧
    ∀ i, g'.grid.value 0 i = g.grid.value 0 i := by
  obtain ⟨l, h1, h2, h3⟩ := dyn_collect (baseLaws Nat 0) w.grid
  have hle : ∀ i, val g i ≤ 32767 := by
    intro i
    have := updateMarker_eq
    by_contra hc
    have := (w.pend i).2 (by omega)
    rw [hu] at this
    simp at this
  have hl : ∀ q ∈ l, Valid q.1 ∧ 1 ≤ q.2 ∧ q.2 ≤ 32767 := by
    rintro ⟨i, v⟩ hq
    obtain ⟨rfl, hv⟩ := (h3 i v).1 hq
    exact ⟨w.valid hv, by simp only; omega, hle i⟩
  set p : Proto3 := ⟨g.resolution, l.map (·.1.x), l.map (·.1.y), l.map (·.1.z), l.map fun p : I3 × Nat => (p.2 : Int)⟩ with hp
  obtain ⟨g', e, w', r', u', v'⟩ := loadLoop_spec p l rfl rfl rfl rfl hl l [] (HG.create g.resolution) rfl (create_wf _).grid
  have hval : ∀ i, val g' i = val g i := by
    intro i
    rw [v']
    obtain ⟨a1, a2⟩ := foldl_update_apply l (val (HG.create g.resolution)) h2 i
    by_cases hi : val g i = 0
    · rw [a2, hi]
      · exact empty_dlook _ i
      · intro hm
        obtain ⟨⟨j, v⟩, hj, rfl⟩ := List.mem_map.1 hm
        obtain ⟨rfl, hv⟩ := (h3 j v).1 hj
        exact hv hi
    · exact a1 _ ((h3 i _).2 ⟨rfl, hi⟩)
  refine ⟨l.length, p, g', ?_, ?_, ⟨w', ?_, ?_, ?_, ?_⟩, u', r', ?_⟩
  · intro n hn
    simp [HG.toProto, hu, h1 n hn, hp]
  · unfold HG.fromProto
    rw [if_pos (by simp [hp]), List.range_eq_range']
    simpa [hp] using e
  · intro i; rw [hval]; exact w.lt i
  · intro i; rw [hval]; exact w.ne i
  · rw [u']; exact List.nodup_nil
  · intro i
    rw [hval, u']
    have := w.pend i
    rwa [hu] at this
  · intro i
    rw [dyn_value (baseLaws Nat 0) w', dyn_value (baseLaws Nat 0) w.grid]
    exact congrArg some (hval i)

/-- Serializing during an update aborts. -/
theorem proto_pending_aborts_3d {g : HG} (hu : g.updates ≠ []) (n : Nat) : g.toProto n = none := by
  simp [HG.toProto, hu]

/-- Setting a probability when nothing is pending keeps the invariant and changes only this voxel. -/
theorem setProbability_spec3 {g : HG} (w : HGWf g) (hu : g.updates = []) {i : I3} (hi : Valid i) (p : ℚ) :
    ∃ g', g.setProbability i p = some g' ∧ HGWf g' ∧ g'.updates = [] ∧
      ∀ j, val g' j = if j = i then probabilityToValue p else val g j := by
  obtain ⟨grid', e1, w1, l1⟩ := modify_spec (baseLaws Nat 0) w.grid ((supported_base (0 : Nat) i).2 hi) (fun _ => probabilityToValue p)
  have hr := probabilityToValue_range p
  have := updateMarker_eq
  have hv : ∀ j, val { g with grid := grid' } j = if j = i then probabilityToValue p else val g j := l1
  refine ⟨{ g with grid := grid' }, by simp [HG.setProbability, e1], ⟨w1, ?_, ?_, w.nodup, ?_⟩, hu, hv⟩
  · intro j; rw [hv]; have := w.lt j; split <;> omega
  · intro j; rw [hv]; have := w.ne j; split <;> omega
  · intro j
    rw [hv]
    have := w.pend j
    rw [hu] at this ⊢
    simp only [List.not_mem_nil, false_iff] at this ⊢
    split <;> omega

/-- Grids reachable through the public interface. -/
inductive Reach3 : HG → Prop
  | create (r : ℚ) : Reach3 (HG.create r)
  | set {g g' : HG} {i : I3} {p : ℚ} : Reach3 g → g.updates = [] → g.setProbability i p = some g' → Reach3 g'
  | apply {g g' : HG} {i : I3} {t : List Nat} {b : Bool} : Reach3 g → TableOk t → g.applyLookupTable i t = some (b, g') → Reach3 g'
  | finish {g g' : HG} : Reach3 g → g.finishUpdate = some g' → Reach3 g'

theorem reach3_wf {g : HG} (h : Reach3 g) : HGWf g := by
  induction h with
  | create r => exact create_wf r
  | @set g g' i p _ hu e w =>
    by_cases hi : Valid i
    · obtain ⟨g'', e', w', -⟩ := setProbability_spec3 w hu hi p
      rw [e] at e'
      obtain rfl := Option.some.inj e'
      exact w'
    · have : g.grid.modify 0 i (fun _ => probabilityToValue p) = none :=
        modifyLoop_unsupported (baseLaws Nat 0) i (fun hs => hi ((supported_base (0 : Nat) i).1 hs)) _ 9 g.grid w.grid
      simp [HG.setProbability, this] at e
  | @apply g g' i t b _ ht e w =>
    by_cases hi : Valid i
    · obtain ⟨b', g'', e', w', -⟩ := apply_spec3 w hi ht
      rw [e] at e'
      simp only [Option.some.injEq, Prod.mk.injEq] at e'
      rw [e'.2]
      exact w'
    · have : g.grid.modify 0 i id = none :=
        modifyLoop_unsupported (baseLaws Nat 0) i (fun hs => hi ((supported_base (0 : Nat) i).1 hs)) _ 9 g.grid w.grid
      simp [HG.applyLookupTable, this] at e
  | finish _ e w =>
    obtain ⟨g'', e', w', -⟩ := finishUpdate_spec3 w
    rw [e] at e'
    obtain rfl := Option.some.inj e'
    exact w'

/-- The centre of a voxel lies in the voxel. -/
theorem center_index {r : ℚ} (hr : 0 < r) (i : I3) :
    getCellIndex r (getCenterOfCell r i).1 (getCenterOfCell r i).2.1 (getCenterOfCell r i).2.2 = i := by
  have key : ∀ n : Int, roundToInt ((n : ℚ) * r / r) = n := by
    intro n
    rw [mul_div_cancel_right₀ _ hr.ne']
    unfold roundToInt
    split
    · rw [show ((n : ℚ) + 1 / 2) = 1 / 2 + n by ring, Int.floor_add_intCast]
      norm_num
    · rw [show ((n : ℚ) - 1 / 2) = -(1 / 2) + n by ring, Int.ceil_add_intCast]
      have : ⌈(-(1 / 2) : ℚ)⌉ = 0 := by rw [Int.ceil_eq_iff]; norm_num
      rw [this]; simp
  simp only [getCellIndex, getCenterOfCell, key]

/-- Every coordinate of a point is within half a voxel of the centre of its voxel. -/
theorem index_center {r : ℚ} (hr : 0 < r) (px py pz : ℚ) :
    |(getCenterOfCell r (getCellIndex r px py pz)).1 - px| ≤ r / 2 ∧
    |(getCenterOfCell r (getCellIndex r px py pz)).2.1 - py| ≤ r / 2 ∧
    |(getCenterOfCell r (getCellIndex r px py pz)).2.2 - pz| ≤ r / 2 := by
  have key : ∀ p : ℚ, |(roundToInt (p / r) : ℚ) * r - p| ≤ r / 2 := by
    intro p
    have h := roundToInt_nearest (p / r)
    have e : (roundToInt (p / r) : ℚ) * r - p = ((roundToInt (p / r) : ℚ) - p / r) * r := by
      field_simp
    rw [e, abs_mul, abs_of_pos hr]
    nlinarith
  exact ⟨key px, key py, key pz⟩

/-- Non-vacuity: a grid with one known voxel can be written, updated twice in one scan (the second update of the
same voxel is ignored), finished, serialized and loaded. -/
example (t : List Nat) (ht : TableOk t) : ∃ g g1 g2 p g3, (HG.create (1 / 20)).setProbability ⟨-3, 70, 5⟩ (9 / 10) = some g ∧
    applySeq3 [(⟨100, 0, 0⟩, t), (⟨100, 0, 0⟩, t)] g = some ([true, false], g1) ∧ g1.finishUpdate = some g2 ∧
    (∃ m, g2.toProto m = some p) ∧ HG.fromProto p = some g3 ∧ g3.grid.value 0 ⟨-3, 70, 5⟩ = some 32767 ∧
    g3.isKnown ⟨100, 0, 0⟩ = some true := by
  obtain ⟨g, e, w, u, v⟩ := setProbability_spec3 (create_wf (1 / 20)) rfl (i := ⟨-3, 70, 5⟩) (by simp [Valid]) (9 / 10)
  obtain ⟨bs, g1, g2, e1, e2, w2, u2, -, len, -, hb, hu, ht'⟩ := once_per_scan_3d w u
    [(⟨100, 0, 0⟩, t), (⟨100, 0, 0⟩, t)] (by simp [Valid, ht])
  obtain ⟨m, p, g3, e3, e4, w3, -, -, v3⟩ := proto_roundtrip_3d w2 u2
  have b0 := (hb 0 (⟨100, 0, 0⟩, t) rfl).2 (by simp)
  have b1 : ¬ bs[1]? = some true := by
    rw [hb 1 (⟨100, 0, 0⟩, t) rfl]
    intro h
    exact h 0 (by omega) (⟨100, 0, 0⟩, t) rfl rfl
  obtain ⟨x, y, rfl⟩ := List.length_eq_two.1 len
  simp only [List.getElem?_cons_zero, Option.some.injEq] at b0
  simp only [List.getElem?_cons_succ, List.getElem?_cons_zero, Option.some.injEq, Bool.not_eq_true] at b1
  subst b0 b1
  refine ⟨g, g1, g2, p, g3, e, e1, e2, ⟨m, e3 m (le_refl _)⟩, e4, ?_, ?_⟩
  · rw [v3, hu _ (by simp), dyn_value (baseLaws Nat 0) w.grid]
    have : val g ⟨-3, 70, 5⟩ = probabilityToValue (9 / 10) := by rw [v, if_pos rfl]
    rw [show dlook (baseLaws Nat 0) g.grid ⟨-3, 70, 5⟩ = val g ⟨-3, 70, 5⟩ from rfl, this]
    have h := recode3 (v := 32767) (by norm_num) (by norm_num)
    have : valueToProbability 32767 = 9 / 10 := by
      norm_num [valueToProbability, valueToBoundedFloat, slowValueToBoundedFloat, valueCount, minProbability, maxProbability]
    rw [this] at h
    rw [h]
  · obtain ⟨x, y, h1, h2, h3, h4⟩ := ht' 0 (⟨100, 0, 0⟩, t) rfl (by simp)
    unfold HG.isKnown at h4 ⊢
    rw [v3]
    exact h4

end Verif.Hybrid
