import Verif.RangeDataInserter3D
import Verif.Props.HybridGridUpdate

/-!
# Inserting a scan applies hits over misses, once per voxel (C21, 3D)
-/

namespace Verif.Insert3D

open Verif.Prob Verif.Hybrid Verif.Grid2D

/-! ## The sampled voxels -/

/-- `q` is the integral part of the fraction `a / b` (rounded towards zero), for `b > 0`. -/
def IntegralPart (a b q : Int) : Prop := (0 ≤ a → q * b ≤ a ∧ a < (q + 1) * b) ∧ (a ≤ 0 → a ≤ q * b ∧ (q - 1) * b < a)

/-- `m` is the largest coordinate difference of two voxels. -/
def IsDistance (o h : I3) (m : Int) : Prop :=
  (∀ d ∈ [h.x - o.x, h.y - o.y, h.z - o.z], -m ≤ d ∧ d ≤ m) ∧ ∃ d ∈ [h.x - o.x, h.y - o.y, h.z - o.z], d = m ∨ d = -m

/-- The free voxels of a return in voxel `h` seen from voxel `o`: on the way from `o` to `h` the points at the fractions
`p / m`, of which the last `free` ones before `h` are used, rounded towards `o`. -/
def Sampled (free : Int) (o h c : I3) : Prop :=
  ∃ m p : Int, IsDistance o h m ∧ 0 ≤ p ∧ p < m ∧ m - free ≤ p ∧ IntegralPart ((h.x - o.x) * p) m (c.x - o.x) ∧
    IntegralPart ((h.y - o.y) * p) m (c.y - o.y) ∧ IntegralPart ((h.z - o.z) * p) m (c.z - o.z)

theorem numSamples_distance (o h : I3) : IsDistance o h (numSamples o h) := by
  unfold IsDistance numSamples
  simp only [List.mem_cons, List.not_mem_nil, or_false, forall_eq_or_imp, forall_eq, exists_eq_or_imp, exists_eq_left]
  omega

theorem distance_unique {o h : I3} {m m' : Int} (h1 : IsDistance o h m) (h2 : IsDistance o h m') : m = m' := by
  obtain ⟨a1, d, hd, a2⟩ := h1
  obtain ⟨b1, d', hd', b2⟩ := h2
  have := a1 d' hd'
  have := b1 d hd
  omega

theorem integralPart_iff {a b q : Int} (hb : 0 < b) : IntegralPart a b q ↔ q = a.tdiv b := by
  have h1 := Int.tmod_add_mul_tdiv a b
  have h2 := Int.tmod_lt_of_pos a hb
  constructor
  · rintro ⟨h3, h4⟩
    rcases le_total 0 a with h | h
    · rw [Int.tdiv_eq_ediv_of_nonneg h]
      obtain ⟨a1, a2⟩ := h3 h
      symm
      rw [Int.ediv_eq_iff_of_pos hb]
      constructor <;> linarith
    · obtain ⟨a1, a2⟩ := h4 h
      have e : a.tdiv b = -((-a) / b) := by
        rw [← Int.tdiv_eq_ediv_of_nonneg (by omega : 0 ≤ -a), Int.neg_tdiv, neg_neg]
      rw [e]
      have : (-a) / b = -q := by
        rw [Int.ediv_eq_iff_of_pos hb]
        constructor <;> linarith
      omega
  · rintro rfl
    constructor
    · intro h
      have := Int.tmod_nonneg b h
      constructor <;> linarith
    · intro h
      have h5 : a.tmod b ≤ 0 := by
        have := Int.tmod_nonneg b (by omega : 0 ≤ -a)
        rw [Int.neg_tmod] at this
        omega
      have h6 : -b < a.tmod b := by
        have := Int.tmod_lt_of_pos (-a) hb
        rw [Int.neg_tmod] at this
        omega
      constructor <;> linarith

theorem mem_positions {m free p : Int} : p ∈ positions m free ↔ 0 ≤ p ∧ m - free ≤ p ∧ p < m := by
  unfold positions
  simp only [List.mem_map, List.mem_range]
  constructor
  · rintro ⟨k, hk, rfl⟩; omega
  · rintro ⟨h1, h2, h3⟩
    exact ⟨(p - max 0 (m - free)).toNat, by omega, by omega⟩

theorem mem_missCells (free : Int) (o h c : I3) :
    c ∈ (positions (numSamples o h) free).map (fun pos => missCell o ⟨h.x - o.x, h.y - o.y, h.z - o.z⟩ pos (numSamples o h)) ↔
      Sampled free o h c := by
  have hd := numSamples_distance o h
  simp only [List.mem_map, mem_positions]
  constructor
  · rintro ⟨p, ⟨p0, p1, p2⟩, rfl⟩
    refine ⟨numSamples o h, p, hd, p0, p2, p1, ?_⟩
    simp only [integralPart_iff (show 0 < numSamples o h by omega), missCell]
    omega
  · rintro ⟨m, p, hd', p0, p1, p2, i1, i2, i3⟩
    obtain rfl := distance_unique hd hd'
    rw [integralPart_iff (by omega)] at i1 i2 i3
    refine ⟨p, ⟨p0, p2, p1⟩, ?_⟩
    obtain ⟨cx, cy, cz⟩ := c
    simp only [missCell, I3.mk.injEq] at *
    omega

theorem part_between {d p m q : Int} (hp : 0 ≤ p) (hpm : p < m) (h : IntegralPart (d * p) m q) : (0 ≤ q ∧ q ≤ d) ∨ (d ≤ q ∧ q ≤ 0) := by
  have hm : 0 < m := by omega
  rcases le_total 0 d with hd | hd
  · left
    obtain ⟨a1, a2⟩ := h.1 (mul_nonneg hd hp)
    constructor
    · have : 0 < (q + 1) * m := lt_of_le_of_lt (mul_nonneg hd hp) a2
      have := (mul_pos_iff_of_pos_right hm).1 this
      omega
    · have : q * m ≤ d * m := a1.trans (mul_le_mul_of_nonneg_left hpm.le hd)
      exact le_of_mul_le_mul_right this hm
  · right
    obtain ⟨a1, a2⟩ := h.2 (mul_nonpos_of_nonpos_of_nonneg hd hp)
    constructor
    · have : d * m ≤ q * m := (mul_le_mul_of_nonpos_left hpm.le hd).trans a1
      exact le_of_mul_le_mul_right this hm
    · have : (q - 1) * m < 0 := lt_of_lt_of_le a2 (mul_nonpos_of_nonpos_of_nonneg hd hp)
      have := neg_of_mul_neg_left this hm.le
      omega

/-- The free voxels lie in the box spanned by the origin and the return. -/
theorem sampled_valid {free : Int} {o h c : I3} (ho : Valid o) (hh : Valid h) (hs : Sampled free o h c) : Valid c := by
  obtain ⟨m, p, -, p0, p1, -, i1, i2, i3⟩ := hs
  have := part_between p0 p1 i1
  have := part_between p0 p1 i2
  have := part_between p0 p1 i3
  unfold Valid at *
  omega

/-- The voxel of a return is never among its own free voxels. -/
theorem sampled_ne_hit {free : Int} {o h c : I3} (hs : Sampled free o h c) : c ≠ h := by
  rintro rfl
  obtain ⟨m, p, ⟨-, d, hd, hm⟩, p0, p1, -, i1, i2, i3⟩ := hs
  have hm0 : 0 < m := by omega
  have key : ∀ d : Int, IntegralPart (d * p) m d → d = m ∨ d = -m → False := by
    intro d hi h
    rw [integralPart_iff hm0] at hi
    rcases h with rfl | rfl
    · rw [Int.mul_tdiv_cancel_left _ hm0.ne'] at hi; omega
    · rw [Int.neg_mul, Int.neg_tdiv, Int.mul_tdiv_cancel_left _ hm0.ne'] at hi; omega
  simp only [List.mem_cons, List.not_mem_nil, or_false] at hd
  rcases hd with rfl | rfl | rfl
  · exact key _ i1 hm
  · exact key _ i2 hm
  · exact key _ i3 hm

/-! ## Applying tables -/

structure Applied (g g' : HG) (P : I3 → Prop) (t : List Nat) : Prop where
  wf : HGWf g'
  res : g'.resolution = g.resolution
  other : ∀ i, ¬ P i ∨ updateMarker ≤ Hybrid.val g i → Hybrid.val g' i = Hybrid.val g i
  hit : ∀ i, P i → Hybrid.val g i < updateMarker → t[Hybrid.val g i]? = some (Hybrid.val g' i) ∧ updateMarker < Hybrid.val g' i

theorem Applied.refl {g : HG} (w : HGWf g) (t : List Nat) : Applied g g (fun _ => False) t :=
  ⟨w, rfl, fun _ _ => rfl, fun _ h => h.elim⟩

theorem Applied.trans {g g' g'' : HG} {P Q : I3 → Prop} {t : List Nat} (h : Applied g g' P t) (h' : Applied g' g'' Q t) :
    Applied g g'' (fun i => P i ∨ Q i) t := by
  refine ⟨h'.wf, h'.res.trans h.res, ?_, ?_⟩
  · rintro i (hi | hi)
    · rw [not_or] at hi
      rw [h'.other i (Or.inl hi.2), h.other i (Or.inl hi.1)]
    · have := h.other i (Or.inr hi)
      rw [h'.other i (Or.inr (by rw [this]; exact hi)), this]
  · intro i hi hm
    by_cases hp : P i
    · obtain ⟨h1, h2⟩ := h.hit i hp hm
      rw [h'.other i (Or.inr h2.le)]
      exact ⟨h1, h2⟩
    · have e := h.other i (Or.inl hp)
      have := h'.hit i (hi.resolve_left hp) (by rw [e]; exact hm)
      rwa [e] at this

theorem applyAll_spec {t : List Nat} (ht : TableOk t) (cells : List I3) : ∀ {g : HG}, HGWf g →
    (∀ i ∈ cells, Valid i) → ∃ g', applyAll cells t g = some g' ∧ Applied g g' (· ∈ cells) t := by
  induction cells with
  | nil => intro g w _; exact ⟨g, rfl, by simpa using Applied.refl w t⟩
  | cons i cells ih =>
    intro g w h
    obtain ⟨b, g1, e1, w1, l1, hb, hf, htr⟩ := apply_spec3 w (h i (by simp)) ht
    have A1 : Applied g g1 (· = i) t := by
      cases b with
      | false =>
        have hm : ¬ Hybrid.val g i < updateMarker := by simpa using hb
        exact ⟨w1, l1, fun j _ => hf rfl j, fun j hj hlt => by subst hj; exact absurd hlt hm⟩
      | true =>
        obtain ⟨e, he, hem, hv⟩ := htr rfl
        have hm := hb.1 rfl
        refine ⟨w1, l1, ?_, ?_⟩
        · rintro j (hj | hj)
          · rw [hv, if_neg hj]
          · rw [hv, if_neg]
            rintro rfl
            omega
        · rintro j rfl _
          rw [hv, if_pos rfl]
          exact ⟨he, (ht.2 e hem).1⟩
    obtain ⟨g2, e2, A2⟩ := ih w1 (fun j hj => h j (by simp [hj]))
    refine ⟨g2, ?_, ?_⟩
    · simp only [applyAll, List.foldlM_cons, e1, Option.bind_eq_bind, Option.bind_some]
      exact e2
    · have := A1.trans A2
      simpa [List.mem_cons] using this

theorem misses_spec {t : List Nat} (ht : TableOk t) (free : Int) (o : I3) (ho : Valid o) (res : ℚ) (ps : List P3) :
    ∀ {g : HG}, HGWf g → g.resolution = res → (∀ p ∈ ps, Valid (cellOf res p)) →
    ∃ g', ps.foldlM (fun g p =>
      let h := cellOf g.resolution p
      let d : I3 := ⟨h.x - o.x, h.y - o.y, h.z - o.z⟩
      if numSamples o h < 2 ^ 15 then
        applyAll ((positions (numSamples o h) free).map fun pos => missCell o d pos (numSamples o h)) t g
      else none) g = some g' ∧ Applied g g' (fun i => ∃ p ∈ ps, Sampled free o (cellOf res p) i) t := by
  induction ps with
  | nil => intro g w _ _; exact ⟨g, rfl, by simpa using Applied.refl w t⟩
  | cons p ps ih =>
    intro g w hr hv
    have hp := hv p (by simp)
    obtain ⟨g1, e1, A1⟩ := applyAll_spec ht ((positions (numSamples o (cellOf res p)) free).map fun pos =>
      missCell o ⟨(cellOf res p).x - o.x, (cellOf res p).y - o.y, (cellOf res p).z - o.z⟩ pos (numSamples o (cellOf res p))) w (by
        intro i hi
        rw [mem_missCells] at hi
        exact sampled_valid ho hp hi)
    obtain ⟨g2, e2, A2⟩ := ih A1.wf (A1.res.trans hr) (fun q hq => hv q (by simp [hq]))
    have hn : numSamples o (cellOf res p) < 2 ^ 15 := by
      unfold numSamples
      unfold Valid at ho hp
      omega
    refine ⟨g2, ?_, ?_⟩
    · simp only [List.foldlM_cons, hr, hn, if_true, e1, Option.bind_eq_bind, Option.bind_some]
      exact e2
    · have hP : (fun i => i ∈ (positions (numSamples o (cellOf res p)) free).map fun pos =>
          missCell o ⟨(cellOf res p).x - o.x, (cellOf res p).y - o.y, (cellOf res p).z - o.z⟩ pos (numSamples o (cellOf res p))) =
          Sampled free o (cellOf res p) := funext fun i => propext (mem_missCells _ _ _ _)
      rw [hP] at A1
      simpa using A1.trans A2

/-! ## Intensities -/

/-- The invariant of the intensity grid. -/
def IGWf (g : IG) : Prop := DynWf (baseLaws (ℚ × Nat) (0, 0)) g.grid

/-- Sum and number of the intensities of a voxel. -/
def cell (g : IG) (i : I3) : ℚ × Nat := dlook (baseLaws (ℚ × Nat) (0, 0)) g.grid i

/-- The intensities that count for voxel `i`. -/
def relevant (res : ℚ) (threshold : ℚ) (i : I3) (qs : List (P3 × ℚ)) : List ℚ :=
  (qs.filter fun q => q.2 ≤ threshold ∧ cellOf res q.1 = i).map Prod.snd

theorem intensities_loop (s : Scan3) (threshold res : ℚ) (qs : List (P3 × ℚ)) : ∀ (pre : List (P3 × ℚ)) (g : IG),
    s.returns = (pre ++ qs).map Prod.fst → s.intensities = (pre ++ qs).map Prod.snd → IGWf g → g.resolution = res →
    (∀ q ∈ qs, Valid (cellOf res q.1)) →
    ∃ g', (List.range' pre.length qs.length).foldlM (intensityStep s threshold) g = some g' ∧ IGWf g' ∧ g'.resolution = res ∧
      ∀ i, cell g' i = ((cell g i).1 + (relevant res threshold i qs).sum, (cell g i).2 + (relevant res threshold i qs).length) := by
  induction qs with
  | nil => intro pre g _ _ w hr _; exact ⟨g, rfl, w, hr, fun i => by simp [relevant]⟩
  | cons q qs ih =>
    intro pre g h1 h2 w hr hv
    have a1 : s.returns[pre.length]? = some q.1 := by rw [h1]; simp
    have a2 : s.intensities[pre.length]? = some q.2 := by rw [h2]; simp
    have step : ∃ g1, intensityStep s threshold g pre.length = some g1 ∧ IGWf g1 ∧ g1.resolution = res ∧
        ∀ i, cell g1 i = if q.2 ≤ threshold ∧ cellOf res q.1 = i then ((cell g i).1 + q.2, (cell g i).2 + 1) else cell g i := by
      unfold intensityStep
      simp only [a2, a1, Option.bind_eq_bind, Option.bind_some]
      by_cases ht : q.2 > threshold
      · refine ⟨g, by rw [if_pos ht], w, hr, ?_⟩
        intro i
        rw [if_neg]
        rintro ⟨h, -⟩
        exact absurd ht (not_lt.2 h)
      · obtain ⟨grid, e, w', l⟩ := modify_spec (baseLaws (ℚ × Nat) (0, 0)) w ((supported_base ((0, 0) : ℚ × Nat) _).2 (hv q (by simp)))
          (fun c => (c.1 + q.2, c.2 + 1))
        refine ⟨{ g with grid := grid }, ?_, w', hr, ?_⟩
        · rw [if_neg ht, hr]
          simp [IG.addIntensity, e, hr]
        · intro i
          have hl : cell { g with grid := grid } i = if i = cellOf res q.1 then ((cell g (cellOf res q.1)).1 + q.2, (cell g (cellOf res q.1)).2 + 1)
            else cell g i := l i
          rw [hl]
          by_cases hi : i = cellOf res q.1
          · subst hi
            rw [if_pos rfl, if_pos ⟨not_lt.1 ht, rfl⟩]
          · rw [if_neg hi, if_neg]
            rintro ⟨-, h⟩
            exact hi h.symm
    obtain ⟨g1, e1, w1, r1, v1⟩ := step
    obtain ⟨g2, e2, w2, r2, v2⟩ := ih (pre ++ [q]) g1 (by simpa using h1) (by simpa using h2) w1 r1 (fun q hq => hv q (by simp [hq]))
    refine ⟨g2, ?_, w2, r2, ?_⟩
    · rw [List.length_cons, List.range'_succ, List.foldlM_cons, e1]
      simp only [Option.bind_eq_bind, Option.bind_some]
      rw [← e2]
      simp
    · intro i
      rw [v2, v1]
      unfold relevant
      rw [List.filter_cons]
      by_cases h : q.2 ≤ threshold ∧ cellOf res q.1 = i
      · simp only [h, decide_true, if_true, and_self, List.map_cons, List.sum_cons, List.length_cons, Prod.mk.injEq]
        constructor
        · ring
        · omega
      · simp only [h, decide_false, if_false, Bool.false_eq_true]

theorem insertIntensities_spec (s : Scan3) (hs : s.intensities = [] ∨ s.intensities.length = s.returns.length) (threshold : ℚ) {g : IG}
    (w : IGWf g) (hv : ∀ p ∈ s.returns, Valid (cellOf g.resolution p)) :
    ∃ g', insertIntensities s threshold g = some g' ∧ IGWf g' ∧ g'.resolution = g.resolution ∧
      ∀ i, cell g' i = ((cell g i).1 + (relevant g.resolution threshold i (s.returns.zip s.intensities)).sum,
        (cell g i).2 + (relevant g.resolution threshold i (s.returns.zip s.intensities)).length) := by
  unfold insertIntensities
  by_cases h : s.intensities = []
  · refine ⟨g, by simp [h], w, rfl, ?_⟩
    intro i
    simp [h, relevant]
  · have hl := hs.resolve_left h
    have hpos : s.intensities.length > 0 := List.length_pos_iff.2 h
    obtain ⟨g', e, w', r', v'⟩ := intensities_loop s threshold g.resolution (s.returns.zip s.intensities) [] g
      (by rw [List.nil_append, List.map_fst_zip (by omega)]) (by rw [List.nil_append, List.map_snd_zip (by omega)]) w rfl
      (fun q hq => hv q.1 (List.of_mem_zip hq).1)
    refine ⟨g', ?_, w', r', v'⟩
    rw [if_pos hpos, ← e, List.range_eq_range']
    simp [hl]

/-! ## The theorem -/

/-- What inserting a scan does to the value `v` of a voxel. -/
def NewValue (hit miss : List Nat) (isHit isFree : Prop) (v v' : Nat) : Prop :=
  (isHit → hit[v]? = some (v' + updateMarker)) ∧ (¬ isHit → isFree → miss[v]? = some (v' + updateMarker)) ∧
    (¬ isHit → ¬ isFree → v' = v)

/-- Voxel `i` contains a return. -/
def IsHit (res : ℚ) (s : Scan3) (i : I3) : Prop := ∃ p ∈ s.returns, cellOf res p = i

/-- Voxel `i` is free because of some return. -/
def IsFree (res : ℚ) (free : Int) (s : Scan3) (i : I3) : Prop := ∃ p ∈ s.returns, Sampled free (cellOf res s.origin) (cellOf res p) i

/-- C21 (3D): for every scan whose points lie in the supported range of voxels and every hybrid grid without pending updates
inserting the scan succeeds; every voxel containing a return gets exactly one hit update, every other voxel sampled on a ray
exactly one miss update, all others keep their value.  The intensity grid, if there is one, accumulates the sum and number of
the intensities up to the threshold. -/
theorem insert_hits_over_misses_3d (s : Scan3) {hit miss : List Nat} (hh : TableOk hit) (hmi : TableOk miss) (free : Int) (threshold : ℚ)
    {g : HG} (w : HGWf g) (hu : g.updates = []) (ig : Option IG) (hs : s.intensities = [] ∨ s.intensities.length = s.returns.length)
    (ho : Valid (cellOf g.resolution s.origin)) (hv : ∀ p ∈ s.returns, Valid (cellOf g.resolution p))
    (hig : ∀ q, ig = some q → IGWf q ∧ ∀ p ∈ s.returns, Valid (cellOf q.resolution p)) :
    ∃ g' ig', insert s hit miss free threshold g ig = some (g', ig') ∧ HGWf g' ∧ g'.updates = [] ∧ g'.resolution = g.resolution ∧
      (∀ i, NewValue hit miss (IsHit g.resolution s i) (IsFree g.resolution free s i) (Hybrid.val g i) (Hybrid.val g' i)) ∧
      (ig'.isSome = ig.isSome) ∧
      (∀ q q', ig = some q → ig' = some q' → IGWf q' ∧ ∀ i,
        cell q' i = ((cell q i).1 + (relevant q.resolution threshold i (s.returns.zip s.intensities)).sum,
          (cell q i).2 + (relevant q.resolution threshold i (s.returns.zip s.intensities)).length)) := by
  obtain ⟨g1, e1, A1⟩ := applyAll_spec hh (s.returns.map (cellOf g.resolution)) w (by
    intro i hi
    obtain ⟨p, hp, rfl⟩ := List.mem_map.1 hi
    exact hv p hp)
  obtain ⟨g2, e2, A2⟩ := misses_spec hmi free (cellOf g.resolution s.origin) ho g.resolution s.returns A1.wf A1.res hv
  have hI : ∃ ig', insertIntensities? s threshold ig = some ig' ∧ (ig'.isSome = ig.isSome) ∧
      (∀ q q', ig = some q → ig' = some q' → IGWf q' ∧ ∀ i,
        cell q' i = ((cell q i).1 + (relevant q.resolution threshold i (s.returns.zip s.intensities)).sum,
          (cell q i).2 + (relevant q.resolution threshold i (s.returns.zip s.intensities)).length)) := by
    cases ig with
    | none => exact ⟨none, rfl, rfl, by simp⟩
    | some q =>
      obtain ⟨wq, vq⟩ := hig q rfl
      obtain ⟨q', e, w', -, v'⟩ := insertIntensities_spec s hs threshold wq vq
      refine ⟨some q', by simp [insertIntensities?, e], rfl, ?_⟩
      rintro _ _ ⟨⟩ ⟨⟩
      exact ⟨w', v'⟩
  obtain ⟨ig', e3, i1, i2⟩ := hI
  obtain ⟨g', e4, w', r', u', v'⟩ := finishUpdate_spec3 A2.wf
  have hlow : ∀ i, Hybrid.val g i < updateMarker := by
    intro i
    by_contra hc
    have := (w.pend i).2 (not_lt.1 hc)
    rw [hu] at this
    simp at this
  have hmem : ∀ i, i ∈ s.returns.map (cellOf g.resolution) ↔ IsHit g.resolution s i := by
    intro i; rw [List.mem_map]; rfl
  refine ⟨g', ig', ?_, w', u', r'.trans (A2.res.trans A1.res), ?_, i1, i2⟩
  · have e2' : insertMisses miss s.origin s.returns free g1 = some g2 := by
      unfold insertMisses
      rw [A1.res]
      exact e2
    unfold insert
    simp only [e1, e2', Option.bind_eq_bind, Option.bind_some]
    simp only [e3, e4, Option.bind_some]
  · intro i
    have step : ∀ x, updateMarker < x → (if updateMarker ≤ x then x - updateMarker else x) + updateMarker = x := by
      intro x hx; rw [if_pos hx.le]; omega
    refine ⟨?_, ?_, ?_⟩
    · intro hi
      obtain ⟨h1, h2⟩ := A1.hit i ((hmem i).2 hi) (hlow i)
      rw [v', A2.other i (Or.inr h2.le), step _ h2]
      exact h1
    · intro hi hq
      have e0 := A1.other i (Or.inl fun h => hi ((hmem i).1 h))
      obtain ⟨h1, h2⟩ := A2.hit i hq (by rw [e0]; exact hlow i)
      rw [v', step _ h2, ← e0]
      exact h1
    · intro hi hq
      have e0 := A1.other i (Or.inl fun h => hi ((hmem i).1 h))
      rw [v', A2.other i (Or.inl hq), e0, if_neg (by have := hlow i; omega)]

/-- C21 (3D): the order of the points does not matter for the voxels. -/
theorem insert_order_irrelevant_3d (s s' : Scan3) (hor : s'.origin = s.origin) (hr : s'.returns.Perm s.returns)
    {hit miss : List Nat} (hh : TableOk hit) (hmi : TableOk miss) (free : Int) (threshold : ℚ) {g : HG} (w : HGWf g) (hu : g.updates = [])
    (hs : s.intensities = [] ∧ s'.intensities = [])
    (ho : Valid (cellOf g.resolution s.origin)) (hv : ∀ p ∈ s.returns, Valid (cellOf g.resolution p)) :
    ∃ g1 g2, insert s hit miss free threshold g none = some (g1, none) ∧ insert s' hit miss free threshold g none = some (g2, none) ∧
      ∀ i, g1.grid.value 0 i = g2.grid.value 0 i := by
  obtain ⟨g1, i1, e1, w1, -, -, v1, j1, -⟩ := insert_hits_over_misses_3d s hh hmi free threshold w hu none (Or.inl hs.1) ho hv (by simp)
  obtain ⟨g2, i2, e2, w2, -, -, v2, j2, -⟩ := insert_hits_over_misses_3d s' hh hmi free threshold w hu none (Or.inl hs.2)
    (by rw [hor]; exact ho) (fun p hp => hv p (hr.mem_iff.1 hp)) (by simp)
  obtain rfl : i1 = none := by simpa using j1
  obtain rfl : i2 = none := by simpa using j2
  refine ⟨g1, g2, e1, e2, ?_⟩
  intro i
  rw [dyn_value _ w1.grid, dyn_value _ w2.grid]
  have h1 : IsHit g.resolution s' i ↔ IsHit g.resolution s i := by simp only [IsHit, hr.mem_iff]
  have h2 : IsFree g.resolution free s' i ↔ IsFree g.resolution free s i := by simp only [IsFree, hor, hr.mem_iff]
  obtain ⟨a1, a2, a3⟩ := v1 i
  obtain ⟨b1, b2, b3⟩ := v2 i
  rw [h1] at b1 b2 b3
  rw [h2] at b2 b3
  congr 1
  change Hybrid.val g1 i = Hybrid.val g2 i
  by_cases hp : IsHit g.resolution s i
  · have := (a1 hp).symm.trans (b1 hp)
    simpa using this
  · by_cases hq : IsFree g.resolution free s i
    · have := (a2 hp hq).symm.trans (b2 hp hq)
      simpa using this
    · rw [a3 hp hq, b3 hp hq]

/-- Non-vacuity: the free voxels of a return five voxels away when the last two are used. -/
example : Sampled 2 ⟨0, 0, 0⟩ ⟨5, -3, 1⟩ ⟨4, -2, 0⟩ ∧ Sampled 2 ⟨0, 0, 0⟩ ⟨5, -3, 1⟩ ⟨3, -1, 0⟩ ∧
    ¬ Sampled 2 ⟨0, 0, 0⟩ ⟨5, -3, 1⟩ ⟨2, -1, 0⟩ := by
  simp only [← mem_missCells]
  decide

example : HGWf (HG.create (1 / 10)) ∧ (HG.create (1 / 10)).updates = [] ∧ Valid (cellOf (1 / 10) (1, 2, -3)) := by
  refine ⟨create_wf _, rfl, ?_⟩
  unfold Valid cellOf
  decide +kernel

end Verif.Insert3D
