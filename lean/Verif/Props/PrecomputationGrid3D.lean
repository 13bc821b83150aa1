import Verif.FastCorrelative3D
import Verif.Props.HybridGridUpdate

/-!
# The grids of the 3D matcher hold window maxima (C49)
-/

namespace Verif.Fast3D

open Verif.Hybrid

/-- The value of a voxel of a precomputed grid. -/
abbrev look (g : Grid8) (i : I3) : Nat := dlook (baseLaws Nat 0) g i

/-- A grid in a proper state. -/
abbrev Wf (g : Grid8) : Prop := DynWf (baseLaws Nat 0) g

/-- The voxel `x` is in the cube of `2 ^ d` voxels per side that starts at `i`. -/
def InCube (d : Nat) (i x : I3) : Prop :=
  i.x ≤ x.x ∧ x.x < i.x + 2 ^ d ∧ i.y ≤ x.y ∧ x.y < i.y + 2 ^ d ∧ i.z ≤ x.z ∧ x.z < i.z + 2 ^ d

/-- The number of times the resolution has been halved at depth `d`. -/
def halvings (f d : Nat) : Nat := d + 1 - f

/-- `j` is the voxel of the grid of depth `d` that holds full resolution voxel `i`: rounding towards negative infinity. -/
def Holds (r : Nat) (j i : I3) : Prop := i.x / 2 ^ r = j.x ∧ i.y / 2 ^ r = j.y ∧ i.z / 2 ^ r = j.z

/-! ### One coordinate -/

/-- Some index `i` of which the coarse index is `j` starts a window that contains `x`. -/
def Cov (r d : Nat) (j x : Int) : Prop := ∃ i : Int, i / 2 ^ r = j ∧ i ≤ x ∧ x < i + 2 ^ d

theorem cov_step {r d : Nat} (hr : r ≤ d) (half : Bool) (j x : Int) :
    Cov (r + if half then 1 else 0) (d + 1) j x ↔ ∃ k o : Int, (o = 0 ∨ o = 1) ∧
      (if half then (k - 2 ^ (d - r) * o) / 2 else k - 2 ^ (d - r) * o) = j ∧ Cov r d k x := by
  have hpow : (2 : Int) ^ (d + 1) = 2 ^ d + 2 ^ d := by ring
  have hsplit : (2 : Int) ^ d = 2 ^ (d - r) * 2 ^ r := by rw [← pow_add]; congr 1; omega
  have hrpos : (0 : Int) < 2 ^ r := by positivity
  have hdpos : (0 : Int) < 2 ^ d := by positivity
  have hadd : ∀ a o : Int, (a + 2 ^ d * o) / 2 ^ r = a / 2 ^ r + 2 ^ (d - r) * o := by
    intro a o
    rw [hsplit, show a + 2 ^ (d - r) * 2 ^ r * o = a + (2 ^ (d - r) * o) * 2 ^ r by ring,
      Int.add_mul_ediv_right _ _ hrpos.ne']
  have hhalf : ∀ a : Int, a / 2 ^ (r + if half then 1 else 0) = if half then a / 2 ^ r / 2 else a / 2 ^ r := by
    intro a
    cases half
    · simp
    · simp only [if_true, pow_succ]
      rw [Int.ediv_ediv_of_nonneg hrpos.le]
  constructor
  · rintro ⟨i, h1, h2, h3⟩
    rw [hhalf] at h1
    rw [hpow] at h3
    by_cases hx : x < i + 2 ^ d
    · exact ⟨i / 2 ^ r, 0, Or.inl rfl, by simpa using h1, i, rfl, h2, hx⟩
    · refine ⟨(i + 2 ^ d * 1) / 2 ^ r, 1, Or.inr rfl, ?_, i + 2 ^ d * 1, rfl, by omega, by omega⟩
      rw [hadd, add_sub_cancel_right]
      exact h1
  · rintro ⟨k, o, ho, h1, i, h2, h3, h4⟩
    have e : (i + 2 ^ d * (-o)) / 2 ^ r = k - 2 ^ (d - r) * o := by rw [hadd, h2]; ring
    refine ⟨i + 2 ^ d * (-o), ?_, ?_, ?_⟩
    · rw [hhalf, e]
      exact h1
    · rcases ho with rfl | rfl <;> omega
    · rw [hpow]
      rcases ho with rfl | rfl <;> omega

/-! ### One step -/

theorem octant_iff (o : I3) : (∃ k ∈ List.range 8, getOctant k = some o) ↔
    (o.x = 0 ∨ o.x = 1) ∧ (o.y = 0 ∨ o.y = 1) ∧ (o.z = 0 ∨ o.z = 1) := by
  constructor
  · rintro ⟨k, hk, h⟩
    have hk := List.mem_range.1 hk
    simp only [getOctant, hk, if_true, Option.some.injEq] at h
    subst h
    refine ⟨?_, ?_, ?_⟩ <;> dsimp only <;> split <;> simp
  · obtain ⟨x, y, z⟩ := o
    rintro ⟨rfl | rfl, rfl | rfl, rfl | rfl⟩
    · exact ⟨0, by simp, by decide⟩
    · exact ⟨4, by simp, by decide⟩
    · exact ⟨2, by simp, by decide⟩
    · exact ⟨6, by simp, by decide⟩
    · exact ⟨1, by simp, by decide⟩
    · exact ⟨5, by simp, by decide⟩
    · exact ⟨3, by simp, by decide⟩
    · exact ⟨7, by simp, by decide⟩

theorem modify_inv {g g' : Grid8} (hw : Wf g) {i : I3} {f : Nat → Nat} (h : g.modify 0 i f = some g') :
    Valid i ∧ Wf g' ∧ ∀ j, look g' j = if j = i then f (look g i) else look g j := by
  by_cases hv : Valid i
  · obtain ⟨g1, e1, w1, l1⟩ := modify_spec (baseLaws Nat 0) hw ((supported_base 0 i).2 hv) f
    rw [h] at e1
    obtain rfl := Option.some.inj e1
    exact ⟨hv, w1, l1⟩
  · have : g.modify 0 i f = none :=
      modifyLoop_unsupported (baseLaws Nat 0) i (fun hs => hv ((supported_base 0 i).1 hs)) f 9 g hw
    rw [h] at this
    cases this

theorem octantLoop_spec {half : Bool} {shift : Int} {i : I3} {v : Nat} (ks : List Nat) : ∀ {g g' : Grid8}, Wf g →
    octantLoop half shift i v ks g = some g' → Wf g' ∧ (∀ k ∈ ks, ∀ o, getOctant k = some o → Valid (target half shift i o)) ∧
      ∀ j u, u ≤ look g' j ↔ u ≤ look g j ∨ (u ≤ v ∧ ∃ k ∈ ks, ∃ o, getOctant k = some o ∧ target half shift i o = j) := by
  induction ks with
  | nil =>
    intro g g' hw h
    obtain rfl := Option.some.inj h
    exact ⟨hw, by simp, by simp⟩
  | cons k ks ih =>
    intro g g' hw h
    simp only [octantLoop, Option.bind_eq_bind, Option.bind_eq_some_iff] at h
    obtain ⟨o, ho, g1, h1, h2⟩ := h
    obtain ⟨hv, w1, l1⟩ := modify_inv hw h1
    obtain ⟨w2, v2, l2⟩ := ih w1 h2
    refine ⟨w2, ?_, ?_⟩
    · intro k' hk' o' ho'
      rcases List.mem_cons.1 hk' with rfl | hk'
      · rw [ho] at ho'
        obtain rfl := Option.some.inj ho'
        exact hv
      · exact v2 k' hk' o' ho'
    · intro j u
      rw [l2, l1]
      constructor
      · rintro (h | ⟨h, k', hk', o', ho', ht⟩)
        · split at h
          · rename_i hj
            rcases le_max_iff.1 h with h | h
            · exact Or.inr ⟨h, k, by simp, o, ho, hj.symm⟩
            · rw [hj]; exact Or.inl h
          · exact Or.inl h
        · exact Or.inr ⟨h, k', by simp [hk'], o', ho', ht⟩
      · rintro (h | ⟨h, k', hk', o', ho', ht⟩)
        · left
          split
          · rename_i hj
            rw [← hj]
            exact le_max_of_le_right h
          · exact h
        · rcases List.mem_cons.1 hk' with rfl | hk'
          · rw [ho] at ho'
            obtain rfl := Option.some.inj ho'
            left
            rw [if_pos ht.symm]
            exact le_max_of_le_left h
          · exact Or.inr ⟨h, k', hk', o', ho', ht⟩

theorem octantLoop_total {half : Bool} {shift : Int} {i : I3} {v : Nat} (ks : List Nat) : ∀ {g : Grid8}, Wf g →
    (∀ k ∈ ks, ∃ o, getOctant k = some o ∧ Valid (target half shift i o)) →
    ∃ g', octantLoop half shift i v ks g = some g' := by
  induction ks with
  | nil => intro g _ _; exact ⟨g, rfl⟩
  | cons k ks ih =>
    intro g hw h
    obtain ⟨o, ho, hv⟩ := h k (by simp)
    obtain ⟨g1, e1, w1, -⟩ := modify_spec (baseLaws Nat 0) hw ((supported_base 0 _).2 hv) (fun w => max v w)
    obtain ⟨g2, e2⟩ := ih w1 (fun k hk => h k (by simp [hk]))
    exact ⟨g2, by simp [octantLoop, ho, e1, e2]⟩

/-- The offsets of the eight octants. -/
def IsOctant (o : I3) : Prop := (o.x = 0 ∨ o.x = 1) ∧ (o.y = 0 ∨ o.y = 1) ∧ (o.z = 0 ∨ o.z = 1)

theorem voxelLoop_spec {half : Bool} {shift : Int} (l : List (I3 × Nat)) : ∀ {g g' : Grid8}, Wf g →
    voxelLoop half shift l g = some g' → Wf g' ∧ (∀ p ∈ l, ∀ o, IsOctant o → Valid (target half shift p.1 o)) ∧
      ∀ j u, u ≤ look g' j ↔ u ≤ look g j ∨ ∃ p ∈ l, u ≤ p.2 ∧ ∃ o, IsOctant o ∧ target half shift p.1 o = j := by
  induction l with
  | nil =>
    intro g g' hw h
    obtain rfl := Option.some.inj h
    exact ⟨hw, by simp, by simp⟩
  | cons p l ih =>
    intro g g' hw h
    obtain ⟨i, v⟩ := p
    simp only [voxelLoop, Option.bind_eq_bind, Option.bind_eq_some_iff] at h
    obtain ⟨g1, h1, h2⟩ := h
    obtain ⟨w1, v1, l1⟩ := octantLoop_spec (List.range 8) hw h1
    obtain ⟨w2, v2, l2⟩ := ih w1 h2
    have hex : ∀ j, (∃ k ∈ List.range 8, ∃ o, getOctant k = some o ∧ target half shift i o = j) ↔
        ∃ o, IsOctant o ∧ target half shift i o = j := by
      intro j
      constructor
      · rintro ⟨k, hk, o, ho, ht⟩
        exact ⟨o, (octant_iff o).1 ⟨k, hk, ho⟩, ht⟩
      · rintro ⟨o, ho, ht⟩
        obtain ⟨k, hk, ho⟩ := (octant_iff o).2 ho
        exact ⟨k, hk, o, ho, ht⟩
    refine ⟨w2, ?_, ?_⟩
    · intro p hp o ho
      rcases List.mem_cons.1 hp with rfl | hp
      · obtain ⟨k, hk, ho⟩ := (octant_iff o).2 ho
        exact v1 k hk o ho
      · exact v2 p hp o ho
    · intro j u
      rw [l2, l1, hex, or_assoc]
      simp only [List.mem_cons, exists_eq_or_imp]

theorem voxelLoop_total {half : Bool} {shift : Int} (l : List (I3 × Nat)) : ∀ {g : Grid8}, Wf g →
    (∀ p ∈ l, ∀ o, IsOctant o → Valid (target half shift p.1 o)) → ∃ g', voxelLoop half shift l g = some g' := by
  induction l with
  | nil => intro g _ _; exact ⟨g, rfl⟩
  | cons p l ih =>
    intro g hw h
    obtain ⟨i, v⟩ := p
    obtain ⟨g1, e1⟩ := octantLoop_total (half := half) (shift := shift) (i := i) (v := v) (List.range 8) hw (by
      intro k hk
      have hk' := List.mem_range.1 hk
      refine ⟨_, by simp only [getOctant, hk', if_true]; rfl, ?_⟩
      exact h (i, v) (by simp) _ ((octant_iff _).1 ⟨k, hk, by simp only [getOctant, hk', if_true]⟩))
    obtain ⟨w1, -, -⟩ := octantLoop_spec (List.range 8) hw e1
    obtain ⟨g2, e2⟩ := ih w1 (fun p hp => h p (by simp [hp]))
    exact ⟨g2, by simp [voxelLoop, e1, e2]⟩

theorem collect_bound {g : Grid8} (hw : Wf g) {n : Nat} {l : List (I3 × Nat)}
    (h : g.collect 0 n (g.start 0) = some l) : ∀ i v, (i, v) ∈ l ↔ look g i = v ∧ v ≠ 0 := by
  obtain ⟨l', h1, -, h3⟩ := dyn_collect (baseLaws Nat 0) hw
  have mono : ∀ (n m : Nat) (it : (nested 0 (base Nat 0) g.bits).It) (l : List (I3 × Nat)), n ≤ m →
      g.collect 0 n it = some l → g.collect 0 m it = some l := by
    intro n
    induction n with
    | zero =>
      intro m it l _ h
      cases m with
      | zero => exact h
      | succ m =>
        simp only [Dyn.collect] at h ⊢
        split at h
        · rename_i hd
          rw [if_pos hd]
          exact h
        · cases h
    | succ n ih =>
      intro m it l hm h
      obtain ⟨m, rfl⟩ : ∃ m', m = m' + 1 := ⟨m - 1, by omega⟩
      simp only [Dyn.collect] at h ⊢
      split at h
      · rename_i hd
        rw [if_pos hd]
        exact h
      · rename_i hd
        rw [if_neg hd]
        simp only [Option.bind_eq_bind, Option.bind_eq_some_iff, Option.some.injEq] at h ⊢
        obtain ⟨i, e1, v, e2, it', e3, l1, e4, e5⟩ := h
        exact ⟨i, e1, v, e2, it', e3, l1, ih m it' l1 (by omega) e4, e5⟩
  have e := mono n (max n l'.length) _ _ (le_max_left _ _) h
  rw [h1 _ (le_max_right _ _)] at e
  obtain rfl := Option.some.inj e
  exact h3

theorem precompute_spec {n : Nat} {g g' : Grid8} {half : Bool} {shift : Int} (hw : Wf g)
    (h : precompute n g half shift = some g') : Wf g' ∧
      ∀ j u, 0 < u → (u ≤ look g' j ↔ ∃ i o, IsOctant o ∧ target half shift i o = j ∧ u ≤ look g i) := by
  simp only [precompute, Option.bind_eq_bind, Option.bind_eq_some_iff] at h
  obtain ⟨l, h1, h2⟩ := h
  have hl := collect_bound hw h1
  obtain ⟨w, -, hj⟩ := voxelLoop_spec l (empty_wf _) h2
  refine ⟨w, ?_⟩
  intro j u hu
  rw [hj, show look (Dyn.empty (base Nat 0)) j = 0 from empty_dlook _ j]
  constructor
  · rintro (h | ⟨⟨i, v⟩, hp, h1, o, ho, ht⟩)
    · omega
    · exact ⟨i, o, ho, ht, by rw [((hl i v).1 hp).1]; exact h1⟩
  · rintro ⟨i, o, ho, ht, hi⟩
    exact Or.inr ⟨(i, look g i), (hl i _).2 ⟨rfl, by omega⟩, hi, o, ho, ht⟩

theorem precompute_total {g : Grid8} {half : Bool} {shift : Int} (hw : Wf g)
    (h : ∀ i o, look g i ≠ 0 → IsOctant o → Valid (target half shift i o)) :
    ∃ m g', ∀ n, m ≤ n → precompute n g half shift = some g' := by
  obtain ⟨l, h1, -, h3⟩ := dyn_collect (baseLaws Nat 0) hw
  obtain ⟨g', e⟩ := voxelLoop_total (half := half) (shift := shift) l (empty_wf (baseLaws Nat 0)) (by
    rintro ⟨i, v⟩ hp o ho
    obtain ⟨a, b⟩ := (h3 i v).1 hp
    exact h i o (by rw [look, a]; exact b) ho)
  exact ⟨l.length, g', fun n hn => by simp [precompute, h1 n hn, e]⟩

/-! ### The whole stack -/

/-- What the grid of depth `d` holds: its voxel `j` is the maximum of all original voxels in the cubes that start at a
voxel held by `j`. -/
def WindowMax (g0 : Grid8) (f d : Nat) (g : Grid8) : Prop :=
  ∀ j u, 0 < u → (u ≤ look g j ↔ ∃ i x, Holds (halvings f d) j i ∧ InCube d i x ∧ u ≤ look g0 x)

theorem window_cov {g0 g : Grid8} {f d : Nat} : WindowMax g0 f d g ↔ ∀ j u, 0 < u → (u ≤ look g j ↔
    ∃ x, Cov (halvings f d) d j.x x.x ∧ Cov (halvings f d) d j.y x.y ∧ Cov (halvings f d) d j.z x.z ∧ u ≤ look g0 x) := by
  have : ∀ j u, (∃ i x, Holds (halvings f d) j i ∧ InCube d i x ∧ u ≤ look g0 x) ↔
      ∃ x, Cov (halvings f d) d j.x x.x ∧ Cov (halvings f d) d j.y x.y ∧ Cov (halvings f d) d j.z x.z ∧ u ≤ look g0 x := by
    intro j u
    constructor
    · rintro ⟨i, x, ⟨h1, h2, h3⟩, ⟨a1, a2, a3, a4, a5, a6⟩, hu⟩
      exact ⟨x, ⟨i.x, h1, a1, a2⟩, ⟨i.y, h2, a3, a4⟩, ⟨i.z, h3, a5, a6⟩, hu⟩
    · rintro ⟨x, ⟨a, h1, a1, a2⟩, ⟨b, h2, a3, a4⟩, ⟨c, h3, a5, a6⟩, hu⟩
      exact ⟨⟨a, b, c⟩, x, ⟨h1, h2, h3⟩, ⟨a1, a2, a3, a4, a5, a6⟩, hu⟩
  unfold WindowMax
  simp only [this]

theorem windowMax_zero {f : Nat} (hf : 1 ≤ f) (g : Grid8) : WindowMax g f 0 g := by
  have h0 : halvings f 0 = 0 := by simp [halvings]; omega
  intro j u _
  rw [h0]
  constructor
  · intro h
    exact ⟨j, j, by simp [Holds], by simp [InCube], h⟩
  · rintro ⟨i, x, ⟨h1, h2, h3⟩, ⟨a1, a2, a3, a4, a5, a6⟩, h⟩
    simp only [pow_zero, Int.ediv_one] at *
    have : x = j := I3.ext' (by omega) (by omega) (by omega)
    rwa [← this]

theorem halvings_le {f : Nat} (hf : 1 ≤ f) (d : Nat) : halvings f d ≤ d := by unfold halvings; omega

theorem halvings_succ (f d : Nat) (hf : 1 ≤ f) : halvings f (d + 1) = halvings f d + if decide (f ≤ d + 1) then 1 else 0 := by
  unfold halvings
  split
  · rename_i h; simp at h; omega
  · rename_i h; simp at h; omega

/-- `>> 1` is division by two, rounding down. -/
theorem shr_eq (a : Int) (e : Nat) : a >>> e = a / 2 ^ e := by
  rw [Int.shiftRight_eq_div_pow]; norm_cast

/-- The shift in voxels of the grid before is the number of voxels that half the window has. -/
theorem shift_eq {f d : Nat} (hf : 1 ≤ f) :
    ((2 : Int) ^ (d + 1) - 2 ^ d + (2 ^ (max 0 (((d + 1 : Nat) : Int) - f)).toNat - 1)).tdiv
      (2 ^ (max 0 (((d + 1 : Nat) : Int) - f)).toNat) = 2 ^ (d - halvings f d) := by
  have e1 : (max 0 (((d + 1 : Nat) : Int) - f)).toNat = halvings f d := by unfold halvings; omega
  rw [e1]
  have h2 : (2 : Int) ^ (d + 1) - 2 ^ d = 2 ^ (d - halvings f d) * 2 ^ halvings f d := by
    rw [← pow_add, show d - halvings f d + halvings f d = d from Nat.sub_add_cancel (halvings_le hf d)]
    ring
  have hp : (0 : Int) < 2 ^ halvings f d := by positivity
  have hq : (0 : Int) < 2 ^ (d - halvings f d) := by positivity
  rw [h2, Int.tdiv_eq_ediv_of_nonneg (by nlinarith), add_comm, Int.add_mul_ediv_right _ _ hp.ne',
    Int.ediv_eq_zero_of_lt (by omega) (by omega), zero_add]

theorem target_coord (half : Bool) (s : Int) (i o : I3) : target half s i o =
    ⟨if half then (i.x - s * o.x) / 2 else i.x - s * o.x, if half then (i.y - s * o.y) / 2 else i.y - s * o.y,
      if half then (i.z - s * o.z) / 2 else i.z - s * o.z⟩ := by
  unfold target shiftRight
  cases half
  · simp
  · simp [shr_eq]

theorem windowMax_succ {g0 g g' : Grid8} {f d n : Nat} (hf : 1 ≤ f) (hw : Wf g) (hm : WindowMax g0 f d g)
    (h : precompute n g (decide (f ≤ d + 1)) (2 ^ (d - halvings f d)) = some g') :
    Wf g' ∧ WindowMax g0 f (d + 1) g' := by
  obtain ⟨w, hp⟩ := precompute_spec hw h
  refine ⟨w, ?_⟩
  rw [window_cov] at hm ⊢
  have hr := halvings_le hf d
  intro j u hu
  rw [hp j u hu, halvings_succ f d hf]
  simp only [cov_step hr]
  constructor
  · rintro ⟨i, o, ⟨ox, oy, oz⟩, ht, hi⟩
    obtain ⟨x, c1, c2, c3, hx⟩ := (hm i u hu).1 hi
    rw [target_coord] at ht
    subst ht
    exact ⟨x, ⟨i.x, o.x, ox, rfl, c1⟩, ⟨i.y, o.y, oy, rfl, c2⟩, ⟨i.z, o.z, oz, rfl, c3⟩, hx⟩
  · rintro ⟨x, ⟨kx, ox, h1, t1, c1⟩, ⟨ky, oy, h2, t2, c2⟩, ⟨kz, oz, h3, t3, c3⟩, hx⟩
    refine ⟨⟨kx, ky, kz⟩, ⟨ox, oy, oz⟩, ⟨h1, h2, h3⟩, ?_, (hm ⟨kx, ky, kz⟩ u hu).2 ⟨x, c1, c2, c3, hx⟩⟩
    rw [target_coord]
    exact I3.ext' t1 t2 t3

theorem stackLoop_spec {g0 : Grid8} {n f : Nat} (hf : 1 ≤ f) : ∀ (k d : Nat) {g : Grid8} {rest : List Grid8}, Wf g →
    WindowMax g0 f d g → stackLoop n f k (d + 1) (2 ^ d) g = some rest →
    rest.length = k ∧ ∀ i gi, rest[i]? = some gi → Wf gi ∧ WindowMax g0 f (d + 1 + i) gi := by
  intro k
  induction k with
  | zero =>
    intro d g rest _ _ h
    obtain rfl := Option.some.inj h
    simp
  | succ k ih =>
    intro d g rest hw hm h
    simp only [stackLoop, shift_eq hf, Option.bind_eq_bind, Option.bind_eq_some_iff, Option.some.injEq] at h
    obtain ⟨g1, h1, rest1, h2, rfl⟩ := h
    obtain ⟨w1, m1⟩ := windowMax_succ hf hw hm h1
    obtain ⟨hlen, hi⟩ := ih (d + 1) w1 m1 h2
    refine ⟨by simp [hlen], ?_⟩
    intro i gi hgi
    cases i with
    | zero =>
      obtain rfl := Option.some.inj hgi
      exact ⟨w1, m1⟩
    | succ i =>
      have := hi i gi hgi
      rwa [show d + 1 + 1 + i = d + 1 + (i + 1) by omega] at this

/-- **C49**, exact form: the grid of depth `d` holds in its voxel `j` the maximum of the original voxels in all cubes of
`2 ^ d` voxels per side that start at a voxel held by `j`. -/
theorem stack_window {g0 : Grid8} {n depth f : Nat} (hw : Wf g0) {stack : List Grid8}
    (h : stackFrom n g0 depth f = some stack) : stack.length = depth ∧ stack[0]? = some g0 ∧
      ∀ d g, stack[d]? = some g → Wf g ∧ WindowMax g0 f d g := by
  unfold stackFrom at h
  split at h
  · rename_i hc
    simp only [Option.bind_eq_bind, Option.bind_eq_some_iff, Option.some.injEq] at h
    obtain ⟨rest, h1, rfl⟩ := h
    obtain ⟨hlen, hi⟩ := stackLoop_spec (g0 := g0) hc.2 (depth - 1) 0 hw (windowMax_zero hc.2 g0) h1
    refine ⟨by simp [hlen]; omega, rfl, ?_⟩
    intro d g hg
    cases d with
    | zero =>
      obtain rfl := Option.some.inj hg
      exact ⟨hw, windowMax_zero hc.2 _⟩
    | succ d =>
      have := hi d g hg
      rwa [show 0 + 1 + d = d + 1 by omega] at this
  · cases h

/-- **C49**: at every depth the value of a voxel is at least that of every original voxel in the window of each full
resolution voxel it holds. -/
theorem coarse_bounds_fine {g0 : Grid8} {n depth f : Nat} (hw : Wf g0) {stack : List Grid8}
    (h : stackFrom n g0 depth f = some stack) {d : Nat} {g : Grid8} (hg : stack[d]? = some g) {j i x : I3}
    (hj : Holds (halvings f d) j i) (hx : InCube d i x) : ∃ a b, g.value 0 j = some a ∧ g0.value 0 x = some b ∧ b ≤ a := by
  obtain ⟨-, -, hs⟩ := stack_window hw h
  obtain ⟨w, hm⟩ := hs d g hg
  refine ⟨_, _, dyn_value _ w j, dyn_value _ hw x, ?_⟩
  rcases Nat.eq_zero_or_pos (look g0 x) with h0 | h0
  · show look g0 x ≤ _
    omega
  · exact (hm j _ h0).2 ⟨i, x, hj, hx, le_refl _⟩

/-- The value of a voxel is attained by an original voxel of one of its windows, unless it is zero. -/
theorem coarse_attained {g0 : Grid8} {n depth f : Nat} (hw : Wf g0) {stack : List Grid8}
    (h : stackFrom n g0 depth f = some stack) {d : Nat} {g : Grid8} (hg : stack[d]? = some g) {j : I3} {a : Nat}
    (ha : g.value 0 j = some a) (h0 : a ≠ 0) : ∃ i x, Holds (halvings f d) j i ∧ InCube d i x ∧ g0.value 0 x = some a := by
  obtain ⟨-, -, hs⟩ := stack_window hw h
  obtain ⟨w, hm⟩ := hs d g hg
  rw [dyn_value _ w j, Option.some.injEq] at ha
  obtain ⟨i, x, h1, h2, h3⟩ := (hm j a (by omega)).1 ha.ge
  refine ⟨i, x, h1, h2, ?_⟩
  rw [dyn_value _ hw x, Option.some.injEq]
  have := (hm j (look g0 x) (by omega)).2 ⟨i, x, h1, h2, le_refl _⟩
  exact le_antisymm (this.trans ha.le) h3

/-! ### The stack can be computed -/

/-- All voxels of the grid are so far from the lower end of the supported range that a window fits in between. -/
def Room (g0 : Grid8) (depth : Nat) : Prop :=
  ∀ x, look g0 x ≠ 0 → -8192 + (2 ^ (depth - 1) - 1) ≤ x.x ∧ -8192 + (2 ^ (depth - 1) - 1) ≤ x.y ∧ -8192 + (2 ^ (depth - 1) - 1) ≤ x.z

theorem cov_valid {r d D : Nat} {j x : Int} (hd : d ≤ D - 1) (h : Cov r d j x) (h1 : -8192 + (2 ^ (D - 1) - 1) ≤ x)
    (h2 : x ≤ 8191) : -8192 ≤ j ∧ j ≤ 8191 := by
  obtain ⟨i, rfl, h3, h4⟩ := h
  have hp : (2 : Int) ^ d ≤ 2 ^ (D - 1) := pow_le_pow_right₀ (by norm_num) hd
  have hr : (1 : Int) ≤ 2 ^ r := one_le_pow₀ (by norm_num)
  constructor
  · rw [Int.le_ediv_iff_mul_le (by omega)]
    nlinarith
  · have : i / 2 ^ r < 8192 := by
      rw [Int.ediv_lt_iff_lt_mul (by omega)]
      nlinarith
    omega

theorem stackLoop_total {g0 : Grid8} {f D : Nat} (hf : 1 ≤ f) (hw0 : Wf g0) (hroom : Room g0 D) : ∀ (k d : Nat) {g : Grid8}, Wf g →
    WindowMax g0 f d g → d + k ≤ D - 1 → ∃ m rest, ∀ n, m ≤ n → stackLoop n f k (d + 1) (2 ^ d) g = some rest := by
  intro k
  induction k with
  | zero => intro d g _ _ _; exact ⟨0, [], fun _ _ => rfl⟩
  | succ k ih =>
    intro d g hw hm hk
    have hvalid : ∀ i o, look g i ≠ 0 → IsOctant o → Valid (target (decide (f ≤ d + 1)) (2 ^ (d - halvings f d)) i o) := by
      rintro i o hi ⟨ox, oy, oz⟩
      obtain ⟨x, c1, c2, c3, hx⟩ := (window_cov.1 hm i 1 (by omega)).1 (Nat.pos_of_ne_zero hi)
      have hr := halvings_le hf d
      have hx0 : look g0 x ≠ 0 := by omega
      obtain ⟨r1, r2, r3⟩ := hroom x hx0
      obtain ⟨-, -, -, v4, v5, v6⟩ := (supported_base 0 x).1 (dlook_ne_supported _ hw0 hx0)
      have s1 := cov_valid (by omega) ((cov_step hr (decide (f ≤ d + 1)) _ x.x).2 ⟨i.x, o.x, ox, rfl, c1⟩) r1 v4
      have s2 := cov_valid (by omega) ((cov_step hr (decide (f ≤ d + 1)) _ x.y).2 ⟨i.y, o.y, oy, rfl, c2⟩) r2 v5
      have s3 := cov_valid (by omega) ((cov_step hr (decide (f ≤ d + 1)) _ x.z).2 ⟨i.z, o.z, oz, rfl, c3⟩) r3 v6
      rw [target_coord]
      exact ⟨s1.1, s2.1, s3.1, s1.2, s2.2, s3.2⟩
    obtain ⟨m1, g1, e1⟩ := precompute_total hw hvalid
    obtain ⟨w1, hm1⟩ := windowMax_succ hf hw hm (e1 m1 (le_refl _))
    obtain ⟨m2, rest, e2⟩ := ih (d + 1) w1 hm1 (by omega)
    refine ⟨max m1 m2, g1 :: rest, ?_⟩
    intro n hn
    simp only [stackLoop, shift_eq hf, Option.bind_eq_bind, e1 n (by omega), Option.bind_some, e2 n (by omega)]

/-- Given enough room below the map, the stack is computed. -/
theorem stackFrom_total {g0 : Grid8} {depth f : Nat} (hw : Wf g0) (hd : 1 ≤ depth) (hf : 1 ≤ f) (hroom : Room g0 depth) :
    ∃ m stack, ∀ n, m ≤ n → stackFrom n g0 depth f = some stack := by
  obtain ⟨m, rest, e⟩ := stackLoop_total hf hw hroom (depth - 1) 0 hw (windowMax_zero hf g0) (by omega)
  refine ⟨m, g0 :: rest, fun n hn => ?_⟩
  have := e n hn
  simp only [zero_add, pow_zero] at this
  simp [stackFrom, hd, hf, this]

/-- Without that room it is not: a voxel at the lower end of the supported range makes the constructor abort as soon as a
second depth at full resolution is asked for. -/
theorem stack_aborts_at_border {g0 : Grid8} {n depth f : Nat} (hw : Wf g0) (hd : 2 ≤ depth) (hf : 2 ≤ f) {x : I3}
    (hx : look g0 x ≠ 0) (hb : x.x = -8192) : stackFrom n g0 depth f = none := by
  by_contra hc
  obtain ⟨stack, hs⟩ := Option.ne_none_iff_exists'.1 hc
  obtain ⟨hlen, -, hall⟩ := stack_window hw hs
  obtain ⟨w, hm⟩ := hall 1 stack[1] (by rw [List.getElem?_eq_getElem])
  have h0 : halvings f 1 = 0 := by unfold halvings; omega
  have := (hm ⟨-8193, x.y, x.z⟩ 1 (by omega)).2 ⟨⟨-8193, x.y, x.z⟩, x, by simp [h0, Holds], by simp [InCube, hb], by omega⟩
  have hv := (supported_base 0 _).1 (dlook_ne_supported _ w (i := ⟨-8193, x.y, x.z⟩) (d := 0) (by
    show look _ _ ≠ 0
    omega))
  have := hv.1
  simp at this

/-! ### The first grid -/

theorem probability_range (v : Nat) : Prob.minProbability ≤ Prob.valueToProbability v ∧
    Prob.valueToProbability v ≤ Prob.maxProbability := by
  unfold Prob.valueToProbability Prob.valueToBoundedFloat Prob.slowValueToBoundedFloat Prob.valueCount
  have hlt : v % 32768 < 32768 := Nat.mod_lt _ (by norm_num)
  generalize v % 32768 = w at hlt
  split
  · unfold Prob.maxProbability Prob.minProbability; norm_num
  · rename_i h0
    have h1 : (1 : ℚ) ≤ w := by exact_mod_cast Nat.one_le_iff_ne_zero.2 h0
    have h2 : (w : ℚ) ≤ 32767 := by exact_mod_cast Nat.le_of_lt_succ hlt
    unfold Prob.maxProbability Prob.minProbability
    constructor <;> norm_num <;> linarith

/-- The checks in `ConvertToPrecomputationGrid` hold, and `ToProbability` (precomputation_grid_3d.h:32-35) of the stored
value is within half a step of the probability. -/
theorem cellValue_spec (v : Nat) : ∃ c, cellValue v = some c ∧ c ≤ 255 ∧
    |(1 / 10 + (c : ℚ) * ((8 / 10) / 255)) - Prob.valueToProbability v| ≤ (8 / 10) / 510 := by
  obtain ⟨h1, h2⟩ := probability_range v
  have hnn : (0 : ℚ) ≤ (Prob.valueToProbability v - Prob.minProbability) * (255 / (Prob.maxProbability - Prob.minProbability)) := by
    apply mul_nonneg (by linarith)
    unfold Prob.maxProbability Prob.minProbability; norm_num
  have hle : (Prob.valueToProbability v - Prob.minProbability) * (255 / (Prob.maxProbability - Prob.minProbability)) ≤ ((255 : Int) : ℚ) := by
    unfold Prob.maxProbability Prob.minProbability at *
    norm_num at *
    linarith
  have hr := Prob.roundToInt_nearest ((Prob.valueToProbability v - Prob.minProbability) * (255 / (Prob.maxProbability - Prob.minProbability)))
  have h255 := Prob.roundToInt_le_int hnn hle
  have h0 : 0 ≤ Prob.roundToInt ((Prob.valueToProbability v - Prob.minProbability) * (255 / (Prob.maxProbability - Prob.minProbability))) := by
    have := Prob.roundToInt_mono (le_refl 0) hnn
    have e : Prob.roundToInt 0 = 0 := by simpa using Prob.roundToInt_intCast 0 (le_refl _)
    omega
  unfold cellValue
  dsimp only
  generalize Prob.roundToInt ((Prob.valueToProbability v - Prob.minProbability) * (255 / (Prob.maxProbability - Prob.minProbability))) = c at *
  refine ⟨c.toNat, by rw [if_pos ⟨h0, h255⟩], by omega, ?_⟩
  have hc : ((c.toNat : Nat) : ℚ) = (c : ℚ) := by exact_mod_cast Int.toNat_of_nonneg h0
  rw [hc]
  unfold Prob.maxProbability Prob.minProbability at hr
  rw [abs_le] at hr ⊢
  norm_num at hr ⊢
  constructor <;> linarith

theorem cellValue_mono {v w c c' : Nat} (h : Prob.valueToProbability v ≤ Prob.valueToProbability w)
    (h1 : cellValue v = some c) (h2 : cellValue w = some c') : c ≤ c' := by
  obtain ⟨hv, -⟩ := probability_range v
  simp only [cellValue] at h1 h2
  split at h1
  · split at h2
    · obtain rfl := Option.some.inj h1
      obtain rfl := Option.some.inj h2
      apply Int.toNat_le_toNat
      apply Prob.roundToInt_mono
      · apply mul_nonneg (by linarith)
        unfold Prob.maxProbability Prob.minProbability; norm_num
      · apply mul_le_mul_of_nonneg_right (by linarith)
        unfold Prob.maxProbability Prob.minProbability; norm_num
    · cases h2
  · cases h1

theorem convertLoop_spec (l : List (I3 × Nat)) : ∀ {r : Grid8}, Wf r → (l.map Prod.fst).Nodup → (∀ p ∈ l, Valid p.1) →
    ∃ r', convertLoop l r = some r' ∧ Wf r' ∧ (∀ p ∈ l, cellValue p.2 = some (look r' p.1)) ∧
      ∀ i, i ∉ l.map Prod.fst → look r' i = look r i := by
  induction l with
  | nil => intro r hw _ _; exact ⟨r, rfl, hw, by simp, by simp⟩
  | cons p l ih =>
    intro r hw hn hv
    obtain ⟨i, v⟩ := p
    rw [List.map_cons, List.nodup_cons] at hn
    obtain ⟨c, hc, -⟩ := cellValue_spec v
    obtain ⟨r1, e1, w1, l1⟩ := modify_spec (baseLaws Nat 0) hw ((supported_base 0 i).2 (hv (i, v) (by simp))) (fun _ => c)
    obtain ⟨r2, e2, w2, h2, h3⟩ := ih w1 hn.2 (fun p hp => hv p (by simp [hp]))
    refine ⟨r2, by simp [convertLoop, hc, e1, e2], w2, ?_, ?_⟩
    · intro p hp
      rcases List.mem_cons.1 hp with rfl | hp
      · have : look r2 i = look r1 i := h3 i hn.1
        simp only [this, hc]
        exact congrArg some ((l1 i).trans (if_pos rfl)).symm
      · exact h2 p hp
    · intro j hj
      rw [List.map_cons, List.mem_cons, not_or] at hj
      rw [h3 j hj.2]
      exact (l1 j).trans (if_neg hj.1)

/-- The first grid holds the rescaled probabilities of the voxels of the map. -/
theorem convert_spec {g : HG} (w : HGWf g) : ∃ m r, (∀ n, m ≤ n → convert n g = some r) ∧ Wf r ∧
    (∀ i, val g i ≠ 0 → cellValue (val g i) = some (look r i)) ∧ (∀ i, val g i = 0 → look r i = 0) := by
  obtain ⟨l, h1, hn, h3⟩ := dyn_collect (baseLaws Nat 0) w.grid
  have hval : ∀ i v, (i, v) ∈ l ↔ val g i = v ∧ v ≠ 0 := h3
  obtain ⟨r, e, hw, k1, k2⟩ := convertLoop_spec l (empty_wf (baseLaws Nat 0)) hn (by
    rintro ⟨i, v⟩ hp
    obtain ⟨a, b⟩ := (hval i v).1 hp
    exact w.valid (by rw [a]; exact b))
  refine ⟨l.length, r, fun n hn => by simp [convert, h1 n hn, e], hw, ?_, ?_⟩
  · intro i hi
    exact k1 (i, val g i) ((hval i _).2 ⟨rfl, hi⟩)
  · intro i hi
    rw [k2 i, show look (Dyn.empty (base Nat 0)) i = 0 from empty_dlook _ i]
    rw [List.mem_map]
    rintro ⟨⟨j, v⟩, hp, rfl⟩
    obtain ⟨a, b⟩ := (hval j v).1 hp
    exact b (a.symm.trans hi)

/-- **C49** for the whole constructor: for every map in a proper state the stack is computed (given room below the map), has
one grid per depth, and at every depth a voxel is at least the rescaled probability of each voxel of the map in the window
of each full resolution voxel that it holds. -/
theorem stack_bounds_map {g : HG} (w : HGWf g) {depth f : Nat} (hd : 1 ≤ depth) (hf : 1 ≤ f)
    (hroom : ∀ x, val g x ≠ 0 → -8192 + (2 ^ (depth - 1) - 1) ≤ x.x ∧ -8192 + (2 ^ (depth - 1) - 1) ≤ x.y ∧
      -8192 + (2 ^ (depth - 1) - 1) ≤ x.z) :
    ∃ m grids, (∀ n, m ≤ n → stack n g depth f = some grids) ∧ grids.length = depth ∧
      ∀ d gd, grids[d]? = some gd → ∀ j i x, Holds (halvings f d) j i → InCube d i x → ∃ a, gd.value 0 j = some a ∧
        (val g x ≠ 0 → ∀ c, cellValue (val g x) = some c → c ≤ a) := by
  obtain ⟨m1, r, e1, hw, k1, k2⟩ := convert_spec w
  have hroom' : Room r depth := by
    intro x hx
    apply hroom
    intro h0
    exact hx (k2 x h0)
  obtain ⟨m2, grids, e2⟩ := stackFrom_total hw hd hf hroom'
  have hs := e2 m2 (le_refl _)
  refine ⟨max m1 m2, grids, ?_, (stack_window hw hs).1, ?_⟩
  · intro n hn
    simp [stack, hd, hf, e1 n (by omega), e2 n (by omega)]
  · intro d gd hgd j i x hj hx
    obtain ⟨a, b, ha, hb, hab⟩ := coarse_bounds_fine hw hs hgd hj hx
    refine ⟨a, ha, ?_⟩
    intro hne c hc
    rw [k1 x hne] at hc
    rw [dyn_value _ hw x] at hb
    rw [← Option.some.inj hc]
    have : look r x = b := Option.some.inj hb
    omega

/-! ### Examples -/

/-- Voxel (-3, 5, 0) has the value 200. -/
example : ∃ m g0 grids, (∀ n, m ≤ n → stackFrom n g0 4 2 = some grids) ∧ grids.length = 4 ∧
    (∀ i, g0.value 0 i = some (if i = ⟨-3, 5, 0⟩ then 200 else 0)) ∧
    -- At depth 3 the resolution has been halved twice: voxel (-3, 1, -2) starts at (-12, 4, -8), and the windows of eight
    -- voxels of the voxels it holds reach up to (-2, 14, 2).
    (∃ g3, grids[3]? = some g3 ∧ (∃ a, g3.value 0 ⟨-3, 1, -2⟩ = some a ∧ 200 ≤ a) ∧
      -- Voxel (0, 0, 0) does not reach down to the value.
      g3.value 0 ⟨0, 0, 0⟩ = some 0) := by
  obtain ⟨g0, e0, w0, l0⟩ := writes_spec (baseLaws Nat 0) [(⟨-3, 5, 0⟩, fun _ => 200)] (Dyn.empty (base Nat 0)) (empty_wf _)
    (by intro u hu; simp only [List.mem_singleton] at hu; subst hu; rw [supported_base]; simp [Valid])
  have hl : ∀ i, look g0 i = if i = ⟨-3, 5, 0⟩ then 200 else 0 := by
    intro i
    show dlook (baseLaws Nat 0) g0 i = _
    rw [l0]
    simp only [List.foldl_cons, List.foldl_nil, Function.update_apply]
    split
    · rfl
    · exact empty_dlook _ i
  obtain ⟨m, grids, e⟩ := stackFrom_total (depth := 4) (f := 2) w0 (by norm_num) (by norm_num) (by
    intro x hx
    rw [hl] at hx
    split at hx
    · rename_i h; subst h; norm_num
    · exact absurd rfl hx)
  have hs := e m (le_refl _)
  obtain ⟨hlen, -, hall⟩ := stack_window w0 hs
  obtain ⟨g3, h3⟩ : ∃ g3, grids[3]? = some g3 := ⟨grids[3], by rw [List.getElem?_eq_getElem]⟩
  obtain ⟨w3, hm⟩ := hall 3 g3 h3
  refine ⟨m, g0, grids, e, hlen, fun i => by rw [dyn_value _ w0, ← hl i], g3, h3, ?_, ?_⟩
  · obtain ⟨a, b, ha, hb, hab⟩ := coarse_bounds_fine w0 hs h3 (j := ⟨-3, 1, -2⟩) (i := ⟨-10, 5, -7⟩) (x := ⟨-3, 5, 0⟩)
      (by simp [Holds, halvings]) (by simp [InCube])
    refine ⟨a, ha, ?_⟩
    rw [dyn_value _ w0] at hb
    have hb' : look g0 ⟨-3, 5, 0⟩ = b := Option.some.inj hb
    rw [hl] at hb'
    simp at hb'
    omega
  · rw [dyn_value _ w3]
    congr 1
    by_contra hne
    obtain ⟨i, x, ⟨a1, -, -⟩, ⟨b1, -⟩, hx⟩ := (hm ⟨0, 0, 0⟩ 1 (by norm_num)).1 (Nat.pos_of_ne_zero hne)
    rw [hl] at hx
    split at hx
    · rename_i h
      subst h
      simp [halvings] at a1 b1
      omega
    · omega

end Verif.Fast3D
