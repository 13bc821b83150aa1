import Verif.VoxelFilter
import Mathlib.Tactic.Linarith
import Mathlib.Tactic.NormNum
import Mathlib.Tactic.Positivity
import Mathlib.Tactic.FieldSimp
import Mathlib.Tactic.Ring

/-!
# Voxel filter (C26, C51)
-/

namespace Verif.Voxel

open Verif.SMap Verif.Compressed

/-! ## Selected indices -/

/-- The map after the first `i` keys: exactly the seen keys, each with an index of a point which has the key. -/
structure MapInv (ks : List Nat) (i : Nat) (m : List (Nat × Nat × Nat)) : Prop where
  sorted : Sorted m
  stored : ∀ k c j, get? k m = some (c, j) → 1 ≤ c ∧ j < i ∧ ks[j]? = some k
  seen : ∀ j k : Nat, j < i → ks[j]? = some k → (get? k m).isSome

theorem voxelStep_inv {rnd : Nat → Nat → Nat} {ks : List Nat} {i k : Nat} {m : List (Nat × Nat × Nat)} (h : MapInv ks i m)
    (hk : ks[i]? = some k) : MapInv ks (i + 1) (voxelStep rnd m k i) := by
  have key : ∃ c j, voxelStep rnd m k i = put k (c, j) m ∧ 1 ≤ c ∧ j < i + 1 ∧ ks[j]? = some k := by
    unfold voxelStep
    dsimp only
    split
    · exact ⟨_, _, rfl, by omega, by omega, hk⟩
    · split
      · exact ⟨_, _, rfl, by omega, by omega, hk⟩
      · rename_i h1 _
        cases e : get? k m with
        | none => rw [e] at h1; simp at h1
        | some v =>
          obtain ⟨c, j⟩ := v
          obtain ⟨a1, a2, a3⟩ := h.stored k c j e
          exact ⟨_, _, rfl, by omega, by simp; omega, by simpa using a3⟩
  obtain ⟨c, j, e, h1, h2, h3⟩ := key
  rw [e]
  refine ⟨sorted_put h.sorted, ?_, ?_⟩
  · intro k' c' j' hg
    rw [get?_put] at hg
    split at hg
    · rename_i hkk
      subst hkk
      simp only [Option.some.injEq, Prod.mk.injEq] at hg
      obtain ⟨rfl, rfl⟩ := hg
      exact ⟨h1, h2, h3⟩
    · obtain ⟨a1, a2, a3⟩ := h.stored k' c' j' hg
      exact ⟨a1, by omega, a3⟩
  · intro j' k' hj hk'
    rw [get?_put]
    split
    · rfl
    · rename_i hne
      apply h.seen j' k' _ hk'
      rcases Nat.lt_succ_iff_lt_or_eq.1 hj with h' | rfl
      · exact h'
      · rw [hk] at hk'
        exact absurd (Option.some.inj hk') hne

theorem voxelLoop_inv {rnd : Nat → Nat → Nat} {ks : List Nat} (rest : List Nat) : ∀ (i : Nat) (m : List (Nat × Nat × Nat)),
    MapInv ks i m → (∀ j : Nat, rest[j]? = ks[i + j]?) → MapInv ks (i + rest.length) (voxelLoop rnd rest i m) := by
  induction rest with
  | nil => intro i m h _; exact h
  | cons k rest ih =>
    intro i m h hr
    have hk : ks[i]? = some k := by simpa using (hr 0).symm
    have := ih (i + 1) _ (voxelStep_inv (rnd := rnd) h hk) (fun j => by
      have := hr (j + 1)
      rw [List.getElem?_cons_succ] at this
      rw [this]
      congr 1
      omega)
    have e : i + (k :: rest).length = i + 1 + rest.length := by simp; omega
    rw [e]
    exact this

theorem foldl_set_length (es : List (Nat × Nat × Nat)) (used : List Bool) :
    (es.foldl (fun used e => used.set e.2.2 true) used).length = used.length := by
  induction es generalizing used with
  | nil => rfl
  | cons e es ih => rw [List.foldl_cons, ih, List.length_set]

theorem foldl_set (es : List (Nat × Nat × Nat)) : ∀ (used : List Bool) (j : Nat), j < used.length →
    ((es.foldl (fun used e => used.set e.2.2 true) used)[j]? = some true ↔ used[j]? = some true ∨ ∃ e ∈ es, e.2.2 = j) := by
  induction es with
  | nil => intro used j _; simp
  | cons e es ih =>
    intro used j hj
    rw [List.foldl_cons, ih _ _ (by simpa using hj), List.getElem?_set]
    by_cases h : e.2.2 = j
    · simp [h, hj]
    · simp [h]

/-- There is a choice of one index per key such that exactly the chosen indices are marked. -/
theorem voxelIndices_spec (rnd : Nat → Nat → Nat) (ks : List Nat) : (voxelIndices rnd ks).length = ks.length ∧
    ∃ sel : Nat → Nat, (∀ (j k : Nat), ks[j]? = some k → ks[sel k]? = some k) ∧
      ∀ (j k : Nat), ks[j]? = some k → ((voxelIndices rnd ks)[j]? = some true ↔ sel k = j) := by
  have I := voxelLoop_inv (rnd := rnd) (ks := ks) ks 0 [] ⟨List.Pairwise.nil, by simp [get?], by simp⟩ (by simp)
  rw [Nat.zero_add] at I
  unfold voxelIndices
  refine ⟨by rw [foldl_set_length, List.length_replicate], fun k => ((get? k (voxelLoop rnd ks 0 [])).getD (0, 0)).2, ?_, ?_⟩
  · intro j k hj
    have hlt : j < ks.length := (List.getElem?_eq_some_iff.1 hj).1
    obtain ⟨⟨c, j'⟩, hv⟩ := Option.isSome_iff_exists.1 (I.seen j k hlt hj)
    simpa [hv] using (I.stored k c j' hv).2.2
  · intro j k hj
    have hlt : j < ks.length := (List.getElem?_eq_some_iff.1 hj).1
    rw [foldl_set _ _ _ (by simpa using hlt)]
    have hf : ¬ (List.replicate ks.length false)[j]? = some true := by simp [List.getElem?_replicate]
    obtain ⟨⟨c, j'⟩, hv⟩ := Option.isSome_iff_exists.1 (I.seen j k hlt hj)
    simp only [hf, false_or, hv, Option.getD_some]
    constructor
    · rintro ⟨⟨k', c', j''⟩, he, rfl⟩
      have hg := get?_of_mem I.sorted he
      have := (I.stored _ _ _ hg).2.2
      simp only at hj
      rw [hj] at this
      obtain rfl := Option.some.inj this
      rw [hv] at hg
      simp only [Option.some.injEq, Prod.mk.injEq] at hg
      exact hg.2
    · rintro rfl
      exact ⟨(k, c, j'), mem_of_get? hv, rfl⟩

/-! ## Copying the marked elements -/

theorem keep_spec {α : Type} (bs : List Bool) : ∀ (as : List α), as.length ≤ bs.length →
    ∃ l, keep bs as = some l ∧ l.Sublist as := by
  induction bs with
  | nil =>
    intro as h
    cases as with
    | nil => exact ⟨[], rfl, List.Sublist.refl _⟩
    | cons a as => simp at h
  | cons b bs ih =>
    intro as h
    cases as with
    | nil => exact ⟨[], by simp [keep], List.Sublist.refl _⟩
    | cons a as =>
      obtain ⟨l, e, hs⟩ := ih as (by simpa using h)
      refine ⟨if b then a :: l else l, by simp [keep, e], ?_⟩
      split
      · exact hs.cons_cons a
      · exact hs.cons a

theorem keep_select {α : Type} (key : α → Nat) (sel : Nat → Nat) (bs : List Bool) : ∀ (as l : List α) (o : Nat),
    keep bs as = some l → (∀ (j : Nat) (a : α), as[j]? = some a → (bs[j]? = some true ↔ sel (key a) = o + j)) →
    (∀ k, sel k < o ∨ o + as.length ≤ sel k ∨ (∃ a, as[sel k - o]? = some a ∧ key a = k) ∨ ∀ a ∈ as, key a ≠ k) →
    ∀ k, l.filter (fun a => key a = k) = if o ≤ sel k then (as[sel k - o]?.toList).filter (fun a => key a = k) else [] := by
  induction bs with
  | nil =>
    intro as l o e hb hs k
    cases as with
    | nil => simp [keep] at e; subst e; simp
    | cons a as => simp [keep] at e
  | cons b bs ih =>
    intro as l o e hb hs k
    cases as with
    | nil => simp [keep] at e; subst e; simp
    | cons a as =>
      simp only [keep, Option.bind_eq_bind, Option.bind_eq_some_iff] at e
      obtain ⟨l', e', hl⟩ := e
      simp only [Option.some.injEq] at hl
      have hb0 := hb 0 a (by simp)
      simp only [List.getElem?_cons_zero, Option.some.injEq, Nat.add_zero] at hb0
      have hb' : ∀ (j : Nat) (a : α), as[j]? = some a → (bs[j]? = some true ↔ sel (key a) = o + 1 + j) := by
        intro j c hc
        have := hb (j + 1) c (by simpa using hc)
        rw [List.getElem?_cons_succ] at this
        rw [this, Nat.add_assoc, Nat.add_comm 1 j]
      have hs' : ∀ k, sel k < o + 1 ∨ o + 1 + as.length ≤ sel k ∨ (∃ a, as[sel k - (o + 1)]? = some a ∧ key a = k) ∨ ∀ a ∈ as, key a ≠ k := by
        intro k
        rcases hs k with h | h | ⟨c, h, h'⟩ | h
        · exact Or.inl (by omega)
        · exact Or.inr (Or.inl (by simp at h; omega))
        · by_cases hle : sel k < o + 1
          · exact Or.inl hle
          · right; right; left
            obtain ⟨d, hd⟩ : ∃ d, sel k - o = d + 1 := ⟨sel k - o - 1, by omega⟩
            rw [hd, List.getElem?_cons_succ] at h
            refine ⟨c, ?_, h'⟩
            rw [show sel k - (o + 1) = d by omega]
            exact h
        · exact Or.inr (Or.inr (Or.inr fun c hc => h c (by simp [hc])))
      have := ih as l' (o + 1) e' hb' hs' k
      rw [← hl]
      by_cases hk : key a = k
      · subst hk
        by_cases hsel : sel (key a) = o
        · have hbt : b = true := hb0.2 hsel
          rw [if_neg (by omega)] at this
          simp [hbt, this, hsel]
        · have hbf : b = false := by
            cases b
            · rfl
            · exact absurd (hb0.1 rfl) hsel
          rw [hbf, if_neg (by simp), this]
          by_cases hle : o + 1 ≤ sel (key a)
          · rw [if_pos hle, if_pos (by omega)]
            obtain ⟨d, hd⟩ : ∃ d, sel (key a) - o = d + 1 := ⟨sel (key a) - o - 1, by omega⟩
            rw [hd, List.getElem?_cons_succ, show sel (key a) - (o + 1) = d by omega]
          · rw [if_neg hle, if_neg (by omega)]
      · have hf : (if b = true then a :: l' else l').filter (fun a => key a = k) = l'.filter (fun a => key a = k) := by
          split
          · simp [hk]
          · rfl
        rw [hf, this]
        by_cases hle : o + 1 ≤ sel k
        · rw [if_pos hle, if_pos (by omega)]
          obtain ⟨d, hd⟩ : ∃ d, sel k - o = d + 1 := ⟨sel k - o - 1, by omega⟩
          rw [hd, List.getElem?_cons_succ, show sel k - (o + 1) = d by omega]
        · rw [if_neg hle]
          split
          · rw [show sel k - o = 0 by omega]
            simp [hk]
          · rfl

/-- One element per key. -/
theorem keep_one {α : Type} (rnd : Nat → Nat → Nat) (key : α → Nat) (as : List α) : ∃ l,
    keep (voxelIndices rnd (as.map key)) as = some l ∧ l.Sublist as ∧ ∀ a ∈ as, (l.filter fun b => key b = key a).length = 1 := by
  obtain ⟨hlen, sel, h1, h2⟩ := voxelIndices_spec rnd (as.map key)
  rw [List.length_map] at hlen
  obtain ⟨l, e, hs⟩ := keep_spec (voxelIndices rnd (as.map key)) as (by omega)
  refine ⟨l, e, hs, ?_⟩
  intro a ha
  have hmap : ∀ (j : Nat) (c : α), as[j]? = some c → (as.map key)[j]? = some (key c) := by
    intro j c hc; simp [hc]
  have hsel : ∀ c ∈ as, ∃ d, as[sel (key c)]? = some d ∧ key d = key c := by
    intro c hc
    obtain ⟨j, hj⟩ := List.mem_iff_getElem?.1 hc
    have := h1 j (key c) (hmap j c hj)
    rw [List.getElem?_map] at this
    cases hd : as[sel (key c)]? with
    | none => rw [hd] at this; simp at this
    | some d => rw [hd] at this; exact ⟨d, rfl, by simpa using this⟩
  have := keep_select key sel _ as l 0 e (fun j c hc => by rw [Nat.zero_add]; exact h2 j (key c) (hmap j c hc)) (by
    intro k
    by_cases hk : ∃ c ∈ as, key c = k
    · obtain ⟨c, hc, rfl⟩ := hk
      obtain ⟨d, hd, hd'⟩ := hsel c hc
      exact Or.inr (Or.inr (Or.inl ⟨d, by simpa using hd, hd'⟩))
    · push Not at hk
      exact Or.inr (Or.inr (Or.inr hk))) (key a)
  obtain ⟨d, hd, hd'⟩ := hsel a ha
  rw [this, if_pos (by omega), Nat.sub_zero, hd]
  simp [hd']

/-! ## C26 -/

/-- The indices for which voxels and keys correspond. -/
def SafeVoxel (v : Int × Int × Int) : Prop :=
  -(2 ^ 21) ≤ v.1 ∧ v.1 < 2 ^ 21 ∧ -(2 ^ 20) ≤ v.2.1 ∧ v.2.1 < 2 ^ 20 ∧ -(2 ^ 20) ≤ v.2.2 ∧ v.2.2 < 2 ^ 20

theorem keyOf_eq (v : Int × Int × Int) : ((keyOf v : Nat) : Int) = (v.1 * 2 ^ 42 + v.2.1 * 2 ^ 21 + v.2.2) % 2 ^ 64 := by
  have h : ∀ x, ((toU64 x : Nat) : Int) = x % 2 ^ 64 := by
    intro x
    unfold toU64
    rw [Int.toNat_of_nonneg]
    exact Int.emod_nonneg _ (by norm_num)
  unfold keyOf
  push_cast
  rw [h, h, h]
  omega

theorem keyOf_inj {v w : Int × Int × Int} (hv : SafeVoxel v) (hw : SafeVoxel w) (h : keyOf v = keyOf w) : v = w := by
  obtain ⟨x, y, z⟩ := v
  obtain ⟨x', y', z'⟩ := w
  simp only [SafeVoxel] at hv hw
  have h' : ((keyOf (x, y, z) : Nat) : Int) = keyOf (x', y', z') := by rw [h]
  rw [keyOf_eq, keyOf_eq] at h'
  simp only at h'
  clear h
  have e : x = x' ∧ y = y' ∧ z = z' := by omega
  obtain ⟨rfl, rfl, rfl⟩ := e
  rfl

/-- C26 (partial: voxels beyond `SafeVoxel` may collide, see `voxel_collision`): for every outcome of the random choices, every
resolution and every list of points (with any payload), filtering does not abort and the result is a subsequence of the points
which contains exactly one point for every key, and hence, if the voxels are in the range in which keys do not collide,
exactly one point of every occupied voxel. -/
theorem voxel_filter_partial {α : Type} (rnd : Nat → Nat → Nat) (resolution : ℚ) (position : α → P3) (points : List α) :
    ∃ out, voxelFilter rnd resolution position points = some out ∧ out.Sublist points ∧
      (∀ p ∈ points, (out.filter fun q => getVoxelCellIndex (position q) resolution = getVoxelCellIndex (position p) resolution).length = 1) ∧
      ((∀ p ∈ points, SafeVoxel (voxelOf resolution (position p))) →
        ∀ p ∈ points, (out.filter fun q => voxelOf resolution (position q) = voxelOf resolution (position p)).length = 1) := by
  obtain ⟨l, e, hs, h1⟩ := keep_one rnd (fun p => getVoxelCellIndex (position p) resolution) points
  refine ⟨l, e, hs, h1, ?_⟩
  intro hsafe p hp
  rw [← h1 p hp]
  congr 1
  apply List.filter_congr
  intro q hq
  rw [decide_eq_decide]
  constructor
  · intro h; simp only [getVoxelCellIndex, h]
  · exact keyOf_inj (hsafe q (hs.subset hq)) (hsafe p hp)

/-- A valid point cloud has no intensities or one per point. -/
def PC.Valid (c : PC) : Prop := c.intensities = [] ∨ c.intensities.length = c.points.length

theorem keep_zip {α β : Type} (bs : List Bool) : ∀ (as : List α) (cs : List β), as.length = cs.length →
    ∀ l m, keep bs as = some l → keep bs cs = some m → l.length = m.length ∧ keep bs (as.zip cs) = some (l.zip m) := by
  induction bs with
  | nil =>
    intro as cs hl l m e1 e2
    cases as with
    | nil =>
      cases cs with
      | nil => simp [keep] at e1 e2; subst e1; subst e2; simp [keep]
      | cons => simp at hl
    | cons => simp [keep] at e1
  | cons b bs ih =>
    intro as cs hl l m e1 e2
    cases as with
    | nil =>
      cases cs with
      | nil => simp [keep] at e1 e2; subst e1; subst e2; simp [keep]
      | cons => simp at hl
    | cons a as =>
      cases cs with
      | nil => simp at hl
      | cons c cs =>
        simp only [keep, Option.bind_eq_bind, Option.bind_eq_some_iff, Option.some.injEq] at e1 e2
        obtain ⟨l', e1, rfl⟩ := e1
        obtain ⟨m', e2, rfl⟩ := e2
        obtain ⟨h1, h2⟩ := ih as cs (by simpa using hl) l' m' e1 e2
        simp only [List.zip_cons_cons, keep, h2, Option.bind_eq_bind, Option.bind_some]
        cases b <;> simp [h1]

/-- C26 for point clouds with intensities: the filtered cloud is valid and its points together with their intensities are a
subsequence of the points with their intensities. -/
theorem voxel_filter_cloud_partial (rnd : Nat → Nat → Nat) (resolution : ℚ) (c : PC) (hv : c.Valid) :
    ∃ d, voxelFilterCloud rnd resolution c = some d ∧ d.Valid ∧ (c.intensities = [] → d.intensities = []) ∧
      (c.intensities ≠ [] → d.points.length = d.intensities.length) ∧
      (d.points.zip d.intensities).Sublist (c.points.zip c.intensities) ∧
      voxelFilter rnd resolution id c.points = some d.points := by
  obtain ⟨hlen, -⟩ := voxelIndices_spec rnd (c.points.map fun p => getVoxelCellIndex p resolution)
  rw [List.length_map] at hlen
  obtain ⟨l, e, hs⟩ := keep_spec (voxelIndices rnd (c.points.map fun p => getVoxelCellIndex p resolution)) c.points (by omega)
  have hle : c.intensities.length ≤ c.points.length := by
    rcases hv with h | h
    · simp [h]
    · omega
  obtain ⟨m, e', hs'⟩ := keep_spec (voxelIndices rnd (c.points.map fun p => getVoxelCellIndex p resolution)) c.intensities (by omega)
  unfold voxelFilterCloud
  simp only [e, e', Option.bind_eq_bind, Option.bind_some, hle, if_true]
  by_cases h0 : c.intensities = []
  · rw [h0] at e'
    have hm : m = [] := by
      have := hs'.length_le
      rw [h0] at this
      exact List.length_eq_zero_iff.1 (by simpa using this)
    subst hm
    refine ⟨⟨l, []⟩, by simp [PC.mk?], Or.inl rfl, fun _ => rfl, fun h => absurd h0 h, by simp, ?_⟩
    simpa [voxelFilter] using e
  · have heq : c.points.length = c.intensities.length := (hv.resolve_left h0).symm
    obtain ⟨h1, h2⟩ := keep_zip _ _ _ heq l m e e'
    refine ⟨⟨l, m⟩, ?_, Or.inr h1.symm, fun h => absurd h h0, fun _ => h1, ?_, by simpa [voxelFilter] using e⟩
    · unfold PC.mk?
      split
      · simp
      · rfl
    · obtain ⟨q, e2, hq⟩ := keep_spec (voxelIndices rnd (c.points.map fun p => getVoxelCellIndex p resolution))
        (c.points.zip c.intensities) (by simp; omega)
      rw [h2] at e2
      simp only [Option.some.injEq] at e2
      simpa [e2] using hq

/-- Negative part of C26: two points in different voxels of which only one is kept. -/
theorem voxel_collision : voxelOf 1 ⟨0, 0, 2097152⟩ ≠ voxelOf 1 ⟨0, 1, 0⟩ ∧
    ∀ rnd, ∃ p, voxelFilter rnd 1 id [⟨0, 0, 2097152⟩, ⟨0, 1, 0⟩] = some [p] := by
  have r0 : Prob.roundToInt 0 = 0 := by norm_num [Prob.roundToInt]
  have r1 : Prob.roundToInt 1 = 1 := by norm_num [Prob.roundToInt]
  have r2 : Prob.roundToInt 2097152 = 2097152 := by
    unfold Prob.roundToInt
    rw [if_pos (by norm_num)]
    norm_num [Int.floor_eq_iff]
  have e1 : voxelOf 1 ⟨0, 0, 2097152⟩ = (0, 0, 2097152) := by simp [voxelOf, r0, r2]
  have e2 : voxelOf 1 ⟨0, 1, 0⟩ = (0, 1, 0) := by simp [voxelOf, r0, r1]
  refine ⟨by rw [e1, e2]; decide, ?_⟩
  intro rnd
  have hk : getVoxelCellIndex ⟨0, 0, 2097152⟩ 1 = getVoxelCellIndex ⟨0, 1, 0⟩ 1 := by
    unfold getVoxelCellIndex
    rw [e1, e2]
    decide
  obtain ⟨l, e, hs, h1, -⟩ := voxel_filter_partial rnd 1 id [⟨0, 0, 2097152⟩, ⟨0, 1, 0⟩]
  have h2 := h1 ⟨0, 1, 0⟩ (by simp)
  have hall : l.filter (fun q => getVoxelCellIndex (id q) 1 = getVoxelCellIndex (id ⟨0, 1, 0⟩) 1) = l := by
    rw [List.filter_eq_self]
    intro q hq
    have := hs.subset hq
    simp only [List.mem_cons, List.not_mem_nil, or_false] at this
    rcases this with rfl | rfl
    · simpa using hk
    · simp
  rw [hall] at h2
  obtain ⟨p, hp⟩ := List.length_eq_one_iff.1 h2
  exact ⟨p, by rw [e, hp]⟩

/-- Non-vacuity: three points, two of them in the same voxel; the drawn number 2 replaces the point. -/
example : voxelIndices (fun _ _ => 2) [7, 9, 7] = [false, true, true] ∧ voxelIndices (fun _ _ => 1) [7, 9, 7] = [true, true, false] := by
  decide

/-! ## C51: adaptive filtering -/

theorem keep_map {α : Type} (f : α → Bool) (as : List α) : keep (as.map f) as = some (as.filter f) := by
  induction as with
  | nil => rfl
  | cons a as ih =>
    simp only [List.map_cons, keep, ih, Option.bind_eq_bind, Option.bind_some, List.filter_cons]

/-- The loop over points and intensities selects the same elements from both. -/
theorem copyLoop_keep (f : P3 → Bool) : ∀ (ps : List P3) (vs : List ℚ), ps.length = vs.length →
    copyLoop f ps vs = (keep (ps.map f) vs).map fun m => (ps.filter f, m)
  | [], [], _ => rfl
  | p :: ps, v :: vs, h => by
    have ih := copyLoop_keep f ps vs (by simpa using h)
    obtain ⟨m, e, -⟩ := keep_spec (ps.map f) vs (by simp at h; simp [h])
    by_cases hf : f p = true
    · simp [copyLoop, keep, ih, e, hf]
    · simp [copyLoop, keep, ih, e, hf]

theorem copyIf_spec (c : PC) (hv : c.Valid) (f : P3 → Bool) : ∃ d, c.copyIf f = some d ∧ d.Valid ∧ d.points = c.points.filter f ∧
    (d.points.zip d.intensities).Sublist (c.points.zip c.intensities) ∧ (c.intensities = [] → d.intensities = []) ∧
      (c.intensities ≠ [] → d.points.length = d.intensities.length) := by
  unfold PC.copyIf
  by_cases h0 : c.intensities = []
  · rw [if_pos h0]
    exact ⟨⟨c.points.filter f, []⟩, by simp [PC.mk?], Or.inl rfl, rfl, by simp, fun _ => rfl, fun h => absurd h0 h⟩
  · rw [if_neg h0]
    have heq : c.points.length = c.intensities.length := (hv.resolve_left h0).symm
    obtain ⟨m, e', hs'⟩ := keep_spec (c.points.map f) c.intensities (by simp; omega)
    obtain ⟨h1, h2⟩ := keep_zip _ _ _ heq _ m (keep_map f c.points) e'
    obtain ⟨q, e2, hq⟩ := keep_spec (c.points.map f) (c.points.zip c.intensities) (by simp)
    rw [h2] at e2
    simp only [Option.some.injEq] at e2
    refine ⟨⟨c.points.filter f, m⟩, ?_, Or.inr h1.symm, rfl, by simpa [e2] using hq, fun h => absurd h h0, fun _ => h1⟩
    simp only [copyLoop_keep f _ _ heq, e', Option.map_some, Option.bind_eq_bind, Option.bind_some, PC.mk?, h1, if_true]
    split <;> rfl

section
variable (rnd : Nat → Nat → Nat) (minPoints : Nat) (c : PC) (hv : c.Valid)

/-- The number of points left when filtering with a given edge length. -/
def sizeAt (len : ℚ) : Nat := ((voxelFilterCloud rnd len c).map fun d => d.points.length).getD 0

include hv in
theorem filter_at (len : ℚ) : ∃ d, voxelFilterCloud rnd len c = some d ∧ sizeAt rnd c len = d.points.length := by
  obtain ⟨d, e, -⟩ := voxel_filter_cloud_partial rnd len c hv
  exact ⟨d, e, by simp [sizeAt, e]⟩

include hv in
theorem binarySearch_spec (k : Nat) : ∀ (low high : ℚ) (result : PC), 0 < low → low ≤ high →
    high - low ≤ low * 2 ^ k / 10 → voxelFilterCloud rnd low c = some result → minPoints ≤ result.points.length →
    ∃ d, (∀ n, k ≤ n → binarySearch rnd minPoints c (n + 1) low high result = some d) ∧ minPoints ≤ d.points.length ∧
      ∃ len, low ≤ len ∧ len ≤ high ∧ voxelFilterCloud rnd len c = some d := by
  induction k with
  | zero =>
    intro low high result hl hlh hk hr hm
    unfold binarySearch
    have hc : ¬ (high - low) / low > 1 / 10 := by
      rw [gt_iff_lt, not_lt, div_le_iff₀ hl]
      linarith
    simp only [if_neg hc]
    exact ⟨result, fun _ _ => rfl, hm, low, le_refl _, hlh, hr⟩
  | succ k ih =>
    intro low high result hl hlh hk hr hm
    unfold binarySearch
    split
    · obtain ⟨d, e, -⟩ := filter_at rnd c hv ((low + high) / 2)
      simp only [e, Option.bind_eq_bind, Option.bind_some]
      rw [pow_succ] at hk
      have hp : (0 : ℚ) < 2 ^ k := by positivity
      by_cases hd : minPoints ≤ d.points.length
      · simp only [if_pos hd]
        obtain ⟨r, e1, h1, len, h2, h3, h4⟩ := ih ((low + high) / 2) high d (by linarith) (by linarith) (by
          have : low * 2 ^ k ≤ (low + high) / 2 * 2 ^ k := mul_le_mul_of_nonneg_right (by linarith) hp.le
          linarith) e hd
        refine ⟨r, ?_, h1, len, by linarith, h3, h4⟩
        intro n hn
        obtain ⟨n, rfl⟩ : ∃ m, n = m + 1 := ⟨n - 1, by omega⟩
        exact e1 n (by omega)
      · simp only [if_neg hd]
        obtain ⟨r, e1, h1, len, h2, h3, h4⟩ := ih low ((low + high) / 2) result hl (by linarith) (by linarith) hr hm
        refine ⟨r, ?_, h1, len, h2, by linarith, h4⟩
        intro n hn
        obtain ⟨n, rfl⟩ : ∃ m, n = m + 1 := ⟨n - 1, by omega⟩
        exact e1 n (by omega)
    · exact ⟨result, fun _ _ => rfl, hm, low, le_refl _, hlh, hr⟩

include hv in
theorem lengthLoop_spec {maxLength : ℚ} (hm : 0 < maxLength) (r : Nat) : ∀ (i : Nat) (result : PC), i + r = 7 →
    (∀ k ≤ i, sizeAt rnd c (maxLength / 2 ^ k) < minPoints) → voxelFilterCloud rnd (maxLength / 2 ^ i) c = some result →
    ∃ d, (∀ n, r + 5 ≤ n → lengthLoop rnd maxLength minPoints c (n + 1) (maxLength / 2 ^ i) result = some d) ∧
      (∃ len, maxLength / 128 ≤ len ∧ len ≤ maxLength ∧ voxelFilterCloud rnd len c = some d) ∧
      (minPoints ≤ d.points.length ∨ ∀ k ≤ 7, sizeAt rnd c (maxLength / 2 ^ k) < minPoints) := by
  induction r with
  | zero =>
    intro i result hi hk hr
    obtain rfl : i = 7 := by omega
    unfold lengthLoop
    have hc : ¬ maxLength / 2 ^ 7 > 1 / 100 * maxLength := by rw [gt_iff_lt, not_lt]; norm_num; linarith
    simp only [if_neg hc]
    exact ⟨result, fun _ _ => rfl, ⟨_, by norm_num, by norm_num; linarith, hr⟩, Or.inr hk⟩
  | succ r ih =>
    intro i result hi hk hr
    unfold lengthLoop
    have hi6 : i ≤ 6 := by omega
    have h2i : (2 : ℚ) ^ i ≤ 64 := by
      calc (2 : ℚ) ^ i ≤ 2 ^ 6 := pow_le_pow_right₀ (by norm_num) hi6
        _ = 64 := by norm_num
    have hp : (0 : ℚ) < 2 ^ i := by positivity
    have h1i : (1 : ℚ) ≤ 2 ^ i := one_le_pow₀ (by norm_num)
    have hge : maxLength / 64 ≤ maxLength / 2 ^ i := div_le_div_of_nonneg_left hm.le hp h2i
    have hle : maxLength / 2 ^ i ≤ maxLength := div_le_self hm.le h1i
    have hhalf : maxLength / 2 ^ i / 2 = maxLength / 2 ^ (i + 1) := by rw [pow_succ, div_div]
    obtain ⟨d, e, hs⟩ := filter_at rnd c hv (maxLength / 2 ^ i / 2)
    have hc : maxLength / 2 ^ i > 1 / 100 * maxLength := by rw [gt_iff_lt]; linarith
    simp only [if_pos hc, e, Option.bind_eq_bind, Option.bind_some]
    by_cases hd : minPoints ≤ d.points.length
    · simp only [if_pos hd]
      obtain ⟨r', e1, h1, len, h2, h3, h4⟩ := binarySearch_spec rnd minPoints c hv 4 (maxLength / 2 ^ i / 2) (maxLength / 2 ^ i) d
        (by positivity) (by linarith) (by linarith) e hd
      refine ⟨r', ?_, ⟨len, by linarith, by linarith, h4⟩, Or.inl h1⟩
      intro n hn
      obtain ⟨n, rfl⟩ : ∃ m, n = m + 1 := ⟨n - 1, by omega⟩
      exact e1 n (by omega)
    · simp only [if_neg hd, hhalf]
      rw [hhalf] at e hs
      obtain ⟨d', e1, h1⟩ := ih (i + 1) d (by omega) (by
        intro k hk'
        rcases Nat.lt_succ_iff_lt_or_eq.1 (Nat.lt_succ_of_le hk') with h | rfl
        · exact hk k (by omega)
        · rw [hs]; omega) e
      refine ⟨d', ?_, h1⟩
      intro n hn
      obtain ⟨n, rfl⟩ : ∃ m, n = m + 1 := ⟨n - 1, by omega⟩
      exact e1 n (by omega)

end

/-- C51: adaptive filtering terminates without aborting for every valid cloud, every positive maximal edge length and all random
choices.  Its result is a valid cloud; a cloud with at most the wanted number of points within the maximal range is returned
as it is (up to the range), and otherwise the result is the voxel-filtered cloud for some edge length between 1/128 of the
maximal one and the maximal one, and it has at least the wanted number of points unless none of the edge lengths
`max, max/2, ..., max/128` gives enough. -/
theorem adaptive_voxel_filter (rnd : Nat → Nat → Nat) (maxLength : ℚ) (hm : 0 < maxLength) (minPoints : Nat) (maxRange : ℚ) (c : PC)
    (hv : c.Valid) : ∃ r d, filterByMaxRange maxRange c = some r ∧ (∀ n, 13 ≤ n → adaptiveVoxelFilter n rnd maxLength minPoints maxRange c = some d) ∧
      d.Valid ∧ r.points = c.points.filter (fun p => decide (0 ≤ maxRange ∧ p.x * p.x + p.y * p.y + p.z * p.z ≤ maxRange * maxRange)) ∧
      (d.points.zip d.intensities).Sublist (c.points.zip c.intensities) ∧ d.points.Sublist c.points ∧
      (r.points.length ≤ minPoints → d = r) ∧
      (minPoints < r.points.length → (∃ len, maxLength / 128 ≤ len ∧ len ≤ maxLength ∧ voxelFilterCloud rnd len r = some d) ∧
        (minPoints ≤ d.points.length ∨ ∀ k ≤ 7, sizeAt rnd r (maxLength / 2 ^ k) < minPoints)) := by
  obtain ⟨r, e, rv, rp, rz, -⟩ := copyIf_spec c hv (fun p => decide (0 ≤ maxRange ∧ p.x * p.x + p.y * p.y + p.z * p.z ≤ maxRange * maxRange))
  have e' : filterByMaxRange maxRange c = some r := e
  have rs : r.points.Sublist c.points := by rw [rp]; exact List.filter_sublist
  by_cases hsize : r.points.length ≤ minPoints
  · refine ⟨r, r, e', ?_, rv, rp, rz, rs, fun _ => rfl, fun h => absurd hsize (by omega)⟩
    intro n _
    simp [adaptiveVoxelFilter, e', adaptivelyVoxelFiltered, hsize]
  · obtain ⟨d0, e0, -⟩ := filter_at rnd r rv maxLength
    have key : ∃ d, (∀ n, 13 ≤ n → adaptivelyVoxelFiltered n rnd maxLength minPoints r = some d) ∧
        (∃ len, maxLength / 128 ≤ len ∧ len ≤ maxLength ∧ voxelFilterCloud rnd len r = some d) ∧
        (minPoints ≤ d.points.length ∨ ∀ k ≤ 7, sizeAt rnd r (maxLength / 2 ^ k) < minPoints) := by
      unfold adaptivelyVoxelFiltered
      simp only [if_neg hsize, e0, Option.bind_eq_bind, Option.bind_some]
      by_cases h0 : minPoints ≤ d0.points.length
      · refine ⟨d0, fun n _ => by rw [if_pos h0], ⟨maxLength, by linarith, le_refl _, e0⟩, Or.inl h0⟩
      · have hk : ∀ k ≤ 0, sizeAt rnd r (maxLength / 2 ^ k) < minPoints := by
          intro k hk
          obtain rfl : k = 0 := by omega
          simp only [pow_zero, div_one, sizeAt, e0, Option.map_some, Option.getD_some]
          omega
        have e1 : voxelFilterCloud rnd (maxLength / 2 ^ 0) r = some d0 := by simpa using e0
        obtain ⟨d, e2, h1, h2⟩ := lengthLoop_spec rnd minPoints r rv hm 7 0 d0 (by omega) hk e1
        simp only [pow_zero, div_one] at e2
        refine ⟨d, ?_, h1, h2⟩
        intro n hn
        obtain ⟨n, rfl⟩ : ∃ m, n = m + 1 := ⟨n - 1, by omega⟩
        rw [if_neg h0]
        exact e2 n (by omega)
    obtain ⟨d, h1, ⟨len, h2, h3, h4⟩, h5⟩ := key
    obtain ⟨d', e4, dv, -, -, dz, df⟩ := voxel_filter_cloud_partial rnd len r rv
    rw [h4] at e4
    obtain rfl := Option.some.inj e4
    have ds : d.points.Sublist r.points := by
      obtain ⟨q, e5, hq, -⟩ := voxel_filter_partial rnd len id r.points
      rw [df] at e5
      obtain rfl := Option.some.inj e5
      exact hq
    refine ⟨r, d, e', ?_, dv, rp, dz.trans rz, ds.trans rs, fun h => absurd h hsize, fun _ => ⟨⟨len, h2, h3, h4⟩, h5⟩⟩
    intro n hn
    simp only [adaptiveVoxelFilter, e', Option.bind_eq_bind, Option.bind_some]
    exact h1 n hn

/-- The comment in the code promises to "use the full point cloud" if no edge length gives enough points; what is returned is
the cloud filtered with the smallest edge length, which may have too few points. -/
theorem adaptive_gives_too_few (rnd : Nat → Nat → Nat) : ∃ (c d : PC), c.Valid ∧ c.points.length = 3 ∧
    (∀ n, 13 ≤ n → adaptiveVoxelFilter n rnd 1 2 10 c = some d) ∧ d.points.length = 1 := by
  have hv : PC.Valid ⟨[⟨1, 0, 0⟩, ⟨1, 0, 0⟩, ⟨1, 0, 0⟩], []⟩ := Or.inl rfl
  obtain ⟨r, d, e, h1, -, rp, -, -, -, h2⟩ := adaptive_voxel_filter rnd 1 (by norm_num) 2 10 ⟨[⟨1, 0, 0⟩, ⟨1, 0, 0⟩, ⟨1, 0, 0⟩], []⟩ hv
  have hr : r.points = [⟨1, 0, 0⟩, ⟨1, 0, 0⟩, ⟨1, 0, 0⟩] := by
    rw [rp]
    norm_num [List.filter_cons]
  obtain ⟨⟨len, -, -, h3⟩, -⟩ := h2 (by rw [hr]; simp)
  refine ⟨_, d, hv, rfl, h1, ?_⟩
  have rv : r.Valid := by
    obtain ⟨r', e', rv, -⟩ := copyIf_spec ⟨[⟨1, 0, 0⟩, ⟨1, 0, 0⟩, ⟨1, 0, 0⟩], []⟩ hv
      (fun p => decide ((0 : ℚ) ≤ 10 ∧ p.x * p.x + p.y * p.y + p.z * p.z ≤ 10 * 10))
    rw [show filterByMaxRange 10 ⟨[⟨1, 0, 0⟩, ⟨1, 0, 0⟩, ⟨1, 0, 0⟩], []⟩ = some r' from e'] at e
    obtain rfl := Option.some.inj e
    exact rv
  obtain ⟨d', e4, -, -, -, -, df⟩ := voxel_filter_cloud_partial rnd len r rv
  rw [h3] at e4
  obtain rfl := Option.some.inj e4
  obtain ⟨q, e5, hq, h6, -⟩ := voxel_filter_partial rnd len id r.points
  rw [df] at e5
  obtain rfl := Option.some.inj e5
  have := h6 ⟨1, 0, 0⟩ (by rw [hr]; simp)
  rw [← this]
  congr 1
  symm
  rw [List.filter_eq_self]
  intro p hp
  have := hq.subset hp
  rw [hr] at this
  simp only [List.mem_cons, List.not_mem_nil, or_false, or_self] at this
  simp [this]

end Verif.Voxel
