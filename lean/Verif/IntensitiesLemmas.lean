import Verif.Intensities
import Verif.Props.VoxelFilter
import Verif.Props.RangeDataInserter3D
import Verif.Props.ScanMatchCost3D
import Verif.Props.ActiveSubmaps

/-!
# Lemmas about points with intensities
-/

namespace Verif.Intensities

open Verif.Voxel Verif.Compressed Verif.Hybrid Verif.MatchCost Verif.Rigid

/-- The points of a cloud, each with its intensity if the cloud has intensities. -/
def pairs (c : PC) : List (P3 × Option ℚ) :=
  if c.intensities = [] then c.points.map fun p => (p, none) else c.points.zip (c.intensities.map some)

/-- A cloud with an intensity for every point, or one without intensities. -/
def Full (u : Bool) (c : PC) : Prop := if u then c.intensities.length = c.points.length else c.intensities = []

theorem Full.valid {u : Bool} {c : PC} (h : Full u c) : c.Valid := by
  unfold Full at h
  cases u
  · exact Or.inl h
  · exact Or.inr h

theorem pairs_full {c : PC} (h : Full true c) : pairs c = c.points.zip (c.intensities.map some) := by
  unfold pairs
  split
  · rename_i h0
    have h' : c.intensities.length = c.points.length := h
    rw [h0] at h'
    have : c.points = [] := List.length_eq_zero_iff.1 h'.symm
    rw [this]; rfl
  · rfl

theorem pairs_none {c : PC} (h : Full false c) : pairs c = c.points.map fun p => (p, none) := by
  have h' : c.intensities = [] := h
  unfold pairs
  rw [if_pos h']

theorem mk?_full {u : Bool} {points : List P3} {intensities : List ℚ} (h : Full u ⟨points, intensities⟩) :
    PC.mk? points intensities = some ⟨points, intensities⟩ := by
  unfold PC.mk?
  cases u
  · have : intensities = [] := h
    rw [if_neg (by simpa using this)]
  · have : intensities.length = points.length := h
    rw [if_pos this.symm]
    simp

theorem transform_eq {u : Bool} {c : PC} (h : Full u c) (f : P3 → P3) : transformCloud f c = some ⟨c.points.map f, c.intensities⟩ ∧
    Full u ⟨c.points.map f, c.intensities⟩ := by
  have hf : Full u ⟨c.points.map f, c.intensities⟩ := by
    unfold Full at h ⊢
    cases u <;> simpa using h
  exact ⟨mk?_full hf, hf⟩

theorem zip_map_some {α β γ : Type} (f : α → β) (as : List α) (cs : List γ) :
    (as.map f).zip cs = (as.zip cs).map fun q => (f q.1, q.2) := by
  rw [List.zip_map_left]
  rfl

theorem pairs_map (f : P3 → P3) (c : PC) : pairs ⟨c.points.map f, c.intensities⟩ = (pairs c).map fun q => (f q.1, q.2) := by
  unfold pairs
  simp only
  split
  · simp [Function.comp_def]
  · rw [zip_map_some]

/-- Selecting with the same marks from both lists of a cloud. -/
theorem keep_filter {γ : Type} (f : P3 → Bool) : ∀ (as : List P3) (cs : List γ), as.length = cs.length →
    ∃ m, keep (as.map f) cs = some m ∧ m.length = (as.filter f).length ∧ (as.filter f).zip m = (as.zip cs).filter fun q => f q.1
  | [], [], _ => ⟨[], rfl, rfl, rfl⟩
  | a :: as, c :: cs, h => by
    obtain ⟨m, e, l, z⟩ := keep_filter f as cs (by simpa using h)
    by_cases hf : f a = true
    · refine ⟨c :: m, ?_, ?_, ?_⟩
      · simp [keep, e, hf]
      · simp [hf, l]
      · simp [hf, z]
    · refine ⟨m, ?_, ?_, ?_⟩
      · simp [keep, e, hf]
      · simp [hf, l]
      · simp [hf, z]

theorem copyIf_eq {u : Bool} {c : PC} (h : Full u c) (f : P3 → Bool) :
    ∃ d, c.copyIf f = some d ∧ Full u d ∧ d.points = c.points.filter f ∧ pairs d = (pairs c).filter fun q => f q.1 := by
  by_cases h0 : c.intensities = []
  · have hf : Full u ⟨c.points.filter f, []⟩ := by
      unfold Full at h ⊢
      cases u
      · rfl
      · have : c.points = [] := by
          have h' : c.intensities.length = c.points.length := h
          rw [h0] at h'
          exact List.length_eq_zero_iff.1 h'.symm
        simp [this]
    refine ⟨⟨c.points.filter f, []⟩, ?_, hf, rfl, ?_⟩
    · unfold PC.copyIf
      rw [if_pos h0]
      exact mk?_full hf
    · unfold pairs
      rw [if_pos rfl, if_pos h0]
      simp only
      induction c.points with
      | nil => rfl
      | cons p ps ih => by_cases hp : f p = true <;> simp_all
  · have hl : c.intensities.length = c.points.length := by
      rcases h.valid with h | h
      · exact absurd h h0
      · exact h
    have hu : u = true := by
      cases u
      · exact absurd h h0
      · rfl
    subst hu
    obtain ⟨m, e, l, -⟩ := keep_filter f c.points c.intensities hl.symm
    have hf : Full true ⟨c.points.filter f, m⟩ := by simpa [Full] using l
    refine ⟨⟨c.points.filter f, m⟩, ?_, hf, rfl, ?_⟩
    · unfold PC.copyIf
      rw [if_neg h0]
      simp only [copyLoop_keep f _ _ hl.symm, e, Option.map_some, Option.bind_eq_bind, Option.bind_some]
      exact mk?_full hf
    · rw [pairs_full hf, pairs_full h]
      obtain ⟨m', e', -, z'⟩ := keep_filter f c.points (c.intensities.map some) (by simpa using hl.symm)
      have : m' = m.map some := by
        have key : ∀ (bs : List Bool) (cs : List ℚ) (m : List ℚ), keep bs cs = some m → keep bs (cs.map some) = some (m.map some) := by
          intro bs
          induction bs with
          | nil =>
            intro cs m h
            cases cs with
            | nil => simp only [keep, Option.some.injEq] at h; subst h; rfl
            | cons c cs => simp [keep] at h
          | cons b bs ih =>
            intro cs m h
            cases cs with
            | nil => simp only [keep, Option.some.injEq] at h; subst h; rfl
            | cons c cs =>
              simp only [keep, Option.bind_eq_bind, Option.bind_eq_some_iff, Option.some.injEq] at h
              obtain ⟨l, hl, rfl⟩ := h
              simp only [List.map_cons, keep, ih _ _ hl, Option.bind_eq_bind, Option.bind_some, Option.some.injEq]
              cases b <;> rfl
        have := key _ _ _ e
        rw [e', Option.some.injEq] at this
        exact this
      rw [← z', this]

theorem zip_some_sublist {as bs : List P3} {cs ds : List ℚ} (h : (as.zip cs).Sublist (bs.zip ds)) :
    (as.zip (cs.map some)).Sublist (bs.zip (ds.map some)) := by
  have := h.map fun q => (q.1, some q.2)
  have e : ∀ (l : List P3) (m : List ℚ), l.zip (m.map some) = (l.zip m).map fun q => (q.1, some q.2) := by
    intro l m
    rw [List.zip_map_right]
    rfl
  rwa [e, e]

theorem voxel_eq (rnd : Nat → Nat → Nat) (resolution : ℚ) {u : Bool} {c : PC} (h : Full u c) :
    ∃ d, voxelFilterCloud rnd resolution c = some d ∧ Full u d ∧ (pairs d).Sublist (pairs c) ∧ voxelFilter rnd resolution id c.points = some d.points := by
  obtain ⟨d, e, -, h1, h2, h3, h4⟩ := voxel_filter_cloud_partial rnd resolution c h.valid
  obtain ⟨out, e', hs, -⟩ := voxel_filter_partial rnd resolution id c.points
  rw [h4, Option.some.injEq] at e'
  subst e'
  cases u
  · have hc : c.intensities = [] := h
    have hd : Full false d := h1 hc
    refine ⟨d, e, hd, ?_, h4⟩
    rw [pairs_none hd, pairs_none h]
    exact hs.map _
  · have hd : Full true d := by
      by_cases h0 : c.intensities = []
      · have hl : c.intensities.length = c.points.length := h
        rw [h0] at hl
        have hp : c.points = [] := List.length_eq_zero_iff.1 hl.symm
        rw [hp] at hs
        simp [Full, h1 h0, List.sublist_nil.1 hs]
      · exact (h2 h0).symm
    refine ⟨d, e, hd, ?_, h4⟩
    rw [pairs_full hd, pairs_full h]
    exact zip_some_sublist h3

theorem adaptive_eq (a : Adaptive) (ha : 0 < a.maxLength) (rnd : Nat → Nat → Nat) {u : Bool} {c : PC} (h : Full u c) :
    ∃ d, adaptive a rnd c = some d ∧ Full u d ∧ (pairs d).Sublist (pairs c) := by
  obtain ⟨r, d, e, h1, -, -, -, -, h2, h3⟩ := adaptive_voxel_filter rnd a.maxLength ha a.minPoints a.maxRange c h.valid
  obtain ⟨r', e', rf, -, rp⟩ := copyIf_eq h fun p => decide (0 ≤ a.maxRange ∧ p.x * p.x + p.y * p.y + p.z * p.z ≤ a.maxRange * a.maxRange)
  have : r' = r := by
    have := e.symm.trans e'
    simpa using this.symm
  subst this
  have hr : (pairs r').Sublist (pairs c) := by rw [rp]; exact List.filter_sublist
  refine ⟨d, h1 13 (le_refl _), ?_⟩
  by_cases hm : r'.points.length ≤ a.minPoints
  · rw [h2 hm]
    exact ⟨rf, hr⟩
  · obtain ⟨⟨len, -, -, hl⟩, -⟩ := h3 (by omega)
    obtain ⟨d', e2, df, dp, -⟩ := voxel_eq rnd len rf
    rw [hl, Option.some.injEq] at e2
    subst e2
    exact ⟨df, dp.trans hr⟩

theorem pairs_points {u : Bool} {c : PC} (h : Full u c) : (pairs c).map Prod.fst = c.points := by
  cases u
  · rw [pairs_none h]; simp [Function.comp_def]
  · have hl : c.intensities.length = c.points.length := h
    rw [pairs_full h, List.map_fst_zip (by simp [hl])]

/-! ### Gathering -/

/-- Whether the distance between sensor and point is in the configured range. -/
def InRange (o : Options) (h : Hit) : Prop :=
  (o.minRange ≤ 0 ∨ o.minRange * o.minRange ≤ dist2 (h.pose h.origin) (h.pose h.position)) ∧ 0 ≤ o.maxRange ∧
    dist2 (h.pose h.origin) (h.pose h.position) ≤ o.maxRange * o.maxRange

instance (o : Options) (h : Hit) : Decidable (InRange o h) := by unfold InRange; infer_instance

/-- A measurement as a point in local frame with its intensity. -/
def measured (o : Options) (h : Hit) : P3 × Option ℚ := (h.pose h.position, if o.useIntensities then some h.intensity else none)

theorem gather_eq (o : Options) (hits : List Hit) : ∀ acc : Gathered, hits.foldl (gatherHit o) acc =
    ⟨acc.points ++ (hits.filter fun h => decide (InRange o h)).map fun h => h.pose h.position,
      acc.intensities ++ if o.useIntensities then (hits.filter fun h => decide (InRange o h)).map Hit.intensity else []⟩ := by
  induction hits with
  | nil => intro acc; simp
  | cons h hits ih =>
    intro acc
    rw [List.foldl_cons, ih]
    by_cases hr : InRange o h
    · have e : gatherHit o acc h = ⟨acc.points ++ [h.pose h.position],
          if o.useIntensities then acc.intensities ++ [h.intensity] else acc.intensities⟩ := by
        unfold gatherHit
        exact if_pos hr
      rw [e]
      by_cases hu : o.useIntensities = true <;> simp [hr, hu]
    · have e : gatherHit o acc h = acc := by
        unfold gatherHit
        exact if_neg hr
      rw [e]
      simp [hr]

theorem gathered_pairs (o : Options) (hits : List Hit) : ∃ c, (let g := hits.foldl (gatherHit o) ⟨[], []⟩; PC.mk? g.points g.intensities) = some c ∧
    Full o.useIntensities c ∧ pairs c = (hits.filter fun h => decide (InRange o h)).map (measured o) := by
  simp only [gather_eq, List.nil_append]
  by_cases hu : o.useIntensities = true
  · simp only [hu, if_true]
    have hf : Full true ⟨(hits.filter fun h => decide (InRange o h)).map fun h => h.pose h.position,
        (hits.filter fun h => decide (InRange o h)).map Hit.intensity⟩ := by simp [Full]
    refine ⟨_, mk?_full hf, hf, ?_⟩
    rw [pairs_full hf]
    simp only [List.map_map, List.zip_map', Function.comp_def]
    refine List.map_congr_left fun h _ => ?_
    simp [measured, hu]
  · simp only [hu, Bool.false_eq_true, if_false]
    have hf : Full false ⟨(hits.filter fun h => decide (InRange o h)).map fun h => h.pose h.position, []⟩ := by simp [Full]
    refine ⟨_, mk?_full hf, ?_, ?_⟩
    · simpa [hu] using hf
    · rw [pairs_none hf]
      simp only [List.map_map, Function.comp_def]
      refine List.map_congr_left fun h _ => ?_
      simp [measured, hu]

theorem tracking_eq (o : Options) (e : Scan) : ∃ c, returnsInTracking o e = some c ∧ Full o.useIntensities c ∧
    (pairs c).Sublist ((e.hits.filter fun h => decide (InRange o h)).map fun h => (e.toTracking (measured o h).1, (measured o h).2)) := by
  obtain ⟨hits, e1, s1, -⟩ := voxel_filter_partial (e.rnd 0) (o.voxelSize / 2) Hit.position e.hits
  obtain ⟨c1, e2, f2, p2⟩ := gathered_pairs o hits
  obtain ⟨c2, e3, f3, p3, -⟩ := voxel_eq (e.rnd 1) o.voxelSize f2
  obtain ⟨e4, f4⟩ := transform_eq f3 e.toTracking
  refine ⟨_, ?_, f4, ?_⟩
  · unfold returnsInTracking
    simp only [e1, Option.bind_eq_bind, Option.bind_some]
    simp only [e2, e3, Option.bind_some]
    exact e4
  · rw [pairs_map]
    rw [p2] at p3
    have := (p3.trans ((s1.filter fun h => decide (InRange o h)).map (measured o))).map fun q => (e.toTracking q.1, q.2)
    rwa [List.map_map] at this

end Verif.Intensities
