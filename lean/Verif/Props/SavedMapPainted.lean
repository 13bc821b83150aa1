import Verif.Props.MapSlices
import Verif.Props.Grid2DProto

/-!
# C126: from the pose graph to the painted map

The parts together for 2D SLAM with probability grids or signed distance grids: saving (C29), reading the file, textures and painting (C68).
-/

namespace Verif.MapSlices

open MapById (Id)
open Verif.PoseGraph (Act Exec toProto)
open Verif.Serialization (Record Snapshot save kept)
open Verif.Texture Verif.Rigid

variable {P O : Type}

/-- `Submap2D::ToResponseProto` (submap_2d.cc:127-135) as called by `FillSubmapSlice` (submap_painter.cc:132-135), for probability grids with
the local poses of their submaps. Simplification: there are no 3D submaps; `distanceGrids` is the same for TSDFs. -/
noncomputable def probabilityGrids : Draw (Grid2D.Grid × Rigid2) Empty :=
  ⟨fun x => drawProbabilityGrid logOddsReal x.1 (embed3D x.2), fun _ _ => none⟩

/-- `saved_fills` for 2D grids that can all be drawn, with what is known of the slice of each: one slice for each saved submap, all of them
painted. -/
theorem saved_painted {G : Type} {inc : Bool} {s : Snapshot P O} {as : List (Act P)} (h : Exec {} as s.graph) {rs : List (Record P O)}
    (hs : save inc s = some rs) {w : Draw G Empty} (grids : Id → G) (pose : Id → Rigid3) {Q : Id → Slice → Prop}
    (hd : ∀ id ∈ kept inc s, ∃ t sl, w.grid (grids id) = some t ∧ fillSlice (pose id) t = some sl ∧ Q id sl) :
    ∃ S, slicesOf w (withPoses pose (toProto inc s.fin s.graph s.graph s.graph))
        ((rs.drop 3).map (message fun id => ⟨id, some (some (grids id)), none⟩)) = some S ∧
      S.length = (kept inc s).length ∧ ∀ id ∈ kept inc s, ∃ sl ∈ drawn (S.map (·.2)), Q id sl := by
  obtain ⟨S, h1, h2⟩ := saved_fills h hs (w := w) (pose := pose)
    (content := fun id => ⟨id, some (some (grids id)), none⟩) (by
      intro id hid _
      obtain ⟨t, sl, h1, h2, -⟩ := hd id hid
      exact ⟨t, Or.inr ⟨rfl, _, rfl, h1⟩, by rw [h2]; rfl⟩)
  obtain ⟨h3, -, h4⟩ := slices_exact h1
  have wf := (PoseGraph.exec_integrity h PoseGraph.Integrity.init).wf
  refine ⟨S, h1, ?_, ?_⟩
  · have hn : (kept inc s).Nodup :=
      (List.filter_sublist.map _).nodup (Serialization.flat_ids_nodup wf.submaps)
    have hS : (S.map fun e => ofLex e.1).Nodup := by
      rw [List.Nodup, List.pairwise_map]
      refine List.Pairwise.imp ?_ h3
      intro a b hab e
      exact absurd (congrArg toLex e) (ne_of_lt hab)
    have hp : (S.map fun e => ofLex e.1).Perm (kept inc s) := by
      rw [List.perm_ext_iff_of_nodup hS hn]
      intro id
      constructor
      · intro hm
        obtain ⟨⟨k, sl⟩, h5, rfl⟩ := List.mem_map.1 hm
        exact ((h2 (ofLex k) sl).1 h5).1
      · intro hid
        obtain ⟨t, sl, h5, h6, -⟩ := hd id hid
        exact List.mem_map.2 ⟨(toLex id, sl), (h2 id sl).2 ⟨hid, Or.inl ⟨_, rfl⟩, t, Or.inr ⟨rfl, _, rfl, h5⟩, h6⟩, rfl⟩
    simpa using hp.length_eq
  · intro id hid
    obtain ⟨t, sl, h5, h6, h7⟩ := hd id hid
    refine ⟨sl, ?_, h7⟩
    rw [h4]
    exact List.mem_map.2 ⟨(toLex id, sl), (h2 id sl).2 ⟨hid, Or.inl ⟨_, rfl⟩, t, Or.inr ⟨rfl, _, rfl, h5⟩, h6⟩, rfl⟩

/-- C126: for every reachable pose graph and all its grids, the map can be saved, read and painted, and every known cell of every saved submap
is painted: its pixel says that it is observed and what its log odds are, and it is at the place where the global pose of the submap puts the
cell. -/
theorem saved_cells_painted {inc : Bool} {s : Snapshot P O} {as : List (Act P)} (h : Exec {} as s.graph) {rs : List (Record P O)}
    (hs : save inc s = some rs) (grids : Id → Grid2D.Grid × Rigid2) (globalPose : Id → Rigid2)
    (hg : ∀ id ∈ kept inc s, Grid2D.Wf (grids id).1 ∧ (grids id).1.updates = []) :
    ∃ S, slicesOf probabilityGrids (withPoses (fun id => embed3D (globalPose id)) (toProto inc s.fin s.graph s.graph s.graph))
        ((rs.drop 3).map (message fun id => ⟨id, some (some (grids id)), none⟩)) = some S ∧
      S.length = (kept inc s).length ∧
      ∀ id ∈ kept inc s, ∃ sl ∈ drawn (S.map (·.2)), ∀ i, Grid2D.val (grids id).1 i ≠ 0 → ∃ u v : Nat, u < sl.width ∧ v < sl.height ∧
        (∃ px c, sl.surface = some px ∧ px[v * sl.width.toNat + u]? = some c ∧ c / 2 ^ 8 % 256 = 255 ∧
          Texture.Shows (logOddsReal (cellProb (Grid2D.val (grids id).1 i))) (c / 2 ^ 16 % 256, c / 2 ^ 24)) ∧
        ∀ resolution : ℝ, toDevice (1 / resolution) sl (u + 1 / 2) (v + 1 / 2) =
          ((((globalPose id).mul (grids id).2.inverse).apply (centre (grids id).1.limits i)).x / resolution,
            -((((globalPose id).mul (grids id).2.inverse).apply (centre (grids id).1.limits i)).y / resolution)) :=
  saved_painted h hs (w := probabilityGrids) grids (fun id => embed3D (globalPose id))
    fun id hid => known_cell_painted (hg id hid).1 (hg id hid).2 (grids id).2 (globalPose id)

/-- The drawing of what is stored in a file: `Submap2D::Submap2D(proto)` (submap_2d.cc:78-94) reads the grid first.
Simplification: probability grids only. -/
noncomputable def storedGrids : Draw (Grid2D.Proto × Rigid2) Empty :=
  ⟨fun x => (Grid2D.fromProto x.1).bind fun g => drawProbabilityGrid logOddsReal g (embed3D x.2), fun _ _ => none⟩

/-- C126: the same with the grids as they are in the file, for all grids that can come about and have no pending updates: they can be
stored, and after saving, loading and painting every cell that was known in memory is in the image. -/
theorem stored_cells_painted {inc : Bool} {s : Snapshot P O} {as : List (Act P)} (h : Exec {} as s.graph) {rs : List (Record P O)}
    (hs : save inc s = some rs) (grids : Id → Grid2D.Grid) (localPose globalPose : Id → Rigid2) (hg : ∀ id, Grid2D.Reach (grids id))
    (hu : ∀ id, (grids id).updates = []) :
    ∃ protos : Id → Grid2D.Proto, (∀ id, (grids id).toProto = some (protos id)) ∧
    ∃ S, slicesOf storedGrids (withPoses (fun id => embed3D (globalPose id)) (toProto inc s.fin s.graph s.graph s.graph))
        ((rs.drop 3).map (message fun id => ⟨id, some (some (protos id, localPose id)), none⟩)) = some S ∧
      S.length = (kept inc s).length ∧
      ∀ id ∈ kept inc s, ∃ sl ∈ drawn (S.map (·.2)), ∀ i, Grid2D.val (grids id) i ≠ 0 → ∃ u v : Nat, u < sl.width ∧ v < sl.height ∧
        (∃ px c, sl.surface = some px ∧ px[v * sl.width.toNat + u]? = some c ∧ c / 2 ^ 8 % 256 = 255 ∧
          Texture.Shows (logOddsReal (cellProb (Grid2D.val (grids id) i))) (c / 2 ^ 16 % 256, c / 2 ^ 24)) ∧
        ∀ resolution : ℝ, toDevice (1 / resolution) sl (u + 1 / 2) (v + 1 / 2) =
          ((((globalPose id).mul (localPose id).inverse).apply (centre (grids id).limits i)).x / resolution,
            -((((globalPose id).mul (localPose id).inverse).apply (centre (grids id).limits i)).y / resolution)) := by
  choose protos h1 h2 using fun id => Grid2D.proto_roundtrip (Grid2D.reach_wf (hg id)) (hu id)
  refine ⟨protos, h1, saved_painted h hs (w := storedGrids) (fun id => (protos id, localPose id)) (fun id => embed3D (globalPose id)) ?_⟩
  intro id _
  obtain ⟨t, sl, h3, h4⟩ := known_cell_painted (Grid2D.reach_wf (hg id)) (hu id) (localPose id) (globalPose id)
  exact ⟨t, sl, by simp only [storedGrids, h2, Option.bind_some, h3], h4⟩

/-! ### Signed distance grids -/

/-- As `probabilityGrids`, for TSDFs; `root` is the square root in `TSDF2D::DrawToSubmapTexture` (tsdf_2d.cc:135-182). -/
noncomputable def distanceGrids (root : ℚ → ℚ) : Draw (Tsdf.Map × Rigid2) Empty :=
  ⟨fun x => drawTsdf root x.1 (embed3D x.2), fun _ _ => none⟩

/-- The value that a cell with distance `d` and weight `x` is to show. -/
def tsdfLevel (root : ℚ → ℚ) (t : Tsdf.Map) (d x : ℚ) : Int := 128 - Prob.roundToInt (x / t.maxWeight * (root (|d| / t.maxTsd) * 255 - 128))

theorem tsdfLevel_range {t : Tsdf.Map} (w : Tsdf.WfT t) {root : ℚ → ℚ} (hr : ∀ x, 0 ≤ x → x ≤ 1 → 0 ≤ root x ∧ root x ≤ 1) {i : Int × Int}
    {d x : ℚ} (h : t.getTsdAndWeight i = some (d, x)) : 1 ≤ tsdfLevel root t d x ∧ tsdfLevel root t d x ≤ 256 := by
  rw [Tsdf.get_eq w] at h
  simp only [Option.some.injEq, Prod.mk.injEq] at h
  obtain ⟨rfl, rfl⟩ := h
  have hT := w.tsd
  have hW := w.wt
  have a := abs_le.2 (Tsdf.tsd_band hT (Grid2D.val t.grid i))
  have b := Tsdf.weight_band hW (Grid2D.val (Tsdf.wview t) i)
  have c := hr (|Tsdf.valueToTsd t.maxTsd (Grid2D.val t.grid i)| / t.maxTsd) (by positivity) (by rw [div_le_one hT]; exact a)
  have d1 := div_nonneg b.1 hW.le
  have d2 := (div_le_one hW).2 b.2
  simp only [tsdfLevel]
  generalize root (|Tsdf.valueToTsd t.maxTsd (Grid2D.val t.grid i)| / t.maxTsd) = r at *
  generalize Tsdf.valueToWeight t.maxWeight (Grid2D.val (Tsdf.wview t) i) / t.maxWeight = q at *
  have e := abs_le.1 (Prob.roundToInt_nearest (q * (r * 255 - 128)))
  have f1 : q * (r * 255 - 128) ≤ 127 := by nlinarith
  have f2 : -128 ≤ q * (r * 255 - 128) := by nlinarith
  constructor
  · have : (Prob.roundToInt (q * (r * 255 - 128)) : ℚ) < ((128 : Int) : ℚ) := by push_cast; linarith [e.2]
    have := Int.cast_lt.1 this
    omega
  · have : ((-129 : Int) : ℚ) < Prob.roundToInt (q * (r * 255 - 128)) := by push_cast; linarith [e.1]
    have := Int.cast_lt.1 this
    omega

/-- `known_cell_painted` (C68) for signed distance grids. -/
theorem known_distance_painted {t : Tsdf.Map} (w : Tsdf.WfT t) {root : ℚ → ℚ} (hr : ∀ x, 0 ≤ x → x ≤ 1 → 0 ≤ root x ∧ root x ≤ 1)
    (localPose globalPose : Rigid2) :
    ∃ x s, drawTsdf root t (embed3D localPose) = some x ∧ fillSlice (embed3D globalPose) x = some s ∧
      ∀ i, Grid2D.val t.grid i ≠ 0 → ∃ u v : Nat, u < s.width ∧ v < s.height ∧
        (∃ px c d x, s.surface = some px ∧ px[v * s.width.toNat + u]? = some c ∧ c / 2 ^ 8 % 256 = 255 ∧
          t.getTsdAndWeight i = some (d, x) ∧ Texture.Shows (tsdfLevel root t d x) (c / 2 ^ 16 % 256, c / 2 ^ 24)) ∧
        ∀ resolution : ℝ, toDevice (1 / resolution) s (u + 1 / 2) (v + 1 / 2) =
          (((globalPose.mul localPose.inverse).apply (centre t.grid.limits i)).x / resolution,
            -(((globalPose.mul localPose.inverse).apply (centre t.grid.limits i)).y / resolution)) := by
  obtain ⟨x, px, h1, h2, h3, h4⟩ := tsdf_texture w hr (embed3D localPose)
  have ht := h1
  simp only [drawTsdf, Option.bind_eq_bind, Option.bind_eq_some_iff, Option.some.injEq] at ht
  obtain ⟨cells, _, ht⟩ := ht
  have hs : fillSlice (embed3D globalPose) x = some ⟨x.width, x.height, x.resolution, x.slicePose, embed3D globalPose, some (surface px)⟩ := by
    simp only [fillSlice, h2, Option.bind_eq_bind, Option.bind_some]
  refine ⟨x, _, h1, hs, fun i hi => ?_⟩
  obtain ⟨u, v, hu, hv, rfl⟩ := h3 i hi
  obtain ⟨p, q1, q2, q3⟩ := h4 u v hu hv
  obtain ⟨d, x, q4, q5⟩ := q3 hi
  have hl := tsdfLevel_range w hr q4
  change Texture.Shows (tsdfLevel root t d x) p at q5
  have hp : p.1 < 256 ∧ p.2 < 256 := by
    obtain ⟨a, b, c⟩ := q5
    rcases lt_trichotomy (tsdfLevel root t d x) 128 with hl | hl | hl
    · have := a hl; omega
    · rw [c hl]; omega
    · have := b hl; omega
  refine ⟨u, v, hu, hv, ?_, ?_⟩
  · obtain ⟨c, c1, c2, c3, c4, c5, c6⟩ := surface_channels hp q1
    refine ⟨_, c, d, x, rfl, c1, c5.2 (q2.2 hi), q4, ?_⟩
    rw [c2, c3]
    exact q5
  · intro resolution
    subst ht
    exact cell_placed localPose globalPose cells hs resolution u v

/-- C126: `saved_cells_painted` for signed distance grids; a cell shows its distance, faded with its weight. -/
theorem saved_distances_painted {inc : Bool} {s : Snapshot P O} {as : List (Act P)} (h : Exec {} as s.graph) {rs : List (Record P O)}
    (hs : save inc s = some rs) (grids : Id → Tsdf.Map × Rigid2) (globalPose : Id → Rigid2) {root : ℚ → ℚ}
    (hr : ∀ x, 0 ≤ x → x ≤ 1 → 0 ≤ root x ∧ root x ≤ 1) (hg : ∀ id ∈ kept inc s, Tsdf.WfT (grids id).1) :
    ∃ S, slicesOf (distanceGrids root) (withPoses (fun id => embed3D (globalPose id)) (toProto inc s.fin s.graph s.graph s.graph))
        ((rs.drop 3).map (message fun id => ⟨id, some (some (grids id)), none⟩)) = some S ∧
      S.length = (kept inc s).length ∧
      ∀ id ∈ kept inc s, ∃ sl ∈ drawn (S.map (·.2)), ∀ i, Grid2D.val (grids id).1.grid i ≠ 0 → ∃ u v : Nat, u < sl.width ∧ v < sl.height ∧
        (∃ px c d x, sl.surface = some px ∧ px[v * sl.width.toNat + u]? = some c ∧ c / 2 ^ 8 % 256 = 255 ∧
          (grids id).1.getTsdAndWeight i = some (d, x) ∧
          Texture.Shows (tsdfLevel root (grids id).1 d x) (c / 2 ^ 16 % 256, c / 2 ^ 24)) ∧
        ∀ resolution : ℝ, toDevice (1 / resolution) sl (u + 1 / 2) (v + 1 / 2) =
          ((((globalPose id).mul (grids id).2.inverse).apply (centre (grids id).1.grid.limits i)).x / resolution,
            -((((globalPose id).mul (grids id).2.inverse).apply (centre (grids id).1.grid.limits i)).y / resolution)) :=
  saved_painted h hs (w := distanceGrids root) grids (fun id => embed3D (globalPose id))
    fun id hid => known_distance_painted (hg id hid) hr (grids id).2 (globalPose id)

/-! ### Example -/

/-- A grid with one cell, which is known. -/
def oneCell : Grid2D.Grid := ⟨⟨1, 0, 0, 1, 1⟩, [5], Prob.minCost, Prob.maxCost, [], some ⟨0, 0, 0, 0⟩⟩

theorem oneCell_wf : Grid2D.Wf oneCell where
  res := by norm_num [oneCell]
  nx := by decide
  ny := by decide
  cost := by decide +kernel
  len := rfl
  small := by decide
  nodup := List.nodup_nil
  pend := by
    intro k c h
    rcases k with _ | k
    · obtain rfl : 5 = c := by simpa [oneCell] using h
      simp [oneCell, Prob.updateMarker]
    · simp [oneCell] at h
  pendKnown := by decide
  upd := by simp [oneCell]
  box := by
    intro i h
    refine ⟨_, rfl, ?_⟩
    by_contra hc
    refine h (if_neg fun hi => hc ?_)
    have := (Grid2D.contains_def i).1 hi
    simp only [oneCell, Grid2D.InBox] at this ⊢
    omega
  boxIn := by
    intro b h
    obtain rfl : (⟨0, 0, 0, 0⟩ : Grid2D.Box) = b := by simpa [oneCell] using h
    decide +kernel

example : Grid2D.val oneCell (0, 0) ≠ 0 := by decide +kernel

/-- The state of two trajectories of which submap (0, 3) is saved: it is in the painted map. -/
example : ∃ (g : PoseGraph.State Nat) (rs : List (Record Nat Nat)) (S : _),
    save false ⟨g, fun p => p == 7, [100, 101, 102], [0, 2], [2], [], [], [0]⟩ = some rs ∧
    slicesOf probabilityGrids (withPoses (fun _ => embed3D ⟨⟨1, 2⟩, 3⟩) (toProto false (fun p => p == 7) g g g))
      ((rs.drop 3).map (message fun id => ⟨id, some (some (oneCell, ⟨⟨0, 0⟩, 1⟩)), none⟩)) = some S ∧ S.length = 1 := by
  have h : (PoseGraph.runs {} Serialization.demo).isSome = true := rfl
  obtain ⟨S, h1, h2, -⟩ := saved_cells_painted (inc := false)
    (s := ⟨(PoseGraph.runs {} Serialization.demo).get h, fun p => p == 7, [100, 101, 102], [0, 2], [2], [], [], [0]⟩)
    (PoseGraph.runs_exec (Option.some_get h).symm) (Option.some_get (rfl : (save (O := Nat) false _).isSome = true)).symm
    (fun _ => (oneCell, ⟨⟨0, 0⟩, 1⟩)) (fun _ => ⟨⟨1, 2⟩, 3⟩) (fun _ _ => ⟨oneCell_wf, rfl⟩)
  exact ⟨_, _, S, (Option.some_get _).symm, h1, h2.trans rfl⟩

/-- A new grid of which one cell is set can be in such a file. -/
example : ∃ g : Grid2D.Grid, Grid2D.Reach g ∧ g.updates = [] ∧ Grid2D.val g (1, 0) ≠ 0 := by
  have h0 : ∃ g, Grid2D.create ⟨1, 0, 0, 2, 2⟩ Prob.minCost Prob.maxCost = some g ∧
      (g.setProbability (1, 0) (3 / 5)).any (fun g' => decide (g'.updates = [] ∧ Grid2D.val g' (1, 0) ≠ 0)) = true :=
    ⟨⟨⟨1, 0, 0, 2, 2⟩, [0, 0, 0, 0], Prob.minCost, Prob.maxCost, [], none⟩, by decide +kernel, by decide +kernel⟩
  obtain ⟨g, h1, h2⟩ := h0
  cases h3 : g.setProbability (1, 0) (3 / 5) with
  | none => simp [h3] at h2
  | some g' =>
    rw [h3] at h2
    have h5 := of_decide_eq_true h2
    exact ⟨g', .set (.create (r := 1) (mx := 0) (my := 0) (nx := 2) (ny := 2) (by decide +kernel) h1) h3, h5.1, h5.2⟩

/-- The cell with a weight. -/
def oneDistance : Tsdf.Map := ⟨oneCell, [7], 1, 10⟩

theorem oneDistance_wf : Tsdf.WfT oneDistance where
  grid := oneCell_wf
  tsd := by norm_num [oneDistance]
  wt := by norm_num [oneDistance]
  wlen := rfl
  wsmall := by decide
  wknown := by
    intro i h hc
    refine h (if_neg fun hi => ?_)
    have := (Grid2D.contains_def i).1 hi
    obtain ⟨x, y⟩ := i
    simp only [Tsdf.wview, oneDistance, oneCell] at this
    obtain rfl : x = 0 := by omega
    obtain rfl : y = 0 := by omega
    exact absurd hc (by decide +kernel)

/-- Likewise for signed distances. -/
example : ∃ (g : PoseGraph.State Nat) (rs : List (Record Nat Nat)) (S : _),
    save false ⟨g, fun p => p == 7, [100, 101, 102], [0, 2], [2], [], [], [0]⟩ = some rs ∧
    slicesOf (distanceGrids id) (withPoses (fun _ => embed3D ⟨⟨1, 2⟩, 3⟩) (toProto false (fun p => p == 7) g g g))
      ((rs.drop 3).map (message fun id => ⟨id, some (some (oneDistance, ⟨⟨0, 0⟩, 1⟩)), none⟩)) = some S ∧ S.length = 1 := by
  have h : (PoseGraph.runs {} Serialization.demo).isSome = true := rfl
  obtain ⟨S, h1, h2, -⟩ := saved_distances_painted (inc := false) (root := id)
    (s := ⟨(PoseGraph.runs {} Serialization.demo).get h, fun p => p == 7, [100, 101, 102], [0, 2], [2], [], [], [0]⟩)
    (PoseGraph.runs_exec (Option.some_get h).symm) (Option.some_get (rfl : (save (O := Nat) false _).isSome = true)).symm
    (fun _ => (oneDistance, ⟨⟨0, 0⟩, 1⟩)) (fun _ => ⟨⟨1, 2⟩, 3⟩) (fun _ h0 h1 => ⟨h0, h1⟩) (fun _ _ => oneDistance_wf)
  exact ⟨_, _, S, (Option.some_get _).symm, h1, h2.trans rfl⟩

end Verif.MapSlices
