import Verif.Serialization
import Verif.SubmapTexture
import Mathlib.Data.Prod.Lex

/-!
# The submap slices of a saved map

`DeserializeAndFillSubmapSlices` (/repo/cartographer/io/submap_painter.cc 152-175, "sp") reads a saved map and makes the slices that
`PaintSubmapSlices` paints (`Verif.SubmapTexture`).

Simplifications: how a grid becomes a texture is given by `Draw` (`Verif.SubmapTexture` has it for each kind of grid). Poses of the
pose graph message are given by the id of the submap when a map is saved. `none` is a failing `CHECK`, an exception or undefined behavior.
-/

namespace Verif.MapSlices

open MapById (Id flat)
open Verif.PoseGraph (Proto State Submap)
open Verif.Serialization (Record submapRecords)
open Verif.Texture Verif.Rigid

/-- `proto::Submap3D` as far as it matters (proto/submap.proto). -/
structure Sub3 (H : Type) where
  low : Option H
  high : Option H

/-- `proto::Submap`: `two` is `submap_2d` with its `grid`, `three` is `submap_3d`. Both may be present. -/
structure SubmapMsg (G H : Type) where
  id : Id
  two : Option (Option G)
  three : Option (Sub3 H)

/-- `SerializedData` as far as it matters. -/
inductive Msg (G H : Type) where
  | submap (m : SubmapMsg G H)
  | other

/-- `DrawToSubmapTexture` of a 2D grid after reading it, and `AddToTextureProto` of a 3D grid, which depends on the global pose. -/
structure Draw (G H : Type) where
  grid : G → Option Texture
  hybrid : Rigid3 → H → Option Texture

variable {G H P O : Type}

/-- `Has2DGrid(submap) || Has3DGrids(submap)` (sp 60-68, 166-167). -/
def hasGrid (m : SubmapMsg G H) : Bool :=
  (m.two.any fun g => g.isSome) || (m.three.any fun s => s.low.isSome && s.high.isSome)

/-- The first texture of the response in `FillSubmapSlice` (sp 127-137; submap_2d.cc 78-94, 127-135; submap_3d.cc 209-212, 260-269).
A 3D submap without one of the grids has a null pointer there, a 2D submap without a grid adds no texture. -/
def texture (w : Draw G H) (pose : Rigid3) (m : SubmapMsg G H) : Option Texture :=
  match m.three with
  | some s => do
    let high ← s.high
    let low ← s.low
    let t ← w.hybrid pose high
    let _ ← w.hybrid pose low
    some t
  | none =>
    match m.two with
    | some (some g) => w.grid g
    | _ => none

/-- A `std::map` with submap ids as keys, which are ordered by trajectory and index (id.h 102-105). -/
abbrev IdMap (V : Type) := List ((Int ×ₗ Int) × V)

/-- `submap_poses` (sp 156-163). -/
def submapPoses (trs : List (Int × List (Int × Rigid3))) : IdMap Rigid3 :=
  trs.foldl (fun acc tr => tr.2.foldl (fun acc e => SMap.put (toLex (tr.1, e.1)) e.2 acc) acc) []

/-- `cairo_data` of the slice `(*submap_slices)[id]` (submap_painter.h 42-59): it is set together with the surface. -/
def cairoData (s : Option Slice) : List Nat := (s.bind (·.surface)).getD []

/-- One iteration of the loop sp 165-174, with `FillSubmapSlice` (sp 120-150) and `CHECK(cairo_data->empty())` (sp 199). -/
def fill (w : Draw G H) (poses : IdMap Rigid3) (slices : IdMap Slice) : Msg G H → Option (IdMap Slice)
  | .other => some slices
  | .submap m =>
    if hasGrid m then do
      let pose ← SMap.get? (toLex m.id) poses
      let t ← texture w pose m
      let s ← fillSlice pose t
      if (cairoData (SMap.get? (toLex m.id) slices)).isEmpty then some (SMap.put (toLex m.id) s slices) else none
    else some slices

/-- The loop sp 165-174. -/
def fillAll (w : Draw G H) (poses : IdMap Rigid3) : IdMap Slice → List (Msg G H) → Option (IdMap Slice)
  | slices, [] => some slices
  | slices, m :: ms =>
    match fill w poses slices m with
    | none => none
    | some slices' => fillAll w poses slices' ms

/-- `DeserializeAndFillSubmapSlices` (sp 152-175) into an empty map, after the constructor of the deserializer. -/
def slicesOf (w : Draw G H) (trs : List (Int × List (Int × Rigid3))) (ms : List (Msg G H)) : Option (IdMap Slice) :=
  fillAll w (submapPoses trs) [] ms

/-- The pose graph message with poses (pose_graph.cc 158-163). -/
def withPoses (pose : Id → Rigid3) (p : Proto P) : List (Int × List (Int × Rigid3)) :=
  p.trajectories.map fun tr => (tr.id, tr.submaps.map fun i => (i, pose (tr.id, i)))

/-- The records of a file with the contents of submaps (mapping_state_serialization.cc 91-98). -/
def message (content : Id → SubmapMsg G H) : Record P O → Msg G H
  | .submap id => .submap { content id with id := id }
  | _ => .other

end Verif.MapSlices
