import Verif.MapByIdRun

/-!
# Assembling uploaded submaps

Model of `mapping/internal/submap_controller.h` and `submap_controller.cc`, with `UpdateFromProto` and the constructors from
protos of `Submap2D` (submap_2d.cc 80-98, 113-131) and `Submap3D` (submap_3d.cc 213-216, 238-264).

Submaps are shared objects: the controller and the pose graph hold pointers to the same one. They are kept in a list, and a
pointer is a position in it. The pose of a submap never changes after creation and is left out.
-/

namespace Verif.Controller

open Verif MapById

/-- What differs between two and three dimensions: the content of a submap before any message, and the effect of a message
on it; `none` is an abort. -/
structure Kind (G C : Type) where
  fresh : C
  apply : C → G → Option C

/-- Two dimensions: a message has no grid, a grid of an unknown type (`LOG(FATAL)`, submap_2d.cc 93, 128), or a grid. -/
def kind2d (G : Type) : Kind (Option (Option G)) (Option G) where
  fresh := none
  apply c
    | none => some c
    | some none => none
    | some (some g) => some (some g)

/-- Three dimensions: each of the two grids may be there or not, the histogram is always replaced. -/
def kind3d (G H : Type) : Kind (Option G × Option G × H) (Option G × Option G × Option H) where
  fresh := (none, none, none)
  apply c p := some (p.1 <|> c.1, p.2.1 <|> c.2.1, some p.2.2)

/-- `proto::Submap`. `rightKind` says whether it has a submap of the controller's dimension. -/
structure Msg (G : Type) where
  id : Id
  rightKind : Bool
  num : Int
  finished : Bool
  payload : G

/-- A submap (submaps.h 59-95). -/
structure Obj (C : Type) where
  num : Int
  finished : Bool
  content : C
deriving DecidableEq

/-- The controller's `unfinished_submaps_` and all submaps ever made. -/
structure State (C : Type) where
  unfinished : Map Nat := []
  heap : List (Obj C) := []

variable {G C : Type}

/-- `UpdateSubmap` (submap_controller.h 31-59) with `CreateSubmap` (submap_controller.cc 22-46). A message of the other
dimension looks like a message with zero range data to `CreateSubmap` and fails the check in `UpdateFromProto`.
Returns the pointer, which may be null. -/
def update (k : Kind G C) (s : State C) (m : Msg G) : Option (State C × Option Nat) :=
  match at? s.unfinished m.id with
  | none =>
    if m.rightKind = true ∧ m.num = 1 then do
      let c ← k.apply k.fresh m.payload
      let u ← MapById.insert s.unfinished m.id s.heap.length
      some (⟨u, s.heap ++ [⟨m.num, m.finished, c⟩]⟩, some s.heap.length)
    else some (s, none)
  | some h =>
    if m.rightKind = true then do
      let o ← s.heap[h]?
      let c ← k.apply o.content m.payload
      if m.finished = true then do
        let u ← trim s.unfinished m.id
        some (⟨u, s.heap.set h ⟨m.num, m.finished, c⟩⟩, some h)
      else some (⟨s.unfinished, s.heap.set h ⟨0, m.finished, c⟩⟩, some h)
    else none

/-- A sequence of messages, with the pointers returned. -/
def run (k : Kind G C) : State C → List (Msg G) → Option (State C × List (Option Nat))
  | s, [] => some (s, [])
  | s, m :: ms => do
    let (s1, r) ← update k s m
    let (s2, rs) ← run k s1 ms
    some (s2, r :: rs)

end Verif.Controller
