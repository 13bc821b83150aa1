/-!
# Active submaps (2D and 3D)

Model of `cartographer/mapping/2d/submap_2d.cc` (lines 137-174, 224-236) and
`cartographer/mapping/3d/submap_3d.cc` (lines 271-351).
-/

namespace Verif.ActiveSubmaps

/-- `Submap` (`mapping/submaps.h`) as far as the life cycle is concerned.  `data` is the list of range
data inserted so far, standing for the grid contents (simplification: the grid itself is modelled
elsewhere); `numRangeData` and `finished` are the members `num_range_data_`, `insertion_finished_`. -/
structure Submap (R : Type) where
  data : List R
  numRangeData : Nat
  finished : Bool
  deriving DecidableEq, Repr

/-- `ActiveSubmaps2D` / `ActiveSubmaps3D`.  `submaps` is the member `submaps_`.  `erased` is a history
variable: the submaps erased from the vector, oldest first; they stay alive through the shared pointers
handed out to the pose graph (submap_2d.cc:156-159, 229). -/
structure State (R : Type) where
  erased : List (Submap R)
  submaps : List (Submap R)
  deriving DecidableEq, Repr

/-- submap_2d.cc:153-154, submap_3d.cc:301-303: no submap at first. -/
def init {R : Type} : State R := ⟨[], []⟩

variable {R : Type}

/-- A fresh submap (submap_2d.cc:231-235, submap_3d.cc:348-350). -/
def newSubmap : Submap R := ⟨[], 0, false⟩

/-- `Submap2D::InsertRangeData` (submap_2d.cc:137-144), `Submap3D::InsertData` (submap_3d.cc:271-294).
`none` is the failing `CHECK(!insertion_finished())`. -/
def insertInto (r : R) (s : Submap R) : Option (Submap R) :=
  if s.finished then none
  else some { s with data := s.data ++ [r], numRangeData := s.numRangeData + 1 }

/-- `Submap2D::Finish` (submap_2d.cc:146-151), `Submap3D::Finish` (submap_3d.cc:296-299).
`none` is the failing `CHECK(!insertion_finished())`.  Cropping of the 2D grid is modelled in `Grid2D`. -/
def finish (s : Submap R) : Option (Submap R) :=
  if s.finished then none else some { s with finished := true }

/-- `AddSubmap` (submap_2d.cc:224-236, submap_3d.cc:332-351).  `none` is the failing
`CHECK(submaps_.front()->insertion_finished())`. -/
def addSubmap (st : State R) : Option (State R) :=
  match st.submaps with
  | front :: second :: rest =>
      if front.finished then
        some ⟨st.erased ++ [front], (second :: rest) ++ [newSubmap]⟩
      else none
  | l => some ⟨st.erased, l ++ [newSubmap]⟩

/-- Condition of submap_2d.cc:163-164, submap_3d.cc:314-315. -/
def needsNew (n : Nat) (l : List (Submap R)) : Bool :=
  match l.getLast? with
  | none => true
  | some back => back.numRangeData == n

/-- Lines 170-172 (submap_2d.cc), 326-328 (submap_3d.cc): finish the front submap at `2 * n`.
`front()` on an empty vector is undefined behaviour, hence `none`. -/
def finishFront (n : Nat) : List (Submap R) → Option (List (Submap R))
  | [] => none
  | front :: rest =>
      if front.numRangeData = 2 * n then
        (finish front).map (· :: rest)
      else some (front :: rest)

/-- `ActiveSubmaps2D::InsertRangeData` (submap_2d.cc:161-174) and `ActiveSubmaps3D::InsertData`
(submap_3d.cc:310-330); `n` is `options_.num_range_data()`. -/
def insertRangeData (n : Nat) (st : State R) (r : R) : Option (State R) := do
  let st ← if needsNew n st.submaps then addSubmap st else some st
  let l ← st.submaps.mapM (insertInto r)
  let l ← finishFront n l
  some { st with submaps := l }

/-- A whole history of insertions. -/
def insertAll (n : Nat) (st : State R) : List R → Option (State R)
  | [] => some st
  | r :: rs => (insertRangeData n st r).bind (fun st => insertAll n st rs)

end Verif.ActiveSubmaps
