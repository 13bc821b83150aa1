import Verif.ProbabilityValues

/-!
# Three-dimensional hybrid grids

Model of `cartographer/mapping/3d/hybrid_grid.h`.  `int` is `Int`/`Nat` (no overflow; all indices that do not abort
are proved to be small).  The class templates are records of functions (`Layer`): `FlatGrid`, `NestedGrid` over any
layer, `DynamicGrid` over any layer.  A pointer returned by `mutable_value` is modelled by a function applied to the
cell it points to (`modify`).  `DCHECK`s are treated as `CHECK`s (`none`).
-/

namespace Verif.Hybrid

/-- `Eigen::Array3i`. -/
structure I3 where
  x : Int
  y : Int
  z : Int
  deriving DecidableEq, Repr

/-- `ToFlatIndex` (hybrid_grid.h:40-43). -/
def toFlatIndex (i : I3) (bits : Nat) : Option Nat :=
  if 0 ≤ i.x ∧ 0 ≤ i.y ∧ 0 ≤ i.z ∧ i.x < 2 ^ bits ∧ i.y < 2 ^ bits ∧ i.z < 2 ^ bits then
    some ((((i.z.toNat <<< bits) + i.y.toNat) <<< bits) + i.x.toNat)
  else none

/-- `To3DIndex` (hybrid_grid.h:47-52). -/
def to3DIndex (index bits : Nat) : I3 :=
  let mask := 2 ^ bits - 1
  ⟨((index &&& mask : Nat) : Int), (((index >>> bits) &&& mask : Nat) : Int), (((index >>> bits) >>> bits : Nat) : Int)⟩

/-- Componentwise operations of `Eigen::Array3i`. -/
def I3.add (a b : I3) : I3 := ⟨a.x + b.x, a.y + b.y, a.z + b.z⟩
def I3.addScalar (a : I3) (n : Int) : I3 := ⟨a.x + n, a.y + n, a.z + n⟩
def I3.mul (a : I3) (n : Int) : I3 := ⟨a.x * n, a.y * n, a.z * n⟩
/-- Division of `int`s; only applied to non-negative components by the code. -/
def I3.div (a : I3) (n : Int) : I3 := ⟨a.x / n, a.y / n, a.z / n⟩

/-- The operations of a grid class together with its `Iterator` class. -/
structure Layer (V : Type) where
  G : Type
  It : Type
  size : Nat
  empty : G
  value : G → I3 → Option V
  modify : G → I3 → (V → V) → Option G
  start : G → It
  done : G → It → Bool
  next : G → It → Option It
  index : G → It → Option I3
  current : G → It → Option V

/-- The loop `while (!Done() && IsDefaultValue(*current_)) ++current_;` starting at position `p`
(hybrid_grid.h:106-108, 113-115). -/
def skipDefault {V : Type} [DecidableEq V] (d : V) (cells : List V) (p : Nat) : Nat :=
  p + ((cells.drop p).takeWhile (fun v => v = d)).length

/-- `FlatGrid<V, kBits>` and its iterator, a position in the array (hybrid_grid.h:68-138). -/
def flat {V : Type} [DecidableEq V] (d : V) (k : Nat) : Layer V where
  G := List V
  It := Nat
  size := 1 <<< k
  empty := List.replicate (1 <<< (3 * k)) d
  value cells i := do
    let n ← toFlatIndex i k
    cells[n]?
  modify cells i f := do
    let n ← toFlatIndex i k
    let v ← cells[n]?
    some (cells.set n (f v))
  start cells := skipDefault d cells 0
  done cells p := p = cells.length
  next cells p := if p = cells.length then none else some (skipDefault d cells (p + 1))
  index cells p := if p = cells.length then none else some (to3DIndex ((1 <<< (3 * k)) - (cells.length - p)) k)
  current cells p := if p = cells.length then none else cells[p]?

/-- `AdvanceToValidNestedIterator` (hybrid_grid.h:217-226 and 357-366): `metas` are the remaining meta cells and `c`
is the position of the first one. -/
def advance {V : Type} (w : Layer V) : List (Option w.G) → Nat → Nat × Option w.It
  | [], c => (c, none)
  | none :: ms, c => advance w ms (c + 1)
  | some g :: ms, c => if w.done g (w.start g) then advance w ms (c + 1) else (c, some (w.start g))

/-- `NestedGrid<W, kBits>` (hybrid_grid.h:143-244).  The body of `DynamicGrid` (hybrid_grid.h:270-278, 291-299,
315-323, 329-332) is the same text with `bits_` for `kBits`, so the definition is shared.  The iterator is the
position in the array of meta cells and the nested iterator. -/
def nested {V : Type} (d : V) (w : Layer V) (k : Nat) : Layer V where
  G := List (Option w.G)
  It := Nat × Option w.It
  size := w.size <<< k
  empty := List.replicate (1 <<< (3 * k)) none
  value metas i := do
    let m := i.div w.size
    let n ← toFlatIndex m k
    let c ← metas[n]?
    match c with
    | none => some d
    | some g => w.value g (i.add (m.mul (-w.size)))
  modify metas i f := do
    let m := i.div w.size
    let n ← toFlatIndex m k
    let c ← metas[n]?
    let g ← w.modify (c.getD w.empty) (i.add (m.mul (-w.size))) f
    some (metas.set n (some g))
  start metas := advance w metas 0
  done metas it := it.1 = metas.length
  next metas it :=
    if it.1 = metas.length then none
    else do
      let c ← metas[it.1]?
      let g ← c
      let nit ← it.2
      let nit' ← w.next g nit
      if w.done g nit' then some (advance w (metas.drop (it.1 + 1)) (it.1 + 1)) else some (it.1, some nit')
  index metas it :=
    if it.1 = metas.length then none
    else do
      let c ← metas[it.1]?
      let g ← c
      let nit ← it.2
      let inner ← w.index g nit
      some (((to3DIndex ((1 <<< (3 * k)) - (metas.length - it.1)) k).mul w.size).add inner)
  current metas it :=
    if it.1 = metas.length then none
    else do
      let c ← metas[it.1]?
      let g ← c
      let nit ← it.2
      w.current g nit

/-- `DynamicGrid<W>` (hybrid_grid.h:251-407). -/
structure Dyn {V : Type} (w : Layer V) where
  bits : Nat
  metas : List (Option w.G)

/-- `DynamicGrid::DynamicGrid` (hybrid_grid.h:255). -/
def Dyn.empty {V : Type} (w : Layer V) : Dyn w := ⟨1, List.replicate 8 none⟩

/-- `DynamicGrid::grid_size` (hybrid_grid.h:260). -/
def Dyn.gridSize {V : Type} {w : Layer V} (g : Dyn w) : Nat := w.size <<< g.bits

/-- The shifted index (hybrid_grid.h:264, 284). -/
def Dyn.shift {V : Type} {w : Layer V} (g : Dyn w) (i : I3) : I3 := i.addScalar (g.gridSize >>> 1 : Nat)

/-- The test `(shifted_index.cast<unsigned int>() >= grid_size()).any()` (hybrid_grid.h:267, 287). -/
def Dyn.outside {V : Type} {w : Layer V} (g : Dyn w) (s : I3) : Bool :=
  decide (s.x < 0 ∨ s.y < 0 ∨ s.z < 0 ∨ (g.gridSize : Int) ≤ s.x ∨ (g.gridSize : Int) ≤ s.y ∨ (g.gridSize : Int) ≤ s.z)

/-- `DynamicGrid::value` (hybrid_grid.h:263-279). -/
def Dyn.value {V : Type} (d : V) {w : Layer V} (g : Dyn w) (i : I3) : Option V :=
  if g.outside (g.shift i) then some d else (nested d w g.bits).value g.metas (g.shift i)

/-- A loop `for a in as: l[pos a] = rd a` over a vector; a position that fails its check or lies outside aborts. -/
def scatterM {α β : Type} (pos : α → Option Nat) (rd : α → Option β) (as : List α) (l : List β) : Option (List β) :=
  as.foldlM (fun l a => do
    let p ← pos a
    let v ← rd a
    if p < l.length then some (l.set p v) else none) l

/-- The triple loop over `z`, `y`, `x` of `Grow` (hybrid_grid.h:390-393). -/
def cube (n : Nat) : List I3 :=
  (List.range n).flatMap fun z : Nat => (List.range n).flatMap fun y : Nat => (List.range n).map fun x : Nat =>
    (⟨(x : Int), (y : Int), (z : Int)⟩ : I3)

/-- `DynamicGrid::Grow` (hybrid_grid.h:385-403). -/
def Dyn.grow {V : Type} {w : Layer V} (g : Dyn w) : Option (Dyn w) :=
  if g.bits + 1 ≤ 8 then do
    let metas ← scatterM (fun i : I3 => toFlatIndex (i.addScalar (1 <<< (g.bits - 1) : Nat)) (g.bits + 1))
      (fun i => (toFlatIndex i g.bits).bind (g.metas[·]?)) (cube (1 <<< g.bits)) (List.replicate (8 * g.metas.length) none)
    some ⟨g.bits + 1, metas⟩
  else none

/-- `DynamicGrid::mutable_value` with a function applied to the cell (hybrid_grid.h:283-300); at most `n` recursive
calls. -/
def Dyn.modifyLoop {V : Type} (d : V) {w : Layer V} : Nat → Dyn w → I3 → (V → V) → Option (Dyn w)
  | 0, _, _, _ => none
  | n + 1, g, i, f =>
    if g.outside (g.shift i) then do
      let g' ← g.grow
      Dyn.modifyLoop d n g' i f
    else do
      let metas ← (nested d w g.bits).modify g.metas (g.shift i) f
      some { g with metas }

/-- `DynamicGrid::mutable_value`: `bits_` starts at 1 and `Grow` aborts beyond 8, so 9 calls are enough. -/
def Dyn.modify {V : Type} (d : V) {w : Layer V} (g : Dyn w) (i : I3) (f : V → V) : Option (Dyn w) :=
  Dyn.modifyLoop d 9 g i f

/-- `DynamicGrid::Iterator` (hybrid_grid.h:304-372). -/
def Dyn.start {V : Type} (d : V) {w : Layer V} (g : Dyn w) : (nested d w g.bits).It := (nested d w g.bits).start g.metas
def Dyn.done {V : Type} (d : V) {w : Layer V} (g : Dyn w) (it : (nested d w g.bits).It) : Bool := (nested d w g.bits).done g.metas it
def Dyn.next {V : Type} (d : V) {w : Layer V} (g : Dyn w) (it : (nested d w g.bits).It) : Option (nested d w g.bits).It :=
  (nested d w g.bits).next g.metas it
def Dyn.current {V : Type} (d : V) {w : Layer V} (g : Dyn w) (it : (nested d w g.bits).It) : Option V :=
  (nested d w g.bits).current g.metas it
/-- `DynamicGrid::Iterator::GetCellIndex` (hybrid_grid.h:327-334). -/
def Dyn.index {V : Type} (d : V) {w : Layer V} (g : Dyn w) (it : (nested d w g.bits).It) : Option I3 := do
  let s ← (nested d w g.bits).index g.metas it
  some (s.addScalar (-(((1 <<< (g.bits - 1)) * w.size : Nat) : Int)))

/-- A range-based `for` loop over a grid (hybrid_grid.h:343-354, 449-455), collecting what is visited; at most `n`
elements. -/
def Dyn.collect {V : Type} (d : V) {w : Layer V} (g : Dyn w) : Nat → (nested d w g.bits).It → Option (List (I3 × V))
  | 0, it => if g.done d it then some [] else none
  | n + 1, it =>
    if g.done d it then some []
    else do
      let i ← g.index d it
      let v ← g.current d it
      let it' ← g.next d it
      let l ← g.collect d n it'
      some ((i, v) :: l)

/-- `GridBase<V>` (hybrid_grid.h:409-410). -/
abbrev base (V : Type) [DecidableEq V] (d : V) : Layer V := nested d (flat d 3) 3

/-- `HybridGridBase::GetCellIndex` (hybrid_grid.h:428-433); points are triples of rational numbers. -/
def getCellIndex (resolution px py pz : ℚ) : I3 :=
  ⟨Prob.roundToInt (px / resolution), Prob.roundToInt (py / resolution), Prob.roundToInt (pz / resolution)⟩

/-- `HybridGridBase::GetOctant` (hybrid_grid.h:436-441). -/
def getOctant (i : Nat) : Option I3 :=
  if i < 8 then some ⟨if i &&& 1 ≠ 0 then 1 else 0, if i &&& 2 ≠ 0 then 1 else 0, if i &&& 4 ≠ 0 then 1 else 0⟩ else none

/-- `HybridGridBase::GetCenterOfCell` (hybrid_grid.h:444-446). -/
def getCenterOfCell (resolution : ℚ) (i : I3) : ℚ × ℚ × ℚ := (i.x * resolution, i.y * resolution, i.z * resolution)

/-- `HybridGrid` (hybrid_grid.h:468-545).  The pointers in `update_indices_` are modelled by the voxel index they were
obtained for; the cells live in heap-allocated `FlatGrid`s owned by `unique_ptr`s which growing moves but does not
copy (hybrid_grid.h:394-396), so a pointer keeps referring to its voxel (`grow_look`).  The list is
`update_indices_` from the back to the front. -/
structure HG where
  resolution : ℚ
  grid : Dyn (base Nat 0)
  updates : List I3

/-- `HybridGrid::HybridGrid(float)` (hybrid_grid.h:470-471). -/
def HG.create (resolution : ℚ) : HG := ⟨resolution, Dyn.empty _, []⟩

/-- `HybridGrid::SetProbability` (hybrid_grid.h:487-489). -/
def HG.setProbability (g : HG) (i : I3) (p : ℚ) : Option HG := do
  let grid ← g.grid.modify 0 i (fun _ => Prob.probabilityToValue p)
  some { g with grid }

/-- The loop of `FinishUpdate` (hybrid_grid.h:492-498). -/
def finishLoop : List I3 → Dyn (base Nat 0) → Option (Dyn (base Nat 0))
  | [], grid => some grid
  | i :: is, grid => do
    let c ← grid.value 0 i
    if Prob.updateMarker ≤ c then do
      let grid ← grid.modify 0 i (fun c => c - Prob.updateMarker)
      finishLoop is grid
    else none

/-- `HybridGrid::FinishUpdate` (hybrid_grid.h:492-498). -/
def HG.finishUpdate (g : HG) : Option HG := do
  let grid ← finishLoop g.updates g.grid
  some { g with grid, updates := [] }

/-- `HybridGrid::ApplyLookupTable` (hybrid_grid.h:507-518). -/
def HG.applyLookupTable (g : HG) (i : I3) (table : List Nat) : Option (Bool × HG) :=
  if table.length = Prob.updateMarker then do
    let grid ← g.grid.modify 0 i id
    let c ← grid.value 0 i
    if Prob.updateMarker ≤ c then some (false, { g with grid })
    else do
      let e ← table[c]?
      let grid ← grid.modify 0 i (fun _ => e)
      if Prob.updateMarker ≤ e then some (true, { g with grid, updates := i :: g.updates }) else none
  else none

/-- `HybridGrid::GetProbability`, `IsKnown` (hybrid_grid.h:521-526). -/
def HG.getProbability (g : HG) (i : I3) : Option ℚ := do
  let v ← g.grid.value 0 i
  some (Prob.valueToProbability v)

def HG.isKnown (g : HG) (i : I3) : Option Bool := do
  let v ← g.grid.value 0 i
  some (v != 0)

/-- `proto::HybridGrid` (mapping/proto/hybrid_grid.proto). -/
structure Proto3 where
  resolution : ℚ
  xs : List Int
  ys : List Int
  zs : List Int
  values : List Int
  deriving DecidableEq

/-- `HybridGrid::ToProto` (hybrid_grid.h:528-540); `n` bounds the number of iterations of the loop. -/
def HG.toProto (n : Nat) (g : HG) : Option Proto3 :=
  if g.updates = [] then do
    let l ← g.grid.collect 0 n (g.grid.start 0)
    some ⟨g.resolution, l.map (·.1.x), l.map (·.1.y), l.map (·.1.z), l.map fun p : I3 × Nat => (p.2 : Int)⟩
  else none

/-- The loop of the constructor from a proto (hybrid_grid.h:478-483): element `i` of the four fields. -/
def loadLoop (p : Proto3) : List Nat → HG → Option HG
  | [], g => some g
  | i :: is, g => do
    let x ← p.xs[i]?
    let y ← p.ys[i]?
    let z ← p.zs[i]?
    let v ← p.values[i]?
    let g ← g.setProbability ⟨x, y, z⟩ (Prob.valueToProbability (v % 65536).toNat)
    loadLoop p is g

/-- `HybridGrid::HybridGrid(const proto::HybridGrid&)` (hybrid_grid.h:473-484). -/
def HG.fromProto (p : Proto3) : Option HG :=
  if p.values.length = p.xs.length ∧ p.values.length = p.ys.length ∧ p.values.length = p.zs.length then
    loadLoop p (List.range p.values.length) (HG.create p.resolution)
  else none

end Verif.Hybrid
