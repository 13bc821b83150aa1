import Verif.PointsProcessor
import Verif.Props.HybridGrid
import Mathlib.Tactic.Linarith
import Mathlib.Algebra.BigOperators.Group.List.Basic

/-!
# Specification of the points processors; removing points from a batch
-/

namespace Verif.Points

open Verif.Compressed Verif.Hybrid

/-! ### Specification -/

/-- A point with everything that belongs to it. -/
structure Row where
  point : P3
  intensity : Option ℚ
  color : Option C3
deriving DecidableEq

/-- A batch as a list of such points. -/
structure SBatch where
  startTime : Int
  origin : P3
  frame : String
  trajectory : Int
  rows : List Row
deriving DecidableEq

/-- The points of a batch with their intensities and colours. -/
def rows (b : Batch) : List Row := b.points.zipIdx.map (fun x => ⟨x.1, b.intensities[x.2]?, b.colors[x.2]?⟩)

def view (b : Batch) : SBatch := ⟨b.startTime, b.origin, b.frame, b.trajectory, rows b⟩

/-- Either no point or every point has a colour, and the same for intensities. -/
def Aligned (b : Batch) : Prop :=
  (b.colors = [] ∨ b.colors.length = b.points.length) ∧ (b.intensities = [] ∨ b.intensities.length = b.points.length)

/-- All points of a stream. -/
def allRows (s : List SBatch) : List Row := s.flatMap SBatch.rows

/-- The elements whose position satisfies `p`. -/
def atPositions {α : Type} (p : Nat → Bool) (l : List α) : List α := (l.zipIdx.filter (fun x => p x.2)).map (·.1)

/-- A sampler with ratio `r` keeps the point number `k` if the number of kept points, `r` times the number of points
rounded up, changes. -/
def sampled (r : ℚ) (k : Nat) : Bool := decide (⌈r * k⌉ ≠ ⌈r * (k + 1)⌉)

/-- Keeps those of the points, numbered from `k`, that are sampled. -/
def sampleFrom (r : ℚ) : Nat → List SBatch → List SBatch
  | _, [] => []
  | k, b :: s => { b with rows := atPositions (fun i => sampled r (k + i)) b.rows } :: sampleFrom r (k + b.rows.length) s

/-- The number of points in a voxel. -/
def hitsIn (v : ℚ) (s : List SBatch) (i : I3) : Nat := (allRows s).countP (fun r => cell v r.point = i)

/-- The positions sampled on the ray to a point: every `v` from the origin, short of the point. -/
def onRay (E : Env) (v : ℚ) (origin p : P3) : List P3 :=
  (List.range ⌈E.norm (P3.sub p origin) / v⌉.toNat).map (fun k : Nat =>
    P3.along origin (k * v / E.norm (P3.sub p origin)) (P3.sub p origin))

/-- How often the rays pass through a voxel. -/
def raysIn (E : Env) (v : ℚ) (s : List SBatch) (i : I3) : Nat :=
  (s.flatMap (fun b => b.rows.flatMap (fun r => onRay E v b.origin r.point))).countP (fun q => cell v q = i)

/-- The points that are not considered outliers. -/
def solid (E : Env) (v limit : ℚ) (s : List SBatch) (p : P3) : Bool :=
  decide ((raysIn E v s (cell v p) : ℚ) < limit * hitsIn v s (cell v p))

/-- Keeps the points of a batch that satisfy a condition. -/
def SBatch.only (b : SBatch) (p : Row → Bool) : SBatch := { b with rows := b.rows.filter p }

/-- What a stage passes on of a whole stream. -/
def denote (E : Env) : Config → List SBatch → List SBatch
  | .sampling r, s => sampleFrom r 0 s
  | .minMax lo hi, s => s.map (fun b => b.only (fun r =>
      decide (lo * lo ≤ P3.squaredNorm (P3.sub r.point b.origin) ∧ P3.squaredNorm (P3.sub r.point b.origin) ≤ hi * hi)))
  | .vertical lo hi, s => s.map (fun b => b.only (fun r => decide (lo ≤ r.point.z - b.origin.z ∧ r.point.z - b.origin.z ≤ hi)))
  | .frameId keep drop, s => s.filter (fun b => if drop = [] then decide (b.frame ∈ keep) else decide (b.frame ∉ drop))
  | .coloring c frame, s => s.map (fun b =>
      if b.frame = frame then { b with rows := b.rows.map (fun r => { r with color := some c }) } else b)
  | .intensity lo hi frame, s => s.map (fun b =>
      if frame = "" ∨ b.frame = frame then
        { b with rows := b.rows.map (fun r => { r with color := (r.intensity.map (gray lo hi)).or r.color }) }
      else b)
  | .outlier v limit, s => s.map (fun b => b.only (fun r => solid E v limit s r.point))
  | _, s => s

/-- What a pipeline makes of a stream. -/
def denoteAll (E : Env) : List Config → List SBatch → List SBatch
  | [], s => s
  | c :: cs, s => denoteAll E cs (denote E c s)

/-- Whether the first point has a colour, an intensity. -/
def colored (s : List SBatch) : Bool := (allRows s).head?.any (fun r => r.color.isSome)
def intense (s : List SBatch) : Bool := (allRows s).head?.any (fun r => r.intensity.isSome)

/-- What is written for a point to a PLY file. -/
def plyRecord (E : Env) (hc hi : Bool) (r : Row) : List Char :=
  E.coord r.point ++ (if hc then r.color.elim [] (fun c => [(E.color c).1, (E.color c).2.1, (E.color c).2.2]) else []) ++
    (if hi then r.intensity.elim [] E.bytes else [])

/-- What is written for a point to a PCD file. -/
def pcdRecord (E : Env) (r : Row) : List Char :=
  E.coord r.point ++ r.color.elim [] (fun c => [(E.color c).2.2, (E.color c).2.1, (E.color c).1, Char.ofNat 0])

/-- The input of a stage for which it does not abort while it processes it. -/
def Acceptable : Config → List SBatch → Prop
  | .outlier v _, s => 0 < v ∧ ∀ r ∈ allRows s, Valid (cell v r.point)
  | .ply _ _, s => (∀ r ∈ allRows s, colored s = true → r.color.isSome) ∧ ∀ r ∈ allRows s, intense s = true → r.intensity.isSome
  | _, _ => True

/-- The input for which the file is well-defined. -/
def Writable : Config → List SBatch → Prop
  | .ply _ _, s => 0 < (allRows s).length ∧ (allRows s).length < 10 ^ 15
  | .pcd _, s => (allRows s).length < 10 ^ 15
  | _, _ => True

/-- These conditions for all stages. -/
def Fine (E : Env) : List Config → List SBatch → Prop
  | [], _ => True
  | c :: cs, s => Acceptable c s ∧ Writable c s ∧ Fine E cs (denote E c s)

/-- The final state of a stage, given its input. -/
def Final (E : Env) : Config → List SBatch → Stage → Prop
  | .counting, s, st => st = .counting (allRows s).length
  | .xyz o, s, st => ∃ f, st = .xyz f ∧ f.closed = true ∧
      f.bytes = if o then (allRows s).flatMap (fun r => E.line r.point) else []
  | .ply o comments, s, st => ∃ f hc hi n, st = .ply comments n hc hi f ∧ f.closed = true ∧
      f.bytes = if o then plyHeader (colored s) (intense s) comments (allRows s).length ++
        (allRows s).flatMap (plyRecord E (colored s) (intense s)) else []
  | .pcd o, s, st => ∃ f hc n, st = .pcd n hc f ∧ f.closed = true ∧
      f.bytes = if o then pcdHeader (colored s) (allRows s).length ++ (allRows s).flatMap (pcdRecord E) else []
  | .grid, s, st => ∃ seen, st = .grid seen true ∧ seen.map view = s
  | _, _, _ => True

/-- The final states of all stages. -/
def Finals (E : Env) : List Config → List SBatch → List Stage → Prop
  | [], _, ps => ps = []
  | c :: cs, s, ps => ∃ st rest, ps = st :: rest ∧ Final E c s st ∧ Finals E cs (denote E c s) rest

/-- Stages that support another pass over the stream. -/
def Restartable : Config → Prop
  | .counting | .sampling _ | .minMax _ _ | .vertical _ _ | .frameId _ _ | .coloring _ _ | .intensity _ _ _ => True
  | _ => False

/-- Stages that ask for another pass. -/
def IsOutlier : Config → Prop
  | .outlier _ _ => True
  | _ => False

/-! ### Rows of batches -/

theorem atPositions_append {α : Type} (p : Nat → Bool) (l : List α) (x : α) :
    atPositions p (l ++ [x]) = atPositions p l ++ (if p l.length then [x] else []) := by
  unfold atPositions
  rw [List.zipIdx_append, List.filter_append, List.map_append]
  congr 1
  simp only [List.zipIdx_cons, List.zipIdx_nil, Nat.zero_add, List.filter_cons, List.filter_nil]
  split <;> rfl

theorem rows_length (b : Batch) : (rows b).length = b.points.length := by simp [rows]

theorem rows_getElem? (b : Batch) (i : Nat) :
    (rows b)[i]? = (b.points[i]?).map (fun p => ⟨p, b.intensities[i]?, b.colors[i]?⟩) := by
  simp only [rows, List.getElem?_map, List.getElem?_zipIdx]
  cases b.points[i]? <;> simp

theorem column_spec {α : Type} {l : List α} {n i : Nat} (h : l = [] ∨ l.length = n) (hi : i < n) :
    column l i = some (l[i]?.toList) := by
  unfold column
  rcases h with rfl | h
  · simp
  · rw [if_neg (by rintro rfl; simp at h; omega), List.getElem?_eq_getElem (by omega)]
    rfl

/-- Adding the data of one point to a batch. -/
theorem rows_snoc {b : Batch} {p : P3} {c : List C3} {v : List ℚ}
    (hc : (b.colors = [] ∧ b.points = []) ∨ (b.colors = [] ∧ c = []) ∨ b.colors.length = b.points.length)
    (hv : (b.intensities = [] ∧ b.points = []) ∨ (b.intensities = [] ∧ v = []) ∨ b.intensities.length = b.points.length) :
    rows { b with points := b.points ++ [p], colors := b.colors ++ c, intensities := b.intensities ++ v } =
      rows b ++ [⟨p, v[0]?, c[0]?⟩] := by
  have key : ∀ {α : Type} {l : List α} {x : List α} {n : Nat}, ((l = [] ∧ n = 0) ∨ (l = [] ∧ x = []) ∨ l.length = n) →
      (∀ i, i < n → (l ++ x)[i]? = l[i]?) ∧ (l ++ x)[n]? = x[0]? := by
    intro α l x n h
    rcases h with ⟨rfl, rfl⟩ | ⟨rfl, rfl⟩ | h
    · exact ⟨fun i hi => absurd hi (Nat.not_lt_zero _), by simp⟩
    · exact ⟨fun i _ => by simp, by simp⟩
    · refine ⟨fun i hi => List.getElem?_append_left (by omega), ?_⟩
      rw [List.getElem?_append_right (by omega), h, Nat.sub_self]
  have kc := key (n := b.points.length) (x := c) (l := b.colors) (by simpa using hc)
  have kv := key (n := b.points.length) (x := v) (l := b.intensities) (by simpa using hv)
  apply List.ext_getElem?
  intro i
  rw [rows_getElem?]
  simp only
  rcases Nat.lt_trichotomy i b.points.length with h | h | h
  · rw [kc.1 i h, kv.1 i h, List.getElem?_append_left h, List.getElem?_append_left (by rw [rows_length]; exact h), rows_getElem?]
  · subst h
    rw [kc.2, kv.2, List.getElem?_append_right (le_refl _), List.getElem?_append_right (by rw [rows_length]), rows_length]
    simp
  · rw [List.getElem?_eq_none (l := b.points ++ [p]) (by simp; omega), List.getElem?_eq_none (l := rows b ++ _) (by simp [rows_length]; omega)]
    rfl

/-- The loop of `RemovePoints` after some iterations. -/
theorem removePoints_loop (rm : List Nat) {b : Batch} (ha : Aligned b) : ∀ n, n ≤ b.points.length → ∃ out : Batch,
    (List.range n).foldlM (fun (out : Batch) i =>
      if i ∈ rm then some out
      else do
        let p ← b.points[i]?
        let c ← column b.colors i
        let v ← column b.intensities i
        some { out with points := out.points ++ [p], colors := out.colors ++ c, intensities := out.intensities ++ v })
      { b with points := [], colors := [], intensities := [] } = some out ∧
    out.startTime = b.startTime ∧ out.origin = b.origin ∧ out.frame = b.frame ∧ out.trajectory = b.trajectory ∧
    rows out = atPositions (fun i => decide (i ∉ rm)) ((rows b).take n) ∧
    (b.colors = [] → out.colors = []) ∧ (b.colors ≠ [] → out.colors.length = out.points.length) ∧
    (b.intensities = [] → out.intensities = []) ∧ (b.intensities ≠ [] → out.intensities.length = out.points.length)
  | 0, _ => ⟨_, rfl, rfl, rfl, rfl, rfl, rfl, fun _ => rfl, fun _ => rfl, fun _ => rfl, fun _ => rfl⟩
  | n + 1, hn => by
    obtain ⟨out, h0, h1, h2, h3, h4, h5, h6, h7, h8, h9⟩ := removePoints_loop rm ha n (by omega)
    rw [List.range_succ, List.foldlM_append, h0]
    have hlen : ((rows b).take n).length = n := by rw [List.length_take, rows_length]; omega
    have htake : (rows b).take (n + 1) = (rows b).take n ++ [⟨b.points[n], b.intensities[n]?, b.colors[n]?⟩] := by
      rw [List.take_succ, rows_getElem?, List.getElem?_eq_getElem (l := b.points) (by omega)]
      rfl
    simp only [Option.bind_eq_bind, Option.bind_some, List.foldlM_cons, List.foldlM_nil]
    rw [htake, atPositions_append, hlen]
    by_cases hm : n ∈ rm
    · rw [if_pos hm]
      refine ⟨out, rfl, h1, h2, h3, h4, ?_, h6, h7, h8, h9⟩
      simp [hm, h5]
    · rw [if_neg hm, List.getElem?_eq_getElem (l := b.points) (by omega), column_spec ha.1 (by omega), column_spec ha.2 (by omega)]
      refine ⟨_, rfl, h1, h2, h3, h4, ?_, ?_, ?_, ?_, ?_⟩
      · rw [rows_snoc, h5]
        · simp only [hm, not_false_eq_true, decide_true, if_true]
          congr 3
          · cases b.intensities[n]? <;> rfl
          · cases b.colors[n]? <;> rfl
        · by_cases hc : b.colors = []
          · exact .inr (.inl ⟨h6 hc, by simp [hc]⟩)
          · exact .inr (.inr (h7 hc))
        · by_cases hc : b.intensities = []
          · exact .inr (.inl ⟨h8 hc, by simp [hc]⟩)
          · exact .inr (.inr (h9 hc))
      · intro hc; simp [h6 hc, hc]
      · intro hc
        have : n < b.colors.length := by
          rcases ha.1 with h | h
          · exact absurd h hc
          · omega
        simp [h7 hc, List.getElem?_eq_getElem this]
      · intro hc; simp [h8 hc, hc]
      · intro hc
        have : n < b.intensities.length := by
          rcases ha.2 with h | h
          · exact absurd h hc
          · omega
        simp [h9 hc, List.getElem?_eq_getElem this]

/-- **C66, removing points** keeps exactly the other points, each with its own colour and intensity. -/
theorem removePoints_spec (rm : List Nat) {b : Batch} (ha : Aligned b) : ∃ b', removePoints rm b = some b' ∧ Aligned b' ∧
    view b' = { view b with rows := atPositions (fun i => decide (i ∉ rm)) (rows b) } := by
  obtain ⟨out, h0, h1, h2, h3, h4, h5, h6, h7, h8, h9⟩ := removePoints_loop rm ha b.points.length (le_refl _)
  refine ⟨out, h0, ⟨?_, ?_⟩, ?_⟩
  · by_cases hc : b.colors = []
    · exact .inl (h6 hc)
    · exact .inr (h7 hc)
  · by_cases hc : b.intensities = []
    · exact .inl (h8 hc)
    · exact .inr (h9 hc)
  · rw [List.take_of_length_le (by rw [rows_length])] at h5
    simp only [view, h1, h2, h3, h4, h5]

theorem atPositions_eq_filter {α : Type} {p : Nat → Bool} {q : α → Bool} {l : List α} (h : ∀ i x, l[i]? = some x → p i = q x) :
    atPositions p l = l.filter q := by
  induction l using List.reverseRecOn with
  | nil => rfl
  | append_singleton l x ih =>
    rw [atPositions_append, List.filter_append, ih]
    · rw [h l.length x (by simp)]
      congr 1
      cases hq : q x <;> simp [hq]
    · intro i y hy
      exact h i y (by rw [List.getElem?_append_left (List.getElem?_eq_some_iff.1 hy).1]; exact hy)

/-- The filters. -/
theorem removeUnless_spec (ok : P3 → Bool) {b : Batch} (ha : Aligned b) : ∃ b', removePoints (removeUnless ok b) b = some b' ∧
    Aligned b' ∧ view b' = (view b).only (fun r => ok r.point) := by
  obtain ⟨b', h1, h2, h3⟩ := removePoints_spec (removeUnless ok b) ha
  refine ⟨b', h1, h2, ?_⟩
  rw [h3, atPositions_eq_filter (q := fun r => ok r.point)]
  · rfl
  · intro i r hr
    rw [rows_getElem?, Option.map_eq_some_iff] at hr
    obtain ⟨p, hp, rfl⟩ := hr
    have hi : i < b.points.length := (List.getElem?_eq_some_iff.1 hp).1
    simp only [removeUnless, List.mem_filter, List.mem_range, hp]
    simp [hi]

theorem allRows_append (s t : List SBatch) : allRows (s ++ t) = allRows s ++ allRows t := by simp [allRows]

theorem allRows_snoc (s : List SBatch) (b : Batch) : allRows (s ++ [view b]) = allRows s ++ rows b := by
  simp [allRows, view]

end Verif.Points
