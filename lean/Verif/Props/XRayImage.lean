import Verif.XRayImage
import Mathlib.Data.List.Dedup
import Mathlib.Data.List.Nodup
import Mathlib.Algebra.Order.Floor.Ring
import Mathlib.Tactic.Ring
import Mathlib.Tactic.Linarith
import Mathlib.Tactic.NormNum
import Mathlib.Tactic.Tauto
import Mathlib.Algebra.BigOperators.Group.List.Basic

/-!
# X-ray images (C101)

The specification describes the pixels by the points alone.
-/

namespace Verif.XRayImage

/-! ## Specification -/

/-- The points in a column. -/
def inColumn (pts : List (Cell × Color)) (col : Int × Int) : List (Cell × Color) :=
  pts.filter fun p => decide (p.1.column = col)

/-- The number of different voxels of points in a column. -/
def voxelsIn (pts : List (Cell × Color)) (col : Int × Int) : Nat :=
  ((inColumn pts col).map Prod.fst).dedup.length

/-- The mean color of the points in a column. -/
noncomputable def meanColor (pts : List (Cell × Color)) (col : Int × Int) : Color :=
  ⟨((inColumn pts col).map (·.2.r)).sum / (inColumn pts col).length,
   ((inColumn pts col).map (·.2.g)).sum / (inColumn pts col).length,
   ((inColumn pts col).map (·.2.b)).sum / (inColumn pts col).length⟩

/-- `N` is the largest number of voxels in a column. -/
def Largest (pts : List (Cell × Color)) (N : Nat) : Prop :=
  (∀ col, voxelsIn pts col ≤ N) ∧ ∃ col, voxelsIn pts col = N

/-- The pixel of a column: white for at most one voxel, else between white and the mean
color, by the logarithm of the number of voxels. -/
noncomputable def expected (pts : List (Cell × Color)) (N : Nat) (factor : ℝ)
    (col : Int × Int) : Pixel :=
  if voxelsIn pts col ≤ 1 then ⟨255, 255, 255⟩
  else
    let s := min 1 (Real.log (voxelsIn pts col) / Real.log N * factor)
    let m := meanColor pts col
    ⟨toUint8 (1 - s + s * m.r), toUint8 (1 - s + s * m.g), toUint8 (1 - s + s * m.b)⟩

/-- The points of the batches that belong to a floor; `none`: there are no floors. -/
noncomputable def pointsOf (floor : Option (List (Int × Int))) (bs : List Batch) :
    List (Cell × Color) :=
  bs.flatMap fun b =>
    if floor.all (fun f => containedIn b.startTime f) then b.colored.getD [] else []

/-- The box of a set of voxels. -/
def BoxOf (box : Option Box) (S : Cell → Prop) : Prop :=
  match box with
  | none => ∀ c, ¬ S c
  | some b =>
    (∀ c, S c → b.lo.y ≤ c.y ∧ c.y ≤ b.hi.y ∧ b.lo.z ≤ c.z ∧ c.z ≤ b.hi.z) ∧
    (∃ c, S c ∧ c.y = b.lo.y) ∧ (∃ c, S c ∧ c.y = b.hi.y) ∧
    (∃ c, S c ∧ c.z = b.lo.z) ∧ (∃ c, S c ∧ c.z = b.hi.z)

/-! ## Aggregations -/

/-- The aggregation holds exactly the points. -/
def Agg (a : Aggregation) (pts : List (Cell × Color)) : Prop :=
  a.voxels.Nodup ∧ (∀ c, c ∈ a.voxels ↔ c ∈ pts.map Prod.fst) ∧
  ∀ col, a.columns col = if (inColumn pts col).length = 0 then none
    else some ⟨((inColumn pts col).map (·.2.r)).sum, ((inColumn pts col).map (·.2.g)).sum,
      ((inColumn pts col).map (·.2.b)).sum, (inColumn pts col).length⟩

theorem agg_empty : Agg .empty [] := by
  simp [Agg, Aggregation.empty, inColumn]

theorem inColumn_append (p q : List (Cell × Color)) (col : Int × Int) :
    inColumn (p ++ q) col = inColumn p col ++ inColumn q col := by
  simp [inColumn]

theorem agg_insertPoint {a : Aggregation} {pts : List (Cell × Color)} (h : Agg a pts)
    (box : Option Box) (p : Cell × Color) : Agg (insertPoint (a, box) p).1 (pts ++ [p]) := by
  obtain ⟨nd, mem, cols⟩ := h
  refine ⟨?_, ?_, ?_⟩
  · simp only [insertPoint]
    split
    · exact nd
    · next hp => exact List.nodup_cons.2 ⟨hp, nd⟩
  · intro c
    simp only [insertPoint]
    rw [List.map_append, List.mem_append, ← mem c]
    split
    · next hp =>
      constructor
      · exact .inl
      · rintro (h | h)
        · exact h
        · simp only [List.map_cons, List.map_nil, List.mem_singleton] at h
          rw [h]; exact hp
    · simp only [List.mem_cons, List.map_cons, List.map_nil, List.not_mem_nil, or_false]
      exact or_comm
  · intro col
    simp only [insertPoint]
    rw [inColumn_append]
    by_cases e : p.1.column = col
    · subst e
      rw [Function.update_self]
      have h1 : inColumn [p] p.1.column = [p] := by simp [inColumn]
      rw [h1, cols]
      split
      · next h0 =>
        have h0' := List.length_eq_zero_iff.1 h0
        simp [h0']
      · next h0 => simp
    · rw [Function.update_of_ne (Ne.symm e), cols]
      have h1 : inColumn [p] col = [] := by simp [inColumn, e]
      rw [h1, List.append_nil]

theorem box_extend {box : Option Box} {S : Cell → Prop} (h : BoxOf box S) (c : Cell) :
    BoxOf (extend box c) (fun d => S d ∨ d = c) := by
  cases box with
  | none =>
    refine ⟨?_, ⟨c, .inr rfl, rfl⟩, ⟨c, .inr rfl, rfl⟩, ⟨c, .inr rfl, rfl⟩, ⟨c, .inr rfl, rfl⟩⟩
    rintro d (hd | rfl)
    · exact absurd hd (h d)
    · simp
  | some b =>
    obtain ⟨hb, ⟨c1, s1, e1⟩, ⟨c2, s2, e2⟩, ⟨c3, s3, e3⟩, ⟨c4, s4, e4⟩⟩ := h
    refine ⟨?_, ?_, ?_, ?_, ?_⟩
    · rintro d (hd | rfl)
      · obtain ⟨h1, h2, h3, h4⟩ := hb d hd
        simp only [extend]
        omega
      · simp only [extend]
        omega
    · simp only [extend]
      rcases le_total b.lo.y c.y with h | h
      · exact ⟨c1, .inl s1, by omega⟩
      · exact ⟨c, .inr rfl, by omega⟩
    · simp only [extend]
      rcases le_total b.hi.y c.y with h | h
      · exact ⟨c, .inr rfl, by omega⟩
      · exact ⟨c2, .inl s2, by omega⟩
    · simp only [extend]
      rcases le_total b.lo.z c.z with h | h
      · exact ⟨c3, .inl s3, by omega⟩
      · exact ⟨c, .inr rfl, by omega⟩
    · simp only [extend]
      rcases le_total b.hi.z c.z with h | h
      · exact ⟨c, .inr rfl, by omega⟩
      · exact ⟨c4, .inl s4, by omega⟩

theorem boxOf_congr {box : Option Box} {S T : Cell → Prop} (h : ∀ c, S c ↔ T c)
    (hb : BoxOf box S) : BoxOf box T := by
  have : S = T := funext fun c => propext (h c)
  subst this
  exact hb

theorem fold_insert (ps : List (Cell × Color)) : ∀ {a : Aggregation} {box : Option Box}
    {pts : List (Cell × Color)} {S : Cell → Prop}, Agg a pts → BoxOf box S →
    Agg (ps.foldl insertPoint (a, box)).1 (pts ++ ps) ∧
      BoxOf (ps.foldl insertPoint (a, box)).2 (fun c => S c ∨ c ∈ ps.map Prod.fst) := by
  induction ps with
  | nil =>
    intro a box pts S h hb
    simp only [List.foldl_nil, List.append_nil, List.map_nil, List.not_mem_nil, or_false]
    exact ⟨h, hb⟩
  | cons p ps ih =>
    intro a box pts S h hb
    have h1 := agg_insertPoint h box p
    have h2 := box_extend hb p.1
    have e : insertPoint (a, box) p = ((insertPoint (a, box) p).1, extend box p.1) := rfl
    rw [List.foldl_cons, e]
    obtain ⟨i1, i2⟩ := ih h1 h2
    refine ⟨by simpa using i1, boxOf_congr ?_ i2⟩
    intro c
    simp only [List.map_cons, List.mem_cons]
    tauto

/-! ## All batches -/

/-- The batch has no colors or enough of them. -/
def Batch.Ok (b : Batch) : Prop := b.colors = [] ∨ b.points.length ≤ b.colors.length

theorem colored_of_ok {b : Batch} (h : b.Ok) : ∃ ps, b.colored = some ps := by
  unfold Batch.colored
  split
  · exact ⟨_, rfl⟩
  · next h0 =>
    rcases h with h | h
    · rw [h] at h0; exact absurd rfl h0
    · rw [if_pos h]; exact ⟨_, rfl⟩

theorem colored_cells {b : Batch} {ps : List (Cell × Color)} (h : b.colored = some ps) :
    ps.map Prod.fst = b.points := by
  unfold Batch.colored at h
  split at h
  · cases h; simp [Function.comp_def]
  · split at h
    · next hl => cases h; rw [List.map_fst_zip hl]
    · cases h

/-- Points of a batch for one floor. -/
noncomputable def batchPoints (f : List (Int × Int)) (b : Batch) : List (Cell × Color) :=
  if containedIn b.startTime f then b.colored.getD [] else []

theorem insertFloors_spec {b : Batch} {ps : List (Cell × Color)} (hb : b.colored = some ps) :
    ∀ {fs : List (List (Int × Int))} {as : List Aggregation} {Ps : List (List (Cell × Color))}
      {box : Option Box} {S : Cell → Prop}, fs.length = as.length → List.Forall₂ Agg as Ps →
      BoxOf box S →
      ∃ as' box', insertFloors b fs as box = some (as', box') ∧
        List.Forall₂ Agg as' (List.zipWith (fun f P => P ++ batchPoints f b) fs Ps) ∧
        as'.length = as.length ∧
        BoxOf box' (fun c => S c ∨ ∃ f ∈ fs, c ∈ (batchPoints f b).map Prod.fst) := by
  intro fs
  induction fs with
  | nil =>
    intro as Ps box S hl ha hB
    cases as with
    | nil =>
      cases ha
      exact ⟨[], box, rfl, by simp, rfl, boxOf_congr (by simp) hB⟩
    | cons a as => simp at hl
  | cons f fs ih =>
    intro as Ps box S hl ha hB
    cases ha with
    | nil => simp at hl
    | @cons a P as Ps h1 h2 =>
      have hl' : fs.length = as.length := by simpa using hl
      simp only [insertFloors]
      split
      · next hc =>
        have hbp : batchPoints f b = ps := by simp [batchPoints, hc, hb]
        obtain ⟨g1, g2⟩ := fold_insert ps h1 hB
        obtain ⟨as', box', e, q1, q2, q3⟩ := ih hl' h2 g2
        refine ⟨(ps.foldl insertPoint (a, box)).1 :: as', box', ?_, ?_, ?_, ?_⟩
        · simp [insert, hb, e]
        · rw [List.zipWith_cons_cons]
          exact .cons (by rw [hbp]; exact g1) q1
        · simp [q2]
        · refine boxOf_congr ?_ q3
          intro c
          simp only [List.mem_cons, exists_eq_or_imp, hbp]
          tauto
      · next hc =>
        have hbp : batchPoints f b = [] := by simp [batchPoints, hc]
        obtain ⟨as', box', e, q1, q2, q3⟩ := ih hl' h2 hB
        refine ⟨a :: as', box', by simp [e], ?_, by simp [q2], ?_⟩
        · rw [List.zipWith_cons_cons]
          exact .cons (by rw [hbp, List.append_nil]; exact h1) q1
        · refine boxOf_congr ?_ q3
          intro c
          simp only [List.mem_cons, exists_eq_or_imp, hbp]
          simp

/-- The floors as they index the aggregations. -/
def views (floors : List (List (Int × Int))) : List (Option (List (Int × Int))) :=
  if floors.length = 0 then [none] else floors.map some

/-- The voxels of all points that were inserted somewhere. -/
def Inserted (floors : List (List (Int × Int))) (bs : List Batch) (c : Cell) : Prop :=
  ∃ v ∈ views floors, c ∈ (pointsOf v bs).map Prod.fst

/-- The state after the batches `bs`. -/
def Inv (floors : List (List (Int × Int))) (bs : List Batch) (s : State) : Prop :=
  List.Forall₂ Agg s.aggregations ((views floors).map fun v => pointsOf v bs) ∧
  BoxOf s.box (Inserted floors bs)

theorem inv_initial (floors : List (List (Int × Int))) : Inv floors [] (initial floors) := by
  refine ⟨?_, ?_⟩
  · have e : ∀ n, List.Forall₂ Agg (List.replicate n .empty) (List.replicate n []) := by
      intro n
      induction n with
      | zero => simp
      | succ n ih => simp [List.replicate_succ, agg_empty, ih]
    have : ((views floors).map fun v => pointsOf v []) =
        List.replicate (if floors.length = 0 then 1 else floors.length) [] := by
      unfold views
      split
      · simp [pointsOf]
      · simp [pointsOf, Function.comp_def]
    rw [this]
    exact e _
  · intro c
    simp [Inserted, pointsOf]

theorem pointsOf_append (v : Option (List (Int × Int))) (bs : List Batch) (b : Batch) :
    pointsOf v (bs ++ [b]) = pointsOf v bs ++ pointsOf v [b] := by
  simp [pointsOf]

theorem inv_process {floors : List (List (Int × Int))} {bs : List Batch} {s : State} {b : Batch}
    (h : Inv floors bs s) (hb : b.Ok) :
    ∃ s', process floors s b = some s' ∧ Inv floors (bs ++ [b]) s' := by
  obtain ⟨ha, hB⟩ := h
  obtain ⟨ps, hps⟩ := colored_of_ok hb
  obtain ⟨as, box⟩ := s
  cases floors with
  | nil =>
    simp only [views, List.length_nil, if_true, List.map_cons, List.map_nil] at ha
    cases ha with
    | @cons a _ as _ h1 h2 =>
      cases h2
      obtain ⟨g1, g2⟩ := fold_insert ps h1 hB
      have hp : pointsOf none [b] = ps := by simp [pointsOf, hps]
      refine ⟨_, by simp [process, insert, hps]; rfl, ?_, ?_⟩
      · simp only [views, List.length_nil, if_true, List.map_cons, List.map_nil,
          pointsOf_append, hp]
        exact .cons g1 .nil
      · refine boxOf_congr ?_ g2
        intro c
        simp only [Inserted, views, List.length_nil, if_true, List.mem_singleton, exists_eq_left,
          pointsOf_append, hp, List.map_append, List.mem_append]
  | cons f fs =>
    have hv : views (f :: fs) = (f :: fs).map some := by simp [views]
    rw [hv] at ha
    simp only [List.map_map] at ha
    have hl : (f :: fs).length = as.length := by
      have := ha.length_eq
      simpa using this.symm
    have hbp : ∀ g, pointsOf (some g) [b] = batchPoints g b := by
      intro g; simp [pointsOf, batchPoints]
    obtain ⟨as', box', e, q1, q2, q3⟩ := insertFloors_spec hps hl ha hB
    refine ⟨⟨as', box'⟩, ?_, ?_, ?_⟩
    · simp only [process, e, Option.map_some]
    · rw [hv]
      simp only [List.map_map]
      have : (List.zipWith (fun f P => P ++ batchPoints f b) (f :: fs)
          (List.map ((fun v => pointsOf v bs) ∘ some) (f :: fs))) =
          List.map ((fun v => pointsOf v (bs ++ [b])) ∘ some) (f :: fs) := by
        rw [List.zipWith_map_right]
        rw [List.zipWith_self]
        refine List.map_congr_left fun g _ => ?_
        simp [pointsOf_append, hbp]
      rw [← this]
      exact q1
    · refine boxOf_congr ?_ q3
      intro c
      simp only [Inserted, hv, List.mem_map, exists_exists_and_eq_and, pointsOf_append, hbp,
        List.map_append, List.mem_append]
      constructor
      · rintro (⟨g, hg, h⟩ | ⟨g, hg, h⟩)
        · exact ⟨g, hg, .inl h⟩
        · exact ⟨g, hg, .inr h⟩
      · rintro ⟨g, hg, h | h⟩
        · exact .inl ⟨g, hg, h⟩
        · exact .inr ⟨g, hg, h⟩

theorem inv_all {floors : List (List (Int × Int))} : ∀ {bs : List Batch} {before : List Batch}
    {s : State}, Inv floors before s → (∀ b ∈ bs, b.Ok) →
    ∃ s', processAll floors s bs = some s' ∧ Inv floors (before ++ bs) s' := by
  intro bs
  induction bs with
  | nil => intro before s h _; exact ⟨s, rfl, by simpa using h⟩
  | cons b bs ih =>
    intro before s h hb
    obtain ⟨s1, e1, h1⟩ := inv_process h (hb b (by simp))
    obtain ⟨s2, e2, h2⟩ := ih h1 fun x hx => hb x (by simp [hx])
    refine ⟨s2, ?_, by simpa using h2⟩
    simp only [processAll, e1, Option.bind_some, e2]

/-! ## The image -/

/-- Index of the pixel of a column. -/
def index (b : Box) (col : Int × Int) : Int := b.hi.y - col.1 + (b.hi.z - col.2) * b.width

/-- The column is inside the box. -/
def Inside (b : Box) (col : Int × Int) : Prop :=
  b.lo.y ≤ col.1 ∧ col.1 ≤ b.hi.y ∧ b.lo.z ≤ col.2 ∧ col.2 ≤ b.hi.z

theorem index_at {b : Box} {col : Int × Int} (h : Inside b col) :
    b.at (b.pixel col) = some (index b col) ∧ 0 ≤ index b col ∧
      index b col < b.width * b.height := by
  obtain ⟨h1, h2, h3, h4⟩ := h
  have hw : 0 < b.width := by unfold Box.width; omega
  have hA : 0 ≤ (b.hi.z - col.2) * b.width := mul_nonneg (by omega) (by omega)
  have hB : (b.hi.z - col.2) * b.width ≤ (b.height - 1) * b.width :=
    mul_le_mul_of_nonneg_right (by unfold Box.height; omega) (by omega)
  have hC : (b.height - 1) * b.width = b.width * b.height - b.width := by ring
  have hx : b.hi.y - col.1 < b.width := by unfold Box.width; omega
  have h5 : 0 ≤ index b col := by unfold index; omega
  have h6 : index b col < b.width * b.height := by unfold index; omega
  refine ⟨?_, h5, h6⟩
  unfold Box.at Box.pixel
  exact if_pos ⟨h5, h6⟩

theorem index_inj {b : Box} {c d : Int × Int} (hc : Inside b c) (hd : Inside b d)
    (h : index b c = index b d) : c = d := by
  obtain ⟨c1, c2, c3, c4⟩ := hc
  obtain ⟨d1, d2, d3, d4⟩ := hd
  have hw : b.width = b.hi.y - b.lo.y + 1 := rfl
  unfold index at h
  have hz : c.2 = d.2 := by
    by_contra hne
    have h1 : (d.2 - c.2) * b.width = c.1 - d.1 := by
      have e : (d.2 - c.2) * b.width =
        (b.hi.z - c.2) * b.width - (b.hi.z - d.2) * b.width := by ring
      rw [e]; omega
    rcases lt_or_gt_of_ne hne with hlt | hlt
    · have : 1 * b.width ≤ (d.2 - c.2) * b.width :=
        mul_le_mul_of_nonneg_right (by omega) (by omega)
      omega
    · have : 1 * b.width ≤ (c.2 - d.2) * b.width :=
        mul_le_mul_of_nonneg_right (by omega) (by omega)
      have e : (c.2 - d.2) * b.width = - ((d.2 - c.2) * b.width) := by ring
      omega
  have hy : c.1 = d.1 := by rw [hz] at h; omega
  exact Prod.ext hy hz

theorem index_surj {b : Box} {i : Int} (hw : 0 < b.width) (h0 : 0 ≤ i)
    (h1 : i < b.width * b.height) : ∃ col, Inside b col ∧ index b col = i := by
  refine ⟨(b.hi.y - i % b.width, b.hi.z - i / b.width), ?_, ?_⟩
  · have m1 := Int.emod_nonneg i (ne_of_gt hw)
    have m2 := Int.emod_lt_of_pos i hw
    have d1 : 0 ≤ i / b.width := Int.ediv_nonneg h0 (le_of_lt hw)
    have d2 : i / b.width < b.height := Int.ediv_lt_of_lt_mul hw (by rw [mul_comm]; exact h1)
    have ew : b.width = b.hi.y - b.lo.y + 1 := rfl
    have eh : b.height = b.hi.z - b.lo.z + 1 := rfl
    refine ⟨?_, ?_, ?_, ?_⟩ <;> simp only <;> omega
  · unfold index
    simp only
    have := Int.emod_add_mul_ediv i b.width
    have e : (b.hi.z - (b.hi.z - i / b.width)) * b.width = b.width * (i / b.width) := by ring
    rw [e]
    omega

/-- The loop over the voxels: counts and mean colors. -/
theorem pixels_spec {b : Box} {columns : Int × Int → Option ColumnData} (cells : List Cell)
    (hin : ∀ c ∈ cells, Inside b c.column) (hcol : ∀ c ∈ cells, columns c.column ≠ none) :
    ∀ m : Int → PixelData, ∃ m', pixels b columns m cells = some m' ∧
      ∀ col, Inside b col →
        (m' (index b col)).count =
          (m (index b col)).count + (cells.filter fun c => decide (c.column = col)).length ∧
        ((cells.filter fun c => decide (c.column = col)).length ≠ 0 → ∃ d, columns col = some d ∧
          (m' (index b col)).r = d.r / d.count ∧ (m' (index b col)).g = d.g / d.count ∧
          (m' (index b col)).b = d.b / d.count) ∧
        ((cells.filter fun c => decide (c.column = col)).length = 0 →
          m' (index b col) = m (index b col)) := by
  induction cells with
  | nil => intro m; exact ⟨m, rfl, fun col _ => by simp⟩
  | cons c cs ih =>
    intro m
    have hi := hin c (by simp)
    obtain ⟨d, hd⟩ := Option.ne_none_iff_exists'.1 (hcol c (by simp))
    obtain ⟨m', e, hm'⟩ := ih (fun x hx => hin x (by simp [hx])) (fun x hx => hcol x (by simp [hx]))
      (Function.update m (index b c.column) ⟨(m (index b c.column)).count + 1,
        d.r / d.count, d.g / d.count, d.b / d.count⟩)
    refine ⟨m', ?_, ?_⟩
    · simp only [pixels, addVoxel, (index_at hi).1, hd, Option.bind_some, Option.map_some]
      exact e
    · intro col hc
      obtain ⟨g1, g2, g3⟩ := hm' col hc
      by_cases ec : c.column = col
      · subst ec
        rw [Function.update_self] at g1 g3
        simp only [List.filter_cons, decide_true, if_true, List.length_cons]
        refine ⟨by rw [g1]; simp only; omega, fun _ => ?_, fun h => absurd h (by omega)⟩
        by_cases h0 : (cs.filter fun x => decide (x.column = c.column)).length = 0
        · rw [g3 h0]; exact ⟨d, hd, rfl, rfl, rfl⟩
        · exact g2 h0
      · have hne : index b col ≠ index b c.column := fun h => ec (index_inj hc hi h).symm
        rw [Function.update_of_ne hne] at g1 g3
        simp only [List.filter_cons, ec, decide_false]
        exact ⟨g1, g2, g3⟩

/-- The largest logarithm bounds all, and is one of them if any is above the start value. -/
theorem maxLog_spec (m : Int → PixelData) (is : List Int) :
    (∀ i ∈ is, (m i).count ≠ 0 → Real.log (m i).count ≤ maxLog m is) ∧
    (maxLog m is = floatMin ∨ ∃ i ∈ is, (m i).count ≠ 0 ∧ maxLog m is = Real.log (m i).count) := by
  have key : ∀ (is : List Int) (a : ℝ),
      let r := is.foldl (fun a i => if (m i).count = 0 then a else max a (Real.log (m i).count)) a
      a ≤ r ∧ (∀ i ∈ is, (m i).count ≠ 0 → Real.log (m i).count ≤ r) ∧
      (r = a ∨ ∃ i ∈ is, (m i).count ≠ 0 ∧ r = Real.log (m i).count) := by
    intro is
    induction is with
    | nil => intro a; simp
    | cons i is ih =>
      intro a
      simp only [List.foldl_cons]
      by_cases h0 : (m i).count = 0
      · rw [if_pos h0]
        obtain ⟨g1, g2, g3⟩ := ih a
        refine ⟨g1, ?_, ?_⟩
        · intro j hj hne
          rcases List.mem_cons.1 hj with rfl | hj
          · exact absurd h0 hne
          · exact g2 j hj hne
        · rcases g3 with g3 | ⟨j, hj, hne, e⟩
          · exact .inl g3
          · exact .inr ⟨j, by simp [hj], hne, e⟩
      · rw [if_neg h0]
        obtain ⟨g1, g2, g3⟩ := ih (max a (Real.log (m i).count))
        refine ⟨le_trans (le_max_left _ _) g1, ?_, ?_⟩
        · intro j hj hne
          rcases List.mem_cons.1 hj with rfl | hj
          · exact le_trans (le_max_right _ _) g1
          · exact g2 j hj hne
        · rcases g3 with g3 | ⟨j, hj, hne, e⟩
          · rcases max_choice a (Real.log (m i).count) with h | h
            · exact .inl (g3.trans h)
            · exact .inr ⟨i, by simp, h0, g3.trans h⟩
          · exact .inr ⟨j, by simp [hj], hne, e⟩
  exact ⟨(key is floatMin).2.1, (key is floatMin).2.2⟩

theorem toUint8_one : toUint8 1 = 255 := by
  simp only [toUint8, min_self]
  rw [max_eq_right (by norm_num : (0 : ℝ) ≤ 1), one_mul]
  exact_mod_cast round_intCast (α := ℝ) 255

theorem filter_length_voxels {a : Aggregation} {pts : List (Cell × Color)} (h : Agg a pts)
    {cells : List Cell} (nd : cells.Nodup) (hc : ∀ c, c ∈ cells ↔ c ∈ a.voxels) (col : Int × Int) :
    (cells.filter fun c => decide (c.column = col)).length = voxelsIn pts col := by
  unfold voxelsIn
  refine List.Perm.length_eq ?_
  rw [List.perm_ext_iff_of_nodup (nd.filter _) (List.nodup_dedup _)]
  intro c
  rw [List.mem_dedup, List.mem_filter, hc c, h.2.1 c]
  simp only [inColumn, List.mem_map, List.mem_filter, decide_eq_true_eq]
  constructor
  · rintro ⟨⟨p, hp, rfl⟩, e⟩
    exact ⟨p, ⟨hp, e⟩, rfl⟩
  · rintro ⟨p, ⟨hp, e⟩, rfl⟩
    exact ⟨⟨p, hp, rfl⟩, e⟩

theorem floatMin_lt_log_two : floatMin < Real.log 2 := by
  have h1 : floatMin ≤ 1 / 2 ^ 2 := by
    unfold floatMin
    apply one_div_le_one_div_of_le
    · norm_num
    · exact pow_le_pow_right₀ (by norm_num) (by norm_num)
  have h2 : (1 : ℝ) / 2 ^ 2 < Real.log 2 := by
    have := Real.one_sub_inv_le_log_of_pos (show (0 : ℝ) < 2 by norm_num)
    norm_num at this ⊢
    linarith
  linarith

/-- The pixels of an aggregation. -/
theorem write_spec {a : Aggregation} {pts : List (Cell × Color)} (h : Agg a pts) {b : Box}
    (hin : ∀ c ∈ pts.map Prod.fst, Inside b c.column) {cells : List Cell} (nd : cells.Nodup)
    (hc : ∀ c, c ∈ cells ↔ c ∈ a.voxels) (factor : ℝ) :
    ∃ im, writeVoxels a cells (some b) factor = some (some im) ∧
      im.width = b.hi.y - b.lo.y + 1 ∧ im.height = b.hi.z - b.lo.z + 1 ∧
      ∀ N, Largest pts N → ∀ col, Inside b col →
        im.getPixel (b.hi.y - col.1) (b.hi.z - col.2) = expected pts N factor col := by
  have hin' : ∀ c ∈ cells, Inside b c.column := fun c hm => hin c ((h.2.1 c).1 ((hc c).1 hm))
  have hcol : ∀ c ∈ cells, a.columns c.column ≠ none := by
    intro c hm
    have := (h.2.1 c).1 ((hc c).1 hm)
    obtain ⟨p, hp, rfl⟩ := List.mem_map.1 this
    rw [h.2.2]
    have : inColumn pts p.1.column ≠ [] :=
      List.ne_nil_of_mem (List.mem_filter.2 ⟨hp, by simp⟩)
    rw [if_neg (by simpa using this)]
    simp
  obtain ⟨m, e, hm⟩ := pixels_spec cells hin' hcol fun _ => ⟨0, 0, 0, 0⟩
  refine ⟨intoImage b factor m, by simp [writeVoxels, e], rfl, rfl, ?_⟩
  intro N hN col hi
  obtain ⟨g1, g2, g3⟩ := hm col hi
  rw [filter_length_voxels h nd hc col, Nat.zero_add] at g1
  rw [filter_length_voxels h nd hc col] at g2
  have hidx : (b.hi.z - col.2) * b.width + (b.hi.y - col.1) = index b col := by
    unfold index; ring
  have hpix : (intoImage b factor m).getPixel (b.hi.y - col.1) (b.hi.z - col.2) =
      pixelColor (maxLog m ((List.range (b.width * b.height).toNat).map Int.ofNat)) factor
        (m (index b col)) := by
    simp only [Image.getPixel, intoImage, hidx]
  rw [hpix]
  unfold expected pixelColor
  by_cases h0 : voxelsIn pts col = 0
  · rw [if_pos (by rw [g1]; exact h0), if_pos (by omega)]
  · rw [if_neg (by rw [g1]; exact h0)]
    by_cases h1 : voxelsIn pts col ≤ 1
    · rw [if_pos h1]
      have h1' : voxelsIn pts col = 1 := by omega
      simp only [g1, h1', Nat.cast_one, Real.log_one, zero_div, zero_mul]
      rw [min_eq_right (by norm_num : (0 : ℝ) ≤ 1)]
      simp [mix, Color.toPixel, toUint8_one]
    · rw [if_neg h1]
      -- the largest logarithm
      have hw : 0 < b.width := by
        obtain ⟨i1, i2, _, _⟩ := hi; unfold Box.width; omega
      have hmax : maxLog m ((List.range (b.width * b.height).toNat).map Int.ofNat) =
          Real.log N := by
        have hmem : ∀ c', Inside b c' →
            index b c' ∈ (List.range (b.width * b.height).toNat).map Int.ofNat := by
          intro c' h'
          obtain ⟨_, k1, k2⟩ := index_at h'
          refine List.mem_map.2 ⟨(index b c').toNat, List.mem_range.2 ?_, Int.toNat_of_nonneg k1⟩
          omega
        have hcount : ∀ c', Inside b c' → (m (index b c')).count = voxelsIn pts c' := by
          intro c' h'
          have := (hm c' h').1
          rw [filter_length_voxels h nd hc c', Nat.zero_add] at this
          exact this
        obtain ⟨s1, s2⟩ := maxLog_spec m ((List.range (b.width * b.height).toNat).map Int.ofNat)
        have hN2 : 2 ≤ N := le_trans (by omega) (hN.1 col)
        obtain ⟨cN, hcN⟩ := hN.2
        have hiN : Inside b cN := by
          have hne : voxelsIn pts cN ≠ 0 := by omega
          unfold voxelsIn at hne
          obtain ⟨c', hc'⟩ := List.exists_mem_of_length_pos (Nat.pos_of_ne_zero hne)
          rw [List.mem_dedup] at hc'
          obtain ⟨p, hp, rfl⟩ := List.mem_map.1 hc'
          obtain ⟨hp1, hp2⟩ := List.mem_filter.1 hp
          have := hin p.1 (List.mem_map_of_mem hp1)
          rw [decide_eq_true_eq] at hp2
          rw [hp2] at this
          exact this
        refine le_antisymm ?_ ?_
        · rcases s2 with s2 | ⟨i, hi', hne, s2⟩
          · rw [s2]
            refine le_of_lt (lt_of_lt_of_le floatMin_lt_log_two ?_)
            exact Real.log_le_log (by norm_num) (by exact_mod_cast hN2)
          · rw [s2]
            obtain ⟨n, hn, rfl⟩ := List.mem_map.1 hi'
            have hn' := List.mem_range.1 hn
            obtain ⟨c', hc', e'⟩ := index_surj (b := b) (i := Int.ofNat n) hw (by simp)
              (by simp only [Int.ofNat_eq_natCast]; omega)
            rw [← e', hcount c' hc'] at hne ⊢
            exact Real.log_le_log (by exact_mod_cast Nat.pos_of_ne_zero hne)
              (by exact_mod_cast hN.1 c')
        · have := s1 _ (hmem cN hiN) (by rw [hcount cN hiN]; omega)
          rwa [hcount cN hiN, hcN] at this
      obtain ⟨d, hd, r1, r2, r3⟩ := g2 h0
      rw [h.2.2] at hd
      split at hd
      · cases hd
      · cases hd
        rw [hmax, g1, r1, r2, r3]
        simp only [Color.toPixel, mix, meanColor, one_mul]

theorem forall₂_get {α β : Type} {R : α → β → Prop} {l : List α} {k : List β}
    (h : List.Forall₂ R l k) : ∀ {i : Nat} {b : β}, k[i]? = some b →
    ∃ a, l[i]? = some a ∧ R a b := by
  induction h with
  | nil => intro i b e; simp at e
  | cons h1 _ ih =>
    intro i b e
    cases i with
    | zero => simp at e; subst e; exact ⟨_, rfl, h1⟩
    | succ i => simp at e; simpa using ih e

/-- **C101**: processing never aborts; every view (the one without floors, or one per
floor) gives an image that covers all inserted points of all views, with the expected
pixels; nothing is written without points. -/
theorem images {floors : List (List (Int × Int))} {bs : List Batch} (hb : ∀ b ∈ bs, b.Ok)
    (factor : ℝ) :
    ∃ s, processAll floors (initial floors) bs = some s ∧ BoxOf s.box (Inserted floors bs) ∧
      s.aggregations.length = (views floors).length ∧
      ∀ (i : Nat) (v : Option (List (Int × Int))), (views floors)[i]? = some v →
        ∃ a, s.aggregations[i]? = some a ∧
          ∀ cells : List Cell, cells.Nodup → (∀ c, c ∈ cells ↔ c ∈ a.voxels) →
            (s.box = none → writeVoxels a cells s.box factor = some none) ∧
            ∀ b, s.box = some b → ∃ im, writeVoxels a cells s.box factor = some (some im) ∧
              im.width = b.hi.y - b.lo.y + 1 ∧ im.height = b.hi.z - b.lo.z + 1 ∧
              ∀ N, Largest (pointsOf v bs) N → ∀ col, Inside b col →
                im.getPixel (b.hi.y - col.1) (b.hi.z - col.2) =
                  expected (pointsOf v bs) N factor col := by
  obtain ⟨s, e, ha, hB⟩ := inv_all (inv_initial floors) hb
  simp only [List.nil_append] at ha hB
  refine ⟨s, e, hB, by simpa using ha.length_eq, ?_⟩
  intro i v hv
  obtain ⟨a, hai, hag⟩ := forall₂_get ha (i := i) (b := pointsOf v bs) (by simp [hv])
  refine ⟨a, hai, fun cells nd hc => ⟨fun h => by rw [h]; rfl, ?_⟩⟩
  intro b hbox
  rw [hbox]
  refine write_spec hag ?_ nd hc factor
  intro c hcm
  rw [hbox] at hB
  exact hB.1 c ⟨v, List.mem_of_getElem? hv, hcm⟩

/-- **C101**: a batch belongs to a floor exactly if it starts within one of the time spans of the floor, both ends included. -/
theorem on_floor (t : Int) (spans : List (Int × Int)) : containedIn t spans = true ↔ ∃ a b, (a, b) ∈ spans ∧ a ≤ t ∧ t ≤ b := by
  simp only [containedIn, List.any_eq_true, Bool.and_eq_true, decide_eq_true_eq, Prod.exists]

/-- **C101**: the points are inserted with their colors, black if there are none. -/
theorem point_colors {b : Batch} (h : b.Ok) : ∃ ps, b.colored = some ps ∧ ps.map Prod.fst = b.points ∧
    ∀ (i : Nat) (c : Color), ps[i]?.map Prod.snd = some c → if b.colors = [] then c = ⟨0, 0, 0⟩ else b.colors[i]? = some c := by
  obtain ⟨ps, hps⟩ := colored_of_ok h
  refine ⟨ps, hps, colored_cells hps, fun i c hc => ?_⟩
  unfold Batch.colored at hps
  by_cases h0 : b.colors.length = 0
  · rw [if_pos h0, Option.some.injEq] at hps
    rw [if_pos (List.length_eq_zero_iff.1 h0)]
    subst hps
    rw [List.getElem?_map] at hc
    cases hp : b.points[i]? with
    | none => rw [hp] at hc; cases hc
    | some p =>
      rw [hp] at hc
      exact (Option.some.inj hc).symm
  · rw [if_neg h0] at hps
    rw [if_neg (fun e => h0 (by rw [e]; rfl))]
    split at hps
    · rw [Option.some.injEq] at hps
      subst hps
      cases hz : (b.points.zip b.colors)[i]? with
      | none => rw [hz] at hc; cases hc
      | some p =>
        rw [hz] at hc
        rw [← Option.some.inj hc]
        exact (List.getElem?_zip_eq_some.1 hz).2
    · cases hps

/-- The pixels depend on the points only through what is in the columns: any other order
of the batches gives the same image. -/
theorem order_irrelevant {pts qts : List (Cell × Color)} (h : pts.Perm qts) (N : Nat)
    (factor : ℝ) (col : Int × Int) :
    expected pts N factor col = expected qts N factor col ∧ (Largest pts N ↔ Largest qts N) := by
  have hp : ∀ c, (inColumn pts c).Perm (inColumn qts c) := fun c => h.filter _
  have hv : ∀ c, voxelsIn pts c = voxelsIn qts c := by
    intro c
    unfold voxelsIn
    exact (((hp c).map Prod.fst).dedup).length_eq
  have hm : meanColor pts col = meanColor qts col := by
    unfold meanColor
    rw [((hp col).map _).sum_eq, ((hp col).map _).sum_eq, ((hp col).map _).sum_eq,
      (hp col).length_eq]
  refine ⟨by simp only [expected, hv, hm], ?_⟩
  unfold Largest
  simp only [hv]

/-- A column whose points are all in one voxel is drawn like a column without points. -/
theorem single_voxel_white {pts : List (Cell × Color)} {col : Int × Int}
    (h : voxelsIn pts col = 1) (N : Nat) (factor : ℝ) :
    expected pts N factor col = ⟨255, 255, 255⟩ := by
  simp [expected, h]

/-- The tallest columns have exactly the mean color if the factor is at least 1. -/
theorem tallest_full {pts : List (Cell × Color)} {col : Int × Int} {N : Nat}
    (h : voxelsIn pts col = N) (h2 : 2 ≤ N) {factor : ℝ} (hf : 1 ≤ factor) :
    expected pts N factor col = (meanColor pts col).toPixel := by
  have hl : Real.log N ≠ 0 := by
    have : 0 < Real.log N := Real.log_pos (by exact_mod_cast (by omega : 1 < N))
    exact ne_of_gt this
  simp only [expected, h]
  rw [if_neg (by omega), div_self hl, one_mul, min_eq_left hf]
  simp [Color.toPixel]

/-- There is always a largest number, so the expected pixels are determined. -/
theorem largest_exists (pts : List (Cell × Color)) : ∃ N, Largest pts N := by
  have hfin : ∀ col, voxelsIn pts col ≤ pts.length := by
    intro col
    unfold voxelsIn inColumn
    refine le_trans (List.Sublist.length_le (List.dedup_sublist _)) ?_
    rw [List.length_map]
    exact List.length_filter_le _ _
  classical
  have hex : ∃ N, ∀ col, voxelsIn pts col ≤ N := ⟨_, hfin⟩
  refine ⟨Nat.find hex, Nat.find_spec hex, ?_⟩
  by_contra hno
  push Not at hno
  have hlt : ∀ col, voxelsIn pts col < Nat.find hex := fun col =>
    lt_of_le_of_ne (Nat.find_spec hex col) (hno col)
  have hpos : 0 < Nat.find hex := lt_of_le_of_lt (Nat.zero_le _) (hlt (0, 0))
  have := Nat.find_min hex (m := Nat.find hex - 1) (by omega)
  exact this fun col => by have := hlt col; omega

/-! ## Examples -/

/-- Two points above each other and one beside: the first column is black, the second white. -/
example : voxelsIn [(⟨0, 0, 0⟩, ⟨0, 0, 0⟩), (⟨1, 0, 0⟩, ⟨0, 0, 0⟩), (⟨0, 1, 0⟩, ⟨0, 0, 0⟩)] (0, 0) = 2 ∧
    voxelsIn [(⟨0, 0, 0⟩, ⟨0, 0, 0⟩), (⟨1, 0, 0⟩, ⟨0, 0, 0⟩), (⟨0, 1, 0⟩, ⟨0, 0, 0⟩)] (1, 0) = 1 := by
  constructor <;> simp [voxelsIn, inColumn, Cell.column, List.dedup_cons_of_notMem]

/-- A batch with fewer colors than points aborts. -/
example : processAll [] (initial []) [⟨0, [⟨0, 0, 0⟩, ⟨1, 0, 0⟩], [⟨1, 1, 1⟩]⟩] = none := by
  simp [processAll, process, initial, insert, Batch.colored]

/-- Conversion back and forth keeps every component, io/color.h:35-40. -/
theorem uint8_float_uint8 (c : Int) (h0 : 0 ≤ c) (h1 : c ≤ 255) : toUint8 ((c : ℝ) / 255) = c := by
  have a : (0 : ℝ) ≤ c := by exact_mod_cast h0
  have b : (c : ℝ) ≤ 255 := by exact_mod_cast h1
  unfold toUint8
  rw [min_eq_right (by rw [div_le_one (by norm_num)]; exact b),
    max_eq_right (div_nonneg a (by norm_num)), div_mul_cancel₀ _ (by norm_num : (255 : ℝ) ≠ 0),
    round_intCast]

/-- A floor with two time spans. -/
example : containedIn 5 [(0, 3), (5, 9)] = true ∧ containedIn 4 [(0, 3), (5, 9)] = false := by decide

end Verif.XRayImage
