import Verif.OptimizationProblem
import Verif.GlobalPosesLemmas
import Verif.Props.MapByTime
import Mathlib.Algebra.Group.Basic

/-! # Loops of the optimization problem as functions on lists -/

namespace Verif.OptProblem

open MapById

set_option linter.unusedSectionVars false

section Lists

variable {D : Type}

/-- The element following `a` in the map decides whether the successor of its id is stored. -/
theorem at?_succ {m : Map D} (w : WF m) {pre suf : List (Id × D)} {a : Id × D} (h : flat m = pre ++ a :: suf) :
    at? m (a.1.1, a.1.2 + 1) = suf.head?.bind (fun b => if b.1 = (a.1.1, a.1.2 + 1) then some b.2 else none) := by
  have hs := flat_sorted w
  rw [h, List.pairwise_append, List.pairwise_cons] at hs
  obtain ⟨-, ⟨h1, h2⟩, h3⟩ := hs
  have hno : ∀ d, ((a.1.1, a.1.2 + 1), d) ∈ pre ++ [a] → False := by
    intro d hd
    rcases List.mem_append.1 hd with hd | hd
    · have := h3 _ hd a (by simp)
      simp only [idLt] at this
      omega
    · have := congrArg (fun x : Id × D => x.1.2) (List.mem_singleton.1 hd)
      simp only at this
      omega
  have hiff : ∀ d, at? m (a.1.1, a.1.2 + 1) = some d ↔ ((a.1.1, a.1.2 + 1), d) ∈ suf := by
    intro d
    rw [at?_iff_mem w, h]
    constructor
    · intro hm
      rcases List.mem_append.1 hm with hm | hm
      · exact (hno d (List.mem_append_left _ hm)).elim
      · rcases List.mem_cons.1 hm with hm | hm
        · exact (hno d (List.mem_append_right _ (List.mem_singleton.2 hm))).elim
        · exact hm
    · intro hm; simp [hm]
  cases suf with
  | nil =>
    cases hq : at? m (a.1.1, a.1.2 + 1) with
    | none => rfl
    | some d => have := (hiff d).1 hq; cases this
  | cons b suf =>
    simp only [List.head?_cons, Option.bind_some]
    split
    · rename_i hb
      rw [hiff, ← hb]
      simp
    · rename_i hb
      cases hq : at? m (a.1.1, a.1.2 + 1) with
      | none => rfl
      | some d =>
        exfalso
        rcases List.mem_cons.1 ((hiff d).1 hq) with hm | hm
        · exact hb (by rw [← hm])
        · have k1 := (List.pairwise_cons.1 h2).1 _ hm
          have k2 := h1 b (by simp)
          simp only [idLt] at k1 k2
          have : b.1 ≠ (a.1.1, a.1.2 + 1) := hb
          have hne : ¬ (b.1.1 = a.1.1 ∧ b.1.2 = a.1.2 + 1) := fun ⟨e1, e2⟩ => this (Prod.ext e1 e2)
          omega

end Lists

variable {T O G : Type} [LinearOrder T] [Group O] [Group G] (S : Setup T O G)

/-- The blocks between a node and the one with the next index, if there is one. -/
def succBlocks (p : Problem T O G) (frozen : List Int) (x : Id × Node T O G) : List (Block T G) :=
  if x.1.1 ∈ frozen then []
  else
    match at? p.nodes (x.1.1, x.1.2 + 1) with
    | none => []
    | some n => pairBlocks S p.odometry x ((x.1.1, x.1.2 + 1), n)

theorem innerLoop_spec {p : Problem T O G} (w : WF p.nodes) {frozen : List Int} {u : Int} (hu : u ∉ frozen) {stop : Iter (Node T O G)}
    (vs : Valid p.nodes stop) (hB : ∀ x ∈ rest stop, x.1.1 ≠ u) :
    ∀ (A : List (Id × Node T O G)) (fuel : Nat) (prev it : Iter (Node T O G)) (a : Id × Node T O G),
      Valid p.nodes prev → Valid p.nodes it → rest prev = a :: (A ++ rest stop) → rest it = A ++ rest stop → A.length < fuel →
      (∀ x ∈ a :: A, x.1.1 = u) →
      ∃ last, innerLoop S p.odometry stop fuel prev it = some ((a :: A).flatMap (succBlocks S p frozen), last) ∧ Valid p.nodes last ∧
        rest last = rest stop := by
  intro A
  induction A with
  | nil =>
    intro fuel prev it a vp vi hp hi hf hA
    obtain ⟨fuel, rfl⟩ := Nat.exists_eq_succ_of_ne_zero (by omega : fuel ≠ 0)
    have he : it.eq stop = true := (eq_iff vi vs).2 (by rw [hi]; simp)
    refine ⟨it, ?_, vi, by simpa using hi⟩
    have hsucc : succBlocks S p frozen a = [] := by
      unfold succBlocks
      have hfs := flat_split vp
      rw [hp] at hfs
      rw [at?_succ w hfs]
      split
      · rfl
      · cases hr : rest stop with
        | nil => rfl
        | cons b B =>
          have hb := hB b (by rw [hr]; simp)
          have : b.1 ≠ (a.1.1, a.1.2 + 1) := by
            intro e
            exact hb (by rw [e]; exact hA a (by simp))
          simp [this]
    simp [innerLoop, he, hsucc]
  | cons b A ih =>
    intro fuel prev it a vp vi hp hi hf hA
    obtain ⟨fuel, rfl⟩ := Nat.exists_eq_succ_of_ne_zero (by omega : fuel ≠ 0)
    simp only [List.length_cons] at hf
    have he : it.eq stop = false := by
      rw [← Bool.not_eq_true, eq_iff vi vs, hi]
      simp only [List.length_append, List.length_cons]
      omega
    obtain ⟨d1, -⟩ := next_spec w.nonempty vp hp
    obtain ⟨d2, nx, hn, vn, rn⟩ := next_spec w.nonempty vi (by rw [hi]; rfl)
    obtain ⟨last, hl, vl, rl⟩ := ih fuel it nx b vi vn (by rw [hi]; rfl) rn (by omega) (fun x hx => hA x (List.mem_cons_of_mem _ hx))
    refine ⟨last, ?_, vl, rl⟩
    have hsucc : succBlocks S p frozen a = if b.1.2 = a.1.2 + 1 then pairBlocks S p.odometry a b else [] := by
      unfold succBlocks
      have hfs := flat_split vp
      rw [hp] at hfs
      rw [at?_succ w hfs]
      have ha := hA a (by simp)
      have hb := hA b (by simp)
      rw [if_neg (by rw [ha]; exact hu)]
      simp only [List.cons_append, List.head?_cons, Option.bind_some]
      by_cases hc : b.1.2 = a.1.2 + 1
      · have : b.1 = (a.1.1, a.1.2 + 1) := Prod.ext (by rw [ha, hb]) hc
        rw [if_pos this, if_pos hc, ← this]
      · have : b.1 ≠ (a.1.1, a.1.2 + 1) := fun e => hc (by rw [e])
        rw [if_neg this, if_neg hc]
    simp only [innerLoop, he, d1, d2, hn, hl, Option.bind_eq_bind, Option.bind_some, List.flatMap_cons, hsucc]
    simp

/-- The part of the map from an element of trajectory `u` on, split at the end of the trajectory. -/
theorem split_traj {D : Type} {m : Map D} (w : WF m) {it : Iter D} (v : Valid m it) {x : Id × D} {L : List (Id × D)} (h : rest it = x :: L) :
    ∃ A, L = A ++ rest (endOfTrajectory m x.1.1) ∧ (∀ y ∈ A, y.1.1 = x.1.1) ∧ (∀ y ∈ rest (endOfTrajectory m x.1.1), x.1.1 < y.1.1) := by
  obtain ⟨ve, re⟩ := beginOfTrajectory_spec w (x.1.1 + 1)
  have hs := flat_sorted w
  have hf := flat_split v
  rw [h] at hf
  rw [hf, List.pairwise_append, List.pairwise_cons] at hs
  obtain ⟨-, ⟨h1, h2⟩, h3⟩ := hs
  have hsp := filter_ge_split L h2 x.1.1
  have hall : L.filter (fun e => decide (x.1.1 ≤ e.1.1)) = L := by
    rw [List.filter_eq_self]
    intro y hy
    have := h1 y hy
    simp only [idLt] at this
    simp; omega
  rw [hall] at hsp
  have hre : rest (endOfTrajectory m x.1.1) = L.filter (fun e => decide (x.1.1 + 1 ≤ e.1.1)) := by
    rw [endOfTrajectory, re, hf, List.filter_append, List.filter_cons_of_neg (by simp)]
    have : (before it).filter (fun e => decide (x.1.1 + 1 ≤ e.1.1)) = [] := by
      rw [List.filter_eq_nil_iff]
      intro y hy
      have := h3 y hy x (by simp)
      simp only [idLt] at this
      simp; omega
    rw [this]; rfl
  refine ⟨L.filter (fun e => decide (e.1.1 = x.1.1)), ?_, ?_, ?_⟩
  · rw [hre]; exact hsp
  · intro y hy
    simpa using (List.mem_filter.1 hy).2
  · intro y hy
    rw [hre] at hy
    have := (List.mem_filter.1 hy).2
    simp at this; omega

theorem end_rest {D : Type} {m : Map D} (w : WF m) (hb : MapByTime.SmallNodes m) : Valid m (end_ m) ∧ rest (end_ m) = [] := by
  obtain ⟨ve, re⟩ := beginOfTrajectory_spec w intMax
  refine ⟨ve, ?_⟩
  show rest (beginOfTrajectory m intMax) = []
  rw [re, List.filter_eq_nil_iff]
  rintro ⟨id, d⟩ hx
  have := hb id d ((at?_iff_mem w).2 hx)
  simp; omega

theorem begin_rest {D : Type} {m : Map D} (w : WF m) : Valid m (begin_ m) ∧ rest (begin_ m) = flat m := by
  obtain ⟨ve, re⟩ := beginOfTrajectory_spec w 0
  refine ⟨ve, ?_⟩
  show rest (beginOfTrajectory m 0) = _
  rw [re, List.filter_eq_self]
  rintro ⟨id, d⟩ hx
  obtain ⟨tr, h1, -⟩ := mem_flat.1 hx
  have := w.nonneg _ h1
  simpa using this

theorem nodeLoop_spec {p : Problem T O G} (w : WF p.nodes) (hb : MapByTime.SmallNodes p.nodes) (frozen : List Int) :
    ∀ (fuel : Nat) (it : Iter (Node T O G)), Valid p.nodes it → (rest it).length < fuel →
      nodeLoop S p frozen fuel it = some ((rest it).flatMap (succBlocks S p frozen)) := by
  obtain ⟨ve, re⟩ := end_rest w hb
  intro fuel
  induction fuel with
  | zero => intro it _ h; omega
  | succ fuel ih =>
    intro it v hl
    cases hr : rest it with
    | nil =>
      have : it.eq (end_ p.nodes) = true := (eq_iff v ve).2 (by rw [hr, re])
      simp [nodeLoop, this]
    | cons x L =>
      have : it.eq (end_ p.nodes) = false := by
        rw [← Bool.not_eq_true, eq_iff v ve, hr, re]; simp
      obtain ⟨d, nx, hn, vn, rn⟩ := next_spec w.nonempty v hr
      obtain ⟨A, hA, hA1, hA2⟩ := split_traj w v hr
      obtain ⟨vs, -⟩ := beginOfTrajectory_spec w (x.1.1 + 1)
      rw [hr, List.length_cons, hA, List.length_append] at hl
      have ihs := ih (endOfTrajectory p.nodes x.1.1) vs (by omega)
      by_cases hf : x.1.1 ∈ frozen
      · have h0 : ∀ y ∈ x :: A, succBlocks S p frozen y = [] := by
          intro y hy
          have : y.1.1 = x.1.1 := by
            rcases List.mem_cons.1 hy with rfl | hy
            · rfl
            · exact hA1 y hy
          simp [succBlocks, this, hf]
        have h1 : (x :: A).flatMap (succBlocks S p frozen) = [] := by
          rw [List.flatMap_eq_nil_iff]; exact h0
        have h2 : (x :: L).flatMap (succBlocks S p frozen) =
            (x :: A).flatMap (succBlocks S p frozen) ++ (rest (endOfTrajectory p.nodes x.1.1)).flatMap (succBlocks S p frozen) := by
          rw [hA, ← List.flatMap_append]; rfl
        rw [h2, h1]
        simp [nodeLoop, this, d, hf, ihs]
      · obtain ⟨last, hl1, vl, rl⟩ := innerLoop_spec S w hf vs (fun y hy => ne_of_gt (hA2 y hy)) A fuel it nx x v vn
          (by rw [hr, hA]; rfl) (by rw [rn, hA]; rfl) (by omega)
          (by intro y hy
              rcases List.mem_cons.1 hy with rfl | hy
              · rfl
              · exact hA1 y hy)
        have ihl := ih last vl (by rw [rl]; show (rest (endOfTrajectory p.nodes x.1.1)).length < fuel; omega)
        have h2 : (x :: L).flatMap (succBlocks S p frozen) =
            (x :: A).flatMap (succBlocks S p frozen) ++ (rest (endOfTrajectory p.nodes x.1.1)).flatMap (succBlocks S p frozen) := by
          rw [hA, ← List.flatMap_append]; rfl
        rw [rl] at ihl
        rw [h2]
        have hl1' : innerLoop S p.odometry (endOfTrajectory p.nodes x.1.1) fuel it nx =
          some ((x :: A).flatMap (succBlocks S p frozen), last) := hl1
        have ihl' : nodeLoop S p frozen fuel last =
          some ((rest (endOfTrajectory p.nodes x.1.1)).flatMap (succBlocks S p frozen)) := ihl
        simp [nodeLoop, this, d, hf, hn, hl1', ihl']

/-! ### Fixed frames -/

/-- The fixed frame pose at the time of a node, if there is one. -/
def framePose (p : Problem T O G) (x : Id × Node T O G) : Option G :=
  (SMap.get? x.1.1 p.fixedFrame).bind (fun tr => interpolateFixedFrame S tr x.2.time)

/-- The block for it. -/
def frameBlock (p : Problem T O G) (x : Id × Node T O G) : Option (Block T G) :=
  (framePose S p x).map (fun g => .fixedFrame x.1.1 x.1 g)

/-- The starting point taken from a node. -/
def frameStart (p : Problem T O G) (origin : Option G) (x : Id × Node T O G) : Option O :=
  (framePose S p x).map (startOrigin S origin x.2)

theorem fixedFrameInner_spec {p : Problem T O G} (w : WF p.nodes) {u : Int} {tr : List (T × Reading T (Option G))}
    (htr : SMap.get? u p.fixedFrame = some tr) (origin : Option G) {stop : Iter (Node T O G)} (vs : Valid p.nodes stop) :
    ∀ (A : List (Id × Node T O G)) (fuel : Nat) (it : Iter (Node T O G)) (start : Option O),
      Valid p.nodes it → rest it = A ++ rest stop → A.length < fuel → (∀ x ∈ A, x.1.1 = u) →
      ∃ last, fixedFrameInner S tr origin stop fuel it start =
          some (A.filterMap (frameBlock S p), start.or (A.findSome? (frameStart S p origin)), last) ∧ Valid p.nodes last ∧
        rest last = rest stop := by
  intro A
  induction A with
  | nil =>
    intro fuel it start v hi hf hA
    obtain ⟨fuel, rfl⟩ := Nat.exists_eq_succ_of_ne_zero (by omega : fuel ≠ 0)
    have he : it.eq stop = true := (eq_iff v vs).2 (by rw [hi]; simp)
    refine ⟨it, ?_, v, by simpa using hi⟩
    simp [fixedFrameInner, he]
  | cons x A ih =>
    intro fuel it start v hi hf hA
    obtain ⟨fuel, rfl⟩ := Nat.exists_eq_succ_of_ne_zero (by omega : fuel ≠ 0)
    simp only [List.length_cons] at hf
    have he : it.eq stop = false := by
      rw [← Bool.not_eq_true, eq_iff v vs, hi]
      simp only [List.length_append, List.length_cons]
      omega
    obtain ⟨d, nx, hn, vn, rn⟩ := next_spec w.nonempty v (by rw [hi]; rfl)
    have hx := hA x (by simp)
    have hpose : framePose S p x = interpolateFixedFrame S tr x.2.time := by
      simp [framePose, hx, htr]
    have ihn := fun st => ih fuel nx st vn rn (by omega) (fun y hy => hA y (List.mem_cons_of_mem _ hy))
    cases hg : interpolateFixedFrame S tr x.2.time with
    | none =>
      obtain ⟨last, hl, vl, rl⟩ := ihn start
      refine ⟨last, ?_, vl, rl⟩
      rw [hg] at hpose
      have h1 : frameBlock S p x = none := by simp [frameBlock, hpose]
      have h2 : frameStart S p origin x = none := by simp [frameStart, hpose]
      rw [List.filterMap_cons_none h1, List.findSome?_cons, h2]
      simp [fixedFrameInner, he, d, hn, hg, hl]
    | some g =>
      rw [hg] at hpose
      have h1 : frameBlock S p x = some (.fixedFrame x.1.1 x.1 g) := by simp [frameBlock, hpose]
      have h2 : frameStart S p origin x = some (startOrigin S origin x.2 g) := by simp [frameStart, hpose]
      obtain ⟨last, hl, vl, rl⟩ := ihn (some (start.getD (startOrigin S origin x.2 g)))
      refine ⟨last, ?_, vl, rl⟩
      rw [List.filterMap_cons_some h1, List.findSome?_cons, h2]
      cases start <;> simp_all [fixedFrameInner]

/-- The starting points of fixed frames: for each trajectory with nodes, in order. -/
def frameOrigins (p : Problem T O G) : List Int → List (Int × O)
  | [] => []
  | t :: ts =>
    match ((flat p.nodes).filter (fun x => x.1.1 = t)).findSome? (frameStart S p ((SMap.get? t p.trajectoryData).getD none)) with
    | some o => (t, o) :: frameOrigins p ts
    | none => frameOrigins p ts

theorem ids_from {D : Type} {m : Map D} (hs : SMap.Sorted m) (hne : ∀ e ∈ m, e.2.data ≠ []) {t : Int} {x : Id × D} {L : List (Id × D)}
    (h : (flat m).filter (fun e => decide (t ≤ e.1.1)) = x :: L) :
    (trajectoryIds m).filter (fun u => decide (t ≤ u)) = x.1.1 :: (trajectoryIds m).filter (fun u => decide (x.1.1 + 1 ≤ u)) := by
  induction m with
  | nil => simp [flat] at h
  | cons e m ih =>
    have ih := ih hs.tail (fun e he => hne e (List.mem_cons_of_mem _ he))
    rw [flat_cons, List.filter_append] at h
    by_cases ht : t ≤ e.1
    · obtain ⟨y, l, hy⟩ := List.exists_cons_of_ne_nil (hne e (by simp))
      rw [hy, List.map_cons, List.filter_cons_of_pos (by simp [tag, ht]), List.cons_append] at h
      simp only [List.cons.injEq] at h
      have hx : x.1.1 = e.1 := by rw [← h.1]; rfl
      have hgt : ∀ u ∈ trajectoryIds m, e.1 < u := by
        intro u hu
        obtain ⟨e', he', rfl⟩ := List.mem_map.1 hu
        exact hs.head e' he'
      have h1 : (trajectoryIds m).filter (fun u => decide (t ≤ u)) = trajectoryIds m := by
        rw [List.filter_eq_self]; intro u hu; have := hgt u hu; simp; omega
      have h2 : (trajectoryIds m).filter (fun u => decide (x.1.1 + 1 ≤ u)) = trajectoryIds m := by
        rw [List.filter_eq_self]; intro u hu; have := hgt u hu; simp; omega
      show List.filter _ (e.1 :: trajectoryIds m) = _ :: List.filter _ (e.1 :: trajectoryIds m)
      rw [List.filter_cons_of_pos (by simpa using ht), List.filter_cons_of_neg (by simp; omega), h1, h2, hx]
    · have h0 : (e.2.data.map (tag e.1)).filter (fun e => decide (t ≤ e.1.1)) = [] := by
        rw [List.filter_eq_nil_iff]
        intro a ha
        obtain ⟨y, -, rfl⟩ := List.mem_map.1 ha
        exact fun h => ht (of_decide_eq_true h)
      rw [h0, List.nil_append] at h
      have hx : t ≤ x.1.1 := by
        have : x ∈ (flat m).filter (fun e => decide (t ≤ e.1.1)) := by rw [h]; simp
        simpa using (List.mem_filter.1 this).2
      show List.filter _ (e.1 :: trajectoryIds m) = _ :: List.filter _ (e.1 :: trajectoryIds m)
      rw [List.filter_cons_of_neg (by simpa using ht), List.filter_cons_of_neg (by simp; omega), ih h]

theorem fixedFrameLoop_spec {p : Problem T O G} (w : WF p.nodes) (hb : MapByTime.SmallNodes p.nodes)
    (htd : ∀ id n, at? p.nodes id = some n → (SMap.get? id.1 p.trajectoryData).isSome) :
    ∀ (fuel : Nat) (t : Int) (it : Iter (Node T O G)), Valid p.nodes it → rest it = (flat p.nodes).filter (fun e => decide (t ≤ e.1.1)) →
      (rest it).length + 1 < fuel →
      fixedFrameLoop S p fuel it = some ((rest it).filterMap (frameBlock S p),
        frameOrigins S p ((trajectoryIds p.nodes).filter (fun u => decide (t ≤ u)))) := by
  obtain ⟨ve, re⟩ := end_rest w hb
  intro fuel
  induction fuel with
  | zero => intro t it _ _ h; omega
  | succ fuel ih =>
    intro t it v ht hl
    cases hr : rest it with
    | nil =>
      have he : it.eq (end_ p.nodes) = true := (eq_iff v ve).2 (by rw [hr, re])
      have h0 : (trajectoryIds p.nodes).filter (fun u => decide (t ≤ u)) = [] := by
        rw [List.filter_eq_nil_iff]
        intro u hu hc
        obtain ⟨e, he, rfl⟩ := List.mem_map.1 hu
        obtain ⟨y, l, hy⟩ := List.exists_cons_of_ne_nil (w.nonempty e he)
        have : ((e.1, y.1), y.2) ∈ (flat p.nodes).filter (fun e => decide (t ≤ e.1.1)) := by
          rw [List.mem_filter]
          exact ⟨mem_flat.2 ⟨e.2, he, by rw [hy]; simp⟩, by simpa using hc⟩
        rw [← ht, hr] at this
        cases this
      simp [fixedFrameLoop, he, h0, frameOrigins]
    | cons x L =>
      have he : it.eq (end_ p.nodes) = false := by
        rw [← Bool.not_eq_true, eq_iff v ve, hr, re]; simp
      obtain ⟨d, -⟩ := next_spec w.nonempty v hr
      obtain ⟨A, hA, hA1, hA2⟩ := split_traj w v hr
      obtain ⟨vs, rs⟩ := beginOfTrajectory_spec w (x.1.1 + 1)
      rw [ids_from w.sorted w.nonempty (x := x) (L := L) (by rw [← ht, hr])]
      have hA0 : ∀ y ∈ x :: A, y.1.1 = x.1.1 := by
        intro y hy
        rcases List.mem_cons.1 hy with rfl | hy
        · rfl
        · exact hA1 y hy
      have hxA : (flat p.nodes).filter (fun y => decide (y.1.1 = x.1.1)) = x :: A := by
        have h1 : x :: L = (flat p.nodes).filter (fun e => decide (t ≤ e.1.1)) := by rw [← ht, hr]
        have htx : t ≤ x.1.1 := by
          have : x ∈ (flat p.nodes).filter (fun e => decide (t ≤ e.1.1)) := by rw [← h1]; simp
          simpa using (List.mem_filter.1 this).2
        have h2 : (flat p.nodes).filter (fun y => decide (y.1.1 = x.1.1)) = (x :: L).filter (fun y => decide (y.1.1 = x.1.1)) := by
          rw [h1, List.filter_filter]
          apply List.filter_congr
          intro y _
          by_cases hy : y.1.1 = x.1.1 <;> simp [hy, htx]
        rw [h2, hA, ← List.cons_append, List.filter_append, List.filter_eq_self.2 (fun y hy => by simpa using hA0 y hy),
          List.filter_eq_nil_iff.2 (fun y hy => by have := hA2 y hy; simp; omega), List.append_nil]
      have hxm : at? p.nodes x.1 = some x.2 := (at?_iff_mem w).2 (by rw [flat_split v, hr]; simp)
      rw [hr, List.length_cons, hA, List.length_append] at hl
      have ihs := fun (last : Iter (Node T O G)) vl (rl : rest last = rest (endOfTrajectory p.nodes x.1.1)) =>
        ih (x.1.1 + 1) last vl (by rw [rl]; exact rs) (by rw [rl]; omega)
      have hsplit : (x :: L).filterMap (frameBlock S p) =
          (x :: A).filterMap (frameBlock S p) ++ (rest (endOfTrajectory p.nodes x.1.1)).filterMap (frameBlock S p) := by
        rw [hA, ← List.filterMap_append]; rfl
      cases htr : SMap.get? x.1.1 p.fixedFrame with
      | none =>
        have h0 : ∀ y ∈ x :: A, framePose S p y = none := by
          intro y hy
          simp [framePose, hA0 y hy, htr]
        have h1 : (x :: A).filterMap (frameBlock S p) = [] := by
          rw [List.filterMap_eq_nil_iff]
          intro y hy
          simp [frameBlock, h0 y hy]
        have h2 : ∀ o, (x :: A).findSome? (frameStart S p o) = none := by
          intro o
          rw [List.findSome?_eq_none_iff]
          intro y hy
          simp [frameStart, h0 y hy]
        rw [hsplit, h1]
        have := ihs (endOfTrajectory p.nodes x.1.1) vs rfl
        simp only [frameOrigins, hxA, h2]
        simp [fixedFrameLoop, he, d, htr, this]
      | some tr =>
        obtain ⟨origin, ho⟩ := Option.isSome_iff_exists.1 (htd _ _ hxm)
        obtain ⟨last, hl1, vl, rl⟩ := fixedFrameInner_spec S w htr origin vs (x :: A) fuel it none v
          (by rw [hr, hA]; rfl) (by simp only [List.length_cons]; omega) hA0
        have ihl := ihs last vl rl
        have hl1' : fixedFrameInner S tr origin (endOfTrajectory p.nodes x.1.1) fuel it none =
          some ((x :: A).filterMap (frameBlock S p), (none : Option O).or ((x :: A).findSome? (frameStart S p origin)), last) := hl1
        rw [rl] at ihl
        have ihl' : fixedFrameLoop S p fuel last = some ((rest (endOfTrajectory p.nodes x.1.1)).filterMap (frameBlock S p),
          frameOrigins S p ((trajectoryIds p.nodes).filter (fun u => decide (x.1.1 + 1 ≤ u)))) := ihl
        rw [hsplit]
        simp only [frameOrigins, hxA, ho, Option.getD_some]
        simp only [fixedFrameLoop, he, d, htr, ho, hl1', ihl', Option.bind_eq_bind, Option.bind_some, Option.none_or]
        rfl

/-! ### Landmarks -/

/-- The nodes of a trajectory. -/
def nodesOf (nodes : Map (Node T O G)) (t : Int) : List (Id × Node T O G) := (flat nodes).filter (fun x => x.1.1 = t)

/-- The first two neighbouring nodes of the trajectory with the observation between them. -/
def attach (nodes : Map (Node T O G)) (o : Observation T G) : Option (Id × Id) :=
  (((nodesOf nodes o.trajectory).zip (nodesOf nodes o.trajectory).tail).find? (fun x => x.1.2.time ≤ o.time ∧ o.time ≤ x.2.2.time)).map
    (fun x => (x.1.1, x.2.1))

/-- Times do not decrease along a trajectory. -/
def Monotone (nodes : Map (Node T O G)) (t : Int) : Prop :=
  ∀ i j a b, at? nodes (t, i) = some a → at? nodes (t, j) = some b → i ≤ j → a.time ≤ b.time

theorem nodesOf_mono {nodes : Map (Node T O G)} (w : WF nodes) {t : Int} (hm : Monotone nodes t) :
    (nodesOf nodes t).Pairwise (fun a b => a.2.time ≤ b.2.time) := by
  refine List.Pairwise.imp_of_mem ?_ ((flat_sorted w).filter (fun x => decide (x.1.1 = t)))
  intro a b ha hb hab
  obtain ⟨ha, ta⟩ := List.mem_filter.1 ha
  obtain ⟨hb, tb⟩ := List.mem_filter.1 hb
  simp only [decide_eq_true_eq] at ta tb
  simp only [idLt] at hab
  refine hm a.1.2 b.1.2 a.2 b.2 ((at?_iff_mem w).2 ?_) ((at?_iff_mem w).2 ?_) (by omega)
  · rw [← ta]; exact ha
  · rw [← tb]; exact hb

theorem find_pair {τ : T} {a b : Id × Node T O G} {B : List (Id × Node T O G)} :
    ∀ {A : List (Id × Node T O G)}, (∀ x ∈ A, x.2.time < τ) → a.2.time ≤ τ → (A = [] ∨ a.2.time < τ) → τ ≤ b.2.time →
      ((A ++ a :: b :: B).zip (A ++ a :: b :: B).tail).find? (fun x => x.1.2.time ≤ τ ∧ τ ≤ x.2.2.time) = some (a, b) := by
  intro A
  induction A with
  | nil => intro _ ha _ hb; simp [ha, hb]
  | cons c A ih =>
    intro hA ha hor hb
    have hlt : a.2.time < τ := by simpa using hor
    have ih := ih (fun x hx => hA x (List.mem_cons_of_mem _ hx)) ha (Or.inr hlt) hb
    cases A with
    | nil =>
      simp only [List.cons_append, List.nil_append, List.tail_cons, List.zip_cons_cons] at ih ⊢
      rw [List.find?_cons_of_neg (by simp [hlt])]
      exact ih
    | cons d A =>
      simp only [List.cons_append, List.tail_cons, List.zip_cons_cons] at ih ⊢
      rw [List.find?_cons_of_neg (by
        have := hA d (by simp)
        simp [this])]
      exact ih

theorem splitTime {τ : T} {l : List (Id × Node T O G)} (h : l.Pairwise (fun a b => a.2.time ≤ b.2.time)) :
    ∃ A B, l = A ++ B ∧ (∀ x ∈ A, x.2.time < τ) ∧ (∀ x ∈ B, τ ≤ x.2.time) ∧ l.filter (fun x => decide (τ ≤ x.2.time)) = B := by
  induction l with
  | nil => exact ⟨[], [], rfl, by simp, by simp, rfl⟩
  | cons c l ih =>
    obtain ⟨h1, h2⟩ := List.pairwise_cons.1 h
    by_cases hc : c.2.time < τ
    · obtain ⟨A, B, rfl, hA, hB, hf⟩ := ih h2
      refine ⟨c :: A, B, rfl, ?_, hB, ?_⟩
      · intro x hx
        rcases List.mem_cons.1 hx with rfl | hx
        · exact hc
        · exact hA x hx
      · rw [List.filter_cons_of_neg (by simpa using hc), hf]
    · have hall : ∀ x ∈ c :: l, τ ≤ x.2.time := by
        intro x hx
        rcases List.mem_cons.1 hx with rfl | hx
        · exact not_lt.1 hc
        · exact le_trans (not_lt.1 hc) (h1 x hx)
      exact ⟨[], c :: l, rfl, by simp, hall, List.filter_eq_self.2 (fun x hx => by simpa using hall x hx)⟩

theorem deref_none {D : Type} {m : Map D} {it : Iter D} (v : Valid m it) (h : rest it = []) : it.deref = none := by
  cases hs : it.trSuf with
  | nil => simp [Iter.deref, hs]
  | cons c r =>
    obtain ⟨-, h2⟩ := v.cur c r hs
    obtain ⟨y, l, hy⟩ := List.exists_cons_of_ne_nil h2
    simp [rest, hs, hy] at h

/-- What `AddLandmarkCostFunctions` does with an observation, in terms of the nodes of the trajectory (`A` before the
observation, `B` not before it) and the nodes of later trajectories. -/
theorem landmarkNodes_cases {nodes : Map (Node T O G)} (w : WF nodes) (o : Observation T G) (hm : Monotone nodes o.trajectory) :
    ∃ A B, nodesOf nodes o.trajectory = A ++ B ∧ (∀ x ∈ A, x.2.time < o.time) ∧ (∀ x ∈ B, o.time ≤ x.2.time) ∧
      landmarkNodes nodes o =
        match A.getLast?, B with
        | none, [] => if rest (endOfTrajectory nodes o.trajectory) = [] then none else some none
        | none, b :: B' =>
          if o.time < b.2.time then some none
          else (B' ++ rest (endOfTrajectory nodes o.trajectory)).head?.map (fun c => some (b.1, c.1))
        | some _, [] => some none
        | some a, b :: _ => some (some (a.1, b.1)) := by
  obtain ⟨A, B, hAB, hA, hB, hf⟩ := splitTime (τ := o.time) (nodesOf_mono w hm)
  refine ⟨A, B, hAB, hA, hB, ?_⟩
  obtain ⟨vb, rb⟩ := beginOfTrajectory_spec w o.trajectory
  obtain ⟨ve, re⟩ : Valid nodes (endOfTrajectory nodes o.trajectory) ∧ rest (endOfTrajectory nodes o.trajectory) = _ :=
    beginOfTrajectory_spec w (o.trajectory + 1)
  obtain ⟨it, hit, vi, ri⟩ := lowerBound_rest (fun n : Node T O G => n.time) w o.trajectory o.time hm
  rw [filter_ge_split _ (flat_sorted w) o.trajectory, ← re] at rb
  have rb : rest (beginOfTrajectory nodes o.trajectory) = A ++ B ++ rest (endOfTrajectory nodes o.trajectory) := by
    rw [rb, ← hAB]; rfl
  have ri : rest it = B ++ rest (endOfTrajectory nodes o.trajectory) := by
    have hsp := filter_ge_split (rest it) (by rw [ri]; exact (flat_sorted w).filter _) o.trajectory
    rw [ri, List.filter_filter, List.filter_filter, List.filter_filter] at hsp
    rw [ri, ← hf, re, nodesOf, List.filter_filter]
    refine Eq.trans ?_ (hsp.trans ?_)
    · apply List.filter_congr
      intro x _
      by_cases h1 : x.1.1 = o.trajectory <;> by_cases h2 : o.trajectory + 1 ≤ x.1.1 <;> simp [h1, h2] <;> omega
    · congr 1
      · apply List.filter_congr
        intro x _
        by_cases h1 : x.1.1 = o.trajectory <;> simp [h1]
      · apply List.filter_congr
        intro x _
        by_cases h1 : x.1.1 = o.trajectory <;> by_cases h2 : o.trajectory + 1 ≤ x.1.1 <;> simp [h1, h2]
  generalize hE : rest (endOfTrajectory nodes o.trajectory) = E at *
  have hbefore : before it = before (beginOfTrajectory nodes o.trajectory) ++ A := by
    have h1 := flat_split vi
    rw [flat_split vb, rb, ri] at h1
    have h2 : (before (beginOfTrajectory nodes o.trajectory) ++ A) ++ (B ++ E) = before it ++ (B ++ E) := by
      simpa [List.append_assoc] using h1
    exact (List.append_cancel_right h2).symm
  rcases List.eq_nil_or_concat A with rfl | ⟨A', a, rfl⟩
  · simp only [List.nil_append, List.append_nil] at rb hbefore
    cases B with
    | nil =>
      simp only [List.nil_append] at rb ri
      have heq : it.eq (endOfTrajectory nodes o.trajectory) = true := (eq_iff vi ve).2 (by rw [ri, hE])
      cases E with
      | nil => simp [landmarkNodes, deref_none vb rb]
      | cons x E =>
        obtain ⟨d, -⟩ := next_spec w.nonempty vb rb
        simp only [landmarkNodes, d, hit, heq, Option.bind_eq_bind, Option.bind_some]
        simp
    | cons b B' =>
      obtain ⟨d, -⟩ := next_spec w.nonempty vb rb
      obtain ⟨d', nx, hn, vn, rn⟩ := next_spec w.nonempty vi ri
      have heq : it.eq (endOfTrajectory nodes o.trajectory) = false := by
        rw [← Bool.not_eq_true, eq_iff vi ve, ri, hE]
        simp only [List.length_append, List.length_cons]
        omega
      have hbeg : it.eq (beginOfTrajectory nodes o.trajectory) = true := (eq_iff vi vb).2 (by rw [ri, rb])
      have hbn := before_of_rest vn vi (L := [b]) (by rw [ri, rn]; rfl)
      obtain ⟨pv, hp, dp, -⟩ := prev_spec w.nonempty vn hbn
      simp only [landmarkNodes, d, hit, heq, hbeg, hn, hp, dp, Option.bind_eq_bind, Option.bind_some]
      simp only [List.getLast?_nil]
      have rn : rest nx = B' ++ E := rn
      split
      · rfl
      · cases hq : B' ++ E with
        | nil =>
          rw [hq] at rn
          simp [deref_none vn rn]
        | cons c C =>
          rw [hq] at rn
          simp [(next_spec w.nonempty vn rn).1]
  · have hfirst : ∃ x, (beginOfTrajectory nodes o.trajectory).deref = some x ∧ x.2.time < o.time := by
      cases A' with
      | nil => exact ⟨a, (next_spec w.nonempty vb (by rw [rb]; rfl)).1, hA a (by simp)⟩
      | cons c A' => exact ⟨c, (next_spec w.nonempty vb (by rw [rb]; rfl)).1, hA c (by simp)⟩
    obtain ⟨x, d, hx⟩ := hfirst
    cases B with
    | nil =>
      have heq : it.eq (endOfTrajectory nodes o.trajectory) = true := (eq_iff vi ve).2 (by rw [ri, hE]; rfl)
      simp only [landmarkNodes, d, hit, heq, Option.bind_eq_bind, Option.bind_some]
      simp
    | cons b B' =>
      have heq : it.eq (endOfTrajectory nodes o.trajectory) = false := by
        rw [← Bool.not_eq_true, eq_iff vi ve, ri, hE]
        simp only [List.length_append, List.length_cons]
        omega
      have hbeg : it.eq (beginOfTrajectory nodes o.trajectory) = false := by
        rw [← Bool.not_eq_true, eq_iff vi vb, ri, rb]
        simp only [List.length_append, List.length_cons, List.concat_eq_append, List.length_nil]
        omega
      rw [List.concat_eq_append, ← List.append_assoc] at hbefore
      obtain ⟨pv, hp, dp, -⟩ := prev_spec w.nonempty vi hbefore
      obtain ⟨d', -⟩ := next_spec w.nonempty vi ri
      simp only [landmarkNodes, d, hit, heq, hbeg, hp, dp, d', Option.bind_eq_bind, Option.bind_some]
      simp [not_lt.2 (le_of_lt hx), d', dp]

end Verif.OptProblem
