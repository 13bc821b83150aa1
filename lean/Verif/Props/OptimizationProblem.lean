import Verif.OptimizationProblemLemmas

/-!
# C60: which residuals the optimization problem consists of; C61: trimming does not change the others
-/

namespace Verif.OptProblem

open MapById

set_option linter.unusedSectionVars false

variable {T O G : Type} [LinearOrder T] [Group O] [Group G] (S : Setup T O G)

/-! ### Specification -/

/-- The pose of `tr` at time `τ`: there is a reading not after and one not before `τ`; if there is one exactly at `τ` it is
its pose, otherwise the pose interpolated between the nearest ones. -/
def PoseAt [BoundedOrder T] (tr : List (T × Reading T G)) (τ : T) (g : G) : Prop :=
  ∃ b e, MapByTime.IsLatest tr τ b ∧ MapByTime.IsEarliest tr τ e ∧
    (e.1 = τ → g = e.2.pose) ∧ (e.1 ≠ τ → g = S.lerp b.1 b.2.pose e.1 e.2.pose τ)

/-- The fixed frame pose of `tr` at time `τ`: there must be a reading with a pose not before that time; if no reading is
earlier it must be at exactly that time, otherwise the last earlier reading must have a pose, too. -/
def FrameAt [BoundedOrder T] (tr : List (T × Reading T (Option G))) (τ : T) (g : G) : Prop :=
  ∃ e ge, MapByTime.IsEarliest tr τ e ∧ e.2.pose = some ge ∧
    ((e.1 = τ ∧ g = ge ∧ ∀ x ∈ tr, ¬ x.1 < τ) ∨
      ∃ b gb, b ∈ tr ∧ b.1 < τ ∧ (∀ x ∈ tr, x.1 < τ → x.1 ≤ b.1) ∧ b.2.pose = some gb ∧ g = S.lerp b.1 gb e.1 ge τ)

/-- Interpolation at the time of the second reading gives its pose. -/
def LerpEnd : Prop := ∀ t0 g0 t1 g1, S.lerp t0 g0 t1 g1 t1 = g1

/-- `a` and `b` are neighbouring nodes of the trajectory. -/
structure Neighbours (nodes : Map (Node T O G)) (t : Int) (p n : Id) : Prop where
  first : p.1 = t
  second : n.1 = t
  lt : p.2 < n.2
  between : ∀ k d, at? nodes (t, k) = some d → ¬ (p.2 < k ∧ k < n.2)

/-! ### Landmarks -/

theorem zip_tail_adjacent {α : Type} {l : List α} {x : α × α} (h : x ∈ l.zip l.tail) : ∃ A B, l = A ++ x.1 :: x.2 :: B := by
  induction l with
  | nil => simp at h
  | cons a l ih =>
    cases l with
    | nil => simp at h
    | cons b l =>
      simp only [List.tail_cons, List.zip_cons_cons, List.mem_cons] at h ih
      rcases h with rfl | h
      · exact ⟨[], l, rfl⟩
      · obtain ⟨A, B, hAB⟩ := ih (by simpa using h)
        exact ⟨a :: A, B, by rw [List.cons_append, ← hAB]⟩

theorem mem_nodesOf {nodes : Map (Node T O G)} (w : WF nodes) {t : Int} {x : Id × Node T O G} :
    x ∈ nodesOf nodes t ↔ at? nodes x.1 = some x.2 ∧ x.1.1 = t := by
  rw [nodesOf, List.mem_filter, at?_iff_mem w]
  simp

/-- The observation is usable: the trajectory has nodes, and if it is just one, the observation was not made exactly then. -/
structure Usable (nodes : Map (Node T O G)) (o : Observation T G) : Prop where
  mono : Monotone nodes o.trajectory
  some : ∃ i d, at? nodes (o.trajectory, i) = some d
  single : ∀ i d, at? nodes (o.trajectory, i) = .some d → d.time = o.time → ∃ j e, j ≠ i ∧ at? nodes (o.trajectory, j) = .some e

theorem landmarkNodes_usable {nodes : Map (Node T O G)} (w : WF nodes) {o : Observation T G} (h : Usable nodes o) :
    landmarkNodes nodes o = some (attach nodes o) := by
  obtain ⟨A, B, hAB, hA, hB, hl⟩ := landmarkNodes_cases w o h.mono
  rw [hl, attach, hAB]
  have hmono := nodesOf_mono w h.mono
  rw [hAB] at hmono
  rcases List.eq_nil_or_concat A with rfl | ⟨A', a, rfl⟩
  · cases B with
    | nil =>
      exfalso
      obtain ⟨i, d, hd⟩ := h.some
      have : ((o.trajectory, i), d) ∈ nodesOf nodes o.trajectory := (mem_nodesOf w).2 ⟨hd, rfl⟩
      rw [hAB] at this
      cases this
    | cons b B' =>
      simp only [List.getLast?_nil, List.nil_append] at hmono ⊢
      by_cases hlt : o.time < b.2.time
      · rw [if_pos hlt]
        have : ((b :: B').zip (b :: B').tail).find? (fun x => decide (x.1.2.time ≤ o.time ∧ o.time ≤ x.2.2.time)) = none := by
          rw [List.find?_eq_none]
          intro x hx hc
          obtain ⟨A1, B1, h1⟩ := zip_tail_adjacent hx
          simp only [decide_eq_true_eq] at hc
          have hxm : x.1 ∈ b :: B' := by rw [h1]; simp
          have : b.2.time ≤ x.1.2.time := by
            rcases List.mem_cons.1 hxm with e | hm
            · rw [e]
            · exact (List.pairwise_cons.1 hmono).1 _ hm
          exact absurd (lt_of_lt_of_le hlt this) (not_lt.2 hc.1)
        rw [this]
        rfl
      · rw [if_neg hlt]
        have heq : b.2.time = o.time := le_antisymm (not_lt.1 hlt) (hB b (by simp))
        have hbm := (mem_nodesOf w (x := b)).1 (by rw [hAB]; simp : b ∈ nodesOf nodes o.trajectory)
        obtain ⟨j, e, hj, he⟩ := h.single b.1.2 b.2 (by rw [← hbm.2]; exact hbm.1) heq
        have hem : ((o.trajectory, j), e) ∈ b :: B' := by
          have := (mem_nodesOf w (x := ((o.trajectory, j), e))).2 ⟨he, rfl⟩
          rw [hAB] at this
          simpa using this
        cases B' with
        | nil =>
          exfalso
          have := List.mem_singleton.1 hem
          exact hj (by rw [← this])
        | cons c C =>
          have hfp := find_pair (A := []) (a := b) (b := c) (B := C) (by simp) (le_of_eq heq) (Or.inl rfl) (hB c (by simp))
          rw [List.nil_append] at hfp
          rw [hfp]
          rfl
  · rw [List.concat_eq_append] at hmono hA ⊢
    simp only [List.getLast?_append, List.getLast?_singleton, Option.some_or]
    cases B with
    | nil =>
      have : ((A' ++ [a] ++ []).zip (A' ++ [a] ++ []).tail).find?
          (fun x : (Id × Node T O G) × (Id × Node T O G) => decide (x.1.2.time ≤ o.time ∧ o.time ≤ x.2.2.time)) = none := by
        rw [List.find?_eq_none]
        intro x hx hc
        obtain ⟨A1, B1, h1⟩ := zip_tail_adjacent hx
        simp only [decide_eq_true_eq] at hc
        have hxm : x.2 ∈ A' ++ [a] := by rw [List.append_nil] at h1; rw [h1]; simp
        exact absurd (hA _ hxm) (not_lt.2 hc.2)
      rw [this]
      rfl
    | cons b B' =>
      have := find_pair (A := A') (a := a) (b := b) (B := B') (τ := o.time) (fun x hx => hA x (by simp [hx]))
        (le_of_lt (hA a (by simp))) (Or.inr (hA a (by simp))) (hB b (by simp))
      rw [List.append_assoc, List.cons_append, List.nil_append, this]
      rfl

/-- **C60, landmarks**: a usable observation is attached to two neighbouring nodes of its own trajectory with the time of
the observation between their times; it is left out exactly if it was made before the first or after the last node. -/
theorem landmark_attached {nodes : Map (Node T O G)} (w : WF nodes) {o : Observation T G} (h : Usable nodes o) :
    ∃ r, landmarkNodes nodes o = some r ∧
      (∀ p n, r = some (p, n) → Neighbours nodes o.trajectory p n ∧
        ∃ a b, at? nodes p = some a ∧ at? nodes n = some b ∧ a.time ≤ o.time ∧ o.time ≤ b.time) ∧
      (r = none ↔ (∀ i d, at? nodes (o.trajectory, i) = some d → o.time < d.time) ∨
        (∀ i d, at? nodes (o.trajectory, i) = some d → d.time < o.time)) := by
  refine ⟨_, landmarkNodes_usable w h, ?_, ?_⟩
  · intro p n hr
    rw [attach, Option.map_eq_some_iff] at hr
    obtain ⟨x, hx, hpn⟩ := hr
    simp only [Prod.mk.injEq] at hpn
    obtain ⟨rfl, rfl⟩ := hpn
    have hc := List.find?_some hx
    simp only [decide_eq_true_eq] at hc
    obtain ⟨A, B, hAB⟩ := zip_tail_adjacent (List.mem_of_find?_eq_some hx)
    have m1 := (mem_nodesOf w (x := x.1)).1 (by rw [hAB]; simp : x.1 ∈ nodesOf nodes o.trajectory)
    have m2 := (mem_nodesOf w (x := x.2)).1 (by rw [hAB]; simp : x.2 ∈ nodesOf nodes o.trajectory)
    have hs : (nodesOf nodes o.trajectory).Pairwise (fun a b => idLt a.1 b.1) := (flat_sorted w).filter _
    rw [hAB, List.pairwise_append, List.pairwise_cons, List.pairwise_cons] at hs
    obtain ⟨-, ⟨k1, k2, -⟩, k3⟩ := hs
    refine ⟨⟨m1.2, m2.2, ?_, ?_⟩, x.1.2, x.2.2, m1.1, m2.1, hc.1, hc.2⟩
    · have := k1 x.2 (by simp)
      simp only [idLt] at this
      omega
    · intro k d hk hlt
      have hm := (mem_nodesOf w (x := ((o.trajectory, k), d))).2 ⟨hk, rfl⟩
      rw [hAB] at hm
      rcases List.mem_append.1 hm with hm | hm
      · have := k3 _ hm x.1 (by simp)
        simp only [idLt] at this
        omega
      · rcases List.mem_cons.1 hm with hm | hm
        · have := congrArg (fun y : Id × Node T O G => y.1.2) hm
          simp only at this
          omega
        · rcases List.mem_cons.1 hm with hm | hm
          · have := congrArg (fun y : Id × Node T O G => y.1.2) hm
            simp only at this
            omega
          · have := k2 _ hm
            simp only [idLt] at this
            omega
  · have heq := landmarkNodes_usable w h
    obtain ⟨A, B, hAB, hA, hB, hl⟩ := landmarkNodes_cases w o h.mono
    rw [heq] at hl
    have hmem : ∀ i d, at? nodes (o.trajectory, i) = some d ↔ ((o.trajectory, i), d) ∈ A ++ B := by
      intro i d
      rw [← hAB, mem_nodesOf w]
      simp
    have hid : ∀ x ∈ A ++ B, at? nodes (o.trajectory, x.1.2) = some x.2 := by
      intro x hx
      rw [← hAB, mem_nodesOf w] at hx
      rw [← hx.2]
      exact hx.1
    rcases List.eq_nil_or_concat A with rfl | ⟨A', a, rfl⟩
    · cases B with
      | nil =>
        exfalso
        obtain ⟨i, d, hd⟩ := h.some
        have := (hmem i d).1 hd
        cases this
      | cons b B' =>
        have hb := hid b (by simp)
        simp only [List.getLast?_nil] at hl
        split at hl
        · rename_i hlt
          simp only [Option.some.injEq] at hl
          rw [hl]
          simp only [true_iff]
          left
          intro i d hd
          have hm := (hmem i d).1 hd
          have hmono := nodesOf_mono w h.mono
          rw [hAB] at hmono
          rcases List.mem_cons.1 hm with e | hm
          · rw [← e] at hlt; exact hlt
          · exact lt_of_lt_of_le hlt ((List.pairwise_cons.1 hmono).1 _ hm)
        · rename_i hlt
          constructor
          · intro hn
            rw [hn] at hl
            obtain ⟨c, -, hc⟩ := Option.map_eq_some_iff.1 hl.symm
            cases hc
          · rintro (hall | hall)
            · exact absurd (hall _ _ hb) hlt
            · exact absurd (hall _ _ hb) (not_lt.2 (hB b (by simp)))
    · have ha := hid a (by simp)
      rw [List.concat_eq_append] at hl hA hmem
      simp only [List.getLast?_append, List.getLast?_singleton, Option.some_or] at hl
      cases B with
      | nil =>
        simp only [Option.some.injEq] at hl
        rw [hl]
        simp only [true_iff]
        right
        intro i d hd
        have hm := (hmem i d).1 hd
        rw [List.append_nil] at hm
        exact hA _ hm
      | cons b B' =>
        simp only [Option.some.injEq] at hl
        rw [hl]
        have hb := hid b (by simp)
        simp only [reduceCtorEq, false_iff, not_or]
        refine ⟨fun hall => ?_, fun hall => ?_⟩
        · exact absurd (hall _ _ ha) (not_lt.2 (le_of_lt (hA a (by simp))))
        · exact absurd (hall _ _ hb) (not_lt.2 (hB b (by simp)))

/-! ### Interpolation -/

variable [BoundedOrder T]

theorem around_spec {D : Type} {tr : List (T × D)} (hs : SMap.Sorted tr) (τ : T) :
    (∀ e, (around tr τ).1 = some e ↔ MapByTime.IsEarliest tr τ e) ∧
    (∀ b, (around tr τ).2 = some b ↔ b ∈ tr ∧ b.1 < τ ∧ ∀ x ∈ tr, x.1 < τ → x.1 ≤ b.1) := by
  induction tr with
  | nil => simp [around, MapByTime.IsEarliest]
  | cons x tr ih =>
    obtain ⟨ih1, ih2⟩ := ih hs.tail
    have hx := hs.head
    by_cases hlt : x.1 < τ
    · have h1 : around (x :: tr) τ = ((around tr τ).1, some (((around tr τ).2).getD x)) := by
        simp only [around, List.dropWhile_cons, List.takeWhile_cons, hlt, decide_true, if_true, List.getLast?_cons]
      rw [h1]
      refine ⟨fun e => ?_, fun b => ?_⟩
      · rw [ih1]
        constructor
        · rintro ⟨a1, a2, a3⟩
          refine ⟨List.mem_cons_of_mem _ a1, a2, fun y hy hyt => ?_⟩
          rcases List.mem_cons.1 hy with rfl | hy
          · exact absurd hlt (not_lt.2 hyt)
          · exact a3 y hy hyt
        · rintro ⟨a1, a2, a3⟩
          rcases List.mem_cons.1 a1 with rfl | a1
          · exact absurd hlt (not_lt.2 a2)
          · exact ⟨a1, a2, fun y hy => a3 y (List.mem_cons_of_mem _ hy)⟩
      · simp only [Option.some.injEq]
        cases hr : (around tr τ).2 with
        | none =>
          have hno : ∀ y ∈ tr, ¬ y.1 < τ := by
            intro y hy hyt
            obtain ⟨e0, k1, k2, k3⟩ := MapByTime.exists_last hs.tail (fun e => e.1 < τ) hy hyt
            have := (ih2 e0).2 ⟨k1, k2, k3⟩
            rw [hr] at this
            cases this
          simp only [Option.getD_none]
          constructor
          · rintro rfl
            refine ⟨by simp, hlt, fun y hy hyt => ?_⟩
            rcases List.mem_cons.1 hy with rfl | hy
            · exact le_refl _
            · exact absurd hyt (hno y hy)
          · rintro ⟨a1, a2, a3⟩
            rcases List.mem_cons.1 a1 with rfl | a1
            · rfl
            · exact absurd a2 (hno b a1)
        | some b0 =>
          obtain ⟨k1, k2, k3⟩ := (ih2 b0).1 hr
          simp only [Option.getD_some]
          constructor
          · rintro rfl
            refine ⟨List.mem_cons_of_mem _ k1, k2, fun y hy hyt => ?_⟩
            rcases List.mem_cons.1 hy with rfl | hy
            · exact le_of_lt (hx b0 k1)
            · exact k3 y hy hyt
          · rintro ⟨a1, a2, a3⟩
            rcases List.mem_cons.1 a1 with rfl | a1
            · exact absurd (hx b0 k1) (not_lt.2 (a3 b0 (List.mem_cons_of_mem _ k1) k2))
            · have := (ih2 b).2 ⟨a1, a2, fun y hy => a3 y (List.mem_cons_of_mem _ hy)⟩
              rw [hr] at this
              exact Option.some.inj this
    · have h1 : around (x :: tr) τ = (some x, none) := by
        simp only [around, List.dropWhile_cons, List.takeWhile_cons, hlt, decide_false, Bool.false_eq_true, if_false]
        rfl
      have hle := not_lt.1 hlt
      rw [h1]
      refine ⟨fun e => ?_, fun b => ?_⟩
      · simp only [Option.some.injEq]
        constructor
        · rintro rfl
          refine ⟨by simp, hle, fun y hy _ => ?_⟩
          rcases List.mem_cons.1 hy with rfl | hy
          · exact le_refl _
          · exact le_of_lt (hx y hy)
        · rintro ⟨a1, a2, a3⟩
          rcases List.mem_cons.1 a1 with rfl | a1
          · rfl
          · exact absurd (hx e a1) (not_lt.2 (a3 x (by simp) hle))
      · simp only [reduceCtorEq, false_iff]
        rintro ⟨a1, a2, -⟩
        rcases List.mem_cons.1 a1 with rfl | a1
        · exact hlt a2
        · exact absurd (lt_trans (hx b a1) a2) hlt

/-- **C60, odometry at the time of a node**: what `InterpolateOdometry` returns is the odometry pose at that time, and it
returns nothing only if there is no reading before or no reading after that time. -/
theorem interpolateOdometry_iff (hend : LerpEnd S) {tr : List (T × Reading T G)} (hs : SMap.Sorted tr) (hk : ∀ x ∈ tr, x.1 = x.2.time)
    (τ : T) (g : G) : interpolateOdometry S tr τ = some g ↔ PoseAt S tr τ g := by
  obtain ⟨h1, h2⟩ := around_spec hs τ
  unfold interpolateOdometry PoseAt
  cases he : (around tr τ).1 with
  | none =>
    have : around tr τ = (none, (around tr τ).2) := by rw [← he]
    rw [this]
    simp only [reduceCtorEq, false_iff]
    rintro ⟨b, e, -, k, -⟩
    rw [(h1 e).2 k] at he
    cases he
  | some e =>
    have hE := (h1 e).1 he
    have huniq : ∀ e', MapByTime.IsEarliest tr τ e' → e' = e := by
      intro e' h
      have := (h1 e').2 h
      rw [he] at this
      exact (Option.some.inj this).symm
    cases hb : (around tr τ).2 with
    | none =>
      have : around tr τ = (some e, none) := by rw [← he, ← hb]
      rw [this]
      have hno : ∀ y ∈ tr, ¬ y.1 < τ := by
        intro y hy hyt
        obtain ⟨e0, k1, k2, k3⟩ := MapByTime.exists_last hs (fun e => e.1 < τ) hy hyt
        have := (h2 e0).2 ⟨k1, k2, k3⟩
        rw [hb] at this
        cases this
      simp only
      rw [← hk e hE.1]
      constructor
      · intro h
        split at h
        · rename_i heq
          refine ⟨e, e, ⟨hE.1, le_of_eq heq, fun y hy hyt => ?_⟩, hE, fun _ => (Option.some.inj h).symm, fun hc => absurd heq hc⟩
          exact le_trans hyt (le_of_eq heq.symm)
        · cases h
      · rintro ⟨b, e', k1, k2, k3, k4⟩
        obtain rfl := huniq e' k2
        have hbt : b.1 = τ := le_antisymm k1.2.1 (not_lt.1 (hno b k1.1))
        have : e'.1 = τ := le_antisymm (by rw [← hbt]; exact k2.2.2 b k1.1 (le_of_eq hbt.symm)) k2.2.1
        rw [if_pos this, k3 this]
    | some b =>
      have : around tr τ = (some e, some b) := by rw [← he, ← hb]
      rw [this]
      obtain ⟨b1, b2, b3⟩ := (h2 b).1 hb
      simp only [Option.some.injEq]
      rw [← hk e hE.1, ← hk b b1]
      by_cases heq : e.1 = τ
      · have hv : S.lerp b.1 b.2.pose e.1 e.2.pose τ = e.2.pose := by rw [heq]; exact hend _ _ _ _
        rw [hv]
        constructor
        · rintro rfl
          exact ⟨e, e, ⟨hE.1, le_of_eq heq, fun y hy hyt => le_trans hyt (le_of_eq heq.symm)⟩, hE, fun _ => rfl, fun hc => absurd heq hc⟩
        · rintro ⟨b', e', k1, k2, k3, k4⟩
          obtain rfl := huniq e' k2
          exact (k3 heq).symm
      · have hlt : τ < e.1 := lt_of_le_of_ne hE.2.1 (Ne.symm heq)
        have hB : ∀ y ∈ tr, y.1 ≤ τ → y.1 < τ := by
          intro y hy hyt
          rcases lt_or_eq_of_le hyt with h | h
          · exact h
          · exact absurd (hE.2.2 y hy (le_of_eq h.symm)) (not_le.2 (by rw [h]; exact hlt))
        constructor
        · rintro rfl
          exact ⟨b, e, ⟨b1, le_of_lt b2, fun y hy hyt => b3 y hy (hB y hy hyt)⟩, hE, fun hc => absurd hc heq, fun _ => rfl⟩
        · rintro ⟨b', e', k1, k2, k3, k4⟩
          obtain rfl := huniq e' k2
          have hb' := (h2 b').2 ⟨k1.1, hB b' k1.1 k1.2.1, fun y hy hyt => k1.2.2 y hy (le_of_lt hyt)⟩
          rw [hb] at hb'
          obtain rfl := Option.some.inj hb'
          exact (k4 heq).symm

/-- **C60, fixed frame pose at the time of a node**: see `FrameAt`. -/
theorem interpolateFixedFrame_iff {tr : List (T × Reading T (Option G))} (hs : SMap.Sorted tr) (hk : ∀ x ∈ tr, x.1 = x.2.time)
    (τ : T) (g : G) : interpolateFixedFrame S tr τ = some g ↔ FrameAt S tr τ g := by
  unfold FrameAt
  obtain ⟨h1, h2⟩ := around_spec hs τ
  unfold interpolateFixedFrame
  cases he : (around tr τ).1 with
  | none =>
    have : around tr τ = (none, (around tr τ).2) := by rw [← he]
    rw [this]
    simp only [reduceCtorEq, false_iff]
    rintro ⟨e, ge, k, -⟩
    rw [(h1 e).2 k] at he
    cases he
  | some e =>
    have hE := (h1 e).1 he
    have huniq : ∀ e', MapByTime.IsEarliest tr τ e' → e' = e := by
      intro e' h
      have := (h1 e').2 h
      rw [he] at this
      exact (Option.some.inj this).symm
    have hpair : around tr τ = (some e, (around tr τ).2) := by rw [← he]
    rw [hpair]
    simp only
    cases hp : e.2.pose with
    | none =>
      simp only [reduceCtorEq, false_iff]
      rintro ⟨e', ge, k1, k2, -⟩
      obtain rfl := huniq e' k1
      rw [hp] at k2
      cases k2
    | some ge =>
      simp only
      cases hb : (around tr τ).2 with
      | none =>
        have hno : ∀ y ∈ tr, ¬ y.1 < τ := by
          intro y hy hyt
          obtain ⟨e0, k1, k2, k3⟩ := MapByTime.exists_last hs (fun e => e.1 < τ) hy hyt
          have := (h2 e0).2 ⟨k1, k2, k3⟩
          rw [hb] at this
          cases this
        simp only
        rw [← hk e hE.1]
        constructor
        · intro h
          split at h
          · rename_i heq
            exact ⟨e, ge, hE, hp, Or.inl ⟨heq, (Option.some.inj h).symm, hno⟩⟩
          · cases h
        · rintro ⟨e', ge', k1, k2, k3⟩
          obtain rfl := huniq e' k1
          rw [hp] at k2
          obtain rfl := Option.some.inj k2
          rcases k3 with ⟨heq, rfl, -⟩ | ⟨b, gb, b1, b2, -⟩
          · rw [if_pos heq]
          · exact absurd b2 (hno b b1)
      | some b =>
        obtain ⟨b1, b2, b3⟩ := (h2 b).1 hb
        simp only
        have hone : (∃ e' ge', MapByTime.IsEarliest tr τ e' ∧ e'.2.pose = some ge' ∧
            ((e'.1 = τ ∧ g = ge' ∧ ∀ x ∈ tr, ¬ x.1 < τ) ∨
              ∃ b gb, b ∈ tr ∧ b.1 < τ ∧ (∀ x ∈ tr, x.1 < τ → x.1 ≤ b.1) ∧ b.2.pose = some gb ∧ g = S.lerp b.1 gb e'.1 ge' τ)) ↔
            ∃ gb, b.2.pose = some gb ∧ g = S.lerp b.1 gb e.1 ge τ := by
          constructor
          · rintro ⟨e', ge', k1, k2, k3⟩
            obtain rfl := huniq e' k1
            rw [hp] at k2
            obtain rfl := Option.some.inj k2
            rcases k3 with ⟨-, -, hn⟩ | ⟨b', gb, q1, q2, q3, q4, q5⟩
            · exact absurd b2 (hn b b1)
            · have hb' := (h2 b').2 ⟨q1, q2, q3⟩
              rw [hb] at hb'
              obtain rfl := Option.some.inj hb'
              exact ⟨gb, q4, q5⟩
          · rintro ⟨gb, q4, q5⟩
            exact ⟨e, ge, hE, hp, Or.inr ⟨b, gb, b1, b2, b3, q4, q5⟩⟩
        rw [hone, ← hk e hE.1, ← hk b b1]
        cases b.2.pose with
        | none => simp
        | some gb => simp [eq_comm]

theorem odometryBetween_iff (hend : LerpEnd S) {odometry : MapByTime.Map T (Reading T G)} (hw : MapByTime.WF (·.time) odometry)
    (t : Int) (a b : Node T O G) (g : G) : odometryBetween S odometry t a b = some g ↔
      ∃ x y, PoseAt S (MapByTime.dataOf odometry t) a.time x ∧ PoseAt S (MapByTime.dataOf odometry t) b.time y ∧
        g = a.gravity * x⁻¹ * y * b.gravity⁻¹ := by
  unfold odometryBetween MapByTime.dataOf
  cases hg : SMap.get? t odometry with
  | none =>
    simp only [reduceCtorEq, Option.getD_none, false_iff]
    rintro ⟨x, y, ⟨b, e, k, -⟩, -⟩
    have := k.1
    cases this
  | some tr =>
    have hm := SMap.mem_of_get? hg
    have hi := interpolateOdometry_iff S hend (hw.dsorted _ hm) (hw.keys _ hm)
    simp only [Option.getD_some]
    constructor
    · intro h
      cases hx : interpolateOdometry S tr a.time with
      | none => rw [hx] at h; cases h
      | some x =>
        cases hy : interpolateOdometry S tr b.time with
        | none => rw [hx, hy] at h; cases h
        | some y =>
          rw [hx, hy] at h
          exact ⟨x, y, (hi _ _).1 hx, (hi _ _).1 hy, (Option.some.inj h).symm⟩
    · rintro ⟨x, y, hx, hy, rfl⟩
      rw [(hi _ _).2 hx, (hi _ _).2 hy]

/-! ### The whole problem -/

/-- What a call of `Solve` needs in order not to abort. -/
structure Ready (p : Problem T O G) (constraints : List (Constraint G)) (landmarks : List (Landmark T G)) : Prop where
  nodes : WF p.nodes
  submaps : WF p.submaps
  small : MapByTime.SmallNodes p.nodes
  odometry : MapByTime.WF (·.time) p.odometry
  fixedFrame : MapByTime.WF (·.time) p.fixedFrame
  data : ∀ id n, at? p.nodes id = some n → (SMap.get? id.1 p.trajectoryData).isSome
  constraint : ∀ c ∈ constraints, (at? p.submaps c.submap).isSome ∧ (at? p.nodes c.node).isSome
  landmark : ∀ l ∈ landmarks, ∀ o ∈ l.observations, Usable p.nodes o
  nonempty : ∃ id n, at? p.nodes id = some n

theorem constraintBlocks_spec {p : Problem T O G} : ∀ {cs : List (Constraint G)},
    (∀ c ∈ cs, (at? p.submaps c.submap).isSome ∧ (at? p.nodes c.node).isSome) →
    constraintBlocks p cs = some (cs.map (fun c => .constraint c.submap c.node c.pose c.inter)) := by
  intro cs
  induction cs with
  | nil => intro _; rfl
  | cons c cs ih =>
    intro h
    obtain ⟨h1, h2⟩ := h c (by simp)
    obtain ⟨a, ha⟩ := Option.isSome_iff_exists.1 h1
    obtain ⟨b, hb⟩ := Option.isSome_iff_exists.1 h2
    simp [constraintBlocks, ha, hb, ih (fun c hc => h c (List.mem_cons_of_mem _ hc))]

/-- The blocks of a landmark. -/
def obsBlocks (nodes : Map (Node T O G)) (l : Landmark T G) : List (Block T G) :=
  l.observations.filterMap (fun o => (attach nodes o).map (fun x => .landmark l.name o x.1 x.2))

theorem observationLoop_spec {nodes : Map (Node T O G)} (w : WF nodes) (name : String) : ∀ {os : List (Observation T G)},
    (∀ o ∈ os, Usable nodes o) →
    observationLoop nodes name os = some (os.filterMap (fun o => (attach nodes o).map (fun x => .landmark name o x.1 x.2))) := by
  intro os
  induction os with
  | nil => intro _; rfl
  | cons o os ih =>
    intro h
    simp only [observationLoop, landmarkNodes_usable w (h o (by simp)), ih (fun o ho => h o (List.mem_cons_of_mem _ ho)),
      Option.bind_eq_bind, Option.bind_some, List.filterMap_cons]
    cases attach nodes o <;> simp

theorem addLandmarks_spec {nodes : Map (Node T O G)} (w : WF nodes) : ∀ {ls : List (Landmark T G)},
    (∀ l ∈ ls, ∀ o ∈ l.observations, Usable nodes o) →
    addLandmarks nodes ls = some (ls.flatMap (obsBlocks nodes),
      (ls.filter (fun l => l.frozen && !(obsBlocks nodes l).isEmpty)).map (·.name)) := by
  intro ls
  induction ls with
  | nil => intro _; rfl
  | cons l ls ih =>
    intro h
    simp only [addLandmarks, observationLoop_spec w l.name (h l (by simp)), ih (fun l hl => h l (List.mem_cons_of_mem _ hl)),
      Option.bind_eq_bind, Option.bind_some, List.flatMap_cons]
    have hob : l.observations.filterMap (fun o => (attach nodes o).map (fun x => Block.landmark l.name o x.1 x.2)) = obsBlocks nodes l := rfl
    rw [hob]
    rw [List.filter_cons]
    by_cases hc : (l.frozen && !(obsBlocks nodes l).isEmpty) = true
    · rw [if_pos hc, if_pos hc]
      rfl
    · rw [if_neg hc, if_neg hc]

theorem build_eq {p : Problem T O G} {cs : List (Constraint G)} {ls : List (Landmark T G)} (h : Ready p cs ls) (frozen : List Int) :
    build S p cs frozen ls = some (some {
      constSubmaps := constSubmaps frozen (flat p.submaps) true
      constNodes := ((flat p.nodes).filter (fun x => x.1.1 ∈ frozen)).map (·.1)
      constLandmarks := (ls.filter (fun l => l.frozen && !(obsBlocks p.nodes l).isEmpty)).map (·.name)
      blocks := cs.map (fun c => .constraint c.submap c.node c.pose c.inter) ++ ls.flatMap (obsBlocks p.nodes) ++
        (flat p.nodes).flatMap (succBlocks S p frozen) ++ (flat p.nodes).filterMap (frameBlock S p)
      origins := frameOrigins S p (trajectoryIds p.nodes) }) := by
  obtain ⟨vb, rb⟩ := begin_rest h.nodes
  obtain ⟨ve, re⟩ := end_rest h.nodes h.small
  have hne : empty p.nodes = false := by
    obtain ⟨id, n, hn⟩ := h.nonempty
    unfold empty
    rw [← Bool.not_eq_true, eq_iff vb ve, rb, re]
    intro h0
    have hm := (at?_iff_mem h.nodes).1 hn
    rw [List.length_nil, List.length_eq_zero_iff] at h0
    rw [h0] at hm
    cases hm
  have h1 := nodeLoop_spec S h.nodes h.small frozen (size p.nodes + 1) _ vb (by rw [rb, size_eq]; omega)
  have h0 : (flat p.nodes).filter (fun e => decide ((0 : Int) ≤ e.1.1)) = flat p.nodes := by
    rw [List.filter_eq_self]
    rintro ⟨id, d⟩ hx
    obtain ⟨tr, k1, -⟩ := mem_flat.1 hx
    have := h.nodes.nonneg _ k1
    simpa using this
  have h2 := fixedFrameLoop_spec S h.nodes h.small h.data (size p.nodes + 2) 0 _ vb (by rw [rb, h0]) (by rw [rb, size_eq]; omega)
  have hids : (trajectoryIds p.nodes).filter (fun u => decide ((0 : Int) ≤ u)) = trajectoryIds p.nodes := by
    rw [List.filter_eq_self]
    intro u hu
    obtain ⟨e, he, rfl⟩ := List.mem_map.1 hu
    simpa using h.nodes.nonneg e he
  rw [rb] at h1
  rw [rb, hids] at h2
  simp only [build, hne, constraintBlocks_spec h.constraint, addLandmarks_spec h.nodes h.landmark, h1, h2,
    Option.bind_eq_bind, Option.bind_some]
  rfl

/-- The observation is attached to `p` and `n`: neighbouring nodes of its trajectory with the observation between them in
time, and the second is the node at the time of the observation, if there is one other than the first of the trajectory. -/
structure Attached (nodes : Map (Node T O G)) (o : Observation T G) (p n : Id) : Prop where
  neighbours : Neighbours nodes o.trajectory p n
  times : ∃ a b, at? nodes p = some a ∧ at? nodes n = some b ∧ a.time ≤ o.time ∧ o.time ≤ b.time ∧
    (a.time = o.time → ∀ k d, at? nodes (o.trajectory, k) = some d → p.2 ≤ k)

theorem Attached.unique {nodes : Map (Node T O G)} {o : Observation T G} (hm : Monotone nodes o.trajectory) {p n p' n' : Id}
    (h : Attached nodes o p n) (h' : Attached nodes o p' n') : p = p' ∧ n = n' := by
  obtain ⟨⟨f1, f2, f3, f4⟩, a, b, ha, hb, t1, t2, t3⟩ := h
  obtain ⟨⟨g1, g2, g3, g4⟩, a', b', ha', hb', s1, s2, s3⟩ := h'
  obtain ⟨pt, pi⟩ := p
  obtain ⟨nt, ni⟩ := n
  obtain ⟨pt', pi'⟩ := p'
  obtain ⟨nt', ni'⟩ := n'
  simp only at f1 f2 f3 f4 g1 g2 g3 g4 t3 s3
  subst f1 f2
  rw [← g1] at ha
  subst g1
  subst g2
  have key : ∀ {i j k : Int} {x y z : Node T O G}, at? nodes (o.trajectory, i) = some x → at? nodes (o.trajectory, j) = some y →
      at? nodes (o.trajectory, k) = some z → i < j → (∀ k d, at? nodes (o.trajectory, k) = some d → ¬ (i < k ∧ k < j)) →
      o.time ≤ y.time → z.time ≤ o.time → (z.time = o.time → ∀ l d, at? nodes (o.trajectory, l) = some d → k ≤ l) → ¬ i < k := by
    intro i j k x y z hx hy hz hij hbt h1 h2 h3 hik
    have hjk : j ≤ k := by
      by_contra hc
      exact hbt k z hz ⟨hik, by omega⟩
    have := hm _ _ _ _ hy hz hjk
    have he : z.time = o.time := le_antisymm h2 (le_trans h1 this)
    have := h3 he i x hx
    omega
  have e1 : pi = pi' := by
    have q1 := key ha hb ha' f3 f4 t2 s1 s3
    have q2 := key ha' hb' ha g3 g4 s2 t1 t3
    omega
  subst e1
  have e2 : ni = ni' := by
    rcases lt_trichotomy ni ni' with q | q | q
    · exact (g4 ni b hb ⟨f3, q⟩).elim
    · exact q
    · exact (f4 ni' b' hb' ⟨g3, q⟩).elim
  subst e2
  exact ⟨rfl, rfl⟩

theorem attach_iff {nodes : Map (Node T O G)} (w : WF nodes) {o : Observation T G} (h : Usable nodes o) (p n : Id) :
    attach nodes o = some (p, n) ↔ Attached nodes o p n := by
  obtain ⟨r, hr, hr1, hr2⟩ := landmark_attached w h
  have hatt := landmarkNodes_usable w h
  have hra : r = attach nodes o := by rw [hr] at hatt; exact Option.some.inj hatt
  have fwd : ∀ p n, attach nodes o = some (p, n) → Attached nodes o p n := by
    intro p n hpn
    obtain ⟨h1, a, b, ha, hb, h2, h3⟩ := hr1 p n (by rw [hra, hpn])
    refine ⟨h1, a, b, ha, hb, h2, h3, ?_⟩
    intro heq k d hk
    obtain ⟨A, B, hAB, hA, hB, hl⟩ := landmarkNodes_cases w o h.mono
    rw [hatt, hpn] at hl
    have hid : ∀ x ∈ A ++ B, at? nodes x.1 = some x.2 ∧ x.1.1 = o.trajectory := by
      intro x hx
      rw [← hAB, mem_nodesOf w] at hx
      exact hx
    rcases List.eq_nil_or_concat A with rfl | ⟨A', a', rfl⟩
    · cases B with
      | nil =>
        simp only [List.getLast?_nil] at hl
        split at hl <;> simp at hl
      | cons c B' =>
        simp only [List.getLast?_nil] at hl
        split at hl
        · simp at hl
        · obtain ⟨d', -, hd'⟩ := Option.map_eq_some_iff.1 hl.symm
          simp only [Option.some.injEq, Prod.mk.injEq] at hd'
          have hs : (nodesOf nodes o.trajectory).Pairwise (fun a b => idLt a.1 b.1) := (flat_sorted w).filter _
          have hkm := (mem_nodesOf w (x := ((o.trajectory, k), d))).2 ⟨hk, rfl⟩
          rw [hAB, List.nil_append] at hs hkm
          have hct := (hid c (by simp)).2
          rw [← hd'.1]
          rcases List.mem_cons.1 hkm with e | hkm
          · rw [← e]
          · have := (List.pairwise_cons.1 hs).1 _ hkm
            simp only [idLt] at this
            omega
    · exfalso
      rw [List.concat_eq_append] at hl hA
      simp only [List.getLast?_append, List.getLast?_singleton, Option.some_or] at hl
      cases B with
      | nil => simp at hl
      | cons c B' =>
        simp only [Option.some.injEq, Prod.mk.injEq] at hl
        have ha' := (hid a' (by simp)).1
        rw [← hl.1, ha] at ha'
        have := hA a' (by simp)
        rw [← Option.some.inj ha', heq] at this
        exact lt_irrefl _ this
  refine ⟨fwd p n, fun hA => ?_⟩
  cases hc : attach nodes o with
  | none =>
    exfalso
    rw [hra] at hr2
    obtain ⟨⟨f1, f2, -, -⟩, a, b, ha, hb, t1, t2, -⟩ := hA
    rcases hr2.1 hc with hall | hall
    · exact absurd (hall p.2 a (by rw [← f1]; exact ha)) (not_lt.2 t1)
    · exact absurd (hall n.2 b (by rw [← f2]; exact hb)) (not_lt.2 t2)
  | some x =>
    obtain ⟨e1, e2⟩ := Attached.unique h.mono (fwd x.1 x.2 hc) hA
    rw [← e1, ← e2]

theorem mem_succBlocks {p : Problem T O G} {frozen : List Int} {x : Id × Node T O G} {blk : Block T G} :
    blk ∈ succBlocks S p frozen x ↔ x.1.1 ∉ frozen ∧ ∃ n, at? p.nodes (x.1.1, x.1.2 + 1) = some n ∧
      (blk = .localSlam x.1 (x.1.1, x.1.2 + 1) (S.emb (x.2.localPose⁻¹ * n.localPose)) ∨
        ∃ g, odometryBetween S p.odometry x.1.1 x.2 n = some g ∧ blk = .odometry x.1 (x.1.1, x.1.2 + 1) g) := by
  unfold succBlocks
  split
  · rename_i h; simp [h]
  · rename_i h
    cases hn : at? p.nodes (x.1.1, x.1.2 + 1) with
    | none => simp
    | some n =>
      simp only [pairBlocks, List.mem_append, List.mem_singleton, h, not_false_eq_true, true_and, Option.some.injEq]
      cases ho : odometryBetween S p.odometry x.1.1 x.2 n with
      | none => simp [ho]
      | some g => simp [ho, or_comm]

/-- Blocks that come from the motion of the robot. -/
def motion : Block T G → Bool
  | .odometry .. => true
  | .localSlam .. => true
  | .fixedFrame .. => true
  | _ => false

/-- The constraint a block comes from. -/
def asConstraint : Block T G → Option (Constraint G)
  | .constraint s n g r => some ⟨s, n, g, r⟩
  | _ => none

/-- The observation a block comes from. -/
def asObservation : Block T G → Option (String × Observation T G)
  | .landmark name o _ _ => some (name, o)
  | _ => none

/-- The observation was made between the first and the last node of its trajectory. -/
def Within (nodes : Map (Node T O G)) (o : Observation T G) : Prop :=
  (∃ i d, at? nodes (o.trajectory, i) = some d ∧ d.time ≤ o.time) ∧ ∃ i d, at? nodes (o.trajectory, i) = some d ∧ o.time ≤ d.time

open Classical in
/-- **C60, which residuals there are**: if `Solve` is called as the pose graph does, it does not abort and hands to Ceres
exactly one residual for each constraint, for each landmark observation made between the first and the last node of its
trajectory, for each pair of nodes with consecutive indices of a trajectory that is not frozen, another one for such a pair
if there is odometry at both times, and one for each node at whose time there is a fixed frame pose. -/
theorem residual_blocks (hend : LerpEnd S) {p : Problem T O G} {cs : List (Constraint G)} {ls : List (Landmark T G)}
    (h : Ready p cs ls) (frozen : List Int) :
    ∃ b, build S p cs frozen ls = some (some b) ∧
      b.blocks.filterMap asConstraint = cs ∧
      b.blocks.filterMap asObservation = ls.flatMap (fun l => (l.observations.filter (fun o => Within p.nodes o)).map (fun o => (l.name, o))) ∧
      (∀ name o x y, Block.landmark name o x y ∈ b.blocks → Attached p.nodes o x y) ∧
      (b.blocks.filter motion).Nodup ∧
      (∀ x y g, Block.localSlam x y g ∈ b.blocks ↔ x.1 ∉ frozen ∧ y = (x.1, x.2 + 1) ∧
        ∃ m n, at? p.nodes x = some m ∧ at? p.nodes y = some n ∧ g = S.emb (m.localPose⁻¹ * n.localPose)) ∧
      (∀ x y g, Block.odometry x y g ∈ b.blocks ↔ x.1 ∉ frozen ∧ y = (x.1, x.2 + 1) ∧
        ∃ m n u v, at? p.nodes x = some m ∧ at? p.nodes y = some n ∧ PoseAt S (MapByTime.dataOf p.odometry x.1) m.time u ∧
          PoseAt S (MapByTime.dataOf p.odometry x.1) n.time v ∧ g = m.gravity * u⁻¹ * v * n.gravity⁻¹) ∧
      (∀ t x g, Block.fixedFrame t x g ∈ b.blocks ↔ x.1 = t ∧
        ∃ n, at? p.nodes x = some n ∧ FrameAt S (MapByTime.dataOf p.fixedFrame t) n.time g) := by
  have hflat : ∀ {x : Id × Node T O G}, x ∈ flat p.nodes ↔ at? p.nodes x.1 = some x.2 := fun {x} => (at?_iff_mem h.nodes).symm
  have hframe : ∀ {x : Id × Node T O G} {g : G}, framePose S p x = some g ↔ FrameAt S (MapByTime.dataOf p.fixedFrame x.1.1) x.2.time g := by
    intro x g
    unfold framePose MapByTime.dataOf
    cases hg : SMap.get? x.1.1 p.fixedFrame with
    | none =>
      simp only [Option.bind_none, reduceCtorEq, Option.getD_none, false_iff]
      rintro ⟨e, ge, k, -⟩
      have := k.1
      cases this
    | some tr =>
      have hm := SMap.mem_of_get? hg
      simpa using interpolateFixedFrame_iff S (h.fixedFrame.dsorted _ hm) (h.fixedFrame.keys _ hm) x.2.time g
  have cS : ∀ (L : List (Id × Node T O G)), (L.flatMap (succBlocks S p frozen)).filterMap asConstraint = [] := by
    intro L
    rw [List.filterMap_eq_nil_iff]
    intro blk hblk
    obtain ⟨x, -, hx⟩ := List.mem_flatMap.1 hblk
    obtain ⟨-, n, -, rfl | ⟨g, -, rfl⟩⟩ := (mem_succBlocks S).1 hx <;> rfl
  have oS : ∀ (L : List (Id × Node T O G)), (L.flatMap (succBlocks S p frozen)).filterMap asObservation = [] := by
    intro L
    rw [List.filterMap_eq_nil_iff]
    intro blk hblk
    obtain ⟨x, -, hx⟩ := List.mem_flatMap.1 hblk
    obtain ⟨-, n, -, rfl | ⟨g, -, rfl⟩⟩ := (mem_succBlocks S).1 hx <;> rfl
  have fB : ∀ {x : Id × Node T O G} {blk : Block T G}, frameBlock S p x = some blk ↔ ∃ g, framePose S p x = some g ∧ blk = .fixedFrame x.1.1 x.1 g := by
    intro x blk
    unfold frameBlock
    rw [Option.map_eq_some_iff]
    simp only [eq_comm]
  have oB : ∀ {l : Landmark T G} {blk : Block T G}, blk ∈ obsBlocks p.nodes l ↔
      ∃ o x y, o ∈ l.observations ∧ attach p.nodes o = some (x, y) ∧ blk = .landmark l.name o x y := by
    intro l blk
    unfold obsBlocks
    rw [List.mem_filterMap]
    constructor
    · rintro ⟨o, ho, h1⟩
      obtain ⟨x, hx, rfl⟩ := Option.map_eq_some_iff.1 h1
      exact ⟨o, x.1, x.2, ho, hx, rfl⟩
    · rintro ⟨o, x, y, ho, h1, rfl⟩
      exact ⟨o, ho, by rw [h1]; rfl⟩
  have cF : ((flat p.nodes).filterMap (frameBlock S p)).filterMap asConstraint = [] := by
    rw [List.filterMap_eq_nil_iff]
    intro blk hblk
    obtain ⟨x, -, hx⟩ := List.mem_filterMap.1 hblk
    obtain ⟨g, -, rfl⟩ := fB.1 hx
    rfl
  have oF : ((flat p.nodes).filterMap (frameBlock S p)).filterMap asObservation = [] := by
    rw [List.filterMap_eq_nil_iff]
    intro blk hblk
    obtain ⟨x, -, hx⟩ := List.mem_filterMap.1 hblk
    obtain ⟨g, -, rfl⟩ := fB.1 hx
    rfl
  have cL : (ls.flatMap (obsBlocks p.nodes)).filterMap asConstraint = [] := by
    rw [List.filterMap_eq_nil_iff]
    intro blk hblk
    obtain ⟨l, -, hx⟩ := List.mem_flatMap.1 hblk
    obtain ⟨o, x, y, -, -, rfl⟩ := oB.1 hx
    rfl
  have hwithin : ∀ {l : Landmark T G} {o : Observation T G}, l ∈ ls → o ∈ l.observations → ((attach p.nodes o).isSome ↔ Within p.nodes o) := by
    intro l o hl ho
    have hu := h.landmark l hl o ho
    obtain ⟨r, hr, -, hr2⟩ := landmark_attached h.nodes hu
    have hra : r = attach p.nodes o := by
      have := landmarkNodes_usable h.nodes hu
      rw [hr] at this
      exact Option.some.inj this
    rw [← hra, ← Option.ne_none_iff_isSome, ne_eq, hr2, not_or]
    unfold Within
    push Not
    rfl
  refine ⟨_, build_eq S h frozen, ?_, ?_, ?_, ?_, ?_, ?_, ?_⟩ <;> dsimp only
  · rw [List.filterMap_append, List.filterMap_append, List.filterMap_append, cS, cF, cL]
    simp only [List.append_nil, List.filterMap_map]
    exact List.filterMap_some
  · rw [List.filterMap_append, List.filterMap_append, List.filterMap_append, oS, oF]
    have : (cs.map (fun c => (Block.constraint c.submap c.node c.pose c.inter : Block T G))).filterMap asObservation = [] := by
      rw [List.filterMap_eq_nil_iff]
      intro blk hblk
      obtain ⟨c, -, rfl⟩ := List.mem_map.1 hblk
      rfl
    rw [this]
    simp only [List.append_nil, List.nil_append]
    rw [List.filterMap_flatMap]
    apply List.flatMap_congr
    intro l hl
    have aux : ∀ os : List (Observation T G), (∀ o ∈ os, o ∈ l.observations) →
        (os.filterMap (fun o => (attach p.nodes o).map (fun x => (Block.landmark l.name o x.1 x.2 : Block T G)))).filterMap asObservation =
        (os.filter (fun o => Within p.nodes o)).map (fun o => (l.name, o)) := by
      intro os
      induction os with
      | nil => intro _; rfl
      | cons o os ih =>
        intro hos
        have hw := hwithin hl (hos o (by simp))
        have ih := ih (fun o ho => hos o (List.mem_cons_of_mem _ ho))
        cases ha : attach p.nodes o with
        | none =>
          rw [ha] at hw
          rw [List.filterMap_cons_none (by simp [ha]), List.filter_cons_of_neg (by simpa using hw), ih]
        | some x =>
          rw [ha] at hw
          rw [List.filterMap_cons_some (b := Block.landmark l.name o x.1 x.2) (by simp [ha]),
            List.filter_cons_of_pos (by simpa using hw), List.filterMap_cons_some (f := asObservation) (a := Block.landmark l.name o x.1 x.2) (b := (l.name, o)) rfl, ih]
          rfl
    exact aux l.observations (fun o ho => ho)
  · intro name o x y hm
    have hm : Block.landmark name o x y ∈ ls.flatMap (obsBlocks p.nodes) := by
      rcases List.mem_append.1 hm with hm | hm
      · rcases List.mem_append.1 hm with hm | hm
        · rcases List.mem_append.1 hm with hm | hm
          · obtain ⟨c, -, hc⟩ := List.mem_map.1 hm
            cases hc
          · exact hm
        · obtain ⟨z, -, hz⟩ := List.mem_flatMap.1 hm
          obtain ⟨-, n, -, hc | ⟨g, -, hc⟩⟩ := (mem_succBlocks S).1 hz <;> cases hc
      · obtain ⟨z, -, hz⟩ := List.mem_filterMap.1 hm
        obtain ⟨g, -, hc⟩ := fB.1 hz
        cases hc
    obtain ⟨l, hl, hb⟩ := List.mem_flatMap.1 hm
    obtain ⟨o', x', y', ho, ha, hc⟩ := oB.1 hb
    cases hc
    exact (attach_iff h.nodes (h.landmark l hl o ho) x y).1 ha
  · have e1 : (cs.map (fun c => (Block.constraint c.submap c.node c.pose c.inter : Block T G))).filter motion = [] := by
      rw [List.filter_eq_nil_iff]
      intro blk hblk
      obtain ⟨c, -, rfl⟩ := List.mem_map.1 hblk
      simp [motion]
    have e2 : (ls.flatMap (obsBlocks p.nodes)).filter motion = [] := by
      rw [List.filter_eq_nil_iff]
      intro blk hblk
      obtain ⟨l, -, hx⟩ := List.mem_flatMap.1 hblk
      obtain ⟨o, x, y, -, -, rfl⟩ := oB.1 hx
      simp [motion]
    rw [List.filter_append, List.filter_append, List.filter_append, e1, e2]
    simp only [List.nil_append]
    rw [← List.filter_append]
    apply List.Nodup.filter
    have hids : (flat p.nodes).Pairwise (fun a b => a.1 ≠ b.1) := by
      refine List.Pairwise.imp ?_ (flat_sorted h.nodes)
      intro a b hab e
      rw [e] at hab
      simp only [idLt] at hab
      omega
    rw [List.nodup_append]
    refine ⟨?_, ?_, ?_⟩
    · rw [List.nodup_flatMap]
      refine ⟨?_, ?_⟩
      · intro x _
        unfold succBlocks
        split
        · exact List.nodup_nil
        · cases at? p.nodes (x.1.1, x.1.2 + 1) with
          | none => exact List.nodup_nil
          | some n =>
            simp only [pairBlocks]
            cases odometryBetween S p.odometry x.1.1 x.2 n <;> simp
      · refine List.Pairwise.imp ?_ hids
        intro a b hab blk h1 h2
        obtain ⟨-, n, -, rfl | ⟨g, -, rfl⟩⟩ := (mem_succBlocks S).1 h1 <;>
          obtain ⟨-, n', -, hc | ⟨g', -, hc⟩⟩ := (mem_succBlocks S).1 h2 <;> simp_all
    · unfold List.Nodup
      rw [List.pairwise_filterMap]
      refine List.Pairwise.imp ?_ hids
      intro a b hab x hx y hy e
      obtain ⟨g, -, rfl⟩ := fB.1 hx
      obtain ⟨g', -, rfl⟩ := fB.1 hy
      simp only [Block.fixedFrame.injEq] at e
      exact hab e.2.1
    · intro x hx y hy e
      subst e
      obtain ⟨z, -, hz⟩ := List.mem_flatMap.1 hx
      obtain ⟨z', -, hz'⟩ := List.mem_filterMap.1 hy
      obtain ⟨g, -, hc⟩ := fB.1 hz'
      obtain ⟨-, n, -, h1 | ⟨g, -, h1⟩⟩ := (mem_succBlocks S).1 hz <;> rw [h1] at hc <;> cases hc
  · intro x y g
    simp only [List.mem_append, List.mem_map, List.mem_flatMap, List.mem_filterMap, oB, fB, mem_succBlocks]
    constructor
    · rintro (((⟨c, -, hc⟩ | ⟨l, -, o, x', y', -, -, hc⟩) | ⟨z, hz, h1, n, hn, hc | ⟨g', -, hc⟩⟩) | ⟨z, -, g', -, hc⟩)
      · cases hc
      · cases hc
      · cases hc
        exact ⟨h1, rfl, z.2, n, hflat.1 hz, hn, rfl⟩
      · cases hc
      · cases hc
    · rintro ⟨h1, rfl, m, n, hm, hn, rfl⟩
      exact Or.inl (Or.inr ⟨(x, m), hflat.2 hm, h1, n, hn, Or.inl rfl⟩)
  · intro x y g
    simp only [List.mem_append, List.mem_map, List.mem_flatMap, List.mem_filterMap, oB, fB, mem_succBlocks]
    constructor
    · rintro (((⟨c, -, hc⟩ | ⟨l, -, o, x', y', -, -, hc⟩) | ⟨z, hz, h1, n, hn, hc | ⟨g', ho, hc⟩⟩) | ⟨z, -, g', -, hc⟩)
      · cases hc
      · cases hc
      · cases hc
      · cases hc
        obtain ⟨u, v, hu, hv, rfl⟩ := (odometryBetween_iff S hend h.odometry _ _ _ _).1 ho
        exact ⟨h1, rfl, z.2, n, u, v, hflat.1 hz, hn, hu, hv, rfl⟩
      · cases hc
    · rintro ⟨h1, rfl, m, n, u, v, hm, hn, hu, hv, rfl⟩
      exact Or.inl (Or.inr ⟨(x, m), hflat.2 hm, h1, n, hn, Or.inr ⟨_, (odometryBetween_iff S hend h.odometry _ _ _ _).2 ⟨u, v, hu, hv, rfl⟩, rfl⟩⟩)
  · intro t x g
    simp only [List.mem_append, List.mem_map, List.mem_flatMap, List.mem_filterMap, oB, fB, mem_succBlocks]
    constructor
    · rintro (((⟨c, -, hc⟩ | ⟨l, -, o, x', y', -, -, hc⟩) | ⟨z, hz, h1, n, hn, hc | ⟨g', ho, hc⟩⟩) | ⟨z, hz, g', hg, hc⟩)
      · cases hc
      · cases hc
      · cases hc
      · cases hc
      · cases hc
        exact ⟨rfl, z.2, hflat.1 hz, hframe.1 hg⟩
    · rintro ⟨rfl, n, hn, hg⟩
      exact Or.inr ⟨(x, n), hflat.2 hn, g, (hframe (x := (x, n))).2 hg, rfl⟩

/-! ### Constant parameters and starting points -/

theorem mem_constSubmaps_false {frozen : List Int} : ∀ {l : List (Id × O)} {id : Id},
    id ∈ constSubmaps frozen l false ↔ ∃ o, (id, o) ∈ l ∧ id.1 ∈ frozen := by
  intro l
  induction l with
  | nil => simp [constSubmaps]
  | cons x l ih =>
    intro id
    obtain ⟨k, v⟩ := x
    by_cases hk : k.1 ∈ frozen
    · simp only [constSubmaps, hk, Bool.false_or, decide_true, if_true, List.mem_cons, ih]
      constructor
      · rintro (rfl | ⟨o, h1, h2⟩)
        · exact ⟨v, Or.inl rfl, hk⟩
        · exact ⟨o, Or.inr h1, h2⟩
      · rintro ⟨o, h1 | h1, h2⟩
        · exact Or.inl (congrArg Prod.fst h1)
        · exact Or.inr ⟨o, h1, h2⟩
    · simp only [constSubmaps, hk, Bool.false_or, decide_false, Bool.false_eq_true, if_false, List.mem_cons, ih]
      constructor
      · rintro ⟨o, h1, h2⟩
        exact ⟨o, Or.inr h1, h2⟩
      · rintro ⟨o, h1 | h1, h2⟩
        · obtain ⟨rfl, rfl⟩ := Prod.mk.inj h1
          exact absurd h2 hk
        · exact ⟨o, h1, h2⟩

theorem mem_frameOrigins {p : Problem T O G} : ∀ {ids : List Int} {t : Int} {o : O}, (t, o) ∈ frameOrigins S p ids ↔
    t ∈ ids ∧ ((flat p.nodes).filter (fun x => x.1.1 = t)).findSome? (frameStart S p ((SMap.get? t p.trajectoryData).getD none)) = some o := by
  intro ids
  induction ids with
  | nil => simp [frameOrigins]
  | cons u ids ih =>
    intro t o
    rw [frameOrigins]
    split
    · rename_i o' ho'
      rw [List.mem_cons, ih, List.mem_cons]
      constructor
      · rintro (h | ⟨h1, h2⟩)
        · obtain ⟨rfl, rfl⟩ := Prod.mk.inj h
          exact ⟨Or.inl rfl, ho'⟩
        · exact ⟨Or.inr h1, h2⟩
      · rintro ⟨rfl | h1, h2⟩
        · rw [ho'] at h2
          exact Or.inl (by rw [Option.some.inj h2])
        · exact Or.inr ⟨h1, h2⟩
    · rename_i hn
      rw [ih, List.mem_cons]
      constructor
      · rintro ⟨h1, h2⟩
        exact ⟨Or.inr h1, h2⟩
      · rintro ⟨rfl | h1, h2⟩
        · rw [hn] at h2
          cases h2
        · exact ⟨h1, h2⟩

theorem frameOrigins_nodup {p : Problem T O G} : ∀ {ids : List Int}, ids.Nodup → ((frameOrigins S p ids).map (·.1)).Nodup := by
  intro ids
  induction ids with
  | nil => intro _; simp [frameOrigins]
  | cons u ids ih =>
    intro h
    obtain ⟨h1, h2⟩ := List.nodup_cons.1 h
    rw [frameOrigins]
    split
    · rw [List.map_cons, List.nodup_cons]
      refine ⟨fun hm => ?_, ih h2⟩
      obtain ⟨x, hx, hxu⟩ := List.mem_map.1 hm
      obtain ⟨t, o⟩ := x
      simp only at hxu
      subst hxu
      exact h1 ((mem_frameOrigins S).1 hx).1
    · exact ih h2

theorem framePose_iff {p : Problem T O G} (hw : MapByTime.WF (·.time) p.fixedFrame) {x : Id × Node T O G} {g : G} :
    framePose S p x = some g ↔ FrameAt S (MapByTime.dataOf p.fixedFrame x.1.1) x.2.time g := by
  unfold framePose MapByTime.dataOf
  cases hg : SMap.get? x.1.1 p.fixedFrame with
  | none =>
    simp only [Option.bind_none, reduceCtorEq, Option.getD_none, false_iff]
    rintro ⟨e, ge, k, -⟩
    have := k.1
    cases this
  | some tr =>
    have hm := SMap.mem_of_get? hg
    simpa using interpolateFixedFrame_iff S (hw.dsorted _ hm) (hw.keys _ hm) x.2.time g

/-- **C60, constants**: Ceres may not change the first submap and exactly the submaps, nodes and landmarks that are frozen.
**Fixed frames**: a trajectory gets an origin of its fixed frame exactly if some node has a fixed frame pose; the starting
point is the stored origin, or else such that the residual of the first such node vanishes. -/
theorem constants_and_origins {p : Problem T O G} {cs : List (Constraint G)} {ls : List (Landmark T G)}
    (h : Ready p cs ls) (frozen : List Int) :
    ∃ b, build S p cs frozen ls = some (some b) ∧
      (∀ id, id ∈ b.constNodes ↔ id.1 ∈ frozen ∧ (at? p.nodes id).isSome) ∧
      (∀ id, id ∈ b.constSubmaps ↔ (at? p.submaps id).isSome ∧
        (id.1 ∈ frozen ∨ ∀ id', (at? p.submaps id').isSome → id = id' ∨ idLt id id')) ∧
      (∀ name, name ∈ b.constLandmarks ↔ ∃ l ∈ ls, l.name = name ∧ l.frozen = true ∧ ∃ o ∈ l.observations, Within p.nodes o) ∧
      (b.origins.map (·.1)).Nodup ∧
      (∀ t o, (t, o) ∈ b.origins ↔ ∃ i n g, at? p.nodes (t, i) = some n ∧ FrameAt S (MapByTime.dataOf p.fixedFrame t) n.time g ∧
        (∀ j m g', j < i → at? p.nodes (t, j) = some m → ¬ FrameAt S (MapByTime.dataOf p.fixedFrame t) m.time g') ∧
        ((∃ g0, SMap.get? t p.trajectoryData = some (some g0) ∧ o = S.proj g0) ∨
          (SMap.get? t p.trajectoryData = some none ∧ o * S.proj g = n.globalPose))) := by
  have hflat : ∀ {x : Id × Node T O G}, x ∈ flat p.nodes ↔ at? p.nodes x.1 = some x.2 := fun {x} => (at?_iff_mem h.nodes).symm
  refine ⟨_, build_eq S h frozen, ?_, ?_, ?_, ?_, ?_⟩ <;> dsimp only
  · intro id
    simp only [List.mem_map, List.mem_filter, decide_eq_true_eq, Option.isSome_iff_exists]
    constructor
    · rintro ⟨x, ⟨h1, h2⟩, rfl⟩
      exact ⟨h2, x.2, hflat.1 h1⟩
    · rintro ⟨h1, n, hn⟩
      exact ⟨(id, n), ⟨hflat.2 hn, h1⟩, rfl⟩
  · intro id
    have hs := flat_sorted h.submaps
    have hm : ∀ id, (at? p.submaps id).isSome ↔ ∃ o, (id, o) ∈ flat p.submaps := by
      intro id
      rw [Option.isSome_iff_exists]
      exact exists_congr (fun o => at?_iff_mem h.submaps)
    simp only [hm]
    cases hl : flat p.submaps with
    | nil => simp [constSubmaps]
    | cons x l =>
      obtain ⟨k, v⟩ := x
      rw [hl, List.pairwise_cons] at hs
      simp only [constSubmaps, Bool.true_or, if_true, List.mem_cons, mem_constSubmaps_false]
      constructor
      · rintro (rfl | ⟨o, h1, h2⟩)
        · refine ⟨⟨v, Or.inl rfl⟩, Or.inr ?_⟩
          rintro id' ⟨o', h1 | h1⟩
          · exact Or.inl (congrArg Prod.fst h1).symm
          · exact Or.inr (hs.1 _ h1)
        · exact ⟨⟨o, Or.inr h1⟩, Or.inl h2⟩
      · rintro ⟨⟨o, h1 | h1⟩, h2⟩
        · exact Or.inl (congrArg Prod.fst h1)
        · rcases h2 with h2 | h2
          · exact Or.inr ⟨o, h1, h2⟩
          · rcases h2 k ⟨v, Or.inl rfl⟩ with e | e
            · exact Or.inl e
            · have := hs.1 _ h1
              simp only [idLt] at this e
              omega
  · intro name
    simp only [List.mem_map, List.mem_filter, Bool.and_eq_true, Bool.not_eq_true', List.isEmpty_eq_false_iff]
    have hw : ∀ l ∈ ls, (obsBlocks p.nodes l ≠ [] ↔ ∃ o ∈ l.observations, Within p.nodes o) := by
      intro l hl
      have hwithin : ∀ {o : Observation T G}, o ∈ l.observations → ((attach p.nodes o).isSome ↔ Within p.nodes o) := by
        intro o ho
        have hu := h.landmark l hl o ho
        obtain ⟨r, hr, -, hr2⟩ := landmark_attached h.nodes hu
        have hra : r = attach p.nodes o := by
          have := landmarkNodes_usable h.nodes hu
          rw [hr] at this
          exact Option.some.inj this
        rw [← hra, ← Option.ne_none_iff_isSome, ne_eq, hr2, not_or]
        unfold Within
        push Not
        rfl
      unfold obsBlocks
      rw [ne_eq, List.filterMap_eq_nil_iff]
      push Not
      constructor
      · rintro ⟨o, ho, h1⟩
        refine ⟨o, ho, (hwithin ho).1 ?_⟩
        cases ha : attach p.nodes o with
        | none => rw [ha] at h1; exact absurd rfl h1
        | some x => rfl
      · rintro ⟨o, ho, h1⟩
        refine ⟨o, ho, ?_⟩
        obtain ⟨x, hx⟩ := Option.isSome_iff_exists.1 ((hwithin ho).2 h1)
        rw [hx]
        simp
    constructor
    · rintro ⟨l, ⟨h1, h2, h3⟩, rfl⟩
      exact ⟨l, h1, rfl, h2, (hw l h1).1 h3⟩
    · rintro ⟨l, h1, rfl, h2, h3⟩
      exact ⟨l, ⟨h1, h2, (hw l h1).2 h3⟩, rfl⟩
  · refine frameOrigins_nodup S ?_
    unfold trajectoryIds List.Nodup
    rw [List.pairwise_map]
    exact List.Pairwise.imp (fun h => ne_of_lt h) h.nodes.sorted
  · intro t o
    rw [mem_frameOrigins, List.findSome?_eq_some_iff]
    have hs : ((flat p.nodes).filter (fun x => decide (x.1.1 = t))).Pairwise (fun a b => idLt a.1 b.1) := (flat_sorted h.nodes).filter _
    have hmem : ∀ {x : Id × Node T O G}, x ∈ (flat p.nodes).filter (fun x => decide (x.1.1 = t)) ↔ at? p.nodes x.1 = some x.2 ∧ x.1.1 = t := by
      intro x
      rw [List.mem_filter, hflat]
      simp
    constructor
    · rintro ⟨-, l1, x, l2, hl, hx, hn⟩
      obtain ⟨hx1, hx2⟩ := hmem.1 (by rw [hl]; simp : x ∈ _)
      obtain ⟨g, hg, ho⟩ := Option.map_eq_some_iff.1 hx
      refine ⟨x.1.2, x.2, g, by rw [← hx2]; exact hx1, by rw [← hx2]; exact (framePose_iff S h.fixedFrame).1 hg, ?_, ?_⟩
      · intro j m g' hj hm hc
        have hjm := hmem.2 (⟨hm, rfl⟩ : at? p.nodes ((t, j), m).1 = some ((t, j), m).2 ∧ _)
        rw [hl] at hjm hs
        rw [List.pairwise_append, List.pairwise_cons] at hs
        rcases List.mem_append.1 hjm with q | q
        · have := hn _ q
          rw [frameStart, Option.map_eq_none_iff] at this
          rw [(framePose_iff S h.fixedFrame (x := ((t, j), m))).2 hc] at this
          cases this
        · rcases List.mem_cons.1 q with q | q
          · have := congrArg (fun y : Id × Node T O G => y.1.2) q
            simp only at this
            omega
          · have := hs.2.1.1 _ q
            simp only [idLt] at this
            omega
      · have htd := h.data _ _ hx1
        rw [hx2] at htd
        obtain ⟨og, hog⟩ := Option.isSome_iff_exists.1 htd
        rw [hog] at ho
        simp only [Option.getD_some] at ho
        cases og with
        | none =>
          right
          refine ⟨hog, ?_⟩
          rw [← ho]
          simp [startOrigin]
        | some g0 =>
          left
          exact ⟨g0, hog, by rw [← ho]; rfl⟩
    · rintro ⟨i, n, g, hn, hg, hfirst, ho⟩
      have hm := hmem.2 (⟨hn, rfl⟩ : at? p.nodes ((t, i), n).1 = some ((t, i), n).2 ∧ _)
      refine ⟨?_, ?_⟩
      · obtain ⟨tr, h1, -⟩ := mem_flat.1 ((at?_iff_mem h.nodes).1 hn)
        exact List.mem_map.2 ⟨_, h1, rfl⟩
      · obtain ⟨l1, l2, hl⟩ := List.append_of_mem hm
        refine ⟨l1, ((t, i), n), l2, hl, ?_, ?_⟩
        · rw [frameStart, (framePose_iff S h.fixedFrame (x := ((t, i), n))).2 hg]
          rcases ho with ⟨g0, h1, rfl⟩ | ⟨h1, h2⟩
          · rw [h1]; rfl
          · rw [h1]
            simp [startOrigin, ← h2]
        · intro x hx
          obtain ⟨hx1, hx2⟩ := hmem.1 (by rw [hl]; simp [hx] : x ∈ _)
          rw [frameStart, Option.map_eq_none_iff]
          cases hq : framePose S p x with
          | none => rfl
          | some g' =>
            exfalso
            rw [hl, List.pairwise_append] at hs
            have := hs.2.2 x hx ((t, i), n) (by simp)
            simp only [idLt] at this
            refine hfirst x.1.2 x.2 g' (by omega) (by rw [← hx2]; exact hx1) ?_
            rw [← hx2]
            exact (framePose_iff S h.fixedFrame).1 hq

/-! ### Reachable problems -/

/-- What holds after any calls. -/
structure Inv (p : Problem T O G) : Prop where
  nodes : WF p.nodes
  submaps : WF p.submaps
  odometry : MapByTime.WF (·.time) p.odometry
  fixedFrame : MapByTime.WF (·.time) p.fixedFrame
  data : ∀ id n, at? p.nodes id = some n → (SMap.get? id.1 p.trajectoryData).isSome

theorem get?_touch {td : List (Int × Option G)} {t u : Int} :
    (SMap.get? u (touch td t)).isSome ↔ u = t ∨ (SMap.get? u td).isSome := by
  unfold touch
  cases h : SMap.get? t td with
  | some v =>
    constructor
    · exact Or.inr
    · rintro (rfl | h')
      · simp [h]
      · exact h'
  | none =>
    simp only [SMap.get?_put]
    by_cases hu : u = t
    · simp [hu]
    · simp [hu, Ne.symm hu]

theorem mapAll_wf {D : Type} {f : Id → D → D} {m : Map D} (h : WF m) : WF (GlobalPoses.mapAll f m) := by
  have hm : ∀ e ∈ GlobalPoses.mapAll f m, ∃ e0 ∈ m, e.1 = e0.1 ∧ e.2.data = e0.2.data.map (fun x => (x.1, f (e0.1, x.1) x.2)) := by
    intro e he
    obtain ⟨e0, h0, rfl⟩ := List.mem_map.1 he
    exact ⟨e0, h0, rfl, rfl⟩
  refine ⟨GlobalPoses.mapAll_sorted h.sorted, ?_, ?_, ?_, ?_⟩
  · intro e he
    obtain ⟨e0, h0, h1, -⟩ := hm e he
    rw [h1]; exact h.nonneg e0 h0
  · intro e he
    obtain ⟨e0, h0, -, h2⟩ := hm e he
    rw [h2]
    simpa using h.nonempty e0 h0
  · intro e he
    obtain ⟨e0, h0, -, h2⟩ := hm e he
    rw [h2]
    unfold SMap.Sorted
    rw [List.pairwise_map]
    exact h.dsorted e0 h0
  · intro e he x hx
    obtain ⟨e0, h0, -, h2⟩ := hm e he
    rw [h2] at hx
    obtain ⟨y, hy, rfl⟩ := List.mem_map.1 hx
    exact h.inonneg e0 h0 y hy

theorem storeOrigins_some {sol : Solution O} : ∀ {os : List (Int × O)} {td : List (Int × Option G)},
    (∀ x ∈ os, (SMap.get? x.1 td).isSome) →
    ∃ td', storeOrigins S sol os td = some td' ∧
      ∀ t, SMap.get? t td' = if t ∈ os.map (·.1) then some (some (S.emb (sol.origin t))) else SMap.get? t td := by
  intro os
  induction os with
  | nil => intro td _; exact ⟨td, rfl, by simp⟩
  | cons x os ih =>
    intro td h
    obtain ⟨u, o⟩ := x
    obtain ⟨v, hv⟩ := Option.isSome_iff_exists.1 (h (u, o) (by simp))
    simp only at hv
    obtain ⟨td', h1, h2⟩ := ih (td := SMap.put u (some (S.emb (sol.origin u))) td) (by
      intro y hy
      rw [SMap.get?_put]
      split
      · rfl
      · exact h y (List.mem_cons_of_mem _ hy))
    refine ⟨td', by simp [storeOrigins, hv, h1], fun t => ?_⟩
    rw [h2, SMap.get?_put]
    by_cases ht : t ∈ os.map (·.1)
    · rw [if_pos ht, if_pos (by simp only [List.map_cons, List.mem_cons]; exact Or.inr ht)]
    · rw [if_neg ht]
      by_cases hu : u = t
      · subst hu
        rw [if_pos rfl, if_pos (by simp)]
      · rw [if_neg hu, if_neg (by simp only [List.map_cons, List.mem_cons, not_or]; exact ⟨fun e => hu e.symm, ht⟩)]

theorem storeOrigins_keeps {sol : Solution O} : ∀ {os : List (Int × O)} {td td' : List (Int × Option G)},
    storeOrigins S sol os td = some td' → ∀ t, (SMap.get? t td).isSome → (SMap.get? t td').isSome := by
  intro os
  induction os with
  | nil =>
    intro td td' h t ht
    simp only [storeOrigins, Option.some.injEq] at h
    rw [← h]; exact ht
  | cons x os ih =>
    intro td td' h t ht
    obtain ⟨u, o⟩ := x
    simp only [storeOrigins, Option.bind_eq_bind, Option.bind_eq_some_iff] at h
    obtain ⟨-, -, h⟩ := h
    refine ih h t ?_
    rw [SMap.get?_put]
    split
    · rfl
    · exact ht

theorem inv_step {p p' : Problem T O G} (h : Inv p) {c : Call T O G} (hc : exec S p c = some p') : Inv p' := by
  cases c with
  | addOdometry t r =>
    obtain ⟨m, hm, rfl⟩ := Option.map_eq_some_iff.1 hc
    exact ⟨h.nodes, h.submaps, MapByTime.wf_step (ntime := fun n : Node T O G => n.time) h.odometry (.append t r hm), h.fixedFrame, h.data⟩
  | addFixedFrame t r =>
    obtain ⟨m, hm, rfl⟩ := Option.map_eq_some_iff.1 hc
    exact ⟨h.nodes, h.submaps, h.odometry, MapByTime.wf_step (ntime := fun n : Node T O G => n.time) h.fixedFrame (.append t r hm), h.data⟩
  | addNode t n =>
    obtain ⟨⟨m, id⟩, hm, rfl⟩ := Option.map_eq_some_iff.1 hc
    obtain ⟨w, h1, h2, h3⟩ := append_spec h.nodes hm
    refine ⟨w, h.submaps, h.odometry, h.fixedFrame, fun id' n' hn => ?_⟩
    rw [get?_touch]
    dsimp only at hn
    rw [h3] at hn
    split at hn
    · rename_i e
      exact Or.inl (by rw [← e]; exact h1)
    · exact Or.inr (h.data _ _ hn)
  | setTrajectoryData t o =>
    simp only [exec, Option.some.injEq] at hc
    subst hc
    refine ⟨h.nodes, h.submaps, h.odometry, h.fixedFrame, fun id' n' hn => ?_⟩
    dsimp only
    rw [SMap.get?_put]
    split
    · rfl
    · exact h.data _ _ hn
  | insertNode id n =>
    obtain ⟨m, hm, rfl⟩ := Option.map_eq_some_iff.1 hc
    obtain ⟨w, h2, h3⟩ := insert_spec h.nodes hm
    refine ⟨w, h.submaps, h.odometry, h.fixedFrame, fun id' n' hn => ?_⟩
    rw [get?_touch]
    dsimp only at hn
    rw [h3] at hn
    split at hn
    · rename_i e
      exact Or.inl (by rw [← e])
    · exact Or.inr (h.data _ _ hn)
  | trimNode id =>
    simp only [exec, trimNode, Option.bind_eq_bind, Option.bind_eq_some_iff, Option.some.injEq] at hc
    obtain ⟨od, ho, ff, hf, ns, hn, rfl⟩ := hc
    obtain ⟨w, h1, h2⟩ := trim_spec h.nodes hn
    refine ⟨w, h.submaps, MapByTime.wf_step h.odometry (.trim _ _ h.nodes ho), MapByTime.wf_step h.fixedFrame (.trim _ _ h.nodes hf), fun id' n' hn' => ?_⟩
    dsimp only at hn' ⊢
    have hold : at? p.nodes id' = some n' := by
      rw [h2] at hn'
      split at hn'
      · cases hn'
      · exact hn'
    split
    · rename_i hz
      rw [SMap.get?_erase]
      rw [if_neg]
      · exact h.data _ _ hold
      · intro e
        obtain ⟨tr, k1, k2⟩ := mem_flat.1 ((at?_iff_mem w).1 hn')
        have := SMap.get?_of_mem w.sorted k1
        rw [sizeOfTrajectoryOrZero, e, this] at hz
        simp only [List.length_eq_zero_iff] at hz
        rw [hz] at k2
        cases k2
    · exact h.data _ _ hold
  | addSubmap t o =>
    obtain ⟨⟨m, id⟩, hm, rfl⟩ := Option.map_eq_some_iff.1 hc
    exact ⟨h.nodes, (append_spec h.submaps hm).1, h.odometry, h.fixedFrame, h.data⟩
  | insertSubmap id o =>
    obtain ⟨m, hm, rfl⟩ := Option.map_eq_some_iff.1 hc
    exact ⟨h.nodes, (insert_spec h.submaps hm).1, h.odometry, h.fixedFrame, h.data⟩
  | trimSubmap id =>
    obtain ⟨m, hm, rfl⟩ := Option.map_eq_some_iff.1 hc
    exact ⟨h.nodes, (trim_spec h.submaps hm).1, h.odometry, h.fixedFrame, h.data⟩
  | solve cs frozen ls sol =>
    simp only [exec, solve, Option.bind_eq_bind, Option.bind_eq_some_iff] at hc
    obtain ⟨r, hr, hc⟩ := hc
    cases r with
    | none =>
      simp only [Option.some.injEq] at hc
      rw [← hc]; exact h
    | some b =>
      simp only [Option.bind_eq_some_iff, Option.some.injEq] at hc
      obtain ⟨td, htd, rfl⟩ := hc
      refine ⟨mapAll_wf (f := fun id n => { n with globalPose := sol.node id }) h.nodes, mapAll_wf (f := fun id _ => sol.submap id) h.submaps, h.odometry, h.fixedFrame, fun id n hn => ?_⟩
      dsimp only at hn ⊢
      rw [GlobalPoses.at?_mapAll] at hn
      obtain ⟨n0, hn0, -⟩ := Option.map_eq_some_iff.1 hn
      exact storeOrigins_keeps S htd _ (h.data _ _ hn0)

theorem inv_exec {cs : List (Call T O G)} {p : Problem T O G} (h : Exec S {} cs p) : Inv p := by
  induction h with
  | nil =>
    refine ⟨?_, ?_, ?_, ?_, ?_⟩
    · exact ⟨List.Pairwise.nil, by simp, by simp, by simp, by simp⟩
    · exact ⟨List.Pairwise.nil, by simp, by simp, by simp, by simp⟩
    · exact ⟨List.Pairwise.nil, by simp, by simp, by simp, by simp⟩
    · exact ⟨List.Pairwise.nil, by simp, by simp, by simp, by simp⟩
    · intro id n hn
      simp [at?, SMap.get?] at hn
  | snoc _ hs ih => exact inv_step S ih hs

/-- **C60, `Solve` works in every reachable state**: after any calls on the problem, optimizing does not abort if the
constraints are between nodes and submaps of the problem and the landmark observations are usable; it only changes global
poses and the origins of fixed frames. -/
theorem solve_succeeds {calls : List (Call T O G)} {p : Problem T O G} (h : Exec S {} calls p) (hb : MapByTime.SmallNodes p.nodes)
    {cs : List (Constraint G)} {ls : List (Landmark T G)} (frozen : List Int) (sol : Solution O)
    (hc : ∀ c ∈ cs, (at? p.submaps c.submap).isSome ∧ (at? p.nodes c.node).isSome)
    (hl : ∀ l ∈ ls, ∀ o ∈ l.observations, Usable p.nodes o) :
    ∃ p', solve S p cs frozen ls sol = some p' ∧ p'.odometry = p.odometry ∧ p'.fixedFrame = p.fixedFrame ∧
      (∀ id, at? p'.nodes id = (at? p.nodes id).map (fun n => { n with globalPose := sol.node id })) ∧
      (∀ id, (at? p'.submaps id).isSome = (at? p.submaps id).isSome) := by
  have hi := inv_exec S h
  by_cases hne : ∃ id n, at? p.nodes id = some n
  · have hr : Ready p cs ls := ⟨hi.nodes, hi.submaps, hb, hi.odometry, hi.fixedFrame, hi.data, hc, hl, hne⟩
    obtain ⟨b, hb1, -, -, -, -, hb2⟩ := constants_and_origins S hr frozen
    obtain ⟨td, htd, -⟩ := storeOrigins_some S (sol := sol) (os := b.origins) (td := p.trajectoryData) (by
      rintro ⟨t, o⟩ hx
      obtain ⟨i, n, g, hn, -⟩ := (hb2 t o).1 hx
      exact hi.data _ _ hn)
    refine ⟨{ p with
      nodes := GlobalPoses.mapAll (fun id n => { n with globalPose := sol.node id }) p.nodes
      submaps := GlobalPoses.mapAll (fun id _ => sol.submap id) p.submaps
      trajectoryData := td }, by simp only [solve, hb1, htd, Option.bind_eq_bind, Option.bind_some], rfl, rfl, fun id => ?_, fun id => ?_⟩
    · dsimp only
      rw [GlobalPoses.at?_mapAll]
    · dsimp only
      rw [GlobalPoses.at?_mapAll, Option.isSome_map]
  · have hemp : empty p.nodes = true := by
      obtain ⟨vb, rb⟩ := begin_rest hi.nodes
      obtain ⟨ve, re⟩ := end_rest hi.nodes hb
      unfold empty
      rw [eq_iff vb ve, rb, re]
      have : flat p.nodes = [] := by
        cases hf : flat p.nodes with
        | nil => rfl
        | cons x L => exact absurd ⟨x.1, x.2, (at?_iff_mem hi.nodes).2 (by rw [hf]; simp)⟩ hne
      rw [this]
    refine ⟨p, by simp [solve, build, hemp], rfl, rfl, fun id => ?_, fun id => rfl⟩
    cases hq : at? p.nodes id with
    | none => rfl
    | some n => exact absurd ⟨id, n, hq⟩ hne

/-! ### Landmark observations that are not usable -/

theorem mem_rest_end {nodes : Map (Node T O G)} (w : WF nodes) {t : Int} {x : Id × Node T O G} :
    x ∈ rest (endOfTrajectory nodes t) ↔ at? nodes x.1 = some x.2 ∧ t < x.1.1 := by
  obtain ⟨-, re⟩ : Valid nodes (endOfTrajectory nodes t) ∧ rest (endOfTrajectory nodes t) = _ :=
    beginOfTrajectory_spec w (t + 1)
  rw [re, List.mem_filter, at?_iff_mem w]
  simp only [decide_eq_true_eq]
  rfl

/-- **C60, an observation made before the first node aborts**: if the trajectory of the observation has no nodes,
`begin_of_trajectory` is not an element of that trajectory.  If no trajectory with a larger id has nodes it may not be
dereferenced, and the `CHECK` fails; otherwise its time is compared
with that of a node of another trajectory, and it is skipped either way. -/
theorem landmark_without_nodes {nodes : Map (Node T O G)} (w : WF nodes) {o : Observation T G}
    (h : ∀ i, at? nodes (o.trajectory, i) = none) :
    ((∀ id, o.trajectory < id.1 → at? nodes id = none) → landmarkNodes nodes o = none) ∧
    ((∃ id n, o.trajectory < id.1 ∧ at? nodes id = some n) → landmarkNodes nodes o = some none) := by
  have hm : Monotone nodes o.trajectory := by
    intro i j a b ha
    rw [h i] at ha
    cases ha
  obtain ⟨A, B, hAB, -, -, hl⟩ := landmarkNodes_cases w o hm
  have hnil : A ++ B = [] := by
    rw [← hAB, List.eq_nil_iff_forall_not_mem]
    intro x hx
    obtain ⟨h1, h2⟩ := (mem_nodesOf w).1 hx
    have := h x.1.2
    rw [← h2] at this
    exact absurd (this.symm.trans h1) (by simp)
  obtain ⟨rfl, rfl⟩ := List.append_eq_nil_iff.1 hnil
  rw [hl]
  simp only [List.getLast?_nil]
  constructor
  · intro h'
    rw [if_pos]
    rw [List.eq_nil_iff_forall_not_mem]
    intro x hx
    obtain ⟨h1, h2⟩ := (mem_rest_end w).1 hx
    rw [h' _ h2] at h1
    cases h1
  · rintro ⟨id, n, h1, h2⟩
    rw [if_neg]
    intro hc
    have : (id, n) ∈ rest (endOfTrajectory nodes o.trajectory) := (mem_rest_end w).2 ⟨h2, h1⟩
    rw [hc] at this
    cases this

/-- **C60, an observation made exactly at the only node**: the code takes the node after it, which belongs to another
trajectory if there is one with a larger id; otherwise a `CHECK` fails. -/
theorem landmark_only_node {nodes : Map (Node T O G)} (w : WF nodes) {o : Observation T G} {i : Int} {n : Node T O G}
    (hn : at? nodes (o.trajectory, i) = some n) (ht : n.time = o.time) (h : ∀ j, j ≠ i → at? nodes (o.trajectory, j) = none) :
    ((∀ id, o.trajectory < id.1 → at? nodes id = none) → landmarkNodes nodes o = none) ∧
    ((∃ id m, o.trajectory < id.1 ∧ at? nodes id = some m) →
      ∃ id m, o.trajectory < id.1 ∧ at? nodes id = some m ∧ landmarkNodes nodes o = some (some ((o.trajectory, i), id))) := by
  have hone : ∀ j a, at? nodes (o.trajectory, j) = some a → j = i ∧ a = n := by
    intro j a ha
    by_cases hj : j = i
    · subst hj
      exact ⟨rfl, Option.some.inj (ha.symm.trans hn)⟩
    · rw [h j hj] at ha
      cases ha
  have hm : Monotone nodes o.trajectory := by
    intro j k a b ha hb _
    rw [(hone j a ha).2, (hone k b hb).2]
  obtain ⟨A, B, hAB, hA, hB, hl⟩ := landmarkNodes_cases w o hm
  have hall : ∀ x ∈ A ++ B, x = ((o.trajectory, i), n) := by
    intro x hx
    rw [← hAB] at hx
    obtain ⟨h1, h2⟩ := (mem_nodesOf w).1 hx
    obtain ⟨⟨t, j⟩, a⟩ := x
    simp only at h1 h2
    subst h2
    obtain ⟨rfl, rfl⟩ := hone j a h1
    rfl
  have hA0 : A = [] := by
    rw [List.eq_nil_iff_forall_not_mem]
    intro x hx
    have h1 := hA x hx
    rw [hall x (List.mem_append_left _ hx)] at h1
    exact absurd h1 (by rw [← ht]; exact lt_irrefl _)
  subst hA0
  have hmem : ((o.trajectory, i), n) ∈ B := by
    have : ((o.trajectory, i), n) ∈ nodesOf nodes o.trajectory := (mem_nodesOf w).2 ⟨hn, rfl⟩
    rw [hAB] at this
    exact this
  have hnd : B.Nodup := by
    have : (nodesOf nodes o.trajectory).Nodup := ((flat_sorted w).imp (fun {a b} hab => by
      rintro rfl
      rcases hab with h | ⟨-, h⟩ <;> exact absurd h (lt_irrefl _))).filter _
    rw [hAB] at this
    exact this
  obtain rfl : B = [((o.trajectory, i), n)] := by
    cases B with
    | nil => cases hmem
    | cons b B' =>
      cases B' with
      | nil => rw [hall b (by simp)]
      | cons c B'' =>
        have e1 := hall b (by simp)
        have e2 := hall c (by simp)
        rw [e1, e2] at hnd
        simp at hnd
  rw [hl]
  simp only [List.getLast?_nil, ht, lt_self_iff_false, if_false, List.nil_append]
  constructor
  · intro h'
    have : rest (endOfTrajectory nodes o.trajectory) = [] := by
      rw [List.eq_nil_iff_forall_not_mem]
      intro x hx
      obtain ⟨h1, h2⟩ := (mem_rest_end w).1 hx
      rw [h' _ h2] at h1
      cases h1
    rw [this]
    rfl
  · rintro ⟨id, m, h1, h2⟩
    have hx : (id, m) ∈ rest (endOfTrajectory nodes o.trajectory) := (mem_rest_end w).2 ⟨h2, h1⟩
    cases hr : rest (endOfTrajectory nodes o.trajectory) with
    | nil => rw [hr] at hx; cases hx
    | cons c C =>
      have hc : c ∈ rest (endOfTrajectory nodes o.trajectory) := by rw [hr]; simp
      obtain ⟨h3, h4⟩ := (mem_rest_end w).1 hc
      exact ⟨c.1, c.2, h4, h3, rfl⟩

end Verif.OptProblem
