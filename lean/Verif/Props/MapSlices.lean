import Verif.MapSlices
import Verif.Props.Serialization
import Verif.Props.SubmapTexture

/-!
# C126: the submap slices of a saved map

Files for which `DeserializeAndFillSubmapSlices` does not abort (`fills_iff`), what it yields (`slices_exact`), that a map saved while
nothing else happens always gives one slice for each submap (`saved_fills`), and when one saved while the pose graph goes on does
(`torn_iff`, `torn_aborts`).
-/

namespace Verif.MapSlices

open MapById (Id flat at? WF)
open Verif.PoseGraph (Proto State Submap Act Exec Wf toProto HasSubmap LeftOut TrajectoryProto mem_flat_iff runs runs_exec)
open Verif.Serialization (Record Snapshot submapRecords save kept)
open Verif.Texture Verif.Rigid

variable {G H P O : Type}

/-! ### Vocabulary -/

/-- The message has a grid that can be shown. -/
def Grid (m : SubmapMsg G H) : Prop :=
  (∃ g, m.two = some (some g)) ∨ ∃ l h, m.three = some ⟨some l, some h⟩

/-- The texture shown: of the grid with high resolution if it is a 3D submap. -/
def Shows (w : Draw G H) (pose : Rigid3) (m : SubmapMsg G H) (t : Texture) : Prop :=
  (∃ l h, m.three = some ⟨some l, some h⟩ ∧ w.hybrid pose h = some t ∧ (w.hybrid pose l).isSome) ∨
  (m.three = none ∧ ∃ g, m.two = some (some g) ∧ w.grid g = some t)

/-- The poses in a pose graph message in their order. -/
def entries (trs : List (Int × List (Int × Rigid3))) : List (Id × Rigid3) :=
  trs.flatMap fun tr => tr.2.map fun e => ((tr.1, e.1), e.2)

/-- The last pose of a submap in the message. -/
def PoseOf (trs : List (Int × List (Int × Rigid3))) (id : Id) (pose : Rigid3) : Prop :=
  ∃ pre post, entries trs = pre ++ (id, pose) :: post ∧ ∀ e ∈ post, e.1 ≠ id

/-- The slice made of a message. -/
def SliceOf (w : Draw G H) (trs : List (Int × List (Int × Rigid3))) (m : SubmapMsg G H) (s : Slice) : Prop :=
  ∃ pose t, PoseOf trs m.id pose ∧ Shows w pose m t ∧ fillSlice pose t = some s

/-- A slice without pixels. -/
def Blank (s : Slice) : Prop := s.surface = none ∨ s.surface = some []

/-! ### The functions and the vocabulary -/

theorem hasGrid_iff {m : SubmapMsg G H} : hasGrid m = true ↔ Grid m := by
  obtain ⟨id, two, three⟩ := m
  rcases two with _ | _ | g <;> rcases three with _ | ⟨_ | l, _ | h⟩ <;> simp [hasGrid, Grid]

theorem texture_iff {w : Draw G H} {pose : Rigid3} {m : SubmapMsg G H} {t : Texture} :
    texture w pose m = some t ↔ Shows w pose m t := by
  obtain ⟨id, two, three⟩ := m
  rcases three with _ | ⟨_ | l, _ | h⟩
  · rcases two with _ | _ | g <;> simp [texture, Shows]
  · simp [texture, Shows]
  · simp [texture, Shows]
  · simp [texture, Shows]
  · cases hl : w.hybrid pose l <;> simp [texture, Shows, hl]

/-- Entries put into a map one after the other. -/
def putAll (acc : IdMap Rigid3) (l : List (Id × Rigid3)) : IdMap Rigid3 :=
  l.foldl (fun acc e => SMap.put (toLex e.1) e.2 acc) acc

theorem submapPoses_eq (trs : List (Int × List (Int × Rigid3))) : submapPoses trs = putAll [] (entries trs) := by
  unfold submapPoses putAll entries
  generalize ([] : IdMap Rigid3) = acc
  induction trs generalizing acc with
  | nil => rfl
  | cons tr trs ih => rw [List.foldl_cons, ih, List.flatMap_cons, List.foldl_append, List.foldl_map]

theorem get?_putAll {l : List (Id × Rigid3)} : ∀ {acc : IdMap Rigid3} {id : Id} {pose : Rigid3},
    SMap.get? (toLex id) (putAll acc l) = some pose ↔
      (∃ pre post, l = pre ++ (id, pose) :: post ∧ ∀ e ∈ post, e.1 ≠ id) ∨
      ((∀ e ∈ l, e.1 ≠ id) ∧ SMap.get? (toLex id) acc = some pose) := by
  induction l with
  | nil => intro acc id pose; simp [putAll]
  | cons x l ih =>
    intro acc id pose
    show SMap.get? (toLex id) (putAll (SMap.put (toLex x.1) x.2 acc) l) = some pose ↔ _
    rw [ih, SMap.get?_put]
    constructor
    · rintro (⟨pre, post, rfl, h⟩ | ⟨h1, h2⟩)
      · exact Or.inl ⟨x :: pre, post, rfl, h⟩
      · split at h2
        · rename_i hx
          have hx : x.1 = id := hx
          obtain rfl := Option.some.inj h2
          exact Or.inl ⟨[], l, by rw [← hx]; rfl, h1⟩
        · rename_i hx
          refine Or.inr ⟨?_, h2⟩
          simp only [List.mem_cons, forall_eq_or_imp]
          exact ⟨fun e => hx (by rw [e]), h1⟩
    · rintro (⟨pre, post, h, h'⟩ | ⟨h1, h2⟩)
      · cases pre with
        | nil =>
          obtain ⟨rfl, rfl⟩ := List.cons.inj h
          exact Or.inr ⟨h', by simp⟩
        | cons y pre =>
          obtain ⟨rfl, rfl⟩ := List.cons.inj h
          exact Or.inl ⟨pre, post, rfl, h'⟩
      · simp only [List.mem_cons, forall_eq_or_imp] at h1
        refine Or.inr ⟨h1.2, ?_⟩
        rw [if_neg, h2]
        exact fun e => h1.1 e

theorem poses_iff {trs : List (Int × List (Int × Rigid3))} {id : Id} {pose : Rigid3} :
    SMap.get? (toLex id) (submapPoses trs) = some pose ↔ PoseOf trs id pose := by
  rw [submapPoses_eq, get?_putAll]
  simp [PoseOf, SMap.get?]

theorem PoseOf.unique {trs : List (Int × List (Int × Rigid3))} {id : Id} {p p' : Rigid3} (h : PoseOf trs id p)
    (h' : PoseOf trs id p') : p = p' := Option.some.inj ((poses_iff.2 h).symm.trans (poses_iff.2 h'))

theorem SliceOf.unique {w : Draw G H} {trs : List (Int × List (Int × Rigid3))} {m : SubmapMsg G H} {s s' : Slice}
    (h : SliceOf w trs m s) (h' : SliceOf w trs m s') : s = s' := by
  obtain ⟨p, t, h1, h2, h3⟩ := h
  obtain ⟨p', t', h1', h2', h3'⟩ := h'
  obtain rfl := h1.unique h1'
  obtain rfl := Option.some.inj ((texture_iff.2 h2).symm.trans (texture_iff.2 h2'))
  exact Option.some.inj (h3.symm.trans h3')

theorem blank_iff {s : Slice} : (cairoData (some s)).isEmpty = true ↔ Blank s := by
  rcases hs : s.surface with _ | _ | ⟨a, l⟩ <;> simp [cairoData, Blank, hs]

theorem fill_submap {w : Draw G H} {trs : List (Int × List (Int × Rigid3))} {S S' : IdMap Slice} {m : SubmapMsg G H}
    (hm : Grid m) : fill w (submapPoses trs) S (.submap m) = some S' ↔
      ∃ s, SliceOf w trs m s ∧ (∀ old, SMap.get? (toLex m.id) S = some old → Blank old) ∧ S' = SMap.put (toLex m.id) s S := by
  simp only [fill, hasGrid_iff.2 hm, if_true, Option.bind_eq_bind, Option.bind_eq_some_iff, poses_iff, texture_iff]
  have hb : (cairoData (SMap.get? (toLex m.id) S)).isEmpty = true ↔
      ∀ old, SMap.get? (toLex m.id) S = some old → Blank old := by
    cases h : SMap.get? (toLex m.id) S with
    | none => simp [cairoData]
    | some old => rw [blank_iff]; simp
  constructor
  · rintro ⟨pose, h1, t, h2, s, h3, h4⟩
    split at h4
    · rename_i he
      exact ⟨s, ⟨pose, t, h1, h2, h3⟩, hb.1 he, (Option.some.inj h4).symm⟩
    · cases h4
  · rintro ⟨s, ⟨pose, t, h1, h2, h3⟩, he, rfl⟩
    exact ⟨pose, h1, t, h2, s, h3, by rw [if_pos (hb.2 he)]⟩

theorem fill_rest {w : Draw G H} {poses : IdMap Rigid3} {S : IdMap Slice} {m : SubmapMsg G H} (hm : ¬ Grid m) :
    fill w poses S (.submap m) = some S := by
  simp only [fill]
  rw [if_neg (fun h => hm (hasGrid_iff.1 h))]

/-! ### Files -/

/-- The submaps with grids in a file, in their order. -/
def gridded (ms : List (Msg G H)) (m : SubmapMsg G H) : Prop := .submap m ∈ ms ∧ Grid m

/-- Two records are for different submaps, or one of them shows nothing. -/
def Apart (w : Draw G H) (trs : List (Int × List (Int × Rigid3))) (a b : Msg G H) : Prop :=
  ∀ m m', a = .submap m → b = .submap m' → Grid m → Grid m' → m.id = m'.id → ∀ s, SliceOf w trs m s → Blank s

theorem fillAll_iff {w : Draw G H} {trs : List (Int × List (Int × Rigid3))} {ms : List (Msg G H)} : ∀ {S : IdMap Slice},
    (fillAll w (submapPoses trs) S ms).isSome ↔
      (∀ m, gridded ms m → (∃ s, SliceOf w trs m s) ∧ ∀ old, SMap.get? (toLex m.id) S = some old → Blank old) ∧
      ms.Pairwise (Apart w trs) := by
  induction ms with
  | nil => intro S; simp [fillAll, gridded]
  | cons x ms ih =>
    intro S
    have skip : fill w (submapPoses trs) S x = some S → (∀ m, x = .submap m → ¬ Grid m) →
        ((fillAll w (submapPoses trs) S (x :: ms)).isSome ↔
          (∀ m, gridded (x :: ms) m → (∃ s, SliceOf w trs m s) ∧ ∀ old, SMap.get? (toLex m.id) S = some old → Blank old) ∧
          (x :: ms).Pairwise (Apart w trs)) := by
      intro h1 h2
      have hg : ∀ m, gridded (x :: ms) m ↔ gridded ms m := by
        intro m
        simp only [gridded, List.mem_cons]
        constructor
        · rintro ⟨h | h, h'⟩
          · exact absurd h' (h2 m h.symm)
          · exact ⟨h, h'⟩
        · exact fun h => ⟨Or.inr h.1, h.2⟩
      have e : fillAll w (submapPoses trs) S (x :: ms) = fillAll w (submapPoses trs) S ms := by simp only [fillAll, h1]
      rw [e, ih, List.pairwise_cons]
      simp only [hg]
      constructor
      · exact fun h => ⟨h.1, fun y _ m m' hx _ hm => absurd hm (h2 m hx), h.2⟩
      · exact fun h => ⟨h.1, h.2.2⟩
    cases x with
    | other => exact skip rfl (by simp)
    | submap m =>
      by_cases hm : Grid m
      · constructor
        · intro h
          simp only [fillAll] at h
          split at h
          · cases h
          · rename_i S' hS
            obtain ⟨s, h1, h2, rfl⟩ := (fill_submap hm).1 hS
            obtain ⟨h3, h4⟩ := ih.1 h
            simp only [SMap.get?_put] at h3
            refine ⟨?_, List.pairwise_cons.2 ⟨?_, h4⟩⟩
            · rintro m' ⟨h5, h6⟩
              rcases List.mem_cons.1 h5 with h5 | h5
              · obtain rfl := Msg.submap.inj h5
                exact ⟨⟨s, h1⟩, h2⟩
              · obtain ⟨h7, h8⟩ := h3 m' ⟨h5, h6⟩
                refine ⟨h7, ?_⟩
                by_cases he : m.id = m'.id
                · rw [← he]
                  exact h2
                · rwa [if_neg (fun h : toLex m.id = toLex m'.id => he h)] at h8
            · intro y hy m₁ m' e1 e2 _ hm' he s' hs'
              obtain rfl := Msg.submap.inj e1
              subst e2
              obtain rfl := h1.unique hs'
              exact (h3 m' ⟨hy, hm'⟩).2 s (by rw [if_pos (by rw [he])])
        · rintro ⟨h1, h2⟩
          obtain ⟨⟨s, hs⟩, h3⟩ := h1 m ⟨by simp, hm⟩
          have hf := (fill_submap (S := S) hm).2 ⟨s, hs, h3, rfl⟩
          obtain ⟨h4, h5⟩ := List.pairwise_cons.1 h2
          simp only [fillAll, hf]
          refine ih.2 ⟨?_, h5⟩
          rintro m' ⟨h6, h7⟩
          obtain ⟨h8, h9⟩ := h1 m' ⟨List.mem_cons_of_mem _ h6, h7⟩
          refine ⟨h8, ?_⟩
          intro old ho
          rw [SMap.get?_put] at ho
          split at ho
          · rename_i he
            obtain rfl := Option.some.inj ho
            exact h4 _ h6 m m' rfl rfl hm h7 he s hs
          · exact h9 old ho
      · exact skip (fill_rest hm) (fun m' h => by rw [← Msg.submap.inj h]; exact hm)

/-- C126: the function does not abort if and only if every submap with a grid has a pose in the pose graph message and can be drawn, and
of two records with grids for one submap the first shows nothing. -/
theorem fills_iff {w : Draw G H} {trs : List (Int × List (Int × Rigid3))} {ms : List (Msg G H)} :
    (slicesOf w trs ms).isSome ↔
      (∀ m, .submap m ∈ ms → Grid m → ∃ s, SliceOf w trs m s) ∧ ms.Pairwise (Apart w trs) := by
  unfold slicesOf
  rw [fillAll_iff]
  simp [gridded, SMap.get?]

theorem fillAll_spec {w : Draw G H} {trs : List (Int × List (Int × Rigid3))} {ms : List (Msg G H)} : ∀ {S S' : IdMap Slice},
    fillAll w (submapPoses trs) S ms = some S' → (SMap.Sorted S → SMap.Sorted S') ∧
      ∀ id s, SMap.get? (toLex id) S' = some s ↔
        (∃ pre m post, ms = pre ++ .submap m :: post ∧ Grid m ∧ m.id = id ∧ SliceOf w trs m s ∧
          ∀ m', .submap m' ∈ post → Grid m' → m'.id ≠ id) ∨
        ((∀ m, .submap m ∈ ms → Grid m → m.id ≠ id) ∧ SMap.get? (toLex id) S = some s) := by
  induction ms with
  | nil =>
    intro S S' h
    obtain rfl := Option.some.inj h
    exact ⟨fun h => h, by simp⟩
  | cons x ms ih =>
    intro S S' h
    simp only [fillAll] at h
    split at h
    · cases h
    · rename_i S₁ hS
      obtain ⟨h1, h2⟩ := ih h
      have skip : S₁ = S → (∀ m, x = .submap m → ¬ Grid m) → (SMap.Sorted S → SMap.Sorted S') ∧
          ∀ id s, SMap.get? (toLex id) S' = some s ↔
            (∃ pre m post, x :: ms = pre ++ .submap m :: post ∧ Grid m ∧ m.id = id ∧ SliceOf w trs m s ∧
              ∀ m', .submap m' ∈ post → Grid m' → m'.id ≠ id) ∨
            ((∀ m, .submap m ∈ x :: ms → Grid m → m.id ≠ id) ∧ SMap.get? (toLex id) S = some s) := by
        rintro rfl hx
        refine ⟨h1, fun id s => ?_⟩
        rw [h2]
        constructor
        · rintro (⟨pre, m, post, rfl, h3⟩ | ⟨h3, h4⟩)
          · exact Or.inl ⟨x :: pre, m, post, rfl, h3⟩
          · refine Or.inr ⟨fun m hm hg => ?_, h4⟩
            rcases List.mem_cons.1 hm with hm | hm
            · exact absurd hg (hx m hm.symm)
            · exact h3 m hm hg
        · rintro (⟨pre, m, post, h3, h4⟩ | ⟨h3, h4⟩)
          · cases pre with
            | nil =>
              obtain ⟨rfl, rfl⟩ := List.cons.inj h3
              exact absurd h4.1 (hx m rfl)
            | cons y pre =>
              obtain ⟨rfl, rfl⟩ := List.cons.inj h3
              exact Or.inl ⟨pre, m, post, rfl, h4⟩
          · exact Or.inr ⟨fun m hm => h3 m (List.mem_cons_of_mem _ hm), h4⟩
      cases x with
      | other => exact skip (Option.some.inj hS).symm (by simp)
      | submap m =>
        by_cases hm : Grid m
        · obtain ⟨s₀, h3, -, rfl⟩ := (fill_submap hm).1 hS
          refine ⟨fun h => h1 (SMap.sorted_put h), fun id s => ?_⟩
          rw [h2, SMap.get?_put]
          constructor
          · rintro (⟨pre, m', post, rfl, h4⟩ | ⟨h4, h5⟩)
            · exact Or.inl ⟨.submap m :: pre, m', post, rfl, h4⟩
            · split at h5
              · rename_i he
                obtain rfl := Option.some.inj h5
                exact Or.inl ⟨[], m, ms, rfl, hm, he, h3, h4⟩
              · rename_i he
                refine Or.inr ⟨fun m' hm' hg => ?_, h5⟩
                rcases List.mem_cons.1 hm' with hm' | hm'
                · obtain rfl := Msg.submap.inj hm'
                  exact fun e => he (by rw [e])
                · exact h4 m' hm' hg
          · rintro (⟨pre, m', post, h4, h5, h6, h7, h8⟩ | ⟨h4, h5⟩)
            · cases pre with
              | nil =>
                obtain ⟨e, rfl⟩ := List.cons.inj h4
                obtain rfl := Msg.submap.inj e
                exact Or.inr ⟨h8, by rw [if_pos (by rw [h6]), h3.unique h7]⟩
              | cons y pre =>
                obtain ⟨rfl, rfl⟩ := List.cons.inj h4
                exact Or.inl ⟨pre, m', post, rfl, h5, h6, h7, h8⟩
            · refine Or.inr ⟨fun m' hm' => h4 m' (List.mem_cons_of_mem _ hm'), ?_⟩
              rw [if_neg, h5]
              exact fun e => h4 m (by simp) hm e
        · rw [fill_rest hm] at hS
          exact skip (Option.some.inj hS).symm (fun m' h => by rw [← Msg.submap.inj h]; exact hm)

theorem drawn_all {l : List Slice} (h : ∀ s ∈ l, s.surface.isSome) : drawn l = l := by
  induction l with
  | nil => rfl
  | cons s l ih =>
    obtain ⟨d, hd⟩ := Option.isSome_iff_exists.1 (h s (by simp))
    simp only [drawn, hd]
    rw [ih (fun s hs => h s (List.mem_cons_of_mem _ hs))]

/-- C126: the slices are those of the last record with a grid of each submap, in the order of ids, and all of them are painted. -/
theorem slices_exact {w : Draw G H} {trs : List (Int × List (Int × Rigid3))} {ms : List (Msg G H)} {S : IdMap Slice}
    (h : slicesOf w trs ms = some S) :
    SMap.Sorted S ∧
    (∀ id s, (toLex id, s) ∈ S ↔ ∃ pre m post, ms = pre ++ .submap m :: post ∧ Grid m ∧ m.id = id ∧ SliceOf w trs m s ∧
      ∀ m', .submap m' ∈ post → Grid m' → m'.id ≠ id) ∧
    drawn (S.map (·.2)) = S.map (·.2) := by
  obtain ⟨h1, h2⟩ := fillAll_spec h
  have hs := h1 SMap.sorted_nil
  have h3 : ∀ id s, (toLex id, s) ∈ S ↔ ∃ pre m post, ms = pre ++ .submap m :: post ∧ Grid m ∧ m.id = id ∧ SliceOf w trs m s ∧
      ∀ m', .submap m' ∈ post → Grid m' → m'.id ≠ id := by
    intro id s
    have : (toLex id, s) ∈ S ↔ SMap.get? (toLex id) S = some s := ⟨SMap.get?_of_mem hs, SMap.mem_of_get?⟩
    rw [this, h2]
    simp [SMap.get?]
  refine ⟨hs, h3, drawn_all ?_⟩
  intro s hm
  obtain ⟨⟨id, s'⟩, he, rfl⟩ := List.mem_map.1 hm
  obtain ⟨_, m, _, _, _, _, ⟨pose, t, _, _, h4⟩, _⟩ := (h3 (ofLex id) s').1 he
  simp only [fillSlice, Option.bind_eq_bind, Option.bind_eq_some_iff, Option.some.injEq] at h4
  obtain ⟨px, _, rfl⟩ := h4
  rfl

/-! ### Saved maps -/

theorem last_entry {l : List (Id × Rigid3)} {id : Id} (h : ∃ e ∈ l, e.1 = id) :
    ∃ q pre post, l = pre ++ (id, q) :: post ∧ ∀ e ∈ post, e.1 ≠ id := by
  induction l with
  | nil => obtain ⟨e, he, -⟩ := h; cases he
  | cons x l ih =>
    by_cases hl : ∃ e ∈ l, e.1 = id
    · obtain ⟨q, pre, post, rfl, h'⟩ := ih hl
      exact ⟨q, x :: pre, post, rfl, h'⟩
    · obtain ⟨e, he, rfl⟩ := h
      rcases List.mem_cons.1 he with rfl | he
      · exact ⟨e.2, [], l, rfl, fun y hy e' => hl ⟨y, hy, e'⟩⟩
      · exact absurd ⟨e, he, rfl⟩ hl

theorem mem_entries {pose : Id → Rigid3} {p : Proto P} {e : Id × Rigid3} :
    e ∈ entries (withPoses pose p) ↔ HasSubmap p.trajectories e.1 ∧ e.2 = pose e.1 := by
  obtain ⟨⟨t, i⟩, q⟩ := e
  simp only [entries, withPoses, List.mem_flatMap, List.mem_map, HasSubmap]
  constructor
  · rintro ⟨_, ⟨tr, h1, rfl⟩, x, h2, h3⟩
    obtain ⟨i', h4, rfl⟩ := List.mem_map.1 h2
    simp only [Prod.mk.injEq] at h3
    obtain ⟨⟨rfl, rfl⟩, rfl⟩ := h3
    exact ⟨⟨tr, h1, rfl, h4⟩, rfl⟩
  · rintro ⟨⟨tr, h1, rfl, h2⟩, rfl⟩
    exact ⟨_, ⟨tr, h1, rfl⟩, _, List.mem_map.2 ⟨i, h2, rfl⟩, rfl⟩

theorem poseOf_iff {pose : Id → Rigid3} {p : Proto P} {id : Id} {q : Rigid3} :
    PoseOf (withPoses pose p) id q ↔ HasSubmap p.trajectories id ∧ q = pose id := by
  constructor
  · rintro ⟨pre, post, h, -⟩
    exact mem_entries.1 (by rw [h]; simp : (id, q) ∈ entries (withPoses pose p))
  · rintro ⟨h, rfl⟩
    obtain ⟨q, pre, post, h1, h2⟩ := last_entry ⟨(id, pose id), mem_entries.2 ⟨h, rfl⟩, rfl⟩
    have : (id, q) ∈ entries (withPoses pose p) := by rw [h1]; simp
    obtain ⟨-, h3⟩ := mem_entries.1 this
    simp only at h3
    exact ⟨pre, post, by rw [← h3]; exact h1, h2⟩

/-- The file has a record for the submap. -/
def Written (inc : Bool) (fin : Nat → Bool) (g : State P) (id : Id) : Prop :=
  ∃ sm, at? g.submaps id = some sm ∧ (inc = true ∨ fin sm.ptr = true)

theorem not_leftOut {inc : Bool} {fin : Nat → Bool} {sm : Submap} : ¬ LeftOut inc fin sm ↔ inc = true ∨ fin sm.ptr = true := by
  unfold LeftOut
  cases inc <;> cases fin sm.ptr <;> simp

/-- What comes after the submaps has no submaps. -/
def NoSubmaps (rest : List (Record P O)) : Prop := ∀ id, .submap id ∉ rest

theorem mem_messages {inc : Bool} {fin : Nat → Bool} {g : State P} (hg : Wf g) {content : Id → SubmapMsg G H}
    {rest : List (Record P O)} (hr : NoSubmaps rest) {m : SubmapMsg G H} :
    .submap m ∈ (submapRecords inc fin (flat g.submaps) ++ rest).map (message content) ↔
      Written inc fin g m.id ∧ m = { content m.id with id := m.id } := by
  simp only [List.map_append, List.mem_append, List.mem_map, submapRecords, List.mem_filter]
  constructor
  · rintro (⟨_, ⟨⟨id, sm⟩, ⟨h1, h2⟩, rfl⟩, h3⟩ | ⟨r, h1, h2⟩)
    · obtain rfl := Msg.submap.inj h3
      refine ⟨⟨sm, (mem_flat_iff hg.submaps).1 h1, ?_⟩, rfl⟩
      cases inc <;> cases hf : fin sm.ptr <;> simp [hf] at h2 ⊢
    · cases r <;> first | (exact absurd h1 (hr _)) | (simp [message] at h2)
  · rintro ⟨⟨sm, h1, h2⟩, h3⟩
    refine Or.inl ⟨.submap m.id, ⟨(m.id, sm), ⟨(mem_flat_iff hg.submaps).2 h1, ?_⟩, rfl⟩, ?_⟩
    · rcases h2 with h2 | h2 <;> simp [h2]
    · simp only [message]
      rw [← h3]

theorem messages_apart {inc : Bool} {fin : Nat → Bool} {g : State P} (hg : Wf g) {content : Id → SubmapMsg G H}
    {rest : List (Record P O)} (hr : NoSubmaps rest) :
    ((submapRecords inc fin (flat g.submaps) ++ rest).map (message content)).Pairwise
      (fun a b => ∀ m m' : SubmapMsg G H, a = Msg.submap m → b = Msg.submap m' → m.id ≠ m'.id) := by
  rw [List.map_append, List.pairwise_append]
  have hrest : ∀ a ∈ rest.map (message content), ∀ m, a ≠ .submap m := by
    intro a ha m h
    obtain ⟨r, h1, rfl⟩ := List.mem_map.1 ha
    cases r <;> first | (exact absurd h1 (hr _)) | (simp [message] at h)
  refine ⟨?_, List.pairwise_of_forall_mem_list fun a ha b _ m m' h => absurd h (hrest a ha m),
    fun a _ b hb m m' _ h => absurd h (hrest b hb m')⟩
  rw [submapRecords, List.map_map, List.pairwise_map]
  refine ((List.pairwise_map.1 (Serialization.flat_ids_nodup hg.submaps)).filter _).imp ?_
  rintro a b h m m' h1 h2
  obtain rfl := Msg.submap.inj h1
  obtain rfl := Msg.submap.inj h2
  exact h

theorem shows_id {w : Draw G H} {pose : Rigid3} {m : SubmapMsg G H} {t : Texture} {id : Id} :
    Shows w pose { m with id := id } t ↔ Shows w pose m t := Iff.rfl

theorem grid_id {m : SubmapMsg G H} {id : Id} : Grid { m with id := id } ↔ Grid m := Iff.rfl

/-- The slice of a saved submap at its global pose. -/
def SavedSlice (w : Draw G H) (pose : Rigid3) (m : SubmapMsg G H) (s : Slice) : Prop :=
  ∃ t, Shows w pose m t ∧ fillSlice pose t = some s

section

variable {inc : Bool} {fin fin' : Nat → Bool} {w : Draw G H} {pose : Id → Rigid3} {content : Id → SubmapMsg G H}
  {rest : List (Record P O)}

theorem sliceOf_saved {g₁ g₂ g₃ : State P} (h₁ : Wf g₁) (h₃ : Wf g₃) {id : Id} {s : Slice} :
    SliceOf w (withPoses pose (toProto inc fin g₁ g₂ g₃)) { content id with id := id } s ↔
      Written inc fin g₁ id ∧ SavedSlice w (pose id) (content id) s := by
  simp only [SliceOf, poseOf_iff, (PoseGraph.proto_exact h₁ h₃).2.1, not_leftOut]
  constructor
  · rintro ⟨_, t, ⟨h1, rfl⟩, h2, h3⟩
    exact ⟨h1, t, h2, h3⟩
  · rintro ⟨h1, t, h2, h3⟩
    exact ⟨_, t, ⟨h1, rfl⟩, h2, h3⟩

/-- C126: a map is saved while the pose graph goes on: `ToProto` reads it in three states, the submaps are read in a fourth, and submaps
may be finished meanwhile. The slices can be made if and only if every submap written with a grid was written to the pose graph message,
too, and can be drawn. -/
theorem torn_iff {as as₂ as₃ as₄ : List (Act P)} {g₁ g₂ g₃ g₄ : State P} (e₁ : Exec {} as g₁) (e₂ : Exec g₁ as₂ g₂)
    (e₃ : Exec g₂ as₃ g₃) (e₄ : Exec g₃ as₄ g₄) (hr : NoSubmaps rest) :
    (slicesOf w (withPoses pose (toProto inc fin g₁ g₂ g₃))
      ((submapRecords inc fin' (flat g₄.submaps) ++ rest).map (message content))).isSome ↔
    ∀ id, Written inc fin' g₄ id → Grid (content id) →
      Written inc fin g₁ id ∧ ∃ s, SavedSlice w (pose id) (content id) s := by
  have i₁ := PoseGraph.exec_integrity e₁ PoseGraph.Integrity.init
  have i₂ := PoseGraph.exec_integrity e₂ i₁
  have i₃ := PoseGraph.exec_integrity e₃ i₂
  have i₄ := PoseGraph.exec_integrity e₄ i₃
  rw [fills_iff]
  constructor
  · rintro ⟨h, -⟩ id h1 h2
    obtain ⟨s, hs⟩ := h { content id with id := id } ((mem_messages i₄.wf hr).2 ⟨h1, rfl⟩) h2
    obtain ⟨h3, h4⟩ := (sliceOf_saved i₁.wf i₃.wf).1 hs
    exact ⟨h3, s, h4⟩
  · intro h
    refine ⟨?_, (messages_apart i₄.wf hr).imp fun hab m m' h1 h2 _ _ h3 => absurd h3 (hab m m' h1 h2)⟩
    intro m hm hg
    obtain ⟨h1, h2⟩ := (mem_messages i₄.wf hr).1 hm
    rw [h2] at hg ⊢
    obtain ⟨h3, s, h4⟩ := h m.id h1 hg
    exact ⟨s, (sliceOf_saved i₁.wf i₃.wf).2 ⟨h3, h4⟩⟩

/-- C126: the slices then are those of the submaps written with grids, each at its global pose. -/
theorem torn_exact {as as₂ as₃ as₄ : List (Act P)} {g₁ g₂ g₃ g₄ : State P} (e₁ : Exec {} as g₁) (e₂ : Exec g₁ as₂ g₂)
    (e₃ : Exec g₂ as₃ g₃) (e₄ : Exec g₃ as₄ g₄) (hr : NoSubmaps rest) {S : IdMap Slice}
    (h : slicesOf w (withPoses pose (toProto inc fin g₁ g₂ g₃))
      ((submapRecords inc fin' (flat g₄.submaps) ++ rest).map (message content)) = some S) (id : Id) (s : Slice) :
    (toLex id, s) ∈ S ↔ Written inc fin' g₄ id ∧ Grid (content id) ∧ SavedSlice w (pose id) (content id) s := by
  have i₁ := PoseGraph.exec_integrity e₁ PoseGraph.Integrity.init
  have i₂ := PoseGraph.exec_integrity e₂ i₁
  have i₃ := PoseGraph.exec_integrity e₃ i₂
  have i₄ := PoseGraph.exec_integrity e₄ i₃
  have hsome := (torn_iff e₁ e₂ e₃ e₄ hr).1 (by rw [h]; rfl)
  rw [(slices_exact h).2.1]
  constructor
  · rintro ⟨pre, m, post, h1, h2, rfl, h3, -⟩
    have hm : Msg.submap m ∈ (submapRecords inc fin' (flat g₄.submaps) ++ rest).map (message content) := by rw [h1]; simp
    obtain ⟨h4, h5⟩ := (mem_messages i₄.wf hr).1 hm
    rw [h5] at h2 h3
    exact ⟨h4, h2, ((sliceOf_saved i₁.wf i₃.wf).1 h3).2⟩
  · rintro ⟨h1, h2, h3⟩
    have hm := (mem_messages (content := content) i₄.wf hr (m := { content id with id := id })).2 ⟨h1, rfl⟩
    obtain ⟨pre, post, hp⟩ := List.append_of_mem hm
    refine ⟨pre, _, post, hp, h2, rfl, (sliceOf_saved i₁.wf i₃.wf).2 ⟨(hsome id h1 h2).1, h3⟩, ?_⟩
    have ha := messages_apart (inc := inc) (fin := fin') (content := content) i₄.wf hr
    rw [hp, List.pairwise_append, List.pairwise_cons] at ha
    exact fun m' hm' _ e => ha.2.1.1 _ hm' _ m' rfl rfl e.symm

end

/-- C126: for every reachable pose graph, whatever was saved while nothing else happened gives one slice for each saved submap with a
grid, at its global pose, provided these can be drawn. -/
theorem saved_fills {inc : Bool} {s : Snapshot P O} {as : List (Act P)} (h : Exec {} as s.graph) {rs : List (Record P O)}
    (hs : save inc s = some rs) {w : Draw G H} {pose : Id → Rigid3} {content : Id → SubmapMsg G H}
    (hd : ∀ id ∈ kept inc s, Grid (content id) → ∃ t, Shows w (pose id) (content id) t ∧ (fillSlice (pose id) t).isSome) :
    ∃ S, slicesOf w (withPoses pose (toProto inc s.fin s.graph s.graph s.graph)) ((rs.drop 3).map (message content)) = some S ∧
      ∀ id sl, (toLex id, sl) ∈ S ↔ id ∈ kept inc s ∧ Grid (content id) ∧
        ∃ t, Shows w (pose id) (content id) t ∧ fillSlice (pose id) t = some sl := by
  have wf := (PoseGraph.exec_integrity h PoseGraph.Integrity.init).wf
  have hk : ∀ id, Written inc s.fin s.graph id ↔ id ∈ kept inc s := by
    intro id
    simp only [Written, kept, List.mem_map, List.mem_filter, Bool.or_eq_true]
    constructor
    · rintro ⟨sm, h1, h2⟩
      exact ⟨(id, sm), ⟨(mem_flat_iff wf.submaps).2 h1, h2⟩, rfl⟩
    · rintro ⟨⟨id, sm⟩, ⟨h1, h2⟩, rfl⟩
      exact ⟨sm, (mem_flat_iff wf.submaps).1 h1, h2⟩
  unfold save at hs
  split at hs
  · cases hs
  · rename_i os hos
    obtain rfl := Option.some.inj hs
    simp only [List.append_assoc, List.cons_append, List.nil_append, List.drop_succ_cons, List.drop_zero]
    generalize hrest : ((flat s.graph.nodes).map (fun e => (Record.node e.1 : Record P O)) ++
      (s.trajectoryData.map .trajectoryData ++ (s.imu.map .imu ++ (s.odometry.map .odometry ++
      (s.fixedFrame.map .fixedFrame ++ s.landmarks.map .landmark))))) = rest
    have hr : NoSubmaps rest := by
      intro id hid
      rw [← hrest] at hid
      simp at hid
    have hsome := (torn_iff (w := w) (pose := pose) (content := content) (inc := inc) (fin := s.fin) (fin' := s.fin)
      h .nil .nil .nil hr).2 (by
        intro id h1 h2
        obtain ⟨t, h3, h4⟩ := hd id ((hk id).1 h1) h2
        obtain ⟨sl, h5⟩ := Option.isSome_iff_exists.1 h4
        exact ⟨h1, sl, t, h3, h5⟩)
    obtain ⟨S, hS⟩ := Option.isSome_iff_exists.1 hsome
    refine ⟨S, hS, fun id sl => ?_⟩
    rw [torn_exact h .nil .nil .nil hr hS, hk]
    rfl

/-! ### Where a map saved while the pose graph goes on cannot be read -/

/-- A node with one submap. -/
def firstNode : List (Act Nat) := [.addNode 0 [3] false]

/-- C126: between `ToProto` and `GetAllSubmapData`, a node with a new submap comes. Neither the slices can be made nor can the state be
loaded. -/
theorem torn_aborts : ∃ (g g' : State Nat), Exec {} firstNode g ∧ Exec g [.addNode 0 [3, 4] false] g' ∧
    (∀ (G H : Type) (w : Draw G H) (pose : Id → Rigid3) (content : Id → SubmapMsg G H), Grid (content (0, 1)) →
      slicesOf w (withPoses pose (toProto true (fun _ => false) g g g))
        ((submapRecords (P := Nat) (O := Nat) true (fun _ => false) (flat g'.submaps)).map (message content)) = none) ∧
    Serialization.load (O := Nat) 0 false false ([.header 2, .poseGraph (toProto true (fun _ => false) g g g), .options [100]] ++
      submapRecords true (fun _ => false) (flat g'.submaps)) = none := by
  refine ⟨(runs {} firstNode).get rfl, (runs ((runs {} firstNode).get rfl) [.addNode 0 [3, 4] false]).get rfl,
    runs_exec (Option.some_get _).symm, runs_exec (Option.some_get _).symm, ?_, rfl⟩
  intro G H w pose content hg
  have := torn_iff (w := w) (pose := pose) (content := content) (inc := true) (fin := fun _ => false) (fin' := fun _ => false)
    (rest := ([] : List (Record Nat Nat))) (runs_exec (Option.some_get (rfl : (runs {} firstNode).isSome = true)).symm) .nil .nil
    (runs_exec (Option.some_get (rfl : (runs ((runs {} firstNode).get rfl) [.addNode 0 [3, 4] false]).isSome = true)).symm)
    (by simp [NoSubmaps])
  rw [List.append_nil] at this
  rw [← Option.not_isSome_iff_eq_none, this]
  intro h
  obtain ⟨⟨sm, h1, -⟩, -⟩ := h (0, 1) ⟨_, rfl, Or.inl rfl⟩ hg
  exact absurd h1 (by rw [show at? ((runs {} firstNode).get rfl).submaps (0, 1) = none from rfl]; simp)

/-- C126: without unfinished submaps, it is enough that a submap is finished meanwhile; the pose graph need not change. -/
theorem finished_meanwhile_aborts : ∃ (g : State Nat), Exec {} firstNode g ∧
    (∀ (G H : Type) (w : Draw G H) (pose : Id → Rigid3) (content : Id → SubmapMsg G H), Grid (content (0, 0)) →
      slicesOf w (withPoses pose (toProto false (fun _ => false) g g g))
        ((submapRecords (P := Nat) (O := Nat) false (fun _ => true) (flat g.submaps)).map (message content)) = none) ∧
    Serialization.load (O := Nat) 0 false false ([.header 2, .poseGraph (toProto false (fun _ => false) g g g), .options [100]] ++
      submapRecords false (fun _ => true) (flat g.submaps)) = none := by
  refine ⟨(runs {} firstNode).get rfl, runs_exec (Option.some_get _).symm, ?_, rfl⟩
  intro G H w pose content hg
  have := torn_iff (w := w) (pose := pose) (content := content) (inc := false) (fin := fun _ => false) (fin' := fun _ => true)
    (rest := ([] : List (Record Nat Nat))) (runs_exec (Option.some_get (rfl : (runs {} firstNode).isSome = true)).symm) .nil .nil
    .nil (by simp [NoSubmaps])
  rw [List.append_nil] at this
  rw [← Option.not_isSome_iff_eq_none, this]
  intro h
  obtain ⟨⟨sm, -, h1⟩, -⟩ := h (0, 0) ⟨_, rfl, Or.inr rfl⟩ hg
  simp at h1

/-! ### Examples -/

/-- A texture with one pixel for any grid. -/
noncomputable def dot : Draw Unit Unit :=
  ⟨fun _ => some ⟨1, 1, 0, [5, 6], Rigid3.identity⟩, fun _ _ => some ⟨1, 1, 0, [7, 8], Rigid3.identity⟩⟩

/-- A file with a 2D submap, a 3D submap and one without grids, which has no pose. -/
def exFile : List (Msg Unit Unit) :=
  [.submap ⟨(1, 0), some (some ()), none⟩, .other, .submap ⟨(0, 4), none, some ⟨some (), some ()⟩⟩, .submap ⟨(3, 3), some none, none⟩]

def exPoses : List (Int × List (Int × Rigid3)) := [(1, [(0, Rigid3.identity)]), (0, [(4, Rigid3.identity), (5, Rigid3.identity)])]

/-- Two slices, of submaps (0, 4) and (1, 0). -/
example : (slicesOf dot exPoses exFile).map (fun S => S.map (fun e => (ofLex e.1, e.2.surface))) =
    some [((0, 4), some [0x0807ff00]), ((1, 0), some [0x0605ff00])] := by rfl

/-- A second record of submap (1, 0) makes it abort. -/
example : slicesOf dot exPoses (exFile ++ [.submap ⟨(1, 0), some (some ()), none⟩]) = none := by rfl

/-- A 3D submap without grids that also has a 2D grid is undefined behavior. -/
example : slicesOf dot exPoses [.submap ⟨(1, 0), some (some ()), some ⟨none, none⟩⟩] = none := by rfl

/-- A state with two trajectories saved without submap (2, 0), which is not finished: `saved_fills` applies to it. -/
example : ((runs {} Serialization.demo).bind (fun g => (save false ⟨g, fun p => p == 7, [100, 101, 102], [0, 2], [2], [], [], [0]⟩).bind
    (fun rs => (slicesOf dot (withPoses (fun _ => Rigid3.identity) (toProto false (fun p => p == 7) g g g))
      ((rs.drop 3).map (message fun id => ⟨id, some (some ()), none⟩))).map (fun S => S.map (fun e => ofLex e.1))))) =
    some [(0, 3)] := by rfl

end Verif.MapSlices
