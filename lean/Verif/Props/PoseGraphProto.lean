import Verif.Props.PoseGraphTrim
import Verif.Props.TrajectoryStates

/-!
# The serialized pose graph (C44)
-/

namespace Verif.PoseGraph

open MapById (Id Map WF at? append insert trim assign contains sizeOfTrajectoryOrZero flat)

variable {P : Type}

/-- The submap with this id is serialized. -/
def HasSubmap (l : List TrajectoryProto) (id : Id) : Prop := ∃ e ∈ l, e.id = id.1 ∧ id.2 ∈ e.submaps

/-- The node with this id is serialized. -/
def HasNode (l : List TrajectoryProto) (id : Id) : Prop := ∃ e ∈ l, e.id = id.1 ∧ id.2 ∈ e.nodes

/-- Every trajectory has at most one entry. -/
def Unique (l : List TrajectoryProto) : Prop := (l.map (·.id)).Nodup

theorem unique_trajectory {l : List TrajectoryProto} (h : Unique l) (t : Int) : Unique (protoTrajectory l t) := by
  unfold protoTrajectory
  split
  · exact h
  · rename_i hn
    unfold Unique at h ⊢
    rw [List.map_append, List.map_singleton, List.nodup_append]
    refine ⟨h, by simp, ?_⟩
    intro a ha b hb
    simp only [List.mem_singleton] at hb
    subst hb
    rintro rfl
    exact hn ha

theorem modify_ids {l : List TrajectoryProto} {t : Int} {f : TrajectoryProto → TrajectoryProto}
    (hf : ∀ e, (f e).id = e.id) : (protoModify l t f).map (·.id) = (protoTrajectory l t).map (·.id) := by
  unfold protoModify
  rw [List.map_map]
  apply List.map_congr_left
  intro e _
  simp only [Function.comp]
  split
  · exact hf e
  · rfl

theorem unique_modify {l : List TrajectoryProto} (h : Unique l) {t : Int} {f : TrajectoryProto → TrajectoryProto}
    (hf : ∀ e, (f e).id = e.id) : Unique (protoModify l t f) := by
  unfold Unique
  rw [modify_ids hf]
  exact unique_trajectory h t

theorem mem_trajectory {l : List TrajectoryProto} {t : Int} {e : TrajectoryProto} (h : e ∈ protoTrajectory l t) :
    e ∈ l ∨ e = { id := t } := by
  unfold protoTrajectory at h
  split at h
  · exact Or.inl h
  · simpa using h

theorem mem_trajectory_of {l : List TrajectoryProto} {t : Int} {e : TrajectoryProto} (h : e ∈ l) :
    e ∈ protoTrajectory l t := by
  unfold protoTrajectory
  split
  · exact h
  · exact List.mem_append_left _ h

theorem trajectory_exists (l : List TrajectoryProto) (t : Int) : ∃ e ∈ protoTrajectory l t, e.id = t := by
  unfold protoTrajectory
  split
  · rename_i h
    obtain ⟨e, he, h⟩ := List.mem_map.1 h
    exact ⟨e, he, h⟩
  · exact ⟨{ id := t }, by simp, rfl⟩

theorem hasSubmap_trajectory {l : List TrajectoryProto} {t : Int} {id : Id} :
    HasSubmap (protoTrajectory l t) id ↔ HasSubmap l id := by
  constructor
  · rintro ⟨e, he, h1, h2⟩
    rcases mem_trajectory he with h | rfl
    · exact ⟨e, h, h1, h2⟩
    · simp at h2
  · rintro ⟨e, he, h⟩
    exact ⟨e, mem_trajectory_of he, h⟩

theorem hasNode_trajectory {l : List TrajectoryProto} {t : Int} {id : Id} :
    HasNode (protoTrajectory l t) id ↔ HasNode l id := by
  constructor
  · rintro ⟨e, he, h1, h2⟩
    rcases mem_trajectory he with h | rfl
    · exact ⟨e, h, h1, h2⟩
    · simp at h2
  · rintro ⟨e, he, h⟩
    exact ⟨e, mem_trajectory_of he, h⟩

theorem mem_modify {l : List TrajectoryProto} {t : Int} {f : TrajectoryProto → TrajectoryProto} {e : TrajectoryProto} :
    e ∈ protoModify l t f ↔ ∃ e' ∈ protoTrajectory l t, (if e'.id = t then f e' else e') = e := by
  unfold protoModify
  rw [List.mem_map]

theorem hasSubmap_addSubmap {l : List TrajectoryProto} {t i : Int} {id : Id} :
    HasSubmap (protoModify l t (fun p => { p with submaps := p.submaps ++ [i] })) id ↔ HasSubmap l id ∨ id = (t, i) := by
  rw [← hasSubmap_trajectory (l := l) (t := t)]
  constructor
  · rintro ⟨e, he, h1, h2⟩
    obtain ⟨e', he', rfl⟩ := mem_modify.1 he
    split at h1
    · rename_i ht
      rw [if_pos ht] at h2
      dsimp only at h1 h2
      rcases List.mem_append.1 h2 with h2 | h2
      · exact Or.inl ⟨e', he', h1, h2⟩
      · exact Or.inr (Prod.ext (h1.symm.trans ht) (by simpa using h2))
    · rename_i ht
      rw [if_neg ht] at h2
      exact Or.inl ⟨e', he', h1, h2⟩
  · rintro (⟨e, he, h1, h2⟩ | rfl)
    · refine ⟨_, mem_modify.2 ⟨e, he, rfl⟩, ?_⟩
      split
      · exact ⟨h1, List.mem_append_left _ h2⟩
      · exact ⟨h1, h2⟩
    · obtain ⟨e, he, h⟩ := trajectory_exists l t
      refine ⟨_, mem_modify.2 ⟨e, he, rfl⟩, ?_⟩
      rw [if_pos h]
      exact ⟨h, by simp⟩

theorem hasNode_addSubmap {l : List TrajectoryProto} {t i : Int} {id : Id} :
    HasNode (protoModify l t (fun p => { p with submaps := p.submaps ++ [i] })) id ↔ HasNode l id := by
  rw [← hasNode_trajectory (l := l) (t := t)]
  constructor
  · rintro ⟨e, he, h1, h2⟩
    obtain ⟨e', he', rfl⟩ := mem_modify.1 he
    split at h1 <;> rename_i ht
    · rw [if_pos ht] at h2
      exact ⟨e', he', h1, h2⟩
    · rw [if_neg ht] at h2
      exact ⟨e', he', h1, h2⟩
  · rintro ⟨e, he, h1, h2⟩
    refine ⟨_, mem_modify.2 ⟨e, he, rfl⟩, ?_⟩
    split <;> exact ⟨h1, h2⟩

theorem hasNode_addNode {l : List TrajectoryProto} {t i : Int} {id : Id} :
    HasNode (protoModify l t (fun p => { p with nodes := p.nodes ++ [i] })) id ↔ HasNode l id ∨ id = (t, i) := by
  rw [← hasNode_trajectory (l := l) (t := t)]
  constructor
  · rintro ⟨e, he, h1, h2⟩
    obtain ⟨e', he', rfl⟩ := mem_modify.1 he
    split at h1
    · rename_i ht
      rw [if_pos ht] at h2
      dsimp only at h1 h2
      rcases List.mem_append.1 h2 with h2 | h2
      · exact Or.inl ⟨e', he', h1, h2⟩
      · exact Or.inr (Prod.ext (h1.symm.trans ht) (by simpa using h2))
    · rename_i ht
      rw [if_neg ht] at h2
      exact Or.inl ⟨e', he', h1, h2⟩
  · rintro (⟨e, he, h1, h2⟩ | rfl)
    · refine ⟨_, mem_modify.2 ⟨e, he, rfl⟩, ?_⟩
      split
      · exact ⟨h1, List.mem_append_left _ h2⟩
      · exact ⟨h1, h2⟩
    · obtain ⟨e, he, h⟩ := trajectory_exists l t
      refine ⟨_, mem_modify.2 ⟨e, he, rfl⟩, ?_⟩
      rw [if_pos h]
      exact ⟨h, by simp⟩

theorem hasSubmap_addNode {l : List TrajectoryProto} {t i : Int} {id : Id} :
    HasSubmap (protoModify l t (fun p => { p with nodes := p.nodes ++ [i] })) id ↔ HasSubmap l id := by
  rw [← hasSubmap_trajectory (l := l) (t := t)]
  constructor
  · rintro ⟨e, he, h1, h2⟩
    obtain ⟨e', he', rfl⟩ := mem_modify.1 he
    split at h1 <;> rename_i ht
    · rw [if_pos ht] at h2
      exact ⟨e', he', h1, h2⟩
    · rw [if_neg ht] at h2
      exact ⟨e', he', h1, h2⟩
  · rintro ⟨e, he, h1, h2⟩
    refine ⟨_, mem_modify.2 ⟨e, he, rfl⟩, ?_⟩
    split <;> exact ⟨h1, h2⟩

/-- A submap is left out: unfinished submaps are not asked for and it is one. -/
def LeftOut (includeUnfinished : Bool) (fin : Nat → Bool) (sm : Submap) : Prop :=
  includeUnfinished = false ∧ fin sm.ptr = false

theorem protoSubmaps_spec {inc : Bool} {fin : Nat → Bool} {es : List (Id × Submap)} :
    ∀ {l : List TrajectoryProto} {u : List Id}, Unique l →
    Unique (protoSubmaps inc fin es l u).1 ∧
    (∀ id, HasSubmap (protoSubmaps inc fin es l u).1 id ↔
      HasSubmap l id ∨ ∃ sm, (id, sm) ∈ es ∧ ¬ LeftOut inc fin sm) ∧
    (∀ id, HasNode (protoSubmaps inc fin es l u).1 id ↔ HasNode l id) ∧
    (∀ id, id ∈ (protoSubmaps inc fin es l u).2 ↔ id ∈ u ∨ ∃ sm, (id, sm) ∈ es ∧ LeftOut inc fin sm) := by
  induction es with
  | nil => intro l u h; simp [protoSubmaps, h]
  | cons e es ih =>
    intro l u h
    obtain ⟨i, sm⟩ := e
    unfold protoSubmaps
    split
    · rename_i hl
      obtain ⟨a1, a2, a3, a4⟩ := ih (l := protoTrajectory l i.1) (u := i :: u) (unique_trajectory h _)
      refine ⟨a1, ?_, ?_, ?_⟩
      · intro id
        rw [a2, hasSubmap_trajectory]
        constructor
        · rintro (h | ⟨sm', h, h'⟩)
          · exact Or.inl h
          · exact Or.inr ⟨sm', by simp [h], h'⟩
        · rintro (h | ⟨sm', h, h'⟩)
          · exact Or.inl h
          · rcases List.mem_cons.1 h with h | h
            · obtain ⟨rfl, rfl⟩ := Prod.mk.inj h
              exact absurd hl h'
            · exact Or.inr ⟨sm', h, h'⟩
      · intro id; rw [a3, hasNode_trajectory]
      · intro id
        rw [a4]
        constructor
        · rintro (h | ⟨sm', h, h'⟩)
          · rcases List.mem_cons.1 h with rfl | h
            · exact Or.inr ⟨sm, by simp, hl⟩
            · exact Or.inl h
          · exact Or.inr ⟨sm', by simp [h], h'⟩
        · rintro (h | ⟨sm', h, h'⟩)
          · exact Or.inl (by simp [h])
          · rcases List.mem_cons.1 h with h | h
            · obtain ⟨rfl, rfl⟩ := Prod.mk.inj h
              exact Or.inl (by simp)
            · exact Or.inr ⟨sm', h, h'⟩
    · rename_i hl
      obtain ⟨a1, a2, a3, a4⟩ := ih (u := u)
        (l := protoModify l i.1 (fun p => { p with submaps := p.submaps ++ [i.2] })) (unique_modify h (fun _ => rfl))
      refine ⟨a1, ?_, ?_, ?_⟩
      · intro id
        rw [a2, hasSubmap_addSubmap]
        constructor
        · rintro ((h | h) | ⟨sm', h, h'⟩)
          · exact Or.inl h
          · exact Or.inr ⟨sm, by rw [h]; simp, hl⟩
          · exact Or.inr ⟨sm', by simp [h], h'⟩
        · rintro (h | ⟨sm', h, h'⟩)
          · exact Or.inl (Or.inl h)
          · rcases List.mem_cons.1 h with h | h
            · obtain ⟨rfl, rfl⟩ := Prod.mk.inj h
              exact Or.inl (Or.inr rfl)
            · exact Or.inr ⟨sm', h, h'⟩
      · intro id; rw [a3, hasNode_addSubmap]
      · intro id
        rw [a4]
        constructor
        · rintro (h | ⟨sm', h, h'⟩)
          · exact Or.inl h
          · exact Or.inr ⟨sm', by simp [h], h'⟩
        · rintro (h | ⟨sm', h, h'⟩)
          · exact Or.inl h
          · rcases List.mem_cons.1 h with h | h
            · obtain ⟨rfl, rfl⟩ := Prod.mk.inj h
              exact absurd h' hl
            · exact Or.inr ⟨sm', h, h'⟩

theorem protoNodes_spec {es : List (Id × Unit)} : ∀ {l : List TrajectoryProto}, Unique l →
    Unique (protoNodes es l) ∧ (∀ id, HasSubmap (protoNodes es l) id ↔ HasSubmap l id) ∧
    (∀ id, HasNode (protoNodes es l) id ↔ HasNode l id ∨ id ∈ es.map (·.1)) := by
  induction es with
  | nil => intro l h; simp [protoNodes, h]
  | cons e es ih =>
    intro l h
    unfold protoNodes
    obtain ⟨a1, a2, a3⟩ := ih (l := protoModify l e.1.1 (fun p => { p with nodes := p.nodes ++ [e.1.2] }))
      (unique_modify h (fun _ => rfl))
    refine ⟨a1, ?_, ?_⟩
    · intro id; rw [a2, hasSubmap_addNode]
    · intro id
      rw [a3, hasNode_addNode, List.map_cons, List.mem_cons, or_assoc]

theorem mem_flat_iff {D : Type} {m : Map D} (hm : WF m) {id : Id} {d : D} : (id, d) ∈ flat m ↔ at? m id = some d :=
  (MapById.at?_iff_mem hm).symm

theorem mem_flat_ids {D : Type} {m : Map D} (hm : WF m) {id : Id} : id ∈ (flat m).map (·.1) ↔ (at? m id).isSome := by
  rw [List.mem_map, Option.isSome_iff_exists]
  constructor
  · rintro ⟨e, he, rfl⟩
    exact ⟨e.2, (mem_flat_iff hm).1 he⟩
  · rintro ⟨d, hd⟩
    exact ⟨(id, d), (mem_flat_iff hm).2 hd, rfl⟩

/-- C44: exactly the nodes of the third snapshot and the submaps of the first one that are not left out are
serialized, every trajectory has one entry, and the constraints are those of the second snapshot without those
of submaps left out.  For all snapshots, equal or not. -/
theorem proto_exact {inc : Bool} {fin : Nat → Bool} {s₁ s₂ s₃ : State P} (h₁ : Wf s₁) (h₃ : Wf s₃) :
    ((toProto inc fin s₁ s₂ s₃).trajectories.map (·.id)).Nodup ∧
    (∀ id, HasSubmap (toProto inc fin s₁ s₂ s₃).trajectories id ↔
      ∃ sm, at? s₁.submaps id = some sm ∧ ¬ LeftOut inc fin sm) ∧
    (∀ id, HasNode (toProto inc fin s₁ s₂ s₃).trajectories id ↔ (at? s₃.nodes id).isSome) ∧
    (∀ c, c ∈ (toProto inc fin s₁ s₂ s₃).constraints ↔
      c ∈ s₂.constraints ∧ ¬ ∃ sm, at? s₁.submaps c.submap = some sm ∧ LeftOut inc fin sm) := by
  have h0 : Unique ([] : List TrajectoryProto) := by simp [Unique]
  obtain ⟨a1, a2, a3, a4⟩ := protoSubmaps_spec (inc := inc) (fin := fin) (es := flat s₁.submaps) (u := []) h0
  obtain ⟨b1, b2, b3⟩ := protoNodes_spec (es := flat s₃.nodes) a1
  refine ⟨b1, ?_, ?_, ?_⟩
  · intro id
    show HasSubmap (protoNodes _ _) id ↔ _
    rw [b2, a2]
    simp only [mem_flat_iff h₁.submaps]
    constructor
    · rintro (⟨e, he, -⟩ | h)
      · cases he
      · exact h
    · exact Or.inr
  · intro id
    show HasNode (protoNodes _ _) id ↔ _
    rw [b3, a3, mem_flat_ids h₃.nodes]
    constructor
    · rintro (⟨e, he, -⟩ | h)
      · cases he
      · exact h
    · exact Or.inr
  · intro c
    show c ∈ s₂.constraints.filter _ ↔ _
    rw [List.mem_filter]
    have := a4 c.submap
    simp only [mem_flat_iff h₁.submaps, List.not_mem_nil, false_or] at this
    rw [← this]
    constructor
    · rintro ⟨h1, h2⟩
      refine ⟨h1, fun h => ?_⟩
      obtain ⟨sm, -, hl, -⟩ := this.1 h
      rw [decide_eq_true h, hl] at h2
      cases h2
    · rintro ⟨h1, h2⟩
      exact ⟨h1, by simp [h2]⟩

/-- C44: a pose graph serialized without changes in between is self-contained. -/
theorem proto_self_contained {inc : Bool} {fin : Nat → Bool} {as : List (Act P)} {s : State P} (h : Exec {} as s) :
    ((toProto inc fin s s s).trajectories.map (·.id)).Nodup ∧
    (∀ c ∈ (toProto inc fin s s s).constraints, HasSubmap (toProto inc fin s s s).trajectories c.submap ∧
      HasNode (toProto inc fin s s s).trajectories c.node) := by
  have hi := exec_integrity h Integrity.init
  obtain ⟨a1, a2, a3, a4⟩ := proto_exact (inc := inc) (fin := fin) (s₂ := s) hi.wf hi.wf
  refine ⟨a1, fun c hc => ?_⟩
  obtain ⟨h1, h2⟩ := (a4 c).1 hc
  obtain ⟨⟨sm, h3, -⟩, h4⟩ := hi.refs c h1
  exact ⟨(a2 _).2 ⟨sm, h3, fun hl => h2 ⟨sm, h3, hl⟩⟩, (a3 _).2 h4⟩

/-- C44: with unfinished submaps excluded neither an unfinished submap nor a constraint to one is written. -/
theorem proto_excludes_unfinished {fin : Nat → Bool} {as : List (Act P)} {s : State P} (h : Exec {} as s) :
    (∀ id, HasSubmap (toProto false fin s s s).trajectories id →
      ∃ sm, at? s.submaps id = some sm ∧ fin sm.ptr = true) ∧
    (∀ c ∈ (toProto false fin s s s).constraints, ∃ sm, at? s.submaps c.submap = some sm ∧ fin sm.ptr = true) := by
  have hi := exec_integrity h Integrity.init
  obtain ⟨-, a2, -, -⟩ := proto_exact (inc := false) (fin := fin) (s₂ := s) hi.wf hi.wf
  have key : ∀ id, HasSubmap (toProto false fin s s s).trajectories id →
      ∃ sm, at? s.submaps id = some sm ∧ fin sm.ptr = true := by
    intro id hid
    obtain ⟨sm, h1, h2⟩ := (a2 id).1 hid
    refine ⟨sm, h1, ?_⟩
    cases hf : fin sm.ptr with
    | true => rfl
    | false => exact absurd ⟨rfl, hf⟩ h2
  exact ⟨key, fun c hc => key _ ((proto_self_contained h).2 c hc).1⟩

/-- A trajectory with a submap, a node and a constraint is added. -/
def addOne : List (Act Nat) := [.addSubmapFromProto (0, 0) 7, .addNodeFromProto (0, 0), .enqueue 0, .run [], .enqueue 0,
  .run [], .post (.serialized [⟨(0, 0), (0, 0), 10, true⟩]), .enqueue 0, .run []]

/-- The lock is not held throughout: if a trajectory is added between the first and the second read, a
constraint to a submap that is not serialized is written. -/
theorem proto_torn : ∃ s : State Nat, Exec {} addOne s ∧
    ∃ c ∈ (toProto true (fun _ => true) {} s s).constraints,
      ¬ HasSubmap (toProto true (fun _ => true) {} s s).trajectories c.submap := by
  obtain ⟨s, hs, h⟩ : ∃ s : State Nat, runs {} addOne = some s ∧ s.constraints = [⟨(0, 0), (0, 0), 10, true⟩] :=
    ⟨_, rfl, rfl⟩
  refine ⟨s, runs_exec hs, ⟨(0, 0), (0, 0), 10, true⟩, ?_, ?_⟩
  · simp [toProto, h]
  · have hi := exec_integrity (runs_exec hs) Integrity.init
    rw [(proto_exact (inc := true) (fin := fun _ => true) (s₁ := {}) (s₂ := s) (Integrity.init (P := Nat)).wf hi.wf).2.1]
    rintro ⟨sm, h, -⟩
    cases h

example : (toProto false (fun p => p = 7) twoSubmaps twoSubmaps twoSubmaps).trajectories = [⟨0, [0], [0, 1, 2]⟩] ∧
    (toProto false (fun p => p = 7) twoSubmaps twoSubmaps twoSubmaps).constraints.map (·.pose) = [10, 11, 15] := by decide

end Verif.PoseGraph
