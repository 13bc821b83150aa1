import Verif.Props.LoadFiles

/-!
# C126: the constraints of a loaded file

Exactly the lists of constraints that the work item of `AddSerializedConstraints` accepts (/repo/cartographer/mapping/internal/2d/pose_graph_2d.cc
797-828), in every state of the pose graph.
-/

namespace Verif.MapSlices

open MapById (Id Map flat at? WF)
open Verif.PoseGraph (State Submap Act Exec Constraint addSerialized addSerializedAll contains_iff guard_some setInsert runs runs_exec)

variable {P : Type}

/-- The submap and node of a constraint. -/
def ends (c : Constraint P) : Id × Id := (c.submap, c.node)

/-- What a constraint needs of the pose graph. -/
def Fits (s : State P) (c : Constraint P) : Prop :=
  (at? s.nodes c.node).isSome ∧ ∃ sm, at? s.submaps c.submap = some sm ∧ (c.intra = true → c.node ∉ sm.nodeIds)

theorem addSerialized_fits {s : State P} (hw : WF s.submaps) {c : Constraint P} :
    (∀ s', addSerialized s c = some s' → Fits s c ∧ WF s'.submaps ∧ s'.nodes = s.nodes ∧
      ∀ id, at? s'.submaps id = if c.intra = true ∧ c.submap = id then
        (at? s.submaps id).map (fun sm => { sm with nodeIds := setInsert c.node sm.nodeIds }) else at? s.submaps id) ∧
    (Fits s c → (addSerialized s c).isSome) := by
  constructor
  · intro s' h
    simp only [addSerialized, Option.bind_eq_bind, Option.bind_eq_some_iff, guard_some] at h
    obtain ⟨_, h1, _, h2, sm, h3, h4⟩ := h
    rw [contains_iff] at h1
    by_cases hc : c.intra = true
    · simp only [hc, if_true, Option.bind_eq_some_iff, guard_some, Option.some.injEq] at h4
      obtain ⟨_, h5, submaps, h6, rfl⟩ := h4
      obtain ⟨w, -, q⟩ := MapById.assign_spec hw h6
      refine ⟨⟨h1, sm, h3, fun _ => h5⟩, w, rfl, fun id => ?_⟩
      show at? submaps id = _
      rw [q]
      by_cases hid : c.submap = id
      · subst hid
        simp [hc, h3]
      · rw [if_neg hid, if_neg (fun h => hid h.2)]
    · simp only [hc, if_false, Bool.false_eq_true, Option.some.injEq] at h4
      subst h4
      exact ⟨⟨h1, sm, h3, fun h => absurd h hc⟩, hw, rfl, fun id => by rw [if_neg (fun h => hc h.1)]⟩
  · rintro ⟨h1, sm, h2, h3⟩
    have hs : MapById.contains s.submaps c.submap = true := contains_iff.2 (by rw [h2]; rfl)
    have hn : MapById.contains s.nodes c.node = true := contains_iff.2 h1
    by_cases hc : c.intra = true
    · have ha : ∃ m', MapById.assign s.submaps c.submap { sm with nodeIds := setInsert c.node sm.nodeIds } = some m' := by
        have h2' := h2
        unfold at? at h2'
        obtain ⟨tr, htr, h2'⟩ := Option.bind_eq_some_iff.1 h2'
        unfold MapById.assign
        simp only [htr, h2']
        exact ⟨_, rfl⟩
      obtain ⟨m', ha⟩ := ha
      simp [addSerialized, guard, hs, hn, h2, hc, h3 hc, ha]
    · simp [addSerialized, guard, hs, hn, h2, hc]

theorem fits_after {s s' : State P} {c d : Constraint P} (hn : s'.nodes = s.nodes)
    (h : ∀ id, at? s'.submaps id = if c.intra = true ∧ c.submap = id then
        (at? s.submaps id).map (fun sm => { sm with nodeIds := setInsert c.node sm.nodeIds }) else at? s.submaps id) :
    Fits s' d ↔ Fits s d ∧ ¬ (c.intra = true ∧ d.intra = true ∧ ends c = ends d) := by
  unfold Fits ends
  rw [hn, h]
  by_cases hc : c.intra = true ∧ c.submap = d.submap
  · rw [if_pos hc]
    constructor
    · rintro ⟨h1, sm', h2, h3⟩
      obtain ⟨sm, h4, rfl⟩ := Option.map_eq_some_iff.1 h2
      simp only [PoseGraph.setInsert_mem] at h3
      refine ⟨⟨h1, sm, h4, fun hd hm => h3 hd (Or.inr hm)⟩, ?_⟩
      rintro ⟨-, hd, he⟩
      exact h3 hd (Or.inl (Prod.mk.inj he).2.symm)
    · rintro ⟨⟨h1, sm, h2, h3⟩, h4⟩
      refine ⟨h1, _, by rw [h2]; rfl, fun hd => ?_⟩
      simp only [PoseGraph.setInsert_mem, not_or]
      exact ⟨fun e => h4 ⟨hc.1, hd, by rw [hc.2, e]⟩, h3 hd⟩
  · rw [if_neg hc]
    constructor
    · intro hf
      exact ⟨hf, fun he => hc ⟨he.1, (Prod.mk.inj he.2.2).1⟩⟩
    · exact fun hf => hf.1

theorem serialized_wf {cs : List (Constraint P)} : ∀ {s : State P}, WF s.submaps →
    ((addSerializedAll s cs).isSome ↔
      (∀ c ∈ cs, Fits s c) ∧ ((cs.filter (·.intra)).map ends).Nodup) := by
  induction cs with
  | nil => intro s _; simp [addSerializedAll]
  | cons c cs ih =>
    intro s hw
    obtain ⟨k1, k2⟩ := addSerialized_fits (c := c) hw
    have e : addSerializedAll s (c :: cs) = (addSerialized s c).bind (fun s' => addSerializedAll s' cs) := rfl
    rw [e]
    cases hs : addSerialized s c with
    | none =>
      simp only [Option.bind_none, Option.isSome_none, Bool.false_eq_true, List.mem_cons, forall_eq_or_imp, false_iff]
      rintro ⟨⟨hf, -⟩, -⟩
      have := k2 hf
      rw [hs] at this
      cases this
    | some s' =>
      obtain ⟨hf, w, hn, hq⟩ := k1 s' hs
      rw [Option.bind_some, ih w]
      simp only [fits_after hn hq, List.mem_cons, forall_eq_or_imp]
      by_cases hc : c.intra = true
      · rw [List.filter_cons_of_pos (by simpa using hc), List.map_cons, List.nodup_cons]
        constructor
        · rintro ⟨h1, h2⟩
          refine ⟨⟨hf, fun d hd => (h1 d hd).1⟩, ?_, h2⟩
          intro hm
          obtain ⟨d, hd, he⟩ := List.mem_map.1 hm
          obtain ⟨hd1, hd2⟩ := List.mem_filter.1 hd
          exact (h1 d hd1).2 ⟨hc, hd2, he.symm⟩
        · rintro ⟨⟨-, h1⟩, h2, h3⟩
          exact ⟨fun d hd => ⟨h1 d hd, fun he => h2 (List.mem_map.2 ⟨d, List.mem_filter.2 ⟨hd, he.2.1⟩, he.2.2.symm⟩)⟩, h3⟩
      · rw [List.filter_cons_of_neg (by simpa using hc)]
        constructor
        · rintro ⟨h1, h2⟩
          exact ⟨⟨hf, fun d hd => (h1 d hd).1⟩, h2⟩
        · rintro ⟨⟨-, h1⟩, h2⟩
          exact ⟨fun d hd => ⟨h1 d hd, fun he => hc he.1⟩, h2⟩

/-- C126: in every reachable state, the constraints of a file are accepted if and only if all their nodes and submaps are there, and no
constraint of local SLAM is in the list twice or connects a node with a submap it was already inserted into. -/
theorem serialized_iff {as : List (Act P)} {s : State P} (h : Exec {} as s) {poses : List P} {cs : List (Constraint P)} :
    (PoseGraph.runItem s poses (.serialized cs)).isSome ↔
      (∀ c ∈ cs, (at? s.nodes c.node).isSome ∧ ∃ sm, at? s.submaps c.submap = some sm ∧ (c.intra = true → c.node ∉ sm.nodeIds)) ∧
      ((cs.filter (·.intra)).map fun c => (c.submap, c.node)).Nodup :=
  serialized_wf (PoseGraph.exec_integrity h PoseGraph.Integrity.init).wf.submaps

/-- In the state with two trajectories, a loop closure can be added twice, a constraint of local SLAM that is there cannot. -/
example : ((runs {} Serialization.demo).map fun s =>
    ((PoseGraph.runItem s [] (.serialized [⟨(0, 3), (2, 0), 2, false⟩, ⟨(0, 3), (2, 0), 2, false⟩])).isSome,
      (PoseGraph.runItem s [] (.serialized [⟨(0, 3), (0, 5), 2, true⟩])).isSome,
      (PoseGraph.runItem s [] (.serialized [⟨(0, 4), (0, 5), 2, false⟩])).isSome)) = some (true, false, false) := by rfl

end Verif.MapSlices
