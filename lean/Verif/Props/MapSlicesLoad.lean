import Verif.Props.MapSlices

/-!
# C126: what the loader demands of a file

`load_names` is about all files: whatever `MapBuilder::LoadState` accepts has every submap and node it stores in its pose graph message.
`torn_loads` applies it to states saved while the pose graph goes on.
-/

namespace Verif.MapSlices

open MapById (Id Map flat at? WF)
open Verif.PoseGraph (Proto State Submap Act Exec Wf toProto HasSubmap HasNode LeftOut TrajectoryProto Constraint mem_flat_iff
  mem_flat_ids runs runs_exec)
open Verif.Serialization

variable {P O : Type}

theorem addTrajectories_only {trs : List TrajectoryProto} : ∀ {n : Int} {os : List O} {remap : List (Int × Int)}
    {r : List (Int × Int) × List TrajectoryProto × List (Int × O)}, addTrajectories n trs os remap = some r →
    (trs.map (·.id)).Nodup ∧ ∀ tr ∈ trs, SMap.get? tr.id remap = none := by
  induction trs with
  | nil => intros; simp
  | cons tr trs ih =>
    intro n os remap r h
    cases os with
    | nil => cases h
    | cons o os =>
      simp only [addTrajectories] at h
      split at h
      · cases h
      · rename_i h1
        split at h
        · cases h
        · rename_i h2
          obtain ⟨h3, h4⟩ := ih h2
          have h5 : tr.id ∉ trs.map (·.id) := by
            intro hm
            obtain ⟨x, hx, e⟩ := List.mem_map.1 hm
            have := h4 x hx
            rw [SMap.get?_put, if_pos e.symm] at this
            cases this
          refine ⟨List.nodup_cons.2 ⟨h5, h3⟩, ?_⟩
          simp only [List.mem_cons, forall_eq_or_imp]
          refine ⟨h1, fun x hx => ?_⟩
          have := h4 x hx
          rwa [SMap.get?_put, if_neg (fun e => h5 (List.mem_map.2 ⟨x, hx, e.symm⟩))] at this

theorem insertAll_only {ids : List Id} : ∀ {m m' : Map Unit}, WF m → insertAll m ids = some m' →
    ∀ id, (at? m' id).isSome → id ∈ ids ∨ (at? m id).isSome := by
  induction ids with
  | nil =>
    intro m m' _ h id hid
    obtain rfl := Option.some.inj h
    exact Or.inr hid
  | cons x ids ih =>
    intro m m' hm h id hid
    simp only [insertAll] at h
    split at h
    · cases h
    · rename_i m₁ h1
      obtain ⟨w, -, h2⟩ := MapById.insert_spec hm h1
      rcases ih w h id hid with h3 | h3
      · exact Or.inl (List.mem_cons_of_mem _ h3)
      · rw [h2] at h3
        by_cases hx : x = id
        · exact Or.inl (by simp [hx])
        · rw [if_neg hx] at h3
          exact Or.inr h3

theorem loadRecord_of_mem {frozen : Bool} {remap : List (Int × Int)} {sp np : Map Unit} {rs : List (Record P O)} {r : Record P O}
    (h : (loadRecords (P := P) frozen remap sp np rs).isSome) (hr : r ∈ rs) : (loadRecord (P := P) frozen remap sp np r).isSome :=
  loadRecords_isSome.1 h r hr

/-- C126: for every file that `LoadState` accepts, the trajectories of the pose graph message differ, every submap and node stored in the
file is in the message, and so is the trajectory of all other data that is not skipped. -/
theorem load_names {n : Int} {use3d frozen : Bool} {rs : List (Record P O)} {L : Loaded P O} (h : load n use3d frozen rs = some L) :
    ∃ v p os rest, rs = .header v :: .poseGraph p :: .options os :: rest ∧
      (p.trajectories.map (·.id)).Nodup ∧ p.trajectories.length = os.length ∧
      (∀ id, .submap id ∈ rest → HasSubmap p.trajectories id) ∧
      (∀ id, .node id ∈ rest → HasNode p.trajectories id) ∧
      (∀ t, .trajectoryData t ∈ rest → t ∈ p.trajectories.map (·.id)) ∧
      (frozen = false → ∀ t, .imu t ∈ rest ∨ .odometry t ∈ rest ∨ .fixedFrame t ∈ rest ∨ .landmark t ∈ rest →
        t ∈ p.trajectories.map (·.id)) := by
  simp only [load, Option.bind_eq_bind, Option.bind_eq_some_iff] at h
  obtain ⟨⟨v, p, os, rest⟩, h1, ⟨remap, trs, added⟩, h2, cs, -, sp, h3, np, h4, -, -, calls, h5, -⟩ := h
  have hfile : rs = .header v :: .poseGraph p :: .options os :: rest ∧ p.trajectories.length = os.length := by
    unfold deserialize at h1
    split at h1
    · split at h1
      · split at h1
        · rename_i hl
          simp only [Option.some.injEq, Prod.mk.injEq] at h1
          obtain ⟨rfl, rfl, rfl, rfl⟩ := h1
          exact ⟨rfl, hl⟩
        · cases h1
      · cases h1
    · cases h1
  obtain ⟨hnd, -⟩ := addTrajectories_only h2
  obtain ⟨remap', h6, h7, h8⟩ := addTrajectories_spec (n := n) (remap := []) hfile.2 hnd (fun _ _ => rfl) List.Pairwise.nil
  simp only at h2
  rw [h6] at h2
  simp only [Option.some.injEq, Prod.mk.injEq] at h2
  obtain ⟨rfl, rfl, rfl⟩ := h2
  have hkey : ∀ t k, SMap.get? t remap' = some k → ∃ tr, tr.id = t ∧ (k, tr) ∈ number n p.trajectories := by
    intro t k hk
    by_cases ht : t ∈ p.trajectories.map (·.id)
    · obtain ⟨tr, h9, rfl⟩ := List.mem_map.1 ht
      obtain ⟨k', h10⟩ := number_mem (n := n) h9
      have := h7 _ h10
      rw [hk] at this
      obtain rfl := Option.some.inj this
      exact ⟨tr, rfl, h10⟩
    · rw [h8 t ht] at hk
      cases hk
  have hdata : ∀ t, (SMap.get? t remap').isSome → t ∈ p.trajectories.map (·.id) := by
    intro t ht
    obtain ⟨k, hk⟩ := Option.isSome_iff_exists.1 ht
    obtain ⟨tr, rfl, h9⟩ := hkey t k hk
    exact List.mem_map.2 ⟨tr, mem_of_number h9, rfl⟩
  have hrec : ∀ r ∈ rest, (loadRecord (P := P) frozen remap' sp np r).isSome :=
    fun r hr => loadRecord_of_mem (by rw [h5]; rfl) hr
  simp only [submapIds_number] at h3
  simp only [nodeIds_number] at h4
  refine ⟨v, p, os, rest, hfile.1, hnd, hfile.2, ?_, ?_, ?_, ?_⟩
  · intro id hid
    have := hrec _ hid
    simp only [loadRecord, remapId, Option.bind_eq_bind, Option.isSome_bind] at this
    cases hk : SMap.get? id.1 remap' with
    | none => simp [hk] at this
    | some k =>
      obtain ⟨tr, h9, h10⟩ := hkey _ _ hk
      have h11 : (at? sp (k, id.2)).isSome := by
        cases ha : at? sp (k, id.2) with
        | none => simp [hk, ha] at this
        | some _ => rfl
      rcases insertAll_only ⟨SMap.sorted_nil, by simp, by simp, by simp, by simp⟩ h3 _ h11 with h12 | h12
      · obtain ⟨⟨k', tr'⟩, h13, h14⟩ := List.mem_flatMap.1 h12
        obtain ⟨i, h15, h16⟩ := List.mem_map.1 h14
        simp only [Prod.mk.injEq] at h16
        obtain ⟨rfl, rfl⟩ := h16
        obtain rfl := number_inj h10 h13
        exact ⟨tr, mem_of_number h10, h9, h15⟩
      · cases h12
  · intro id hid
    have := hrec _ hid
    simp only [loadRecord, remapId, Option.bind_eq_bind, Option.isSome_bind] at this
    cases hk : SMap.get? id.1 remap' with
    | none => simp [hk] at this
    | some k =>
      obtain ⟨tr, h9, h10⟩ := hkey _ _ hk
      have h11 : (at? np (k, id.2)).isSome := by
        cases ha : at? np (k, id.2) with
        | none => simp [hk, ha] at this
        | some _ => rfl
      rcases insertAll_only ⟨SMap.sorted_nil, by simp, by simp, by simp, by simp⟩ h4 _ h11 with h12 | h12
      · obtain ⟨⟨k', tr'⟩, h13, h14⟩ := List.mem_flatMap.1 h12
        obtain ⟨i, h15, h16⟩ := List.mem_map.1 h14
        simp only [Prod.mk.injEq] at h16
        obtain ⟨rfl, rfl⟩ := h16
        obtain rfl := number_inj h10 h13
        exact ⟨tr, mem_of_number h10, h9, h15⟩
      · cases h12
  · intro t ht
    have := hrec _ ht
    exact hdata t (by simpa [loadRecord] using this)
  · rintro rfl t (ht | ht | ht | ht) <;>
    · have := hrec _ ht
      exact hdata t (by simpa [loadRecord] using this)

/-- C126: a state saved while the pose graph goes on, with the nodes read in a fifth state, can only be loaded if no submap was added or
finished, and no node added, after the pose graph message had been made, except for submaps that are not written. -/
theorem torn_loads {inc : Bool} {fin fin' : Nat → Bool} {as as₂ as₃ as₄ as₅ : List (Act P)} {g₁ g₂ g₃ g₄ g₅ : State P}
    (e₁ : Exec {} as g₁) (e₂ : Exec g₁ as₂ g₂) (e₃ : Exec g₂ as₃ g₃) (e₄ : Exec g₃ as₄ g₄) (e₅ : Exec g₄ as₅ g₅)
    {os : List O} {rest : List (Record P O)} {n : Int} {use3d frozen : Bool} {L : Loaded P O}
    (h : load n use3d frozen ([.header 2, .poseGraph (toProto inc fin g₁ g₂ g₃), .options os] ++
      submapRecords inc fin' (flat g₄.submaps) ++ (flat g₅.nodes).map (fun e => .node e.1) ++ rest) = some L) :
    (∀ id, Written inc fin' g₄ id → Written inc fin g₁ id) ∧
    (∀ id, (at? g₅.nodes id).isSome → (at? g₃.nodes id).isSome) := by
  have i₁ := PoseGraph.exec_integrity e₁ PoseGraph.Integrity.init
  have i₃ := PoseGraph.exec_integrity e₃ (PoseGraph.exec_integrity e₂ i₁)
  have i₄ := PoseGraph.exec_integrity e₄ i₃
  have i₅ := PoseGraph.exec_integrity e₅ i₄
  obtain ⟨-, hsub, hnode, -⟩ := PoseGraph.proto_exact (inc := inc) (fin := fin) (s₂ := g₂) i₁.wf i₃.wf
  obtain ⟨v, p, os', rest', h1, -, -, h2, h3, -⟩ := load_names h
  simp only [List.append_assoc, List.cons_append, List.nil_append, List.cons.injEq, Record.poseGraph.injEq] at h1
  obtain ⟨-, rfl, -, rfl⟩ := h1
  constructor
  · rintro id ⟨sm, h4, h5⟩
    obtain ⟨sm', h6, h7⟩ := (hsub id).1 (h2 id (by
      refine List.mem_append_left _ (List.mem_map.2 ⟨(id, sm), List.mem_filter.2 ⟨(mem_flat_iff i₄.wf.submaps).2 h4, ?_⟩, rfl⟩)
      rcases h5 with h5 | h5 <;> simp [h5]))
    exact ⟨sm', h6, not_leftOut.1 h7⟩
  · intro id h4
    refine (hnode id).1 (h3 id (List.mem_append_right _ (List.mem_append_left _ ?_)))
    obtain ⟨e, h5, h6⟩ := List.mem_map.1 ((mem_flat_ids i₅.wf.nodes).2 h4)
    exact List.mem_map.2 ⟨e, h5, by rw [h6]⟩

/-- C126: a node that comes between the pose graph message and the nodes makes the file one that cannot be loaded, even if its submap is
not new. -/
theorem late_node_unloadable : ∃ (g g' : State Nat), Exec {} firstNode g ∧ Exec g [.addNode 0 [3] false] g' ∧
    (∀ (n : Int) (use3d frozen : Bool) (os : List Nat) (rest : List (Record Nat Nat)),
      load n use3d frozen ([.header 2, .poseGraph (toProto true (fun _ => false) g g g), .options os] ++
        submapRecords true (fun _ => false) (flat g.submaps) ++ (flat g'.nodes).map (fun e => .node e.1) ++ rest) = none) := by
  have e1 := runs_exec (Option.some_get (rfl : (runs (P := Nat) {} firstNode).isSome = true)).symm
  have e2 := runs_exec (Option.some_get (rfl : (runs ((runs (P := Nat) {} firstNode).get rfl) [.addNode 0 [3] false]).isSome = true)).symm
  refine ⟨_, _, e1, e2, fun n use3d frozen os rest => ?_⟩
  by_contra hc
  obtain ⟨L, hL⟩ := Option.ne_none_iff_exists'.1 hc
  have h := (torn_loads e1 .nil .nil .nil e2 hL).2 (0, 1) rfl
  exact absurd h (by decide +kernel)

/-- `load_names` applies to the file of the state with two trajectories. -/
example : ((runs {} demo).bind (fun g => (save false ⟨g, fun p => p == 7, [100, 101, 102], [0, 2], [2], [], [], [0]⟩).bind
    (fun rs => (load 4 true false rs).map (fun _ => rs.length)))) = some 10 := by rfl

end Verif.MapSlices
