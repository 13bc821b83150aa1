import Verif.Props.MapSlicesLoad
import Verif.MapBuilder

/-!
# C126: exactly the files that can be loaded

`load_iff` says for all files when `MapBuilder::LoadState` does not abort, in terms of the file alone.
-/

namespace Verif.MapSlices

open MapById (Id Map flat at? WF)
open Verif.PoseGraph (Proto State Submap Act Exec Wf toProto HasSubmap HasNode LeftOut TrajectoryProto Constraint runs runs_exec)
open Verif.Serialization

variable {P O : Type}

/-- What a file must be like to be loaded. -/
structure Loadable (use3d frozen : Bool) (v : Nat) (p : Proto P) (os : List O) (rest : List (Record P O)) : Prop where
  version : v = 2 ∨ (v = 1 ∧ use3d = false)
  options : p.trajectories.length = os.length
  trajectories : (p.trajectories.map (·.id)).Nodup
  submaps : ∀ tr ∈ p.trajectories, tr.submaps.Nodup ∧ ∀ i ∈ tr.submaps, 0 ≤ i
  nodes : ∀ tr ∈ p.trajectories, tr.nodes.Nodup ∧ ∀ i ∈ tr.nodes, 0 ≤ i
  constraints : ∀ c ∈ p.constraints, c.submap.1 ∈ p.trajectories.map (·.id) ∧ c.node.1 ∈ p.trajectories.map (·.id)
  submapRecords : ∀ id, .submap id ∈ rest → HasSubmap p.trajectories id
  nodeRecords : ∀ id, .node id ∈ rest → HasNode p.trajectories id
  dataRecords : ∀ t, .trajectoryData t ∈ rest → t ∈ p.trajectories.map (·.id)
  sensorRecords : frozen = false → ∀ t, .imu t ∈ rest ∨ .odometry t ∈ rest ∨ .fixedFrame t ∈ rest ∨ .landmark t ∈ rest →
    t ∈ p.trajectories.map (·.id)

theorem insertAll_needs {ids : List Id} : ∀ {m m' : Map Unit}, WF m → insertAll m ids = some m' →
    ids.Nodup ∧ ∀ id ∈ ids, 0 ≤ id.2 ∧ at? m id = none := by
  induction ids with
  | nil => intros; simp
  | cons x ids ih =>
    intro m m' hm h
    simp only [insertAll] at h
    split at h
    · cases h
    · rename_i m₁ h1
      obtain ⟨w, h2, h3⟩ := MapById.insert_spec hm h1
      obtain ⟨h4, h5⟩ := ih w h
      have hx : 0 ≤ x.2 := by
        by_contra hc
        simp only [MapById.insert] at h1
        rw [if_pos (Or.inr (by omega))] at h1
        cases h1
      refine ⟨List.nodup_cons.2 ⟨fun hm => ?_, h4⟩, ?_⟩
      · have := (h5 x hm).2
        rw [h3, if_pos rfl] at this
        cases this
      · simp only [List.mem_cons, forall_eq_or_imp]
        refine ⟨⟨hx, h2⟩, fun id hid => ⟨(h5 id hid).1, ?_⟩⟩
        have := (h5 id hid).2
        rw [h3] at this
        split at this
        · cases this
        · exact this

theorem remapConstraints_needs {remap : List (Int × Int)} {cs : List (Constraint P)} : ∀ {cs' : List (Constraint P)},
    remapConstraints remap cs = some cs' →
    ∀ c ∈ cs, (SMap.get? c.submap.1 remap).isSome ∧ (SMap.get? c.node.1 remap).isSome := by
  induction cs with
  | nil => simp
  | cons c cs ih =>
    intro cs' h
    simp only [remapConstraints] at h
    split at h
    · rename_i s n cs'' h1 h2 h3
      simp only [List.mem_cons, forall_eq_or_imp]
      refine ⟨?_, ih h3⟩
      simp only [remapId, Option.map_eq_some_iff] at h1 h2
      obtain ⟨a, h1, -⟩ := h1
      obtain ⟨b, h2, -⟩ := h2
      rw [h1, h2]
      exact ⟨rfl, rfl⟩
    · cases h

theorem numbered_needs {f : TrajectoryProto → List Int} {n : Int} {l : List TrajectoryProto}
    (h : ((number n l).flatMap (fun e => (f e.2).map (fun i => (e.1, i)))).Nodup ∧
      ∀ id ∈ (number n l).flatMap (fun e => (f e.2).map (fun i => (e.1, i))), 0 ≤ id.2 ∧ at? ([] : Map Unit) id = none) :
    ∀ tr ∈ l, (f tr).Nodup ∧ ∀ i ∈ f tr, 0 ≤ i := by
  intro tr htr
  obtain ⟨k, hk⟩ := number_mem (n := n) htr
  refine ⟨((List.nodup_flatMap.1 h.1).1 _ hk).of_map, fun i hi => ?_⟩
  exact (h.2 (k, i) (List.mem_flatMap.2 ⟨_, hk, List.mem_map.2 ⟨i, hi, rfl⟩⟩)).1

/-- C126: exactly the files that `LoadState` accepts, for all files and any number of trajectories that already exist. -/
theorem load_iff {n : Int} (hn : 0 ≤ n) {use3d frozen : Bool} {rs : List (Record P O)} :
    (load n use3d frozen rs).isSome ↔
      ∃ v p os rest, rs = .header v :: .poseGraph p :: .options os :: rest ∧ Loadable use3d frozen v p os rest := by
  have hne : WF ([] : Map Unit) := ⟨SMap.sorted_nil, by simp, by simp, by simp, by simp⟩
  constructor
  · intro h
    obtain ⟨L, h⟩ := Option.isSome_iff_exists.1 h
    obtain ⟨v, p, os, rest, rfl, hnd, hl, h1, h2, h3, h4⟩ := load_names h
    refine ⟨v, p, os, rest, rfl, ?_⟩
    simp only [load, deserialize, hl, if_true, Option.bind_eq_bind, Option.bind_eq_some_iff] at h
    obtain ⟨⟨v', p', os', rest'⟩, h5, ⟨remap, trs, added⟩, h6, cs, h7, sp, h8, np, h9, _, h10, calls, h11, -⟩ := h
    split at h5
    · rename_i hv
      simp only [Option.some.injEq, Prod.mk.injEq] at h5
      obtain ⟨rfl, rfl, rfl, rfl⟩ := h5
      obtain ⟨remap', a1, a2, a3⟩ := addTrajectories_spec (n := n) (remap := []) hl hnd (fun _ _ => rfl) List.Pairwise.nil
      simp only at h6
      rw [a1] at h6
      simp only [Option.some.injEq, Prod.mk.injEq] at h6
      obtain ⟨rfl, rfl, rfl⟩ := h6
      have hkey : ∀ t, (SMap.get? t remap').isSome → t ∈ p.trajectories.map (·.id) := by
        intro t ht
        by_contra hc
        rw [a3 t hc] at ht
        cases ht
      simp only [submapIds_number] at h8
      simp only [nodeIds_number] at h9
      refine ⟨?_, hl, hnd, numbered_needs (f := fun tr => tr.submaps) (insertAll_needs hne h8),
        numbered_needs (f := fun tr => tr.nodes) (insertAll_needs hne h9), ?_, h1, h2, h3, h4⟩
      · rcases hv with hv | hv
        · exact Or.inl hv
        · refine Or.inr ⟨hv, ?_⟩
          cases use3d with
          | false => rfl
          | true => simp [guard, hv] at h10
      · intro c hc
        obtain ⟨b1, b2⟩ := remapConstraints_needs h7 c hc
        exact ⟨hkey _ b1, hkey _ b2⟩
    · cases h5
  · rintro ⟨v, p, os, rest, rfl, hL⟩
    obtain ⟨remap, a1, a2, a3⟩ := addTrajectories_spec (n := n) (remap := []) hL.options hL.trajectories (fun _ _ => rfl)
      List.Pairwise.nil
    have hkey : ∀ tr ∈ p.trajectories, ∃ k, (k, tr) ∈ number n p.trajectories ∧ SMap.get? tr.id remap = some k := by
      intro tr htr
      obtain ⟨k, hk⟩ := number_mem (n := n) htr
      exact ⟨k, hk, a2 _ hk⟩
    have hget : ∀ t ∈ p.trajectories.map (·.id), (SMap.get? t remap).isSome := by
      intro t ht
      obtain ⟨tr, h1, rfl⟩ := List.mem_map.1 ht
      obtain ⟨k, -, h2⟩ := hkey tr h1
      rw [h2]
      rfl
    obtain ⟨cs, h1⟩ := remapConstraints_some (remap := remap) (cs := p.constraints)
      (fun c hc => ⟨hget _ (hL.constraints c hc).1, hget _ (hL.constraints c hc).2⟩)
    obtain ⟨sp, h2, h3⟩ := insertAll_some (ids := submapIds ((number n p.trajectories).map (fun e => { e.2 with id := e.1 }))) hne
      (by
        rw [submapIds_number]
        exact numbered_nodup (f := fun tr => tr.submaps) number_nodup (fun e he => (hL.submaps e.2 (mem_of_number he)).1))
      (by
        intro id hid
        rw [submapIds_number, List.mem_flatMap] at hid
        obtain ⟨⟨k, tr⟩, h6, h7⟩ := hid
        obtain ⟨i, h8, rfl⟩ := List.mem_map.1 h7
        exact ⟨le_trans hn (number_ge h6), (hL.submaps tr (mem_of_number h6)).2 i h8, rfl⟩)
    obtain ⟨np, h4, h5⟩ := insertAll_some (ids := nodeIds ((number n p.trajectories).map (fun e => { e.2 with id := e.1 }))) hne
      (by
        rw [nodeIds_number]
        exact numbered_nodup (f := fun tr => tr.nodes) number_nodup (fun e he => (hL.nodes e.2 (mem_of_number he)).1))
      (by
        intro id hid
        rw [nodeIds_number, List.mem_flatMap] at hid
        obtain ⟨⟨k, tr⟩, h6, h7⟩ := hid
        obtain ⟨i, h8, rfl⟩ := List.mem_map.1 h7
        exact ⟨le_trans hn (number_ge h6), (hL.nodes tr (mem_of_number h6)).2 i h8, rfl⟩)
    have hrec : (loadRecords (P := P) frozen remap sp np rest).isSome := by
      rw [loadRecords_isSome]
      intro r hr
      cases r with
      | header | poseGraph | options => rfl
      | submap id =>
        obtain ⟨tr, c1, c2, c3⟩ := hL.submapRecords id hr
        obtain ⟨k, c4, c5⟩ := hkey tr c1
        obtain ⟨u, hu⟩ := Option.isSome_iff_exists.1 ((h3 (k, id.2)).2 (Or.inl (by
          rw [submapIds_number, List.mem_flatMap]
          exact ⟨_, c4, List.mem_map.2 ⟨_, c3, rfl⟩⟩)))
        rw [c2] at c5
        simp [loadRecord, remapId, c5, hu]
      | node id =>
        obtain ⟨tr, c1, c2, c3⟩ := hL.nodeRecords id hr
        obtain ⟨k, c4, c5⟩ := hkey tr c1
        obtain ⟨u, hu⟩ := Option.isSome_iff_exists.1 ((h5 (k, id.2)).2 (Or.inl (by
          rw [nodeIds_number, List.mem_flatMap]
          exact ⟨_, c4, List.mem_map.2 ⟨_, c3, rfl⟩⟩)))
        rw [c2] at c5
        simp [loadRecord, remapId, c5, hu]
      | trajectoryData t =>
        have := hget t (hL.dataRecords t hr)
        simpa [loadRecord] using this
      | imu t =>
        cases frozen with
        | true => rfl
        | false => simpa [loadRecord] using hget t (hL.sensorRecords rfl t (Or.inl hr))
      | odometry t =>
        cases frozen with
        | true => rfl
        | false => simpa [loadRecord] using hget t (hL.sensorRecords rfl t (Or.inr (Or.inl hr)))
      | fixedFrame t =>
        cases frozen with
        | true => rfl
        | false => simpa [loadRecord] using hget t (hL.sensorRecords rfl t (Or.inr (Or.inr (Or.inl hr))))
      | landmark t =>
        cases frozen with
        | true => rfl
        | false => simpa [loadRecord] using hget t (hL.sensorRecords rfl t (Or.inr (Or.inr (Or.inr hr))))
    obtain ⟨calls, h6⟩ := Option.isSome_iff_exists.1 hrec
    have hv : v = 2 ∨ v = 1 := hL.version.imp id And.left
    have hg : use3d = true → v ≠ 1 := by
      rintro rfl rfl
      rcases hL.version with h | h
      · cases h
      · cases h.2
    simp only [load, deserialize, hL.options, hv, if_true, a1, h1, h2, h4, h6, Option.bind_eq_bind, Option.bind_some]
    rw [guard, if_pos hg]
    rfl

/-! ### Deleting a trajectory while saving -/

/-- The calls of the loader, each of which the worker handles before the next one. -/
def play (cs : List (Call Nat)) : List (Act Nat) := cs.flatMap fun c => [MapBuilder.toAct (fun _ => 9) c, .enqueue 0, .run []]

/-- The file of a pose graph that was in state `g` for the message and the options, and in `g'` for submaps and nodes. -/
def tornFile (g g' : State Nat) : List (Record Nat Nat) :=
  [.header 2, .poseGraph (toProto true (fun _ => true) g g g), .options [100, 102]] ++
    submapRecords true (fun _ => true) (flat g'.submaps) ++ (flat g'.nodes).map (fun e => .node e.1)

/-- C126: a trajectory is deleted between the options and the submaps. The loader accepts the file, and the worker aborts later, at the
constraints with the submaps and nodes that are missing. -/
theorem deleted_meanwhile_aborts : ∃ (g g' s : State Nat) (L : Loaded Nat Nat), Exec {} demo g ∧ Exec g (PoseGraph.doDelete 0) g' ∧
    load 0 false false (tornFile g g') = some L ∧ Exec {} (play L.calls).dropLast s ∧ PoseGraph.Enabled s (.run []) ∧
    (play L.calls).getLast? = some (.run []) ∧ PoseGraph.exec s (.run []) = none := by
  have h : ((runs {} demo).bind fun g => (runs g (PoseGraph.doDelete 0)).bind fun g' => (load 0 false false (tornFile g g')).bind fun L =>
      (runs {} (play L.calls).dropLast).map fun s => (PoseGraph.allowed s (.run []), (PoseGraph.exec s (.run [])).isSome,
        (play L.calls).getLast?.map fun a => match a with | .run [] => true | _ => false)) = some (true, false, some true) := rfl
  simp only [Option.bind_eq_some_iff, Option.map_eq_some_iff, Prod.mk.injEq] at h
  obtain ⟨g, h1, g', h2, L, h3, s, h4, h5, h6, a, h7, h8⟩ := h
  refine ⟨g, g', s, L, runs_exec h1, runs_exec h2, h3, runs_exec h4, PoseGraph.allowed_enabled h5, ?_, by simpa using h6⟩
  rw [h7]
  split at h8
  · rfl
  · cases h8

/-- A file with a submap record that is not in the pose graph message, and one in which it is. -/
example : (load (P := Nat) (O := Nat) 2 true true [.header 2, .poseGraph ⟨[⟨5, [3], [0]⟩], []⟩, .options [9], .submap (5, 4)]).isSome = false ∧
    (load (P := Nat) (O := Nat) 2 true true [.header 2, .poseGraph ⟨[⟨5, [4, 3], [0]⟩], []⟩, .options [9], .submap (5, 4), .imu 8]).isSome = true := by
  decide +kernel

end Verif.MapSlices
