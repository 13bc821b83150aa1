import Verif.ClientStub
import Verif.MapByIdRun
import Verif.Props.Messages
import Verif.Props.Serialization

/-!
# C97: calls through the client stub give the same as direct calls

What the queries return, which requests are sent to load a state and what comes back when a state is saved is compared with the direct calls, for all
contents. Where the stub differs from the interface it implements, the difference is stated exactly.
-/

namespace Verif.ClientStub

open Messages (Rigid RigidMsg rigidMsg toRigid)
open MapById (Id Map flat WF at? idLt)
open Serialization (Record Loaded Snapshot deserialize addTrajectories)

/-! ### Maps by id -/

theorem insert_succeeds {D : Type} {m : Map D} {id : Id} (d : D) (h1 : 0 ≤ id.1) (h2 : 0 ≤ id.2) (h : at? m id = none) : ∃ m', MapById.insert m id d = some m' := by
  unfold MapById.insert
  rw [if_neg (by omega)]
  have : SMap.get? id.2 (MapById.trajOrNew m id.1).data = none := by
    unfold MapById.trajOrNew
    unfold at? at h
    cases hg : SMap.get? id.1 m with
    | none => rfl
    | some tr => rw [hg] at h; simpa using h
  simp only [this]
  exact ⟨_, rfl⟩

theorem insertAll_spec {D : Type} : ∀ (l : List (Id × D)) {m : Map D}, WF m → (∀ e ∈ l, 0 ≤ e.1.1 ∧ 0 ≤ e.1.2) → l.Pairwise (fun a b => a.1 ≠ b.1) → (∀ e ∈ l, at? m e.1 = none) →
    ∃ m', insertAll m l = some m' ∧ WF m' ∧ ∀ id d, at? m' id = some d ↔ at? m id = some d ∨ (id, d) ∈ l := by
  intro l
  induction l with
  | nil => intro m hm _ _ _; exact ⟨m, rfl, hm, by simp⟩
  | cons e l ih =>
    intro m hm hn hp hf
    obtain ⟨hp1, hp2⟩ := List.pairwise_cons.1 hp
    obtain ⟨m1, h1⟩ := insert_succeeds e.2 (hn e List.mem_cons_self).1 (hn e List.mem_cons_self).2 (hf e List.mem_cons_self)
    obtain ⟨w1, _, a1⟩ := MapById.insert_spec hm h1
    obtain ⟨m2, h2, w2, a2⟩ := ih w1 (fun x hx => hn x (List.mem_cons_of_mem _ hx)) hp2 (by
      intro x hx
      rw [a1, if_neg (hp1 x hx)]
      exact hf x (List.mem_cons_of_mem _ hx))
    refine ⟨m2, by rw [insertAll, h1]; exact h2, w2, ?_⟩
    intro id d
    rw [a2, a1]
    by_cases h : e.1 = id
    · subst h
      rw [if_pos rfl, hf e List.mem_cons_self]
      simp only [Option.some.injEq, reduceCtorEq, false_or, List.mem_cons]
      constructor
      · rintro (h | h)
        · left; rw [← h]
        · exact Or.inr h
      · rintro (h | h)
        · left; rw [← h]
        · exact Or.inr h
    · rw [if_neg h, List.mem_cons]
      constructor
      · rintro (h' | h')
        · exact Or.inl h'
        · exact Or.inr (Or.inr h')
      · rintro (h' | h' | h')
        · exact Or.inl h'
        · exact absurd (congrArg Prod.fst h').symm h
        · exact Or.inr h'

theorem sorted_mem_ext {D : Type} {R : D → D → Prop} (hR : ∀ a b, R a b → ¬ R b a) : ∀ (l l' : List D), l.Pairwise R → l'.Pairwise R → (∀ x, x ∈ l ↔ x ∈ l') → l = l' := by
  intro l
  induction l with
  | nil =>
    intro l' _ _ h
    cases l' with
    | nil => rfl
    | cons y l' => exact absurd ((h y).2 List.mem_cons_self) (by simp)
  | cons x l ih =>
    intro l' h1 h2 h
    cases l' with
    | nil => exact absurd ((h x).1 List.mem_cons_self) (by simp)
    | cons y l' =>
      obtain ⟨p1, p2⟩ := List.pairwise_cons.1 h1
      obtain ⟨q1, q2⟩ := List.pairwise_cons.1 h2
      have hirr : ∀ a, ¬ R a a := fun a ha => hR a a ha ha
      have hxy : x = y := by
        rcases List.mem_cons.1 ((h x).1 List.mem_cons_self) with h' | h'
        · exact h'
        · rcases List.mem_cons.1 ((h y).2 List.mem_cons_self) with h'' | h''
          · exact h''.symm
          · exact absurd (q1 x h') (hR _ _ (p1 y h''))
      subst hxy
      congr 1
      refine ih l' p2 q2 ?_
      intro z
      constructor
      · intro hz
        rcases List.mem_cons.1 ((h z).1 (List.mem_cons_of_mem _ hz)) with rfl | h'
        · exact absurd (p1 z hz) (hirr z)
        · exact h'
      · intro hz
        rcases List.mem_cons.1 ((h z).2 (List.mem_cons_of_mem _ hz)) with rfl | h'
        · exact absurd (q1 z hz) (hirr z)
        · exact h'

theorem idLt_asymm {a b : Id} (h : idLt a b) : ¬ idLt b a := by unfold idLt at *; omega

theorem idLt_ne {a b : Id} (h : idLt a b) : a ≠ b := by rintro rfl; unfold idLt at h; omega

/-- Two maps have the same contents: the same lookups and the same iteration. -/
def Same {D : Type} (m m' : Map D) : Prop := (∀ id, at? m' id = at? m id) ∧ flat m' = flat m

/-- Filling an empty map with what iterating over a map gives restores it. -/
theorem insertAll_flat {D : Type} {m : Map D} (hm : WF m) : ∃ m', insertAll [] (flat m) = some m' ∧ WF m' ∧ Same m m' := by
  have hnn : ∀ e ∈ flat m, 0 ≤ e.1.1 ∧ 0 ≤ e.1.2 := by
    rintro ⟨id, d⟩ he
    obtain ⟨tr, h1, h2⟩ := MapById.mem_flat.1 he
    exact ⟨hm.nonneg _ h1, hm.inonneg _ h1 _ h2⟩
  have hnil : WF ([] : Map D) := ⟨SMap.sorted_nil, by simp, by simp, by simp, by simp⟩
  obtain ⟨m', h1, h2, h3⟩ := insertAll_spec (flat m) hnil hnn ((MapById.flat_sorted hm).imp fun h => idLt_ne h) (by intro e _; rfl)
  have hat : ∀ id d, at? m' id = some d ↔ at? m id = some d := by
    intro id d
    rw [h3, MapById.at?_iff_mem hm]
    simp [at?, SMap.get?]
  refine ⟨m', h1, h2, ?_, ?_⟩
  · intro id
    cases h : at? m id with
    | some d => exact (hat id d).2 h
    | none =>
      cases h' : at? m' id with
      | none => rfl
      | some d => rw [(hat id d).1 h'] at h; cases h
  · refine sorted_mem_ext (fun a b h => idLt_asymm h) _ _ (MapById.flat_sorted h2) (MapById.flat_sorted hm) ?_
    rintro ⟨id, d⟩
    rw [← MapById.at?_iff_mem h2, ← MapById.at?_iff_mem hm, hat]

/-- **The poses of the submaps** are those of the server. -/
theorem submapPoses_same {m : Map SubmapPose} (hm : WF m) : ∃ m', readSubmapPoses (submapPosesResponse m) = some m' ∧ WF m' ∧ Same m m' := by
  obtain ⟨m', h1, h2⟩ := insertAll_flat hm
  refine ⟨m', ?_, h2⟩
  unfold readSubmapPoses submapPosesResponse
  rw [List.map_map, show (_ ∘ _ : Id × SubmapPose → Id × SubmapPose) = id from rfl, List.map_id, h1]

theorem readConstant_msg (c : Option (Ticks.Time × Rigid)) : readConstant (constantMsg c) = c := by cases c <;> rfl

/-- **The poses of the nodes** are those of the server, also for nodes without a local pose. -/
theorem nodePoses_same {m : Map NodePose} (hm : WF m) : ∃ m', readNodePoses (nodePosesResponse m) = some m' ∧ WF m' ∧ Same m m' := by
  obtain ⟨m', h1, h2⟩ := insertAll_flat hm
  refine ⟨m', ?_, h2⟩
  unfold readNodePoses nodePosesResponse
  have : ∀ l : List (Id × NodePose), (l.map fun e =>
      ({ id := some (idMsg e.1), globalPose := some (rigidMsg e.2.globalPose), fixedPart := constantMsg e.2.fixedPart } : NodePoseMsg)).map
      (fun e => (toId (e.id.getD {}), (⟨toRigid (e.globalPose.getD {}), readConstant e.fixedPart⟩ : NodePose))) = l := by
    intro l
    rw [List.map_map]
    conv_rhs => rw [← List.map_id l]
    refine List.map_congr_left ?_
    rintro ⟨id, d⟩ _
    simp only [Function.comp_apply, readConstant_msg]
    rfl
  rw [this, h1]

/-! ### Maps -/

theorem toState_msg (s : TrajectoryState) : toState (stateMsg s) = some s := by cases s <;> rfl

/-- States other than the four are refused. -/
theorem toState_iff (n : Int) (s : TrajectoryState) : toState n = some s ↔ stateMsg s = n := by
  unfold toState
  split_ifs <;> cases s <;> simp_all [stateMsg] <;> omega

theorem get?_perm {V : Type} {l l' : List (Int × V)} (hp : l.Perm l') (hl : SMap.Sorted l') (k : Int) : SMap.get? k l = SMap.get? k l' := by
  have hnd : ∀ {v v'}, (k, v) ∈ l' → (k, v') ∈ l' → v = v' := by
    intro v v' h h'
    have h1 := SMap.get?_of_mem hl h
    rw [SMap.get?_of_mem hl h'] at h1
    exact (Option.some.inj h1).symm
  cases h : SMap.get? k l with
  | some v => exact (SMap.get?_of_mem hl (hp.mem_iff.1 (SMap.mem_of_get? h))).symm
  | none =>
    symm
    rw [SMap.get?_eq_none] at h ⊢
    exact fun e he => h e (hp.mem_iff.2 he)

theorem fillStates_spec : ∀ (l : List (Int × TrajectoryState)) {m : List (Int × TrajectoryState)}, SMap.Sorted m → l.Pairwise (fun a b => a.1 ≠ b.1) →
    ∃ m', fillStates m (l.map fun e => (e.1, stateMsg e.2)) = some m' ∧ SMap.Sorted m' ∧ ∀ k, SMap.get? k m' = (SMap.get? k l).or (SMap.get? k m) := by
  intro l
  induction l with
  | nil => intro m hm _; exact ⟨m, rfl, hm, by simp [SMap.get?]⟩
  | cons e l ih =>
    intro m hm hp
    obtain ⟨hp1, hp2⟩ := List.pairwise_cons.1 hp
    obtain ⟨m', h1, h2, h3⟩ := ih (SMap.sorted_put (k := e.1) (v := e.2) hm) hp2
    refine ⟨m', ?_, h2, ?_⟩
    · rw [List.map_cons, fillStates, toState_msg]
      exact h1
    · intro k
      rw [h3, SMap.get?_put]
      obtain ⟨k', v⟩ := e
      simp only [SMap.get?]
      by_cases h : k' = k
      · subst h
        have : SMap.get? k' l = none := SMap.get?_eq_none.2 fun x hx => (hp1 x hx).symm
        simp [this]
      · simp [h]

/-- **The states of the trajectories** are those of the server, in whatever order the entries of the response are visited. -/
theorem states_same {order : List (Int × Int) → List (Int × Int)} (ho : ∀ l, (order l).Perm l) {m : List (Int × TrajectoryState)} (hm : SMap.Sorted m) :
    readStates (statesResponse order m) = some m := by
  unfold readStates statesResponse
  obtain ⟨l, hl, hlm⟩ : ∃ l : List (Int × TrajectoryState), order (m.map fun e => (e.1, stateMsg e.2)) = l.map (fun e => (e.1, stateMsg e.2)) ∧ l.Perm m := by
    have hp := ho (m.map fun e => (e.1, stateMsg e.2))
    have hin : ∀ x ∈ order (m.map fun e => (e.1, stateMsg e.2)), ∃ y : Int × TrajectoryState, (y.1, stateMsg y.2) = x := by
      intro x hx
      obtain ⟨y, _, hy⟩ := List.mem_map.1 (hp.mem_iff.1 hx)
      exact ⟨y, hy⟩
    obtain ⟨l, hl⟩ : ∃ l : List (Int × TrajectoryState), l.map (fun e => (e.1, stateMsg e.2)) = order (m.map fun e => (e.1, stateMsg e.2)) := by
      generalize order (m.map fun e => (e.1, stateMsg e.2)) = q at hin
      clear hp
      induction q with
      | nil => exact ⟨[], rfl⟩
      | cons x q ih =>
        obtain ⟨y, hy⟩ := hin x List.mem_cons_self
        obtain ⟨l, hl⟩ := ih fun z hz => hin z (List.mem_cons_of_mem _ hz)
        exact ⟨y :: l, by simp [hy, hl]⟩
    refine ⟨l, hl.symm, ?_⟩
    rw [← hl] at hp
    refine (List.map_perm_map_iff (f := fun e : Int × TrajectoryState => (e.1, stateMsg e.2)) ?_).1 hp
    rintro ⟨a, s⟩ ⟨b, t⟩ h
    simp only [Prod.mk.injEq] at h
    have := toState_msg s
    rw [h.2, toState_msg] at this
    rw [h.1, Option.some.inj this]
  rw [hl]
  have hd : l.Pairwise (fun a b => a.1 ≠ b.1) := by
    have : (m.map Prod.fst).Nodup := by
      rw [List.Nodup, List.pairwise_map]
      exact hm.imp fun h => ne_of_lt h
    have : (l.map Prod.fst).Nodup := (hlm.map Prod.fst).nodup_iff.2 this
    rwa [List.Nodup, List.pairwise_map] at this
  obtain ⟨m', h1, h2, h3⟩ := fillStates_spec l SMap.sorted_nil hd
  rw [h1]
  congr 1
  refine SMap.ext h2 hm ?_
  intro k
  rw [h3, get?_perm hlm hm]
  simp [SMap.get?]

theorem fold_put {K V : Type} [LinearOrder K] : ∀ (l : List (K × V)) {m : List (K × V)}, SMap.Sorted m → SMap.Sorted l →
    SMap.Sorted (l.foldl (fun m e => SMap.put e.1 e.2 m) m) ∧ ∀ k, SMap.get? k (l.foldl (fun m e => SMap.put e.1 e.2 m) m) = (SMap.get? k l).or (SMap.get? k m) := by
  intro l
  induction l with
  | nil => intro m hm _; exact ⟨hm, by simp [SMap.get?]⟩
  | cons e l ih =>
    intro m hm hp
    obtain ⟨h1, h2⟩ := ih (SMap.sorted_put (k := e.1) (v := e.2) hm) hp.tail
    refine ⟨h1, ?_⟩
    intro k
    rw [List.foldl_cons, h2, SMap.get?_put]
    obtain ⟨k', v⟩ := e
    simp only [SMap.get?]
    by_cases h : k' = k
    · subst h
      have : SMap.get? k' l = none := SMap.get?_eq_none.2 fun x hx => ne_of_gt (hp.head x hx)
      simp [this]
    · simp [h]

/-- **The poses of the landmarks** are those of the server. -/
theorem landmarks_same {m : List (String × Rigid)} (hm : SMap.Sorted m) : readLandmarks (landmarksResponse m) = m := by
  unfold readLandmarks landmarksResponse
  rw [List.foldl_map]
  obtain ⟨h1, h2⟩ := fold_put m SMap.sorted_nil hm
  refine SMap.ext h1 hm ?_
  intro k
  exact (h2 k).trans (by simp [SMap.get?])

/-- **The constraints** are those of the server, in order. -/
theorem constraints_same (l : List Constraint) : readConstraints (l.map constraintMsg) = some l := by
  induction l with
  | nil => rfl
  | cons c l ih =>
    have : toTag (constraintMsg c).tag = some c.intra := by
      unfold constraintMsg
      cases c.intra <;> rfl
    rw [List.map_cons, readConstraints, this, ih]
    rfl

/-- **Constraints with an unknown tag** are refused: the client aborts on them, on others it never does. -/
theorem constraints_refused (l : List ConstraintMsg) : readConstraints l = none ↔ ∃ m ∈ l, m.tag ≠ 0 ∧ m.tag ≠ 1 := by
  induction l with
  | nil => simp [readConstraints]
  | cons m l ih =>
    simp only [readConstraints, List.mem_cons, exists_eq_or_imp, ← ih]
    unfold toTag
    split
    · rename_i h
      cases readConstraints l <;> simp [h]
    · split
      · rename_i h
        cases readConstraints l <;> simp [h]
      · rename_i h h'
        simp [h, h']

/-- **The transform from local to global** is that of the server. -/
theorem localToGlobal_same (r : Rigid) : toRigid ((some (rigidMsg r)).getD {}) = r := rfl

/-- **The sensors** for which a trajectory is added are those asked for. -/
theorem sensors_same (l : List Messages.SensorId) : (l.map Messages.sensorIdMsg).mapM Messages.toSensorId = some l := by
  induction l with
  | nil => rfl
  | cons s l ih =>
    rw [List.map_cons, List.mapM_cons, (Messages.sensorId_iff _ s).2 rfl, ih]
    rfl

/-- **Results of local SLAM** arrive as they were, except for the intensities of the range data. -/
theorem result_same (r : Result) : readResult (resultMsg r) = { r with rangeData := Messages.bare r.rangeData } := by
  obtain ⟨t, tm, p, rd, i⟩ := r
  unfold readResult resultMsg
  simp only [Option.getD_some, Messages.rangeData_roundtrip]
  cases i <;> rfl

/-! ### Landmarks -/

/-- What setting the pose of a landmark does: it is never frozen. -/
theorem setLandmark_exact (m : Landmarks) (id : String) (pose : Rigid) (frozen : Bool) :
    handleLandmark m (landmarkRequest id pose frozen) = setLandmark m id pose false := rfl

/-- **Setting a landmark** through the stub is the same exactly if it is not to be frozen. -/
theorem setLandmark_same (m : Landmarks) (id : String) (pose : Rigid) (frozen : Bool) :
    handleLandmark m (landmarkRequest id pose frozen) = setLandmark m id pose frozen ↔ frozen = false := by
  rw [setLandmark_exact]
  constructor
  · intro h
    have := congrArg (SMap.get? id) h
    unfold setLandmark at this
    rw [SMap.get?_put, SMap.get?_put] at this
    simpa using this.symm
  · rintro rfl; rfl

/-! ### Saving and loading -/

variable {P O : Type}

/-- The submap a record is about. -/
def idOf : Record P O → Option Id
  | .submap id => some id
  | _ => none

theorem chunk_roundtrip (r : Record P O) : readStateChunk (chunkOf r) = r := by
  unfold chunkOf
  split <;> rfl

/-- **Saving through the stub** gives what saving without unfinished submaps gives, whatever was asked for. -/
theorem remoteSave_eq (inc : Bool) (s : Snapshot P O) : remoteSave inc s = Serialization.save false s := by
  unfold remoteSave writeStateResponses
  cases Serialization.save false s with
  | none => rfl
  | some rs =>
    simp only [Option.map_some, List.map_map]
    congr 1
    conv_rhs => rw [← List.map_id rs]
    exact List.map_congr_left fun r _ => chunk_roundtrip r

/-- **Unfinished submaps are not saved** although it was asked for: there are states for which saving directly gives more records. -/
theorem unfinished_lost : ∃ s : Snapshot Nat Nat, (∃ acts, PoseGraph.Exec {} acts s.graph) ∧ ∃ rs rs', remoteSave true s = some rs ∧ Serialization.save true s = some rs' ∧
    rs.length < rs'.length ∧ ∃ id, Record.submap id ∈ rs' ∧ Record.submap id ∉ rs := by
  have h : ((PoseGraph.runs {} Serialization.demo).bind fun g => (Serialization.save false ⟨g, fun p => p == 7, [100, 101, 102], [0, 2], [2], [], [], [0]⟩).bind fun rs =>
      (Serialization.save (P := Nat) (O := Nat) true ⟨g, fun p => p == 7, [100, 101, 102], [0, 2], [2], [], [], [0]⟩).map fun rs' =>
        (rs.length, rs'.length, rs.filterMap idOf, rs'.filterMap idOf)) = some (10, 11, [(0, 3)], [(0, 3), (2, 0)]) := rfl
  simp only [Option.bind_eq_some_iff, Option.map_eq_some_iff, Prod.mk.injEq] at h
  obtain ⟨g, h1, rs, h2, rs', h3, h4, h5, h6, h7⟩ := h
  refine ⟨⟨g, fun p => p == 7, [100, 101, 102], [0, 2], [2], [], [], [0]⟩, ⟨_, PoseGraph.runs_exec h1⟩, rs, rs', ?_, h3, by omega, (2, 0), ?_, ?_⟩
  · rw [remoteSave_eq, h2]
  · have : ((2, 0) : Id) ∈ rs'.filterMap idOf := by rw [h7]; decide
    obtain ⟨r, hr, hid⟩ := List.mem_filterMap.1 this
    cases r <;> simp [idOf] at hid
    rwa [← hid]
  · intro hin
    have : ((2, 0) : Id) ∈ rs.filterMap idOf := List.mem_filterMap.2 ⟨_, hin, rfl⟩
    rw [h6] at this
    revert this
    decide

/-- The handler only sees one header, and it comes first. -/
theorem one_header (s : Snapshot P O) (cs : List (StateChunk P O)) (h : writeStateResponses s = some cs) :
    ∃ r l, cs = .header r :: l ∧ ∀ c ∈ l, ∃ d, c = .data d := by
  unfold writeStateResponses at h
  simp only [Option.map_eq_some_iff] at h
  obtain ⟨rs, h1, rfl⟩ := h
  unfold Serialization.save at h1
  split at h1
  · cases h1
  · simp only [Option.some.injEq] at h1
    subst h1
    simp only [List.cons_append, List.nil_append, List.map_cons]
    refine ⟨.header 2, _, rfl, ?_⟩
    intro c hc
    rw [← List.map_cons, ← List.map_cons] at hc
    obtain ⟨r, hr, rfl⟩ := List.mem_map.1 hc
    have : isHeader r = false := by
      simp only [Serialization.submapRecords, List.mem_append, List.mem_cons, List.mem_map] at hr
      rcases hr with rfl | rfl | ((((((⟨_, _, rfl⟩ | ⟨_, _, rfl⟩) | ⟨_, _, rfl⟩) | ⟨_, _, rfl⟩) | ⟨_, _, rfl⟩) | ⟨_, _, rfl⟩) | ⟨_, _, rfl⟩) <;> rfl
    exact ⟨r, by simp [chunkOf, this]⟩

theorem fold_data (frozen : Bool) : ∀ (l : List (Record P O)) (h : LoadHandler P O), h.frozen = frozen →
    (l.map fun r => (⟨.data r, frozen⟩ : LoadRequest P O)).foldl onLoadRequest h = { h with reader := h.reader ++ l } := by
  intro l
  induction l with
  | nil => intro h _; simp
  | cons r l ih =>
    intro h hf
    rw [List.map_cons, List.foldl_cons, ih]
    · simp [onLoadRequest, hf]
    · rfl

theorem deserialize_some {records : List (Record P O)} {v : Nat} {p : PoseGraph.Proto P} {os : List O} {rest : List (Record P O)}
    (h : deserialize records = some (v, p, os, rest)) : records = .header v :: .poseGraph p :: .options os :: rest := by
  unfold deserialize at h
  split at h
  · split at h
    · split at h
      · simp only [Option.some.injEq, Prod.mk.injEq] at h
        obtain ⟨rfl, rfl, rfl, rfl⟩ := h
        rfl
      · cases h
    · cases h
  · cases h

/-- The reader on the server holds the records of the reader of the client, and the flag and the client are right. -/
theorem handler_sees (client : String) (frozen : Bool) {records : List (Record P O)} {requests : List (LoadRequest P O)}
    (h : loadRequests client frozen records = some requests) : requests.foldl onLoadRequest {} = ⟨records, client, frozen⟩ := by
  unfold loadRequests at h
  simp only [Option.bind_eq_bind, Option.bind_eq_some_iff, Option.some.injEq, Prod.exists] at h
  obtain ⟨v, p, os, rest, h1, rfl⟩ := h
  rw [List.foldl_append]
  simp only [List.foldl_cons, List.foldl_nil, onLoadRequest]
  rw [fold_data frozen rest _ rfl, deserialize_some h1]
  rfl

theorem loadRequests_none {client : String} {frozen : Bool} {records : List (Record P O)} : loadRequests client frozen records = none ↔ deserialize records = none := by
  unfold loadRequests
  cases deserialize records with
  | none => simp
  | some r => simp

/-- The trajectories get new ids, each once. -/
structure Fresh (n : Int) (remap : List (Int × Int)) : Prop where
  sorted : SMap.Sorted remap
  below : ∀ k v, SMap.get? k remap = some v → v < n
  inj : ∀ k k' v, SMap.get? k remap = some v → SMap.get? k' remap = some v → k = k'

theorem addTrajectories_fresh : ∀ (trs : List PoseGraph.TrajectoryProto) (os : List O) (n : Int) (remap : List (Int × Int)) (r : List (Int × Int))
    (trs' : List PoseGraph.TrajectoryProto) (added : List (Int × O)), Fresh n remap → addTrajectories n trs os remap = some (r, trs', added) →
    (∃ n', Fresh n' r) ∧ ∀ k v, SMap.get? k r = some v → SMap.get? k remap = some v ∨ n ≤ v := by
  intro trs
  induction trs with
  | nil =>
    intro os n remap r trs' added hf h
    simp only [addTrajectories, Option.some.injEq, Prod.mk.injEq] at h
    obtain ⟨rfl, _, _⟩ := h
    exact ⟨⟨n, hf⟩, fun k v h => Or.inl h⟩
  | cons tr trs ih =>
    intro os n remap r trs' added hf h
    cases os with
    | nil => simp [addTrajectories] at h
    | cons o os =>
      simp only [addTrajectories] at h
      split at h
      · cases h
      · rename_i hnew
        split at h
        · cases h
        · rename_i r1 t1 a1 h1
          simp only [Option.some.injEq, Prod.mk.injEq] at h
          obtain ⟨rfl, _, _⟩ := h
          have hf' : Fresh (n + 1) (SMap.put tr.id n remap) := by
            refine ⟨SMap.sorted_put hf.sorted, ?_, ?_⟩
            · intro k v hk
              rw [SMap.get?_put] at hk
              split at hk
              · cases hk; omega
              · have := hf.below k v hk; omega
            · intro k k' v hk hk'
              rw [SMap.get?_put] at hk hk'
              split at hk <;> split at hk'
              · rename_i a b; rw [← a, ← b]
              · cases hk; have := hf.below _ _ hk'; omega
              · cases hk'; have := hf.below _ _ hk; omega
              · exact hf.inj k k' v hk hk'
          obtain ⟨h2, h3⟩ := ih os (n + 1) _ _ _ _ hf' h1
          refine ⟨h2, ?_⟩
          intro k v hk
          rcases h3 k v hk with h | h
          · rw [SMap.get?_put] at h
            split at h
            · cases h; right; omega
            · exact Or.inl h
          · right; omega

theorem load_remap {n : Int} {use3d frozen : Bool} {records : List (Record P O)} {l : Loaded P O} (h : Serialization.load n use3d frozen records = some l) :
    SMap.Sorted l.remap ∧ (l.remap.map Prod.snd).Nodup ∧ ∀ e ∈ l.remap, n ≤ e.2 := by
  unfold Serialization.load at h
  simp only [Option.bind_eq_bind, Option.bind_eq_some_iff, Option.some.injEq, Prod.exists] at h
  obtain ⟨v, p, os, rest, _, remap, trs, added, h2, cs, _, sp, _, np, _, _, _, calls, _, rfl⟩ := h
  obtain ⟨⟨n', hf⟩, h3⟩ := addTrajectories_fresh _ _ _ _ _ _ _ ⟨SMap.sorted_nil, by simp [SMap.get?], by simp [SMap.get?]⟩ h2
  refine ⟨hf.sorted, ?_, ?_⟩
  · rw [List.Nodup, List.pairwise_map]
    refine hf.sorted.imp_of_mem ?_
    rintro ⟨k, v⟩ ⟨k', v'⟩ hx hy hlt (hv : v = v')
    subst hv
    have := hf.inj k k' v (SMap.get?_of_mem hf.sorted hx) (SMap.get?_of_mem hf.sorted hy)
    subst this
    exact lt_irrefl _ hlt
  · rintro ⟨k, v⟩ he
    rcases h3 k v (SMap.get?_of_mem hf.sorted he) with h | h
    · cases h
    · exact h

theorem register_spec (client : String) : ∀ (l : List (Int × Int)) {clients : List (Int × String)}, (l.map Prod.snd).Nodup → (∀ e ∈ l, SMap.get? e.2 clients = none) →
    ∃ clients', register client clients l = some clients' ∧ ∀ t, SMap.get? t clients' = if t ∈ l.map Prod.snd then some client else SMap.get? t clients := by
  intro l
  induction l with
  | nil => intro clients _ _; exact ⟨clients, rfl, by simp⟩
  | cons e l ih =>
    intro clients hn hf
    rw [List.map_cons, List.nodup_cons] at hn
    obtain ⟨c', h1, h2⟩ := ih (clients := SMap.put e.2 client clients) hn.2 (by
      intro x hx
      rw [SMap.get?_put, if_neg]
      · exact hf x (List.mem_cons_of_mem _ hx)
      · intro h
        exact hn.1 (h ▸ List.mem_map_of_mem (f := Prod.snd) hx))
    refine ⟨c', ?_, ?_⟩
    · rw [register, hf e List.mem_cons_self]
      simpa using h1
    · intro t
      rw [h2, SMap.get?_put]
      by_cases h : e.2 = t
      · simp [h]
      · have h' : ¬ t = e.2 := fun x => h x.symm
        rw [if_neg h, List.map_cons]
        simp only [List.mem_cons, h', false_or]

theorem readRemapping_spec : ∀ (l : List (Int × Int)) {m : List (Int × Int)}, SMap.Sorted m →
    SMap.Sorted (l.foldl (fun m e => if (SMap.get? e.1 m).isSome then m else SMap.put e.1 e.2 m) m) ∧
    ∀ k, SMap.get? k (l.foldl (fun m e => if (SMap.get? e.1 m).isSome then m else SMap.put e.1 e.2 m) m) = (SMap.get? k m).or (SMap.get? k l) := by
  intro l
  induction l with
  | nil => intro m hm; exact ⟨hm, by simp [SMap.get?]⟩
  | cons e l ih =>
    intro m hm
    obtain ⟨k', v⟩ := e
    rw [List.foldl_cons]
    cases hg : SMap.get? k' m with
    | some w =>
      simp only [hg, Option.isSome_some, if_true]
      obtain ⟨h1, h2⟩ := ih hm
      refine ⟨h1, ?_⟩
      intro k
      rw [h2]
      simp only [SMap.get?]
      by_cases h : k' = k
      · subst h; simp [hg]
      · simp [h]
    | none =>
      simp only [hg, Option.isSome_none, Bool.false_eq_true, if_false]
      obtain ⟨h1, h2⟩ := ih (SMap.sorted_put (k := k') (v := v) hm)
      refine ⟨h1, ?_⟩
      intro k
      rw [h2, SMap.get?_put]
      simp only [SMap.get?]
      by_cases h : k' = k
      · subst h; simp [hg]
      · simp [h]

theorem readRemapping_perm {m l : List (Int × Int)} (hm : SMap.Sorted m) (hp : l.Perm m) : readRemapping l = m := by
  obtain ⟨h1, h2⟩ := readRemapping_spec l SMap.sorted_nil
  refine SMap.ext h1 hm ?_
  intro k
  rw [show SMap.get? k (readRemapping l) = _ from h2 k, get?_perm hp hm]
  simp [SMap.get?]

/-- **Loading through the stub** does on the server what loading there does, returns the same remapping, and makes the client the owner of exactly the
trajectories loaded. It fails exactly if loading directly fails. -/
theorem remoteLoad_same (client : String) {n : Int} (use3d frozen : Bool) {order : List (Int × Int) → List (Int × Int)} (ho : ∀ l, (order l).Perm l)
    {clients : List (Int × String)} (hc : ∀ t c, SMap.get? t clients = some c → t < n) (records : List (Record P O)) :
    (∀ l, Serialization.load n use3d frozen records = some l → ∃ clients', remoteLoad client n use3d frozen order clients records = some (l.remap, l, clients') ∧
      ∀ t, SMap.get? t clients' = if t ∈ l.remap.map Prod.snd then some client else SMap.get? t clients) ∧
    (Serialization.load n use3d frozen records = none → remoteLoad client n use3d frozen order clients records = none) := by
  have hnone : deserialize records = none → Serialization.load n use3d frozen records = none := by
    intro h; unfold Serialization.load; rw [h]; rfl
  constructor
  · intro l hl
    obtain ⟨hs, hn, hge⟩ := load_remap hl
    obtain ⟨clients', h1, h2⟩ := register_spec client l.remap (clients := clients) hn (by
      intro e he
      cases h : SMap.get? e.2 clients with
      | none => rfl
      | some c => have := hc _ _ h; have := hge e he; omega)
    refine ⟨clients', ?_, h2⟩
    cases hr : loadRequests client frozen records with
    | none => rw [hnone (loadRequests_none.1 hr)] at hl; cases hl
    | some requests =>
      unfold remoteLoad
      rw [hr]
      simp only [Option.bind_eq_bind, Option.bind_some]
      rw [handler_sees client frozen hr]
      unfold onLoadDone
      simp only [hl, h1, Option.bind_eq_bind, Option.bind_some, readRemapping_perm hs (ho l.remap)]
  · intro hl
    unfold remoteLoad
    cases hr : loadRequests client frozen records with
    | none => rfl
    | some requests =>
      simp only [Option.bind_eq_bind, Option.bind_some]
      rw [handler_sees client frozen hr]
      unfold onLoadDone
      simp only [hl, Option.bind_eq_bind, Option.bind_none]

/-! ### Examples -/

/-- A pose. -/
def pose1 : Rigid := ⟨⟨1, 2, 3⟩, ⟨1, 0, 0, 0⟩⟩

/-- Two submaps, of which the second of trajectory 4 was trimmed. -/
example : (readSubmapPoses (submapPosesResponse [(0, ⟨true, [(0, ⟨3, pose1⟩)]⟩), (4, ⟨true, [(0, ⟨1, pose1⟩), (2, ⟨5, pose1⟩)]⟩)])).map flat =
    some [((0, 0), ⟨3, pose1⟩), ((4, 0), ⟨1, pose1⟩), ((4, 2), ⟨5, pose1⟩)] := by decide +kernel

/-- A node with a local pose and one without. -/
example : (readNodePoses (nodePosesResponse [(1, ⟨true, [(0, ⟨pose1, some (Ticks.fromUniversal 70, pose1)⟩), (1, ⟨pose1, none⟩)]⟩)])).map flat =
    some [((1, 0), ⟨pose1, some (Ticks.fromUniversal 70, pose1)⟩), ((1, 1), ⟨pose1, none⟩)] := by decide +kernel

/-- A response visited backwards. -/
example : readStates (statesResponse List.reverse [(0, .frozen), (1, .finished), (5, .active)]) = some [(0, .frozen), (1, .finished), (5, .active)] := by
  decide +kernel

/-- A response of another program with a new state. -/
example : readStates [(0, 0), (1, 4)] = none := by decide +kernel

example : readConstraints ([⟨(0, 0), (0, 7), pose1, 1, 2, true⟩, ⟨(0, 0), (1, 7), pose1, 3, 4, false⟩].map constraintMsg) =
    some [⟨(0, 0), (0, 7), pose1, 1, 2, true⟩, ⟨(0, 0), (1, 7), pose1, 3, 4, false⟩] := constraints_same _

/-- A landmark that should be frozen. -/
example : handleLandmark [] (landmarkRequest "door" pose1 true) = [("door", (pose1, false))] := rfl

/-- The state of the example of C29 is loaded for a client next to four other trajectories. -/
example : ((PoseGraph.runs {} Serialization.demo).bind (fun g => Serialization.save false ⟨g, fun p => p == 7, [100, 101, 102], [0, 2], [2], [], [], [0]⟩)).bind
    (fun rs => (remoteLoad (P := Nat) (O := Nat) "robot" 4 true false List.reverse [(1, "other")] rs).map (fun r => (r.1, r.2.1.added, r.2.2))) =
    some ([(0, 4), (2, 5)], [(4, 100), (5, 102)], [(1, "other"), (4, "robot"), (5, "robot")]) := by rfl

end Verif.ClientStub
