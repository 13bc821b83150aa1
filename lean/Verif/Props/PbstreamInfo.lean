import Verif.PbstreamInfo
import Verif.Props.Serialization
import Verif.Props.ProtoStream

/-!
# C121: what is reported of a saved state is what is in it

`counts_exact` and `run_iff` say what is reported and when; `saved_report` says it of the files a map builder writes, where the
lines on trajectories and the counts agree (`lines_agree`). `cut_off` is the report on a file that was cut off. A record the tool does
not know is undefined behavior (`unknown_undefined`), while `LoadState` skips it.
-/

namespace Verif.PbstreamInfo

open PoseGraph
open Serialization (Record Snapshot save Present Valid)
open MapById (Id Map at? insert flat WF)

variable {O P : Type}

/-! ### Vocabulary -/

/-- The message is counted under this name. -/
inductive Under : String → Msg O → Prop where
  | submap (c : Content) : Under "submap" (.submap c)
  | node : Under "node" .node
  | trajectoryData : Under "trajectory_data" .trajectoryData
  | imu : Under "imu_data" .imu
  | odometry : Under "odometry_data" .odometry
  | fixedFrame : Under "fixed_frame_pose_data" .fixedFrame
  | landmark : Under "landmark_data" .landmark
  | in2d (g : Bool) (d : Option Bool) : Under "submap_2d" (.submap ⟨some g, d⟩)
  | grid2d (d : Option Bool) : Under "submap_2d_grid" (.submap ⟨some true, d⟩)
  | in3d (g : Bool) (d : Option Bool) : Under "submap_3d" (.submap ⟨d, some g⟩)
  | grid3d (d : Option Bool) : Under "submap_3d_high_resolution_hybrid_grid" (.submap ⟨d, some true⟩)

/-- The names that are reported even if there is nothing. -/
def Always (name : String) : Prop :=
  name ∈ ["submap_2d", "submap_2d_grid", "submap_3d", "submap_3d_high_resolution_hybrid_grid"]

/-- The message is one the tool counts. -/
def Known (m : Msg O) : Prop := ∃ name, Under name m

open Classical in
/-- How many of the messages are counted under the name. -/
noncomputable def number (name : String) (ms : List (Msg O)) : Nat := (ms.filter fun m => decide (Under name m)).length

/-! ### Counting -/

theorem get?_bump {n n' : String} {c : Counts} :
    SMap.get? n' (bump n c) = if n = n' then some ((SMap.get? n' c).getD 0 + 1) else SMap.get? n' c := by
  unfold bump
  rw [SMap.get?_put]
  split
  · rename_i h
    rw [h]
  · rfl

theorem known_iff {m : Msg O} : Known m ↔ (caseName m).isSome := by
  constructor
  · rintro ⟨n, h⟩
    cases h <;> rfl
  · intro h
    cases m <;> first | exact ⟨_, by constructor⟩ | cases h

theorem under_submap {n : String} {s : Content} : Under (O := O) n (.submap s) ↔ n = "submap" ∨
    (s.in2d.isSome ∧ n = "submap_2d") ∨ (s.in2d = some true ∧ n = "submap_2d_grid") ∨
    (s.in3d.isSome ∧ n = "submap_3d") ∨ (s.in3d = some true ∧ n = "submap_3d_high_resolution_hybrid_grid") := by
  constructor
  · intro h
    cases h <;> simp
  · rintro (rfl | ⟨h, rfl⟩ | ⟨h, rfl⟩ | ⟨h, rfl⟩ | ⟨h, rfl⟩)
    · exact .submap s
    · obtain ⟨g, hg⟩ := Option.isSome_iff_exists.1 h
      obtain ⟨a, b⟩ := s
      cases hg
      exact .in2d _ _
    · obtain ⟨a, b⟩ := s
      cases h
      exact .grid2d _
    · obtain ⟨g, hg⟩ := Option.isSome_iff_exists.1 h
      obtain ⟨a, b⟩ := s
      cases hg
      exact .in3d _ _
    · obtain ⟨a, b⟩ := s
      cases h
      exact .grid3d _

open Classical in
/-- One message adds one to each count it belongs to. -/
theorem get?_count {c c' : Counts} {m : Msg O} (h : count c m = some c') (n : String) :
    SMap.get? n c' = if Under n m then some ((SMap.get? n c).getD 0 + 1) else SMap.get? n c := by
  have one : ∀ {k : String} {m : Msg O}, (Under n m ↔ k = n) →
      SMap.get? n (bump k c) = if Under n m then some ((SMap.get? n c).getD 0 + 1) else SMap.get? n c := by
    intro k m hk
    rw [get?_bump]
    simp only [hk]
  cases m with
  | header v => cases h
  | poseGraph t => cases h
  | options l => cases h
  | notSet => cases h
  | node => cases h; exact one ⟨fun h => by cases h; rfl, by rintro rfl; exact .node⟩
  | trajectoryData => cases h; exact one ⟨fun h => by cases h; rfl, by rintro rfl; exact .trajectoryData⟩
  | imu => cases h; exact one ⟨fun h => by cases h; rfl, by rintro rfl; exact .imu⟩
  | odometry => cases h; exact one ⟨fun h => by cases h; rfl, by rintro rfl; exact .odometry⟩
  | fixedFrame => cases h; exact one ⟨fun h => by cases h; rfl, by rintro rfl; exact .fixedFrame⟩
  | landmark => cases h; exact one ⟨fun h => by cases h; rfl, by rintro rfl; exact .landmark⟩
  | submap s =>
    cases h
    simp only [under_submap]
    obtain ⟨a, b⟩ := s
    rcases a with _ | _ | _ <;> rcases b with _ | _ | _ <;>
      simp only [bumpContent, get?_bump, if_true, if_false, Option.isSome_some, Option.isSome_none, true_and, false_and,
        or_false, false_or, reduceCtorEq, Bool.false_eq_true, Option.some.injEq] <;>
      (by_cases h1 : n = "submap"
       · subst h1; simp
       by_cases h2 : n = "submap_2d"
       · subst h2; simp
       by_cases h3 : n = "submap_2d_grid"
       · subst h3; simp
       by_cases h4 : n = "submap_3d"
       · subst h4; simp
       by_cases h5 : n = "submap_3d_high_resolution_hybrid_grid"
       · subst h5; simp
       simp [h1, h2, h3, h4, h5, Ne.symm h1, Ne.symm h2, Ne.symm h3, Ne.symm h4, Ne.symm h5])

theorem number_cons (n : String) (m : Msg O) (ms : List (Msg O)) [Decidable (Under n m)] :
    number n (m :: ms) = (if Under n m then 1 else 0) + number n ms := by
  unfold number
  rw [List.filter_cons]
  by_cases h : Under n m
  · simp [h]; omega
  · simp [h]

theorem get?_countAll {ms : List (Msg O)} : ∀ {c c' : Counts}, countAll c ms = some c' → ∀ n,
    SMap.get? n c' = if number n ms = 0 then SMap.get? n c else some ((SMap.get? n c).getD 0 + number n ms) := by
  classical
  induction ms with
  | nil =>
    intro c c' h n
    cases h
    simp [number]
  | cons m ms ih =>
    intro c c' h n
    simp only [countAll] at h
    split at h
    · cases h
    rename_i c1 h1
    rw [ih h n, get?_count h1 n, number_cons]
    by_cases hu : Under n m
    · simp only [hu, if_true, Option.getD_some]
      split
      · rename_i h0; simp [h0]
      · simp; omega
    · simp only [hu, if_false, Nat.zero_add]

theorem sorted_bump {n : String} {c : Counts} (h : SMap.Sorted c) : SMap.Sorted (bump n c) := SMap.sorted_put h

theorem sorted_count {c c' : Counts} {m : Msg O} (h : count c m = some c') (hc : SMap.Sorted c) : SMap.Sorted c' := by
  cases m with
  | submap s =>
    cases h
    obtain ⟨a, b⟩ := s
    rcases a with _ | _ | _ <;> rcases b with _ | _ | _ <;>
      simp only [bumpContent, if_true, if_false, Bool.false_eq_true] <;> repeat (first | exact hc | apply sorted_bump)
  | header v => cases h
  | poseGraph t => cases h
  | options l => cases h
  | notSet => cases h
  | node => cases h; exact sorted_bump hc
  | trajectoryData => cases h; exact sorted_bump hc
  | imu => cases h; exact sorted_bump hc
  | odometry => cases h; exact sorted_bump hc
  | fixedFrame => cases h; exact sorted_bump hc
  | landmark => cases h; exact sorted_bump hc

theorem sorted_countAll {ms : List (Msg O)} : ∀ {c c' : Counts}, countAll c ms = some c' → SMap.Sorted c → SMap.Sorted c' := by
  induction ms with
  | nil => intro c c' h hc; cases h; exact hc
  | cons m ms ih =>
    intro c c' h hc
    simp only [countAll] at h
    split at h
    · cases h
    rename_i c1 h1
    exact ih h (sorted_count h1 hc)

theorem sorted_initial : SMap.Sorted initialCounts := by
  simp only [SMap.Sorted, initialCounts, List.pairwise_cons, List.mem_cons, List.not_mem_nil, or_false, forall_eq_or_imp,
    forall_eq, String.lt_iff_toList_lt, List.Pairwise.nil, and_true, false_imp_iff, implies_true]
  decide

theorem count_isSome {c : Counts} {m : Msg O} : (count c m).isSome ↔ Known m := by
  rw [known_iff]
  cases m <;> simp [count, caseName]

theorem countAll_isSome {ms : List (Msg O)} : ∀ {c : Counts}, (countAll c ms).isSome ↔ ∀ m ∈ ms, Known m := by
  induction ms with
  | nil => intro c; simp [countAll]
  | cons m ms ih =>
    intro c
    rw [List.forall_mem_cons, ← count_isSome (c := c)]
    simp only [countAll]
    cases h : count c m with
    | none => simp
    | some c' => simp [ih]

/-! ### The report -/

/-- C121, first part: a report is given exactly if the stream begins with a header of version 1 or 2, the pose graph and as
many options as trajectories, and all that follows is known. -/
theorem run_iff {ms : List (Msg O)} : (run ms).isSome ↔ ∃ v trs os rest,
    ms = .header v :: .poseGraph trs :: .options os :: rest ∧ (v = 1 ∨ v = 2) ∧ trs.length = os.length ∧
    ∀ m ∈ rest, Known m := by
  constructor
  · intro h
    unfold run at h
    split at h
    · rename_i v trs os rest
      split at h
      · rename_i hv
        split at h
        · rename_i hl
          exact ⟨v, trs, os, rest, rfl, hv.symm, hl, countAll_isSome.1 (by simpa using h)⟩
        · cases h
      · cases h
    · cases h
  · rintro ⟨v, trs, os, rest, rfl, hv, hl, hk⟩
    simp only [run, hv.symm, hl, if_true, Option.isSome_map]
    exact countAll_isSome.2 hk

/-- C121, second part: the report names each kind of record once, in alphabetical order; with each name is the number of records
of this kind, and exactly the kinds that occur and the four kinds of submaps are named. The rest of the report is the header, the
options and the numbers of nodes and submaps of the pose graph. -/
theorem counts_exact {ms : List (Msg O)} {r : Report O} (h : run ms = some r) : ∃ trs rest,
    ms = .header r.version :: .poseGraph trs :: .options r.options :: rest ∧
    r.trajectories = trs.map (fun t => (t.id, t.nodes.length, t.submaps.length)) ∧
    (r.counts.map (·.1)).Pairwise (· < ·) ∧
    ∀ n k, (n, k) ∈ r.counts ↔ k = number n rest ∧ (0 < k ∨ Always n) := by
  unfold run at h
  split at h
  · rename_i v trs os rest
    split at h
    · split at h
      · obtain ⟨c, hc, rfl⟩ := Option.map_eq_some_iff.1 h
        have hs := sorted_countAll hc sorted_initial
        refine ⟨trs, rest, rfl, rfl, List.pairwise_map.2 hs, fun n k => ?_⟩
        rw [← SMap.get?_iff_mem hs, get?_countAll hc n]
        by_cases ha : Always n
        · have hi : SMap.get? n initialCounts = some 0 := by
            simp only [Always, List.mem_cons, List.not_mem_nil, or_false] at ha
            rcases ha with rfl | rfl | rfl | rfl <;> rfl
          simp only [hi, ha, or_true, and_true, Option.getD_some, Nat.zero_add]
          split
          · rename_i h0; rw [h0, Option.some.injEq]; exact eq_comm
          · rw [Option.some.injEq]; exact eq_comm
        · have hi : SMap.get? n initialCounts = none := by
            rw [SMap.get?_eq_none]
            intro e he hn
            exact ha (by rw [← hn]; exact List.mem_map_of_mem (f := Prod.fst) he)
          simp only [hi, ha, or_false, Option.getD_none, Nat.zero_add]
          split
          · rename_i h0
            constructor
            · intro hh; cases hh
            · rintro ⟨rfl, hp⟩; omega
          · rename_i h0
            rw [Option.some.injEq]
            constructor
            · rintro rfl; exact ⟨rfl, by omega⟩
            · rintro ⟨rfl, -⟩; rfl
      · cases h
    · cases h
  · cases h

/-- C121, the limit: one record of a kind the tool does not know, wherever it is, is undefined behavior. -/
theorem unknown_undefined {ms : List (Msg O)} {m : Msg O} {a b c : Msg O} (h : ms = a :: b :: c :: ms.drop 3)
    (hm : m ∈ ms.drop 3) (hk : ¬ Known m) : run ms = none := by
  rw [← Option.not_isSome_iff_eq_none, run_iff]
  rintro ⟨v, trs, os, rest, rfl, -, -, hr⟩
  exact hk (hr m (by simpa using hm))

/-! ### Files of a map builder -/

/-- A measure of the entries of a pose graph that grows by one in the entry of a trajectory grows by one. -/
theorem sum_modify {l : List TrajectoryProto} (hl : Unique l) {t : Int} {f : TrajectoryProto → TrajectoryProto}
    {μ : TrajectoryProto → Nat} (hf : ∀ e, μ (f e) = μ e + 1) (h0 : μ { id := t } = 0) :
    ((protoModify l t f).map μ).sum = (l.map μ).sum + 1 := by
  have main : ∀ {l : List TrajectoryProto}, (l.map (·.id)).Nodup → t ∈ l.map (·.id) →
      ((l.map (fun e => if e.id = t then f e else e)).map μ).sum = (l.map μ).sum + 1 := by
    intro l
    induction l with
    | nil => intro _ h; cases h
    | cons e l ih =>
      intro hn ht
      rw [List.map_cons, List.nodup_cons] at hn
      by_cases he : e.id = t
      · have : l.map (fun e => if e.id = t then f e else e) = l := by
          conv_rhs => rw [← List.map_id l]
          apply List.map_congr_left
          intro e' he'
          have : e'.id ≠ t := fun h => hn.1 (by rw [he, ← h]; exact List.mem_map_of_mem he')
          simp [this]
        simp only [List.map_cons, he, if_true, this, List.sum_cons, hf]
        omega
      · have ht' : t ∈ l.map (·.id) := by
          rcases List.mem_cons.1 (by simpa only [List.map_cons] using ht) with h | h
          · exact absurd h.symm he
          · exact h
        have := ih hn.2 ht'
        simp only [List.map_cons, he, if_false, List.sum_cons] at this ⊢
        omega
  have hsum : ((protoTrajectory l t).map μ).sum = (l.map μ).sum := by
    unfold protoTrajectory
    split
    · rfl
    · simp [h0]
  unfold protoModify
  rw [main (unique_trajectory hl t), hsum]
  obtain ⟨e, he, h⟩ := trajectory_exists l t
  exact List.mem_map.2 ⟨e, he, h⟩

theorem sum_modify_same {l : List TrajectoryProto} {t : Int} {f : TrajectoryProto → TrajectoryProto}
    {μ : TrajectoryProto → Nat} (hf : ∀ e, μ (f e) = μ e) (h0 : μ { id := t } = 0) :
    ((protoModify l t f).map μ).sum = (l.map μ).sum := by
  unfold protoModify protoTrajectory
  rw [List.map_map]
  have : μ ∘ (fun e => if e.id = t then f e else e) = μ := by
    funext e
    simp only [Function.comp]
    split <;> simp [hf]
  rw [this]
  split
  · rfl
  · simp [h0]

theorem sum_protoNodes {es : List (Id × Unit)} : ∀ {l : List TrajectoryProto}, Unique l →
    ((protoNodes es l).map (·.nodes.length)).sum = (l.map (·.nodes.length)).sum + es.length ∧
    ((protoNodes es l).map (·.submaps.length)).sum = (l.map (·.submaps.length)).sum := by
  induction es with
  | nil => intro l _; simp [protoNodes]
  | cons e es ih =>
    intro l hl
    have h := ih (unique_modify (f := fun p => { p with nodes := p.nodes ++ [e.1.2] }) (t := e.1.1) hl (fun _ => rfl))
    simp only [protoNodes]
    rw [h.1, h.2, sum_modify hl (μ := (·.nodes.length)) (by intro e; simp) rfl,
      sum_modify_same (μ := (·.submaps.length)) (by intro e; rfl) rfl]
    simp only [List.length_cons, and_true]
    omega

theorem sum_protoSubmaps {inc : Bool} {fin : Nat → Bool} {es : List (Id × Submap)} : ∀ {l : List TrajectoryProto}
    {u : List Id}, Unique l →
    ((protoSubmaps inc fin es l u).1.map (·.submaps.length)).sum = (l.map (·.submaps.length)).sum +
      (es.filter (fun e => !(inc == false && fin e.2.ptr == false))).length ∧
    ((protoSubmaps inc fin es l u).1.map (·.nodes.length)).sum = (l.map (·.nodes.length)).sum := by
  induction es with
  | nil => intro l u _; simp [protoSubmaps]
  | cons e es ih =>
    intro l u hl
    unfold protoSubmaps
    split
    · rename_i h
      have := ih (u := e.1 :: u) (unique_trajectory hl e.1.1)
      have h1 : ∀ μ : TrajectoryProto → Nat, μ { id := e.1.1 } = 0 →
          ((protoTrajectory l e.1.1).map μ).sum = (l.map μ).sum := by
        intro μ h0
        unfold protoTrajectory
        split
        · rfl
        · simp [h0]
      rw [this.1, this.2, h1 _ rfl, h1 _ rfl]
      simp [h.1, h.2]
    · rename_i h
      have := ih (u := u)
        (unique_modify (f := fun p => { p with submaps := p.submaps ++ [e.1.2] }) (t := e.1.1) hl (fun _ => rfl))
      rw [this.1, this.2, sum_modify hl (μ := (·.submaps.length)) (by intro e; simp) rfl,
        sum_modify_same (μ := (·.nodes.length)) (by intro e; rfl) rfl]
      have hb : (!(inc == false && fin e.2.ptr == false)) = true := by
        cases inc <;> cases hf : fin e.2.ptr <;> simp_all
      rw [List.filter_cons, if_pos hb, List.length_cons]
      exact ⟨by omega, rfl⟩

/-- The submaps that are written to a file. -/
def written (inc : Bool) (s : Snapshot P O) : List (Id × Submap) :=
  (flat s.graph.submaps).filter (fun e => inc || s.fin e.2.ptr)

theorem proto_sums {inc : Bool} {fin : Nat → Bool} {g : State P} :
    ((toProto inc fin g g g).trajectories.map (·.nodes.length)).sum = (flat g.nodes).length ∧
    ((toProto inc fin g g g).trajectories.map (·.submaps.length)).sum =
      ((flat g.submaps).filter (fun e => inc || fin e.2.ptr)).length := by
  have hu : PoseGraph.Unique ([] : List TrajectoryProto) := List.nodup_nil
  have h1 := sum_protoSubmaps (inc := inc) (fin := fin) (es := flat g.submaps) (u := []) hu
  have h2 := (protoSubmaps_spec (inc := inc) (fin := fin) (es := flat g.submaps) (u := []) hu).1
  have h3 := sum_protoNodes (es := flat g.nodes) h2
  have hb : (fun e : Id × Submap => !(inc == false && fin e.2.ptr == false)) = fun e => inc || fin e.2.ptr := by
    funext e
    cases inc <;> cases fin e.2.ptr <;> rfl
  rw [hb] at h1
  simp only [List.map_nil, List.sum_nil, Nat.zero_add] at h1
  constructor
  · show ((protoNodes _ _).map _).sum = _
    rw [h3.1, h1.2, Nat.zero_add]
  · show ((protoNodes _ _).map _).sum = _
    rw [h3.2, h1.1]

theorem number_append (n : String) (a b : List (Msg O)) : number n (a ++ b) = number n a + number n b := by
  simp [number]

theorem number_map {A : Type} (n : String) (l : List A) {f : A → Msg O} (h : ∀ a ∈ l, Under n (f a)) :
    number n (l.map f) = l.length := by
  unfold number
  rw [List.filter_eq_self.2, List.length_map]
  intro m hm
  obtain ⟨a, ha, rfl⟩ := List.mem_map.1 hm
  simpa using h a ha

theorem number_map_none {A : Type} (n : String) (l : List A) {f : A → Msg O} (h : ∀ a ∈ l, ¬ Under n (f a)) :
    number n (l.map f) = 0 := by
  unfold number
  rw [List.length_eq_zero_iff, List.filter_eq_nil_iff]
  intro m hm
  obtain ⟨a, ha, rfl⟩ := List.mem_map.1 hm
  simpa using h a ha

theorem not_submap {n : String} {s : Content} (h : n ∈ ["node", "trajectory_data", "imu_data", "odometry_data",
    "fixed_frame_pose_data", "landmark_data"]) : ¬ Under (O := O) n (.submap s) := by
  rw [under_submap]
  simp only [List.mem_cons, List.not_mem_nil, or_false] at h
  rcases h with rfl | rfl | rfl | rfl | rfl | rfl <;> simp

/-- C121 for the files a map builder writes: the tool reports exactly if the file has an entry with options for each trajectory
of its pose graph (which is when it can be loaded), and then the counts are the numbers of submaps written, nodes, and sensor
data, landmark observations and trajectory data of the map builder. -/
theorem saved_report {inc : Bool} {s : Snapshot P O} {rs : List (Record P O)} (hs : save inc s = some rs)
    (content : Id → Content) :
    ((run (rs.map (ofRecord content))).isSome ↔ (Serialization.deserialize rs).isSome) ∧
    ∀ r, run (rs.map (ofRecord content)) = some r →
      r.version = 2 ∧
      r.trajectories = (toProto inc s.fin s.graph s.graph s.graph).trajectories.map
        (fun t => (t.id, t.nodes.length, t.submaps.length)) ∧
      (∀ k, ("submap", k) ∈ r.counts ↔ k = (written inc s).length ∧ 0 < k) ∧
      (∀ k, ("node", k) ∈ r.counts ↔ k = (flat s.graph.nodes).length ∧ 0 < k) ∧
      (∀ k, ("trajectory_data", k) ∈ r.counts ↔ k = s.trajectoryData.length ∧ 0 < k) ∧
      (∀ k, ("imu_data", k) ∈ r.counts ↔ k = s.imu.length ∧ 0 < k) ∧
      (∀ k, ("odometry_data", k) ∈ r.counts ↔ k = s.odometry.length ∧ 0 < k) ∧
      (∀ k, ("fixed_frame_pose_data", k) ∈ r.counts ↔ k = s.fixedFrame.length ∧ 0 < k) ∧
      (∀ k, ("landmark_data", k) ∈ r.counts ↔ k = s.landmarks.length ∧ 0 < k) := by
  unfold save at hs
  split at hs
  · cases hs
  rename_i os hos
  rw [Option.some.injEq] at hs
  subst hs
  have hb : (fun e : Id × Submap => !(inc == false && s.fin e.2.ptr == false)) = fun e => inc || s.fin e.2.ptr := by
    funext e
    cases inc <;> cases s.fin e.2.ptr <;> rfl
  simp only [Serialization.submapRecords, hb, List.append_assoc, List.cons_append, List.nil_append, List.map_cons, List.map_append,
    List.map_map]
  rw [show (flat s.graph.submaps).filter (fun e => inc || s.fin e.2.ptr) = written inc s from rfl]
  constructor
  · rw [run_iff]
    simp only [ofRecord, Serialization.deserialize, List.cons.injEq, Msg.header.injEq, Msg.poseGraph.injEq, Msg.options.injEq]
    constructor
    · rintro ⟨v, trs, os', rest, ⟨rfl, rfl, rfl, rfl⟩, -, hl, -⟩
      simp [hl]
    · intro h
      refine ⟨_, _, _, _, ⟨rfl, rfl, rfl, rfl⟩, Or.inr rfl, ?_, ?_⟩
      · by_contra hl
        simp [hl] at h
      · intro m hm
        rw [known_iff]
        simp only [List.mem_append, List.mem_map] at hm
        rcases hm with ⟨a, -, rfl⟩ | ⟨a, -, rfl⟩ | ⟨a, -, rfl⟩ | ⟨a, -, rfl⟩ | ⟨a, -, rfl⟩ | ⟨a, -, rfl⟩ | ⟨a, -, rfl⟩ <;> rfl
  · intro r hr
    obtain ⟨trs, rest, he, h1, -, h3⟩ := counts_exact hr
    simp only [ofRecord, List.cons.injEq, Msg.header.injEq, Msg.poseGraph.injEq, Msg.options.injEq] at he
    obtain ⟨hv, htr, hos', rfl⟩ := he
    have key : ∀ {n : String} {j : Nat} {rest : List (Msg O)}, (∀ k, (n, k) ∈ r.counts ↔ k = number n rest ∧ (0 < k ∨ Always n)) →
        ¬ Always n → number n rest = j → ∀ k, (n, k) ∈ r.counts ↔ k = j ∧ 0 < k := by
      intro n j rest h3 ha hj k
      rw [h3 k, hj]
      simp [ha]
    have const : ∀ {A : Type} (n name : String) (l : List A) {f : A → Msg O}, (∀ a, Under n (f a) ↔ n = name) →
        number n (l.map f) = if n = name then l.length else 0 := by
      intro A n name l f hf
      split
      · rename_i h
        exact number_map n l (fun a _ => (hf a).2 h)
      · rename_i h
        exact number_map_none n l (fun a _ hu => h ((hf a).1 hu))
    have hS : number "submap" ((written inc s).map (ofRecord (O := O) content ∘ fun e => Record.submap (P := P) e.1)) =
        (written inc s).length := number_map _ _ (fun a _ => .submap _)
    have hS' : ∀ n ∈ ["node", "trajectory_data", "imu_data", "odometry_data", "fixed_frame_pose_data", "landmark_data"],
        number n ((written inc s).map (ofRecord (O := O) content ∘ fun e => Record.submap (P := P) e.1)) = 0 :=
      fun n hn => number_map_none _ _ (fun a _ => not_submap hn)
    have hN : ∀ n, number n ((flat s.graph.nodes).map (ofRecord (O := O) content ∘ fun e => Record.node (P := P) e.1)) =
        if n = "node" then (flat s.graph.nodes).length else 0 :=
      fun n => const n _ _ (fun a => ⟨fun h => by cases h; rfl, by rintro rfl; exact .node⟩)
    have hT : ∀ n, number n (s.trajectoryData.map (ofRecord (O := O) content ∘ Record.trajectoryData (P := P))) =
        if n = "trajectory_data" then s.trajectoryData.length else 0 :=
      fun n => const n _ _ (fun a => ⟨fun h => by cases h; rfl, by rintro rfl; exact .trajectoryData⟩)
    have hI : ∀ n, number n (s.imu.map (ofRecord (O := O) content ∘ Record.imu (P := P))) =
        if n = "imu_data" then s.imu.length else 0 :=
      fun n => const n _ _ (fun a => ⟨fun h => by cases h; rfl, by rintro rfl; exact .imu⟩)
    have hO : ∀ n, number n (s.odometry.map (ofRecord (O := O) content ∘ Record.odometry (P := P))) =
        if n = "odometry_data" then s.odometry.length else 0 :=
      fun n => const n _ _ (fun a => ⟨fun h => by cases h; rfl, by rintro rfl; exact .odometry⟩)
    have hF : ∀ n, number n (s.fixedFrame.map (ofRecord (O := O) content ∘ Record.fixedFrame (P := P))) =
        if n = "fixed_frame_pose_data" then s.fixedFrame.length else 0 :=
      fun n => const n _ _ (fun a => ⟨fun h => by cases h; rfl, by rintro rfl; exact .fixedFrame⟩)
    have hL : ∀ n, number n (s.landmarks.map (ofRecord (O := O) content ∘ Record.landmark (P := P))) =
        if n = "landmark_data" then s.landmarks.length else 0 :=
      fun n => const n _ _ (fun a => ⟨fun h => by cases h; rfl, by rintro rfl; exact .landmark⟩)
    refine ⟨hv.symm, by rw [h1, ← htr], ?_, ?_, ?_, ?_, ?_, ?_, ?_⟩ <;>
      refine key (h3 _) (by simp [Always]) ?_ <;> simp only [number_append]
    all_goals
      first
        | rw [hS]
        | rw [hS' _ (by simp)]
      simp [hN, hT, hI, hO, hF, hL]

/-- C121, the two parts of a report on a saved file agree: the nodes and submaps of the lines on trajectories add up to the
numbers of node and submap records. -/
theorem lines_agree {inc : Bool} {s : Snapshot P O} {rs : List (Record P O)} (hs : save inc s = some rs)
    (content : Id → Content) {r : Report O} (hr : run (rs.map (ofRecord content)) = some r) :
    (r.trajectories.map (·.2.1)).sum = (flat s.graph.nodes).length ∧
    (r.trajectories.map (·.2.2)).sum = (written inc s).length := by
  obtain ⟨-, h, -⟩ := (saved_report hs content).2 r hr
  rw [h, List.map_map, List.map_map]
  exact proto_sums

/-! ### Files that were cut off -/

/-- C121, files that were cut off: of a file for which there is a report, the first `n` bytes are reported on exactly if the first
three records are whole; the report then differs only in the counts, which may be smaller. Nothing tells that the file is not
complete. -/
theorem cut_off {c : ProtoStream.Codec (Msg O)} (hc : c.Lawful) {ms : List (Msg O)} {r : Report O} (h : run ms = some r)
    (n : Nat) :
    ((runFile c ((ProtoStream.writeFile c ms).take n)).isSome ↔ (ProtoStream.writeFile c (ms.take 3)).length ≤ n) ∧
    ∀ r', runFile c ((ProtoStream.writeFile c ms).take n) = some r' →
      r'.version = r.version ∧ r'.options = r.options ∧ r'.trajectories = r.trajectories ∧
      ∀ name k', (name, k') ∈ r'.counts → ∃ k, (name, k) ∈ r.counts ∧ k' ≤ k := by
  obtain ⟨trs, rest, hms, htr, -, hcounts⟩ := counts_exact h
  obtain ⟨v, trs', os, rest', hms', hv, hl, hk⟩ := run_iff.1 (by rw [h]; rfl)
  rw [hms] at hms'
  simp only [List.cons.injEq, Msg.header.injEq, Msg.poseGraph.injEq, Msg.options.injEq] at hms'
  obtain ⟨rfl, rfl, rfl, rfl⟩ := hms'
  have hlen : ∀ l : List (Msg O), 8 ≤ (ProtoStream.writeFile c l).length := by
    intro l
    simp [ProtoStream.writeFile, ProtoStream.writeSize_length]
  by_cases hn : 8 ≤ n
  swap
  · have hnone : runFile c ((ProtoStream.writeFile c ms).take n) = none := by
      unfold runFile
      rw [ProtoStream.cut_in_magic_aborts ms (by omega)]
    rw [hnone]
    refine ⟨⟨fun h => by simp at h, fun h => ?_⟩, fun r' h => by cases h⟩
    have := hlen (ms.take 3)
    omega
  obtain ⟨k, hkl, hread, hle, hlt⟩ := ProtoStream.truncated_reads_prefix_partial hc ms hn
  have hrun : runFile c ((ProtoStream.writeFile c ms).take n) = run (ms.take k) := by
    unfold runFile
    rw [hread]
  have mono : ∀ {a b : Nat}, a ≤ b →
      (ProtoStream.writeFile c (ms.take a)).length ≤ (ProtoStream.writeFile c (ms.take b)).length := by
    intro a b hab
    have : ms.take b = ms.take a ++ (ms.take b).drop a := by
      conv_lhs => rw [← List.take_append_drop a (ms.take b)]
      rw [List.take_take, Nat.min_eq_left hab]
    rw [this]
    simp [ProtoStream.writeFile]
  rw [hrun]
  have hpre : 3 ≤ k → ms.take k = .header r.version :: .poseGraph trs :: .options r.options :: rest.take (k - 3) := by
    intro hk3
    obtain ⟨j, rfl⟩ : ∃ j, k = j + 3 := ⟨k - 3, by omega⟩
    rw [hms]
    simp
  refine ⟨⟨fun hsome => ?_, fun hle3 => ?_⟩, fun r' hr' => ?_⟩
  · obtain ⟨v', t', o', rest', he, -⟩ := run_iff.1 hsome
    have : 3 ≤ k := by
      have := congrArg List.length he
      simp only [List.length_take, List.length_cons] at this
      omega
    exact (mono this).trans hle
  · have hk3 : 3 ≤ k := by
      by_contra hcon
      have h1 : k < ms.length := by
        rw [hms]
        simp only [List.length_cons]
        omega
      have := hlt h1
      have := mono (show k + 1 ≤ 3 by omega)
      omega
    rw [hpre hk3, run_iff]
    exact ⟨_, _, _, _, rfl, hv, hl, fun m hm => hk m (List.mem_of_mem_take hm)⟩
  · obtain ⟨v', t', o', rest', he, -⟩ := run_iff.1 (by rw [hr']; rfl)
    have hk3 : 3 ≤ k := by
      have := congrArg List.length he
      simp only [List.length_take, List.length_cons] at this
      omega
    obtain ⟨t2, rest2, he2, ht2, -, hc2⟩ := counts_exact hr'
    rw [hpre hk3] at he2
    simp only [List.cons.injEq, Msg.header.injEq, Msg.poseGraph.injEq, Msg.options.injEq] at he2
    obtain ⟨e1, rfl, e2, rfl⟩ := he2
    refine ⟨e1.symm, e2.symm, by rw [ht2, htr], fun name k' hm => ?_⟩
    obtain ⟨rfl, hp⟩ := (hc2 name k').1 hm
    have hle' : number name (rest.take (k - 3)) ≤ number name rest := by
      conv_rhs => rw [← List.take_append_drop (k - 3) rest]
      rw [number_append]
      omega
    exact ⟨number name rest, (hcounts name _).2 ⟨rfl, hp.imp (fun h => by omega) id⟩, hle'⟩

/-! ### Examples -/

def exFile : List (Msg Nat) :=
  [.header 2, .poseGraph [⟨0, [0, 1], [0, 1, 2]⟩, ⟨3, [0], [5]⟩], .options [10, 13],
    .submap ⟨some true, none⟩, .submap ⟨some false, none⟩, .submap ⟨none, some true⟩, .node, .node, .node, .node,
    .trajectoryData, .landmark]

/-- Two trajectories; the second submap has no grid. Kinds that do not occur are not named, except for the four of submaps. -/
example : run exFile = some ⟨2, [10, 13], [(0, 3, 2), (3, 1, 1)], [("landmark_data", 1), ("node", 4), ("submap", 3),
    ("submap_2d", 2), ("submap_2d_grid", 1), ("submap_3d", 1), ("submap_3d_high_resolution_hybrid_grid", 1),
    ("trajectory_data", 1)]⟩ := by
  decide +kernel

/-- A file with a second pose graph record, as a map builder may be given it. -/
def exTwice : List (Record Nat Nat) :=
  [.header 2, .poseGraph { trajectories := [⟨0, [], [0]⟩] }, .options [10], .node (0, 0), .poseGraph {}]

/-- `LoadState` skips the second pose graph; for the tool it is undefined behavior. -/
example : (Serialization.load 0 false false exTwice).isSome ∧ run (exTwice.map (ofRecord fun _ => {})) = none :=
  ⟨rfl, unknown_undefined (m := .poseGraph []) rfl (by simp [exTwice, ofRecord])
    (by rw [known_iff]; simp [caseName])⟩

/-- The state saved in the example of C29 without its unfinished submaps. -/
example : ((runs {} Serialization.demo).bind (fun g => save false ⟨g, fun p => p == 7, [100, 101, 102], [0, 2], [2], [], [], [0]⟩)).bind
    (fun rs => (run (rs.map (ofRecord fun _ => ⟨some true, none⟩))).map (fun r => (r.options, r.trajectories, r.counts))) =
    some ([100, 102], [(0, 1, 1), (2, 1, 0)], [("imu_data", 1), ("landmark_data", 1), ("node", 2), ("submap", 1),
      ("submap_2d", 1), ("submap_2d_grid", 1), ("submap_3d", 0), ("submap_3d_high_resolution_hybrid_grid", 0),
      ("trajectory_data", 2)]) := by
  decide +kernel

end Verif.PbstreamInfo
