import Verif.Props.OptimizationProblem3D
import Verif.Props.OptimizationTrim

/-!
# C107: constants, executions and trimming of the optimization problem of the 3D pose graph
-/

namespace Verif.OptProblem3

open MapById Rigid

set_option linter.unusedSectionVars false

variable {T G : Type} [LinearOrder T] [BoundedOrder T] [Group G] {S : Setup T G}

/-- The first submap. -/
def IsFirst (submaps : Map G) (id : Id) : Prop :=
  (at? submaps id).isSome ∧ ∀ id', (at? submaps id').isSome → id = id' ∨ idLt id id'

theorem mem_head {submaps : Map G} (w : WF submaps) (id : Id) : id ∈ (flat submaps).head?.toList.map (·.1) ↔ IsFirst submaps id := by
  have hs := flat_sorted w
  have hm : ∀ id, (at? submaps id).isSome ↔ ∃ o, (id, o) ∈ flat submaps := by
    intro id
    rw [Option.isSome_iff_exists]
    exact exists_congr (fun o => at?_iff_mem w)
  unfold IsFirst
  simp only [hm]
  cases hl : flat submaps with
  | nil => simp
  | cons x l =>
    obtain ⟨k, v⟩ := x
    rw [hl, List.pairwise_cons] at hs
    simp only [List.head?_cons, Option.toList_some, List.map_cons, List.map_nil, List.mem_cons, List.not_mem_nil, or_false]
    constructor
    · rintro rfl
      refine ⟨⟨v, .inl rfl⟩, ?_⟩
      rintro id' ⟨o', h1 | h1⟩
      · exact .inl (congrArg Prod.fst h1).symm
      · exact .inr (hs.1 _ h1)
    · rintro ⟨⟨o, h1 | h1⟩, h2⟩
      · exact congrArg Prod.fst h1
      · rcases h2 k ⟨v, .inl rfl⟩ with e | e
        · exact e
        · have := hs.1 _ h1
          simp only [idLt] at this e
          omega

theorem mem_frozen {D : Type} {m : Map D} (w : WF m) (frozen : List Int) (id : Id) :
    id ∈ ((flat m).filter (fun x => x.1.1 ∈ frozen)).map (·.1) ↔ id.1 ∈ frozen ∧ (at? m id).isSome := by
  simp only [List.mem_map, List.mem_filter, decide_eq_true_eq, Option.isSome_iff_exists]
  constructor
  · rintro ⟨x, ⟨h1, h2⟩, rfl⟩
    exact ⟨h2, x.2, (at?_iff_mem w).2 h1⟩
  · rintro ⟨h1, n, hn⟩
    exact ⟨(id, n), ⟨(at?_iff_mem w).1 hn, h1⟩, rfl⟩

/-- **C107, constants**: Ceres may not move the first submap nor change its yaw, and may not change frozen submaps, nodes and landmarks; the
calibration of the IMU is constant unless it is estimated online, and gravity is bounded for each trajectory that is not frozen.  **Fixed
frames**: a trajectory gets an origin of its fixed frame exactly if some node has a fixed frame pose; the starting point is the stored origin, or
else that for which the residual of the first such node vanishes, without tilt. -/
theorem constants_and_origins {p : Problem T G} {cs : List (OptProblem.Constraint G)} {ls : List (OptProblem.Landmark T G)} (h : Ready S p cs ls)
    {o : Options} {frozen : List Int} {b : Built T G} (hb : build S o p cs frozen ls = some (some b)) :
    (∀ id, id ∈ b.constTranslation ↔ IsFirst p.submaps id ∨ (id.1 ∈ frozen ∧ (at? p.submaps id).isSome)) ∧
    (∀ id, id ∈ b.constYaw ↔ IsFirst p.submaps id) ∧
    (∀ id, id ∈ b.constRotation ↔ id.1 ∈ frozen ∧ (at? p.submaps id).isSome) ∧
    (∀ id, id ∈ b.constNodes ↔ id.1 ∈ frozen ∧ (at? p.nodes id).isSome) ∧
    (∀ name, name ∈ b.constLandmarks ↔ ∃ l ∈ ls, l.name = name ∧ l.frozen = true ∧ ∃ ob ∈ l.observations, OptProblem.Within p.nodes ob) ∧
    (∀ t, t ∈ b.constCalibration ↔ o.fixZ = false ∧ o.online = false ∧ t ∉ frozen ∧ ∃ i, (at? p.nodes (t, i)).isSome) ∧
    (∀ t, t ∈ b.positive ↔ o.fixZ = false ∧ t ∉ frozen ∧ ∃ i, (at? p.nodes (t, i)).isSome) ∧
    (b.origins.map (·.1)).Nodup ∧
    (∀ t u, (t, u) ∈ b.origins ↔ ∃ i n g, at? p.nodes (t, i) = some n ∧ OptProblem.FrameAt S.two (MapByTime.dataOf p.fixedFrame t) n.time g ∧
      (∀ j m g', j < i → at? p.nodes (t, j) = some m → ¬ OptProblem.FrameAt S.two (MapByTime.dataOf p.fixedFrame t) m.time g') ∧
      ((∃ g0, SMap.get? t p.trajectoryData = some (some g0) ∧ u = S.yaw g0) ∨
        (SMap.get? t p.trajectoryData = some none ∧ ∃ g0, u = S.yaw g0 ∧ g0 * g = n.globalPose))) := by
  rcases build_cases h o frozen with ⟨-, h2⟩ | ⟨-, imu, bs, os, -, ef, h2⟩
  · rw [hb] at h2; cases h2
  rw [hb] at h2
  obtain rfl := Option.some.inj (Option.some.inj h2)
  obtain ⟨bs', os', ef', -, hon, -, hom⟩ := framePart_spec (S := S) (p := p) h.two.nodes.sorted h.two.nodes.dsorted (by
    intro e he
    obtain ⟨x, hx⟩ := List.exists_mem_of_ne_nil _ (h.two.nodes.nonempty e he)
    exact h.two.data (e.1, x.1) x.2 ((mem_traj h.two.nodes he).1 hx))
  rw [ef] at ef'
  simp only [Option.some.injEq, Prod.mk.injEq] at ef'
  obtain ⟨rfl, rfl⟩ := ef'
  obtain ⟨b2, hb2, -, -, hl, -⟩ := OptProblem.constants_and_origins S.two h.two frozen
  rw [OptProblem.build_eq S.two h.two frozen] at hb2
  obtain rfl := Option.some.inj (Option.some.inj hb2)
  have hfree : ∀ t, t ∈ (p.nodes.filterMap fun e => if e.1 ∈ frozen then none else some e.1) ↔ t ∉ frozen ∧ ∃ i, (at? p.nodes (t, i)).isSome := by
    intro t
    rw [List.mem_filterMap]
    constructor
    · rintro ⟨e, he, h1⟩
      split at h1
      · cases h1
      · rename_i hf
        obtain rfl := Option.some.inj h1
        obtain ⟨x, hx⟩ := List.exists_mem_of_ne_nil _ (h.two.nodes.nonempty e he)
        exact ⟨hf, x.1, by rw [(mem_traj h.two.nodes he).1 hx]; rfl⟩
    · rintro ⟨hf, i, hn⟩
      obtain ⟨n, hn⟩ := Option.isSome_iff_exists.1 hn
      obtain ⟨e, he, rfl, -⟩ := traj_of_at h.two.nodes hn
      exact ⟨e, he, by rw [if_neg hf]⟩
  dsimp only at hl ⊢
  refine ⟨fun id => ?_, mem_head h.two.submaps, mem_frozen h.two.submaps frozen, mem_frozen h.two.nodes frozen, hl, fun t => ?_, fun t => ?_, hon,
    fun t u => ?_⟩
  · rw [List.mem_append, mem_head h.two.submaps, mem_frozen h.two.submaps]
  · split
    · rename_i hc
      simp only [Bool.or_eq_true] at hc
      simp only [List.not_mem_nil, false_iff]
      rintro ⟨h1, h2, -⟩
      rw [h1, h2] at hc
      simp at hc
    · rename_i hc
      simp only [Bool.or_eq_true, not_or, Bool.not_eq_true] at hc
      simp only [hfree, hc.1, hc.2, true_and]
  · split
    · rename_i hc
      simp [hc]
    · rename_i hc
      rw [Bool.not_eq_true] at hc
      simp only [hfree, hc, true_and]
  · rw [hom]
    constructor
    · rintro ⟨e, he, rfl, x, hx, g, origin, h1, h2, h3, rfl⟩
      refine ⟨x.1, x.2, g, (mem_traj h.two.nodes he).1 hx, (OptProblem.framePose_iff S.two h.two.fixedFrame).1 h1, ?_, ?_⟩
      · intro j m g' hj hm hf
        have := h2 (j, m) ((mem_traj h.two.nodes he).2 hm) hj
        rw [(OptProblem.framePose_iff S.two h.two.fixedFrame (x := ((e.1, j), m))).2 hf] at this
        cases this
      · cases origin with
        | some g0 => exact .inl ⟨g0, h3, rfl⟩
        | none => exact .inr ⟨h3, _, rfl, by simp⟩
    · rintro ⟨i, n, g, h1, h2, h3, h4⟩
      obtain ⟨e, he, rfl, hx⟩ := traj_of_at h.two.nodes h1
      have hprev : ∀ y ∈ e.2.data, y.1 < i → OptProblem.framePose S.two p.toProblem ((e.1, y.1), y.2) = none := by
        intro y hy hlt
        cases hq : OptProblem.framePose S.two p.toProblem ((e.1, y.1), y.2) with
        | none => rfl
        | some g' =>
          exact absurd ((OptProblem.framePose_iff S.two h.two.fixedFrame).1 hq) (h3 y.1 y.2 g' hlt ((mem_traj h.two.nodes he).1 hy))
      have hpose := (OptProblem.framePose_iff S.two h.two.fixedFrame (x := ((e.1, i), n))).2 h2
      rcases h4 with ⟨g0, k1, rfl⟩ | ⟨k1, g0, rfl, k2⟩
      · exact ⟨e, he, rfl, (i, n), hx, g, some g0, hpose, hprev, k1, rfl⟩
      · exact ⟨e, he, rfl, (i, n), hx, g, none, hpose, hprev, k1, by rw [← k2]; simp⟩

/-! ### Executions -/

theorem inv_exec2 {p p' : Problem T G} (h : Inv p) {c : OptProblem.Call T G G} (hc : exec2 S p c = some p') : Inv p' := by
  obtain ⟨q, hq, rfl⟩ := Option.map_eq_some_iff.1 hc
  exact ⟨OptProblem.inv_step S.two h.two hq, h.imu⟩

theorem inv_step {o : Options} {p p' : Problem T G} (h : Inv p) {c : Call T G} (hc : exec S o p c = some p') : Inv p' := by
  cases c with
  | addImu t r =>
    obtain ⟨m, hm, rfl⟩ := Option.map_eq_some_iff.1 hc
    exact ⟨h.two, MapByTime.wf_step (ntime := fun n : Node T G => n.time) h.imu (.append t r hm)⟩
  | addOdometry t r => exact inv_exec2 h hc
  | addFixedFrame t r => exact inv_exec2 h hc
  | addNode t n => exact inv_exec2 h hc
  | setTrajectoryData t g => exact inv_exec2 h hc
  | insertNode id n => exact inv_exec2 h hc
  | addSubmap t g => exact inv_exec2 h hc
  | insertSubmap id g => exact inv_exec2 h hc
  | trimSubmap id => exact inv_exec2 h hc
  | trimNode id =>
    simp only [exec, trimNode, Option.bind_eq_bind, Option.bind_eq_some_iff, Option.some.injEq] at hc
    obtain ⟨imu, hm, two, ht, rfl⟩ := hc
    exact ⟨OptProblem.inv_step S.two (c := .trimNode id) h.two ht, MapByTime.wf_step h.imu (.trim _ _ h.two.nodes hm)⟩
  | solve cs frozen ls sol =>
    simp only [exec, solve, Option.bind_eq_bind, Option.bind_eq_some_iff] at hc
    obtain ⟨r, hr, hc⟩ := hc
    cases r with
    | none =>
      simp only [Option.some.injEq] at hc
      rw [← hc]; exact h
    | some b =>
      simp only [Option.bind_eq_some_iff, Option.some.injEq] at hc
      obtain ⟨td, htd, rfl⟩ := hc
      refine ⟨⟨OptProblem.mapAll_wf (f := fun id n => { n with globalPose := sol.node id }) h.two.nodes,
        OptProblem.mapAll_wf (f := fun id _ => sol.submap id) h.two.submaps, h.two.odometry, h.two.fixedFrame, fun id n hn => ?_⟩, h.imu⟩
      dsimp only at hn ⊢
      rw [GlobalPoses.at?_mapAll] at hn
      obtain ⟨n0, hn0, -⟩ := Option.map_eq_some_iff.1 hn
      exact OptProblem.storeOrigins_keeps S.two htd _ (h.two.data _ _ hn0)

theorem inv_exec {o : Options} {cs : List (Call T G)} {p : Problem T G} (h : Exec S o {} cs p) : Inv p := by
  induction h with
  | nil =>
    refine ⟨OptProblem.inv_exec S.two (.nil _), ?_⟩
    exact ⟨List.Pairwise.nil, by simp, by simp, by simp, by simp⟩
  | snoc _ hs ih => exact inv_step ih hs

/-- **C107, `Solve` in every reachable state**: if it has the inertial measurements and nodes it needs, and constraints and landmarks refer to nodes
and submaps there are, it does not abort; it changes global poses and origins of fixed frames only. -/
theorem solve_succeeds {o : Options} {calls : List (Call T G)} {p : Problem T G} (h : Exec S o {} calls p) (ht : Timed S p)
    (hb : MapByTime.SmallNodes p.nodes) (hb' : MapByTime.SmallNodes p.submaps) {cs : List (OptProblem.Constraint G)}
    {ls : List (OptProblem.Landmark T G)} {frozen : List Int} (sol : OptProblem.Solution G) (hs : ∃ id, (at? p.submaps id).isSome)
    (hn : ∃ id, (at? p.nodes id).isSome)
    (hc : ∀ c ∈ cs, (at? p.submaps c.submap).isSome ∧ (at? p.nodes c.node).isSome)
    (hl : ∀ l ∈ ls, ∀ ob ∈ l.observations, OptProblem.Usable p.nodes ob) (hi : o.fixZ = false → AllInertial p frozen) :
    ∃ p', exec S o p (.solve cs frozen ls sol) = some p' ∧ p'.imu = p.imu ∧ p'.odometry = p.odometry ∧ p'.fixedFrame = p.fixedFrame ∧
      (∀ id, at? p'.nodes id = (at? p.nodes id).map fun n => { n with globalPose := sol.node id }) ∧
      (∀ id, at? p'.submaps id = (at? p.submaps id).map fun _ => sol.submap id) := by
  have hinv := inv_exec h
  obtain ⟨id, hn⟩ := hn
  obtain ⟨n, hn⟩ := Option.isSome_iff_exists.1 hn
  have hr : Ready S p cs ls := ⟨⟨hinv.two.nodes, hinv.two.submaps, hb, hinv.two.odometry, hinv.two.fixedFrame, hinv.two.data, hc, hl, id, n, hn⟩,
    hinv.imu, ht, hb', hs⟩
  rcases build_cases hr o frozen with ⟨⟨h1, h2⟩, -⟩ | ⟨-, imu, bs, os, -, -, hb⟩
  · exact absurd (hi h1) h2
  obtain ⟨-, -, -, -, -, -, -, -, hos⟩ := constants_and_origins hr hb
  obtain ⟨td, htd, -⟩ := OptProblem.storeOrigins_some S.two (sol := sol) (os := os) (td := p.trajectoryData) (by
    rintro ⟨t, u⟩ hx
    obtain ⟨i, n, g, hn, -⟩ := (hos t u).1 hx
    exact hinv.two.data _ _ hn)
  refine ⟨{ p with
      nodes := GlobalPoses.mapAll (fun id n => { n with globalPose := sol.node id }) p.nodes
      submaps := GlobalPoses.mapAll (fun id _ => sol.submap id) p.submaps
      trajectoryData := td }, ?_, rfl, rfl, rfl, fun id => ?_, fun id => ?_⟩
  · simp only [exec, solve, hb, htd, Option.bind_eq_bind, Option.bind_some]
  · dsimp only
    rw [GlobalPoses.at?_mapAll]
  · dsimp only
    rw [GlobalPoses.at?_mapAll]

/-- **C107, `Solve` aborts for short trajectories**: in every reachable state with a trajectory that is not frozen and has nodes, but no three
consecutive ones, or no IMU measurement before some pair of consecutive ones, `Solve` aborts, whatever the constraints are. -/
theorem solve_aborts {o : Options} (hz : o.fixZ = false) {calls : List (Call T G)} {p : Problem T G} (h : Exec S o {} calls p) (ht : Timed S p)
    (hb : MapByTime.SmallNodes p.nodes) {frozen : List Int} {t i : Int} (hf : t ∉ frozen) (hn : (at? p.nodes (t, i)).isSome)
    (hi : ¬ Inertial p t) (cs : List (OptProblem.Constraint G)) (ls : List (OptProblem.Landmark T G)) (sol : OptProblem.Solution G) :
    exec S o p (.solve cs frozen ls sol) = none := by
  have hinv := inv_exec h
  have he : empty p.nodes = false := by
    rw [← Bool.not_eq_true, empty_iff hinv.two.nodes hb]
    intro hn'
    rw [hn'] at hn
    cases hn
  have hA : ¬ AllInertial p frozen := fun hA => hi (hA t hf ⟨i, hn⟩)
  rcases imuPart_cases hinv ht frozen with ⟨hA', -⟩ | ⟨-, e⟩
  · exact absurd hA' hA
  have hbuild : build S o p cs frozen ls = none := by
    unfold build
    rw [he]
    simp only [Bool.false_eq_true, if_false, hz, e]
    split
    · rfl
    · cases OptProblem.constraintBlocks p.toProblem cs with
      | none => rfl
      | some c =>
        cases OptProblem.addLandmarks p.nodes ls <;> rfl
  simp only [exec, solve, hbuild, Option.bind_eq_bind, Option.bind_none]

/-! ### Trimming -/

theorem imuOf_mem {p : Problem T G} {t : Int} {d : Imu.Data} : d ∈ imuOf S p t ↔ ∃ e ∈ MapByTime.dataOf p.imu t, S.data e.2 = d := by
  unfold imuOf
  exact List.mem_map

/-- **C107, trimming**: in every reachable state with increasing node times, trimming a node does not abort and removes exactly this node; a later
optimization has exactly the inertial, local SLAM and odometry residuals of before that do not involve the node, with the same values, although
measurements were removed.  The trajectory can be optimized afterwards exactly if it has still three consecutive nodes (or none). -/
theorem trim_keeps_residuals (hend : OptProblem.LerpEnd S.two) {o : Options} {calls : List (Call T G)} {p : Problem T G} (h : Exec S o {} calls p)
    (hb : MapByTime.SmallNodes p.nodes) {id : Id} {n : Node T G} (hn : at? p.nodes id = some n)
    (ho : MapByTime.Ordered (fun n : Node T G => n.time) p.nodes id.1) :
    ∃ p', exec S o p (.trimNode id) = some p' ∧
      (∀ id', at? p'.nodes id' = if id' = id then none else at? p.nodes id') ∧ p'.submaps = p.submaps ∧
      (∀ t, Inertial p t → (Inertial p' t ↔ ∃ i, (at? p.nodes (t, i)).isSome ∧ (at? p.nodes (t, i + 1)).isSome ∧ (at? p.nodes (t, i + 2)).isSome ∧
        (t, i) ≠ id ∧ (t, i + 1) ≠ id ∧ (t, i + 2) ≠ id)) ∧
      ∀ cs ls cs' ls' frozen b b', Ready S p cs ls → Ready S p' cs' ls' → build S o p cs frozen ls = some (some b) →
        build S o p' cs' frozen ls' = some (some b') →
        (∀ x y q d, Block.rotation x y q d ∈ b'.blocks ↔ x ≠ id ∧ y ≠ id ∧ Block.rotation x y q d ∈ b.blocks) ∧
        (∀ x y z v d1 d2, Block.acceleration x y z v d1 d2 ∈ b'.blocks ↔ x ≠ id ∧ y ≠ id ∧ z ≠ id ∧ Block.acceleration x y z v d1 d2 ∈ b.blocks) ∧
        (∀ x y g, Block.two (.localSlam x y g) ∈ b'.blocks ↔ x ≠ id ∧ y ≠ id ∧ Block.two (.localSlam x y g) ∈ b.blocks) ∧
        (∀ x y g, Block.two (.odometry x y g) ∈ b'.blocks ↔ x ≠ id ∧ y ≠ id ∧ Block.two (.odometry x y g) ∈ b.blocks) := by
  have hi := inv_exec h
  obtain ⟨t0, i0⟩ := id
  obtain ⟨im, hm1, hm2, hm3, hm4, hm5, -⟩ := MapByTime.trim_keeps_neighbours_wf hi.imu hi.two.nodes hb hn ho
  obtain ⟨od, ho1, ho2, ho3, -, ho5, -⟩ := MapByTime.trim_keeps_neighbours_wf hi.two.odometry hi.two.nodes hb hn ho
  obtain ⟨ff, hf1, hf2, hf3, -, hf5, -⟩ := MapByTime.trim_keeps_neighbours_wf hi.two.fixedFrame hi.two.nodes hb hn ho
  obtain ⟨ns, hns⟩ : ∃ ns, trim p.nodes (t0, i0) = some ns := by
    unfold at? at hn
    unfold trim
    cases h1 : SMap.get? t0 p.nodes with
    | none => rw [h1] at hn; cases hn
    | some tr =>
      rw [h1] at hn
      simp only [Option.bind_some] at hn
      simp only [hn]
      split <;> exact ⟨_, rfl⟩
  obtain ⟨-, -, hat⟩ := trim_spec hi.two.nodes hns
  simp only [eq_comm (a := ((t0, i0) : Id))] at hat
  obtain ⟨p', hexec, hpn, hps, hpo, hpi⟩ : ∃ p', exec S o p (.trimNode (t0, i0)) = some p' ∧ p'.nodes = ns ∧ p'.submaps = p.submaps ∧
      p'.odometry = od ∧ p'.imu = im := by
    simp only [exec, trimNode, OptProblem.trimNode, ho1, hf1, hns, hm1, Option.bind_eq_bind, Option.bind_some]
    exact ⟨_, rfl, rfl, rfl, rfl, rfl⟩
  subst hpn hpo hpi
  have hi' := inv_step hi hexec
  refine ⟨p', hexec, hat, hps, ?_, ?_⟩
  · intro t hI
    constructor
    · intro hI'
      obtain ⟨i, k1, k2, k3⟩ := hI'.three
      rw [hat] at k1 k2 k3
      split at k1
      · cases k1
      · split at k2
        · cases k2
        · split at k3
          · cases k3
          · exact ⟨i, k1, k2, k3, by assumption, by assumption, by assumption⟩
    · rintro ⟨i, k1, k2, k3, n1, n2, n3⟩
      refine ⟨?_, i, ?_, ?_, ?_⟩
      · intro j a c ha hc
        rw [hat] at ha hc
        split at ha
        · cases ha
        · split at hc
          · cases hc
          · rename_i q1 q2
            obtain ⟨e, he, hle⟩ := hI.before j a c ha hc
            by_cases htt : t = t0
            · subst htt
              obtain ⟨e0, r1, r2, r3⟩ := MapByTime.exists_last (OptProblem.dataOf_sorted hi.imu t) (fun e => e.1 ≤ a.time) he hle
              have := ((hm2 j a (fun e => q1 (by rw [e])) ha e0).1).2 ⟨r1, r2, r3⟩
              exact ⟨e0, this.1, r2⟩
            · rw [hm5 t htt]
              exact ⟨e, he, hle⟩
      · rw [hat, if_neg n1]; exact k1
      · rw [hat, if_neg n2]; exact k2
      · rw [hat, if_neg n3]; exact k3
  intro cs ls cs' ls' frozen b b' hr hr' hbb hbb'
  obtain ⟨-, -, -, -, hR, hA, hl, hod, -⟩ := residual_blocks hend hr hbb
  obtain ⟨-, -, -, -, hR', hA', hl', hod', -⟩ := residual_blocks hend hr' hbb'
  -- measurements for nodes on the same side of the trimmed one
  have hsub : ∀ t, ∀ d ∈ imuOf S p' t,
      d ∈ imuOf S p t := by
    intro t d hd
    obtain ⟨e, he, rfl⟩ := imuOf_mem.1 hd
    refine imuOf_mem.2 ⟨e, ?_, rfl⟩
    by_cases htt : t = t0
    · subst htt
      exact hm3.subset he
    · rw [hm5 t htt] at he
      exact he
  have hkeep : ∀ t i j (a c : Node T G), at? p.nodes (t, i) = some a → at? p.nodes (t, j) = some c → (t, i) ≠ (t0, i0) →
      (t = t0 → (i < i0 ↔ j < i0) ∧ j ≠ i0) →
      ∀ d ∈ imuOf S p t, ∀ τ, S.tick a.time ≤ τ → τ ≤ S.tick c.time → d.time ≤ τ → (∀ e ∈ imuOf S p t, e.time ≤ τ → e.time ≤ d.time) →
      d ∈ imuOf S p' t := by
    intro t i j a c ha hc hne hside d hd τ h1 h2 h3 h4
    obtain ⟨e, he, rfl⟩ := imuOf_mem.1 hd
    refine imuOf_mem.2 ⟨e, ?_, rfl⟩
    by_cases htt : t = t0
    · subst htt
      obtain ⟨hs1, hs2⟩ := hside rfl
      by_contra hc'
      have hgap := hm4 e he hc'
      have hek := dataOf_keys hi.imu he
      rcases lt_or_ge j i0 with hj | hj
      · have := (hgap j c hc).1 hj
        rw [hek] at this
        have := hr.timed.tick this
        simp only [Setup.data] at h3
        omega
      · have hi0 : i0 < i := by
          have : i ≠ i0 := fun e => hne (by rw [e])
          omega
        have hlt := (hgap i a ha).2 hi0
        have hlat : MapByTime.IsLatest (MapByTime.dataOf p.imu t) a.time e := by
          refine ⟨he, hlt.le, fun x hx hxa => ?_⟩
          have hxk := dataOf_keys hi.imu hx
          rw [hxk] at hxa ⊢
          rw [hek]
          have := h4 (S.data x.2) (imuOf_mem.2 ⟨x, hx, rfl⟩) (le_trans (hr.timed.tick.monotone hxa) h1)
          exact hr.timed.tick.le_iff_le.1 this
        exact hc' ((hm2 i a (fun e => hne (by rw [e])) ha e).1.2 hlat).1
    · rw [hm5 t htt]
      exact he
  have hso := fun t => imuOf_sorted hi.imu hr.timed.tick t
  have hso' := fun t => imuOf_sorted hi'.imu hr.timed.tick t
  have htm : ∀ t i j (a c : Node T G), at? p.nodes (t, i) = some a → at? p.nodes (t, j) = some c → i ≤ j → S.tick a.time ≤ S.tick c.time :=
    fun t i j a c ha hc hij => hr.timed.tick.monotone (hr.timed.mono t i j a c ha hc hij)
  refine ⟨?_, ?_, ?_, ?_⟩
  · intro x y q d
    rw [hR, hR']
    simp only [hat]
    by_cases hx : x = (t0, i0)
    · simp [hx]
    · by_cases hy : y = (t0, i0)
      · simp [hy]
      · simp only [hx, hy, if_false, ne_eq, not_false_eq_true, true_and]
        refine and_congr_right fun _ => and_congr_right fun _ => and_congr_right fun hyx => ?_
        refine exists_congr fun m => exists_congr fun n => exists_congr fun r => and_congr_right fun h1 => and_congr_right fun h2 =>
          and_congr_right fun _ => and_congr_left fun _ => ?_
        subst hyx
        obtain ⟨t, i⟩ := x
        simp only at h1 h2 ⊢
        have hside : t = t0 → (i < i0 ↔ i + 1 < i0) ∧ i + 1 ≠ i0 := by
          rintro rfl
          have e1 : i ≠ i0 := fun e => hx (by rw [e])
          have e2 : i + 1 ≠ i0 := fun e => hy (by simp only; rw [e])
          omega
        exact Imu.measured_kept_iff (hso t) (hso' t) (htm t _ _ _ _ h1 h2 (by omega)) (hsub t) (hkeep t i (i + 1) m n h1 h2 hx hside)
  · intro x y z v d1 d2
    rw [hA, hA']
    simp only [hat]
    by_cases hx : x = (t0, i0)
    · simp [hx]
    · by_cases hy : y = (t0, i0)
      · simp [hy]
      · by_cases hz : z = (t0, i0)
        · simp [hz]
        · simp only [hx, hy, hz, if_false, ne_eq, not_false_eq_true, true_and]
          refine and_congr_right fun _ => and_congr_right fun _ => and_congr_right fun hyx => and_congr_right fun hzx => ?_
          refine exists_congr fun m => exists_congr fun n => exists_congr fun l => and_congr_right fun h1 => and_congr_right fun h2 =>
            and_congr_right fun h3 => and_congr_right fun _ => and_congr_right fun _ => ?_
          subst hyx hzx
          obtain ⟨t, i⟩ := x
          simp only at h1 h2 h3 ⊢
          have hside : t = t0 → (i < i0 ↔ i + 2 < i0) ∧ i + 2 ≠ i0 := by
            rintro rfl
            have e1 : i ≠ i0 := fun e => hx (by rw [e])
            have e2 : i + 1 ≠ i0 := fun e => hy (by simp only; rw [e])
            have e3 : i + 2 ≠ i0 := fun e => hz (by simp only; rw [e])
            omega
          exact Imu.change_kept_iff (hso t) (hso' t) (htm t _ _ _ _ h1 h2 (by omega)) (htm t _ _ _ _ h2 h3 (by omega)) (hsub t)
            (hkeep t i (i + 2) m l h1 h3 hx hside)
  · intro x y g
    rw [hl, hl']
    simp only [hat]
    by_cases hx : x = (t0, i0)
    · simp [hx]
    · by_cases hy : y = (t0, i0)
      · simp [hy]
      · simp [hx, hy]
  · have hpose : ∀ x m u, x ≠ (t0, i0) → at? p.nodes x = some m →
        (OptProblem.PoseAt S.two (MapByTime.dataOf p'.odometry x.1) m.time u ↔ OptProblem.PoseAt S.two (MapByTime.dataOf p.odometry x.1) m.time u) := by
      intro x m u hx hm
      obtain ⟨t, i⟩ := x
      by_cases ht : t = t0
      · subst ht
        exact OptProblem.PoseAt.congr S.two (ho2 i m (fun e => hx (by rw [e])) hm) u
      · dsimp only
        rw [ho5 t ht]
    intro x y g
    rw [hod, hod']
    simp only [hat]
    by_cases hx : x = (t0, i0)
    · simp [hx]
    · by_cases hy : y = (t0, i0)
      · simp [hy]
      · simp only [hx, hy, if_false, ne_eq, not_false_eq_true, true_and]
        refine and_congr_right fun _ => and_congr_right fun _ => and_congr_right fun hyx => ?_
        have hy1 : y.1 = x.1 := by rw [hyx]
        constructor
        · rintro ⟨m, n, u, v, h1, h2, h3, h4, h5⟩
          refine ⟨m, n, u, v, h1, h2, (hpose x m u hx h1).1 h3, ?_, h5⟩
          rw [← hy1] at h4 ⊢
          exact (hpose y n v hy h2).1 h4
        · rintro ⟨m, n, u, v, h1, h2, h3, h4, h5⟩
          refine ⟨m, n, u, v, h1, h2, (hpose x m u hx h1).2 h3, ?_, h5⟩
          rw [← hy1] at h4 ⊢
          exact (hpose y n v hy h2).2 h4

/-! ### Examples and counterexamples -/

section Examples

/-- Times 0 to 99 as ticks, poses on a line, linear interpolation. -/
def line : Setup (Fin 100) (Multiplicative ℤ) where
  lerp := OptProblem.line.lerp
  yaw := id
  tick τ := τ.val
  ticks := 10

theorem line_end : OptProblem.LerpEnd line.two := by intro t0 g0 t1 g1; simp [Setup.two, line, OptProblem.line]

theorem line_tick : StrictMono line.tick := by
  intro a b h
  have : a.val < b.val := h
  simp only [line]
  omega

abbrev LCall := Call (Fin 100) (Multiplicative ℤ)
abbrev LProblem := Problem (Fin 100) (Multiplicative ℤ)

/-- Runs calls. -/
noncomputable def run (o : Options) : LProblem → List LCall → Option LProblem
  | p, [] => some p
  | p, c :: cs => (exec line o p c).bind (fun p' => run o p' cs)

theorem exec_cons {o : Options} {p p' p'' : LProblem} {c : LCall} {cs : List LCall} (h : exec line o p c = some p')
    (h' : Exec line o p' cs p'') : Exec line o p (c :: cs) p'' := by
  induction h' with
  | nil => exact .snoc (.nil _) h
  | snoc _ hs ih => exact .snoc (cs := c :: _) ih hs

theorem exec_of_run {o : Options} : ∀ {cs : List LCall} {p p' : LProblem}, run o p cs = some p' → Exec line o p cs p'
  | [], p, p', h => by
    simp only [run, Option.some.injEq] at h
    subst h
    exact .nil _
  | c :: cs, p, p', h => by
    simp only [run, Option.bind_eq_some_iff] at h
    obtain ⟨q, h1, h2⟩ := h
    exact exec_cons h1 (exec_of_run h2)

/-- The hypotheses about identifiers and times, checked on the lists of nodes and submaps. -/
def good (p : LProblem) : Bool :=
  ((flat p.nodes).all fun x => decide (x.1.1 < intMax) && decide (0 < x.2.time) && decide (x.2.time < 99)) &&
    ((flat p.submaps).all fun x => decide (x.1.1 < intMax)) &&
    ((flat p.nodes).all fun x => (flat p.nodes).all fun y => x.1.1 != y.1.1 || decide (y.1.2 ≤ x.1.2) || decide (x.2.time < y.2.time))

theorem good_spec {p : LProblem} (h : Inv p) (hk : good p = true) :
    MapByTime.SmallNodes p.nodes ∧ MapByTime.SmallNodes p.submaps ∧ Timed line p ∧
      ∀ t, MapByTime.Ordered (fun n : Node _ _ => n.time) p.nodes t := by
  simp only [good, Bool.and_eq_true, List.all_eq_true, decide_eq_true_eq, Bool.or_eq_true, bne_iff_ne] at hk
  obtain ⟨⟨h1, h2⟩, h3⟩ := hk
  have hlt : ∀ t i j (a b : Node _ _), at? p.nodes (t, i) = some a → at? p.nodes (t, j) = some b → i < j → a.time < b.time := by
    intro t i j a b ha hb hij
    rcases h3 _ ((at?_iff_mem h.two.nodes).1 ha) _ ((at?_iff_mem h.two.nodes).1 hb) with (hc | hc) | hc
    · exact absurd rfl hc
    · exact absurd hij (not_lt.2 hc)
    · exact hc
  refine ⟨fun id n hn => (h1 (id, n) ((at?_iff_mem h.two.nodes).1 hn)).1.1, fun id n hn => h2 (id, n) ((at?_iff_mem h.two.submaps).1 hn),
    ⟨line_tick, fun t i j a b ha hb hij => ?_⟩, fun t => ⟨fun j n hn => ?_, fun j k a b ha hb hjk => hlt t j k a b ha hb hjk⟩⟩
  · rcases hij.lt_or_eq with hc | rfl
    · exact (hlt t i j a b ha hb hc).le
    · rw [ha] at hb
      rw [Option.some.inj hb]
  · have := h1 ((t, j), n) ((at?_iff_mem h.two.nodes).1 hn)
    exact ⟨this.1.2, this.2⟩

def lnode (τ : Fin 100) (x : ℤ) : Node (Fin 100) (Multiplicative ℤ) := ⟨τ, .ofAdd x, .ofAdd x, 1⟩

noncomputable def limu (τ : Fin 100) : ImuReading (Fin 100) := ⟨τ, ⟨0, 0, 10⟩, ⟨0, 0, 1⟩⟩

/-- A trajectory with four nodes and enough measurements. -/
noncomputable def four : List LCall :=
  [.addImu 0 (limu 5), .addNode 0 (lnode 10 0), .addSubmap 0 1, .addImu 0 (limu 12), .addImu 0 (limu 16), .addNode 0 (lnode 20 11),
    .addImu 0 (limu 22), .addNode 0 (lnode 30 20), .addImu 0 (limu 35), .addNode 0 (lnode 40 30)]

/-- Checks `Inertial` for a trajectory with a measurement before its first node. -/
def inertial (p : LProblem) (t : Int) (i : Int) : Bool :=
  ((flat p.nodes).all fun x => x.1.1 != t || (MapByTime.dataOf p.imu t).any fun e => decide (e.1 ≤ x.2.time)) &&
    (at? p.nodes (t, i)).isSome && (at? p.nodes (t, i + 1)).isSome && (at? p.nodes (t, i + 2)).isSome

theorem inertial_spec {p : LProblem} (h : Inv p) {t i : Int} (hk : inertial p t i = true) : Inertial p t := by
  simp only [inertial, Bool.and_eq_true, List.all_eq_true, decide_eq_true_eq, Bool.or_eq_true, bne_iff_ne, List.any_eq_true] at hk
  obtain ⟨⟨⟨h1, h2⟩, h3⟩, h4⟩ := hk
  refine ⟨fun j m n hm _ => ?_, i, h2, h3, h4⟩
  rcases h1 _ ((at?_iff_mem h.two.nodes).1 hm) with hc | hc
  · exact absurd rfl hc
  · exact hc

/-- Trajectories with nodes. -/
def trajectories (p : LProblem) : List Int := (flat p.nodes).map (·.1.1)

theorem mem_trajectories {p : LProblem} (h : Inv p) {t i : Int} (hn : (at? p.nodes (t, i)).isSome) : t ∈ trajectories p := by
  obtain ⟨n, hn⟩ := Option.isSome_iff_exists.1 hn
  exact List.mem_map.2 ⟨_, (at?_iff_mem h.two.nodes).1 hn, rfl⟩

def free : Options := ⟨false, false⟩

/-- The hypotheses of the theorems above hold for four nodes: the problem is built, and the first three nodes have an inertial residual. -/
example : ∃ p b, Exec line free {} four p ∧ Ready line p [⟨(0, 0), (0, 3), .ofAdd 7, true⟩] [] ∧ AllInertial p [] ∧
    build line free p [⟨(0, 0), (0, 3), .ofAdd 7, true⟩] [] [] = some (some b) ∧ (0, 0) ∈ b.constTranslation ∧ 0 ∈ b.positive ∧
    (∃ v, Block.acceleration (0, 0) (0, 1) (0, 2) v 10 10 ∈ b.blocks) ∧ (∃ q, Block.rotation (0, 2) (0, 3) q 10 ∈ b.blocks) := by
  have hrun : (run free {} four).any (fun p => good p && inertial p 0 0 && decide ((at? p.submaps (0, 0)) = some 1) && (flat p.submaps).all (fun x => decide (x.1 = (0, 0))) &&
      (trajectories p).all (· = 0) && decide (at? p.nodes (0, 0) = some (lnode 10 0)) && decide (at? p.nodes (0, 1) = some (lnode 20 11)) &&
      decide (at? p.nodes (0, 2) = some (lnode 30 20)) && decide (at? p.nodes (0, 3) = some (lnode 40 30))) = true := by decide +kernel
  obtain ⟨p, hp, hq⟩ := (Option.any_eq_true _ _).1 hrun
  simp only [Bool.and_eq_true, decide_eq_true_eq, List.all_eq_true] at hq
  obtain ⟨⟨⟨⟨⟨⟨⟨⟨h1, h2⟩, h3⟩, h5⟩, h4⟩, n0⟩, n1⟩, n2⟩, n3⟩ := hq
  have he := exec_of_run hp
  have hi := inv_exec he
  obtain ⟨k1, k2, k3, -⟩ := good_spec hi h1
  have hA : AllInertial p [] := by
    rintro t - ⟨i, hn⟩
    rw [h4 t (mem_trajectories hi hn)]
    exact inertial_spec hi h2
  have hr : Ready line p [⟨(0, 0), (0, 3), .ofAdd 7, true⟩] [] :=
    ⟨⟨hi.two.nodes, hi.two.submaps, k1, hi.two.odometry, hi.two.fixedFrame, hi.two.data, by simp [h3, n3], by simp, _, _, n0⟩, hi.imu, k3, k2,
      _, by rw [h3]; rfl⟩
  rcases build_cases hr free [] with ⟨⟨-, hc⟩, -⟩ | ⟨-, imu, bs, os, -, -, hb⟩
  · exact absurd hA hc
  obtain ⟨-, -, -, -, hR, hAc, -⟩ := residual_blocks line_end hr hb
  obtain ⟨hT, -, -, -, -, -, hP, -⟩ := constants_and_origins hr hb
  refine ⟨p, _, he, hr, hA, hb, (hT _).2 (.inl ⟨by rw [h3]; rfl, fun id' hs => ?_⟩), (hP 0).2 ⟨rfl, by simp, 0, by rw [n0]; rfl⟩, ?_, ?_⟩
  · obtain ⟨g, hg⟩ := Option.isSome_iff_exists.1 hs
    exact .inl (h5 _ ((at?_iff_mem hi.two.submaps).1 hg)).symm
  · obtain ⟨v, hv⟩ := Imu.Started.change line.ticks (imuOf_sorted hi.imu line_tick 0) (show line.tick 10 ≤ line.tick 20 by decide)
      (show line.tick 20 ≤ line.tick 30 by decide) ((started_iff hi.imu line_tick).2 ((inertial_spec hi h2).before 0 _ _ n0 n1))
    exact ⟨v, (hAc _ _ _ _ _ _).2 ⟨rfl, by simp, rfl, rfl, _, _, _, n0, n1, n2, by decide, by decide, hv⟩⟩
  · obtain ⟨r, hr'⟩ := Imu.Started.measured line.ticks (imuOf_sorted hi.imu line_tick 0) (show line.tick 30 ≤ line.tick 40 by decide)
      ((started_iff hi.imu line_tick).2 ((inertial_spec hi h2).before 2 _ _ n2 n3))
    exact ⟨r.rotation, (hR _ _ _ _).2 ⟨rfl, by simp, rfl, _, _, r, n2, n3, by decide, hr', rfl⟩⟩

/-- Checks that there are no three consecutive nodes. -/
def short (p : LProblem) (t : Int) : Bool :=
  (flat p.nodes).all fun x => x.1.1 != t || (at? p.nodes (t, x.1.2 + 1)).isNone || (at? p.nodes (t, x.1.2 + 2)).isNone

theorem short_spec {p : LProblem} (h : Inv p) {t : Int} (hk : short p t = true) : ¬ Inertial p t := by
  rintro ⟨-, i, h1, h2, h3⟩
  simp only [short, List.all_eq_true, Bool.or_eq_true, bne_iff_ne] at hk
  obtain ⟨n, hn⟩ := Option.isSome_iff_exists.1 h1
  rcases hk _ ((at?_iff_mem h.two.nodes).1 hn) with (hc | hc) | hc
  · exact hc rfl
  · simp only [Option.isNone_iff_eq_none] at hc
    rw [hc] at h2
    cases h2
  · simp only [Option.isNone_iff_eq_none] at hc
    rw [hc] at h3
    cases h3

/-- `Solve` without frozen trajectories aborts after calls that leave a trajectory with nodes, but not three consecutive ones. -/
theorem aborts_of {calls more : List LCall} {t i : Int}
    (h : (run free {} (calls ++ more)).any (fun p => good p && short p t && (at? p.nodes (t, i)).isSome) = true) :
    ∃ p, Exec line free {} (calls ++ more) p ∧ ∀ cs ls sol, exec line free p (.solve cs [] ls sol) = none := by
  obtain ⟨p, hp, hq⟩ := (Option.any_eq_true _ _).1 h
  simp only [Bool.and_eq_true] at hq
  have he := exec_of_run hp
  have hi := inv_exec he
  obtain ⟨k1, -, k3, -⟩ := good_spec hi hq.1.1
  exact ⟨p, he, fun cs ls sol => solve_aborts rfl he k3 k1 (by simp) hq.2 (short_spec hi hq.1.2) cs ls sol⟩

theorem four_succeeds : ∃ p, Exec line free {} four p ∧ ∀ sol, ∃ p', exec line free p (.solve [] [] [] sol) = some p' := by
  have hrun : (run free {} four).any (fun p => good p && inertial p 0 0 && (at? p.submaps (0, 0)).isSome &&
      (trajectories p).all (· = 0) && (at? p.nodes (0, 0)).isSome) = true := by decide +kernel
  obtain ⟨p, hp, hq⟩ := (Option.any_eq_true _ _).1 hrun
  simp only [Bool.and_eq_true, decide_eq_true_eq, List.all_eq_true] at hq
  obtain ⟨⟨⟨⟨h1, h2⟩, h3⟩, h4⟩, n0⟩ := hq
  have he := exec_of_run hp
  have hi := inv_exec he
  obtain ⟨k1, k2, k3, -⟩ := good_spec hi h1
  refine ⟨p, he, fun sol => ?_⟩
  obtain ⟨p', hp', -⟩ := solve_succeeds (cs := []) (ls := []) (frozen := []) he k3 k1 k2 sol ⟨_, h3⟩ ⟨_, n0⟩ (by simp) (by simp) (by
    rintro - t - ⟨i, hn⟩
    rw [h4 t (mem_trajectories hi hn)]
    exact inertial_spec hi h2)
  exact ⟨p', hp'⟩

/-- **C107, a second trajectory makes `Solve` abort until it has three nodes**, although the first one can be optimized. -/
theorem young_trajectory_aborts :
    (∃ p, Exec line free {} four p ∧ ∀ sol, ∃ p', exec line free p (.solve [] [] [] sol) = some p') ∧
    (∃ p, Exec line free {} (four ++ [.addImu 1 (limu 50), .addNode 1 (lnode 51 0), .addSubmap 1 1]) p ∧
      ∀ cs ls sol, exec line free p (.solve cs [] ls sol) = none) ∧
    (∃ p, Exec line free {} (four ++ [.addImu 1 (limu 50), .addNode 1 (lnode 51 0), .addSubmap 1 1, .addImu 1 (limu 55),
        .addNode 1 (lnode 61 3)]) p ∧ ∀ cs ls sol, exec line free p (.solve cs [] ls sol) = none) :=
  ⟨four_succeeds, aborts_of (t := 1) (i := 0) (by decide +kernel), aborts_of (t := 1) (i := 1) (by decide +kernel)⟩

/-- **C107, trimming a node can make `Solve` abort**: of four nodes the second is trimmed. -/
theorem trimming_aborts :
    (∃ p, Exec line free {} four p ∧ ∀ sol, ∃ p', exec line free p (.solve [] [] [] sol) = some p') ∧
    ∃ p, Exec line free {} (four ++ [.trimNode (0, 1)]) p ∧ ∀ cs ls sol, exec line free p (.solve cs [] ls sol) = none :=
  ⟨four_succeeds, aborts_of (t := 0) (i := 0) (by decide +kernel)⟩

/-- **C107, `Solve` aborts if the first measurement is after the first node.** -/
theorem late_measurement_aborts : ∃ p, Exec line free {} [.addNode 0 (lnode 10 0), .addSubmap 0 1, .addImu 0 (limu 12), .addNode 0 (lnode 20 11),
      .addNode 0 (lnode 30 20)] p ∧ ∀ cs ls sol, exec line free p (.solve cs [] ls sol) = none := by
  have hrun : (run free {} [.addNode 0 (lnode 10 0), .addSubmap 0 1, .addImu 0 (limu 12), .addNode 0 (lnode 20 11),
      .addNode 0 (lnode 30 20)]).any (fun p => good p && decide (at? p.nodes (0, 0) = some (lnode 10 0)) &&
        decide (at? p.nodes (0, 1) = some (lnode 20 11)) && (MapByTime.dataOf p.imu 0).all (fun e => decide (10 < e.1))) = true := by decide +kernel
  obtain ⟨p, hp, hq⟩ := (Option.any_eq_true _ _).1 hrun
  simp only [Bool.and_eq_true, decide_eq_true_eq, List.all_eq_true] at hq
  obtain ⟨⟨⟨h1, h2⟩, h3⟩, h4⟩ := hq
  have he := exec_of_run hp
  obtain ⟨k1, -, k3, -⟩ := good_spec (inv_exec he) h1
  refine ⟨p, he, solve_aborts rfl he k3 k1 (t := 0) (i := 0) (by simp) (by rw [h2]; rfl) fun hI => ?_⟩
  obtain ⟨e, hm, hle⟩ := hI.before 0 _ _ h2 h3
  exact absurd (h4 e hm) (not_lt.2 hle)

/-- The hypotheses of `trim_keeps_residuals` hold for four nodes and one more. -/
example : ∃ p, Exec line free {} (four ++ [.addNode 0 (lnode 45 31)]) p ∧ MapByTime.SmallNodes p.nodes ∧ at? p.nodes (0, 1) = some (lnode 20 11) ∧
    MapByTime.Ordered (fun n : Node _ _ => n.time) p.nodes 0 ∧ Inertial p 0 ∧
    (∃ i, (at? p.nodes (0, i)).isSome ∧ (at? p.nodes (0, i + 1)).isSome ∧ (at? p.nodes (0, i + 2)).isSome ∧
        ((0, i) : Id) ≠ (0, 1) ∧ ((0, i + 1) : Id) ≠ (0, 1) ∧ ((0, i + 2) : Id) ≠ (0, 1)) := by
  have hrun : (run free {} (four ++ [.addNode 0 (lnode 45 31)])).any (fun p => good p && inertial p 0 2 &&
      decide (at? p.nodes (0, 1) = some (lnode 20 11))) = true := by decide +kernel
  obtain ⟨p, hp, hq⟩ := (Option.any_eq_true _ _).1 hrun
  simp only [Bool.and_eq_true, decide_eq_true_eq] at hq
  obtain ⟨⟨h1, h2⟩, h3⟩ := hq
  have he := exec_of_run hp
  have hi := inv_exec he
  obtain ⟨k1, -, -, k4⟩ := good_spec hi h1
  simp only [inertial, Bool.and_eq_true] at h2
  exact ⟨p, he, k1, h3, k4 0, inertial_spec (i := 2) hi (by simp only [inertial, Bool.and_eq_true]; exact h2), 2, h2.1.1.2, h2.1.2, h2.2,
    by decide, by decide, by decide⟩

end Examples

end Verif.OptProblem3
