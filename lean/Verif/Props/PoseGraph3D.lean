import Verif.PoseGraph3D
import Verif.Props.LocalSlamGraph
import Verif.Props.PoseGraphTrim

/-!
# The 3D pose graph (C117)
-/

namespace Verif.PoseGraph

open MapById

variable {P : Type} {log : Bool} {S : Setup}

/-! ### What the two functions look up -/

theorem computeConstraint3D_eq (s : State P) (node id : Id) (how : Search) : computeConstraint3D s node id how =
    if (at? s.optNodes node).isSome ∧ (at? s.optSubmaps id).isSome then computeConstraint s node id how else none := by
  unfold computeConstraint3D computeConstraint
  cases h1 : at? s.optNodes node with
  | none => simp
  | some x =>
    cases h2 : at? s.optSubmaps id with
    | none => simp
    | some y =>
      simp only [Option.isSome_some, and_self, if_true, Option.bind_eq_bind, Option.bind_some]
      cases how <;> rfl

theorem logResiduals_iff (s : State P) (cs : List (Constraint P)) : logResiduals s cs = some () ↔
    ∀ c ∈ cs, c.intra = true → (at? s.nodes c.node).isSome ∧ (at? s.optSubmaps c.submap).isSome := by
  induction cs with
  | nil => simp [logResiduals]
  | cons c cs ih =>
    simp only [logResiduals]
    by_cases hc : c.intra = true
    · rw [if_pos hc]
      cases h1 : at? s.nodes c.node with
      | none => simp [hc, h1]
      | some x =>
        cases h2 : at? s.optSubmaps c.submap with
        | none => simp [hc, h1, h2]
        | some y => simp [hc, h1, h2, ih]
    · rw [if_neg hc, ih]
      simp [hc]

/-- What a step of the 3D pose graph needs in addition: for a pair to be searched both poses, and for logging the pose of the submap of each constraint of local SLAM. -/
def Needs3D (log : Bool) (s : State P) : Act P → Prop
  | .search _ => ∀ node id todo, s.worker = .searching ((node, id) :: todo) → (at? s.optNodes node).isSome ∧ (at? s.optSubmaps id).isSome
  | .optimize _ => log = true → (flat s.optSubmaps).isEmpty = false → ∀ c ∈ s.constraints, c.intra = true → (at? s.optSubmaps c.submap).isSome
  | _ => True

/-- **The difference.** In a reachable state a step of the 3D pose graph does what the 2D pose graph does, provided that what is looked up is there; otherwise it aborts. -/
theorem exec3D_iff {as : List (Act P)} {s s' : State P} (h : Exec {} as s) {a : Act P} (he : Enabled s a) : exec3D log s a = some s' ↔ exec s a = some s' ∧ Needs3D log s a := by
  cases a with
  | search how =>
    obtain ⟨⟨node, id⟩, todo, hw⟩ := he
    simp only [exec3D, exec, hw, computeConstraint3D_eq, Needs3D]
    by_cases hc : (at? s.optNodes node).isSome ∧ (at? s.optSubmaps id).isSome
    · rw [if_pos hc]
      refine ⟨fun hx => ⟨hx, ?_⟩, fun hx => hx.1⟩
      intro n i t ht
      cases ht
      exact hc
    · rw [if_neg hc]
      constructor
      · intro hx
        cases hx
      · intro hx
        exact absurd (hx.2 node id todo rfl) hc
  | optimize result =>
    simp only [exec3D, exec, optimize3D, Needs3D, Option.bind_eq_bind, Option.bind_eq_some_iff, Option.some.injEq, guard_some, exists_const]
    have key : ∀ s1, optimize s result = some s1 → (logResiduals s1 s1.constraints = some () ↔ ∀ c ∈ s.constraints, c.intra = true → (at? s.optSubmaps c.submap).isSome) := by
      intro s1 h1
      unfold optimize at h1
      split at h1
      · cases h1
        rw [logResiduals_iff]
        constructor
        · intro hx c hc hi
          exact (hx c (List.mem_append_left _ hc) hi).2
        · intro hx c hc hi
          rcases List.mem_append.1 hc with hc' | hc'
          · exact ⟨(no_dangling_constraints h c hc').2, hx c hc' hi⟩
          · rw [(he.2 c hc').1] at hi
            cases hi
      · cases h1
    constructor
    · rintro ⟨s1, h1, h2, rfl⟩
      refine ⟨h1, ?_⟩
      intro hl hne
      rcases h2 with h2 | h2 | h2
      · rw [hl] at h2; cases h2
      · rw [hne] at h2; cases h2
      · exact (key _ h1).1 h2
    · rintro ⟨h1, h2⟩
      refine ⟨s', h1, ?_, rfl⟩
      cases hl : log with
      | false => exact Or.inl rfl
      | true =>
        right
        cases hne : (flat s.optSubmaps).isEmpty with
        | true => exact Or.inl rfl
        | false => exact Or.inr ((key _ h1).2 (h2 hl hne))
  | _ => exact ⟨fun hx => ⟨hx, trivial⟩, fun hx => hx.1⟩

/-- **Every execution of the 3D pose graph is one of the 2D pose graph**, so that everything proved about all of these (C33, C34, C35, C42, C52, C116) holds in 3D as well. -/
theorem Exec3D.exec {as : List (Act P)} {s : State P} (h : Exec3D log {} as s) : Exec {} as s := by
  generalize hs : ({} : State P) = s0 at h
  induction h with
  | nil => exact .nil
  | snoc h1 h2 h3 ih =>
    subst hs
    exact .snoc ih h2 ((exec3D_iff ih h2).1 h3).1

/-- For instance: no constraint refers to a submap or node that is not there. -/
theorem no_dangling_constraints_3d {as : List (Act P)} {s : State P} (h : Exec3D log {} as s) : ∀ c ∈ s.constraints,
    (∃ sm, at? s.submaps c.submap = some sm ∧ (c.intra = true → c.node ∈ sm.nodeIds)) ∧ (at? s.nodes c.node).isSome :=
  no_dangling_constraints h.exec

/-! ### With local SLAM as the caller -/

theorem needs_3d {as : List (Act P)} {seen : Seen} {s : State P} (h : OExec S as seen s) {a : Act P} (he : Enabled s a) : Needs3D log s a := by
  cases a with
  | search how =>
    obtain ⟨s', hs'⟩ := local_slam_never_aborts h (a := .search .locally) he trivial
    intro node id todo hw
    simp only [exec, hw, computeConstraint, Option.bind_eq_bind, Option.bind_eq_some_iff] at hs'
    obtain ⟨_, _, _, _, _, _, x, hx, y, hy, _⟩ := hs'
    exact ⟨by rw [hy]; rfl, by rw [hx]; rfl⟩
  | optimize result =>
    intro _ _ c hc hi
    obtain ⟨cc, fin, inv⟩ := h.inv
    have hm : (c.submap, c.node) ∈ intraOf s c.submap.1 := by
      unfold intraOf
      rw [List.mem_map]
      exact ⟨c, List.mem_filter.2 ⟨hc, by simp [hi]⟩, rfl⟩
    rw [inv.intra, List.mem_flatMap] at hm
    obtain ⟨k, hk, hl⟩ := hm
    obtain ⟨i, e1, _, e3, e4⟩ := links_mem.1 hl
    rw [e1, inv.optSubmaps.at_nat]
    have hk' : k < cc c.submap.1 := List.mem_range.1 hk
    have hp := S.pos c.submap.1
    have : i < submapCount (S.n c.submap.1) (cc c.submap.1) := by
      unfold submapCount
      rw [Nat.lt_div_iff_mul_lt hp]
      omega
    rw [List.getElem?_eq_getElem (by simpa using this)]
    rfl
  | _ => trivial

/-- **The 3D pose graph does with local SLAM exactly what the 2D pose graph does**: the same executions, in which the same pairs are searched. -/
theorem local_slam_3d {as : List (Act P)} {seen : Seen} {s : State P} : OExec3D log S as seen s ↔ OExec S as seen s := by
  constructor
  · intro h
    induction h with
    | nil => exact .nil
    | snoc h1 h2 h3 h4 ih => exact .snoc ih h2 h3 ((exec3D_iff ih.exec h2).1 h4).1
  · intro h
    induction h with
    | nil => exact .nil
    | snoc h1 h2 h3 h4 ih => exact .snoc ih h2 h3 ((exec3D_iff h1.exec h2).2 ⟨h4, needs_3d h1 h2⟩)

/-- **No `CHECK` fails**, whatever is done next, with or without logging of residuals. -/
theorem local_slam_never_aborts_3d {as : List (Act P)} {seen : Seen} {s : State P} (h : OExec3D log S as seen s) {a : Act P} (he : Enabled s a) (hd : Orderly S as s a) :
    ∃ s', exec3D log s a = some s' := by
  have h' := local_slam_3d.1 h
  obtain ⟨s', hs'⟩ := local_slam_never_aborts h' he hd
  exact ⟨s', (exec3D_iff h'.exec he).2 ⟨hs', needs_3d h' he⟩⟩

/-- Once all work items have run, the 3D pose graph contains exactly what local SLAM did. -/
theorem local_slam_complete_3d {as : List (Act P)} {seen : Seen} {s : State P} (h : OExec3D log S as seen s) (hq : s.queue = []) (hf : s.inflight = []) (t : Int) :
    Complete S s t (adds as t) (posted as t) := local_slam_complete (local_slam_3d.1 h) hq hf t

/-! ### Where the 3D pose graph aborts and the 2D one does not -/

/-- Some steps. -/
def runActs (f : State Unit → Act Unit → Option (State Unit)) (s : State Unit) : List (Act Unit) → Option (State Unit)
  | [] => some s
  | a :: as => (f s a).bind fun s' => runActs f s' as

/-- One thread loads a submap, another one finishes its trajectory before the work item of the first is in the queue; then a node of another trajectory is processed. -/
def raceActs : List (Act Unit) := [.addSubmapFromProto (0, 0) 5, .post (.finish 0), .enqueue 1, .run [], .addNode 1 [6] false, .enqueue 1, .run [()]]

/-- **A race.** The submap is marked as finished before it is in the optimization problem.  The 2D pose graph searches it and goes on; the 3D pose graph looks up its pose and aborts. -/
theorem race_3d : ∃ s, Exec ({} : State Unit) raceActs s ∧ Exec3D log {} raceActs s ∧ Enabled s (.search .globally) ∧ exec3D log s (.search .globally) = none ∧
    ∃ s', runActs exec s [.search .globally, .endSearch, .enqueue 0, .run []] = some s' ∧ s'.queue = [] ∧ s'.inflight = [] := by
  have step : ∀ {as : List (Act Unit)} {s s' : State Unit} {a : Act Unit}, Exec ({} : State Unit) as s ∧ Exec3D log {} as s → Enabled s a → exec s a = some s' → exec3D log s a = some s' →
      Exec ({} : State Unit) (as ++ [a]) s' ∧ Exec3D log {} (as ++ [a]) s' := fun h1 h2 h3 h4 => ⟨.snoc h1.1 h2 h3, .snoc h1.2 h2 h4⟩
  have h0 : Exec ({} : State Unit) [] {} ∧ Exec3D log ({} : State Unit) [] {} := ⟨.nil, .nil⟩
  have h1 := step (a := .addSubmapFromProto (0, 0) 5) h0 trivial rfl rfl
  have h2 := step (a := .post (.finish 0)) h1 rfl rfl rfl
  have h3 := step (a := .enqueue 1) h2 (by simp [Enabled]) rfl rfl
  have h4 := step (a := .run []) h3 ⟨rfl, by simp⟩ rfl rfl
  have h5 := step (a := .addNode 1 [6] false) h4 (by simp [Enabled]) rfl rfl
  have h6 := step (a := .enqueue 1) h5 (by simp [Enabled]) rfl rfl
  have h7 := step (a := .run [()]) h6 ⟨rfl, by simp⟩ rfl rfl
  exact ⟨_, h7.1, h7.2, ⟨_, _, rfl⟩, rfl, _, rfl, rfl, rfl⟩

/-! ### Examples -/

/-- The execution of C56 with two trajectories is one of the 3D pose graph with logging. -/
example : ∃ seen s, OExec3D true twos (fullNode twos 1 0 0 ++ fullNode twos 0 0 0 ++ fullNode twos 0 1 0 ++ fullNode twos 0 2 0 ++ fullNode twos 0 3 1 ++ fullNode twos 0 4 1) seen s ∧
    seen.asked = [((1, 0), (0, 0)), ((0, 4), (0, 0))] := by
  have h : ∃ p, script twos [] {} {} (fullNode twos 1 0 0 ++ fullNode twos 0 0 0 ++ fullNode twos 0 1 0 ++ fullNode twos 0 2 0 ++
      fullNode twos 0 3 1 ++ fullNode twos 0 4 1) = some p ∧ p.1.asked = [((1, 0), (0, 0)), ((0, 4), (0, 0))] := ⟨_, rfl, rfl⟩
  obtain ⟨⟨seen, s⟩, h1, h2⟩ := h
  exact ⟨seen, s, local_slam_3d.2 (script_ok (as := []) OExec.nil h1), h2⟩

/-- Logging alone makes a difference where a constraint of local SLAM was loaded before its submap was known to the optimization problem. -/
example : (runActs (exec3D false) {} [.addSubmapFromProto (0, 0) 5, .addNodeFromProto (0, 0), .addSubmapFromProto (1, 0) 6, .enqueue 1, .run [], .enqueue 1, .run [],
      .post (.serialized [⟨(0, 0), (0, 0), (), true⟩]), .enqueue 1, .run [], .optimize []]).isSome = true ∧
    (runActs (exec3D true) {} [.addSubmapFromProto (0, 0) 5, .addNodeFromProto (0, 0), .addSubmapFromProto (1, 0) 6, .enqueue 1, .run [], .enqueue 1, .run [],
      .post (.serialized [⟨(0, 0), (0, 0), (), true⟩]), .enqueue 1, .run [], .optimize []]).isSome = false := by decide +kernel

end Verif.PoseGraph
