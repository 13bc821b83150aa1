import Verif.SubmapConstraintsInvariant
import Verif.Props.Localization

/-!
# Constraints within submaps and the nodes of submaps (C120)

In all executions of the pose graph in which local SLAM adds nodes to its own trajectories and loads to theirs, with any trimmers, deletions and interleavings: a node of local SLAM is in
`node_ids` of a submap exactly if there is a constraint with the tag `INTRA_SUBMAP` between them, and there is never a second one.  A node stays in the pose graph exactly as long as it is not
processed or some submap has it.  So what `MapBuilder` saves can always be loaded.
-/

namespace Verif.SubmapLinks

open PoseGraph
open MapById (Id Map at?)
open Loading (pairs Sound Good Ready)
open Localize (Uses)

variable {P : Type} {mine : Int → Bool}

/-- The invariant holds always. -/
theorem linked {as : List (Act P)} {s : State P} (h : Exec {} as s) (ha : ∀ a ∈ as, ActNamed mine a) : Linked mine s := by
  generalize hs : ({} : State P) = s0 at h
  induction h with
  | nil => exact hs ▸ Linked.init
  | snoc h1 he hx ih =>
    subst hs
    exact (ih (fun a h => ha a (List.mem_append_left _ h))).step (exec_integrity h1 Integrity.init) (ha _ (by simp)) he hx

/-- The constraints with the tag `INTRA_SUBMAP` between a node and a submap. -/
def intra (s : State P) (n id : Id) : List (Constraint P) := s.constraints.filter fun c => c.intra && decide (c.node = n) && decide (c.submap = id)

theorem intra_length {s : State P} {n id : Id} : (intra s n id).length = (pairs s.constraints).count (n, id) := by
  unfold intra pairs
  induction s.constraints with
  | nil => rfl
  | cons c l ih =>
    by_cases h1 : c.intra = true
    · rw [List.filter_cons, List.filter_cons, if_pos h1, List.map_cons, List.count_cons, ← ih]
      by_cases h2 : c.node = n ∧ c.submap = id
      · rw [if_pos (by simp [h1, h2]), if_pos (by simp [h2])]
        simp
      · rw [if_neg (by simpa [h1] using h2), if_neg (by simpa using h2)]
        simp
    · rw [List.filter_cons, List.filter_cons, if_neg h1, if_neg (by simp [h1]), ih]

/-- C120, part 1: no node has two such constraints with a submap. -/
theorem at_most_one {as : List (Act P)} {s : State P} (h : Exec {} as s) (ha : ∀ a ∈ as, ActNamed mine a) (n id : Id) : (intra s n id).length ≤ 1 := by
  rw [intra_length]
  exact List.nodup_iff_count_le_one.1 (linked h ha).nodup _

/-- C120, part 2: a node of local SLAM has **exactly one** if it is in `node_ids` of the submap, and none otherwise. -/
theorem one_for_each {as : List (Act P)} {s : State P} (h : Exec {} as s) (ha : ∀ a ∈ as, ActNamed mine a) {n : Id} (hn : mine n.1 = false) (id : Id) :
    (intra s n id).length = match at? s.submaps id with
      | none => 0
      | some sm => if n ∈ sm.nodeIds then 1 else 0 := by
  have hl := linked h ha
  have hi := exec_integrity h Integrity.init
  rw [intra_length]
  have none_if : ¬ Mem s.submaps n id → (pairs s.constraints).count (n, id) = 0 := fun hno => List.count_eq_zero.2 fun hp => hno (mem_of_pairs hi hp).1
  split
  · rename_i hs
    refine none_if ?_
    rintro ⟨sm, h1, -⟩
    rw [hs] at h1
    cases h1
  · rename_i sm hs
    split
    · rename_i hm
      rw [hl.nodup.count, if_pos (hl.linked n id ⟨sm, hs, hm⟩ hn)]
    · rename_i hm
      refine none_if ?_
      rintro ⟨sm', h1, h2⟩
      rw [hs] at h1
      obtain rfl := Option.some.inj h1
      exact hm h2

/-- C120, part 3: a node of local SLAM is in the pose graph **exactly as long as** its work item has not run or some submap has it. -/
theorem no_orphans {as : List (Act P)} {s : State P} (h : Exec {} as s) (ha : ∀ a ∈ as, ActNamed mine a) {n : Id} (hn : mine n.1 = false) :
    (at? s.nodes n).isSome ↔ (∃ ins nf, Item.computeConstraints n ins nf ∈ s.queue ++ s.inflight) ∨ ∃ id sm, at? s.submaps id = some sm ∧ n ∈ sm.nodeIds := by
  have hl := linked h ha
  have hi := exec_integrity h Integrity.init
  have hw : n ∈ waiting s ↔ ∃ ins nf, Item.computeConstraints n ins nf ∈ s.queue ++ s.inflight := by
    unfold waiting
    rw [List.mem_filterMap]
    constructor
    · rintro ⟨i, h1, h2⟩
      cases i with
      | computeConstraints m ins nf =>
        simp only [nodeOf, Option.some.injEq] at h2
        subst h2
        exact ⟨ins, nf, h1⟩
      | _ => simp [nodeOf] at h2
    · rintro ⟨ins, nf, h1⟩
      exact ⟨_, h1, rfl⟩
  rw [← hw]
  constructor
  · intro hs
    exact hl.owned n hs hn
  · rintro (hs | ⟨id, hs⟩)
    · exact (hl.fresh n hs).2.1
    · exact (mem_of_pairs hi (hl.linked n id hs hn)).2

/-- C120, part 3: and never both. -/
theorem not_both {as : List (Act P)} {s : State P} (h : Exec {} as s) (ha : ∀ a ∈ as, ActNamed mine a) {n : Id} {ins : List Nat} {nf : Bool} (hq : Item.computeConstraints n ins nf ∈ s.queue ++ s.inflight)
    {id : Id} {sm : Submap} (hs : at? s.submaps id = some sm) : n ∉ sm.nodeIds := fun hm =>
  ((linked h ha).fresh n (List.mem_filterMap.2 ⟨_, hq, rfl⟩)).2.2 id ⟨sm, hs, hm⟩

/-! ### Localization -/

/-- The executions of C119 are such executions. -/
theorem uses_exec {S : Setup} {calls as made : List (Act P)} {s : State P} (g : Good mine calls) (h : Uses S mine calls as made s) : ∃ l, Exec {} l s ∧ ∀ a ∈ l, ActNamed mine a := by
  induction h with
  | start => exact ⟨[], .nil, by simp⟩
  | @load as made left a s s' h hc hf hx ih =>
    obtain ⟨l, h1, h2⟩ := ih
    have r : Ready mine (made.map Loading.itemOf) a := g _ _ _ hc
    have gm := Loading.good_prefix g hc
    have own : ∀ id ∈ (made.map Loading.itemOf).flatMap Loading.nodesOf, mine id.1 = true := by
      intro id hid
      obtain ⟨b, _, r'⟩ := Loading.good_mem gm (Loading.nodes_call gm hid)
      exact r'.1
    have key : PoseGraph.Enabled s a ∧ ActNamed mine a := by
      cases a with
      | addSubmapFromProto id ptr => exact ⟨trivial, trivial⟩
      | addNodeFromProto id => exact ⟨trivial, r.1⟩
      | post i =>
        cases i with
        | freeze t => exact ⟨rfl, trivial⟩
        | data t => exact ⟨rfl, trivial⟩
        | nodeToSubmap n i => exact ⟨rfl, own n r.1⟩
        | serialized cs => exact ⟨rfl, fun c hc => own _ (r.1 c hc).1⟩
        | _ => exact r.elim
      | _ => exact r.elim
    refine ⟨l ++ [a], .snoc h1 key.1 hx, ?_⟩
    intro b hb
    rcases List.mem_append.1 hb with hb | hb
    · exact h2 b hb
    · exact List.mem_singleton.1 hb ▸ key.2
  | @act as made b s s' h he hc hx ih =>
    obtain ⟨l, h1, h2⟩ := ih
    refine ⟨l ++ [b], .snoc h1 he hx, ?_⟩
    intro a ha
    rcases List.mem_append.1 ha with ha | ha
    · exact h2 a ha
    · rw [List.mem_singleton.1 ha]
      cases b with
      | addNode t ins nf => exact hc.1
      | addNodeFromProto id => exact hc.elim
      | post i =>
        cases i with
        | nodeToSubmap n i => exact hc.elim
        | serialized cs => exact hc.elim
        | _ => trivial
      | _ => trivial

/-- C120, part 4: in the executions of C119 the constraints within submaps of a trajectory of local SLAM are **those of local SLAM without the trimmed submaps**: one for each submap left and each of its
nodes that was processed. -/
theorem constraints_left {S : Setup} {calls as made : List (Act P)} {s : State P} (g : Good mine calls) (h : Uses S mine calls as made s) {t : Int} (ht : mine t = false) :
    ∃ lo k fin, k ≤ adds as t ∧ Localize.Left S s t lo (adds as t) k fin ∧
      ∀ i j : Nat, (intra s (t, (j : Int)) (t, (i : Int))).length = if lo ≤ i ∧ j < k ∧ i * S.n t ≤ j ∧ j < (i + 2) * S.n t then 1 else 0 := by
  obtain ⟨l, h1, h2⟩ := uses_exec g h
  obtain ⟨lo, k, fin, hk, -, hl⟩ := Localize.newest_left g h ht
  refine ⟨lo, k, fin, hk, hl, fun i j => ?_⟩
  rw [one_for_each h1 h2 (n := (t, (j : Int))) ht]
  have hex := hl.submaps (i : Int)
  split
  · rename_i hn
    rw [if_neg]
    rintro ⟨g1, g2, g3, -⟩
    have := hex.2 ⟨i, rfl, g1, by omega⟩
    rw [hn] at this
    cases this
  · rename_i sm hs
    have hmem := (hl.submap i sm hs).2.2 (t, (j : Int))
    rw [hs] at hex
    obtain ⟨i', e, g1, -⟩ := hex.1 rfl
    have : i' = i := by omega
    subst this
    congr 1
    rw [eq_iff_iff, hmem]
    constructor
    · rintro ⟨j', e', x⟩
      have : j' = j := by
        have := congrArg Prod.snd e'
        dsimp only at this
        omega
      subst this
      exact ⟨g1, x⟩
    · rintro ⟨_, x⟩
      exact ⟨j, rfl, x⟩

/-! ### Saving -/

section Builder

variable {S D T O : Type} [LinearOrder S] [LinearOrder T] [OrderBot T] {time : D → T} {sensor : D → S} {order : List ℤ → List ℤ} {use3d byTrajectory : Bool}

/-- The trajectories without a builder. -/
def without (b : List (Option (List S))) (t : Int) : Bool := !MapBuilder.hasBuilder b t

theorem built_has {s : MapBuilder.State S D T O P} {b : List (Option (List S))} (hb : s.builders <+: b) {t : Int} (h : MapBuilder.Built s t) : without b t = false := by
  obtain ⟨l, rfl⟩ := hb
  unfold without
  rw [Bool.not_eq_false']
  obtain ⟨ss, h⟩ := h
  unfold MapBuilder.State.builder at h
  split at h
  · cases h
  · rename_i hn
    unfold MapBuilder.hasBuilder
    rw [Bool.and_eq_true]
    refine ⟨by simpa using hn, ?_⟩
    rw [List.getElem?_append_left (List.getElem?_eq_some_iff.1 h).1, h]
    rfl

theorem slam_named {a : Act P} {t : Int} (h : MapBuilder.slamCall a = some t) (ht : mine t = false) : ActNamed mine a := by
  cases a with
  | addNode u ins nf =>
    simp only [MapBuilder.slamCall] at h
    split at h
    · cases h
    · obtain rfl := Option.some.inj h
      exact ht
  | post i =>
    cases i with
    | data t => trivial
    | _ => simp [MapBuilder.slamCall] at h
  | _ => simp [MapBuilder.slamCall] at h

theorem call_named {ptr : Id → Nat} {c : Serialization.Call P} (h : MapBuilder.CallIn (fun t => mine t = true) c) : ActNamed mine (MapBuilder.toAct ptr c) := by
  cases c with
  | addNodeFromProto id => exact h
  | addNodeToSubmap n i => exact h.1
  | addSerializedConstraints cs => exact fun c hc => (h c hc).1
  | _ => trivial

/-- The pose graph of a map builder has such executions: local SLAM adds nodes to trajectories with a builder, `LoadState` to trajectories without. -/
theorem builder_linked {ops : List (MapBuilder.Op S D O P)} {s : MapBuilder.State S D T O P} (h : MapBuilder.Exec time sensor order use3d byTrajectory MapBuilder.Names ops s) :
    ∀ b, s.builders <+: b → Linked (without b) s.graph ∧ ∀ a ∈ s.pending, ActNamed (without b) a := by
  induction h with
  | nil => exact fun b _ => ⟨Linked.init, by simp [MapBuilder.init]⟩
  | @snoc ops s op s' h1 h2 h3 h4 ih =>
    intro b hpre
    have i := MapBuilder.exec_inv (fun _ _ _ h => h) h1
    obtain ⟨as, hg⟩ := i.graph
    have hint := exec_integrity hg Integrity.init
    have hb := (MapBuilder.step_lists h4).2
    have hpre0 : s.builders <+: b := by
      refine List.IsPrefix.trans ?_ hpre
      rw [hb]
      exact List.prefix_append _ _
    obtain ⟨f, hp⟩ := ih b hpre0
    cases op with
    | add ss o keep =>
      simp only [MapBuilder.State.step, Option.bind_eq_bind, Option.bind_eq_some_iff, Option.some.injEq, PoseGraph.guard_some] at h4
      obtain ⟨_, hk, r, hr, _, _, rfl⟩ := h4
      refine ⟨f, ?_⟩
      intro a ha
      cases keep with
      | none => simp [MapBuilder.trimmerCall] at ha
      | some k =>
        simp only [MapBuilder.trimmerCall, List.mem_singleton] at ha
        subst ha
        trivial
    | data t d acts =>
      simp only [MapBuilder.State.step, Option.bind_eq_bind, Option.bind_eq_some_iff, Option.some.injEq] at h4
      obtain ⟨b', hb', _, _, r, hr, rfl⟩ := h4
      obtain ⟨c1, c2⟩ := MapBuilder.coll_in i.coll (by intro t ht; cases ht) hr
      refine ⟨f, ?_⟩
      intro a ha
      obtain ⟨x, hx, hs⟩ := h2.2 r hr a ha
      exact slam_named hs (built_has hpre0 (c2 x hx))
    | direct t acts =>
      simp only [MapBuilder.State.step, Option.bind_eq_bind, Option.bind_eq_some_iff, Option.some.injEq] at h4
      obtain ⟨b', hb', ss, rfl, rfl⟩ := h4
      refine ⟨f, ?_⟩
      intro a ha
      exact slam_named (h2.2 a ha) (built_has hpre0 ⟨ss, hb'⟩)
    | finish t acts =>
      simp only [MapBuilder.State.step, Option.bind_eq_bind, Option.bind_eq_some_iff, Option.some.injEq] at h4
      obtain ⟨r, hr, rfl⟩ := h4
      obtain ⟨c1, c2⟩ := MapBuilder.coll_in i.coll (by intro t ht; cases ht) hr
      refine ⟨f, ?_⟩
      intro a ha
      rcases List.mem_append.1 ha with ha | ha
      · obtain ⟨x, hx, hs⟩ := h2.2 r hr a ha
        exact slam_named hs (built_has hpre0 (c2 x hx))
      · rw [List.mem_singleton.1 ha]
        trivial
    | load recs frozen ptr =>
      obtain ⟨L, h1', h2', h3', h4', h5, h6⟩ := MapBuilder.load_builders h4
      obtain ⟨v, p, os, rest, rfl, _, _, _, _, _, h8⟩ := MapBuilder.load_any h1'
      refine ⟨by rw [h4']; exact f, ?_⟩
      intro a ha
      rw [h6] at ha
      obtain ⟨c, hc, rfl⟩ := List.mem_map.1 ha
      refine call_named (Loading.CallIn.mono ?_ (h8 c hc))
      intro t ht
      unfold without
      rw [Bool.not_eq_true']
      obtain ⟨l, rfl⟩ := hpre
      unfold MapBuilder.State.size at ht
      rw [h3']
      simp only [MapBuilder.fileOptions]
      unfold MapBuilder.hasBuilder
      rw [Bool.and_eq_false_iff]
      right
      rw [List.append_assoc, List.getElem?_append_right (by omega), List.getElem?_append_left (by rw [List.length_map]; omega), List.getElem?_map]
      cases os[t.toNat - s.builders.length]? <;> rfl
    | user a =>
      simp only [MapBuilder.State.step, Option.some.injEq] at h4
      subst h4
      refine ⟨f, ?_⟩
      intro b hb
      rw [List.mem_singleton.1 hb]
      have hu := h2.2
      cases a with
      | deleteTrajectory t => trivial
      | post i =>
        cases i with
        | freeze t => trivial
        | addTrimmer tr => trivial
        | _ => exact hu.elim
      | _ => exact hu.elim
    | call =>
      have hpe := i.pending
      simp only [MapBuilder.State.step] at h4
      split at h4
      · cases h4
      · rename_i a l hpd
        simp only [Option.bind_eq_bind, Option.bind_eq_some_iff, Option.some.injEq] at h4
        obtain ⟨g, hg', rfl⟩ := h4
        rw [hpd] at hpe hp
        exact ⟨f.step hint (hp a List.mem_cons_self) ((hpe a List.mem_cons_self).2 _) hg', fun b hb => hp b (List.mem_cons_of_mem _ hb)⟩
    | work a =>
      simp only [MapBuilder.State.step, Option.bind_eq_bind, Option.bind_eq_some_iff, Option.some.injEq] at h4
      obtain ⟨g, hg', rfl⟩ := h4
      refine ⟨f.step hint ?_ h2.2 hg', hp⟩
      have := h2.1
      cases a <;> trivial

/-- C120, part 5: **whatever a map builder saves, at any time, is sound**: so it can be loaded without aborting, also while the pose graph is in use (`Loading.load_while_running`). -/
theorem saved_loads {ops : List (MapBuilder.Op S D O P)} {s : MapBuilder.State S D T O P} (h : MapBuilder.Exec time sensor order use3d byTrajectory MapBuilder.Names ops s) {inc : Bool} {fin : Nat → Bool}
    {td im od ff lm : List Int} {rs : List (Serialization.Record P O)} (hs : Serialization.save inc ⟨s.graph, fin, s.options, td, im, od, ff, lm⟩ = some rs) : Sound rs := by
  obtain ⟨as, hg⟩ := (MapBuilder.exec_inv (fun _ _ _ h => h) h).graph
  exact Loading.saved_sound (s := ⟨s.graph, fin, s.options, td, im, od, ff, lm⟩) hg (builder_linked h s.builders (List.prefix_refl _)).1.nodup hs

end Builder

/-! ### Examples -/

/-- In the execution of `Localize.exRun` the trimmed pose graph has the constraints of the two newest nodes and submaps, and the nodes of the loaded map have none. -/
example : ∃ l s, Exec ({} : State Unit) l s ∧ (∀ a ∈ l, ActNamed (fun t => decide (t = 5)) a) ∧ pairs s.constraints = [((0, 2), (0, 2)), ((0, 3), (0, 2)), ((0, 3), (0, 3))] ∧
    (intra s (0, 3) (0, 2)).length = 1 ∧ (intra s (0, 2) (0, 3)).length = 0 ∧ Mem s.submaps (5, 0) (5, 0) ∧ (intra s (5, 0) (5, 0)).length = 0 := by
  have h : ∃ p, Localize.play Localize.ones (fun t => decide (t = 5)) Localize.exCalls [] [] {} Localize.exSteps = some p ∧
      pairs p.2.2.constraints = [((0, 2), (0, 2)), ((0, 3), (0, 2)), ((0, 3), (0, 3))] ∧ Mem p.2.2.submaps (5, 0) (5, 0) :=
    ⟨_, rfl, rfl, _, rfl, by decide⟩
  obtain ⟨⟨as, made, s⟩, h1, h2, h3⟩ := h
  obtain ⟨l, h4, h5⟩ := uses_exec Localize.exCalls_good (Localize.play_ok .start ⟨Localize.exCalls, rfl⟩ h1)
  dsimp only at h2
  refine ⟨l, s, h4, h5, h2, ?_, ?_, h3, ?_⟩ <;> (rw [intra_length, h2]; decide)

/-- A map that was loaded frozen and is saved again loses which nodes are in which submaps: node (5, 0) is in submap (5, 0), and the file has no constraint between them. -/
example : ∃ l s rs p, Exec ({} : State Unit) l s ∧ (∀ a ∈ l, ActNamed (fun t => decide (t = 5)) a) ∧ Mem s.submaps (5, 0) (5, 0) ∧
    Serialization.save (O := Unit) true ⟨s, fun _ => true, [(), (), (), (), (), ()], [], [], [], [], []⟩ = some rs ∧ Serialization.Record.poseGraph p ∈ rs ∧ pairs p.constraints = [((0, 2), (0, 2)), ((0, 3), (0, 2)), ((0, 3), (0, 3))] := by
  have h : ∃ p rs pr, Localize.play Localize.ones (fun t => decide (t = 5)) Localize.exCalls [] [] {} Localize.exSteps = some p ∧ Mem p.2.2.submaps (5, 0) (5, 0) ∧
      Serialization.save (O := Unit) true ⟨p.2.2, fun _ => true, [(), (), (), (), (), ()], [], [], [], [], []⟩ = some rs ∧ rs[1]? = some (Serialization.Record.poseGraph pr) ∧
      pairs pr.constraints = [((0, 2), (0, 2)), ((0, 3), (0, 2)), ((0, 3), (0, 3))] :=
    ⟨_, _, _, rfl, ⟨_, rfl, by decide⟩, rfl, rfl, rfl⟩
  obtain ⟨⟨as, made, s⟩, rs, p, h1, h2, h3, h4, h5⟩ := h
  obtain ⟨l, h6, h7⟩ := uses_exec Localize.exCalls_good (Localize.play_ok .start ⟨Localize.exCalls, rfl⟩ h1)
  exact ⟨l, s, rs, p, h6, h7, h2, h3, List.mem_of_getElem? h4, h5⟩

/-- If `AddSerializedConstraints` is called for a node of local SLAM, it may get two constraints with its submap, and what is saved cannot be loaded. -/
example : ∃ l s, Exec ({} : State Unit) l s ∧ (intra s (0, 0) (0, 0)).length = 2 :=
  ⟨_, _, .snoc (.snoc (.snoc (.snoc (.snoc (.snoc .nil (a := .addNode 0 [7] false) (by simp [PoseGraph.Enabled]) rfl) (a := .post (.serialized [⟨(0, 0), (0, 0), (), true⟩])) rfl rfl)
    (a := .enqueue 1) (by simp [PoseGraph.Enabled]) rfl) (a := .enqueue 0) (by simp [PoseGraph.Enabled]) rfl) (a := .run []) (by simp [PoseGraph.Enabled]) rfl) (a := .run [()]) (by simp [PoseGraph.Enabled]) rfl, rfl⟩

end Verif.SubmapLinks
