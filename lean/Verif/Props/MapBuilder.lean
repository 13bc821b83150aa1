import Verif.MapBuilderLemmas

/-!
# The map builder (C116)

Ids of trajectories, saving, loading into a map builder that is in use, and the calls of the collator.
-/

namespace Verif.MapBuilder

open PoseGraph (Act Item Trimmer Constraint TrajectoryProto)
open Serialization (Record number number_ge number_lt)
open MapById (Id Map at?)

set_option linter.unusedSectionVars false

variable {S D T O P : Type} [LinearOrder S] [LinearOrder T] [OrderBot T]
variable {time : D → T} {sensor : D → S} {order : List ℤ → List ℤ} {use3d byTrajectory : Bool}

/-! ### Notions of the specification -/

/-- The options in a file. -/
def fileOptions : List (Record P O) → List O
  | _ :: _ :: .options os :: _ => os
  | _ => []

/-- The options of the trajectories that a step creates. -/
def newOptions : Op S D O P → List O
  | .add _ o _ => [o]
  | .load recs _ _ => fileOptions recs
  | _ => []

/-- The builders of these: loaded trajectories have none. -/
def newBuilders : Op S D O P → List (Option (List S))
  | .add ss _ _ => [some ss]
  | .load recs _ _ => (fileOptions recs).map fun _ => none
  | _ => []

/-- The ids given so far. -/
def Ids (s : State S D T O P) (t : Int) : Prop := 0 ≤ t ∧ t < s.size

/-- The user finishes, deletes and freezes only trajectories that exist. -/
def Names (_ : List (Op S D O P)) (s : State S D T O P) : Op S D O P → Prop
  | .finish t _ => Ids s t
  | .user a => ActIn (Ids s) a
  | _ => True

/-- No rule. -/
def Anything (_ : List (Op S D O P)) (_ : State S D T O P) (_ : Op S D O P) : Prop := True

/-! ### Ids and options -/

theorem number_options {os : List O} : ∀ {n : Int}, (number n os).map Prod.snd = os := by
  induction os with
  | nil => intro n; rfl
  | cons o os ih => intro n; simp [number, ih]

theorem load_builders {s s' : State S D T O P} {recs : List (Record P O)} {frozen : Bool} {ptr : Id → Nat} (h : s.step time sensor order use3d (.load recs frozen ptr) = some s') :
    ∃ L, Serialization.load s.size use3d frozen recs = some L ∧ s'.options = s.options ++ fileOptions recs ∧ s'.builders = s.builders ++ (fileOptions recs).map (fun _ => none) ∧ s'.graph = s.graph ∧
      s'.coll = s.coll ∧ s'.pending = L.calls.map (toAct ptr) := by
  simp only [State.step, Option.bind_eq_bind, Option.bind_eq_some_iff, Option.some.injEq] at h
  obtain ⟨L, h1, rfl⟩ := h
  obtain ⟨v, p, os, rest, rfl, _, h2, _⟩ := load_any h1
  refine ⟨L, h1, ?_, ?_, rfl, rfl, rfl⟩
  · simp only [fileOptions, h2, number_options]
  · simp only [fileOptions]
    rw [← number_options (os := os) (n := s.size), List.map_map, h2]
    rfl

theorem step_lists {s s' : State S D T O P} {op : Op S D O P} (h : s.step time sensor order use3d op = some s') :
    s'.options = s.options ++ newOptions op ∧ s'.builders = s.builders ++ newBuilders op := by
  cases op with
  | add ss o keep =>
    simp only [State.step, Option.bind_eq_bind, Option.bind_eq_some_iff, Option.some.injEq] at h
    obtain ⟨_, _, r, _, _, _, rfl⟩ := h
    exact ⟨rfl, rfl⟩
  | data t d acts =>
    simp only [State.step, Option.bind_eq_bind, Option.bind_eq_some_iff, Option.some.injEq] at h
    obtain ⟨b, _, _, _, r, _, rfl⟩ := h
    simp [newOptions, newBuilders]
  | direct t acts =>
    simp only [State.step, Option.bind_eq_bind, Option.bind_eq_some_iff, Option.some.injEq] at h
    obtain ⟨b, _, _, _, rfl⟩ := h
    simp [newOptions, newBuilders]
  | finish t acts =>
    simp only [State.step, Option.bind_eq_bind, Option.bind_eq_some_iff, Option.some.injEq] at h
    obtain ⟨r, _, rfl⟩ := h
    simp [newOptions, newBuilders]
  | load recs frozen ptr =>
    obtain ⟨L, _, h2, h3, _⟩ := load_builders h
    exact ⟨h2, h3⟩
  | user a =>
    simp only [State.step, Option.some.injEq] at h
    subst h
    simp [newOptions, newBuilders]
  | call =>
    simp only [State.step] at h
    split at h
    · cases h
    · simp only [Option.bind_eq_bind, Option.bind_eq_some_iff, Option.some.injEq] at h
      obtain ⟨g, _, rfl⟩ := h
      simp [newOptions, newBuilders]
  | work a =>
    simp only [State.step, Option.bind_eq_bind, Option.bind_eq_some_iff, Option.some.injEq] at h
    obtain ⟨g, _, rfl⟩ := h
    simp [newOptions, newBuilders]

/-- **Ids.** The trajectories are numbered in the order in which they were added or loaded; no id is used twice; the options and the builder at each id are those the trajectory was created
with. -/
theorem ids_in_order {rule : List (Op S D O P) → State S D T O P → Op S D O P → Prop} {ops : List (Op S D O P)} {s : State S D T O P} (h : Exec time sensor order use3d byTrajectory rule ops s) :
    s.options = ops.flatMap newOptions ∧ s.builders = ops.flatMap newBuilders ∧ s.options.length = s.builders.length := by
  have key : s.options = ops.flatMap newOptions ∧ s.builders = ops.flatMap newBuilders := by
    induction h with
    | nil => exact ⟨rfl, rfl⟩
    | snoc h1 h2 h3 h4 ih =>
      obtain ⟨a, b⟩ := step_lists h4
      rw [a, b, ih.1, ih.2, List.flatMap_append, List.flatMap_append]
      simp
  refine ⟨key.1, key.2, ?_⟩
  rw [key.1, key.2]
  induction ops with
  | nil => rfl
  | cons op ops ih' =>
    clear h key
    have : ∀ l : List (Op S D O P), (l.flatMap newOptions).length = (l.flatMap newBuilders).length := by
      intro l
      induction l with
      | nil => rfl
      | cons op l ih =>
        simp only [List.flatMap_cons, List.length_append, ih]
        congr 1
        cases op <;> simp [newOptions, newBuilders]
    exact this _

/-- The `CHECK_EQ` of the sizes (map_builder.cc:164, 174) does not fail, and the new trajectory gets the next id. -/
theorem add_id {rule : List (Op S D O P) → State S D T O P → Op S D O P → Prop} {ops : List (Op S D O P)} {s : State S D T O P} (h : Exec time sensor order use3d byTrajectory rule ops s)
    {ss : List S} {o : O} {keep : Option Nat} (hk : ∀ k ∈ keep, 2 ≤ k) :
    (s.step time sensor order use3d (.add ss o keep)).isSome = (s.coll.step time sensor order (.add s.size ss)).isSome ∧
    ∀ s', s.step time sensor order use3d (.add ss o keep) = some s' → s.builder s.size = none ∧ s'.builder s.size = some (some ss) ∧ s'.options[s.size.toNat]? = some o := by
  have hlen := (ids_in_order h).2.2
  refine ⟨?_, ?_⟩
  · simp only [State.step, Option.bind_eq_bind]
    rw [show (guard (∀ k ∈ keep, 2 ≤ k) : Option Unit) = some () from PoseGraph.guard_some.2 hk]
    simp only [Option.bind_some]
    cases hc : s.coll.step time sensor order (.add s.size ss) with
    | none => rfl
    | some r =>
      simp only [Option.bind_some]
      rw [show (guard ((s.builders ++ [some ss]).length = (s.options ++ [o]).length) : Option Unit) = some () from PoseGraph.guard_some.2 (by simp [hlen])]
      rfl
  · intro s' hs
    obtain ⟨a, b⟩ := step_lists hs
    have hz : ¬ (s.size < 0) := by unfold State.size; omega
    have ht : s.size.toNat = s.builders.length := by unfold State.size; omega
    refine ⟨?_, ?_, ?_⟩
    · unfold State.builder
      rw [if_neg hz, ht]
      simp
    · unfold State.builder
      rw [if_neg hz, ht, b]
      simp [newBuilders]
    · rw [a, ht, ← hlen]
      simp [newOptions]

/-! ### The trajectories of the pose graph -/

/-- The trajectories with a builder. -/
def Built (s : State S D T O P) (t : Int) : Prop := ∃ ss, s.builder t = some (some ss)

/-- The invariant. -/
structure Inv (s : State S D T O P) : Prop where
  graph : ∃ as, PoseGraph.Exec {} as s.graph
  within : Within (Ids s) s.graph
  pending : ∀ a ∈ s.pending, ActIn (Ids s) a ∧ ∀ g, PoseGraph.Enabled g a
  coll : CollIn (Built s) s.coll

theorem built_ids {s : State S D T O P} {t : Int} (h : Built s t) : Ids s t := by
  obtain ⟨ss, h⟩ := h
  unfold State.builder at h
  split at h
  · cases h
  · rename_i hn
    have := (List.getElem?_eq_some_iff.1 h).1
    unfold Ids State.size
    omega

theorem builder_mono {s s' : State S D T O P} {l : List (Option (List S))} (h : s'.builders = s.builders ++ l) {t : Int} {b : Option (List S)} (hb : s.builder t = some b) : s'.builder t = some b := by
  unfold State.builder at hb ⊢
  split at hb
  · cases hb
  · rename_i hn
    rw [if_neg hn, h]
    rw [List.getElem?_append_left (List.getElem?_eq_some_iff.1 hb).1]
    exact hb

theorem ids_mono {s s' : State S D T O P} {l : List (Option (List S))} (h : s'.builders = s.builders ++ l) {t : Int} (hb : Ids s t) : Ids s' t := by
  unfold Ids State.size at hb ⊢
  rw [h, List.length_append]
  omega

theorem slam_in {p : Int → Prop} {a : Act P} {t : Int} (h : slamCall a = some t) (ht : p t) : ActIn p a ∧ ∀ g, PoseGraph.Enabled g a := by
  cases a with
  | addNode u ins nf =>
    simp only [slamCall] at h
    split at h
    · cases h
    · rename_i hi
      cases h
      exact ⟨ht, fun _ => hi⟩
  | post item =>
    cases item with
    | data u => exact ⟨trivial, fun _ => rfl⟩
    | _ => cases h
  | _ => cases h

theorem user_enabled {a : Act P} (h : isUser a) : ∀ g, PoseGraph.Enabled g a := by
  intro g
  cases a with
  | deleteTrajectory t => trivial
  | post item =>
    cases item with
    | freeze t => exact rfl
    | addTrimmer tr =>
      cases tr with
      | other => exact rfl
      | pureLocalization _ _ _ => cases h
    | _ => cases h
  | _ => cases h

theorem toAct_in {p : Int → Prop} {ptr : Id → Nat} {c : Serialization.Call P} (h : CallIn p c) : ActIn p (toAct ptr c) ∧ ∀ g, PoseGraph.Enabled g (toAct ptr c) := by
  cases c with
  | freeze t => exact ⟨h, fun _ => rfl⟩
  | addSubmapFromProto id => exact ⟨h, fun _ => trivial⟩
  | addNodeFromProto id => exact ⟨h, fun _ => trivial⟩
  | _ => exact ⟨trivial, fun _ => rfl⟩

theorem work_in {p : Int → Prop} {a : Act P} (h : isWork a) : ActIn p a := by
  cases a <;> first | trivial | cases h

theorem graph_step {s : State S D T O P} (i : Inv s) {a : Act P} (ha : ActIn (Ids s) a) (he : PoseGraph.Enabled s.graph a) {g : PoseGraph.State P} (h : PoseGraph.exec s.graph a = some g) :
    (∃ as, PoseGraph.Exec {} as g) ∧ Within (Ids s) g := by
  obtain ⟨as, h1⟩ := i.graph
  exact ⟨⟨as ++ [a], .snoc h1 he h⟩, step_within (PoseGraph.exec_integrity h1 PoseGraph.Integrity.init).wf i.within ha he h⟩

theorem step_inv {ops : List (Op S D O P)} {s s' : State S D T O P} {op : Op S D O P} (i : Inv s) (he : Enabled time sensor order s op) (hn : Names ops s op) (h : s.step time sensor order use3d op = some s') : Inv s' := by
  have hb := (step_lists h).2
  have m1 : ∀ t, Ids s t → Ids s' t := fun t ht => ids_mono hb ht
  have m2 : ∀ t, Built s t → Built s' t := fun t ⟨ss, ht⟩ => ⟨ss, builder_mono hb ht⟩
  cases op with
  | add ss o keep =>
    simp only [State.step, Option.bind_eq_bind, Option.bind_eq_some_iff, Option.some.injEq, PoseGraph.guard_some] at h
    obtain ⟨_, hk, r, hr, _, _, rfl⟩ := h
    refine ⟨i.graph, i.within.mono m1, ?_, ?_⟩
    · intro a ha
      cases keep with
      | none => simp [trimmerCall] at ha
      | some k =>
        simp only [trimmerCall, List.mem_singleton] at ha
        subst ha
        refine ⟨?_, ?_⟩
        · show Ids _ _
          unfold Ids State.size
          simp
        · intro g
          simp [PoseGraph.Enabled, Item.free, hk k rfl]
    · refine (coll_in (p := Built _) (i.coll.mono m2) ?_ hr).1
      intro t ht
      cases ht
      refine ⟨ss, ?_⟩
      unfold State.builder State.size
      simp
  | data t d acts =>
    simp only [State.step, Option.bind_eq_bind, Option.bind_eq_some_iff, Option.some.injEq] at h
    obtain ⟨b, hb', _, _, r, hr, rfl⟩ := h
    obtain ⟨c1, c2⟩ := coll_in i.coll (by intro t ht; cases ht) hr
    refine ⟨i.graph, i.within, ?_, c1⟩
    intro a ha
    obtain ⟨x, hx, hs⟩ := he.2 r hr a ha
    exact slam_in hs (built_ids (c2 x hx))
  | direct t acts =>
    simp only [State.step, Option.bind_eq_bind, Option.bind_eq_some_iff, Option.some.injEq] at h
    obtain ⟨b, hb', ss, rfl, rfl⟩ := h
    refine ⟨i.graph, i.within, ?_, i.coll⟩
    intro a ha
    exact slam_in (he.2 a ha) (built_ids ⟨ss, hb'⟩)
  | finish t acts =>
    simp only [State.step, Option.bind_eq_bind, Option.bind_eq_some_iff, Option.some.injEq] at h
    obtain ⟨r, hr, rfl⟩ := h
    obtain ⟨c1, c2⟩ := coll_in i.coll (by intro t ht; cases ht) hr
    refine ⟨i.graph, i.within, ?_, c1⟩
    intro a ha
    rcases List.mem_append.1 ha with ha | ha
    · obtain ⟨x, hx, hs⟩ := he.2 r hr a ha
      exact slam_in hs (built_ids (c2 x hx))
    · rw [List.mem_singleton.1 ha]
      exact ⟨hn, fun _ => rfl⟩
  | load recs frozen ptr =>
    obtain ⟨L, h1, h2, h3, h4, h5, h6⟩ := load_builders h
    obtain ⟨v, p, os, rest, rfl, _, _, _, _, _, h8⟩ := load_any h1
    refine ⟨by rw [h4]; exact i.graph, by rw [h4]; exact i.within.mono m1, ?_, by rw [h5]; exact i.coll.mono m2⟩
    intro a ha
    rw [h6] at ha
    obtain ⟨c, hc, rfl⟩ := List.mem_map.1 ha
    obtain ⟨x1, x2⟩ := toAct_in (ptr := ptr) (h8 c hc)
    refine ⟨x1.mono ?_, x2⟩
    intro t ht
    unfold Ids State.size
    rw [h3]
    simp only [fileOptions, List.length_append, List.length_map]
    unfold State.size at ht
    push_cast
    omega
  | user a =>
    simp only [State.step, Option.some.injEq] at h
    subst h
    refine ⟨i.graph, i.within, ?_, i.coll⟩
    intro b hb
    rw [List.mem_singleton.1 hb]
    exact ⟨hn, user_enabled he.2⟩
  | call =>
    simp only [State.step] at h
    split at h
    · cases h
    · rename_i a l hp
      simp only [Option.bind_eq_bind, Option.bind_eq_some_iff, Option.some.injEq] at h
      obtain ⟨g, hg, rfl⟩ := h
      have hpe := i.pending
      rw [hp] at hpe
      obtain ⟨x1, x2⟩ := hpe a List.mem_cons_self
      obtain ⟨y1, y2⟩ := graph_step i x1 (x2 _) hg
      exact ⟨y1, y2, fun b hb => hpe b (List.mem_cons_of_mem _ hb), i.coll⟩
  | work a =>
    simp only [State.step, Option.bind_eq_bind, Option.bind_eq_some_iff, Option.some.injEq] at h
    obtain ⟨g, hg, rfl⟩ := h
    obtain ⟨y1, y2⟩ := graph_step i (work_in he.1) he.2 hg
    exact ⟨y1, y2, i.pending, i.coll⟩

theorem exec_inv {rule : List (Op S D O P) → State S D T O P → Op S D O P → Prop} (hrule : ∀ ops s op, rule ops s op → Names ops s op) {ops : List (Op S D O P)} {s : State S D T O P}
    (h : Exec time sensor order use3d byTrajectory rule ops s) : Inv s := by
  induction h with
  | nil =>
    refine ⟨⟨[], .nil⟩, ⟨by simp [init], by simp [init], by simp [init], by simp [init]⟩, by simp [init], ?_⟩
    unfold init
    cases byTrajectory with
    | true => intro j q hq; cases hq
    | false => intro e he; cases he
  | snoc h1 h2 h3 h4 ih => exact step_inv ih h2 (hrule _ _ _ h3) h4

/-- **The pose graph knows only existing trajectories**, whatever the interleaving with its worker. -/
theorem graph_ids {ops : List (Op S D O P)} {s : State S D T O P} (h : Exec time sensor order use3d byTrajectory Names ops s) : ∀ t, (SMap.get? t s.graph.trajs).isSome → 0 ≤ t ∧ t < s.size := by
  intro t ht
  obtain ⟨x, hx⟩ := Option.isSome_iff_exists.1 ht
  exact (exec_inv (fun _ _ _ h => h) h).within.trajs _ (SMap.mem_of_get? hx)

/-- **Saving** (`SerializeState`) finds the options of all trajectories, at any time. -/
theorem save_ok {ops : List (Op S D O P)} {s : State S D T O P} (h : Exec time sensor order use3d byTrajectory Names ops s) (inc : Bool) (fin : Nat → Bool) (td im od ff lm : List Int) :
    (Serialization.save inc ⟨s.graph, fin, s.options, td, im, od, ff, lm⟩).isSome := by
  obtain ⟨as, hg⟩ := (exec_inv (fun _ _ _ h => h) h).graph
  rw [Serialization.save_iff (s := ⟨s.graph, fin, s.options, td, im, od, ff, lm⟩) hg]
  rintro t ⟨x, hx, _⟩
  have := graph_ids h t (by rw [hx]; rfl)
  have hl := (ids_in_order h).2.2
  unfold State.size at this
  simp only
  omega

/-- **Loading into a map builder in use.** The loaded trajectories get ids that nothing in the pose graph or in the map builder has, different ones for different trajectories, in the order
of the file and with the options of the file. -/
theorem load_fresh {ops : List (Op S D O P)} {s s' : State S D T O P} (h : Exec time sensor order use3d byTrajectory Names ops s) {recs : List (Record P O)} {frozen : Bool} {ptr : Id → Nat}
    (hs : s.step time sensor order use3d (.load recs frozen ptr) = some s') :
    ∃ L, Serialization.load s.size use3d frozen recs = some L ∧
      (∀ t t' u, SMap.get? t L.remap = some u → SMap.get? t' L.remap = some u → t = t') ∧
      (∀ t u, SMap.get? t L.remap = some u → 0 ≤ u ∧ s.builder u = none ∧ SMap.get? u s.graph.trajs = none ∧ s'.builder u = some none) ∧
      ∃ v p os rest, recs = .header v :: .poseGraph p :: .options os :: rest ∧
        ∀ (i : Nat) tr, p.trajectories[i]? = some tr → SMap.get? tr.id L.remap = some (s.size + i) ∧ ∃ o, os[i]? = some o ∧ s'.options[(s.size + i).toNat]? = some o := by
  obtain ⟨L, h1, h2, h3, h4, h5, h6⟩ := load_builders hs
  obtain ⟨v, p, os, rest, rfl, g1, g2, g3, g4, g5, g6⟩ := load_any h1
  have hl := (ids_in_order h).2.2
  refine ⟨L, h1, g4, ?_, v, p, os, rest, rfl, ?_⟩
  · intro t u hu
    obtain ⟨a, b⟩ := g3 t u hu
    unfold State.size at a b
    have hnn : ¬ u < 0 := by omega
    refine ⟨by omega, ?_, ?_, ?_⟩
    · unfold State.builder
      rw [if_neg hnn]
      rw [List.getElem?_eq_none_iff]
      omega
    · by_contra hc
      have := graph_ids h u (Option.ne_none_iff_isSome.1 hc)
      unfold State.size at this
      omega
    · unfold State.builder
      rw [if_neg hnn, h3]
      simp only [fileOptions]
      rw [List.getElem?_append_right (by omega), List.getElem?_map, List.getElem?_eq_getElem (by omega)]
      rfl
  · intro i tr hi
    have hlt := (List.getElem?_eq_some_iff.1 hi).1
    refine ⟨g5 i tr hi, os[i]'(by omega), List.getElem?_eq_getElem _, ?_⟩
    rw [h2]
    simp only [fileOptions]
    have : (s.size + (i : Int)).toNat = s.options.length + i := by unfold State.size; omega
    rw [this, List.getElem?_append_right (by omega)]
    simp only [Nat.add_sub_cancel_left]
    exact List.getElem?_eq_getElem _

/-! ### The calls of the collator -/

open Collators (received)
open LateTrajectories (Live Orderly Sorted Allowed Current)

/-- Is there a builder with this id? -/
def hasBuilder (b : List (Option (List S))) (t : Int) : Bool := decide (0 ≤ t) && (b[t.toNat]?.getD none).isSome

/-- The call of the collator in a step, for given builders.  Finishing a trajectory without a builder (one that was loaded) is nothing to the collator. -/
def collCall (b : List (Option (List S))) : Op S D O P → List (Collators.Call S D)
  | .add ss _ _ => [.add b.length ss]
  | .data t d _ => [.data t d]
  | .finish t _ => if hasBuilder b t then [.finish t] else []
  | _ => []

/-- All calls of the collator. -/
def collCalls (b : List (Option (List S))) : List (Op S D O P) → List (Collators.Call S D)
  | [] => []
  | op :: ops => collCall b op ++ collCalls (b ++ newBuilders op) ops

theorem collCalls_append (xs : List (Op S D O P)) : ∀ (b : List (Option (List S))) (ys : List (Op S D O P)),
    collCalls b (xs ++ ys) = collCalls b xs ++ collCalls (b ++ xs.flatMap newBuilders) ys := by
  induction xs with
  | nil => intro b ys; simp [collCalls]
  | cons x xs ih => intro b ys; simp [collCalls, ih, List.append_assoc]

theorem hasBuilder_iff {s : State S D T O P} {t : Int} : hasBuilder s.builders t = true ↔ Built s t := by
  unfold hasBuilder Built State.builder
  by_cases h : t < 0
  · rw [if_pos h]
    simp [h]
  · rw [if_neg h]
    have : 0 ≤ t := by omega
    cases hb : s.builders[t.toNat]? with
    | none => simp
    | some o => cases o <;> simp [this]

/-- The state of the collator after calls. -/
def Ran (time : D → T) (sensor : D → S) (order : List ℤ → List ℤ) (calls : List (Collators.Call S D)) : Coll S D T → List (Collators.Key S × D) → Prop
  | .inl c, out => (Collators.Shared.init : Collators.Shared S D T).run time sensor calls = some (c, out)
  | .inr c, out => (Collators.Single.init : Collators.Single S D T).run time sensor order calls = some (c, out)

/-- Which collator it is. -/
def Coll.byTraj : Coll S D T → Bool
  | .inl _ => false
  | .inr _ => true

theorem single_snoc (pre : List (Collators.Call S D)) (o : Collators.Call S D) : (Collators.Single.init : Collators.Single S D T).run time sensor order (pre ++ [o]) =
    ((Collators.Single.init : Collators.Single S D T).run time sensor order pre).bind fun r => (r.1.step time sensor order o).map fun r' => (r'.1, r.2 ++ r'.2) := by
  generalize (Collators.Single.init : Collators.Single S D T) = c
  induction pre generalizing c with
  | nil =>
    simp only [List.nil_append, Collators.Single.run, Option.bind_eq_bind, Option.bind_some]
    cases c.step time sensor order o <;> simp
  | cons x pre ih =>
    simp only [List.cons_append, Collators.Single.run, Option.bind_eq_bind, ih]
    cases c.step time sensor order x with
    | none => rfl
    | some r =>
      simp only [Option.bind_some]
      cases r.1.run time sensor order pre with
      | none => rfl
      | some r' =>
        simp only [Option.bind_some]
        cases r'.1.step time sensor order o <;> simp

theorem Ran.snoc {calls : List (Collators.Call S D)} {c : Coll S D T} {out : List (Collators.Key S × D)} (h : Ran time sensor order calls c out) {o : Collators.Call S D}
    {r : Coll S D T × List (Collators.Key S × D)} (hr : c.step time sensor order o = some r) : Ran time sensor order (calls ++ [o]) r.1 (out ++ r.2) ∧ r.1.byTraj = c.byTraj := by
  cases c with
  | inl c =>
    have h : (Collators.Shared.init : Collators.Shared S D T).run time sensor calls = some (c, out) := h
    simp only [Coll.step, Option.map_eq_some_iff] at hr
    obtain ⟨r', hr, rfl⟩ := hr
    refine ⟨?_, rfl⟩
    show (Collators.Shared.init : Collators.Shared S D T).run time sensor (calls ++ [o]) = _
    rw [LateTrajectories.shared_snoc, h]
    simp [hr]
  | inr c =>
    have h : (Collators.Single.init : Collators.Single S D T).run time sensor order calls = some (c, out) := h
    simp only [Coll.step, Option.map_eq_some_iff] at hr
    obtain ⟨r', hr, rfl⟩ := hr
    refine ⟨?_, rfl⟩
    show (Collators.Single.init : Collators.Single S D T).run time sensor order (calls ++ [o]) = _
    rw [single_snoc, h]
    simp [hr]

/-- The keys that the collator remembers for a trajectory. -/
def Coll.keys : Coll S D T → ℤ → List (Collators.Key S)
  | .inl c => c.keys
  | .inr c => c.keys

theorem step_keys {c : Coll S D T} {o : Collators.Call S D} {r : Coll S D T × List (Collators.Key S × D)} (h : c.step time sensor order o = some r) {t : ℤ} (ht : ∀ ss, o ≠ .add t ss) :
    r.1.keys t = c.keys t := by
  cases c with
  | inl c =>
    simp only [Coll.step, Option.map_eq_some_iff] at h
    obtain ⟨r', h, rfl⟩ := h
    cases o with
    | add j ss =>
      simp only [Collators.Shared.step, Option.bind_eq_bind, Option.bind_eq_some_iff, Option.some.injEq] at h
      obtain ⟨q, h2, rfl⟩ := h
      have : t ≠ j := by rintro rfl; exact ht ss rfl
      simp [Coll.keys, this]
    | data j d =>
      simp only [Collators.Shared.step, Option.bind_eq_bind, Option.bind_eq_some_iff, Option.some.injEq] at h
      obtain ⟨q, h2, rfl⟩ := h
      rfl
    | finish j =>
      simp only [Collators.Shared.step, Option.bind_eq_bind, Option.bind_eq_some_iff, Option.some.injEq] at h
      obtain ⟨q, h2, rfl⟩ := h
      rfl
    | flush =>
      simp only [Collators.Shared.step, Option.bind_eq_bind, Option.bind_eq_some_iff, Option.some.injEq] at h
      obtain ⟨q, h2, rfl⟩ := h
      rfl
  | inr c =>
    simp only [Coll.step, Option.map_eq_some_iff] at h
    obtain ⟨r', h, rfl⟩ := h
    cases o with
    | add j ss =>
      simp only [Collators.Single.step] at h
      split at h
      · cases h
      · split at h
        · cases h
          rfl
        · simp only [Option.bind_eq_bind, Option.bind_eq_some_iff, Option.some.injEq] at h
          obtain ⟨q, h2, rfl⟩ := h
          have : t ≠ j := by rintro rfl; exact ht ss rfl
          simp [Coll.keys, this]
    | data j d =>
      simp only [Collators.Single.step, Option.bind_eq_bind, Option.bind_eq_some_iff, Option.some.injEq] at h
      obtain ⟨q, h1, r, h2, rfl⟩ := h
      rfl
    | finish j =>
      simp only [Collators.Single.step, Option.bind_eq_bind, Option.bind_eq_some_iff, Option.some.injEq] at h
      obtain ⟨q, h2, rfl⟩ := h
      rfl
    | flush =>
      simp only [Collators.Single.step, Option.bind_eq_bind, Option.bind_eq_some_iff, Option.some.injEq] at h
      obtain ⟨q, h2, rfl⟩ := h
      rfl

theorem finish_nothing {c : Coll S D T} {t : ℤ} (h : c.keys t = []) : c.step time sensor order (.finish t) = some (c, []) := by
  cases c with
  | inl c =>
    have h : c.keys t = [] := h
    simp only [Coll.step, Collators.Shared.step, h, OMQ.markAll]
    rfl
  | inr c =>
    have h : c.keys t = [] := h
    simp only [Coll.step, Collators.Single.step, h, Collators.finishKeys]
    have e : (fun i => if i = t then c.queues t else c.queues i) = c.queues := by
      funext i
      split
      · rename_i hi; rw [hi]
      · rfl
    simp [e]

/-- **The calls of the collator.** Its state is the one after `collCalls`. -/
theorem coll_trace {rule : List (Op S D O P) → State S D T O P → Op S D O P → Prop} {ops : List (Op S D O P)} {s : State S D T O P} (h : Exec time sensor order use3d byTrajectory rule ops s) :
    (∃ out, Ran time sensor order (collCalls [] ops) s.coll out) ∧ s.coll.byTraj = byTrajectory ∧ ∀ t, ¬ Built s t → s.coll.keys t = [] := by
  induction h with
  | nil =>
    cases byTrajectory with
    | true => exact ⟨⟨[], rfl⟩, rfl, fun _ _ => rfl⟩
    | false => exact ⟨⟨[], rfl⟩, rfl, fun _ _ => rfl⟩
  | @snoc ops s op s' h1 h2 h3 h4 ih =>
    obtain ⟨⟨out, i1⟩, i2, i3⟩ := ih
    have hb := (step_lists h4).2
    have hbs := (ids_in_order h1).2.1
    rw [collCalls_append, List.nil_append, ← hbs]
    have m2 : ∀ t, ¬ Built s' t → ¬ Built s t := fun t hn ⟨ss, ht⟩ => hn ⟨ss, builder_mono hb ht⟩
    simp only [collCalls, List.append_nil]
    cases op with
    | add ss o keep =>
      simp only [State.step, Option.bind_eq_bind, Option.bind_eq_some_iff, Option.some.injEq] at h4
      obtain ⟨_, _, r, hr, _, _, rfl⟩ := h4
      obtain ⟨j1, j2⟩ := i1.snoc hr
      refine ⟨⟨_, j1⟩, j2.trans i2, ?_⟩
      intro t ht
      rw [← i3 t (m2 t ht)]
      refine step_keys hr ?_
      rintro ss' hc
      cases hc
      refine ht ⟨ss, ?_⟩
      unfold State.builder State.size
      simp
    | data t d acts =>
      simp only [State.step, Option.bind_eq_bind, Option.bind_eq_some_iff, Option.some.injEq] at h4
      obtain ⟨b, _, _, _, r, hr, rfl⟩ := h4
      obtain ⟨j1, j2⟩ := i1.snoc hr
      refine ⟨⟨_, j1⟩, j2.trans i2, ?_⟩
      intro u hu
      rw [← i3 u (m2 u hu)]
      exact step_keys hr (by simp)
    | direct t acts =>
      simp only [State.step, Option.bind_eq_bind, Option.bind_eq_some_iff, Option.some.injEq] at h4
      obtain ⟨b, _, _, _, rfl⟩ := h4
      simp only [collCall, List.append_nil]
      exact ⟨⟨out, i1⟩, i2, fun u hu => i3 u (m2 u hu)⟩
    | finish t acts =>
      simp only [State.step, Option.bind_eq_bind, Option.bind_eq_some_iff, Option.some.injEq] at h4
      obtain ⟨r, hr, rfl⟩ := h4
      simp only [collCall]
      by_cases hh : hasBuilder s.builders t = true
      · rw [if_pos hh]
        obtain ⟨j1, j2⟩ := i1.snoc hr
        refine ⟨⟨_, j1⟩, j2.trans i2, ?_⟩
        intro u hu
        rw [← i3 u (m2 u hu)]
        exact step_keys hr (by simp)
      · rw [if_neg hh, List.append_nil]
        rw [finish_nothing (i3 t (fun hc => hh (hasBuilder_iff.2 hc)))] at hr
        cases hr
        exact ⟨⟨out, i1⟩, i2, fun u hu => i3 u (m2 u hu)⟩
    | load recs frozen ptr =>
      obtain ⟨L, _, _, _, _, e, _⟩ := load_builders h4
      simp only [collCall, List.append_nil, e]
      exact ⟨⟨out, i1⟩, i2, fun u hu => i3 u (m2 u hu)⟩
    | user a =>
      simp only [State.step, Option.some.injEq] at h4
      subst h4
      simp only [collCall, List.append_nil]
      exact ⟨⟨out, i1⟩, i2, fun u hu => i3 u (m2 u hu)⟩
    | call =>
      simp only [State.step] at h4
      split at h4
      · cases h4
      · simp only [Option.bind_eq_bind, Option.bind_eq_some_iff, Option.some.injEq] at h4
        obtain ⟨g, _, rfl⟩ := h4
        simp only [collCall, List.append_nil]
        exact ⟨⟨out, i1⟩, i2, fun u hu => i3 u (m2 u hu)⟩
    | work a =>
      simp only [State.step, Option.bind_eq_bind, Option.bind_eq_some_iff, Option.some.injEq] at h4
      obtain ⟨g, _, rfl⟩ := h4
      simp only [collCall, List.append_nil]
      exact ⟨⟨out, i1⟩, i2, fun u hu => i3 u (m2 u hu)⟩

/-- A user who names existing trajectories, announces sensors once, adds data and the end only while the trajectory runs, the data of each sensor in the order of time; loaded trajectories
may be finished as well. -/
def Careful (time : D → T) (sensor : D → S) (ops : List (Op S D O P)) (s : State S D T O P) : Op S D O P → Prop
  | .add ss _ keep => ss.Nodup ∧ ss ≠ [] ∧ ∀ k ∈ keep, 2 ≤ k
  | .data t d _ => Live t (collCalls [] ops) ∧ ∀ d' ∈ received sensor t (sensor d) (collCalls [] ops), time d' ≤ time d
  | .direct t _ => Live t (collCalls [] ops)
  | .finish t _ => Live t (collCalls [] ops) ∨ s.builder t = some none
  | .user a => ActIn (Ids s) a
  | _ => True

theorem add_built : ∀ (ops : List (Op S D O P)) (b : List (Option (List S))) (t : ℤ) (ss : List S), .add t ss ∈ collCalls b ops →
    (b.length : Int) ≤ t ∧ t < (b ++ ops.flatMap newBuilders).length ∧ (b ++ ops.flatMap newBuilders)[t.toNat]? = some (some ss) := by
  intro ops
  induction ops with
  | nil => intro b t ss h; cases h
  | cons op ops ih =>
    intro b t ss h
    simp only [collCalls] at h
    rw [List.flatMap_cons, ← List.append_assoc]
    rcases List.mem_append.1 h with h | h
    · cases op with
      | add ss' o k =>
        simp only [collCall, List.mem_singleton, Collators.Call.add.injEq] at h
        obtain ⟨rfl, rfl⟩ := h
        refine ⟨le_refl _, by simp [newBuilders], ?_⟩
        simp [newBuilders]
      | finish u acts =>
        simp only [collCall] at h
        split at h <;> simp at h
      | _ => simp [collCall] at h
    · obtain ⟨x, y, z⟩ := ih _ _ _ h
      refine ⟨?_, y, z⟩
      rw [List.length_append] at x
      omega

theorem live_built {rule : List (Op S D O P) → State S D T O P → Op S D O P → Prop} {ops : List (Op S D O P)} {s : State S D T O P} (h : Exec time sensor order use3d byTrajectory rule ops s) {t : ℤ}
    (hl : Live t (collCalls [] ops)) : Built s t := by
  obtain ⟨ss, hm⟩ := hl.added
  obtain ⟨x, y, z⟩ := add_built _ _ _ _ hm
  rw [List.nil_append, ← (ids_in_order h).2.1] at z
  refine ⟨ss, ?_⟩
  unfold State.builder
  rw [if_neg (by simp at x; omega)]
  exact z

theorem careful_names {ops : List (Op S D O P)} {s : State S D T O P} {op : Op S D O P} {rule : List (Op S D O P) → State S D T O P → Op S D O P → Prop}
    (h : Exec time sensor order use3d byTrajectory rule ops s) (hc : Careful time sensor ops s op) : Names ops s op := by
  cases op with
  | finish t acts =>
    rcases hc with hc | hc
    · exact built_ids (live_built h hc)
    · unfold State.builder at hc
      split at hc
      · cases hc
      · have := (List.getElem?_eq_some_iff.1 hc).1
        show Ids s t
        unfold Ids State.size
        omega
  | user a => exact hc
  | _ => trivial

/-- The calls of a careful user are orderly in the sense of C115. -/
theorem careful_allowed {rule : List (Op S D O P) → State S D T O P → Op S D O P → Prop} {ops : List (Op S D O P)} {s : State S D T O P} {op : Op S D O P}
    (h : Exec time sensor order use3d byTrajectory rule ops s) (hc : Careful time sensor ops s op) (ho : Orderly (collCalls [] ops))
    (hs : ∀ j q, (received sensor j q (collCalls [] ops)).Pairwise fun a b => time a ≤ time b) :
    Orderly (collCalls [] (ops ++ [op])) ∧ ∀ j q, (received sensor j q (collCalls [] (ops ++ [op]))).Pairwise fun a b => time a ≤ time b := by
  have hbs := (ids_in_order h).2.1
  rw [collCalls_append, List.nil_append, ← hbs]
  simp only [collCalls, List.append_nil]
  cases op with
  | add ss o keep =>
    refine ⟨ho.snoc ⟨?_, hc.1, hc.2.1⟩, ?_⟩
    · intro i ss' hm
      obtain ⟨_, y, _⟩ := add_built _ _ _ _ hm
      rw [List.nil_append, ← hbs] at y
      exact y
    · intro j q
      rw [LateTrajectories.received_append]
      simpa [collCall, received] using hs j q
  | data t d acts =>
    refine ⟨ho.snoc hc.1, ?_⟩
    intro j q
    rw [LateTrajectories.received_append, List.pairwise_append]
    refine ⟨hs j q, ?_, ?_⟩
    · simp only [collCall, received]
      split <;> simp
    · intro a ha b hb
      simp only [collCall, received] at hb
      split at hb
      · rename_i hx
        obtain ⟨rfl, rfl⟩ := hx
        rw [List.mem_singleton.1 hb]
        exact hc.2 a ha
      · cases hb
  | finish t acts =>
    simp only [collCall]
    by_cases hh : hasBuilder s.builders t = true
    · rw [if_pos hh]
      have hl : Live t (collCalls [] ops) := by
        rcases hc with hc | hc
        · exact hc
        · obtain ⟨ss, hb⟩ := hasBuilder_iff.1 hh
          rw [hb] at hc
          cases hc
      refine ⟨ho.snoc hl, ?_⟩
      intro j q
      rw [LateTrajectories.received_append]
      simpa [received] using hs j q
    · rw [if_neg hh, List.append_nil]
      exact ⟨ho, hs⟩
  | _ =>
    simp only [collCall, List.append_nil]
    exact ⟨ho, hs⟩

theorem careful_orderly {ops : List (Op S D O P)} {s : State S D T O P} (h : Exec time sensor order use3d byTrajectory (Careful time sensor) ops s) :
    Orderly (collCalls [] ops) ∧ ∀ j q, (received sensor j q (collCalls [] ops)).Pairwise fun a b => time a ≤ time b := by
  induction h with
  | nil =>
    refine ⟨?_, by simp [collCalls, received]⟩
    intro a x b hab
    simp [collCalls] at hab
  | snoc h1 h2 h3 h4 ih => exact careful_allowed h1 h3 ih.1 ih.2

/-- Calls of the map builder itself, not steps of the pose graph. -/
def isFeed : Op S D O P → Prop
  | .add .. | .data .. | .direct .. | .finish .. | .user .. => True
  | _ => False

theorem feed_ok {rule : List (Op S D O P) → State S D T O P → Op S D O P → Prop} {ops : List (Op S D O P)} {s : State S D T O P} (h : Exec time sensor order use3d byTrajectory rule ops s)
    {op : Op S D O P} (hf : isFeed op) (hc : Careful time sensor ops s op) (hr : ∀ o ∈ collCall s.builders op, (s.coll.step time sensor order o).isSome) : (s.step time sensor order use3d op).isSome := by
  cases op with
  | add ss o keep =>
    rw [(add_id h hc.2.2).1]
    exact hr _ (List.mem_singleton.2 rfl)
  | data t d acts =>
    obtain ⟨ss, hb⟩ := live_built h hc.1
    obtain ⟨r, e⟩ := Option.isSome_iff_exists.1 (hr _ (List.mem_singleton.2 rfl))
    simp [State.step, hb, e]
  | direct t acts =>
    obtain ⟨ss, hb⟩ := live_built h hc
    simp [State.step, hb]
  | finish t acts =>
    by_cases hh : hasBuilder s.builders t = true
    · obtain ⟨r, e⟩ := Option.isSome_iff_exists.1 (hr (.finish t) (by simp [collCall, hh]))
      simp [State.step, e]
    · have := finish_nothing (time := time) (sensor := sensor) (order := order) ((coll_trace h).2.2 t (fun hb => hh (hasBuilder_iff.2 hb)))
      simp [State.step, this]
  | user a => simp [State.step]
  | _ => cases hf

/-- **With the collator by trajectory** no call of a careful user aborts: adding, data, finishing.  Trajectories may be added and maps loaded at any time. -/
theorem careful_ok (hord : ∀ l, (order l).Perm l) {ops : List (Op S D O P)} {s : State S D T O P} (h : Exec time sensor order use3d true (Careful time sensor) ops s) {op : Op S D O P}
    (hf : isFeed op) (hc : Careful time sensor ops s op) : (s.step time sensor order use3d op).isSome := by
  refine feed_ok h hf hc ?_
  intro o ho
  obtain ⟨a1, a2⟩ := careful_orderly h
  obtain ⟨b1, b2⟩ := careful_allowed h hc a1 a2
  obtain ⟨⟨out, t1⟩, t2, _⟩ := coll_trace h
  rw [collCalls_append, List.nil_append, ← (ids_in_order h).2.1] at b1 b2
  simp only [collCalls, List.append_nil] at b1 b2
  have e : collCall s.builders op = [o] := by
    cases op with
    | finish t acts =>
      simp only [collCall] at ho ⊢
      split
      · rename_i hh
        rw [if_pos hh] at ho
        rw [List.mem_singleton.1 ho]
      · rename_i hh
        rw [if_neg hh] at ho
        cases ho
    | add ss o' keep => rw [List.mem_singleton.1 ho]; rfl
    | data t d acts => rw [List.mem_singleton.1 ho]; rfl
    | _ => cases ho
  rw [e] at b1 b2
  obtain ⟨c, out', hr, _⟩ := LateTrajectories.single_parts (T := T) hord b1 (fun j ss _ q _ => b2 j q)
  cases hco : s.coll with
  | inl c => rw [hco] at t2; cases t2
  | inr c0 =>
    rw [hco] at t1
    have t1 : (Collators.Single.init : Collators.Single S D T).run time sensor order (collCalls [] ops) = some (c0, out) := t1
    rw [single_snoc, t1] at hr
    simp only [Option.bind_some, Option.map_eq_some_iff] at hr
    obtain ⟨r, hr, _⟩ := hr
    simp [Coll.step, hr]

/-- **With the common collator** a call of a careful user can abort only if data of some trajectory is older than what had been delivered when the trajectory was added. -/
theorem careful_current {ops : List (Op S D O P)} {s : State S D T O P} (h : Exec time sensor order use3d false (Careful time sensor) ops s) {op : Op S D O P} (hf : isFeed op)
    (hc : Careful time sensor ops s op) (hcur : Current (T := T) time sensor (collCalls [] (ops ++ [op]))) : (s.step time sensor order use3d op).isSome := by
  refine feed_ok h hf hc ?_
  intro o ho
  obtain ⟨a1, a2⟩ := careful_orderly h
  obtain ⟨b1, b2⟩ := careful_allowed h hc a1 a2
  obtain ⟨⟨out, t1⟩, t2, _⟩ := coll_trace h
  rw [collCalls_append, List.nil_append, ← (ids_in_order h).2.1] at b1 b2 hcur
  simp only [collCalls, List.append_nil] at b1 b2 hcur
  have e : collCall s.builders op = [o] := by
    cases op with
    | finish t acts =>
      simp only [collCall] at ho ⊢
      split
      · rename_i hh
        rw [if_pos hh] at ho
        rw [List.mem_singleton.1 ho]
      · rename_i hh
        rw [if_neg hh] at ho
        cases ho
    | add ss o' keep => rw [List.mem_singleton.1 ho]; rfl
    | data t d acts => rw [List.mem_singleton.1 ho]; rfl
    | _ => cases ho
  rw [e] at b1 b2 hcur
  obtain ⟨c, out', hr, _⟩ := LateTrajectories.late_ok (T := T) b1 (fun j ss _ q _ => b2 j q) hcur
  cases hco : s.coll with
  | inr c => rw [hco] at t2; cases t2
  | inl c0 =>
    rw [hco] at t1
    have t1 : (Collators.Shared.init : Collators.Shared S D T).run time sensor (collCalls [] ops) = some (c0, out) := t1
    rw [LateTrajectories.shared_snoc, t1] at hr
    simp only [Option.bind_some, Option.map_eq_some_iff] at hr
    obtain ⟨r, hr, _⟩ := hr
    simp [Coll.step, hr]

/-- Careful users also name only existing trajectories, so the theorems above hold for them. -/
theorem careful_exec {ops : List (Op S D O P)} {s : State S D T O P} (h : Exec time sensor order use3d byTrajectory (Careful time sensor) ops s) : Exec time sensor order use3d byTrajectory Names ops s := by
  induction h with
  | nil => exact .nil
  | snoc h1 h2 h3 h4 ih => exact .snoc ih h2 (careful_names h1 h3) h4

/-! ### A wrong id -/

/-- Types for the examples. -/
abbrev ExState := State Nat (Nat × Nat) Nat Nat Unit

abbrev ExOp := Op Nat (Nat × Nat) Nat Unit

/-- Some steps. -/
def steps (s : ExState) : List ExOp → Option ExState
  | [] => some s
  | op :: ops => (s.step Collators.exTime Collators.exSensor id false op).bind fun s' => steps s' ops

/-- Are all these steps possible?  For steps without calls of local SLAM. -/
def exPossible (s : ExState) : ExOp → Prop
  | .call => s.pending ≠ []
  | .work a => isWork a ∧ PoseGraph.Enabled s.graph a
  | .finish _ acts | .data _ _ acts | .direct _ acts => s.pending = [] ∧ acts = []
  | .user a => s.pending = [] ∧ isUser a
  | _ => s.pending = []

theorem exPossible_enabled {s : ExState} {op : ExOp} (h : exPossible s op) : Enabled Collators.exTime Collators.exSensor id s op := by
  cases op with
  | finish t acts => exact ⟨h.1, fun r _ a ha => by rw [h.2] at ha; cases ha⟩
  | data t d acts => exact ⟨h.1, fun r _ a ha => by rw [h.2] at ha; cases ha⟩
  | direct t acts => exact ⟨h.1, fun a ha => by rw [h.2] at ha; cases ha⟩
  | user a => exact h
  | call => exact h
  | work a => exact h
  | add ss o k => exact h
  | load r f p => exact h

/-- **Without the rule.** Nothing keeps a user from finishing a trajectory that does not exist.  The pose graph then has it, and saving reads options that are not there. -/
theorem unknown_finish (byTrajectory : Bool) : ∃ (ops : List ExOp) (s : ExState), Exec Collators.exTime Collators.exSensor id false byTrajectory Anything ops s ∧ s.size = 0 ∧
    (SMap.get? 5 s.graph.trajs).isSome ∧ Serialization.save true ⟨s.graph, fun _ => true, s.options, [], [], [], [], []⟩ = none := by
  have h0 : Exec (O := Nat) (P := Unit) Collators.exTime Collators.exSensor id false byTrajectory Anything [] (init byTrajectory) := .nil
  have h1 := Exec.snoc (op := .finish 5 []) (s' := { init byTrajectory with pending := [.post (.finish 5)] }) h0 (exPossible_enabled ⟨rfl, rfl⟩) trivial (by
    cases byTrajectory
    · rfl
    · simp only [State.step]
      rw [finish_nothing (by rfl)]
      rfl)
  have h2 := Exec.snoc (op := .call) (s' := { init byTrajectory with graph := { inflight := [.finish 5] } }) h1 (exPossible_enabled (by simp [exPossible])) trivial rfl
  have h3 := Exec.snoc (op := .work (.enqueue 0)) (s' := { init byTrajectory with graph := { queue := [.finish 5] } }) h2 (exPossible_enabled ⟨trivial, by simp [PoseGraph.Enabled]⟩) trivial rfl
  have h4 := Exec.snoc (op := .work (.run [])) (s' := { init byTrajectory with graph := { trajs := [(5, ⟨.finished, .normal⟩)] } }) h3 (exPossible_enabled ⟨trivial, rfl, by simp⟩) trivial rfl
  exact ⟨_, _, h4, rfl, rfl, rfl⟩

/-! ### Examples -/

/-- The file of a map with two trajectories, 3 and 1. -/
def exFile : List (Record Unit Nat) :=
  [.header 2, .poseGraph ⟨[⟨3, [0], [0]⟩, ⟨1, [], [4]⟩], [⟨(3, 0), (3, 0), (), true⟩]⟩, .options [30, 31], .submap (3, 0), .node (3, 0), .node (1, 4)]

/-- A trajectory runs while a map is loaded and another one is added; a loaded one and the first are finished. -/
def exOps : List ExOp := [.add [0] 10 none, .data 0 (5, 0) [], .load exFile true fun _ => 7, .call, .call, .work (.enqueue 0), .work (.run []), .call, .call, .call, .call, .add [0] 11 (some 3), .call,
  .data 3 (2, 0) [], .data 0 (6, 0) [], .finish 1 [], .finish 0 []]

/-- The ids, the options and the builders. -/
example : ((steps (init true) exOps).map fun s => (s.options, s.builders, s.graph.trajs.map Prod.fst)) = some ([10, 30, 31, 11], [some [0], none, none, some [0]], [1, 2]) := by decide +kernel

/-- The calls of the collator: finishing the loaded trajectory is none. -/
example : collCalls [] exOps = [Collators.Call.add 0 [0], .data 0 (5, 0), .add 3 [0], .data 3 (2, 0), .data 0 (6, 0), .finish 0] := by rfl

/-- With the common collator the same calls abort, because of the old data of trajectory 3 (C115). -/
example : (steps (init false) (exOps.take 14)).isSome = true ∧ steps (init false) (exOps.take 15) = none := by decide +kernel

/-- The start of the execution is one of a careful user, so the theorems apply to it. -/
theorem ex_exec : ∃ s : ExState, Exec Collators.exTime Collators.exSensor id false true (Careful Collators.exTime Collators.exSensor) (exOps.take 4) s ∧ s.size = 3 ∧ s.pending.length = 5 := by
  have h0 : Exec (O := Nat) (P := Unit) Collators.exTime Collators.exSensor id false true (Careful Collators.exTime Collators.exSensor) [] (init true) := .nil
  have h1 := Exec.snoc (op := .add [0] 10 none) h0 (exPossible_enabled rfl) (by simp [Careful]) rfl
  have h2 := Exec.snoc (op := .data 0 (5, 0) []) h1 (exPossible_enabled ⟨rfl, rfl⟩) ⟨⟨[], [0], [], rfl, by simp, by simp⟩, by simp [collCalls, collCall, received]⟩ rfl
  have h3 := Exec.snoc (op := .load exFile true fun _ => 7) h2 (exPossible_enabled rfl) trivial rfl
  have h4 := Exec.snoc (op := .call) h3 (exPossible_enabled (by simp [exPossible, exFile, Serialization.load])) trivial rfl
  exact ⟨_, h4, rfl, rfl⟩

/-- The loaded trajectories are frozen one after the other while the rest of the file is still to be loaded. -/
example : (steps (init true) (exOps.take 7)).map (fun s => (s.graph.trajs, s.pending.length)) = some ([(1, ⟨.frozen, .normal⟩)], 4) := by decide +kernel

end Verif.MapBuilder
