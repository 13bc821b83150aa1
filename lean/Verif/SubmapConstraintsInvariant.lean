import Verif.SubmapConstraints
import Verif.PoseGraphInvariant
import Mathlib.Data.List.Perm.Basic

/-!
# The invariant that ties constraints within submaps to the nodes of submaps
-/

namespace Verif.SubmapLinks

open PoseGraph
open MapById (Id Map at? WF)
open Loading (pairs)

variable {P : Type} {mine : Int → Bool}

/-- The invariant. -/
structure Linked (mine : Int → Bool) (s : State P) : Prop where
  /-- At most one constraint within a submap for each node and submap. -/
  nodup : (pairs s.constraints).Nodup
  /-- Nodes of local SLAM have a constraint for each of their submaps. -/
  linked : ∀ n id, Mem s.submaps n id → mine n.1 = false → (n, id) ∈ pairs s.constraints
  /-- Nodes that were not processed yet are in no submap. -/
  fresh : ∀ n ∈ waiting s, mine n.1 = false ∧ (at? s.nodes n).isSome ∧ ∀ id, ¬ Mem s.submaps n id
  distinct : (waiting s).Nodup
  named : ∀ i ∈ s.queue ++ s.inflight, ItemNamed mine i
  /-- All others are in some submap. -/
  owned : ∀ n, (at? s.nodes n).isSome → mine n.1 = false → n ∈ waiting s ∨ ∃ id, Mem s.submaps n id

theorem Linked.init : Linked mine ({} : State P) where
  nodup := by simp [pairs]
  linked := by simp [Mem, at?, SMap.get?]
  fresh := by simp [waiting]
  distinct := by simp [waiting]
  named := by simp
  owned := by simp [at?, SMap.get?]

/-- What does not matter. -/
theorem Linked.same {s s' : State P} (h : Linked mine s) (hm : ∀ n id, Mem s'.submaps n id ↔ Mem s.submaps n id) (hp : pairs s'.constraints = pairs s.constraints)
    (hn : ∀ n, (at? s'.nodes n).isSome ↔ (at? s.nodes n).isSome) (hw : (waiting s').Perm (waiting s)) (hi : ∀ i ∈ s'.queue ++ s'.inflight, ItemNamed mine i) : Linked mine s' where
  nodup := hp ▸ h.nodup
  linked := fun n id hn hf => by rw [hp]; exact h.linked n id ((hm n id).1 hn) hf
  fresh := fun n hx => by
    obtain ⟨a, b, c⟩ := h.fresh n (hw.mem_iff.1 hx)
    exact ⟨a, (hn n).2 b, fun id hid => c id ((hm n id).1 hid)⟩
  distinct := hw.nodup_iff.2 h.distinct
  named := hi
  owned := fun n hx hf => by
    rcases h.owned n ((hn n).1 hx) hf with g | ⟨id, g⟩
    · exact Or.inl (hw.mem_iff.2 g)
    · exact Or.inr ⟨id, (hm n id).2 g⟩

theorem mem_pairs {cs : List (Constraint P)} {n id : Id} : (n, id) ∈ pairs cs ↔ ∃ c ∈ cs, c.intra = true ∧ c.node = n ∧ c.submap = id := by
  simp only [pairs, List.mem_map, List.mem_filter, Prod.mk.injEq]
  constructor
  · rintro ⟨c, ⟨h1, h2⟩, h3, h4⟩
    exact ⟨c, h1, h2, h3, h4⟩
  · rintro ⟨c, h1, h2, h3, h4⟩
    exact ⟨c, ⟨h1, h2⟩, h3, h4⟩

theorem pairs_append {a b : List (Constraint P)} : pairs (a ++ b) = pairs a ++ pairs b := by simp [pairs]

theorem mem_of_pairs {s : State P} (hi : Integrity s) {n id : Id} (h : (n, id) ∈ pairs s.constraints) : Mem s.submaps n id ∧ (at? s.nodes n).isSome := by
  obtain ⟨c, h1, h2, rfl, rfl⟩ := mem_pairs.1 h
  obtain ⟨⟨sm, h3, h4⟩, h5⟩ := hi.refs c h1
  exact ⟨⟨sm, h3, h4 h2⟩, h5⟩

theorem mem_mark {m m' : Map Submap} (l : MapLe m m') (h : ∀ i sm, at? m' i = some sm → ∃ sm0, at? m i = some sm0 ∧ sm.nodeIds = sm0.nodeIds) (n id : Id) : Mem m' n id ↔ Mem m n id := by
  constructor
  · rintro ⟨sm, h1, h2⟩
    obtain ⟨sm0, h3, h4⟩ := h id sm h1
    exact ⟨sm0, h3, h4 ▸ h2⟩
  · rintro ⟨sm, h1, h2⟩
    obtain ⟨sm', h3, h4⟩ := l.mem h1
    exact ⟨sm', h3, h4.2.2.1 n h2⟩

theorem mem_insert {m m' : Map Submap} (hm : WF m) {id node : Id} {sm : Submap} (h : at? m id = some sm) (ha : MapById.assign m id { sm with nodeIds := setInsert node sm.nodeIds } = some m') (n i : Id) :
    Mem m' n i ↔ Mem m n i ∨ n = node ∧ i = id := by
  obtain ⟨-, -, q⟩ := MapById.assign_spec hm ha
  unfold Mem
  rw [q]
  by_cases hi : id = i
  · subst hi
    rw [if_pos rfl]
    constructor
    · rintro ⟨_, h1, h2⟩
      obtain rfl := Option.some.inj h1
      rcases setInsert_mem.1 h2 with rfl | h2
      · exact Or.inr ⟨rfl, rfl⟩
      · exact Or.inl ⟨sm, h, h2⟩
    · rintro (⟨sm', h1, h2⟩ | ⟨rfl, -⟩)
      · rw [h] at h1
        obtain rfl := Option.some.inj h1
        exact ⟨_, rfl, setInsert_mem.2 (Or.inr h2)⟩
      · exact ⟨_, rfl, setInsert_mem.2 (Or.inl rfl)⟩
  · rw [if_neg hi]
    constructor
    · exact Or.inl
    · rintro (h1 | ⟨-, rfl⟩)
      · exact h1
      · exact absurd rfl hi

/-! ### Public operations -/

theorem Linked.addNode {s s' : State P} {t : Int} {ins : List Nat} {nf : Bool} (hl : Linked mine s) (hi : Integrity s) (ht : mine t = false) (h : PoseGraph.addNode s t ins nf = some s') : Linked mine s' := by
  obtain ⟨s1, id, h1, rfl⟩ := addNode_inv h
  obtain ⟨trajs, nodes, -, h2, h3⟩ := appendNode_inv h1
  obtain ⟨-, rfl, q0, q⟩ := MapById.append_spec hi.wf.nodes h2
  have hne : ∀ k, ¬ Mem s.submaps id k := by
    intro k hk
    have := (mem_of_pairs hi (hl.linked id k hk ht)).2
    rw [q0] at this
    cases this
  have main : ∀ m : Map Submap, (∀ n k, Mem m n k ↔ Mem s.submaps n k) → ∀ trajs, Linked mine { s with
      trajs := trajs
      nodes := nodes
      submaps := m
      inflight := s.inflight ++ [.computeConstraints id ins nf] } := by
    intro m hm trajs
    have hw : waiting { s with
        trajs := trajs
        nodes := nodes
        submaps := m
        inflight := s.inflight ++ [.computeConstraints id ins nf] } = waiting s ++ [id] := by
      simp [waiting, nodeOf]
    refine ⟨hl.nodup, fun n k hk hf => hl.linked n k ((hm n k).1 hk) hf, ?_, ?_, ?_, ?_⟩
    · intro n hn
      rw [hw, List.mem_append, List.mem_singleton] at hn
      dsimp only
      rw [q]
      rcases hn with hn | rfl
      · obtain ⟨a, b, c⟩ := hl.fresh n hn
        refine ⟨a, ?_, fun k hk => c k ((hm n k).1 hk)⟩
        split
        · rfl
        · exact b
      · exact ⟨ht, by simp, fun k hk => hne k ((hm n k).1 hk)⟩
    · rw [hw, List.nodup_append]
      refine ⟨hl.distinct, by simp, ?_⟩
      intro a ha b hb
      rw [List.mem_singleton] at hb
      subst hb
      rintro rfl
      have := (hl.fresh a ha).2.1
      rw [q0] at this
      cases this
    · intro i him
      simp only [List.mem_append, List.mem_singleton] at him
      rcases him with him | him | rfl
      · exact hl.named i (List.mem_append_left _ him)
      · exact hl.named i (List.mem_append_right _ him)
      · trivial
    · intro n hn hf
      dsimp only at hn
      rw [q] at hn
      rw [hw, List.mem_append, List.mem_singleton]
      split at hn
      · rename_i he
        exact Or.inl (Or.inr he.symm)
      · rcases hl.owned n hn hf with g | ⟨k, g⟩
        · exact Or.inl (Or.inl g)
        · exact Or.inr ⟨k, (hm n k).2 g⟩
  rcases h3 with rfl | ⟨back, submaps, id', h4, rfl⟩
  · exact main s.submaps (fun _ _ => Iff.rfl) _
  · refine main submaps ?_ _
    obtain ⟨-, -, r0, r⟩ := MapById.append_spec hi.wf.submaps h4
    intro n k
    unfold Mem
    rw [r]
    split
    · rename_i he
      subst he
      rw [r0]
      simp
    · rfl

theorem Linked.addSubmapFromProto {s s' : State P} {id : Id} {ptr : Nat} (hl : Linked mine s) (hi : Integrity s) (h : PoseGraph.addSubmapFromProto s id ptr = some s') : Linked mine s' := by
  obtain ⟨trajs, submaps, -, h4, rfl⟩ := addSubmapFromProto_inv h
  obtain ⟨-, q0, q⟩ := MapById.insert_spec hi.wf.submaps h4
  refine hl.same ?_ rfl (fun _ => Iff.rfl) (by simp [waiting, List.filterMap_cons, nodeOf]) ?_
  · intro n k
    unfold Mem
    dsimp only
    rw [q]
    split
    · rename_i he
      subst he
      rw [q0]
      simp
    · rfl
  · intro i him
    simp only [List.mem_append, List.mem_singleton] at him
    rcases him with him | him | rfl
    · exact hl.named i (List.mem_append_left _ him)
    · exact hl.named i (List.mem_append_right _ him)
    · trivial

theorem Linked.addNodeFromProto {s s' : State P} {id : Id} (hl : Linked mine s) (hi : Integrity s) (ht : mine id.1 = true) (h : PoseGraph.addNodeFromProto s id = some s') : Linked mine s' := by
  obtain ⟨trajs, nodes, -, h2, rfl⟩ := addNodeFromProto_inv h
  obtain ⟨-, q0, q⟩ := MapById.insert_spec hi.wf.nodes h2
  have hw : waiting { s with
      trajs := trajs
      nodes := nodes
      inflight := s.inflight ++ [.nodeFromProto id] } = waiting s := by
    simp [waiting, nodeOf]
  refine ⟨hl.nodup, hl.linked, ?_, hw ▸ hl.distinct, ?_, ?_⟩
  · intro n hn
    rw [hw] at hn
    obtain ⟨a, b, c⟩ := hl.fresh n hn
    refine ⟨a, ?_, c⟩
    dsimp only
    rw [q]
    split
    · rfl
    · exact b
  · intro i him
    simp only [List.mem_append, List.mem_singleton] at him
    rcases him with him | him | rfl
    · exact hl.named i (List.mem_append_left _ him)
    · exact hl.named i (List.mem_append_right _ him)
    · trivial
  · intro n hn hf
    dsimp only at hn
    rw [q] at hn
    rw [hw]
    split at hn
    · rename_i he
      rw [← he, ht] at hf
      cases hf
    · exact hl.owned n hn hf

/-! ### Work items -/

theorem insertIntras_linked {node : Id} {ids : List Id} : ∀ {s s' : State P} {poses : List P}, WF s.submaps → insertIntras s node ids poses = some s' →
    pairs s'.constraints = pairs s.constraints ++ ids.map (fun i => (node, i)) ∧ (∀ n i, Mem s'.submaps n i ↔ Mem s.submaps n i ∨ n = node ∧ i ∈ ids) ∧ WF s'.submaps ∧ s'.nodes = s.nodes ∧
      s'.queue = s.queue ∧ s'.inflight = s.inflight := by
  induction ids with
  | nil =>
    intro s s' poses hm h
    simp only [insertIntras, Option.some.injEq] at h
    subst h
    simp [hm]
  | cons id ids ih =>
    intro s s' poses hm h
    cases poses with
    | nil => simp [insertIntras] at h
    | cons pose poses =>
      simp only [insertIntras, insertIntra, Option.bind_eq_bind, Option.bind_eq_some_iff, guard_some, Option.some.injEq] at h
      obtain ⟨s1, ⟨sm, h1, _, h2, submaps, h3, rfl⟩, h5⟩ := h
      obtain ⟨a, b, c, d, e, f⟩ := ih (by exact (MapById.assign_spec hm h3).1) h5
      refine ⟨?_, ?_, c, d, e, f⟩
      · rw [a]
        dsimp only
        rw [pairs_append]
        simp [pairs]
      · intro n i
        rw [b]
        dsimp only
        rw [mem_insert hm h1 h3, List.mem_cons]
        tauto

theorem init_ids {s : State P} {t : Int} {ins : List Nat} {opt : Map Unit} {ids : List Id} (h : initializeGlobalSubmapPoses s t ins = some (opt, ids)) : ids.Nodup ∧ ids ≠ [] := by
  unfold initializeGlobalSubmapPoses at h
  split at h
  · simp only [Option.bind_eq_bind, Option.bind_eq_some_iff, guard_some, Option.some.injEq, Prod.mk.injEq] at h
    obtain ⟨o, -, _, -, _, -, -, rfl⟩ := h
    simp
  · simp only [Option.bind_eq_bind, Option.bind_eq_some_iff] at h
    obtain ⟨last, g1, lastPtr, g2, g3⟩ := h
    split at g3
    · simp only [Option.bind_eq_some_iff, Option.some.injEq, Prod.mk.injEq] at g3
      obtain ⟨⟨o', id⟩, -, -, rfl⟩ := g3
      refine ⟨?_, by simp⟩
      simp only [List.nodup_cons, List.mem_singleton, List.not_mem_nil, not_false_eq_true, List.nodup_nil, and_true]
      intro he
      have := congrArg Prod.snd he
      dsimp only at this
      omega
    · simp only [Option.bind_eq_some_iff, guard_some, Option.some.injEq, Prod.mk.injEq] at g3
      obtain ⟨_, -, _, -, -, rfl⟩ := g3
      refine ⟨?_, by simp⟩
      simp only [List.nodup_cons, List.mem_singleton, List.not_mem_nil, not_false_eq_true, List.nodup_nil, and_true]
      intro he
      have := congrArg Prod.snd he
      dsimp only at this
      omega
  · cases h

theorem Linked.computeConstraints {s s' : State P} {node : Id} {ins : List Nat} {nf : Bool} {poses : List P} {queue : List (Item P)} (hl : Linked mine s) (hi : Integrity s)
    (hq : s.queue = .computeConstraints node ins nf :: queue) (h : PoseGraph.computeConstraints { s with queue := queue } node ins nf poses = some s') : Linked mine s' := by
  simp only [PoseGraph.computeConstraints, Option.bind_eq_bind, Option.bind_eq_some_iff, guard_some] at h
  obtain ⟨_, h1, ⟨opt, ids⟩, h2, _, h3, matching, h4, _, h5, ⟨optNodes, id1⟩, h6, s1, h7, _, h8, h9⟩ := h
  obtain ⟨hnd, hne⟩ := init_ids h2
  obtain ⟨a, b, c, d, e, f⟩ := insertIntras_linked (by exact hi.wf.submaps) h7
  dsimp only at a b d e f
  have hw : waiting s = node :: (queue ++ s.inflight).filterMap nodeOf := by
    unfold waiting
    rw [hq]
    simp [nodeOf]
  obtain ⟨f1, f2, f3⟩ := hl.fresh node (by rw [hw]; simp)
  have hd := hl.distinct
  rw [hw, List.nodup_cons] at hd
  have hw1 : waiting s1 = (queue ++ s.inflight).filterMap nodeOf := by
    unfold waiting
    rw [e, f]
  have l1 : Linked mine s1 := by
    refine ⟨?_, ?_, ?_, ?_, ?_, ?_⟩
    · rw [a, List.nodup_append]
      refine ⟨hl.nodup, hnd.map (fun x y hxy => (Prod.mk.inj hxy).2), ?_⟩
      rintro ⟨n, i⟩ hx y hy rfl
      obtain ⟨j, _, he⟩ := List.mem_map.1 hy
      obtain ⟨rfl, rfl⟩ := Prod.mk.inj he
      exact f3 _ (mem_of_pairs hi hx).1
    · intro n i hmem hf
      rw [a, List.mem_append]
      rcases (b n i).1 hmem with hmem | ⟨rfl, hmem⟩
      · exact Or.inl (hl.linked n i hmem hf)
      · exact Or.inr (List.mem_map_of_mem hmem)
    · intro n hn
      rw [hw1] at hn
      obtain ⟨x, y, z⟩ := hl.fresh n (by rw [hw]; exact List.mem_cons_of_mem _ hn)
      refine ⟨x, by rw [d]; exact y, fun i hmem => ?_⟩
      rcases (b n i).1 hmem with hmem | ⟨rfl, -⟩
      · exact z i hmem
      · exact hd.1 hn
    · rw [hw1]
      exact hd.2
    · intro i him
      rw [e, f] at him
      refine hl.named i ?_
      rw [hq]
      exact List.mem_cons_of_mem _ him
    · intro n hn hf
      rw [d] at hn
      rw [hw1]
      rcases hl.owned n hn hf with g | ⟨i, g⟩
      · rw [hw, List.mem_cons] at g
        rcases g with rfl | g
        · obtain ⟨i, hmem⟩ := List.exists_mem_of_ne_nil _ hne
          exact Or.inr ⟨i, (b _ _).2 (Or.inr ⟨rfl, hmem⟩)⟩
        · exact Or.inl g
      · exact Or.inr ⟨i, (b _ _).2 (Or.inl g)⟩
  cases nf with
  | false =>
    simp only [Bool.false_eq_true, if_false, Option.some.injEq] at h9
    subst h9
    exact l1.same (fun _ _ => Iff.rfl) rfl (fun _ => Iff.rfl) (List.Perm.refl _) l1.named
  | true =>
    simp only [if_true, Option.bind_eq_some_iff, guard_some, Option.some.injEq] at h9
    obtain ⟨sm, -, _, -, submaps', h10, rfl⟩ := h9
    exact l1.same (mem_mark (markFinished_spec c h10).2 (markFinished_nodeIds c h10)) rfl (fun _ => Iff.rfl) (List.Perm.refl _) l1.named

theorem Linked.addSerialized {s s' : State P} {c : Constraint P} (hl : Linked mine s) (hi : Integrity s) (hc : mine c.node.1 = true) (h : PoseGraph.addSerialized s c = some s') : Linked mine s' := by
  simp only [PoseGraph.addSerialized, Option.bind_eq_bind, Option.bind_eq_some_iff, guard_some] at h
  obtain ⟨_, h1, _, h2, sm, h3, h4⟩ := h
  by_cases hin : c.intra = true
  · simp only [hin, if_true, Option.bind_eq_some_iff, guard_some, Option.some.injEq] at h4
    obtain ⟨_, h5, submaps, h6, rfl⟩ := h4
    have hm := mem_insert hi.wf.submaps h3 h6
    have hp : pairs (s.constraints ++ [c]) = pairs s.constraints ++ [(c.node, c.submap)] := by
      rw [pairs_append]
      simp [pairs, hin]
    refine ⟨?_, ?_, ?_, hl.distinct, hl.named, ?_⟩
    · dsimp only
      rw [hp, List.nodup_append]
      refine ⟨hl.nodup, by simp, ?_⟩
      intro x hx y hy
      rw [List.mem_singleton] at hy
      subst hy
      rintro rfl
      obtain ⟨⟨sm', g1, g2⟩, -⟩ := mem_of_pairs hi hx
      rw [h3] at g1
      obtain rfl := Option.some.inj g1
      exact h5 g2
    · intro n i hmem hf
      dsimp only at hmem ⊢
      rw [hp, List.mem_append]
      rcases (hm n i).1 hmem with hmem | ⟨rfl, -⟩
      · exact Or.inl (hl.linked n i hmem hf)
      · rw [hc] at hf
        cases hf
    · intro n hn
      obtain ⟨x, y, z⟩ := hl.fresh n hn
      refine ⟨x, y, fun i hmem => ?_⟩
      rcases (hm n i).1 hmem with hmem | ⟨rfl, -⟩
      · exact z i hmem
      · rw [hc] at x
        cases x
    · intro n hn hf
      rcases hl.owned n hn hf with g | ⟨i, g⟩
      · exact Or.inl g
      · exact Or.inr ⟨i, (hm n i).2 (Or.inl g)⟩
  · simp only [hin, Bool.false_eq_true, if_false, Option.some.injEq] at h4
    subst h4
    refine hl.same (fun _ _ => Iff.rfl) ?_ (fun _ => Iff.rfl) (List.Perm.refl _) hl.named
    dsimp only
    rw [pairs_append]
    simp [pairs, hin]

theorem Linked.addSerializedAll {cs : List (Constraint P)} : ∀ {s s' : State P}, Linked mine s → Integrity s → (∀ c ∈ cs, mine c.node.1 = true) → PoseGraph.addSerializedAll s cs = some s' → Linked mine s' := by
  induction cs with
  | nil =>
    intro s s' hl _ _ h
    simp only [PoseGraph.addSerializedAll, Option.some.injEq] at h
    subst h
    exact hl
  | cons c cs ih =>
    intro s s' hl hi hc h
    simp only [PoseGraph.addSerializedAll, Option.bind_eq_bind, Option.bind_eq_some_iff] at h
    obtain ⟨s1, h1, h2⟩ := h
    exact ih (hl.addSerialized hi (hc c (by simp)) h1) (addSerialized_integrity hi h1).1 (fun x hx => hc x (by simp [hx])) h2

theorem Linked.runItem {s s' : State P} {poses : List P} {item : Item P} {queue : List (Item P)} (hl : Linked mine s) (hi : Integrity s) (hq : s.queue = item :: queue)
    (h : PoseGraph.runItem { s with queue := queue } poses item = some s') : Linked mine s' := by
  have hnamed := hl.named
  rw [hq] at hnamed
  have hit := hnamed item (by simp)
  have hi' : Integrity { s with queue := queue } := ⟨⟨hi.wf.1, hi.wf.2, hi.wf.3, hi.wf.4⟩, hi.refs, hi.searches, hi.quiet, hi.nodup, hi.opt⟩
  have rest : nodeOf item = none → Linked mine { s with queue := queue } := by
    intro hno
    refine hl.same (fun _ _ => Iff.rfl) rfl (fun _ => Iff.rfl) ?_ ?_
    · unfold waiting
      rw [hq]
      simp [hno]
    · intro i him
      exact hnamed i (List.mem_cons_of_mem _ him)
  cases item with
  | computeConstraints node ins nf => exact hl.computeConstraints hi hq h
  | data t =>
    have r := rest rfl
    simp only [PoseGraph.runItem] at h
    split at h
    · obtain rfl := Option.some.inj h
      exact r
    · cases h
  | finish t =>
    have r := rest rfl
    simp only [PoseGraph.runItem, Option.bind_eq_bind, Option.bind_eq_some_iff, guard_some, Option.some.injEq] at h
    obtain ⟨_, h1, submaps, h2, rfl⟩ := h
    exact r.same (mem_mark (markAll_spec hi.wf.submaps h2).2 (markAll_nodeIds hi.wf.submaps h2)) rfl (fun _ => Iff.rfl) (List.Perm.refl _) r.named
  | freeze t =>
    have r := rest rfl
    simp only [PoseGraph.runItem, Option.bind_eq_bind, Option.bind_eq_some_iff, guard_some, Option.some.injEq] at h
    obtain ⟨_, h1, rfl⟩ := h
    exact r.same (fun _ _ => Iff.rfl) rfl (fun _ => Iff.rfl) (List.Perm.refl _) r.named
  | delete t =>
    have r := rest rfl
    simp only [PoseGraph.runItem, Option.bind_eq_bind, Option.bind_eq_some_iff, guard_some, Option.some.injEq] at h
    obtain ⟨_, h1, _, h2, _, h3, _, h4, rfl⟩ := h
    exact r.same (fun _ _ => Iff.rfl) rfl (fun _ => Iff.rfl) (List.Perm.refl _) r.named
  | submapFromProto id =>
    have r := rest rfl
    simp only [PoseGraph.runItem, Option.bind_eq_bind, Option.bind_eq_some_iff, Option.some.injEq] at h
    obtain ⟨submaps, h1, opt, h2, rfl⟩ := h
    exact r.same (mem_mark (markFinished_spec hi.wf.submaps h1).2 (markFinished_nodeIds hi.wf.submaps h1)) rfl (fun _ => Iff.rfl) (List.Perm.refl _) r.named
  | nodeFromProto id =>
    have r := rest rfl
    simp only [PoseGraph.runItem, Option.bind_eq_bind, Option.bind_eq_some_iff, Option.some.injEq] at h
    obtain ⟨_, h1, opt, h2, rfl⟩ := h
    exact r.same (fun _ _ => Iff.rfl) rfl (fun _ => Iff.rfl) (List.Perm.refl _) r.named
  | nodeToSubmap node id =>
    have r := rest rfl
    simp only [PoseGraph.runItem] at h
    split at h
    · simp only [Option.bind_eq_bind, Option.bind_eq_some_iff, Option.some.injEq] at h
      obtain ⟨sm, h3, submaps, h6, rfl⟩ := h
      have hm := mem_insert hi.wf.submaps h3 h6
      replace hit : mine node.1 = true := hit
      refine ⟨r.nodup, ?_, ?_, r.distinct, r.named, ?_⟩
      · intro n i hmem hf
        rcases (hm n i).1 hmem with hmem | ⟨rfl, -⟩
        · exact r.linked n i hmem hf
        · rw [hit] at hf
          cases hf
      · intro n hn
        obtain ⟨x, y, z⟩ := r.fresh n hn
        refine ⟨x, y, fun i hmem => ?_⟩
        rcases (hm n i).1 hmem with hmem | ⟨rfl, -⟩
        · exact z i hmem
        · rw [hit] at x
          cases x
      · intro n hn hf
        rcases r.owned n hn hf with g | ⟨i, g⟩
        · exact Or.inl g
        · exact Or.inr ⟨i, (hm n i).2 (Or.inl g)⟩
    · cases h
  | serialized cs => exact (rest rfl).addSerializedAll hi' hit h
  | addTrimmer tr =>
    have r := rest rfl
    simp only [PoseGraph.runItem, Option.some.injEq] at h
    subst h
    exact r.same (fun _ _ => Iff.rfl) rfl (fun _ => Iff.rfl) (List.Perm.refl _) r.named

/-! ### Trimming -/

theorem Linked.trimSubmap {s s' : State P} {id : Id} (hl : Linked mine s) (wf : Wf s) (h : PoseGraph.trimSubmap s id = some s') : Linked mine s' := by
  obtain ⟨sm, submaps, optSubmaps, nodes, optNodes, h1, h2, h3, h4, h5, h6, rfl⟩ := trimSubmap_inv h
  obtain ⟨-, -, q1⟩ := MapById.trim_spec wf.submaps h3
  obtain ⟨-, q3⟩ := trimAll_spec wf.nodes h5
  have hrm := fun n => mem_nodesToRemove wf.submaps (n := n) h1
  have hm : ∀ n i, Mem submaps n i ↔ Mem s.submaps n i ∧ i ≠ id := by
    intro n i
    unfold Mem
    rw [q1]
    split
    · rename_i he
      subst he
      simp
    · rename_i he
      exact ⟨fun h => ⟨h, fun h => he h.symm⟩, fun h => h.1⟩
  have keep : ∀ n i, Mem submaps n i → n ∉ nodesToRemove s.submaps id sm.nodeIds := by
    intro n i hmem hn
    obtain ⟨⟨sm', g1, g2⟩, g3⟩ := (hm n i).1 hmem
    exact g3 (((hrm n).1 hn).2 i sm' g1 g2)
  refine ⟨?_, ?_, ?_, hl.distinct, hl.named, ?_⟩
  · refine List.Nodup.sublist ?_ hl.nodup
    unfold pairs
    exact ((List.filter_sublist.trans List.filter_sublist).filter _).map _
  · intro n i hmem hf
    obtain ⟨c, g1, g2, rfl, rfl⟩ := mem_pairs.1 (hl.linked n i ((hm n i).1 hmem).1 hf)
    refine mem_pairs.2 ⟨c, ?_, g2, rfl, rfl⟩
    simp only [List.mem_filter, decide_eq_true_eq]
    exact ⟨⟨g1, ((hm _ _).1 hmem).2⟩, keep _ _ hmem⟩
  · intro n hn
    obtain ⟨x, y, z⟩ := hl.fresh n hn
    refine ⟨x, ?_, fun i hmem => z i ((hm n i).1 hmem).1⟩
    dsimp only
    rw [q3, if_neg ?_]
    · exact y
    · intro hn'
      obtain ⟨⟨sm', g1, g2⟩, -⟩ := (hrm n).1 hn'
      exact z id ⟨sm', g1, g2⟩
  · intro n hn hf
    dsimp only at hn ⊢
    rw [q3] at hn
    split at hn
    · cases hn
    · rename_i hno
      rcases hl.owned n hn hf with g | ⟨i, g⟩
      · exact Or.inl g
      · right
        by_cases hid : i = id
        · subst hid
          by_contra hcon
          push Not at hcon
          refine hno ((hrm n).2 ⟨g, fun j sm' g1 g2 => ?_⟩)
          by_contra hj
          exact hcon j ((hm n j).2 ⟨⟨sm', g1, g2⟩, hj⟩)
        · exact ⟨i, (hm n i).2 ⟨g, hid⟩⟩

/-- What `TrimSubmap` keeps is kept by the last block of `HandleWorkQueue`, if it is not about trajectories and trimmers. -/
theorem trimming_keeps {Q : State P → Prop} (trims : ∀ s s' id, Quiet s → Q s → PoseGraph.trimSubmap s id = some s' → Q s') (trajs : ∀ s l, Q s → Q { s with trajs := l })
    (trimmers : ∀ s l, Q s → Q { s with trimmers := l }) {s s' : State P} {result : List (Constraint P)} {choices : List (List Id)} (hq : Quiet s) (hs : Q s) (h : handleTrimming s result choices = some s') :
    Q s' := by
  have h1 : ∀ (ids : List Id) (s s' : State P), Quiet s → Q s → trimSubmaps s ids = some s' → Q s' := by
    intro ids
    induction ids with
    | nil =>
      intro s s' _ hs h
      simp only [trimSubmaps, Option.some.injEq] at h
      exact h ▸ hs
    | cons id ids ih =>
      intro s s' hq hs h
      simp only [trimSubmaps, Option.bind_eq_bind, Option.bind_eq_some_iff] at h
      obtain ⟨s1, g1, g2⟩ := h
      exact ih _ _ (trimSubmap_quiet hq g1).1 (trims _ _ _ hq hs g1) g2
  have h2 : ∀ (ts : List Int) (s s' : State P), Quiet s → Q s → deleteTrajectories s ts = some s' → Q s' := by
    intro ts
    induction ts with
    | nil =>
      intro s s' _ hs h
      simp only [deleteTrajectories, Option.some.injEq] at h
      exact h ▸ hs
    | cons t ts ih =>
      intro s s' hq hs h
      simp only [deleteTrajectories, Option.bind_eq_bind, Option.bind_eq_some_iff] at h
      obtain ⟨s1, g1, g2⟩ := h
      refine ih _ _ (deleteIfNeeded_quiet hq g1).1 ?_ g2
      unfold deleteIfNeeded at g1
      split at g1
      · simp only [Option.bind_eq_bind, Option.bind_eq_some_iff, Option.some.injEq] at g1
        obtain ⟨s2, k1, rfl⟩ := g1
        exact trajs _ _ (h1 _ _ _ hq hs k1)
      · exact Option.some.inj g1 ▸ hs
  have h3 : ∀ (trs : List Trimmer) (s s' : State P) (cs : List (List Id)) (trs' : List Trimmer), Quiet s → Q s → runTrimmers s trs cs = some (s', trs') → Q s' := by
    intro trs
    induction trs with
    | nil =>
      intro s s' cs trs' _ hs h
      simp only [runTrimmers, Option.some.injEq, Prod.mk.injEq] at h
      exact h.1 ▸ hs
    | cons tr trs ih =>
      intro s s' cs trs' hq hs h
      simp only [runTrimmers, Option.bind_eq_bind, Option.bind_eq_some_iff, Option.some.injEq, Prod.mk.injEq] at h
      obtain ⟨⟨s1, tr1⟩, g1, ⟨s2, trs2⟩, g2, rfl, -⟩ := h
      refine ih _ _ _ _ (runTrimmer_quiet hq g1).1 ?_ g2
      cases tr with
      | pureLocalization t keep done =>
        obtain ⟨keep', s3, -, k1, k2⟩ := pureLocalizationTrim_inv g1
        have := h1 _ _ _ hq hs k1
        rcases k2 with ⟨-, rfl, -⟩ | ⟨-, rfl, -⟩
        · exact trajs _ _ this
        · exact this
      | other =>
        simp only [runTrimmer, Option.bind_eq_bind, Option.bind_eq_some_iff, Option.some.injEq, Prod.mk.injEq] at g1
        obtain ⟨s3, k1, rfl, -⟩ := g1
        exact h1 _ _ _ hq hs k1
  obtain ⟨s1, s2, trs, -, g2, g3, rfl⟩ := handleTrimming_inv h
  exact trimmers _ _ (h3 _ _ _ _ _ (deleteTrajectories_quiet hq g2).1 (h2 _ _ _ hq hs g2) g3)

/-! ### All steps -/

theorem Linked.step {s s' : State P} {a : Act P} (hl : Linked mine s) (hi : Integrity s) (ha : ActNamed mine a) (he : Enabled s a) (h : exec s a = some s') : Linked mine s' := by
  cases a with
  | addNode t ins nf => exact hl.addNode hi ha h
  | addSubmapFromProto id ptr => exact hl.addSubmapFromProto hi h
  | addNodeFromProto id => exact hl.addNodeFromProto hi ha h
  | deleteTrajectory t =>
    simp only [exec, Option.some.injEq] at h
    subst h
    unfold deleteTrajectory
    split
    · exact hl
    · refine hl.same (fun _ _ => Iff.rfl) rfl (fun _ => Iff.rfl) (by simp [waiting, List.filterMap_cons, nodeOf]) ?_
      intro i him
      simp only [List.mem_append, List.mem_singleton] at him
      rcases him with him | him | rfl
      · exact hl.named i (List.mem_append_left _ him)
      · exact hl.named i (List.mem_append_right _ him)
      · trivial
  | post item =>
    simp only [exec, Option.some.injEq] at h
    subst h
    have hno : nodeOf item = none := by
      cases item <;> first | rfl | cases he
    refine hl.same (fun _ _ => Iff.rfl) rfl (fun _ => Iff.rfl) (by simp [waiting, hno]) ?_
    intro i him
    simp only [List.mem_append, List.mem_singleton] at him
    rcases him with him | him | rfl
    · exact hl.named i (List.mem_append_left _ him)
    · exact hl.named i (List.mem_append_right _ him)
    · exact ha
  | enqueue k =>
    simp only [exec] at h
    split at h
    · cases h
    · rename_i item hk
      obtain rfl := Option.some.inj h
      have hp : (item :: s.inflight.eraseIdx k).Perm s.inflight := by
        obtain ⟨hlt, rfl⟩ := List.getElem?_eq_some_iff.1 hk
        exact List.getElem_cons_eraseIdx_perm hlt
      have hpp : (s.queue ++ [item] ++ s.inflight.eraseIdx k).Perm (s.queue ++ s.inflight) := by
        rw [List.append_assoc]
        exact hp.append_left _
      exact hl.same (fun _ _ => Iff.rfl) rfl (fun _ => Iff.rfl) (hpp.filterMap _) (fun i him => hl.named i (hpp.mem_iff.1 him))
  | run poses =>
    simp only [exec] at h
    split at h
    · cases h
    · rename_i item queue hq
      exact hl.runItem hi hq h
  | search how =>
    obtain ⟨⟨node, id⟩, todo, hw⟩ := he
    simp only [exec, hw] at h
    simp only [computeConstraint, Option.bind_eq_bind, Option.bind_eq_some_iff, guard_some] at h
    obtain ⟨sm, h1, _, h2, h3⟩ := h
    have base : ∀ x, Linked mine { s with
        worker := .searching todo
        searches := x } := fun x => hl.same (fun _ _ => Iff.rfl) rfl (fun _ => Iff.rfl) (List.Perm.refl _) hl.named
    cases how with
    | skip =>
      obtain rfl := Option.some.inj h3
      exact base s.searches
    | sampledOut =>
      simp only [Option.bind_eq_some_iff, Option.some.injEq] at h3
      obtain ⟨_, _, rfl⟩ := h3
      exact base s.searches
    | locally =>
      simp only [Option.bind_eq_some_iff, Option.some.injEq] at h3
      obtain ⟨_, _, _, _, _, _, rfl⟩ := h3
      exact base _
    | globally =>
      simp only [Option.bind_eq_some_iff, Option.some.injEq] at h3
      obtain ⟨_, _, rfl⟩ := h3
      exact base _
  | endSearch =>
    simp only [exec, Option.some.injEq] at h
    subst h
    exact hl.same (fun _ _ => Iff.rfl) rfl (fun _ => Iff.rfl) (List.Perm.refl _) hl.named
  | optimize result =>
    simp only [exec, optimize] at h
    split at h
    · obtain rfl := Option.some.inj h
      refine hl.same (fun _ _ => Iff.rfl) ?_ (fun _ => Iff.rfl) (List.Perm.refl _) hl.named
      dsimp only
      rw [pairs_append]
      have : pairs result = [] := by
        simp only [pairs, List.map_eq_nil_iff, List.filter_eq_nil_iff]
        intro c hc
        simp [(he.2 c hc).1]
      rw [this, List.append_nil]
    · cases h
  | trim choices =>
    obtain ⟨r, hw⟩ := he
    simp only [exec, hw] at h
    have hq : Quiet { s with worker := .idle } :=
      ⟨⟨⟨hi.wf.1, hi.wf.2, hi.wf.3, hi.wf.4⟩, hi.refs, hi.searches, (by intro r hr; cases hr), hi.nodup, hi.opt⟩, (hi.quiet r hw).1, rfl⟩
    refine trimming_keeps (Q := Linked mine) (fun s s' id hq hs h => hs.trimSubmap hq.integrity.wf h) (fun s l hs => ?_) (fun s l hs => ?_) hq ?_ h
    · exact hs.same (fun _ _ => Iff.rfl) rfl (fun _ => Iff.rfl) (List.Perm.refl _) hs.named
    · exact hs.same (fun _ _ => Iff.rfl) rfl (fun _ => Iff.rfl) (List.Perm.refl _) hs.named
    · exact hl.same (fun _ _ => Iff.rfl) rfl (fun _ => Iff.rfl) (List.Perm.refl _) hl.named

end Verif.SubmapLinks
