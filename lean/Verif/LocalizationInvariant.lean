import Verif.LocalizationTrimming
import Verif.Props.LocalSlamGraph
import Verif.Props.LoadWhileRunning

/-!
# Localization in a loaded map: the invariant
-/

namespace Verif.Localize

open PoseGraph
open MapById
open Loading (ownItem otherItem otherTrimmer itemOf Good Ready subsOf nodesOf membersOf consOf waiting items)

variable {V : Type} {mine : Int → Bool} {S : Setup} {lo : Int → Nat}

/-- Work items of trajectory builders. -/
def slam (mine : Int → Bool) (x : Item V) : Bool :=
  match builderOf x with
  | some t => !mine t
  | none => false

/-- The work items there are. -/
def Kind (mine : Int → Bool) (x : Item V) : Prop :=
  ownItem mine x = true ∨ slam mine x = true ∨ x = .serialized [] ∨ ∃ t keep, x = .addTrimmer (.pureLocalization t keep false) ∧ 2 ≤ keep ∧ mine t = false

theorem slam_own {x : Item V} (h : ownItem mine x = true) : slam mine x = false := by
  cases x <;> simp_all [ownItem, slam, builderOf]

theorem slam_traj {x : Item V} (h : slam mine x = true) : builderOf x = some x.traj ∧ mine x.traj = false := by
  cases x <;> simp_all [slam, builderOf, Item.traj]

theorem slam_other {x : Item V} (h : slam mine x = true) : otherItem mine x = true := by
  cases x <;> simp_all [slam, builderOf, otherItem]

theorem Kind.other {x : Item V} (h : Kind mine x) (ho : ownItem mine x = false) : otherItem mine x = true := by
  rcases h with h | h | rfl | ⟨t, keep, rfl, _, h⟩
  · rw [h] at ho; cases ho
  · exact slam_other h
  · rfl
  · simp [otherItem, otherTrimmer, h]

/-- `s0` is what the pose graph would be if nothing had been loaded, searched or trimmed, `c t` the number of nodes of trajectory `t` that were processed, and `fin t` that it is finished. -/
structure Holds (S : Setup) (mine : Int → Bool) (as made : List (Act V)) (s : State V) (done : List (Item V)) (lo : Int → Nat) (s0 : State V) (seen : Seen) (c : Int → Nat) (fin : Int → Bool) : Prop where
  load : Loading.Inv mine made done s
  integrity : Integrity s
  ghost : PoseGraph.Inv S (adds as) (posted as) seen s0 c fin
  idle : s0.worker = .idle
  queue : s0.queue = s.queue.filter (slam mine)
  inflight : s0.inflight = s.inflight.filter (slam mine)
  los : LoOk S c fin lo
  cuts : Cuts S mine lo s s0
  trajs : TrajOk mine fin s.trajs
  trimmers : TrimmersOk mine s.trimmers
  kinds : ∀ x ∈ s.queue ++ s.inflight, Kind mine x
  todo : ∀ todo, s.worker = .searching todo → TodoOk s todo
  states : ∀ t, mine t = false → fin t = true → (trajOf s.trajs t).state = .finished ∨ (trajOf s.trajs t).state = .deleted ∧ submapCount (S.n t) (c t) ≤ lo t

theorem Holds.init : Holds S mine [] [] ({} : State V) [] (fun _ => 0) {} {} (fun _ => 0) (fun _ => false) where
  load := Loading.Fresh.init.inv
  integrity := Integrity.init
  ghost := Inv.init
  idle := rfl
  queue := rfl
  inflight := rfl
  los := fun _ => Or.inl rfl
  cuts := ⟨Cut.nil, Cut.nil, Cut.nil, Cut.nil⟩
  trajs := fun _ _ => ⟨rfl, fun _ => rfl⟩
  trimmers := by intro tr h; simp at h
  kinds := by intro x h; simp at h
  todo := by intro t h; cases h
  states := by intro t _ h; cases h

variable {as made : List (Act V)} {s s0 : State V} {done : List (Item V)} {seen : Seen} {c : Int → Nat} {fin : Int → Bool}

/-! ### What follows from it -/

theorem members_node (g : Good mine made) {n id : Id} (h : (n, id) ∈ (made.map itemOf).flatMap membersOf) : n ∈ (made.map itemOf).flatMap nodesOf := by
  obtain ⟨x, hx, hm⟩ := List.mem_flatMap.1 h
  obtain ⟨a, ha, rfl⟩ := List.mem_map.1 hx
  obtain ⟨b, ⟨l, hl⟩, r⟩ := Loading.good_mem g ha
  have key : n ∈ (b.map itemOf).flatMap nodesOf → n ∈ (made.map itemOf).flatMap nodesOf := by
    intro h
    rw [hl, List.map_append, List.flatMap_append]
    exact List.mem_append_left _ h
  cases a with
  | post i =>
    cases i with
    | nodeToSubmap n' i' =>
      simp only [itemOf, membersOf, List.mem_singleton, Prod.mk.injEq] at hm
      rw [hm.1]
      exact hm.1 ▸ key (hm.1 ▸ r.1)
    | serialized cs =>
      simp only [itemOf, membersOf, Loading.pairs, List.mem_map, List.mem_filter, Prod.mk.injEq] at hm
      obtain ⟨x, ⟨hx, _⟩, rfl, _⟩ := hm
      exact key (r.1 x hx).1
    | _ => simp [itemOf, membersOf, Loading.pairs] at hm
  | _ => simp [itemOf, membersOf, Loading.pairs] at hm

theorem done_made (i : Loading.Inv mine made done s) (g : Good mine made) {β : Type} {f : Item V → List β} (he : f (.serialized []) = []) {x : β} (h : x ∈ done.flatMap f) : x ∈ (made.map itemOf).flatMap f := by
  rw [← Loading.flat_items he g, ← i.queue, List.flatMap_append]
  exact List.mem_append_left _ h

theorem Holds.tidy (h : Holds S mine as made s done lo s0 seen c fin) (g : Good mine made) : Tidy s := by
  intro id sm hs n hn
  cases hm : mine id.1 with
  | true =>
    have hnm : mine n.1 = true := by rw [h.load.apart.members id sm hs n hn]; exact hm
    exact (h.load.nodes n hnm).2 (members_node g (done_made h.load g rfl ((h.load.mem id sm hm hs n).1 hn)))
  | false =>
    obtain ⟨v, mi⟩ := id
    obtain ⟨h1, h2⟩ := h.cuts.submaps.is_some (id := (v, mi)) hm hs
    have h3 := h.ghost.memberNode h2 hn
    obtain ⟨i, rfl, h4⟩ := h.ghost.submaps.at_some h2
    rw [subs_get] at h4
    split at h4
    · obtain rfl := Option.some.inj h4
      simp only [Setup.sub, nodeIdsOf, List.mem_map] at hn
      obtain ⟨j, hj, rfl⟩ := hn
      rw [mem_members] at hj
      dsimp only at h1 hm
      have := Nat.mul_le_mul_right (S.n v) (show lo v ≤ i by omega)
      rw [h.cuts.nodes.live (id := (v, (j : Int))) hm (by unfold loN; dsimp only; omega), h3]
      rfl
    · cases h4

theorem Holds.opt_nodes (h : Holds S mine as made s done lo s0 seen c fin) (g : Good mine made) {id : Id} (ho : (at? s.optNodes id).isSome) : (at? s.nodes id).isSome := by
  cases hm : mine id.1 with
  | true => exact (h.load.nodes id hm).2 (done_made h.load g rfl ((h.load.optNodes id hm).1 ho))
  | false =>
    obtain ⟨v, x⟩ := id
    obtain ⟨d, hd⟩ := Option.isSome_iff_exists.1 ho
    obtain ⟨h1, h2⟩ := h.cuts.optNodes.is_some (id := (v, x)) hm hd
    rw [h.cuts.nodes.live (id := (v, x)) hm h1]
    obtain ⟨j, rfl, h3⟩ := h.ghost.optNodes.at_some h2
    rw [replicate_get] at h3
    have := h.ghost.le v
    split at h3
    · rw [h.ghost.nodes.at_nat, replicate_get, if_pos (by omega)]
      rfl
    · cases h3

theorem Holds.opt_submaps (h : Holds S mine as made s done lo s0 seen c fin) {id : Id} {sm : Submap} (hs : at? s.submaps id = some sm) (hf : sm.finished = true) : (at? s.optSubmaps id).isSome := by
  cases hm : mine id.1 with
  | true => exact (h.load.optSubmaps id hm).2 ((h.load.fin id sm hm hs).1 hf)
  | false =>
    obtain ⟨v, x⟩ := id
    obtain ⟨h1, h2⟩ := h.cuts.submaps.is_some (id := (v, x)) hm hs
    rw [h.cuts.optSubmaps.live (id := (v, x)) hm h1]
    obtain ⟨i, rfl, h3⟩ := h.ghost.submaps.at_some h2
    rw [subs_get] at h3
    split at h3
    · rename_i hlt
      obtain rfl := Option.some.inj h3
      simp only [Setup.sub, Bool.or_eq_true, decide_eq_true_eq] at hf
      have hp := S.pos v
      have hc : i * S.n v < c v := by
        rcases hf with hf | hf
        · have : (i + 2) * S.n v = i * S.n v + 2 * S.n v := Nat.add_mul _ _ _
          omega
        · rw [h.ghost.finAll hf]; exact hlt
      rw [h.ghost.optSubmaps.at_nat, replicate_get, if_pos ((lt_submapCount hp).2 hc)]
      rfl
    · cases h3

theorem Holds.deletion (h : Holds S mine as made s done lo s0 seen c fin) (t : Int) : (trajOf s.trajs t).deletion = .normal := by
  cases hm : mine t with
  | true => exact h.load.apart.deletion t hm
  | false => exact (h.trajs t hm).1

theorem Holds.members (h : Holds S mine as made s done lo s0 seen c fin) : Members mine s.submaps := by
  intro id sm hs hm n hn
  rw [h.load.apart.members id sm hs n hn]
  exact hm

theorem alive_dense {D : Type} {m : Map D} {f : Int → List D} (h : Dense m f) {k : Int → Nat} {t : Int} (h0 : (f t).length = 0 → k t = 0) (h1 : 0 < (f t).length → k t < (f t).length) : Alive k m t := by
  by_cases hl : (f t).length = 0
  · left
    refine ⟨fun i => ?_, h0 hl⟩
    rw [h.at?, List.length_eq_zero_iff.1 hl]
    simp
  · right
    refine ⟨((f t).length - 1 : Nat), ⟨?_, ?_⟩, by have := h1 (by omega); omega⟩
    · rw [h.at_nat, List.getElem?_eq_getElem (by omega)]
      rfl
    · intro i hi
      rw [h.at?]
      split
      · exact List.getElem?_eq_none (by omega)
      · rfl

theorem last_dense {D : Type} {m : Map D} {f : Int → List D} (h : Dense m f) {t : Int} {j : Nat} (hj : (f t).length = j + 1) : Last m t j := by
  refine ⟨?_, ?_⟩
  · rw [h.at_nat, List.getElem?_eq_getElem (by omega)]
    rfl
  · intro i hi
    rw [h.at?]
    split
    · exact List.getElem?_eq_none (by omega)
    · rfl

/-- A trajectory that goes on has not lost its last submap. -/
theorem Holds.low (h : Holds S mine as made s done lo s0 seen c fin) {t : Int} (hf : fin t = false) : lo t = 0 ∨ lo t + 2 ≤ submapCount (S.n t) (c t) := by
  rcases h.los t with h | h | h
  · exact Or.inl h
  · exact Or.inr h
  · rw [hf] at h
    cases h.1

theorem count_le {n a b : Nat} (h : a ≤ b) : submapCount n a ≤ submapCount n b := by
  unfold submapCount
  exact Nat.div_le_div_right (by omega)

theorem count_zero {n : Nat} (hn : 0 < n) : submapCount n 0 = 0 := by
  have := submapCount_zero (q := 0) hn
  simpa using this

theorem Holds.alive (h : Holds S mine as made s done lo s0 seen c fin) {t : Int} (hf : fin t = false) :
    Alive lo s0.submaps t ∧ Alive (loN S lo) s0.nodes t ∧ Alive lo s0.optSubmaps t ∧ Alive (loN S lo) s0.optNodes t := by
  have hl := h.low hf
  have hp := S.pos t
  have hle := h.ghost.le t
  have hcount := count_le (n := S.n t) hle
  have hmul : lo t ≠ 0 → lo t * S.n t < c t := fun h0 => (lt_submapCount hp).1 (by omega)
  refine ⟨alive_dense h.ghost.submaps ?_ ?_, alive_dense h.ghost.nodes ?_ ?_, alive_dense h.ghost.optSubmaps ?_ ?_, alive_dense h.ghost.optNodes ?_ ?_⟩
  all_goals simp only [subs_length, List.length_replicate, loN]
  · omega
  · omega
  · intro h0
    by_cases hz : lo t = 0
    · rw [hz]; omega
    · have := hmul hz; omega
  · intro h0
    by_cases hz : lo t = 0
    · rw [hz]; omega
    · have := hmul hz; omega
  · omega
  · omega
  · intro h0
    by_cases hz : lo t = 0
    · rw [hz]; omega
    · have := hmul hz; omega
  · intro h0
    by_cases hz : lo t = 0
    · rw [hz]; omega
    · have := hmul hz; omega

end Verif.Localize
