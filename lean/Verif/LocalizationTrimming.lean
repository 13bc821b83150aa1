import Verif.LocalizationLemmas

/-!
# Localization in a loaded map: trimming

`PureLocalizationTrimmer` only removes submaps that are finished, and with them exactly the nodes in no later submap.
-/

namespace Verif.Localize

open PoseGraph
open MapById

variable {V : Type} {mine : Int → Bool} {S : Setup} {lo : Int → Nat}

/-- The submaps of files have nodes of files. -/
def Members (mine : Int → Bool) (m : Map Submap) : Prop := ∀ id sm, at? m id = some sm → mine id.1 = true → ∀ n ∈ sm.nodeIds, mine n.1 = true

theorem loN_update {t : Int} {k : Nat} : loN S (Function.update lo t k) = Function.update (loN S lo) t (k * S.n t) := by
  funext u
  unfold loN
  by_cases h : u = t
  · subst h; simp
  · simp [Function.update_of_ne h]

theorem at_congr {D : Type} {m m' : Map D} {id : Id} (h : SMap.get? id.1 m' = SMap.get? id.1 m) : at? m' id = at? m id := by
  unfold at?
  rw [h]

theorem trim_of_all {D : Type} {m m' : Map D} {id : Id} (h : trimAll m [id] = some m') : trim m id = some m' := by
  simp only [trimAll, Option.bind_eq_bind, Option.bind_eq_some_iff, Option.some.injEq] at h
  obtain ⟨m1, h1, rfl⟩ := h
  exact h1

variable {A c : Int → Nat} {po fin : Int → Bool} {seen : Seen} {s s0 : State V}

/-- A submap that is followed by two that the optimization problem knows, or whose trajectory is finished, is full or finished. -/
theorem full_of_count {t : Int} {i : Nat} (h : i + 3 ≤ submapCount (S.n t) (c t) ∨ fin t = true) : (decide ((i + 2) * S.n t ≤ c t) || fin t) = true := by
  rcases h with h | h
  · have := (lt_submapCount (i := i + 2) (k := c t) (S.pos t)).1 (by omega)
    simp only [Bool.or_eq_true, decide_eq_true_eq]
    left
    omega
  · simp [h]

set_option maxHeartbeats 1000000 in
/-- **Trimming the first submap** that is left. -/
theorem trimSubmap_cut (hi : PoseGraph.Inv S A po seen s0 c fin) (k : Cuts S mine lo s s0) (hm : Members mine s.submaps) {t : Int} (ht : mine t = false)
    (h1 : lo t < submapCount (S.n t) (c t)) (h2 : lo t + 3 ≤ submapCount (S.n t) (c t) ∨ fin t = true) :
    ∃ submaps nodes constraints optSubmaps optNodes, trimSubmap s (t, (lo t : Int)) = some { s with
        submaps := submaps, nodes := nodes, constraints := constraints, optSubmaps := optSubmaps, optNodes := optNodes } ∧
      Cuts S mine (Function.update lo t (lo t + 1)) { s with
        submaps := submaps, nodes := nodes, constraints := constraints, optSubmaps := optSubmaps, optNodes := optNodes } s0 ∧ Members mine submaps := by
  have hlt := (lt_submapCount (S.pos t)).1 h1
  have hle := hi.le t
  have hsub0 : at? s0.submaps (t, (lo t : Int)) = some (S.sub t (c t) (c t) (fin t) (lo t)) := by
    rw [hi.submaps.at_nat, subs_get, if_pos (by omega)]
  have hsub : at? s.submaps (t, (lo t : Int)) = some (S.sub t (c t) (c t) (fin t) (lo t)) := by
    rw [k.submaps.live (id := (t, (lo t : Int))) ht (by simp)]
    exact hsub0
  have hfin : (S.sub t (c t) (c t) (fin t) (lo t)).finished = true := full_of_count h2
  have hopt : at? s.optSubmaps (t, (lo t : Int)) = some () := by
    rw [k.optSubmaps.live (id := (t, (lo t : Int))) ht (by simp), hi.optSubmaps.at_nat, replicate_get, if_pos h1]
  have e1 : (lo t + 1) * S.n t = lo t * S.n t + S.n t := by rw [Nat.add_mul]; omega
  have e2 : (lo t + 2) * S.n t = lo t * S.n t + 2 * S.n t := Nat.add_mul _ _ _
  have e3 : (lo t + 1 + 2) * S.n t = lo t * S.n t + 3 * S.n t := by rw [Nat.add_mul, Nat.add_mul]; omega
  -- the nodes to be removed
  have hrm : ∀ n : Id, n ∈ nodesToRemove s.submaps (t, (lo t : Int)) (S.sub t (c t) (c t) (fin t) (lo t)).nodeIds ↔
      n.1 = t ∧ ∃ j : Nat, n.2 = j ∧ lo t * S.n t ≤ j ∧ j < (lo t + 1) * S.n t ∧ j < c t := by
    rintro ⟨u, x⟩
    unfold nodesToRemove
    rw [List.mem_filter, decide_eq_true_eq]
    constructor
    · rintro ⟨a1, a2⟩
      simp only [Setup.sub, nodeIdsOf, List.mem_map, Prod.mk.injEq] at a1
      obtain ⟨j, a3, rfl, rfl⟩ := a1
      rw [mem_members] at a3
      refine ⟨rfl, j, rfl, a3.2.1, ?_, a3.1⟩
      by_contra hge
      apply a2
      unfold nodesToRetain
      rw [List.mem_flatMap]
      have hnext : at? s.submaps (t, ((lo t + 1 : Nat) : Int)) = some (S.sub t (c t) (c t) (fin t) (lo t + 1)) := by
        rw [k.submaps.live (id := (t, ((lo t + 1 : Nat) : Int))) ht (by simp), hi.submaps.at_nat, subs_get, if_pos (by omega)]
      refine ⟨_, List.mem_filter.2 ⟨(MapById.at?_iff_mem k.submaps.wf).1 hnext, by simp⟩, ?_⟩
      simp only [Setup.sub]
      exact mem_nodeIdsOf.2 ⟨rfl, mem_members.2 ⟨a3.1, by omega, by omega⟩⟩
    · rintro ⟨rfl, j, rfl, a1, a2, a3⟩
      dsimp only at *
      refine ⟨?_, ?_⟩
      · simp only [Setup.sub]
        exact mem_nodeIdsOf.2 ⟨rfl, mem_members.2 ⟨a3, a1, by omega⟩⟩
      · unfold nodesToRetain
        rw [List.mem_flatMap]
        rintro ⟨⟨⟨v, y⟩, sm⟩, hb, hn⟩
        rw [List.mem_filter] at hb
        obtain ⟨b1, b2⟩ := hb
        dsimp only at b1 b2 hn
        have hat := (MapById.at?_iff_mem k.submaps.wf).2 b1
        cases hv : mine v with
        | true =>
          have := hm (v, y) sm hat hv _ hn
          rw [ht] at this
          cases this
        | false =>
          obtain ⟨c1, c2⟩ := k.submaps.is_some (id := (v, y)) hv hat
          obtain ⟨i, rfl, c3⟩ := hi.submaps.at_some c2
          rw [subs_get] at c3
          split at c3
          · obtain rfl := Option.some.inj c3
            simp only [Setup.sub] at hn
            rw [mem_nodeIdsOf, mem_members] at hn
            obtain ⟨rfl, d1, d2, d3⟩ := hn
            dsimp only at c1
            have : lo u + 1 ≤ i := by
              have : i ≠ lo u := by
                rintro rfl
                simp at b2
              omega
            have := Nat.mul_le_mul_right (S.n u) this
            omega
          · cases c3
  have hnd : (nodesToRemove s.submaps (t, (lo t : Int)) (S.sub t (c t) (c t) (fin t) (lo t)).nodeIds).Nodup := by
    unfold nodesToRemove
    refine List.Nodup.filter _ ?_
    simp only [Setup.sub, nodeIdsOf, members]
    refine List.Nodup.map ?_ (List.nodup_range.filter _)
    intro a b hab
    simp only [Prod.mk.injEq, Nat.cast_inj, true_and] at hab
    exact hab
  -- the maps
  have hAc : ∀ j, j < (lo t + 1) * S.n t → j < A t → j < c t := by
    intro j j1 j2
    rcases h2 with h2 | h2
    · have := (lt_submapCount (i := lo t + 2) (k := c t) (S.pos t)).1 (by omega)
      omega
    · rw [hi.finAll h2]
      exact j2
  obtain ⟨submaps, p1, p2, p3⟩ := k.submaps.trim_all (t := t) (l := [(t, (lo t : Int))]) (by simp) (k := lo t + 1) (by omega) (by
    rintro ⟨u, x⟩
    simp only [List.mem_singleton, Prod.mk.injEq]
    constructor
    · rintro ⟨rfl, rfl⟩
      exact ⟨rfl, by omega, by rw [hsub]; rfl⟩
    · rintro ⟨rfl, a, b⟩
      obtain ⟨d, hd⟩ := Option.isSome_iff_exists.1 b
      have := (k.submaps.is_some (id := (u, x)) ht hd).1
      dsimp only at this
      exact ⟨rfl, by omega⟩)
  obtain ⟨optSubmaps, q1, q2, q3⟩ := k.optSubmaps.trim_all (t := t) (l := [(t, (lo t : Int))]) (by simp) (k := lo t + 1) (by omega) (by
    rintro ⟨u, x⟩
    simp only [List.mem_singleton, Prod.mk.injEq]
    constructor
    · rintro ⟨rfl, rfl⟩
      exact ⟨rfl, by omega, by rw [hopt]; rfl⟩
    · rintro ⟨rfl, a, b⟩
      obtain ⟨d, hd⟩ := Option.isSome_iff_exists.1 b
      have := (k.optSubmaps.is_some (id := (u, x)) ht hd).1
      dsimp only at this
      exact ⟨rfl, by omega⟩)
  obtain ⟨nodes, r1, r2, r3⟩ := k.nodes.trim_all (t := t) hnd (k := (lo t + 1) * S.n t) (by unfold loN; omega) (by
    rintro ⟨u, x⟩
    rw [hrm]
    constructor
    · rintro ⟨rfl, j, rfl, a1, a2, a3⟩
      dsimp only at *
      refine ⟨rfl, by omega, ?_⟩
      rw [k.nodes.live (id := (u, (j : Int))) ht (by unfold loN; dsimp only; omega), hi.nodes.at_nat, replicate_get, if_pos (by omega)]
      rfl
    · rintro ⟨rfl, a, b⟩
      obtain ⟨d, hd⟩ := Option.isSome_iff_exists.1 b
      obtain ⟨a1, a2⟩ := k.nodes.is_some (id := (u, x)) ht hd
      obtain ⟨j, rfl, a3⟩ := hi.nodes.at_some a2
      rw [replicate_get] at a3
      unfold loN at a1
      dsimp only at *
      split at a3
      · exact ⟨rfl, j, rfl, by omega, by omega, hAc j (by omega) (by assumption)⟩
      · cases a3)
  obtain ⟨optNodes, o1, o2, o3⟩ := k.optNodes.trim_all (t := t) hnd (k := (lo t + 1) * S.n t) (by unfold loN; omega) (by
    rintro ⟨u, x⟩
    rw [hrm]
    constructor
    · rintro ⟨rfl, j, rfl, a1, a2, a3⟩
      dsimp only at *
      refine ⟨rfl, by omega, ?_⟩
      rw [k.optNodes.live (id := (u, (j : Int))) ht (by unfold loN; dsimp only; omega), hi.optNodes.at_nat, replicate_get, if_pos (by omega)]
      rfl
    · rintro ⟨rfl, a, b⟩
      obtain ⟨d, hd⟩ := Option.isSome_iff_exists.1 b
      obtain ⟨a1, a2⟩ := k.optNodes.is_some (id := (u, x)) ht hd
      obtain ⟨j, rfl, a3⟩ := hi.optNodes.at_some a2
      rw [replicate_get] at a3
      unfold loN at a1
      dsimp only at *
      split at a3
      · exact ⟨rfl, j, rfl, by omega, by omega, by assumption⟩
      · cases a3)
  rw [← loN_update] at r2 o2
  refine ⟨submaps, nodes, (s.constraints.filter (fun x => x.submap ≠ (t, (lo t : Int)))).filter
    (fun x => x.node ∉ nodesToRemove s.submaps (t, (lo t : Int)) (S.sub t (c t) (c t) (fin t) (lo t)).nodeIds), optSubmaps, optNodes, ?_, ⟨p2, r2, q2, o2⟩, ?_⟩
  · simp only [trimSubmap, hsub, hfin, trim_of_all p1, trim_of_all q1, r1, o1, guard, if_true, Option.bind_eq_bind, Option.bind_some, Option.pure_def]
  · intro id sm hs hmi n hn
    have hne : id.1 ≠ t := by
      intro e
      rw [e, ht] at hmi
      cases hmi
    rw [at_congr (p3 _ hne)] at hs
    exact hm id sm hs hmi n hn

/-- The submaps from `i` on. -/
def idsFrom (t : Int) (i m : Nat) : List Id := (List.range' i m).map fun x : Nat => ((t, (x : Int)) : Id)

theorem trimSubmaps_cut (hi : PoseGraph.Inv S A po seen s0 c fin) {t : Int} (ht : mine t = false) : ∀ (m : Nat) {lo : Int → Nat} {s : State V}, Cuts S mine lo s s0 → Members mine s.submaps →
    (m = 0 ∨ lo t + m + 2 ≤ submapCount (S.n t) (c t) ∨ fin t = true ∧ lo t + m ≤ submapCount (S.n t) (c t)) →
    ∃ submaps nodes constraints optSubmaps optNodes, trimSubmaps s (idsFrom t (lo t) m) = some { s with
        submaps := submaps, nodes := nodes, constraints := constraints, optSubmaps := optSubmaps, optNodes := optNodes } ∧
      Cuts S mine (Function.update lo t (lo t + m)) { s with
        submaps := submaps, nodes := nodes, constraints := constraints, optSubmaps := optSubmaps, optNodes := optNodes } s0 ∧ Members mine submaps := by
  intro m
  induction m with
  | zero =>
    intro lo s k hm _
    refine ⟨s.submaps, s.nodes, s.constraints, s.optSubmaps, s.optNodes, rfl, ?_, hm⟩
    rw [Nat.add_zero, Function.update_eq_self]
    exact ⟨k.submaps, k.nodes, k.optSubmaps, k.optNodes⟩
  | succ m ih =>
    intro lo s k hm h
    obtain ⟨submaps, nodes, constraints, optSubmaps, optNodes, a1, a2, a3⟩ := trimSubmap_cut hi k hm ht (by omega) (by
      rcases h with h | h | h
      · cases h
      · left; omega
      · exact Or.inr h.1)
    have hu : Function.update lo t (lo t + 1) t = lo t + 1 := Function.update_self ..
    obtain ⟨submaps', nodes', constraints', optSubmaps', optNodes', b1, b2, b3⟩ := ih a2 a3 (by
      rw [hu]
      rcases h with h | h | h
      · cases h
      · right; left; omega
      · exact Or.inr (Or.inr ⟨h.1, by omega⟩))
    rw [hu] at b1 b2
    refine ⟨submaps', nodes', constraints', optSubmaps', optNodes', ?_, ?_, b3⟩
    · unfold idsFrom at b1 ⊢
      rw [List.range'_succ, List.map_cons]
      simp only [trimSubmaps, a1, b1, Option.bind_eq_bind, Option.bind_some]
    · rw [Function.update_idem, show lo t + 1 + m = lo t + (m + 1) from by omega] at b2
      exact b2

theorem idsFrom_sorted {t : Int} {i m : Nat} : (idsFrom t i m).Pairwise (fun a b => a.2 < b.2) := by
  unfold idsFrom
  rw [List.pairwise_map]
  refine List.Pairwise.imp ?_ (List.pairwise_lt_range' (s := i) (n := m))
  intro a b h
  dsimp only
  omega

/-- The submaps that are left in the optimization problem. -/
theorem idsOf_left (hi : PoseGraph.Inv S A po seen s0 c fin) (k : Cut mine lo s.optSubmaps s0.optSubmaps) {t : Int} (ht : mine t = false) :
    idsOf s.optSubmaps t = idsFrom t (lo t) (submapCount (S.n t) (c t) - lo t) := by
  refine ids_ext (idsOf_sorted k.wf t) idsFrom_sorted (fun x hx => ((mem_idsOf k.wf).1 hx).1) (fun x hx => ?_) ?_
  · unfold idsFrom at hx
    obtain ⟨j, _, rfl⟩ := List.mem_map.1 hx
    rfl
  · intro i
    rw [mem_idsOf k.wf, k.at_eq t ht, hi.optSubmaps.at?]
    unfold idsFrom
    simp only [List.mem_map, List.mem_range'_1, Prod.mk.injEq, true_and]
    constructor
    · intro h
      split at h
      · split at h
        · rw [replicate_get] at h
          split at h
          · exact ⟨i.toNat, by omega, by omega⟩
          · cases h
        · cases h
      · cases h
    · rintro ⟨j, h, rfl⟩
      rw [if_pos (by omega), if_pos (by omega), replicate_get, if_pos (by omega)]
      rfl

/-- Which submaps may have been removed. -/
def LoOk (S : Setup) (c : Int → Nat) (fin : Int → Bool) (lo : Int → Nat) : Prop :=
  ∀ t, lo t = 0 ∨ lo t + 2 ≤ submapCount (S.n t) (c t) ∨ (fin t = true ∧ lo t ≤ submapCount (S.n t) (c t))

/-- The states of the trajectories of local SLAM. -/
def TrajOk (mine : Int → Bool) (fin : Int → Bool) (l : List (Int × TrajState)) : Prop :=
  ∀ t, mine t = false → (trajOf l t).deletion = .normal ∧ (fin t = false → trajOf l t = {})

theorem trajOf_setTraj {l : List (Int × TrajState)} {t u : Int} {x : TrajectoryState} : trajOf (setTraj l t x) u = if u = t then { trajOf l t with state := x } else trajOf l u := by
  unfold trajOf setTraj
  rw [SMap.get?_put]
  by_cases h : t = u
  · subst h; simp [trajOf]
  · rw [if_neg h, if_neg (Ne.symm h)]

theorem TrajOk.finished {l : List (Int × TrajState)} (h : TrajOk mine fin l) {t : Int} (ht : mine t = false) (hf : isFinished l t = true) : fin t = true := by
  cases hc : fin t with
  | true => rfl
  | false =>
    have := (h t ht).2 hc
    unfold trajOf at this
    unfold isFinished at hf
    cases hg : SMap.get? t l with
    | none => rw [hg] at hf; simp at hf
    | some st =>
      rw [hg] at this hf
      simp only [Option.getD_some] at this
      rw [this] at hf
      simp at hf

/-- How many submaps are removed at least: all but `keep`, and all of a finished trajectory. -/
def Removed (S : Setup) (c : Int → Nat) (lo : Int → Nat) (l : List (Int × TrajState)) (t : Int) (keep : Nat) : Prop :=
  submapCount (S.n t) (c t) ≤ lo t + keep ∧ (isFinished l t = true → submapCount (S.n t) (c t) ≤ lo t)

theorem take_range' {i m q : Nat} (h : q ≤ m) : (List.range' i m).take q = List.range' i q := by
  obtain ⟨r, rfl⟩ := Nat.exists_eq_add_of_le h
  rw [← List.range'_append_1, List.take_append_of_le_length (by simp)]
  exact List.take_of_length_le (by simp)

/-- **`PureLocalizationTrimmer::Trim`**. -/
theorem pureLocalizationTrim_cut (hi : PoseGraph.Inv S A po seen s0 c fin) (k : Cuts S mine lo s s0) (hm : Members mine s.submaps) (hl : LoOk S c fin lo) (htr : TrajOk mine fin s.trajs) {t : Int}
    (ht : mine t = false) {keep : Nat} (h2 : 2 ≤ keep) :
    ∃ submaps nodes constraints optSubmaps optNodes trajs tr lo', pureLocalizationTrim s t keep false = some ({ s with
        submaps := submaps, nodes := nodes, constraints := constraints, optSubmaps := optSubmaps, optNodes := optNodes, trajs := trajs }, tr) ∧
      Cuts S mine lo' { s with
        submaps := submaps, nodes := nodes, constraints := constraints, optSubmaps := optSubmaps, optNodes := optNodes, trajs := trajs } s0 ∧ Members mine submaps ∧ LoOk S c fin lo' ∧
      TrajOk mine fin trajs ∧ (∀ u, lo u ≤ lo' u) ∧ Removed S c lo' s.trajs t keep ∧
      (tr = .pureLocalization t keep false ∧ trajs = s.trajs ∧ isFinished s.trajs t = false ∨
        trimmerDone tr = true ∧ isFinished s.trajs t = true ∧ trajs = setTraj s.trajs t .deleted) := by
  have hids := idsOf_left hi k.optSubmaps ht
  have hlen : (idsOf s.optSubmaps t).length = submapCount (S.n t) (c t) - lo t := by rw [hids]; simp [idsFrom]
  have htake : ∀ q, (idsOf s.optSubmaps t).take ((idsOf s.optSubmaps t).length - q) = idsFrom t (lo t) (submapCount (S.n t) (c t) - lo t - q) := by
    intro q
    rw [hlen, hids]
    unfold idsFrom
    rw [← List.map_take, take_range' (by omega)]
  have hl' := hl t
  have hmono : ∀ q u, lo u ≤ Function.update lo t (lo t + q) u := by
    intro q u
    by_cases hu : u = t
    · subst hu; simp
    · simp [Function.update_of_ne hu]
  cases hf : isFinished s.trajs t with
  | true =>
    have hfin := htr.finished ht hf
    obtain ⟨submaps, nodes, constraints, optSubmaps, optNodes, a1, a2, a3⟩ := trimSubmaps_cut hi ht (submapCount (S.n t) (c t) - lo t - 0) k hm (by
      rcases hl' with h | h | h
      · exact Or.inr (Or.inr ⟨hfin, by omega⟩)
      · exact Or.inr (Or.inr ⟨hfin, by omega⟩)
      · exact Or.inr (Or.inr ⟨hfin, by omega⟩))
    refine ⟨submaps, nodes, constraints, optSubmaps, optNodes, setTraj s.trajs t .deleted, .pureLocalization t 0 true, _, ?_, ⟨a2.1, a2.2, a2.3, a2.4⟩, a3, ?_, ?_, hmono _, ?_, Or.inr ⟨rfl, rfl, rfl⟩⟩
    · simp only [pureLocalizationTrim, hf, if_true, htake, a1, Option.bind_eq_bind, Option.bind_some]
    · intro u
      by_cases hu : u = t
      · subst hu
        rw [Function.update_self]
        exact Or.inr (Or.inr ⟨hfin, by omega⟩)
      · rw [Function.update_of_ne hu]
        exact hl u
    · intro u hu
      rw [trajOf_setTraj]
      split
      · rename_i e
        subst e
        refine ⟨(htr u hu).1, fun hc => ?_⟩
        rw [hfin] at hc
        cases hc
      · exact htr u hu
    · unfold Removed
      rw [Function.update_self]
      omega
  | false =>
    obtain ⟨submaps, nodes, constraints, optSubmaps, optNodes, a1, a2, a3⟩ := trimSubmaps_cut hi ht (submapCount (S.n t) (c t) - lo t - keep) k hm (by
      rcases hl' with h | h | h
      · omega
      · omega
      · omega)
    have hk : keep ≠ 0 := by omega
    refine ⟨submaps, nodes, constraints, optSubmaps, optNodes, s.trajs, .pureLocalization t keep false, _, ?_, a2, a3, ?_, htr, hmono _, ?_, Or.inl ⟨rfl, rfl, rfl⟩⟩
    · simp only [pureLocalizationTrim, hf, Bool.false_eq_true, if_false, htake, a1, Option.bind_eq_bind, Option.bind_some, if_neg hk]
    · intro u
      by_cases hu : u = t
      · subst hu
        rw [Function.update_self]
        rcases hl' with h | h | h
        · omega
        · omega
        · exact Or.inr (Or.inr ⟨h.1, by omega⟩)
      · rw [Function.update_of_ne hu]
        exact hl u
    · unfold Removed
      rw [Function.update_self]
      refine ⟨by omega, fun h => ?_⟩
      rw [hf] at h
      cases h

/-- The trimmers are `PureLocalizationTrimmer`s of trajectories of local SLAM. -/
def TrimmersOk (mine : Int → Bool) (l : List Trimmer) : Prop := ∀ tr ∈ l, ∃ t keep, tr = .pureLocalization t keep false ∧ 2 ≤ keep ∧ mine t = false

theorem isFinished_eq {l : List (Int × TrajState)} {t : Int} : isFinished l t = true ↔ (trajOf l t).state = .finished := by
  unfold isFinished trajOf
  cases SMap.get? t l with
  | none => simp
  | some st => simp

/-- Trajectories are only deleted when they are finished, and nothing is left of them then. -/
def After (S : Setup) (c : Int → Nat) (lo : Int → Nat) (l l' : List (Int × TrajState)) : Prop :=
  ∀ u, trajOf l' u = trajOf l u ∨ isFinished l u = true ∧ trajOf l' u = { trajOf l u with state := .deleted } ∧ submapCount (S.n u) (c u) ≤ lo u

/-- What a trimmer achieves: at most `keep` submaps are left, none if the trajectory is finished, which then becomes deleted. -/
def Cleared (S : Setup) (c : Int → Nat) (lo : Int → Nat) (l l' : List (Int × TrajState)) (t : Int) (keep : Nat) : Prop :=
  submapCount (S.n t) (c t) ≤ lo t + keep ∧ (isFinished l t = true → submapCount (S.n t) (c t) ≤ lo t ∧ (trajOf l' t).state = .deleted)

theorem After.refl (l : List (Int × TrajState)) : After S c lo l l := fun _ => Or.inl rfl

theorem after_deleted {l : List (Int × TrajState)} {t : Int} (h : isFinished l t = true) (h' : submapCount (S.n t) (c t) ≤ lo t) : After S c lo l (setTraj l t .deleted) := by
  intro u
  rw [trajOf_setTraj]
  split
  · rename_i e
    subst e
    exact Or.inr ⟨h, rfl, h'⟩
  · exact Or.inl rfl

theorem After.trans {lo' : Int → Nat} {l l' l'' : List (Int × TrajState)} (h : After S c lo l l') (hlo : ∀ u, lo u ≤ lo' u) (h' : After S c lo' l' l'') : After S c lo' l l'' := by
  intro u
  rcases h u with a | ⟨a1, a2, a3⟩
  · rcases h' u with b | ⟨b1, b2, b3⟩
    · exact Or.inl (b.trans a)
    · refine Or.inr ⟨?_, by rw [b2, a], b3⟩
      rw [isFinished_eq] at b1 ⊢
      rw [← a]
      exact b1
  · rcases h' u with b | ⟨b1, b2, b3⟩
    · exact Or.inr ⟨a1, b.trans a2, a3.trans (hlo u)⟩
    · exact Or.inr ⟨a1, by rw [b2, a2], b3⟩

theorem runTrimmers_cut (hi : PoseGraph.Inv S A po seen s0 c fin) : ∀ {trs : List Trimmer} {lo : Int → Nat} {s : State V}, Cuts S mine lo s s0 → Members mine s.submaps → LoOk S c fin lo →
    TrajOk mine fin s.trajs → TrimmersOk mine trs →
    ∃ submaps nodes constraints optSubmaps optNodes trajs trs' lo', runTrimmers s trs [] = some ({ s with
        submaps := submaps, nodes := nodes, constraints := constraints, optSubmaps := optSubmaps, optNodes := optNodes, trajs := trajs }, trs') ∧
      Cuts S mine lo' { s with
        submaps := submaps, nodes := nodes, constraints := constraints, optSubmaps := optSubmaps, optNodes := optNodes, trajs := trajs } s0 ∧ LoOk S c fin lo' ∧
      TrajOk mine fin trajs ∧ (∀ u, lo u ≤ lo' u) ∧ After S c lo' s.trajs trajs ∧ TrimmersOk mine (trs'.filter fun tr => !trimmerDone tr) ∧
      ∀ t keep d, Trimmer.pureLocalization t keep d ∈ trs → Cleared S c lo' s.trajs trajs t keep := by
  intro trs
  induction trs with
  | nil =>
    intro lo s k _ hl htr _
    refine ⟨s.submaps, s.nodes, s.constraints, s.optSubmaps, s.optNodes, s.trajs, [], lo, rfl, ⟨k.submaps, k.nodes, k.optSubmaps, k.optNodes⟩, hl, htr, fun _ => le_refl _, After.refl _, ?_, ?_⟩
    · intro tr h; simp at h
    · intro t keep d h; simp at h
  | cons tr trs ih =>
    intro lo s k hm hl htr hok
    obtain ⟨t, keep, rfl, h2, ht⟩ := hok tr List.mem_cons_self
    obtain ⟨submaps, nodes, constraints, optSubmaps, optNodes, trajs, tr', lo1, a1, a2, a3, a4, a5, a6, a7, a8⟩ := pureLocalizationTrim_cut hi k hm hl htr ht h2
    obtain ⟨submaps', nodes', constraints', optSubmaps', optNodes', trajs', trs', lo', b1, b2, b4, b5, b6, b7, b8, b9⟩ := ih a2 a3 a4 a5 (fun x hx => hok x (List.mem_cons_of_mem _ hx))
    have haf : After S c lo1 s.trajs trajs := by
      rcases a8 with ⟨_, e, _⟩ | ⟨_, e, e'⟩
      · rw [e]; exact After.refl _
      · rw [e']; exact after_deleted e (a7.2 e)
    refine ⟨submaps', nodes', constraints', optSubmaps', optNodes', trajs', tr' :: trs', lo', ?_, b2, b4, b5, fun u => (a6 u).trans (b6 u), haf.trans b6 b7, ?_, ?_⟩
    · simp only [runTrimmers, runTrimmer, a1, List.tail_nil, b1, Option.bind_eq_bind, Option.bind_some]
    · intro x hx
      rw [List.filter_cons] at hx
      split at hx
      · rename_i hd
        rcases List.mem_cons.1 hx with rfl | hx
        · rcases a8 with ⟨e, _⟩ | ⟨e, _⟩
          · exact ⟨t, keep, e, h2, ht⟩
          · rw [e] at hd; cases hd
        · exact b8 x hx
      · exact b8 x hx
    · intro u q d hu
      have hdel : ∀ v, isFinished s.trajs v = true → (trajOf trajs v).state = .deleted → (trajOf trajs' v).state = .deleted := by
        intro v _ hv
        rcases b7 v with e | ⟨_, e, _⟩
        · rw [e]; exact hv
        · rw [e]
      have hhead : isFinished s.trajs t = true → submapCount (S.n t) (c t) ≤ lo' t ∧ (trajOf trajs' t).state = .deleted := by
        intro hf
        refine ⟨(a7.2 hf).trans (b6 t), hdel t hf ?_⟩
        rcases a8 with ⟨_, _, e⟩ | ⟨_, _, e⟩
        · rw [hf] at e; cases e
        · rw [e, trajOf_setTraj, if_pos rfl]
      rcases List.mem_cons.1 hu with he | hu
      · simp only [Trimmer.pureLocalization.injEq] at he
        obtain ⟨rfl, rfl, _⟩ := he
        exact ⟨a7.1.trans (Nat.add_le_add_right (b6 u) q), hhead⟩
      · obtain ⟨c1, c2⟩ := b9 u q d hu
        refine ⟨c1, fun hf => ?_⟩
        rcases haf u with e | ⟨_, e, _⟩
        · refine c2 ?_
          rw [isFinished_eq] at hf ⊢
          rw [e]
          exact hf
        · by_cases hut : u = t
          · rw [hut] at hf ⊢
            exact hhead hf
          · exfalso
            rcases a8 with ⟨_, e', _⟩ | ⟨_, _, e'⟩
            · rw [isFinished_eq] at hf
              rw [e'] at e
              rw [e] at hf
              cases hf
            · rw [e', trajOf_setTraj, if_neg hut] at e
              rw [isFinished_eq, e] at hf
              cases hf

theorem latest_ok (ht : Tidy s) {node id : Id} (h1 : (at? s.nodes node).isSome) (h2 : (at? s.submaps id).isSome) : latestNodeTime s node id = some () := by
  obtain ⟨_, e1⟩ := Option.isSome_iff_exists.1 h1
  obtain ⟨sm, e2⟩ := Option.isSome_iff_exists.1 h2
  simp only [latestNodeTime, e1, e2, Option.bind_eq_bind, Option.bind_some]
  cases hl : lastNode sm.nodeIds with
  | none => rfl
  | some n =>
    obtain ⟨_, e3⟩ := Option.isSome_iff_exists.1 (ht id sm e2 n (lastNode_mem hl))
    exact e3

/-- **The block that trims**. -/
theorem handleTrimming_cut (hi : PoseGraph.Inv S A po seen s0 c fin) (k : Cuts S mine lo s s0) (hm : Members mine s.submaps) (hl : LoOk S c fin lo) (htr : TrajOk mine fin s.trajs)
    (hdel : ∀ t, (trajOf s.trajs t).deletion = .normal) (hok : TrimmersOk mine s.trimmers) (hint : Integrity s) (htidy : Tidy s) {r : List (Constraint V)} (hw : s.worker = .optimized r) :
    ∃ submaps nodes constraints optSubmaps optNodes trajs trs' lo', handleTrimming { s with worker := .idle } r [] = some { s with
        submaps := submaps, nodes := nodes, constraints := constraints, optSubmaps := optSubmaps, optNodes := optNodes, trajs := trajs, trimmers := trs', worker := .idle } ∧
      Cuts S mine lo' { s with
        submaps := submaps, nodes := nodes, constraints := constraints, optSubmaps := optSubmaps, optNodes := optNodes, trajs := trajs, trimmers := trs', worker := .idle } s0 ∧ LoOk S c fin lo' ∧
      TrajOk mine fin trajs ∧ (∀ u, lo u ≤ lo' u) ∧ After S c lo' s.trajs trajs ∧ TrimmersOk mine trs' ∧
      ∀ t keep d, Trimmer.pureLocalization t keep d ∈ s.trimmers → Cleared S c lo' s.trajs trajs t keep := by
  have h1 : updateConnectivity { s with worker := .idle } r = some () := by
    apply updateConnectivity_ok
    intro x hx
    obtain ⟨q1, q2⟩ := (hint.quiet r hw).2 x hx
    exact latest_ok (s := { s with worker := .idle }) htidy q2 q1
  have h2 : deleteTrajectories { s with worker := .idle } (s.trajs.map (·.1)) = some { s with worker := .idle } := deleteTrajectories_ok hdel
  obtain ⟨submaps, nodes, constraints, optSubmaps, optNodes, trajs, trs', lo', b1, b2, b4, b5, b6, b7, b8, b9⟩ :=
    runTrimmers_cut hi (s := { s with worker := .idle }) ⟨k.submaps, k.nodes, k.optSubmaps, k.optNodes⟩ hm hl htr hok
  refine ⟨submaps, nodes, constraints, optSubmaps, optNodes, trajs, trs'.filter (fun tr => !trimmerDone tr), lo', ?_, ⟨b2.1, b2.2, b2.3, b2.4⟩, b4, b5, b6, b7, b8, b9⟩
  simp only [handleTrimming, h1, h2, b1, Option.bind_eq_bind, Option.bind_some]

end Verif.Localize
