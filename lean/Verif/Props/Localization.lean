import Verif.LocalizationRuns

/-!
# Localization in a loaded map

C119.  Trajectories that follow a robot in a loaded map, each with or without a `PureLocalizationTrimmer`, never make the pose graph abort, whatever the interleaving.  What was loaded stays as it is, and of
the other trajectories exactly the newest part is left.
-/

namespace Verif.Localize

open PoseGraph
open MapById
open Loading (ownItem otherItem otherTrimmer itemOf Good Ready subsOf nodesOf membersOf consOf frozenOf pairs waiting items Has)

variable {V : Type} {mine : Int → Bool} {S : Setup} {calls as made : List (Act V)} {s : State V}

theorem Uses.kept (g : Good mine calls) (h : Uses S mine calls as made s) : (∃ left, calls = made ++ left) ∧ ∃ done, Kept S mine as made s done := by
  induction h with
  | start => exact ⟨⟨calls, rfl⟩, [], _, _, _, _, _, Holds.init⟩
  | @load as made left a s s' h hc hf hx ih =>
    obtain ⟨_, done, lo, s0, seen, c, fin, hh⟩ := ih
    obtain ⟨s2, h2, hk⟩ := hh.call (Loading.good_prefix g hc) (g _ _ _ hc) hf
    obtain rfl := Option.some.inj (hx.symm.trans h2)
    exact ⟨⟨left, by rw [hc]; simp⟩, done, _, _, _, _, _, hk⟩
  | @act as made b s s' h he hc hx ih =>
    obtain ⟨⟨left, hl⟩, done, lo, s0, seen, c, fin, hh⟩ := ih
    obtain ⟨s2, h2, done', hk⟩ := hh.step (Loading.good_prefix g hl) he hc
    obtain rfl := Option.some.inj (hx.symm.trans h2)
    exact ⟨⟨left, hl⟩, done', hk⟩

/-- C119, part 1: no step of the trajectory builders, the worker, the constraint builder, the optimization or the trimmers aborts, **at any time**. -/
theorem never_aborts (g : Good mine calls) (h : Uses S mine calls as made s) {b : Act V} (he : Enabled s b) (hc : Caller S mine as s b) : (exec s b).isSome := by
  obtain ⟨⟨left, hl⟩, done, lo, s0, seen, c, fin, hh⟩ := h.kept g
  obtain ⟨s2, h2, _⟩ := hh.step (Loading.good_prefix g hl) he hc
  rw [h2]
  rfl

/-- C119, part 1: neither do the calls of the loads. -/
theorem load_never_aborts (g : Good mine calls) (h : Uses S mine calls as made s) {a : Act V} {left : List (Act V)} (hc : calls = made ++ a :: left) (hf : ∀ i ∈ s.inflight, ownItem mine i = false) :
    (exec s a).isSome := by
  obtain ⟨_, done, lo, s0, seen, c, fin, hh⟩ := h.kept g
  obtain ⟨s2, h2, _⟩ := hh.call (Loading.good_prefix g hc) (g _ _ _ hc) hf
  rw [h2]
  rfl

/-- C119, part 2: once all work items of the loads have run, the pose graph has of the loaded trajectories what the files have, and **it stays so** whatever is localized in them. -/
theorem map_unchanged (g : Good mine calls) (h : Uses S mine calls as calls s) (hw : ∀ i ∈ s.queue ++ s.inflight, ownItem mine i = false) : Has mine calls s := by
  obtain ⟨_, done, lo, s0, seen, c, fin, hh⟩ := h.kept g
  exact hh.load.has g (Loading.waiting_nil.2 hw)

/-- What is left of trajectory `t` when `a` nodes were added, `k` of them processed and the first `lo` submaps removed. -/
structure Left (S : Setup) (s : State V) (t : Int) (lo a k : Nat) (finished : Bool) : Prop where
  /-- The nodes that are in none of the removed submaps only. -/
  nodes : ∀ x, (at? s.nodes (t, x)).isSome ↔ ∃ j : Nat, x = j ∧ lo * S.n t ≤ j ∧ j < a
  optNodes : ∀ x, (at? s.optNodes (t, x)).isSome ↔ ∃ j : Nat, x = j ∧ lo * S.n t ≤ j ∧ j < k
  submaps : ∀ x, (at? s.submaps (t, x)).isSome ↔ ∃ i : Nat, x = i ∧ lo ≤ i ∧ i * S.n t < a
  optSubmaps : ∀ x, (at? s.optSubmaps (t, x)).isSome ↔ ∃ i : Nat, x = i ∧ lo ≤ i ∧ i * S.n t < k
  /-- The submaps of local SLAM with their nodes. -/
  submap : ∀ (i : Nat) sm, at? s.submaps (t, (i : Int)) = some sm → sm.ptr = S.ptr t i ∧ (sm.finished = true ↔ (i + 2) * S.n t ≤ k ∨ finished = true) ∧
    ∀ y, y ∈ sm.nodeIds ↔ ∃ j : Nat, y = (t, (j : Int)) ∧ j < k ∧ i * S.n t ≤ j ∧ j < (i + 2) * S.n t
  /-- A trajectory that goes on keeps the last two submaps known to the optimization. -/
  keeps : lo = 0 ∨ (lo + 1) * S.n t < k ∨ finished = true
  /-- A finished trajectory may be deleted, and nothing is left of it then. -/
  state : if finished then (trajOf s.trajs t).state = .finished ∨ (trajOf s.trajs t).state = .deleted ∧ a ≤ lo * S.n t ∧ k = a else (trajOf s.trajs t).state = .active

theorem Holds.left {s0 : State V} {done : List (Item V)} {lo : Int → Nat} {seen : Seen} {c : Int → Nat} {fin : Int → Bool} (h : Holds S mine as made s done lo s0 seen c fin) {t : Int} (ht : mine t = false) :
    Left S s t (lo t) (adds as t) (c t) (fin t) := by
  have hpos := S.pos t
  refine ⟨?_, ?_, ?_, ?_, ?_, ?_, ?_⟩
  · intro x
    rw [h.cuts.nodes.at_eq t ht]
    constructor
    · intro hs
      split at hs
      · rename_i hlo
        obtain ⟨d, hd⟩ := Option.isSome_iff_exists.1 hs
        obtain ⟨j, rfl, hj⟩ := h.ghost.nodes.at_some hd
        rw [replicate_get] at hj
        unfold loN at hlo
        split at hj
        · exact ⟨j, rfl, by omega, by assumption⟩
        · cases hj
      · cases hs
    · rintro ⟨j, rfl, h1, h2⟩
      rw [if_pos (by unfold loN; omega), h.ghost.nodes.at_nat, replicate_get, if_pos h2]
      rfl
  · intro x
    rw [h.cuts.optNodes.at_eq t ht]
    constructor
    · intro hs
      split at hs
      · rename_i hlo
        obtain ⟨d, hd⟩ := Option.isSome_iff_exists.1 hs
        obtain ⟨j, rfl, hj⟩ := h.ghost.optNodes.at_some hd
        rw [replicate_get] at hj
        unfold loN at hlo
        split at hj
        · exact ⟨j, rfl, by omega, by assumption⟩
        · cases hj
      · cases hs
    · rintro ⟨j, rfl, h1, h2⟩
      rw [if_pos (by unfold loN; omega), h.ghost.optNodes.at_nat, replicate_get, if_pos h2]
      rfl
  · intro x
    rw [h.cuts.submaps.at_eq t ht]
    constructor
    · intro hs
      split at hs
      · rename_i hlo
        obtain ⟨d, hd⟩ := Option.isSome_iff_exists.1 hs
        obtain ⟨j, rfl, hj⟩ := h.ghost.submaps.at_some hd
        rw [subs_get] at hj
        split at hj
        · exact ⟨j, rfl, by omega, by assumption⟩
        · cases hj
      · cases hs
    · rintro ⟨j, rfl, h1, h2⟩
      rw [if_pos (by omega), h.ghost.submaps.at_nat, subs_get, if_pos h2]
      rfl
  · intro x
    rw [h.cuts.optSubmaps.at_eq t ht]
    constructor
    · intro hs
      split at hs
      · rename_i hlo
        obtain ⟨d, hd⟩ := Option.isSome_iff_exists.1 hs
        obtain ⟨j, rfl, hj⟩ := h.ghost.optSubmaps.at_some hd
        rw [replicate_get] at hj
        split at hj
        · exact ⟨j, rfl, by omega, (lt_submapCount hpos).1 (by assumption)⟩
        · cases hj
      · cases hs
    · rintro ⟨j, rfl, h1, h2⟩
      rw [if_pos (by omega), h.ghost.optSubmaps.at_nat, replicate_get, if_pos ((lt_submapCount hpos).2 h2)]
      rfl
  · intro i sm hs
    obtain ⟨_, h2⟩ := h.cuts.submaps.is_some (id := (t, (i : Int))) ht hs
    rw [h.ghost.submaps.at_nat, subs_get] at h2
    split at h2
    · obtain rfl := Option.some.inj h2
      refine ⟨rfl, by simp [Setup.sub], ?_⟩
      intro y
      simp only [Setup.sub, nodeIdsOf, List.mem_map, mem_members]
      constructor
      · rintro ⟨j, hj, rfl⟩
        exact ⟨j, rfl, by omega⟩
      · rintro ⟨j, rfl, hj⟩
        exact ⟨j, by omega, rfl⟩
    · cases h2
  · rcases h.los t with h | h | h
    · exact Or.inl h
    · exact Or.inr (Or.inl ((lt_submapCount hpos).1 (by omega)))
    · exact Or.inr (Or.inr h.1)
  · cases hf : fin t with
    | false =>
      rw [if_neg (by simp), (h.trajs t ht).2 hf]
    | true =>
      rw [if_pos rfl]
      refine (h.states t ht hf).imp id fun x => ⟨x.1, ?_, h.ghost.finAll hf⟩
      rw [← h.ghost.finAll hf]
      by_contra hc
      have := (lt_submapCount (n := S.n t) (k := c t) (i := lo t) hpos).2 (by omega)
      omega

/-- C119, part 3: **at any time**, exactly the newest part is left of a trajectory, as local SLAM made it; `k` nodes of those added were processed. -/
theorem newest_left (g : Good mine calls) (h : Uses S mine calls as made s) {t : Int} (ht : mine t = false) : ∃ lo k fin, k ≤ adds as t ∧ (fin = true → posted as t = true ∧ k = adds as t) ∧
    Left S s t lo (adds as t) k fin := by
  obtain ⟨_, done, lo, s0, seen, c, fin, hh⟩ := h.kept g
  exact ⟨lo t, c t, fin t, hh.ghost.le t, fun hf => ⟨(hh.ghost.finPending t hf).1, hh.ghost.finAll hf⟩, hh.left ht⟩

/-- C119, part 3: once all work items have run, all nodes were processed and the trajectories for which `FinishTrajectory` was called are finished. -/
theorem quiet_left (g : Good mine calls) (h : Uses S mine calls as made s) (hq : s.queue = []) (hf : s.inflight = []) {t : Int} (ht : mine t = false) :
    ∃ lo, Left S s t lo (adds as t) (adds as t) (posted as t) := by
  obtain ⟨_, done, lo, s0, seen, c, fin, hh⟩ := h.kept g
  obtain ⟨h1, h2⟩ := hh.ghost.settled (by rw [hh.queue, hq]; rfl) (by rw [hh.inflight, hf]; rfl) t
  have := hh.left ht
  rw [h1, h2] at this
  exact ⟨_, this⟩

/-- C119, part 4: after the trimmers have run, the optimization problem has at most as many submaps of a trajectory as its trimmer is to keep.  If the trajectory was finished, nothing is left of it and it is
deleted. -/
theorem trimmed (g : Good mine calls) (h : Uses S mine calls as made s) {s' : State V} (he : Enabled s (.trim [])) (hx : exec s (.trim []) = some s') {t : Int} {keep : Nat} {d : Bool}
    (ht : Trimmer.pureLocalization t keep d ∈ s.trimmers) : (idsOf s'.optSubmaps t).length ≤ keep ∧
      (isFinished s.trajs t = true → (trajOf s'.trajs t).state = .deleted ∧
        ∀ x, at? s'.submaps (t, x) = none ∧ at? s'.nodes (t, x) = none ∧ at? s'.optSubmaps (t, x) = none ∧ at? s'.optNodes (t, x) = none) := by
  obtain ⟨⟨left, hl⟩, done, lo, s0, seen, c, fin, hh⟩ := h.kept g
  obtain ⟨s2, lo', h2, hk, _, _, hc⟩ := hh.trim (Loading.good_prefix g hl) he rfl
  obtain rfl := Option.some.inj (hx.symm.trans h2)
  obtain ⟨t', keep', e, _, hm⟩ := hh.trimmers _ ht
  simp only [Trimmer.pureLocalization.injEq] at e
  obtain ⟨rfl, rfl, rfl⟩ := e
  obtain ⟨c1, c2⟩ := hc t keep false ht
  refine ⟨?_, fun hf => ?_⟩
  · rw [idsOf_left hk.ghost hk.cuts.optSubmaps hm]
    simp only [idsFrom, List.length_map, List.length_range']
    omega
  · obtain ⟨c3, c4⟩ := c2 hf
    refine ⟨c4, fun x => ?_⟩
    have hlf := hk.left hm
    have hfin := hh.trajs.finished hm hf
    have hall := hk.ghost.finAll hfin
    have hmul : c t ≤ lo' t * S.n t := by
      by_contra hn
      have := (lt_submapCount (n := S.n t) (k := c t) (i := lo' t) (S.pos t)).2 (by omega)
      omega
    have key : ∀ i : Nat, lo' t ≤ i → ¬ i * S.n t < c t := by
      intro i hi hlt
      have := Nat.mul_le_mul_right (S.n t) hi
      omega
    have none_of : ∀ {α : Type} {o : Option α}, ¬ o.isSome → o = none := by
      intro α o ho
      simpa using ho
    refine ⟨none_of ?_, none_of ?_, none_of ?_, none_of ?_⟩
    · rw [hlf.submaps]
      rintro ⟨i, _, h1, h2⟩
      exact key i h1 (by omega)
    · rw [hlf.nodes]
      rintro ⟨j, _, h1, h2⟩
      omega
    · rw [hlf.optSubmaps]
      rintro ⟨i, _, h1, h2⟩
      exact key i h1 h2
    · rw [hlf.optNodes]
      rintro ⟨j, _, h1, h2⟩
      omega

/-! ### Several files -/

theorem ready_mono {m : Int → Bool} (hm : ∀ t, m t = true → mine t = true) {pre : List (Item V)} {l : List (Act V)} (g : Good m l) (hs : ∀ id ∈ pre.flatMap subsOf, m id.1 = false)
    (hn : ∀ id ∈ pre.flatMap nodesOf, m id.1 = false) (hf : ∀ t ∈ pre.flatMap frozenOf, m t = false) (hp : ∀ x ∈ pre.flatMap membersOf, m x.1.1 = false) {before : List (Act V)} {a : Act V}
    {after : List (Act V)} (h : l = before ++ a :: after) : Ready mine (pre ++ before.map itemOf) a := by
  have r := g _ _ _ h
  have gb := Loading.good_prefix g h
  have nodes_own : ∀ id ∈ (before.map itemOf).flatMap nodesOf, m id.1 = true := by
    intro id hid
    obtain ⟨b, _, r'⟩ := Loading.good_mem gb (Loading.nodes_call gb hid)
    exact r'.1
  have not_both : ∀ {t : Int}, m t = true → m t = false → False := by
    intro t h1 h2
    rw [h1] at h2
    cases h2
  cases a with
  | addSubmapFromProto id ptr =>
    refine ⟨hm _ r.1, r.2.1, r.2.2.1, ?_⟩
    rw [List.flatMap_append, List.mem_append]
    rintro (h | h)
    · exact not_both r.1 (hs id h)
    · exact r.2.2.2 h
  | addNodeFromProto id =>
    refine ⟨hm _ r.1, r.2.1, r.2.2.1, ?_⟩
    rw [List.flatMap_append, List.mem_append]
    rintro (h | h)
    · exact not_both r.1 (hn id h)
    · exact r.2.2.2 h
  | post i =>
    cases i with
    | freeze t =>
      refine ⟨hm _ r.1, ?_⟩
      rw [List.flatMap_append, List.mem_append]
      rintro (h | h)
      · exact not_both r.1 (hf t h)
      · exact r.2 h
    | data t => exact hm _ r
    | nodeToSubmap n i =>
      refine ⟨?_, ?_⟩
      · rw [List.flatMap_append]; exact List.mem_append_right _ r.1
      · rw [List.flatMap_append]; exact List.mem_append_right _ r.2
    | serialized cs =>
      refine ⟨fun x hx => ?_, r.2.1, fun x hx => ?_⟩
      · rw [List.flatMap_append, List.flatMap_append]
        exact ⟨List.mem_append_right _ (r.1 x hx).1, List.mem_append_right _ (r.1 x hx).2⟩
      · rw [List.flatMap_append, List.mem_append]
        rintro (h | h)
        · obtain ⟨y, hy, rfl⟩ := List.mem_map.1 hx
          exact not_both (nodes_own _ (r.1 y (List.mem_filter.1 hy).1).1) (hp _ h)
        · exact r.2.2 x hx h
    | _ => exact False.elim r
  | _ => exact False.elim r

/-- **Files loaded one after the other**: their calls have what they need when those of each file have, and the trajectories of the files get different ids (C116). -/
theorem good_files {m1 m2 : Int → Bool} {l1 l2 : List (Act V)} (g1 : Good m1 l1) (g2 : Good m2 l2) (hd : ∀ t, m1 t = true → m2 t = false) : Good (fun t => m1 t || m2 t) (l1 ++ l2) := by
  have own : ∀ {β : Type} {f : Item V → List β} {key : β → Int}, (∀ (before : List (Item V)) (a : Act V) (x : β), Ready m1 before a → x ∈ f (itemOf a) → (∀ id ∈ before.flatMap nodesOf, m1 id.1 = true) →
      m1 (key x) = true) → ∀ x ∈ (l1.map itemOf).flatMap f, m2 (key x) = false := by
    intro β f key hk x hx
    obtain ⟨y, hy, hxy⟩ := List.mem_flatMap.1 hx
    obtain ⟨a, ha, rfl⟩ := List.mem_map.1 hy
    obtain ⟨b, ⟨left, hb⟩, r⟩ := Loading.good_mem g1 ha
    have gb := Loading.good_prefix g1 hb
    refine hd _ (hk _ a x r hxy fun id hid => ?_)
    obtain ⟨b', _, r'⟩ := Loading.good_mem gb (Loading.nodes_call gb hid)
    exact r'.1
  have second : ∀ {before : List (Act V)} {a : Act V} {after : List (Act V)}, l2 = before ++ a :: after → Ready (fun t => m1 t || m2 t) (l1.map itemOf ++ before.map itemOf) a := by
    intro before a after h2
    refine ready_mono (m := m2) (fun t ht => by simp [ht]) g2 ?_ ?_ ?_ ?_ h2
    · refine own (key := fun id : Id => id.1) ?_
      intro b a x r hx _
      cases a with
      | addSubmapFromProto id ptr => simp only [itemOf, subsOf, List.mem_singleton] at hx; subst hx; exact r.1
      | post i => cases i <;> simp [itemOf, subsOf] at hx; exact False.elim r
      | _ => simp [itemOf, subsOf] at hx
    · refine own (key := fun id : Id => id.1) ?_
      intro b a x r hx _
      cases a with
      | addNodeFromProto id => simp only [itemOf, nodesOf, List.mem_singleton] at hx; subst hx; exact r.1
      | post i => cases i <;> simp [itemOf, nodesOf] at hx; exact False.elim r
      | _ => simp [itemOf, nodesOf] at hx
    · refine own (key := fun t : Int => t) ?_
      intro b a x r hx _
      cases a with
      | post i =>
        cases i with
        | freeze t => simp only [itemOf, frozenOf, List.mem_singleton] at hx; subst hx; exact r.1
        | _ => simp [itemOf, frozenOf] at hx
      | _ => simp [itemOf, frozenOf] at hx
    · refine own (key := fun x : Id × Id => x.1.1) ?_
      intro b a x r hx ho
      cases a with
      | post i =>
        cases i with
        | nodeToSubmap n i => simp only [itemOf, membersOf, List.mem_singleton] at hx; subst hx; exact ho _ r.1
        | serialized cs =>
          obtain ⟨y, hy, rfl⟩ := List.mem_map.1 hx
          exact ho _ (r.1 y (List.mem_filter.1 hy).1).1
        | _ => simp [itemOf, membersOf] at hx
      | _ => simp [itemOf, membersOf, pairs] at hx
  intro before a after h
  rcases List.append_eq_append_iff.1 h with ⟨l, h1, h2⟩ | ⟨l, h1, h2⟩
  · rw [h1, List.map_append]
    exact second h2
  · cases l with
    | nil =>
      rw [List.append_nil] at h1
      subst h1
      have := second (before := []) (a := a) (after := after) h2.symm
      rwa [List.map_nil, List.append_nil] at this
    | cons x l =>
      rw [List.cons_append] at h2
      obtain ⟨rfl, h3⟩ := List.cons.inj h2
      have := ready_mono (mine := fun t => m1 t || m2 t) (m := m1) (fun t ht => by simp [ht]) (pre := []) g1 (by simp) (by simp) (by simp) (by simp) h1
      exact this

/-! ### Examples -/

/-- Checks whether a step may be taken (items are queued in order). -/
def may (S : Setup) (mine : Int → Bool) (as : List (Act Unit)) (s : State Unit) : Act Unit → Bool
  | .addNode t ins nf => !mine t && decide (0 ≤ t) && !posted as t && decide (ins = (windowOf (S.n t) (adds as t)).map (S.ptr t)) && decide (nf = fills (S.n t) (adds as t)) && !ins.isEmpty
  | .post (.finish t) => !mine t && !posted as t
  | .post (.addTrimmer (.pureLocalization t keep d)) => !mine t && decide (2 ≤ keep) && !d
  | .enqueue k => decide (k = 0) && !s.inflight.isEmpty
  | .run poses => decide (2 ≤ poses.length) && !s.queue.isEmpty && (match s.worker with
    | .idle => true
    | _ => false)
  | .search _ => (match s.worker with
    | .searching (_ :: _) => true
    | _ => false)
  | .endSearch => (match s.worker with
    | .searching [] => true
    | _ => false)
  | .optimize r => r.isEmpty && (match s.worker with
    | .idle => true
    | _ => false)
  | .trim c => c.isEmpty && (match s.worker with
    | .optimized _ => true
    | _ => false)
  | _ => false

theorem may_ok {as : List (Act Unit)} {s : State Unit} {a : Act Unit} (h : may S mine as s a = true) : Enabled s a ∧ Caller S mine as s a := by
  cases a with
  | addNode t ins nf =>
    simp only [may, Bool.and_eq_true, decide_eq_true_eq, Bool.not_eq_true', List.isEmpty_eq_false_iff] at h
    exact ⟨h.2, h.1.1.1.1.1, h.1.1.1.1.2, h.1.1.1.2, h.1.1.2, h.1.2⟩
  | post x =>
    cases x with
    | finish t =>
      simp only [may, Bool.and_eq_true, Bool.not_eq_true'] at h
      exact ⟨rfl, h⟩
    | addTrimmer tr =>
      cases tr with
      | pureLocalization t keep d =>
        simp only [may, Bool.and_eq_true, Bool.not_eq_true', decide_eq_true_eq] at h
        exact ⟨by simp [Enabled, Item.free, h.1.2, h.2], h.1.1⟩
      | other => simp [may] at h
    | _ => simp [may] at h
  | enqueue k =>
    simp only [may, Bool.and_eq_true, decide_eq_true_eq, Bool.not_eq_true', List.isEmpty_eq_false_iff] at h
    obtain ⟨rfl, h⟩ := h
    exact ⟨List.length_pos_iff.2 h, fun j hj => absurd hj (Nat.not_lt_zero j)⟩
  | run poses =>
    simp only [may, Bool.and_eq_true, decide_eq_true_eq, Bool.not_eq_true', List.isEmpty_eq_false_iff] at h
    refine ⟨⟨?_, h.1.2⟩, h.1.1⟩
    have := h.2
    split at this
    · assumption
    · cases this
  | search how =>
    simp only [may] at h
    refine ⟨?_, trivial⟩
    split at h
    · rename_i p todo hw
      exact ⟨p, todo, hw⟩
    · cases h
  | endSearch =>
    simp only [may] at h
    refine ⟨?_, trivial⟩
    split at h
    · assumption
    · cases h
  | optimize r =>
    simp only [may, Bool.and_eq_true, List.isEmpty_iff] at h
    obtain ⟨rfl, h⟩ := h
    refine ⟨⟨?_, by simp⟩, trivial⟩
    split at h
    · assumption
    · cases h
  | trim c =>
    simp only [may, Bool.and_eq_true, List.isEmpty_iff] at h
    obtain ⟨rfl, h⟩ := h
    refine ⟨?_, rfl⟩
    split at h
    · rename_i r hw
      exact ⟨r, hw⟩
    · cases h
  | _ => simp [may] at h

/-- Runs steps; `none` is the next call of a load. -/
def play (S : Setup) (mine : Int → Bool) (calls : List (Act Unit)) (as made : List (Act Unit)) (s : State Unit) : List (Option (Act Unit)) → Option (List (Act Unit) × List (Act Unit) × State Unit)
  | [] => some (as, made, s)
  | some a :: l => if may S mine as s a then (exec s a).bind (fun s' => play S mine calls (as ++ [a]) made s' l) else none
  | none :: l =>
    match calls.drop made.length with
    | [] => none
    | a :: _ =>
      if s.inflight.all (fun i => !ownItem mine i) then
        (exec s a).bind (fun s' => play S mine calls as (made ++ [a]) s' l)
      else none

theorem play_ok {calls : List (Act Unit)} : ∀ {l : List (Option (Act Unit))} {as made as' made' : List (Act Unit)} {s s' : State Unit}, Uses S mine calls as made s → (∃ left, calls = made ++ left) →
    play S mine calls as made s l = some (as', made', s') → Uses S mine calls as' made' s' := by
  intro l
  induction l with
  | nil =>
    intro as made as' made' s s' h _ e
    simp only [play, Option.some.injEq, Prod.mk.injEq] at e
    obtain ⟨rfl, rfl, rfl⟩ := e
    exact h
  | cons x l ih =>
    intro as made as' made' s s' h hp e
    cases x with
    | some a =>
      simp only [play] at e
      split at e
      · rename_i hm
        rw [Option.bind_eq_some_iff] at e
        obtain ⟨s1, e1, e2⟩ := e
        obtain ⟨h1, h2⟩ := may_ok hm
        exact ih (.act h h1 h2 e1) hp e2
      · cases e
    | none =>
      obtain ⟨left, rfl⟩ := hp
      simp only [play, List.drop_left] at e
      split at e
      · cases e
      · rename_i a left'
        split at e
        · rename_i hc
          rw [Option.bind_eq_some_iff] at e
          obtain ⟨s1, e1, e2⟩ := e
          simp only [List.all_eq_true, Bool.not_eq_true'] at hc
          exact ih (.load h rfl hc e1) ⟨left', by simp⟩ e2
        · cases e

/-- A new submap with every node. -/
def ones : Setup where
  n := fun _ => 1
  ptr := fun t i => 100 * t.toNat + i
  pos := fun _ => by decide
  ne := fun t i => by omega

/-- A frozen map: trajectory 5 with a submap that has a node. -/
def exCalls : List (Act Unit) := [.post (.freeze 5), .addSubmapFromProto (5, 0) 7, .addNodeFromProto (5, 0), .post (.nodeToSubmap (5, 0) (5, 0))]

theorem exCalls_good : Good (fun t => decide (t = 5)) exCalls := by
  have h := @Loading.good_snoc Unit (fun t => decide (t = 5))
  have h0 : Good (fun t => decide (t = 5)) ([] : List (Act Unit)) := Loading.good_nil
  have h1 := h (a := .post (.freeze 5)) h0 ⟨rfl, by simp⟩
  have h2 := h (a := .addSubmapFromProto (5, 0) 7) h1 ⟨rfl, by decide, by decide, by simp [itemOf, subsOf]⟩
  have h3 := h (a := .addNodeFromProto (5, 0)) h2 ⟨rfl, by decide, by decide, by simp [itemOf, nodesOf]⟩
  exact h (a := .post (.nodeToSubmap (5, 0) (5, 0))) h3 ⟨by simp [itemOf, nodesOf], by simp [itemOf, subsOf]⟩

/-- Adding node `k` of trajectory `t` and processing it with `m` searches. -/
def exNode (t : Int) (k m : Nat) : List (Option (Act Unit)) :=
  ([Act.addNode t ((windowOf 1 k).map (ones.ptr t)) (fills 1 k), .enqueue 0, .run [(), ()]] ++ List.replicate m (Act.search .globally) ++ [Act.endSearch]).map some

/-- The map is loaded while the first node is added; four nodes of trajectory 0 are processed and compared with the map, and the trimmer leaves two submaps. -/
def exSteps : List (Option (Act Unit)) :=
  [some (.post (.addTrimmer (.pureLocalization 0 2 false))), some (.enqueue 0), some (.run [(), ()])] ++ [none, some (.enqueue 0), none, some (.enqueue 0)] ++
    [none, some (.enqueue 0), none, some (.enqueue 0)] ++ [some (.run [(), ()]), some (.run [(), ()]), some (.run [(), ()]), some (.run [(), ()])] ++
    exNode 0 0 1 ++ exNode 0 1 2 ++ exNode 0 2 4 ++ exNode 0 3 6 ++ [some (.optimize []), some (.trim [])]

/-- The ids in a map. -/
def idsIn {D : Type} (m : Map D) : List Id := (flat m).map (·.1)

theorem exRun : ∃ as s, Uses ones (fun t => decide (t = 5)) exCalls as exCalls s ∧ s.queue = [] ∧ s.inflight = [] ∧ s.trimmers = [.pureLocalization 0 2 false] ∧
    idsIn s.submaps = [(0, 2), (0, 3), (5, 0)] ∧ idsIn s.nodes = [(0, 2), (0, 3), (5, 0)] := by
  have h : ∃ p, play ones (fun t => decide (t = 5)) exCalls [] [] {} exSteps = some p ∧ p.2.1 = exCalls ∧ p.2.2.queue = [] ∧ p.2.2.inflight = [] ∧ p.2.2.trimmers = [.pureLocalization 0 2 false] ∧
      idsIn p.2.2.submaps = [(0, 2), (0, 3), (5, 0)] ∧ idsIn p.2.2.nodes = [(0, 2), (0, 3), (5, 0)] := ⟨_, rfl, rfl, rfl, rfl, rfl, rfl, rfl⟩
  obtain ⟨⟨as, made, s⟩, h1, h2, h3⟩ := h
  obtain rfl : made = exCalls := h2
  exact ⟨as, s, play_ok .start ⟨exCalls, rfl⟩ h1, h3⟩

/-- Then trajectory 0 is finished, and nothing is left of it. -/
example : ∃ as s, Uses ones (fun t => decide (t = 5)) exCalls as exCalls s ∧ idsIn s.submaps = [(5, 0)] ∧ idsIn s.nodes = [(5, 0)] ∧ s.trimmers = [] ∧ (trajOf s.trajs 0).state = .deleted ∧
    isFrozen s.trajs 5 = true := by
  have h : ∃ p, play ones (fun t => decide (t = 5)) exCalls [] [] {} (exSteps ++ [some (.post (.finish 0)), some (.enqueue 0), some (.run [(), ()]), some (.optimize []), some (.trim [])]) = some p ∧
      p.2.1 = exCalls ∧ idsIn p.2.2.submaps = [(5, 0)] ∧ idsIn p.2.2.nodes = [(5, 0)] ∧ p.2.2.trimmers = [] ∧ (trajOf p.2.2.trajs 0).state = .deleted ∧ isFrozen p.2.2.trajs 5 = true :=
    ⟨_, rfl, rfl, rfl, rfl, rfl, rfl, rfl⟩
  obtain ⟨⟨as, made, s⟩, h1, h2, h3⟩ := h
  obtain rfl : made = exCalls := h2
  exact ⟨as, s, play_ok .start ⟨exCalls, rfl⟩ h1, h3⟩

/-- The theorems apply there. -/
example : ∃ as s, Uses ones (fun t => decide (t = 5)) exCalls as exCalls s ∧ Has (fun t => decide (t = 5)) exCalls s ∧ (∃ lo, Left ones s 0 lo (adds as 0) (adds as 0) (posted as 0)) := by
  obtain ⟨as, s, h, hq, hf, _⟩ := exRun
  refine ⟨as, s, h, map_unchanged exCalls_good h ?_, quiet_left exCalls_good h hq hf rfl⟩
  rw [hq, hf]
  simp

end Verif.Localize
