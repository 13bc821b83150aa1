import Verif.LocalSlamGraphInvariant
import Verif.Props.SlamUpload

/-!
# C56, C57: the pose graph built by local SLAM

C56: whatever the interleaving, no `CHECK` of the pose graph fails, and once all work items have run the pose graph contains
exactly what local SLAM did.

C57: the pairs for which constraints are searched are exactly those of a node and a finished submap it does not belong to;
each pair is searched once.
-/

namespace Verif.PoseGraph

open MapById

variable {V : Type} {S : Setup}

theorem adds_snoc (as : List (Act V)) (a : Act V) (t : Int) : adds (as ++ [a]) t = adds as t + (match a with
    | .addNode u _ _ => if u = t then 1 else 0
    | _ => 0) := by
  unfold adds
  rw [List.countP_append]
  congr 1
  cases a <;> simp [List.countP_cons]

theorem posted_snoc (as : List (Act V)) (a : Act V) (t : Int) : posted (as ++ [a]) t = (posted as t || (match a with
    | .post (.finish u) => decide (u = t)
    | _ => false)) := by
  unfold posted
  rw [List.any_append, List.any_cons, List.any_nil, Bool.or_false]
  congr 1

/-- Every step the callers and the worker can take works, and keeps the invariant. -/
theorem Inv.step {as : List (Act V)} {seen : Seen} {s : State V} {c : Int → Nat} {fin : Int → Bool}
    (hi : Inv S (adds as) (posted as) seen s c fin) (wf : Wf s) {a : Act V} (he : Enabled s a) (hd : Orderly S as s a) :
    ∃ s', exec s a = some s' ∧ ∃ c' fin', Inv S (adds (as ++ [a])) (posted (as ++ [a])) (observe s seen a) s' c' fin' := by
  have hA : (∀ t ins nf, a ≠ .addNode t ins nf) → adds (as ++ [a]) = adds as := by
    intro h
    funext t
    rw [adds_snoc]
    cases a <;> simp_all
  have hP : (∀ t, a ≠ .post (.finish t)) → posted (as ++ [a]) = posted as := by
    intro h
    funext t
    rw [posted_snoc]
    cases a with
    | post x => cases x <;> simp_all
    | _ => simp
  cases a with
  | addNode t ins nf =>
    obtain ⟨h0, h1, rfl, rfl⟩ := hd
    obtain ⟨s', e, hi'⟩ := hi.addNode h0 h1
    refine ⟨s', e, c, fin, ?_⟩
    rw [hP (by simp)]
    have : adds (as ++ [Act.addNode (P := V) t ((windowOf (S.n t) (adds as t)).map (S.ptr t)) (fills (S.n t) (adds as t))]) =
        bump (adds as) t := by
      funext u
      rw [adds_snoc]
      unfold bump
      by_cases hu : u = t
      · subst hu; simp
      · have : ¬ t = u := fun h => hu h.symm
        simp [hu, this]
    rw [this]
    exact hi'
  | addSubmapFromProto id ptr => exact hd.elim
  | addNodeFromProto id => exact hd.elim
  | deleteTrajectory t => exact hd.elim
  | post x =>
    cases x with
    | data t =>
      refine ⟨_, rfl, c, fin, ?_⟩
      rw [hA (by simp), hP (by simp)]
      exact hi.postData hd
    | finish t =>
      refine ⟨_, rfl, c, fin, ?_⟩
      rw [hA (by simp)]
      have : posted (as ++ [Act.post (P := V) (.finish t)]) = fun u => if u = t then true else posted as u := by
        funext u
        rw [posted_snoc]
        by_cases hu : u = t
        · subst hu; simp
        · have : ¬ t = u := fun h => hu h.symm
          simp [hu, this]
      rw [this]
      exact hi.postFinish hd
    | _ => exact hd.elim
  | enqueue k =>
    rw [hA (by simp), hP (by simp)]
    have hk : s.inflight[k]? = some s.inflight[k] := List.getElem?_eq_getElem he
    refine ⟨{ s with
      queue := s.queue ++ [s.inflight[k]]
      inflight := s.inflight.eraseIdx k }, ?_, c, fin, ?_⟩
    · simp only [exec, hk]
    · exact hi.enqueue hk hd
  | run poses =>
    rw [hA (by simp), hP (by simp)]
    obtain ⟨hw, hq⟩ := he
    cases hql : s.queue with
    | nil => exact absurd hql hq
    | cons x l =>
      simp only [exec, hql]
      rcases hi.kinds hql with ⟨-, t, rfl⟩ | ⟨t, rfl, hc⟩ | ⟨t, rfl, h1, h2, h3⟩
      · obtain ⟨h1, h2⟩ := hi.runData hql
        refine ⟨{ s with
          queue := l }, by simp only [runItem, h1, if_true], c, fin, ?_⟩
        simpa only [observe, hql] using h2
      · obtain ⟨s', e, hi'⟩ := hi.runNode wf hql hc hw hd
        refine ⟨s', e, bump c t, fin, ?_⟩
        simpa only [observe, hql, Setup.item] using hi'
      · obtain ⟨s', e, hi'⟩ := hi.runFinish hql h1 h2 h3 poses
        refine ⟨s', e, c, fun u => if u = t then true else fin u, ?_⟩
        simpa only [observe, hql] using hi'
  | search how =>
    rw [hA (by simp), hP (by simp)]
    obtain ⟨p, todo, hw⟩ := he
    obtain ⟨s', e, hi'⟩ := hi.search hw how
    refine ⟨s', ?_, c, fin, ?_⟩
    · simp only [exec, hw]; exact e
    · simpa only [observe, hw] using hi'
  | endSearch =>
    rw [hA (by simp), hP (by simp)]
    exact ⟨_, rfl, c, fin, hi.endSearch he⟩
  | optimize result =>
    rw [hA (by simp), hP (by simp)]
    obtain ⟨s', e, hi'⟩ := hi.optimize wf he.1 he.2
    exact ⟨s', e, c, fin, hi'⟩
  | trim choices =>
    rw [hA (by simp), hP (by simp)]
    obtain ⟨r, hw⟩ := he
    obtain ⟨s', e, hi'⟩ := hi.trim hw choices
    refine ⟨s', ?_, c, fin, hi'⟩
    simp only [exec, hw]; exact e

theorem OExec.inv {as : List (Act V)} {seen : Seen} {s : State V} (h : OExec S as seen s) :
    ∃ c fin, Inv S (adds as) (posted as) seen s c fin := by
  induction h with
  | nil => exact ⟨_, _, Inv.init⟩
  | snoc h he hd hx ih =>
    obtain ⟨c, fin, hi⟩ := ih
    obtain ⟨s', e, c', fin', hi'⟩ := hi.step (exec_integrity h.exec Integrity.init).wf he hd
    rw [hx] at e
    obtain rfl := Option.some.inj e
    exact ⟨c', fin', hi'⟩

/-- C56, part 1: whatever local SLAM, the worker, the constraint builder and the optimization do next, no `CHECK` fails. -/
theorem local_slam_never_aborts {as : List (Act V)} {seen : Seen} {s : State V} (h : OExec S as seen s) {a : Act V}
    (he : Enabled s a) (hd : Orderly S as s a) : ∃ s', exec s a = some s' := by
  obtain ⟨c, fin, hi⟩ := h.inv
  obtain ⟨s', e, -⟩ := hi.step (exec_integrity h.exec Integrity.init).wf he hd
  exact ⟨s', e⟩

/-- The ids 0, …, `k - 1` of a trajectory. -/
def firstIds (t : Int) (k : Nat) : List Id := (List.range k).map (fun i : Nat => (t, (i : Int)))

/-- What the pose graph should contain about a trajectory with `k` nodes, finished or not. -/
structure Complete (S : Setup) (s : State V) (t : Int) (k : Nat) (finished : Bool) : Prop where
  /-- There are `k` nodes, all known to the optimization problem. -/
  nodes : idsOf s.nodes t = firstIds t k ∧ idsOf s.optNodes t = firstIds t k
  /-- A submap was started with every `n`-th node; the optimization problem knows them all. -/
  submaps : idsOf s.submaps t = firstIds t ((k + S.n t - 1) / S.n t) ∧
    idsOf s.optSubmaps t = firstIds t ((k + S.n t - 1) / S.n t)
  /-- They are the submaps of local SLAM, those with `2 * n` nodes are finished (all if the trajectory is). -/
  submap : ∀ i, i * S.n t < k → ∃ sm, at? s.submaps (t, (i : Int)) = some sm ∧ sm.ptr = S.ptr t i ∧
    (sm.finished = true ↔ (i + 2) * S.n t ≤ k ∨ finished = true) ∧ sm.nodeIds.Nodup ∧
    ∀ y, y ∈ sm.nodeIds ↔ ∃ j : Nat, y = (t, (j : Int)) ∧ j < k ∧ i * S.n t ≤ j ∧ j < (i + 2) * S.n t
  /-- A node and a submap are connected by a constraint of local SLAM exactly if the node is in the submap, and by one only. -/
  constraints : (intraOf s t).Nodup ∧ ∀ m y, (m, y) ∈ intraOf s t ↔
    ∃ i j : Nat, m = (t, (i : Int)) ∧ y = (t, (j : Int)) ∧ j < k ∧ i * S.n t ≤ j ∧ j < (i + 2) * S.n t
  /-- The state of the trajectory. -/
  state : isFinished s.trajs t = finished

theorem Inv.settled {as : List (Act V)} {seen : Seen} {s : State V} {c : Int → Nat} {fin : Int → Bool}
    (hi : Inv S (adds as) (posted as) seen s c fin) (hq : s.queue = []) (hf : s.inflight = []) (t : Int) :
    c t = adds as t ∧ fin t = posted as t := by
  have h1 := hi.pending t
  have h2 : PoseGraph.pend s t = [] := by unfold PoseGraph.pend; rw [hq, hf]; rfl
  rw [h2] at h1
  have h3 := congrArg List.length h1
  have h4 := hi.le t
  simp only [List.filter_nil, List.length_nil, List.length_append, List.length_map, List.length_range'] at h3
  refine ⟨by omega, ?_⟩
  cases hp : posted as t with
  | true =>
    cases hfi : fin t with
    | true => rfl
    | false => rw [hp, hfi] at h3; simp at h3
  | false =>
    cases hfi : fin t with
    | false => rfl
    | true => rw [(hi.finPending t hfi).1] at hp; cases hp

theorem links_mem {t : Int} {k : Nat} {m y : Id} : (m, y) ∈ S.links t k ↔
    ∃ i : Nat, m = (t, (i : Int)) ∧ y = (t, (k : Int)) ∧ i * S.n t ≤ k ∧ k < (i + 2) * S.n t := by
  unfold Setup.links
  rw [List.mem_map]
  constructor
  · rintro ⟨i, h1, h2⟩
    obtain ⟨rfl, rfl⟩ := Prod.mk.inj h2
    exact ⟨i, rfl, rfl, (mem_windowOf (S.pos t)).1 h1⟩
  · rintro ⟨i, rfl, rfl, h⟩
    exact ⟨i, (mem_windowOf (S.pos t)).2 h, rfl⟩

theorem allLinks_nodup {t : Int} {k : Nat} : ((List.range k).flatMap (S.links t)).Nodup := by
  induction k with
  | zero => exact List.nodup_nil
  | succ k ih =>
    rw [List.range_succ, List.flatMap_append, List.nodup_append]
    refine ⟨ih, ?_, ?_⟩
    · simp only [List.flatMap_cons, List.flatMap_nil, List.append_nil]
      unfold Setup.links
      refine (List.nodup_map_iff ?_).2 (windowOf_nodup (S.pos t))
      intro a b h
      simpa using h
    · rintro ⟨m, y⟩ h1 ⟨m', y'⟩ h2 he
      obtain ⟨rfl, rfl⟩ := Prod.mk.inj he
      obtain ⟨j, hj, h3⟩ := List.mem_flatMap.1 h1
      simp only [List.flatMap_cons, List.flatMap_nil, List.append_nil] at h2
      obtain ⟨-, -, rfl, -⟩ := links_mem.1 h3
      obtain ⟨-, -, h4, -⟩ := links_mem.1 h2
      rw [List.mem_range] at hj
      simp only [Prod.mk.injEq, true_and] at h4
      omega

/-- C56, part 2: once all work items have run, the pose graph contains exactly what local SLAM did, in whatever order things
happened. -/
theorem local_slam_complete {as : List (Act V)} {seen : Seen} {s : State V} (h : OExec S as seen s) (hq : s.queue = [])
    (hf : s.inflight = []) (t : Int) : Complete S s t (adds as t) (posted as t) := by
  obtain ⟨c, fin, hi⟩ := h.inv
  obtain ⟨h1, h2⟩ := hi.settled hq hf t
  have hs := hi.submaps
  constructor
  · rw [idsOf_dense hi.nodes, idsOf_dense hi.optNodes, List.length_replicate, List.length_replicate, h1]
    exact ⟨rfl, rfl⟩
  · rw [idsOf_dense hi.submaps, idsOf_dense hi.optSubmaps, subs_length, List.length_replicate, h1]
    exact ⟨rfl, rfl⟩
  · intro i hlt
    refine ⟨S.sub t (c t) (c t) (fin t) i, by rw [hs.at_nat, subs_get, if_pos hlt], rfl, ?_, ?_, ?_⟩
    · simp only [Setup.sub, Bool.or_eq_true, decide_eq_true_eq, h1, h2]
    · refine (List.nodup_map_iff ?_).2 (List.nodup_range.sublist List.filter_sublist)
      intro a b h
      simpa using h
    · intro y
      simp only [Setup.sub, nodeIdsOf, List.mem_map, h1]
      constructor
      · rintro ⟨j, h3, rfl⟩
        exact ⟨j, rfl, mem_members.1 h3⟩
      · rintro ⟨j, rfl, h3⟩
        exact ⟨j, mem_members.2 h3, rfl⟩
  · rw [hi.intra t, h1]
    refine ⟨allLinks_nodup, fun m y => ?_⟩
    rw [List.mem_flatMap]
    constructor
    · rintro ⟨j, hj, h3⟩
      obtain ⟨i, e1, e2, e3⟩ := links_mem.1 h3
      exact ⟨i, j, e1, e2, List.mem_range.1 hj, e3⟩
    · rintro ⟨i, j, e1, e2, hj, e3⟩
      exact ⟨j, List.mem_range.2 hj, links_mem.2 ⟨i, e1, e2, e3⟩⟩
  · have h3 := hi.trajs t
    unfold isFinished
    unfold trajOf at h3
    rw [← h2]
    cases hg : SMap.get? t s.trajs with
    | none =>
      rw [hg, Option.getD_none] at h3
      cases hfi : fin t with
      | false => rfl
      | true => rw [hfi] at h3; cases h3
    | some x =>
      rw [hg, Option.getD_some] at h3
      rw [h3]
      cases fin t <;> rfl

/-! ### Searching for constraints -/

/-- C57, part 1: no pair of a node and a submap is searched twice. -/
theorem searched_once {as : List (Act V)} {seen : Seen} {s : State V} (h : OExec S as seen s) : seen.asked.Nodup := by
  obtain ⟨c, fin, hi⟩ := h.inv
  exact (List.nodup_append.1 hi.nodup).1

/-- C57, part 2: at any time, the node of a pair searched is known to the optimization problem, the submap exists, is finished,
and does not contain the node. -/
theorem searched_sound {as : List (Act V)} {seen : Seen} {s : State V} (h : OExec S as seen s) {y m : Id}
    (hm : (y, m) ∈ seen.asked) :
    at? s.optNodes y = some () ∧ ∃ sm, at? s.submaps m = some sm ∧ sm.finished = true ∧ y ∉ sm.nodeIds := by
  obtain ⟨c, fin, hi⟩ := h.inv
  have hw := (hi.asked y m).1 (List.mem_append_left _ hm)
  obtain ⟨⟨sm, h1, h2⟩, -, h3, -⟩ := hi.wanted hw
  refine ⟨h3, sm, h1, h2, ?_⟩
  obtain ⟨j, i, e1, e2, -, -, e5, -⟩ := hw
  obtain ⟨u, yj⟩ := y
  obtain ⟨v, mi⟩ := m
  dsimp only at e1 e2 e5
  subst e1 e2
  rw [hi.submaps.at_nat, subs_get] at h1
  split at h1
  · obtain rfl := Option.some.inj h1
    simp only [Setup.sub, mem_nodeIdsOf, mem_members]
    rintro ⟨rfl, -, h6⟩
    exact e5 ⟨rfl, h6⟩
  · cases h1

/-- C57, part 3: once everything has run, exactly these pairs have been searched: the node is not in the submap, and the submap
was full or its trajectory was finished before the node was processed. -/
theorem searched_exactly {as : List (Act V)} {seen : Seen} {s : State V} (h : OExec S as seen s) (hq : s.queue = [])
    (hf : s.inflight = []) (hw : s.worker = .idle) (u v : Int) (j i : Nat) :
    ((u, (j : Int)), (v, (i : Int))) ∈ seen.asked ↔ j < adds as u ∧ i * S.n v < adds as v ∧
      ¬ (u = v ∧ i * S.n v ≤ j ∧ j < (i + 2) * S.n v) ∧
      ((i + 2) * S.n v ≤ adds as v ∨ posted as v = true ∧ seen.atFinish v u ≤ j) := by
  obtain ⟨c, fin, hi⟩ := h.inv
  have h1 := hi.asked (u, (j : Int)) (v, (i : Int))
  rw [hw] at h1
  simp only [todoOf, List.append_nil] at h1
  rw [h1]
  obtain ⟨hu, -⟩ := hi.settled hq hf u
  obtain ⟨hv, hfv⟩ := hi.settled hq hf v
  unfold Wanted
  constructor
  · rintro ⟨j', i', e1, e2, e3⟩
    dsimp only at e1 e2 e3
    obtain rfl : j = j' := by omega
    obtain rfl : i = i' := by omega
    rw [hu, hv, hfv] at e3
    exact e3
  · intro h2
    refine ⟨j, i, rfl, rfl, ?_⟩
    dsimp only
    rw [hu, hv, hfv]
    exact h2

/-- C57, in particular: every node is searched against every full submap that does not contain it. -/
theorem full_submap_searched {as : List (Act V)} {seen : Seen} {s : State V} (h : OExec S as seen s) (hq : s.queue = [])
    (hf : s.inflight = []) (hw : s.worker = .idle) {u v : Int} {j i : Nat} (hj : j < adds as u) (hi : (i + 2) * S.n v ≤ adds as v)
    (hn : ¬ (u = v ∧ i * S.n v ≤ j ∧ j < (i + 2) * S.n v)) : ((u, (j : Int)), (v, (i : Int))) ∈ seen.asked := by
  rw [searched_exactly h hq hf hw]
  have h2 : (i + 2) * S.n v = i * S.n v + 2 * S.n v := Nat.add_mul _ _ _
  have := S.pos v
  exact ⟨hj, by omega, hn, Or.inl hi⟩

/-- C57, the gap: `FinishTrajectory` makes its last submaps available for searches, but no node of the same trajectory and no node
processed before is ever searched against them. -/
theorem submap_finished_by_call_not_searched {as : List (Act V)} {seen : Seen} {s : State V} (h : OExec S as seen s)
    {u v : Int} {j i : Nat} (hi : adds as v < (i + 2) * S.n v) (hj : j < seen.atFinish v u ∨ u = v) :
    ((u, (j : Int)), (v, (i : Int))) ∉ seen.asked := by
  obtain ⟨c, fin, hinv⟩ := h.inv
  intro hm
  obtain ⟨j', i', e1, e2, e3, -, -, e6⟩ := (hinv.asked _ _).1 (List.mem_append_left _ hm)
  dsimp only at e1 e2 e3 e6
  obtain rfl : j = j' := by omega
  obtain rfl : i = i' := by omega
  have hle := hinv.le v
  rcases e6 with e6 | ⟨e6, e7⟩
  · omega
  · rcases hj with hj | rfl
    · omega
    · rw [hinv.atFinishSelf u e6] at e7
      omega

/-! ### What local SLAM and another server hand over -/

/-- The submaps `ActiveSubmaps` has after range data number `k` are those of the window, and the first of them is finished
exactly if it just became full. -/
theorem active_window {R : Type} {n k : Nat} (hn : 0 < n) {rs : List R} (hk : rs.length = k + 1) :
    (ActiveSubmaps.specState n rs).submaps = (windowOf n k).map (ActiveSubmaps.specSubmap n rs) ∧
      (ActiveSubmaps.specState n rs).submaps.head?.map (·.finished) = some (fills n k) := by
  obtain ⟨q, r, hq, hr, hkq⟩ := split_mul hn k
  have hc : ActiveSubmaps.specCount n (k + 1) = q + 1 := by
    show submapCount n (k + 1) = q + 1
    rw [hkq]; exact submapCount_succ hr
  have hw : (List.range (q + 1)).drop (q + 1 - 2) = windowOf n k := by
    unfold windowOf
    rw [hq]
    by_cases hlt : k < n
    · have : q = 0 := by rw [← hq]; exact Nat.div_eq_of_lt hlt
      subst this
      rw [if_pos hlt]; rfl
    · have : 0 < q := by rw [← hq]; exact Nat.div_pos (by omega) hn
      obtain ⟨p, rfl⟩ : ∃ p, q = p + 1 := ⟨q - 1, by omega⟩
      rw [if_neg hlt, show p + 1 + 1 - 2 = p by omega, List.range_succ, List.range_succ, List.append_assoc,
        List.drop_left' List.length_range]
      rfl
  have h1 : (ActiveSubmaps.specState n rs).submaps = (windowOf n k).map (ActiveSubmaps.specSubmap n rs) := by
    unfold ActiveSubmaps.specState
    rw [hk, hc]
    show List.map _ ((List.range (q + 1)).drop (q + 1 - 2)) = _
    rw [hw]
  refine ⟨h1, ?_⟩
  rw [h1]
  obtain ⟨w0, wl, hwin⟩ : ∃ w0 wl, windowOf n k = w0 :: wl := by
    unfold windowOf; split <;> exact ⟨_, _, rfl⟩
  have hmem : w0 ∈ windowOf n k := by rw [hwin]; simp
  rw [mem_windowOf hn] at hmem
  have hexp : (w0 + 2) * n = w0 * n + 2 * n := Nat.add_mul _ _ _
  rw [hwin, List.map_cons, List.head?_cons, Option.map_some]
  congr 1
  unfold ActiveSubmaps.specSubmap
  rw [Bool.eq_iff_iff, fills_iff hn]
  simp only [List.length_take, List.length_drop, hk, decide_eq_true_eq]
  constructor
  · intro h
    exact ⟨w0, by omega⟩
  · rintro ⟨i, hi⟩
    have := fills_window hn hi
    rw [hwin] at this
    obtain ⟨rfl, -⟩ := List.cons.inj this
    omega

/-- The calls a server makes for the local SLAM results of another one (C54) are those assumed here. -/
theorem expected_window {n count : Nat} (hn : 0 < n) {t : Int} {ps : List Nat} (hps : ps.length = ActiveSubmaps.specCount n count)
    {k : Nat} (hk : k < count) :
    (SlamUpload.expectedCalls t n count ps)[k]? = some ⟨t, (windowOf n k).map (fun i => ps.getD i 0), fills n k⟩ := by
  unfold SlamUpload.expectedCalls
  rw [List.getElem?_map, List.getElem?_range hk, Option.map_some]
  have hlt : k / n < ps.length := by
    rw [hps]
    show k / n < submapCount n count
    rw [lt_submapCount hn]
    exact Nat.lt_of_le_of_lt (Nat.div_mul_le_self k n) hk
  have hw : (ps.take (k / n + 1)).drop (k / n - 1) = (windowOf n k).map (fun i => ps.getD i 0) := by
    apply List.ext_getElem?
    intro i
    rw [List.getElem?_drop, List.getElem?_take, List.getElem?_map]
    unfold windowOf
    by_cases h : k < n
    · rw [if_pos h, Nat.div_eq_of_lt h]
      rw [Nat.div_eq_of_lt h] at hlt
      cases i with
      | zero => simp [List.getElem?_eq_getElem hlt]
      | succ i => simp
    · have hq : 0 < k / n := Nat.div_pos (by omega) hn
      rw [if_neg h]
      generalize k / n = q at hq hlt
      match i with
      | 0 =>
        have : q - 1 < ps.length := by omega
        rw [if_pos (by omega)]
        simp [List.getElem?_eq_getElem this]
      | 1 =>
        have e : q - 1 + 1 = q := by omega
        rw [e, if_pos (by omega)]
        simp [List.getElem?_eq_getElem hlt]
      | i + 2 =>
        rw [if_neg (by omega)]
        simp
  rw [hw]
  rfl

/-! ### Examples -/

/-- Checks whether a step may be taken (items are queued in order). -/
def mayTake (S : Setup) (as : List (Act V)) (s : State V) : Act V → Bool
  | .addNode t ins nf => decide (0 ≤ t) && !posted as t && decide (ins = (windowOf (S.n t) (adds as t)).map (S.ptr t)) &&
      decide (nf = fills (S.n t) (adds as t)) && !ins.isEmpty
  | .post (.data t) => !posted as t
  | .post (.finish t) => !posted as t
  | .enqueue k => decide (k = 0) && !s.inflight.isEmpty
  | .run poses => decide (2 ≤ poses.length) && !s.queue.isEmpty && (match s.worker with
    | .idle => true
    | _ => false)
  | .search _ => (match s.worker with
    | .searching (_ :: _) => true
    | _ => false)
  | .endSearch => (match s.worker with
    | .searching [] => true
    | _ => false)
  | _ => false

theorem mayTake_ok {as : List (Act V)} {s : State V} {a : Act V} (h : mayTake S as s a = true) :
    Enabled s a ∧ Orderly S as s a := by
  cases a with
  | addNode t ins nf =>
    simp only [mayTake, Bool.and_eq_true, decide_eq_true_eq, Bool.not_eq_true', List.isEmpty_eq_false_iff] at h
    exact ⟨h.2, h.1.1.1.1, h.1.1.1.2, h.1.1.2, h.1.2⟩
  | post x =>
    cases x with
    | data t => exact ⟨rfl, by simpa only [mayTake, Orderly, Bool.not_eq_true'] using h⟩
    | finish t => exact ⟨rfl, by simpa only [mayTake, Orderly, Bool.not_eq_true'] using h⟩
    | _ => simp [mayTake] at h
  | enqueue k =>
    simp only [mayTake, Bool.and_eq_true, decide_eq_true_eq, Bool.not_eq_true', List.isEmpty_eq_false_iff] at h
    obtain ⟨rfl, h⟩ := h
    exact ⟨List.length_pos_iff.2 h, fun j hj => absurd hj (Nat.not_lt_zero j)⟩
  | run poses =>
    simp only [mayTake, Bool.and_eq_true, decide_eq_true_eq, Bool.not_eq_true', List.isEmpty_eq_false_iff] at h
    refine ⟨⟨?_, h.1.2⟩, h.1.1⟩
    have := h.2
    split at this
    · assumption
    · cases this
  | search how =>
    simp only [mayTake] at h
    refine ⟨?_, trivial⟩
    split at h
    · rename_i p todo hw
      exact ⟨p, todo, hw⟩
    · cases h
  | endSearch =>
    simp only [mayTake] at h
    refine ⟨?_, trivial⟩
    split at h
    · assumption
    · cases h
  | _ => simp [mayTake] at h

/-- Runs steps after the steps `as`. -/
def script (S : Setup) (as : List (Act V)) (seen : Seen) (s : State V) : List (Act V) → Option (Seen × State V)
  | [] => some (seen, s)
  | a :: l => if mayTake S as s a then (exec s a).bind (fun s' => script S (as ++ [a]) (observe s seen a) s' l) else none

theorem script_ok {l : List (Act V)} : ∀ {as : List (Act V)} {seen seen' : Seen} {s s' : State V}, OExec S as seen s →
    script S as seen s l = some (seen', s') → OExec S (as ++ l) seen' s' := by
  induction l with
  | nil =>
    intro as seen seen' s s' h e
    simp only [script, Option.some.injEq, Prod.mk.injEq] at e
    obtain ⟨rfl, rfl⟩ := e
    rw [List.append_nil]
    exact h
  | cons a l ih =>
    intro as seen seen' s s' h e
    simp only [script] at e
    split at e
    · rename_i hm
      rw [Option.bind_eq_some_iff] at e
      obtain ⟨s1, e1, e2⟩ := e
      obtain ⟨h1, h2⟩ := mayTake_ok hm
      have := ih (OExec.snoc h h1 h2 e1) e2
      rwa [List.append_assoc] at this
    · cases e

/-- Two trajectories that start a submap with every second node. -/
def twos : Setup where
  n := fun _ => 2
  ptr := fun t i => 100 * t.toNat + i
  pos := fun _ => by decide
  ne := fun t i => by omega

/-- Adding node `k` of trajectory `t` and processing it with `m` searches. -/
def fullNode (S : Setup) (t : Int) (k m : Nat) : List (Act Unit) :=
  [.addNode t ((windowOf (S.n t) k).map (S.ptr t)) (fills (S.n t) k), .enqueue 0, .run [(), ()]] ++
    List.replicate m (.search .globally) ++ [.endSearch]

/-- Five nodes of trajectory 0 fill its first submap; the node of trajectory 1 is searched against it when it becomes full,
node 4 afterwards. -/
example : ∃ seen s, OExec twos (fullNode twos 1 0 0 ++ fullNode twos 0 0 0 ++ fullNode twos 0 1 0 ++ fullNode twos 0 2 0 ++
      fullNode twos 0 3 1 ++ fullNode twos 0 4 1) seen s ∧ s.queue = [] ∧ s.inflight = [] ∧ s.worker = .idle ∧
    seen.asked = [((1, 0), (0, 0)), ((0, 4), (0, 0))] ∧
    intraOf s 0 = [((0, 0), (0, 0)), ((0, 0), (0, 1)), ((0, 0), (0, 2)), ((0, 1), (0, 2)), ((0, 0), (0, 3)), ((0, 1), (0, 3)),
      ((0, 1), (0, 4)), ((0, 2), (0, 4))] := by
  have h : ∃ p, script twos [] {} {} (fullNode twos 1 0 0 ++ fullNode twos 0 0 0 ++ fullNode twos 0 1 0 ++ fullNode twos 0 2 0 ++
      fullNode twos 0 3 1 ++ fullNode twos 0 4 1) = some p ∧ p.2.queue = [] ∧ p.2.inflight = [] ∧ p.2.worker = .idle ∧
      p.1.asked = [((1, 0), (0, 0)), ((0, 4), (0, 0))] ∧
      intraOf p.2 0 = [((0, 0), (0, 0)), ((0, 0), (0, 1)), ((0, 0), (0, 2)), ((0, 1), (0, 2)), ((0, 0), (0, 3)), ((0, 1), (0, 3)),
        ((0, 1), (0, 4)), ((0, 2), (0, 4))] := ⟨_, rfl, rfl, rfl, rfl, rfl, rfl⟩
  obtain ⟨⟨seen, s⟩, h1, h2⟩ := h
  exact ⟨seen, s, script_ok (as := []) OExec.nil h1, h2⟩

/-- C57, witness of the gap: trajectory 1 has a node, trajectory 0 is finished after one node.  Its submap is finished, but the
node of trajectory 1 is never compared with it, while a later node is. -/
theorem earlier_node_never_searched : ∃ seen s, OExec twos (fullNode twos 1 0 0 ++ fullNode twos 0 0 0 ++
      [.post (.finish 0), .enqueue 0, .run [(), ()]] ++ fullNode twos 1 1 1) seen s ∧
    s.queue = [] ∧ s.inflight = [] ∧ s.worker = .idle ∧ (at? s.submaps (0, 0)).map (·.finished) = some true ∧
    ((1, 0), (0, 0)) ∉ seen.asked ∧ ((1, 1), (0, 0)) ∈ seen.asked := by
  have h : ∃ p, script twos [] {} {} (fullNode twos 1 0 0 ++ fullNode twos 0 0 0 ++
      [.post (.finish 0), .enqueue 0, .run [(), ()]] ++ fullNode twos 1 1 1) = some p ∧
      p.2.queue = [] ∧ p.2.inflight = [] ∧ p.2.worker = .idle ∧ (at? p.2.submaps (0, 0)).map (·.finished) = some true ∧
      p.1.asked = [((1, 1), (0, 0))] := ⟨_, rfl, rfl, rfl, rfl, rfl, rfl⟩
  obtain ⟨⟨seen, s⟩, h1, h2, h3, h4, h5, h6⟩ := h
  refine ⟨seen, s, script_ok (as := []) OExec.nil h1, h2, h3, h4, h5, ?_, ?_⟩ <;> rw [show seen.asked = _ from h6] <;> decide

end Verif.PoseGraph
