import Verif.LocalSlamGraph

/-! # Lemmas about the pose graph below local SLAM -/

namespace Verif.PoseGraph

open MapById

variable {V : Type}

/-! ### Arithmetic -/

theorem lt_submapCount {n k i : Nat} (hn : 0 < n) : i < submapCount n k ↔ i * n < k := by
  unfold submapCount
  rw [Nat.lt_iff_add_one_le, Nat.le_div_iff_mul_le hn, Nat.add_mul]
  omega

theorem submapCount_eq {n k c : Nat} (hn : 0 < n) (h : ∀ i, i < c ↔ i * n < k) : submapCount n k = c := by
  have h1 := @lt_submapCount n k
  rcases Nat.lt_trichotomy (submapCount n k) c with h2 | h2 | h2
  · exact absurd ((h1 hn).2 ((h _).1 h2)) (Nat.lt_irrefl _)
  · exact h2
  · exact absurd ((h _).2 ((h1 hn).1 h2)) (Nat.lt_irrefl _)

/-- Range data number `k` in terms of full groups. -/
theorem split_mul {n : Nat} (hn : 0 < n) (k : Nat) : ∃ q r, k / n = q ∧ r < n ∧ k = q * n + r :=
  ⟨k / n, k % n, rfl, Nat.mod_lt _ hn, by rw [Nat.mul_comm]; exact (Nat.div_add_mod k n).symm⟩

theorem mul_lt_split {n q r i : Nat} (hr : r < n) : i * n ≤ q * n + r ↔ i ≤ q := by
  constructor
  · intro h
    by_contra hc
    have h1 : (q + 1) * n ≤ i * n := Nat.mul_le_mul_right _ (by omega)
    rw [Nat.add_mul] at h1
    omega
  · intro h
    have h1 : i * n ≤ q * n := Nat.mul_le_mul_right _ h
    omega

theorem submapCount_succ {n q r : Nat} (hr : r < n) : submapCount n (q * n + r + 1) = q + 1 := by
  apply submapCount_eq (by omega)
  intro i
  have := mul_lt_split (n := n) (q := q) (r := r) (i := i) hr
  omega

theorem submapCount_zero {n q : Nat} (hn : 0 < n) : submapCount n (q * n) = q := by
  apply submapCount_eq hn
  intro i
  constructor
  · intro h; exact Nat.mul_lt_mul_of_pos_right h hn
  · intro h; exact Nat.lt_of_mul_lt_mul_right h

theorem mem_windowOf {n k i : Nat} (hn : 0 < n) : i ∈ windowOf n k ↔ i * n ≤ k ∧ k < (i + 2) * n := by
  obtain ⟨q, r, hq, hr, hk⟩ := split_mul hn k
  have h1 := mul_lt_split (n := n) (q := q) (r := r) (i := i) hr
  have h2 := mul_lt_split (n := n) (q := q) (r := r) (i := i + 2) hr
  rw [← hk] at h1 h2
  unfold windowOf
  rw [hq]
  have h3 : k < n ↔ q = 0 := by
    have := mul_lt_split (n := n) (q := q) (r := r) (i := 1) hr
    rw [← hk] at this
    omega
  split
  · simp only [List.mem_singleton]
    omega
  · simp only [List.mem_cons, List.not_mem_nil, or_false]
    omega

theorem fills_iff {n k : Nat} (hn : 0 < n) : fills n k = true ↔ ∃ i, (i + 2) * n = k + 1 := by
  unfold fills
  rw [decide_eq_true_iff]
  constructor
  · rintro ⟨⟨m, hm⟩, h2⟩
    have : 2 ≤ m := by
      by_contra hc
      have : n * m ≤ n * 1 := Nat.mul_le_mul_left _ (by omega)
      omega
    refine ⟨m - 2, ?_⟩
    rw [hm, Nat.mul_comm]
    congr 1
    omega
  · rintro ⟨i, hi⟩
    rw [← hi]
    refine ⟨Nat.dvd_mul_left _ _, ?_⟩
    exact Nat.mul_le_mul_right _ (by omega)

/-- The first submap of the window is the one that becomes full. -/
theorem fills_window {n k i : Nat} (hn : 0 < n) (h : (i + 2) * n = k + 1) : windowOf n k = [i, i + 1] := by
  have h1 : k = (i + 1) * n + (n - 1) := by
    have : (i + 2) * n = (i + 1) * n + n := by rw [Nat.add_mul, Nat.add_mul]; omega
    omega
  have h2 : k / n = i + 1 := by
    rw [h1, Nat.add_comm, Nat.add_mul_div_right _ _ hn, Nat.div_eq_of_lt (by omega)]
    omega
  unfold windowOf
  rw [h2, if_neg]
  · rfl
  · intro h3
    rw [Nat.div_eq_of_lt h3] at h2
    omega

/-! ### What the maps contain -/

/-- The nodes of submap `i` among the first `c` ones. -/
def members (n c i : Nat) : List Nat := (List.range c).filter (fun j => decide (i * n ≤ j) && decide (j < (i + 2) * n))

theorem mem_members {n c i j : Nat} : j ∈ members n c i ↔ j < c ∧ i * n ≤ j ∧ j < (i + 2) * n := by
  simp [members]

theorem members_succ {n c i : Nat} :
    members n (c + 1) i = if i * n ≤ c ∧ c < (i + 2) * n then members n c i ++ [c] else members n c i := by
  unfold members
  rw [List.range_succ, List.filter_append]
  split
  · rename_i h
    simp [h.1, h.2]
  · rename_i h
    have : (decide (i * n ≤ c) && decide (c < (i + 2) * n)) = false := by
      simp only [Bool.and_eq_false_iff, decide_eq_false_iff_not]
      omega
    simp [this]

/-- The node ids of trajectory `t`. -/
def nodeIdsOf (t : Int) (l : List Nat) : List Id := l.map (fun j : Nat => (t, (j : Int)))

theorem mem_nodeIdsOf {t : Int} {l : List Nat} {u : Int} {j : Nat} : ((u, (j : Int)) : Id) ∈ nodeIdsOf t l ↔ u = t ∧ j ∈ l := by
  unfold nodeIdsOf
  rw [List.mem_map]
  constructor
  · rintro ⟨i, hi, h⟩
    simp only [Prod.mk.injEq, Nat.cast_inj] at h
    exact ⟨h.1.symm, by rw [← h.2]; exact hi⟩
  · rintro ⟨rfl, h⟩
    exact ⟨j, h, rfl⟩

/-- Submap `i` of trajectory `t` when the first `cn` nodes belong to their submaps and those full after `cf` nodes are finished. -/
def Setup.sub (S : Setup) (t : Int) (cf cn : Nat) (fin : Bool) (i : Nat) : Submap where
  ptr := S.ptr t i
  finished := decide ((i + 2) * S.n t ≤ cf) || fin
  nodeIds := nodeIdsOf t (members (S.n t) cn i)

/-- The submaps of trajectory `t` after `a` nodes were added. -/
def Setup.subs (S : Setup) (t : Int) (a cf cn : Nat) (fin : Bool) : List Submap :=
  (List.range (submapCount (S.n t) a)).map (S.sub t cf cn fin)

theorem subs_length {S : Setup} {t : Int} {a cf cn : Nat} {fin : Bool} :
    (S.subs t a cf cn fin).length = submapCount (S.n t) a := by simp [Setup.subs]

theorem subs_get {S : Setup} {t : Int} {a cf cn : Nat} {fin : Bool} {i : Nat} :
    (S.subs t a cf cn fin)[i]? = if i * S.n t < a then some (S.sub t cf cn fin i) else none := by
  unfold Setup.subs
  have := lt_submapCount (n := S.n t) (k := a) (i := i) (S.pos t)
  rw [List.getElem?_map]
  by_cases h : i * S.n t < a
  · rw [if_pos h, List.getElem?_range (this.2 h)]; rfl
  · rw [if_neg h, List.getElem?_eq_none]
    · rfl
    · rw [List.length_range]; omega

theorem replicate_get {a j : Nat} : (List.replicate a ())[j]? = if j < a then some () else none := by
  rw [List.getElem?_replicate]

/-! ### `AddNode` -/

theorem trajOf_put {l : List (Int × TrajState)} {t u : Int} : trajOf (SMap.put t (trajOf l t) l) u = trajOf l u := by
  unfold trajOf
  rw [SMap.get?_put]
  split
  · rename_i h; subst h; rfl
  · rfl

theorem canModify_default {l : List (Int × TrajState)} {t : Int} (h : trajOf l t = {}) : canModify l t = true := by
  unfold canModify
  unfold trajOf at h
  cases h1 : SMap.get? t l with
  | none => rfl
  | some x =>
    rw [h1] at h
    simp only [Option.getD_some] at h
    subst h
    rfl

theorem sub_new {S : Setup} {t : Int} {c q : Nat} (h : c ≤ q * S.n t) :
    S.sub t c c false q = { ptr := S.ptr t q } := by
  have hn := S.pos t
  have h2 : (q + 2) * S.n t = q * S.n t + 2 * S.n t := Nat.add_mul _ _ _
  have h1 : members (S.n t) c q = [] := by
    rw [List.eq_nil_iff_forall_not_mem]
    intro j hj
    rw [mem_members] at hj
    omega
  unfold Setup.sub
  rw [h1]
  simp only [nodeIdsOf, List.map_nil, Bool.or_false, Submap.mk.injEq, decide_eq_false_iff_not, and_true, true_and]
  omega

theorem dense_update {D : Type} {m : Map D} {f g : Int → List D} {t : Int} {l : List D} (h : Dense m (Function.update f t l))
    (ht : g t = l) (hg : ∀ u, u ≠ t → g u = f u) : Dense m g := by
  refine dense_congr h ?_
  intro u
  by_cases hu : u = t
  · subst hu; rw [Function.update_self, ht]
  · rw [Function.update_of_ne hu, hg u hu]

theorem windowOf_getLast {n k : Nat} : (windowOf n k).getLast? = some (k / n) := by
  unfold windowOf
  split
  · rename_i h; rw [Nat.div_eq_of_lt h]; rfl
  · rfl

theorem appendNode_ok {S : Setup} {s : State V} {t : Int} {A c : Int → Nat} {fin : Int → Bool} (h0 : 0 ≤ t)
    (hn : Dense s.nodes (fun u => List.replicate (A u) ()))
    (hs : Dense s.submaps (fun u => S.subs u (A u) (c u) (c u) (fin u)))
    (htr : trajOf s.trajs t = {}) (hc : c t ≤ A t) (hf : fin t = false) :
    ∃ trajs nodes submaps, appendNode s t ((windowOf (S.n t) (A t)).map (S.ptr t)) = some ({ s with
        trajs := trajs
        nodes := nodes
        submaps := submaps }, (t, (A t : Int))) ∧
      (∀ u, trajOf trajs u = trajOf s.trajs u) ∧
      Dense nodes (fun u => List.replicate (if u = t then A u + 1 else A u) ()) ∧
      Dense submaps (fun u => S.subs u (if u = t then A u + 1 else A u) (c u) (c u) (fin u)) := by
  have hp := S.pos t
  obtain ⟨q, r, hq, hr, hk⟩ := split_mul hp (A t)
  obtain ⟨nodes, hn1, hn2⟩ := hn.append h0 ()
  have hadd : addTrajectoryIfNeeded s.trajs t = some (SMap.put t (trajOf s.trajs t) s.trajs) := by
    unfold addTrajectoryIfNeeded
    simp only [htr]
    rfl
  have hcan : canModify (SMap.put t (trajOf s.trajs t) s.trajs) t = true := canModify_default (by rw [trajOf_put]; exact htr)
  have hback : ((windowOf (S.n t) (A t)).map (S.ptr t)).getLast? = some (S.ptr t q) := by
    rw [List.getLast?_map, windowOf_getLast, hq]; rfl
  have hnodes : Dense nodes (fun u => List.replicate (if u = t then A u + 1 else A u) ()) := by
    refine dense_update hn2 ?_ (fun u hu => by simp [hu])
    simp [List.replicate_succ']
  have hlen := hs.size t
  rw [subs_length] at hlen
  have hc1 : submapCount (S.n t) (A t + 1) = q + 1 := by rw [hk]; exact submapCount_succ hr
  by_cases hnew : sizeOfTrajectoryOrZero s.submaps t = 0 ∨ (lastId s.submaps t).bind (ptrAt s.submaps) ≠ some (S.ptr t q)
  · have hr0 : submapCount (S.n t) (A t) = q := by
      by_cases hr0 : r = 0
      · rw [hk, hr0]; exact submapCount_zero hp
      · exfalso
        have e1 : submapCount (S.n t) (A t) = q + 1 := by
          obtain ⟨r', rfl⟩ : ∃ r', r = r' + 1 := ⟨r - 1, by omega⟩
          rw [hk]
          exact submapCount_succ (by omega)
        rcases hnew with h | h
        · omega
        · rw [lastId_dense hs (k := q) (by rw [subs_length, e1])] at h
          apply h
          simp only [Option.bind_some, ptrAt]
          rw [hs.at_nat, subs_get, if_pos]
          · rfl
          · exact (lt_submapCount hp).1 (by omega)
    have hqA : q * S.n t = A t := by
      have h1 := lt_submapCount (k := A t) (i := q) hp
      omega
    obtain ⟨submaps, hs1, hs2⟩ := hs.append h0 { ptr := S.ptr t q }
    refine ⟨SMap.put t (trajOf s.trajs t) s.trajs, nodes, submaps, ?_, fun u => trajOf_put, hnodes, ?_⟩
    · unfold appendNode
      simp only [hadd, hcan, hn1, hback, Option.bind_eq_bind, Option.bind_some, guard, if_true, Option.pure_def]
      rw [if_pos hnew, hs1]
      simp
    · refine dense_update hs2 ?_ (fun u hu => by simp [hu])
      simp only [if_true]
      unfold Setup.subs
      rw [hc1, hr0, List.range_succ, List.map_append, List.map_singleton, hf, sub_new (by omega)]
  · refine ⟨SMap.put t (trajOf s.trajs t) s.trajs, nodes, s.submaps, ?_, fun u => trajOf_put, hnodes, ?_⟩
    · unfold appendNode
      simp only [hadd, hcan, hn1, hback, Option.bind_eq_bind, Option.bind_some, guard, if_true, Option.pure_def]
      rw [if_neg hnew]
      simp
    · refine dense_congr hs ?_
      intro u
      by_cases hu : u = t
      · subst hu
        simp only [if_true]
        unfold Setup.subs
        congr 2
        rw [hc1]
        have hr0 : r ≠ 0 := by
          intro hr0
          have e1 : submapCount (S.n u) (A u) = q := by rw [hk, hr0]; exact submapCount_zero hp
          apply hnew
          by_cases hq0 : q = 0
          · left; omega
          · right
            obtain ⟨p, rfl⟩ : ∃ p, q = p + 1 := ⟨q - 1, by omega⟩
            rw [lastId_dense hs (k := p) (by rw [subs_length, e1])]
            simp only [Option.bind_some, ptrAt]
            rw [hs.at_nat, subs_get, if_pos ((lt_submapCount hp).1 (by omega))]
            simp only [Option.map_some, Setup.sub, ne_eq, Option.some.injEq]
            exact S.ne u p
        obtain ⟨r', rfl⟩ : ∃ r', r = r' + 1 := ⟨r - 1, by omega⟩
        rw [hk]
        exact submapCount_succ (by omega)
      · simp [hu]

/-! ### `ComputeConstraintsForNode` -/

theorem ptrAt_subs {S : Setup} {m : Map Submap} {A cf cn : Int → Nat} {fin : Int → Bool}
    (hs : Dense m (fun u => S.subs u (A u) (cf u) (cn u) (fin u))) {t : Int} {i : Nat} (hi : i * S.n t < A t) :
    ptrAt m (t, (i : Int)) = some (S.ptr t i) := by
  unfold ptrAt
  rw [hs.at_nat, subs_get, if_pos hi]
  rfl

theorem init_ok {S : Setup} {s : State V} {t : Int} {A c : Int → Nat} {fin : Int → Bool} (h0 : 0 ≤ t) (hk : c t < A t)
    (hs : Dense s.submaps (fun u => S.subs u (A u) (c u) (c u) (fin u)))
    (ho : Dense s.optSubmaps (fun u => List.replicate (submapCount (S.n u) (c u)) ())) :
    ∃ opt, initializeGlobalSubmapPoses s t ((windowOf (S.n t) (c t)).map (S.ptr t)) =
        some (opt, nodeIdsOf t (windowOf (S.n t) (c t))) ∧
      Dense opt (fun u => List.replicate (submapCount (S.n u) (if u = t then c u + 1 else c u)) ()) := by
  have hp := S.pos t
  obtain ⟨q, r, hq, hr, hkq⟩ := split_mul hp (c t)
  have hc1 : submapCount (S.n t) (c t + 1) = q + 1 := by rw [hkq]; exact submapCount_succ hr
  have hsz := ho.size t
  rw [List.length_replicate] at hsz
  have hc0 : submapCount (S.n t) (c t) = if r = 0 then q else q + 1 := by
    split
    · rename_i h; rw [hkq, h]; exact submapCount_zero hp
    · obtain ⟨r', rfl⟩ : ∃ r', r = r' + 1 := ⟨r - 1, by omega⟩
      rw [hkq]; exact submapCount_succ (by omega)
  have hqA : q * S.n t < A t := by omega
  have hkeep : submapCount (S.n t) (c t) = q + 1 →
      Dense s.optSubmaps (fun u => List.replicate (submapCount (S.n u) (if u = t then c u + 1 else c u)) ()) := by
    intro h
    refine dense_congr ho ?_
    intro u
    by_cases hu : u = t
    · subst hu; rw [if_pos rfl, hc1, h]
    · rw [if_neg hu]
  obtain ⟨opt, ho1, ho2⟩ := ho.append h0 ()
  have hgrow : submapCount (S.n t) (c t) = q →
      Dense opt (fun u => List.replicate (submapCount (S.n u) (if u = t then c u + 1 else c u)) ()) := by
    intro h
    refine dense_update ho2 ?_ (fun u hu => by simp [hu])
    rw [if_pos rfl, hc1, h, List.replicate_succ']
  rw [List.length_replicate] at ho1
  by_cases hlt : c t < S.n t
  · have hq0 : q = 0 := by rw [← hq]; exact Nat.div_eq_of_lt hlt
    have hw : windowOf (S.n t) (c t) = [0] := by unfold windowOf; rw [if_pos hlt]
    have hptr := ptrAt_subs hs (t := t) (i := 0) (by omega)
    rw [hw]
    simp only [List.map_singleton, nodeIdsOf, initializeGlobalSubmapPoses]
    by_cases hr0 : r = 0
    · rw [if_pos hr0] at hc0
      refine ⟨opt, ?_, hgrow hc0⟩
      have h1 : addFirstSubmap s.optSubmaps t = some opt := by
        unfold addFirstSubmap
        rw [if_pos (by omega), ho1]; rfl
      have h2 : sizeOfTrajectoryOrZero opt t = 1 := by
        rw [(hgrow hc0).size t]; simp [hc1, hq0]
      simp only [h1, Option.bind_eq_bind, Option.bind_some, h2, guard, if_true, Option.pure_def]
      rw [show ((0 : Nat) : Int) = 0 from rfl] at hptr
      rw [hptr]
      simp
    · rw [if_neg hr0] at hc0
      refine ⟨s.optSubmaps, ?_, hkeep hc0⟩
      have h1 : addFirstSubmap s.optSubmaps t = some s.optSubmaps := by
        unfold addFirstSubmap
        rw [if_neg (by omega)]
      have h2 : sizeOfTrajectoryOrZero s.optSubmaps t = 1 := by omega
      simp only [h1, Option.bind_eq_bind, Option.bind_some, h2, guard, if_true, Option.pure_def]
      rw [show ((0 : Nat) : Int) = 0 from rfl] at hptr
      rw [hptr]
      simp
  · have hq1 : 1 ≤ q := by rw [← hq]; exact Nat.div_pos (by omega) hp
    obtain ⟨p, rfl⟩ : ∃ p, q = p + 1 := ⟨q - 1, by omega⟩
    have hw : windowOf (S.n t) (c t) = [p, p + 1] := by unfold windowOf; rw [if_neg hlt, hq]; rfl
    have hpA : p * S.n t < A t := by
      have : (p + 1) * S.n t = p * S.n t + 1 * S.n t := Nat.add_mul _ _ _
      omega
    have hp0 := ptrAt_subs hs (t := t) (i := p) hpA
    have hp1 := ptrAt_subs hs (t := t) (i := p + 1) hqA
    rw [hw]
    simp only [List.map_cons, List.map_nil, nodeIdsOf, initializeGlobalSubmapPoses]
    by_cases hr0 : r = 0
    · rw [if_pos hr0] at hc0
      refine ⟨opt, ?_, hgrow hc0⟩
      rw [lastId_dense ho (k := p) (by rw [List.length_replicate, hc0])]
      simp only [Option.bind_eq_bind, Option.bind_some, hp0, if_true, ho1]
      push_cast
      rfl
    · rw [if_neg hr0] at hc0
      refine ⟨s.optSubmaps, ?_, hkeep hc0⟩
      rw [lastId_dense ho (k := p + 1) (by rw [List.length_replicate, hc0])]
      simp only [Option.bind_eq_bind, Option.bind_some, hp1]
      rw [if_neg (Ne.symm (S.ne t p))]
      have he : ((p + 1 : Nat) : Int) - 1 = (p : Int) := by push_cast; omega
      rw [he, hp0]
      simp [guard]

theorem insertIntras_ok {t : Int} {node : Id} {is : List Nat} : ∀ {s : State V} {f : Int → List Submap} {poses : List V},
    WF s.submaps → Dense s.submaps f → is.Nodup → is.length ≤ poses.length →
    (∀ i ∈ is, ∃ sm, (f t)[i]? = some sm ∧ sm.finished = false ∧ node ∉ sm.nodeIds) →
    ∃ submaps cs, insertIntras s node (nodeIdsOf t is) poses = some { s with
        submaps := submaps
        constraints := s.constraints ++ cs } ∧ WF submaps ∧
      Dense submaps (Function.update f t ((f t).mapIdx (fun i sm =>
        if i ∈ is then { sm with nodeIds := sm.nodeIds ++ [node] } else sm))) ∧
      cs.map (fun x => (x.submap, x.node, x.intra)) = is.map (fun i : Nat => (((t, (i : Int)) : Id), node, true)) := by
  induction is with
  | nil =>
    intro s f poses hw hd _ _ _
    refine ⟨s.submaps, [], by simp [insertIntras, nodeIdsOf], hw, ?_, rfl⟩
    refine dense_congr hd ?_
    intro u
    by_cases hu : u = t
    · subst hu
      rw [Function.update_self]
      apply List.ext_getElem?
      intro i
      simp
    · rw [Function.update_of_ne hu]
  | cons i is ih =>
    intro s f poses hw hd hnd hlen hall
    cases poses with
    | nil => simp at hlen
    | cons pose poses =>
      obtain ⟨sm, e1, e2, e3⟩ := hall i (by simp)
      have hil : i < (f t).length := by
        by_contra hc
        rw [List.getElem?_eq_none (by omega)] at e1
        cases e1
      obtain ⟨m1, a1, a2⟩ := hd.assign hil { sm with nodeIds := sm.nodeIds ++ [node] }
      obtain ⟨w1, -, -⟩ := MapById.assign_spec hw a1
      have hint : insertIntra s node (t, (i : Int)) pose = some { s with
          submaps := m1
          constraints := s.constraints ++ [⟨(t, (i : Int)), node, pose, true⟩] } := by
        unfold insertIntra
        have hat : at? s.submaps (t, (i : Int)) = some sm := by rw [hd.at_nat, e1]
        have hset : setInsert node sm.nodeIds = sm.nodeIds ++ [node] := by unfold setInsert; rw [if_neg e3]
        have hg : (guard (sm.finished = false) : Option Unit) = some () := guard_some.2 e2
        simp only [hat, Option.bind_eq_bind, Option.bind_some, hg, hset, a1]
      rw [List.nodup_cons] at hnd
      obtain ⟨m2, cs, b1, b2, b3, b4⟩ := ih (s := { s with
          submaps := m1
          constraints := s.constraints ++ [⟨(t, (i : Int)), node, pose, true⟩] }) (poses := poses) w1 a2 hnd.2
          (by simpa using hlen) (by
            intro i' hi'
            have hne : i ≠ i' := fun h => hnd.1 (h ▸ hi')
            obtain ⟨sm', g1, g2, g3⟩ := hall i' (by simp [hi'])
            exact ⟨sm', by rw [Function.update_self, List.getElem?_set_ne hne]; exact g1, g2, g3⟩)
      refine ⟨m2, ⟨(t, (i : Int)), node, pose, true⟩ :: cs, ?_, b2, ?_, ?_⟩
      · unfold nodeIdsOf at b1 ⊢
        rw [List.map_cons, insertIntras, hint]
        simp only [Option.bind_eq_bind, Option.bind_some, b1]
        simp
      · refine dense_update b3 ?_ (fun u hu => by rw [Function.update_of_ne hu, Function.update_of_ne hu])
        rw [Function.update_self, Function.update_self]
        apply List.ext_getElem?
        intro i'
        rw [List.getElem?_mapIdx, List.getElem?_mapIdx]
        by_cases hii : i = i'
        · subst hii
          rw [List.getElem?_set_self hil, e1]
          simp [hnd.1]
        · rw [List.getElem?_set_ne hii]
          have : (i' ∈ i :: is) ↔ i' ∈ is := by
            simp only [List.mem_cons]
            constructor
            · rintro (h | h)
              · exact absurd h.symm hii
              · exact h
            · exact Or.inr
          simp only [this]
      · rw [List.map_cons, List.map_cons, b4]

/-- The submap `m` exists and is finished. -/
def FinishedAt (s : State V) (m : Id) : Prop := ∃ sm, at? s.submaps m = some sm ∧ sm.finished = true

theorem flat_ids_nodup' {D : Type} {m : Map D} (hm : WF m) : ((flat m).map (·.1)).Nodup := by
  rw [List.Nodup, List.pairwise_map]
  refine (MapById.flat_sorted hm).imp ?_
  intro a b h e
  rw [e] at h
  simp [MapById.idLt] at h

theorem mem_finishedIds {m : Map Submap} (hm : WF m) {id : Id} :
    id ∈ finishedIds m ↔ ∃ sm, at? m id = some sm ∧ sm.finished = true := by
  unfold finishedIds
  rw [List.mem_map]
  constructor
  · rintro ⟨e, he, rfl⟩
    rw [List.mem_filter] at he
    exact ⟨e.2, (MapById.at?_iff_mem hm).2 he.1, he.2⟩
  · rintro ⟨sm, h1, h2⟩
    exact ⟨(id, sm), List.mem_filter.2 ⟨(MapById.at?_iff_mem hm).1 h1, h2⟩, rfl⟩

theorem finishedIds_nodup {m : Map Submap} (hm : WF m) : (finishedIds m).Nodup :=
  (flat_ids_nodup' hm).sublist (List.filter_sublist.map _)

theorem mem_ids_dense {m : Map Unit} (hm : WF m) {c : Int → Nat} (hd : Dense m (fun u => List.replicate (c u) ())) {y : Id} :
    y ∈ (flat m).map (·.1) ↔ ∃ j : Nat, y.2 = j ∧ j < c y.1 := by
  rw [List.mem_map]
  constructor
  · rintro ⟨e, he, rfl⟩
    obtain ⟨j, h1, h2⟩ := hd.at_some ((MapById.at?_iff_mem hm).2 he)
    rw [replicate_get] at h2
    split at h2
    · rename_i h; exact ⟨j, h1, h⟩
    · cases h2
  · rintro ⟨j, h1, h2⟩
    refine ⟨(y, ()), (MapById.at?_iff_mem hm).1 ?_, rfl⟩
    obtain ⟨u, i⟩ := y
    dsimp only at h1 h2
    subst h1
    rw [hd.at_nat, replicate_get, if_pos h2]

theorem windowOf_nodup {n k : Nat} (hn : 0 < n) : (windowOf n k).Nodup := by
  unfold windowOf
  split
  · simp
  · rename_i h
    have : 0 < k / n := Nat.div_pos (by omega) hn
    simp
    omega

theorem windowOf_length {n k : Nat} : (windowOf n k).length ≤ 2 := by
  unfold windowOf
  split <;> simp

/-- One more node of trajectory `t`. -/
def bump (c : Int → Nat) (t : Int) : Int → Nat := fun u => if u = t then c u + 1 else c u

theorem bump_self {c : Int → Nat} {t : Int} : bump c t t = c t + 1 := by simp [bump]

theorem bump_ne {c : Int → Nat} {t u : Int} (h : u ≠ t) : bump c t u = c u := by simp [bump, h]

set_option maxHeartbeats 1000000 in
theorem computeConstraints_ok {S : Setup} {s : State V} {t : Int} {A c : Int → Nat} {fin : Int → Bool} {poses : List V}
    (h0 : 0 ≤ t) (hk : c t < A t) (hf : fin t = false) (wf : Wf s) (hp2 : 2 ≤ poses.length)
    (hn : Dense s.nodes (fun u => List.replicate (A u) ()))
    (hs : Dense s.submaps (fun u => S.subs u (A u) (c u) (c u) (fin u)))
    (hon : Dense s.optNodes (fun u => List.replicate (c u) ()))
    (ho : Dense s.optSubmaps (fun u => List.replicate (submapCount (S.n u) (c u)) ())) :
    ∃ submaps optNodes optSubmaps cs todo,
      computeConstraints s (t, (c t : Int)) ((windowOf (S.n t) (c t)).map (S.ptr t)) (fills (S.n t) (c t)) poses = some { s with
        submaps := submaps
        optNodes := optNodes
        optSubmaps := optSubmaps
        constraints := s.constraints ++ cs
        worker := .searching todo } ∧
      Dense submaps (fun u => S.subs u (A u) (bump c t u) (bump c t u) (fin u)) ∧
      Dense optNodes (fun u => List.replicate (bump c t u) ()) ∧
      Dense optSubmaps (fun u => List.replicate (submapCount (S.n u) (bump c t u)) ()) ∧
      cs.map (fun x => (x.submap, x.node, x.intra)) =
        (windowOf (S.n t) (c t)).map (fun i : Nat => (((t, (i : Int)) : Id), ((t, (c t : Int)) : Id), true)) ∧
      todo.Nodup ∧
      (∀ y m, (y, m) ∈ todo ↔ (y = (t, (c t : Int)) ∧ FinishedAt s m) ∨
        ∃ (i j : Nat) (u : Int), m = (t, (i : Int)) ∧ (i + 2) * S.n t = c t + 1 ∧ y = (u, (j : Int)) ∧ j < bump c t u ∧
          ¬ (u = t ∧ i * S.n t ≤ j)) := by
  have hp := S.pos t
  obtain ⟨opt, i1, i2⟩ := init_ok h0 hk hs ho
  obtain ⟨optNodes, n1, n2⟩ := hon.append h0 ()
  have wn := (MapById.append_spec wf.optNodes n1).1
  have n3 : Dense optNodes (fun u => List.replicate (bump c t u) ()) := by
    refine dense_update n2 ?_ (fun u hu => by rw [bump_ne hu])
    rw [bump_self, List.replicate_succ']
  -- the loop over the submaps
  have hall : ∀ i ∈ windowOf (S.n t) (c t), ∃ sm, (S.subs t (A t) (c t) (c t) (fin t))[i]? = some sm ∧ sm.finished = false ∧
      ((t, (c t : Int)) : Id) ∉ sm.nodeIds := by
    intro i hi
    rw [mem_windowOf hp] at hi
    refine ⟨S.sub t (c t) (c t) (fin t) i, ?_, ?_, ?_⟩
    · rw [subs_get, if_pos (by omega)]
    · simp only [Setup.sub, hf, Bool.or_false, decide_eq_false_iff_not]
      omega
    · simp only [Setup.sub, mem_nodeIdsOf, mem_members]
      omega
  obtain ⟨m1, cs, b1, b2, b3, b4⟩ := insertIntras_ok (t := t) (node := (t, (c t : Int))) (s := { s with
      optSubmaps := opt
      optNodes := optNodes }) (poses := poses) wf.submaps hs (windowOf_nodup hp)
      (Nat.le_trans windowOf_length hp2) hall
  have b5 : Dense m1 (fun u => S.subs u (A u) (c u) (bump c t u) (fin u)) := by
    refine dense_update b3 ?_ (fun u hu => by rw [bump_ne hu])
    apply List.ext_getElem?
    intro i
    rw [List.getElem?_mapIdx, subs_get, subs_get]
    by_cases hi : i * S.n t < A t
    · rw [if_pos hi, if_pos hi, Option.map_some, bump_self]
      congr 1
      have hm := mem_windowOf (n := S.n t) (k := c t) (i := i) hp
      unfold Setup.sub
      rw [members_succ]
      by_cases hw : i ∈ windowOf (S.n t) (c t)
      · rw [if_pos hw, if_pos (hm.1 hw)]
        simp [nodeIdsOf]
      · rw [if_neg hw, if_neg (fun h => hw (hm.2 h))]
    · rw [if_neg hi, if_neg hi]; rfl
  have hfin : ∀ m, (∃ sm, at? m1 m = some sm ∧ sm.finished = true) ↔ FinishedAt s m := by
    rintro ⟨u, x⟩
    unfold FinishedAt
    constructor
    · rintro ⟨sm, h1, h2⟩
      obtain ⟨i, rfl, h3⟩ := b5.at_some h1
      rw [subs_get] at h3
      split at h3
      · rename_i h4
        obtain rfl := Option.some.inj h3
        exact ⟨S.sub u (c u) (c u) (fin u) i, by rw [hs.at_nat, subs_get, if_pos h4], h2⟩
      · cases h3
    · rintro ⟨sm, h1, h2⟩
      obtain ⟨i, rfl, h3⟩ := hs.at_some h1
      rw [subs_get] at h3
      split at h3
      · rename_i h4
        obtain rfl := Option.some.inj h3
        exact ⟨S.sub u (c u) (bump c t u) (fin u) i, by rw [b5.at_nat, subs_get, if_pos h4], h2⟩
      · cases h3
  have hguard : (flat m1).all (fun e => !(e.2.finished && decide (((t, (c t : Int)) : Id) ∈ e.2.nodeIds))) = true := by
    rw [List.all_eq_true]
    rintro ⟨⟨u, x⟩, sm⟩ he
    have h1 := (MapById.at?_iff_mem b2).2 he
    obtain ⟨i, rfl, h3⟩ := b5.at_some h1
    rw [subs_get] at h3
    split at h3
    · rename_i h4
      obtain rfl := Option.some.inj h3
      simp only [Setup.sub, Bool.not_eq_true', Bool.and_eq_false_iff, decide_eq_false_iff_not, mem_nodeIdsOf, mem_members,
        Bool.or_eq_false_iff]
      by_cases hu : t = u
      · subst hu
        by_cases hc : (i + 2) * S.n t ≤ c t
        · right
          rintro ⟨-, -, -, h5⟩
          omega
        · exact Or.inl ⟨hc, hf⟩
      · right
        exact fun h => hu h.1
    · cases h3
  have hnode : at? s.nodes (t, (c t : Int)) = some () := by rw [hn.at_nat, replicate_get, if_pos hk]
  obtain ⟨w0, wl, hwin⟩ : ∃ w0 wl, windowOf (S.n t) (c t) = w0 :: wl := by
    unfold windowOf; split <;> exact ⟨_, _, rfl⟩
  have hw0 : w0 * S.n t ≤ c t ∧ c t < (w0 + 2) * S.n t := by
    rw [← mem_windowOf hp, hwin]; simp
  have hmatch : at? opt (t, (w0 : Int)) = some () := by
    rw [i2.at_nat, replicate_get, if_pos]
    rw [if_pos rfl]
    exact (lt_submapCount hp).2 (by omega)
  rw [List.length_replicate] at n1
  have hlen : (nodeIdsOf t (windowOf (S.n t) (c t))).length = ((windowOf (S.n t) (c t)).map (S.ptr t)).length := by
    simp [nodeIdsOf]
  have hhead : (nodeIdsOf t (windowOf (S.n t) (c t))).head? = some (t, (w0 : Int)) := by rw [hwin]; rfl
  have hg1 : (guard ((nodeIdsOf t (windowOf (S.n t) (c t))).length = ((windowOf (S.n t) (c t)).map (S.ptr t)).length) : Option Unit) =
      some () := guard_some.2 hlen
  have hg2 : (guard ((flat m1).all (fun e => !(e.2.finished && decide (((t, (c t : Int)) : Id) ∈ e.2.nodeIds))) = true) : Option Unit) =
      some () := guard_some.2 hguard
  have hrun : computeConstraints s (t, (c t : Int)) ((windowOf (S.n t) (c t)).map (S.ptr t)) (fills (S.n t) (c t)) poses =
      (if fills (S.n t) (c t) = true then do
        let sm ← at? m1 (t, (w0 : Int))
        guard (sm.finished = false)
        let submaps ← markFinished m1 (t, (w0 : Int))
        let old := ((flat optNodes).map (·.1)).filter (fun n => n ∉ sm.nodeIds)
        some { s with
          optSubmaps := opt
          optNodes := optNodes
          constraints := s.constraints ++ cs
          submaps := submaps
          worker := .searching ((finishedIds m1).map (fun id => ((t, (c t : Int)), id)) ++ old.map (fun n => (n, (t, (w0 : Int))))) }
      else some { s with
          optSubmaps := opt
          optNodes := optNodes
          constraints := s.constraints ++ cs
          submaps := m1
          worker := .searching ((finishedIds m1).map (fun id => ((t, (c t : Int)), id))) }) := by
    unfold computeConstraints
    simp only [hnode, i1, hhead, hmatch, n1, b1, hg1, hg2, Option.bind_eq_bind, Option.bind_some]
  have hsm : at? m1 (t, (w0 : Int)) = some (S.sub t (c t) (c t + 1) false w0) := by
    rw [b5.at_nat, subs_get, if_pos (by omega), bump_self, hf]
  have hunf : (S.sub t (c t) (c t + 1) false w0).finished = false := by
    simp only [Setup.sub, Bool.or_false, decide_eq_false_iff_not]
    omega
  have hnd1 : ((finishedIds m1).map (fun id => (((t, (c t : Int)) : Id), id))).Nodup := by
    refine (List.nodup_map_iff ?_).2 (finishedIds_nodup b2)
    intro a b h
    exact (Prod.mk.inj h).2
  rw [hrun]
  by_cases hfill : fills (S.n t) (c t) = true
  · obtain ⟨i, hi⟩ := (fills_iff hp).1 hfill
    have hw := fills_window hp hi
    rw [hwin] at hw
    obtain ⟨rfl, -⟩ := List.cons.inj hw
    have hil : w0 < ((fun u => S.subs u (A u) (c u) (bump c t u) (fin u)) t).length := by
      simp only [subs_length]
      exact (lt_submapCount hp).2 (by omega)
    obtain ⟨m2, k1, k2⟩ := b5.assign hil { S.sub t (c t) (c t + 1) false w0 with finished := true }
    have hmark : markFinished m1 (t, (w0 : Int)) = some m2 := by
      unfold markFinished
      simp only [hsm, Option.bind_eq_bind, Option.bind_some]
      exact k1
    have hg3 : (guard ((S.sub t (c t) (c t + 1) false w0).finished = false) : Option Unit) = some () := guard_some.2 hunf
    refine ⟨m2, optNodes, opt, cs, (finishedIds m1).map (fun id => ((t, (c t : Int)), id)) ++
      (((flat optNodes).map (·.1)).filter (fun n => n ∉ (S.sub t (c t) (c t + 1) false w0).nodeIds)).map
        (fun n => (n, (t, (w0 : Int)))), ?_, ?_, n3, i2, b4, ?_, ?_⟩
    · rw [if_pos hfill]
      simp only [hsm, hmark, hg3, Option.bind_eq_bind, Option.bind_some]
    · refine dense_update k2 ?_ (fun u hu => by rw [bump_ne hu])
      apply List.ext_getElem?
      intro i
      rw [List.getElem?_set, subs_get, subs_get, subs_length]
      have hl := lt_submapCount (k := A t) (i := w0) hp
      by_cases hii : w0 = i
      · subst hii
        rw [if_pos rfl, if_pos (by omega), if_pos (by omega), bump_self, hf]
        simp only [Setup.sub, Option.some.injEq, Submap.mk.injEq, Bool.or_false, true_and, and_true, decide_eq_true_eq]
        omega
      · rw [if_neg hii]
        by_cases hi2 : i * S.n t < A t
        · rw [if_pos hi2, if_pos hi2, bump_self, hf]
          simp only [Setup.sub, Option.some.injEq, Submap.mk.injEq, Bool.or_false, true_and, and_true, decide_eq_decide]
          constructor
          · intro h
            by_contra hc
            have h4 : (i + 2) * S.n t = (w0 + 2) * S.n t := by omega
            have := Nat.eq_of_mul_eq_mul_right hp h4
            omega
          · omega
        · rw [if_neg hi2, if_neg hi2]
    · rw [List.nodup_append]
      refine ⟨hnd1, ?_, ?_⟩
      · refine (List.nodup_map_iff ?_).2 ((flat_ids_nodup' wn).sublist List.filter_sublist)
        intro a b h
        exact (Prod.mk.inj h).1
      · rintro ⟨y, m⟩ h1 ⟨y', m'⟩ h2 he
        obtain ⟨rfl, rfl⟩ := Prod.mk.inj he
        obtain ⟨id, h3, h4⟩ := List.mem_map.1 h1
        obtain ⟨y2, -, h5⟩ := List.mem_map.1 h2
        obtain ⟨-, rfl⟩ := Prod.mk.inj h4
        obtain ⟨-, h6⟩ := Prod.mk.inj h5
        subst h6
        obtain ⟨sm, h7, h8⟩ := (mem_finishedIds b2).1 h3
        rw [hsm] at h7
        obtain rfl := Option.some.inj h7
        rw [hunf] at h8
        cases h8
    · intro y m
      rw [List.mem_append, List.mem_map, List.mem_map]
      apply or_congr
      · constructor
        · rintro ⟨id, h3, h4⟩
          obtain ⟨rfl, rfl⟩ := Prod.mk.inj h4
          exact ⟨rfl, (hfin _).1 ((mem_finishedIds b2).1 h3)⟩
        · rintro ⟨rfl, h⟩
          exact ⟨m, (mem_finishedIds b2).2 ((hfin m).2 h), rfl⟩
      · constructor
        · rintro ⟨y', h3, h4⟩
          obtain ⟨rfl, rfl⟩ := Prod.mk.inj h4
          rw [List.mem_filter, mem_ids_dense wn n3] at h3
          obtain ⟨⟨j, h5, h6⟩, h7⟩ := h3
          obtain ⟨u, x⟩ := y'
          dsimp only at h5 h6
          subst h5
          refine ⟨w0, j, u, rfl, hi, rfl, h6, ?_⟩
          rintro ⟨rfl, h8⟩
          rw [bump_self] at h6
          simp only [Setup.sub, decide_eq_true_eq, mem_nodeIdsOf, mem_members] at h7
          exact h7 ⟨trivial, h6, h8, by omega⟩
        · rintro ⟨i', j, u, rfl, h2, rfl, h4, h5⟩
          obtain rfl : i' = w0 := by
            have := Nat.eq_of_mul_eq_mul_right hp (h2.trans hi.symm)
            omega
          refine ⟨_, List.mem_filter.2 ⟨(mem_ids_dense wn n3).2 ⟨j, rfl, h4⟩, ?_⟩, rfl⟩
          simp only [Setup.sub, decide_eq_true_eq, mem_nodeIdsOf, mem_members]
          rintro ⟨rfl, -, h6, -⟩
          exact h5 ⟨rfl, h6⟩
  · refine ⟨m1, optNodes, opt, cs, _, ?_, ?_, n3, i2, b4, hnd1, ?_⟩
    · rw [if_neg hfill]
    · refine dense_congr b5 ?_
      intro u
      by_cases hu : u = t
      · subst hu
        apply List.ext_getElem?
        intro i
        rw [subs_get, subs_get]
        split
        · rw [bump_self]
          simp only [Setup.sub, Option.some.injEq, Submap.mk.injEq, true_and, and_true]
          congr 1
          rw [decide_eq_decide]
          constructor
          · omega
          · intro h
            by_contra hc
            exact hfill ((fills_iff hp).2 ⟨i, by omega⟩)
        · rfl
      · rw [bump_ne hu]
    · intro y m
      rw [List.mem_map]
      constructor
      · rintro ⟨id, h3, h4⟩
        obtain ⟨rfl, rfl⟩ := Prod.mk.inj h4
        exact Or.inl ⟨rfl, (hfin _).1 ((mem_finishedIds b2).1 h3)⟩
      · rintro (⟨rfl, h⟩ | ⟨i, j, u, -, h2, -⟩)
        · exact ⟨m, (mem_finishedIds b2).2 ((hfin m).2 h), rfl⟩
        · exact absurd ((fills_iff hp).2 ⟨i, h2⟩) hfill

/-! ### `FinishTrajectory` -/

theorem markAll_ok {t : Int} : ∀ {k : Nat} {m : Map Submap} {f : Int → List Submap}, Dense m f → k ≤ (f t).length →
    ∃ m', markAll m ((List.range' ((f t).length - k) k).map (fun i : Nat => (t, (i : Int)))) = some m' ∧
      Dense m' (Function.update f t ((f t).mapIdx (fun i sm =>
        if (f t).length - k ≤ i then { sm with finished := true } else sm))) := by
  intro k
  induction k with
  | zero =>
    intro m f hd _
    refine ⟨m, rfl, dense_congr hd ?_⟩
    intro u
    by_cases hu : u = t
    · subst hu
      rw [Function.update_self]
      apply List.ext_getElem?
      intro i
      rw [List.getElem?_mapIdx]
      cases h : (f u)[i]? with
      | none => rfl
      | some x =>
        have : i < (f u).length := by
          by_contra hc
          rw [List.getElem?_eq_none (by omega)] at h
          cases h
        rw [Option.map_some, if_neg (by omega)]
    · rw [Function.update_of_ne hu]
  | succ k ih =>
    intro m f hd hk
    have hil : (f t).length - (k + 1) < (f t).length := by omega
    obtain ⟨m1, a1, a2⟩ := hd.assign hil { (f t)[(f t).length - (k + 1)] with finished := true }
    have hmark : markFinished m (t, (((f t).length - (k + 1) : Nat) : Int)) = some m1 := by
      unfold markFinished
      rw [hd.at_nat, List.getElem?_eq_getElem hil]
      exact a1
    obtain ⟨m2, b1, b2⟩ := ih a2 (by rw [Function.update_self, List.length_set]; omega)
    refine ⟨m2, ?_, ?_⟩
    · rw [List.range'_succ, List.map_cons, markAll, hmark]
      rw [Function.update_self, List.length_set] at b1
      have : (f t).length - (k + 1) + 1 = (f t).length - k := by omega
      rw [this]
      exact b1
    · refine dense_update b2 ?_ (fun u hu => by rw [Function.update_of_ne hu, Function.update_of_ne hu])
      rw [Function.update_self, Function.update_self, List.length_set]
      apply List.ext_getElem?
      intro i
      rw [List.getElem?_mapIdx, List.getElem?_mapIdx]
      by_cases hii : (f t).length - (k + 1) = i
      · subst hii
        rw [List.getElem?_set_self hil, List.getElem?_eq_getElem hil, Option.map_some, Option.map_some, if_pos (Nat.le_refl _),
          if_neg (by omega)]
      · rw [List.getElem?_set_ne hii]
        have : (f t).length - (k + 1) ≤ i ↔ (f t).length - k ≤ i := by omega
        simp only [this]

theorem finish_ok {S : Setup} {m : Map Submap} {t : Int} {A c : Int → Nat} {fin : Int → Bool}
    (hs : Dense m (fun u => S.subs u (A u) (c u) (c u) (fin u))) :
    ∃ m', markAll m (idsOf m t) = some m' ∧
      Dense m' (fun u => S.subs u (A u) (c u) (c u) (if u = t then true else fin u)) := by
  obtain ⟨m', h1, h2⟩ := markAll_ok (t := t) (k := (S.subs t (A t) (c t) (c t) (fin t)).length) hs (Nat.le_refl _)
  refine ⟨m', ?_, dense_update h2 ?_ (fun u hu => by rw [if_neg hu])⟩
  · rw [idsOf_dense hs, List.range_eq_range']
    rw [Nat.sub_self] at h1
    exact h1
  · apply List.ext_getElem?
    intro i
    rw [List.getElem?_mapIdx, subs_get, subs_get]
    split
    · rw [Option.map_some, if_pos rfl, if_pos (by omega)]
      simp [Setup.sub]
    · rfl

end Verif.PoseGraph
