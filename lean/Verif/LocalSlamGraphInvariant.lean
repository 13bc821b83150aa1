import Verif.LocalSlamGraphLemmas

/-! # The pose graph below local SLAM: the invariant -/

namespace Verif.PoseGraph

open MapById

variable {V : Type}

/-- The item of node `k`. -/
def Setup.item (S : Setup) (t : Int) (k : Nat) : Item V :=
  .computeConstraints (t, (k : Int)) ((windowOf (S.n t) k).map (S.ptr t)) (fills (S.n t) k)

/-- The items of trajectory `t` that have not run. -/
def pend (s : State V) (t : Int) : List (Item V) := (s.queue ++ s.inflight).filter (fun x => decide (x.traj = t))

/-- Not sensor data. -/
def Item.real : Item V → Bool
  | .data _ => false
  | _ => true

/-- The constraints local SLAM gives to trajectory `t`. -/
def intraOf (s : State V) (t : Int) : List (Id × Id) :=
  (s.constraints.filter (fun x => x.intra && decide (x.submap.1 = t))).map (fun x => (x.submap, x.node))

/-- The constraints node `k` of trajectory `t` gets. -/
def Setup.links (S : Setup) (t : Int) (k : Nat) : List (Id × Id) :=
  (windowOf (S.n t) k).map (fun i : Nat => ((t, (i : Int)), (t, (k : Int))))

/-- The worker's remaining calls. -/
def todoOf : Worker V → List (Id × Id)
  | .searching todo => todo
  | _ => []

/-- The pairs (node, submap) for which constraints are searched, when `c` nodes were processed and the trajectories `fin` are
finished: the submap is full, or it was finished with its trajectory before the node was processed.  The node is not in it. -/
def Wanted (S : Setup) (c : Int → Nat) (fin : Int → Bool) (atFinish : Int → Int → Nat) (y m : Id) : Prop :=
  ∃ j i : Nat, y.2 = j ∧ m.2 = i ∧ j < c y.1 ∧ i * S.n m.1 < c m.1 ∧
    ¬ (y.1 = m.1 ∧ i * S.n m.1 ≤ j ∧ j < (i + 2) * S.n m.1) ∧
    ((i + 2) * S.n m.1 ≤ c m.1 ∨ fin m.1 = true ∧ atFinish m.1 y.1 ≤ j)

/-- The state after `A t` nodes were added to trajectory `t` and `c t` of them processed; `po t` says that `FinishTrajectory`
was called and `fin t` that it took effect. -/
structure Inv (S : Setup) (A : Int → Nat) (po : Int → Bool) (seen : Seen) (s : State V) (c : Int → Nat) (fin : Int → Bool) :
    Prop where
  nodes : Dense s.nodes (fun t => List.replicate (A t) ())
  submaps : Dense s.submaps (fun t => S.subs t (A t) (c t) (c t) (fin t))
  optNodes : Dense s.optNodes (fun t => List.replicate (c t) ())
  optSubmaps : Dense s.optSubmaps (fun t => List.replicate (submapCount (S.n t) (c t)) ())
  neg : ∀ t, t < 0 → A t = 0
  le : ∀ t, c t ≤ A t
  trajs : ∀ t, trajOf s.trajs t = ⟨if fin t then .finished else .active, .normal⟩
  pending : ∀ t, (pend s t).filter Item.real =
    (List.range' (c t) (A t - c t)).map (S.item t) ++ if po t = true ∧ fin t = false then [.finish t] else []
  finPending : ∀ t, fin t = true → po t = true ∧ pend s t = []
  lastFinish : ∀ t, po t = true → fin t = false → (pend s t).getLast? = some (.finish t)
  trimmers : s.trimmers = []
  intra : ∀ t, intraOf s t = (List.range (c t)).flatMap (S.links t)
  nodup : (seen.asked ++ todoOf s.worker).Nodup
  asked : ∀ y m, (y, m) ∈ seen.asked ++ todoOf s.worker ↔ Wanted S c fin seen.atFinish y m
  searches : ∀ p ∈ s.searches, p ∈ seen.asked
  results : ∀ r, s.worker = .optimized r → ∀ x ∈ r, (x.node, x.submap) ∈ seen.asked
  atFinish : ∀ v u, seen.atFinish v u ≤ c u
  atFinishSelf : ∀ v, fin v = true → seen.atFinish v v = c v

theorem Inv.init {S : Setup} : Inv S (fun _ => 0) (fun _ => false) {} ({} : State V) (fun _ => 0) (fun _ => false) where
  nodes := dense_nil
  submaps := dense_congr dense_nil (fun t => by
    have : submapCount (S.n t) 0 = 0 := by
      have := submapCount_zero (q := 0) (S.pos t)
      simpa using this
    simp [Setup.subs, this])
  optNodes := dense_nil
  optSubmaps := dense_congr dense_nil (fun t => by
    have : submapCount (S.n t) 0 = 0 := by
      have := submapCount_zero (q := 0) (S.pos t)
      simpa using this
    simp [this])
  neg := fun _ _ => rfl
  le := fun _ => Nat.le_refl _
  trajs := fun t => rfl
  pending := fun t => by simp [pend]
  finPending := fun t h => by cases h
  lastFinish := fun t h => by cases h
  trimmers := rfl
  intra := fun t => rfl
  nodup := List.nodup_nil
  asked := fun y m => by
    simp only [todoOf, List.append_nil, List.not_mem_nil, false_iff]
    rintro ⟨j, i, -, -, h, -⟩
    exact Nat.not_lt_zero _ h
  searches := fun p h => by cases h
  results := fun r h => by cases h
  atFinish := fun _ _ => Nat.le_refl _
  atFinishSelf := fun v h => by cases h

variable {S : Setup} {A c : Int → Nat} {po fin : Int → Bool} {seen : Seen} {s : State V}

theorem Inv.finAll (hi : Inv S A po seen s c fin) {t : Int} (h : fin t = true) : c t = A t := by
  have h1 := hi.pending t
  rw [(hi.finPending t h).2, h] at h1
  have h2 := congrArg List.length h1
  simp at h2
  have := hi.le t
  omega

/-- A pair that is wanted is well defined. -/
theorem Inv.wanted (hi : Inv S A po seen s c fin) {y m : Id} (h : Wanted S c fin seen.atFinish y m) :
    FinishedAt s m ∧ at? s.nodes y = some () ∧ at? s.optNodes y = some () ∧ at? s.optSubmaps m = some () := by
  obtain ⟨u, yj⟩ := y
  obtain ⟨v, mi⟩ := m
  obtain ⟨j, i, h1, h2, h3, h4, -, h6⟩ := h
  dsimp only at h1 h2 h3 h4 h6
  subst h1 h2
  have hA := hi.le u
  have hv := hi.le v
  refine ⟨⟨S.sub v (c v) (c v) (fin v) i, ?_, ?_⟩, ?_, ?_, ?_⟩
  · rw [hi.submaps.at_nat, subs_get, if_pos (by omega)]
  · simp only [Setup.sub, Bool.or_eq_true, decide_eq_true_eq]
    exact h6.imp id And.left
  · rw [hi.nodes.at_nat, replicate_get, if_pos (by omega)]
  · rw [hi.optNodes.at_nat, replicate_get, if_pos h3]
  · rw [hi.optSubmaps.at_nat, replicate_get, if_pos ((lt_submapCount (S.pos v)).2 h4)]

/-- The nodes of a submap exist. -/
theorem Inv.memberNode (hi : Inv S A po seen s c fin) {m y : Id} {sm : Submap} (h : at? s.submaps m = some sm)
    (hy : y ∈ sm.nodeIds) : at? s.nodes y = some () := by
  obtain ⟨v, mi⟩ := m
  obtain ⟨i, rfl, h1⟩ := hi.submaps.at_some h
  rw [subs_get] at h1
  split at h1
  · obtain rfl := Option.some.inj h1
    simp only [Setup.sub, nodeIdsOf, List.mem_map] at hy
    obtain ⟨j, h2, rfl⟩ := hy
    rw [mem_members] at h2
    have := hi.le v
    rw [hi.nodes.at_nat, replicate_get, if_pos (by omega)]
  · cases h1

theorem lastNode_mem {l : List Id} : ∀ {n : Id}, lastNode l = some n → n ∈ l := by
  induction l with
  | nil => intro n h; cases h
  | cons x l ih =>
    intro n h
    simp only [lastNode] at h
    cases hl : lastNode l with
    | none =>
      rw [hl] at h
      simp only [Option.some.injEq] at h
      simp [h]
    | some y =>
      rw [hl] at h
      simp only [Option.some.injEq] at h
      split at h
      · simp [h]
      · rw [← h]; exact List.mem_cons_of_mem _ (ih hl)

theorem Inv.latest (hi : Inv S A po seen s c fin) {y m : Id} (h : Wanted S c fin seen.atFinish y m) :
    latestNodeTime s y m = some () := by
  obtain ⟨⟨sm, h1, -⟩, h2, -, -⟩ := hi.wanted h
  unfold latestNodeTime
  simp only [h1, h2, Option.bind_eq_bind, Option.bind_some]
  cases hl : lastNode sm.nodeIds with
  | none => rfl
  | some n => exact hi.memberNode h1 (lastNode_mem hl)

/-! ### The steps -/

theorem Inv.addNode (hi : Inv S A po seen s c fin) {t : Int} (h0 : 0 ≤ t) (hpo : po t = false) :
    ∃ s', PoseGraph.addNode s t ((windowOf (S.n t) (A t)).map (S.ptr t)) (fills (S.n t) (A t)) = some s' ∧
      Inv S (bump A t) po seen s' c fin := by
  have hf : fin t = false := by
    cases h : fin t with
    | false => rfl
    | true => rw [(hi.finPending t h).1] at hpo; cases hpo
  have htr : trajOf s.trajs t = {} := by rw [hi.trajs t, hf]; rfl
  obtain ⟨trajs, nodes, submaps, e, t1, t2, t3⟩ := appendNode_ok h0 hi.nodes hi.submaps htr (hi.le t) hf
  have hpend : ∀ u, pend { s with
      trajs := trajs
      nodes := nodes
      submaps := submaps
      inflight := s.inflight ++ [S.item t (A t)] } u = pend s u ++ if u = t then [S.item t (A t)] else [] := by
    intro u
    unfold pend
    simp only [← List.append_assoc, List.filter_append]
    congr 1
    by_cases hu : u = t
    · subst hu; simp [Setup.item, Item.traj]
    · have : t ≠ u := fun h => hu h.symm
      simp [Setup.item, Item.traj, hu, this]
  refine ⟨{ s with
      trajs := trajs
      nodes := nodes
      submaps := submaps
      inflight := s.inflight ++ [S.item t (A t)] }, ?_, ?_⟩
  · unfold PoseGraph.addNode
    rw [e]
    rfl
  · exact {
      nodes := t2
      submaps := t3
      optNodes := hi.optNodes
      optSubmaps := hi.optSubmaps
      neg := by
        intro u hu
        rw [bump_ne (by omega)]
        exact hi.neg u hu
      le := by
        intro u
        have := hi.le u
        unfold bump
        split <;> omega
      trajs := fun u => (t1 u).trans (hi.trajs u)
      pending := by
        intro u
        have hp := hi.pending u
        have h2 := hi.le u
        refine (congrArg _ (hpend u)).trans ?_
        rw [List.filter_append, hp]
        by_cases hu : u = t
        · subst hu
          rw [if_pos rfl, bump_self, if_neg (by rw [hpo]; simp), List.append_nil, List.append_nil]
          have : A u + 1 - c u = (A u - c u) + 1 := by omega
          rw [this, List.range'_concat, List.map_append]
          have h3 : c u + 1 * (A u - c u) = A u := by omega
          rw [h3]
          rfl
        · rw [if_neg hu, bump_ne hu]
          simp
      finPending := by
        intro u hu
        have := hi.finPending u hu
        refine ⟨this.1, (hpend u).trans ?_⟩
        have hne : u ≠ t := by rintro rfl; rw [hf] at hu; cases hu
        rw [this.2, if_neg hne]; rfl
      lastFinish := by
        intro u h1 h2
        refine (congrArg _ (hpend u)).trans ?_
        have hne : u ≠ t := by rintro rfl; rw [hpo] at h1; cases h1
        rw [if_neg hne, List.append_nil]
        exact hi.lastFinish u h1 h2
      trimmers := hi.trimmers
      intra := hi.intra
      nodup := hi.nodup
      asked := hi.asked
      searches := hi.searches
      results := hi.results
      atFinish := hi.atFinish
      atFinishSelf := hi.atFinishSelf }

/-- Only the items that have not run change. -/
theorem Inv.pend {po' : Int → Bool} (hi : Inv S A po seen s c fin) {queue inflight : List (Item V)}
    (pending : ∀ t, (PoseGraph.pend { s with
        queue := queue
        inflight := inflight } t).filter Item.real =
      (List.range' (c t) (A t - c t)).map (S.item t) ++ if po' t = true ∧ fin t = false then [.finish t] else [])
    (finPending : ∀ t, fin t = true → po' t = true ∧ PoseGraph.pend { s with
        queue := queue
        inflight := inflight } t = [])
    (lastFinish : ∀ t, po' t = true → fin t = false → (PoseGraph.pend { s with
        queue := queue
        inflight := inflight } t).getLast? = some (.finish t)) :
    Inv S A po' seen { s with
      queue := queue
      inflight := inflight } c fin where
  nodes := hi.nodes
  submaps := hi.submaps
  optNodes := hi.optNodes
  optSubmaps := hi.optSubmaps
  neg := hi.neg
  le := hi.le
  trajs := hi.trajs
  pending := pending
  finPending := finPending
  lastFinish := lastFinish
  trimmers := hi.trimmers
  intra := hi.intra
  nodup := hi.nodup
  asked := hi.asked
  searches := hi.searches
  results := hi.results
  atFinish := hi.atFinish
  atFinishSelf := hi.atFinishSelf

theorem pend_post {s : State V} {x : Item V} (u : Int) : pend { s with
    inflight := s.inflight ++ [x] } u = pend s u ++ if u = x.traj then [x] else [] := by
  unfold pend
  simp only [← List.append_assoc, List.filter_append]
  congr 1
  by_cases hu : u = x.traj
  · subst hu; simp
  · have : x.traj ≠ u := fun h => hu h.symm
    simp [hu, this]

theorem Inv.postData (hi : Inv S A po seen s c fin) {t : Int} (hpo : po t = false) :
    Inv S A po seen { s with
      inflight := s.inflight ++ [.data t] } c fin := by
  refine hi.pend (queue := s.queue) ?_ ?_ ?_
  · intro u
    rw [pend_post, List.filter_append, hi.pending]
    have : (if u = (Item.data t : Item V).traj then [(Item.data t : Item V)] else []).filter Item.real = [] := by
      split <;> rfl
    rw [this, List.append_nil]
  · intro u hu
    have := hi.finPending u hu
    refine ⟨this.1, ?_⟩
    have hne : u ≠ t := by rintro rfl; rw [hpo] at this; cases this.1
    rw [pend_post, this.2, if_neg (show u ≠ (Item.data t : Item V).traj from hne)]; rfl
  · intro u h1 h2
    have hne : u ≠ t := by rintro rfl; rw [hpo] at h1; cases h1
    rw [pend_post, if_neg (show u ≠ (Item.data t : Item V).traj from hne), List.append_nil]
    exact hi.lastFinish u h1 h2

theorem Inv.postFinish (hi : Inv S A po seen s c fin) {t : Int} (hpo : po t = false) :
    Inv S A (fun u => if u = t then true else po u) seen { s with
      inflight := s.inflight ++ [.finish t] } c fin := by
  have hf : fin t = false := by
    cases h : fin t with
    | false => rfl
    | true => rw [(hi.finPending t h).1] at hpo; cases hpo
  refine hi.pend (queue := s.queue) ?_ ?_ ?_
  · intro u
    rw [pend_post, List.filter_append, hi.pending]
    by_cases hu : u = t
    · subst hu
      simp [hpo, hf, Item.traj, Item.real]
    · have : u ≠ (Item.finish t : Item V).traj := hu
      rw [if_neg this]
      simp [hu]
  · intro u hu
    have := hi.finPending u hu
    have hne : u ≠ t := by rintro rfl; rw [hpo] at this; cases this.1
    refine ⟨by simp [hne, this.1], ?_⟩
    rw [pend_post, this.2, if_neg (show u ≠ (Item.finish t : Item V).traj from hne)]; rfl
  · intro u h1 h2
    rw [pend_post]
    by_cases hu : u = t
    · subst hu
      have : u = (Item.finish u : Item V).traj := rfl
      rw [if_pos this]
      simp
    · have : u ≠ (Item.finish t : Item V).traj := hu
      simp only [hu, if_false] at h1
      rw [if_neg this, List.append_nil]
      exact hi.lastFinish u h1 h2

theorem filter_eraseIdx {α : Type} {p : α → Bool} {l : List α} : ∀ {k : Nat} {x : α}, l[k]? = some x →
    (∀ j < k, ∀ y, l[j]? = some y → p x = true → p y = false) →
    l.filter p = (if p x then [x] else []) ++ (l.eraseIdx k).filter p := by
  induction l with
  | nil => intro k x h; simp at h
  | cons z l ih =>
    intro k x h hall
    cases k with
    | zero =>
      simp only [List.getElem?_cons_zero, Option.some.injEq] at h
      subst h
      by_cases hp : p z = true
      · simp [hp]
      · simp [hp]
    | succ k =>
      rw [List.getElem?_cons_succ] at h
      rw [List.eraseIdx_cons_succ]
      have := ih h (fun j hj y hy => hall (j + 1) (by omega) y (by rw [List.getElem?_cons_succ]; exact hy))
      by_cases hz : p z = true
      · have hx : p x = false := by
          by_contra hc
          have := hall 0 (by omega) z rfl (by simpa using hc)
          rw [hz] at this
          cases this
        rw [hx] at this ⊢
        simp only [List.filter_cons, hz, if_true]
        simpa using this
      · simp only [List.filter_cons, hz]
        simpa using this

theorem pend_enqueue {s : State V} {k : Nat} {x : Item V} (h : s.inflight[k]? = some x)
    (hd : ∀ j < k, ∀ y z, s.inflight[j]? = some y → s.inflight[k]? = some z → y.traj ≠ z.traj) (u : Int) :
    pend { s with
      queue := s.queue ++ [x]
      inflight := s.inflight.eraseIdx k } u = pend s u := by
  unfold pend
  simp only [List.filter_append, List.append_assoc]
  congr 1
  rw [filter_eraseIdx (p := fun x => decide (x.traj = u)) h]
  · congr 1
    by_cases hx : x.traj = u <;> simp [hx]
  · intro j hj y hy hx
    have := hd j hj y x hy h
    simp only [decide_eq_true_eq] at hx
    rw [hx] at this
    simpa using this

theorem Inv.enqueue (hi : Inv S A po seen s c fin) {k : Nat} {x : Item V} (h : s.inflight[k]? = some x)
    (hd : ∀ j < k, ∀ y z, s.inflight[j]? = some y → s.inflight[k]? = some z → y.traj ≠ z.traj) :
    Inv S A po seen { s with
      queue := s.queue ++ [x]
      inflight := s.inflight.eraseIdx k } c fin := by
  refine hi.pend ?_ ?_ ?_
  · intro u; rw [pend_enqueue h hd]; exact hi.pending u
  · intro u hu; rw [pend_enqueue h hd]; exact hi.finPending u hu
  · intro u h1 h2; rw [pend_enqueue h hd]; exact hi.lastFinish u h1 h2

theorem pend_cons {s : State V} {x : Item V} {l : List (Item V)} (h : s.queue = x :: l) (u : Int) :
    pend s u = (if u = x.traj then [x] else []) ++ pend { s with
      queue := l } u := by
  unfold pend
  rw [h]
  simp only [List.cons_append, List.filter_cons]
  by_cases hu : u = x.traj
  · subst hu; simp
  · have : x.traj ≠ u := fun h => hu h.symm
    simp [hu, this]

/-- The kinds of items there are. -/
theorem Inv.kinds (hi : Inv S A po seen s c fin) {x : Item V} {l : List (Item V)} (h : s.queue = x :: l) :
    (x.real = false ∧ ∃ t, x = .data t) ∨ (∃ t, x = S.item t (c t) ∧ c t < A t) ∨
      (∃ t, x = .finish t ∧ c t = A t ∧ po t = true ∧ fin t = false) := by
  have h1 := pend_cons h x.traj
  rw [if_pos rfl] at h1
  cases hr : x.real with
  | false =>
    left
    cases x <;> simp [Item.real] at hr ⊢
  | true =>
    right
    have h2 := hi.pending x.traj
    rw [h1, List.filter_append, List.filter_cons, hr] at h2
    simp only [if_true, List.filter_nil, List.cons_append, List.nil_append] at h2
    have h3 := hi.le x.traj
    by_cases hc : c x.traj < A x.traj
    · left
      refine ⟨x.traj, ?_, hc⟩
      have h4 : A x.traj - c x.traj = (A x.traj - c x.traj - 1) + 1 := by omega
      rw [h4, List.range'_succ, List.map_cons, List.cons_append] at h2
      exact (List.cons.inj h2).1
    · right
      have h4 : A x.traj - c x.traj = 0 := by omega
      rw [h4] at h2
      simp only [List.range'_zero, List.map_nil, List.nil_append] at h2
      split at h2
      · rename_i h5
        exact ⟨x.traj, (List.cons.inj h2).1, by omega, h5.1, h5.2⟩
      · cases h2

theorem trajOf_canModify {l : List (Int × TrajState)} {t : Int} (h : trajOf l t = ⟨.active, .normal⟩) : canModify l t = true :=
  canModify_default h

theorem Inv.runData (hi : Inv S A po seen s c fin) {t : Int} {l : List (Item V)} (h : s.queue = .data t :: l) :
    canModify s.trajs t = true ∧ Inv S A po seen { s with
      queue := l } c fin := by
  have hf : fin t = false := by
    cases hf : fin t with
    | false => rfl
    | true =>
      have h1 := (hi.finPending t hf).2
      rw [pend_cons h t, if_pos (show t = (Item.data t : Item V).traj from rfl)] at h1
      cases h1
  refine ⟨trajOf_canModify (by rw [hi.trajs, hf]; rfl), ?_⟩
  refine hi.pend (inflight := s.inflight) ?_ ?_ ?_
  · intro u
    have := hi.pending u
    rw [pend_cons h u, List.filter_append] at this
    have h2 : (if u = (Item.data t : Item V).traj then [(Item.data t : Item V)] else []).filter Item.real = [] := by
      split <;> rfl
    rw [h2, List.nil_append] at this
    exact this
  · intro u hu
    have := hi.finPending u hu
    rw [pend_cons h u] at this
    exact ⟨this.1, (List.append_eq_nil_iff.1 this.2).2⟩
  · intro u h1 h2
    have h3 := hi.lastFinish u h1 h2
    rw [pend_cons h u] at h3
    split at h3
    · cases hl : PoseGraph.pend { s with
          queue := l } u with
      | nil => rw [hl] at h3; simp at h3
      | cons a b =>
        rw [hl, List.singleton_append, List.getLast?_cons_cons] at h3
        exact h3
    · exact h3

theorem Inv.runFinish (hi : Inv S A po seen s c fin) {t : Int} {l : List (Item V)} (h : s.queue = .finish t :: l)
    (hc : c t = A t) (hpo : po t = true) (hf : fin t = false) (poses : List V) :
    ∃ s', runItem { s with
        queue := l } poses (.finish t) = some s' ∧
      Inv S A po { seen with
        atFinish := fun v u => if v = t then sizeOfTrajectoryOrZero s.optNodes u else seen.atFinish v u } s' c
        (fun u => if u = t then true else fin u) := by
  obtain ⟨m, h1, h2⟩ := finish_ok (t := t) hi.submaps
  have hfin : isFinished s.trajs t = false := by
    have h3 := hi.trajs t
    rw [hf] at h3
    unfold isFinished
    unfold trajOf at h3
    cases h4 : SMap.get? t s.trajs with
    | none => rfl
    | some x =>
      rw [h4, Option.getD_some] at h3
      rw [h3]
      rfl
  have hsize : ∀ u, sizeOfTrajectoryOrZero s.optNodes u = c u := by
    intro u; rw [hi.optNodes.size, List.length_replicate]
  have hempty : PoseGraph.pend { s with
      queue := l } t = [] := by
    have h3 := hi.lastFinish t hpo hf
    have h4 := hi.pending t
    rw [pend_cons h t, if_pos (show t = (Item.finish t : Item V).traj from rfl)] at h3 h4
    rw [hc, Nat.sub_self, if_pos ⟨hpo, hf⟩, List.filter_append, List.filter_cons] at h4
    simp only [Item.real, if_true, List.filter_nil, List.singleton_append, List.range'_zero, List.map_nil, List.nil_append,
      List.cons.injEq, true_and] at h4
    cases hl : PoseGraph.pend { s with
        queue := l } t with
    | nil => rfl
    | cons a b =>
      exfalso
      rw [hl, List.singleton_append, List.getLast?_cons_cons] at h3
      have hm := List.mem_of_getLast? h3
      rw [← hl] at hm
      have : (Item.finish t : Item V) ∈ (PoseGraph.pend { s with
          queue := l } t).filter Item.real := List.mem_filter.2 ⟨hm, rfl⟩
      rw [h4] at this
      cases this
  have hother : ∀ u, u ≠ t → PoseGraph.pend { s with
      queue := l } u = PoseGraph.pend s u := by
    intro u hu
    rw [pend_cons h u, if_neg (show u ≠ (Item.finish t : Item V).traj from hu)]
    rfl
  refine ⟨{ s with
      queue := l
      trajs := setTraj s.trajs t .finished
      submaps := m }, ?_, ?_⟩
  · unfold runItem
    simp only [hfin, h1, guard, if_true, Option.pure_def, Option.bind_eq_bind, Option.bind_some]
  · exact {
      nodes := hi.nodes
      submaps := h2
      optNodes := hi.optNodes
      optSubmaps := hi.optSubmaps
      neg := hi.neg
      le := hi.le
      trajs := by
        intro u
        have h3 := hi.trajs u
        show trajOf (setTraj s.trajs t .finished) u = _
        by_cases hu : u = t
        · subst hu
          rw [if_pos rfl]
          unfold setTraj
          rw [h3]
          unfold trajOf
          rw [SMap.get?_put, if_pos rfl]
          rfl
        · rw [if_neg hu, ← h3]
          unfold setTraj trajOf
          rw [SMap.get?_put, if_neg (fun h => hu h.symm)]
      pending := by
        intro u
        by_cases hu : u = t
        · subst hu
          refine (congrArg _ hempty).trans ?_
          simp [hc]
        · refine (congrArg _ (hother u hu)).trans ?_
          rw [hi.pending u]
          simp [hu]
      finPending := by
        intro u hu
        by_cases hut : u = t
        · subst hut; exact ⟨hpo, hempty⟩
        · simp only [hut, if_false] at hu
          exact ⟨(hi.finPending u hu).1, (hother u hut).trans (hi.finPending u hu).2⟩
      lastFinish := by
        intro u h3 h4
        by_cases hut : u = t
        · subst hut; simp at h4
        · simp only [hut, if_false] at h4
          exact (congrArg _ (hother u hut)).trans (hi.lastFinish u h3 h4)
      trimmers := hi.trimmers
      intra := hi.intra
      nodup := hi.nodup
      asked := by
        intro y m
        refine (hi.asked y m).trans ?_
        unfold Wanted
        refine exists_congr fun j => exists_congr fun i => ?_
        refine and_congr_right fun _ => and_congr_right fun _ => and_congr_right fun hj => and_congr_right fun _ =>
          and_congr_right fun _ => or_congr Iff.rfl ?_
        by_cases hm : m.1 = t
        · simp only [hm, if_true, hf, hsize, true_and, false_and, false_iff, Bool.false_eq_true]
          omega
        · simp only [hm, if_false]
      searches := hi.searches
      results := hi.results
      atFinish := by
        intro v u
        show (if v = t then _ else _) ≤ c u
        split
        · rw [hsize]
        · exact hi.atFinish v u
      atFinishSelf := by
        intro v hv
        show (if v = t then _ else _) = c v
        split
        · rw [hsize]
        · rename_i hvt
          simp only [hvt, if_false] at hv
          exact hi.atFinishSelf v hv }

theorem finishedAt_iff (hi : Inv S A po seen s c fin) {v : Int} {i : Nat} :
    FinishedAt s (v, (i : Int)) ↔ i * S.n v < A v ∧ ((i + 2) * S.n v ≤ c v ∨ fin v = true) := by
  unfold FinishedAt
  rw [hi.submaps.at_nat, subs_get]
  constructor
  · rintro ⟨sm, h1, h2⟩
    split at h1
    · rename_i h3
      obtain rfl := Option.some.inj h1
      simp only [Setup.sub, Bool.or_eq_true, decide_eq_true_eq] at h2
      exact ⟨h3, h2⟩
    · cases h1
  · rintro ⟨h1, h2⟩
    refine ⟨S.sub v (c v) (c v) (fin v) i, by rw [if_pos h1], ?_⟩
    simp only [Setup.sub, Bool.or_eq_true, decide_eq_true_eq]
    exact h2

theorem finishedAt_nat (hi : Inv S A po seen s c fin) {m : Id} (h : FinishedAt s m) : ∃ i : Nat, m.2 = i := by
  obtain ⟨sm, h1, -⟩ := h
  obtain ⟨v, x⟩ := m
  obtain ⟨i, rfl, -⟩ := hi.submaps.at_some h1
  exact ⟨i, rfl⟩

/-- The pairs wanted with one more node: the new node with the finished submaps, and the submap that became full with all
nodes. -/
theorem wanted_bump (hi : Inv S A po seen s c fin) {t : Int} (hf : fin t = false) (y m : Id) :
    Wanted S (bump c t) fin seen.atFinish y m ↔ Wanted S c fin seen.atFinish y m ∨
      ((y = (t, (c t : Int)) ∧ FinishedAt s m) ∨
        ∃ (i j : Nat) (u : Int), m = (t, (i : Int)) ∧ (i + 2) * S.n t = c t + 1 ∧ y = (u, (j : Int)) ∧ j < bump c t u ∧
          ¬ (u = t ∧ i * S.n t ≤ j)) := by
  obtain ⟨u, yj⟩ := y
  obtain ⟨v, mi⟩ := m
  have hp := S.pos v
  have hexp : ∀ i, (i + 2) * S.n v = i * S.n v + 2 * S.n v := fun i => Nat.add_mul _ _ _
  constructor
  · rintro ⟨j, i, h1, h2, h3, h4, h5, h6⟩
    dsimp only at h1 h2 h3 h4 h5 h6
    subst h1 h2
    by_cases hold : j < c u ∧ ((i + 2) * S.n v ≤ c v ∨ fin v = true ∧ seen.atFinish v u ≤ j)
    · left
      refine ⟨j, i, rfl, rfl, hold.1, ?_, h5, hold.2⟩
      rcases hold.2 with h | h
      · have := hexp i
        show i * S.n v < c v
        omega
      · have hv : v ≠ t := by rintro rfl; rw [hf] at h; cases h.1
        rw [bump_ne hv] at h4
        exact h4
    · right
      by_cases hj : j < c u
      · right
        have hv : v = t := by
          by_contra hv
          rw [bump_ne hv] at h6
          exact hold ⟨hj, h6⟩
        subst hv
        rw [bump_self, hf] at h6
        have h7 : (i + 2) * S.n v = c v + 1 := by
          rcases h6 with h6 | h6
          · by_contra hne
            exact hold ⟨hj, Or.inl (by omega)⟩
          · cases h6.1
        refine ⟨i, j, u, rfl, h7, rfl, h3, ?_⟩
        rintro ⟨rfl, h8⟩
        exact h5 ⟨rfl, h8, by omega⟩
      · left
        have hu : u = t := by
          by_contra hu
          rw [bump_ne hu] at h3
          exact hj h3
        subst hu
        rw [bump_self] at h3
        have hjc : j = c u := by omega
        subst hjc
        refine ⟨rfl, (finishedAt_iff hi).2 ⟨?_, ?_⟩⟩
        · have h9 := hi.le v
          by_cases hv : v = u
          · subst hv
            rw [bump_self, hf] at h6
            rcases h6 with h6 | h6
            · have := hexp i
              omega
            · cases h6.1
          · rw [bump_ne hv] at h4
            omega
        · by_cases hv : v = u
          · subst hv
            rw [bump_self, hf] at h6
            rcases h6 with h6 | h6
            · left
              have h7 := hexp i
              by_contra hc
              exact h5 ⟨rfl, by omega, by omega⟩
            · cases h6.1
          · rw [bump_ne hv] at h6
            exact h6.imp id And.left
  · rintro (⟨j, i, h1, h2, h3, h4, h5, h6⟩ | ⟨h1, h2⟩ | ⟨i, j, u', h1, h2, h3, h4, h5⟩)
    · have hle : ∀ w, c w ≤ bump c t w := by intro w; unfold bump; split <;> omega
      have hu := hle u
      have hv := hle v
      exact ⟨j, i, h1, h2, Nat.lt_of_lt_of_le h3 hu, Nat.lt_of_lt_of_le h4 hv, h5, h6.imp (fun h => Nat.le_trans h hv) id⟩
    · obtain ⟨i, rfl⟩ : ∃ i : Nat, mi = i := finishedAt_nat hi h2
      obtain ⟨h3, h4⟩ := (finishedAt_iff hi).1 h2
      simp only [Prod.mk.injEq] at h1
      obtain ⟨rfl, rfl⟩ := h1
      have hle : c v ≤ bump c u v := by unfold bump; split <;> omega
      have h7 := hexp i
      refine ⟨c u, i, rfl, rfl, by rw [bump_self]; exact Nat.lt_succ_self _, ?_, ?_, ?_⟩
      · rcases h4 with h4 | h4
        · show i * S.n v < bump c u v
          omega
        · have := hi.finAll h4
          show i * S.n v < bump c u v
          omega
      · rintro ⟨h8, h9, h10⟩
        dsimp only at h8 h9 h10
        subst h8
        rw [hf] at h4
        rcases h4 with h4 | h4
        · omega
        · cases h4
      · rcases h4 with h4 | h4
        · exact Or.inl (Nat.le_trans h4 hle)
        · exact Or.inr ⟨h4, hi.atFinish v u⟩
    · simp only [Prod.mk.injEq] at h1 h3
      obtain ⟨rfl, rfl⟩ := h1
      obtain ⟨rfl, rfl⟩ := h3
      refine ⟨j, i, rfl, rfl, h4, ?_, ?_, Or.inl ?_⟩
      · have := hexp i
        rw [bump_self]
        show i * S.n v < c v + 1
        omega
      · rintro ⟨h8, h9, -⟩
        exact h5 ⟨h8, h9⟩
      · rw [bump_self]
        exact Nat.le_of_eq h2

theorem intraOf_append {s : State V} {cs : List (Constraint V)} {t u : Int} {node : Id} {is : List Nat}
    (h : cs.map (fun x => (x.submap, x.node, x.intra)) = is.map (fun i : Nat => (((t, (i : Int)) : Id), node, true))) :
    (cs.filter (fun x => x.intra && decide (x.submap.1 = u))).map (fun x => (x.submap, x.node)) =
      if u = t then is.map (fun i : Nat => (((t, (i : Int)) : Id), node)) else [] := by
  induction cs generalizing is with
  | nil =>
    cases is with
    | nil => simp
    | cons => simp at h
  | cons x cs ih =>
    cases is with
    | nil => simp at h
    | cons i is =>
      rw [List.map_cons, List.map_cons] at h
      obtain ⟨h1, h2⟩ := List.cons.inj h
      simp only [Prod.mk.injEq] at h1
      obtain ⟨h3, h4, h5⟩ := h1
      have := ih h2
      rw [List.filter_cons, h5, h3]
      by_cases hu : u = t
      · subst hu
        simp only [decide_true, Bool.and_self, if_true, List.map_cons, h3, h4] at this ⊢
        rw [this]
      · have hne : ¬ t = u := fun h => hu h.symm
        simp only [hne, decide_false, Bool.and_false, hu, if_false] at this ⊢
        exact this

theorem Inv.runNode (hi : Inv S A po seen s c fin) (wf : Wf s) {t : Int} {l : List (Item V)} (h : s.queue = S.item t (c t) :: l)
    (hc : c t < A t) (hw : s.worker = .idle) {poses : List V} (hp : 2 ≤ poses.length) :
    ∃ s', runItem { s with
        queue := l } poses (S.item t (c t)) = some s' ∧ Inv S A po seen s' (bump c t) fin := by
  have h0 : 0 ≤ t := by
    by_contra hn
    have := hi.neg t (by omega)
    omega
  have hf : fin t = false := by
    cases hf : fin t with
    | false => rfl
    | true => have := hi.finAll hf; omega
  obtain ⟨submaps, optNodes, optSubmaps, cs, todo, e, d1, d2, d3, d4, d5, d6⟩ :=
    computeConstraints_ok (s := { s with
      queue := l }) h0 hc hf ⟨wf.submaps, wf.nodes, wf.optSubmaps, wf.optNodes⟩ hp hi.nodes hi.submaps hi.optNodes hi.optSubmaps
  have hwant := wanted_bump hi hf
  have hasked := hi.asked
  rw [hw] at hasked
  simp only [todoOf, List.append_nil] at hasked
  have hnd := hi.nodup
  rw [hw] at hnd
  simp only [todoOf, List.append_nil] at hnd
  have hpend := pend_cons h
  have htraj : (S.item t (c t) : Item V).traj = t := rfl
  refine ⟨_, e, ?_⟩
  exact {
    nodes := hi.nodes
    submaps := d1
    optNodes := d2
    optSubmaps := d3
    neg := hi.neg
    le := by
      intro u
      unfold bump
      have := hi.le u
      split
      · rename_i hu; subst hu; omega
      · exact this
    trajs := hi.trajs
    pending := by
      intro u
      have h1 := hi.pending u
      rw [hpend u, List.filter_append] at h1
      by_cases hu : u = t
      · subst hu
        rw [bump_self]
        rw [htraj, if_pos rfl] at h1
        have h2 : A u - c u = (A u - (c u + 1)) + 1 := by omega
        rw [h2, List.range'_succ, List.map_cons, List.filter_cons] at h1
        simp only [Setup.item, Item.real, if_true, List.filter_nil, List.cons_append, List.nil_append, List.cons.injEq,
          true_and] at h1
        exact h1
      · rw [bump_ne hu]
        rw [htraj, if_neg hu, List.filter_nil, List.nil_append] at h1
        exact h1
    finPending := by
      intro u hu
      have h1 := hi.finPending u hu
      rw [hpend u] at h1
      exact ⟨h1.1, (List.append_eq_nil_iff.1 h1.2).2⟩
    lastFinish := by
      intro u h1 h2
      have h3 := hi.lastFinish u h1 h2
      rw [hpend u] at h3
      split at h3
      · cases hl : PoseGraph.pend { s with
            queue := l } u with
        | nil => rw [hl] at h3; simp [Setup.item] at h3
        | cons a b =>
          rw [hl, List.singleton_append, List.getLast?_cons_cons] at h3
          refine Eq.trans ?_ h3
          exact congrArg _ hl
      · exact h3
    trimmers := hi.trimmers
    intra := by
      intro u
      have h1 := hi.intra u
      unfold intraOf at h1 ⊢
      dsimp only
      rw [List.filter_append, List.map_append, h1, intraOf_append (s := s) d4]
      by_cases hu : u = t
      · subst hu
        rw [if_pos rfl, bump_self, List.range_succ, List.flatMap_append]
        simp [Setup.links]
      · rw [if_neg hu, bump_ne hu, List.append_nil]
    nodup := by
      show (seen.asked ++ todo).Nodup
      rw [List.nodup_append]
      refine ⟨hnd, d5, ?_⟩
      rintro ⟨y, m⟩ h1 ⟨y', m'⟩ h2 he
      obtain ⟨rfl, rfl⟩ := Prod.mk.inj he
      have h3 := (hasked y m).1 h1
      obtain ⟨j, i, e1, e2, e3, e4, e5, e6⟩ := h3
      rcases (d6 y m).1 h2 with ⟨rfl, -⟩ | ⟨i', j', u, rfl, g2, rfl, g4, g5⟩
      · dsimp only at e1 e3
        omega
      · dsimp only at e2 e6
        have : i' = i := by omega
        subst this
        rw [hf] at e6
        rcases e6 with e6 | e6
        · omega
        · cases e6.1
    asked := by
      intro y m
      show (y, m) ∈ seen.asked ++ todo ↔ _
      rw [List.mem_append, hasked, hwant]
      exact or_congr Iff.rfl (d6 y m)
    searches := hi.searches
    results := fun r hr => by cases hr
    atFinish := by
      intro v u
      refine Nat.le_trans (hi.atFinish v u) ?_
      unfold bump
      split <;> omega
    atFinishSelf := by
      intro v hv
      have hne : v ≠ t := by rintro rfl; rw [hf] at hv; cases hv
      rw [bump_ne hne]
      exact hi.atFinishSelf v hv }

/-- The worker goes on; constraints between submaps may be added. -/
theorem Inv.work (hi : Inv S A po seen s c fin) {seen' : Seen} {worker : Worker V} {searches : List (Id × Id)}
    {result : List (Constraint V)} (hr : ∀ x ∈ result, x.intra = false)
    (ha : seen'.asked ++ todoOf worker = seen.asked ++ todoOf s.worker) (hat : seen'.atFinish = seen.atFinish)
    (hs : ∀ p ∈ searches, p ∈ seen'.asked)
    (hres : ∀ r, worker = .optimized r → ∀ x ∈ r, (x.node, x.submap) ∈ seen'.asked) :
    Inv S A po seen' { s with
      constraints := s.constraints ++ result
      searches := searches
      worker := worker } c fin where
  nodes := hi.nodes
  submaps := hi.submaps
  optNodes := hi.optNodes
  optSubmaps := hi.optSubmaps
  neg := hi.neg
  le := hi.le
  trajs := hi.trajs
  pending := hi.pending
  finPending := hi.finPending
  lastFinish := hi.lastFinish
  trimmers := hi.trimmers
  intra := by
    intro u
    have h1 := hi.intra u
    unfold intraOf at h1 ⊢
    dsimp only
    rw [List.filter_append, List.map_append, h1]
    have : result.filter (fun x => x.intra && decide (x.submap.1 = u)) = [] := by
      rw [List.filter_eq_nil_iff]
      intro x hx
      simp [hr x hx]
    rw [this]
    simp
  nodup := by
    show (seen'.asked ++ todoOf worker).Nodup
    rw [ha]; exact hi.nodup
  asked := by
    intro y m
    show _ ∈ seen'.asked ++ todoOf worker ↔ _
    rw [ha, hat]; exact hi.asked y m
  searches := hs
  results := hres
  atFinish := by rw [hat]; exact hi.atFinish
  atFinishSelf := by rw [hat]; exact hi.atFinishSelf

theorem Inv.search (hi : Inv S A po seen s c fin) {p : Id × Id} {todo : List (Id × Id)} (hw : s.worker = .searching (p :: todo))
    (how : Search) :
    ∃ s', computeConstraint { s with
        worker := .searching todo } p.1 p.2 how = some s' ∧
      Inv S A po { seen with asked := seen.asked ++ [p] } s' c fin := by
  have hmem : (p.1, p.2) ∈ seen.asked ++ todoOf s.worker := by rw [hw]; simp [todoOf]
  have hwant := (hi.asked p.1 p.2).1 hmem
  obtain ⟨⟨sm, g1, g2⟩, -, g4, g5⟩ := hi.wanted hwant
  have hl := hi.latest hwant
  have hl' : latestNodeTime { s with
      worker := .searching todo } p.1 p.2 = some () := hl
  have key : ∀ searches : List (Id × Id), (∀ q ∈ searches, q ∈ s.searches ∨ q = p) →
      Inv S A po { seen with asked := seen.asked ++ [p] } { s with
        constraints := s.constraints ++ []
        searches := searches
        worker := .searching todo } c fin := by
    intro searches hs
    refine hi.work (by simp) ?_ rfl ?_ ?_
    · rw [hw]; simp [todoOf]
    · intro q hq
      rcases hs q hq with h | h
      · exact List.mem_append_left _ (hi.searches q h)
      · simp [h]
    · intro r h; cases h
  unfold computeConstraint
  have hg : (guard (sm.finished = true) : Option Unit) = some () := guard_some.2 g2
  simp only [g1, hg, Option.bind_eq_bind, Option.bind_some]
  cases how with
  | skip =>
    refine ⟨_, rfl, ?_⟩
    have := key s.searches (fun q hq => Or.inl hq)
    rw [List.append_nil] at this
    exact this
  | sampledOut =>
    refine ⟨{ s with
      worker := .searching todo }, by simp only [hl', Option.bind_some], ?_⟩
    have := key s.searches (fun q hq => Or.inl hq)
    rw [List.append_nil] at this
    exact this
  | locally =>
    refine ⟨{ s with
      worker := .searching todo
      searches := s.searches ++ [(p.1, p.2)] }, by simp only [hl', g4, g5, Option.bind_some], ?_⟩
    have := key (s.searches ++ [(p.1, p.2)]) (fun q hq => by simpa using hq)
    rw [List.append_nil] at this
    exact this
  | globally =>
    refine ⟨{ s with
      worker := .searching todo
      searches := s.searches ++ [(p.1, p.2)] }, by simp only [hl', Option.bind_some], ?_⟩
    have := key (s.searches ++ [(p.1, p.2)]) (fun q hq => by simpa using hq)
    rw [List.append_nil] at this
    exact this

theorem Inv.endSearch (hi : Inv S A po seen s c fin) (hw : s.worker = .searching []) :
    Inv S A po seen { s with
      worker := .idle } c fin := by
  have := hi.work (seen' := seen) (worker := .idle) (searches := s.searches) (result := []) (by simp) (by rw [hw]; rfl) rfl
    hi.searches (fun r h => by cases h)
  rw [List.append_nil] at this
  exact this

theorem Inv.optimize (hi : Inv S A po seen s c fin) (wf : Wf s) (hw : s.worker = .idle) {result : List (Constraint V)}
    (hr : ∀ x ∈ result, x.intra = false ∧ (x.node, x.submap) ∈ s.searches) :
    ∃ s', PoseGraph.optimize s result = some s' ∧ Inv S A po seen s' c fin := by
  refine ⟨{ s with
      constraints := s.constraints ++ result
      searches := []
      worker := .optimized result }, ?_, ?_⟩
  · unfold PoseGraph.optimize
    rw [if_pos]
    right
    rw [List.all_eq_true]
    intro e he
    obtain ⟨j, h1, h2⟩ := (mem_ids_dense wf.optNodes hi.optNodes).1 (List.mem_map.2 ⟨e, he, rfl⟩)
    obtain ⟨⟨u, x⟩, z⟩ := e
    dsimp only at h1 h2
    subst h1
    have := hi.le u
    rw [hi.nodes.at_nat, replicate_get, if_pos (by omega)]
    rfl
  · refine hi.work (fun x hx => (hr x hx).1) (by rw [hw]; rfl) rfl (by simp) ?_
    intro r h x hx
    cases h
    exact hi.searches _ (hr x hx).2

theorem updateConnectivity_ok {r : List (Constraint V)} (h : ∀ x ∈ r, latestNodeTime s x.node x.submap = some ()) :
    updateConnectivity s r = some () := by
  induction r with
  | nil => rfl
  | cons x r ih =>
    unfold updateConnectivity
    rw [h x (by simp)]
    exact ih (fun y hy => h y (by simp [hy]))

theorem deleteTrajectories_ok {ts : List Int} (h : ∀ t, (trajOf s.trajs t).deletion = .normal) :
    deleteTrajectories s ts = some s := by
  induction ts with
  | nil => rfl
  | cons t ts ih =>
    unfold deleteTrajectories deleteIfNeeded
    rw [if_neg (by rw [h t]; simp)]
    exact ih

theorem Inv.trim (hi : Inv S A po seen s c fin) {r : List (Constraint V)} (hw : s.worker = .optimized r)
    (choices : List (List Id)) :
    ∃ s', handleTrimming { s with
        worker := .idle } r choices = some s' ∧ Inv S A po seen s' c fin := by
  have h1 : updateConnectivity { s with
      worker := .idle } r = some () := by
    apply updateConnectivity_ok
    intro x hx
    have h2 := hi.results r hw x hx
    exact hi.latest ((hi.asked _ _).1 (List.mem_append_left _ h2))
  have h2 : deleteTrajectories { s with
      worker := .idle } (s.trajs.map (·.1)) = some { s with
      worker := .idle } := by
    apply deleteTrajectories_ok
    intro t
    show (trajOf s.trajs t).deletion = .normal
    rw [hi.trajs]
  refine ⟨{ s with
      worker := .idle }, ?_, ?_⟩
  · unfold handleTrimming
    simp only [h1, h2, Option.bind_eq_bind, Option.bind_some]
    simp [hi.trimmers, runTrimmers]
  · have := hi.work (seen' := seen) (worker := .idle) (searches := s.searches) (result := []) (by simp) (by rw [hw]; rfl) rfl
      hi.searches (fun r h => by cases h)
    rw [List.append_nil] at this
    exact this

end Verif.PoseGraph
