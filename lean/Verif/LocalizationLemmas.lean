import Verif.LocalizationMaps

/-!
# Localization in a loaded map: functions of the pose graph

What the functions of the pose graph do when the first submaps and nodes of trajectories were removed, compared with what they do when nothing was removed.
-/

namespace Verif.Localize

open PoseGraph
open MapById

variable {V : Type} {mine : Int → Bool} {S : Setup} {lo : Int → Nat}

/-- When the submaps below index `lo t` are removed, so are the nodes below this index. -/
def loN (S : Setup) (lo : Int → Nat) (t : Int) : Nat := lo t * S.n t

/-- `s` has of the trajectories that do not come from files what `s0` has, without the first `lo t` submaps. -/
structure Cuts (S : Setup) (mine : Int → Bool) (lo : Int → Nat) (s s0 : State V) : Prop where
  submaps : Cut mine lo s.submaps s0.submaps
  nodes : Cut mine (loN S lo) s.nodes s0.nodes
  optSubmaps : Cut mine lo s.optSubmaps s0.optSubmaps
  optNodes : Cut mine (loN S lo) s.optNodes s0.optNodes

/-! ### `AddNode` -/

theorem addIfNeeded_default {l : List (Int × TrajState)} {t : Int} (h : trajOf l t = {}) :
    addTrajectoryIfNeeded l t = some (SMap.put t (trajOf l t) l) ∧ canModify (SMap.put t (trajOf l t) l) t = true := by
  refine ⟨?_, canModify_default (by rw [trajOf_put]; exact h)⟩
  unfold addTrajectoryIfNeeded
  rw [h]
  rfl

theorem last_ptr {s s0 : State V} (c : Cut mine lo s.submaps s0.submaps) {t : Int} (ht : mine t = false) (ha : Alive lo s0.submaps t) :
    (lastId s.submaps t).bind (ptrAt s.submaps) = (lastId s0.submaps t).bind (ptrAt s0.submaps) := by
  obtain ⟨_, _, n3, _⟩ := c.next ht ha
  rw [n3]
  rcases ha with ⟨h, _⟩ | ⟨j, h, hj⟩
  · rw [(empty_lastId c.wf0 h).1]
    rfl
  · rw [(last_lastId c.wf0 h).1]
    simp only [Option.bind_some, ptrAt]
    rw [c.live ht hj]

theorem appendNode_cut {s s0 s0' : State V} (k : Cuts S mine lo s s0) {t : Int} (ht : mine t = false) (htr : trajOf s.trajs t = {}) (ha1 : Alive lo s0.submaps t)
    (ha2 : Alive (loN S lo) s0.nodes t) {ins : List Nat} {id : Id} (h : appendNode s0 t ins = some (s0', id)) :
    ∃ trajs nodes submaps, appendNode s t ins = some ({ s with trajs := trajs, nodes := nodes, submaps := submaps }, id) ∧
      Cuts S mine lo { s with trajs := trajs, nodes := nodes, submaps := submaps } s0' ∧ (∀ u, trajOf trajs u = trajOf s.trajs u) := by
  obtain ⟨e1, e2⟩ := addIfNeeded_default htr
  obtain ⟨_, _, _, n4⟩ := k.submaps.next ht ha1
  have hl := last_ptr k.submaps ht ha1
  simp only [appendNode, Option.bind_eq_bind, Option.bind_eq_some_iff, guard_some] at h
  obtain ⟨trajs0, h1, _, h2, ⟨nodes0, id'⟩, h3, back, h4, h5⟩ := h
  obtain ⟨nodes, g3, cn, _⟩ := k.nodes.append_both ht ha2 h3
  by_cases hc : sizeOfTrajectoryOrZero s0.submaps t = 0 ∨ (lastId s0.submaps t).bind (ptrAt s0.submaps) ≠ some back
  · rw [if_pos hc] at h5
    simp only [Option.bind_eq_some_iff, Option.some.injEq, Prod.mk.injEq] at h5
    obtain ⟨⟨submaps0, id2⟩, h6, rfl, rfl⟩ := h5
    obtain ⟨submaps, g6, cs, _⟩ := k.submaps.append_both ht ha1 h6
    refine ⟨SMap.put t (trajOf s.trajs t) s.trajs, nodes, submaps, ?_, ⟨cs, cn, k.optSubmaps, k.optNodes⟩, fun u => trajOf_put⟩
    simp only [appendNode, e1, e2, g3, h4, hl, n4, if_pos hc, g6, guard, if_true, Option.bind_eq_bind, Option.bind_some, Option.pure_def]
  · rw [if_neg hc] at h5
    simp only [Option.some.injEq, Prod.mk.injEq] at h5
    obtain ⟨rfl, rfl⟩ := h5
    refine ⟨SMap.put t (trajOf s.trajs t) s.trajs, nodes, s.submaps, ?_, ⟨k.submaps, cn, k.optSubmaps, k.optNodes⟩, fun u => trajOf_put⟩
    simp only [appendNode, e1, e2, g3, h4, hl, n4, if_neg hc, guard, if_true, Option.bind_eq_bind, Option.bind_some, Option.pure_def]

/-! ### The first part of a work item for a node -/

theorem at_neg {D : Type} {m : Map D} (hm : WF m) {t i : Int} (hi : i < 0) : at? m (t, i) = none := by
  cases h : at? m (t, i) with
  | none => rfl
  | some d =>
    simp only [at?, Option.bind_eq_some_iff] at h
    obtain ⟨tr, h1, h2⟩ := h
    have := hm.inonneg _ (SMap.mem_of_get? h1) _ (SMap.mem_of_get? h2)
    dsimp only at this
    omega

theorem Cut.size_eq {D : Type} {m m0 : Map D} (c : Cut mine lo m m0) {t : Int} (ht : mine t = false) (h0 : lo t = 0) : sizeOfTrajectoryOrZero m t = sizeOfTrajectoryOrZero m0 t := by
  rw [size_idsOf, size_idsOf, idsOf_congr c.wf c.wf0]
  intro i
  rw [c.at_eq t ht, h0]
  by_cases hi : ((0 : Nat) : Int) ≤ i
  · rw [if_pos hi]
  · rw [if_neg hi, at_neg c.wf0 (by omega)]

theorem init_cut {s s0 : State V} (k : Cuts S mine lo s s0) {t : Int} (ht : mine t = false) (ha : Alive lo s0.optSubmaps t) {ins : List Nat} (h1 : ins.length = 1 → lo t = 0)
    (h2 : ins.length = 2 → ∃ j, Last s0.optSubmaps t j ∧ (lo t : Int) ≤ j ∧ ((lo t : Int) = j → ptrAt s0.submaps (t, j) = ins.head?)) {opt0 : Map Unit} {ids : List Id} (h : initializeGlobalSubmapPoses s0 t ins = some (opt0, ids)) :
    ∃ opt, initializeGlobalSubmapPoses s t ins = some (opt, ids) ∧ Cut mine lo opt opt0 ∧ ∀ id ∈ ids, id.1 = t ∧ (lo t : Int) ≤ id.2 := by
  unfold initializeGlobalSubmapPoses at h
  split at h
  · rename_i p
    have h0 := h1 rfl
    simp only [Option.bind_eq_bind, Option.bind_eq_some_iff, guard_some, Option.some.injEq, Prod.mk.injEq] at h
    obtain ⟨o, g1, _, g2, _, g3, rfl, rfl⟩ := h
    have hf : ∃ o', addFirstSubmap s.optSubmaps t = some o' ∧ Cut mine lo o' o := by
      obtain ⟨_, _, _, n4⟩ := k.optSubmaps.next ht ha
      unfold addFirstSubmap at g1 ⊢
      simp only [n4]
      split at g1
      · rename_i hz
        rw [if_pos hz]
        simp only [Option.map_eq_some_iff] at g1
        obtain ⟨⟨o2, id2⟩, g4, rfl⟩ := g1
        obtain ⟨o', g5, c', _⟩ := k.optSubmaps.append_both ht ha g4
        exact ⟨o', by rw [g5]; rfl, c'⟩
      · rename_i hz
        rw [if_neg hz]
        obtain rfl := Option.some.inj g1
        exact ⟨_, rfl, k.optSubmaps⟩
    obtain ⟨o', f1, f2⟩ := hf
    have e2 : sizeOfTrajectoryOrZero o' t = 1 := by rw [f2.size_eq ht h0]; exact g2
    have e3 : ptrAt s.submaps (t, 0) = some p := by
      rw [← g3]
      unfold ptrAt
      rw [k.submaps.live (id := (t, 0)) ht (by rw [h0]; simp)]
    refine ⟨o', ?_, f2, ?_⟩
    · simp only [initializeGlobalSubmapPoses, f1, e2, e3, guard, if_true, Option.bind_eq_bind, Option.bind_some, Option.pure_def]
    · intro id hid
      rw [List.mem_singleton.1 hid, h0]
      exact ⟨rfl, by simp⟩
  · rename_i p q
    obtain ⟨j, hj1, hj2, hj3⟩ := h2 rfl
    have l0 := (last_lastId k.optSubmaps.wf0 hj1).1
    have l1 := (last_lastId k.optSubmaps.wf (k.optSubmaps.last ht hj1 (by omega))).1
    have p1 : ∀ i, (lo t : Int) ≤ i → ptrAt s.submaps (t, i) = ptrAt s0.submaps (t, i) := by
      intro i hi
      unfold ptrAt
      rw [k.submaps.live (id := (t, i)) ht hi]
    simp only [Option.bind_eq_bind, Option.bind_eq_some_iff] at h
    obtain ⟨last, g1, lastPtr, g2, g3⟩ := h
    rw [l0] at g1
    obtain rfl := Option.some.inj g1
    have g2' := g2
    rw [← p1 j (by omega)] at g2
    split at g3
    · rename_i hp
      simp only [Option.bind_eq_some_iff, Option.some.injEq, Prod.mk.injEq] at g3
      obtain ⟨⟨o2, id2⟩, g4, rfl, rfl⟩ := g3
      obtain ⟨o', g5, c', _⟩ := k.optSubmaps.append_both ht ha g4
      refine ⟨o', ?_, c', ?_⟩
      · simp only [initializeGlobalSubmapPoses, l1, g2, hp, g5, if_true, Option.bind_eq_bind, Option.bind_some]
      · intro id hid
        simp only [List.mem_cons, List.not_mem_nil, or_false] at hid
        rcases hid with rfl | rfl
        · exact ⟨rfl, by dsimp only; omega⟩
        · exact ⟨rfl, by dsimp only; omega⟩
    · rename_i hp
      simp only [Option.bind_eq_some_iff, guard_some, Option.some.injEq, Prod.mk.injEq] at g3
      obtain ⟨_, g4, _, g5, rfl, rfl⟩ := g3
      have hj4 : (lo t : Int) + 1 ≤ j := by
        by_contra hc
        have := hj3 (by omega)
        rw [g2'] at this
        exact hp (Option.some.inj this)
      refine ⟨s.optSubmaps, ?_, k.optSubmaps, ?_⟩
      · rw [← p1 (j - 1) (by omega)] at g5
        subst g4
        simp only [initializeGlobalSubmapPoses, l1, g2, if_neg hp, g5, guard, if_true, Option.bind_eq_bind, Option.bind_some, Option.pure_def]
      · intro id hid
        simp only [List.mem_cons, List.not_mem_nil, or_false] at hid
        rcases hid with rfl | rfl
        · exact ⟨rfl, by dsimp only; omega⟩
        · exact ⟨rfl, by dsimp only; omega⟩
  · cases h

theorem insertIntras_cut {node : Id} : ∀ {ids : List Id} {poses : List V} {s s0 s0' : State V}, Cut mine lo s.submaps s0.submaps → (∀ id ∈ ids, mine id.1 = false ∧ (lo id.1 : Int) ≤ id.2) →
    insertIntras s0 node ids poses = some s0' → ∃ submaps cs, insertIntras s node ids poses = some { s with submaps := submaps, constraints := s.constraints ++ cs } ∧ Cut mine lo submaps s0'.submaps := by
  intro ids
  induction ids with
  | nil =>
    intro poses s s0 s0' c _ h
    simp only [insertIntras, Option.some.injEq] at h
    subst h
    exact ⟨s.submaps, [], by simp [insertIntras], c⟩
  | cons id ids ih =>
    intro poses s s0 s0' c hl h
    cases poses with
    | nil => simp [insertIntras] at h
    | cons pose poses =>
      simp only [insertIntras, Option.bind_eq_bind, Option.bind_eq_some_iff] at h
      obtain ⟨s1, h1, h2⟩ := h
      simp only [insertIntra, Option.bind_eq_bind, Option.bind_eq_some_iff, guard_some, Option.some.injEq] at h1
      obtain ⟨sm, g1, _, g2, m0', g3, rfl⟩ := h1
      obtain ⟨a1, a2⟩ := hl id List.mem_cons_self
      obtain ⟨m', g4, c', _⟩ := c.assign_both a1 a2 g3
      obtain ⟨submaps, cs, e, c''⟩ := ih (s := { s with submaps := m', constraints := s.constraints ++ [⟨id, node, pose, true⟩] }) c'
        (fun i hi => hl i (List.mem_cons_of_mem _ hi)) h2
      refine ⟨submaps, ⟨id, node, pose, true⟩ :: cs, ?_, c''⟩
      rw [g2] at g4
      simp only [insertIntras, insertIntra, c.live a1 a2, g1, g2, g4, e, guard, if_true, Option.bind_eq_bind, Option.bind_some, Option.pure_def, List.append_assoc, List.singleton_append]

theorem markFinished_cut {m m0 m0' : Map Submap} (c : Cut mine lo m m0) {id : Id} (ht : mine id.1 = false) (hi : (lo id.1 : Int) ≤ id.2) (h : markFinished m0 id = some m0') :
    ∃ m', markFinished m id = some m' ∧ Cut mine lo m' m0' := by
  obtain ⟨sm, h1, h2⟩ := markFinished_inv h
  obtain ⟨m', h3, c', _⟩ := c.assign_both ht hi h2
  exact ⟨m', by simp only [markFinished, c.live ht hi, h1, h3, Option.bind_eq_bind, Option.bind_some], c'⟩

/-- What is left of the searches refers to nodes of the optimization problem and finished submaps. -/
def TodoOk (s : State V) (todo : List (Id × Id)) : Prop :=
  ∀ p ∈ todo, (at? s.optNodes p.1).isSome ∧ ∃ sm, at? s.submaps p.2 = some sm ∧ sm.finished = true

/-- **A node is processed** as if nothing had been removed. -/
theorem computeConstraints_cut {s s0 s0' : State V} (ap : Loading.Apart mine s) (wf : Wf s) (k : Cuts S mine lo s s0) {node : Id} (ht : mine node.1 = false) (hnode : (loN S lo node.1 : Int) ≤ node.2)
    {ins : List Nat} {nf : Bool} {poses : List V} (ha : Alive lo s0.optSubmaps node.1) (ha2 : Alive (loN S lo) s0.optNodes node.1) (h1 : ins.length = 1 → lo node.1 = 0)
    (h2 : ins.length = 2 → ∃ j, Last s0.optSubmaps node.1 j ∧ (lo node.1 : Int) ≤ j ∧ ((lo node.1 : Int) = j → ptrAt s0.submaps (node.1, j) = ins.head?)) (h : computeConstraints s0 node ins nf poses = some s0')
    (hopt : (at? s0'.optNodes node).isSome) :
    ∃ submaps optSubmaps optNodes cs todo, computeConstraints s node ins nf poses = some { s with
        submaps := submaps, optSubmaps := optSubmaps, optNodes := optNodes, constraints := s.constraints ++ cs, worker := .searching todo } ∧
      Cuts S mine lo { s with submaps := submaps, optSubmaps := optSubmaps, optNodes := optNodes, constraints := s.constraints ++ cs, worker := .searching todo } s0' ∧
      TodoOk { s with submaps := submaps, optSubmaps := optSubmaps, optNodes := optNodes, constraints := s.constraints ++ cs, worker := .searching todo } todo := by
  simp only [computeConstraints, Option.bind_eq_bind, Option.bind_eq_some_iff, guard_some] at h
  obtain ⟨u, g1, ⟨opt0, ids⟩, g2, _, g3, matching, g4, u', g5, ⟨optNodes0, id1⟩, g6, s1, g7, _, g8, g9⟩ := h
  obtain ⟨opt, i1, i2, i3⟩ := init_cut k ht ha h1 h2 g2
  have hmm := i3 matching (List.mem_of_mem_head? g4)
  have hmt : mine matching.1 = false := by rw [hmm.1]; exact ht
  have hml : (lo matching.1 : Int) ≤ matching.2 := by rw [hmm.1]; exact hmm.2
  rw [hmm.1] at g6
  obtain ⟨optNodes, n1, n2, _⟩ := k.optNodes.append_both ht ha2 g6
  obtain ⟨submaps, cs, j1, j2⟩ := insertIntras_cut (s := { s with optSubmaps := opt, optNodes := optNodes }) (s0 := { s0 with optSubmaps := opt0, optNodes := optNodes0 }) k.submaps
    (fun id hid => by rw [(i3 id hid).1]; exact ⟨ht, (i3 id hid).2⟩) g7
  obtain ⟨m1, cs1, rfl, w1, _⟩ := insertIntras_spec (s := { s0 with optSubmaps := opt0, optNodes := optNodes0 }) k.submaps.wf0 g7
  have wf1 : Wf { s with optSubmaps := opt, optNodes := optNodes } := ⟨wf.1, wf.2, i2.wf, n2.wf⟩
  have ap1 : Loading.Apart mine { s with optSubmaps := opt, optNodes := optNodes } := ⟨ap.queue, ap.inflight, ap.trimmers, ap.members, ap.searches, ap.todo, ap.deletion⟩
  obtain ⟨_, ap2, wf2⟩ := Loading.insertIntras_frame wf1 ap1 ht (fun id hid => (i3 id hid).1) j1
  dsimp only at j2
  have en : at? s.nodes node = some u := by rw [k.nodes.live ht hnode]; exact g1
  have em : at? opt matching = some u' := by rw [i2.live hmt hml]; exact g5
  have eg : (flat submaps).all (fun e => !(e.2.finished && decide (node ∈ e.2.nodeIds))) = true := by
    rw [List.all_eq_true] at g8 ⊢
    rintro ⟨id, sm⟩ he
    have hat := (MapById.at?_iff_mem j2.wf).2 he
    cases hm : mine id.1 with
    | false =>
      exact g8 _ ((MapById.at?_iff_mem j2.wf0).1 (j2.is_some hm hat).2)
    | true =>
      have hn : node ∉ sm.nodeIds := by
        intro hn
        have := ap2.members id sm hat node hn
        rw [ht, hm] at this
        cases this
      simp [hn]
  rw [← hmm.1] at n1
  have fin_ok : ∀ id ∈ finishedIds submaps, ∃ sm, at? submaps id = some sm ∧ sm.finished = true := fun id hid => (mem_finishedIds j2.wf).1 hid
  cases nf with
  | false =>
    simp only [Bool.false_eq_true, if_false, Option.some.injEq] at g9
    subst g9
    have hnode' : (at? optNodes node).isSome := by rw [n2.live ht hnode]; exact hopt
    refine ⟨submaps, opt, optNodes, cs, (finishedIds submaps).map (fun id => (node, id)), ?_, ⟨j2, k.nodes, i2, n2⟩, ?_⟩
    · simp only [computeConstraints, en, i1, g3, g4, em, n1, j1, eg, guard, if_true, Option.bind_eq_bind, Option.bind_some, Option.pure_def, Bool.false_eq_true, if_false]
    · intro p hp
      obtain ⟨id, hid, rfl⟩ := List.mem_map.1 hp
      exact ⟨hnode', fin_ok id hid⟩
  | true =>
    simp only [if_true, Option.bind_eq_some_iff, guard_some, Option.some.injEq] at g9
    obtain ⟨sm, g10, _, g11, m2, g12, rfl⟩ := g9
    obtain ⟨submaps', q1, q2⟩ := markFinished_cut j2 hmt hml g12
    have e10 : at? submaps matching = some sm := by rw [j2.live hmt hml]; exact g10
    have hnode' : (at? optNodes node).isSome := by rw [n2.live ht hnode]; exact hopt
    have hle := (markFinished_spec j2.wf q1).2
    have hmf : ∃ sm, at? submaps' matching = some sm ∧ sm.finished = true := by
      obtain ⟨sm', a1, a2⟩ := markFinished_inv q1
      obtain ⟨_, _, a3⟩ := assign_spec j2.wf a2
      exact ⟨{ sm' with finished := true }, by rw [a3, if_pos rfl], rfl⟩
    refine ⟨submaps', opt, optNodes, cs, (finishedIds submaps).map (fun id => (node, id)) ++
      (((flat optNodes).map (·.1)).filter (fun n => n ∉ sm.nodeIds)).map (fun n => (n, matching)), ?_, ⟨q2, k.nodes, i2, n2⟩, ?_⟩
    · simp only [computeConstraints, en, i1, g3, g4, em, n1, j1, eg, guard, if_true, Option.bind_eq_bind, Option.bind_some, Option.pure_def, e10, g11, q1]
    · intro p hp
      rcases List.mem_append.1 hp with hp | hp
      · obtain ⟨id, hid, rfl⟩ := List.mem_map.1 hp
        obtain ⟨sm1, b1, b2⟩ := fin_ok id hid
        obtain ⟨sm2, b3, b4⟩ := hle.mem b1
        exact ⟨hnode', sm2, b3, b4.2.1 b2⟩
      · obtain ⟨n, hn, rfl⟩ := List.mem_map.1 hp
        obtain ⟨e, he, rfl⟩ := List.mem_map.1 (List.mem_filter.1 hn).1
        refine ⟨?_, hmf⟩
        dsimp only
        rw [(MapById.at?_iff_mem n2.wf).2 (show (e.1, e.2) ∈ flat optNodes from he)]
        rfl

/-! ### `FinishTrajectory` -/

theorem markAll_cut : ∀ {l : List Id} {m m0 m0' : Map Submap}, Cut mine lo m m0 → (∀ id ∈ l, mine id.1 = false) → markAll m0 l = some m0' →
    ∃ m', markAll m (l.filter fun id => decide ((lo id.1 : Int) ≤ id.2)) = some m' ∧ Cut mine lo m' m0' := by
  intro l
  induction l with
  | nil =>
    intro m m0 m0' c _ h
    obtain rfl := Option.some.inj h
    exact ⟨m, rfl, c⟩
  | cons id l ih =>
    intro m m0 m0' c hl h
    simp only [markAll, Option.bind_eq_bind, Option.bind_eq_some_iff] at h
    obtain ⟨m1, h1, h2⟩ := h
    have ht := hl id List.mem_cons_self
    by_cases hi : (lo id.1 : Int) ≤ id.2
    · rw [List.filter_cons, if_pos (by simpa using hi)]
      obtain ⟨m', a1, a2⟩ := markFinished_cut c ht hi h1
      obtain ⟨m'', b1, b2⟩ := ih a2 (fun i hi => hl i (List.mem_cons_of_mem _ hi)) h2
      exact ⟨m'', by simp only [markAll, a1, b1, Option.bind_eq_bind, Option.bind_some], b2⟩
    · rw [List.filter_cons, if_neg (by simpa using hi)]
      refine ih (m0 := m1) ?_ (fun i hi => hl i (List.mem_cons_of_mem _ hi)) h2
      obtain ⟨sm, a1, a2⟩ := markFinished_inv h1
      obtain ⟨w, _, q⟩ := assign_spec c.wf0 a2
      refine ⟨c.wf, w, ?_, c.app⟩
      intro t ht i
      rw [c.at_eq t ht i, q]
      split
      · rw [if_neg]
        rintro rfl
        exact hi (by assumption)
      · rfl

theorem idsOf_cut {D : Type} {m m0 : Map D} (c : Cut mine lo m m0) {t : Int} (ht : mine t = false) : idsOf m t = (idsOf m0 t).filter fun id => decide ((lo id.1 : Int) ≤ id.2) := by
  refine ids_ext (idsOf_sorted c.wf t) ((idsOf_sorted c.wf0 t).filter _) (fun x hx => ((mem_idsOf c.wf).1 hx).1) (fun x hx => ((mem_idsOf c.wf0).1 (List.mem_filter.1 hx).1).1) ?_
  intro i
  rw [List.mem_filter, mem_idsOf c.wf, mem_idsOf c.wf0, c.at_eq t ht]
  simp only [true_and, decide_eq_true_eq]
  split
  · rename_i h; simp [h]
  · rename_i h; simp [h]

theorem finish_cut {m m0 m0' : Map Submap} (c : Cut mine lo m m0) {t : Int} (ht : mine t = false) (h : markAll m0 (idsOf m0 t) = some m0') :
    ∃ m', markAll m (idsOf m t) = some m' ∧ Cut mine lo m' m0' := by
  rw [idsOf_cut c ht]
  refine markAll_cut c ?_ h
  intro id hid
  rw [((mem_idsOf c.wf0).1 hid).1]
  exact ht

end Verif.Localize
