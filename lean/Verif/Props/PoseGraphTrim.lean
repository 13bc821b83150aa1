import Verif.PoseGraphInvariant

/-!
# Trimming submaps (C34, C35)

The specification uses only which submaps and nodes are stored and the node sets of the submaps.
-/

namespace Verif.PoseGraph

open MapById (Id Map WF at? append insert trim assign contains sizeOfTrajectoryOrZero flat)

variable {P : Type}

open Classical in
/-- C34.  `TrimSubmap` removes the submap, the nodes that belong to no other submap, and the constraints
that refer to one of them.  Everything else stays as it was. -/
theorem trim_submap_exact {s s' : State P} {id : Id} (wf : Wf s) (h : trimSubmap s id = some s') :
    (∃ sm, at? s.submaps id = some sm ∧ sm.finished = true) ∧
    (∀ i, at? s'.submaps i = if i = id then none else at? s.submaps i) ∧
    (∀ i, at? s'.optSubmaps i = if i = id then none else at? s.optSubmaps i) ∧
    (∀ n, at? s'.nodes n = if OnlyIn s.submaps id n then none else at? s.nodes n) ∧
    (∀ n, at? s'.optNodes n = if OnlyIn s.submaps id n then none else at? s.optNodes n) ∧
    s'.constraints = s.constraints.filter (fun c => c.submap ≠ id ∧ ¬ OnlyIn s.submaps id c.node) ∧
    s'.trajs = s.trajs ∧ s'.searches = s.searches ∧ s'.trimmers = s.trimmers ∧ s'.queue = s.queue := by
  obtain ⟨sm, submaps, optSubmaps, nodes, optNodes, h1, h2, h3, h4, h5, h6, rfl⟩ := trimSubmap_inv h
  obtain ⟨-, -, q1⟩ := MapById.trim_spec wf.submaps h3
  obtain ⟨-, -, q2⟩ := MapById.trim_spec wf.optSubmaps h4
  obtain ⟨-, q3⟩ := trimAll_spec wf.nodes h5
  obtain ⟨-, q4⟩ := trimAll_spec wf.optNodes h6
  have hr := at?_nodesToRemove wf h1
  refine ⟨⟨sm, h1, h2⟩, ?_, ?_, ?_, ?_, ?_, rfl, rfl, rfl, rfl⟩
  · intro i
    dsimp only
    rw [q1]
    by_cases hi : id = i
    · rw [if_pos hi, if_pos hi.symm]
    · rw [if_neg hi, if_neg (Ne.symm hi)]
  · intro i
    dsimp only
    rw [q2]
    by_cases hi : id = i
    · rw [if_pos hi, if_pos hi.symm]
    · rw [if_neg hi, if_neg (Ne.symm hi)]
  · intro n
    dsimp only
    rw [q3]
    by_cases hn : OnlyIn s.submaps id n
    · rw [if_pos hn, if_pos ((hr n).2 hn)]
    · rw [if_neg hn, if_neg (fun h => hn ((hr n).1 h))]
  · intro n
    dsimp only
    rw [q4]
    by_cases hn : OnlyIn s.submaps id n
    · rw [if_pos hn, if_pos ((hr n).2 hn)]
    · rw [if_neg hn, if_neg (fun h => hn ((hr n).1 h))]
  · dsimp only
    rw [List.filter_filter]
    apply List.filter_congr
    intro c _
    rw [← Bool.decide_and, decide_eq_decide, hr]
    exact and_comm

/-- C34.  A finished submap that the optimization problem knows is trimmed without a failing `CHECK`. -/
theorem trim_submap_completes {s : State P} {id : Id} {sm : Submap} (hi : Integrity s)
    (h1 : at? s.submaps id = some sm) (h2 : sm.finished = true) (h3 : (at? s.optSubmaps id).isSome)
    (h4 : ∀ n, OnlyIn s.submaps id n → (at? s.nodes n).isSome ∧ (at? s.optNodes n).isSome) :
    (trimSubmap s id).isSome := by
  have hnd : (nodesToRemove s.submaps id sm.nodeIds).Nodup := (hi.nodup _ _ h1).filter _
  have hr := at?_nodesToRemove hi.wf h1
  obtain ⟨m1, e1⟩ := Option.isSome_iff_exists.1 (trim_isSome.2 (by rw [h1]; rfl : (at? s.submaps id).isSome))
  obtain ⟨m2, e2⟩ := Option.isSome_iff_exists.1 (trim_isSome.2 h3)
  obtain ⟨m3, e3⟩ := Option.isSome_iff_exists.1 (trimAll_total hi.wf.nodes hnd (fun n hn => (h4 n ((hr n).1 hn)).1))
  obtain ⟨m4, e4⟩ := Option.isSome_iff_exists.1 (trimAll_total hi.wf.optNodes hnd (fun n hn => (h4 n ((hr n).1 hn)).2))
  simp [trimSubmap, h1, h2, e1, e2, e3, e4, guard]

/-- C34.  The scan matchers deleted are that of the trimmed submap and those of the submaps that lose a
constraint and have no constraint to a node of another submap left. -/
theorem trim_submap_matchers {s s' : State P} {id : Id} (wf : Wf s) (h : trimSubmap s id = some s') (i : Id) :
    i ∈ matchersToDelete s id ↔ i = id ∨
      ((∃ c ∈ s.constraints, c.submap = i ∧ i ≠ id ∧ OnlyIn s.submaps id c.node) ∧
        ∀ c ∈ s'.constraints, c.submap = i → c.intra = true) := by
  obtain ⟨sm, submaps, optSubmaps, nodes, optNodes, h1, h2, h3, h4, h5, h6, rfl⟩ := trimSubmap_inv h
  have hr := at?_nodesToRemove wf h1
  simp only [matchersToDelete, h1, List.mem_append, List.mem_filter, List.mem_map, List.mem_singleton,
    decide_eq_true_eq, hr]
  constructor
  · rintro (⟨⟨c, ⟨⟨c1, c2⟩, c3⟩, rfl⟩, h⟩ | h)
    · right
      refine ⟨⟨c, c1, rfl, c2, c3⟩, ?_⟩
      intro c' hc' he
      by_contra hne
      apply h
      exact ⟨c', ⟨hc', by simpa using hne⟩, he⟩
    · exact Or.inl h
  · rintro (h | ⟨⟨c, c1, rfl, c2, c3⟩, h⟩)
    · exact Or.inr h
    · left
      refine ⟨⟨c, ⟨⟨c1, c2⟩, c3⟩, rfl⟩, ?_⟩
      rintro ⟨c', ⟨hc', hne⟩, he⟩
      have := h c' hc' he
      rw [this] at hne
      cases hne

/-- C34.  In every state reached from the empty pose graph by public operations, work items, found
constraints, deletions and trimmers of any kind, every constraint refers to a submap and a node of the
pose graph. -/
theorem no_dangling_constraints {as : List (Act P)} {s : State P} (h : Exec {} as s) :
    ∀ c ∈ s.constraints, (∃ sm, at? s.submaps c.submap = some sm ∧ (c.intra = true → c.node ∈ sm.nodeIds)) ∧
      (at? s.nodes c.node).isSome :=
  (exec_integrity h Integrity.init).refs

/-- Executions in which `AddNodeToSubmap` is only used for existing nodes. -/
inductive TExec : State P → List (Act P) → State P → Prop where
  | nil {s} : TExec s [] s
  | snoc {s as t a t'} : TExec s as t → Enabled t a → TidyAct t a → exec t a = some t' → TExec s (as ++ [a]) t'

theorem TExec.exec {as : List (Act P)} {s s' : State P} (h : TExec s as s') : Exec s as s' := by
  induction h with
  | nil => exact .nil
  | snoc _ h1 _ h2 ih => exact .snoc ih h1 h2

theorem texec_tidy {as : List (Act P)} {s0 s1 : State P} (h : TExec s0 as s1) (hi : Integrity s0) (ht : Tidy s0) :
    Tidy s1 := by
  induction h with
  | nil => exact ht
  | snoc h0 h1 h2 h3 ih => exact (step_integrity (exec_integrity h0.exec hi) h1 h3).2 ih h2

/-- C34.  The node sets of submaps only contain nodes of the pose graph. -/
theorem no_dangling_nodes {as : List (Act P)} {s : State P} (h : TExec {} as s) :
    ∀ id sm, at? s.submaps id = some sm → ∀ n ∈ sm.nodeIds, (at? s.nodes n).isSome :=
  texec_tidy h Integrity.init (by intro id sm h; simp [at?, SMap.get?] at h)

/-! ### The trimmer for pure localization -/

theorem idsOf_trim {D : Type} {m m' : Map D} {id : Id} {t : Int} (h : trim m id = some m') :
    idsOf m' t = (idsOf m t).filter (fun i => i ≠ id) := by
  have key : ∀ (l : List (Int × D)), ((SMap.erase id.2 l).map (fun e => ((id.1, e.1) : Id))) =
      (l.map (fun e => ((id.1, e.1) : Id))).filter (fun i => i ≠ id) := by
    intro l
    simp only [SMap.erase, List.filter_map]
    congr 1
    apply List.filter_congr
    intro e _
    simp only [Function.comp, decide_eq_decide, ne_eq]
    rw [not_iff_not]
    constructor
    · intro h; exact Prod.ext rfl h
    · intro h; rw [← h]
  simp only [trim] at h
  split at h
  · cases h
  · rename_i tr hg
    split at h
    · cases h
    · by_cases ht : id.1 = t
      · subst ht
        split at h
        · rename_i he
          obtain rfl := Option.some.inj h
          rw [List.isEmpty_iff] at he
          simp only [idsOf, SMap.get?_erase, if_true, Option.elim, List.map_nil, hg]
          rw [← key, he]
          rfl
        · obtain rfl := Option.some.inj h
          simp only [idsOf, SMap.get?_put, if_true, Option.elim, hg]
          rw [← key]
      · have hid : (idsOf m t).filter (fun i => i ≠ id) = idsOf m t := by
          rw [List.filter_eq_self]
          intro i hi
          simp only [idsOf, List.mem_map] at hi
          obtain ⟨e, -, rfl⟩ := hi
          simp only [ne_eq, decide_eq_true_eq]
          rintro rfl
          exact ht rfl
        rw [hid]
        split at h
        · obtain rfl := Option.some.inj h
          simp only [idsOf, SMap.get?_erase, if_neg ht]
        · obtain rfl := Option.some.inj h
          simp only [idsOf, SMap.get?_put, if_neg ht]

theorem mem_idsOf {D : Type} {m : Map D} (hm : WF m) {t : Int} {i : Id} :
    i ∈ idsOf m t ↔ i.1 = t ∧ (at? m i).isSome := by
  simp only [idsOf, List.mem_map]
  constructor
  · rintro ⟨e, he, rfl⟩
    refine ⟨rfl, ?_⟩
    cases hg : SMap.get? t m with
    | none => rw [hg] at he; cases he
    | some tr =>
      rw [hg] at he
      have := SMap.get?_of_mem (hm.dsorted _ (SMap.mem_of_get? hg)) (show (e.1, e.2) ∈ tr.data from he)
      simp [at?, hg, this]
  · rintro ⟨rfl, h⟩
    obtain ⟨d, hd⟩ := Option.isSome_iff_exists.1 h
    simp only [at?, Option.bind_eq_some_iff] at hd
    obtain ⟨tr, h1, h2⟩ := hd
    exact ⟨(i.2, d), by rw [h1]; exact SMap.mem_of_get? h2, rfl⟩

theorem idsOf_sorted {D : Type} {m : Map D} (hm : WF m) (t : Int) :
    (idsOf m t).Pairwise (fun a b => a.2 < b.2) := by
  simp only [idsOf]
  cases hg : SMap.get? t m with
  | none => exact List.Pairwise.nil
  | some tr =>
    rw [List.pairwise_map]
    exact hm.dsorted _ (SMap.mem_of_get? hg)

theorem idsOf_nodup {D : Type} {m : Map D} (hm : WF m) (t : Int) : (idsOf m t).Nodup :=
  (idsOf_sorted hm t).imp (fun h => by rintro rfl; exact absurd h (lt_irrefl _))

/-- Several calls of `TrimSubmap`, in terms of what is stored afterwards. -/
theorem trimSubmaps_exact {ids : List Id} : ∀ {s s' : State P}, Wf s → trimSubmaps s ids = some s' →
    Wf s' ∧ (∀ i, at? s'.submaps i = if i ∈ ids then none else at? s.submaps i) ∧
    (∀ t, idsOf s'.optSubmaps t = (idsOf s.optSubmaps t).filter (fun i => i ∉ ids)) ∧
    (∀ n, (at? s'.nodes n = at? s.nodes n) ∨ ∃ i ∈ ids, ∃ sm, at? s.submaps i = some sm ∧ n ∈ sm.nodeIds) ∧
    (∀ n i sm, at? s'.submaps i = some sm → n ∈ sm.nodeIds → at? s'.nodes n = at? s.nodes n) ∧
    s'.trajs = s.trajs := by
  classical
  induction ids with
  | nil =>
    intro s s' wf h
    simp only [trimSubmaps, Option.some.injEq] at h
    subst h
    exact ⟨wf, by simp, by simp, by simp, by simp, rfl⟩
  | cons id ids ih =>
    intro s s' wf h
    simp only [trimSubmaps, Option.bind_eq_bind, Option.bind_eq_some_iff] at h
    obtain ⟨s1, h1, h2⟩ := h
    obtain ⟨-, a1, a2, a3, -, -, a4, -⟩ := trim_submap_exact wf h1
    have wf1 : Wf s1 := by
      obtain ⟨sm, submaps, optSubmaps, nodes, optNodes, -, -, e3, e4, e5, e6, rfl⟩ := trimSubmap_inv h1
      exact ⟨(MapById.trim_spec wf.submaps e3).1, (trimAll_spec wf.nodes e5).1, (MapById.trim_spec wf.optSubmaps e4).1,
        (trimAll_spec wf.optNodes e6).1⟩
    obtain ⟨wf2, b1, b2, b3, b5, b4⟩ := ih wf1 h2
    refine ⟨wf2, ?_, ?_, ?_, ?_, b4.trans a4⟩
    · intro i
      rw [b1, a1]
      by_cases hi : i ∈ ids
      · simp [hi]
      · by_cases he : i = id
        · simp [he]
        · simp [hi, he]
    · intro t
      obtain ⟨sm, submaps, optSubmaps, nodes, optNodes, -, -, -, e4, -, -, rfl⟩ := trimSubmap_inv h1
      rw [b2]
      dsimp only
      rw [idsOf_trim e4, List.filter_filter]
      apply List.filter_congr
      intro i _
      rw [← Bool.decide_and, decide_eq_decide]
      simp only [List.mem_cons, not_or, ne_eq]
      exact and_comm
    · intro n
      rcases b3 n with h | ⟨i, hi, sm, h3, h4⟩
      · rw [h, a3]
        by_cases ho : OnlyIn s.submaps id n
        · obtain ⟨⟨sm, h3, h4⟩, -⟩ := ho
          exact Or.inr ⟨id, by simp, sm, h3, h4⟩
        · rw [if_neg ho]; exact Or.inl rfl
      · right
        rw [a1] at h3
        split at h3
        · cases h3
        · exact ⟨i, by simp [hi], sm, h3, h4⟩
    · intro n i sm h3 h4
      rw [b5 n i sm h3 h4, a3, if_neg]
      intro ho
      rw [b1] at h3
      split at h3
      · cases h3
      · rw [a1] at h3
        split at h3
        · cases h3
        · rename_i hne
          exact hne (ho.2 i sm h3 h4)

theorem filter_not_mem_take {l : List Id} (h : l.Nodup) (n : Nat) : l.filter (fun i => i ∉ l.take n) = l.drop n := by
  conv_lhs => rw [← List.take_append_drop n l]
  rw [List.filter_append]
  have h1 : (l.take n).filter (fun i => decide (i ∉ (l.take n ++ l.drop n).take n)) = [] := by
    rw [List.take_append_drop, List.filter_eq_nil_iff]
    intro i hi
    simpa using hi
  have h2 : (l.drop n).filter (fun i => decide (i ∉ (l.take n ++ l.drop n).take n)) = l.drop n := by
    rw [List.take_append_drop, List.filter_eq_self]
    intro i hi
    simp only [decide_eq_true_eq]
    intro hi'
    rw [← List.take_append_drop n l, List.nodup_append] at h
    exact h.2.2 i hi' i hi rfl
  rw [h1, h2, List.nil_append]

/-- C35.  One pass of the trimmer while the trajectory is not finished: of the submaps of its trajectory the
newest `keep` remain and the others are removed from the pose graph; submaps of other trajectories stay; the
nodes in a remaining submap stay; no node is removed that was in none of the removed submaps. -/
theorem pure_localization_keeps_newest {s s' : State P} {t : Int} {keep : Nat} {done : Bool} {tr : Trimmer} (wf : Wf s)
    (hk : keep ≠ 0) (hf : isFinished s.trajs t = false) (h : pureLocalizationTrim s t keep done = some (s', tr)) :
    (∃ old, idsOf s.optSubmaps t = old ++ idsOf s'.optSubmaps t ∧
      (∀ i, at? s'.submaps i = if i ∈ old then none else at? s.submaps i) ∧
      (∀ n, at? s'.nodes n = at? s.nodes n ∨ ∃ i ∈ old, ∃ sm, at? s.submaps i = some sm ∧ n ∈ sm.nodeIds)) ∧
    (idsOf s'.optSubmaps t).length = min keep (idsOf s.optSubmaps t).length ∧
    (∀ t', t' ≠ t → idsOf s'.optSubmaps t' = idsOf s.optSubmaps t') ∧
    (∀ n i sm, at? s'.submaps i = some sm → n ∈ sm.nodeIds → at? s'.nodes n = at? s.nodes n) ∧
    s'.trajs = s.trajs ∧ tr = .pureLocalization t keep done := by
  obtain ⟨keep', s1, hk', h1, h2⟩ := pureLocalizationTrim_inv h
  rw [hf] at hk'
  simp only [Bool.false_eq_true, if_false] at hk'
  subst hk'
  rcases h2 with ⟨h, -⟩ | ⟨-, rfl, rfl⟩
  · exact absurd h hk
  · obtain ⟨-, b1, b2, b3, b5, b4⟩ := trimSubmaps_exact wf h1
    have hd : idsOf s'.optSubmaps t = (idsOf s.optSubmaps t).drop ((idsOf s.optSubmaps t).length - keep') := by
      rw [b2, filter_not_mem_take (idsOf_nodup wf.optSubmaps t)]
    refine ⟨⟨_, ?_, b1, b3⟩, ?_, ?_, b5, b4, rfl⟩
    · rw [hd, List.take_append_drop]
    · rw [hd, List.length_drop]
      omega
    · intro t' ht'
      rw [b2, List.filter_eq_self]
      intro i hi
      simp only [decide_eq_true_eq]
      intro hi'
      have h3 := ((mem_idsOf wf.optSubmaps).1 hi).1
      have h4 := ((mem_idsOf wf.optSubmaps).1 (List.mem_of_mem_take hi')).1
      exact ht' (h3 ▸ h4)

/-- C35.  Once the trajectory is finished, a pass removes all its submaps, marks it as deleted and
finishes the trimmer; submaps of other trajectories stay. -/
theorem pure_localization_removes_all {s s' : State P} {t : Int} {keep : Nat} {done : Bool} {tr : Trimmer} (wf : Wf s)
    (hf : isFinished s.trajs t = true) (h : pureLocalizationTrim s t keep done = some (s', tr)) :
    idsOf s'.optSubmaps t = [] ∧
    (∀ i, at? s'.submaps i = if i.1 = t ∧ (at? s.optSubmaps i).isSome then none else at? s.submaps i) ∧
    (∀ t', t' ≠ t → idsOf s'.optSubmaps t' = idsOf s.optSubmaps t') ∧
    (∀ n i sm, at? s'.submaps i = some sm → n ∈ sm.nodeIds → at? s'.nodes n = at? s.nodes n) ∧
    (∃ d, SMap.get? t s'.trajs = some ⟨.deleted, d⟩) ∧
    (∀ t', t' ≠ t → SMap.get? t' s'.trajs = SMap.get? t' s.trajs) ∧
    trimmerDone tr = true := by
  obtain ⟨keep', s1, hk', h1, h2⟩ := pureLocalizationTrim_inv h
  rw [hf] at hk'
  simp only [if_true] at hk'
  subst hk'
  rcases h2 with ⟨-, rfl, rfl⟩ | ⟨h, -⟩
  · obtain ⟨-, b1, b2, b3, b5, b4⟩ := trimSubmaps_exact wf h1
    simp only [Nat.sub_zero, List.take_length] at b1 b2
    refine ⟨?_, ?_, ?_, b5, ?_, ?_, rfl⟩
    · dsimp only
      rw [b2, List.filter_eq_nil_iff]
      intro i hi
      simpa using hi
    · intro i
      dsimp only
      rw [b1]
      by_cases hi : i ∈ idsOf s.optSubmaps t
      · rw [if_pos hi, if_pos ((mem_idsOf wf.optSubmaps).1 hi)]
      · rw [if_neg hi, if_neg (fun h => hi ((mem_idsOf wf.optSubmaps).2 h))]
    · intro t' ht'
      dsimp only
      rw [b2, List.filter_eq_self]
      intro i hi
      simp only [decide_eq_true_eq]
      intro hi'
      have h3 := ((mem_idsOf wf.optSubmaps).1 hi).1
      have h4 := ((mem_idsOf wf.optSubmaps).1 hi').1
      exact ht' (h3 ▸ h4)
    · refine ⟨(trajOf s1.trajs t).deletion, ?_⟩
      simp only [setTraj, SMap.get?_put, if_true]
    · intro t' ht'
      simp only [setTraj, SMap.get?_put, if_neg (Ne.symm ht'), b4]
  · exact absurd rfl h

/-- Trimming only removes. -/
theorem trimSubmaps_sublist {ids : List Id} {s s' : State P} (wf : Wf s) (h : trimSubmaps s ids = some s') (t : Int) :
    (idsOf s'.optSubmaps t).Sublist (idsOf s.optSubmaps t) := by
  obtain ⟨-, -, b2, -⟩ := trimSubmaps_exact wf h
  rw [b2]
  exact List.filter_sublist

theorem runTrimmer_sublist {s s' : State P} {choice : List Id} {tr tr' : Trimmer} (wf : Wf s)
    (h : runTrimmer s choice tr = some (s', tr')) :
    Wf s' ∧ ∀ t, (idsOf s'.optSubmaps t).Sublist (idsOf s.optSubmaps t) := by
  cases tr with
  | pureLocalization t keep done =>
    obtain ⟨keep', s1, -, h1, h2⟩ := pureLocalizationTrim_inv h
    have hw := (trimSubmaps_exact wf h1).1
    have hs := trimSubmaps_sublist wf h1
    rcases h2 with ⟨-, rfl, -⟩ | ⟨-, rfl, -⟩
    · exact ⟨⟨hw.1, hw.2, hw.3, hw.4⟩, hs⟩
    · exact ⟨hw, hs⟩
  | other =>
    simp only [runTrimmer, Option.bind_eq_bind, Option.bind_eq_some_iff, Option.some.injEq, Prod.mk.injEq] at h
    obtain ⟨s1, h1, rfl, -⟩ := h
    exact ⟨(trimSubmaps_exact wf h1).1, trimSubmaps_sublist wf h1⟩

theorem runTrimmers_bound {trs : List Trimmer} : ∀ {s s' : State P} {cs : List (List Id)} {trs' : List Trimmer},
    Wf s → runTrimmers s trs cs = some (s', trs') →
    (∀ t, (idsOf s'.optSubmaps t).Sublist (idsOf s.optSubmaps t)) ∧
    (∀ t keep done, Trimmer.pureLocalization t keep done ∈ trs → (idsOf s'.optSubmaps t).length ≤ keep) := by
  induction trs with
  | nil =>
    intro s s' cs trs' wf h
    simp only [runTrimmers, Option.some.injEq, Prod.mk.injEq] at h
    obtain ⟨rfl, -⟩ := h
    exact ⟨fun t => List.Sublist.refl _, by simp⟩
  | cons tr trs ih =>
    intro s s' cs trs' wf h
    simp only [runTrimmers, Option.bind_eq_bind, Option.bind_eq_some_iff] at h
    obtain ⟨⟨s1, tr1⟩, h1, ⟨s2, trs2⟩, h2, h3⟩ := h
    simp only [Option.some.injEq, Prod.mk.injEq] at h3
    obtain ⟨rfl, -⟩ := h3
    obtain ⟨w1, l1⟩ := runTrimmer_sublist wf h1
    obtain ⟨l2, k2⟩ := ih w1 h2
    refine ⟨fun t => (l2 t).trans (l1 t), ?_⟩
    intro t keep done hm
    rcases List.mem_cons.1 hm with rfl | hm
    · refine (l2 t).length_le.trans ?_
      simp only [runTrimmer] at h1
      by_cases hf : isFinished s.trajs t = true
      · rw [(pure_localization_removes_all wf hf h1).1]
        exact Nat.zero_le _
      · by_cases hk : keep = 0
        · obtain ⟨keep', s3, hk', h4, h5⟩ := pureLocalizationTrim_inv h1
          have : keep' = 0 := by rw [hk']; split <;> first | rfl | exact hk
          subst this
          obtain ⟨-, -, b2, -⟩ := trimSubmaps_exact wf h4
          simp only [Nat.sub_zero, List.take_length] at b2
          have he : idsOf s3.optSubmaps t = [] := by
            rw [b2, List.filter_eq_nil_iff]
            intro i hi
            simpa using hi
          rcases h5 with ⟨-, rfl, -⟩ | ⟨h5, -⟩
          · dsimp only; rw [he]; exact Nat.zero_le _
          · exact absurd rfl h5
        · rw [(pure_localization_keeps_newest wf hk (by simpa using hf) h1).2.1]
          exact Nat.min_le_left _ _
    · exact k2 t keep done hm

theorem deleteTrajectories_wf {ts : List Int} {s s' : State P} (hq : Quiet s) (h : deleteTrajectories s ts = some s') :
    Wf s' ∧ s'.trimmers = s.trimmers := by
  obtain ⟨q, h1, -⟩ := deleteTrajectories_quiet hq h
  exact ⟨q.integrity.wf, h1⟩

/-- C35.  In every execution, after every optimization at most the configured number of submaps of its
trajectory remain for every active trimmer, whatever other trimmers and deletions do. -/
theorem pure_localization_bound {as : List (Act P)} {s s' : State P} (h : Exec {} as s) {choices : List (List Id)}
    (he : Enabled s (.trim choices)) (hx : exec s (.trim choices) = some s') {t : Int} {keep : Nat} {done : Bool}
    (hm : Trimmer.pureLocalization t keep done ∈ s.trimmers) : (idsOf s'.optSubmaps t).length ≤ keep := by
  have hi := exec_integrity h Integrity.init
  obtain ⟨r, hw⟩ := he
  simp only [exec, hw] at hx
  have hq : Quiet { s with worker := .idle } :=
    ⟨⟨⟨hi.wf.1, hi.wf.2, hi.wf.3, hi.wf.4⟩, hi.refs, hi.searches, (by intro r hr; cases hr), hi.nodup, hi.opt⟩,
      (hi.quiet r hw).1, rfl⟩
  obtain ⟨s1, s2, trs, -, h2, h3, rfl⟩ := handleTrimming_inv hx
  obtain ⟨w, hts⟩ := deleteTrajectories_wf hq h2
  exact (runTrimmers_bound w h3).2 t keep done (by rw [hts]; exact hm)

/-! ### Examples -/

/-- A pose graph with two finished submaps: nodes 0 and 1 belong to the first, nodes 1 and 2 to the second. -/
def twoSubmaps : State Nat where
  submaps := [(0, ⟨true, [(0, ⟨7, true, [(0, 0), (0, 1)]⟩), (1, ⟨8, true, [(0, 1), (0, 2)]⟩)]⟩)]
  nodes := [(0, ⟨true, [(0, ()), (1, ()), (2, ())]⟩)]
  constraints := [⟨(0, 0), (0, 0), 10, true⟩, ⟨(0, 0), (0, 1), 11, true⟩, ⟨(0, 1), (0, 1), 12, true⟩,
    ⟨(0, 1), (0, 2), 13, true⟩, ⟨(0, 1), (0, 0), 14, false⟩, ⟨(0, 0), (0, 2), 15, false⟩]
  optSubmaps := [(0, ⟨true, [(0, ()), (1, ())]⟩)]
  optNodes := [(0, ⟨true, [(0, ()), (1, ()), (2, ())]⟩)]

/-- Trimming the first submap removes node 0 with its constraints, keeps node 1, and deletes both scan
matchers: the second submap lost its last constraint from outside. -/
example : (trimSubmap twoSubmaps (0, 0)).map (fun s => (idsOf s.submaps 0, idsOf s.nodes 0, s.constraints.map (·.pose))) =
      some ([(0, 1)], [(0, 1), (0, 2)], [12, 13]) ∧
    matchersToDelete twoSubmaps (0, 0) = [(0, 1), (0, 0)] := by decide

/-- A submap that is not finished is not trimmed. -/
example : trimSubmap { twoSubmaps with
    submaps := [(0, ⟨true, [(0, ⟨7, false, [(0, 0)]⟩)]⟩)] } (0, 0) = none := rfl

end Verif.PoseGraph
