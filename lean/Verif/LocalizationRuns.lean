import Verif.LocalizationSteps

/-!
# Localization in a loaded map: the steps of the worker
-/

namespace Verif.Localize

open PoseGraph
open MapById
open Loading (ownItem otherItem otherTrimmer itemOf Good Ready subsOf nodesOf membersOf consOf waiting items)

variable {V : Type} {mine : Int → Bool} {S : Setup} {lo : Int → Nat}
variable {as made : List (Act V)} {s s0 : State V} {done : List (Item V)} {seen : Seen} {c : Int → Nat} {fin : Int → Bool}

/-- What is asked of the invariant after a step. -/
def Kept (S : Setup) (mine : Int → Bool) (as made : List (Act V)) (s : State V) (done : List (Item V)) : Prop := ∃ lo s0 seen c fin, Holds S mine as made s done lo s0 seen c fin

theorem Cuts.wf0 (k : Cuts S mine lo s s0) : Wf s0 := ⟨k.submaps.wf0, k.nodes.wf0, k.optSubmaps.wf0, k.optNodes.wf0⟩

theorem LoOk.bump (h : LoOk S c fin lo) (t : Int) : LoOk S (bump c t) fin lo := by
  intro u
  have : submapCount (S.n u) (c u) ≤ submapCount (S.n u) (PoseGraph.bump c t u) := count_le (by unfold PoseGraph.bump; split <;> omega)
  rcases h u with h | h | ⟨h1, h2⟩
  · exact Or.inl h
  · exact Or.inr (Or.inl (by omega))
  · exact Or.inr (Or.inr ⟨h1, by omega⟩)

/-- **A node is processed**. -/
theorem Holds.runNode (h : Holds S mine as made s done lo s0 seen c fin) {t : Int} {q : List (Item V)} (hq : s.queue = S.item t (c t) :: q) (hw : s.worker = .idle) (hlt : c t < adds as t)
    (ht : mine t = false) {poses : List V} (hp : 2 ≤ poses.length) : ∃ s', exec s (.run poses) = some s' ∧ Kept S mine (as ++ [.run poses]) made s' done := by
  have hsl : slam mine (S.item t (c t) : Item V) = true := by simp [slam, builderOf, Setup.item, ht]
  have hq0 : s0.queue = S.item t (c t) :: q.filter (slam mine) := by rw [h.queue, hq, List.filter_cons, if_pos hsl]
  have hf : fin t = false := by
    cases hf : fin t with
    | false => rfl
    | true => have := h.ghost.finAll hf; omega
  have hpos := S.pos t
  have hlow := h.low hf
  obtain ⟨_, _, al3, al4⟩ := h.alive hf
  obtain ⟨s0', e1, i1⟩ := h.ghost.runNode h.cuts.wf0 hq0 hlt h.idle hp
  have hmul : (loN S lo t : Int) ≤ (c t : Int) := by
    unfold loN
    rcases hlow with h0 | h0
    · rw [h0]; simp
    · have := (lt_submapCount (k := c t) (i := lo t) hpos).1 (by omega)
      omega
  have hone : c t < S.n t → submapCount (S.n t) (c t) ≤ 1 := by
    intro hl
    by_contra hc
    have := (lt_submapCount (k := c t) (i := 1) hpos).1 (by omega)
    omega
  obtain ⟨submaps, optSubmaps, optNodes, cs, todo, r1, r2, r3⟩ := computeConstraints_cut (s := { s with queue := q }) (s0 := { s0 with queue := q.filter (slam mine) }) (S := S) (mine := mine) (lo := lo)
    ⟨fun x hx => h.load.apart.queue x (by rw [hq]; exact List.mem_cons_of_mem _ hx), h.load.apart.inflight, h.load.apart.trimmers, h.load.apart.members, h.load.apart.searches, h.load.apart.todo,
      h.load.apart.deletion⟩
    ⟨h.load.wf.1, h.load.wf.2, h.load.wf.3, h.load.wf.4⟩ ⟨h.cuts.1, h.cuts.2, h.cuts.3, h.cuts.4⟩ (node := (t, (c t : Int))) ht hmul al3 al4
    (by
      intro hl
      have : c t < S.n t := by
        by_contra hc
        unfold windowOf at hl
        rw [if_neg hc] at hl
        simp at hl
      have := hone this
      dsimp only
      omega)
    (by
      intro hl
      have hge : ¬ c t < S.n t := by
        intro hc
        unfold windowOf at hl
        rw [if_pos hc] at hl
        simp at hl
      have hcount : 0 < submapCount (S.n t) (c t) := (lt_submapCount hpos).2 (by omega)
      refine ⟨(submapCount (S.n t) (c t) - 1 : Nat), last_dense h.ghost.optSubmaps (by simp only [List.length_replicate]; omega), by dsimp only; omega, ?_⟩
      dsimp only
      intro hj
      have h1 : submapCount (S.n t) (c t) = 1 := by omega
      have hle : c t ≤ S.n t := by
        by_contra hc
        have := (lt_submapCount (k := c t) (i := 1) hpos).2 (by omega)
        omega
      have hcn : c t = S.n t := by omega
      have hle2 := h.ghost.le t
      rw [h1]
      unfold ptrAt
      rw [show ((1 - 1 : Nat) : Int) = ((0 : Nat) : Int) from rfl, h.ghost.submaps.at_nat, subs_get, if_pos (by omega)]
      unfold windowOf
      rw [if_neg hge, hcn, Nat.div_self hpos]
      rfl)
    e1
    (by
      rw [i1.optNodes.at_nat, replicate_get, if_pos (by rw [bump_self]; omega)]
      rfl)
  have hx : exec s (.run poses) = some { s with
      queue := q, submaps := submaps, optSubmaps := optSubmaps, optNodes := optNodes, constraints := s.constraints ++ cs, worker := .searching todo } := by
    simp only [exec, hq]
    exact r1
  have hown : ownItem mine (S.item t (c t) : Item V) = false := rfl
  obtain ⟨hl, hint⟩ := h.rest (b := .run poses) ⟨hw, by rw [hq]; simp⟩ hp hx (by
    intro _ _ i q' e
    rw [hq] at e
    rw [← (List.cons.inj e).1]
    exact hown)
  obtain ⟨_, _, _, _, _, _, _, _, _, _, _, _, _, _, _, _, _, es⟩ := computeConstraints_inv (s := { s0 with queue := q.filter (slam mine) }) ⟨h.cuts.submaps.wf0, h.cuts.nodes.wf0, h.cuts.optSubmaps.wf0, h.cuts.optNodes.wf0⟩ e1
  have i2 := i1.work (seen' := { seen with asked := seen.asked ++ todoOf s0'.worker }) (worker := .idle) (searches := []) (result := []) (by simp) (by simp [todoOf]) rfl (by simp) (by intro r e; cases e)
  refine ⟨_, hx, lo, _, _, _, _, Holds.silent (silent_of (by simp) (by simp)) ⟨hl, hint, i2, rfl, ?_, ?_, h.los.bump t, ⟨r2.1, r2.2, r2.3, r2.4⟩, h.trajs, h.trimmers, ?_, ?_, ?_⟩⟩
  · rw [es]
  · rw [es]; exact h.inflight
  · intro x hx
    refine h.kinds x ?_
    rw [hq]
    exact List.mem_cons_of_mem _ hx
  · intro todo' e
    cases e
    exact r3
  · intro u hu hfu
    rw [bump_ne (by rintro rfl; rw [hf] at hfu; cases hfu)]
    exact h.states u hu hfu

/-- **Sensor data**. -/
theorem Holds.runData (h : Holds S mine as made s done lo s0 seen c fin) {t : Int} {q : List (Item V)} (hq : s.queue = .data t :: q) (hw : s.worker = .idle)
    (ht : mine t = false) {poses : List V} (hp : 2 ≤ poses.length) : ∃ s', exec s (.run poses) = some s' ∧ Kept S mine (as ++ [.run poses]) made s' done := by
  have hsl : slam mine (.data t : Item V) = true := by simp [slam, builderOf, ht]
  have hq0 : s0.queue = .data t :: q.filter (slam mine) := by rw [h.queue, hq, List.filter_cons, if_pos hsl]
  obtain ⟨_, i1⟩ := h.ghost.runData hq0
  have hf : fin t = false := by
    cases hf : fin t with
    | false => rfl
    | true =>
      have h1 := (h.ghost.finPending t hf).2
      rw [pend_cons hq0 t, if_pos (show t = (Item.data t : Item V).traj from rfl)] at h1
      cases h1
  have hm : canModify s.trajs t = true := canModify_default ((h.trajs t ht).2 hf)
  have hx : exec s (.run poses) = some { s with queue := q } := by
    simp only [exec, hq, runItem, hm, if_true]
  obtain ⟨hl, hint⟩ := h.rest (b := .run poses) ⟨hw, by rw [hq]; simp⟩ hp hx (by
    intro _ _ i q' e
    rw [hq] at e
    rw [← (List.cons.inj e).1]
    simp [ownItem, ht])
  refine ⟨_, hx, lo, _, _, _, _, Holds.silent (silent_of (by simp) (by simp)) ⟨hl, hint, i1, h.idle, rfl, h.inflight, h.los, ⟨h.cuts.1, h.cuts.2, h.cuts.3, h.cuts.4⟩, h.trajs, h.trimmers, ?_, ?_, h.states⟩⟩
  · intro x hx
    refine h.kinds x ?_
    rw [hq]
    exact List.mem_cons_of_mem _ hx
  · intro todo e
    have e : s.worker = .searching todo := e
    rw [hw] at e
    cases e

/-- **A trajectory is finished**. -/
theorem Holds.runFinish (h : Holds S mine as made s done lo s0 seen c fin) {t : Int} {q : List (Item V)} (hq : s.queue = .finish t :: q) (hw : s.worker = .idle) (ht : mine t = false)
    (hc : c t = adds as t) (hpo : posted as t = true) (hf : fin t = false) {poses : List V} (hp : 2 ≤ poses.length) :
    ∃ s', exec s (.run poses) = some s' ∧ Kept S mine (as ++ [.run poses]) made s' done := by
  have hsl : slam mine (.finish t : Item V) = true := by simp [slam, builderOf, ht]
  have hq0 : s0.queue = .finish t :: q.filter (slam mine) := by rw [h.queue, hq, List.filter_cons, if_pos hsl]
  obtain ⟨s0', e1, i1⟩ := h.ghost.runFinish hq0 hc hpo hf poses
  simp only [runItem, Option.bind_eq_bind, Option.bind_eq_some_iff, guard_some, Option.some.injEq] at e1
  obtain ⟨_, _, m0, e2, rfl⟩ := e1
  obtain ⟨m, e3, k3⟩ := finish_cut h.cuts.submaps ht e2
  have hnf : isFinished s.trajs t = false := by
    cases hc : isFinished s.trajs t with
    | false => rfl
    | true =>
      rw [isFinished_eq, (h.trajs t ht).2 hf] at hc
      cases hc
  have hx : exec s (.run poses) = some { s with queue := q, trajs := setTraj s.trajs t .finished, submaps := m } := by
    simp only [exec, hq, runItem, hnf, e3, guard, if_true, Option.bind_eq_bind, Option.bind_some, Option.pure_def]
  obtain ⟨hl, hint⟩ := h.rest (b := .run poses) ⟨hw, by rw [hq]; simp⟩ hp hx (by
    intro _ _ i q' e
    rw [hq] at e
    rw [← (List.cons.inj e).1]
    rfl)
  refine ⟨_, hx, lo, _, _, _, _, Holds.silent (silent_of (by simp) (by simp)) ⟨hl, hint, i1, h.idle, rfl, h.inflight, ?_, ⟨k3, h.cuts.2, h.cuts.3, h.cuts.4⟩, ?_, h.trimmers, ?_, ?_, ?_⟩⟩
  · intro u
    rcases h.los u with h | h | ⟨h1, h2⟩
    · exact Or.inl h
    · exact Or.inr (Or.inl h)
    · refine Or.inr (Or.inr ⟨?_, h2⟩)
      dsimp only
      split
      · rfl
      · exact h1
  · intro u hu
    dsimp only
    rw [trajOf_setTraj]
    by_cases e : u = t
    · subst e
      simp [(h.trajs u hu).1]
    · simp only [if_neg e]
      exact h.trajs u hu
  · intro x hx
    refine h.kinds x ?_
    rw [hq]
    exact List.mem_cons_of_mem _ hx
  · intro todo e
    have e : s.worker = .searching todo := e
    rw [hw] at e
    cases e
  · intro u hu hfu
    dsimp only
    rw [trajOf_setTraj]
    by_cases e : u = t
    · rw [if_pos e]
      exact Or.inl rfl
    · rw [if_neg e]
      simp only [if_neg e] at hfu
      exact h.states u hu hfu

/-- **The worker runs the first work item**. -/
theorem Holds.run (h : Holds S mine as made s done lo s0 seen c fin) (g : Good mine made) {poses : List V} (he : Enabled s (.run poses)) (hp : Caller S mine as s (.run poses)) :
    ∃ s', exec s (.run poses) = some s' ∧ ∃ done', Kept S mine (as ++ [.run poses]) made s' done' := by
  obtain ⟨hw, hne⟩ := he
  have hp' : 2 ≤ poses.length := hp
  cases hq : s.queue with
  | nil => exact absurd hq hne
  | cons x q =>
    have hk := h.kinds x (by rw [hq]; simp)
    rcases hk with hk | hk | rfl | ⟨t, keep, rfl, h2, ht⟩
    · obtain ⟨s', hx, hh⟩ := h.own g hq hw hk poses
      exact ⟨s', hx, _, lo, _, _, _, _, Holds.silent (silent_of (by simp) (by simp)) hh⟩
    · have hq0 : s0.queue = x :: q.filter (slam mine) := by rw [h.queue, hq, List.filter_cons, if_pos hk]
      obtain ⟨hb, hm⟩ := slam_traj hk
      rcases h.ghost.kinds hq0 with ⟨_, t, rfl⟩ | ⟨t, rfl, hlt⟩ | ⟨t, rfl, h3, h4, h5⟩
      · obtain ⟨s', hx, hh⟩ := h.runData hq hw hm hp'
        exact ⟨s', hx, _, hh⟩
      · obtain ⟨s', hx, hh⟩ := h.runNode hq hw hlt hm hp'
        exact ⟨s', hx, _, hh⟩
      · obtain ⟨s', hx, hh⟩ := h.runFinish hq hw hm h3 h4 h5 hp'
        exact ⟨s', hx, _, hh⟩
    · have hx : exec s (.run poses) = some { s with queue := q } := by
        simp only [exec, hq, runItem, addSerializedAll]
      obtain ⟨hl, hint⟩ := h.rest (b := .run poses) ⟨hw, hne⟩ hp hx (by
        intro _ _ i q' e
        rw [hq] at e
        rw [← (List.cons.inj e).1]
        rfl)
      refine ⟨_, hx, done, lo, s0, seen, c, fin, Holds.silent (silent_of (by simp) (by simp)) (h.aside hl hint ⟨fun _ _ => rfl, fun _ _ => rfl, fun _ _ => rfl, fun _ _ => rfl, fun _ _ => rfl, rfl, ?_, rfl⟩ ?_ h.trimmers ?_)⟩
      · rw [hq, List.filter_cons, if_neg (by simp [slam, builderOf])]
      · intro x hx
        refine h.kinds x ?_
        rw [hq]
        exact List.mem_cons_of_mem _ hx
      · intro todo e
        rw [hw] at e
        cases e
    · have hx : exec s (.run poses) = some { s with queue := q, trimmers := s.trimmers ++ [.pureLocalization t keep false] } := by
        simp only [exec, hq, runItem]
      obtain ⟨hl, hint⟩ := h.rest (b := .run poses) ⟨hw, hne⟩ hp hx (by
        intro _ _ i q' e
        rw [hq] at e
        rw [← (List.cons.inj e).1]
        rfl)
      refine ⟨_, hx, done, lo, s0, seen, c, fin, Holds.silent (silent_of (by simp) (by simp)) (h.aside hl hint ⟨fun _ _ => rfl, fun _ _ => rfl, fun _ _ => rfl, fun _ _ => rfl, fun _ _ => rfl, rfl, ?_, rfl⟩ ?_ ?_ ?_)⟩
      · rw [hq, List.filter_cons, if_neg (by simp [slam, builderOf])]
      · intro x hx
        refine h.kinds x ?_
        rw [hq]
        exact List.mem_cons_of_mem _ hx
      · intro tr htr
        rcases List.mem_append.1 htr with htr | htr
        · exact h.trimmers tr htr
        · rw [List.mem_singleton] at htr
          exact ⟨t, keep, htr, h2, ht⟩
      · intro todo e
        rw [hw] at e
        cases e

/-- Only the worker, the constraints and the searches change. -/
theorem Holds.worker (h : Holds S mine as made s done lo s0 seen c fin) {b : Act V} (hb : Silent b) (he : Enabled s b) (hc : Caller S mine as s b) (hr : ∀ poses, b ≠ .run poses) {worker : Worker V}
    {searches : List (Id × Id)} {constraints : List (Constraint V)} (hx : exec s b = some { s with worker := worker, searches := searches, constraints := constraints })
    (todo : ∀ todo, worker = .searching todo → TodoOk s todo) : Holds S mine (as ++ [b]) made { s with worker := worker, searches := searches, constraints := constraints } done lo s0 seen c fin := by
  obtain ⟨hl, hint⟩ := h.rest he hc hx (fun poses e => absurd e (hr poses))
  exact Holds.silent hb ⟨hl, hint, h.ghost, h.idle, h.queue, h.inflight, h.los, ⟨h.cuts.1, h.cuts.2, h.cuts.3, h.cuts.4⟩, h.trajs, h.trimmers, h.kinds, todo, h.states⟩

/-- **A search**. -/
theorem Holds.search (h : Holds S mine as made s done lo s0 seen c fin) (g : Good mine made) {how : Search} (he : Enabled s (.search how)) (hc : Caller S mine as s (.search how)) :
    ∃ s', exec s (.search how) = some s' ∧ Holds S mine (as ++ [.search how]) made s' done lo s0 seen c fin := by
  have he0 := he
  obtain ⟨⟨node, id⟩, todo, hw⟩ := he
  have hok := h.todo _ hw
  obtain ⟨h1, sm, h2, h3⟩ := hok (node, id) List.mem_cons_self
  dsimp only at h1 h2
  have hl : latestNodeTime { s with worker := .searching todo } node id = some () :=
    latest_ok (s := { s with worker := .searching todo }) (h.tidy g) (h.opt_nodes g h1) (by dsimp only; rw [h2]; rfl)
  obtain ⟨u1, ho1⟩ := Option.isSome_iff_exists.1 h1
  obtain ⟨u2, ho2⟩ := Option.isSome_iff_exists.1 (h.opt_submaps h2 h3)
  have htodo : ∀ todo', Worker.searching (P := V) todo = .searching todo' → TodoOk s todo' := by
    intro todo' e
    cases e
    exact fun p hp => hok p (List.mem_cons_of_mem _ hp)
  have hb : Silent (.search how : Act V) := silent_of (by simp) (by simp)
  cases how with
  | skip =>
    have hx : exec s (.search .skip) = some { s with worker := .searching todo, searches := s.searches, constraints := s.constraints } := by
      simp only [exec, hw, computeConstraint, h2, h3, guard, if_true, Option.bind_eq_bind, Option.bind_some, Option.pure_def]
    exact ⟨_, hx, h.worker hb he0 hc (by simp) hx htodo⟩
  | sampledOut =>
    have hx : exec s (.search .sampledOut) = some { s with worker := .searching todo, searches := s.searches, constraints := s.constraints } := by
      simp only [exec, hw, computeConstraint, h2, h3, hl, guard, if_true, Option.bind_eq_bind, Option.bind_some, Option.pure_def]
    exact ⟨_, hx, h.worker hb he0 hc (by simp) hx htodo⟩
  | locally =>
    have hx : exec s (.search .locally) = some { s with worker := .searching todo, searches := s.searches ++ [(node, id)], constraints := s.constraints } := by
      simp only [exec, hw, computeConstraint, h2, h3, hl, ho1, ho2, guard, if_true, Option.bind_eq_bind, Option.bind_some, Option.pure_def]
    exact ⟨_, hx, h.worker hb he0 hc (by simp) hx htodo⟩
  | globally =>
    have hx : exec s (.search .globally) = some { s with worker := .searching todo, searches := s.searches ++ [(node, id)], constraints := s.constraints } := by
      simp only [exec, hw, computeConstraint, h2, h3, hl, guard, if_true, Option.bind_eq_bind, Option.bind_some, Option.pure_def]
    exact ⟨_, hx, h.worker hb he0 hc (by simp) hx htodo⟩

/-- **The end of the searches for a node**. -/
theorem Holds.endSearch (h : Holds S mine as made s done lo s0 seen c fin) (he : Enabled s .endSearch) (hc : Caller S mine as s .endSearch) :
    ∃ s', exec s .endSearch = some s' ∧ Holds S mine (as ++ [.endSearch]) made s' done lo s0 seen c fin := by
  have hx : exec s .endSearch = some { s with worker := .idle, searches := s.searches, constraints := s.constraints } := rfl
  exact ⟨_, hx, h.worker (silent_of (by simp) (by simp)) he hc (by simp) hx (by intro todo e; cases e)⟩

/-- **The optimization**. -/
theorem Holds.optimize (h : Holds S mine as made s done lo s0 seen c fin) (g : Good mine made) {result : List (Constraint V)} (he : Enabled s (.optimize result)) (hc : Caller S mine as s (.optimize result)) :
    ∃ s', exec s (.optimize result) = some s' ∧ Holds S mine (as ++ [.optimize result]) made s' done lo s0 seen c fin := by
  have hx : exec s (.optimize result) = some { s with worker := .optimized result, searches := [], constraints := s.constraints ++ result } := by
    simp only [exec, PoseGraph.optimize]
    rw [if_pos]
    right
    rw [List.all_eq_true]
    intro e he
    refine h.opt_nodes g ?_
    rw [(MapById.at?_iff_mem h.load.wf.optNodes).2 (show (e.1, e.2) ∈ flat s.optNodes from he)]
    rfl
  exact ⟨_, hx, h.worker (silent_of (by simp) (by simp)) he hc (by simp) hx (by intro todo e; cases e)⟩

/-- **Trimming**. -/
theorem Holds.trim (h : Holds S mine as made s done lo s0 seen c fin) (g : Good mine made) {choices : List (List Id)} (he : Enabled s (.trim choices)) (hc : Caller S mine as s (.trim choices)) :
    ∃ s' lo', exec s (.trim choices) = some s' ∧ Holds S mine (as ++ [.trim choices]) made s' done lo' s0 seen c fin ∧ (∀ u, lo u ≤ lo' u) ∧ After S c lo' s.trajs s'.trajs ∧
      ∀ t keep d, Trimmer.pureLocalization t keep d ∈ s.trimmers → Cleared S c lo' s.trajs s'.trajs t keep := by
  have he0 := he
  have hc0 := hc
  obtain rfl : choices = [] := hc
  obtain ⟨r, hw⟩ := he
  obtain ⟨submaps, nodes, constraints, optSubmaps, optNodes, trajs, trs', lo', b1, b2, b3, b4, b5, b6, b7, b8⟩ :=
    handleTrimming_cut h.ghost h.cuts h.members h.los h.trajs h.deletion h.trimmers h.integrity (h.tidy g) hw
  have hx : exec s (.trim []) = some { s with
        submaps := submaps, nodes := nodes, constraints := constraints, optSubmaps := optSubmaps, optNodes := optNodes, trajs := trajs, trimmers := trs', worker := .idle } := by
    simp only [exec, hw]
    exact b1
  obtain ⟨hl, hint⟩ := h.rest he0 hc0 hx (by intro _ e; cases e)
  refine ⟨_, lo', hx, Holds.silent (silent_of (by simp) (by simp)) ⟨hl, hint, h.ghost, h.idle, h.queue, h.inflight, b3, b2, b4, b7, h.kinds, (by intro todo e; cases e), ?_⟩, b5, b6, b8⟩
  intro u hu hfu
  dsimp only
  rcases b6 u with e | ⟨_, e, e'⟩
  · rw [e]
    exact (h.states u hu hfu).imp id fun x => ⟨x.1, x.2.trans (b5 u)⟩
  · rw [e]
    exact Or.inr ⟨rfl, e'⟩

/-- **No step of the rest of the program aborts, and each keeps the invariant**. -/
theorem Holds.step (h : Holds S mine as made s done lo s0 seen c fin) (g : Good mine made) {b : Act V} (he : Enabled s b) (hc : Caller S mine as s b) :
    ∃ s', exec s b = some s' ∧ ∃ done', Kept S mine (as ++ [b]) made s' done' := by
  cases b with
  | addNode t ins nf =>
    obtain ⟨s', hx, s0', hh⟩ := h.addNode he hc
    exact ⟨s', hx, _, _, _, _, _, _, hh⟩
  | addSubmapFromProto => exact False.elim hc
  | addNodeFromProto => exact False.elim hc
  | deleteTrajectory => exact False.elim hc
  | post x =>
    obtain ⟨s', hx, s0', hh⟩ := h.post he hc
    exact ⟨s', hx, _, _, _, _, _, _, hh⟩
  | enqueue k =>
    obtain ⟨s', hx, s0', hh⟩ := h.enqueue he hc
    exact ⟨s', hx, _, _, _, _, _, _, hh⟩
  | run poses => exact h.run g he hc
  | search how =>
    obtain ⟨s', hx, hh⟩ := h.search g he hc
    exact ⟨s', hx, _, _, _, _, _, _, hh⟩
  | endSearch =>
    obtain ⟨s', hx, hh⟩ := h.endSearch he hc
    exact ⟨s', hx, _, _, _, _, _, _, hh⟩
  | optimize result =>
    obtain ⟨s', hx, hh⟩ := h.optimize g he hc
    exact ⟨s', hx, _, _, _, _, _, _, hh⟩
  | trim choices =>
    obtain ⟨s', lo', hx, hh, _⟩ := h.trim g he hc
    exact ⟨s', hx, _, _, _, _, _, _, hh⟩

end Verif.Localize
