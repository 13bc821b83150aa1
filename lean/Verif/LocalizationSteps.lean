import Verif.LocalizationInvariant

/-!
# Localization in a loaded map: the steps
-/

namespace Verif.Localize

open PoseGraph
open MapById
open Loading (ownItem otherItem otherTrimmer itemOf Good Ready subsOf nodesOf membersOf consOf waiting items)

variable {V : Type} {mine : Int → Bool} {S : Setup} {lo : Int → Nat}
variable {as made : List (Act V)} {s s0 : State V} {done : List (Item V)} {seen : Seen} {c : Int → Nat} {fin : Int → Bool}

/-! ### Steps that only concern other trajectories -/

/-- Nothing changes in the trajectories of local SLAM. -/
structure Aside (mine : Int → Bool) (s s' : State V) : Prop where
  submaps : ∀ t, mine t = false → SMap.get? t s'.submaps = SMap.get? t s.submaps
  nodes : ∀ t, mine t = false → SMap.get? t s'.nodes = SMap.get? t s.nodes
  optSubmaps : ∀ t, mine t = false → SMap.get? t s'.optSubmaps = SMap.get? t s.optSubmaps
  optNodes : ∀ t, mine t = false → SMap.get? t s'.optNodes = SMap.get? t s.optNodes
  trajs : ∀ t, mine t = false → trajOf s'.trajs t = trajOf s.trajs t
  worker : s'.worker = s.worker
  queue : s'.queue.filter (slam mine) = s.queue.filter (slam mine)
  inflight : s'.inflight.filter (slam mine) = s.inflight.filter (slam mine)

theorem Holds.aside (h : Holds S mine as made s done lo s0 seen c fin) {made' : List (Act V)} {done' : List (Item V)} {s' : State V} (load : Loading.Inv mine made' done' s') (int : Integrity s')
    (a : Aside mine s s') (kinds : ∀ x ∈ s'.queue ++ s'.inflight, Kind mine x) (trimmers : TrimmersOk mine s'.trimmers) (todo : ∀ todo, s.worker = .searching todo → TodoOk s' todo) :
    Holds S mine as made' s' done' lo s0 seen c fin where
  load := load
  integrity := int
  ghost := h.ghost
  idle := h.idle
  queue := by rw [a.queue]; exact h.queue
  inflight := by rw [a.inflight]; exact h.inflight
  los := h.los
  cuts := ⟨h.cuts.submaps.frame int.wf.submaps a.submaps, h.cuts.nodes.frame int.wf.nodes a.nodes, h.cuts.optSubmaps.frame int.wf.optSubmaps a.optSubmaps,
    h.cuts.optNodes.frame int.wf.optNodes a.optNodes⟩
  trajs := by intro t ht; rw [a.trajs t ht]; exact h.trajs t ht
  trimmers := trimmers
  kinds := kinds
  todo := by rw [a.worker]; exact todo
  states := by intro t ht; rw [a.trajs t ht]; exact h.states t ht

theorem ne_of_mine {t u : Int} (ht : mine t = false) (hu : mine u = true) : t ≠ u := by
  rintro rfl
  rw [ht] at hu
  cases hu

theorem insert_get {D : Type} {m m' : Map D} {id : Id} {d : D} (h : MapById.insert m id d = some m') : ∀ u, u ≠ id.1 → SMap.get? u m' = SMap.get? u m := by
  simp only [MapById.insert] at h
  split at h
  · cases h
  · split at h
    · cases h
    · obtain rfl := Option.some.inj h
      intro u hu
      rw [SMap.get?_put, if_neg (Ne.symm hu)]

theorem addIfNeeded_same {l l' : List (Int × TrajState)} {t : Int} (h : addTrajectoryIfNeeded l t = some l') (u : Int) : trajOf l' u = trajOf l u := by
  simp only [addTrajectoryIfNeeded] at h
  split at h
  · cases h
  · split at h
    · cases h
    · split at h
      · cases h
      · obtain rfl := Option.some.inj h
        exact trajOf_put

theorem filter_snoc_false {α : Type} {p : α → Bool} {l : List α} {x : α} (h : p x = false) : (l ++ [x]).filter p = l.filter p := by
  rw [List.filter_append, List.filter_cons, if_neg (by simp [h])]
  simp

theorem item_slam (g : Good mine made) {a : Act V} (r : Ready mine (made.map itemOf) a) : slam mine (itemOf a) = false ∧ Kind mine (itemOf a) := by
  rcases Loading.ready_own g r with h | rfl
  · exact ⟨slam_own h, Or.inl h⟩
  · exact ⟨rfl, Or.inr (Or.inr (Or.inl rfl))⟩

/-- **The next call of a load**. -/
theorem Holds.call (h : Holds S mine as made s done lo s0 seen c fin) (g : Good mine made) {a : Act V} (r : Ready mine (made.map itemOf) a) (hf : ∀ i ∈ s.inflight, ownItem mine i = false) :
    ∃ s', exec s a = some s' ∧ Holds S mine as (made ++ [a]) s' done lo s0 seen c fin := by
  obtain ⟨he, s', hx, hl⟩ := h.load.call g r hf
  have hint := (step_integrity h.integrity he hx).1
  obtain ⟨sl, kd⟩ := item_slam g r
  have hk : ∀ x ∈ s.queue ++ (s.inflight ++ [itemOf a]), Kind mine x := by
    intro x hx
    rw [← List.append_assoc, List.mem_append, List.mem_singleton] at hx
    rcases hx with hx | rfl
    · exact h.kinds x hx
    · exact kd
  refine ⟨s', hx, ?_⟩
  cases a with
  | addSubmapFromProto id ptr =>
    simp only [exec, addSubmapFromProto, Option.bind_eq_bind, Option.bind_eq_some_iff, guard_some, Option.some.injEq] at hx
    obtain ⟨trajs, h1, _, _, submaps, h3, rfl⟩ := hx
    refine h.aside hl hint ⟨?_, fun _ _ => rfl, fun _ _ => rfl, fun _ _ => rfl, fun t _ => addIfNeeded_same h1 t, rfl, rfl, filter_snoc_false sl⟩ hk h.trimmers ?_
    · intro t ht
      exact insert_get h3 t (ne_of_mine ht r.1)
    · intro todo hw p hp
      obtain ⟨b1, sm, b2, b3⟩ := h.todo todo hw p hp
      obtain ⟨_, q0, q⟩ := insert_spec h.integrity.wf.submaps h3
      refine ⟨b1, sm, ?_, b3⟩
      dsimp only
      rw [q, if_neg (by rintro rfl; rw [q0] at b2; cases b2)]
      exact b2
  | addNodeFromProto id =>
    simp only [exec, addNodeFromProto, Option.bind_eq_bind, Option.bind_eq_some_iff, guard_some, Option.some.injEq] at hx
    obtain ⟨trajs, h1, _, _, nodes, h3, rfl⟩ := hx
    refine h.aside hl hint ⟨fun _ _ => rfl, ?_, fun _ _ => rfl, fun _ _ => rfl, fun t _ => addIfNeeded_same h1 t, rfl, rfl, filter_snoc_false sl⟩ hk h.trimmers h.todo
    intro t ht
    exact insert_get h3 t (ne_of_mine ht r.1)
  | post i =>
    obtain rfl := Option.some.inj hx
    exact h.aside hl hint ⟨fun _ _ => rfl, fun _ _ => rfl, fun _ _ => rfl, fun _ _ => rfl, fun _ _ => rfl, rfl, rfl, filter_snoc_false sl⟩ hk h.trimmers h.todo
  | _ => exact False.elim r

theorem addSerializedAll_get : ∀ {cs : List (Constraint V)} {s s' : State V}, (∀ x ∈ cs, mine x.submap.1 = true) → addSerializedAll s cs = some s' →
    (∀ t, mine t = false → SMap.get? t s'.submaps = SMap.get? t s.submaps) ∧ ∃ m l, s' = { s with submaps := m, constraints := l } := by
  intro cs
  induction cs with
  | nil =>
    intro s s' _ h
    obtain rfl := Option.some.inj h
    exact ⟨fun _ _ => rfl, s.submaps, s.constraints, rfl⟩
  | cons x cs ih =>
    intro s s' hm h
    simp only [addSerializedAll, Option.bind_eq_bind, Option.bind_eq_some_iff] at h
    obtain ⟨s1, h1, h2⟩ := h
    obtain ⟨a, m, l, e⟩ := ih (fun y hy => hm y (List.mem_cons_of_mem _ hy)) h2
    simp only [addSerialized, Option.bind_eq_bind, Option.bind_eq_some_iff, guard_some] at h1
    obtain ⟨_, _, _, _, sm, _, h3⟩ := h1
    split at h3
    · simp only [Option.bind_eq_some_iff, guard_some, Option.some.injEq] at h3
      obtain ⟨_, _, m1, h4, rfl⟩ := h3
      refine ⟨fun t ht => (a t ht).trans ((assign_get h4).1 t (ne_of_mine ht (hm x List.mem_cons_self))), m, l, e⟩
    · obtain rfl := Option.some.inj h3
      exact ⟨a, m, l, e⟩

/-- **A work item of a load**. -/
theorem Holds.own (h : Holds S mine as made s done lo s0 seen c fin) (g : Good mine made) {item : Item V} {q : List (Item V)} (hq : s.queue = item :: q) (hw : s.worker = .idle)
    (ho : ownItem mine item = true) (poses : List V) : ∃ s', exec s (.run poses) = some s' ∧ Holds S mine as made s' (done ++ [item]) lo s0 seen c fin := by
  obtain ⟨s', hx, hl⟩ := h.load.run g hq ho poses
  have hint := (step_integrity h.integrity (a := .run poses) ⟨hw, by rw [hq]; simp⟩ hx).1
  refine ⟨s', hx, ?_⟩
  have hsl := slam_own ho
  have hqf : q.filter (slam mine) = s.queue.filter (slam mine) := by rw [hq, List.filter_cons, if_neg (by simp [hsl])]
  have hk : ∀ x ∈ q ++ s.inflight, Kind mine x := by
    intro x hx
    refine h.kinds x ?_
    rw [hq]
    exact List.mem_cons_of_mem _ hx
  have htodo : ∀ {s' : State V} todo, s.worker = .searching todo → TodoOk s' todo := by
    intro s' todo e
    rw [hw] at e
    cases e
  simp only [exec, hq] at hx
  cases item with
  | freeze t =>
    simp only [runItem, Option.bind_eq_bind, Option.bind_eq_some_iff, guard_some, Option.some.injEq] at hx
    obtain ⟨_, _, rfl⟩ := hx
    refine h.aside hl hint ⟨fun _ _ => rfl, fun _ _ => rfl, fun _ _ => rfl, fun _ _ => rfl, ?_, rfl, hqf, rfl⟩ hk h.trimmers htodo
    intro u hu
    dsimp only
    rw [trajOf_setTraj, if_neg (ne_of_mine hu ho)]
  | data t =>
    simp only [runItem] at hx
    split at hx
    · obtain rfl := Option.some.inj hx
      exact h.aside hl hint ⟨fun _ _ => rfl, fun _ _ => rfl, fun _ _ => rfl, fun _ _ => rfl, fun _ _ => rfl, rfl, hqf, rfl⟩ hk h.trimmers htodo
    · cases hx
  | submapFromProto id =>
    simp only [runItem, Option.bind_eq_bind, Option.bind_eq_some_iff, Option.some.injEq] at hx
    obtain ⟨submaps, h1, opt, h2, rfl⟩ := hx
    obtain ⟨sm, _, h3⟩ := markFinished_inv h1
    exact h.aside hl hint ⟨fun t ht => (assign_get h3).1 t (ne_of_mine ht ho), fun _ _ => rfl, fun t ht => insert_get h2 t (ne_of_mine ht ho), fun _ _ => rfl, fun _ _ => rfl, rfl, hqf, rfl⟩ hk
      h.trimmers htodo
  | nodeFromProto id =>
    simp only [runItem, Option.bind_eq_bind, Option.bind_eq_some_iff, Option.some.injEq] at hx
    obtain ⟨_, h1, opt, h2, rfl⟩ := hx
    exact h.aside hl hint ⟨fun _ _ => rfl, fun _ _ => rfl, fun _ _ => rfl, fun t ht => insert_get h2 t (ne_of_mine ht ho), fun _ _ => rfl, rfl, hqf, rfl⟩ hk h.trimmers htodo
  | nodeToSubmap n id =>
    simp only [runItem] at hx
    split at hx
    · simp only [Option.bind_eq_bind, Option.bind_eq_some_iff, Option.some.injEq] at hx
      obtain ⟨sm, _, m, h2, rfl⟩ := hx
      have hm : mine id.1 = true := by simp only [ownItem, Bool.and_eq_true] at ho; exact ho.2
      exact h.aside hl hint ⟨fun t ht => (assign_get h2).1 t (ne_of_mine ht hm), fun _ _ => rfl, fun _ _ => rfl, fun _ _ => rfl, fun _ _ => rfl, rfl, hqf, rfl⟩ hk h.trimmers htodo
    · cases hx
  | serialized cs =>
    simp only [runItem] at hx
    have hm : ∀ x ∈ cs, mine x.submap.1 = true := by
      simp only [ownItem, Bool.and_eq_true, List.all_eq_true] at ho
      exact fun x hx => (ho.2 x hx).2
    obtain ⟨a, m, l, rfl⟩ := addSerializedAll_get hm hx
    exact h.aside hl hint ⟨a, fun _ _ => rfl, fun _ _ => rfl, fun _ _ => rfl, fun _ _ => rfl, rfl, hqf, rfl⟩ hk h.trimmers htodo
  | _ => cases ho

/-! ### Steps of the rest of the program -/

/-- Counting is not affected. -/
def Silent (b : Act V) : Prop :=
  (∀ as t, adds (as ++ [b]) t = adds as t) ∧ ∀ as t, posted (as ++ [b]) t = posted as t

theorem Holds.silent {b : Act V} (hb : Silent b) {s' : State V} (h : Holds S mine as made s' done lo s0 seen c fin) : Holds S mine (as ++ [b]) made s' done lo s0 seen c fin := by
  have e1 : adds (as ++ [b]) = adds as := funext (hb.1 as)
  have e2 : posted (as ++ [b]) = posted as := funext (hb.2 as)
  refine ⟨h.load, h.integrity, ?_, h.idle, h.queue, h.inflight, h.los, h.cuts, h.trajs, h.trimmers, h.kinds, h.todo, h.states⟩
  rw [e1, e2]
  exact h.ghost

theorem Caller.elsewhere {b : Act V} (hc : Caller S mine as s b) : Loading.Elsewhere mine b ∧ Loading.Calm mine s b := by
  cases b with
  | addNode t ins nf => exact ⟨hc.1, hc.1⟩
  | post x =>
    cases x with
    | data t => simp [Loading.Elsewhere, Loading.Calm, otherItem, hc.1]
    | finish t => simp [Loading.Elsewhere, Loading.Calm, otherItem, hc.1]
    | addTrimmer tr =>
      cases tr with
      | pureLocalization t keep d =>
        have : mine t = false := hc
        simp [Loading.Elsewhere, Loading.Calm, otherItem, otherTrimmer, this]
      | other => exact False.elim hc
    | _ => exact False.elim hc
  | addSubmapFromProto => exact False.elim hc
  | addNodeFromProto => exact False.elim hc
  | deleteTrajectory => exact False.elim hc
  | trim choices =>
    have : choices = [] := hc
    refine ⟨trivial, ?_⟩
    subst this
    intro l hl
    cases hl
  | _ => exact ⟨trivial, trivial⟩

/-- The trajectories from files and the integrity of the pose graph. -/
theorem Holds.rest (h : Holds S mine as made s done lo s0 seen c fin) {b : Act V} {s' : State V} (he : Enabled s b) (hc : Caller S mine as s b) (hx : exec s b = some s')
    (hr : ∀ poses, b = .run poses → ∀ i q, s.queue = i :: q → ownItem mine i = false) : Loading.Inv mine made done s' ∧ Integrity s' := by
  have hint := (step_integrity h.integrity he hx).1
  obtain ⟨e1, e2⟩ := hc.elsewhere
  refine ⟨h.load.other hint.wf he e2 hx ?_ e1, hint⟩
  intro poses e i q hq
  refine (h.kinds i ?_).other (hr poses e i q hq)
  rw [hq]
  simp

theorem not_fin (h : Holds S mine as made s done lo s0 seen c fin) {t : Int} (hp : posted as t = false) : fin t = false := by
  cases hf : fin t with
  | false => rfl
  | true =>
    rw [(h.ghost.finPending t hf).1] at hp
    cases hp

theorem kind_snoc {l : List (Item V)} {x : Item V} (h : ∀ y ∈ l, Kind mine y) (hx : Kind mine x) : ∀ y ∈ l ++ [x], Kind mine y := by
  intro y hy
  rw [List.mem_append, List.mem_singleton] at hy
  rcases hy with hy | rfl
  · exact h y hy
  · exact hx

theorem filter_snoc_true {α : Type} {p : α → Bool} {l : List α} {x : α} (h : p x = true) : (l ++ [x]).filter p = l.filter p ++ [x] := by
  rw [List.filter_append, List.filter_cons, if_pos h]
  simp

/-- **`AddNode`**. -/
theorem Holds.addNode (h : Holds S mine as made s done lo s0 seen c fin) {t : Int} {ins : List Nat} {nf : Bool} (he : Enabled s (.addNode t ins nf)) (hc : Caller S mine as s (.addNode t ins nf)) :
    ∃ s', exec s (.addNode t ins nf) = some s' ∧ ∃ s0', Holds S mine (as ++ [.addNode t ins nf]) made s' done lo s0' seen c fin := by
  have hc0 := hc
  obtain ⟨ht, h0, hp, rfl, rfl⟩ := hc
  have hf := not_fin h hp
  obtain ⟨s0', e1, i1⟩ := h.ghost.addNode h0 hp
  obtain ⟨s1, id, e2, rfl⟩ := addNode_inv e1
  obtain ⟨al1, al2, _, _⟩ := h.alive hf
  obtain ⟨trajs, nodes, submaps, e3, k, tr⟩ := appendNode_cut h.cuts ht ((h.trajs t ht).2 hf) al1 al2 e2
  have hid : id.1 = t := by
    obtain ⟨_, _, _, h2, _⟩ := appendNode_inv e2
    exact (append_spec h.cuts.nodes.wf0 h2).2.1
  have hs1 : s1.queue = s0.queue ∧ s1.inflight = s0.inflight ∧ s1.worker = s0.worker := by
    obtain ⟨_, _, _, _, h3⟩ := appendNode_inv e2
    rcases h3 with rfl | ⟨_, _, _, _, rfl⟩ <;> exact ⟨rfl, rfl, rfl⟩
  have hx : exec s (.addNode t ((windowOf (S.n t) (adds as t)).map (S.ptr t)) (fills (S.n t) (adds as t))) = some { s with
      trajs := trajs, nodes := nodes, submaps := submaps
      inflight := s.inflight ++ [.computeConstraints id ((windowOf (S.n t) (adds as t)).map (S.ptr t)) (fills (S.n t) (adds as t))] } := by
    simp only [exec, PoseGraph.addNode, e3, Option.bind_eq_bind, Option.bind_some]
  obtain ⟨hl, hint⟩ := h.rest he hc0 hx (by intro _ e; cases e)
  have hsl : slam mine (.computeConstraints id ((windowOf (S.n t) (adds as t)).map (S.ptr t)) (fills (S.n t) (adds as t)) : Item V) = true := by
    simp [slam, builderOf, hid, ht]
  refine ⟨_, hx, { s1 with inflight := s1.inflight ++ [.computeConstraints id ((windowOf (S.n t) (adds as t)).map (S.ptr t)) (fills (S.n t) (adds as t))] }, hl, hint, ?_, ?_, ?_, ?_, h.los, ?_, ?_,
    h.trimmers, ?_, ?_, by intro u hu; dsimp only; rw [tr u]; exact h.states u hu⟩
  · have ea : adds (as ++ [.addNode t ((windowOf (S.n t) (adds as t)).map (S.ptr t)) (fills (S.n t) (adds as t))]) = bump (adds as) t := by
      funext u
      rw [adds_snoc]
      by_cases hu : u = t
      · subst hu; simp [bump_self]
      · rw [bump_ne hu]; simp [Ne.symm hu]
    have ep : posted (as ++ [.addNode t ((windowOf (S.n t) (adds as t)).map (S.ptr t)) (fills (S.n t) (adds as t))]) = posted as := by
      funext u
      rw [posted_snoc]
      simp
    rw [ea, ep]
    exact i1
  · exact hs1.2.2.trans h.idle
  · exact hs1.1.trans h.queue
  · dsimp only
    rw [filter_snoc_true hsl, hs1.2.1, h.inflight]
  · exact ⟨k.1, k.2, k.3, k.4⟩
  · intro u hu
    dsimp only
    rw [tr u]
    exact h.trajs u hu
  · dsimp only
    rw [← List.append_assoc]
    exact kind_snoc h.kinds (Or.inr (Or.inl hsl))
  · intro todo hw p hp
    obtain ⟨b1, sm, b2, b3⟩ := h.todo todo hw p hp
    refine ⟨b1, sm, ?_, b3⟩
    dsimp only
    obtain ⟨_, _, _, _, h3⟩ := appendNode_inv e3
    rcases h3 with h3 | ⟨_, submaps', id', h4, h3⟩
    · have := congrArg State.submaps h3
      dsimp only at this
      rw [this]
      exact b2
    · have := congrArg State.submaps h3
      dsimp only at this
      obtain ⟨_, _, q0, q⟩ := append_spec h.integrity.wf.submaps h4
      rw [this, q, if_neg (by rintro rfl; rw [q0] at b2; cases b2)]
      exact b2

theorem silent_of {b : Act V} (h1 : ∀ t ins nf, b ≠ .addNode t ins nf) (h2 : ∀ t, b ≠ .post (.finish t)) : Silent b := by
  refine ⟨fun as t => ?_, fun as t => ?_⟩
  · rw [adds_snoc]
    cases b with
    | addNode t ins nf => exact absurd rfl (h1 t ins nf)
    | _ => rfl
  · rw [posted_snoc]
    cases b with
    | post x =>
      cases x with
      | finish t => exact absurd rfl (h2 t)
      | _ => simp
    | _ => simp

/-- **Adding sensor data, finishing a trajectory, adding a trimmer**. -/
theorem Holds.post (h : Holds S mine as made s done lo s0 seen c fin) {x : Item V} (he : Enabled s (.post x)) (hc : Caller S mine as s (.post x)) :
    ∃ s', exec s (.post x) = some s' ∧ ∃ s0', Holds S mine (as ++ [.post x]) made s' done lo s0' seen c fin := by
  have hx : exec s (.post x) = some { s with inflight := s.inflight ++ [x] } := rfl
  obtain ⟨hl, hint⟩ := h.rest he hc hx (by intro _ e; cases e)
  refine ⟨_, hx, ?_⟩
  have hk : Kind mine x → ∀ y ∈ s.queue ++ (s.inflight ++ [x]), Kind mine y := by
    intro hkx
    rw [← List.append_assoc]
    exact kind_snoc h.kinds hkx
  cases x with
  | data t =>
    have hsl : slam mine (.data t : Item V) = true := by simp [slam, builderOf, hc.1]
    refine ⟨{ s0 with inflight := s0.inflight ++ [.data t] }, Holds.silent (silent_of (by simp) (by simp)) ⟨hl, hint, h.ghost.postData hc.2, h.idle, h.queue, ?_, h.los,
      ⟨h.cuts.1, h.cuts.2, h.cuts.3, h.cuts.4⟩, h.trajs, h.trimmers, hk (Or.inr (Or.inl hsl)), h.todo, h.states⟩⟩
    dsimp only
    rw [filter_snoc_true hsl, h.inflight]
  | finish t =>
    have hsl : slam mine (.finish t : Item V) = true := by simp [slam, builderOf, hc.1]
    refine ⟨{ s0 with inflight := s0.inflight ++ [.finish t] }, ⟨hl, hint, ?_, h.idle, h.queue, ?_, h.los, ⟨h.cuts.1, h.cuts.2, h.cuts.3, h.cuts.4⟩, h.trajs, h.trimmers,
      hk (Or.inr (Or.inl hsl)), h.todo, h.states⟩⟩
    · have ea : adds (as ++ [.post (.finish t)]) = adds as := by
        funext u
        rw [adds_snoc]
        rfl
      have ep : posted (as ++ [.post (.finish t)]) = fun u => if u = t then true else posted as u := by
        funext u
        rw [posted_snoc]
        by_cases hu : u = t
        · subst hu; simp
        · simp [hu, Ne.symm hu]
      rw [ea, ep]
      exact h.ghost.postFinish hc.2
    · dsimp only
      rw [filter_snoc_true hsl, h.inflight]
  | addTrimmer tr =>
    cases tr with
    | other => exact False.elim hc
    | pureLocalization t keep d =>
      have ht : mine t = false := hc
      simp only [Enabled, Item.free, Bool.and_eq_true, decide_eq_true_eq, Bool.not_eq_true'] at he
      obtain ⟨h2, rfl⟩ := he
      exact ⟨s0, Holds.silent (silent_of (by simp) (by simp)) (h.aside hl hint ⟨fun _ _ => rfl, fun _ _ => rfl, fun _ _ => rfl, fun _ _ => rfl, fun _ _ => rfl, rfl, rfl, filter_snoc_false rfl⟩
        (hk (Or.inr (Or.inr (Or.inr ⟨t, keep, rfl, h2, ht⟩)))) h.trimmers h.todo)⟩
  | _ => exact False.elim hc

/-- **A work item enters the queue**. -/
theorem Holds.enqueue (h : Holds S mine as made s done lo s0 seen c fin) {k : Nat} (he : Enabled s (.enqueue k)) (hc : Caller S mine as s (.enqueue k)) :
    ∃ s', exec s (.enqueue k) = some s' ∧ ∃ s0', Holds S mine (as ++ [.enqueue k]) made s' done lo s0' seen c fin := by
  have hk : s.inflight[k]? = some (s.inflight[k]'he) := List.getElem?_eq_getElem he
  generalize s.inflight[k]'he = x at hk
  have hx : exec s (.enqueue k) = some { s with queue := s.queue ++ [x], inflight := s.inflight.eraseIdx k } := by simp only [exec, hk]
  obtain ⟨hl, hint⟩ := h.rest he hc hx (by intro _ e; cases e)
  refine ⟨_, hx, { s0 with queue := (s.queue ++ [x]).filter (slam mine), inflight := (s.inflight.eraseIdx k).filter (slam mine) }, ?_⟩
  have hp : ∀ u, PoseGraph.pend { s0 with queue := (s.queue ++ [x]).filter (slam mine), inflight := (s.inflight.eraseIdx k).filter (slam mine) } u = PoseGraph.pend s0 u := by
    intro u
    unfold PoseGraph.pend
    dsimp only
    rw [h.queue, h.inflight, ← List.filter_append, ← List.filter_append, List.filter_filter, List.filter_filter, List.filter_append, List.filter_append, List.filter_append, List.append_assoc]
    congr 1
    rw [filter_eraseIdx hk]
    · congr 1
      simp only [List.filter_cons, List.filter_nil]
    · intro j hj y hy h1
      cases h2 : (decide (y.traj = u) && slam mine y) with
      | false => rfl
      | true =>
        simp only [Bool.and_eq_true, decide_eq_true_eq] at h1 h2
        exfalso
        obtain ⟨a1, _⟩ := slam_traj h1.2
        obtain ⟨a2, _⟩ := slam_traj h2.2
        rcases hc j hj y x hy hk with hn | hn
        · rw [a2] at hn; cases hn
        · rw [a1, a2, h1.1, h2.1] at hn
          exact hn rfl
  refine Holds.silent (silent_of (by simp) (by simp)) ⟨hl, hint, ?_, h.idle, rfl, rfl, h.los, ⟨h.cuts.1, h.cuts.2, h.cuts.3, h.cuts.4⟩, h.trajs, h.trimmers, ?_, h.todo, h.states⟩
  · refine h.ghost.pend ?_ ?_ ?_
    · intro u; rw [hp]; exact h.ghost.pending u
    · intro u hu; rw [hp]; exact h.ghost.finPending u hu
    · intro u h1 h2; rw [hp]; exact h.ghost.lastFinish u h1 h2
  · intro y hy
    refine h.kinds y ?_
    dsimp only at hy
    rw [List.append_assoc, List.mem_append, List.mem_append, List.mem_singleton] at hy
    rw [List.mem_append]
    rcases hy with hy | rfl | hy
    · exact Or.inl hy
    · exact Or.inr (List.mem_of_getElem? hk)
    · exact Or.inr (List.mem_of_mem_eraseIdx hy)

end Verif.Localize
