import Verif.PoseGraph

/-! # Lemmas about the pose graph -/

namespace Verif.PoseGraph

open MapById (Id Map WF at? append insert trim assign contains sizeOfTrajectoryOrZero flat)

variable {P : Type}

theorem guard_some {p : Prop} [Decidable p] {u : Unit} : (guard p : Option Unit) = some u ↔ p := by
  by_cases h : p <;> simp [guard, h]

/-! ### Trimming lists of ids -/

theorem trim_isSome {D : Type} {m : Map D} {id : Id} : (trim m id).isSome ↔ (at? m id).isSome := by
  simp only [trim, at?]
  cases h : SMap.get? id.1 m with
  | none => simp
  | some tr =>
    cases h2 : SMap.get? id.2 tr.data with
    | none => simp [h2]
    | some d => simp only [Option.bind_some, h2, Option.isSome_some, iff_true]; split <;> rfl

theorem trimAll_spec {D : Type} {l : List Id} : ∀ {m m' : Map D}, WF m → trimAll m l = some m' →
    WF m' ∧ ∀ id, at? m' id = if id ∈ l then none else at? m id := by
  induction l with
  | nil =>
    intro m m' hm h
    simp only [trimAll, Option.some.injEq] at h
    subst h
    exact ⟨hm, by simp⟩
  | cons x l ih =>
    intro m m' hm h
    simp only [trimAll, Option.bind_eq_bind, Option.bind_eq_some_iff] at h
    obtain ⟨m1, h1, h2⟩ := h
    obtain ⟨w1, -, q1⟩ := MapById.trim_spec hm h1
    obtain ⟨w2, q2⟩ := ih w1 h2
    refine ⟨w2, fun id => ?_⟩
    rw [q2, q1]
    by_cases hx : x = id
    · simp [hx]
    · by_cases hl : id ∈ l
      · simp [hl]
      · have : id ∉ x :: l := by simp [hl]; exact fun h => hx h.symm
        rw [if_neg hl, if_neg hx, if_neg this]

theorem trimAll_total {D : Type} {l : List Id} : ∀ {m : Map D}, WF m → l.Nodup →
    (∀ id ∈ l, (at? m id).isSome) → (trimAll m l).isSome := by
  induction l with
  | nil => intro m _ _ _; rfl
  | cons x l ih =>
    intro m hm hn h
    have hx : (trim m x).isSome := trim_isSome.2 (h x (by simp))
    obtain ⟨m1, h1⟩ := Option.isSome_iff_exists.1 hx
    obtain ⟨w1, -, q1⟩ := MapById.trim_spec hm h1
    rw [List.nodup_cons] at hn
    simp only [trimAll, h1, Option.bind_eq_bind, Option.bind_some]
    apply ih w1 hn.2
    intro id hid
    rw [q1, if_neg (by rintro rfl; exact hn.1 hid)]
    exact h id (by simp [hid])

/-! ### The nodes to remove -/

theorem mem_nodesToRetain {m : Map Submap} (hm : WF m) {id n : Id} :
    n ∈ nodesToRetain m id ↔ ∃ id' sm, id' ≠ id ∧ at? m id' = some sm ∧ n ∈ sm.nodeIds := by
  simp only [nodesToRetain, List.mem_flatMap, List.mem_filter, decide_eq_true_eq]
  constructor
  · rintro ⟨⟨id', sm⟩, ⟨h1, h2⟩, h3⟩
    exact ⟨id', sm, h2, (MapById.at?_iff_mem hm).2 h1, h3⟩
  · rintro ⟨id', sm, h2, h1, h3⟩
    exact ⟨(id', sm), ⟨(MapById.at?_iff_mem hm).1 h1, h2⟩, h3⟩

/-- The node belongs to the submap `id` and to no other one. -/
def OnlyIn (m : Map Submap) (id n : Id) : Prop :=
  (∃ sm, at? m id = some sm ∧ n ∈ sm.nodeIds) ∧
    ∀ id' sm, at? m id' = some sm → n ∈ sm.nodeIds → id' = id

theorem mem_nodesToRemove {m : Map Submap} (hm : WF m) {id n : Id} {sm : Submap} (h : at? m id = some sm) :
    n ∈ nodesToRemove m id sm.nodeIds ↔ OnlyIn m id n := by
  simp only [nodesToRemove, List.mem_filter, decide_eq_true_eq, mem_nodesToRetain hm, OnlyIn, not_exists, not_and]
  constructor
  · rintro ⟨h1, h2⟩
    exact ⟨⟨sm, h, h1⟩, fun id' sm' h3 h4 => by_contra fun h5 => h2 id' sm' h5 h3 h4⟩
  · rintro ⟨⟨sm', h1, h2⟩, h3⟩
    rw [h] at h1
    obtain rfl := Option.some.inj h1
    exact ⟨h2, fun id' sm' h4 h5 h6 => h4 (h3 id' sm' h5 h6)⟩

/-- Everything about a trimmed submap. -/
theorem trimSubmap_inv {s s' : State P} {id : Id} (h : trimSubmap s id = some s') :
    ∃ sm submaps optSubmaps nodes optNodes, at? s.submaps id = some sm ∧ sm.finished = true ∧
      trim s.submaps id = some submaps ∧ trim s.optSubmaps id = some optSubmaps ∧
      trimAll s.nodes (nodesToRemove s.submaps id sm.nodeIds) = some nodes ∧
      trimAll s.optNodes (nodesToRemove s.submaps id sm.nodeIds) = some optNodes ∧
      s' = { s with
        submaps := submaps
        nodes := nodes
        constraints := (s.constraints.filter (fun c => c.submap ≠ id)).filter
          (fun c => c.node ∉ nodesToRemove s.submaps id sm.nodeIds)
        optSubmaps := optSubmaps
        optNodes := optNodes } := by
  simp only [trimSubmap, Option.bind_eq_bind, Option.bind_eq_some_iff, guard_some, Option.some.injEq] at h
  obtain ⟨sm, h1, _, h2, submaps, h3, optSubmaps, h4, nodes, h5, optNodes, h6, h7⟩ := h
  exact ⟨sm, submaps, optSubmaps, nodes, optNodes, h1, h2, h3, h4, h5, h6, h7.symm⟩

/-! ### Integrity -/

/-- All maps are well formed. -/
structure Wf (s : State P) : Prop where
  submaps : WF s.submaps
  nodes : WF s.nodes
  optSubmaps : WF s.optSubmaps
  optNodes : WF s.optNodes

/-- Referential integrity. -/
structure Integrity (s : State P) : Prop where
  wf : Wf s
  /-- Constraints refer to submaps and nodes of the pose graph. -/
  refs : ∀ c ∈ s.constraints, (∃ sm, at? s.submaps c.submap = some sm ∧ (c.intra = true → c.node ∈ sm.nodeIds)) ∧
    (at? s.nodes c.node).isSome
  /-- So do the searches under way, and their submaps are finished. -/
  searches : ∀ p ∈ s.searches, (∃ sm, at? s.submaps p.2 = some sm ∧ sm.finished = true) ∧ (at? s.nodes p.1).isSome
  /-- Nothing is trimmed while searches are under way. -/
  quiet : ∀ r, s.worker = .optimized r → s.searches = [] ∧
    ∀ c ∈ r, (at? s.submaps c.submap).isSome ∧ (at? s.nodes c.node).isSome
  /-- Node sets have no duplicates. -/
  nodup : ∀ id sm, at? s.submaps id = some sm → sm.nodeIds.Nodup
  /-- The optimization problem only knows submaps of the pose graph. -/
  opt : ∀ id, (at? s.optSubmaps id).isSome → (at? s.submaps id).isSome

/-- What grows in a step that does not trim. -/
structure Grow (s s' : State P) : Prop where
  nodes : ∀ id, (at? s.nodes id).isSome → (at? s'.nodes id).isSome
  submaps : ∀ id sm, at? s.submaps id = some sm → ∃ sm', at? s'.submaps id = some sm' ∧
    (sm.finished = true → sm'.finished = true) ∧ (∀ n ∈ sm.nodeIds, n ∈ sm'.nodeIds)

theorem Grow.refl (s : State P) : Grow s s := ⟨fun _ h => h, fun _ sm h => ⟨sm, h, id, fun _ h => h⟩⟩

theorem Grow.trans {s s' s'' : State P} (h : Grow s s') (h' : Grow s' s'') : Grow s s'' := by
  refine ⟨fun id hi => h'.nodes _ (h.nodes _ hi), fun id sm hs => ?_⟩
  obtain ⟨sm', h1, h2, h3⟩ := h.submaps id sm hs
  obtain ⟨sm'', g1, g2, g3⟩ := h'.submaps id sm' h1
  exact ⟨sm'', g1, fun x => g2 (h2 x), fun n hn => g3 n (h3 n hn)⟩

theorem Grow.submap {s s' : State P} (h : Grow s s') {id : Id} (hi : (at? s.submaps id).isSome) :
    (at? s'.submaps id).isSome := by
  obtain ⟨sm, hsm⟩ := Option.isSome_iff_exists.1 hi
  obtain ⟨sm', h1, -⟩ := h.submaps id sm hsm
  simp [h1]

theorem setInsert_mem {n m : Id} {l : List Id} : m ∈ setInsert n l ↔ m = n ∨ m ∈ l := by
  unfold setInsert
  split
  · constructor
    · exact Or.inr
    · rintro (rfl | h) <;> assumption
  · simp [or_comm]

theorem setInsert_nodup {n : Id} {l : List Id} (h : l.Nodup) : (setInsert n l).Nodup := by
  unfold setInsert
  split
  · exact h
  · rename_i hn
    rw [List.nodup_append]
    refine ⟨h, by simp, ?_⟩
    intro a ha b hb
    simp only [List.mem_singleton] at hb
    rintro rfl
    exact hn (hb ▸ ha)

/-- Growing while the constraints, searches and the worker stay the same keeps integrity. -/
theorem Integrity.grow {s s' : State P} (h : Integrity s) (hg : Grow s s') (wf : Wf s')
    (hc : s'.constraints = s.constraints) (hs : s'.searches = s.searches) (hw : s'.worker = s.worker)
    (hn : ∀ id sm, at? s'.submaps id = some sm → sm.nodeIds.Nodup)
    (ho : ∀ id, (at? s'.optSubmaps id).isSome → (at? s'.submaps id).isSome) : Integrity s' where
  wf := wf
  refs := by
    intro c hcm
    rw [hc] at hcm
    obtain ⟨⟨sm, h1, h2⟩, h3⟩ := h.refs c hcm
    obtain ⟨sm', g1, -, g3⟩ := hg.submaps _ _ h1
    exact ⟨⟨sm', g1, fun hi => g3 _ (h2 hi)⟩, hg.nodes _ h3⟩
  searches := by
    intro p hp
    rw [hs] at hp
    obtain ⟨⟨sm, h1, h2⟩, h3⟩ := h.searches p hp
    obtain ⟨sm', g1, g2, -⟩ := hg.submaps _ _ h1
    exact ⟨⟨sm', g1, g2 h2⟩, hg.nodes _ h3⟩
  quiet := by
    intro r hr
    rw [hw] at hr
    obtain ⟨q1, q2⟩ := h.quiet r hr
    exact ⟨by rw [hs]; exact q1, fun c hc => ⟨hg.submap (q2 c hc).1, hg.nodes _ (q2 c hc).2⟩⟩
  nodup := hn
  opt := ho

theorem Integrity.init : Integrity ({} : State P) where
  wf := ⟨MapById.wf_nil, MapById.wf_nil, MapById.wf_nil, MapById.wf_nil⟩
  refs := by simp
  searches := by simp
  quiet := by simp
  nodup := by simp [at?, SMap.get?]
  opt := by simp [at?, SMap.get?]

/-! ### Trimming keeps integrity -/

theorem at?_nodesToRemove {s : State P} (wf : Wf s) {id : Id} {sm : Submap} (h : at? s.submaps id = some sm) (n : Id) :
    n ∈ nodesToRemove s.submaps id sm.nodeIds ↔ OnlyIn s.submaps id n := mem_nodesToRemove wf.submaps h

theorem trimSubmap_integrity {s s' : State P} {id : Id} (hi : Integrity s) (hq : s.searches = [])
    (ht : trimSubmap s id = some s') (hr : ∀ r, s.worker ≠ .optimized r ) : Integrity s' := by
  obtain ⟨sm, submaps, optSubmaps, nodes, optNodes, h1, h2, h3, h4, h5, h6, rfl⟩ := trimSubmap_inv ht
  obtain ⟨w1, -, q1⟩ := MapById.trim_spec hi.wf.submaps h3
  obtain ⟨w2, -, q2⟩ := MapById.trim_spec hi.wf.optSubmaps h4
  obtain ⟨w3, q3⟩ := trimAll_spec hi.wf.nodes h5
  obtain ⟨w4, q4⟩ := trimAll_spec hi.wf.optNodes h6
  constructor
  · exact ⟨w1, w3, w2, w4⟩
  · intro c hc
    simp only [List.mem_filter, decide_eq_true_eq] at hc
    obtain ⟨⟨hc1, hc2⟩, hc3⟩ := hc
    obtain ⟨⟨sm', g1, g2⟩, g3⟩ := hi.refs c hc1
    refine ⟨⟨sm', ?_, g2⟩, ?_⟩
    · dsimp only
      rw [q1, if_neg (Ne.symm hc2)]; exact g1
    · dsimp only
      rw [q3, if_neg hc3]; exact g3
  · intro p hp
    dsimp only at hp
    rw [hq] at hp
    cases hp
  · intro r hw
    exact absurd hw (hr r)
  · intro id' sm' h
    dsimp only at h
    rw [q1] at h
    split at h
    · cases h
    · exact hi.nodup _ _ h
  · intro id' h
    dsimp only at h ⊢
    rw [q2] at h
    rw [q1]
    split
    · rename_i hx; rw [if_pos hx] at h; simp at h
    · rename_i hx; rw [if_neg hx] at h; exact hi.opt _ h

/-! ### Inversion of the operations -/

theorem appendNode_inv {s s' : State P} {t : Int} {ins : List Nat} {id : Id}
    (h : appendNode s t ins = some (s', id)) :
    ∃ trajs nodes, addTrajectoryIfNeeded s.trajs t = some trajs ∧ append s.nodes t () = some (nodes, id) ∧
      (s' = { s with
          trajs := trajs
          nodes := nodes } ∨
        ∃ back submaps id', append s.submaps t { ptr := back } = some (submaps, id') ∧ s' = { s with
          trajs := trajs
          nodes := nodes
          submaps := submaps }) := by
  simp only [appendNode, Option.bind_eq_bind, Option.bind_eq_some_iff, guard_some] at h
  obtain ⟨trajs, h1, _, h2, ⟨nodes, id1⟩, h3, back, h4, h5⟩ := h
  dsimp only at h5
  split at h5
  · simp only [Option.bind_eq_some_iff, Option.some.injEq, Prod.mk.injEq] at h5
    obtain ⟨⟨submaps, id'⟩, h6, h7, rfl⟩ := h5
    exact ⟨trajs, nodes, h1, h3, Or.inr ⟨back, submaps, id', h6, h7.symm⟩⟩
  · simp only [Option.some.injEq, Prod.mk.injEq] at h5
    obtain ⟨h7, rfl⟩ := h5
    exact ⟨trajs, nodes, h1, h3, Or.inl h7.symm⟩

theorem addNode_inv {s s' : State P} {t : Int} {ins : List Nat} {nf : Bool} (h : addNode s t ins nf = some s') :
    ∃ s1 id, appendNode s t ins = some (s1, id) ∧ s' = { s1 with
      inflight := s1.inflight ++ [.computeConstraints id ins nf] } := by
  simp only [addNode, Option.bind_eq_bind, Option.bind_eq_some_iff, Option.some.injEq] at h
  obtain ⟨⟨s1, id⟩, h1, h2⟩ := h
  exact ⟨s1, id, h1, h2.symm⟩

theorem addSubmapFromProto_inv {s s' : State P} {id : Id} {ptr : Nat} (h : addSubmapFromProto s id ptr = some s') :
    ∃ trajs submaps, addTrajectoryIfNeeded s.trajs id.1 = some trajs ∧
      insert s.submaps id { ptr := ptr } = some submaps ∧ s' = { s with
        trajs := trajs
        submaps := submaps
        inflight := s.inflight ++ [.submapFromProto id] } := by
  simp only [addSubmapFromProto, Option.bind_eq_bind, Option.bind_eq_some_iff, guard_some, Option.some.injEq] at h
  obtain ⟨trajs, h1, _, h2, submaps, h3, h4⟩ := h
  exact ⟨trajs, submaps, h1, h3, h4.symm⟩

theorem addNodeFromProto_inv {s s' : State P} {id : Id} (h : addNodeFromProto s id = some s') :
    ∃ trajs nodes, addTrajectoryIfNeeded s.trajs id.1 = some trajs ∧
      insert s.nodes id () = some nodes ∧ s' = { s with
        trajs := trajs
        nodes := nodes
        inflight := s.inflight ++ [.nodeFromProto id] } := by
  simp only [addNodeFromProto, Option.bind_eq_bind, Option.bind_eq_some_iff, guard_some, Option.some.injEq] at h
  obtain ⟨trajs, h1, _, h2, nodes, h3, h4⟩ := h
  exact ⟨trajs, nodes, h1, h3, h4.symm⟩

theorem markFinished_inv {m m' : Map Submap} {id : Id} (h : markFinished m id = some m') :
    ∃ sm, at? m id = some sm ∧ assign m id { sm with finished := true } = some m' := by
  simpa only [markFinished, Option.bind_eq_bind, Option.bind_eq_some_iff] using h

/-- A submap after an update that only adds nodes or finishes it. -/
def Submap.le (a b : Submap) : Prop :=
  a.ptr = b.ptr ∧ (a.finished = true → b.finished = true) ∧ (∀ n ∈ a.nodeIds, n ∈ b.nodeIds) ∧
    (a.nodeIds.Nodup → b.nodeIds.Nodup)

theorem Submap.le_refl (a : Submap) : a.le a := ⟨rfl, id, fun _ h => h, id⟩

/-- The same submaps, each with more nodes. -/
def MapLe (m m' : Map Submap) : Prop :=
  ∀ id, match at? m id with
    | none => at? m' id = none
    | some sm => ∃ sm', at? m' id = some sm' ∧ sm.le sm'

theorem MapLe.refl (m : Map Submap) : MapLe m m := by
  intro id
  split
  · assumption
  · exact ⟨_, by assumption, Submap.le_refl _⟩

theorem MapLe.trans {m m' m'' : Map Submap} (h : MapLe m m') (h' : MapLe m' m'') : MapLe m m'' := by
  intro id
  have h1 := h id
  have h2 := h' id
  split
  · rename_i hn
    rw [hn] at h1
    dsimp only at h1
    rw [h1] at h2
    exact h2
  · rename_i sm hs
    rw [hs] at h1
    obtain ⟨sm', g1, g2⟩ := h1
    rw [g1] at h2
    obtain ⟨sm'', k1, k2⟩ := h2
    exact ⟨sm'', k1, g2.1.trans k2.1, fun x => k2.2.1 (g2.2.1 x), fun n hn => k2.2.2.1 n (g2.2.2.1 n hn),
      fun x => k2.2.2.2 (g2.2.2.2 x)⟩

theorem assign_mapLe {m m' : Map Submap} (hm : WF m) {id : Id} {sm sm' : Submap} (h1 : at? m id = some sm)
    (hle : sm.le sm') (h : assign m id sm' = some m') : WF m' ∧ MapLe m m' := by
  obtain ⟨w, -, q⟩ := MapById.assign_spec hm h
  refine ⟨w, fun i => ?_⟩
  rw [q]
  by_cases hi : id = i
  · subst hi
    rw [h1, if_pos rfl]
    exact ⟨sm', rfl, hle⟩
  · rw [if_neg hi]
    exact MapLe.refl m i

theorem MapLe.isSome {m m' : Map Submap} (h : MapLe m m') (id : Id) : (at? m' id).isSome = (at? m id).isSome := by
  have := h id
  split at this
  · rename_i hn; rw [this, hn]
  · rename_i sm hs; obtain ⟨sm', g, -⟩ := this; rw [g, hs]; rfl

theorem MapLe.nodup {m m' : Map Submap} (h : MapLe m m') (hn : ∀ id sm, at? m id = some sm → sm.nodeIds.Nodup) :
    ∀ id sm, at? m' id = some sm → sm.nodeIds.Nodup := by
  intro id sm hs
  have := h id
  split at this
  · rw [this] at hs; cases hs
  · rename_i sm0 h0
    obtain ⟨sm', g, g2⟩ := this
    rw [g] at hs
    obtain rfl := Option.some.inj hs
    exact g2.2.2.2 (hn _ _ h0)

theorem markFinished_spec {m m' : Map Submap} (hm : WF m) {id : Id} (h : markFinished m id = some m') :
    WF m' ∧ MapLe m m' := by
  obtain ⟨sm, h1, h2⟩ := markFinished_inv h
  exact assign_mapLe hm h1 (sm' := { sm with finished := true }) ⟨rfl, fun _ => rfl, fun _ h => h, fun h => h⟩ h2

theorem markAll_spec {ids : List Id} : ∀ {m m' : Map Submap}, WF m → markAll m ids = some m' →
    WF m' ∧ MapLe m m' := by
  induction ids with
  | nil =>
    intro m m' hm h
    simp only [markAll, Option.some.injEq] at h
    subst h
    exact ⟨hm, MapLe.refl _⟩
  | cons x ids ih =>
    intro m m' hm h
    simp only [markAll, Option.bind_eq_bind, Option.bind_eq_some_iff] at h
    obtain ⟨m1, h1, h2⟩ := h
    obtain ⟨w1, l1⟩ := markFinished_spec hm h1
    obtain ⟨w2, l2⟩ := ih w1 h2
    exact ⟨w2, l1.trans l2⟩

/-- Steps that only update submaps and optimization problem. -/
theorem grow_of_mapLe {s s' : State P} (h : MapLe s.submaps s'.submaps) (hn : s'.nodes = s.nodes) : Grow s s' := by
  refine ⟨fun id hi => by rw [hn]; exact hi, fun id sm hs => ?_⟩
  have := h id
  rw [hs] at this
  obtain ⟨sm', g1, g2⟩ := this
  exact ⟨sm', g1, g2.2.1, g2.2.2.1⟩

theorem MapLe.mem {m m' : Map Submap} (h : MapLe m m') {id : Id} {sm : Submap} (hs : at? m id = some sm) :
    ∃ sm', at? m' id = some sm' ∧ sm.le sm' := by
  have := h id
  rw [hs] at this
  exact this

theorem insertIntra_spec {s s' : State P} {node id : Id} {pose : P} (hm : WF s.submaps)
    (h : insertIntra s node id pose = some s') :
    ∃ submaps, s' = { s with
        submaps := submaps
        constraints := s.constraints ++ [⟨id, node, pose, true⟩] } ∧ WF submaps ∧ MapLe s.submaps submaps ∧
      (∃ sm, at? s.submaps id = some sm ∧ sm.finished = false) ∧
      (∃ sm, at? submaps id = some sm ∧ node ∈ sm.nodeIds ∧ sm.finished = false) ∧
      ∀ id' sm, at? submaps id' = some sm → ∀ n ∈ sm.nodeIds, n = node ∨ ∃ sm0, at? s.submaps id' = some sm0 ∧ n ∈ sm0.nodeIds := by
  simp only [insertIntra, Option.bind_eq_bind, Option.bind_eq_some_iff, guard_some, Option.some.injEq] at h
  obtain ⟨sm, h1, _, h2, submaps, h3, h4⟩ := h
  have hle : sm.le { sm with nodeIds := setInsert node sm.nodeIds } :=
    ⟨rfl, fun h => h, fun n hn => setInsert_mem.2 (Or.inr hn), setInsert_nodup⟩
  obtain ⟨w, l⟩ := assign_mapLe hm h1 hle h3
  obtain ⟨-, -, q⟩ := MapById.assign_spec hm h3
  refine ⟨submaps, h4.symm, w, l, ⟨sm, h1, h2⟩, ⟨{ sm with nodeIds := setInsert node sm.nodeIds }, by rw [q, if_pos rfl], setInsert_mem.2 (Or.inl rfl), h2⟩, ?_⟩
  intro id' sm' hs n hn
  rw [q] at hs
  split at hs
  · rename_i he
    subst he
    obtain rfl := Option.some.inj hs
    rcases setInsert_mem.1 hn with rfl | hn
    · exact Or.inl rfl
    · exact Or.inr ⟨sm, h1, hn⟩
  · exact Or.inr ⟨sm', hs, hn⟩

theorem insertIntras_spec {node : Id} {ids : List Id} : ∀ {s s' : State P} {poses : List P}, WF s.submaps →
    insertIntras s node ids poses = some s' →
    ∃ submaps cs, s' = { s with
        submaps := submaps
        constraints := s.constraints ++ cs } ∧ WF submaps ∧ MapLe s.submaps submaps ∧
      (∀ id ∈ ids, (at? s.submaps id).isSome) ∧
      (∀ c ∈ cs, c.node = node ∧ c.intra = true ∧ ∃ sm, at? submaps c.submap = some sm ∧ node ∈ sm.nodeIds) ∧
      ∀ id' sm, at? submaps id' = some sm → ∀ n ∈ sm.nodeIds, n = node ∨ ∃ sm0, at? s.submaps id' = some sm0 ∧ n ∈ sm0.nodeIds := by
  induction ids with
  | nil =>
    intro s s' poses hm h
    simp only [insertIntras, Option.some.injEq] at h
    subst h
    refine ⟨s.submaps, [], by simp, hm, MapLe.refl _, by simp, by simp, ?_⟩
    intro id' sm h n hn
    exact Or.inr ⟨sm, h, hn⟩
  | cons id ids ih =>
    intro s s' poses hm h
    cases poses with
    | nil => simp [insertIntras] at h
    | cons pose poses =>
      simp only [insertIntras, Option.bind_eq_bind, Option.bind_eq_some_iff] at h
      obtain ⟨s1, h1, h2⟩ := h
      obtain ⟨m1, rfl, w1, l1, ⟨sm0, e0, -⟩, ⟨sm1, e1, e2, -⟩, f1⟩ := insertIntra_spec hm h1
      obtain ⟨m2, cs, rfl, w2, l2, a2, b2, f2⟩ := ih (by exact w1) h2
      refine ⟨m2, ⟨id, node, pose, true⟩ :: cs, by simp, w2, l1.trans l2, ?_, ?_, ?_⟩
      · intro i hi
        rcases List.mem_cons.1 hi with rfl | hi
        · simp [e0]
        · have := a2 i hi
          dsimp only at this
          rwa [l1.isSome] at this
      · intro c hc
        rcases List.mem_cons.1 hc with rfl | hc
        · obtain ⟨sm2, k1, k2⟩ := l2.mem e1
          exact ⟨rfl, rfl, sm2, k1, k2.2.2.1 _ e2⟩
        · exact b2 c hc
      · intro id' sm hs n hn
        rcases f2 id' sm hs n hn with h | ⟨sm0, h3, h4⟩
        · exact Or.inl h
        · exact f1 id' sm0 h3 n h4

theorem getLast?_map_fst {D : Type} {t : Int} {l : List (Int × D)} {x : Id}
    (h : (l.map (fun e => ((t, e.1) : Id))).getLast? = some x) : x = (t, MapById.nextIndex l - 1) := by
  rw [List.getLast?_map] at h
  simp only [Option.map_eq_some_iff] at h
  obtain ⟨e, h1, rfl⟩ := h
  simp [MapById.nextIndex, h1]

theorem append_id {D : Type} {m m' : Map D} {t : Int} {d : D} {id : Id} (h : append m t d = some (m', id)) :
    id = (t, MapById.nextIndex (MapById.trajOrNew m t).data) := by
  simp only [append] at h
  split at h
  · cases h
  · split at h
    · simp only [Option.some.injEq, Prod.mk.injEq] at h
      exact h.2.symm
    · cases h

theorem init_spec {s : State P} {t : Int} {ins : List Nat} {opt : Map Unit} {ids : List Id} (hm : WF s.optSubmaps)
    (h : initializeGlobalSubmapPoses s t ins = some (opt, ids)) :
    WF opt ∧ (∀ id, (at? opt id).isSome → (at? s.optSubmaps id).isSome ∨ id ∈ ids) ∧
      (∀ id, (at? s.optSubmaps id).isSome → (at? opt id).isSome) := by
  unfold initializeGlobalSubmapPoses at h
  split at h
  · simp only [Option.bind_eq_bind, Option.bind_eq_some_iff, guard_some, Option.some.injEq, Prod.mk.injEq] at h
    obtain ⟨o, h1, _, h2, _, h3, rfl, rfl⟩ := h
    unfold addFirstSubmap at h1
    split at h1
    · rename_i hz
      simp only [Option.map_eq_some_iff] at h1
      obtain ⟨⟨o', id⟩, h4, rfl⟩ := h1
      obtain ⟨w, -, -, q⟩ := MapById.append_spec hm h4
      have hid := append_id h4
      have hd : (MapById.trajOrNew s.optSubmaps t).data = [] := by
        simp only [sizeOfTrajectoryOrZero] at hz
        unfold MapById.trajOrNew
        cases hg : SMap.get? t s.optSubmaps with
        | none => rfl
        | some tr => rw [hg] at hz; exact List.length_eq_zero_iff.1 hz
      rw [hd] at hid
      refine ⟨w, fun i hi => ?_, fun i hi => ?_⟩
      · dsimp only at hi
        rw [q] at hi
        split at hi
        · rename_i he; right; rw [← he, hid]; simp [MapById.nextIndex]
        · exact Or.inl hi
      · dsimp only
        rw [q]
        split
        · rfl
        · exact hi
    · simp only [Option.some.injEq] at h1
      subst h1
      exact ⟨hm, fun i hi => Or.inl hi, fun i hi => hi⟩
  · simp only [Option.bind_eq_bind, Option.bind_eq_some_iff] at h
    obtain ⟨last, h1, lastPtr, h2, h3⟩ := h
    split at h3
    · simp only [Option.bind_eq_some_iff, Option.some.injEq, Prod.mk.injEq] at h3
      obtain ⟨⟨o', id⟩, h4, rfl, rfl⟩ := h3
      obtain ⟨w, -, -, q⟩ := MapById.append_spec hm h4
      have hid := append_id h4
      have hl := getLast?_map_fst h1
      have hd : (MapById.trajOrNew s.optSubmaps t).data = (SMap.get? t s.optSubmaps).elim [] (·.data) := by
        unfold MapById.trajOrNew
        cases SMap.get? t s.optSubmaps <;> rfl
      rw [← hd] at hl
      refine ⟨w, fun i hi => ?_, fun i hi => ?_⟩
      · dsimp only at hi
        rw [q] at hi
        split at hi
        · rename_i he; right; rw [← he, hid, hl]; simp
        · exact Or.inl hi
      · dsimp only
        rw [q]
        split
        · rfl
        · exact hi
    · simp only [Option.bind_eq_some_iff, guard_some, Option.some.injEq, Prod.mk.injEq] at h3
      obtain ⟨_, -, _, -, rfl, rfl⟩ := h3
      exact ⟨hm, fun i hi => Or.inl hi, fun i hi => hi⟩
  · cases h

/-- Everything about the first part of `ComputeConstraintsForNode`. -/
theorem computeConstraints_inv {s s' : State P} {node : Id} {ins : List Nat} {nf : Bool} {poses : List P} (wf : Wf s)
    (h : computeConstraints s node ins nf poses = some s') :
    ∃ opt ids optNodes id1 submaps cs submaps' todo, (at? s.nodes node).isSome ∧
      initializeGlobalSubmapPoses s node.1 ins = some (opt, ids) ∧
      append s.optNodes node.1 () = some (optNodes, id1) ∧
      WF submaps ∧ MapLe s.submaps submaps ∧ (∀ id ∈ ids, (at? s.submaps id).isSome) ∧
      (∀ c ∈ cs, c.node = node ∧ c.intra = true ∧ ∃ sm, at? submaps c.submap = some sm ∧ node ∈ sm.nodeIds) ∧
      (∀ id' sm, at? submaps id' = some sm → ∀ n ∈ sm.nodeIds,
        n = node ∨ ∃ sm0, at? s.submaps id' = some sm0 ∧ n ∈ sm0.nodeIds) ∧
      (submaps' = submaps ∨ ∃ id, markFinished submaps id = some submaps') ∧
      s' = { s with
        submaps := submaps'
        constraints := s.constraints ++ cs
        optSubmaps := opt
        optNodes := optNodes
        worker := .searching todo } := by
  simp only [computeConstraints, Option.bind_eq_bind, Option.bind_eq_some_iff, guard_some] at h
  obtain ⟨_, h1, ⟨opt, ids⟩, h2, _, h3, matching, h4, _, h5, ⟨optNodes, id1⟩, h6, s1, h7, _, h8, h9⟩ := h
  have hmt : matching.1 = node.1 := by
    unfold initializeGlobalSubmapPoses at h2
    split at h2
    · simp only [Option.bind_eq_bind, Option.bind_eq_some_iff, guard_some, Option.some.injEq, Prod.mk.injEq] at h2
      obtain ⟨o, -, _, -, _, -, -, rfl⟩ := h2
      simp only [List.head?_cons, Option.some.injEq] at h4
      rw [← h4]
    · simp only [Option.bind_eq_bind, Option.bind_eq_some_iff] at h2
      obtain ⟨last, g1, lastPtr, g2, g3⟩ := h2
      have hl := getLast?_map_fst g1
      split at g3
      · simp only [Option.bind_eq_some_iff, Option.some.injEq, Prod.mk.injEq] at g3
        obtain ⟨⟨o', id⟩, -, -, rfl⟩ := g3
        simp only [List.head?_cons, Option.some.injEq] at h4
        rw [← h4, hl]
      · simp only [Option.bind_eq_some_iff, guard_some, Option.some.injEq, Prod.mk.injEq] at g3
        obtain ⟨_, -, _, -, -, rfl⟩ := g3
        simp only [List.head?_cons, Option.some.injEq] at h4
        rw [← h4]
    · cases h2
  obtain ⟨submaps, cs, rfl, w, l, a, b, f⟩ := insertIntras_spec (by exact wf.submaps) h7
  rw [hmt] at h6
  dsimp only at h9 l a f
  cases nf with
  | false =>
    simp only [Bool.false_eq_true, if_false, Option.some.injEq] at h9
    exact ⟨opt, ids, optNodes, id1, submaps, cs, submaps, _, by simp [h1], h2, h6, w, l, a, b, f, Or.inl rfl, h9.symm⟩
  | true =>
    simp only [if_true, Option.bind_eq_some_iff, guard_some, Option.some.injEq] at h9
    obtain ⟨sm, -, _, -, submaps', h10, h11⟩ := h9
    exact ⟨opt, ids, optNodes, id1, submaps, cs, submaps', _, by simp [h1], h2, h6, w, l, a, b, f, Or.inr ⟨_, h10⟩, h11.symm⟩

end Verif.PoseGraph
