import Verif.PoseGraphLemmas

/-! # The pose graph keeps its integrity in every step -/

namespace Verif.PoseGraph

open MapById (Id Map WF at? append insert trim assign contains sizeOfTrajectoryOrZero flat)

variable {P : Type}

/-- Node sets only contain nodes of the pose graph. -/
def Tidy (s : State P) : Prop := ∀ id sm, at? s.submaps id = some sm → ∀ n ∈ sm.nodeIds, (at? s.nodes n).isSome

theorem grow_append_nodes {s : State P} (wf : Wf s) {t : Int} {nodes : Map Unit} {id : Id}
    (h : append s.nodes t () = some (nodes, id)) : WF nodes ∧ ∀ i, (at? s.nodes i).isSome → (at? nodes i).isSome := by
  obtain ⟨w, -, -, q⟩ := MapById.append_spec wf.nodes h
  refine ⟨w, fun i hi => ?_⟩
  rw [q]
  split
  · rfl
  · exact hi

/-! ### Public operations -/

theorem addNode_integrity {s s' : State P} {t : Int} {ins : List Nat} {nf : Bool} (hi : Integrity s)
    (h : addNode s t ins nf = some s') : Integrity s' ∧ (Tidy s → Tidy s') := by
  obtain ⟨s1, id, h1, rfl⟩ := addNode_inv h
  obtain ⟨trajs, nodes, -, h2, h3⟩ := appendNode_inv h1
  obtain ⟨wn, gn⟩ := grow_append_nodes hi.wf h2
  rcases h3 with rfl | ⟨back, submaps, id', h4, rfl⟩
  · refine ⟨hi.grow ⟨gn, (Grow.refl s).submaps⟩ ⟨hi.wf.submaps, wn, hi.wf.optSubmaps, hi.wf.optNodes⟩ rfl rfl rfl
      hi.nodup hi.opt, fun ht id sm hs n hn => gn _ (ht id sm hs n hn)⟩
  · obtain ⟨w, -, q0, q⟩ := MapById.append_spec hi.wf.submaps h4
    have hg : ∀ id sm, at? s.submaps id = some sm → at? submaps id = some sm := by
      intro i sm hs
      rw [q, if_neg (by rintro rfl; rw [q0] at hs; cases hs)]
      exact hs
    have hb : ∀ id sm, at? submaps id = some sm → at? s.submaps id = some sm ∨ sm.nodeIds = [] := by
      intro i sm hs
      rw [q] at hs
      split at hs
      · obtain rfl := Option.some.inj hs; exact Or.inr rfl
      · exact Or.inl hs
    refine ⟨hi.grow ⟨gn, fun i sm hs => ⟨sm, hg i sm hs, fun h => h, fun _ h => h⟩⟩
      ⟨w, wn, hi.wf.optSubmaps, hi.wf.optNodes⟩ rfl rfl rfl ?_ ?_, ?_⟩
    · intro i sm hs
      rcases hb i sm hs with h | h
      · exact hi.nodup i sm h
      · rw [h]; exact List.nodup_nil
    · intro i hs
      obtain ⟨sm, hsm⟩ := Option.isSome_iff_exists.1 (hi.opt i hs)
      dsimp only
      rw [hg i sm hsm]; rfl
    · intro ht i sm hs n hn
      rcases hb i sm hs with h | h
      · exact gn _ (ht i sm h n hn)
      · rw [h] at hn; cases hn

theorem addSubmapFromProto_integrity {s s' : State P} {id : Id} {ptr : Nat} (hi : Integrity s)
    (h : addSubmapFromProto s id ptr = some s') : Integrity s' ∧ (Tidy s → Tidy s') := by
  obtain ⟨trajs, submaps, -, h4, rfl⟩ := addSubmapFromProto_inv h
  obtain ⟨w, q0, q⟩ := MapById.insert_spec hi.wf.submaps h4
  have hg : ∀ id sm, at? s.submaps id = some sm → at? submaps id = some sm := by
    intro i sm hs
    rw [q, if_neg (by rintro rfl; rw [q0] at hs; cases hs)]
    exact hs
  have hb : ∀ id sm, at? submaps id = some sm → at? s.submaps id = some sm ∨ sm.nodeIds = [] := by
    intro i sm hs
    rw [q] at hs
    split at hs
    · obtain rfl := Option.some.inj hs; exact Or.inr rfl
    · exact Or.inl hs
  refine ⟨hi.grow ⟨fun _ h => h, fun i sm hs => ⟨sm, hg i sm hs, fun h => h, fun _ h => h⟩⟩
    ⟨w, hi.wf.nodes, hi.wf.optSubmaps, hi.wf.optNodes⟩ rfl rfl rfl ?_ ?_, ?_⟩
  · intro i sm hs
    rcases hb i sm hs with h | h
    · exact hi.nodup i sm h
    · rw [h]; exact List.nodup_nil
  · intro i hs
    obtain ⟨sm, hsm⟩ := Option.isSome_iff_exists.1 (hi.opt i hs)
    dsimp only
    rw [hg i sm hsm]; rfl
  · intro ht i sm hs n hn
    rcases hb i sm hs with h | h
    · exact ht i sm h n hn
    · rw [h] at hn; cases hn

theorem addNodeFromProto_integrity {s s' : State P} {id : Id} (hi : Integrity s)
    (h : addNodeFromProto s id = some s') : Integrity s' ∧ (Tidy s → Tidy s') := by
  obtain ⟨trajs, nodes, -, h2, rfl⟩ := addNodeFromProto_inv h
  obtain ⟨w, -, q⟩ := MapById.insert_spec hi.wf.nodes h2
  have gn : ∀ i, (at? s.nodes i).isSome → (at? nodes i).isSome := by
    intro i hi
    rw [q]
    split
    · rfl
    · exact hi
  exact ⟨hi.grow ⟨gn, (Grow.refl s).submaps⟩ ⟨hi.wf.submaps, w, hi.wf.optSubmaps, hi.wf.optNodes⟩ rfl rfl rfl
      hi.nodup hi.opt, fun ht id sm hs n hn => gn _ (ht id sm hs n hn)⟩

/-! ### Work items -/

theorem mapLe_integrity {s s' : State P} (hi : Integrity s) (wf : Wf s') (l : MapLe s.submaps s'.submaps)
    (hn : s'.nodes = s.nodes)
    (hc : s'.constraints = s.constraints) (hs : s'.searches = s.searches) (hw : s'.worker = s.worker)
    (ho : ∀ id, (at? s'.optSubmaps id).isSome → (at? s.submaps id).isSome) : Integrity s' :=
  hi.grow (grow_of_mapLe l hn) wf hc hs hw (l.nodup hi.nodup) (fun id h => by rw [l.isSome]; exact ho id h)

theorem markFinished_nodeIds {m m' : Map Submap} (hm : WF m) {id : Id} (h : markFinished m id = some m') :
    ∀ i sm, at? m' i = some sm → ∃ sm0, at? m i = some sm0 ∧ sm.nodeIds = sm0.nodeIds := by
  obtain ⟨sm, h1, h2⟩ := markFinished_inv h
  obtain ⟨-, -, q⟩ := MapById.assign_spec hm h2
  intro i sm' hs
  rw [q] at hs
  split at hs
  · rename_i he
    subst he
    obtain rfl := Option.some.inj hs
    exact ⟨sm, h1, rfl⟩
  · exact ⟨sm', hs, rfl⟩

theorem markAll_nodeIds {ids : List Id} : ∀ {m m' : Map Submap}, WF m → markAll m ids = some m' →
    ∀ i sm, at? m' i = some sm → ∃ sm0, at? m i = some sm0 ∧ sm.nodeIds = sm0.nodeIds := by
  induction ids with
  | nil =>
    intro m m' hm h
    simp only [markAll, Option.some.injEq] at h
    subst h
    exact fun i sm h => ⟨sm, h, rfl⟩
  | cons x ids ih =>
    intro m m' hm h
    simp only [markAll, Option.bind_eq_bind, Option.bind_eq_some_iff] at h
    obtain ⟨m1, h1, h2⟩ := h
    intro i sm hs
    obtain ⟨sm1, g1, g2⟩ := ih (markFinished_spec hm h1).1 h2 i sm hs
    obtain ⟨sm0, k1, k2⟩ := markFinished_nodeIds hm h1 i sm1 g1
    exact ⟨sm0, k1, g2.trans k2⟩

theorem computeConstraints_integrity {s s' : State P} {node : Id} {ins : List Nat} {nf : Bool} {poses : List P}
    (hi : Integrity s) (hidle : s.worker = .idle) (h : computeConstraints s node ins nf poses = some s') :
    Integrity s' ∧ (Tidy s → Tidy s') := by
  obtain ⟨opt, ids, optNodes, id1, submaps, cs, submaps', todo, hn, h1, h2, w, l, a, b, f, h3, rfl⟩ :=
    computeConstraints_inv hi.wf h
  obtain ⟨wo, go, -⟩ := init_spec hi.wf.optSubmaps h1
  obtain ⟨wn, -, -, -⟩ := MapById.append_spec hi.wf.optNodes h2
  have h3' : WF submaps' ∧ MapLe submaps submaps' ∧
      ∀ i sm, at? submaps' i = some sm → ∃ sm0, at? submaps i = some sm0 ∧ sm.nodeIds = sm0.nodeIds := by
    rcases h3 with rfl | ⟨id, h3⟩
    · exact ⟨w, MapLe.refl _, fun i sm h => ⟨sm, h, rfl⟩⟩
    · exact ⟨(markFinished_spec w h3).1, (markFinished_spec w h3).2, markFinished_nodeIds w h3⟩
  obtain ⟨w', l', e'⟩ := h3'
  have ll := l.trans l'
  constructor
  · constructor
    · exact ⟨w', hi.wf.nodes, wo, wn⟩
    · intro c hc
      dsimp only at hc ⊢
      rcases List.mem_append.1 hc with hc | hc
      · obtain ⟨⟨sm, g1, g2⟩, g3⟩ := hi.refs c hc
        obtain ⟨sm', k1, k2⟩ := ll.mem g1
        exact ⟨⟨sm', k1, fun x => k2.2.2.1 _ (g2 x)⟩, g3⟩
      · obtain ⟨g1, g2, sm, g3, g4⟩ := b c hc
        obtain ⟨sm', k1, k2⟩ := l'.mem g3
        exact ⟨⟨sm', k1, fun _ => by rw [g1]; exact k2.2.2.1 _ g4⟩, by rw [g1]; exact hn⟩
    · intro p hp
      obtain ⟨⟨sm, g1, g2⟩, g3⟩ := hi.searches p hp
      obtain ⟨sm', k1, k2⟩ := ll.mem g1
      exact ⟨⟨sm', k1, k2.2.1 g2⟩, g3⟩
    · intro r hr; cases hr
    · exact ll.nodup hi.nodup
    · intro id h
      dsimp only at h ⊢
      rw [ll.isSome]
      rcases go id h with h | h
      · exact hi.opt _ h
      · exact a id h
  · intro ht i sm hs n hn'
    obtain ⟨sm1, g1, g2⟩ := e' i sm hs
    rw [g2] at hn'
    rcases f i sm1 g1 n hn' with rfl | ⟨sm0, k1, k2⟩
    · exact hn
    · exact ht i sm0 k1 n k2

theorem contains_iff {D : Type} {m : Map D} {id : Id} : contains m id = true ↔ (at? m id).isSome := by
  simp only [contains, at?]
  cases SMap.get? id.1 m <;> simp

theorem addSerialized_integrity {s s' : State P} {c : Constraint P} (hi : Integrity s)
    (h : addSerialized s c = some s') : Integrity s' ∧ s'.worker = s.worker ∧ (Tidy s → Tidy s') := by
  simp only [addSerialized, Option.bind_eq_bind, Option.bind_eq_some_iff, guard_some] at h
  obtain ⟨_, h1, _, h2, sm, h3, h4⟩ := h
  rw [contains_iff] at h1
  by_cases hc : c.intra = true
  · simp only [hc, if_true, Option.bind_eq_some_iff, guard_some, Option.some.injEq] at h4
    obtain ⟨_, h5, submaps, h6, rfl⟩ := h4
    have hle : sm.le { sm with nodeIds := setInsert c.node sm.nodeIds } :=
      ⟨rfl, fun h => h, fun n hn => setInsert_mem.2 (Or.inr hn), setInsert_nodup⟩
    obtain ⟨w, l⟩ := assign_mapLe hi.wf.submaps h3 hle h6
    obtain ⟨-, -, q⟩ := MapById.assign_spec hi.wf.submaps h6
    refine ⟨?_, rfl, ?_⟩
    · constructor
      · exact ⟨w, hi.wf.nodes, hi.wf.optSubmaps, hi.wf.optNodes⟩
      · intro c' hc'
        dsimp only at hc' ⊢
        rcases List.mem_append.1 hc' with hc' | hc'
        · obtain ⟨⟨sm, g1, g2⟩, g3⟩ := hi.refs c' hc'
          obtain ⟨sm', k1, k2⟩ := l.mem g1
          exact ⟨⟨sm', k1, fun x => k2.2.2.1 _ (g2 x)⟩, g3⟩
        · rw [List.mem_singleton] at hc'
          subst hc'
          exact ⟨⟨_, by rw [q, if_pos rfl], fun _ => setInsert_mem.2 (Or.inl rfl)⟩, h1⟩
      · intro p hp
        obtain ⟨⟨sm, g1, g2⟩, g3⟩ := hi.searches p hp
        obtain ⟨sm', k1, k2⟩ := l.mem g1
        exact ⟨⟨sm', k1, k2.2.1 g2⟩, g3⟩
      · intro r hr
        obtain ⟨q1, q2⟩ := hi.quiet r hr
        refine ⟨q1, fun c hc => ⟨?_, (q2 c hc).2⟩⟩
        dsimp only
        rw [l.isSome]
        exact (q2 c hc).1
      · exact l.nodup hi.nodup
      · intro id h
        dsimp only
        rw [l.isSome]
        exact hi.opt _ h
    · intro ht i sm' hs n hn
      dsimp only at hs ⊢
      rw [q] at hs
      split at hs
      · obtain rfl := Option.some.inj hs
        rcases setInsert_mem.1 hn with rfl | hn
        · exact h1
        · exact ht _ _ h3 n hn
      · exact ht _ _ hs n hn
  · simp only [hc, Bool.false_eq_true, if_false, Option.some.injEq] at h4
    subst h4
    refine ⟨?_, rfl, fun ht => ht⟩
    constructor
    · exact ⟨hi.wf.1, hi.wf.2, hi.wf.3, hi.wf.4⟩
    · intro c' hc'
      dsimp only at hc' ⊢
      rcases List.mem_append.1 hc' with hc' | hc'
      · exact hi.refs c' hc'
      · rw [List.mem_singleton] at hc'
        subst hc'
        exact ⟨⟨sm, h3, fun h => absurd h hc⟩, h1⟩
    · exact hi.searches
    · exact hi.quiet
    · exact hi.nodup
    · exact hi.opt

theorem addSerializedAll_integrity {cs : List (Constraint P)} : ∀ {s s' : State P}, Integrity s →
    addSerializedAll s cs = some s' → Integrity s' ∧ s'.worker = s.worker ∧ (Tidy s → Tidy s') := by
  induction cs with
  | nil =>
    intro s s' hi h
    simp only [addSerializedAll, Option.some.injEq] at h
    subst h
    exact ⟨hi, rfl, fun h => h⟩
  | cons c cs ih =>
    intro s s' hi h
    simp only [addSerializedAll, Option.bind_eq_bind, Option.bind_eq_some_iff] at h
    obtain ⟨s1, h1, h2⟩ := h
    obtain ⟨i1, w1, t1⟩ := addSerialized_integrity hi h1
    obtain ⟨i2, w2, t2⟩ := ih i1 h2
    exact ⟨i2, w2.trans w1, fun h => t2 (t1 h)⟩

/-- The node of an `AddNodeToSubmap` item exists when the item runs. -/
def ItemTidy (s : State P) : Item P → Prop
  | .nodeToSubmap n _ => (at? s.nodes n).isSome
  | _ => True

theorem runItem_integrity {s s' : State P} {poses : List P} {item : Item P} (hi : Integrity s)
    (hidle : s.worker = .idle) (h : runItem s poses item = some s') :
    Integrity s' ∧ (Tidy s → ItemTidy s item → Tidy s') := by
  cases item with
  | computeConstraints node ins nf =>
    obtain ⟨h1, h2⟩ := computeConstraints_integrity hi hidle h
    exact ⟨h1, fun h _ => h2 h⟩
  | data t =>
    simp only [runItem] at h
    split at h
    · obtain rfl := Option.some.inj h; exact ⟨hi, fun h _ => h⟩
    · cases h
  | finish t =>
    simp only [runItem, Option.bind_eq_bind, Option.bind_eq_some_iff, guard_some, Option.some.injEq] at h
    obtain ⟨_, h1, submaps, h2, rfl⟩ := h
    obtain ⟨w, l⟩ := markAll_spec hi.wf.submaps h2
    refine ⟨mapLe_integrity hi ⟨w, hi.wf.nodes, hi.wf.optSubmaps, hi.wf.optNodes⟩ l rfl rfl rfl rfl hi.opt, ?_⟩
    intro ht _ i sm hs n hn
    obtain ⟨sm0, g1, g2⟩ := markAll_nodeIds hi.wf.submaps h2 i sm hs
    exact ht i sm0 g1 n (g2 ▸ hn)
  | freeze t =>
    simp only [runItem, Option.bind_eq_bind, Option.bind_eq_some_iff, guard_some, Option.some.injEq] at h
    obtain ⟨_, h1, rfl⟩ := h
    exact ⟨⟨⟨hi.wf.1, hi.wf.2, hi.wf.3, hi.wf.4⟩, hi.refs, hi.searches, hi.quiet, hi.nodup, hi.opt⟩, fun h _ => h⟩
  | delete t =>
    simp only [runItem, Option.bind_eq_bind, Option.bind_eq_some_iff, guard_some, Option.some.injEq] at h
    obtain ⟨_, h1, _, h2, _, h3, _, h4, rfl⟩ := h
    exact ⟨⟨⟨hi.wf.1, hi.wf.2, hi.wf.3, hi.wf.4⟩, hi.refs, hi.searches, hi.quiet, hi.nodup, hi.opt⟩, fun h _ => h⟩
  | submapFromProto id =>
    simp only [runItem, Option.bind_eq_bind, Option.bind_eq_some_iff, Option.some.injEq] at h
    obtain ⟨submaps, h1, opt, h2, rfl⟩ := h
    obtain ⟨w, l⟩ := markFinished_spec hi.wf.submaps h1
    obtain ⟨wo, -, qo⟩ := MapById.insert_spec hi.wf.optSubmaps h2
    obtain ⟨sm0, e0, -⟩ := markFinished_inv h1
    refine ⟨mapLe_integrity hi ⟨w, hi.wf.nodes, wo, hi.wf.optNodes⟩ l rfl rfl rfl rfl ?_, ?_⟩
    · intro i h
      dsimp only at h
      rw [qo] at h
      split at h
      · rename_i he; subst he; simp [e0]
      · exact hi.opt _ h
    · intro ht _ i sm hs n hn
      obtain ⟨sm0, g1, g2⟩ := markFinished_nodeIds hi.wf.submaps h1 i sm hs
      exact ht i sm0 g1 n (g2 ▸ hn)
  | nodeFromProto id =>
    simp only [runItem, Option.bind_eq_bind, Option.bind_eq_some_iff, Option.some.injEq] at h
    obtain ⟨_, h1, opt, h2, rfl⟩ := h
    obtain ⟨wo, -, qo⟩ := MapById.insert_spec hi.wf.optNodes h2
    exact ⟨⟨⟨hi.wf.1, hi.wf.2, hi.wf.3, wo⟩, hi.refs, hi.searches, hi.quiet, hi.nodup, hi.opt⟩, fun h _ => h⟩
  | nodeToSubmap node id =>
    simp only [runItem] at h
    split at h
    · simp only [Option.bind_eq_bind, Option.bind_eq_some_iff, Option.some.injEq] at h
      obtain ⟨sm, h3, submaps, h6, rfl⟩ := h
      have hle : sm.le { sm with nodeIds := setInsert node sm.nodeIds } :=
        ⟨rfl, fun h => h, fun n hn => setInsert_mem.2 (Or.inr hn), setInsert_nodup⟩
      obtain ⟨w, l⟩ := assign_mapLe hi.wf.submaps h3 hle h6
      obtain ⟨-, -, q⟩ := MapById.assign_spec hi.wf.submaps h6
      refine ⟨mapLe_integrity hi ⟨w, hi.wf.nodes, hi.wf.optSubmaps, hi.wf.optNodes⟩ l rfl rfl rfl rfl hi.opt, ?_⟩
      intro ht hit i sm' hs n hn
      dsimp only at hs ⊢
      rw [q] at hs
      split at hs
      · obtain rfl := Option.some.inj hs
        rcases setInsert_mem.1 hn with rfl | hn
        · exact hit
        · exact ht _ _ h3 n hn
      · exact ht _ _ hs n hn
    · cases h
  | serialized cs =>
    obtain ⟨h1, -, h2⟩ := addSerializedAll_integrity hi h
    exact ⟨h1, fun h _ => h2 h⟩
  | addTrimmer tr =>
    simp only [runItem, Option.some.injEq] at h
    subst h
    exact ⟨⟨⟨hi.wf.1, hi.wf.2, hi.wf.3, hi.wf.4⟩, hi.refs, hi.searches, hi.quiet, hi.nodup, hi.opt⟩, fun h _ => h⟩

theorem latestNodeTime_inv {s : State P} {node id : Id} {u : Unit} (h : latestNodeTime s node id = some u) :
    (at? s.nodes node).isSome := by
  simp only [latestNodeTime, Option.bind_eq_bind, Option.bind_eq_some_iff] at h
  obtain ⟨_, h1, -⟩ := h
  simp [h1]

theorem addSearch_integrity {s : State P} (hi : Integrity s) {todo : List (Id × Id)} (hw : s.worker = .searching todo)
    {node id : Id} {sm : Submap} (h1 : at? s.submaps id = some sm) (h2 : sm.finished = true)
    (h3 : (at? s.nodes node).isSome) : Integrity { s with
      searches := s.searches ++ [(node, id)] } := by
  refine ⟨⟨hi.wf.1, hi.wf.2, hi.wf.3, hi.wf.4⟩, hi.refs, ?_, ?_, hi.nodup, hi.opt⟩
  · intro p hp
    dsimp only at hp
    rcases List.mem_append.1 hp with hp | hp
    · exact hi.searches p hp
    · rw [List.mem_singleton] at hp
      subst hp
      exact ⟨⟨sm, h1, h2⟩, h3⟩
  · intro r hr
    dsimp only at hr
    rw [hw] at hr
    cases hr

theorem computeConstraint_integrity {s s' : State P} {node id : Id} {how : Search} (hi : Integrity s)
    {todo : List (Id × Id)} (hw : s.worker = .searching todo) (h : computeConstraint s node id how = some s') :
    Integrity s' ∧ (Tidy s → Tidy s') := by
  simp only [computeConstraint, Option.bind_eq_bind, Option.bind_eq_some_iff, guard_some] at h
  obtain ⟨sm, h1, _, h2, h3⟩ := h
  cases how with
  | skip => obtain rfl := Option.some.inj h3; exact ⟨hi, fun h => h⟩
  | sampledOut =>
    simp only [Option.bind_eq_some_iff, Option.some.injEq] at h3
    obtain ⟨_, -, rfl⟩ := h3
    exact ⟨hi, fun h => h⟩
  | locally =>
    simp only [Option.bind_eq_some_iff, Option.some.injEq] at h3
    obtain ⟨_, h4, _, -, _, -, rfl⟩ := h3
    exact ⟨addSearch_integrity hi hw h1 h2 (latestNodeTime_inv h4), fun h => h⟩
  | globally =>
    simp only [Option.bind_eq_some_iff, Option.some.injEq] at h3
    obtain ⟨_, h4, rfl⟩ := h3
    exact ⟨addSearch_integrity hi hw h1 h2 (latestNodeTime_inv h4), fun h => h⟩

/-! ### Trimming -/

/-- The state in which trimming happens. -/
structure Quiet (s : State P) : Prop where
  integrity : Integrity s
  searches : s.searches = []
  worker : s.worker = .idle

theorem trimSubmap_tidy {s s' : State P} {id : Id} (wf : Wf s) (ht : Tidy s) (h : trimSubmap s id = some s') : Tidy s' := by
  obtain ⟨sm, submaps, optSubmaps, nodes, optNodes, h1, h2, h3, h4, h5, h6, rfl⟩ := trimSubmap_inv h
  obtain ⟨-, -, q1⟩ := MapById.trim_spec wf.submaps h3
  obtain ⟨-, q3⟩ := trimAll_spec wf.nodes h5
  intro i sm' hs n hn
  dsimp only at hs ⊢
  rw [q1] at hs
  split at hs
  · cases hs
  · rename_i hne
    rw [q3, if_neg]
    · exact ht _ _ hs n hn
    · rw [at?_nodesToRemove wf h1]
      intro ho
      exact hne (ho.2 _ _ hs hn).symm

theorem trimSubmap_quiet {s s' : State P} {id : Id} (hq : Quiet s) (h : trimSubmap s id = some s') :
    Quiet s' ∧ s'.trajs = s.trajs ∧ s'.trimmers = s.trimmers ∧ (Tidy s → Tidy s') := by
  have hi := trimSubmap_integrity hq.integrity hq.searches h (by rw [hq.worker]; intro r hr; cases hr)
  obtain ⟨sm, submaps, optSubmaps, nodes, optNodes, h1, h2, h3, h4, h5, h6, rfl⟩ := trimSubmap_inv h
  exact ⟨⟨hi, hq.searches, hq.worker⟩, rfl, rfl, fun ht => trimSubmap_tidy hq.integrity.wf ht h⟩

theorem trimSubmaps_quiet {ids : List Id} : ∀ {s s' : State P}, Quiet s → trimSubmaps s ids = some s' →
    Quiet s' ∧ s'.trajs = s.trajs ∧ s'.trimmers = s.trimmers ∧ (Tidy s → Tidy s') := by
  induction ids with
  | nil =>
    intro s s' hq h
    simp only [trimSubmaps, Option.some.injEq] at h
    subst h
    exact ⟨hq, rfl, rfl, fun h => h⟩
  | cons id ids ih =>
    intro s s' hq h
    simp only [trimSubmaps, Option.bind_eq_bind, Option.bind_eq_some_iff] at h
    obtain ⟨s1, h1, h2⟩ := h
    obtain ⟨q1, a1, b1, t1⟩ := trimSubmap_quiet hq h1
    obtain ⟨q2, a2, b2, t2⟩ := ih q1 h2
    exact ⟨q2, a2.trans a1, b2.trans b1, fun h => t2 (t1 h)⟩

theorem Quiet.setTrajs {s : State P} (hq : Quiet s) (l : List (Int × TrajState)) : Quiet { s with trajs := l } := by
  obtain ⟨hi, h1, h2⟩ := hq
  exact ⟨⟨⟨hi.wf.1, hi.wf.2, hi.wf.3, hi.wf.4⟩, hi.refs, hi.searches, hi.quiet, hi.nodup, hi.opt⟩, h1, h2⟩

theorem deleteIfNeeded_quiet {s s' : State P} {t : Int} (hq : Quiet s) (h : deleteIfNeeded s t = some s') :
    Quiet s' ∧ s'.trimmers = s.trimmers ∧ (Tidy s → Tidy s') := by
  unfold deleteIfNeeded at h
  split at h
  · simp only [Option.bind_eq_bind, Option.bind_eq_some_iff, Option.some.injEq] at h
    obtain ⟨s1, h1, rfl⟩ := h
    obtain ⟨q1, a1, b1, t1⟩ := trimSubmaps_quiet hq h1
    exact ⟨q1.setTrajs _, b1, fun h => t1 h⟩
  · obtain rfl := Option.some.inj h
    exact ⟨hq, rfl, fun h => h⟩

theorem deleteTrajectories_quiet {ts : List Int} : ∀ {s s' : State P}, Quiet s → deleteTrajectories s ts = some s' →
    Quiet s' ∧ s'.trimmers = s.trimmers ∧ (Tidy s → Tidy s') := by
  induction ts with
  | nil =>
    intro s s' hq h
    simp only [deleteTrajectories, Option.some.injEq] at h
    subst h
    exact ⟨hq, rfl, fun h => h⟩
  | cons id ids ih =>
    intro s s' hq h
    simp only [deleteTrajectories, Option.bind_eq_bind, Option.bind_eq_some_iff] at h
    obtain ⟨s1, h1, h2⟩ := h
    obtain ⟨q1, b1, t1⟩ := deleteIfNeeded_quiet hq h1
    obtain ⟨q2, b2, t2⟩ := ih q1 h2
    exact ⟨q2, b2.trans b1, fun h => t2 (t1 h)⟩

theorem pureLocalizationTrim_inv {s s' : State P} {t : Int} {keep : Nat} {done : Bool} {tr : Trimmer}
    (h : pureLocalizationTrim s t keep done = some (s', tr)) :
    ∃ keep' s1, keep' = (if isFinished s.trajs t then 0 else keep) ∧
      trimSubmaps s ((idsOf s.optSubmaps t).take ((idsOf s.optSubmaps t).length - keep')) = some s1 ∧
      ((keep' = 0 ∧ s' = { s1 with trajs := setTraj s1.trajs t .deleted } ∧ tr = .pureLocalization t 0 true) ∨
        (keep' ≠ 0 ∧ s' = s1 ∧ tr = .pureLocalization t keep' done)) := by
  simp only [pureLocalizationTrim, Option.bind_eq_bind, Option.bind_eq_some_iff] at h
  generalize hk' : (if isFinished s.trajs t = true then 0 else keep) = keep' at h
  obtain ⟨s1, h1, h2⟩ := h
  refine ⟨_, s1, rfl, h1, ?_⟩
  split at h2
  · rename_i hk
    simp only [Option.some.injEq, Prod.mk.injEq] at h2
    rw [hk] at h2
    exact Or.inl ⟨hk, h2.1.symm, h2.2.symm⟩
  · rename_i hk
    simp only [Option.some.injEq, Prod.mk.injEq] at h2
    exact Or.inr ⟨hk, h2.1.symm, h2.2.symm⟩

theorem runTrimmer_quiet {s s' : State P} {choice : List Id} {tr tr' : Trimmer} (hq : Quiet s)
    (h : runTrimmer s choice tr = some (s', tr')) : Quiet s' ∧ (Tidy s → Tidy s') := by
  cases tr with
  | pureLocalization t keep done =>
    obtain ⟨keep', s1, -, h1, h2⟩ := pureLocalizationTrim_inv h
    obtain ⟨q1, -, -, t1⟩ := trimSubmaps_quiet hq h1
    rcases h2 with ⟨-, rfl, -⟩ | ⟨-, rfl, -⟩
    · exact ⟨q1.setTrajs _, fun h => t1 h⟩
    · exact ⟨q1, t1⟩
  | other =>
    simp only [runTrimmer, Option.bind_eq_bind, Option.bind_eq_some_iff, Option.some.injEq, Prod.mk.injEq] at h
    obtain ⟨s1, h1, rfl, -⟩ := h
    obtain ⟨q1, -, -, t1⟩ := trimSubmaps_quiet hq h1
    exact ⟨q1, t1⟩

theorem runTrimmers_quiet {trs : List Trimmer} : ∀ {s s' : State P} {cs : List (List Id)} {trs' : List Trimmer},
    Quiet s → runTrimmers s trs cs = some (s', trs') → Quiet s' ∧ (Tidy s → Tidy s') := by
  induction trs with
  | nil =>
    intro s s' cs trs' hq h
    simp only [runTrimmers, Option.some.injEq, Prod.mk.injEq] at h
    obtain ⟨rfl, -⟩ := h
    exact ⟨hq, fun h => h⟩
  | cons tr trs ih =>
    intro s s' cs trs' hq h
    simp only [runTrimmers, Option.bind_eq_bind, Option.bind_eq_some_iff] at h
    obtain ⟨⟨s1, tr1⟩, h1, ⟨s2, trs2⟩, h2, h3⟩ := h
    simp only [Option.some.injEq, Prod.mk.injEq] at h3
    obtain ⟨rfl, -⟩ := h3
    obtain ⟨q1, t1⟩ := runTrimmer_quiet hq h1
    obtain ⟨q2, t2⟩ := ih q1 h2
    exact ⟨q2, fun h => t2 (t1 h)⟩

theorem handleTrimming_inv {s s' : State P} {result : List (Constraint P)} {choices : List (List Id)}
    (h : handleTrimming s result choices = some s') :
    ∃ s1 s2 trs, updateConnectivity s result = some () ∧ deleteTrajectories s (s.trajs.map (·.1)) = some s1 ∧
      runTrimmers s1 s1.trimmers choices = some (s2, trs) ∧ s' = { s2 with
        trimmers := trs.filter (fun tr => !trimmerDone tr) } := by
  simp only [handleTrimming, Option.bind_eq_bind, Option.bind_eq_some_iff, Option.some.injEq] at h
  obtain ⟨_, h1, s1, h2, ⟨s2, trs⟩, h3, h4⟩ := h
  exact ⟨s1, s2, trs, h1, h2, h3, h4.symm⟩

theorem handleTrimming_integrity {s s' : State P} {result : List (Constraint P)} {choices : List (List Id)}
    (hq : Quiet s) (h : handleTrimming s result choices = some s') : Integrity s' ∧ (Tidy s → Tidy s') := by
  obtain ⟨s1, s2, trs, -, h2, h3, rfl⟩ := handleTrimming_inv h
  obtain ⟨q1, -, t1⟩ := deleteTrajectories_quiet hq h2
  obtain ⟨⟨hi, h4, h5⟩, t2⟩ := runTrimmers_quiet q1 h3
  exact ⟨⟨⟨hi.wf.1, hi.wf.2, hi.wf.3, hi.wf.4⟩, hi.refs, hi.searches, hi.quiet, hi.nodup, hi.opt⟩, fun h => t2 (t1 h)⟩

/-! ### All steps -/

/-- `AddNodeToSubmap` is only used for nodes that exist when its item runs. -/
def TidyAct (s : State P) : Act P → Prop
  | .run _ => ∀ item ∈ s.queue.head?, ItemTidy s item
  | _ => True

theorem step_integrity {s s' : State P} {a : Act P} (hi : Integrity s) (he : Enabled s a) (h : exec s a = some s') :
    Integrity s' ∧ (Tidy s → TidyAct s a → Tidy s') := by
  cases a with
  | addNode t ins nf => obtain ⟨h1, h2⟩ := addNode_integrity hi h; exact ⟨h1, fun h _ => h2 h⟩
  | addSubmapFromProto id ptr => obtain ⟨h1, h2⟩ := addSubmapFromProto_integrity hi h; exact ⟨h1, fun h _ => h2 h⟩
  | addNodeFromProto id => obtain ⟨h1, h2⟩ := addNodeFromProto_integrity hi h; exact ⟨h1, fun h _ => h2 h⟩
  | deleteTrajectory t =>
    simp only [exec, Option.some.injEq] at h
    subst h
    unfold deleteTrajectory
    split
    · exact ⟨hi, fun h _ => h⟩
    · exact ⟨⟨⟨hi.wf.1, hi.wf.2, hi.wf.3, hi.wf.4⟩, hi.refs, hi.searches, hi.quiet, hi.nodup, hi.opt⟩, fun h _ => h⟩
  | post item =>
    simp only [exec, Option.some.injEq] at h
    subst h
    exact ⟨⟨⟨hi.wf.1, hi.wf.2, hi.wf.3, hi.wf.4⟩, hi.refs, hi.searches, hi.quiet, hi.nodup, hi.opt⟩, fun h _ => h⟩
  | enqueue k =>
    simp only [exec] at h
    split at h
    · cases h
    · obtain rfl := Option.some.inj h
      exact ⟨⟨⟨hi.wf.1, hi.wf.2, hi.wf.3, hi.wf.4⟩, hi.refs, hi.searches, hi.quiet, hi.nodup, hi.opt⟩, fun h _ => h⟩
  | run poses =>
    simp only [exec] at h
    split at h
    · cases h
    · rename_i item queue hq
      have hi' : Integrity { s with queue := queue } :=
        ⟨⟨hi.wf.1, hi.wf.2, hi.wf.3, hi.wf.4⟩, hi.refs, hi.searches, hi.quiet, hi.nodup, hi.opt⟩
      obtain ⟨h1, h2⟩ := runItem_integrity hi' he.1 h
      refine ⟨h1, fun ht hta => h2 ht ?_⟩
      have := hta item (by rw [hq]; rfl)
      revert this
      cases item <;> exact fun h => h
  | search how =>
    obtain ⟨⟨node, id⟩, todo, hw⟩ := he
    simp only [exec, hw] at h
    have hi' : Integrity { s with worker := .searching todo } :=
      ⟨⟨hi.wf.1, hi.wf.2, hi.wf.3, hi.wf.4⟩, hi.refs, hi.searches, (by intro r hr; cases hr), hi.nodup, hi.opt⟩
    obtain ⟨h1, h2⟩ := computeConstraint_integrity hi' rfl h
    exact ⟨h1, fun h _ => h2 h⟩
  | endSearch =>
    simp only [exec, Option.some.injEq] at h
    subst h
    exact ⟨⟨⟨hi.wf.1, hi.wf.2, hi.wf.3, hi.wf.4⟩, hi.refs, hi.searches, (by intro r hr; cases hr), hi.nodup, hi.opt⟩,
      fun h _ => h⟩
  | optimize result =>
    simp only [exec, optimize] at h
    split at h
    · obtain rfl := Option.some.inj h
      obtain ⟨h1, h2⟩ := he
      refine ⟨⟨⟨hi.wf.1, hi.wf.2, hi.wf.3, hi.wf.4⟩, ?_, by simp, ?_, hi.nodup, hi.opt⟩, fun h _ => h⟩
      · intro c hc
        dsimp only at hc ⊢
        rcases List.mem_append.1 hc with hc | hc
        · exact hi.refs c hc
        · obtain ⟨g1, g2⟩ := h2 c hc
          obtain ⟨⟨sm, g3, -⟩, g4⟩ := hi.searches _ g2
          exact ⟨⟨sm, g3, fun h => by rw [g1] at h; cases h⟩, g4⟩
      · intro r hr
        simp only [Worker.optimized.injEq] at hr
        subst hr
        refine ⟨rfl, fun c hc => ?_⟩
        obtain ⟨g1, g2⟩ := h2 c hc
        obtain ⟨⟨sm, g3, -⟩, g4⟩ := hi.searches _ g2
        exact ⟨by dsimp only at g3 ⊢; rw [g3]; rfl, g4⟩
    · cases h
  | trim choices =>
    obtain ⟨r, hw⟩ := he
    simp only [exec, hw] at h
    have hq : Quiet { s with worker := .idle } :=
      ⟨⟨⟨hi.wf.1, hi.wf.2, hi.wf.3, hi.wf.4⟩, hi.refs, hi.searches, (by intro r hr; cases hr), hi.nodup, hi.opt⟩,
        (hi.quiet r hw).1, rfl⟩
    obtain ⟨h1, h2⟩ := handleTrimming_integrity hq h
    exact ⟨h1, fun h _ => h2 h⟩

theorem exec_integrity {as : List (Act P)} {s s' : State P} (h : Exec s as s') (hi : Integrity s) : Integrity s' := by
  induction h with
  | nil => exact hi
  | snoc _ he hx ih => exact (step_integrity ih he hx).1

end Verif.PoseGraph
