import Verif.Props.Migration

/-! # C96: migration of whole streams -/

namespace Verif.Migration

set_option linter.unusedSectionVars false

variable {I J D : Type} [LinearOrder I] [LinearOrder J]

/-! ## Specification -/

/-- The submaps of a stream in the order of their ids. -/
def submapsOf (rs : List (Rec I J D)) : List (I × Sub) := rs.filterMap fun | .submap i s => some (i, s) | _ => none
/-- The nodes of a stream. -/
def nodesOf (rs : List (Rec I J D)) : List (J × Node) := rs.filterMap fun | .node j n => some (j, n) | _ => none
/-- The other data of a stream. -/
def dataOf (kind : Kind) (rs : List (Rec I J D)) : List D := rs.filterMap fun | .data k d => if k = kind then some d else none | _ => none

/-- The number of work items for a stream: one per landmark pose, node, submap and datum, and one for all constraints. -/
def numItems (i : Input I J D) : Nat :=
  i.landmarkPoses.length + (nodesOf i.records).length + (submapsOf i.records).length +
    (i.records.filter fun | .data _ _ => true | _ => false).length + 1

/-- A stream as it is written: ids are unique and have poses, submaps are 3D, no second pose graph, trajectories 0, 1, …, and the nodes and
submaps of constraints are in the stream, a node at most once per submap. -/
structure Wf (i : Input I J D) : Prop where
  ids : i.trajectories = (List.range i.trajectories.length).map fun (k : Nat) => (k : Int)
  options : i.trajectories.length ≤ i.numOptions
  nodes : ((nodesOf i.records).map Prod.fst).Nodup
  submaps : ((submapsOf i.records).map Prod.fst).Nodup
  nodePose : ∀ e ∈ nodesOf i.records, e.1 ∈ i.nodePoses
  submapPose : ∀ e ∈ submapsOf i.records, e.1 ∈ i.submapPoses
  dim : ∀ e ∈ submapsOf i.records, e.2.is3d = true
  unique : ∀ r ∈ i.records, r ≠ .poseGraph ∧ r ≠ .options
  inNodes : ∀ c ∈ i.constraints, c.node ∈ (nodesOf i.records).map Prod.fst
  inSubmaps : ∀ c ∈ i.constraints, c.submap ∈ (submapsOf i.records).map Prod.fst
  histograms : i.version = 1 → ∃ m, (∀ e ∈ nodesOf i.records, e.2.histogram.length = m) ∧ ∀ e ∈ submapsOf i.records, e.2.histogram = []
  once : ((i.constraints.filter (·.intra)).map fun c => (c.submap, c.node)).Nodup

/-! ## The pose graph before writing -/

theorem insertNew_some {K V : Type} [LinearOrder K] {k : K} {v : V} {l l' : List (K × V)} (h : insertNew k v l = some l') :
    SMap.get? k l = none ∧ l' = SMap.put k v l := by
  unfold insertNew at h
  split at h
  · cases h
  · rename_i hn
    cases h
    exact ⟨by simpa using hn, rfl⟩

/-- The work items of the records. -/
def itemsOf (rs : List (Rec I J D)) : List (Item I J D) :=
  rs.filterMap fun | .node _ _ => some .touch | .data k d => some (.data k d) | _ => none

/-- Contents of a map after inserting entries. -/
def puts {K V : Type} [LinearOrder K] (l : List (K × V)) (es : List (K × V)) : List (K × V) := es.foldl (fun l e => SMap.put e.1 e.2 l) l

theorem read_spec (i : Input I J D) : ∀ (rs : List (Rec I J D)) (subs subs' : List (I × Sub)) (g g' : Graph I J D),
    read i rs subs g = some (subs', g') → subs' = puts subs (submapsOf rs) ∧
      g' = { g with nodes := puts g.nodes (nodesOf rs), queue := g.queue ++ itemsOf rs }
  | [], subs, subs', g, g', h => by
    simp only [read, Option.some.injEq, Prod.mk.injEq] at h
    obtain ⟨rfl, rfl⟩ := h
    simp [puts, submapsOf, nodesOf, itemsOf]
  | .submap id s :: rs, subs, subs', g, g', h => by
    simp only [read, Option.bind_eq_bind, Option.bind_eq_some_iff] at h
    obtain ⟨_, _, l, hl, h⟩ := h
    obtain ⟨h1, h2⟩ := read_spec i rs _ _ _ _ h
    rw [(insertNew_some hl).2] at h1
    exact ⟨h1, h2⟩
  | .node id n :: rs, subs, subs', g, g', h => by
    simp only [read, Option.bind_eq_bind, Option.bind_eq_some_iff] at h
    obtain ⟨_, _, l, hl, h⟩ := h
    obtain ⟨h1, h2⟩ := read_spec i rs _ _ _ _ h
    rw [(insertNew_some hl).2] at h2
    refine ⟨h1, ?_⟩
    rw [h2]
    simp [puts, nodesOf, itemsOf]
  | .data k d :: rs, subs, subs', g, g', h => by
    simp only [read] at h
    obtain ⟨h1, h2⟩ := read_spec i rs _ _ _ _ h
    refine ⟨h1, ?_⟩
    rw [h2]
    simp [nodesOf, itemsOf]
  | .unknown :: rs, subs, subs', g, g', h => by
    simp only [read] at h
    exact read_spec i rs _ _ _ _ h
  | .poseGraph :: rs, subs, subs', g, g', h => by cases h
  | .options :: rs, subs, subs', g, g', h => by cases h

theorem addSubmaps_spec (i : Input I J D) : ∀ (l : List (I × Sub)) (g g' : Graph I J D), addSubmaps i l g = some g' →
    g' = { g with submaps := puts g.submaps l, queue := g.queue ++ List.replicate l.length .touch }
  | [], g, g', h => by
    cases h
    simp [puts]
  | (id, s) :: l, g, g', h => by
    simp only [addSubmaps, Option.bind_eq_bind, Option.bind_eq_some_iff] at h
    obtain ⟨_, _, m, hm, h⟩ := h
    have := addSubmaps_spec i l _ _ h
    rw [this, (insertNew_some hm).2]
    simp [puts, List.replicate_succ]

theorem sorted_puts {K V : Type} [LinearOrder K] (es : List (K × V)) : ∀ l : List (K × V), SMap.Sorted l → SMap.Sorted (puts l es) := by
  induction es with
  | nil => exact fun l h => h
  | cons e es ih => exact fun l h => ih _ (SMap.sorted_put h)

theorem get?_puts {K V : Type} [LinearOrder K] (k : K) : ∀ (es l : List (K × V)), (es.map Prod.fst).Nodup →
    SMap.get? k (puts l es) = (SMap.get? k es).or (SMap.get? k l)
  | [], l, _ => by simp [puts, SMap.get?]
  | (k', v) :: es, l, hn => by
    rw [List.map_cons, List.nodup_cons] at hn
    show SMap.get? k (puts (SMap.put k' v l) es) = _
    rw [get?_puts k es _ hn.2, SMap.get?_put]
    simp only [SMap.get?]
    by_cases h : k' = k
    · subst h
      rw [if_pos rfl, if_pos rfl]
      have : SMap.get? k' es = none := SMap.get?_eq_none.2 fun e he h => hn.1 (List.mem_map.2 ⟨e, he, h⟩)
      rw [this]
      rfl
    · rw [if_neg h]
      split
      · rename_i h'; exact absurd h' (by simpa [eq_comm] using h)
      · rfl

theorem puts_self {K V : Type} [LinearOrder K] {l : List (K × V)} (h : SMap.Sorted l) : puts [] l = l := by
  refine SMap.ext (sorted_puts l [] SMap.sorted_nil) h fun k => ?_
  have hn : (l.map Prod.fst).Nodup := by
    unfold SMap.Sorted at h
    rw [List.Nodup, List.pairwise_map]
    exact h.imp fun {a b} hab => ne_of_lt hab
  rw [get?_puts k l [] hn]
  simp [SMap.get?]

/-- The submaps of the pose graph: those of the stream, migrated if the stream is of version 1. -/
noncomputable def finalSubmaps (i : Input I J D) : Option (List (I × Sub)) :=
  migrateIf i.version (puts [] (nodesOf i.records)) (puts [] (submapsOf i.records)) i.constraints

theorem migrateOne_sorted {nodes : List (J × Node)} {out out' : List (I × Sub)} {c : Constraint I J} (h : migrateOne nodes out c = some out')
    (hs : SMap.Sorted out) : SMap.Sorted out' := by
  unfold migrateOne at h
  split at h
  · simp only [Option.bind_eq_bind, Option.bind_eq_some_iff, Option.some.injEq] at h
    obtain ⟨r, hr, s, hs', _, hg, x, hx, y, hy, rfl⟩ := h
    exact SMap.sorted_put hs
  · cases h
    exact hs

theorem foldlM_sorted {nodes : List (J × Node)} : ∀ (cs : List (Constraint I J)) (out out' : List (I × Sub)),
    cs.foldlM (migrateOne nodes) out = some out' → SMap.Sorted out → SMap.Sorted out'
  | [], _, _, h, hs => by cases h; exact hs
  | c :: cs, out, out', h, hs => by
    rw [List.foldlM_cons] at h
    simp only [Option.bind_eq_bind, Option.bind_eq_some_iff] at h
    obtain ⟨o1, e1, e2⟩ := h
    exact foldlM_sorted cs o1 out' e2 (migrateOne_sorted e1 hs)

theorem migrate_sorted {nodes : List (J × Node)} {subs out : List (I × Sub)} {cs : List (Constraint I J)} (h : migrate nodes subs cs = some out)
    (hs : SMap.Sorted subs) : SMap.Sorted out := by
  unfold migrate at h
  split at h
  · cases h; exact hs
  · split at h
    · exact foldlM_sorted cs _ _ h hs
    · cases h; exact hs

theorem finalSubmaps_sorted {i : Input I J D} {l : List (I × Sub)} (h : finalSubmaps i = some l) : SMap.Sorted l := by
  unfold finalSubmaps migrateIf at h
  have := sorted_puts (submapsOf i.records) [] SMap.sorted_nil
  split at h
  · exact migrate_sorted h this
  · cases h; exact this

/-- The pose graph before writing: nothing has been run, and the constraints are at the end of the queue. -/
theorem fill_spec {i : Input I J D} {g : Graph I J D} (h : fill i = some g) :
    idsOk i.numOptions 0 i.trajectories = true ∧ ∃ l, finalSubmaps i = some l ∧
      g = ⟨l, puts [] (nodesOf i.records), [],
        (i.landmarkPoses.map .landmarkPose ++ itemsOf i.records ++ List.replicate l.length .touch) ++ [.constraints i.constraints]⟩ := by
  simp only [fill, Option.bind_eq_bind, Option.bind_eq_some_iff, Option.some.injEq] at h
  obtain ⟨_, hg, ⟨subs, g1⟩, h1, l, hl, g2, h2, rfl⟩ := h
  obtain ⟨rfl, rfl⟩ := read_spec i _ _ _ _ _ h1
  have h3 := addSubmaps_spec i _ _ _ h2
  subst h3
  have hids : idsOk i.numOptions 0 i.trajectories = true := by
    by_contra hne
    simp [guard, hne] at hg
  have hf : finalSubmaps i = some l := hl
  refine ⟨hids, l, hf, ?_⟩
  rw [puts_self (finalSubmaps_sorted hf)]

/-! ## Running work items -/

theorem work_spec {g g' : Graph I J D} (h : work g = some g') :
    g' = ⟨g.submaps, g.nodes, g.done ++ g.queue.take 1, g.queue.drop 1⟩ := by
  obtain ⟨subs, nodes, done, queue⟩ := g
  unfold work at h
  cases queue with
  | nil => cases h; simp
  | cons x q =>
    cases x <;> dsimp only at h
    case constraints cs =>
      split at h
      · cases h; simp
      · cases h
    all_goals cases h; simp

theorem workN_spec : ∀ (k : Nat) {g g' : Graph I J D}, workN k g = some g' →
    g' = ⟨g.submaps, g.nodes, g.done ++ g.queue.take k, g.queue.drop k⟩
  | 0, g, g', h => by cases h; simp
  | k + 1, g, g', h => by
    simp only [workN, Option.bind_eq_some_iff] at h
    obtain ⟨g1, h1, h2⟩ := h
    have e1 := work_spec h1
    have e2 := workN_spec k h2
    subst e1
    rw [e2]
    simp only [List.append_assoc, Graph.mk.injEq, true_and, List.drop_drop]
    refine ⟨?_, by rw [Nat.add_comm]⟩
    congr 1
    rw [Nat.add_comm, List.take_add]

/-- What is written is determined by how many items were run before each read. -/
theorem write_spec {unfinished : Bool} {s : Schedule} {g : Graph I J D} {o : Output I J D} (h : write unfinished s g = some o) :
    let k0 := s.first
    let k1 := k0 + s.landmarkPoses
    let k2 := k1 + s.trajectoryData
    let k3 := k2 + s.imu
    let k4 := k3 + s.odometry
    let k5 := k4 + s.fixedFrame
    let k6 := k5 + s.landmark
    o.version = 2 ∧ o.constraints = keptConstraints unfinished g (constraintsIn (g.done ++ g.queue.take k0)) ∧
      o.landmarkPoses = landmarkPosesIn (g.done ++ g.queue.take k1) ∧ o.submaps = kept unfinished g ∧ o.nodes = g.nodes ∧
      o.data .trajectoryData = dataIn .trajectoryData (g.done ++ g.queue.take k2) ∧ o.data .imu = dataIn .imu (g.done ++ g.queue.take k3) ∧
      o.data .odometry = dataIn .odometry (g.done ++ g.queue.take k4) ∧
      o.data .fixedFrame = dataIn .fixedFrame (g.done ++ g.queue.take k5) ∧
      o.data .landmark = dataIn .landmark (g.done ++ g.queue.take k6) := by
  simp only [write, Option.bind_eq_bind, Option.bind_eq_some_iff, Option.some.injEq] at h
  obtain ⟨g0, h0, g1, h1, g2, h2, g3, h3, g4, h4, g5, h5, g6, h6, rfl⟩ := h
  have e0 := workN_spec _ h0
  subst e0
  have e1 := workN_spec _ h1
  subst e1
  have e2 := workN_spec _ h2
  subst e2
  have e3 := workN_spec _ h3
  subst e3
  have e4 := workN_spec _ h4
  subst e4
  have e5 := workN_spec _ h5
  subst e5
  have e6 := workN_spec _ h6
  subst e6
  intro k0 k1 k2 k3 k4 k5 k6
  refine ⟨rfl, rfl, ?_, rfl, rfl, ?_, ?_, ?_, ?_, ?_⟩ <;>
    simp only [k0, k1, k2, k3, k4, k5, k6, List.take_add, List.append_assoc, List.drop_drop]

/-! ## The items of a stream -/

/-- All work items but the last one, which adds the constraints. -/
def before (i : Input I J D) (n : Nat) : List (Item I J D) :=
  i.landmarkPoses.map .landmarkPose ++ itemsOf i.records ++ List.replicate n .touch

theorem constraintsIn_before (i : Input I J D) (n k : Nat) : constraintsIn ((before i n).take k) = [] := by
  unfold constraintsIn
  rw [List.flatMap_eq_nil_iff]
  intro x hx
  have := List.mem_of_mem_take hx
  unfold before at this
  simp only [List.mem_append, List.mem_map, itemsOf, List.mem_filterMap, List.mem_replicate] at this
  rcases this with (⟨d, _, rfl⟩ | ⟨r, _, hr⟩) | ⟨_, rfl⟩
  · rfl
  · cases r <;> simp_all <;> (subst_vars; rfl)
  · rfl

theorem itemsOf_length (rs : List (Rec I J D)) :
    (itemsOf rs).length = (nodesOf rs).length + (rs.filter fun | .data _ _ => true | _ => false).length := by
  induction rs with
  | nil => rfl
  | cons r rs ih => cases r <;> simp [itemsOf, nodesOf] at ih ⊢ <;> omega

theorem puts_keys {K V : Type} [LinearOrder K] {es : List (K × V)} (h : (es.map Prod.fst).Nodup) : (puts [] es).Perm es := by
  refine (List.perm_ext_iff_of_nodup ?_ (List.Nodup.of_map _ h)).2 fun e => ?_
  · have := sorted_puts es [] SMap.sorted_nil
    exact this.imp fun {a b} hab he => by rw [he] at hab; exact lt_irrefl _ hab
  · obtain ⟨k, v⟩ := e
    rw [← SMap.get?_iff_mem (sorted_puts es [] SMap.sorted_nil), get?_puts k es [] h]
    simp only [SMap.get?, Option.or_none]
    constructor
    · exact SMap.mem_of_get?
    · intro hm
      clear * - h hm
      induction es with
      | nil => cases hm
      | cons e es ih =>
        obtain ⟨k', v'⟩ := e
        rw [List.map_cons, List.nodup_cons] at h
        simp only [SMap.get?]
        rcases List.mem_cons.1 hm with hm | hm
        · cases hm; rw [if_pos rfl]
        · rw [if_neg (fun hk => h.1 (List.mem_map.2 ⟨(k, v), hm, hk.symm⟩)), ih h.2 hm]

theorem dataIn_append (kind : Kind) (a b : List (Item I J D)) : dataIn kind (a ++ b) = dataIn kind a ++ dataIn kind b := List.filterMap_append

theorem landmarkPosesIn_append (a b : List (Item I J D)) : landmarkPosesIn (a ++ b) = landmarkPosesIn a ++ landmarkPosesIn b :=
  List.filterMap_append

theorem dataIn_before (kind : Kind) (i : Input I J D) (n : Nat) : dataIn kind (before i n) = dataOf kind i.records := by
  unfold before
  rw [dataIn_append, dataIn_append]
  have h1 : dataIn kind (i.landmarkPoses.map (Item.landmarkPose : D → Item I J D)) = [] := by
    unfold dataIn
    rw [List.filterMap_eq_nil_iff]
    intro x hx
    obtain ⟨d, _, rfl⟩ := List.mem_map.1 hx
    rfl
  have h2 : dataIn kind (List.replicate n (Item.touch : Item I J D)) = [] := by
    unfold dataIn
    rw [List.filterMap_eq_nil_iff]
    intro x hx
    rw [List.eq_of_mem_replicate hx]
  rw [h1, h2, List.nil_append, List.append_nil]
  unfold itemsOf dataOf dataIn
  rw [List.filterMap_filterMap]
  apply List.filterMap_congr
  intro r _
  cases r <;> rfl

theorem landmarkPosesIn_before (i : Input I J D) (n : Nat) : landmarkPosesIn (before i n) = i.landmarkPoses := by
  unfold before
  rw [landmarkPosesIn_append, landmarkPosesIn_append]
  have h1 : landmarkPosesIn (itemsOf i.records) = [] := by
    unfold landmarkPosesIn
    rw [List.filterMap_eq_nil_iff]
    intro x hx
    unfold itemsOf at hx
    obtain ⟨r, _, hr⟩ := List.mem_filterMap.1 hx
    cases r <;> simp_all <;> (subst_vars; rfl)
  have h2 : landmarkPosesIn (List.replicate n (Item.touch : Item I J D)) = [] := by
    unfold landmarkPosesIn
    rw [List.filterMap_eq_nil_iff]
    intro x hx
    rw [List.eq_of_mem_replicate hx]
  rw [h1, h2, List.append_nil, List.append_nil]
  unfold landmarkPosesIn
  rw [List.filterMap_map]
  exact List.filterMap_some

theorem foldlM_get {nodes : List (J × Node)} : ∀ (cs : List (Constraint I J)) (out out' : List (I × Sub)),
    cs.foldlM (migrateOne nodes) out = some out' → ∀ i, (SMap.get? i out').map Sub.is3d = (SMap.get? i out).map Sub.is3d
  | [], _, _, h => by cases h; exact fun i => rfl
  | c :: cs, out, out', h => by
    rw [List.foldlM_cons] at h
    simp only [Option.bind_eq_bind, Option.bind_eq_some_iff] at h
    obtain ⟨o1, e1, e2⟩ := h
    exact fun i => (foldlM_get cs o1 out' e2 i).trans ((migrateOne_get e1).2 i)

theorem get?_map {K V W : Type} [LinearOrder K] (f : V → W) (k : K) (l : List (K × V)) :
    SMap.get? k (l.map fun e => (e.1, f e.2)) = (SMap.get? k l).map f := by
  induction l with
  | nil => rfl
  | cons e l ih => simp only [List.map_cons, SMap.get?]; split <;> simp [*]

theorem sorted_map {K V W : Type} [LinearOrder K] (f : V → W) {l : List (K × V)} (h : SMap.Sorted l) :
    SMap.Sorted (l.map fun e => (e.1, f e.2)) := by
  unfold SMap.Sorted at h ⊢
  rw [List.pairwise_map]
  exact h

/-- Migration neither adds nor removes submaps and keeps them 3D. -/
theorem finalSubmaps_ids {i : Input I J D} {l : List (I × Sub)} (h : finalSubmaps i = some l) :
    l.map (fun e => (e.1, e.2.is3d)) = (puts [] (submapsOf i.records)).map (fun e => (e.1, e.2.is3d)) := by
  have hs := sorted_puts (submapsOf i.records) [] SMap.sorted_nil
  refine SMap.ext (sorted_map Sub.is3d (finalSubmaps_sorted h)) (sorted_map Sub.is3d hs) fun k => ?_
  rw [get?_map, get?_map]
  unfold finalSubmaps migrateIf migrate at h
  split at h
  · split at h
    · rename_i h0; cases h; rw [h0]
    · split at h
      · exact foldlM_get _ _ _ h k
      · cases h; rfl
  · cases h; rfl

/-- The queue: landmark poses, the records, the submaps, and last the constraints. -/
theorem fill_queue {i : Input I J D} {g : Graph I J D} (h : fill i = some g) (hn : ((submapsOf i.records).map Prod.fst).Nodup) :
    g.done = [] ∧ g.queue = before i (submapsOf i.records).length ++ [.constraints i.constraints] ∧ g.queue.length = numItems i := by
  obtain ⟨_, l, hl, rfl⟩ := fill_spec h
  have : l.length = (submapsOf i.records).length := by
    have := congrArg List.length (finalSubmaps_ids hl)
    rw [List.length_map, List.length_map, (puts_keys hn).length_eq] at this
    exact this
  refine ⟨rfl, ?_, ?_⟩
  · rw [← this]; rfl
  · simp only [List.length_append, List.length_map, List.length_replicate, List.length_singleton, itemsOf_length, this, numItems]
    omega

/-! ## Main results -/

theorem constraintsIn_take (i : Input I J D) (n k : Nat) :
    constraintsIn ((before i n ++ [Item.constraints i.constraints]).take k) = if (before i n).length < k then i.constraints else [] := by
  rw [List.take_append]
  show List.flatMap _ _ = _
  rw [List.flatMap_append]
  have h1 := constraintsIn_before i n k
  unfold constraintsIn at h1
  rw [h1, List.nil_append]
  split
  · rename_i h
    rw [List.take_of_length_le (by simp; omega)]
    simp
  · rename_i h
    rw [show k - (before i n).length = 0 by omega]
    rfl

theorem dataIn_queue (kind : Kind) (i : Input I J D) (n : Nat) :
    dataIn kind (before i n ++ [Item.constraints i.constraints]) = dataOf kind i.records := by
  rw [dataIn_append, dataIn_before]
  exact List.append_nil _

theorem landmarkPosesIn_queue (i : Input I J D) (n : Nat) :
    landmarkPosesIn (before i n ++ [Item.constraints i.constraints]) = i.landmarkPoses := by
  rw [landmarkPosesIn_append, landmarkPosesIn_before]
  exact List.append_nil _

theorem dataIn_prefix (kind : Kind) (l : List (Item I J D)) (k : Nat) : dataIn kind (l.take k) <+: dataIn kind l :=
  (List.take_prefix k l).filterMap _

theorem landmarkPosesIn_prefix (l : List (Item I J D)) (k : Nat) : landmarkPosesIn (l.take k) <+: landmarkPosesIn l :=
  (List.take_prefix k l).filterMap _

/-- **C96.** The constraints of the stream are written if and only if the workers have run every single work item before the pose graph is
read for the first time; otherwise not one of them is written. -/
theorem constraints_all_or_none {unfinished : Bool} {s : Schedule} {i : Input I J D} {o : Output I J D} (hw : Wf i)
    (h : migrateStream unfinished s i = some o) :
    ∃ g, fill i = some g ∧ o.constraints = if numItems i ≤ s.first then keptConstraints unfinished g i.constraints else [] := by
  simp only [migrateStream, Option.bind_eq_bind, Option.bind_eq_some_iff] at h
  obtain ⟨g, hg, h⟩ := h
  obtain ⟨hd, hq, hl⟩ := fill_queue hg hw.submaps
  refine ⟨g, hg, ?_⟩
  rw [(write_spec h).2.1, hd, List.nil_append, hq, constraintsIn_take]
  rw [hq, List.length_append, List.length_singleton] at hl
  by_cases hk : numItems i ≤ s.first
  · rw [if_pos hk, if_pos (by omega)]
  · rw [if_neg hk, if_neg (by omega)]
    rfl

/-- **C96.** Which constraints are written: all, or all whose submap is not among the unfinished submaps of the stream, in order. -/
theorem constraints_written {unfinished : Bool} {s : Schedule} {i : Input I J D} {o : Output I J D} (hw : Wf i)
    (h : migrateStream unfinished s i = some o) :
    ∃ l, finalSubmaps i = some l ∧ List.Sublist o.constraints i.constraints ∧
      ∀ c, c ∈ o.constraints ↔ c ∈ i.constraints ∧ numItems i ≤ s.first ∧
        (unfinished = true ∨ ∀ e ∈ l, e.2.finished = false → e.1 ≠ c.submap) := by
  obtain ⟨g, hg, hc⟩ := constraints_all_or_none hw h
  obtain ⟨_, l, hl, rfl⟩ := fill_spec hg
  refine ⟨l, hl, ?_, ?_⟩
  · rw [hc]
    split
    · exact List.filter_sublist
    · exact List.nil_sublist _
  · intro c
    rw [hc]
    split
    · rename_i hk
      unfold keptConstraints
      rw [List.mem_filter]
      cases unfinished <;> simp [hk]
      intro _
      constructor
      · intro h a b m f e
        have := h b (e ▸ m)
        rw [f] at this
        cases this
      · intro h b m
        by_contra f
        exact h _ b m (by simpa using f) rfl
    · rename_i hk
      simp [hk]

/-- **C96.** Nodes and submaps are written completely whatever the workers do: all nodes, and all submaps or all finished submaps, with their
histograms migrated if the stream is of version 1. -/
theorem nodes_and_submaps {unfinished : Bool} {s : Schedule} {i : Input I J D} {o : Output I J D} (hw : Wf i)
    (h : migrateStream unfinished s i = some o) :
    o.version = 2 ∧ o.nodes.Perm (nodesOf i.records) ∧ SMap.Sorted o.nodes ∧
      ∃ l, finalSubmaps i = some l ∧ o.submaps = l.filter fun e => unfinished || e.2.finished := by
  simp only [migrateStream, Option.bind_eq_bind, Option.bind_eq_some_iff] at h
  obtain ⟨g, hg, h⟩ := h
  obtain ⟨_, l, hl, rfl⟩ := fill_spec hg
  obtain ⟨h1, _, _, h4, h5, _⟩ := write_spec h
  rw [h5]
  exact ⟨h1, puts_keys hw.nodes, sorted_puts _ _ SMap.sorted_nil, l, hl, h4⟩

/-- **C96.** Of the landmark poses and of each kind of data a beginning is written. -/
theorem data_prefix {unfinished : Bool} {s : Schedule} {i : Input I J D} {o : Output I J D} (hw : Wf i)
    (h : migrateStream unfinished s i = some o) :
    o.landmarkPoses <+: i.landmarkPoses ∧ ∀ kind, o.data kind <+: dataOf kind i.records := by
  simp only [migrateStream, Option.bind_eq_bind, Option.bind_eq_some_iff] at h
  obtain ⟨g, hg, h⟩ := h
  obtain ⟨hd, hq, hl⟩ := fill_queue hg hw.submaps
  obtain ⟨_, _, h3, _, _, k1, k2, k3, k4, k5⟩ := write_spec h
  rw [hd, List.nil_append] at h3 k1 k2 k3 k4 k5
  have hkind : ∀ kind k, dataIn kind (g.queue.take k) <+: dataOf kind i.records := by
    intro kind k
    rw [← dataIn_queue kind i (submapsOf i.records).length, ← hq]
    exact dataIn_prefix kind _ k
  refine ⟨?_, ?_⟩
  · rw [h3, ← landmarkPosesIn_queue i (submapsOf i.records).length, ← hq]
    exact landmarkPosesIn_prefix _ _
  · intro kind
    cases kind
    · rw [k1]; exact hkind _ _
    · rw [k2]; exact hkind _ _
    · rw [k3]; exact hkind _ _
    · rw [k4]; exact hkind _ _
    · rw [k5]; exact hkind _ _

/-- **C96.** If the workers are done before the pose graph is read, everything is written. -/
theorem drained_complete {unfinished : Bool} {s : Schedule} {i : Input I J D} {o : Output I J D} (hw : Wf i)
    (h : migrateStream unfinished s i = some o) (hk : numItems i ≤ s.first) :
    (unfinished = true → o.constraints = i.constraints) ∧ o.landmarkPoses = i.landmarkPoses ∧ ∀ kind, o.data kind = dataOf kind i.records := by
  obtain ⟨g, hg, hc⟩ := constraints_all_or_none hw h
  rw [if_pos hk] at hc
  obtain ⟨hd, hq, hl⟩ := fill_queue hg hw.submaps
  have hfull : ∀ k, s.first ≤ k → g.queue.take k = g.queue := fun k hk' => List.take_of_length_le (by omega)
  simp only [migrateStream, Option.bind_eq_bind, Option.bind_eq_some_iff] at h
  obtain ⟨g', hg', h⟩ := h
  rw [hg] at hg'
  cases hg'
  obtain ⟨_, _, h3, _, _, k1, k2, k3, k4, k5⟩ := write_spec h
  rw [hd, List.nil_append, hfull _ (by omega)] at h3 k1 k2 k3 k4 k5
  refine ⟨?_, ?_, ?_⟩
  · rintro rfl
    rw [hc]
    unfold keptConstraints
    simp
  · rw [h3, hq, landmarkPosesIn_queue]
  · have hkind : ∀ kind, dataIn kind g.queue = dataOf kind i.records := by
      intro kind
      rw [hq, dataIn_queue]
    intro kind
    cases kind
    · rw [k1, hkind]
    · rw [k2, hkind]
    · rw [k3, hkind]
    · rw [k4, hkind]
    · rw [k5, hkind]

theorem insertNew_fresh {K V : Type} [LinearOrder K] {k : K} {v : V} {l : List (K × V)} (h : SMap.get? k l = none) :
    insertNew k v l = some (SMap.put k v l) := by
  unfold insertNew
  rw [h, if_neg (by simp)]

theorem fresh_put {K V : Type} [LinearOrder K] {k k' : K} {v : V} {l : List (K × V)} (h : SMap.get? k l = none) (hne : k' ≠ k) :
    SMap.get? k (SMap.put k' v l) = none := by
  rw [SMap.get?_put]
  split
  · rename_i e; exact absurd e (by simpa [eq_comm] using hne)
  · exact h

theorem read_total (i : Input I J D) : ∀ (rs : List (Rec I J D)) (subs : List (I × Sub)) (g : Graph I J D),
    (∀ r ∈ rs, r ≠ .poseGraph ∧ r ≠ .options) → (∀ e ∈ submapsOf rs, e.2.is3d = true) → (∀ e ∈ nodesOf rs, e.1 ∈ i.nodePoses) →
    ((submapsOf rs).map Prod.fst).Nodup → ((nodesOf rs).map Prod.fst).Nodup → (∀ e ∈ submapsOf rs, SMap.get? e.1 subs = none) →
    (∀ e ∈ nodesOf rs, SMap.get? e.1 g.nodes = none) → ∃ x, read i rs subs g = some x
  | [], subs, g, _, _, _, _, _, _, _ => ⟨_, rfl⟩
  | .submap id s :: rs, subs, g, h1, h2, h3, h4, h5, h6, h7 => by
    have e1 : submapsOf (.submap id s :: rs) = (id, s) :: submapsOf rs := rfl
    rw [e1] at h2 h4 h6
    rw [List.map_cons, List.nodup_cons] at h4
    obtain ⟨x, hx⟩ := read_total i rs (SMap.put id s subs) g (fun r hr => h1 r (List.mem_cons_of_mem _ hr))
      (fun e he => h2 e (List.mem_cons_of_mem _ he)) h3 h4.2 h5
      (fun e he => fresh_put (h6 e (List.mem_cons_of_mem _ he)) fun hk => h4.1 (List.mem_map.2 ⟨e, he, hk.symm⟩)) h7
    refine ⟨x, ?_⟩
    have : s.is3d = true := h2 (id, s) List.mem_cons_self
    simp only [read, Option.bind_eq_bind, insertNew_fresh (h6 (id, s) List.mem_cons_self)]
    simp only [guard, this, if_true]
    exact hx
  | .node id n :: rs, subs, g, h1, h2, h3, h4, h5, h6, h7 => by
    have e1 : nodesOf (.node id n :: rs) = (id, n) :: nodesOf rs := rfl
    rw [e1] at h3 h5 h7
    rw [List.map_cons, List.nodup_cons] at h5
    obtain ⟨x, hx⟩ := read_total i rs subs { g with nodes := SMap.put id n g.nodes, queue := g.queue ++ [.touch] }
      (fun r hr => h1 r (List.mem_cons_of_mem _ hr)) h2
      (fun e he => h3 e (List.mem_cons_of_mem _ he)) h4 h5.2 h6
      (fun e he => fresh_put (h7 e (List.mem_cons_of_mem _ he)) fun hk => h5.1 (List.mem_map.2 ⟨e, he, hk.symm⟩))
    refine ⟨x, ?_⟩
    have := h3 (id, n) List.mem_cons_self
    simp only [read, Option.bind_eq_bind, insertNew_fresh (h7 (id, n) List.mem_cons_self)]
    simp only [guard, this, if_true]
    exact hx
  | .data k d :: rs, subs, g, h1, h2, h3, h4, h5, h6, h7 =>
    read_total i rs subs { g with queue := g.queue ++ [.data k d] } (fun r hr => h1 r (List.mem_cons_of_mem _ hr)) h2 h3 h4 h5 h6 h7
  | .unknown :: rs, subs, g, h1, h2, h3, h4, h5, h6, h7 =>
    read_total i rs subs g (fun r hr => h1 r (List.mem_cons_of_mem _ hr)) h2 h3 h4 h5 h6 h7
  | .poseGraph :: rs, subs, g, h1, _, _, _, _, _, _ => absurd rfl (h1 _ List.mem_cons_self).1
  | .options :: rs, subs, g, h1, _, _, _, _, _, _ => absurd rfl (h1 _ List.mem_cons_self).2

theorem addSubmaps_total (i : Input I J D) : ∀ (l : List (I × Sub)) (g : Graph I J D), (∀ e ∈ l, e.1 ∈ i.submapPoses) →
    (l.map Prod.fst).Nodup → (∀ e ∈ l, SMap.get? e.1 g.submaps = none) → ∃ x, addSubmaps i l g = some x
  | [], g, _, _, _ => ⟨_, rfl⟩
  | (id, s) :: l, g, h1, h2, h3 => by
    rw [List.map_cons, List.nodup_cons] at h2
    obtain ⟨x, hx⟩ := addSubmaps_total i l { g with submaps := SMap.put id s g.submaps, queue := g.queue ++ [.touch] }
      (fun e he => h1 e (List.mem_cons_of_mem _ he)) h2.2
      (fun e he => fresh_put (h3 e (List.mem_cons_of_mem _ he)) fun hk => h2.1 (List.mem_map.2 ⟨e, he, hk.symm⟩))
    refine ⟨x, ?_⟩
    have := h1 (id, s) List.mem_cons_self
    simp only [addSubmaps, Option.bind_eq_bind, insertNew_fresh (h3 (id, s) List.mem_cons_self)]
    simp only [guard, this, if_true]
    exact hx

theorem nodup_of_sorted {K V : Type} [LinearOrder K] {l : List (K × V)} (h : SMap.Sorted l) : (l.map Prod.fst).Nodup := by
  unfold SMap.Sorted at h
  rw [List.Nodup, List.pairwise_map]
  exact h.imp fun {a b} hab => ne_of_lt hab

theorem idsOk_iff (numOptions : Nat) : ∀ (k : Nat) (ts : List Int),
    idsOk numOptions k ts = true ↔ (ts = [] ∨ k + ts.length ≤ numOptions) ∧ ts = (List.range ts.length).map fun (j : Nat) => ((k + j : Nat) : Int)
  | k, [] => by simp [idsOk]
  | k, t :: ts => by
    have e : (List.range (t :: ts).length).map (fun (j : Nat) => ((k + j : Nat) : Int)) =
        (k : Int) :: (List.range ts.length).map fun (j : Nat) => ((k + 1 + j : Nat) : Int) := by
      rw [List.length_cons, List.range_succ_eq_map, List.map_cons, List.map_map]
      congr 1
      apply List.map_congr_left
      intro j _
      simp only [Function.comp_apply]
      congr 1
      omega
    rw [e]
    simp only [idsOk, Bool.and_eq_true, decide_eq_true_eq, idsOk_iff numOptions (k + 1) ts, List.cons.injEq, List.length_cons,
      List.cons_ne_nil, false_or]
    constructor
    · rintro ⟨⟨h1, h2⟩, h3, h4⟩
      refine ⟨?_, h2, h4⟩
      rcases h3 with h3 | h3
      · rw [h3]; simpa using h1
      · omega
    · rintro ⟨h1, h2, h3⟩
      exact ⟨⟨by omega, h2⟩, Or.inr (by omega), h3⟩

/-- **C96.** A stream whose trajectories are not numbered 0, 1, … without gaps, for instance after one has been deleted, or which lacks options,
cannot be migrated. -/
theorem gaps_abort {unfinished : Bool} {s : Schedule} {i : Input I J D}
    (h : i.trajectories ≠ (List.range i.trajectories.length).map (fun (k : Nat) => (k : Int)) ∨ i.numOptions < i.trajectories.length) :
    migrateStream unfinished s i = none := by
  have hids : idsOk i.numOptions 0 i.trajectories = false := by
    rw [Bool.eq_false_iff]
    intro hok
    have := (idsOk_iff i.numOptions 0 i.trajectories).1 hok
    simp only [Nat.zero_add] at this
    rcases h with h | h
    · exact h this.2
    · rcases this.1 with h' | h'
      · rw [h'] at h; simp at h
      · omega
  unfold migrateStream fill
  rw [hids]
  rfl

/-- A well-formed stream can be read. -/
theorem fill_total {i : Input I J D} (hw : Wf i) : ∃ g, fill i = some g := by
  have hids : idsOk i.numOptions 0 i.trajectories = true := by
    rw [idsOk_iff]
    simp only [Nat.zero_add]
    exact ⟨Or.inr hw.options, hw.ids⟩
  obtain ⟨⟨subs, g⟩, hr⟩ := read_total i i.records [] ⟨[], [], [], i.landmarkPoses.map .landmarkPose⟩ hw.unique hw.dim hw.nodePose hw.submaps hw.nodes
    (fun _ _ => rfl) (fun _ _ => rfl)
  obtain ⟨rfl, hg⟩ := read_spec i _ _ _ _ _ hr
  have hgn : g.nodes = puts [] (nodesOf i.records) := by rw [hg]
  have hgs : g.submaps = [] := by rw [hg]
  have hsorted := sorted_puts (submapsOf i.records) [] SMap.sorted_nil
  have hperm := puts_keys hw.submaps
  have hpn := puts_keys hw.nodes
  have hf : ∃ l, finalSubmaps i = some l := by
    unfold finalSubmaps migrateIf
    split
    · rename_i hv
      obtain ⟨m, h1, h2⟩ := hw.histograms hv
      refine ⟨_, migrate_exact (m := m) hsorted ?_ ?_ ?_⟩
      · intro j r hj
        exact h1 (j, r) (hpn.mem_iff.1 (SMap.mem_of_get? hj))
      · intro e he
        exact ⟨hw.dim e (hperm.mem_iff.1 he), h2 e (hperm.mem_iff.1 he)⟩
      · intro c hc _
        obtain ⟨⟨j, r⟩, hr, hj⟩ := List.mem_map.1 (hw.inNodes c hc)
        obtain ⟨⟨k, s⟩, hs, hk⟩ := List.mem_map.1 (hw.inSubmaps c hc)
        dsimp only at hj hk
        subst hj hk
        exact ⟨⟨r, SMap.get?_of_mem (sorted_puts _ _ SMap.sorted_nil) (hpn.mem_iff.2 hr)⟩, s,
          SMap.get?_of_mem hsorted (hperm.mem_iff.2 hs), hw.dim _ hs⟩
    · exact ⟨_, rfl⟩
  obtain ⟨l, hl⟩ := hf
  have hkeys := finalSubmaps_ids hl
  obtain ⟨g2, h2⟩ := addSubmaps_total i l g (by
    intro e he
    have : (e.1, e.2.is3d) ∈ l.map fun e => (e.1, e.2.is3d) := List.mem_map.2 ⟨e, he, rfl⟩
    rw [hkeys] at this
    obtain ⟨e', he', hee⟩ := List.mem_map.1 this
    have h1 := hw.submapPose e' (hperm.mem_iff.1 he')
    simp only [Prod.mk.injEq] at hee
    rw [← hee.1]
    exact h1) (nodup_of_sorted (finalSubmaps_sorted hl)) (by rw [hgs]; exact fun _ _ => rfl)
  have hl' : migrateIf i.version g.nodes (puts [] (submapsOf i.records)) i.constraints = some l := by rw [hgn]; exact hl
  refine ⟨{ g2 with queue := g2.queue ++ [.constraints i.constraints] }, ?_⟩
  unfold fill
  simp only [hids, guard, if_true, Option.bind_eq_bind]
  rw [hr]
  simp only [Option.bind_some, Option.pure_def]
  rw [hl']
  simp only [Option.bind_some]
  rw [h2, Option.bind_some]

theorem constraintsOk_true {nodes : List (J × Node)} {subs : List (I × Sub)} : ∀ (cs : List (Constraint I J)) (seen : List (I × J)),
    (∀ c ∈ cs, (SMap.get? c.node nodes).isSome = true ∧ (SMap.get? c.submap subs).isSome = true) →
    ((cs.filter (·.intra)).map fun c => (c.submap, c.node)).Nodup →
    (∀ c ∈ cs, c.intra = true → (c.submap, c.node) ∉ seen) → constraintsOk nodes subs seen cs = true
  | [], _, _, _, _ => rfl
  | c :: cs, seen, h1, h2, h3 => by
    unfold constraintsOk
    rw [(h1 c List.mem_cons_self).1, (h1 c List.mem_cons_self).2]
    by_cases hi : c.intra = true
    · rw [List.filter_cons_of_pos hi, List.map_cons, List.nodup_cons] at h2
      rw [if_pos hi, constraintsOk_true cs _ (fun x hx => h1 x (List.mem_cons_of_mem _ hx)) h2.2]
      · simp [h3 c List.mem_cons_self hi]
      · intro x hx hxi hm
        rcases List.mem_cons.1 hm with hm | hm
        · exact h2.1 (List.mem_map.2 ⟨x, List.mem_filter.2 ⟨hx, hxi⟩, hm⟩)
        · exact h3 x (List.mem_cons_of_mem _ hx) hxi hm
    · rw [List.filter_cons_of_neg hi] at h2
      rw [if_neg hi, constraintsOk_true cs _ (fun x hx => h1 x (List.mem_cons_of_mem _ hx)) h2 fun x hx => h3 x (List.mem_cons_of_mem _ hx)]
      rfl

theorem work_total {g : Graph I J D} (h : ∀ cs, .constraints cs ∈ g.queue → constraintsOk g.nodes g.submaps [] cs = true) :
    ∃ g', work g = some g' := by
  obtain ⟨subs, nodes, done, queue⟩ := g
  unfold work
  cases queue with
  | nil => exact ⟨_, rfl⟩
  | cons x q =>
    cases x
    case constraints cs => exact ⟨_, if_pos (h cs List.mem_cons_self)⟩
    all_goals exact ⟨_, rfl⟩

theorem workN_total : ∀ (k : Nat) {g : Graph I J D},
    (∀ cs, .constraints cs ∈ g.queue → constraintsOk g.nodes g.submaps [] cs = true) →
    ∃ g', workN k g = some g' ∧ ∀ cs, .constraints cs ∈ g'.queue → constraintsOk g'.nodes g'.submaps [] cs = true
  | 0, g, h => ⟨g, rfl, h⟩
  | k + 1, g, h => by
    obtain ⟨g1, h1⟩ := work_total h
    have e := work_spec h1
    obtain ⟨g2, h2, h3⟩ := workN_total k (g := g1) (by
      subst e
      intro cs hcs
      exact h cs (List.mem_of_mem_drop hcs))
    exact ⟨g2, by simp only [workN]; rw [h1]; exact h2, h3⟩

/-- **C96.** A well-formed stream is migrated without an abort, whatever the workers do. -/
theorem never_aborts (unfinished : Bool) (s : Schedule) {i : Input I J D} (hw : Wf i) : ∃ o, migrateStream unfinished s i = some o := by
  obtain ⟨g, hg⟩ := fill_total hw
  have hq := (fill_queue hg hw.submaps).2.1
  obtain ⟨_, l, hl, hgl⟩ := fill_spec hg
  have hkeys := finalSubmaps_ids hl
  have hok : ∀ cs, .constraints cs ∈ g.queue → constraintsOk g.nodes g.submaps [] cs = true := by
    intro cs hcs
    rw [hq, List.mem_append] at hcs
    have hcs' : cs = i.constraints := by
      rcases hcs with hcs | hcs
      · exfalso
        have := constraintsIn_before i (submapsOf i.records).length (before i (submapsOf i.records).length).length
        unfold before at hcs
        simp only [List.mem_append, List.mem_map, itemsOf, List.mem_filterMap, List.mem_replicate] at hcs
        rcases hcs with (⟨d, _, hd⟩ | ⟨r, _, hr⟩) | ⟨_, hd⟩
        · cases hd
        · cases r <;> simp at hr
        · cases hd
      · simpa using hcs
    subst hcs'
    refine constraintsOk_true _ _ ?_ hw.once fun _ _ _ h => by cases h
    intro c hc
    rw [hgl]
    dsimp only
    constructor
    · obtain ⟨⟨j, r⟩, hr, hj⟩ := List.mem_map.1 (hw.inNodes c hc)
      dsimp only at hj
      subst hj
      rw [SMap.get?_of_mem (sorted_puts _ _ SMap.sorted_nil) ((puts_keys hw.nodes).mem_iff.2 hr)]
      rfl
    · obtain ⟨⟨k, s⟩, hs, hk⟩ := List.mem_map.1 (hw.inSubmaps c hc)
      dsimp only at hk
      subst hk
      have h1 := get?_map Sub.is3d c.submap l
      rw [hkeys, get?_map, SMap.get?_of_mem (sorted_puts _ _ SMap.sorted_nil) ((puts_keys hw.submaps).mem_iff.2 hs)] at h1
      cases hx : SMap.get? c.submap l with
      | none => rw [hx] at h1; simp at h1
      | some x => rfl
  unfold migrateStream write
  simp only [Option.bind_eq_bind]
  rw [hg, Option.bind_some]
  obtain ⟨g0, e0, h0⟩ := workN_total s.first hok
  obtain ⟨g1, e1, h1⟩ := workN_total s.landmarkPoses h0
  obtain ⟨g2, e2, h2⟩ := workN_total s.trajectoryData h1
  obtain ⟨g3, e3, h3⟩ := workN_total s.imu h2
  obtain ⟨g4, e4, h4⟩ := workN_total s.odometry h3
  obtain ⟨g5, e5, h5⟩ := workN_total s.fixedFrame h4
  obtain ⟨g6, e6, h6⟩ := workN_total s.landmark h5
  rw [e0, Option.bind_some, e1, Option.bind_some, e2, Option.bind_some, e3, Option.bind_some, e4, Option.bind_some, e5, Option.bind_some, e6,
    Option.bind_some]
  exact ⟨_, rfl⟩

/-- The schedule in which the workers do not get to run before everything has been written. -/
def idle : Schedule := ⟨0, 0, 0, 0, 0, 0, 0⟩

/-- **C96, disagreement.** Every stream, however large, can be migrated to one without any constraint, landmark pose, trajectory data or sensor
data: this happens if the stream is written before the first work item has been run, and nothing reports it. -/
theorem everything_lost (unfinished : Bool) {i : Input I J D} (hw : Wf i) :
    ∃ o, migrateStream unfinished idle i = some o ∧ o.constraints = [] ∧ o.landmarkPoses = [] ∧ ∀ kind, o.data kind = [] := by
  obtain ⟨o, ho⟩ := never_aborts unfinished idle hw
  refine ⟨o, ho, ?_⟩
  simp only [migrateStream, Option.bind_eq_bind, Option.bind_eq_some_iff] at ho
  obtain ⟨g, hg, h⟩ := ho
  obtain ⟨hd, hq, hl⟩ := fill_queue hg hw.submaps
  obtain ⟨_, h2, h3, _, _, k1, k2, k3, k4, k5⟩ := write_spec h
  simp only [idle, Nat.add_zero, List.take_zero, hd, List.append_nil] at h2 h3 k1 k2 k3 k4 k5
  refine ⟨h2, h3, ?_⟩
  intro kind
  cases kind
  · exact k1
  · exact k2
  · exact k3
  · exact k4
  · exact k5

/-! ## Examples -/

/-- A stream of version 1 with one submap, one node, one IMU datum and one constraint. -/
def sample : Input Nat Nat Nat where
  version := 1
  trajectories := [0]
  numOptions := 1
  submapPoses := [0]
  nodePoses := [0]
  landmarkPoses := [7]
  constraints := [⟨true, 0, 0⟩]
  records := [.submap 0 ⟨Rigid.Rigid3.identity, true, true, []⟩, .node 0 (still [1, 2]), .data .imu 5]

theorem sample_wf : Wf sample where
  ids := rfl
  options := le_refl _
  nodes := by simp [sample, nodesOf]
  submaps := by simp [sample, submapsOf]
  nodePose := by simp [sample, nodesOf]
  submapPose := by simp [sample, submapsOf]
  dim := by simp [sample, submapsOf]
  unique := by simp [sample]
  inNodes := by simp [sample, nodesOf]
  inSubmaps := by simp [sample, submapsOf]
  histograms := fun _ => ⟨2, by simp [sample, nodesOf, still], by simp [sample, submapsOf]⟩
  once := by simp [sample]

/-- With the workers ready the constraint and the datum are written, with idle workers they are not. -/
example : (∃ o, migrateStream true ⟨5, 0, 0, 0, 0, 0, 0⟩ sample = some o ∧ o.constraints = [⟨true, 0, 0⟩] ∧ o.data .imu = [5]) ∧
    (∃ o, migrateStream true ⟨4, 0, 0, 0, 0, 0, 0⟩ sample = some o ∧ o.constraints = []) ∧
    ∃ o, migrateStream true idle sample = some o ∧ o.data .imu = [] := by
  refine ⟨?_, ?_, ?_⟩
  · obtain ⟨o, ho⟩ := never_aborts true ⟨5, 0, 0, 0, 0, 0, 0⟩ sample_wf
    obtain ⟨h1, _, h3⟩ := drained_complete sample_wf ho (by simp [numItems, sample, nodesOf, submapsOf])
    exact ⟨o, ho, h1 rfl, h3 .imu⟩
  · obtain ⟨o, ho⟩ := never_aborts true ⟨4, 0, 0, 0, 0, 0, 0⟩ sample_wf
    obtain ⟨g, _, hc⟩ := constraints_all_or_none sample_wf ho
    rw [if_neg (by simp [numItems, sample, nodesOf, submapsOf])] at hc
    exact ⟨o, ho, hc⟩
  · obtain ⟨o, ho, _, _, h⟩ := everything_lost true sample_wf
    exact ⟨o, ho, h .imu⟩

/-- After trajectory 0 has been deleted the state cannot be migrated. -/
example (s : Schedule) : migrateStream true s { sample with trajectories := [1] } = none := gaps_abort (Or.inl (by simp))

end Verif.Migration
