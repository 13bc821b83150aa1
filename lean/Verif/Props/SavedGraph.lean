import Verif.SavedGraph
import Verif.Props.Rigid
import Verif.Props.CostFunctions
import Mathlib.Tactic.FieldSimp

/-!
# C109: A 2D map that is saved and loaded poses the same optimization problem
-/

namespace Verif.SavedGraph

open Verif.Rigid Verif.Cost

variable {N S : Type} [LinearOrder N] [LinearOrder S]

/-! ### Gravity alignment -/

theorem rotate_zero (q : Quat) : q.rotate ⟨0, 0, 0⟩ = ⟨0, 0, 0⟩ := by
  simp [Quat.rotate, cross]

theorem scaled_normalized {q : Quat} (h : q.Unit) {d : ℝ} (hd : 0 < d) : Quat.normalized ⟨q.w / d, q.x / d, q.y / d, q.z / d⟩ = q := by
  unfold Quat.Unit at h
  have hn : Quat.normSq ⟨q.w / d, q.x / d, q.y / d, q.z / d⟩ = (1 / d) ^ 2 := by
    simp only [Quat.normSq]
    field_simp
    linarith
  have hs : √(Quat.normSq ⟨q.w / d, q.x / d, q.y / d, q.z / d⟩) = 1 / d := by
    rw [hn, Real.sqrt_sq (by positivity)]
  unfold Quat.normalized
  rw [if_pos (by rw [hn]; positivity), hs]
  ext <;> field_simp

/-- Multiplying by the gravity alignment and dividing by it again changes nothing, even if its norm is not one. -/
theorem align_cancel {r : Rigid3} (hr : r.Proper) {q : Quat} (hq : 0 < q.normSq) :
    (r.mul (rotation q)).mul (rotation (Imu.inverseQuat q)) = r := by
  have hru : r.rotation.normSq = 1 := by rw [normSq_eq]; exact hr
  have hn : (r.rotation.mul q).normSq = q.normSq := by rw [normSq_mul, hru, one_mul]
  have hd : 0 < √q.normSq := Real.sqrt_pos.2 hq
  have e : ((r.rotation.mul q).normalized).mul (Imu.inverseQuat q) =
      ⟨r.rotation.w / √q.normSq, r.rotation.x / √q.normSq, r.rotation.y / √q.normSq, r.rotation.z / √q.normSq⟩ := by
    unfold Quat.normalized
    rw [if_pos (by rw [hn]; exact hq), hn]
    generalize hk : √q.normSq = d at hd
    have hq' : q.normSq = q.w * q.w + q.x * q.x + q.y * q.y + q.z * q.z := by unfold Quat.normSq; ring
    have hq0 : q.normSq ≠ 0 := ne_of_gt hq
    ext <;> simp only [Quat.mul, Imu.inverseQuat] <;> field_simp <;> rw [hq'] <;> ring
  unfold Rigid3.mul rotation
  simp only [rotate_zero, zero_add]
  rw [e, scaled_normalized hr hd]

/-! ### Lists -/

theorem allOf_some {V W : Type} {f : V → Option W} : ∀ {l : List V} {ws : List W}, allOf f l = some ws → List.Forall₂ (fun v w => f v = some w) l ws := by
  intro l
  induction l with
  | nil => intro ws h; rw [allOf, Option.some.injEq] at h; subst h; exact .nil
  | cons v l ih =>
    intro ws h
    simp only [allOf, Option.bind_eq_bind, Option.bind_eq_some_iff, Option.some.injEq] at h
    obtain ⟨w, hw, ws', hws, rfl⟩ := h
    exact .cons hw (ih hws)

theorem get?_mapv {K V W : Type} [LinearOrder K] (f : K → V → W) (k : K) : ∀ l : List (K × V),
    SMap.get? k (l.map fun e => (e.1, f e.1 e.2)) = (SMap.get? k l).map (f k) := by
  intro l
  induction l with
  | nil => rfl
  | cons e l ih =>
    obtain ⟨k', v⟩ := e
    simp only [List.map_cons, SMap.get?]
    split
    · next h => subst h; rfl
    · exact ih

theorem sorted_mapv {K V W : Type} [LinearOrder K] (f : K → V → W) {l : List (K × V)} (h : SMap.Sorted l) :
    SMap.Sorted (l.map fun e => (e.1, f e.1 e.2)) := by
  unfold SMap.Sorted at *
  rw [List.pairwise_map]
  exact h

theorem get?_filter {K V : Type} [LinearOrder K] (p : K → Bool) (k : K) : ∀ l : List (K × V),
    SMap.get? k (l.filter fun e => p e.1) = if p k then SMap.get? k l else none := by
  intro l
  induction l with
  | nil => simp [SMap.get?]
  | cons e l ih =>
    obtain ⟨k', v⟩ := e
    rw [List.filter_cons]
    by_cases h : k' = k
    · subst h
      by_cases hp : p k' = true
      · simp [hp, SMap.get?]
      · simp only [hp, if_false, Bool.false_eq_true] at ih ⊢
        exact ih
    · split
      · simp only [SMap.get?, h, if_false, ih]
      · simp only [SMap.get?, h, if_false, ih]

/-! ### The states of a pose graph -/

/-- The pairs of submap and node with an INTRA_SUBMAP constraint. -/
def intraPairs (cs : List (Constraint N S)) : List (S × N) := (cs.filter fun c => c.intra).map fun c => (c.submap, c.node)

/-- Everything the pose graph may do, including to start from a file. -/
inductive Reach : Graph N S → Prop where
  | empty : Reach Graph.empty
  | submap {g g' : Graph N S} {s l p} : Reach g → addSubmap g s l p = some g' → Reach g'
  | node {g g' : Graph N S} {n data shownAt front others w} : Reach g → 0 < data.gravity.normSq → (front :: others).Nodup →
      addNode g n data shownAt front others w = some g' → Reach g'
  | loopClosure {g g' : Graph N S} {n s p w} : Reach g → addLoopClosure g n s p w = some g' → Reach g'
  | optimized {g : Graph N S} (nodes submaps) : Reach g → Reach (optimize g nodes submaps)
  | trimmed {g : Graph N S} (nodes submaps) : Reach g → Reach (trim g nodes submaps)
  | loaded {g g' : Graph N S} {f : File N S} {x} : Reach g → save g x = some f → load f = some g' → Reach g'

/-- What a node in the optimization problem has to do with the node. -/
def Fits (a : Node) (b : Spec) : Prop :=
  b.time = a.data.time ∧ b.gravity = a.data.gravity ∧ b.localPose = flatten a.data.gravity a.data.localPose

structure Inv (g : Graph N S) : Prop where
  nodes : SMap.Sorted g.nodes
  specs : SMap.Sorted g.specs
  locals : SMap.Sorted g.locals
  poses : SMap.Sorted g.poses
  shown : SMap.Sorted g.shown
  both : ∀ n, (SMap.get? n g.specs).isSome = (SMap.get? n g.nodes).isSome
  fits : ∀ n a b, SMap.get? n g.nodes = some a → SMap.get? n g.specs = some b → Fits a b
  gravity : ∀ n a, SMap.get? n g.nodes = some a → 0 < a.data.gravity.normSq
  keys : ∀ s, (SMap.get? s g.poses).isSome = (SMap.get? s g.locals).isSome
  constraints : ∀ c ∈ g.constraints, (SMap.get? c.node g.nodes).isSome ∧ (SMap.get? c.submap g.locals).isSome ∧ ∃ p, c.zbar = embed3D p
  intra : (intraPairs g.constraints).Nodup

/-- What `RunOptimization` leaves: the poses that are shown are those of the optimization problem. -/
structure Shown (g : Graph N S) : Prop where
  submaps : g.shown = g.poses
  nodes : ∀ n a b, SMap.get? n g.nodes = some a → SMap.get? n g.specs = some b →
    a.globalPose = (embed3D b.globalPose).mul (rotation a.data.gravity)

theorem inv_empty : Inv (Graph.empty : Graph N S) := by
  refine ⟨SMap.sorted_nil, SMap.sorted_nil, SMap.sorted_nil, SMap.sorted_nil, SMap.sorted_nil, ?_, ?_, ?_, ?_, ?_, ?_⟩ <;>
    simp [Graph.empty, SMap.get?, intraPairs]

theorem inv_addSubmap {g g' : Graph N S} {s l p} (h : Inv g) (e : addSubmap g s l p = some g') : Inv g' := by
  unfold addSubmap at e
  split at e
  · cases e
  · rw [Option.some.injEq] at e
    subst e
    refine ⟨h.nodes, h.specs, SMap.sorted_put h.locals, SMap.sorted_put h.poses, h.shown, h.both, h.fits, h.gravity, ?_, ?_, h.intra⟩
    · intro s'
      simp only [SMap.get?_put]
      split
      · rfl
      · exact h.keys s'
    · intro c hc
      obtain ⟨c1, c2, c3⟩ := h.constraints c hc
      refine ⟨c1, ?_, c3⟩
      simp only [SMap.get?_put]
      split
      · rfl
      · exact c2

theorem intraPairs_append (a b : List (Constraint N S)) : intraPairs (a ++ b) = intraPairs a ++ intraPairs b := by
  simp [intraPairs]

theorem inv_addNode {g g' : Graph N S} {n data shownAt front others w} (h : Inv g) (hq : 0 < data.gravity.normSq)
    (hnd : (front :: others).Nodup) (e : addNode g n data shownAt front others w = some g') : Inv g' := by
  unfold addNode at e
  simp only [Option.bind_eq_bind, Option.bind_eq_some_iff] at e
  obtain ⟨l, hl, p, hp, cs, hcs, e⟩ := e
  split at e
  · cases e
  · next hnew =>
    rw [Option.some.injEq] at e
    subst e
    have hcs' := allOf_some hcs
    have hall : ∀ (ss : List S) (cs : List (Constraint N S)),
        List.Forall₂ (fun s c => intraConstraint g n (flatten data.gravity data.localPose) w s = some c) ss cs →
        intraPairs cs = ss.map (fun s => (s, n)) ∧
        ∀ c ∈ cs, c.node = n ∧ (SMap.get? c.submap g.locals).isSome ∧ ∃ p, c.zbar = embed3D p := by
      intro ss cs hf
      induction hf with
      | nil => exact ⟨rfl, by simp⟩
      | @cons s c ss cs hc _ ih =>
        unfold intraConstraint at hc
        rw [Option.map_eq_some_iff] at hc
        obtain ⟨l', hl', rfl⟩ := hc
        refine ⟨?_, ?_⟩
        · have : intraPairs (⟨s, n, embed3D ((project2D l').inverse.mul (flatten data.gravity data.localPose)), w.1, w.2, true⟩ :: cs) =
              (s, n) :: intraPairs cs := by simp [intraPairs]
          rw [this, ih.1]
          rfl
        · intro c hc
          rcases List.mem_cons.1 hc with rfl | hc
          · exact ⟨rfl, by rw [hl']; rfl, _, rfl⟩
          · exact ih.2 c hc
    obtain ⟨hpairs, hcons⟩ := hall _ _ hcs'
    refine ⟨SMap.sorted_put h.nodes, SMap.sorted_put h.specs, h.locals, h.poses, h.shown, ?_, ?_, ?_, h.keys, ?_, ?_⟩
    · intro m
      simp only [SMap.get?_put]
      split
      · rfl
      · exact h.both m
    · intro m a b ha hb
      simp only [SMap.get?_put] at ha hb
      split at ha
      · next hm =>
        rw [if_pos hm] at hb
        rw [Option.some.injEq] at ha hb
        subst ha; subst hb
        exact ⟨rfl, rfl, rfl⟩
      · next hm =>
        rw [if_neg hm] at hb
        exact h.fits m a b ha hb
    · intro m a ha
      simp only [SMap.get?_put] at ha
      split at ha
      · rw [Option.some.injEq] at ha
        subst ha
        exact hq
      · exact h.gravity m a ha
    · intro c hc
      simp only [SMap.get?_put]
      rcases List.mem_append.1 hc with hc | hc
      · obtain ⟨c1, c2, c3⟩ := h.constraints c hc
        refine ⟨?_, c2, c3⟩
        split
        · rfl
        · exact c1
      · obtain ⟨c1, c2, c3⟩ := hcons c hc
        refine ⟨?_, c2, c3⟩
        rw [if_pos c1.symm]
        rfl
    · show (intraPairs (g.constraints ++ cs)).Nodup
      rw [intraPairs_append, hpairs, List.nodup_append]
      refine ⟨h.intra, hnd.map (fun a b hab => (Prod.mk.inj hab).1), ?_⟩
      intro x hx y hy hxy
      subst hxy
      simp only [intraPairs, List.mem_map, List.mem_filter] at hx
      obtain ⟨c, ⟨hc, -⟩, rfl⟩ := hx
      rw [List.mem_map] at hy
      obtain ⟨s, -, hs⟩ := hy
      have := (h.constraints c hc).1
      rw [← (Prod.mk.inj hs).2, hnew] at this
      cases this

theorem inv_addLoopClosure {g g' : Graph N S} {n s p w} (h : Inv g) (e : addLoopClosure g n s p w = some g') : Inv g' := by
  unfold addLoopClosure at e
  simp only [Option.bind_eq_bind, Option.bind_eq_some_iff, Option.some.injEq] at e
  obtain ⟨a, ha, l, hl, rfl⟩ := e
  refine ⟨h.nodes, h.specs, h.locals, h.poses, h.shown, h.both, h.fits, h.gravity, h.keys, ?_, ?_⟩
  · intro c hc
    rcases List.mem_append.1 hc with hc | hc
    · exact h.constraints c hc
    · rw [List.mem_singleton] at hc
      subst hc
      exact ⟨by rw [ha]; rfl, by rw [hl]; rfl, _, rfl⟩
  · show (intraPairs (g.constraints ++ _)).Nodup
    rw [intraPairs_append]
    simpa [intraPairs] using h.intra

theorem optimize_nodes (g : Graph N S) (f submaps) (n : N) : SMap.get? n (optimize g f submaps).nodes =
    (SMap.get? n g.nodes).map fun a => ⟨a.data, (embed3D (f n)).mul (rotation a.data.gravity)⟩ :=
  get?_mapv (fun n (a : Node) => (⟨a.data, (embed3D (f n)).mul (rotation a.data.gravity)⟩ : Node)) n g.nodes

theorem optimize_specs (g : Graph N S) (f submaps) (n : N) : SMap.get? n (optimize g f submaps).specs =
    (SMap.get? n g.specs).map fun b => { b with globalPose := f n } :=
  get?_mapv (fun n (b : Spec) => ({ b with globalPose := f n } : Spec)) n g.specs

theorem inv_optimize {g : Graph N S} (h : Inv g) (f submaps) : Inv (optimize g f submaps) := by
  refine ⟨sorted_mapv (fun n (a : Node) => (⟨a.data, (embed3D (f n)).mul (rotation a.data.gravity)⟩ : Node)) h.nodes,
    sorted_mapv (fun n (b : Spec) => ({ b with globalPose := f n } : Spec)) h.specs, h.locals, sorted_mapv (fun s (_ : Rigid2) => submaps s) h.poses,
    sorted_mapv (fun s (_ : Rigid2) => submaps s) h.poses, ?_, ?_, ?_, ?_, ?_, h.intra⟩
  · intro n
    rw [optimize_nodes, optimize_specs, Option.isSome_map, Option.isSome_map]
    exact h.both n
  · intro n a b ha hb
    rw [optimize_nodes, Option.map_eq_some_iff] at ha
    rw [optimize_specs, Option.map_eq_some_iff] at hb
    obtain ⟨a', ha', rfl⟩ := ha
    obtain ⟨b', hb', rfl⟩ := hb
    exact h.fits n a' b' ha' hb'
  · intro n a ha
    rw [optimize_nodes, Option.map_eq_some_iff] at ha
    obtain ⟨a', ha', rfl⟩ := ha
    exact h.gravity n a' ha'
  · intro s
    have := get?_mapv (fun s (_ : Rigid2) => submaps s) s g.poses
    show (SMap.get? s (g.poses.map fun e => (e.1, submaps e.1))).isSome = _
    rw [this, Option.isSome_map]
    exact h.keys s
  · intro c hc
    obtain ⟨c1, c2, c3⟩ := h.constraints c hc
    exact ⟨by rw [optimize_nodes, Option.isSome_map]; exact c1, c2, c3⟩

theorem shown_optimize {g : Graph N S} (f submaps) : Shown (optimize g f submaps) := by
  refine ⟨rfl, fun n a b ha hb => ?_⟩
  rw [optimize_nodes, Option.map_eq_some_iff] at ha
  rw [optimize_specs, Option.map_eq_some_iff] at hb
  obtain ⟨a', ha', rfl⟩ := ha
  obtain ⟨b', hb', rfl⟩ := hb
  rfl

theorem inv_trim {g : Graph N S} (h : Inv g) (nodes submaps) : Inv (trim g nodes submaps) := by
  have hn : ∀ n, SMap.get? n (trim g nodes submaps).nodes = if decide (n ∉ nodes) then SMap.get? n g.nodes else none :=
    fun n => get?_filter (fun k => decide (k ∉ nodes)) n g.nodes
  have hs : ∀ n, SMap.get? n (trim g nodes submaps).specs = if decide (n ∉ nodes) then SMap.get? n g.specs else none :=
    fun n => get?_filter (fun k => decide (k ∉ nodes)) n g.specs
  have hl : ∀ s, SMap.get? s (trim g nodes submaps).locals = if decide (s ∉ submaps) then SMap.get? s g.locals else none :=
    fun n => get?_filter (fun k => decide (k ∉ submaps)) n g.locals
  have hp : ∀ s, SMap.get? s (trim g nodes submaps).poses = if decide (s ∉ submaps) then SMap.get? s g.poses else none :=
    fun n => get?_filter (fun k => decide (k ∉ submaps)) n g.poses
  refine ⟨h.nodes.filter _, h.specs.filter _, h.locals.filter _, h.poses.filter _, h.shown.filter _, ?_, ?_, ?_, ?_, ?_, ?_⟩
  · intro n
    rw [hn, hs]
    split
    · exact h.both n
    · rfl
  · intro n a b ha hb
    rw [hn] at ha
    rw [hs] at hb
    split at ha
    · next hc => rw [if_pos hc] at hb; exact h.fits n a b ha hb
    · cases ha
  · intro n a ha
    rw [hn] at ha
    split at ha
    · exact h.gravity n a ha
    · cases ha
  · intro s
    rw [hl, hp]
    split
    · exact h.keys s
    · rfl
  · intro c hc
    simp only [trim, List.mem_filter, decide_eq_true_eq] at hc
    obtain ⟨c1, c2, c3⟩ := h.constraints c hc.1
    exact ⟨by rw [hn, if_pos (by simpa using hc.2.1)]; exact c1, by rw [hl, if_pos (by simpa using hc.2.2)]; exact c2, c3⟩
  · refine List.Sublist.nodup ?_ h.intra
    exact List.Sublist.map _ (List.Sublist.filter _ List.filter_sublist)

/-! ### Saving and loading -/

/-- The nodes as they are loaded. -/
noncomputable def respec (a : Node) : Spec :=
  ⟨a.data.time, flatten a.data.gravity a.data.localPose, flatten a.data.gravity a.globalPose, a.data.gravity⟩

/-- What loading makes of a graph. -/
noncomputable def reloaded (g : Graph N S) (x : S → Rigid3) : Graph N S where
  nodes := g.nodes
  specs := g.nodes.map fun e => (e.1, respec e.2)
  locals := g.locals
  poses := g.locals.map fun e => (e.1, project2D (((SMap.get? e.1 g.shown).map embed3D).getD (x e.1)))
  shown := g.locals.map fun e => (e.1, project2D (((SMap.get? e.1 g.shown).map embed3D).getD (x e.1)))
  constraints := g.constraints

theorem sorted_split {K V : Type} [LinearOrder K] {a b : List (K × V)} {e : K × V} (h : SMap.Sorted (a ++ e :: b)) : SMap.get? e.1 a = none := by
  rw [SMap.get?_eq_none]
  intro x hx
  unfold SMap.Sorted at h
  rw [List.pairwise_append] at h
  exact ne_of_lt (h.2.2 x hx e (by simp))

/-- Entries that come in order are appended. -/
theorem put_last {K V : Type} [LinearOrder K] {k : K} {v : V} {a : List (K × V)} (h : SMap.Sorted (a ++ [(k, v)])) :
    SMap.put k v a = a ++ [(k, v)] := by
  have ha : SMap.Sorted a := List.Pairwise.sublist (List.sublist_append_left _ _) h
  refine SMap.ext (SMap.sorted_put ha) h fun k' => ?_
  rw [SMap.get?_put]
  have key : ∀ l : List (K × V), SMap.get? k' (l ++ [(k, v)]) = (SMap.get? k' l).or (if k = k' then some v else none) := by
    intro l
    induction l with
    | nil => simp [SMap.get?]
    | cons e l ih =>
      obtain ⟨k'', v''⟩ := e
      simp only [List.cons_append, SMap.get?]
      split
      · rfl
      · exact ih
  rw [key]
  by_cases hk : k = k'
  · subst hk
    rw [if_pos rfl, if_pos rfl, sorted_split (e := (k, v)) h]
    rfl
  · rw [if_neg hk, if_neg hk]
    simp

theorem load_submaps {g : Graph N S} (x : S → Rigid3) : ∀ (rest done : List (S × Rigid3)), SMap.Sorted (done ++ rest) →
    each loadSubmap ⟨[], [], done, done.map fun e => (e.1, project2D (((SMap.get? e.1 g.shown).map embed3D).getD (x e.1))),
      done.map fun e => (e.1, project2D (((SMap.get? e.1 g.shown).map embed3D).getD (x e.1))), []⟩
      (rest.map (exportSubmap g x)) = some (⟨[], [], done ++ rest,
        (done ++ rest).map fun e => (e.1, project2D (((SMap.get? e.1 g.shown).map embed3D).getD (x e.1))),
        (done ++ rest).map fun e => (e.1, project2D (((SMap.get? e.1 g.shown).map embed3D).getD (x e.1))), []⟩ : Graph N S) := by
  intro rest
  induction rest with
  | nil => intro done _; simp [each]
  | cons e rest ih =>
    intro done h
    obtain ⟨s, l⟩ := e
    have hx : exportSubmap g x (s, l) = (s, l, ((SMap.get? s g.shown).map embed3D).getD (x s)) := by
      unfold exportSubmap
      split <;> next h => simp only at h; rw [h]; rfl
    have h1 : SMap.Sorted (done ++ [(s, l)]) := by
      refine List.Pairwise.sublist ?_ h
      exact List.Sublist.append_left (by simp) _
    have h2 : SMap.Sorted ((done ++ [(s, l)]).map fun e => (e.1, project2D (((SMap.get? e.1 g.shown).map embed3D).getD (x e.1)))) :=
      sorted_mapv (fun s _ => project2D (((SMap.get? s g.shown).map embed3D).getD (x s))) h1
    rw [List.map_append] at h2
    have e1 := sorted_split (e := (s, l)) h
    have := ih (done ++ [(s, l)]) (by simpa using h)
    rw [List.map_cons, each, hx, loadSubmap]
    dsimp only at e1 ⊢
    rw [e1]
    dsimp only
    rw [Option.bind_some, put_last h1, put_last h2, ← List.map_singleton (f := fun e : S × Rigid3 => (e.1, project2D (((SMap.get? e.1 g.shown).map embed3D).getD (x e.1)))) (a := (s, l)), ← List.map_append, this]
    simp

theorem load_nodes {g : Graph N S} : ∀ (rest done : List (N × Node)), SMap.Sorted (done ++ rest) →
    each loadNode { g with nodes := done, specs := done.map fun e => (e.1, respec e.2) }
      (rest.map fun e => (e.1, e.2.data, e.2.globalPose)) =
      some { g with nodes := done ++ rest, specs := (done ++ rest).map fun e => (e.1, respec e.2) } := by
  intro rest
  induction rest with
  | nil => intro done _; simp [each]
  | cons e rest ih =>
    intro done h
    obtain ⟨n, a⟩ := e
    have h1 : SMap.Sorted (done ++ [(n, a)]) := by
      refine List.Pairwise.sublist ?_ h
      exact List.Sublist.append_left (by simp) _
    have h2 : SMap.Sorted ((done ++ [(n, a)]).map fun e => (e.1, respec e.2)) := sorted_mapv (fun _ a => respec a) h1
    rw [List.map_append] at h2
    have e1 := sorted_split (e := (n, a)) h
    have := ih (done ++ [(n, a)]) (by simpa using h)
    rw [List.map_cons, each, loadNode]
    dsimp only at e1 ⊢
    rw [e1]
    dsimp only
    have hp : SMap.put n (respec a) (done.map fun e => (e.1, respec e.2)) = (done ++ [(n, a)]).map fun e => (e.1, respec e.2) := by
      rw [put_last h2, List.map_append]
      rfl
    rw [Option.bind_some, show (⟨a.data, a.globalPose⟩ : Node) = a from rfl, put_last h1]
    unfold respec at hp this ⊢
    rw [hp, this]
    simp

/-- The gravity alignment is divided out of every constraint it was multiplied to. -/
theorem load_constraints {g : Graph N S} (h : Inv g) (b : Graph N S) (hn : b.nodes = g.nodes) (hl : b.locals = g.locals) :
    ∀ (rest done cs : List (Constraint N S)), g.constraints = done ++ rest → allOf (exportConstraint g) rest = some cs →
    each loadConstraint { b with constraints := done } cs = some { b with constraints := done ++ rest } := by
  intro rest
  induction rest with
  | nil =>
    intro done cs _ hcs
    rw [allOf, Option.some.injEq] at hcs
    subst hcs
    simp [each]
  | cons c rest ih =>
    intro done cs hg hcs
    simp only [allOf, Option.bind_eq_bind, Option.bind_eq_some_iff, Option.some.injEq, exportConstraint, Option.map_eq_some_iff] at hcs
    obtain ⟨c', ⟨a, ha, rfl⟩, cs, hcs, rfl⟩ := hcs
    obtain ⟨-, c2, p, hz⟩ := h.constraints c (by rw [hg]; simp)
    obtain ⟨l, hl'⟩ := Option.isSome_iff_exists.1 c2
    have hmem : (c.intra && isMember { b with constraints := done } { c with zbar := c.zbar.mul (rotation a.data.gravity) }) = false := by
      rw [Bool.and_eq_false_iff]
      by_cases hi : c.intra = true
      · right
        unfold isMember
        rw [List.any_eq_false]
        intro d hd
        simp only [Bool.and_eq_true, decide_eq_true_eq, not_and]
        intro ⟨hdi, hds⟩ hdn
        have hnd := h.intra
        rw [hg, intraPairs_append, List.nodup_append] at hnd
        refine hnd.2.2 (d.submap, d.node) ?_ (c.submap, c.node) ?_ (by rw [hds, hdn])
        · simp only [intraPairs, List.mem_map, List.mem_filter]
          exact ⟨d, ⟨hd, hdi⟩, rfl⟩
        · simp [intraPairs, hi]
      · left; simpa using hi
    have hload : loadConstraint { b with constraints := done } { c with zbar := c.zbar.mul (rotation a.data.gravity) } =
        some { b with constraints := done ++ [c] } := by
      unfold loadConstraint
      simp only [hn, hl, Option.bind_eq_bind]
      rw [ha, Option.bind_some, hl', Option.bind_some]
      simp only [hn, hl] at hmem
      rw [if_neg (by rw [hmem]; simp)]
      have hzz : (c.zbar.mul (rotation a.data.gravity)).mul (rotation (Imu.inverseQuat a.data.gravity)) = c.zbar := by
        rw [hz]
        exact align_cancel (proper_embed3D p) (h.gravity _ _ ha)
      rw [hzz]
    rw [each, hload, Option.bind_some, ih (done ++ [c]) cs (by rw [hg]; simp) hcs]
    simp

theorem load_save {g : Graph N S} (h : Inv g) (x : S → Rigid3) : ∃ f, save g x = some f ∧ load f = some (reloaded g x) := by
  have hex : ∃ cs, allOf (exportConstraint g) g.constraints = some cs := by
    have : ∀ l : List (Constraint N S), (∀ c ∈ l, (SMap.get? c.node g.nodes).isSome) → ∃ cs, allOf (exportConstraint g) l = some cs := by
      intro l
      induction l with
      | nil => intro _; exact ⟨[], rfl⟩
      | cons c l ih =>
        intro hl
        obtain ⟨cs, hcs⟩ := ih fun c hc => hl c (by simp [hc])
        obtain ⟨a, ha⟩ := Option.isSome_iff_exists.1 (hl c (by simp))
        refine ⟨{ c with zbar := c.zbar.mul (rotation a.data.gravity) } :: cs, ?_⟩
        rw [allOf, exportConstraint, ha, hcs]
        rfl
    exact this _ fun c hc => (h.constraints c hc).1
  obtain ⟨cs, hcs⟩ := hex
  refine ⟨⟨g.nodes.map fun e => (e.1, e.2.data, e.2.globalPose), g.locals.map (exportSubmap g x), cs⟩, ?_, ?_⟩
  · unfold save
    rw [hcs]
    rfl
  · have e1 := load_submaps (g := g) x g.locals [] (by simpa using h.locals)
    simp only [List.map_nil, List.nil_append] at e1
    have e2 := load_nodes (g := (⟨[], [], g.locals, (reloaded g x).poses, (reloaded g x).shown, []⟩ : Graph N S)) g.nodes [] (by simpa using h.nodes)
    simp only [List.map_nil, List.nil_append] at e2
    have e3 := load_constraints h (reloaded g x) rfl rfl g.constraints [] cs rfl hcs
    simp only [List.nil_append] at e3
    unfold load
    simp only [Option.bind_eq_bind]
    unfold Graph.empty
    rw [e1, Option.bind_some]
    unfold reloaded at e2 e3
    dsimp only at e2 e3
    rw [e2, Option.bind_some, e3]
    rfl

theorem inv_reloaded {g : Graph N S} (h : Inv g) (x : S → Rigid3) : Inv (reloaded g x) := by
  have hp := sorted_mapv (fun s (_ : Rigid3) => project2D (((SMap.get? s g.shown).map embed3D).getD (x s))) h.locals
  refine ⟨h.nodes, sorted_mapv (fun _ a => respec a) h.nodes, h.locals, hp, hp, ?_, ?_, h.gravity, ?_, h.constraints, h.intra⟩
  · intro n
    show (SMap.get? n (g.nodes.map fun e => (e.1, respec e.2))).isSome = _
    rw [get?_mapv (fun _ a => respec a), Option.isSome_map]
    rfl
  · intro n a b ha hb
    change SMap.get? n (g.nodes.map fun e => (e.1, respec e.2)) = some b at hb
    change SMap.get? n g.nodes = some a at ha
    rw [get?_mapv (fun _ a => respec a), ha] at hb
    simp only [Option.map_some, Option.some.injEq] at hb
    subst hb
    exact ⟨rfl, rfl, rfl⟩
  · intro s
    show (SMap.get? s (g.locals.map fun e => (e.1, project2D (((SMap.get? e.1 g.shown).map embed3D).getD (x e.1))))).isSome = _
    rw [get?_mapv (fun s (_ : Rigid3) => project2D (((SMap.get? s g.shown).map embed3D).getD (x s))), Option.isSome_map]
    rfl

theorem inv_reach {g : Graph N S} (h : Reach g) : Inv g := by
  induction h with
  | empty => exact inv_empty
  | submap _ e ih => exact inv_addSubmap ih e
  | node _ hq hnd e ih => exact inv_addNode ih hq hnd e
  | loopClosure _ e ih => exact inv_addLoopClosure ih e
  | optimized f s _ ih => exact inv_optimize ih f s
  | trimmed f s _ ih => exact inv_trim ih f s
  | @loaded g g' f x _ e1 e2 ih =>
    obtain ⟨f', h1, h2⟩ := load_save ih x
    rw [e1, Option.some.injEq] at h1
    subst h1
    rw [e2, Option.some.injEq] at h2
    subst h2
    exact inv_reloaded ih x

/-- Of every graph, after any number of nodes, submaps, loop closures, optimizations, deletions and reloads: saving does not abort, the
file can be loaded, and nodes, submaps and all constraints are exactly those of before, as is what the optimization uses of the
nodes, except for their global poses. -/
theorem saved_and_loaded {g : Graph N S} (h : Reach g) (x : S → Rigid3) : ∃ f g', save g x = some f ∧ load f = some g' ∧
    g'.nodes = g.nodes ∧ g'.locals = g.locals ∧ g'.constraints = g.constraints ∧ g'.shown = g'.poses ∧
    (∀ s, (SMap.get? s g'.poses).isSome = (SMap.get? s g.poses).isSome) ∧
    ∀ n, (SMap.get? n g'.specs).map (fun b => (b.time, b.localPose, b.gravity)) = (SMap.get? n g.specs).map fun b => (b.time, b.localPose, b.gravity) := by
  have hi := inv_reach h
  obtain ⟨f, h1, h2⟩ := load_save hi x
  refine ⟨f, _, h1, h2, rfl, rfl, rfl, rfl, fun s => ?_, fun n => ?_⟩
  · rw [(inv_reloaded hi x).keys, hi.keys]
    rfl
  · show (SMap.get? n (g.nodes.map fun e => (e.1, respec e.2))).map _ = _
    rw [get?_mapv (fun _ a => respec a)]
    have hb := hi.both n
    cases ha : SMap.get? n g.nodes with
    | none =>
      rw [ha, Option.isSome_none, Option.isSome_eq_false_iff, Option.isNone_iff_eq_none] at hb
      rw [hb]
      rfl
    | some a =>
      rw [ha, Option.isSome_some, Option.isSome_iff_exists] at hb
      obtain ⟨b, hb⟩ := hb
      obtain ⟨f1, f2, f3⟩ := hi.fits n a b ha hb
      rw [hb]
      simp only [Option.map_some, respec, f1, f2, f3]

/-! ### The optimization problem -/

/-- Whether an angle is a full turn more or less does not matter for the cost. -/
theorem normalize_turn {d e : ℝ} {k : ℤ} (h : d - e = 2 * Real.pi * k) : normalizeAngle d ^ 2 = normalizeAngle e ^ 2 := by
  obtain ⟨⟨i, hi⟩, i1, i2⟩ := normalize_range d
  obtain ⟨⟨j, hj⟩, j1, j2⟩ := normalize_range e
  have hp := Real.pi_pos
  have hm : normalizeAngle d - normalizeAngle e = 2 * Real.pi * ((k - i + j : ℤ) : ℝ) := by
    rw [hi, hj]
    push_cast
    linarith
  generalize k - i + j = m at hm
  rcases lt_trichotomy m 0 with hlt | rfl | hgt
  · have : (m : ℝ) ≤ -1 := by exact_mod_cast (by omega : m ≤ -1)
    have a : normalizeAngle d = -Real.pi := by nlinarith
    have b : normalizeAngle e = Real.pi := by nlinarith
    rw [a, b]
    ring
  · have : normalizeAngle d = normalizeAngle e := by simpa [sub_eq_zero] using hm
    rw [this]
  · have : (1 : ℝ) ≤ (m : ℝ) := by exact_mod_cast (by omega : 1 ≤ m)
    have a : normalizeAngle d = Real.pi := by nlinarith
    have b : normalizeAngle e = -Real.pi := by nlinarith
    rw [a, b]
    ring

/-- The sum of squares of the residuals of one constraint (optimization_problem_2d.cc:240-263 without the loss function). -/
noncomputable def cost (zbar : Rigid2) (tw rw : ℝ) (a b : Rigid2) : ℝ :=
  (spa2 zbar tw rw a b).x ^ 2 + (spa2 zbar tw rw a b).y ^ 2 + (spa2 zbar tw rw a b).z ^ 2

theorem cost_same {a a' b b' : Rigid2} (ha : Same2 a' a) (hb : Same2 b' b) (zbar : Rigid2) (tw rw : ℝ) : cost zbar tw rw a' b' = cost zbar tw rw a b := by
  rw [same2_iff] at ha hb
  obtain ⟨at', k, hk⟩ := ha
  obtain ⟨bt, m, hm⟩ := hb
  have hc : Real.cos a'.angle = Real.cos a.angle := by
    rw [show a'.angle = a.angle + k * (2 * Real.pi) by linarith, Real.cos_add_int_mul_two_pi]
  have hs : Real.sin a'.angle = Real.sin a.angle := by
    rw [show a'.angle = a.angle + k * (2 * Real.pi) by linarith, Real.sin_add_int_mul_two_pi]
  have hz := normalize_turn (d := zbar.angle - (b'.angle - a'.angle)) (e := zbar.angle - (b.angle - a.angle)) (k := k - m) (by push_cast; linarith)
  unfold cost spa2 scaleError2 unscaledError2
  dsimp only
  rw [at', bt, hc, hs, mul_pow (normalizeAngle _) rw, mul_pow (normalizeAngle _) rw, hz]

/-- The cost of a constraint in a graph. -/
noncomputable def costOf (g : Graph N S) (c : Constraint N S) : Option ℝ := do
  let p ← SMap.get? c.submap g.poses
  let b ← SMap.get? c.node g.specs
  some (cost (project2D c.zbar) c.translationWeight c.rotationWeight p b.globalPose)

theorem same2_project (p : Rigid2) : Same2 (project2D (embed3D p)) p := project2D_embed3D_apply p

/-- After an optimization the loaded graph has every node and every submap at the same place, and every constraint has the same
cost. -/
theorem same_problem {g : Graph N S} (h : Reach g) (hs : Shown g) (x : S → Rigid3) : ∃ f g', save g x = some f ∧ load f = some g' ∧
    (∀ n b, SMap.get? n g.specs = some b → ∃ b', SMap.get? n g'.specs = some b' ∧ Same2 b'.globalPose b.globalPose) ∧
    (∀ s p, SMap.get? s g.poses = some p → ∃ p', SMap.get? s g'.poses = some p' ∧ Same2 p' p) ∧
    g'.constraints.map (costOf g') = g.constraints.map (costOf g) ∧ ∀ c ∈ g.constraints, (costOf g c).isSome := by
  have hi := inv_reach h
  obtain ⟨f, h1, h2⟩ := load_save hi x
  have hnode : ∀ n b, SMap.get? n g.specs = some b → ∃ b', SMap.get? n (reloaded g x).specs = some b' ∧ Same2 b'.globalPose b.globalPose := by
    intro n b hb
    have hbo := hi.both n
    rw [hb, Option.isSome_some] at hbo
    obtain ⟨a, ha⟩ := Option.isSome_iff_exists.1 hbo.symm
    refine ⟨respec a, ?_, ?_⟩
    · show SMap.get? n (g.nodes.map fun e => (e.1, respec e.2)) = _
      rw [get?_mapv (fun _ a => respec a), ha]
      rfl
    · show Same2 (flatten a.data.gravity a.globalPose) _
      unfold flatten
      rw [hs.nodes n a b ha hb, align_cancel (proper_embed3D _) (hi.gravity n a ha)]
      exact same2_project _
  have hsub : ∀ s p, SMap.get? s g.poses = some p → ∃ p', SMap.get? s (reloaded g x).poses = some p' ∧ Same2 p' p := by
    intro s p hp
    have hk := hi.keys s
    rw [hp, Option.isSome_some] at hk
    obtain ⟨l, hl⟩ := Option.isSome_iff_exists.1 hk.symm
    refine ⟨project2D (embed3D p), ?_, same2_project p⟩
    show SMap.get? s (g.locals.map fun e => (e.1, project2D (((SMap.get? e.1 g.shown).map embed3D).getD (x e.1)))) = _
    rw [get?_mapv (fun s (_ : Rigid3) => project2D (((SMap.get? s g.shown).map embed3D).getD (x s))), hl, hs.submaps, hp]
    rfl
  have hboth : ∀ c ∈ g.constraints, ∃ p b, SMap.get? c.submap g.poses = some p ∧ SMap.get? c.node g.specs = some b := by
    intro c hc
    obtain ⟨c1, c2, -⟩ := hi.constraints c hc
    rw [← hi.both] at c1
    rw [← hi.keys] at c2
    obtain ⟨p, hp⟩ := Option.isSome_iff_exists.1 c2
    obtain ⟨b, hb⟩ := Option.isSome_iff_exists.1 c1
    exact ⟨p, b, hp, hb⟩
  refine ⟨f, _, h1, h2, hnode, hsub, ?_, ?_⟩
  · show g.constraints.map _ = _
    refine List.map_congr_left fun c hc => ?_
    obtain ⟨p, b, hp, hb⟩ := hboth c hc
    obtain ⟨p', hp', sp⟩ := hsub _ p hp
    obtain ⟨b', hb', sb⟩ := hnode _ b hb
    simp only [costOf, Option.bind_eq_bind]
    rw [hp, hb, hp', hb']
    simp only [Option.bind_some, Option.some.injEq]
    exact cost_same sp sb _ _ _
  · intro c hc
    obtain ⟨p, b, hp, hb⟩ := hboth c hc
    simp only [costOf, Option.bind_eq_bind]
    rw [hp, hb]
    rfl

/-- `RunOptimization` establishes what `same_problem` asks for, and trimming keeps it. -/
theorem shown_trim {g : Graph N S} (hs : Shown g) (nodes submaps) : Shown (trim g nodes submaps) := by
  refine ⟨?_, fun n a b ha hb => ?_⟩
  · show g.shown.filter _ = g.poses.filter _
    rw [hs.submaps]
  · have h1 := get?_filter (fun k => decide (k ∉ nodes)) n g.nodes
    have h2 := get?_filter (fun k => decide (k ∉ nodes)) n g.specs
    change SMap.get? n (g.nodes.filter fun e => decide (e.1 ∉ nodes)) = some a at ha
    change SMap.get? n (g.specs.filter fun e => decide (e.1 ∉ nodes)) = some b at hb
    rw [h1] at ha
    rw [h2] at hb
    split at ha
    · next hc => rw [if_pos hc] at hb; exact hs.nodes n a b ha hb
    · cases ha

theorem project2D_twice (r : Rigid3) : project2D (embed3D (project2D r)) = project2D r :=
  project2D_embed3D (Complex.arg_mem_Ioc _)

/-- A graph that was loaded is not changed by saving and loading it again, and the file has the same nodes and constraints. -/
theorem reload_stable {g g' : Graph N S} {f : File N S} {x : S → Rigid3} (h : Reach g) (h1 : save g x = some f) (h2 : load f = some g')
    (y : S → Rigid3) : ∃ f', save g' y = some f' ∧ load f' = some g' ∧ f'.nodes = f.nodes ∧ f'.constraints = f.constraints := by
  have hi := inv_reach h
  obtain ⟨f1, e1, e2⟩ := load_save hi x
  rw [h1, Option.some.injEq] at e1
  subst e1
  rw [h2, Option.some.injEq] at e2
  subst e2
  obtain ⟨f', e3, e4⟩ := load_save (inv_reloaded hi x) y
  have hsame : reloaded (reloaded g x) y = reloaded g x := by
    have hp : (g.locals.map fun e => (e.1, project2D (((SMap.get? e.1 (reloaded g x).shown).map embed3D).getD (y e.1)))) =
        g.locals.map fun e => (e.1, project2D (((SMap.get? e.1 g.shown).map embed3D).getD (x e.1))) := by
      refine List.map_congr_left fun e he => ?_
      have : SMap.get? e.1 (reloaded g x).shown = some (project2D (((SMap.get? e.1 g.shown).map embed3D).getD (x e.1))) := by
        show SMap.get? e.1 (g.locals.map fun e => (e.1, project2D (((SMap.get? e.1 g.shown).map embed3D).getD (x e.1)))) = _
        rw [get?_mapv (fun s (_ : Rigid3) => project2D (((SMap.get? s g.shown).map embed3D).getD (x s))), SMap.get?_of_mem hi.locals he]
        rfl
      rw [this]
      simp only [Option.map_some, Option.getD_some, project2D_twice]
    have : reloaded (reloaded g x) y = ⟨g.nodes, g.nodes.map fun e => (e.1, respec e.2), g.locals,
        g.locals.map fun e => (e.1, project2D (((SMap.get? e.1 (reloaded g x).shown).map embed3D).getD (y e.1))),
        g.locals.map fun e => (e.1, project2D (((SMap.get? e.1 (reloaded g x).shown).map embed3D).getD (y e.1))), g.constraints⟩ := rfl
    rw [this, hp]
    rfl
  rw [hsame] at e4
  refine ⟨f', e3, e4, ?_⟩
  simp only [save, Option.bind_eq_bind, Option.bind_eq_some_iff, Option.some.injEq] at h1 e3
  obtain ⟨c1, hc1, rfl⟩ := h1
  obtain ⟨c2, hc2, rfl⟩ := e3
  have hx : exportConstraint (reloaded g x) = exportConstraint g := rfl
  rw [hx] at hc2
  change allOf (exportConstraint g) g.constraints = some c2 at hc2
  rw [hc1, Option.some.injEq] at hc2
  subst hc2
  exact ⟨rfl, rfl⟩

/-! ### Which files can be loaded -/

theorem each_submaps : ∀ (l : List (S × Rigid3 × Rigid3)) (g : Graph N S),
    ((each loadSubmap g l).isSome ↔ (l.map fun e => e.1).Nodup ∧ ∀ e ∈ l, SMap.get? e.1 g.locals = none) ∧
    ∀ g', each loadSubmap g l = some g' → g'.nodes = g.nodes ∧ g'.constraints = g.constraints ∧
      ∀ s, (SMap.get? s g'.locals).isSome ↔ s ∈ l.map (fun e => e.1) ∨ (SMap.get? s g.locals).isSome := by
  intro l
  induction l with
  | nil => intro g; simp [each]
  | cons e l ih =>
    intro g
    rw [each, loadSubmap]
    cases hg : SMap.get? e.1 g.locals with
    | some v => simp [hg]
    | none =>
      simp only [Option.bind_some]
      obtain ⟨i1, i2⟩ := ih { g with locals := SMap.put e.1 e.2.1 g.locals, poses := SMap.put e.1 (project2D e.2.2) g.poses, shown := SMap.put e.1 (project2D e.2.2) g.shown }
      refine ⟨?_, fun g' hg' => ?_⟩
      · rw [i1]
        simp only [List.map_cons, List.nodup_cons, List.mem_cons, forall_eq_or_imp, SMap.get?_put]
        constructor
        · rintro ⟨n1, n2⟩
          refine ⟨⟨?_, n1⟩, hg, fun a ha => ?_⟩
          · intro hm
            obtain ⟨a, ha, hae⟩ := List.mem_map.1 hm
            have := n2 a ha
            rw [if_pos hae.symm] at this
            cases this
          · have := n2 a ha
            split at this
            · cases this
            · exact this
        · rintro ⟨⟨n0, n1⟩, -, n2⟩
          refine ⟨n1, fun a ha => ?_⟩
          rw [if_neg fun he => n0 (List.mem_map.2 ⟨a, ha, he.symm⟩)]
          exact n2 a ha
      · obtain ⟨j1, j2, j3⟩ := i2 g' hg'
        refine ⟨j1, j2, fun s => ?_⟩
        rw [j3 s]
        simp only [SMap.get?_put, List.map_cons, List.mem_cons]
        by_cases hs : e.1 = s
        · simp [hs]
        · rw [if_neg hs]
          have : s ≠ e.1 := fun h => hs h.symm
          simp [this]

theorem each_nodes : ∀ (l : List (N × NodeData × Rigid3)) (g : Graph N S),
    ((each loadNode g l).isSome ↔ (l.map fun e => e.1).Nodup ∧ ∀ e ∈ l, SMap.get? e.1 g.nodes = none) ∧
    ∀ g', each loadNode g l = some g' → g'.locals = g.locals ∧ g'.constraints = g.constraints ∧
      ∀ s, (SMap.get? s g'.nodes).isSome ↔ s ∈ l.map (fun e => e.1) ∨ (SMap.get? s g.nodes).isSome := by
  intro l
  induction l with
  | nil => intro g; simp [each]
  | cons e l ih =>
    intro g
    rw [each, loadNode]
    cases hg : SMap.get? e.1 g.nodes with
    | some v => simp [hg]
    | none =>
      simp only [Option.bind_some]
      obtain ⟨i1, i2⟩ := ih { g with
        nodes := SMap.put e.1 ⟨e.2.1, e.2.2⟩ g.nodes
        specs := SMap.put e.1 ⟨e.2.1.time, flatten e.2.1.gravity e.2.1.localPose, flatten e.2.1.gravity e.2.2, e.2.1.gravity⟩ g.specs }
      refine ⟨?_, fun g' hg' => ?_⟩
      · rw [i1]
        simp only [List.map_cons, List.nodup_cons, List.mem_cons, forall_eq_or_imp, SMap.get?_put]
        constructor
        · rintro ⟨n1, n2⟩
          refine ⟨⟨?_, n1⟩, hg, fun a ha => ?_⟩
          · intro hm
            obtain ⟨a, ha, hae⟩ := List.mem_map.1 hm
            have := n2 a ha
            rw [if_pos hae.symm] at this
            cases this
          · have := n2 a ha
            split at this
            · cases this
            · exact this
        · rintro ⟨⟨n0, n1⟩, -, n2⟩
          refine ⟨n1, fun a ha => ?_⟩
          rw [if_neg fun he => n0 (List.mem_map.2 ⟨a, ha, he.symm⟩)]
          exact n2 a ha
      · obtain ⟨j1, j2, j3⟩ := i2 g' hg'
        refine ⟨j1, j2, fun s => ?_⟩
        rw [j3 s]
        simp only [SMap.get?_put, List.map_cons, List.mem_cons]
        by_cases hs : e.1 = s
        · simp [hs]
        · rw [if_neg hs]
          have : s ≠ e.1 := fun h => hs h.symm
          simp [this]

theorem each_constraints : ∀ (l : List (Constraint N S)) (g : Graph N S), (intraPairs g.constraints).Nodup →
    ((each loadConstraint g l).isSome ↔ (∀ c ∈ l, (SMap.get? c.node g.nodes).isSome ∧ (SMap.get? c.submap g.locals).isSome) ∧
      (intraPairs (g.constraints ++ l)).Nodup) := by
  intro l
  induction l with
  | nil => intro g h; simpa [each] using h
  | cons c l ih =>
    intro g h
    have hlc : loadConstraint g c = (SMap.get? c.node g.nodes).bind fun n => (SMap.get? c.submap g.locals).bind fun _ =>
        if c.intra && isMember g c then none
        else some { g with constraints := g.constraints ++ [{ c with zbar := c.zbar.mul (rotation (Imu.inverseQuat n.data.gravity)) }] } := rfl
    rw [each, hlc]
    cases hn : SMap.get? c.node g.nodes with
    | none => simp [hn]
    | some a =>
      cases hl : SMap.get? c.submap g.locals with
      | none => simp [hl]
      | some l' =>
        simp only [Option.bind_some]
        have hmem : isMember g c = true ↔ (c.submap, c.node) ∈ intraPairs g.constraints := by
          simp only [isMember, List.any_eq_true, Bool.and_eq_true, decide_eq_true_eq, intraPairs, List.mem_map, List.mem_filter, Prod.mk.injEq]
          constructor
          · rintro ⟨d, hd, ⟨h1, h2⟩, h3⟩
            exact ⟨d, ⟨hd, h1⟩, h2, h3⟩
          · rintro ⟨d, ⟨hd, h1⟩, h2, h3⟩
            exact ⟨d, hd, ⟨h1, h2⟩, h3⟩
        have hsplit : ∀ z, intraPairs (g.constraints ++ [{ c with zbar := z }] ++ l) = intraPairs (g.constraints ++ c :: l) := by
          intro z
          simp [intraPairs, List.filter_cons]
          split <;> simp
        split
        · next hc =>
          rw [Bool.and_eq_true] at hc
          simp only [Option.bind_none, Option.isSome_none, Bool.false_eq_true, false_iff, not_and]
          intro _ hnd
          rw [intraPairs_append, List.nodup_append] at hnd
          refine hnd.2.2 _ (hmem.1 hc.2) (c.submap, c.node) ?_ rfl
          simp [intraPairs, hc.1]
        · next hc =>
          rw [Option.bind_some, ih]
          · show _ ∧ (intraPairs (g.constraints ++ [_] ++ l)).Nodup ↔ _
            rw [hsplit]
            simp only [List.mem_cons, forall_eq_or_imp, hn, hl, Option.isSome_some, true_and, and_self]
          · show (intraPairs (g.constraints ++ [_])).Nodup
            rw [intraPairs_append]
            by_cases hi : c.intra = true
            · have hm : isMember g c ≠ true := fun hm => hc (by rw [hi, hm]; rfl)
              rw [List.nodup_append]
              refine ⟨h, by simp [intraPairs, hi], ?_⟩
              intro x hx y hy hxy
              simp only [intraPairs, hi, List.filter_cons_of_pos, List.filter_nil, List.map_cons, List.map_nil, List.mem_singleton] at hy
              subst hxy
              subst hy
              exact hm (hmem.2 hx)
            · simpa [intraPairs, hi] using h

/-- A file can be loaded if and only if no identifier is twice in it, every constraint is between a node and a submap of the file, and
no node was inserted twice into the same submap. Otherwise the process aborts. -/
theorem load_iff (f : File N S) : (load f).isSome ↔ (f.submaps.map fun e => e.1).Nodup ∧ (f.nodes.map fun e => e.1).Nodup ∧
    (∀ c ∈ f.constraints, c.node ∈ f.nodes.map (fun e => e.1) ∧ c.submap ∈ f.submaps.map fun e => e.1) ∧ (intraPairs f.constraints).Nodup := by
  unfold load
  simp only [Option.bind_eq_bind]
  obtain ⟨s1, s2⟩ := each_submaps f.submaps (Graph.empty : Graph N S)
  have h0 : (∀ e ∈ f.submaps, SMap.get? e.1 (Graph.empty : Graph N S).locals = none) := fun _ _ => rfl
  cases e1 : each loadSubmap (Graph.empty : Graph N S) f.submaps with
  | none =>
    rw [e1] at s1
    simp only [Option.isSome_none, Bool.false_eq_true, false_iff, not_and] at s1
    simp only [Option.bind_none, Option.isSome_none, Bool.false_eq_true, false_iff, not_and]
    intro h
    exact absurd h0 (s1 h)
  | some g1 =>
    rw [e1] at s1
    have hs := (s1.1 rfl).1
    obtain ⟨a1, a2, a3⟩ := s2 g1 e1
    obtain ⟨n1, n2⟩ := each_nodes f.nodes g1
    have h1 : (∀ e ∈ f.nodes, SMap.get? e.1 g1.nodes = none) := fun _ _ => by rw [a1]; rfl
    rw [Option.bind_some]
    cases e2 : each loadNode g1 f.nodes with
    | none =>
      rw [e2] at n1
      simp only [Option.isSome_none, Bool.false_eq_true, false_iff, not_and] at n1
      simp only [Option.bind_none, Option.isSome_none, Bool.false_eq_true, false_iff, not_and]
      intro _ h
      exact absurd h1 (n1 h)
    | some g2 =>
      rw [e2] at n1
      have hn := (n1.1 rfl).1
      obtain ⟨b1, b2, b3⟩ := n2 g2 e2
      have hc0 : g2.constraints = [] := by rw [b2, a2]; rfl
      rw [Option.bind_some, each_constraints _ _ (by rw [hc0]; simp [intraPairs]), hc0, List.nil_append]
      have k1 : ∀ n, (SMap.get? n g2.nodes).isSome ↔ n ∈ f.nodes.map fun e => e.1 := by
        intro n
        rw [b3, a1]
        simp [Graph.empty, SMap.get?]
      have k2 : ∀ s, (SMap.get? s g2.locals).isSome ↔ s ∈ f.submaps.map fun e => e.1 := by
        intro s
        rw [b1, a3]
        simp [Graph.empty, SMap.get?]
      simp only [k1, k2]
      exact ⟨fun h => ⟨hs, hn, h⟩, fun h => h.2.2⟩

/-! ### Examples -/

/-- A node whose gravity alignment is a quarter turn around the first axis and not of norm one. -/
noncomputable def tilted : NodeData := ⟨10, ⟨2, 2, 0, 0⟩, ⟨⟨1, 2, 3⟩, ⟨1, 0, 0, 0⟩⟩⟩

noncomputable def graph1 : Graph Nat Nat := ⟨[], [], [(4, Rigid3.identity)], [(4, Rigid2.identity)], [], []⟩

noncomputable def graph2 : Graph Nat Nat where
  nodes := [(7, ⟨tilted, Rigid3.identity⟩)]
  specs := [(7, ⟨10, flatten tilted.gravity tilted.localPose,
    (Rigid2.identity.mul (project2D Rigid3.identity).inverse).mul (flatten tilted.gravity tilted.localPose), tilted.gravity⟩)]
  locals := [(4, Rigid3.identity)]
  poses := [(4, Rigid2.identity)]
  shown := []
  constraints := [⟨4, 7, embed3D ((project2D Rigid3.identity).inverse.mul (flatten tilted.gravity tilted.localPose)), 5, 6, true⟩]

noncomputable def graph3 : Graph Nat Nat :=
  { graph2 with constraints := graph2.constraints ++ [⟨4, 7, embed3D ⟨⟨1, 1⟩, 1⟩, 2, 3, false⟩] }

/-- A solution with an angle of three quarters of a turn. -/
noncomputable def graph4 : Graph Nat Nat := optimize graph3 (fun _ => ⟨⟨8, 9⟩, 1⟩) fun _ => ⟨⟨0, 0⟩, 3 * Real.pi / 2⟩

theorem reach4 : Reach graph4 ∧ Shown graph4 := by
  have r1 : Reach graph1 := .submap (s := 4) (l := Rigid3.identity) (p := Rigid2.identity) .empty rfl
  have r2 : Reach graph2 := .node (n := 7) (data := tilted) (shownAt := Rigid3.identity) (front := 4) (others := []) (w := (5, 6)) r1
    (by norm_num [tilted, Quat.normSq]) (by simp) rfl
  have r3 : Reach graph3 := .loopClosure (n := 7) (s := 4) (p := ⟨⟨1, 1⟩, 1⟩) (w := (2, 3)) r2 rfl
  exact ⟨.optimized _ _ r3, shown_optimize _ _⟩

/-- Both constraints, one of each kind, and the tilted node are saved and loaded. -/
example : ∃ f g', save graph4 (fun _ => Rigid3.identity) = some f ∧ load f = some g' ∧ g'.constraints = graph3.constraints ∧
    g'.constraints.length = 2 ∧ g'.nodes.length = 1 := by
  obtain ⟨f, g', h1, h2, h3, -, h5, -⟩ := saved_and_loaded reach4.1 fun _ => Rigid3.identity
  exact ⟨f, g', h1, h2, h5, by rw [h5]; rfl, by rw [h3]; rfl⟩

/-- The angles themselves are not kept: three quarters of a turn to the left become a quarter to the right, so `same_problem` cannot say
that the loaded poses are equal. -/
theorem angle_wrapped : ∃ (g g' : Graph Nat Nat) (f : File Nat Nat) (x : Nat → Rigid3), Reach g ∧ Shown g ∧ save g x = some f ∧ load f = some g' ∧
    g'.poses ≠ g.poses := by
  obtain ⟨f, h1, h2⟩ := load_save (inv_reach reach4.1) fun _ => Rigid3.identity
  refine ⟨graph4, _, f, _, reach4.1, reach4.2, h1, h2, ?_⟩
  intro h
  have h4 : (reloaded graph4 fun _ => Rigid3.identity).poses = [(4, project2D (embed3D ⟨⟨0, 0⟩, 3 * Real.pi / 2⟩))] := rfl
  have h5 : graph4.poses = [(4, ⟨⟨0, 0⟩, 3 * Real.pi / 2⟩)] := rfl
  rw [h4, h5] at h
  simp only [List.cons.injEq, Prod.mk.injEq, and_true, true_and] at h
  have h6 : (project2D (embed3D ⟨⟨0, 0⟩, 3 * Real.pi / 2⟩)).angle ≤ Real.pi := (Complex.arg_mem_Ioc _).2
  rw [h] at h6
  have := Real.pi_pos
  simp only at h6
  linarith

/-- A file in which a node is twice in the same submap cannot be loaded. -/
example : load (⟨[(7, tilted, Rigid3.identity)], [(4, Rigid3.identity, Rigid3.identity)],
    [⟨4, 7, Rigid3.identity, 1, 1, true⟩, ⟨4, 7, Rigid3.identity, 1, 1, true⟩]⟩ : File Nat Nat) = none := by
  rw [← Option.not_isSome_iff_eq_none, load_iff]
  rintro ⟨-, -, -, h⟩
  simp [intraPairs] at h

/-- A loop closure next to it can. -/
example : (load (⟨[(7, tilted, Rigid3.identity)], [(4, Rigid3.identity, Rigid3.identity)],
    [⟨4, 7, Rigid3.identity, 1, 1, true⟩, ⟨4, 7, Rigid3.identity, 1, 1, false⟩]⟩ : File Nat Nat)).isSome := by
  rw [load_iff]
  simp [intraPairs]

end Verif.SavedGraph
