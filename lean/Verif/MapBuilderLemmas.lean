import Verif.MapBuilder
import Verif.Props.Serialization
import Verif.Props.LateTrajectories

/-!
# The map builder: lemmas

Which trajectories the pose graph can know, and what loading any file yields.
-/

namespace Verif.MapBuilder

open PoseGraph (Act Item Trimmer Worker TrajState Constraint TrajectoryProto)
open MapById (Id Map at?)

variable {P O : Type}

/-! ### Trajectories of the pose graph -/

/-- The trajectories that a trimmer can add to those known. -/
def TrimmerIn (p : Int → Prop) : Trimmer → Prop
  | .pureLocalization t _ _ => p t
  | .other => True

/-- The trajectories that a work item can add. -/
def ItemIn (p : Int → Prop) : Item P → Prop
  | .finish t | .freeze t | .delete t => p t
  | .addTrimmer tr => TrimmerIn p tr
  | _ => True

/-- The trajectories that a call can add. -/
def ActIn (p : Int → Prop) : Act P → Prop
  | .addNode t _ _ | .deleteTrajectory t => p t
  | .addSubmapFromProto id _ | .addNodeFromProto id => p id.1
  | .post item => ItemIn p item
  | _ => True

/-- All trajectories the pose graph knows or will know. -/
structure Within (p : Int → Prop) (g : PoseGraph.State P) : Prop where
  trajs : ∀ e ∈ g.trajs, p e.1
  queue : ∀ i ∈ g.queue, ItemIn p i
  inflight : ∀ i ∈ g.inflight, ItemIn p i
  trimmers : ∀ t ∈ g.trimmers, TrimmerIn p t

theorem TrimmerIn.mono {p q : Int → Prop} (h : ∀ t, p t → q t) {tr : Trimmer} (ht : TrimmerIn p tr) : TrimmerIn q tr := by
  cases tr with
  | pureLocalization t k d => exact h _ ht
  | other => trivial

theorem ItemIn.mono {p q : Int → Prop} (h : ∀ t, p t → q t) {i : Item P} (hi : ItemIn p i) : ItemIn q i := by
  cases i with
  | finish t => exact h _ hi
  | freeze t => exact h _ hi
  | delete t => exact h _ hi
  | addTrimmer tr => exact TrimmerIn.mono h hi
  | _ => trivial

theorem ActIn.mono {p q : Int → Prop} (h : ∀ t, p t → q t) {a : Act P} (ha : ActIn p a) : ActIn q a := by
  cases a with
  | addNode t _ _ => exact h _ ha
  | deleteTrajectory t => exact h _ ha
  | addSubmapFromProto id _ => exact h _ ha
  | addNodeFromProto id => exact h _ ha
  | post item => exact ItemIn.mono h ha
  | _ => trivial

theorem Within.mono {p q : Int → Prop} (h : ∀ t, p t → q t) {g : PoseGraph.State P} (w : Within p g) : Within q g :=
  ⟨fun e he => h _ (w.trajs e he), fun i hi => (w.queue i hi).mono h, fun i hi => (w.inflight i hi).mono h, fun t ht => (w.trimmers t ht).mono h⟩

theorem put_in {V : Type} {p : Int → Prop} {l : List (Int × V)} {t : Int} {v : V} (h : ∀ e ∈ l, p e.1) (ht : p t) : ∀ e ∈ SMap.put t v l, p e.1 := by
  induction l with
  | nil =>
    intro e he
    simp only [SMap.put, List.mem_singleton] at he
    subst he
    exact ht
  | cons x l ih =>
    intro e he
    unfold SMap.put at he
    split at he
    · rcases List.mem_cons.1 he with rfl | he
      · exact ht
      · exact h e he
    · split at he
      · rcases List.mem_cons.1 he with rfl | he
        · exact ht
        · exact h e (List.mem_cons_of_mem _ he)
      · rcases List.mem_cons.1 he with rfl | he
        · exact h _ List.mem_cons_self
        · exact ih (fun e he => h e (List.mem_cons_of_mem _ he)) e he

theorem addIfNeeded_in {p : Int → Prop} {l l' : List (Int × TrajState)} {t : Int} (h : ∀ e ∈ l, p e.1) (ht : p t) (ha : PoseGraph.addTrajectoryIfNeeded l t = some l') : ∀ e ∈ l', p e.1 := by
  unfold PoseGraph.addTrajectoryIfNeeded at ha
  simp only at ha
  split at ha
  · cases ha
  · split at ha
    · cases ha
    · split at ha
      · cases ha
      · obtain rfl := Option.some.inj ha
        exact put_in h ht

theorem mem_append_one {α : Type} {q : α → Prop} {l : List α} {x : α} (h : ∀ y ∈ l, q y) (hx : q x) : ∀ y ∈ l ++ [x], q y := by
  intro y hy
  rcases List.mem_append.1 hy with hy | hy
  · exact h y hy
  · rw [List.mem_singleton.1 hy]; exact hx

open PoseGraph in
theorem deleteTrajectories_within {p : Int → Prop} : ∀ {ts : List Int} {s s' : PoseGraph.State P}, Within p s → (∀ t ∈ ts, p t) → deleteTrajectories s ts = some s' → Within p s' := by
  intro ts
  induction ts with
  | nil => intro s s' w _ h; obtain rfl := Option.some.inj h; exact w
  | cons t ts ih =>
    intro s s' w ht h
    simp only [deleteTrajectories, Option.bind_eq_bind, Option.bind_eq_some_iff] at h
    obtain ⟨s1, h1, h2⟩ := h
    refine ih ?_ (fun t' ht' => ht t' (List.mem_cons_of_mem _ ht')) h2
    unfold deleteIfNeeded at h1
    split at h1
    · simp only [Option.bind_eq_bind, Option.bind_eq_some_iff, Option.some.injEq] at h1
      obtain ⟨s2, h3, rfl⟩ := h1
      obtain ⟨e1, e2, e3, e4⟩ := trimSubmaps_same h3
      refine ⟨put_in (by rw [e1]; exact w.trajs) (ht t List.mem_cons_self), ?_, ?_, ?_⟩
      · intro i hi; exact w.queue i (by simpa [e2, e3, e4] using hi)
      · intro i hi; exact w.inflight i (by simpa [e2, e3, e4] using hi)
      · intro i hi; exact w.trimmers i (by simpa [e2, e3, e4] using hi)
    · obtain rfl := Option.some.inj h1
      exact w

open PoseGraph in
theorem runTrimmers_within {p : Int → Prop} : ∀ {trs : List Trimmer} {s s' : PoseGraph.State P} {cs : List (List Id)} {trs' : List Trimmer}, Within p s → (∀ t ∈ trs, TrimmerIn p t) →
    runTrimmers s trs cs = some (s', trs') → Within p s' ∧ ∀ t ∈ trs', TrimmerIn p t := by
  intro trs
  induction trs with
  | nil =>
    intro s s' cs trs' w _ h
    simp only [runTrimmers, Option.some.injEq, Prod.mk.injEq] at h
    obtain ⟨rfl, rfl⟩ := h
    exact ⟨w, by simp⟩
  | cons tr trs ih =>
    intro s s' cs trs' w ht h
    simp only [runTrimmers, Option.bind_eq_bind, Option.bind_eq_some_iff] at h
    obtain ⟨⟨s1, tr1⟩, h1, ⟨s2, trs2⟩, h2, h3⟩ := h
    simp only [Option.some.injEq, Prod.mk.injEq] at h3
    obtain ⟨rfl, rfl⟩ := h3
    have hw : ∀ {s s1 : PoseGraph.State P}, SameT s s1 → Within p s → Within p s1 := by
      intro s s1 h w
      exact ⟨by rw [h.trajs]; exact w.trajs, by rw [h.queue]; exact w.queue, by rw [h.inflight]; exact w.inflight, by rw [h.trimmers]; exact w.trimmers⟩
    have key : Within p s1 ∧ TrimmerIn p tr1 := by
      have h0 := ht tr List.mem_cons_self
      cases tr with
      | pureLocalization t keep done =>
        obtain ⟨keep', s3, _, h4, h5⟩ := pureLocalizationTrim_inv h1
        have w3 := hw (trimSubmaps_same h4) w
        rcases h5 with ⟨_, rfl, rfl⟩ | ⟨_, rfl, rfl⟩
        · exact ⟨⟨put_in w3.trajs h0, w3.queue, w3.inflight, w3.trimmers⟩, h0⟩
        · exact ⟨w3, h0⟩
      | other =>
        simp only [runTrimmer, Option.bind_eq_bind, Option.bind_eq_some_iff, Option.some.injEq, Prod.mk.injEq] at h1
        obtain ⟨s3, h4, rfl, rfl⟩ := h1
        exact ⟨hw (trimSubmaps_same h4) w, trivial⟩
    obtain ⟨a, b⟩ := ih key.1 (fun t h => ht t (List.mem_cons_of_mem _ h)) h2
    refine ⟨a, ?_⟩
    intro t h
    rcases List.mem_cons.1 h with rfl | h
    · exact key.2
    · exact b t h

theorem SameT.within {p : Int → Prop} {s s1 : PoseGraph.State P} (h : PoseGraph.SameT s s1) (w : Within p s) : Within p s1 :=
  ⟨by rw [h.trajs]; exact w.trajs, by rw [h.queue]; exact w.queue, by rw [h.inflight]; exact w.inflight, by rw [h.trimmers]; exact w.trimmers⟩

open PoseGraph in
theorem runItem_within {p : Int → Prop} {s s' : PoseGraph.State P} {poses : List P} {item : Item P} (wf : Wf s) (w : Within p s) (hi : ItemIn p item)
    (h : runItem s poses item = some s') : Within p s' := by
  cases item with
  | computeConstraints node ins nf => exact SameT.within (computeConstraints_same wf h) w
  | data t =>
    simp only [runItem] at h
    split at h
    · obtain rfl := Option.some.inj h; exact w
    · cases h
  | finish t =>
    simp only [runItem, Option.bind_eq_bind, Option.bind_eq_some_iff, guard_some, Option.some.injEq] at h
    obtain ⟨_, h1, submaps, h2, rfl⟩ := h
    exact ⟨put_in w.trajs hi, w.queue, w.inflight, w.trimmers⟩
  | freeze t =>
    simp only [runItem, Option.bind_eq_bind, Option.bind_eq_some_iff, guard_some, Option.some.injEq] at h
    obtain ⟨_, h1, rfl⟩ := h
    exact ⟨put_in w.trajs hi, w.queue, w.inflight, w.trimmers⟩
  | delete t =>
    simp only [runItem, Option.bind_eq_bind, Option.bind_eq_some_iff, guard_some, Option.some.injEq] at h
    obtain ⟨x, h1, _, h2, _, h3, _, h4, rfl⟩ := h
    exact ⟨put_in w.trajs hi, w.queue, w.inflight, w.trimmers⟩
  | submapFromProto id =>
    simp only [runItem, Option.bind_eq_bind, Option.bind_eq_some_iff, Option.some.injEq] at h
    obtain ⟨submaps, h1, opt, h2, rfl⟩ := h
    exact ⟨w.trajs, w.queue, w.inflight, w.trimmers⟩
  | nodeFromProto id =>
    simp only [runItem, Option.bind_eq_bind, Option.bind_eq_some_iff, Option.some.injEq] at h
    obtain ⟨_, h1, opt, h2, rfl⟩ := h
    exact ⟨w.trajs, w.queue, w.inflight, w.trimmers⟩
  | nodeToSubmap node id =>
    simp only [runItem] at h
    split at h
    · simp only [Option.bind_eq_bind, Option.bind_eq_some_iff, Option.some.injEq] at h
      obtain ⟨sm, h3, submaps, h6, rfl⟩ := h
      exact ⟨w.trajs, w.queue, w.inflight, w.trimmers⟩
    · cases h
  | serialized cs => exact SameT.within (addSerializedAll_same h) w
  | addTrimmer tr =>
    simp only [runItem, Option.some.injEq] at h
    subst h
    exact ⟨w.trajs, w.queue, w.inflight, mem_append_one w.trimmers hi⟩

open PoseGraph in
/-- A step of the pose graph adds only trajectories that are named. -/
theorem step_within {p : Int → Prop} {s s' : PoseGraph.State P} {a : Act P} (wf : Wf s) (w : Within p s) (ha : ActIn p a) (he : PoseGraph.Enabled s a) (h : exec s a = some s') : Within p s' := by
  cases a with
  | addNode t ins nf =>
    obtain ⟨s1, id, h1, rfl⟩ := addNode_inv h
    obtain ⟨trajs, nodes, h0, -, h3⟩ := appendNode_inv h1
    rcases h3 with rfl | ⟨back, submaps, id', -, rfl⟩ <;>
      exact ⟨addIfNeeded_in w.trajs ha h0, w.queue, mem_append_one w.inflight trivial, w.trimmers⟩
  | addSubmapFromProto id ptr =>
    obtain ⟨trajs, submaps, h0, -, rfl⟩ := addSubmapFromProto_inv h
    exact ⟨addIfNeeded_in w.trajs ha h0, w.queue, mem_append_one w.inflight trivial, w.trimmers⟩
  | addNodeFromProto id =>
    obtain ⟨trajs, nodes, h0, -, rfl⟩ := addNodeFromProto_inv h
    exact ⟨addIfNeeded_in w.trajs ha h0, w.queue, mem_append_one w.inflight trivial, w.trimmers⟩
  | deleteTrajectory t =>
    simp only [exec, Option.some.injEq] at h
    subst h
    unfold deleteTrajectory
    cases hx : SMap.get? t s.trajs with
    | none => exact w
    | some x => exact ⟨put_in w.trajs ha, w.queue, mem_append_one w.inflight ha, w.trimmers⟩
  | post item =>
    simp only [exec, Option.some.injEq] at h
    subst h
    exact ⟨w.trajs, w.queue, mem_append_one w.inflight ha, w.trimmers⟩
  | enqueue k =>
    simp only [exec] at h
    split at h
    · cases h
    · rename_i item hk
      obtain rfl := Option.some.inj h
      exact ⟨w.trajs, mem_append_one w.queue (w.inflight _ (List.mem_of_getElem? hk)), fun i hi => w.inflight i (List.mem_of_mem_eraseIdx hi), w.trimmers⟩
  | run poses =>
    simp only [exec] at h
    split at h
    · cases h
    · rename_i item queue hq
      have wq := w.queue
      rw [hq] at wq
      exact runItem_within (s := { s with queue := queue }) ⟨wf.1, wf.2, wf.3, wf.4⟩ ⟨w.trajs, fun i hi => wq i (List.mem_cons_of_mem _ hi), w.inflight, w.trimmers⟩ (wq _ List.mem_cons_self) h
  | search how =>
    obtain ⟨⟨node, id⟩, todo, hw⟩ := he
    simp only [exec, hw] at h
    exact SameT.within (computeConstraint_same h) ⟨w.trajs, w.queue, w.inflight, w.trimmers⟩
  | endSearch =>
    simp only [exec, Option.some.injEq] at h
    subst h
    exact ⟨w.trajs, w.queue, w.inflight, w.trimmers⟩
  | optimize result =>
    simp only [exec, optimize] at h
    split at h
    · obtain rfl := Option.some.inj h
      exact ⟨w.trajs, w.queue, w.inflight, w.trimmers⟩
    · cases h
  | trim choices =>
    obtain ⟨r, hw⟩ := he
    simp only [exec, hw] at h
    obtain ⟨s1, s2, trs, -, h2, h3, rfl⟩ := handleTrimming_inv h
    have w1 := deleteTrajectories_within (s := { s with worker := .idle }) ⟨w.trajs, w.queue, w.inflight, w.trimmers⟩ (by
      intro t ht
      obtain ⟨e, he, rfl⟩ := List.mem_map.1 ht
      exact w.trajs e he) h2
    obtain ⟨w2, w3⟩ := runTrimmers_within w1 w1.trimmers h3
    exact ⟨w2.trajs, w2.queue, w2.inflight, fun t ht => w3 t (List.mem_filter.1 ht).1⟩

/-! ### Loading any file -/

open Serialization in
/-- The new ids are those that follow; the remapping is injective and leads to them. -/
theorem addTrajectories_inv : ∀ {trs : List TrajectoryProto} {n : Int} {os : List O} {remap remap' : List (Int × Int)} {trs' : List TrajectoryProto} {added : List (Int × O)},
    addTrajectories n trs os remap = some (remap', trs', added) →
    added = number n (os.take trs.length) ∧ added.length = trs.length ∧ (∀ tr ∈ trs', n ≤ tr.id ∧ tr.id < n + trs.length) ∧
    (∀ t u, SMap.get? t remap = some u → SMap.get? t remap' = some u) ∧
    (∀ t u, SMap.get? t remap' = some u → SMap.get? t remap = some u ∨ (SMap.get? t remap = none ∧ n ≤ u ∧ u < n + trs.length ∧ t ∈ trs.map (·.id))) ∧
    (∀ t t' u, SMap.get? t remap' = some u → SMap.get? t' remap' = some u → n ≤ u → (∀ t'' u', SMap.get? t'' remap = some u' → u' < n) → t = t') ∧
    ∀ (i : Nat) tr, trs[i]? = some tr → SMap.get? tr.id remap' = some (n + i) := by
  intro trs
  induction trs with
  | nil =>
    intro n os remap remap' trs' added h
    simp only [addTrajectories, Option.some.injEq, Prod.mk.injEq] at h
    obtain ⟨rfl, rfl, rfl⟩ := h
    refine ⟨by simp [number], rfl, by simp, fun _ _ h => h, fun _ _ h => Or.inl h, ?_, by simp⟩
    intro t t' u h1 _ h3 h4
    exact absurd (h4 t u h1) (by omega)
  | cons tr trs ih =>
    intro n os remap remap' trs' added h
    cases os with
    | nil => simp [addTrajectories] at h
    | cons o os =>
      simp only [addTrajectories] at h
      split at h
      · cases h
      · rename_i hnone
        split at h
        · cases h
        · rename_i r1 r2 r3 hr
          simp only [Option.some.injEq, Prod.mk.injEq] at h
          obtain ⟨rfl, rfl, rfl⟩ := h
          obtain ⟨i1, i2, i3, i4, i5, i6, i7⟩ := ih hr
          refine ⟨?_, by simp [i2], ?_, ?_, ?_, ?_, ?_⟩
          · simp [number, ← i1]
          · intro x hx
            rcases List.mem_cons.1 hx with rfl | hx
            · simp only [List.length_cons]; push_cast; constructor <;> omega
            · have := i3 x hx
              simp only [List.length_cons]; push_cast; constructor <;> omega
          · intro t u hu
            apply i4
            rw [SMap.get?_put]
            rw [if_neg]
            · exact hu
            · rintro rfl
              rw [hnone] at hu
              cases hu
          · intro t u hu
            rcases i5 t u hu with h1 | ⟨h1, h2, h3, h4⟩
            · rw [SMap.get?_put] at h1
              split at h1
              · rename_i hk
                subst hk
                cases h1
                right
                refine ⟨hnone, le_refl _, ?_, by simp⟩
                simp only [List.length_cons]; push_cast; omega
              · exact Or.inl h1
            · rw [SMap.get?_put] at h1
              split at h1
              · cases h1
              · right
                refine ⟨h1, by omega, ?_, List.mem_cons_of_mem _ h4⟩
                simp only [List.length_cons]; push_cast; omega
          · intro t t' u h1 h2 h3 h4
            by_cases hu : n + 1 ≤ u
            · refine i6 t t' u h1 h2 hu ?_
              intro t'' u' hx
              rw [SMap.get?_put] at hx
              split at hx
              · cases hx; omega
              · have := h4 t'' u' hx; omega
            · have hun : u = n := by omega
              subst hun
              have key : ∀ t, SMap.get? t r1 = some u → t = tr.id := by
                intro t ht
                rcases i5 t u ht with a | ⟨_, a, _, _⟩
                · rw [SMap.get?_put] at a
                  split at a
                  · rename_i hk; exact hk.symm
                  · exact absurd (h4 t u a) (by omega)
                · omega
              rw [key t h1, key t' h2]
          · intro i x hx
            cases i with
            | zero =>
              simp only [List.getElem?_cons_zero, Option.some.injEq] at hx
              subst hx
              simpa using i4 tr.id n (by rw [SMap.get?_put, if_pos rfl])
            | succ i =>
              have := i7 i x (by simpa using hx)
              rw [this]
              push_cast
              congr 1
              omega

/-- All trajectories that a call names. -/
def CallIn (q : Int → Prop) : Serialization.Call P → Prop
  | .freeze t | .setTrajectoryData t | .addImu t | .addOdometry t | .addFixedFrame t | .addLandmark t => q t
  | .addSubmapFromProto id | .addNodeFromProto id => q id.1
  | .addNodeToSubmap n i => q n.1 ∧ q i.1
  | .addSerializedConstraints cs => ∀ c ∈ cs, q c.node.1 ∧ q c.submap.1

open Serialization in
theorem remapId_in {q : Int → Prop} {remap : List (Int × Int)} (hq : ∀ t u, SMap.get? t remap = some u → q u) {id id' : Id} (h : remapId remap id = some id') : q id'.1 := by
  simp only [remapId, Option.map_eq_some_iff] at h
  obtain ⟨u, h1, rfl⟩ := h
  exact hq _ _ h1

open Serialization in
theorem remapConstraints_in {q : Int → Prop} {remap : List (Int × Int)} (hq : ∀ t u, SMap.get? t remap = some u → q u) :
    ∀ {cs cs' : List (Constraint P)}, remapConstraints remap cs = some cs' → ∀ c ∈ cs', q c.node.1 ∧ q c.submap.1 := by
  intro cs
  induction cs with
  | nil =>
    intro cs' h
    simp only [remapConstraints, Option.some.injEq] at h
    subst h
    simp
  | cons c cs ih =>
    intro cs' h
    simp only [remapConstraints] at h
    split at h
    · rename_i s n r h1 h2 h3
      obtain rfl := Option.some.inj h
      intro c' hc
      rcases List.mem_cons.1 hc with rfl | hc
      · exact ⟨remapId_in hq h2, remapId_in hq h1⟩
      · exact ih h3 c' hc
    · cases h

open Serialization in
theorem loadRecord_in {q : Int → Prop} {remap : List (Int × Int)} (hq : ∀ t u, SMap.get? t remap = some u → q u) {frozen : Bool} {sp np : Map Unit} {r : Record P O} {cs : List (Serialization.Call P)}
    (h : loadRecord frozen remap sp np r = some cs) : ∀ c ∈ cs, CallIn q c := by
  cases r with
  | header v => cases h; simp
  | poseGraph p => cases h; simp
  | options l => cases h; simp
  | submap id =>
    simp only [loadRecord, Option.bind_eq_bind, Option.bind_eq_some_iff, Option.some.injEq] at h
    obtain ⟨id', h1, _, _, rfl⟩ := h
    intro c hc
    rw [List.mem_singleton.1 hc]
    exact remapId_in hq h1
  | node id =>
    simp only [loadRecord, Option.bind_eq_bind, Option.bind_eq_some_iff, Option.some.injEq] at h
    obtain ⟨id', h1, _, _, rfl⟩ := h
    intro c hc
    rw [List.mem_singleton.1 hc]
    exact remapId_in hq h1
  | trajectoryData t =>
    simp only [loadRecord, Option.map_eq_some_iff] at h
    obtain ⟨u, h1, rfl⟩ := h
    intro c hc
    rw [List.mem_singleton.1 hc]
    exact hq _ _ h1
  | imu t =>
    simp only [loadRecord] at h
    split at h
    · cases h; simp
    · simp only [Option.map_eq_some_iff] at h
      obtain ⟨u, h1, rfl⟩ := h
      intro c hc
      rw [List.mem_singleton.1 hc]
      exact hq _ _ h1
  | odometry t =>
    simp only [loadRecord] at h
    split at h
    · cases h; simp
    · simp only [Option.map_eq_some_iff] at h
      obtain ⟨u, h1, rfl⟩ := h
      intro c hc
      rw [List.mem_singleton.1 hc]
      exact hq _ _ h1
  | fixedFrame t =>
    simp only [loadRecord] at h
    split at h
    · cases h; simp
    · simp only [Option.map_eq_some_iff] at h
      obtain ⟨u, h1, rfl⟩ := h
      intro c hc
      rw [List.mem_singleton.1 hc]
      exact hq _ _ h1
  | landmark t =>
    simp only [loadRecord] at h
    split at h
    · cases h; simp
    · simp only [Option.map_eq_some_iff] at h
      obtain ⟨u, h1, rfl⟩ := h
      intro c hc
      rw [List.mem_singleton.1 hc]
      exact hq _ _ h1

open Serialization in
theorem loadRecords_in {q : Int → Prop} {remap : List (Int × Int)} (hq : ∀ t u, SMap.get? t remap = some u → q u) {frozen : Bool} {sp np : Map Unit} :
    ∀ {rs : List (Record P O)} {cs : List (Serialization.Call P)}, loadRecords frozen remap sp np rs = some cs → ∀ c ∈ cs, CallIn q c := by
  intro rs
  induction rs with
  | nil => intro cs h; cases h; simp
  | cons r rs ih =>
    intro cs h
    simp only [loadRecords] at h
    split at h
    · rename_i c1 c2 h1 h2
      cases h
      intro c hc
      rcases List.mem_append.1 hc with hc | hc
      · exact loadRecord_in hq h1 c hc
      · exact ih h2 c hc
    · cases h

open Serialization in
/-- Loading any file: the trajectories get the next ids, in the order of the file, each with its options; the remapping is injective; all calls are for the new ids. -/
theorem load_any {n : Int} {use3d frozen : Bool} {recs : List (Record P O)} {L : Loaded P O} (h : load n use3d frozen recs = some L) :
    ∃ (v : Nat) (p : PoseGraph.Proto P) (os : List O) (rest : List (Record P O)), recs = .header v :: .poseGraph p :: .options os :: rest ∧ p.trajectories.length = os.length ∧
      L.added = number n os ∧ (∀ t u, SMap.get? t L.remap = some u → n ≤ u ∧ u < n + os.length) ∧
      (∀ t t' u, SMap.get? t L.remap = some u → SMap.get? t' L.remap = some u → t = t') ∧
      (∀ (i : Nat) tr, p.trajectories[i]? = some tr → SMap.get? tr.id L.remap = some (n + i)) ∧
      ∀ c ∈ L.calls, CallIn (fun u => n ≤ u ∧ u < n + os.length) c := by
  unfold load at h
  simp only [Option.bind_eq_bind, Option.bind_eq_some_iff] at h
  obtain ⟨⟨v, p, os, rest⟩, h1, ⟨remap, trs, added⟩, h2, cs, h3, sp, h4, np, h5, _, h6, calls, h7, h8⟩ := h
  cases h8
  have hr : recs = .header v :: .poseGraph p :: .options os :: rest ∧ p.trajectories.length = os.length := by
    unfold deserialize at h1
    split at h1
    · split at h1
      · split at h1
        · rename_i hl
          simp only [Option.some.injEq, Prod.mk.injEq] at h1
          obtain ⟨rfl, rfl, rfl, rfl⟩ := h1
          exact ⟨rfl, hl⟩
        · cases h1
      · cases h1
    · cases h1
  obtain ⟨i1, i2, i3, i4, i5, i6, i7⟩ := addTrajectories_inv h2
  have hrange : ∀ t u, SMap.get? t remap = some u → n ≤ u ∧ u < n + os.length := by
    intro t u ht
    rcases i5 t u ht with h | ⟨_, a, b, _⟩
    · cases h
    · rw [← hr.2]; exact ⟨a, b⟩
  refine ⟨v, p, os, rest, hr.1, hr.2, ?_, hrange, ?_, i7, ?_⟩
  · rw [hr.2, List.take_length] at i1
    exact i1
  · intro t t' u ht ht'
    exact i6 t t' u ht ht' (hrange t u ht).1 (by intro t'' u' hx; cases hx)
  · intro c hc
    rcases List.mem_append.1 hc with hc | hc
    · rcases List.mem_append.1 hc with hc | hc
      · cases frozen with
        | false => simp at hc
        | true =>
          simp only [if_true, List.mem_map] at hc
          obtain ⟨e, he, rfl⟩ := hc
          rw [hr.2, List.take_length] at i1
          rw [i1] at he
          exact ⟨number_ge (x := e.2) he, number_lt (x := e.2) he⟩
      · exact loadRecords_in hrange h7 c hc
    · cases frozen with
      | false =>
        simp only [finalCalls, Bool.false_eq_true, if_false, List.mem_singleton] at hc
        subst hc
        exact remapConstraints_in hrange h3
      | true =>
        simp only [finalCalls, if_true, List.mem_map, List.mem_filter] at hc
        obtain ⟨c', ⟨hc', _⟩, rfl⟩ := hc
        exact remapConstraints_in hrange h3 c' hc'

/-! ### The collators -/

section Collators

variable {S D T : Type} [LinearOrder S] [LinearOrder T] [OrderBot T] {time : D → T} {sensor : D → S}

/-- All queues belong to trajectories of a set. -/
def CollIn (p : Int → Prop) : Coll S D T → Prop
  | .inl c => OMQ.KeysIn (fun k => p (Collators.traj k)) c.queue
  | .inr c => ∀ j q, c.queues j = some q → OMQ.KeysIn (fun k => p (Collators.traj k)) q

theorem CollIn.mono {p q : Int → Prop} (h : ∀ t, p t → q t) {c : Coll S D T} (hc : CollIn p c) : CollIn q c := by
  cases c with
  | inl c => exact fun e he => h _ (hc e he)
  | inr c => exact fun j q' hq e he => h _ (hc j q' hq e he)

/-- The trajectory of a call that adds one. -/
def addsTo : Collators.Call S D → Option Int
  | .add j _ => some j
  | _ => none

theorem finishKeys_in {p : Collators.Key S → Prop} : ∀ {ks : List (Collators.Key S)} {q q' : Option (Collators.Queues S D T)} {out : List (Collators.Key S × D)},
    (∀ x, q = some x → OMQ.KeysIn p x) → Collators.finishKeys time q ks = some (q', out) → (∀ x, q' = some x → OMQ.KeysIn p x) ∧ ∀ x ∈ out, p x.1 := by
  intro ks
  induction ks with
  | nil =>
    intro q q' out hq h
    simp only [Collators.finishKeys, Option.some.injEq, Prod.mk.injEq] at h
    obtain ⟨rfl, rfl⟩ := h
    exact ⟨hq, by simp⟩
  | cons k ks ih =>
    intro q q' out hq h
    simp only [Collators.finishKeys, Option.bind_eq_bind, Option.bind_eq_some_iff, Option.some.injEq, Prod.mk.injEq] at h
    obtain ⟨q0, rfl, r, h1, r', h2, rfl, rfl⟩ := h
    obtain ⟨a, b⟩ := OMQ.markFinished_keys (hq q0 rfl) h1
    obtain ⟨c, d⟩ := ih (q := some r.1) (by rintro x ⟨⟩; exact a) h2
    refine ⟨c, ?_⟩
    intro x hx
    rcases List.mem_append.1 hx with hx | hx
    · exact b x hx
    · exact d x hx

theorem flushAll_in {p : Collators.Key S → Prop} : ∀ {js : List ℤ} {qs qs' : ℤ → Option (Collators.Queues S D T)} {out : List (Collators.Key S × D)},
    (∀ j x, qs j = some x → OMQ.KeysIn p x) → Collators.flushAll time qs js = some (qs', out) → (∀ j x, qs' j = some x → OMQ.KeysIn p x) ∧ ∀ x ∈ out, p x.1 := by
  intro js
  induction js with
  | nil =>
    intro q q' out hq h
    simp only [Collators.flushAll, Option.some.injEq, Prod.mk.injEq] at h
    obtain ⟨rfl, rfl⟩ := h
    exact ⟨hq, by simp⟩
  | cons k ks ih =>
    intro q q' out hq h
    simp only [Collators.flushAll, Option.bind_eq_bind, Option.bind_eq_some_iff, Option.some.injEq, Prod.mk.injEq] at h
    obtain ⟨q0, h0, r, h1, r', h2, rfl, rfl⟩ := h
    obtain ⟨a, b⟩ := OMQ.markAll_keys _ (hq k q0 h0) h1
    obtain ⟨c, d⟩ := ih (by
      intro j x hx
      split at hx
      · cases hx; exact a
      · exact hq j x hx) h2
    refine ⟨c, ?_⟩
    intro x hx
    rcases List.mem_append.1 hx with hx | hx
    · exact b x hx
    · exact d x hx

/-- The collator delivers only for trajectories that were added. -/
theorem coll_in {p : Int → Prop} {order : List ℤ → List ℤ} {c : Coll S D T} {o : Collators.Call S D} {r : Coll S D T × List (Collators.Key S × D)} (hc : CollIn p c)
    (ho : ∀ t ∈ addsTo o, p t) (h : c.step time sensor order o = some r) : CollIn p r.1 ∧ ∀ x ∈ r.2, p (Collators.traj x.1) := by
  cases c with
  | inl c =>
    have hc : OMQ.KeysIn (fun k => p (Collators.traj k)) c.queue := hc
    simp only [Coll.step, Option.map_eq_some_iff] at h
    obtain ⟨r', h, rfl⟩ := h
    cases o with
    | add j ss =>
      simp only [Collators.Shared.step, Option.bind_eq_bind, Option.bind_eq_some_iff, Option.some.injEq] at h
      obtain ⟨q, h2, rfl⟩ := h
      refine ⟨OMQ.addQueues_keys _ hc ?_ h2, by simp⟩
      intro k hk
      obtain ⟨s, hs, rfl⟩ := List.mem_map.1 hk
      exact ho j rfl
    | data j d =>
      simp only [Collators.Shared.step, Option.bind_eq_bind, Option.bind_eq_some_iff, Option.some.injEq] at h
      obtain ⟨q, h2, rfl⟩ := h
      exact OMQ.add_keys hc h2
    | finish j =>
      simp only [Collators.Shared.step, Option.bind_eq_bind, Option.bind_eq_some_iff, Option.some.injEq] at h
      obtain ⟨q, h2, rfl⟩ := h
      exact OMQ.markAll_keys _ hc h2
    | flush =>
      simp only [Collators.Shared.step, Option.bind_eq_bind, Option.bind_eq_some_iff, Option.some.injEq] at h
      obtain ⟨q, h2, rfl⟩ := h
      exact OMQ.markAll_keys _ hc h2
  | inr c =>
    have hc : ∀ j q, c.queues j = some q → OMQ.KeysIn (fun k => p (Collators.traj k)) q := hc
    simp only [Coll.step, Option.map_eq_some_iff] at h
    obtain ⟨r', h, rfl⟩ := h
    cases o with
    | add j ss =>
      simp only [Collators.Single.step] at h
      split at h
      · cases h
      · split at h
        · cases h
          exact ⟨hc, by simp⟩
        · simp only [Option.bind_eq_bind, Option.bind_eq_some_iff, Option.some.injEq] at h
          obtain ⟨q, h2, rfl⟩ := h
          refine ⟨?_, by simp⟩
          intro i q' hq'
          simp only at hq'
          split at hq'
          · cases hq'
            refine OMQ.addQueues_keys _ (by simp [OMQ.KeysIn, OMQ.init]) ?_ h2
            intro k hk
            obtain ⟨s, hs, rfl⟩ := List.mem_map.1 hk
            exact ho j rfl
          · exact hc i q' hq'
    | data j d =>
      simp only [Collators.Single.step, Option.bind_eq_bind, Option.bind_eq_some_iff, Option.some.injEq] at h
      obtain ⟨q, h1, r, h2, rfl⟩ := h
      obtain ⟨a, b⟩ := OMQ.add_keys (hc j q h1) h2
      refine ⟨?_, b⟩
      intro i q' hq'
      simp only at hq'
      split at hq'
      · cases hq'; exact a
      · exact hc i q' hq'
    | finish j =>
      simp only [Collators.Single.step, Option.bind_eq_bind, Option.bind_eq_some_iff, Option.some.injEq] at h
      obtain ⟨r, h2, rfl⟩ := h
      obtain ⟨a, b⟩ := finishKeys_in (hc j) h2
      refine ⟨?_, b⟩
      intro i q' hq'
      simp only at hq'
      split at hq'
      · exact a q' hq'
      · exact hc i q' hq'
    | flush =>
      simp only [Collators.Single.step, Option.bind_eq_bind, Option.bind_eq_some_iff, Option.some.injEq] at h
      obtain ⟨r, h2, rfl⟩ := h
      exact flushAll_in hc h2

end Collators

end Verif.MapBuilder
