import Verif.SavedSensorsLemmas

/-!
# C112: what a saved map keeps of the sensor data

Whatever was recorded, loading the saved file into any pose graph gives exactly the saved messages, trajectory data and landmark
observations, under the new ids of the trajectories and without touching the others; only the flag that a landmark is frozen
changes. A frozen map keeps the landmark poses and trajectory data only.
-/

namespace Verif.SavedSensors

set_option linter.unusedSectionVars false

variable {T I O F R S D : Type} [LinearOrder T] [BoundedOrder T] [LinearOrder S]

/-- What holds for every pose graph. -/
structure WF (is3d : Bool) (s : State T I O F R S) : Prop where
  imu : MapByTime.WF Prod.fst s.imu
  odometry : MapByTime.WF Prod.fst s.odometry
  fixedFrame : MapByTime.WF Prod.fst s.fixedFrame
  landmarks : SMap.Sorted s.landmarks
  used : ∀ e ∈ s.landmarks, e.2.observations ≠ [] ∨ e.2.pose ≠ none
  trajectories : SMap.Sorted s.trajectories
  nodes : ∀ t ∈ s.nodes, (SMap.get? t s.trajectories).isSome
  flat : is3d = false → s.imu = [] ∧ ∀ e ∈ s.trajectories,
    e.2.gravity = 98 / 10 ∧ e.2.imu = (1, 0, 0, 0) ∧ (e.2.fixedFrame = none → e.1 ∈ s.nodes)

theorem wf_nil : MapByTime.WF Prod.fst ([] : MapByTime.Map T (T × D)) :=
  ⟨List.Pairwise.nil, by simp, by simp, by simp, by simp⟩

theorem wf_append {m m' : MapByTime.Map T (T × D)} {t : Int} {d : T × D} (w : MapByTime.WF Prod.fst m)
    (h : MapByTime.append Prod.fst m t d = some m') : MapByTime.WF Prod.fst m' :=
  MapByTime.wf_step (N := Unit) (ntime := fun _ => d.1) w (.append t d h)

theorem wf_keepData {m : MapByTime.Map T (T × D)} (t : Int) (keep : T → Bool) (w : MapByTime.WF Prod.fst m) :
    MapByTime.WF Prod.fst (keepData t keep m) := by
  unfold keepData
  split
  · exact w
  · rename_i tr htr
    have hm := SMap.mem_of_get? htr
    dsimp only
    split
    · refine ⟨SMap.sorted_erase w.sorted, ?_, ?_, ?_, ?_⟩ <;> intro e he <;> have he := (SMap.mem_erase.1 he).1
      · exact w.nonneg e he
      · exact w.dsorted e he
      · exact w.nonempty e he
      · exact w.keys e he
    · rename_i hne
      refine MapByTime.wf_put w (w.nonneg _ hm) ((w.dsorted _ hm).filter _) (by simpa using hne) ?_
      intro x hx
      exact w.keys _ hm x (List.mem_filter.1 hx).1

theorem keepData_nil (t : Int) (keep : T → Bool) : keepData t keep ([] : MapByTime.Map T (T × D)) = [] := rfl

theorem addObservation_wf {l : List (S × Landmark T R)} (h : SMap.Sorted l ∧ ∀ e ∈ l, e.2.observations ≠ [] ∨ e.2.pose ≠ none)
    (t : Int) (time : T) (o : Seen R S) : SMap.Sorted (addObservation l t time o) ∧
      ∀ e ∈ addObservation l t time o, e.2.observations ≠ [] ∨ e.2.pose ≠ none := by
  refine ⟨SMap.sorted_put h.1, fun e he => ?_⟩
  rcases SMap.mem_put he with rfl | he
  · exact Or.inl (by simp)
  · exact h.2 e he

theorem putPose_wf {l : List (S × Landmark T R)} (h : SMap.Sorted l ∧ ∀ e ∈ l, e.2.observations ≠ [] ∨ e.2.pose ≠ none)
    (id : S) (p : R) : SMap.Sorted (putPose l id p) ∧ ∀ e ∈ putPose l id p, e.2.observations ≠ [] ∨ e.2.pose ≠ none := by
  refine ⟨SMap.sorted_put h.1, fun e he => ?_⟩
  rcases SMap.mem_put he with rfl | he
  · exact Or.inr (by simp)
  · exact h.2 e he

theorem foldl_inv {α β : Type} (P : α → Prop) (f : α → β → α) (hf : ∀ a b, P a → P (f a b)) (l : List β) :
    ∀ a, P a → P (l.foldl f a) := by
  induction l with
  | nil => exact fun a h => h
  | cons x l ih => exact fun a h => ih _ (hf a x h)

theorem get?_map_val {V W : Type} (g : Int → V → W) (l : List (Int × V)) (k : Int) :
    SMap.get? k (l.map (fun e => (e.1, g e.1 e.2))) = (SMap.get? k l).map (g k) := by
  induction l with
  | nil => rfl
  | cons e l ih =>
    obtain ⟨k', v⟩ := e
    simp only [List.map_cons, SMap.get?]
    split
    · rename_i h; subst h; rfl
    · exact ih

theorem step_wf {is3d : Bool} {s s' : State T I O F R S} {op : Op T I O F R S} (w : WF is3d s) (h : step is3d s op = some s') :
    WF is3d s' := by
  cases op with
  | imu t d =>
    cases is3d with
    | false => simp [step, addImu] at h; exact h ▸ w
    | true =>
      simp only [step, addImu, if_true, Option.map_eq_some_iff] at h
      obtain ⟨m, hm, rfl⟩ := h
      exact { w with imu := wf_append w.imu hm, flat := by simp }
  | odometry t d =>
    simp only [step, addOdometry, Option.map_eq_some_iff] at h
    obtain ⟨m, hm, rfl⟩ := h
    exact { w with odometry := wf_append w.odometry hm }
  | fixedFrame t d =>
    simp only [step, addFixedFrame, Option.map_eq_some_iff] at h
    obtain ⟨m, hm, rfl⟩ := h
    exact { w with fixedFrame := wf_append w.fixedFrame hm }
  | landmark t time os =>
    simp only [step, Option.some.injEq] at h
    subst h
    have := foldl_inv (fun l : List (S × Landmark T R) => SMap.Sorted l ∧ ∀ e ∈ l, e.2.observations ≠ [] ∨ e.2.pose ≠ none)
      (fun l o => addObservation l t time o) (fun l o hl => addObservation_wf hl t time o) os s.landmarks ⟨w.landmarks, w.used⟩
    exact { w with landmarks := this.1, used := this.2 }
  | pose id p frozen =>
    simp only [step, Option.some.injEq] at h
    subst h
    refine { w with landmarks := SMap.sorted_put w.landmarks, used := fun e he => ?_ }
    rcases SMap.mem_put he with rfl | he
    · exact Or.inr (by simp)
    · exact w.used e he
  | node t =>
    simp only [step, Option.some.injEq] at h
    subst h
    have hs : SMap.Sorted (addNode s t).trajectories := by
      simp only [addNode]
      split
      · exact w.trajectories
      · exact SMap.sorted_put w.trajectories
    refine { w with trajectories := hs, nodes := ?_, flat := ?_ }
    · intro u hu
      simp only [addNode, List.mem_append, List.mem_singleton] at hu ⊢
      split
      · rename_i hi
        rcases hu with hu | rfl
        · exact w.nodes u hu
        · exact hi
      · rw [SMap.get?_put]
        split
        · rfl
        · rename_i hne
          rcases hu with hu | rfl
          · exact w.nodes u hu
          · exact absurd rfl hne
    · intro h2
      obtain ⟨h3, h4⟩ := w.flat h2
      refine ⟨h3, fun e he => ?_⟩
      simp only [addNode] at he ⊢
      split at he
      · obtain ⟨a, b, c⟩ := h4 e he
        exact ⟨a, b, fun hc => List.mem_append_left _ (c hc)⟩
      · rcases SMap.mem_put he with rfl | he
        · exact ⟨rfl, rfl, fun _ => by simp⟩
        · obtain ⟨a, b, c⟩ := h4 e he
          exact ⟨a, b, fun hc => List.mem_append_left _ (c hc)⟩
  | trajectoryData t c =>
    simp only [step, Option.some.injEq] at h
    subst h
    unfold setTrajectoryData
    split
    · rename_i h3
      refine { w with trajectories := SMap.sorted_put w.trajectories, nodes := fun u hu => ?_, flat := by simp [h3] }
      rw [SMap.get?_put]
      split
      · rfl
      · exact w.nodes u hu
    · split
      · exact w
      · rename_i p _
        refine { w with trajectories := SMap.sorted_put w.trajectories, nodes := fun u hu => ?_, flat := fun h2 => ?_ }
        · rw [SMap.get?_put]
          split
          · rfl
          · exact w.nodes u hu
        · obtain ⟨h3, h4⟩ := w.flat h2
          refine ⟨h3, fun e he => ?_⟩
          rcases SMap.mem_put he with rfl | he
          · exact ⟨rfl, rfl, by simp⟩
          · exact h4 e he
  | solve g q origin poses =>
    simp only [step, Option.some.injEq] at h
    subst h
    have := foldl_inv (fun l : List (S × Landmark T R) => SMap.Sorted l ∧ ∀ e ∈ l, e.2.observations ≠ [] ∨ e.2.pose ≠ none)
      (fun l (p : S × R) => putPose l p.1 p.2) (fun l o hl => putPose_wf hl o.1 o.2) poses s.landmarks ⟨w.landmarks, w.used⟩
    refine { w with landmarks := this.1, used := this.2, trajectories := ?_, nodes := ?_, flat := ?_ }
    · simp only [solve, SMap.Sorted, List.pairwise_map]
      exact w.trajectories
    · intro u hu
      have := w.nodes u hu
      simp only [solve]
      rw [get?_map_val (fun t (c : Calibration R) => ({
        gravity := if is3d then g t else c.gravity
        imu := if is3d then q t else c.imu
        fixedFrame := (origin t).or c.fixedFrame } : Calibration R))]
      simpa using this
    · intro h2
      obtain ⟨h3, h4⟩ := w.flat h2
      refine ⟨h3, fun e he => ?_⟩
      simp only [solve, List.mem_map] at he
      obtain ⟨e', he', rfl⟩ := he
      obtain ⟨a, b, c⟩ := h4 e' he'
      refine ⟨by simpa [h2] using a, by simpa [h2] using b, fun hc => c ?_⟩
      simp only [Option.or_eq_none_iff] at hc
      exact hc.2
  | trim t ki ko kf =>
    simp only [step, trimNode] at h
    split at h
    · rename_i ht
      cases h
      refine ⟨wf_keepData _ _ w.imu, wf_keepData _ _ w.odometry, wf_keepData _ _ w.fixedFrame, w.landmarks, w.used, ?_, ?_, ?_⟩
      · dsimp only
        split
        · exact w.trajectories
        · exact SMap.sorted_erase w.trajectories
      · intro u hu
        dsimp only at hu ⊢
        have hu' := w.nodes u (List.mem_of_mem_erase hu)
        split
        · exact hu'
        · rename_i hn
          rw [SMap.get?_erase, if_neg]
          · exact hu'
          · rintro rfl; exact hn hu
      · intro h2
        obtain ⟨h3, h4⟩ := w.flat h2
        refine ⟨by rw [h3]; rfl, fun e he => ?_⟩
        dsimp only at he ⊢
        split at he
        · rename_i hin
          obtain ⟨a, b, c⟩ := h4 e he
          refine ⟨a, b, fun hc => ?_⟩
          by_cases het : e.1 = t
          · rw [het]; exact hin
          · exact (List.mem_erase_of_ne het).2 (c hc)
        · rw [SMap.mem_erase] at he
          obtain ⟨a, b, c⟩ := h4 e he.1
          exact ⟨a, b, fun hc => (List.mem_erase_of_ne he.2).2 (c hc)⟩
    · cases h

theorem foldlM_inv {α β : Type} (P : α → Prop) (f : α → β → Option α) (hf : ∀ a b a', P a → f a b = some a' → P a') (l : List β) :
    ∀ a a', P a → l.foldlM f a = some a' → P a' := by
  induction l with
  | nil => intro a a' h e; cases e; exact h
  | cons x l ih =>
    intro a a' h e
    rw [List.foldlM_cons] at e
    cases hx : f a x with
    | none => rw [hx] at e; cases e
    | some b => rw [hx] at e; exact ih b a' (hf a x b h hx) e

theorem wf_init {is3d : Bool} : WF is3d ({} : State T I O F R S) :=
  ⟨wf_nil, wf_nil, wf_nil, List.Pairwise.nil, by simp, List.Pairwise.nil, by simp, by simp⟩

/-- **C112.** After any history: messages are kept by trajectory in the order of their times, every landmark was observed or has a
pose, every trajectory with nodes has trajectory data; in 2D there are no IMU data and gravity and calibration have the default
values. -/
theorem wf_run {is3d : Bool} {ops : List (Op T I O F R S)} {s : State T I O F R S} (h : run is3d ops = some s) : WF is3d s :=
  foldlM_inv (WF is3d) (step is3d) (fun _ _ _ w hs => step_wf w hs) ops _ _ wf_init h

/-- Each record is handled by the functions that also handle new data. -/
theorem loadRec_step {is3d frozen : Bool} {remap : List (Int × Int)} {s s' : State T I O F R S} {r : Rec T I O F R S}
    (h : loadRec is3d frozen remap s r = some s') : s' = s ∨ ∃ op, step is3d s op = some s' := by
  cases r with
  | node t =>
    simp only [loadRec, Option.map_eq_some_iff] at h
    obtain ⟨u, _, rfl⟩ := h
    exact Or.inr ⟨.node u, rfl⟩
  | trajectoryData t c =>
    simp only [loadRec, Option.map_eq_some_iff] at h
    obtain ⟨u, _, rfl⟩ := h
    exact Or.inr ⟨.trajectoryData u c, rfl⟩
  | imu t d =>
    cases frozen with
    | true => simp [loadRec] at h; exact Or.inl h.symm
    | false =>
      simp only [loadRec, Bool.false_eq_true, if_false, Option.bind_eq_some_iff] at h
      obtain ⟨u, _, h⟩ := h
      exact Or.inr ⟨.imu u d, h⟩
  | odometry t d =>
    cases frozen with
    | true => simp [loadRec] at h; exact Or.inl h.symm
    | false =>
      simp only [loadRec, Bool.false_eq_true, if_false, Option.bind_eq_some_iff] at h
      obtain ⟨u, _, h⟩ := h
      exact Or.inr ⟨.odometry u d, h⟩
  | fixedFrame t d =>
    cases frozen with
    | true => simp [loadRec] at h; exact Or.inl h.symm
    | false =>
      simp only [loadRec, Bool.false_eq_true, if_false, Option.bind_eq_some_iff] at h
      obtain ⟨u, _, h⟩ := h
      exact Or.inr ⟨.fixedFrame u d, h⟩
  | landmark t time os =>
    cases frozen with
    | true => simp [loadRec] at h; exact Or.inl h.symm
    | false =>
      simp only [loadRec, Bool.false_eq_true, if_false, Option.map_eq_some_iff] at h
      obtain ⟨u, _, rfl⟩ := h
      exact Or.inr ⟨.landmark u time os, rfl⟩

/-- **C112.** Loading any file, also one that was not written by this program, keeps these invariants. -/
theorem wf_load {is3d frozen : Bool} {remap : List (Int × Int)} {s s' : State T I O F R S} {f : File T I O F R S} (w : WF is3d s)
    (h : load is3d frozen remap s f = some s') : WF is3d s' := by
  refine foldlM_inv (WF is3d) (loadRec is3d frozen remap) ?_ f.recs _ _ ?_ h
  · intro a b a' wa hb
    rcases loadRec_step hb with rfl | ⟨op, hop⟩
    · exact wa
    · exact step_wf wa hop
  · refine foldl_inv (WF is3d) _ (fun a b wa => ?_) f.poses s w
    exact step_wf (op := .pose b.1 b.2 true) wa rfl

/-- The ids of `AddTrajectoryForDeserialization` (map_builder.cc 224-240): different for different trajectories, not negative
and not used before. -/
structure Fresh (remap : List (Int × Int)) (base : State T I O F R S) : Prop where
  inj : ∀ t t' u, SMap.get? t remap = some u → SMap.get? t' remap = some u → t = t'
  nonneg : ∀ t u, SMap.get? t remap = some u → 0 ≤ u
  imu : ∀ t u, SMap.get? t remap = some u → SMap.get? u base.imu = none
  odometry : ∀ t u, SMap.get? t remap = some u → SMap.get? u base.odometry = none
  fixedFrame : ∀ t u, SMap.get? t remap = some u → SMap.get? u base.fixedFrame = none
  trajectories : ∀ t u, SMap.get? t remap = some u → SMap.get? u base.trajectories = none

/-- A trajectory with data that are always loaded. -/
def Basic (s : State T I O F R S) (t : Int) : Prop := t ∈ s.nodes ∨ (SMap.get? t s.trajectories).isSome

/-- A trajectory with data of any kind. -/
def Known (s : State T I O F R S) (t : Int) : Prop :=
  Basic s t ∨ (SMap.get? t s.imu).isSome ∨ (SMap.get? t s.odometry).isSome ∨ (SMap.get? t s.fixedFrame).isSome ∨
    ∃ e ∈ s.landmarks, ∃ o ∈ e.2.observations, o.trajectory = t

theorem get?_isSome {V : Type} {l : List (Int × V)} {e : Int × V} (h : e ∈ l) : (SMap.get? e.1 l).isSome := by
  rw [← Option.ne_none_iff_isSome]
  intro hc
  exact SMap.get?_eq_none.1 hc e h rfl

/-- The lookups of one kind of data after loading. -/
theorem data_lookup {remap : List (Int × Int)} {src m m' : MapByTime.Map T (T × D)} (w : SMap.Sorted src)
    (hinj : ∀ t t' u, SMap.get? t remap = some u → SMap.get? t' remap = some u → t = t')
    (hf : ∀ t u, SMap.get? t remap = some u → SMap.get? u m = none)
    (h1 : ∀ e ∈ src, ∀ u, SMap.get? e.1 remap = some u → SMap.get? u m' = some e.2)
    (h2 : ∀ u, (∀ e ∈ src, SMap.get? e.1 remap ≠ some u) → SMap.get? u m' = SMap.get? u m) :
    (∀ t u, SMap.get? t remap = some u → SMap.get? u m' = SMap.get? t src) ∧
      (∀ u, (∀ t, SMap.get? t remap ≠ some u) → SMap.get? u m' = SMap.get? u m) := by
  refine ⟨fun t u hu => ?_, fun u hu => h2 u (fun e _ => hu e.1)⟩
  cases hs : SMap.get? t src with
  | some v => exact h1 (t, v) (SMap.mem_of_get? hs) u hu
  | none =>
    rw [h2 u, hf t u hu]
    intro e he hc
    have := hinj e.1 t u hc hu
    rw [SMap.get?_eq_none] at hs
    exact hs e he this

theorem prefix_load {is3d frozen : Bool} {remap : List (Int × Int)} {s base : State T I O F R S} (w : WF is3d s) (wb : WF is3d base)
    (hf : Fresh remap base) (hl : ∀ t, Basic s t → (SMap.get? t remap).isSome) :
    ∃ tr lm, (s.nodes.map Rec.node ++ s.trajectories.map (fun e => Rec.trajectoryData e.1 (calibrationProto e.2)) :
          List (Rec T I O F R S)).foldlM
        (loadRec is3d frozen remap) ((landmarkPoses s).foldl (fun s (p : S × R) => setLandmarkPose s p.1 p.2 true) base) =
        some { base with
          nodes := base.nodes ++ s.nodes.map (renamed remap)
          trajectories := tr
          landmarks := lm } ∧ SMap.Sorted tr ∧ SMap.Sorted lm ∧
      (∀ t u, SMap.get? t remap = some u → SMap.get? u tr = SMap.get? t s.trajectories) ∧
      (∀ u, (∀ t, SMap.get? t remap ≠ some u) → SMap.get? u tr = SMap.get? u base.trajectories) ∧
      (∀ id, SMap.get? id lm = match (SMap.get? id s.landmarks).bind (·.pose) with
        | none => SMap.get? id base.landmarks
        | some p => some { (SMap.get? id base.landmarks).getD {} with pose := some p, frozen := true }) := by
  obtain ⟨lm, p1, p2, p3⟩ := poses_fold (landmarkPoses s) base (landmarkPoses_sorted w.landmarks) wb.landmarks
  obtain ⟨tr1, n1, n2, n3⟩ := nodes_fold (is3d := is3d) (frozen := frozen) (remap := remap) s.nodes { base with landmarks := lm }
    (fun t ht => hl t (Or.inl ht)) wb.trajectories
  obtain ⟨tr, c1, c2, c3, c4⟩ := calibration_fold (is3d := is3d) (frozen := frozen) (remap := remap) s.trajectories
    { base with landmarks := lm, nodes := base.nodes ++ s.nodes.map (renamed remap), trajectories := tr1 }
    (fun e he => hl e.1 (Or.inr (get?_isSome he))) n2 w.trajectories
    (by
      intro e he e' he' hee
      obtain ⟨u, hu⟩ := Option.isSome_iff_exists.1 (hl e.1 (Or.inr (get?_isSome he)))
      exact hf.inj _ _ u hu (by rw [← hee, hu]))
  have hren : ∀ t ∈ s.nodes, SMap.get? t remap = some (renamed remap t) := by
    intro t ht
    obtain ⟨u, hu⟩ := Option.isSome_iff_exists.1 (hl t (Or.inl ht))
    simp [renamed, hu]
  refine ⟨tr, lm, ?_, c2, p2, ?_, ?_, fun id => ?_⟩
  · rw [List.foldlM_append, p1, n1]
    exact c1
  · intro t u hu
    have hfu := hf.trajectories t u hu
    have n3u := n3 u
    dsimp only at n3u
    rw [hfu] at n3u
    cases hs : SMap.get? t s.trajectories with
    | none =>
      rw [c4 u]
      · dsimp only
        rw [n3u, if_neg]
        rintro ⟨-, hm⟩
        obtain ⟨t', ht', hr⟩ := List.mem_map.1 hm
        have := hf.inj t' t u (by rw [hren t' ht', hr]) hu
        subst this
        have := w.nodes t' ht'
        rw [hs] at this
        cases this
      · intro e he hc
        have := hf.inj e.1 t u hc hu
        rw [SMap.get?_eq_none] at hs
        exact hs e he this
    | some c =>
      have hm := SMap.mem_of_get? hs
      rw [c3 (t, c) hm u hu]
      cases is3d with
      | true => rfl
      | false =>
        obtain ⟨-, h4⟩ := w.flat rfl
        obtain ⟨a, b, d⟩ := h4 (t, c) hm
        obtain ⟨g, q, ff⟩ := c
        simp only at a b d
        subst a b
        cases ff with
        | some p => rfl
        | none =>
          simp only [Bool.false_eq_true, if_false]
          rw [n3u, if_pos]
          refine ⟨rfl, List.mem_map.2 ⟨t, d rfl, ?_⟩⟩
          simp [renamed, hu]
  · intro u hu
    rw [c4 u (fun e _ => hu e.1)]
    dsimp only
    rw [n3 u, if_neg]
    rintro ⟨-, hm⟩
    obtain ⟨t', ht', hr⟩ := List.mem_map.1 hm
    exact hu t' (by rw [hren t' ht', hr])
  · rw [p3]
    unfold landmarkPoses
    rw [landmarkPoses_get w.landmarks]
    rfl

/-- What is known about one landmark after loading, from what was known before and what was saved. -/
def merged (remap : List (Int × Int)) (old saved : Option (Landmark T R)) : Option (Landmark T R) :=
  match saved with
  | none => old
  | some l => some {
      observations := (old.getD {}).observations ++ l.observations.map (renameObs remap)
      pose := l.pose.or (old.getD {}).pose
      frozen := l.pose.isSome || (old.getD {}).frozen }

/-- **C112.** Loading what was saved, after any histories of both pose graphs: the new trajectories have exactly the saved messages
and trajectory data, the other trajectories keep theirs, and each landmark gets the saved observations added, and the saved pose if
there is one, which is then frozen. -/
theorem load_saved {is3d : Bool} {remap : List (Int × Int)} {ops opsBase : List (Op T I O F R S)} {s base : State T I O F R S}
    (hs : run is3d ops = some s) (hb : run is3d opsBase = some base)
    (hf : Fresh remap base) (hl : ∀ t, Known s t → (SMap.get? t remap).isSome) :
    ∃ s', load is3d false remap base (save s) = some s' ∧
      (∀ t u, SMap.get? t remap = some u → SMap.get? u s'.imu = SMap.get? t s.imu ∧
        SMap.get? u s'.odometry = SMap.get? t s.odometry ∧ SMap.get? u s'.fixedFrame = SMap.get? t s.fixedFrame ∧
        SMap.get? u s'.trajectories = SMap.get? t s.trajectories) ∧
      (∀ u, (∀ t, SMap.get? t remap ≠ some u) → SMap.get? u s'.imu = SMap.get? u base.imu ∧
        SMap.get? u s'.odometry = SMap.get? u base.odometry ∧ SMap.get? u s'.fixedFrame = SMap.get? u base.fixedFrame ∧
        SMap.get? u s'.trajectories = SMap.get? u base.trajectories) ∧
      (∀ id, SMap.get? id s'.landmarks = merged remap (SMap.get? id base.landmarks) (SMap.get? id s.landmarks)) ∧
      s'.nodes = base.nodes ++ s.nodes.map (renamed remap) := by
  have w := wf_run hs
  have wb := wf_run hb
  obtain ⟨tr, lm, e1, htr, hlm, t1, t2, l1⟩ := prefix_load (frozen := false) w wb hf (fun t ht => hl t (Or.inl ht))
  have hmap : ∀ {D : Type} (src m : MapByTime.Map T (T × D)), (∀ t u, SMap.get? t remap = some u → SMap.get? u m = none) →
      (∀ t, (SMap.get? t src).isSome → (SMap.get? t remap).isSome) →
      (∀ e ∈ src, ∃ u, SMap.get? e.1 remap = some u ∧ 0 ≤ u ∧ SMap.get? u m = none) ∧
      (∀ e ∈ src, ∀ e' ∈ src, SMap.get? e.1 remap = SMap.get? e'.1 remap → e.1 = e'.1) := by
    intro D src m hm hk
    refine ⟨fun e he => ?_, fun e he e' he' hee => ?_⟩
    · obtain ⟨u, hu⟩ := Option.isSome_iff_exists.1 (hk e.1 (get?_isSome he))
      exact ⟨u, hu, hf.nonneg _ _ hu, hm _ _ hu⟩
    · obtain ⟨u, hu⟩ := Option.isSome_iff_exists.1 (hk e.1 (get?_isSome he))
      exact hf.inj _ _ u hu (by rw [← hee, hu])
  obtain ⟨mi, i1, i2, i3, i4⟩ := append_map (remap := remap) s.imu base.imu w.imu wb.imu.sorted
    (hmap s.imu base.imu hf.imu (fun t ht => hl t (Or.inr (Or.inl ht)))).1
    (hmap s.imu base.imu hf.imu (fun t ht => hl t (Or.inr (Or.inl ht)))).2
  obtain ⟨mo, o1, o2, o3, o4⟩ := append_map (remap := remap) s.odometry base.odometry w.odometry wb.odometry.sorted
    (hmap s.odometry base.odometry hf.odometry (fun t ht => hl t (Or.inr (Or.inr (Or.inl ht))))).1
    (hmap s.odometry base.odometry hf.odometry (fun t ht => hl t (Or.inr (Or.inr (Or.inl ht))))).2
  obtain ⟨mf, f1, f2, f3, f4⟩ := append_map (remap := remap) s.fixedFrame base.fixedFrame w.fixedFrame wb.fixedFrame.sorted
    (hmap s.fixedFrame base.fixedFrame hf.fixedFrame (fun t ht => hl t (Or.inr (Or.inr (Or.inr (Or.inl ht)))))).1
    (hmap s.fixedFrame base.fixedFrame hf.fixedFrame (fun t ht => hl t (Or.inr (Or.inr (Or.inr (Or.inl ht)))))).2
  obtain ⟨i5, i6⟩ := data_lookup w.imu.sorted hf.inj hf.imu i3 i4
  obtain ⟨o5, o6⟩ := data_lookup w.odometry.sorted hf.inj hf.odometry o3 o4
  obtain ⟨f5, f6⟩ := data_lookup w.fixedFrame.sorted hf.inj hf.fixedFrame f3 f4
  obtain ⟨lm', b1, b2, b3⟩ := landmarks_fold (is3d := is3d) (remap := remap) s.landmarks
    ({ base with
        nodes := base.nodes ++ s.nodes.map (renamed remap)
        trajectories := tr
        landmarks := lm
        imu := mi
        odometry := mo
        fixedFrame := mf } : State T I O F R S)
    (fun e he o ho => hl o.trajectory (Or.inr (Or.inr (Or.inr (Or.inr ⟨e, he, o, ho, rfl⟩))))) w.landmarks hlm
  refine ⟨{ base with
      nodes := base.nodes ++ s.nodes.map (renamed remap)
      trajectories := tr
      landmarks := lm'
      imu := mi
      odometry := mo
      fixedFrame := mf }, ?_, fun t u hu => ⟨i5 t u hu, o5 t u hu, f5 t u hu, t1 t u hu⟩,
    fun u hu => ⟨i6 u hu, o6 u hu, f6 u hu, t2 u hu⟩, fun id => ?_, rfl⟩
  · simp only [load, save, records]
    rw [List.append_assoc, List.append_assoc, List.append_assoc, List.foldlM_append, e1]
    simp only [Option.bind_eq_bind, Option.bind_some]
    rw [List.foldlM_append]
    have himu : (dataRecs Rec.imu s.imu).foldlM (loadRec is3d false remap)
        ({ base with
            nodes := base.nodes ++ s.nodes.map (renamed remap)
            trajectories := tr
            landmarks := lm } : State T I O F R S) =
        some { base with
          nodes := base.nodes ++ s.nodes.map (renamed remap)
          trajectories := tr
          landmarks := lm
          imu := mi } := by
      cases is3d with
      | true =>
        rw [data_fold Rec.imu (fun s m => { s with imu := m }) (·.imu) (fun _ _ => rfl) (fun _ _ _ => rfl) (fun _ => rfl)]
        · dsimp only
          rw [i1]
          rfl
        · intro s t d
          simp only [loadRec, Bool.false_eq_true, if_false, addImu, if_true]
          cases SMap.get? t remap <;> rfl
      | false =>
        have h0 := (w.flat rfl).1
        rw [h0] at i1 ⊢
        simp only [List.flatMap_nil, List.foldlM_nil, pure, Option.some.injEq] at i1
        subst i1
        rfl
    rw [himu]
    simp only [Option.bind_eq_bind, Option.bind_some]
    rw [List.foldlM_append,
      data_fold Rec.odometry (fun s m => { s with odometry := m }) (·.odometry) (fun _ _ => rfl) (fun _ _ _ => rfl) (fun _ => rfl)]
    · dsimp only
      rw [o1]
      simp only [Option.map_some, Option.bind_eq_bind, Option.bind_some]
      rw [List.foldlM_append,
        data_fold Rec.fixedFrame (fun s m => { s with fixedFrame := m }) (·.fixedFrame) (fun _ _ => rfl) (fun _ _ _ => rfl)
          (fun _ => rfl)]
      · dsimp only
        rw [f1]
        simp only [Option.map_some, Option.bind_eq_bind, Option.bind_some]
        exact b1
      · intro s t d
        simp only [loadRec, Bool.false_eq_true, if_false, addFixedFrame]
        cases SMap.get? t remap <;> rfl
    · intro s t d
      simp only [loadRec, Bool.false_eq_true, if_false, addOdometry]
      cases SMap.get? t remap <;> rfl
  · dsimp only
    rw [b3]
    dsimp only
    unfold merged
    cases hsl : SMap.get? id s.landmarks with
    | none => rw [l1, hsl]; rfl
    | some l =>
      dsimp only
      rw [l1, hsl]
      simp only [Option.bind_some]
      have hu := w.used (id, l) (SMap.mem_of_get? hsl)
      cases hp : l.pose with
      | none =>
        have ho : l.observations ≠ [] := by
          rcases hu with h | h
          · exact h
          · exact absurd hp h
        simp [ho]
      | some p =>
        by_cases ho : l.observations = []
        · simp [ho]
        · simp [ho]

/-- **C112.** A map loaded frozen brings its trajectory data and the poses of its landmarks, and no messages or observations. -/
theorem load_frozen {is3d : Bool} {remap : List (Int × Int)} {ops opsBase : List (Op T I O F R S)} {s base : State T I O F R S}
    (hs : run is3d ops = some s) (hb : run is3d opsBase = some base)
    (hf : Fresh remap base) (hl : ∀ t, Basic s t → (SMap.get? t remap).isSome) :
    ∃ s', load is3d true remap base (save s) = some s' ∧
      s'.imu = base.imu ∧ s'.odometry = base.odometry ∧ s'.fixedFrame = base.fixedFrame ∧
      (∀ t u, SMap.get? t remap = some u → SMap.get? u s'.trajectories = SMap.get? t s.trajectories) ∧
      (∀ u, (∀ t, SMap.get? t remap ≠ some u) → SMap.get? u s'.trajectories = SMap.get? u base.trajectories) ∧
      (∀ id, SMap.get? id s'.landmarks = match (SMap.get? id s.landmarks).bind (·.pose) with
        | none => SMap.get? id base.landmarks
        | some p => some { (SMap.get? id base.landmarks).getD {} with pose := some p, frozen := true }) := by
  obtain ⟨tr, lm, e1, htr, hlm, t1, t2, l1⟩ := prefix_load (frozen := true) (wf_run hs) (wf_run hb) hf hl
  refine ⟨{ base with
      nodes := base.nodes ++ s.nodes.map (renamed remap)
      trajectories := tr
      landmarks := lm }, ?_, rfl, rfl, rfl, t1, t2, l1⟩
  simp only [load, save, records]
  rw [List.append_assoc, List.append_assoc, List.append_assoc, List.foldlM_append, e1]
  simp only [Option.bind_eq_bind, Option.bind_some]
  refine foldlM_skip _ _ _ (fun x hx => ?_)
  simp only [dataRecs, List.mem_append, List.mem_flatMap, List.mem_map] at hx
  rcases hx with ⟨_, _, _, _, rfl⟩ | ⟨_, _, _, _, rfl⟩ | ⟨_, _, _, _, rfl⟩ | ⟨_, _, _, _, rfl⟩ <;> rfl

/-- **C112.** A file can only be loaded if each trajectory with data of any kind is among those that got a new id, also if only a
landmark was seen from it. -/
theorem load_needs {is3d : Bool} {remap : List (Int × Int)} {ops : List (Op T I O F R S)} {s base s' : State T I O F R S}
    (hs : run is3d ops = some s) (h : load is3d false remap base (save s) = some s') {t : Int} (ht : Known s t) :
    (SMap.get? t remap).isSome := by
  have w := wf_run hs
  have hmem := foldlM_mem _ _ h
  have key : ∀ r ∈ records s, (∃ c, r = .node t ∨ r = .trajectoryData t c) ∨ (∃ d, r = .imu t d) ∨ (∃ d, r = .odometry t d) ∨
      (∃ d, r = .fixedFrame t d) ∨ (∃ time os, r = .landmark t time os) → (SMap.get? t remap).isSome := by
    intro r hr hc
    obtain ⟨a, b, hab⟩ := hmem r hr
    rcases hc with ⟨c, rfl | rfl⟩ | ⟨d, rfl⟩ | ⟨d, rfl⟩ | ⟨d, rfl⟩ | ⟨time, os, rfl⟩ <;>
    · cases hg : SMap.get? t remap with
      | some u => rfl
      | none => simp [loadRec, hg] at hab
  have data : ∀ {D : Type} (f : Int → T × D → Rec T I O F R S) (m : MapByTime.Map T (T × D)), MapByTime.WF Prod.fst m →
      (SMap.get? t m).isSome → ∃ d, f t d ∈ dataRecs f m := by
    intro D f m wm hm
    obtain ⟨v, hv⟩ := Option.isSome_iff_exists.1 hm
    have hv' := SMap.mem_of_get? hv
    obtain ⟨x, hx⟩ := List.exists_mem_of_ne_nil _ (wm.nonempty _ hv')
    exact ⟨x.2, List.mem_flatMap.2 ⟨_, hv', List.mem_map.2 ⟨x, hx, rfl⟩⟩⟩
  rcases ht with (ht | ht) | ht | ht | ht | ⟨e, he, o, ho, rfl⟩
  · refine key (.node t) ?_ (Or.inl ⟨⟨0, 0, 0, 0, 0, none⟩, Or.inl rfl⟩)
    simp [records, ht]
  · obtain ⟨c, hc⟩ := Option.isSome_iff_exists.1 ht
    refine key (.trajectoryData t (calibrationProto c)) ?_ (Or.inl ⟨_, Or.inr rfl⟩)
    have := SMap.mem_of_get? hc
    simp only [records, List.mem_append, List.mem_map]
    exact Or.inl (Or.inl (Or.inl (Or.inl (Or.inr ⟨_, this, rfl⟩))))
  · obtain ⟨d, hd⟩ := data .imu s.imu w.imu ht
    refine key (.imu t d) ?_ (Or.inr (Or.inl ⟨d, rfl⟩))
    simp only [records, List.mem_append]
    exact Or.inl (Or.inl (Or.inl (Or.inr hd)))
  · obtain ⟨d, hd⟩ := data .odometry s.odometry w.odometry ht
    refine key (.odometry t d) ?_ (Or.inr (Or.inr (Or.inl ⟨d, rfl⟩)))
    simp only [records, List.mem_append]
    exact Or.inl (Or.inl (Or.inr hd))
  · obtain ⟨d, hd⟩ := data .fixedFrame s.fixedFrame w.fixedFrame ht
    refine key (.fixedFrame t d) ?_ (Or.inr (Or.inr (Or.inr (Or.inl ⟨d, rfl⟩))))
    simp only [records, List.mem_append]
    exact Or.inl (Or.inr hd)
  · refine key (observationRec e.1 o) ?_ (Or.inr (Or.inr (Or.inr (Or.inr ⟨_, _, rfl⟩))))
    simp only [records, List.mem_append, List.mem_flatMap, List.mem_map]
    exact Or.inr ⟨e, he, o, ho, rfl⟩

/-! ## Saving again -/

/-- The same record for another trajectory. -/
def renameRec (remap : List (Int × Int)) : Rec T I O F R S → Rec T I O F R S
  | .node t => .node (renamed remap t)
  | .trajectoryData t c => .trajectoryData (renamed remap t) c
  | .imu t d => .imu (renamed remap t) d
  | .odometry t d => .odometry (renamed remap t) d
  | .fixedFrame t d => .fixedFrame (renamed remap t) d
  | .landmark t time os => .landmark (renamed remap t) time os

theorem renamed_map {V : Type} {remap : List (Int × Int)} {src m : List (Int × V)} (hs : SMap.Sorted src) (hm : SMap.Sorted m)
    (hk : ∀ e ∈ src, (SMap.get? e.1 remap).isSome)
    (hmono : ∀ t t' u u', SMap.get? t remap = some u → SMap.get? t' remap = some u' → t < t' → u < u')
    (h1 : ∀ t u, SMap.get? t remap = some u → SMap.get? u m = SMap.get? t src)
    (h2 : ∀ u, (∀ t, SMap.get? t remap ≠ some u) → SMap.get? u m = none) :
    m = src.map (fun e => (renamed remap e.1, e.2)) := by
  have hren : ∀ e ∈ src, SMap.get? e.1 remap = some (renamed remap e.1) := by
    intro e he
    obtain ⟨u, hu⟩ := Option.isSome_iff_exists.1 (hk e he)
    simp [renamed, hu]
  have hs' : SMap.Sorted (src.map (fun e => (renamed remap e.1, e.2))) := by
    unfold SMap.Sorted
    rw [List.pairwise_map]
    refine List.Pairwise.imp_of_mem ?_ hs
    intro a b ha hb hab
    exact hmono a.1 b.1 _ _ (hren a ha) (hren b hb) hab
  refine SMap.ext hm hs' (fun u => ?_)
  apply Option.ext
  intro v
  rw [SMap.get?_iff_mem hs']
  constructor
  · intro h
    by_cases hu : ∀ t, SMap.get? t remap ≠ some u
    · rw [h2 u hu] at h; cases h
    · push Not at hu
      obtain ⟨t, ht⟩ := hu
      rw [h1 t u ht] at h
      have hm' := SMap.mem_of_get? h
      refine List.mem_map.2 ⟨(t, v), hm', ?_⟩
      simp [renamed, ht]
  · intro h
    obtain ⟨e, he, hev⟩ := List.mem_map.1 h
    have := hren e he
    cases hev
    rw [h1 _ _ this]
    exact SMap.get?_of_mem hs he

/-- **C112.** Saving, loading into an empty pose graph and saving again gives the same file, up to the ids of the trajectories, if
these are given out in their order. -/
theorem same_file {is3d : Bool} {remap : List (Int × Int)} {ops : List (Op T I O F R S)} {s : State T I O F R S}
    (hs : run is3d ops = some s) (hl : ∀ t, Known s t → (SMap.get? t remap).isSome)
    (h0 : ∀ t u, SMap.get? t remap = some u → 0 ≤ u)
    (hmono : ∀ t t' u u', SMap.get? t remap = some u → SMap.get? t' remap = some u' → t < t' → u < u') :
    ∃ s', load is3d false remap ({} : State T I O F R S) (save s) = some s' ∧
      save s' = ⟨(save s).poses, (save s).recs.map (renameRec remap)⟩ := by
  have hinj : ∀ t t' u, SMap.get? t remap = some u → SMap.get? t' remap = some u → t = t' := by
    intro t t' u h h'
    rcases lt_trichotomy t t' with hlt | he | hlt
    · exact absurd (hmono _ _ _ _ h h' hlt) (lt_irrefl _)
    · exact he
    · exact absurd (hmono _ _ _ _ h' h hlt) (lt_irrefl _)
  have w := wf_run hs
  have hb : run is3d ([] : List (Op T I O F R S)) = some {} := rfl
  obtain ⟨s', e1, e2, e3, e4, e5⟩ := load_saved hs hb
    ⟨hinj, h0, fun _ _ _ => rfl, fun _ _ _ => rfl, fun _ _ _ => rfl, fun _ _ _ => rfl⟩ hl
  have w' := wf_load (wf_run hb) e1
  refine ⟨s', e1, ?_⟩
  have hi := renamed_map w.imu.sorted w'.imu.sorted (fun e he => hl e.1 (Or.inr (Or.inl (get?_isSome he)))) hmono
    (fun t u h => (e2 t u h).1) (fun u h => (e3 u h).1)
  have ho := renamed_map w.odometry.sorted w'.odometry.sorted
    (fun e he => hl e.1 (Or.inr (Or.inr (Or.inl (get?_isSome he))))) hmono
    (fun t u h => (e2 t u h).2.1) (fun u h => (e3 u h).2.1)
  have hf := renamed_map w.fixedFrame.sorted w'.fixedFrame.sorted
    (fun e he => hl e.1 (Or.inr (Or.inr (Or.inr (Or.inl (get?_isSome he)))))) hmono
    (fun t u h => (e2 t u h).2.2.1) (fun u h => (e3 u h).2.2.1)
  have ht := renamed_map w.trajectories w'.trajectories (fun e he => hl e.1 (Or.inl (Or.inr (get?_isSome he)))) hmono
    (fun t u h => (e2 t u h).2.2.2) (fun u h => (e3 u h).2.2.2)
  have hlm : s'.landmarks = s.landmarks.map (fun e => (e.1, ({
      observations := e.2.observations.map (renameObs remap)
      pose := e.2.pose
      frozen := e.2.pose.isSome } : Landmark T R))) := by
    refine SMap.ext w'.landmarks ?_ (fun id => ?_)
    · unfold SMap.Sorted
      rw [List.pairwise_map]
      exact w.landmarks
    · rw [e4]
      have : ∀ l : List (S × Landmark T R), merged remap (SMap.get? id ([] : List (S × Landmark T R))) (SMap.get? id l) =
          SMap.get? id (l.map (fun e => (e.1, ({
            observations := e.2.observations.map (renameObs remap)
            pose := e.2.pose
            frozen := e.2.pose.isSome } : Landmark T R)))) := by
        intro l
        induction l with
        | nil => rfl
        | cons e l ih =>
          obtain ⟨k, x⟩ := e
          simp only [SMap.get?, List.map_cons]
          by_cases hk : k = id
          · simp [hk, merged]
          · simp only [if_neg hk]
            exact ih
      exact this s.landmarks
  simp only [save, records, landmarkPoses, File.mk.injEq]
  rw [hi, ho, hf, ht, hlm, e5]
  constructor
  · rw [List.filterMap_map]
    rfl
  · simp [dataRecs, List.map_flatMap, List.flatMap_map, Function.comp_def, renameRec, observationRec, renameObs]

/-! ## Examples -/

/-- A run in 3D: two trajectories, a landmark seen from both of them, one with a pose and one without. -/
def exampleOps : List (Op (Fin 100) Nat Nat Nat Nat Nat) :=
  [.imu 0 (1, 10), .imu 0 (2, 11), .imu 3 (1, 12), .odometry 3 (5, 20), .fixedFrame 0 (4, 30), .node 0, .node 3,
    .landmark 0 2 [⟨7, 100, 1, 2⟩, ⟨8, 101, 1, 2⟩], .landmark 3 3 [⟨7, 102, 3, 4⟩],
    .solve (fun _ => 97 / 10) (fun _ => (0, 1, 0, 0)) (fun t => if t = 0 then some 40 else none) [(7, 200)]]

/-- The sensor data after this run. -/
def exampleState : State (Fin 100) Nat Nat Nat Nat Nat :=
  { imu := [(0, [(1, 1, 10), (2, 2, 11)]), (3, [(1, 1, 12)])]
    odometry := [(3, [(5, 5, 20)])]
    fixedFrame := [(0, [(4, 4, 30)])]
    landmarks := [(7, { observations := [⟨0, 2, 100, 1, 2⟩, ⟨3, 3, 102, 3, 4⟩], pose := some 200 }),
      (8, { observations := [⟨0, 2, 101, 1, 2⟩] })]
    trajectories := [(0, ⟨97 / 10, (0, 1, 0, 0), some 40⟩), (3, ⟨97 / 10, (0, 1, 0, 0), none⟩)]
    nodes := [0, 3] }

theorem example_run : run true exampleOps = some exampleState := rfl

/-- Loaded next to a trajectory with id 0 that had seen one of the landmarks. -/
example : load true false [(0, 1), (3, 2)]
    ({ landmarks := [(8, { observations := [⟨0, 9, 1, 1, 1⟩] })], trajectories := [(0, {})], nodes := [0] } :
      State (Fin 100) Nat Nat Nat Nat Nat) (save exampleState) =
    some { imu := [(1, [(1, 1, 10), (2, 2, 11)]), (2, [(1, 1, 12)])]
           odometry := [(2, [(5, 5, 20)])]
           fixedFrame := [(1, [(4, 4, 30)])]
           landmarks := [(7, { observations := [⟨1, 2, 100, 1, 2⟩, ⟨2, 3, 102, 3, 4⟩], pose := some 200, frozen := true }),
             (8, { observations := [⟨0, 9, 1, 1, 1⟩, ⟨1, 2, 101, 1, 2⟩] })]
           trajectories := [(0, {}), (1, ⟨97 / 10, (0, 1, 0, 0), some 40⟩), (2, ⟨97 / 10, (0, 1, 0, 0), none⟩)]
           nodes := [0, 1, 2] } := rfl

/-- **C112.** A landmark that was free to move when the map was saved is fixed after loading. -/
theorem landmark_gets_frozen :
    (SMap.get? 7 exampleState.landmarks).map (·.frozen) = some false ∧
    ((load true false [(0, 0), (3, 1)] ({} : State (Fin 100) Nat Nat Nat Nat Nat) (save exampleState)).bind
      (fun s => (SMap.get? 7 s.landmarks).map (·.frozen))) = some true := ⟨rfl, rfl⟩

/-- **C112.** A file of a 3D map can be read by a 2D pose graph as far as these data are concerned, but the IMU data, gravity and
calibration are lost. -/
theorem lost_in_2d :
    (load false false [(0, 0), (3, 1)] ({} : State (Fin 100) Nat Nat Nat Nat Nat) (save exampleState)).map
      (fun s => (s.imu, s.trajectories)) = some ([], [(0, { fixedFrame := some 40 }), (1, {})]) := rfl

/-- The conditions of the theorems hold for the example. -/
example : ∃ s', load true false [(0, 0), (3, 1)] ({} : State (Fin 100) Nat Nat Nat Nat Nat) (save exampleState) = some s' ∧
    save s' = ⟨(save exampleState).poses, (save exampleState).recs.map (renameRec [(0, 0), (3, 1)])⟩ := by
  have hg : ∀ t u, SMap.get? t [((0 : Int), (0 : Int)), (3, 1)] = some u → (t = 0 ∧ u = 0) ∨ (t = 3 ∧ u = 1) := by
    intro t u h
    have := SMap.mem_of_get? h
    simpa using this
  refine same_file example_run ?_ ?_ ?_
  · intro t ht
    have : t = 0 ∨ t = 3 := by
      rcases ht with (h | h) | h | h | h | ⟨e, he, o, ho, rfl⟩
      · simpa [exampleState] using h
      · obtain ⟨c, hc⟩ := Option.isSome_iff_exists.1 h
        have := SMap.mem_of_get? hc
        simp [exampleState] at this
        omega
      · obtain ⟨c, hc⟩ := Option.isSome_iff_exists.1 h
        have := SMap.mem_of_get? hc
        simp [exampleState] at this
        omega
      · obtain ⟨c, hc⟩ := Option.isSome_iff_exists.1 h
        have := SMap.mem_of_get? hc
        simp [exampleState] at this
        omega
      · obtain ⟨c, hc⟩ := Option.isSome_iff_exists.1 h
        have := SMap.mem_of_get? hc
        simp [exampleState] at this
        omega
      · simp [exampleState] at he
        rcases he with rfl | rfl <;> simp at ho
        · rcases ho with rfl | rfl <;> simp
        · simp [ho]
    rcases this with rfl | rfl <;> rfl
  · intro t u h
    rcases hg t u h with ⟨_, rfl⟩ | ⟨_, rfl⟩ <;> decide
  · intro t t' u u' h h' hlt
    rcases hg t u h with ⟨rfl, rfl⟩ | ⟨rfl, rfl⟩ <;> rcases hg t' u' h' with ⟨rfl, rfl⟩ | ⟨rfl, rfl⟩ <;> omega

end Verif.SavedSensors
