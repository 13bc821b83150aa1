import Verif.SavedSensors
import Verif.Props.MapByTime

/-! # Lemmas about saved sensor data: what each group of records does -/

namespace Verif.SavedSensors

set_option linter.unusedSectionVars false

variable {T I O F R S D : Type} [LinearOrder T] [BoundedOrder T] [LinearOrder S]

/-- The new id of a trajectory. -/
def renamed (remap : List (Int × Int)) (t : Int) : Int := (SMap.get? t remap).getD t

theorem put_last {V : Type} {k : T} {v : V} {l : List (T × V)} (h : ∀ e ∈ l, e.1 < k) : SMap.put k v l = l ++ [(k, v)] := by
  induction l with
  | nil => rfl
  | cons e l ih =>
    have h1 := h e (List.mem_cons_self ..)
    have h2 := ih (fun x hx => h x (List.mem_cons_of_mem _ hx))
    obtain ⟨k', v'⟩ := e
    simp only [SMap.put, List.cons_append]
    rw [if_neg (not_lt.2 h1.le), if_neg h1.ne, h2]

/-- Messages of one trajectory, appended one after the other. -/
theorem append_all {u : Int} (hu : 0 ≤ u) (xs : List (T × (T × D))) :
    ∀ (m : MapByTime.Map T (T × D)) (pre : List (T × (T × D))), (SMap.get? u m).getD [] = pre → SMap.Sorted m →
      SMap.Sorted (pre ++ xs) → (∀ x ∈ xs, x.1 = x.2.1) →
      ∃ m', (xs.map (·.2)).foldlM (fun m d => MapByTime.append Prod.fst m u d) m = some m' ∧ SMap.Sorted m' ∧
        ∀ v, SMap.get? v m' = if v = u ∧ xs ≠ [] then some (pre ++ xs) else SMap.get? v m := by
  induction xs with
  | nil => intro m pre _ hm _ _; exact ⟨m, rfl, hm, fun v => by simp⟩
  | cons x xs ih =>
    intro m pre hp hm hs hk
    have hx : x.1 = x.2.1 := hk x (List.mem_cons_self ..)
    have hlt : ∀ e ∈ pre, e.1 < x.2.1 := by
      intro e he
      rw [← hx]
      exact (List.pairwise_append.1 hs).2.2 e he x (List.mem_cons_self ..)
    have happ : MapByTime.append Prod.fst m u x.2 = some (SMap.put u (pre ++ [x]) m) := by
      have hput : SMap.put x.2.1 x.2 pre = pre ++ [x] := by
        rw [put_last hlt, ← hx]
      simp only [MapByTime.append, if_neg (not_lt.2 hu), hp, hput]
      cases hl : pre.getLast? with
      | none => rfl
      | some l =>
        have : l ∈ pre := List.mem_of_getLast? hl
        simp only [if_pos (hlt l this)]
    obtain ⟨m', h1, h2, h3⟩ := ih (SMap.put u (pre ++ [x]) m) (pre ++ [x]) (by rw [SMap.get?_put]; simp)
      (SMap.sorted_put hm) (by simpa using hs) (fun y hy => hk y (List.mem_cons_of_mem _ hy))
    refine ⟨m', ?_, h2, fun v => ?_⟩
    · rw [List.map_cons, List.foldlM_cons, happ]
      exact h1
    · rw [h3, SMap.get?_put]
      by_cases hv : v = u
      · subst hv
        by_cases hx' : xs = []
        · subst hx'; simp
        · simp [hx']
      · simp [hv, Ne.symm hv]

/-- All messages of a `MapByTime`, appended under other ids. -/
theorem append_map {remap : List (Int × Int)} (src : MapByTime.Map T (T × D)) :
    ∀ (m : MapByTime.Map T (T × D)), MapByTime.WF Prod.fst src → SMap.Sorted m →
      (∀ e ∈ src, ∃ u, SMap.get? e.1 remap = some u ∧ 0 ≤ u ∧ SMap.get? u m = none) →
      (∀ e ∈ src, ∀ e' ∈ src, SMap.get? e.1 remap = SMap.get? e'.1 remap → e.1 = e'.1) →
      ∃ m', (src.flatMap (fun e => e.2.map (fun x => (e.1, x.2)))).foldlM
          (fun m x => (SMap.get? x.1 remap).bind (fun u => MapByTime.append Prod.fst m u x.2)) m = some m' ∧
        SMap.Sorted m' ∧
        (∀ e ∈ src, ∀ u, SMap.get? e.1 remap = some u → SMap.get? u m' = some e.2) ∧
        (∀ u, (∀ e ∈ src, SMap.get? e.1 remap ≠ some u) → SMap.get? u m' = SMap.get? u m) := by
  induction src with
  | nil => intro m _ hm _ _; exact ⟨m, rfl, hm, by simp, fun u _ => rfl⟩
  | cons e src ih =>
    intro m w hm hmap hinj
    obtain ⟨u, hu, h0, hf⟩ := hmap e (List.mem_cons_self ..)
    have wt : MapByTime.WF Prod.fst src := ⟨w.sorted.tail, fun x hx => w.nonneg x (List.mem_cons_of_mem _ hx),
      fun x hx => w.dsorted x (List.mem_cons_of_mem _ hx), fun x hx => w.nonempty x (List.mem_cons_of_mem _ hx),
      fun x hx => w.keys x (List.mem_cons_of_mem _ hx)⟩
    obtain ⟨m1, h1, h2, h3⟩ := append_all h0 e.2 m [] (by rw [hf]; rfl) hm
      (by simpa using w.dsorted e (List.mem_cons_self ..)) (w.keys e (List.mem_cons_self ..))
    have hne := w.nonempty e (List.mem_cons_self ..)
    have hu1 : SMap.get? u m1 = some e.2 := by rw [h3]; simp [hne]
    have hno : ∀ e' ∈ src, SMap.get? e'.1 remap ≠ some u := by
      intro e' he' hc
      have := hinj e (List.mem_cons_self ..) e' (List.mem_cons_of_mem _ he') (by rw [hu, hc])
      exact absurd this (ne_of_lt (w.sorted.head e' he'))
    obtain ⟨m', g1, g2, g3, g4⟩ := ih m1 wt h2 (by
      intro e' he'
      obtain ⟨v, hv, hv0, hvf⟩ := hmap e' (List.mem_cons_of_mem _ he')
      refine ⟨v, hv, hv0, ?_⟩
      have : v ≠ u := fun hc => hno e' he' (by rw [hv, hc])
      rw [h3]; simp [this, hvf])
      (fun a ha b hb => hinj a (List.mem_cons_of_mem _ ha) b (List.mem_cons_of_mem _ hb))
    refine ⟨m', ?_, g2, ?_, ?_⟩
    · rw [List.flatMap_cons, List.foldlM_append]
      have : (e.2.map (fun x => (e.1, x.2))).foldlM
          (fun m (x : Int × (T × D)) => (SMap.get? x.1 remap).bind (fun u => MapByTime.append Prod.fst m u x.2)) m = some m1 := by
        rw [← h1, List.foldlM_map, List.foldlM_map]
        simp only [hu, Option.bind_some]
      rw [this]
      exact g1
    · intro e' he' v hv
      rcases List.mem_cons.1 he' with rfl | he'
      · rw [hu] at hv
        cases hv
        rw [g4 u hno, hu1]
      · exact g3 e' he' v hv
    · intro v hv
      rw [g4 v (fun e' he' => hv e' (List.mem_cons_of_mem _ he')), h3]
      have : v ≠ u := by
        rintro rfl
        exact hv e (List.mem_cons_self ..) hu
      simp [this]

/-- A group of records that changes only one field. -/
theorem foldlM_field {α β σ : Type} (f : σ → β → Option σ) (g : α → β → Option α) (set : σ → α → σ) (get : σ → α)
    (hset : ∀ s a, get (set s a) = a) (hset2 : ∀ s a b, set (set s a) b = set s b) (hid : ∀ s, set s (get s) = s)
    (hf : ∀ s x, f s x = (g (get s) x).map (set s)) (l : List β) :
    ∀ s, l.foldlM f s = (l.foldlM g (get s)).map (set s) := by
  induction l with
  | nil => intro s; simp [hid]
  | cons x l ih =>
    intro s
    rw [List.foldlM_cons, List.foldlM_cons, hf]
    cases hg : g (get s) x with
    | none => rfl
    | some a =>
      simp only [Option.map_some, Option.bind_eq_bind, Option.bind_some]
      rw [ih, hset]
      congr 1
      funext b
      exact hset2 s a b

/-- Records that change nothing. -/
theorem foldlM_skip {β σ : Type} (f : σ → β → Option σ) (l : List β) (s : σ) (h : ∀ x ∈ l, f s x = some s) :
    l.foldlM f s = some s := by
  induction l with
  | nil => rfl
  | cons x l ih =>
    rw [List.foldlM_cons, h x (List.mem_cons_self ..)]
    exact ih (fun y hy => h y (List.mem_cons_of_mem _ hy))

theorem foldlM_mem {β σ : Type} (f : σ → β → Option σ) (l : List β) : ∀ {s s' : σ}, l.foldlM f s = some s' →
    ∀ x ∈ l, ∃ a b, f a x = some b := by
  induction l with
  | nil => intro s s' _ x hx; cases hx
  | cons y l ih =>
    intro s s' h x hx
    rw [List.foldlM_cons] at h
    cases hy : f s y with
    | none => rw [hy] at h; cases h
    | some a =>
      rw [hy] at h
      rcases List.mem_cons.1 hx with rfl | hx
      · exact ⟨s, a, hy⟩
      · exact ih h x hx

/-! ## Nodes and trajectory data -/

theorem nodes_fold {is3d frozen : Bool} {remap : List (Int × Int)} (ts : List Int) :
    ∀ (s : State T I O F R S), (∀ t ∈ ts, (SMap.get? t remap).isSome) → SMap.Sorted s.trajectories →
      ∃ tr, (ts.map Rec.node).foldlM (loadRec is3d frozen remap) s =
          some { s with nodes := s.nodes ++ ts.map (renamed remap), trajectories := tr } ∧ SMap.Sorted tr ∧
        ∀ u, SMap.get? u tr =
          if SMap.get? u s.trajectories = none ∧ u ∈ ts.map (renamed remap) then some {} else SMap.get? u s.trajectories := by
  induction ts with
  | nil => intro s _ hs; exact ⟨s.trajectories, by simp, hs, fun u => by simp⟩
  | cons t ts ih =>
    intro s h hs
    obtain ⟨u, hu⟩ := Option.isSome_iff_exists.1 (h t (List.mem_cons_self ..))
    have hr : renamed remap t = u := by simp [renamed, hu]
    have hs' : SMap.Sorted (addNode s u).trajectories := by
      simp only [addNode]
      split
      · exact hs
      · exact SMap.sorted_put hs
    obtain ⟨tr, h1, h2, h3⟩ := ih (addNode s u) (fun x hx => h x (List.mem_cons_of_mem _ hx)) hs'
    refine ⟨tr, ?_, h2, fun v => ?_⟩
    · rw [List.map_cons, List.foldlM_cons]
      simp only [loadRec, hu, Option.map_some, Option.bind_eq_bind, Option.bind_some]
      rw [h1]
      simp [addNode, hr]
    · rw [h3]
      have hk : (SMap.get? u s.trajectories ≠ none → SMap.get? v (addNode s u).trajectories = SMap.get? v s.trajectories) ∧
          (SMap.get? u s.trajectories = none → SMap.get? v (addNode s u).trajectories =
            if v = u then some {} else SMap.get? v s.trajectories) := by
        simp only [addNode]
        constructor
        · intro hne
          rw [if_pos (Option.ne_none_iff_isSome.1 hne)]
        · intro he
          rw [if_neg (by simp [he]), SMap.get?_put]
          simp [eq_comm]
      simp only [List.map_cons, List.mem_cons, hr]
      by_cases hg : SMap.get? u s.trajectories = none
      · rw [hk.2 hg]
        by_cases hv : v = u
        · subst hv; simp [hg]
        · simp [hv]
      · rw [hk.1 hg]
        by_cases hv : v = u
        · subst hv; simp [hg]
        · simp [hv]

theorem calibration_fold {is3d frozen : Bool} {remap : List (Int × Int)} (cs : List (Int × Calibration R)) :
    ∀ (s : State T I O F R S), (∀ e ∈ cs, (SMap.get? e.1 remap).isSome) → SMap.Sorted s.trajectories → SMap.Sorted cs →
      (∀ e ∈ cs, ∀ e' ∈ cs, SMap.get? e.1 remap = SMap.get? e'.1 remap → e.1 = e'.1) →
      ∃ tr, (cs.map (fun e => Rec.trajectoryData e.1 (calibrationProto e.2))).foldlM (loadRec is3d frozen remap) s =
          some { s with trajectories := tr } ∧ SMap.Sorted tr ∧
        (∀ e ∈ cs, ∀ u, SMap.get? e.1 remap = some u → SMap.get? u tr =
          if is3d then some e.2
          else match e.2.fixedFrame with
            | none => SMap.get? u s.trajectories
            | some p => some { fixedFrame := some p }) ∧
        (∀ u, (∀ e ∈ cs, SMap.get? e.1 remap ≠ some u) → SMap.get? u tr = SMap.get? u s.trajectories) := by
  induction cs with
  | nil => intro s _ hs _ _; exact ⟨s.trajectories, by simp, hs, by simp, fun u _ => rfl⟩
  | cons e cs ih =>
    intro s h hs hc hinj
    obtain ⟨u, hu⟩ := Option.isSome_iff_exists.1 (h e (List.mem_cons_self ..))
    have hset : ∃ tr1, setTrajectoryData is3d s u (calibrationProto e.2) = { s with trajectories := tr1 } ∧ SMap.Sorted tr1 ∧
        (SMap.get? u tr1 = if is3d then some e.2
          else match e.2.fixedFrame with
            | none => SMap.get? u s.trajectories
            | some p => some { fixedFrame := some p }) ∧
        ∀ v, v ≠ u → SMap.get? v tr1 = SMap.get? v s.trajectories := by
      cases is3d with
      | true =>
        refine ⟨SMap.put u e.2 s.trajectories, rfl, SMap.sorted_put hs, ?_, fun v hv => ?_⟩
        · rw [SMap.get?_put]; simp
        · rw [SMap.get?_put]; simp [Ne.symm hv]
      | false =>
        cases hff : e.2.fixedFrame with
        | none => exact ⟨s.trajectories, by simp [setTrajectoryData, calibrationProto, hff], hs, by simp, fun v _ => rfl⟩
        | some p =>
          refine ⟨SMap.put u { fixedFrame := some p } s.trajectories, by simp [setTrajectoryData, calibrationProto, hff],
            SMap.sorted_put hs, ?_, fun v hv => ?_⟩
          · rw [SMap.get?_put]; simp
          · rw [SMap.get?_put]; simp [Ne.symm hv]
    obtain ⟨tr1, k1, k2, k3, k4⟩ := hset
    have hno : ∀ e' ∈ cs, SMap.get? e'.1 remap ≠ some u := by
      intro e' he' hcc
      have := hinj e (List.mem_cons_self ..) e' (List.mem_cons_of_mem _ he') (by rw [hu, hcc])
      exact absurd this (ne_of_lt (hc.head e' he'))
    obtain ⟨tr, h1, h2, h3, h4⟩ := ih { s with trajectories := tr1 } (fun x hx => h x (List.mem_cons_of_mem _ hx)) k2 hc.tail
      (fun a ha b hb => hinj a (List.mem_cons_of_mem _ ha) b (List.mem_cons_of_mem _ hb))
    refine ⟨tr, ?_, h2, ?_, ?_⟩
    · rw [List.map_cons, List.foldlM_cons]
      simp only [loadRec, hu, Option.map_some, Option.bind_eq_bind, Option.bind_some]
      rw [k1]
      exact h1
    · intro e' he' v hv
      rcases List.mem_cons.1 he' with rfl | he'
      · rw [hu] at hv
        cases hv
        rw [h4 u hno]
        exact k3
      · rw [h3 e' he' v hv]
        have : v ≠ u := fun hcc => hno e' he' (by rw [hv, hcc])
        simp only [k4 v this]
    · intro v hv
      rw [h4 v (fun e' he' => hv e' (List.mem_cons_of_mem _ he'))]
      exact k4 v (fun hcc => hv e (List.mem_cons_self ..) (by rw [hu, hcc]))

/-! ## Sensor data -/

theorem data_fold {is3d : Bool} {remap : List (Int × Int)} (f : Int → T × D → Rec T I O F R S)
    (set : State T I O F R S → MapByTime.Map T (T × D) → State T I O F R S) (get : State T I O F R S → MapByTime.Map T (T × D))
    (hset : ∀ s a, get (set s a) = a) (hset2 : ∀ s a b, set (set s a) b = set s b) (hid : ∀ s, set s (get s) = s)
    (hf : ∀ s t d, loadRec is3d false remap s (f t d) =
      ((SMap.get? t remap).bind (fun u => MapByTime.append Prod.fst (get s) u d)).map (set s))
    (s : State T I O F R S) (m : MapByTime.Map T (T × D)) :
    (dataRecs f m).foldlM (loadRec is3d false remap) s =
      ((m.flatMap (fun e => e.2.map (fun x => (e.1, x.2)))).foldlM
        (fun m x => (SMap.get? x.1 remap).bind (fun u => MapByTime.append Prod.fst m u x.2)) (get s)).map (set s) := by
  have : dataRecs f m = (m.flatMap (fun e => e.2.map (fun x => (e.1, x.2)))).map (fun x => f x.1 x.2) := by
    simp [dataRecs, List.map_flatMap, Function.comp_def]
  rw [this, List.foldlM_map]
  exact foldlM_field (fun s (x : Int × (T × D)) => loadRec is3d false remap s (f x.1 x.2)) _ set get hset hset2 hid
    (fun s x => hf s x.1 x.2) _ s

/-! ## Landmarks -/

/-- An observation under the new id of its trajectory. -/
def renameObs (remap : List (Int × Int)) (o : Observation T R) : Observation T R :=
  { o with trajectory := renamed remap o.trajectory }

theorem observations_fold {is3d : Bool} {remap : List (Int × Int)} {id : S} (os : List (Observation T R)) :
    ∀ (s : State T I O F R S), (∀ o ∈ os, (SMap.get? o.trajectory remap).isSome) → SMap.Sorted s.landmarks →
      ∃ lm, (os.map (observationRec id)).foldlM (loadRec is3d false remap) s = some { s with landmarks := lm } ∧
        SMap.Sorted lm ∧
        ∀ v, SMap.get? v lm = if v = id ∧ os ≠ [] then
            some { (SMap.get? id s.landmarks).getD {} with
              observations := ((SMap.get? id s.landmarks).getD {}).observations ++ os.map (renameObs remap) }
          else SMap.get? v s.landmarks := by
  induction os with
  | nil => intro s _ hs; exact ⟨s.landmarks, rfl, hs, fun v => by simp⟩
  | cons o os ih =>
    intro s h hs
    obtain ⟨u, hu⟩ := Option.isSome_iff_exists.1 (h o (List.mem_cons_self ..))
    obtain ⟨lm, h1, h2, h3⟩ := ih (addLandmarks s u o.time [⟨id, o.pose, o.translationWeight, o.rotationWeight⟩])
      (fun x hx => h x (List.mem_cons_of_mem _ hx)) (SMap.sorted_put hs)
    have hr : renameObs remap o = ⟨u, o.time, o.pose, o.translationWeight, o.rotationWeight⟩ := by
      simp [renameObs, renamed, hu]
    refine ⟨lm, ?_, h2, fun v => ?_⟩
    · rw [List.map_cons, List.foldlM_cons]
      simp only [observationRec, loadRec, hu, Option.map_some, Option.bind_eq_bind, Option.bind_some,
        Bool.false_eq_true, if_false]
      exact h1
    · rw [h3]
      simp only [addLandmarks, addObservation, List.foldl_cons, List.foldl_nil, SMap.get?_put, if_true, Option.getD_some]
      by_cases hv : v = id
      · subst hv
        by_cases ho : os = []
        · subst ho; simp [hr]
        · simp [ho, hr]
      · simp [hv, Ne.symm hv]

theorem landmarks_fold {is3d : Bool} {remap : List (Int × Int)} (ls : List (S × Landmark T R)) :
    ∀ (s : State T I O F R S), (∀ e ∈ ls, ∀ o ∈ e.2.observations, (SMap.get? o.trajectory remap).isSome) →
      SMap.Sorted ls → SMap.Sorted s.landmarks →
      ∃ lm, (ls.flatMap (fun e => e.2.observations.map (observationRec e.1))).foldlM (loadRec is3d false remap) s =
          some { s with landmarks := lm } ∧ SMap.Sorted lm ∧
        ∀ v, SMap.get? v lm = match SMap.get? v ls with
          | none => SMap.get? v s.landmarks
          | some l => if l.observations = [] then SMap.get? v s.landmarks else
              some { (SMap.get? v s.landmarks).getD {} with
                observations := ((SMap.get? v s.landmarks).getD {}).observations ++ l.observations.map (renameObs remap) } := by
  induction ls with
  | nil => intro s _ _ hs; exact ⟨s.landmarks, rfl, hs, fun v => rfl⟩
  | cons e ls ih =>
    intro s h hl hs
    obtain ⟨lm1, a1, a2, a3⟩ := observations_fold (is3d := is3d) (remap := remap) (id := e.1) e.2.observations s
      (h e (List.mem_cons_self ..)) hs
    obtain ⟨lm, h1, h2, h3⟩ := ih { s with landmarks := lm1 } (fun x hx => h x (List.mem_cons_of_mem _ hx)) hl.tail a2
    refine ⟨lm, ?_, h2, fun v => ?_⟩
    · rw [List.flatMap_cons, List.foldlM_append, a1]
      exact h1
    · rw [h3]
      obtain ⟨k, l⟩ := e
      simp only [SMap.get?]
      by_cases hv : k = v
      · subst hv
        have hn : SMap.get? k ls = none := by
          rw [SMap.get?_eq_none]
          intro x hx
          exact (ne_of_lt (hl.head x hx)).symm
        rw [hn]
        simp only [if_true, a3]
        by_cases ho : l.observations = []
        · simp [ho]
        · simp [ho]
      · have hl1 : SMap.get? v lm1 = SMap.get? v s.landmarks := by rw [a3]; simp [Ne.symm hv]
        simp only [if_neg hv, hl1]

theorem poses_fold (ps : List (S × R)) : ∀ (s : State T I O F R S), SMap.Sorted ps → SMap.Sorted s.landmarks →
    ∃ lm, ps.foldl (fun s p => setLandmarkPose s p.1 p.2 true) s = { s with landmarks := lm } ∧ SMap.Sorted lm ∧
      ∀ v, SMap.get? v lm = match SMap.get? v ps with
        | none => SMap.get? v s.landmarks
        | some p => some { (SMap.get? v s.landmarks).getD {} with pose := some p, frozen := true } := by
  induction ps with
  | nil => intro s _ hs; exact ⟨s.landmarks, rfl, hs, fun v => rfl⟩
  | cons e ps ih =>
    intro s hp hs
    obtain ⟨k, p⟩ := e
    obtain ⟨lm, h1, h2, h3⟩ := ih (setLandmarkPose s k p true) hp.tail (SMap.sorted_put hs)
    refine ⟨lm, h1, h2, fun v => ?_⟩
    rw [h3]
    simp only [setLandmarkPose, SMap.get?_put, SMap.get?]
    by_cases hv : k = v
    · subst hv
      have hn : SMap.get? k ps = none := by
        rw [SMap.get?_eq_none]
        intro x hx
        exact (ne_of_lt (hp.head x hx)).symm
      simp [hn]
    · simp [hv]

theorem landmarkPoses_sorted {ls : List (S × Landmark T R)} (h : SMap.Sorted ls) :
    SMap.Sorted (ls.filterMap (fun e => e.2.pose.map (fun p => (e.1, p)))) := by
  unfold SMap.Sorted
  rw [List.pairwise_filterMap]
  refine h.imp ?_
  intro a b hab x hx y hy
  simp only [Option.map_eq_some_iff] at hx hy
  obtain ⟨_, _, rfl⟩ := hx
  obtain ⟨_, _, rfl⟩ := hy
  exact hab

theorem landmarkPoses_get {ls : List (S × Landmark T R)} (h : SMap.Sorted ls) (v : S) :
    SMap.get? v (ls.filterMap (fun e => e.2.pose.map (fun p => (e.1, p)))) = (SMap.get? v ls).bind (·.pose) := by
  induction ls with
  | nil => rfl
  | cons e ls ih =>
    obtain ⟨k, l⟩ := e
    have hn : k = v → SMap.get? v ls = none := by
      rintro rfl
      rw [SMap.get?_eq_none]
      intro x hx
      exact (ne_of_lt (h.head x hx)).symm
    simp only [SMap.get?]
    cases hp : l.pose with
    | none =>
      rw [List.filterMap_cons_none (by simp [hp]), ih h.tail]
      by_cases hv : k = v
      · simp [hv, hn hv, hp]
      · simp [hv]
    | some p =>
      rw [List.filterMap_cons_some (b := (k, p)) (by simp [hp])]
      simp only [SMap.get?]
      by_cases hv : k = v
      · simp [hv, hp]
      · simp [hv, ih h.tail]

end Verif.SavedSensors
