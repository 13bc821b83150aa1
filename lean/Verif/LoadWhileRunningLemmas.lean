import Verif.LoadWhileRunning
import Verif.Props.MapBuilder

/-!
# Loading a map while the pose graph is in use: lemmas

Steps of the rest of the program do not change anything of the trajectories being loaded.
-/

namespace Verif.Loading

open PoseGraph
open MapById (Id Map at? WF)

variable {P : Type} {mine : Int → Bool}

/-- Constraints within the trajectories being loaded. -/
def inner (mine : Int → Bool) (c : Constraint P) : Bool := mine c.node.1 && mine c.submap.1

/-- The same for the trajectories being loaded. -/
structure SameF (mine : Int → Bool) (s s' : State P) : Prop where
  trajs : ∀ t, mine t = true → SMap.get? t s'.trajs = SMap.get? t s.trajs
  submaps : ∀ id : Id, mine id.1 = true → at? s'.submaps id = at? s.submaps id
  nodes : ∀ id : Id, mine id.1 = true → at? s'.nodes id = at? s.nodes id
  optSubmaps : ∀ id : Id, mine id.1 = true → at? s'.optSubmaps id = at? s.optSubmaps id
  optNodes : ∀ id : Id, mine id.1 = true → at? s'.optNodes id = at? s.optNodes id
  constraints : s'.constraints.filter (inner mine) = s.constraints.filter (inner mine)

theorem SameF.refl (s : State P) : SameF mine s s := ⟨fun _ _ => rfl, fun _ _ => rfl, fun _ _ => rfl, fun _ _ => rfl, fun _ _ => rfl, rfl⟩

theorem SameF.trans {s s' s'' : State P} (h : SameF mine s s') (h' : SameF mine s' s'') : SameF mine s s'' :=
  ⟨fun t m => (h'.trajs t m).trans (h.trajs t m), fun t m => (h'.submaps t m).trans (h.submaps t m), fun t m => (h'.nodes t m).trans (h.nodes t m),
    fun t m => (h'.optSubmaps t m).trans (h.optSubmaps t m), fun t m => (h'.optNodes t m).trans (h.optNodes t m), h'.constraints.trans h.constraints⟩

/-- Steps of the rest of the program that do not trim submaps being loaded. -/
def Calm (mine : Int → Bool) (s : State P) : Act P → Prop
  | .addNode t _ _ | .deleteTrajectory t => mine t = false
  | .addSubmapFromProto id _ | .addNodeFromProto id => mine id.1 = false
  | .post item => otherItem mine item = true
  | .trim choices => ∀ l ∈ choices, ∀ id ∈ l, mine id.1 = true → at? s.submaps id = none
  | _ => True

/-- Steps that do not name the trajectories being loaded, except for what trimmers choose. -/
def Elsewhere (mine : Int → Bool) : Act P → Prop
  | .addNode t _ _ | .deleteTrajectory t => mine t = false
  | .addSubmapFromProto id _ | .addNodeFromProto id => mine id.1 = false
  | .post item => otherItem mine item = true
  | _ => True

theorem Other.elsewhere {s : State P} {b : Act P} (h : Other mine s b) : Elsewhere mine b := by
  cases b <;> first | exact h | trivial

/-- Nothing of the rest of the program refers to the trajectories being loaded. -/
structure Apart (mine : Int → Bool) (s : State P) : Prop where
  queue : ∀ i ∈ s.queue, ownItem mine i = true ∨ otherItem mine i = true
  inflight : ∀ i ∈ s.inflight, ownItem mine i = true ∨ otherItem mine i = true
  trimmers : ∀ tr ∈ s.trimmers, otherTrimmer mine tr = true
  members : ∀ id sm, at? s.submaps id = some sm → ∀ n ∈ sm.nodeIds, mine n.1 = mine id.1
  searches : ∀ x ∈ s.searches, (mine x.1.1 && mine x.2.1) = false
  todo : ∀ todo, s.worker = .searching todo → ∀ x ∈ todo, (mine x.1.1 && mine x.2.1) = false
  deletion : ∀ t, mine t = true → (trajOf s.trajs t).deletion = .normal

theorem Apart.init : Apart mine ({} : State P) :=
  ⟨by simp, by simp, by simp, (by intro id sm h; simp [at?, SMap.get?] at h), by simp, (by intro t h; simp at h), fun _ _ => rfl⟩

/-! ### Trajectories -/

theorem put_same {V : Type} {l : List (Int × V)} {t t' : Int} {v : V} (ht : mine t = false) (ht' : mine t' = true) : SMap.get? t' (SMap.put t v l) = SMap.get? t' l := by
  rw [SMap.get?_put, if_neg]
  rintro rfl
  rw [ht] at ht'
  cases ht'

theorem trajOf_same {l l' : List (Int × TrajState)} {t : Int} (h : SMap.get? t l' = SMap.get? t l) : trajOf l' t = trajOf l t := by
  unfold trajOf
  rw [h]

theorem addIfNeeded_same {l l' : List (Int × TrajState)} {t t' : Int} (ht : mine t = false) (ht' : mine t' = true) (h : addTrajectoryIfNeeded l t = some l') :
    SMap.get? t' l' = SMap.get? t' l := by
  unfold addTrajectoryIfNeeded at h
  simp only at h
  split at h
  · cases h
  · split at h
    · cases h
    · split at h
      · cases h
      · obtain rfl := Option.some.inj h
        exact put_same ht ht'

/-! ### Maps -/

theorem append_same {D : Type} {m m' : Map D} (hm : WF m) {t : Int} {d : D} {id : Id} (h : MapById.append m t d = some (m', id)) (ht : mine t = false) {i : Id} (hi : mine i.1 = true) :
    at? m' i = at? m i := by
  obtain ⟨_, h1, _, q⟩ := MapById.append_spec hm h
  rw [q, if_neg]
  rintro rfl
  rw [h1, ht] at hi
  cases hi

theorem insert_same {D : Type} {m m' : Map D} (hm : WF m) {d : D} {id : Id} (h : MapById.insert m id d = some m') (ht : mine id.1 = false) {i : Id} (hi : mine i.1 = true) :
    at? m' i = at? m i := by
  obtain ⟨_, _, q⟩ := MapById.insert_spec hm h
  rw [q, if_neg]
  rintro rfl
  rw [ht] at hi
  cases hi

theorem assign_same {D : Type} {m m' : Map D} (hm : WF m) {d : D} {id : Id} (h : MapById.assign m id d = some m') (ht : mine id.1 = false) {i : Id} (hi : mine i.1 = true) :
    at? m' i = at? m i := by
  obtain ⟨_, _, q⟩ := MapById.assign_spec hm h
  rw [q, if_neg]
  rintro rfl
  rw [ht] at hi
  cases hi

theorem trim_same {D : Type} {m m' : Map D} (hm : WF m) {id : Id} (h : MapById.trim m id = some m') (ht : mine id.1 = false) {i : Id} (hi : mine i.1 = true) :
    at? m' i = at? m i := by
  obtain ⟨_, _, q⟩ := MapById.trim_spec hm h
  rw [q, if_neg]
  rintro rfl
  rw [ht] at hi
  cases hi

theorem trimAll_same {D : Type} {l : List Id} : ∀ {m m' : Map D}, WF m → trimAll m l = some m' → (∀ id ∈ l, mine id.1 = false) → WF m' ∧ ∀ i : Id, mine i.1 = true → at? m' i = at? m i := by
  induction l with
  | nil =>
    intro m m' hm h _
    obtain rfl := Option.some.inj h
    exact ⟨hm, fun _ _ => rfl⟩
  | cons x l ih =>
    intro m m' hm h hl
    simp only [trimAll, Option.bind_eq_bind, Option.bind_eq_some_iff] at h
    obtain ⟨m1, h1, h2⟩ := h
    obtain ⟨w, e⟩ := ih (MapById.trim_spec hm h1).1 h2 (fun id hid => hl id (List.mem_cons_of_mem _ hid))
    refine ⟨w, fun i hi => (e i hi).trans (trim_same hm h1 (hl x List.mem_cons_self) hi)⟩

/-! ### Trimming -/

theorem filter_filter_same {α : Type} {q r : α → Bool} {l : List α} (h : ∀ x ∈ l, q x = true → r x = true) : (l.filter r).filter q = l.filter q := by
  rw [List.filter_filter]
  apply List.filter_congr
  intro x hx
  cases hq : q x with
  | false => rfl
  | true => simp [h x hx hq]

theorem trimSubmap_frame {s s' : State P} {id : Id} (wf : Wf s) (ap : Apart mine s) (hid : mine id.1 = false) (h : trimSubmap s id = some s') : SameF mine s s' ∧ Apart mine s' ∧ Wf s' := by
  obtain ⟨sm, submaps, optSubmaps, nodes, optNodes, h1, h2, h3, h4, h5, h6, rfl⟩ := trimSubmap_inv h
  have hrm : ∀ n ∈ nodesToRemove s.submaps id sm.nodeIds, mine n.1 = false := by
    intro n hn
    rw [ap.members id sm h1 n (List.mem_filter.1 hn).1, hid]
  obtain ⟨w5, e5⟩ := trimAll_same wf.nodes h5 hrm
  obtain ⟨w6, e6⟩ := trimAll_same wf.optNodes h6 hrm
  obtain ⟨w3, _, q3⟩ := MapById.trim_spec wf.submaps h3
  refine ⟨⟨fun _ _ => rfl, fun i hi => trim_same wf.submaps h3 hid hi, e5, fun i hi => trim_same wf.optSubmaps h4 hid hi, e6, ?_⟩, ?_, ⟨w3, w5, (MapById.trim_spec wf.optSubmaps h4).1, w6⟩⟩
  · show List.filter _ (List.filter _ (List.filter _ _)) = _
    rw [filter_filter_same, filter_filter_same]
    · intro c _ hc
      simp only [inner, Bool.and_eq_true] at hc
      simp only [ne_eq, decide_not, Bool.not_eq_true', decide_eq_false_iff_not]
      rintro rfl
      rw [hid] at hc
      cases hc.2
    · intro c _ hc
      simp only [inner, Bool.and_eq_true] at hc
      simp only [decide_not, Bool.not_eq_true', decide_eq_false_iff_not]
      intro hn
      rw [hrm _ hn] at hc
      cases hc.1
  · refine ⟨ap.queue, ap.inflight, ap.trimmers, ?_, ap.searches, ap.todo, ap.deletion⟩
    intro i sm' hs
    dsimp only at hs
    rw [q3] at hs
    split at hs
    · cases hs
    · exact ap.members i sm' hs

theorem trimSubmaps_frame {ids : List Id} : ∀ {s s' : State P}, Wf s → Apart mine s → (∀ id ∈ ids, mine id.1 = true → at? s.submaps id = none) → trimSubmaps s ids = some s' →
    SameF mine s s' ∧ Apart mine s' ∧ Wf s' := by
  induction ids with
  | nil =>
    intro s s' wf ap _ h
    obtain rfl := Option.some.inj h
    exact ⟨SameF.refl _, ap, wf⟩
  | cons id ids ih =>
    intro s s' wf ap hids h
    simp only [trimSubmaps, Option.bind_eq_bind, Option.bind_eq_some_iff] at h
    obtain ⟨s1, h1, h2⟩ := h
    have hid : mine id.1 = false := by
      cases hm : mine id.1 with
      | false => rfl
      | true =>
        obtain ⟨sm, _, _, _, _, h3, _⟩ := trimSubmap_inv h1
        rw [hids id List.mem_cons_self hm] at h3
        cases h3
    obtain ⟨f1, a1, w1⟩ := trimSubmap_frame wf ap hid h1
    obtain ⟨f2, a2, w2⟩ := ih w1 a1 (fun i hi hm => by rw [f1.submaps i hm]; exact hids i (List.mem_cons_of_mem _ hi) hm) h2
    exact ⟨f1.trans f2, a2, w2⟩

theorem idsOf_fst {D : Type} {m : Map D} {t : Int} {id : Id} (h : id ∈ idsOf m t) : id.1 = t := by
  simp only [idsOf, List.mem_map] at h
  obtain ⟨e, _, rfl⟩ := h
  rfl

theorem setTrajs_frame {s : State P} {t : Int} {v : TrajState} (wf : Wf s) (ap : Apart mine s) (ht : mine t = false) :
    SameF mine s { s with trajs := SMap.put t v s.trajs } ∧ Apart mine { s with trajs := SMap.put t v s.trajs } ∧ Wf { s with trajs := SMap.put t v s.trajs } := by
  refine ⟨⟨fun t' ht' => put_same ht ht', fun _ _ => rfl, fun _ _ => rfl, fun _ _ => rfl, fun _ _ => rfl, rfl⟩,
    ⟨ap.queue, ap.inflight, ap.trimmers, ap.members, ap.searches, ap.todo, fun t' ht' => ?_⟩, ⟨wf.1, wf.2, wf.3, wf.4⟩⟩
  rw [trajOf_same (put_same ht ht')]
  exact ap.deletion t' ht'

theorem deleteTrajectories_frame {ts : List Int} : ∀ {s s' : State P}, Wf s → Apart mine s → deleteTrajectories s ts = some s' → SameF mine s s' ∧ Apart mine s' ∧ Wf s' := by
  induction ts with
  | nil =>
    intro s s' wf ap h
    obtain rfl := Option.some.inj h
    exact ⟨SameF.refl _, ap, wf⟩
  | cons t ts ih =>
    intro s s' wf ap h
    simp only [deleteTrajectories, Option.bind_eq_bind, Option.bind_eq_some_iff] at h
    obtain ⟨s1, h1, h2⟩ := h
    have key : SameF mine s s1 ∧ Apart mine s1 ∧ Wf s1 := by
      unfold deleteIfNeeded at h1
      split at h1
      · rename_i hd
        simp only [Option.bind_eq_bind, Option.bind_eq_some_iff, Option.some.injEq] at h1
        obtain ⟨s2, h3, rfl⟩ := h1
        have ht : mine t = false := by
          cases hm : mine t with
          | false => rfl
          | true =>
            rw [ap.deletion t hm] at hd
            cases hd
        obtain ⟨f1, a1, w1⟩ := trimSubmaps_frame wf ap (by
          intro id hid hm
          rw [idsOf_fst hid, ht] at hm
          cases hm) h3
        obtain ⟨f2, a2, w2⟩ := setTrajs_frame (v := ⟨.deleted, .normal⟩) w1 a1 ht
        exact ⟨f1.trans f2, a2, w2⟩
      · obtain rfl := Option.some.inj h1
        exact ⟨SameF.refl _, ap, wf⟩
    obtain ⟨f2, a2, w2⟩ := ih key.2.2 key.2.1 h2
    exact ⟨key.1.trans f2, a2, w2⟩

theorem runTrimmers_frame {trs : List Trimmer} : ∀ {s s' : State P} {cs : List (List Id)} {trs' : List Trimmer}, Wf s → Apart mine s → (∀ tr ∈ trs, otherTrimmer mine tr = true) →
    (∀ l ∈ cs, ∀ id ∈ l, mine id.1 = true → at? s.submaps id = none) → runTrimmers s trs cs = some (s', trs') →
    (SameF mine s s' ∧ Apart mine s' ∧ Wf s') ∧ ∀ tr ∈ trs', otherTrimmer mine tr = true := by
  induction trs with
  | nil =>
    intro s s' cs trs' wf ap _ _ h
    simp only [runTrimmers, Option.some.injEq, Prod.mk.injEq] at h
    obtain ⟨rfl, rfl⟩ := h
    exact ⟨⟨SameF.refl _, ap, wf⟩, by simp⟩
  | cons tr trs ih =>
    intro s s' cs trs' wf ap ht hc h
    simp only [runTrimmers, Option.bind_eq_bind, Option.bind_eq_some_iff] at h
    obtain ⟨⟨s1, tr1⟩, h1, ⟨s2, trs2⟩, h2, h3⟩ := h
    simp only [Option.some.injEq, Prod.mk.injEq] at h3
    obtain ⟨rfl, rfl⟩ := h3
    have h0 := ht tr List.mem_cons_self
    have key : (SameF mine s s1 ∧ Apart mine s1 ∧ Wf s1) ∧ otherTrimmer mine tr1 = true := by
      cases tr with
      | pureLocalization t keep done =>
        have htm : mine t = false := by simpa [otherTrimmer] using h0
        obtain ⟨keep', s3, _, h4, h5⟩ := pureLocalizationTrim_inv h1
        obtain ⟨f1, a1, w1⟩ := trimSubmaps_frame wf ap (by
          intro id hid hm
          rw [idsOf_fst (List.mem_of_mem_take hid), htm] at hm
          cases hm) h4
        rcases h5 with ⟨_, rfl, rfl⟩ | ⟨_, rfl, rfl⟩
        · obtain ⟨f2, a2, w2⟩ := setTrajs_frame (v := { trajOf s3.trajs t with state := .deleted }) w1 a1 htm
          exact ⟨⟨f1.trans f2, a2, w2⟩, h0⟩
        · exact ⟨⟨f1, a1, w1⟩, h0⟩
      | other =>
        simp only [runTrimmer, Option.bind_eq_bind, Option.bind_eq_some_iff, Option.some.injEq, Prod.mk.injEq] at h1
        obtain ⟨s3, h4, rfl, rfl⟩ := h1
        refine ⟨trimSubmaps_frame wf ap ?_ h4, rfl⟩
        cases cs with
        | nil => simp
        | cons c cs => exact hc c List.mem_cons_self
    obtain ⟨⟨f1, a1, w1⟩, k2⟩ := key
    obtain ⟨⟨f2, a2, w2⟩, b⟩ := ih w1 a1 (fun t h => ht t (List.mem_cons_of_mem _ h)) (fun l hl id hid hm => by
      rw [f1.submaps id hm]
      exact hc l (List.mem_of_mem_tail hl) id hid hm) h2
    refine ⟨⟨f1.trans f2, a2, w2⟩, ?_⟩
    intro t h
    rcases List.mem_cons.1 h with rfl | h
    · exact k2
    · exact b t h

/-! ### Computing constraints -/

theorem init_ids {s : State P} {t : Int} {ins : List Nat} {opt : Map Unit} {ids : List Id} (h : initializeGlobalSubmapPoses s t ins = some (opt, ids)) : ∀ id ∈ ids, id.1 = t := by
  unfold initializeGlobalSubmapPoses at h
  split at h
  · simp only [Option.bind_eq_bind, Option.bind_eq_some_iff, guard_some, Option.some.injEq, Prod.mk.injEq] at h
    obtain ⟨o, -, _, -, _, -, -, rfl⟩ := h
    simp
  · simp only [Option.bind_eq_bind, Option.bind_eq_some_iff] at h
    obtain ⟨last, g1, lastPtr, g2, g3⟩ := h
    have hl := getLast?_map_fst g1
    split at g3
    · simp only [Option.bind_eq_some_iff, Option.some.injEq, Prod.mk.injEq] at g3
      obtain ⟨⟨o', id⟩, -, -, rfl⟩ := g3
      simp [hl]
    · simp only [Option.bind_eq_some_iff, guard_some, Option.some.injEq, Prod.mk.injEq] at g3
      obtain ⟨_, -, _, -, -, rfl⟩ := g3
      simp [hl]
  · cases h

theorem option_unit {a b : Option Unit} (h : a.isSome ↔ b.isSome) : a = b := by
  cases a <;> cases b <;> simp_all

theorem init_same {s : State P} {t : Int} {ins : List Nat} {opt : Map Unit} {ids : List Id} (hm : WF s.optSubmaps) (h : initializeGlobalSubmapPoses s t ins = some (opt, ids))
    (ht : mine t = false) {i : Id} (hi : mine i.1 = true) : at? opt i = at? s.optSubmaps i := by
  obtain ⟨_, h1, h2⟩ := init_spec hm h
  apply option_unit
  refine ⟨fun hx => ?_, h2 i⟩
  rcases h1 i hx with h3 | h3
  · exact h3
  · rw [init_ids h i h3, ht] at hi
    cases hi

theorem insertIntras_frame {node : Id} {ids : List Id} : ∀ {s s' : State P} {poses : List P}, Wf s → Apart mine s → mine node.1 = false → (∀ id ∈ ids, id.1 = node.1) →
    insertIntras s node ids poses = some s' → SameF mine s s' ∧ Apart mine s' ∧ Wf s' := by
  induction ids with
  | nil =>
    intro s s' poses wf ap _ _ h
    simp only [insertIntras, Option.some.injEq] at h
    subst h
    exact ⟨SameF.refl _, ap, wf⟩
  | cons id ids ih =>
    intro s s' poses wf ap hn hids h
    cases poses with
    | nil => simp [insertIntras] at h
    | cons pose poses =>
      simp only [insertIntras, Option.bind_eq_bind, Option.bind_eq_some_iff] at h
      obtain ⟨s1, h1, h2⟩ := h
      have hid := hids id List.mem_cons_self
      have key : SameF mine s s1 ∧ Apart mine s1 ∧ Wf s1 := by
        simp only [insertIntra, Option.bind_eq_bind, Option.bind_eq_some_iff, guard_some, Option.some.injEq] at h1
        obtain ⟨sm, h3, _, h4, submaps, h5, rfl⟩ := h1
        obtain ⟨w, _, q⟩ := MapById.assign_spec wf.submaps h5
        refine ⟨⟨fun _ _ => rfl, fun i hi => assign_same wf.submaps h5 (by rw [hid]; exact hn) hi, fun _ _ => rfl, fun _ _ => rfl, fun _ _ => rfl, ?_⟩,
          ⟨ap.queue, ap.inflight, ap.trimmers, ?_, ap.searches, ap.todo, ap.deletion⟩, ⟨w, wf.2, wf.3, wf.4⟩⟩
        · simp [inner, hn]
        · intro i sm' hs n hmem
          dsimp only at hs
          rw [q] at hs
          split at hs
          · rename_i he
            subst he
            obtain rfl := Option.some.inj hs
            rcases setInsert_mem.1 hmem with rfl | hmem
            · rw [hid]
            · exact ap.members _ sm h3 n hmem
          · exact ap.members i sm' hs n hmem
      obtain ⟨f1, a1, w1⟩ := key
      obtain ⟨f2, a2, w2⟩ := ih w1 a1 hn (fun i hi => hids i (List.mem_cons_of_mem _ hi)) h2
      exact ⟨f1.trans f2, a2, w2⟩

theorem markFinished_frame {s : State P} {id : Id} {m : Map Submap} (wf : Wf s) (ap : Apart mine s) (hid : mine id.1 = false) (h : markFinished s.submaps id = some m) :
    SameF mine s { s with submaps := m } ∧ Apart mine { s with submaps := m } ∧ Wf { s with submaps := m } := by
  obtain ⟨sm, h1, h2⟩ := markFinished_inv h
  refine ⟨⟨fun _ _ => rfl, fun i hi => assign_same wf.submaps h2 hid hi, fun _ _ => rfl, fun _ _ => rfl, fun _ _ => rfl, rfl⟩,
    ⟨ap.queue, ap.inflight, ap.trimmers, ?_, ap.searches, ap.todo, ap.deletion⟩, ⟨(MapById.assign_spec wf.submaps h2).1, wf.2, wf.3, wf.4⟩⟩
  intro i sm' hs n hn
  obtain ⟨sm0, h3, h4⟩ := markFinished_nodeIds wf.submaps h i sm' hs
  rw [h4] at hn
  exact ap.members i sm0 h3 n hn

theorem markAll_frame {ids : List Id} : ∀ {s : State P} {m : Map Submap}, Wf s → Apart mine s → (∀ id ∈ ids, mine id.1 = false) → markAll s.submaps ids = some m →
    SameF mine s { s with submaps := m } ∧ Apart mine { s with submaps := m } ∧ Wf { s with submaps := m } := by
  induction ids with
  | nil =>
    intro s m wf ap _ h
    simp only [markAll, Option.some.injEq] at h
    subst h
    exact ⟨SameF.refl _, ap, wf⟩
  | cons id ids ih =>
    intro s m wf ap hids h
    simp only [markAll, Option.bind_eq_bind, Option.bind_eq_some_iff] at h
    obtain ⟨m1, h1, h2⟩ := h
    obtain ⟨f1, a1, w1⟩ := markFinished_frame wf ap (hids id List.mem_cons_self) h1
    obtain ⟨f2, a2, w2⟩ := ih (s := { s with submaps := m1 }) w1 a1 (fun i hi => hids i (List.mem_cons_of_mem _ hi)) h2
    exact ⟨f1.trans f2, a2, w2⟩

theorem computeConstraints_frame {s s' : State P} {node : Id} {ins : List Nat} {nf : Bool} {poses : List P} (wf : Wf s) (ap : Apart mine s) (hn : mine node.1 = false)
    (h : computeConstraints s node ins nf poses = some s') : SameF mine s s' ∧ Apart mine s' ∧ Wf s' := by
  simp only [computeConstraints, Option.bind_eq_bind, Option.bind_eq_some_iff, guard_some] at h
  obtain ⟨_, h1, ⟨opt, ids⟩, h2, _, h3, matching, h4, _, h5, ⟨optNodes, id1⟩, h6, s1, h7, _, h8, h9⟩ := h
  have hids := init_ids h2
  have hm : mine matching.1 = false := by rw [hids matching (List.mem_of_mem_head? h4)]; exact hn
  have f0 : SameF mine s { s with optSubmaps := opt, optNodes := optNodes } :=
    ⟨fun _ _ => rfl, fun _ _ => rfl, fun _ _ => rfl, fun i hi => init_same wf.optSubmaps h2 hn hi, fun i hi => append_same wf.optNodes h6 hm hi, rfl⟩
  obtain ⟨f1, a1, w1⟩ := insertIntras_frame (s := { s with optSubmaps := opt, optNodes := optNodes }) ⟨wf.1, wf.2, (init_spec wf.optSubmaps h2).1, (MapById.append_spec wf.optNodes h6).1⟩
    ⟨ap.queue, ap.inflight, ap.trimmers, ap.members, ap.searches, ap.todo, ap.deletion⟩ hn hids h7
  have ht : ∀ x ∈ (finishedIds s1.submaps).map (fun id => (node, id)), (mine x.1.1 && mine x.2.1) = false := by
    intro x hx
    obtain ⟨id, _, rfl⟩ := List.mem_map.1 hx
    simp [hn]
  split at h9
  · simp only [Option.bind_eq_some_iff, guard_some, Option.some.injEq] at h9
    obtain ⟨sm, -, _, -, submaps', h10, rfl⟩ := h9
    obtain ⟨f2, a2, w2⟩ := markFinished_frame w1 a1 hm h10
    refine ⟨f0.trans (f1.trans ⟨f2.1, f2.2, f2.3, f2.4, f2.5, f2.6⟩), ⟨a2.queue, a2.inflight, a2.trimmers, a2.members, a2.searches, ?_, a2.deletion⟩, ⟨w2.1, w2.2, w2.3, w2.4⟩⟩
    intro todo h x hx
    simp only [Worker.searching.injEq] at h
    subst h
    rcases List.mem_append.1 hx with hx | hx
    · exact ht x hx
    · obtain ⟨n, _, rfl⟩ := List.mem_map.1 hx
      simp [hm]
  · simp only [Option.some.injEq] at h9
    subst h9
    refine ⟨f0.trans (f1.trans ⟨fun _ _ => rfl, fun _ _ => rfl, fun _ _ => rfl, fun _ _ => rfl, fun _ _ => rfl, rfl⟩), ⟨a1.queue, a1.inflight, a1.trimmers, a1.members, a1.searches, ?_, a1.deletion⟩, ⟨w1.1, w1.2, w1.3, w1.4⟩⟩
    intro todo h x hx
    simp only [Worker.searching.injEq] at h
    subst h
    exact ht x hx

/-! ### Serialized constraints -/

/-- What one serialized constraint does. -/
theorem addSerialized_inv {s s' : State P} {c : Constraint P} (h : addSerialized s c = some s') :
    ∃ sm m, at? s.submaps c.submap = some sm ∧ (at? s.nodes c.node).isSome ∧ s' = { s with submaps := m, constraints := s.constraints ++ [c] } ∧
      ((c.intra = false ∧ m = s.submaps) ∨ (c.intra = true ∧ c.node ∉ sm.nodeIds ∧ MapById.assign s.submaps c.submap { sm with nodeIds := setInsert c.node sm.nodeIds } = some m)) := by
  simp only [addSerialized, Option.bind_eq_bind, Option.bind_eq_some_iff, guard_some] at h
  obtain ⟨_, h1, _, h2, sm, h3, h4⟩ := h
  split at h4
  · rename_i hi
    simp only [Option.bind_eq_some_iff, guard_some, Option.some.injEq] at h4
    obtain ⟨_, h5, m, h6, rfl⟩ := h4
    exact ⟨sm, m, h3, contains_iff.1 h1, rfl, Or.inr ⟨hi, h5, h6⟩⟩
  · rename_i hi
    obtain rfl := Option.some.inj h4
    exact ⟨sm, s.submaps, h3, contains_iff.1 h1, rfl, Or.inl ⟨by simpa using hi, rfl⟩⟩

theorem addSerialized_apart {s s' : State P} {c : Constraint P} (wf : Wf s) (ap : Apart mine s) (hc : mine c.node.1 = mine c.submap.1) (h : addSerialized s c = some s') : Apart mine s' ∧ Wf s' := by
  obtain ⟨sm, m, h1, _, rfl, h3⟩ := addSerialized_inv h
  rcases h3 with ⟨_, rfl⟩ | ⟨_, _, h4⟩
  · exact ⟨⟨ap.queue, ap.inflight, ap.trimmers, ap.members, ap.searches, ap.todo, ap.deletion⟩, ⟨wf.1, wf.2, wf.3, wf.4⟩⟩
  · obtain ⟨w, _, q⟩ := MapById.assign_spec wf.submaps h4
    refine ⟨⟨ap.queue, ap.inflight, ap.trimmers, ?_, ap.searches, ap.todo, ap.deletion⟩, ⟨w, wf.2, wf.3, wf.4⟩⟩
    intro i sm' hs n hn
    dsimp only at hs
    rw [q] at hs
    split at hs
    · rename_i he
      subst he
      obtain rfl := Option.some.inj hs
      rcases setInsert_mem.1 hn with rfl | hn
      · exact hc
      · exact ap.members _ sm h1 n hn
    · exact ap.members i sm' hs n hn

theorem addSerializedAll_frame {cs : List (Constraint P)} : ∀ {s s' : State P}, Wf s → Apart mine s → (∀ c ∈ cs, mine c.node.1 = false ∧ mine c.submap.1 = false) → addSerializedAll s cs = some s' →
    SameF mine s s' ∧ Apart mine s' ∧ Wf s' := by
  induction cs with
  | nil =>
    intro s s' wf ap _ h
    obtain rfl := Option.some.inj h
    exact ⟨SameF.refl _, ap, wf⟩
  | cons c cs ih =>
    intro s s' wf ap hc h
    simp only [addSerializedAll, Option.bind_eq_bind, Option.bind_eq_some_iff] at h
    obtain ⟨s1, h1, h2⟩ := h
    obtain ⟨c1, c2⟩ := hc c List.mem_cons_self
    obtain ⟨a1, w1⟩ := addSerialized_apart wf ap (by rw [c1, c2]) h1
    have f1 : SameF mine s s1 := by
      obtain ⟨sm, m, h3, _, rfl, h4⟩ := addSerialized_inv h1
      refine ⟨fun _ _ => rfl, ?_, fun _ _ => rfl, fun _ _ => rfl, fun _ _ => rfl, by simp [inner, c1]⟩
      intro i hi
      rcases h4 with ⟨_, rfl⟩ | ⟨_, _, h5⟩
      · rfl
      · exact assign_same wf.submaps h5 c2 hi
    obtain ⟨f2, a2, w2⟩ := ih w1 a1 (fun c' hc' => hc c' (List.mem_cons_of_mem _ hc')) h2
    exact ⟨f1.trans f2, a2, w2⟩

/-! ### All steps -/

theorem nodeToSubmap_apart {s : State P} {n id : Id} {sm : Submap} {m : Map Submap} (wf : Wf s) (ap : Apart mine s) (hn : mine n.1 = mine id.1) (h1 : at? s.submaps id = some sm)
    (h : MapById.assign s.submaps id { sm with nodeIds := setInsert n sm.nodeIds } = some m) : Apart mine { s with submaps := m } ∧ Wf { s with submaps := m } := by
  obtain ⟨w, _, q⟩ := MapById.assign_spec wf.submaps h
  refine ⟨⟨ap.queue, ap.inflight, ap.trimmers, ?_, ap.searches, ap.todo, ap.deletion⟩, ⟨w, wf.2, wf.3, wf.4⟩⟩
  intro i sm' hs x hx
  dsimp only at hs
  rw [q] at hs
  split at hs
  · rename_i he
    subst he
    obtain rfl := Option.some.inj hs
    rcases setInsert_mem.1 hx with rfl | hx
    · exact hn
    · exact ap.members _ sm h1 x hx
  · exact ap.members i sm' hs x hx

/-- Running an item that is not of the load. -/
theorem runItem_frame {s s' : State P} {poses : List P} {item : Item P} (wf : Wf s) (ap : Apart mine s) (hi : otherItem mine item = true) (h : runItem s poses item = some s') :
    SameF mine s s' ∧ Apart mine s' ∧ Wf s' := by
  cases item with
  | computeConstraints node ins nf => exact computeConstraints_frame wf ap (by simpa [otherItem] using hi) h
  | data t =>
    simp only [runItem] at h
    split at h
    · obtain rfl := Option.some.inj h; exact ⟨SameF.refl _, ap, wf⟩
    · cases h
  | finish t =>
    have ht : mine t = false := by simpa [otherItem] using hi
    simp only [runItem, Option.bind_eq_bind, Option.bind_eq_some_iff, guard_some, Option.some.injEq] at h
    obtain ⟨_, h1, submaps, h2, rfl⟩ := h
    obtain ⟨f1, a1, w1⟩ := markAll_frame wf ap (by intro id hid; rw [idsOf_fst hid]; exact ht) h2
    obtain ⟨f2, a2, w2⟩ := setTrajs_frame (v := { trajOf s.trajs t with state := .finished }) w1 a1 ht
    exact ⟨f1.trans f2, a2, w2⟩
  | freeze t =>
    have ht : mine t = false := by simpa [otherItem] using hi
    simp only [runItem, Option.bind_eq_bind, Option.bind_eq_some_iff, guard_some, Option.some.injEq] at h
    obtain ⟨_, h1, rfl⟩ := h
    exact setTrajs_frame (v := { trajOf s.trajs t with state := .frozen }) wf ap ht
  | delete t =>
    have ht : mine t = false := by simpa [otherItem] using hi
    simp only [runItem, Option.bind_eq_bind, Option.bind_eq_some_iff, guard_some, Option.some.injEq] at h
    obtain ⟨x, h1, _, h2, _, h3, _, h4, rfl⟩ := h
    exact setTrajs_frame (v := { trajOf s.trajs t with deletion := .waiting }) wf ap ht
  | submapFromProto id =>
    have ht : mine id.1 = false := by simpa [otherItem] using hi
    simp only [runItem, Option.bind_eq_bind, Option.bind_eq_some_iff, Option.some.injEq] at h
    obtain ⟨submaps, h1, opt, h2, rfl⟩ := h
    obtain ⟨f1, a1, w1⟩ := markFinished_frame wf ap ht h1
    exact ⟨⟨f1.1, f1.2, f1.3, fun i hi => insert_same wf.optSubmaps h2 ht hi, f1.5, f1.6⟩, ⟨a1.1, a1.2, a1.3, a1.4, a1.5, a1.6, a1.7⟩, ⟨w1.1, w1.2, (MapById.insert_spec wf.optSubmaps h2).1, w1.4⟩⟩
  | nodeFromProto id =>
    have ht : mine id.1 = false := by simpa [otherItem] using hi
    simp only [runItem, Option.bind_eq_bind, Option.bind_eq_some_iff, Option.some.injEq] at h
    obtain ⟨_, h1, opt, h2, rfl⟩ := h
    exact ⟨⟨fun _ _ => rfl, fun _ _ => rfl, fun _ _ => rfl, fun _ _ => rfl, fun i hi => insert_same wf.optNodes h2 ht hi, rfl⟩, ⟨ap.1, ap.2, ap.3, ap.4, ap.5, ap.6, ap.7⟩,
      ⟨wf.1, wf.2, wf.3, (MapById.insert_spec wf.optNodes h2).1⟩⟩
  | nodeToSubmap node id =>
    have ht : mine node.1 = false ∧ mine id.1 = false := by simpa [otherItem] using hi
    simp only [runItem] at h
    split at h
    · simp only [Option.bind_eq_bind, Option.bind_eq_some_iff, Option.some.injEq] at h
      obtain ⟨sm, h3, submaps, h6, rfl⟩ := h
      obtain ⟨a1, w1⟩ := nodeToSubmap_apart wf ap (by rw [ht.1, ht.2]) h3 h6
      exact ⟨⟨fun _ _ => rfl, fun i hi => assign_same wf.submaps h6 ht.2 hi, fun _ _ => rfl, fun _ _ => rfl, fun _ _ => rfl, rfl⟩, a1, w1⟩
    · cases h
  | serialized cs =>
    refine addSerializedAll_frame wf ap ?_ h
    simpa [otherItem] using hi
  | addTrimmer tr =>
    simp only [runItem, Option.some.injEq] at h
    subst h
    exact ⟨⟨fun _ _ => rfl, fun _ _ => rfl, fun _ _ => rfl, fun _ _ => rfl, fun _ _ => rfl, rfl⟩,
      ⟨ap.1, ap.2, MapBuilder.mem_append_one (q := fun tr => otherTrimmer mine tr = true) ap.3 hi, ap.4, ap.5, ap.6, ap.7⟩, ⟨wf.1, wf.2, wf.3, wf.4⟩⟩

theorem append_apart {s : State P} (ap : Apart mine s) {item : Item P} (h : ownItem mine item = true ∨ otherItem mine item = true) :
    ∀ i ∈ s.inflight ++ [item], ownItem mine i = true ∨ otherItem mine i = true :=
  MapBuilder.mem_append_one (q := fun i => ownItem mine i = true ∨ otherItem mine i = true) ap.inflight h

/-- **The frame.** A step of the rest of the program that does not run an item of the load leaves everything of the trajectories being loaded as it is. -/
theorem step_frame {s s' : State P} {b : Act P} (wf : Wf s) (ap : Apart mine s) (he : Enabled s b) (ho : Calm mine s b) (h : exec s b = some s')
    (hr : ∀ poses, b = .run poses → ∀ i q, s.queue = i :: q → otherItem mine i = true) : SameF mine s s' ∧ Apart mine s' := by
  cases b with
  | addNode t ins nf =>
    have ht : mine t = false := ho
    obtain ⟨s1, id, h1, rfl⟩ := addNode_inv h
    obtain ⟨trajs, nodes, h0, h2, h3⟩ := appendNode_inv h1
    have hid := (MapById.append_spec wf.nodes h2).2.1
    have hd : ∀ t', mine t' = true → (trajOf trajs t').deletion = .normal := fun t' ht' => by
      rw [trajOf_same (addIfNeeded_same ht ht' h0)]
      exact ap.deletion t' ht'
    have hq : ownItem mine (Item.computeConstraints id ins nf : Item P) = true ∨ otherItem mine (Item.computeConstraints id ins nf : Item P) = true := by
      right
      simp [otherItem, hid, ht]
    rcases h3 with rfl | ⟨back, submaps, id', h4, rfl⟩
    · exact ⟨⟨fun t' ht' => addIfNeeded_same ht ht' h0, fun _ _ => rfl, fun i hi => append_same wf.nodes h2 ht hi, fun _ _ => rfl, fun _ _ => rfl, rfl⟩,
        ⟨ap.queue, append_apart ap hq, ap.trimmers, ap.members, ap.searches, ap.todo, hd⟩⟩
    · refine ⟨⟨fun t' ht' => addIfNeeded_same ht ht' h0, fun i hi => append_same wf.submaps h4 ht hi, fun i hi => append_same wf.nodes h2 ht hi, fun _ _ => rfl, fun _ _ => rfl, rfl⟩,
        ⟨ap.queue, append_apart ap hq, ap.trimmers, ?_, ap.searches, ap.todo, hd⟩⟩
      obtain ⟨_, _, _, q⟩ := MapById.append_spec wf.submaps h4
      intro i sm hs n hn
      dsimp only at hs
      rw [q] at hs
      split at hs
      · obtain rfl := Option.some.inj hs
        cases hn
      · exact ap.members i sm hs n hn
  | addSubmapFromProto id ptr =>
    have ht : mine id.1 = false := ho
    obtain ⟨trajs, submaps, h0, h1, rfl⟩ := addSubmapFromProto_inv h
    refine ⟨⟨fun t' ht' => addIfNeeded_same ht ht' h0, fun i hi => insert_same wf.submaps h1 ht hi, fun _ _ => rfl, fun _ _ => rfl, fun _ _ => rfl, rfl⟩,
      ⟨ap.queue, append_apart ap (Or.inr (by simp [otherItem, ht])), ap.trimmers, ?_, ap.searches, ap.todo, fun t' ht' => ?_⟩⟩
    · obtain ⟨_, _, q⟩ := MapById.insert_spec wf.submaps h1
      intro i sm hs n hn
      dsimp only at hs
      rw [q] at hs
      split at hs
      · obtain rfl := Option.some.inj hs
        cases hn
      · exact ap.members i sm hs n hn
    · rw [trajOf_same (addIfNeeded_same ht ht' h0)]
      exact ap.deletion t' ht'
  | addNodeFromProto id =>
    have ht : mine id.1 = false := ho
    obtain ⟨trajs, nodes, h0, h1, rfl⟩ := addNodeFromProto_inv h
    refine ⟨⟨fun t' ht' => addIfNeeded_same ht ht' h0, fun _ _ => rfl, fun i hi => insert_same wf.nodes h1 ht hi, fun _ _ => rfl, fun _ _ => rfl, rfl⟩,
      ⟨ap.queue, append_apart ap (Or.inr (by simp [otherItem, ht])), ap.trimmers, ap.members, ap.searches, ap.todo, fun t' ht' => ?_⟩⟩
    rw [trajOf_same (addIfNeeded_same ht ht' h0)]
    exact ap.deletion t' ht'
  | deleteTrajectory t =>
    have ht : mine t = false := ho
    simp only [exec, Option.some.injEq] at h
    subst h
    unfold deleteTrajectory
    cases hx : SMap.get? t s.trajs with
    | none => exact ⟨SameF.refl _, ap⟩
    | some x =>
      obtain ⟨f, a, _⟩ := setTrajs_frame (v := { trajOf s.trajs t with deletion := .scheduled }) wf ap ht
      exact ⟨⟨f.1, f.2, f.3, f.4, f.5, f.6⟩, ⟨a.queue, append_apart ap (Or.inr (by simp [otherItem, ht])), a.trimmers, a.members, a.searches, a.todo, a.deletion⟩⟩
  | post item =>
    simp only [exec, Option.some.injEq] at h
    subst h
    exact ⟨⟨fun _ _ => rfl, fun _ _ => rfl, fun _ _ => rfl, fun _ _ => rfl, fun _ _ => rfl, rfl⟩, ⟨ap.queue, append_apart ap (Or.inr ho), ap.trimmers, ap.members, ap.searches, ap.todo, ap.deletion⟩⟩
  | enqueue k =>
    simp only [exec] at h
    split at h
    · cases h
    · rename_i item hk
      obtain rfl := Option.some.inj h
      refine ⟨⟨fun _ _ => rfl, fun _ _ => rfl, fun _ _ => rfl, fun _ _ => rfl, fun _ _ => rfl, rfl⟩, ⟨?_, fun i hi => ap.inflight i (List.mem_of_mem_eraseIdx hi), ap.trimmers, ap.members, ap.searches, ap.todo, ap.deletion⟩⟩
      exact MapBuilder.mem_append_one (q := fun i => ownItem mine i = true ∨ otherItem mine i = true) ap.queue (ap.inflight _ (List.mem_of_getElem? hk))
  | run poses =>
    simp only [exec] at h
    split at h
    · cases h
    · rename_i item queue hq
      have wq := ap.queue
      rw [hq] at wq
      obtain ⟨f, a, _⟩ := runItem_frame (s := { s with queue := queue }) ⟨wf.1, wf.2, wf.3, wf.4⟩
        ⟨fun i hi => wq i (List.mem_cons_of_mem _ hi), ap.inflight, ap.trimmers, ap.members, ap.searches, ap.todo, ap.deletion⟩ (hr poses rfl item queue hq) h
      exact ⟨⟨f.1, f.2, f.3, f.4, f.5, f.6⟩, a⟩
  | search how =>
    obtain ⟨⟨node, id⟩, todo, hw⟩ := he
    simp only [exec, hw] at h
    have ht := ap.todo _ hw
    have a0 : Apart mine { s with worker := .searching todo } := ⟨ap.queue, ap.inflight, ap.trimmers, ap.members, ap.searches, (by
      intro td htd x hx
      simp only [Worker.searching.injEq] at htd
      subst htd
      exact ht x (List.mem_cons_of_mem _ hx)), ap.deletion⟩
    have a1 : Apart mine { s with worker := .searching todo, searches := s.searches ++ [(node, id)] } := ⟨ap.queue, ap.inflight, ap.trimmers, ap.members,
      MapBuilder.mem_append_one (q := fun x : Id × Id => (mine x.1.1 && mine x.2.1) = false) ap.searches (ht _ List.mem_cons_self), a0.todo, ap.deletion⟩
    simp only [computeConstraint, Option.bind_eq_bind, Option.bind_eq_some_iff, guard_some] at h
    obtain ⟨sm, _, _, _, h3⟩ := h
    cases how with
    | skip => obtain rfl := Option.some.inj h3; exact ⟨⟨fun _ _ => rfl, fun _ _ => rfl, fun _ _ => rfl, fun _ _ => rfl, fun _ _ => rfl, rfl⟩, a0⟩
    | sampledOut =>
      simp only [Option.bind_eq_some_iff, Option.some.injEq] at h3
      obtain ⟨_, _, rfl⟩ := h3
      exact ⟨⟨fun _ _ => rfl, fun _ _ => rfl, fun _ _ => rfl, fun _ _ => rfl, fun _ _ => rfl, rfl⟩, a0⟩
    | locally =>
      simp only [Option.bind_eq_some_iff, Option.some.injEq] at h3
      obtain ⟨_, _, _, _, _, _, rfl⟩ := h3
      exact ⟨⟨fun _ _ => rfl, fun _ _ => rfl, fun _ _ => rfl, fun _ _ => rfl, fun _ _ => rfl, rfl⟩, a1⟩
    | globally =>
      simp only [Option.bind_eq_some_iff, Option.some.injEq] at h3
      obtain ⟨_, _, rfl⟩ := h3
      exact ⟨⟨fun _ _ => rfl, fun _ _ => rfl, fun _ _ => rfl, fun _ _ => rfl, fun _ _ => rfl, rfl⟩, a1⟩
  | endSearch =>
    simp only [exec, Option.some.injEq] at h
    subst h
    exact ⟨⟨fun _ _ => rfl, fun _ _ => rfl, fun _ _ => rfl, fun _ _ => rfl, fun _ _ => rfl, rfl⟩, ⟨ap.queue, ap.inflight, ap.trimmers, ap.members, ap.searches, (by intro td h; cases h), ap.deletion⟩⟩
  | optimize result =>
    simp only [exec, optimize] at h
    split at h
    · obtain rfl := Option.some.inj h
      refine ⟨⟨fun _ _ => rfl, fun _ _ => rfl, fun _ _ => rfl, fun _ _ => rfl, fun _ _ => rfl, ?_⟩, ⟨ap.queue, ap.inflight, ap.trimmers, ap.members, by simp, (by intro td h; cases h), ap.deletion⟩⟩
      show List.filter _ (_ ++ _) = _
      have hz : result.filter (inner mine) = [] := by
        rw [List.filter_eq_nil_iff]
        intro c hc
        have := ap.searches _ (he.2 c hc).2
        simp only [inner]
        rw [this]
        simp
      rw [List.filter_append, hz, List.append_nil]
    · cases h
  | trim choices =>
    obtain ⟨r, hw⟩ := he
    simp only [exec, hw] at h
    obtain ⟨s1, s2, trs, -, h2, h3, rfl⟩ := handleTrimming_inv h
    obtain ⟨f1, a1, w1⟩ := deleteTrajectories_frame (s := { s with worker := .idle }) ⟨wf.1, wf.2, wf.3, wf.4⟩ ⟨ap.queue, ap.inflight, ap.trimmers, ap.members, ap.searches, (by intro td h; cases h), ap.deletion⟩ h2
    obtain ⟨⟨f2, a2, _⟩, b2⟩ := runTrimmers_frame w1 a1 a1.trimmers (fun l hl id hid hm => by
      rw [f1.submaps id hm]
      exact ho l hl id hid hm) h3
    have f := f1.trans f2
    exact ⟨⟨f.1, f.2, f.3, f.4, f.5, f.6⟩, ⟨a2.queue, a2.inflight, fun t ht => b2 t (List.mem_filter.1 ht).1, a2.members, a2.searches, a2.todo, a2.deletion⟩⟩

end Verif.Loading
