import Verif.Props.LocalTrajectoryBuilder3D

/-!
What the pose extrapolator of local SLAM is given (part of C65): from its start on exactly the IMU and odometry data and the results
of scan matching, in order. No assumption on the data is needed.
-/

namespace Verif.LocalBuilder

open Verif.Rigid

/-- Whether a call adds something to the extrapolator. -/
def adds : Extrapolator.Call → Bool
  | .extrapolate _ => false
  | _ => true

/-- The extrapolator is changed by calls that add exactly this data, in order. -/
def Fed (P : Extrapolator.Params) (ext : Extrapolator.State) (data : List Extrapolator.Call) (ext' : Extrapolator.State) : Prop :=
  ∃ calls, Extrapolator.Run P ext calls ext' ∧ calls.filter adds = data

/-- What an event, with its result, adds. -/
def given {M : Type} : Event M × Option Result → List Extrapolator.Call
  | (.imu d, _) => [.imu d]
  | (.odometry d, _) => [.odometry d]
  | (.range _ _ _, r) => r.toList.map (fun r => .pose r.time r.pose)

theorem run_trans {P : Extrapolator.Params} {a b c : Extrapolator.State} {cs ds : List Extrapolator.Call}
    (h1 : Extrapolator.Run P a cs b) (h2 : Extrapolator.Run P b ds c) : Extrapolator.Run P a (cs ++ ds) c := by
  induction h1 with
  | nil => exact h2
  | cons h _ ih => exact .cons h (ih h2)

theorem Fed.refl (P : Extrapolator.Params) (ext : Extrapolator.State) : Fed P ext [] ext := ⟨[], .nil _, rfl⟩

theorem Fed.trans {P : Extrapolator.Params} {a b c : Extrapolator.State} {x y : List Extrapolator.Call} (h1 : Fed P a x b)
    (h2 : Fed P b y c) : Fed P a (x ++ y) c := by
  obtain ⟨cs, r1, e1⟩ := h1
  obtain ⟨ds, r2, e2⟩ := h2
  exact ⟨cs ++ ds, run_trans r1 r2, by rw [List.filter_append, e1, e2]⟩

theorem fed_call {P : Extrapolator.Params} {a b : Extrapolator.State} {c : Extrapolator.Call} (h : Extrapolator.call P a c = .ok b) :
    Fed P a (if adds c then [c] else []) b := ⟨[c], .cons h (.nil _), by cases c <;> rfl⟩

theorem fed_extrapolate {P : Extrapolator.Params} {a b : Extrapolator.State} {t : Int} {pose : Rigid3}
    (h : Extrapolator.extrapolatePose P a t = .ok (pose, b)) : Fed P a [] b := by
  have : Extrapolator.call P a (.extrapolate t) = .ok b := by
    simp only [Extrapolator.call, h, bind, Except.bind]
  exact fed_call this

theorem fed_extrapolated {P : Extrapolator.Params} {pick : Extrapolator.State → Int → Int} {ts : List Int}
    {a b : Extrapolator.State} {poses : List Rigid3} (h : Extrapolated P pick ts a poses b) : Fed P a [] b := by
  induction h with
  | nil => exact Fed.refl _ _
  | cons h1 _ ih => exact (fed_extrapolate h1).trans ih

theorem except_bind_ok {ε α β : Type} {x : Except ε α} {f : α → Except ε β} {b : β} :
    (x >>= f) = .ok b ↔ ∃ a, x = .ok a ∧ f a = .ok b := by
  cases x with
  | ok a => simp [bind, Except.bind]
  | error e => simp [bind, Except.bind]

/-! ### 2D -/

theorem fed_matchScan {E : Env} {f : Matcher2} {time : Int} {d : RangeData} {g : Rigid3} {ext ext' : Extrapolator.State}
    {r : Option Result} (h : matchScan E f time d g ext = .ok (ext', r)) :
    Fed E.params ext (r.toList.map (fun r => .pose r.time r.pose)) ext' := by
  unfold matchScan at h
  split at h
  · cases h
    exact Fed.refl _ _
  · rw [except_bind_ok] at h
    obtain ⟨⟨pose, ext1⟩, h1, h⟩ := h
    have hx := fed_extrapolate (lift_ok.1 h1)
    simp only at h
    split at h
    · cases h
      exact hx
    · split at h
      · cases h
        exact hx
      · rw [except_bind_ok] at h
        obtain ⟨ext2, h2, h⟩ := h
        cases h
        exact hx.trans (fed_call (c := .pose _ _) (lift_ok.1 h2))

theorem fed_addScan2 {E : Env} {f : Matcher2} {s s' : State2} {ext : Extrapolator.State} (hs : s.ext = some ext) {scan : Scan}
    {r : Option Result} (h : addScan2 E f s ext scan = .ok (s', r)) :
    ∃ ext', s'.ext = some ext' ∧ Fed E.params ext (r.toList.map (fun r => .pose r.time r.pose)) ext' := by
  unfold addScan2 at h
  split at h
  · split at h
    · cases h
    · split at h
      · cases h
        exact ⟨ext, hs, Fed.refl _ _⟩
      · rw [except_bind_ok] at h
        obtain ⟨⟨poses, ext1⟩, h1, h⟩ := h
        have hx := fed_extrapolated (hitPoses_timed (lift_ok.1 h1))
        simp only at h
        rw [except_bind_ok] at h
        obtain ⟨acc, -, h⟩ := h
        split at h
        · rw [except_bind_ok] at h
          obtain ⟨q, -, h⟩ := h
          split at h
          · cases h
          · rw [except_bind_ok] at h
            obtain ⟨⟨ext2, r'⟩, h2, h⟩ := h
            cases h
            exact ⟨ext2, rfl, hx.trans (fed_matchScan h2)⟩
        · cases h
          exact ⟨ext1, rfl, hx⟩
  · cases h

theorem fed_initExt {E : Env} {s s' : State2} {t : Int} (h : initExt E s t = .ok s') :
    (∃ ext, s.ext = some ext ∧ s'.ext = some ext) ∨
    (s.ext = none ∧ ∃ ext, s'.ext = some ext ∧ Fed E.params {} [.pose t Rigid3.identity] ext) := by
  unfold initExt at h
  split at h
  · rename_i ext hx
    cases h
    exact Or.inl ⟨ext, hx, hx⟩
  · rename_i hx
    rw [except_bind_ok] at h
    obtain ⟨ext, h1, h⟩ := h
    cases h
    exact Or.inr ⟨hx, ext, rfl, fed_call (c := .pose _ _) (lift_ok.1 h1)⟩

/-- One call: with an extrapolator its data reaches it; without one it is ignored or starts the extrapolator. -/
theorem fed_step2 {E : Env} {s s' : State2} {e : Event Matcher2} {r : Option Result} (h : step2 E s e = .ok (s', r)) :
    (∃ ext ext', s.ext = some ext ∧ s'.ext = some ext' ∧ Fed E.params ext (given (e, r)) ext') ∨
    (s.ext = none ∧ ∃ t ext', s'.ext = some ext' ∧ Fed E.params {} (.pose t Rigid3.identity :: given (e, r)) ext') ∨
    (s.ext = none ∧ s'.ext = none ∧ r = none ∧ ∀ d, e ≠ .imu d) := by
  cases e with
  | imu d =>
    simp only [step2] at h
    rw [except_bind_ok] at h
    obtain ⟨s1, h1, h⟩ := h
    cases h
    unfold addImu2 at h1
    split at h1
    · rw [except_bind_ok] at h1
      obtain ⟨s2, h2, h1⟩ := h1
      split at h1
      · cases h1
      · rename_i ext hx
        rw [except_bind_ok] at h1
        obtain ⟨ext', h3, h1⟩ := h1
        cases h1
        have hadd := fed_call (P := E.params) (c := .imu d) (lift_ok.1 h3)
        rcases fed_initExt h2 with ⟨ext0, e1, e2⟩ | ⟨e1, ext0, e2, e3⟩
        · rw [hx] at e2
          cases e2
          exact Or.inl ⟨ext, ext', e1, rfl, hadd⟩
        · rw [hx] at e2
          cases e2
          exact Or.inr (Or.inl ⟨e1, d.time, ext', rfl, e3.trans hadd⟩)
    · cases h1
  | odometry d =>
    simp only [step2] at h
    rw [except_bind_ok] at h
    obtain ⟨s1, h1, h⟩ := h
    cases h
    unfold addOdometry2 at h1
    split at h1
    · rename_i hx
      cases h1
      exact Or.inr (Or.inr ⟨hx, hx, rfl, by simp⟩)
    · rename_i ext hx
      rw [except_bind_ok] at h1
      obtain ⟨ext', h3, h1⟩ := h1
      cases h1
      exact Or.inl ⟨ext, ext', hx, rfl, fed_call (P := E.params) (c := .odometry d) (lift_ok.1 h3)⟩
  | range id m f =>
    simp only [step2] at h
    unfold addRange2 at h
    have hkeep : ∀ c, (∃ ext ext', s.ext = some ext ∧ ({ s with collator := c } : State2).ext = some ext' ∧ Fed E.params ext [] ext') ∨
        (s.ext = none ∧ ({ s with collator := c } : State2).ext = none) := by
      intro c
      cases hx : s.ext with
      | none => exact Or.inr ⟨rfl, rfl⟩
      | some ext => exact Or.inl ⟨ext, ext, rfl, rfl, Fed.refl _ _⟩
    have hkeep' : ∀ c, (∃ ext ext', s.ext = some ext ∧ ({ s with collator := c } : State2).ext = some ext' ∧
          Fed E.params ext (given (Event.range id m f, none)) ext') ∨
        (s.ext = none ∧ ∃ t ext', ({ s with collator := c } : State2).ext = some ext' ∧
          Fed E.params {} (.pose t Rigid3.identity :: given (Event.range id m f, none)) ext') ∨
        (s.ext = none ∧ ({ s with collator := c } : State2).ext = none ∧ (none : Option Result) = none ∧
          ∀ d, Event.range id m f ≠ .imu d) := by
      intro c
      rcases hkeep c with h | ⟨h1, h2⟩
      · exact Or.inl h
      · exact Or.inr (Or.inr ⟨h1, h2, rfl, by simp⟩)
    split at h
    · cases h
    · cases h
      exact hkeep' _
    · rename_i c scan hc
      split at h
      · cases h
        exact hkeep' _
      · split at h
        · simp only [bind, Except.bind] at h
          split at h
          · cases h
            exact hkeep' _
          · rename_i ext hx
            obtain ⟨ext', h1, h2⟩ := fed_addScan2 (s := { s with collator := c }) hx h
            exact Or.inl ⟨ext, ext', hx, h1, h2⟩
        · rw [except_bind_ok] at h
          obtain ⟨s1, h1, h⟩ := h
          simp only at h
          rcases fed_initExt h1 with ⟨ext0, e1, e2⟩ | ⟨e1, ext0, e2, e3⟩
          · rw [e2] at h
            obtain ⟨ext', h2, h3⟩ := fed_addScan2 e2 h
            exact Or.inl ⟨ext0, ext', e1, h2, h3⟩
          · rw [e2] at h
            obtain ⟨ext', h2, h3⟩ := fed_addScan2 e2 h
            exact Or.inr (Or.inl ⟨e1, scan.time, ext', h2, e3.trans h3⟩)

/-- From a running extrapolator on, all data reaches it. -/
theorem fed_run2 {E : Env} : ∀ {es : List (Event Matcher2)} {s s' : State2} {rs : List Result} {ext : Extrapolator.State},
    s.ext = some ext → run2 E s es = .ok (s', rs) → ∃ (trace : List (Event Matcher2 × Option Result)) (ext' : Extrapolator.State), trace.map Prod.fst = es ∧ trace.filterMap Prod.snd = rs ∧
      s'.ext = some ext' ∧ Fed E.params ext (trace.flatMap given) ext'
  | [], s, s', rs, ext, hs, h => by
    cases h
    exact ⟨[], ext, rfl, rfl, hs, Fed.refl _ _⟩
  | e :: es, s, s', rs, ext, hs, h => by
    unfold run2 at h
    rw [except_bind_ok] at h
    obtain ⟨⟨s1, r⟩, h1, h⟩ := h
    simp only at h
    rw [except_bind_ok] at h
    obtain ⟨⟨s2, rs2⟩, h2, h⟩ := h
    cases h
    rcases fed_step2 h1 with ⟨a, b, e1, e2, e3⟩ | ⟨e1, -⟩ | ⟨e1, -⟩
    · rw [hs] at e1
      cases e1
      obtain ⟨trace, ext', t1, t2, t3, t4⟩ := fed_run2 e2 h2
      refine ⟨(e, r) :: trace, ext', by simp [t1], ?_, t3, ?_⟩
      · cases r <;> simp [t2]
      · rw [List.flatMap_cons]
        exact e3.trans t4
    · rw [hs] at e1
      cases e1
    · rw [hs] at e1
      cases e1

/-- C65, 2D: the events are some without effect on poses, none of them IMU data, and then all others; the extrapolator starts at the
origin and is given the sensor data and the results of the latter, in order and nothing else. -/
theorem builder2D_fed {E : Env} : ∀ {es : List (Event Matcher2)} {s s' : State2} {rs : List Result}, s.ext = none →
    run2 E s es = .ok (s', rs) →
    (s'.ext = none ∧ rs = [] ∧ ∀ d, Event.imu d ∉ es) ∨
    ∃ (early : List (Event Matcher2)) (trace : List (Event Matcher2 × Option Result)) (t : Int) (ext : Extrapolator.State),
      es = early ++ trace.map Prod.fst ∧ trace.filterMap Prod.snd = rs ∧ (∀ d, Event.imu d ∉ early) ∧
      s'.ext = some ext ∧ Fed E.params {} (.pose t Rigid3.identity :: trace.flatMap given) ext
  | [], s, s', rs, hs, h => by
    cases h
    exact Or.inl ⟨hs, rfl, by simp⟩
  | e :: es, s, s', rs, hs, h => by
    unfold run2 at h
    rw [except_bind_ok] at h
    obtain ⟨⟨s1, r⟩, h1, h⟩ := h
    simp only at h
    rw [except_bind_ok] at h
    obtain ⟨⟨s2, rs2⟩, h2, h⟩ := h
    cases h
    rcases fed_step2 h1 with ⟨a, b, e1, -⟩ | ⟨-, t, ext1, e2, e3⟩ | ⟨-, e2, rfl, e3⟩
    · rw [hs] at e1
      cases e1
    · obtain ⟨trace, ext', t1, t2, t3, t4⟩ := fed_run2 e2 h2
      refine Or.inr ⟨[], (e, r) :: trace, t, ext', by simp [t1], ?_, by simp, t3, ?_⟩
      · cases r <;> simp [t2]
      · rw [List.flatMap_cons]
        exact e3.trans t4
    · rcases builder2D_fed e2 h2 with ⟨k1, k2, k3⟩ | ⟨early, trace, t, ext, k1, k2, k3, k4, k5⟩
      · exact Or.inl ⟨k1, by simp [k2], fun d hd => (List.mem_cons.1 hd).elim (fun h => e3 d h.symm) (k3 d)⟩
      · exact Or.inr ⟨e :: early, trace, t, ext, by simp [k1], by simp [k2],
          fun d hd => (List.mem_cons.1 hd).elim (fun h => e3 d h.symm) (k3 d), k4, k5⟩

/-! ### 3D -/

theorem fed_matchScan3 {E : Env} {f : Matcher3} {time : Int} {d : RangeData} {g : Rigid3} {ext ext' : Extrapolator.State}
    {r : Option Result} (h : matchScan3 E f time d g ext = .ok (ext', r)) :
    Fed E.params ext (r.toList.map (fun r => .pose r.time r.pose)) ext' := by
  unfold matchScan3 at h
  split at h
  · cases h
    exact Fed.refl _ _
  · split at h
    · cases h
      exact Fed.refl _ _
    · split at h
      · cases h
        exact Fed.refl _ _
      · split at h
        · cases h
          exact Fed.refl _ _
        · rw [except_bind_ok] at h
          obtain ⟨ext2, h2, h⟩ := h
          cases h
          exact fed_call (c := .pose _ _) (lift_ok.1 h2)

theorem fed_matchAll3 {E : Env} {f : Matcher3} {scans : List Scan} {ext ext' : Extrapolator.State} {r : Option Result}
    (h : matchAll3 E f scans ext = .ok (ext', r)) :
    Fed E.params ext (r.toList.map (fun r => .pose r.time r.pose)) ext' := by
  unfold matchAll3 at h
  split at h
  · cases h
  · rw [except_bind_ok] at h
    obtain ⟨⟨poses, ext1⟩, h1, h⟩ := h
    simp only at h
    rw [except_bind_ok] at h
    obtain ⟨⟨current, ext2⟩, h2, h⟩ := h
    simp only at h
    rw [except_bind_ok] at h
    obtain ⟨q, -, h⟩ := h
    rw [except_bind_ok] at h
    obtain ⟨⟨acc, rest⟩, -, h⟩ := h
    simp only at h
    split at h
    · exact (fed_extrapolated (posesAt_extrapolated (lift_ok.1 h1))).trans ((fed_extrapolate (lift_ok.1 h2)).trans (fed_matchScan3 h))
    · cases h

theorem fed_step3 {E : Env} {s s' : State3} {e : Event Matcher3} {r : Option Result} (h : step3 E s e = .ok (s', r)) :
    (∃ ext ext', s.ext = some ext ∧ s'.ext = some ext' ∧ Fed E.params ext (given (e, r)) ext') ∨
    (s.ext = none ∧ ∃ d ext', e = .imu d ∧ r = none ∧ s'.ext = some ext' ∧ Extrapolator.initializeWithImu E.params d = .ok ext') ∨
    (s.ext = none ∧ s'.ext = none ∧ r = none ∧ ∀ d, e ≠ .imu d) := by
  cases e with
  | imu d =>
    simp only [step3] at h
    split at h
    · rename_i ext hx
      rw [except_bind_ok] at h
      obtain ⟨ext', h1, h⟩ := h
      cases h
      exact Or.inl ⟨ext, ext', hx, rfl, fed_call (P := E.params) (c := .imu d) (lift_ok.1 h1)⟩
    · rename_i hx
      rw [except_bind_ok] at h
      obtain ⟨ext', h1, h⟩ := h
      cases h
      exact Or.inr (Or.inl ⟨hx, d, ext', rfl, rfl, rfl, lift_ok.1 h1⟩)
  | odometry d =>
    simp only [step3] at h
    split at h
    · rename_i hx
      cases h
      exact Or.inr (Or.inr ⟨hx, hx, rfl, by simp⟩)
    · rename_i ext hx
      rw [except_bind_ok] at h
      obtain ⟨ext', h1, h⟩ := h
      cases h
      exact Or.inl ⟨ext, ext', hx, rfl, fed_call (P := E.params) (c := .odometry d) (lift_ok.1 h1)⟩
  | range id m f =>
    simp only [step3] at h
    unfold addRange3 at h
    have hkeep : ∀ c, (∃ ext ext', s.ext = some ext ∧ ({ s with collator := c } : State3).ext = some ext' ∧
          Fed E.params ext (given (Event.range id m f, none)) ext') ∨
        (s.ext = none ∧ ∃ d ext', Event.range id m f = .imu d ∧ (none : Option Result) = none ∧
          ({ s with collator := c } : State3).ext = some ext' ∧ Extrapolator.initializeWithImu E.params d = .ok ext') ∨
        (s.ext = none ∧ ({ s with collator := c } : State3).ext = none ∧ (none : Option Result) = none ∧
          ∀ d, Event.range id m f ≠ .imu d) := by
      intro c
      cases hx : s.ext with
      | none => exact Or.inr (Or.inr ⟨rfl, rfl, rfl, by simp⟩)
      | some ext => exact Or.inl ⟨ext, ext, rfl, rfl, Fed.refl _ _⟩
    split at h
    · cases h
    · cases h
      exact hkeep _
    · rename_i c scan hc
      split at h
      · cases h
        exact hkeep _
      · split at h
        · cases h
          exact hkeep _
        · rename_i ext hx
          unfold addScan3 at h
          split at h
          · split at h
            · cases h
            · split at h
              · cases h
                exact hkeep _
              · simp only at h
                split at h
                · cases h
                  exact Or.inl ⟨ext, ext, hx, hx, Fed.refl _ _⟩
                · rw [except_bind_ok] at h
                  obtain ⟨⟨ext', r'⟩, h1, h⟩ := h
                  cases h
                  exact Or.inl ⟨ext, ext', hx, rfl, fed_matchAll3 h1⟩
          · cases h

theorem fed_run3 {E : Env} : ∀ {es : List (Event Matcher3)} {s s' : State3} {rs : List Result} {ext : Extrapolator.State},
    s.ext = some ext → run3 E s es = .ok (s', rs) → ∃ (trace : List (Event Matcher3 × Option Result)) (ext' : Extrapolator.State), trace.map Prod.fst = es ∧ trace.filterMap Prod.snd = rs ∧
      s'.ext = some ext' ∧ Fed E.params ext (trace.flatMap given) ext'
  | [], s, s', rs, ext, hs, h => by
    cases h
    exact ⟨[], ext, rfl, rfl, hs, Fed.refl _ _⟩
  | e :: es, s, s', rs, ext, hs, h => by
    unfold run3 at h
    rw [except_bind_ok] at h
    obtain ⟨⟨s1, r⟩, h1, h⟩ := h
    simp only at h
    rw [except_bind_ok] at h
    obtain ⟨⟨s2, rs2⟩, h2, h⟩ := h
    cases h
    rcases fed_step3 h1 with ⟨a, b, e1, e2, e3⟩ | ⟨e1, -⟩ | ⟨e1, -⟩
    · rw [hs] at e1
      cases e1
      obtain ⟨trace, ext', t1, t2, t3, t4⟩ := fed_run3 e2 h2
      refine ⟨(e, r) :: trace, ext', by simp [t1], ?_, t3, ?_⟩
      · cases r <;> simp [t2]
      · rw [List.flatMap_cons]
        exact e3.trans t4
    · rw [hs] at e1
      cases e1
    · rw [hs] at e1
      cases e1

/-- C65, 3D: the first IMU data starts the extrapolator; it is given all later sensor data and results, in order and nothing else. -/
theorem builder3D_fed {E : Env} : ∀ {es : List (Event Matcher3)} {s s' : State3} {rs : List Result}, s.ext = none →
    run3 E s es = .ok (s', rs) →
    (s'.ext = none ∧ rs = [] ∧ ∀ d, Event.imu d ∉ es) ∨
    ∃ (early : List (Event Matcher3)) (d : Extrapolator.Imu) (trace : List (Event Matcher3 × Option Result)) (start ext : Extrapolator.State),
      es = early ++ .imu d :: trace.map Prod.fst ∧ trace.filterMap Prod.snd = rs ∧
      (∀ d, Event.imu d ∉ early) ∧ Extrapolator.initializeWithImu E.params d = .ok start ∧ s'.ext = some ext ∧
      Fed E.params start (trace.flatMap given) ext
  | [], s, s', rs, hs, h => by
    cases h
    exact Or.inl ⟨hs, rfl, by simp⟩
  | e :: es, s, s', rs, hs, h => by
    unfold run3 at h
    rw [except_bind_ok] at h
    obtain ⟨⟨s1, r⟩, h1, h⟩ := h
    simp only at h
    rw [except_bind_ok] at h
    obtain ⟨⟨s2, rs2⟩, h2, h⟩ := h
    cases h
    rcases fed_step3 h1 with ⟨a, b, e1, -⟩ | ⟨-, d, ext1, rfl, rfl, e2, e3⟩ | ⟨-, e2, rfl, e3⟩
    · rw [hs] at e1
      cases e1
    · obtain ⟨trace, ext', t1, t2, t3, t4⟩ := fed_run3 e2 h2
      exact Or.inr ⟨[], d, trace, ext1, ext', by simp [t1], by simp [t2], by simp, e3, t3, t4⟩
    · rcases builder3D_fed e2 h2 with ⟨k1, k2, k3⟩ | ⟨early, d, trace, start, ext, k1, k2, k3, k4, k5⟩
      · exact Or.inl ⟨k1, by simp [k2], fun d hd => (List.mem_cons.1 hd).elim (fun h => e3 d h.symm) (k3 d)⟩
      · exact Or.inr ⟨e :: early, d, trace, start, ext, by simp [k1], by simp [k2],
          fun d hd => (List.mem_cons.1 hd).elim (fun h => e3 d h.symm) (k3 d), k4, k5⟩

/-- Odometry before the first scan is lost: without IMU, nothing is kept before the extrapolator starts. -/
example : run2 exampleEnv {} [.odometry ⟨5, Rigid3.identity⟩] = .ok ({}, []) := rfl

/-- Something given: the IMU data starts the 3D extrapolator, the odometry is added to it. -/
example : ∃ s ext, run3 exampleEnv {} [.imu exampleImu, .odometry ⟨5, Rigid3.identity⟩] = .ok (s, []) ∧ s.ext = some ext ∧
    Fed exampleEnv.params (resting3 none) [.odometry ⟨5, Rigid3.identity⟩] ext := by
  have hodo : ∃ ext, Extrapolator.addOdometry Extrapolator.exampleParams (resting3 none) ⟨5, Rigid3.identity⟩ = .ok ext := ⟨_, rfl⟩
  obtain ⟨ext, hext⟩ := hodo
  have hrun : run3 exampleEnv {} [.imu exampleImu, .odometry ⟨5, Rigid3.identity⟩] = .ok ({ ext := some ext }, []) := by
    have hP : exampleEnv.params = Extrapolator.exampleParams := rfl
    simp only [run3, step3, hP, initialize_resting, lift, bind, Except.bind, hext]
    rfl
  refine ⟨_, ext, hrun, rfl, ?_⟩
  exact fed_call (c := .odometry _) hext

end Verif.LocalBuilder
