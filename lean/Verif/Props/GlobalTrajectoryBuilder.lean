import Verif.Props.TrajectoryFeed
import Verif.Props.Sampling

/-!
# C91: the global trajectory builder, alone and behind the collator
-/

namespace Verif.Feed

variable {S V : Type}
variable {L R N C : Type} [LE C] [DecidableLE C]

/-! ### Specification -/

/-- The data of one type. -/
def ofKind (k : Kind) (l : List (Datum S V)) : List (Datum S V) := l.filter fun d => decide (d.kind = k)

/-- The types that the local trajectory builder takes. -/
def forSlam (d : Datum S V) : Bool := d.kind = .range || d.kind = .imu || d.kind = .odometry

/-- The local trajectory builder alone, with its results. -/
def slamRun (E : Env S V L R N C) : L → List (Datum S V) → Option (L × List (Result R N))
  | l, [] => some (l, [])
  | l, d :: ds =>
    match d.kind with
    | .range => (E.range l d).bind fun r => (slamRun E r.1 ds).map fun r' => (r'.1, r.2.toList ++ r'.2)
    | .imu => (E.imu l d).bind fun l => slamRun E l ds
    | .odometry => (E.odometry l d).bind fun l => slamRun E l ds
    | _ => none

/-- The callbacks for results: those with an insertion get the next ids. -/
def numbered (ids : ℕ → ℤ × ℕ) : ℕ → List (Result R N) → List (Callback R N)
  | _, [] => []
  | n, ⟨v, none⟩ :: rs => ⟨v, none⟩ :: numbered ids n rs
  | n, ⟨v, some x⟩ :: rs => ⟨v, some (ids n, x)⟩ :: numbered ids (n + 1) rs

/-- The odometry that the motion filter lets through. -/
def passed (E : Env S V L R N C) : Option (MotionFilter.State (Datum S V)) → List (Datum S V) → List (Datum S V)
  | none, ds => ds
  | some f, ds => ((MotionFilter.run (fun a b => E.distance a.value b.value) (fun a b => E.angle a.value b.value) E.filter f
      (ds.map fun d => (d.time, d))).2.filter fun e => !e.2).map fun e => e.1.2

/-- What one datum may send to the pose graph. -/
inductive Sends : Datum S V → List (ToGraph S V N) → Prop where
  | nothing {d : Datum S V} : d.kind = .range ∨ d.kind = .odometry → Sends d []
  | node {d : Datum S V} (n : N) : d.kind = .range → Sends d [.node n]
  | imu {d : Datum S V} : d.kind = .imu → Sends d [.imu d]
  | odometry {d : Datum S V} : d.kind = .odometry → Sends d [.odometry d]
  | fixedFrame {d : Datum S V} : d.kind = .fixedFrame → Sends d [.fixedFrame d]
  | landmark {d : Datum S V} : d.kind = .landmark → Sends d [.landmark d]
  | localSlam {d : Datum S V} : d.kind = .localSlam → Sends d [.localSlam d]

/-- The parts of what is sent. -/
def nodesOf (l : List (ToGraph S V N)) : List N := l.filterMap fun | .node n => some n | _ => none
def imuOf (l : List (ToGraph S V N)) : List (Datum S V) := l.filterMap fun | .imu d => some d | _ => none
def odometryOf (l : List (ToGraph S V N)) : List (Datum S V) := l.filterMap fun | .odometry d => some d | _ => none
def fixedOf (l : List (ToGraph S V N)) : List (Datum S V) := l.filterMap fun | .fixedFrame d => some d | _ => none
def landmarksOf (l : List (ToGraph S V N)) : List (Datum S V) := l.filterMap fun | .landmark d => some d | _ => none
def localSlamOf (l : List (ToGraph S V N)) : List (Datum S V) := l.filterMap fun | .localSlam d => some d | _ => none

/-- What a run of the builder with a local trajectory builder does. -/
structure Done (E : Env S V L R N C) (ids : ℕ → ℤ × ℕ) (n : ℕ) (b : Builder S V L) (l : L) (ds : List (Datum S V)) (b' : Builder S V L)
    (graph : List (ToGraph S V N)) (cbs : List (Callback R N)) : Prop where
  slam : ∃ l' results, slamRun E l (ds.filter forSlam) = some (l', results) ∧ b'.slam = some l' ∧ cbs = numbered ids n results ∧
    nodesOf graph = results.filterMap Result.insertion
  imu : imuOf graph = ofKind .imu ds
  fixed : fixedOf graph = ofKind .fixedFrame ds
  landmarks : landmarksOf graph = ofKind .landmark ds
  odometry : odometryOf graph = passed E b.filter (ofKind .odometry ds)
  parts : ∃ parts : List (List (ToGraph S V N)), graph = parts.flatten ∧ List.Forall₂ Sends ds parts

theorem numbered_isSome (ids : ℕ → ℤ × ℕ) : ∀ (rs : List (Result R N)) (n : ℕ), ((numbered ids n rs).filter fun c => c.insertion.isSome).length = (rs.filterMap Result.insertion).length
  | [], _ => rfl
  | ⟨v, none⟩ :: rs, n => by
    rw [numbered, List.filter_cons_of_neg (by simp), numbered_isSome ids rs n]
    simp
  | ⟨v, some x⟩ :: rs, n => by
    rw [numbered, List.filter_cons_of_pos (by simp), List.length_cons, numbered_isSome ids rs (n + 1)]
    simp

theorem passed_cons (E : Env S V L R N C) (f : Option (MotionFilter.State (Datum S V))) (d : Datum S V) (ds : List (Datum S V)) :
    passed E f (d :: ds) = (match f with
      | none => [d]
      | some f => if (similar E f d).2 then [] else [d]) ++ passed E (f.map fun f => (similar E f d).1) ds := by
  cases f with
  | none => rfl
  | some f =>
    simp only [passed, List.map_cons, MotionFilter.run, Option.map_some]
    by_cases hb : (similar E f d).2 = true
    · have hb' : (MotionFilter.isSimilar (fun a b => E.distance a.value b.value) (fun a b => E.angle a.value b.value) E.filter f d.time d).2 = true := hb
      rw [if_pos hb, List.filter_cons_of_neg (by simp [hb']), List.nil_append]
      rfl
    · have hb' : ¬ (MotionFilter.isSimilar (fun a b => E.distance a.value b.value) (fun a b => E.angle a.value b.value) E.filter f d.time d).2 = true := hb
      rw [if_neg hb, List.filter_cons_of_pos (by simp [hb'])]
      rfl

set_option maxHeartbeats 1000000 in
theorem run_done {E : Env S V L R N C} {j : ℤ} {ids : ℕ → ℤ × ℕ} : ∀ {ds : List (Datum S V)} {n : ℕ} {b b' : Builder S V L} {l : L} {graph : List (ToGraph S V N)}
    {cbs : List (Callback R N)}, b.slam = some l → b.run E j ids n ds = some (b', graph, cbs) → Done E ids n b l ds b' graph cbs := by
  intro ds
  induction ds with
  | nil =>
    intro n b b' l graph cbs hb h
    cases h
    refine ⟨⟨l, [], rfl, hb, rfl, rfl⟩, rfl, rfl, rfl, ?_, ⟨[], rfl, .nil⟩⟩
    cases hf : b.filter <;> rfl
  | cons d ds ih =>
    intro n b b' l graph cbs hb h
    simp only [Builder.run, Option.bind_eq_bind, Option.bind_eq_some_iff, Option.some.injEq, Prod.mk.injEq] at h
    obtain ⟨⟨b1, g1, c1⟩, h1, ⟨b2, g2, c2⟩, h2, rfl, rfl, rfl⟩ := h
    dsimp only at h2 ⊢
    unfold Builder.step at h1
    cases hk : d.kind with
    | range =>
      simp only [hk, hb, Option.bind_eq_bind, Option.bind_some, Option.bind_eq_some_iff] at h1
      obtain ⟨⟨l1, m⟩, hr, h1⟩ := h1
      have hfs : (d :: ds).filter forSlam = d :: ds.filter forSlam := by rw [List.filter_cons_of_pos (by simp [forSlam, hk])]
      have hok : ∀ k, k ≠ Kind.range → ofKind k (d :: ds) = ofKind k ds := by
        intro k hne
        unfold ofKind
        rw [List.filter_cons_of_neg (by simpa [hk] using hne.symm)]
      cases m with
      | none =>
        simp only [Option.some.injEq, Prod.mk.injEq] at h1
        obtain ⟨rfl, rfl, rfl⟩ := h1
        obtain ⟨⟨l', rs, e1, e2, e3, e4⟩, i, f, la, od, ps, p1, p2⟩ := ih (l := l1) rfl h2
        refine ⟨⟨l', rs, ?_, e2, e3, e4⟩, ?_, ?_, ?_, ?_, ⟨[] :: ps, by simp [p1], .cons (.nothing (Or.inl hk)) p2⟩⟩
        · rw [hfs, slamRun, hk]
          dsimp only
          rw [hr, Option.bind_some]
          dsimp only
          rw [e1]
          rfl
        · rw [hok _ (by simp)]; exact i
        · rw [hok _ (by simp)]; exact f
        · rw [hok _ (by simp)]; exact la
        · rw [hok _ (by simp)]; exact od
      | some m =>
        obtain ⟨v, ins⟩ := m
        cases ins with
        | none =>
          simp only [Option.some.injEq, Prod.mk.injEq] at h1
          obtain ⟨rfl, rfl, rfl⟩ := h1
          obtain ⟨⟨l', rs, e1, e2, e3, e4⟩, i, f, la, od, ps, p1, p2⟩ := ih (l := l1) rfl h2
          refine ⟨⟨l', ⟨v, none⟩ :: rs, ?_, e2, ?_, ?_⟩, ?_, ?_, ?_, ?_, ⟨[] :: ps, by simp [p1], .cons (.nothing (Or.inl hk)) p2⟩⟩
          · rw [hfs, slamRun, hk]
            dsimp only
            rw [hr, Option.bind_some]
            dsimp only
            rw [e1]
            rfl
          · rw [e3]
            rfl
          · rw [List.filterMap_cons_none rfl]
            exact e4
          · rw [hok _ (by simp)]; exact i
          · rw [hok _ (by simp)]; exact f
          · rw [hok _ (by simp)]; exact la
          · rw [hok _ (by simp)]; exact od
        | some x =>
          dsimp only at h1
          split at h1
          · simp only [Option.some.injEq, Prod.mk.injEq] at h1
            obtain ⟨rfl, rfl, rfl⟩ := h1
            obtain ⟨⟨l', rs, e1, e2, e3, e4⟩, i, f, la, od, ps, p1, p2⟩ := ih (l := l1) rfl h2
            refine ⟨⟨l', ⟨v, some x⟩ :: rs, ?_, e2, ?_, ?_⟩, ?_, ?_, ?_, ?_, ⟨[.node x] :: ps, by simp [p1], .cons (.node x hk) p2⟩⟩
            · rw [hfs, slamRun, hk]
              dsimp only
              rw [hr, Option.bind_some]
              dsimp only
              rw [e1]
              rfl
            · rw [e3]
              rfl
            · exact congrArg (x :: ·) e4
            · rw [hok _ (by simp)]; exact i
            · rw [hok _ (by simp)]; exact f
            · rw [hok _ (by simp)]; exact la
            · rw [hok _ (by simp)]; exact od
          · cases h1
    | imu =>
      simp only [hk, hb, Option.bind_eq_bind, Option.bind_eq_some_iff, Option.some.injEq, Prod.mk.injEq] at h1
      obtain ⟨l1, hr, rfl, rfl, rfl⟩ := h1
      have hfs : (d :: ds).filter forSlam = d :: ds.filter forSlam := by rw [List.filter_cons_of_pos (by simp [forSlam, hk])]
      have hok : ∀ k, k ≠ Kind.imu → ofKind k (d :: ds) = ofKind k ds := by
        intro k hne
        unfold ofKind
        rw [List.filter_cons_of_neg (by simpa [hk] using hne.symm)]
      obtain ⟨⟨l', rs, e1, e2, e3, e4⟩, i, f, la, od, ps, p1, p2⟩ := ih (l := l1) rfl h2
      refine ⟨⟨l', rs, ?_, e2, e3, e4⟩, ?_, ?_, ?_, ?_, ⟨[.imu d] :: ps, by simp [p1], .cons (.imu hk) p2⟩⟩
      · rw [hfs, slamRun, hk]
        dsimp only
        rw [hr, Option.bind_some]
        exact e1
      · unfold ofKind
        rw [List.filter_cons_of_pos (by simp [hk])]
        exact congrArg (d :: ·) i
      · rw [hok _ (by simp)]; exact f
      · rw [hok _ (by simp)]; exact la
      · rw [hok _ (by simp)]; exact od
    | odometry =>
      simp only [hk, hb, Option.bind_eq_bind] at h1
      split at h1
      · simp only [Option.bind_eq_some_iff, Option.map_eq_some_iff] at h1
        obtain ⟨l2, ⟨l1, hr, rfl⟩, h1⟩ := h1
        have hfs : (d :: ds).filter forSlam = d :: ds.filter forSlam := by rw [List.filter_cons_of_pos (by simp [forSlam, hk])]
        have hok : ∀ k, k ≠ Kind.odometry → ofKind k (d :: ds) = ofKind k ds := by
          intro k hne
          unfold ofKind
          rw [List.filter_cons_of_neg (by simpa [hk] using hne.symm)]
        have hod : ofKind .odometry (d :: ds) = d :: ofKind .odometry ds := by
          unfold ofKind
          rw [List.filter_cons_of_pos (by simp [hk])]
        cases hf : b.filter with
        | none =>
          simp only [hf, Option.some.injEq, Prod.mk.injEq] at h1
          obtain ⟨rfl, rfl, rfl⟩ := h1
          obtain ⟨⟨l', rs, e1, e2, e3, e4⟩, i, f, la, od, ps, p1, p2⟩ := ih (l := l1) rfl h2
          refine ⟨⟨l', rs, ?_, e2, e3, e4⟩, ?_, ?_, ?_, ?_, ⟨[.odometry d] :: ps, by simp [p1], .cons (.odometry hk) p2⟩⟩
          · rw [hfs, slamRun, hk]
            dsimp only
            rw [hr, Option.bind_some]
            exact e1
          · rw [hok _ (by simp)]; exact i
          · rw [hok _ (by simp)]; exact f
          · rw [hok _ (by simp)]; exact la
          · rw [hod, hf]
            exact congrArg (d :: ·) od
        | some s =>
          simp only [hf, Option.some.injEq, Prod.mk.injEq] at h1
          obtain ⟨rfl, rfl, rfl⟩ := h1
          obtain ⟨⟨l', rs, e1, e2, e3, e4⟩, i, f, la, od, ps, p1, p2⟩ := ih (l := l1) rfl h2
          have hslam : slamRun E l ((d :: ds).filter forSlam) = some (l', rs) := by
            rw [hfs, slamRun, hk]
            dsimp only
            rw [hr, Option.bind_some]
            exact e1
          dsimp only at od
          by_cases hsim : (similar E s d).2 = true
          · simp only [hsim, if_true, List.nil_append]
            refine ⟨⟨l', rs, hslam, e2, e3, e4⟩, ?_, ?_, ?_, ?_, ⟨[] :: ps, by simp [p1], .cons (.nothing (Or.inr hk)) p2⟩⟩
            · rw [hok _ (by simp)]; exact i
            · rw [hok _ (by simp)]; exact f
            · rw [hok _ (by simp)]; exact la
            · rw [hod, hf, passed_cons]
              simp only [hsim, if_true, List.nil_append, Option.map_some]
              exact od
          · simp only [hsim, if_false, Bool.false_eq_true]
            refine ⟨⟨l', rs, hslam, e2, e3, e4⟩, ?_, ?_, ?_, ?_, ⟨[.odometry d] :: ps, by simp [p1], .cons (.odometry hk) p2⟩⟩
            · rw [hok _ (by simp)]; exact i
            · rw [hok _ (by simp)]; exact f
            · rw [hok _ (by simp)]; exact la
            · rw [hod, hf, passed_cons]
              simp only [hsim, if_false, Bool.false_eq_true, Option.map_some]
              exact congrArg (d :: ·) od
      · cases h1
    | fixedFrame =>
      simp only [hk] at h1
      split at h1
      · simp only [Option.some.injEq, Prod.mk.injEq] at h1
        obtain ⟨rfl, rfl, rfl⟩ := h1
        have hfs : (d :: ds).filter forSlam = ds.filter forSlam := by rw [List.filter_cons_of_neg (by simp [forSlam, hk])]
        have hok : ∀ k, k ≠ Kind.fixedFrame → ofKind k (d :: ds) = ofKind k ds := by
          intro k hne
          unfold ofKind
          rw [List.filter_cons_of_neg (by simpa [hk] using hne.symm)]
        obtain ⟨⟨l', rs, e1, e2, e3, e4⟩, i, f, la, od, ps, p1, p2⟩ := ih hb h2
        refine ⟨⟨l', rs, ?_, e2, e3, e4⟩, ?_, ?_, ?_, ?_, ⟨[.fixedFrame d] :: ps, by simp [p1], .cons (.fixedFrame hk) p2⟩⟩
        · rw [hfs]; exact e1
        · rw [hok _ (by simp)]; exact i
        · unfold ofKind
          rw [List.filter_cons_of_pos (by simp [hk])]
          exact congrArg (d :: ·) f
        · rw [hok _ (by simp)]; exact la
        · rw [hok _ (by simp)]; exact od
      · cases h1
    | landmark =>
      simp only [hk, Option.some.injEq, Prod.mk.injEq] at h1
      obtain ⟨rfl, rfl, rfl⟩ := h1
      have hfs : (d :: ds).filter forSlam = ds.filter forSlam := by rw [List.filter_cons_of_neg (by simp [forSlam, hk])]
      have hok : ∀ k, k ≠ Kind.landmark → ofKind k (d :: ds) = ofKind k ds := by
        intro k hne
        unfold ofKind
        rw [List.filter_cons_of_neg (by simpa [hk] using hne.symm)]
      obtain ⟨⟨l', rs, e1, e2, e3, e4⟩, i, f, la, od, ps, p1, p2⟩ := ih hb h2
      refine ⟨⟨l', rs, ?_, e2, e3, e4⟩, ?_, ?_, ?_, ?_, ⟨[.landmark d] :: ps, by simp [p1], .cons (.landmark hk) p2⟩⟩
      · rw [hfs]; exact e1
      · rw [hok _ (by simp)]; exact i
      · rw [hok _ (by simp)]; exact f
      · unfold ofKind
        rw [List.filter_cons_of_pos (by simp [hk])]
        exact congrArg (d :: ·) la
      · rw [hok _ (by simp)]; exact od
    | localSlam =>
      simp [hk, hb] at h1

/-! ### No failing `CHECK` -/

/-- Poses of odometry and of the fixed frame are valid. -/
def AllValid (E : Env S V L R N C) (ds : List (Datum S V)) : Prop := ∀ d ∈ ds, d.kind = .odometry ∨ d.kind = .fixedFrame → E.valid d.value = true

/-- **C91, with a local trajectory builder** the data goes through exactly if poses are valid, no result of a remote local SLAM is among it, the local builder
itself takes its part of the data, and the pose graph gives ids of this trajectory to the nodes. -/
theorem builder_ok_iff {E : Env S V L R N C} {j : ℤ} {ids : ℕ → ℤ × ℕ} : ∀ {ds : List (Datum S V)} {n : ℕ} {b : Builder S V L} {l : L}, b.slam = some l →
    ((b.run E j ids n ds).isSome = true ↔ AllValid E ds ∧ (∀ d ∈ ds, d.kind ≠ .localSlam) ∧
      ∃ l' results, slamRun E l (ds.filter forSlam) = some (l', results) ∧ ∀ i < (results.filterMap Result.insertion).length, (ids (n + i)).1 = j) := by
  intro ds
  induction ds with
  | nil =>
    intro n b l hb
    simp [Builder.run, AllValid, slamRun]
  | cons d ds ih =>
    intro n b l hb
    have hval : AllValid E (d :: ds) ↔ (d.kind = .odometry ∨ d.kind = .fixedFrame → E.valid d.value = true) ∧ AllValid E ds := by
      simp [AllValid]
    have hloc : (∀ x ∈ d :: ds, x.kind ≠ .localSlam) ↔ d.kind ≠ .localSlam ∧ ∀ x ∈ ds, x.kind ≠ .localSlam := by simp
    rw [hval, hloc]
    have hrun : ∀ (r : Builder S V L × List (ToGraph S V N) × List (Callback R N)), b.step E j (ids n) d = some r →
        ((b.run E j ids n (d :: ds)).isSome = true ↔ (r.1.run E j ids (n + (r.2.2.filter fun c => c.insertion.isSome).length) ds).isSome = true) := by
      intro r hr
      simp only [Builder.run, Option.bind_eq_bind]
      rw [hr, Option.bind_some]
      cases r.1.run E j ids (n + (r.2.2.filter fun c => c.insertion.isSome).length) ds <;> simp
    have hnone : b.step E j (ids n) d = none → (b.run E j ids n (d :: ds)).isSome = false := by
      intro hr
      simp only [Builder.run, Option.bind_eq_bind]
      rw [hr]
      rfl
    cases hk : d.kind with
    | range =>
      have hfs : (d :: ds).filter forSlam = d :: ds.filter forSlam := by rw [List.filter_cons_of_pos (by simp [forSlam, hk])]
      rw [hfs]
      simp only [slamRun, hk]
      cases hr : E.range l d with
      | none =>
        rw [hnone (by simp [Builder.step, hk, hb, hr])]
        simp
      | some r =>
        obtain ⟨l1, m⟩ := r
        simp only [Option.bind_some]
        cases m with
        | none =>
          rw [hrun ({ b with slam := some l1 }, [], []) (by simp [Builder.step, hk, hb, hr])]
          rw [ih (l := l1) rfl]
          simp
        | some m =>
          obtain ⟨v, ins⟩ := m
          cases ins with
          | none =>
            rw [hrun ({ b with slam := some l1 }, [], [⟨v, none⟩]) (by simp [Builder.step, hk, hb, hr])]
            rw [ih (l := l1) rfl]
            simp
          | some x =>
            by_cases hj : (ids n).1 = j
            · rw [hrun ({ b with slam := some l1 }, [.node x], [⟨v, some (ids n, x)⟩]) (by simp [Builder.step, hk, hb, hr, hj])]
              rw [ih (l := l1) rfl]
              simp only [Option.map_eq_some_iff, Prod.mk.injEq]
              constructor
              · rintro ⟨h1, h2, l', rs, h3, h4⟩
                refine ⟨⟨by simp, h1⟩, ⟨by simp, h2⟩, l', _, ⟨_, h3, rfl, rfl⟩, ?_⟩
                intro i hi
                cases i with
                | zero => exact hj
                | succ i =>
                  have := h4 i (by simpa using hi)
                  simpa [Nat.add_assoc, Nat.add_comm 1 i] using this
              · rintro ⟨⟨_, h1⟩, ⟨_, h2⟩, l', rs, ⟨⟨l2, rs2⟩, h3, rfl, rfl⟩, h4⟩
                refine ⟨h1, h2, l2, rs2, h3, ?_⟩
                intro i hi
                have := h4 (i + 1) (by simpa using hi)
                simpa [Nat.add_assoc, Nat.add_comm 1 i] using this
            · rw [hnone (by simp [Builder.step, hk, hb, hr, hj])]
              simp only [Option.map_eq_some_iff, Prod.mk.injEq, Bool.false_eq_true, false_iff]
              rintro ⟨_, _, l', rs, ⟨⟨l2, rs2⟩, h3, rfl, rfl⟩, h4⟩
              exact hj (h4 0 (by simp))
    | imu =>
      have hfs : (d :: ds).filter forSlam = d :: ds.filter forSlam := by rw [List.filter_cons_of_pos (by simp [forSlam, hk])]
      rw [hfs]
      simp only [slamRun, hk]
      cases hr : E.imu l d with
      | none =>
        rw [hnone (by simp [Builder.step, hk, hb, hr])]
        simp
      | some l1 =>
        rw [hrun ({ b with slam := some l1 }, [.imu d], []) (by simp [Builder.step, hk, hb, hr])]
        rw [ih (l := l1) rfl]
        simp
    | odometry =>
      have hfs : (d :: ds).filter forSlam = d :: ds.filter forSlam := by rw [List.filter_cons_of_pos (by simp [forSlam, hk])]
      rw [hfs]
      simp only [slamRun, hk]
      by_cases hv : E.valid d.value = true
      · cases hr : E.odometry l d with
        | none =>
          rw [hnone (by simp [Builder.step, hk, hb, hr])]
          simp
        | some l1 =>
          cases hf : b.filter with
          | none =>
            rw [hrun (⟨some l1, none⟩, [.odometry d], []) (by simp [Builder.step, hk, hb, hr, hv, hf])]
            rw [ih (l := l1) rfl]
            simp [hv]
          | some f =>
            rw [hrun (⟨some l1, some (similar E f d).1⟩, if (similar E f d).2 then [] else [.odometry d], []) (by simp [Builder.step, hk, hb, hr, hv, hf])]
            rw [ih (l := l1) rfl]
            simp [hv]
      · rw [hnone (by simp [Builder.step, hk, hv])]
        simp [hv]
    | fixedFrame =>
      have hfs : (d :: ds).filter forSlam = ds.filter forSlam := by rw [List.filter_cons_of_neg (by simp [forSlam, hk])]
      rw [hfs]
      by_cases hv : E.valid d.value = true
      · rw [hrun (b, [.fixedFrame d], []) (by simp [Builder.step, hk, hv])]
        rw [ih hb]
        simp [hv]
      · rw [hnone (by simp [Builder.step, hk, hv])]
        simp [hv]
    | landmark =>
      have hfs : (d :: ds).filter forSlam = ds.filter forSlam := by rw [List.filter_cons_of_neg (by simp [forSlam, hk])]
      rw [hfs]
      rw [hrun (b, [.landmark d], []) (by simp [Builder.step, hk])]
      rw [ih hb]
      simp
    | localSlam =>
      rw [hnone (by simp [Builder.step, hk, hb])]
      simp

/-- **C91, without a local trajectory builder** (in the cloud) the data goes through exactly if poses are valid and there is no range data. -/
theorem remote_ok_iff {E : Env S V L R N C} {j : ℤ} {ids : ℕ → ℤ × ℕ} : ∀ {ds : List (Datum S V)} {n : ℕ} {b : Builder S V L}, b.slam = none →
    ((b.run E j ids n ds).isSome = true ↔ AllValid E ds ∧ ∀ d ∈ ds, d.kind ≠ .range) := by
  intro ds
  induction ds with
  | nil => intro n b hb; simp [Builder.run, AllValid]
  | cons d ds ih =>
    intro n b hb
    have hval : AllValid E (d :: ds) ↔ (d.kind = .odometry ∨ d.kind = .fixedFrame → E.valid d.value = true) ∧ AllValid E ds := by
      simp [AllValid]
    have hloc : (∀ x ∈ d :: ds, x.kind ≠ .range) ↔ d.kind ≠ .range ∧ ∀ x ∈ ds, x.kind ≠ .range := by simp
    rw [hval, hloc]
    have hrun : ∀ (r : Builder S V L × List (ToGraph S V N) × List (Callback R N)), b.step E j (ids n) d = some r →
        ((b.run E j ids n (d :: ds)).isSome = true ↔ (r.1.run E j ids (n + (r.2.2.filter fun c => c.insertion.isSome).length) ds).isSome = true) := by
      intro r hr
      simp only [Builder.run, Option.bind_eq_bind]
      rw [hr, Option.bind_some]
      cases r.1.run E j ids (n + (r.2.2.filter fun c => c.insertion.isSome).length) ds <;> simp
    have hnone : b.step E j (ids n) d = none → (b.run E j ids n (d :: ds)).isSome = false := by
      intro hr
      simp only [Builder.run, Option.bind_eq_bind]
      rw [hr]
      rfl
    cases hk : d.kind with
    | range =>
      rw [hnone (by simp [Builder.step, hk, hb])]
      simp
    | imu =>
      rw [hrun (b, [.imu d], []) (by simp [Builder.step, hk, hb]), ih hb]
      simp
    | odometry =>
      by_cases hv : E.valid d.value = true
      · cases hf : b.filter with
        | none =>
          rw [hrun (⟨none, none⟩, [.odometry d], []) (by simp [Builder.step, hk, hb, hv, hf]), ih rfl]
          simp [hv]
        | some f =>
          rw [hrun (⟨none, some (similar E f d).1⟩, if (similar E f d).2 then [] else [.odometry d], []) (by simp [Builder.step, hk, hb, hv, hf]), ih rfl]
          simp [hv]
      · rw [hnone (by simp [Builder.step, hk, hv])]
        simp [hv]
    | fixedFrame =>
      by_cases hv : E.valid d.value = true
      · rw [hrun (b, [.fixedFrame d], []) (by simp [Builder.step, hk, hv]), ih hb]
        simp [hv]
      · rw [hnone (by simp [Builder.step, hk, hv])]
        simp [hv]
    | landmark =>
      rw [hrun (b, [.landmark d], []) (by simp [Builder.step, hk]), ih hb]
      simp
    | localSlam =>
      rw [hrun (b, [.localSlam d], []) (by simp [Builder.step, hk, hb]), ih hb]
      simp

/-! ### Behind the collator -/

variable [LinearOrder S]

/-- Times increase. -/
def Increasing (l : List (Datum S V)) : Prop := l.Pairwise fun a b => a.time < b.time

theorem forSlam_collated (o : Options) {d : Datum S V} (h : forSlam d = true) : collated o d = true := by
  unfold forSlam at h
  unfold collated skipped
  cases hk : d.kind <;> simp_all

/-- **C91, the local trajectory builder gets its data in order of time** whatever is collated and however the data of the sensors is interleaved. -/
theorem slam_in_order {o : Options} {ids : List (Kind × S)} {calls : List (Call S V)} (hp : Protocol calls) (hs : InOrder o ids calls) :
    ∃ c reached, feed o ids calls = some (c, reached) ∧ (reached.filter forSlam).Pairwise (fun a b => a.time ≤ b.time) := by
  obtain ⟨c, reached, hf, h1, _⟩ := feed_order hp hs
  refine ⟨c, reached, hf, ?_⟩
  have hsub : List.Sublist (reached.filter forSlam) (reached.filter (collated o)) := by
    have : reached.filter forSlam = (reached.filter (collated o)).filter forSlam := by
      rw [List.filter_filter]
      apply List.filter_congr
      intro d _
      cases hd : forSlam d with
      | false => simp
      | true => simp [forSlam_collated o hd]
    rw [this]
    exact List.filter_sublist
  exact (h1.imp fun h => h.1).sublist hsub

/-- **C91, each type in order.** If all data of a type comes from one sensor, which is expected with this type, with increasing times, then what reaches the
builder of this type has increasing times, whether the type is collated or not. -/
theorem kind_increasing {o : Options} {ids : List (Kind × S)} {calls : List (Call S V)} (hp : Protocol calls) (hs : InOrder o ids calls) {k : Kind} {s : S}
    (hid : (k, s) ∈ ids) (hone : ∀ d ∈ added calls, d.kind = k → d.sensor = s) (hinc : Increasing (ofKind k (added calls))) :
    ∃ c reached, feed o ids calls = some (c, reached) ∧ Increasing (ofKind k reached) ∧ List.Sublist (ofKind k reached) (ofKind k (added calls)) := by
  obtain ⟨c, reached, hf, _, h2, h3, h4⟩ := feed_order hp hs
  have hsub : List.Sublist (ofKind k reached) (ofKind k (added calls)) := by
    by_cases hk : skipped o k = true
    · have e : ∀ l : List (Datum S V), ofKind k l = (l.filter fun d => !collated o d).filter fun d => decide (d.kind = k) := by
        intro l
        rw [List.filter_filter]
        apply List.filter_congr
        intro d _
        by_cases hd : d.kind = k
        · simp [hd, collated, hk]
        · simp [hd]
      rw [e, e, h4]
    · have hexp : s ∈ expected o ids := by
        unfold expected
        rw [List.mem_dedup]
        exact List.mem_map.2 ⟨(k, s), List.mem_filter.2 ⟨hid, by simpa using hk⟩, rfl⟩
      have hin : List.Sublist (ofSensor o s reached) (ofSensor o s (added calls)) := (h2 s hexp).sublist
      have hmem : ∀ d ∈ reached, d ∈ added calls := by
        intro d hd
        cases hc : collated o d with
        | true =>
          have h5 := (h2 d.sensor (h3 d hd hc)).subset (a := d) (List.mem_filter.2 ⟨hd, by simp [hc]⟩)
          exact (List.mem_filter.1 h5).1
        | false =>
          have h5 : d ∈ reached.filter (fun d => !collated o d) := List.mem_filter.2 ⟨hd, by simp [hc]⟩
          rw [h4] at h5
          exact (List.mem_filter.1 h5).1
      have e : ∀ l : List (Datum S V), (∀ d ∈ l, d ∈ added calls) → ofKind k l = (ofSensor o s l).filter fun d => decide (d.kind = k) := by
        intro l hl
        unfold ofSensor
        rw [List.filter_filter]
        apply List.filter_congr
        intro d hd
        by_cases hdk : d.kind = k
        · simp [hdk, collated, hk, hone d (hl d hd) hdk]
        · simp [hdk]
      rw [e reached hmem, e (added calls) (fun _ h => h)]
      exact hin.filter _
  exact ⟨c, reached, hf, hinc.sublist hsub, hsub⟩

/-! ### The storage of the pose graph -/

/-- The time for `MapByTime`. -/
def mtime (d : Datum S V) : WithBot (WithTop ℤ) := ((d.time : WithTop ℤ) : WithBot (WithTop ℤ))

/-- `AddImuData`, `AddOdometryData` and `AddFixedFramePoseData` of `OptimizationProblem3D` (optimization_problem_3d.cc 194-208; in 2D, lines 175-191, IMU data is
ignored) append to a `MapByTime`: here all data of one type, without trimming. -/
def store (j : ℤ) (m : MapByTime.Map (WithBot (WithTop ℤ)) (Datum S V)) : List (Datum S V) → Option (MapByTime.Map (WithBot (WithTop ℤ)) (Datum S V))
  | [] => some m
  | d :: ds => (MapByTime.append mtime m j d).bind fun m => store j m ds

theorem put_greatest {K D : Type} [LinearOrder K] {l : List (K × D)} {k : K} {d : D} (h : ∀ e ∈ l, e.1 < k) : SMap.put k d l = l ++ [(k, d)] := by
  induction l with
  | nil => rfl
  | cons e l ih =>
    obtain ⟨j, x⟩ := e
    have hj : j < k := h (j, x) List.mem_cons_self
    simp only [SMap.put]
    rw [if_neg (not_lt.2 hj.le), if_neg hj.ne, ih (fun e he => h e (List.mem_cons_of_mem _ he))]
    rfl

omit [LinearOrder S] in
theorem mtime_lt {a b : Datum S V} : mtime a < mtime b ↔ a.time < b.time := by
  unfold mtime
  rw [WithBot.coe_lt_coe, WithTop.coe_lt_coe]

omit [LinearOrder S] in
theorem store_from {j : ℤ} (hj : 0 ≤ j) : ∀ (ds old : List (Datum S V)) (m : MapByTime.Map (WithBot (WithTop ℤ)) (Datum S V)),
    (SMap.get? j m).getD [] = old.map (fun d => (mtime d, d)) → Increasing old → ((store j m ds).isSome = true ↔ Increasing (old ++ ds)) := by
  intro ds
  induction ds with
  | nil =>
    intro old m _ ho
    simpa [store] using ho
  | cons d ds ih =>
    intro old m hm ho
    have hmid : old ++ d :: ds = (old ++ [d]) ++ ds := by simp
    rw [hmid]
    by_cases hlt : ∀ x ∈ old, x.time < d.time
    · have ho' : Increasing (old ++ [d]) := by
        unfold Increasing at ho ⊢
        rw [List.pairwise_append]
        exact ⟨ho, by simp, by simpa using hlt⟩
      have hput : SMap.put (mtime d) d (old.map fun d => (mtime d, d)) = (old ++ [d]).map fun d => (mtime d, d) := by
        rw [put_greatest]
        · simp
        · intro e he
          obtain ⟨x, hx, rfl⟩ := List.mem_map.1 he
          exact mtime_lt.2 (hlt x hx)
      have happ : MapByTime.append mtime m j d = some (SMap.put j ((old ++ [d]).map fun d => (mtime d, d)) m) := by
        unfold MapByTime.append
        rw [if_neg (not_lt.2 hj)]
        simp only [hm, hput]
        split
        · rfl
        · rename_i l hl
          rw [if_pos]
          rw [List.getLast?_map] at hl
          obtain ⟨x, hx, rfl⟩ := Option.map_eq_some_iff.1 hl
          exact mtime_lt.2 (hlt x (List.mem_of_getLast? hx))
      rw [store, happ, Option.bind_some]
      exact ih _ _ (by rw [SMap.get?_put, if_pos rfl]; rfl) ho'
    · have hlast : ∃ x, old.getLast? = some x ∧ ¬ x.time < d.time := by
        push Not at hlt
        obtain ⟨x, hx, hxd⟩ := hlt
        cases hl : old.getLast? with
        | none =>
          rw [List.getLast?_eq_none_iff] at hl
          subst hl
          cases hx
        | some y =>
          refine ⟨y, rfl, ?_⟩
          obtain ⟨ys, rfl⟩ := List.getLast?_eq_some_iff.1 hl
          rcases List.mem_append.1 hx with hx | hx
          · have := (List.pairwise_append.1 ho).2.2 x hx y (by simp)
            omega
          · rw [List.mem_singleton] at hx
            subst hx
            omega
      obtain ⟨x, hx, hxd⟩ := hlast
      have happ : MapByTime.append mtime m j d = none := by
        unfold MapByTime.append
        rw [if_neg (not_lt.2 hj)]
        simp only [hm, List.getLast?_map, hx, Option.map_some]
        rw [if_neg]
        rw [mtime_lt]
        exact hxd
      rw [store, happ]
      simp only [Option.bind_none, Option.isSome_none, Bool.false_eq_true, false_iff]
      intro hinc
      have := (List.pairwise_append.1 (List.pairwise_append.1 hinc).1).2.2 x (List.mem_of_getLast? hx) d (by simp)
      exact hxd this

omit [LinearOrder S] in
/-- The pose graph takes the data of one type exactly if its times increase. -/
theorem store_iff {j : ℤ} (hj : 0 ≤ j) (ds : List (Datum S V)) : (store j [] ds).isSome = true ↔ Increasing ds := by
  have := store_from hj ds [] [] rfl List.Pairwise.nil
  simpa using this

/-- **C91, end to end.** For every trajectory with one IMU, whose times increase, and with all sensors in order, the IMU data that the global trajectory builder
sends is stored without a failing `CHECK`, in every interleaving and for every local trajectory builder.  The same holds for fixed frame data. -/
theorem imu_stored {o : Options} {ids : List (Kind × S)} {calls : List (Call S V)} (hp : Protocol calls) (hs : InOrder o ids calls) {s : S} (hid : (Kind.imu, s) ∈ ids)
    (hone : ∀ d ∈ added calls, d.kind = .imu → d.sensor = s) (hinc : Increasing (ofKind .imu (added calls)))
    {E : Env S V L R N C} {j : ℤ} (hj : 0 ≤ j) {nodeIds : ℕ → ℤ × ℕ} {b : Builder S V L} {l : L} (hb : b.slam = some l) :
    ∃ c reached, feed o ids calls = some (c, reached) ∧ ∀ b' graph cbs, b.run E j nodeIds 0 reached = some (b', graph, cbs) → (store j [] (imuOf graph)).isSome = true := by
  obtain ⟨c, reached, hf, h1, _⟩ := kind_increasing hp hs hid hone hinc
  refine ⟨c, reached, hf, fun b' graph cbs hrun => ?_⟩
  rw [store_iff hj, (run_done hb hrun).imu]
  exact h1

theorem fixed_stored {o : Options} {ids : List (Kind × S)} {calls : List (Call S V)} (hp : Protocol calls) (hs : InOrder o ids calls) {s : S} (hid : (Kind.fixedFrame, s) ∈ ids)
    (hone : ∀ d ∈ added calls, d.kind = .fixedFrame → d.sensor = s) (hinc : Increasing (ofKind .fixedFrame (added calls)))
    {E : Env S V L R N C} {j : ℤ} (hj : 0 ≤ j) {nodeIds : ℕ → ℤ × ℕ} {b : Builder S V L} {l : L} (hb : b.slam = some l) :
    ∃ c reached, feed o ids calls = some (c, reached) ∧ ∀ b' graph cbs, b.run E j nodeIds 0 reached = some (b', graph, cbs) → (store j [] (fixedOf graph)).isSome = true := by
  obtain ⟨c, reached, hf, h1, _⟩ := kind_increasing hp hs hid hone hinc
  refine ⟨c, reached, hf, fun b' graph cbs hrun => ?_⟩
  rw [store_iff hj, (run_done hb hrun).fixed]
  exact h1

omit [LinearOrder S] in
theorem filterRun_fst (E : Env S V L R N C) : ∀ (xs : List (Int × Datum S V)) (f : MotionFilter.State (Datum S V)),
    (MotionFilter.run (fun a b => E.distance a.value b.value) (fun a b => E.angle a.value b.value) E.filter f xs).2.map Prod.fst = xs
  | [], _ => rfl
  | x :: xs, f => by
    simp only [MotionFilter.run, List.map_cons]
    rw [filterRun_fst E xs]

omit [LinearOrder S] in
theorem passed_sublist (E : Env S V L R N C) (f : Option (MotionFilter.State (Datum S V))) (ds : List (Datum S V)) : List.Sublist (passed E f ds) ds := by
  cases f with
  | none => exact List.Sublist.refl _
  | some f =>
    unfold passed
    have h1 := filterRun_fst E (ds.map fun d => (d.time, d)) f
    have h2 : (MotionFilter.run (fun a b => E.distance a.value b.value) (fun a b => E.angle a.value b.value) E.filter f (ds.map fun d => (d.time, d))).2.map (fun e => e.1.2) = ds := by
      have := congrArg (List.map Prod.snd) h1
      simpa [List.map_map, Function.comp_def] using this
    conv_rhs => rw [← h2]
    exact (List.filter_sublist).map _

/-- For odometry it holds as well, with or without the motion filter. -/
theorem odometry_stored {o : Options} {ids : List (Kind × S)} {calls : List (Call S V)} (hp : Protocol calls) (hs : InOrder o ids calls) {s : S} (hid : (Kind.odometry, s) ∈ ids)
    (hone : ∀ d ∈ added calls, d.kind = .odometry → d.sensor = s) (hinc : Increasing (ofKind .odometry (added calls)))
    {E : Env S V L R N C} {j : ℤ} (hj : 0 ≤ j) {nodeIds : ℕ → ℤ × ℕ} {b : Builder S V L} {l : L} (hb : b.slam = some l) :
    ∃ c reached, feed o ids calls = some (c, reached) ∧ ∀ b' graph cbs, b.run E j nodeIds 0 reached = some (b', graph, cbs) → (store j [] (odometryOf graph)).isSome = true := by
  obtain ⟨c, reached, hf, h1, _⟩ := kind_increasing hp hs hid hone hinc
  refine ⟨c, reached, hf, fun b' graph cbs hrun => ?_⟩
  rw [store_iff hj, (run_done hb hrun).odometry]
  exact h1.sublist (passed_sublist _ _ _)

/-- **C91, disagreement: two IMUs.** Two IMUs that give data in order, once at the same time, are collated without complaint, but the pose graph in 3D cannot
store what it gets; so it is for two datums of one IMU with equal times. -/
theorem two_imus_abort : ∃ c reached, feed ⟨true, true⟩ [(.imu, 1), (.imu, 2)] [.data (ex .imu 1 5) 0, .data (ex .imu 2 5) 0, .flush 0] = some (c, reached) ∧
    reached = [ex .imu 1 5, ex .imu 2 5] ∧ (store 0 [] (ofKind .imu reached)) = none := by
  have h : (feed ⟨true, true⟩ [(.imu, 1), (.imu, 2)] [.data (ex .imu 1 5) 0, .data (ex .imu 2 5) 0, .flush 0]).map Prod.snd =
      some [ex .imu 1 5, ex .imu 2 5] := by decide +kernel
  obtain ⟨⟨c, r⟩, h1, h2⟩ := Option.map_eq_some_iff.1 h
  refine ⟨c, r, h1, h2, ?_⟩
  rw [← Option.not_isSome_iff_eq_none, store_iff (le_refl 0)]
  dsimp only at h2
  rw [h2]
  simp [Increasing, ofKind, ex]

/-- A local builder for examples: it counts, and gives a result for each scan but the first, with a node for even counts. -/
def exEnv : Env ℕ Unit ℕ ℕ ℕ ℕ where
  range l _ := some (l + 1, if l = 0 then none else some ⟨l, if l % 2 = 0 then some l else none⟩)
  imu l _ := some (l + 1)
  odometry l _ := some (l + 1)
  valid _ := true
  distance _ _ := 0
  angle _ _ := 0
  filter := ⟨3, 0, 0⟩

/-- Odometry at times 1, 2 and 6 with a motion filter of 3 ticks: the second is not sent; the scan at time 4 gives a node. -/
example : (Builder.run exEnv 7 (fun n => (7, n)) 0 ⟨some 0, some ⟨0, 0, (0, ex .odometry 3 0)⟩⟩
    [ex .odometry 3 1, ex .odometry 3 2, ex .range 1 4, ex .imu 2 5, ex .odometry 3 6, ex .landmark 4 0]).map (fun r => (odometryOf r.2.1, nodesOf r.2.1, r.2.2.map fun c => c.insertion)) =
    some ([ex .odometry 3 1, ex .odometry 3 6], [2], [some ((7, 0), 2)]) := rfl

/-- The hypotheses of the theorems hold for two sensors. -/
example : InOrder ⟨true, true⟩ [(.range, 1), (.imu, 2)] [.data (ex .range 1 2) 0, .data (ex .imu 2 1) 0, .data (ex .imu 2 3) 0, .flush 0] := by
  intro s hs
  have : s = 1 ∨ s = 2 := by
    have h : expected ⟨true, true⟩ [(Kind.range, 1), (Kind.imu, 2)] = [1, 2] := by decide +kernel
    rw [h] at hs
    simpa using hs
  rcases this with rfl | rfl <;> simp [ofSensor, added, ex, collated, skipped]

end Verif.Feed
