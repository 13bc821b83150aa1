import Verif.OptimizationProblem3DLemmas

/-!
# C107: the optimization problem of the 3D pose graph
-/

namespace Verif.OptProblem3

open MapById Rigid

set_option linter.unusedSectionVars false

variable {T G : Type} [LinearOrder T] [Group G] (S : Setup T G)

/-! ### Specification -/

/-- The measurements of the IMU of a trajectory. -/
def imuOf (p : Problem T G) (t : Int) : List Imu.Data := 
  (MapByTime.dataOf p.imu t).map fun e => { time := S.tick e.2.time, acceleration := e.2.acceleration, gyro := e.2.gyro }

/-- What a trajectory needs for its inertial residuals: before each of two consecutive nodes there is a measurement, and there are three
consecutive nodes. -/
structure Inertial (p : Problem T G) (t : Int) : Prop where
  before : ∀ i m n, at? p.nodes (t, i) = some m → at? p.nodes (t, i + 1) = some n → ∃ e ∈ MapByTime.dataOf p.imu t, e.1 ≤ m.time
  three : ∃ i, (at? p.nodes (t, i)).isSome ∧ (at? p.nodes (t, i + 1)).isSome ∧ (at? p.nodes (t, i + 2)).isSome

/-- What holds in all reachable states. -/
structure Inv [BoundedOrder T] (p : Problem T G) : Prop where
  two : OptProblem.Inv p.toProblem
  imu : MapByTime.WF (·.time) p.imu

/-- The times of the nodes of a trajectory do not decrease, and times are counted in ticks. -/
structure Timed (p : Problem T G) : Prop where
  tick : StrictMono S.tick
  mono : ∀ t, OptProblem.Monotone p.nodes t

variable {S}

theorem mem_traj {nodes : Map (Node T G)} (w : WF nodes) {e : Int × Traj (Node T G)} (he : e ∈ nodes) {i : Int} {n : Node T G} :
    (i, n) ∈ e.2.data ↔ at? nodes (e.1, i) = some n := by
  rw [at?_iff_mem w, mem_flat]
  constructor
  · intro h
    exact ⟨e.2, he, h⟩
  · rintro ⟨tr, h1, h2⟩
    have q1 := SMap.get?_of_mem w.sorted (k := e.1) (v := e.2) he
    have q2 := SMap.get?_of_mem w.sorted (k := e.1) (v := tr) h1
    rw [q1] at q2
    rw [Option.some.inj q2]
    exact h2

theorem traj_of_at {nodes : Map (Node T G)} (w : WF nodes) {t i : Int} {n : Node T G} (h : at? nodes (t, i) = some n) :
    ∃ e ∈ nodes, e.1 = t ∧ (i, n) ∈ e.2.data := by
  obtain ⟨tr, h1, h2⟩ := mem_flat.1 ((at?_iff_mem w).1 h)
  exact ⟨(t, tr), h1, rfl, h2⟩

theorem inOrder [BoundedOrder T] {p : Problem T G} (hi : Inv p) (ht : Timed S p) {e : Int × Traj (Node T G)} (he : e ∈ p.nodes) :
    InOrder S e.2.data := by
  have hs : e.2.data.Pairwise fun a b => a.1 < b.1 := hi.two.nodes.dsorted e he
  refine List.Pairwise.imp_of_mem ?_ hs
  intro a b ha hb hab
  refine ⟨hab, ht.tick.monotone (ht.mono e.1 a.1 b.1 a.2 b.2 ?_ ?_ hab.le)⟩
  · exact (mem_traj hi.two.nodes he).1 ha
  · exact (mem_traj hi.two.nodes he).1 hb

theorem imuOf_sorted {p : Problem T G} (hw : MapByTime.WF (·.time) p.imu) (ht : StrictMono S.tick) (t : Int) : Imu.Sorted (imuOf S p t) := by
  unfold imuOf MapByTime.dataOf
  cases hg : SMap.get? t p.imu with
  | none => exact List.Pairwise.nil
  | some tr =>
    have hm := SMap.mem_of_get? hg
    have hs : tr.Pairwise fun a b => a.1 < b.1 := hw.dsorted _ hm
    unfold Imu.Sorted
    simp only [Option.getD_some]
    rw [List.pairwise_map]
    refine List.Pairwise.imp_of_mem ?_ hs
    intro a b ha hb hab
    rw [hw.keys _ hm a ha, hw.keys _ hm b hb] at hab
    exact ht hab

theorem dataOf_keys {p : Problem T G} (hw : MapByTime.WF (·.time) p.imu) {t : Int} {e : T × ImuReading T} (he : e ∈ MapByTime.dataOf p.imu t) :
    e.1 = e.2.time := by
  unfold MapByTime.dataOf at he
  cases hg : SMap.get? t p.imu with
  | none => rw [hg] at he; cases he
  | some tr =>
    rw [hg] at he
    exact hw.keys _ (SMap.mem_of_get? hg) e he

theorem started_iff {p : Problem T G} (hw : MapByTime.WF (·.time) p.imu) (ht : StrictMono S.tick) {t : Int} {τ : T} :
    Imu.Started (imuOf S p t) (S.tick τ) ↔ ∃ e ∈ MapByTime.dataOf p.imu t, e.1 ≤ τ := by
  constructor
  · rintro ⟨d, hd, hle⟩
    obtain ⟨e, he, rfl⟩ := List.mem_map.1 hd
    refine ⟨e, he, ?_⟩
    rw [dataOf_keys hw he]
    exact ht.le_iff_le.1 hle
  · rintro ⟨e, he, hle⟩
    refine ⟨S.data e.2, List.mem_map.2 ⟨e, he, rfl⟩, ?_⟩
    rw [dataOf_keys hw he] at hle
    exact ht.le_iff_le.2 hle

variable [BoundedOrder T]

theorem allStarted_iff {p : Problem T G} (hi : Inv p) (ht : Timed S p) {e : Int × Traj (Node T G)} (he : e ∈ p.nodes) :
    AllStarted S (imuOf S p e.1) e.2.data ↔
      ∀ i m n, at? p.nodes (e.1, i) = some m → at? p.nodes (e.1, i + 1) = some n → ∃ x ∈ MapByTime.dataOf p.imu e.1, x.1 ≤ m.time := by
  unfold AllStarted
  refine forall_congr' fun k => forall_congr' fun m => forall_congr' fun n => ?_
  rw [mem_traj hi.two.nodes he, mem_traj hi.two.nodes he, started_iff hi.imu ht.tick]

theorem imuTrajectory_spec {p : Problem T G} (hi : Inv p) (ht : Timed S p) {e : Int × Traj (Node T G)} (he : e ∈ p.nodes) :
    (Inertial p e.1 → ∃ bs, imuTrajectory S p e.1 e.2.data = some bs ∧ Exact S (imuOf S p e.1) e.1 e.2.data bs) ∧
    (¬ Inertial p e.1 → imuTrajectory S p e.1 e.2.data = none) := by
  have hne := hi.two.nodes.nonempty e he
  have hs := imuOf_sorted hi.imu ht.tick e.1
  have ho := inOrder hi ht he
  have hmem := fun i n => mem_traj hi.two.nodes he (i := i) (n := n)
  have hall := allStarted_iff hi ht he
  cases hL : e.2.data with
  | nil => exact absurd hL hne
  | cons x xs =>
    rw [hL] at ho hall hmem
    have htd : (SMap.get? e.1 p.trajectoryData).isSome := hi.two.data (e.1, x.1) x.2 ((hmem x.1 x.2).1 (by simp))
    obtain ⟨td, htd⟩ := Option.isSome_iff_exists.1 htd
    obtain ⟨h1, h2⟩ := imuLoop_spec S hs e.1 xs x 0 ho (.inl rfl)
    -- the lower bound
    have hbound : ∀ bs, AllStarted S (imuOf S p e.1) (x :: xs) → Exact S (imuOf S p e.1) e.1 (x :: xs) bs →
        (boundGravity bs = some bs ∧ (∃ i, (at? p.nodes (e.1, i)).isSome ∧ (at? p.nodes (e.1, i + 1)).isSome ∧ (at? p.nodes (e.1, i + 2)).isSome)) ∨
        (boundGravity bs = none ∧ ¬ ∃ i, (at? p.nodes (e.1, i)).isSome ∧ (at? p.nodes (e.1, i + 1)).isSome ∧ (at? p.nodes (e.1, i + 2)).isSome) := by
      intro bs hA X
      unfold boundGravity
      by_cases hu : bs.any Block.usesGravity = true
      · left
        rw [if_pos hu]
        refine ⟨rfl, ?_⟩
        obtain ⟨blk, hblk, hg⟩ := List.any_eq_true.1 hu
        cases blk with
        | two b => cases hg
        | rotation => cases hg
        | acceleration i j k v d1 d2 =>
          obtain ⟨y, m, n, o, k1, k2, k3, -⟩ := (X.acceleration i j k v d1 d2).1 hblk
          exact ⟨y, by rw [(hmem _ _).1 k1]; rfl, by rw [(hmem _ _).1 k2]; rfl, by rw [(hmem _ _).1 k3]; rfl⟩
      · right
        rw [if_neg hu]
        refine ⟨rfl, ?_⟩
        rintro ⟨i, k1, k2, k3⟩
        obtain ⟨m, k1⟩ := Option.isSome_iff_exists.1 k1
        obtain ⟨n, k2⟩ := Option.isSome_iff_exists.1 k2
        obtain ⟨o, k3⟩ := Option.isSome_iff_exists.1 k3
        have q1 := ht.tick.monotone (ht.mono e.1 _ _ _ _ k1 k2 (by omega))
        have q2 := ht.tick.monotone (ht.mono e.1 _ _ _ _ k2 k3 (by omega))
        rw [← hmem] at k1 k2 k3
        obtain ⟨v, hv⟩ := (hA i m n k1 k2).change S.ticks hs q1 q2
        have := (X.acceleration _ _ _ _ _ _).2 ⟨i, m, n, o, k1, k2, k3, rfl, rfl, rfl, rfl, rfl, hv⟩
        exact hu (List.any_eq_true.2 ⟨_, this, rfl⟩)
    unfold imuTrajectory
    simp only [htd, Option.bind_eq_bind, Option.bind_some]
    cases hg : SMap.get? e.1 p.imu with
    | none =>
      refine ⟨fun hI => ?_, fun _ => rfl⟩
      exfalso
      obtain ⟨i, k1, k2, -⟩ := hI.three
      obtain ⟨m, k1⟩ := Option.isSome_iff_exists.1 k1
      obtain ⟨n, k2⟩ := Option.isSome_iff_exists.1 k2
      obtain ⟨d, hd, -⟩ := hI.before i m n k1 k2
      rw [MapByTime.dataOf, hg] at hd
      cases hd
    | some tr =>
      have htr : tr ≠ [] := hi.imu.nonempty _ (SMap.mem_of_get? hg)
      have hdat : (tr.map fun e => S.data e.2) = imuOf S p e.1 := by
        rw [imuOf, MapByTime.dataOf, hg]; rfl
      simp only [Option.bind_some]
      rw [if_neg (by simpa using htr), hdat]
      by_cases hA : AllStarted S (imuOf S p e.1) (x :: xs)
      · obtain ⟨bs, e1, X⟩ := h2 hA
        rw [e1, Option.bind_some]
        rcases hbound bs hA X with ⟨e2, e3⟩ | ⟨e2, e3⟩
        · exact ⟨fun _ => ⟨bs, e2, X⟩, fun hn => absurd ⟨hall.1 hA, e3⟩ hn⟩
        · exact ⟨fun hI => absurd hI.three e3, fun _ => e2⟩
      · rw [h1 hA]
        exact ⟨fun hI => absurd (hall.2 hI.before) hA, fun _ => rfl⟩

theorem imuPart_none {p : Problem T G} {frozen : List Int} : ∀ {m : Map (Node T G)} {e : Int × Traj (Node T G)}, e ∈ m → e.1 ∉ frozen →
    imuTrajectory S p e.1 e.2.data = none → imuPart S p frozen m = none := by
  intro m
  induction m with
  | nil => intro e he; cases he
  | cons x m ih =>
    intro e he hf hn
    obtain ⟨t, tr⟩ := x
    unfold imuPart
    rcases List.mem_cons.1 he with rfl | he
    · simp only at hf hn
      rw [if_neg hf, hn]; rfl
    · split
      · exact ih he hf hn
      · rw [ih he hf hn]
        cases imuTrajectory S p t tr.data <;> rfl

theorem imuPart_some {p : Problem T G} {frozen : List Int} : ∀ {m : Map (Node T G)}, (m.Pairwise fun a b => a.1 ≠ b.1) →
    (∀ e ∈ m, e.1 ∉ frozen → ∃ bs, imuTrajectory S p e.1 e.2.data = some bs ∧ Exact S (imuOf S p e.1) e.1 e.2.data bs) →
    ∃ bs, imuPart S p frozen m = some bs ∧ bs.Nodup ∧ ∀ blk, blk ∈ bs ↔ ∃ e ∈ m, e.1 ∉ frozen ∧
      ∃ bs', Exact S (imuOf S p e.1) e.1 e.2.data bs' ∧ blk ∈ bs' := by
  have hex : ∀ {data t L bs bs'} {blk : Block T G}, Exact S data t L bs → Exact S data t L bs' → blk ∈ bs' → blk ∈ bs := by
    intro data t L bs bs' blk X X' hb
    cases blk with
    | two b => exact absurd hb (X'.two b)
    | rotation i j q d => exact (X.rotation i j q d).2 ((X'.rotation i j q d).1 hb)
    | acceleration i j k v d1 d2 => exact (X.acceleration i j k v d1 d2).2 ((X'.acceleration i j k v d1 d2).1 hb)
  have htraj : ∀ {data t L bs} {blk : Block T G}, Exact S data t L bs → blk ∈ bs →
      (∃ x j q d, blk = .rotation (t, x) j q d) ∨ ∃ x j k v d1 d2, blk = .acceleration (t, x) j k v d1 d2 := by
    intro data t L bs blk X hb
    cases blk with
    | two b => exact absurd hb (X.two b)
    | rotation i j q d =>
      obtain ⟨k, m, n, r, -, -, rfl, -⟩ := (X.rotation i j q d).1 hb
      exact .inl ⟨_, _, _, _, rfl⟩
    | acceleration i j k v d1 d2 =>
      obtain ⟨x, m, n, o, -, -, -, rfl, -⟩ := (X.acceleration i j k v d1 d2).1 hb
      exact .inr ⟨_, _, _, _, _, _, rfl⟩
  intro m
  induction m with
  | nil => intro _ _; exact ⟨[], rfl, .nil, by simp⟩
  | cons x m ih =>
    intro hp h
    obtain ⟨hp1, hp2⟩ := List.pairwise_cons.1 hp
    obtain ⟨rest, e1, hn, hr⟩ := ih hp2 fun e he => h e (List.mem_cons_of_mem _ he)
    obtain ⟨t, tr⟩ := x
    unfold imuPart
    by_cases hf : t ∈ frozen
    · rw [if_pos hf]
      refine ⟨rest, e1, hn, fun blk => ?_⟩
      rw [hr]
      constructor
      · rintro ⟨e, he, rest⟩
        exact ⟨e, List.mem_cons_of_mem _ he, rest⟩
      · rintro ⟨e, he, hf', rest⟩
        rcases List.mem_cons.1 he with rfl | he
        · exact absurd hf hf'
        · exact ⟨e, he, hf', rest⟩
    · rw [if_neg hf]
      obtain ⟨bs, e2, X⟩ := h (t, tr) (by simp) hf
      simp only at e2 X
      rw [e2, e1]
      refine ⟨bs ++ rest, rfl, ?_, fun blk => ?_⟩
      · refine List.nodup_append.2 ⟨?_, hn, ?_⟩
        · refine List.Pairwise.imp_of_mem ?_ X.nodup
          intro a b ha hb hab he
          subst he
          cases a with
          | two b => exact X.two b ha
          | rotation => exact hab rfl
          | acceleration => exact hab rfl
        · intro a ha b hb he
          subst he
          obtain ⟨e, he, -, bs', X', hb'⟩ := (hr a).1 hb
          have hne := hp1 e he
          simp only at hne
          rcases htraj X ha with ⟨x, j, q, d, rfl⟩ | ⟨x, j, k, v, d1, d2, rfl⟩ <;>
          rcases htraj X' hb' with ⟨x', j', q', d', e'⟩ | ⟨x', j', k', v', d1', d2', e'⟩ <;>
          simp at e' <;> exact hne e'.1.1
      · rw [List.mem_append, hr]
        constructor
        · rintro (hb | ⟨e, he, rest⟩)
          · exact ⟨(t, tr), by simp, hf, bs, X, hb⟩
          · exact ⟨e, List.mem_cons_of_mem _ he, rest⟩
        · rintro ⟨e, he, hf', bs', X', hb⟩
          rcases List.mem_cons.1 he with rfl | he
          · exact .inl (hex X X' hb)
          · exact .inr ⟨e, he, hf', bs', X', hb⟩

/-! ### The other parts -/

theorem pairPart_spec {p : Problem T G} {frozen : List Int} : ∀ {m : Map (Node T G)}, (m.Pairwise fun a b => a.1 ≠ b.1) →
    (∀ e ∈ m, InOrder S e.2.data) →
    (pairPart S p frozen m).Nodup ∧ ∀ blk, blk ∈ pairPart S p frozen m ↔ ∃ e ∈ m, e.1 ∉ frozen ∧
      ∃ k a b, (k, a) ∈ e.2.data ∧ (k + 1, b) ∈ e.2.data ∧ (blk = .two (.localSlam (e.1, k) (e.1, k + 1) (a.localPose⁻¹ * b.localPose)) ∨
        ∃ g, odometryBetween S p.odometry e.1 a b = some g ∧ blk = .two (.odometry (e.1, k) (e.1, k + 1) g)) := by
  intro m
  induction m with
  | nil => intro _ _; exact ⟨.nil, by simp [pairPart]⟩
  | cons x m ih =>
    intro hp h
    obtain ⟨hp1, hp2⟩ := List.pairwise_cons.1 hp
    obtain ⟨hn, hr⟩ := ih hp2 fun e he => h e (List.mem_cons_of_mem _ he)
    obtain ⟨t, tr⟩ := x
    have hx := h (t, tr) (by simp)
    simp only at hx
    have step : ∀ blk : Block T G, ((∃ e ∈ m, e.1 ∉ frozen ∧
      ∃ k a b, (k, a) ∈ e.2.data ∧ (k + 1, b) ∈ e.2.data ∧ (blk = .two (.localSlam (e.1, k) (e.1, k + 1) (a.localPose⁻¹ * b.localPose)) ∨
        ∃ g, odometryBetween S p.odometry e.1 a b = some g ∧ blk = .two (.odometry (e.1, k) (e.1, k + 1) g))) ∨
        (t ∉ frozen ∧ ∃ k a b, (k, a) ∈ tr.data ∧ (k + 1, b) ∈ tr.data ∧
          (blk = .two (.localSlam (t, k) (t, k + 1) (a.localPose⁻¹ * b.localPose)) ∨
            ∃ g, odometryBetween S p.odometry t a b = some g ∧ blk = .two (.odometry (t, k) (t, k + 1) g)))) ↔
        ∃ e ∈ (t, tr) :: m, e.1 ∉ frozen ∧
          ∃ k a b, (k, a) ∈ e.2.data ∧ (k + 1, b) ∈ e.2.data ∧
            (blk = .two (.localSlam (e.1, k) (e.1, k + 1) (a.localPose⁻¹ * b.localPose)) ∨
              ∃ g, odometryBetween S p.odometry e.1 a b = some g ∧ blk = .two (.odometry (e.1, k) (e.1, k + 1) g)) := by
      intro blk
      rw [List.exists_mem_cons_iff, or_comm]
    unfold pairPart
    by_cases hf : t ∈ frozen
    · rw [if_pos hf]
      refine ⟨hn, fun blk => ?_⟩
      rw [hr, ← step]
      exact ⟨.inl, fun h => h.elim id fun h => absurd hf h.1⟩
    · rw [if_neg hf]
      cases hd : tr.data with
      | nil =>
        refine ⟨hn, fun blk => ?_⟩
        rw [hr, ← step, hd]
        exact ⟨.inl, fun h => h.elim id fun ⟨_, k, a, b, h, _⟩ => by cases h⟩
      | cons y ys =>
        rw [hd] at hx
        obtain ⟨h1, h2⟩ := pairLoop_spec S p.odometry t ys y hx
        refine ⟨List.nodup_append.2 ⟨h1, hn, ?_⟩, fun blk => ?_⟩
        · intro a ha b hb he
          subst he
          obtain ⟨e, he, -, k, c, d, -, -, hh⟩ := (hr a).1 hb
          obtain ⟨k', c', d', -, -, hh'⟩ := (h2 a).1 ha
          have hne := hp1 e he
          simp only at hne
          rcases hh with rfl | ⟨g, -, rfl⟩ <;> rcases hh' with e' | ⟨g', -, e'⟩ <;> simp at e' <;> exact hne e'.1.1.symm
        · rw [List.mem_append, hr, h2, ← step, hd, or_comm]
          simp [hf]

theorem odometryBetween_iff (hend : OptProblem.LerpEnd S.two) {odometry : MapByTime.Map T (OptProblem.Reading T G)}
    (hw : MapByTime.WF (·.time) odometry) (t : Int) (a b : Node T G) (g : G) : odometryBetween S odometry t a b = some g ↔
      ∃ x y, OptProblem.PoseAt S.two (MapByTime.dataOf odometry t) a.time x ∧ OptProblem.PoseAt S.two (MapByTime.dataOf odometry t) b.time y ∧
        g = x⁻¹ * y := by
  have h := OptProblem.odometryBetween_iff S.two hend hw t { a with gravity := 1 } { b with gravity := 1 } g
  simp only [one_mul, inv_one, mul_one] at h
  rw [← h]
  unfold odometryBetween OptProblem.odometryBetween
  cases SMap.get? t odometry with
  | none => rfl
  | some tr =>
    simp only [one_mul, inv_one, mul_one]
    cases OptProblem.interpolateOdometry S.two tr a.time <;> cases OptProblem.interpolateOdometry S.two tr b.time <;> rfl

theorem framePart_spec {p : Problem T G} : ∀ {m : Map (Node T G)}, SMap.Sorted m → (∀ e ∈ m, SMap.Sorted e.2.data) →
    (∀ e ∈ m, (SMap.get? e.1 p.trajectoryData).isSome) →
    ∃ bs os, framePart S p m = some (bs, os) ∧ bs.Nodup ∧ (os.map (·.1)).Nodup ∧
      (∀ blk, blk ∈ bs ↔ ∃ e ∈ m, ∃ x ∈ e.2.data, ∃ g, OptProblem.framePose S.two p.toProblem ((e.1, x.1), x.2) = some g ∧
        blk = .two (.fixedFrame e.1 (e.1, x.1) g)) ∧
      ∀ t o, (t, o) ∈ os ↔ ∃ e ∈ m, e.1 = t ∧ ∃ x ∈ e.2.data, ∃ g origin, OptProblem.framePose S.two p.toProblem ((t, x.1), x.2) = some g ∧
        (∀ y ∈ e.2.data, y.1 < x.1 → OptProblem.framePose S.two p.toProblem ((t, y.1), y.2) = none) ∧
        SMap.get? t p.trajectoryData = some origin ∧ o = S.yaw (origin.getD (x.2.globalPose * g⁻¹)) := by
  intro m
  induction m with
  | nil => intro _ _ _; exact ⟨[], [], rfl, .nil, .nil, by simp, by simp⟩
  | cons e m ih =>
    intro hs hds htd
    obtain ⟨bs, os, e1, hn, hon, hb, ho⟩ := ih hs.tail (fun x hx => hds x (List.mem_cons_of_mem _ hx)) fun x hx => htd x (List.mem_cons_of_mem _ hx)
    obtain ⟨t, tr⟩ := e
    have hhead := hs.head
    simp only at hhead
    unfold framePart
    cases hg : SMap.get? t p.fixedFrame with
    | none =>
      have hno : ∀ x : Int × Node T G, OptProblem.framePose S.two p.toProblem ((t, x.1), x.2) = none := by
        intro x; simp [OptProblem.framePose, hg]
      refine ⟨bs, os, e1, hn, hon, fun blk => ?_, fun t' o => ?_⟩
      · rw [hb, List.exists_mem_cons_iff]
        simp [hno]
      · rw [ho, List.exists_mem_cons_iff]
        constructor
        · exact .inr
        · rintro (⟨rfl, x, -, g, origin, h, -⟩ | h)
          · rw [hno] at h; cases h
          · exact h
    | some data =>
      obtain ⟨origin, hor⟩ := Option.isSome_iff_exists.1 (htd (t, tr) (by simp))
      simp only at hor
      have hfp : ∀ x : Int × Node T G, OptProblem.framePose S.two p.toProblem ((t, x.1), x.2) = OptProblem.interpolateFixedFrame S.two data x.2.time := by
        intro x; simp [OptProblem.framePose, hg]
      obtain ⟨f1, f2⟩ := frameLoop_spec S data origin t tr.data none
      have hds' := hds (t, tr) (by simp)
      simp only at hds'
      refine ⟨_, _, by simp only [hor, e1, Option.bind_eq_bind, Option.bind_some]; rfl, ?_, ?_, fun blk => ?_, fun t' o => ?_⟩
      · rw [f1]
        refine List.nodup_append.2 ⟨?_, hn, ?_⟩
        · rw [List.Nodup, List.pairwise_filterMap]
          refine hds'.imp ?_
          intro a a' hlt b hb1 b' hb2 he
          obtain ⟨g1, -, rfl⟩ := Option.map_eq_some_iff.1 hb1
          obtain ⟨g2, -, rfl⟩ := Option.map_eq_some_iff.1 hb2
          simp only [Block.two.injEq, OptProblem.Block.fixedFrame.injEq, Prod.mk.injEq] at he
          omega
        · intro a ha b hb' he
          subst he
          obtain ⟨x, hx, hxa⟩ := List.mem_filterMap.1 ha
          obtain ⟨g, -, rfl⟩ := Option.map_eq_some_iff.1 hxa
          obtain ⟨e, he, y, -, g', -, e'⟩ := (hb _).1 hb'
          have := hhead e he
          simp at e'
          omega
      · rw [f2, List.map_append]
        refine List.nodup_append.2 ⟨?_, hon, ?_⟩
        · cases (tr.data.findSome? _) <;> simp
        · intro a ha b hb' he
          subst he
          have ha' : a = t := by
            obtain ⟨y, hy, rfl⟩ := List.mem_map.1 ha
            rw [Option.mem_toList, Option.map_eq_some_iff] at hy
            obtain ⟨z, -, rfl⟩ := hy
            rfl
          obtain ⟨⟨t', o⟩, hy, e'⟩ := List.mem_map.1 hb'
          obtain ⟨e, he, e2, -⟩ := (ho t' o).1 hy
          have := hhead e he
          simp only at e'
          omega
      · rw [List.mem_append, f1, List.mem_filterMap, hb, List.exists_mem_cons_iff]
        refine or_congr_left ?_
        refine exists_congr fun x => and_congr_right fun _ => ?_
        rw [Option.map_eq_some_iff]
        simp only [hfp]
        exact exists_congr fun g => and_congr_right fun _ => eq_comm
      · rw [List.mem_append, f2, ho, List.exists_mem_cons_iff]
        refine or_congr_left ?_
        rw [Option.mem_toList, Option.map_eq_some_iff]
        simp only [Option.none_or, Prod.mk.injEq]
        constructor
        · rintro ⟨o', h1, rfl, rfl⟩
          obtain ⟨A, x, B, h2, h3, h4⟩ := List.findSome?_eq_some_iff.1 h1
          obtain ⟨g, h5, rfl⟩ := Option.map_eq_some_iff.1 h3
          refine ⟨rfl, x, by rw [h2]; simp, g, origin, by rw [hfp]; exact h5, ?_, hor, rfl⟩
          intro y hy hlt
          rw [hfp]
          rw [h2] at hy hds'
          rcases List.mem_append.1 hy with hy | hy
          · simpa using h4 y hy
          · exfalso
            have hp := (List.pairwise_append.1 hds').2.1
            rcases List.mem_cons.1 hy with rfl | hy
            · exact lt_irrefl _ hlt
            · exact lt_asymm hlt ((List.pairwise_cons.1 hp).1 y hy)
        · rintro ⟨rfl, x, hx, g, origin', h1, h2, h3, rfl⟩
          rw [hor] at h3
          obtain rfl := Option.some.inj h3
          refine ⟨_, ?_, rfl, rfl⟩
          obtain ⟨A, B, h4⟩ := List.append_of_mem hx
          refine List.findSome?_eq_some_iff.2 ⟨A, x, B, h4, ?_, ?_⟩
          · rw [hfp] at h1
            rw [h1]; rfl
          · intro y hy
            rw [h4] at hds'
            have := (List.pairwise_append.1 hds').2.2 y hy x (by simp)
            have := h2 y (by rw [h4]; simp [hy]) this
            rw [hfp] at this
            rw [this]; rfl

/-! ### The whole problem -/

theorem empty_iff {D : Type} {m : Map D} (w : WF m) (hb : MapByTime.SmallNodes m) : empty m = true ↔ ∀ id, at? m id = none := by
  obtain ⟨vb, rb⟩ := OptProblem.begin_rest w
  obtain ⟨ve, re⟩ := OptProblem.end_rest w hb
  unfold empty
  rw [eq_iff vb ve, rb, re, List.length_nil, List.length_eq_zero_iff]
  constructor
  · intro h id
    cases hn : at? m id with
    | none => rfl
    | some n =>
      have := (at?_iff_mem w).1 hn
      rw [h] at this
      cases this
  · intro h
    cases hf : flat m with
    | nil => rfl
    | cons x L =>
      have := (at?_iff_mem w (id := x.1) (d := x.2)).2 (by rw [hf]; simp)
      rw [h] at this
      cases this

/-- What a call of `Solve` needs besides the inertial measurements. -/
structure Ready (S : Setup T G) (p : Problem T G) (constraints : List (OptProblem.Constraint G)) (landmarks : List (OptProblem.Landmark T G)) :
    Prop where
  two : OptProblem.Ready p.toProblem constraints landmarks
  imu : MapByTime.WF (·.time) p.imu
  timed : Timed S p
  smallSubmaps : MapByTime.SmallNodes p.submaps
  submap : ∃ id, (at? p.submaps id).isSome

theorem Ready.inv {p : Problem T G} {cs : List (OptProblem.Constraint G)} {ls : List (OptProblem.Landmark T G)} (h : Ready S p cs ls) : Inv p :=
  ⟨⟨h.two.nodes, h.two.submaps, h.two.odometry, h.two.fixedFrame, h.two.data⟩, h.imu⟩

/-- All trajectories that are not frozen have what the inertial residuals need. -/
def AllInertial (p : Problem T G) (frozen : List Int) : Prop :=
  ∀ t, t ∉ frozen → (∃ i, (at? p.nodes (t, i)).isSome) → Inertial p t

theorem imuPart_cases {p : Problem T G} (hi : Inv p) (ht : Timed S p) (frozen : List Int) :
    (AllInertial p frozen ∧ ∃ bs, imuPart S p frozen p.nodes = some bs ∧ bs.Nodup ∧ ∀ blk, blk ∈ bs ↔ ∃ e ∈ p.nodes, e.1 ∉ frozen ∧
      ∃ bs', Exact S (imuOf S p e.1) e.1 e.2.data bs' ∧ blk ∈ bs') ∨
    (¬ AllInertial p frozen ∧ imuPart S p frozen p.nodes = none) := by
  by_cases hA : AllInertial p frozen
  · left
    refine ⟨hA, imuPart_some (hi.two.nodes.sorted.imp fun h e => by rw [e] at h; exact lt_irrefl _ h) fun e he hf => ?_⟩
    refine (imuTrajectory_spec hi ht he).1 (hA e.1 hf ?_)
    obtain ⟨x, hx⟩ := List.exists_mem_of_ne_nil _ (hi.two.nodes.nonempty e he)
    exact ⟨x.1, by rw [(mem_traj hi.two.nodes he).1 hx]; rfl⟩
  · right
    refine ⟨hA, ?_⟩
    unfold AllInertial at hA
    push Not at hA
    obtain ⟨t, hf, ⟨i, hn⟩, hI⟩ := hA
    obtain ⟨n, hn⟩ := Option.isSome_iff_exists.1 hn
    obtain ⟨e, he, rfl, -⟩ := traj_of_at hi.two.nodes hn
    exact imuPart_none he hf ((imuTrajectory_spec hi ht he).2 hI)

/-- A residual as in 2D. -/
def asTwo : Block T G → Option (OptProblem.Block T G)
  | .two b => some b
  | _ => none

/-- A residual that comes from the motion of the robot. -/
def motion : Block T G → Bool
  | .two b => OptProblem.motion b
  | _ => true

theorem build_cases {p : Problem T G} {cs : List (OptProblem.Constraint G)} {ls : List (OptProblem.Landmark T G)} (h : Ready S p cs ls)
    (o : Options) (frozen : List Int) :
    ((o.fixZ = false ∧ ¬ AllInertial p frozen) ∧ build S o p cs frozen ls = none) ∨
    ((o.fixZ = false → AllInertial p frozen) ∧ ∃ imu bs os,
      (imu.Nodup ∧ ∀ blk, blk ∈ imu ↔ o.fixZ = false ∧ ∃ e ∈ p.nodes, e.1 ∉ frozen ∧
        ∃ bs', Exact S (imuOf S p e.1) e.1 e.2.data bs' ∧ blk ∈ bs') ∧
      framePart S p p.nodes = some (bs, os) ∧
      build S o p cs frozen ls = some (some {
        constTranslation := (flat p.submaps).head?.toList.map (·.1) ++ ((flat p.submaps).filter (fun x => x.1.1 ∈ frozen)).map (·.1)
        constRotation := ((flat p.submaps).filter (fun x => x.1.1 ∈ frozen)).map (·.1)
        constYaw := (flat p.submaps).head?.toList.map (·.1)
        constNodes := ((flat p.nodes).filter (fun x => x.1.1 ∈ frozen)).map (·.1)
        constLandmarks := (ls.filter (fun l => l.frozen && !(OptProblem.obsBlocks p.nodes l).isEmpty)).map (·.name)
        constCalibration := if o.fixZ || o.online then [] else p.nodes.filterMap fun e => if e.1 ∈ frozen then none else some e.1
        positive := if o.fixZ then [] else p.nodes.filterMap fun e => if e.1 ∈ frozen then none else some e.1
        blocks := (cs.map fun c => OptProblem.Block.constraint c.submap c.node c.pose c.inter).map .two ++
          (ls.flatMap (OptProblem.obsBlocks p.nodes)).map .two ++ imu ++ (if o.fixZ then pairPart S p frozen p.nodes else []) ++ bs
        origins := os })) := by
  have hi := h.inv
  have he1 : empty p.nodes = false := by
    rw [← Bool.not_eq_true, empty_iff h.two.nodes h.two.small]
    intro hn
    obtain ⟨id, n, hx⟩ := h.two.nonempty
    rw [hn] at hx
    cases hx
  have he2 : empty p.submaps = false := by
    rw [← Bool.not_eq_true, empty_iff h.two.submaps h.smallSubmaps]
    intro hn
    obtain ⟨id, hx⟩ := h.submap
    rw [hn] at hx
    cases hx
  obtain ⟨bs, os, ef, -⟩ := framePart_spec (S := S) (p := p) h.two.nodes.sorted h.two.nodes.dsorted (by
    intro e he
    obtain ⟨x, hx⟩ := List.exists_mem_of_ne_nil _ (h.two.nodes.nonempty e he)
    exact h.two.data (e.1, x.1) x.2 ((mem_traj h.two.nodes he).1 hx))
  have ec := OptProblem.constraintBlocks_spec h.two.constraint
  have el := OptProblem.addLandmarks_spec h.two.nodes h.two.landmark
  unfold build
  cases hz : o.fixZ with
  | true =>
    right
    refine ⟨fun hc => (Bool.noConfusion hc), [], bs, os, ⟨.nil, by simp⟩, ef, ?_⟩
    simp only [he1, he2, ec, el, ef, Option.bind_eq_bind, Option.bind_some, if_true, Bool.false_eq_true, if_false]
  | false =>
    rcases imuPart_cases hi h.timed frozen with ⟨hA, imu, ei, hn, hm⟩ | ⟨hA, ei⟩
    · right
      refine ⟨fun _ => hA, imu, bs, os, ⟨hn, fun blk => by rw [hm]; simp⟩, ef, ?_⟩
      simp only [he1, he2, ec, el, ef, ei, Option.bind_eq_bind, Option.bind_some, Bool.false_eq_true, if_false]
    · left
      refine ⟨⟨rfl, hA⟩, ?_⟩
      simp only [he1, he2, ec, el, ei, Option.bind_eq_bind, Option.bind_some, Bool.false_eq_true, if_false, Option.bind_none]

/-- **C107, when `Solve` aborts**: called as the pose graph does, with nodes and submaps, it aborts exactly if `fix_z_in_3d` is not set and some
trajectory that is not frozen lacks what the inertial residuals need. -/
theorem solve_aborts_iff {p : Problem T G} {cs : List (OptProblem.Constraint G)} {ls : List (OptProblem.Landmark T G)} (h : Ready S p cs ls)
    (o : Options) (frozen : List Int) : build S o p cs frozen ls = none ↔ o.fixZ = false ∧ ¬ AllInertial p frozen := by
  rcases build_cases h o frozen with ⟨h1, h2⟩ | ⟨h1, imu, bs, os, -, -, h2⟩
  · exact ⟨fun _ => h1, fun _ => h2⟩
  · constructor
    · intro h3
      rw [h2] at h3
      cases h3
    · rintro ⟨h3, h4⟩
      exact absurd (h1 h3) h4

/-- **C107, nothing to optimize**: without nodes `Solve` does not abort and changes nothing, whatever else there is. -/
theorem solve_without_nodes {p : Problem T G} (w : WF p.nodes) (hb : MapByTime.SmallNodes p.nodes) (hn : ∀ id, at? p.nodes id = none)
    (o : Options) (cs : List (OptProblem.Constraint G)) (frozen : List Int) (ls : List (OptProblem.Landmark T G))
    (sol : OptProblem.Solution G) : solve S o p cs frozen ls sol = some p := by
  unfold solve build
  rw [if_pos ((empty_iff w hb).2 hn)]
  rfl

open Classical in
/-- **C107, which residuals there are**: exactly one residual for each constraint and for each landmark observation between the first and the
last node of its trajectory; without `fix_z_in_3d`, for each two consecutive nodes of a trajectory that is not frozen one for the rotation
between them and for each three consecutive ones one for the change of velocity, both measured by the IMU; with it, for each two consecutive
nodes one for local SLAM and one for odometry at both times; and one for each node at whose time there is a fixed frame pose. -/
theorem residual_blocks (hend : OptProblem.LerpEnd S.two) {p : Problem T G} {cs : List (OptProblem.Constraint G)}
    {ls : List (OptProblem.Landmark T G)} (h : Ready S p cs ls) {o : Options} {frozen : List Int} {b : Built T G}
    (hb : build S o p cs frozen ls = some (some b)) :
    (b.blocks.filterMap asTwo).filterMap OptProblem.asConstraint = cs ∧
    (b.blocks.filterMap asTwo).filterMap OptProblem.asObservation =
      ls.flatMap (fun l => (l.observations.filter (fun o => OptProblem.Within p.nodes o)).map (fun o => (l.name, o))) ∧
    (∀ name ob x y, Block.two (.landmark name ob x y) ∈ b.blocks → OptProblem.Attached p.nodes ob x y) ∧
    (b.blocks.filter motion).Nodup ∧
    (∀ x y q d, Block.rotation x y q d ∈ b.blocks ↔ o.fixZ = false ∧ x.1 ∉ frozen ∧ y = (x.1, x.2 + 1) ∧
      ∃ m n r, at? p.nodes x = some m ∧ at? p.nodes y = some n ∧ d = S.tick n.time - S.tick m.time ∧
        Imu.Measured S.ticks (imuOf S p x.1) (S.tick m.time) (S.tick n.time) r ∧ q = r.rotation) ∧
    (∀ x y z v d1 d2, Block.acceleration x y z v d1 d2 ∈ b.blocks ↔ o.fixZ = false ∧ x.1 ∉ frozen ∧ y = (x.1, x.2 + 1) ∧ z = (x.1, x.2 + 2) ∧
      ∃ m n l, at? p.nodes x = some m ∧ at? p.nodes y = some n ∧ at? p.nodes z = some l ∧ d1 = S.tick n.time - S.tick m.time ∧
        d2 = S.tick l.time - S.tick n.time ∧ Imu.Change S.ticks (imuOf S p x.1) (S.tick m.time) (S.tick n.time) (S.tick l.time) v) ∧
    (∀ x y g, Block.two (.localSlam x y g) ∈ b.blocks ↔ o.fixZ = true ∧ x.1 ∉ frozen ∧ y = (x.1, x.2 + 1) ∧
      ∃ m n, at? p.nodes x = some m ∧ at? p.nodes y = some n ∧ g = m.localPose⁻¹ * n.localPose) ∧
    (∀ x y g, Block.two (.odometry x y g) ∈ b.blocks ↔ o.fixZ = true ∧ x.1 ∉ frozen ∧ y = (x.1, x.2 + 1) ∧
      ∃ m n u v, at? p.nodes x = some m ∧ at? p.nodes y = some n ∧ OptProblem.PoseAt S.two (MapByTime.dataOf p.odometry x.1) m.time u ∧
        OptProblem.PoseAt S.two (MapByTime.dataOf p.odometry x.1) n.time v ∧ g = u⁻¹ * v) ∧
    (∀ t x g, Block.two (.fixedFrame t x g) ∈ b.blocks ↔ x.1 = t ∧
      ∃ n, at? p.nodes x = some n ∧ OptProblem.FrameAt S.two (MapByTime.dataOf p.fixedFrame t) n.time g) := by
  have hi := h.inv
  rcases build_cases h o frozen with ⟨-, h2⟩ | ⟨-, imu, bs, os, ⟨hin, him⟩, ef, h2⟩
  · rw [hb] at h2; cases h2
  rw [hb] at h2
  obtain rfl := Option.some.inj (Option.some.inj h2)
  obtain ⟨bs', os', ef', hfn, -, hfm, -⟩ := framePart_spec (S := S) (p := p) h.two.nodes.sorted h.two.nodes.dsorted (by
    intro e he
    obtain ⟨x, hx⟩ := List.exists_mem_of_ne_nil _ (h.two.nodes.nonempty e he)
    exact h.two.data (e.1, x.1) x.2 ((mem_traj h.two.nodes he).1 hx))
  rw [ef] at ef'
  simp only [Option.some.injEq, Prod.mk.injEq] at ef'
  obtain ⟨rfl, rfl⟩ := ef'
  have hne : p.nodes.Pairwise fun a b => a.1 ≠ b.1 := h.two.nodes.sorted.imp fun h e => by rw [e] at h; exact lt_irrefl _ h
  obtain ⟨hpn, hpm⟩ := pairPart_spec (S := S) (p := p) (frozen := frozen) hne fun e he => inOrder hi h.timed he
  -- the 2D problem
  obtain ⟨b2, hb2, c1, c2, c3, -⟩ := OptProblem.residual_blocks S.two hend h.two frozen
  rw [OptProblem.build_eq S.two h.two frozen] at hb2
  obtain rfl := Option.some.inj (Option.some.inj hb2)
  dsimp only at c1 c2 c3 ⊢
  -- which kinds of blocks the parts have
  have kimu : ∀ blk ∈ imu, asTwo blk = none := by
    intro blk hblk
    obtain ⟨-, e, -, -, bs', X, hb'⟩ := (him blk).1 hblk
    cases blk with
    | two b => exact absurd hb' (X.two b)
    | rotation => rfl
    | acceleration => rfl
  have kpair : ∀ blk ∈ (if o.fixZ then pairPart S p frozen p.nodes else []), (∃ x y g, blk = .two (.localSlam x y g)) ∨ ∃ x y g, blk = .two (.odometry x y g) := by
    intro blk hblk
    split at hblk
    · obtain ⟨e, -, -, k, a, b, -, -, rfl | ⟨g, -, rfl⟩⟩ := (hpm blk).1 hblk
      · exact .inl ⟨_, _, _, rfl⟩
      · exact .inr ⟨_, _, _, rfl⟩
    · cases hblk
  have kframe : ∀ blk ∈ bs, ∃ t x g, blk = .two (.fixedFrame t x g) := by
    intro blk hblk
    obtain ⟨e, -, x, -, g, -, rfl⟩ := (hfm blk).1 hblk
    exact ⟨_, _, _, rfl⟩
  have kcs : ∀ (L : List (OptProblem.Block T G)), (L.map Block.two).filterMap asTwo = L := by
    intro L
    rw [List.filterMap_map]
    exact List.filterMap_some
  have kind : ∀ {γ : Type} (f : OptProblem.Block T G → Option γ), (∀ x y g, f (.localSlam x y g) = none) → (∀ x y g, f (.odometry x y g) = none) →
      (∀ x y g, f (.fixedFrame x y g) = none) → ∀ cl ll : List (OptProblem.Block T G),
      ((cl.map Block.two ++ ll.map Block.two ++ imu ++ (if o.fixZ then pairPart S p frozen p.nodes else []) ++ bs).filterMap asTwo).filterMap f =
        cl.filterMap f ++ ll.filterMap f := by
    intro γ f f1 f2 f3 cl ll
    rw [List.filterMap_append, List.filterMap_append, List.filterMap_append, List.filterMap_append, List.filterMap_append, List.filterMap_append,
      List.filterMap_append, List.filterMap_append, kcs, kcs]
    have z1 : imu.filterMap asTwo = [] := List.filterMap_eq_nil_iff.2 kimu
    have z2 : ((if o.fixZ then pairPart S p frozen p.nodes else []).filterMap asTwo).filterMap f = [] := by
      rw [List.filterMap_eq_nil_iff]
      intro blk hblk
      obtain ⟨b3, hb3, hb4⟩ := List.mem_filterMap.1 hblk
      rcases kpair b3 hb3 with ⟨x, y, g, rfl⟩ | ⟨x, y, g, rfl⟩
      · cases hb4; exact f1 _ _ _
      · cases hb4; exact f2 _ _ _
    have z3 : (bs.filterMap asTwo).filterMap f = [] := by
      rw [List.filterMap_eq_nil_iff]
      intro blk hblk
      obtain ⟨b3, hb3, hb4⟩ := List.mem_filterMap.1 hblk
      obtain ⟨x, y, g, rfl⟩ := kframe b3 hb3
      cases hb4; exact f3 _ _ _
    rw [z1, z2, z3]
    simp
  have kind2 : ∀ {γ : Type} (f : OptProblem.Block T G → Option γ), (∀ x y g, f (.localSlam x y g) = none) → (∀ x y g, f (.odometry x y g) = none) →
      (∀ x y g, f (.fixedFrame x y g) = none) → ∀ cl ll : List (OptProblem.Block T G),
      (cl ++ ll ++ (flat p.nodes).flatMap (OptProblem.succBlocks S.two p.toProblem frozen) ++
        (flat p.nodes).filterMap (OptProblem.frameBlock S.two p.toProblem)).filterMap f = cl.filterMap f ++ ll.filterMap f := by
    intro γ f f1 f2 f3 cl ll
    rw [List.filterMap_append, List.filterMap_append, List.filterMap_append]
    have z1 : ((flat p.nodes).flatMap (OptProblem.succBlocks S.two p.toProblem frozen)).filterMap f = [] := by
      rw [List.filterMap_eq_nil_iff]
      intro blk hblk
      obtain ⟨x, -, hx⟩ := List.mem_flatMap.1 hblk
      obtain ⟨-, n, -, rfl | ⟨g, -, rfl⟩⟩ := (OptProblem.mem_succBlocks S.two).1 hx
      · exact f1 _ _ _
      · exact f2 _ _ _
    have z2 : ((flat p.nodes).filterMap (OptProblem.frameBlock S.two p.toProblem)).filterMap f = [] := by
      rw [List.filterMap_eq_nil_iff]
      intro blk hblk
      obtain ⟨x, -, hx⟩ := List.mem_filterMap.1 hblk
      obtain ⟨g, -, rfl⟩ := Option.map_eq_some_iff.1 hx
      exact f3 _ _ _
    rw [z1, z2]
    simp
  -- membership
  have hmem : ∀ blk : Block T G, (∀ b, blk ≠ .two b) ∨ (∃ b, blk = .two b ∧ OptProblem.motion b = true) →
      (blk ∈ (cs.map fun c => OptProblem.Block.constraint c.submap c.node c.pose c.inter).map Block.two ++
        (ls.flatMap (OptProblem.obsBlocks p.nodes)).map .two ++ imu ++ (if o.fixZ then pairPart S p frozen p.nodes else []) ++ bs ↔
        blk ∈ imu ∨ blk ∈ (if o.fixZ then pairPart S p frozen p.nodes else []) ∨ blk ∈ bs) := by
    intro blk hk
    have n1 : blk ∉ (cs.map fun c => OptProblem.Block.constraint c.submap c.node c.pose c.inter).map Block.two := by
      intro hm
      obtain ⟨b, hb, rfl⟩ := List.mem_map.1 hm
      obtain ⟨c, -, rfl⟩ := List.mem_map.1 hb
      rcases hk with hk | ⟨b, hk, hk'⟩
      · exact hk _ rfl
      · cases hk; cases hk'
    have n2 : blk ∉ (ls.flatMap (OptProblem.obsBlocks p.nodes)).map Block.two := by
      intro hm
      obtain ⟨b, hb, rfl⟩ := List.mem_map.1 hm
      obtain ⟨l, -, hb⟩ := List.mem_flatMap.1 hb
      obtain ⟨ob, -, hb⟩ := List.mem_filterMap.1 hb
      obtain ⟨y, -, rfl⟩ := Option.map_eq_some_iff.1 hb
      rcases hk with hk | ⟨b, hk, hk'⟩
      · exact hk _ rfl
      · cases hk; cases hk'
    simp only [List.mem_append, n1, n2, false_or, or_assoc]
  have hatt := fun {e : Int × Traj (Node T G)} (he : e ∈ p.nodes) {i : Int} {n : Node T G} => mem_traj h.two.nodes he (i := i) (n := n)
  refine ⟨?_, ?_, ?_, ?_, ?_, ?_, ?_, ?_, ?_⟩
  · rw [kind OptProblem.asConstraint (fun _ _ _ => rfl) (fun _ _ _ => rfl) (fun _ _ _ => rfl), ← kind2 OptProblem.asConstraint (fun _ _ _ => rfl) (fun _ _ _ => rfl) (fun _ _ _ => rfl)]
    exact c1
  · rw [kind OptProblem.asObservation (fun _ _ _ => rfl) (fun _ _ _ => rfl) (fun _ _ _ => rfl), ← kind2 OptProblem.asObservation (fun _ _ _ => rfl) (fun _ _ _ => rfl) (fun _ _ _ => rfl)]
    exact c2
  · intro name ob x y hm
    apply c3 name ob x y
    simp only [List.mem_append] at hm ⊢
    rcases hm with (((hm | hm) | hm) | hm) | hm
    · obtain ⟨b, hb, e⟩ := List.mem_map.1 hm
      cases e
      exact .inl (.inl (.inl hb))
    · obtain ⟨b, hb, e⟩ := List.mem_map.1 hm
      cases e
      exact .inl (.inl (.inr hb))
    · have := kimu _ hm; cases this
    · rcases kpair _ hm with ⟨_, _, _, e⟩ | ⟨_, _, _, e⟩ <;> simp at e
    · obtain ⟨_, _, _, e⟩ := kframe _ hm
      simp at e
  · rw [List.filter_append, List.filter_append, List.filter_append, List.filter_append]
    have z1 : ((cs.map fun c => OptProblem.Block.constraint c.submap c.node c.pose c.inter).map (Block.two (T := T))).filter motion = [] := by
      rw [List.filter_eq_nil_iff]
      intro blk hm
      obtain ⟨b, hb, rfl⟩ := List.mem_map.1 hm
      obtain ⟨c, -, rfl⟩ := List.mem_map.1 hb
      simp [motion, OptProblem.motion]
    have z2 : ((ls.flatMap (OptProblem.obsBlocks p.nodes)).map Block.two).filter motion = [] := by
      rw [List.filter_eq_nil_iff]
      intro blk hm
      obtain ⟨b, hb, rfl⟩ := List.mem_map.1 hm
      obtain ⟨l, -, hb⟩ := List.mem_flatMap.1 hb
      obtain ⟨ob, -, hb⟩ := List.mem_filterMap.1 hb
      obtain ⟨y, -, rfl⟩ := Option.map_eq_some_iff.1 hb
      simp [motion, OptProblem.motion]
    rw [z1, z2, List.nil_append, List.nil_append]
    refine List.nodup_append.2 ⟨List.nodup_append.2 ⟨hin.filter _, ?_, ?_⟩, hfn.filter _, ?_⟩
    · refine List.Nodup.filter _ ?_
      split
      · exact hpn
      · exact .nil
    · intro a ha b hb e
      subst e
      have := kimu a (List.mem_of_mem_filter ha)
      rcases kpair a (List.mem_of_mem_filter hb) with ⟨_, _, _, rfl⟩ | ⟨_, _, _, rfl⟩ <;> cases this
    · intro a ha b hb e
      subst e
      obtain ⟨_, _, _, rfl⟩ := kframe a (List.mem_of_mem_filter hb)
      rcases List.mem_append.1 ha with ha | ha
      · have := kimu _ (List.mem_of_mem_filter ha)
        cases this
      · rcases kpair _ (List.mem_of_mem_filter ha) with ⟨_, _, _, e⟩ | ⟨_, _, _, e⟩ <;> simp at e
  · intro x y q d
    rw [hmem _ (.inl (by simp))]
    have n1 : Block.rotation x y q d ∉ (if o.fixZ then pairPart S p frozen p.nodes else []) := by
      intro hm
      rcases kpair _ hm with ⟨_, _, _, e⟩ | ⟨_, _, _, e⟩ <;> simp at e
    have n2 : Block.rotation x y q d ∉ bs := by
      intro hm
      obtain ⟨_, _, _, e⟩ := kframe _ hm
      simp at e
    simp only [n1, n2, or_false, him]
    refine and_congr_right fun hz => ?_
    constructor
    · rintro ⟨e, he, hf, bs', X, hb'⟩
      obtain ⟨k, m, n, r, k1, k2, rfl, rfl, rfl, k3, rfl⟩ := (X.rotation _ _ _ _).1 hb'
      exact ⟨hf, rfl, m, n, r, (hatt he).1 k1, (hatt he).1 k2, rfl, k3, rfl⟩
    · rintro ⟨hf, rfl, m, n, r, k1, k2, rfl, k3, rfl⟩
      obtain ⟨e, he, e1, -⟩ := traj_of_at h.two.nodes (t := x.1) (i := x.2) k1
      have hA : AllInertial p frozen := by
        rcases imuPart_cases hi h.timed frozen with ⟨hA, -⟩ | ⟨hA, hB⟩
        · exact hA
        · have := (solve_aborts_iff h o frozen).2 ⟨hz, hA⟩
          rw [hb] at this
          cases this
      obtain ⟨bs', -, X⟩ := (imuTrajectory_spec hi h.timed he).1 (hA e.1 (by rw [e1]; exact hf) ⟨x.2, by rw [e1]; exact Option.isSome_of_mem k1⟩)
      refine ⟨e, he, by rw [e1]; exact hf, bs', X, (X.rotation _ _ _ _).2 ⟨x.2, m, n, r, ?_, ?_, ?_, ?_, rfl, ?_, rfl⟩⟩
      · exact (hatt he).2 (by rw [e1]; exact k1)
      · exact (hatt he).2 (by rw [e1]; exact k2)
      · rw [e1]
      · rw [e1]
      · rw [e1]; exact k3
  · intro x y z v d1 d2
    rw [hmem _ (.inl (by simp))]
    have n1 : Block.acceleration x y z v d1 d2 ∉ (if o.fixZ then pairPart S p frozen p.nodes else []) := by
      intro hm
      rcases kpair _ hm with ⟨_, _, _, e⟩ | ⟨_, _, _, e⟩ <;> simp at e
    have n2 : Block.acceleration x y z v d1 d2 ∉ bs := by
      intro hm
      obtain ⟨_, _, _, e⟩ := kframe _ hm
      simp at e
    simp only [n1, n2, or_false, him]
    refine and_congr_right fun hz => ?_
    constructor
    · rintro ⟨e, he, hf, bs', X, hb'⟩
      obtain ⟨k, m, n, l, k1, k2, k3, rfl, rfl, rfl, rfl, rfl, k4⟩ := (X.acceleration _ _ _ _ _ _).1 hb'
      exact ⟨hf, rfl, rfl, m, n, l, (hatt he).1 k1, (hatt he).1 k2, (hatt he).1 k3, rfl, rfl, k4⟩
    · rintro ⟨hf, rfl, rfl, m, n, l, k1, k2, k3, rfl, rfl, k4⟩
      obtain ⟨e, he, e1, -⟩ := traj_of_at h.two.nodes (t := x.1) (i := x.2) k1
      have hA : AllInertial p frozen := by
        rcases imuPart_cases hi h.timed frozen with ⟨hA, -⟩ | ⟨hA, hB⟩
        · exact hA
        · have := (solve_aborts_iff h o frozen).2 ⟨hz, hA⟩
          rw [hb] at this
          cases this
      obtain ⟨bs', -, X⟩ := (imuTrajectory_spec hi h.timed he).1 (hA e.1 (by rw [e1]; exact hf) ⟨x.2, by rw [e1]; exact Option.isSome_of_mem k1⟩)
      refine ⟨e, he, by rw [e1]; exact hf, bs', X, (X.acceleration _ _ _ _ _ _).2 ⟨x.2, m, n, l, ?_, ?_, ?_, ?_, ?_, ?_, rfl, rfl, ?_⟩⟩
      · exact (hatt he).2 (by rw [e1]; exact k1)
      · exact (hatt he).2 (by rw [e1]; exact k2)
      · exact (hatt he).2 (by rw [e1]; exact k3)
      · rw [e1]
      · rw [e1]
      · rw [e1]
      · rw [e1]; exact k4
  · intro x y g
    rw [hmem _ (.inr ⟨_, rfl, rfl⟩)]
    have n1 : Block.two (.localSlam x y g) ∉ imu := fun hm => by have := kimu _ hm; cases this
    have n2 : Block.two (.localSlam x y g) ∉ bs := by
      intro hm
      obtain ⟨_, _, _, e⟩ := kframe _ hm
      simp at e
    simp only [n1, n2, or_false, false_or]
    cases o.fixZ with
    | false => simp
    | true =>
      simp only [if_true, true_and, hpm]
      constructor
      · rintro ⟨e, he, hf, k, m, n, k1, k2, e1 | ⟨g', -, e1⟩⟩
        · cases e1
          exact ⟨hf, rfl, m, n, (hatt he).1 k1, (hatt he).1 k2, rfl⟩
        · simp at e1
      · rintro ⟨hf, rfl, m, n, k1, k2, rfl⟩
        obtain ⟨e, he, e1, -⟩ := traj_of_at h.two.nodes (t := x.1) (i := x.2) k1
        exact ⟨e, he, by rw [e1]; exact hf, x.2, m, n, (hatt he).2 (by rw [e1]; exact k1), (hatt he).2 (by rw [e1]; exact k2), .inl (by rw [e1])⟩
  · intro x y g
    rw [hmem _ (.inr ⟨_, rfl, rfl⟩)]
    have n1 : Block.two (.odometry x y g) ∉ imu := fun hm => by have := kimu _ hm; cases this
    have n2 : Block.two (.odometry x y g) ∉ bs := by
      intro hm
      obtain ⟨_, _, _, e⟩ := kframe _ hm
      simp at e
    simp only [n1, n2, or_false, false_or]
    cases o.fixZ with
    | false => simp
    | true =>
      simp only [if_true, true_and, hpm]
      constructor
      · rintro ⟨e, he, hf, k, m, n, k1, k2, e1 | ⟨g', k3, e1⟩⟩
        · simp at e1
        · cases e1
          obtain ⟨u, v, q1, q2, q3⟩ := (odometryBetween_iff hend h.two.odometry _ _ _ _).1 k3
          exact ⟨hf, rfl, m, n, u, v, (hatt he).1 k1, (hatt he).1 k2, q1, q2, q3⟩
      · rintro ⟨hf, rfl, m, n, u, v, k1, k2, q1, q2, q3⟩
        obtain ⟨e, he, e1, -⟩ := traj_of_at h.two.nodes (t := x.1) (i := x.2) k1
        refine ⟨e, he, by rw [e1]; exact hf, x.2, m, n, (hatt he).2 (by rw [e1]; exact k1), (hatt he).2 (by rw [e1]; exact k2), .inr ⟨g, ?_, by rw [e1]⟩⟩
        rw [e1]
        exact (odometryBetween_iff hend h.two.odometry _ _ _ _).2 ⟨u, v, q1, q2, q3⟩
  · intro t x g
    rw [hmem _ (.inr ⟨_, rfl, rfl⟩)]
    have n1 : Block.two (.fixedFrame t x g) ∉ imu := fun hm => by have := kimu _ hm; cases this
    have n2 : Block.two (.fixedFrame t x g) ∉ (if o.fixZ then pairPart S p frozen p.nodes else []) := by
      intro hm
      rcases kpair _ hm with ⟨_, _, _, e⟩ | ⟨_, _, _, e⟩ <;> simp at e
    simp only [n1, n2, or_false, false_or, hfm]
    constructor
    · rintro ⟨e, he, y, hy, g', k1, e1⟩
      cases e1
      exact ⟨rfl, y.2, (hatt he).1 hy, (OptProblem.framePose_iff S.two h.two.fixedFrame).1 k1⟩
    · rintro ⟨rfl, n, k1, k2⟩
      obtain ⟨e, he, e1, hy⟩ := traj_of_at h.two.nodes (t := x.1) (i := x.2) k1
      refine ⟨e, he, (x.2, n), hy, g, ?_, by rw [e1]⟩
      rw [e1]
      exact (OptProblem.framePose_iff S.two h.two.fixedFrame (x := (x, n))).2 k2

end Verif.OptProblem3
