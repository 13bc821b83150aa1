import Verif.PoseExtrapolator
import Verif.Props.Rigid
import Mathlib.Algebra.Order.Group.Int

/-!
# Lemmas about the pose extrapolator
-/

namespace Verif.Extrapolator

open Verif.Rigid

/-- What is assumed of `Quaternion::FromTwoVectors` (Eigen documents it as the rotation that takes the direction of the first
vector to the one of the second): it is a rotation that does so, and the identity for vectors of the same direction. The
second vector always has length one here. -/
structure TwoVectors (F : V3 → V3 → Quat) : Prop where
  unit : ∀ a b : V3, a.norm ≠ 0 → b.norm = 1 → (F a b).Unit
  maps : ∀ a b : V3, a.norm ≠ 0 → b.norm = 1 → (F a b).rotate a = smul a.norm b
  same : ∀ (b : V3) (c : ℝ), 0 < c → b.norm = 1 → F (smul c b) b = ⟨1, 0, 0, 0⟩

theorem bind_ok {α β : Type} {x : Except Abort α} {f : α → Except Abort β} {b : β} :
    (x >>= f) = .ok b ↔ ∃ a, x = .ok a ∧ f a = .ok b := by
  cases x <;> simp [bind, Except.bind]

theorem bind_error {α β : Type} {x : Except Abort α} {f : α → Except Abort β} {e : Abort} :
    (x >>= f) = .error e ↔ x = .error e ∨ ∃ a, x = .ok a ∧ f a = .error e := by
  cases x <;> simp [bind, Except.bind]

/-! ### Algebra -/

theorem one_unit : Quat.Unit ⟨1, 0, 0, 0⟩ := by
  simp [Quat.Unit, Quat.normSq]

theorem quat_mul_one (q : Quat) : q.mul ⟨1, 0, 0, 0⟩ = q := by
  ext <;> simp [Quat.mul]

theorem smul_zero' (v : V3) : smul 0 v = ⟨0, 0, 0⟩ := by
  simp [smul]

theorem fromAngleAxis_zero : fromAngleAxis ⟨0, 0, 0⟩ = ⟨1, 0, 0, 0⟩ := by
  simp [fromAngleAxis]

theorem toSeconds_zero : toSeconds 0 = 0 := by simp [toSeconds]

theorem norm_smul {c : ℝ} (hc : 0 ≤ c) (v : V3) : (smul c v).norm = c * v.norm := by
  simp only [V3.norm, smul]
  rw [show c * v.x * (c * v.x) + c * v.y * (c * v.y) + c * v.z * (c * v.z) =
    c ^ 2 * (v.x * v.x + v.y * v.y + v.z * v.z) by ring, Real.sqrt_mul (sq_nonneg c), Real.sqrt_sq hc]

theorem norm_rotate {q : Quat} (h : q.Unit) (v : V3) : (q.rotate v).norm = v.norm := by
  have h1 := apply3_dist (a := ⟨⟨0, 0, 0⟩, q⟩) h v ⟨0, 0, 0⟩
  have h2 : (q.rotate v).norm ^ 2 = v.norm ^ 2 := by
    rw [norm_sq, norm_sq]
    have h0 : q.rotate ⟨0, 0, 0⟩ = ⟨0, 0, 0⟩ := by simp [Quat.rotate, cross]
    simp only [Rigid3.apply, V3.distSq, h0] at h1
    linarith [h1]
  exact (sq_eq_sq₀ (norm_nonneg' _) (norm_nonneg' _)).1 h2

theorem unitZ_norm : unitZ.norm = 1 := by simp [V3.norm, unitZ]

theorem rotate_smul (q : Quat) (c : ℝ) (v : V3) : q.rotate (smul c v) = smul c (q.rotate v) := by
  ext <;> simp [Quat.rotate, cross, smul] <;> ring

theorem conjugate_conjugate (q : Quat) : q.conjugate.conjugate = q := by
  ext <;> simp [Quat.conjugate]

theorem rotate_conjugate {q : Quat} (h : q.Unit) (v : V3) : q.rotate (q.conjugate.rotate v) = v := by
  rw [← rotate_mul h (unit_conjugate h), mul_conjugate h, rotate_one]

theorem conjugate_rotate {q : Quat} (h : q.Unit) (v : V3) : q.conjugate.rotate (q.rotate v) = v := by
  rw [← rotate_mul (unit_conjugate h) h, conjugate_mul h, rotate_one]

theorem inverse_unit {q : Quat} (h : q.Unit) : inverse q = q.conjugate := by
  have h' : q.normSq = 1 := by rw [normSq_eq]; exact h
  simp [inverse, h', Quat.conjugate]

theorem fromAngleAxis_pos (v : V3) : 0 < (fromAngleAxis v).normSq := by
  by_cases h : v.x * v.x + v.y * v.y + v.z * v.z > 1 / 10 ^ 8
  · have h0 : 0 < v.x * v.x + v.y * v.y + v.z * v.z := lt_trans (by norm_num) h
    have hn : 0 < v.norm := Real.sqrt_pos.2 h0
    have hs := norm_sq v
    simp only [fromAngleAxis, h, if_true, Quat.normSq]
    have : Real.sin (v.norm / 2) / v.norm * v.x * (Real.sin (v.norm / 2) / v.norm * v.x) +
        Real.sin (v.norm / 2) / v.norm * v.y * (Real.sin (v.norm / 2) / v.norm * v.y) +
        Real.sin (v.norm / 2) / v.norm * v.z * (Real.sin (v.norm / 2) / v.norm * v.z) =
        Real.sin (v.norm / 2) ^ 2 := by
      have : Real.sin (v.norm / 2) ^ 2 = Real.sin (v.norm / 2) ^ 2 / v.norm ^ 2 * (v.x ^ 2 + v.y ^ 2 + v.z ^ 2) := by
        rw [← hs]; field_simp
      rw [this]; ring
    nlinarith [Real.sin_sq_add_cos_sq (v.norm / 2)]
  · simp only [fromAngleAxis, h, if_false, Quat.normSq]
    nlinarith [sq_nonneg v.x, sq_nonneg v.y, sq_nonneg v.z]

/-! ### The tracker -/

theorem advance_ok {tr tr' : Tracker} {t : Int} (h : advance tr t = .ok tr') (hu : tr.orientation.Unit) :
    tr.time ≤ t ∧ tr'.time = t ∧ tr'.orientation.Unit ∧ tr'.lastAcceleration = tr.lastAcceleration := by
  unfold advance at h
  split at h
  · rename_i hle
    injection h with h
    subst h
    refine ⟨hle, rfl, ?_, rfl⟩
    apply unit_normalized
    rw [normSq_mul]
    have : tr.orientation.normSq = 1 := by rw [normSq_eq]; exact hu
    rw [this, one_mul]
    exact fromAngleAxis_pos _
  · cases h

/-- Advancing to the same time changes nothing. -/
theorem advance_self {tr : Tracker} (hu : tr.orientation.Unit) : advance tr tr.time = .ok tr := by
  unfold advance
  simp only [le_refl, if_true, sub_self, toSeconds_zero, smul_zero', fromAngleAxis_zero, quat_mul_one,
    normalized_unit hu]
  congr
  simp [Quat.conjugate, rotate_one]

theorem advance_error {tr : Tracker} {t : Int} {e : Abort} (h : advance tr t = .error e) : e = .time ∧ t < tr.time := by
  unfold advance at h
  split at h
  · cases h
  · injection h with h
    exact ⟨h.symm, by omega⟩

/-- The vertical direction of the tracking frame agrees with the estimated gravity. -/
def Aligned (tr : Tracker) : Prop := ∃ c : ℝ, 0 < c ∧ tr.gravity = smul c (tr.orientation.conjugate.rotate unitZ)

theorem norm_zero {v : V3} (h : v.norm = 0) : v = ⟨0, 0, 0⟩ := by
  have h1 := norm_sq v
  rw [h] at h1
  have hx : v.x ^ 2 = 0 := by nlinarith [sq_nonneg v.x, sq_nonneg v.y, sq_nonneg v.z]
  have hy : v.y ^ 2 = 0 := by nlinarith [sq_nonneg v.x, sq_nonneg v.y, sq_nonneg v.z]
  have hz : v.z ^ 2 = 0 := by nlinarith [sq_nonneg v.x, sq_nonneg v.y, sq_nonneg v.z]
  ext
  · exact pow_eq_zero_iff (two_ne_zero) |>.1 hx
  · exact pow_eq_zero_iff (two_ne_zero) |>.1 hy
  · exact pow_eq_zero_iff (two_ne_zero) |>.1 hz

/-- For a gravity vector that does not vanish, the rotation found makes gravity vertical. -/
theorem aligns {P : Params} (hF : TwoVectors P.fromTwoVectors) {q : Quat} (hu : q.Unit) {g : V3} (hg : g.norm ≠ 0) :
    let o := (q.mul (P.fromTwoVectors g (q.conjugate.rotate unitZ))).normalized
    o.Unit ∧ g = smul g.norm (o.conjugate.rotate unitZ) ∧ o.rotate g = smul g.norm unitZ := by
  intro o
  have hb : (q.conjugate.rotate unitZ).norm = 1 := by rw [norm_rotate (unit_conjugate hu), unitZ_norm]
  have hr := hF.unit g _ hg hb
  have hm := hF.maps g _ hg hb
  have ho : o = q.mul (P.fromTwoVectors g (q.conjugate.rotate unitZ)) := normalized_unit (unit_mul hu hr)
  have hou : o.Unit := by rw [ho]; exact unit_mul hu hr
  have h3 : o.rotate g = smul g.norm unitZ := by
    rw [ho, rotate_mul hu hr, hm, rotate_smul, rotate_conjugate hu]
  refine ⟨hou, ?_, h3⟩
  rw [← rotate_smul, ← h3, conjugate_rotate hou]

theorem observe_ok {P : Params} (hF : TwoVectors P.fromTwoVectors) {tr tr' : Tracker} {a : V3} (hu : tr.orientation.Unit)
    (h : observe P tr a = .ok tr') :
    tr'.time = tr.time ∧ tr'.orientation.Unit ∧ Aligned tr' ∧ tr'.lastAcceleration = some tr.time ∧
      tr'.gravity = newGravity P tr a ∧ (newGravity P tr a).norm ≠ 0 := by
  unfold observe at h
  simp only at h
  split at h
  · rename_i hc
    injection h with h
    subst h
    have hg : (newGravity P tr a).norm ≠ 0 := by
      intro h0
      have h1 := hc.1
      rw [norm_zero h0] at h1
      simp [Quat.rotate, cross] at h1
    obtain ⟨h1, h2, -⟩ := aligns hF hu hg
    exact ⟨rfl, h1, ⟨_, lt_of_le_of_ne (norm_nonneg' _) (Ne.symm hg), h2⟩, rfl, rfl, hg⟩
  · cases h

/-- The two `CHECK`s fail exactly if the gravity vector vanishes. -/
theorem observe_error_iff {P : Params} (hF : TwoVectors P.fromTwoVectors) {tr : Tracker} {a : V3}
    (hu : tr.orientation.Unit) :
    (observe P tr a = .error .gravity ↔ newGravity P tr a = ⟨0, 0, 0⟩) ∧
      ∀ e, observe P tr a = .error e → e = .gravity := by
  constructor
  · constructor
    · intro h
      by_contra h0
      have hg : (newGravity P tr a).norm ≠ 0 := fun h => h0 (norm_zero h)
      have hpos : 0 < (newGravity P tr a).norm := lt_of_le_of_ne (norm_nonneg' _) (Ne.symm hg)
      obtain ⟨-, -, h3⟩ := aligns hF hu hg
      unfold observe at h
      simp only at h
      rw [h3, if_pos] at h
      · cases h
      · have hn : (smul (newGravity P tr a).norm unitZ).norm = (newGravity P tr a).norm := by
          rw [norm_smul hpos.le, unitZ_norm, mul_one]
        have hz : (smul (newGravity P tr a).norm unitZ).z = (newGravity P tr a).norm := by simp [smul, unitZ]
        refine ⟨by rw [hz]; exact hpos, ?_⟩
        unfold normalizedZ
        rw [hn, hz, if_pos hpos, div_self hg]
        norm_num
    · intro h
      unfold observe
      simp [h, Quat.rotate, cross]
  · intro e h
    unfold observe at h
    simp only at h
    split at h
    · cases h
    · injection h with h
      exact h.symm

/-- An observation at the time of the previous one changes nothing. -/
theorem observe_again {P : Params} (hF : TwoVectors P.fromTwoVectors) {tr : Tracker} {a : V3}
    (hu : tr.orientation.Unit) (ha : Aligned tr) (hl : tr.lastAcceleration = some tr.time) :
    observe P tr a = .ok tr := by
  obtain ⟨c, hc, hg⟩ := ha
  have hb : (tr.orientation.conjugate.rotate unitZ).norm = 1 := by rw [norm_rotate (unit_conjugate hu), unitZ_norm]
  have h0 : alpha P tr = 0 := by simp [alpha, hl, toSeconds_zero]
  have h1 : newGravity P tr a = tr.gravity := by
    simp [newGravity, h0, vadd, smul]
  have h2 : P.fromTwoVectors tr.gravity (tr.orientation.conjugate.rotate unitZ) = ⟨1, 0, 0, 0⟩ := by
    rw [hg]; exact hF.same _ c hc hb
  cases hres : observe P tr a with
  | error e =>
    have he := (observe_error_iff hF hu).2 e hres
    subst he
    have := (observe_error_iff hF hu).1.1 hres
    rw [h1] at this
    have hn : tr.gravity.norm = c := by rw [hg, norm_smul hc.le, hb, mul_one]
    rw [this] at hn
    simp [V3.norm] at hn
    exact absurd hn.symm hc.ne'
  | ok tr' =>
    unfold observe at hres
    simp only [h1, h2, quat_mul_one, normalized_unit hu] at hres
    split at hres
    · injection hres with hres
      rw [← hres]
      congr
      exact hl.symm
    · cases hres

/-! ### Following the IMU data -/

/-- Data sorted by time. -/
def Ordered (l : List Imu) : Prop := l.Pairwise fun a b => a.time ≤ b.time

theorem follow_ok {P : Params} (hF : TwoVectors P.fromTwoVectors) {t : Int} : ∀ {l : List Imu} {tr tr' : Tracker},
    tr.orientation.Unit → follow P t l tr = .ok tr' → tr'.orientation.Unit ∧ tr'.time = t := by
  intro l
  induction l with
  | nil =>
    intro tr tr' hu h
    obtain ⟨-, h1, h2, -⟩ := advance_ok h hu
    exact ⟨h2, h1⟩
  | cons d l ih =>
    intro tr tr' hu h
    rw [follow] at h
    split at h
    · simp only [bind_ok] at h
      obtain ⟨tr1, h1, tr2, h2, h3⟩ := h
      have := advance_ok h1 hu
      have h4 := observe_ok hF this.2.2.1 h2
      exact ih (tr := { tr2 with angularVelocity := d.angularVelocity }) h4.2.1 h3
    · obtain ⟨-, h1, h2, -⟩ := advance_ok h hu
      exact ⟨h2, h1⟩

theorem follow_error {P : Params} (hF : TwoVectors P.fromTwoVectors) {t : Int} {e : Abort} :
    ∀ {l : List Imu} {tr : Tracker}, tr.orientation.Unit → tr.time ≤ t → Ordered l → (∀ d ∈ l, tr.time ≤ d.time) →
    follow P t l tr = .error e → e = .gravity := by
  intro l
  induction l with
  | nil =>
    intro tr hu ht _ _ h
    have := advance_error h
    omega
  | cons d l ih =>
    intro tr hu ht ho hl h
    rw [follow] at h
    split at h
    · rename_i hlt
      simp only [bind_error] at h
      obtain h1 | ⟨tr1, h1, h2 | ⟨tr2, h2, h3⟩⟩ := h
      · have := advance_error h1
        have := hl d (by simp)
        omega
      · exact (observe_error_iff hF (advance_ok h1 hu).2.2.1).2 e h2
      · have ha := advance_ok h1 hu
        have hb := observe_ok hF ha.2.2.1 h2
        have ho' := List.pairwise_cons.1 ho
        refine ih (tr := { tr2 with angularVelocity := d.angularVelocity }) hb.2.1 ?_ ho'.2 ?_ h3
        · show tr2.time ≤ t
          rw [hb.1, ha.2.1]; omega
        · intro x hx
          show tr2.time ≤ x.time
          rw [hb.1, ha.2.1]; exact ho'.1 x hx
    · have := advance_error h
      omega

theorem advanceToFront_ok {d : Imu} {tr tr' : Tracker} (hu : tr.orientation.Unit) (h : advanceToFront d tr = .ok tr') :
    tr'.orientation.Unit ∧ tr'.time = max tr.time d.time := by
  unfold advanceToFront at h
  split at h
  · have := advance_ok h hu
    exact ⟨this.2.2.1, by omega⟩
  · injection h with h
    subst h
    exact ⟨hu, by omega⟩

theorem advanceToFront_error {d : Imu} {tr : Tracker} {e : Abort} : advanceToFront d tr ≠ .error e := by
  intro h
  unfold advanceToFront at h
  split at h
  · have := advance_error h
    omega
  · cases h

theorem withoutImu_ok {P : Params} (hF : TwoVectors P.fromTwoVectors) {s : State} {t : Int} {tr tr' : Tracker}
    (hu : tr.orientation.Unit) (h : advanceWithoutImu P s t tr = .ok tr') :
    tr'.orientation.Unit ∧ tr'.time = t ∧ Aligned tr' ∧ tr'.lastAcceleration = some t ∧
      tr'.angularVelocity = fakeAngularVelocity s := by
  simp only [advanceWithoutImu, bind_ok] at h
  obtain ⟨tr1, h1, tr2, h2, h3⟩ := h
  injection h3 with h3
  subst h3
  have ha := advance_ok h1 hu
  have hb := observe_ok hF ha.2.2.1 h2
  refine ⟨hb.2.1, by rw [← ha.2.1]; exact hb.1, hb.2.2.1, ?_, rfl⟩
  rw [← ha.2.1]; exact hb.2.2.2.1

theorem withoutImu_error {P : Params} (hF : TwoVectors P.fromTwoVectors) {s : State} {t : Int} {tr : Tracker} {e : Abort}
    (hu : tr.orientation.Unit) (ht : tr.time ≤ t) (h : advanceWithoutImu P s t tr = .error e) : e = .gravity := by
  simp only [advanceWithoutImu, bind_error] at h
  obtain h1 | ⟨tr1, h1, h2 | ⟨tr2, h2, h3⟩⟩ := h
  · have := advance_error h1
    omega
  · exact (observe_error_iff hF (advance_ok h1 hu).2.2.1).2 e h2
  · cases h3

theorem dropWhile_ordered {l : List Imu} (p : Imu → Bool) (h : Ordered l) : Ordered (l.dropWhile p) :=
  List.Pairwise.sublist (List.dropWhile_sublist p) h

theorem dropWhile_ge {l : List Imu} {t : Int} (h : Ordered l) :
    ∀ d ∈ l.dropWhile (fun d => decide (d.time < t)), t ≤ d.time := by
  induction l with
  | nil => simp
  | cons a l ih =>
    have h' := List.pairwise_cons.1 h
    rw [List.dropWhile_cons]
    split
    · exact ih h'.2
    · rename_i hn
      simp at hn
      intro d hd
      rcases List.mem_cons.1 hd with rfl | hd
      · exact hn
      · exact le_trans hn (h'.1 d hd)

theorem advanceImu_ok {P : Params} (hF : TwoVectors P.fromTwoVectors) {s : State} {t : Int} {tr tr' : Tracker}
    (hu : tr.orientation.Unit) (h : advanceImuTracker P s t tr = .ok tr') : tr'.orientation.Unit ∧ tr'.time = t := by
  unfold advanceImuTracker at h
  split at h
  · split at h
    · have := withoutImu_ok hF hu h
      exact ⟨this.1, this.2.1⟩
    · split at h
      · have := withoutImu_ok hF hu h
        exact ⟨this.1, this.2.1⟩
      · simp only [bind_ok] at h
        obtain ⟨tr1, h1, h2⟩ := h
        exact follow_ok hF (advanceToFront_ok hu h1).1 h2
  · cases h

/-- For sorted data and a time that is not before the one of the tracker, only the gravity `CHECK`s can fail. -/
theorem advanceImu_error {P : Params} (hF : TwoVectors P.fromTwoVectors) {s : State} {t : Int} {tr : Tracker} {e : Abort}
    (hu : tr.orientation.Unit) (ho : Ordered s.imu) (ht : tr.time ≤ t) (h : advanceImuTracker P s t tr = .error e) :
    e = .gravity := by
  unfold advanceImuTracker at h
  rw [if_pos ht] at h
  split at h
  · exact withoutImu_error hF hu ht h
  · rename_i front l hi
    split at h
    · exact withoutImu_error hF hu ht h
    · rename_i hf
      simp only [bind_error] at h
      obtain h1 | ⟨tr1, h1, h2⟩ := h
      · exact absurd h1 advanceToFront_error
      · have ha := advanceToFront_ok hu h1
        rw [hi] at ho
        exact follow_error hF ha.1 (by omega) (dropWhile_ordered _ ho) (dropWhile_ge ho) h2

/-! ### Twice the same time -/

theorem trimImu_ordered {t : Int} : ∀ {l : List Imu}, Ordered l → Ordered (trimImu t l)
  | [], h => h
  | [_], h => h
  | a :: b :: l, h => by
    rw [trimImu]
    split
    · exact trimImu_ordered (List.pairwise_cons.1 h).2
    · exact h

theorem trimImu_subset {t : Int} : ∀ {l : List Imu}, ∀ d ∈ trimImu t l, d ∈ l
  | [], d, h => h
  | [_], d, h => h
  | a :: b :: l, d, h => by
    rw [trimImu] at h
    split at h
    · exact List.mem_cons_of_mem _ (trimImu_subset d h)
    · exact h

/-- There is no IMU data until the given time. -/
def NoImu (t : Int) (l : List Imu) : Prop := ∀ d ∈ l.head?, t < d.time

theorem trimImu_noImu {t : Int} : ∀ {l : List Imu}, Ordered l → (NoImu t (trimImu t l) ↔ NoImu t l)
  | [], _ => Iff.rfl
  | [_], _ => Iff.rfl
  | a :: b :: l, h => by
    rw [trimImu]
    split
    · rename_i hb
      rw [trimImu_noImu (List.pairwise_cons.1 h).2]
      have := (List.pairwise_cons.1 h).1 b (by simp)
      simp only [NoImu, List.head?_cons, Option.mem_def, Option.some.injEq, forall_eq']
      omega
    · exact Iff.rfl

theorem advanceImu_cases {P : Params} {s : State} {t : Int} {tr : Tracker} :
    advanceImuTracker P s t tr = if tr.time ≤ t then
      (open Classical in if NoImu t s.imu then advanceWithoutImu P s t tr
      else match s.imu with
        | [] => .error .ub
        | front :: l => do
          let tr ← advanceToFront front tr
          follow P t ((front :: l).dropWhile (fun d => decide (d.time < tr.time))) tr)
      else .error .time := by
  unfold advanceImuTracker
  cases hi : s.imu with
  | nil => simp [NoImu]
  | cons a l => simp [NoImu]

/-- After the tracker was advanced to a time, advancing it to the same time again changes nothing, also if IMU data up to
that time was removed in between. -/
theorem advanceImu_again {P : Params} (hF : TwoVectors P.fromTwoVectors) {s s' : State} {t : Int} {tr tr' : Tracker}
    (hu : tr.orientation.Unit) (h : advanceImuTracker P s t tr = .ok tr') (hN : NoImu t s'.imu ↔ NoImu t s.imu) :
    ∃ tr2, advanceImuTracker P s' t tr' = .ok tr2 ∧ tr2.orientation = tr'.orientation := by
  have hok := advanceImu_ok hF hu h
  have hself : advance tr' t = .ok tr' := by rw [← hok.2]; exact advance_self hok.1
  rw [advanceImu_cases] at h
  split at h
  · split at h
    · rename_i hle hno
      have hw := withoutImu_ok hF hu h
      refine ⟨{ tr' with angularVelocity := fakeAngularVelocity s' }, ?_, rfl⟩
      rw [advanceImu_cases, if_pos hok.2.le, if_pos (hN.2 hno)]
      simp only [advanceWithoutImu, bind_ok]
      refine ⟨tr', hself, tr', ?_, rfl⟩
      exact observe_again hF hw.1 hw.2.2.1 (by rw [hw.2.2.2.1, hok.2])
    · rename_i hle hno
      refine ⟨tr', ?_, rfl⟩
      have hno' : ¬ NoImu t s'.imu := fun h => hno (hN.1 h)
      rw [advanceImu_cases, if_pos hok.2.le, if_neg hno']
      cases hi : s'.imu with
      | nil => simp [NoImu, hi] at hno'
      | cons a l =>
        have ha : a.time ≤ t := by simpa [NoImu, hi] using hno'
        simp only [bind_ok]
        refine ⟨tr', ?_, ?_⟩
        · unfold advanceToFront
          rw [if_neg (by omega)]
        · cases hd : (a :: l).dropWhile (fun d => decide (d.time < tr'.time)) with
          | nil => exact hself
          | cons b l' =>
            have hb : ¬ b.time < tr'.time := by
              have := List.head_dropWhile_not (fun d : Imu => decide (d.time < tr'.time)) (l := a :: l) (by rw [hd]; simp)
              simpa [hd] using this
            rw [follow, if_neg (by omega)]
            exact hself
  · cases h

end Verif.Extrapolator
